import Verif.Wallet.Names

/-!
# C101: wallets and their names

A wallet is there, with its seed, until somebody who knows its password deletes it; creating and deleting other wallets
does not touch it; and the name and password it was created with open it.
-/
namespace Verif.Props
open Verif.Wallet.Names

variable {E : Type}

/-- Spec: a name that is one component of a path. -/
def PlainName (n : Bytes) : Prop := n ≠ [] ∧ (47 : UInt8) ∉ n ∧ n ≠ [46] ∧ n ≠ [46, 46]

/-- The name a call uses. -/
def callName : Call → Option Bytes
  | .create raw _ _ => some (toLower (trim raw))
  | .login raw _ => some (toLower raw)
  | .logout _ => none
  | .delete raw _ => some (toLower raw)
  | .changePassword _ _ _ => none

/-- Spec: every name used is one component of a path. -/
def PlainCalls (cs : List Call) : Prop := ∀ c ∈ cs, ∀ n, callName c = some n → PlainName n

/-- Spec: the wallet directory exists, and everything lies in an existing directory. -/
def SaneStore (W : Path) (fs : FS E) : Prop :=
  W ∈ fs.dirs ∧ (∀ d ∈ fs.dirs, d.dropLast ∈ fs.dirs) ∧ ∀ e ∈ fs.files, e.1.dropLast ∈ fs.dirs

/-- Spec: the wallet of the name is in its directory: encrypted seed and database. -/
def HasWallet (W : Path) (n : Bytes) (e : E) (fs : FS E) : Prop :=
  W ++ [n] ∈ fs.dirs ∧ fileAt fs (W ++ [n, seedJson]) = some (.seed e) ∧ fileAt fs (W ++ [n, walletDb]) = some .db

/-! ## Paths -/

private theorem comps_plain : ∀ n : Bytes, (47 : UInt8) ∉ n → comps n = [n]
  | [], _ => rfl
  | c :: s, h => by
    have h1 : c ≠ 47 := fun e => h (by simp [e])
    have h2 := comps_plain s (fun e => h (by simp [e]))
    simp [comps, h1, h2]

private theorem base_plain (W : Path) (n : Bytes) (h : (47 : UInt8) ∉ n) : base W n = W := by
  cases n with
  | nil => rfl
  | cons c s =>
    have h1 : c ≠ 47 := fun e => h (by simp [e])
    simp [base, h1]

private theorem walk_one (fs : FS E) (W : Path) (n : Bytes) (hW : W ∈ fs.dirs) (h : PlainName n) :
    walk fs W [n] = some (W ++ [n]) := by
  have h2 : ¬ (n = [] ∨ n = dot) := by
    rintro (e | e)
    · exact h.1 e
    · exact h.2.2.1 e
  have h3 : n ≠ dotdot := h.2.2.2
  simp [walk, hW, h2, h3]

private theorem walk_two (fs : FS E) (W : Path) (n f : Bytes) (hW : W ∈ fs.dirs) (h : PlainName n) (hf : PlainName f) :
    walk fs W [n, f] = if W ++ [n] ∈ fs.dirs then some (W ++ [n, f]) else none := by
  have h2 : ¬ (n = [] ∨ n = dot) := by
    rintro (e | e)
    · exact h.1 e
    · exact h.2.2.1 e
  have h3 : n ≠ dotdot := h.2.2.2
  have h4 : ¬ (f = [] ∨ f = dot) := by
    rintro (e | e)
    · exact hf.1 e
    · exact hf.2.2.1 e
  have h5 : f ≠ dotdot := hf.2.2.2
  by_cases hd : W ++ [n] ∈ fs.dirs <;> simp [walk, hW, h2, h3, h4, h5, hd]

private theorem plain_seed : PlainName seedJson := by unfold PlainName; decide
private theorem plain_db : PlainName walletDb := by unfold PlainName; decide

private theorem walletFile_plain (fs : FS E) (W : Path) (n f : Bytes) (hW : W ∈ fs.dirs) (h : PlainName n)
    (hf : PlainName f) : walletFile fs W n f = if W ++ [n] ∈ fs.dirs then fileAt fs (W ++ [n, f]) else none := by
  simp only [walletFile, base_plain W n h.2.1, comps_plain n h.2.1, List.singleton_append, walk_two fs W n f hW h hf]
  by_cases hd : W ++ [n] ∈ fs.dirs <;> simp [hd]

private theorem sane_no_file {W : Path} {fs : FS E} (h : SaneStore W fs) (p : Path) (hp : p.dropLast ∉ fs.dirs) :
    fileAt fs p = none := by
  simp only [fileAt, Option.map_eq_none_iff, List.find?_eq_none]
  intro e he
  have := h.2.2 e he
  intro hpe
  simp only [decide_eq_true_eq] at hpe
  rw [hpe] at this
  exact hp this

private theorem drop_two (W : Path) (n f : Bytes) : (W ++ [n, f]).dropLast = W ++ [n] := by
  have : W ++ [n, f] = (W ++ [n]) ++ [f] := by simp
  rw [this, List.dropLast_concat]

private theorem file_put_same (fs : FS E) (p : Path) (c : Content E) : fileAt (putFile fs p c) p = some c := by
  simp [fileAt, putFile]

private theorem file_put_ne (fs : FS E) (p q : Path) (c : Content E) (h : p ≠ q) :
    fileAt (putFile fs p c) q = fileAt fs q := by
  simp only [fileAt, putFile, List.find?_cons]
  have h0 : decide (p = q) = false := by simp [h]
  simp only [h0]
  congr 1
  induction fs.files with
  | nil => rfl
  | cons e t ih =>
    by_cases he : e.1 = p
    · have : e.1 ≠ q := by rw [he]; exact h
      have hf : (e :: t).filter (fun e => e.1 ≠ p) = t.filter (fun e => e.1 ≠ p) := by simp [he]
      rw [hf, ih, List.find?_cons]
      simp [this]
    · simp only [List.filter_cons, ne_eq, he, not_false_iff, decide_true, if_true, List.find?_cons]
      by_cases hq : e.1 = q
      · simp [hq]
      · simp only [hq, decide_false]; exact ih

/-! ## Creating -/

/-- What `CreateWallet` does with a plain name: nothing and an exception, or a new directory with the two files. -/
private theorem create_plain {W : Path} {s : Wallets E} (hs : SaneStore W s.fs) (n : Bytes) (hn : PlainName n) (e : E) :
    (createWallet W n e s = (s, .throw) ∧ (W ++ [n] ∈ s.fs.dirs ∨ (fileAt s.fs (W ++ [n])).isSome)) ∨
    (W ++ [n] ∉ s.fs.dirs ∧ createWallet W n e s =
      (⟨putFile (putFile { s.fs with dirs := (W ++ [n]) :: s.fs.dirs } (W ++ [n, seedJson]) (.seed e))
          (W ++ [n, walletDb]) .db, if n ∈ s.opened then s.opened else n :: s.opened⟩, .ok ())) := by
  have hW := hs.1
  have h2 : ¬ (n = [] ∨ n = dot) := by
    rintro (e | e)
    · exact hn.1 e
    · exact hn.2.2.1 e
  have h3 : n ≠ dotdot := hn.2.2.2
  by_cases hd : W ++ [n] ∈ s.fs.dirs
  · left
    refine ⟨?_, .inl hd⟩
    simp only [createWallet, base_plain W n hn.2.1, comps_plain n hn.2.1, createDirectories, walk_one s.fs W n hW hn]
    by_cases he : existsAt s.fs W ([n] ++ [seedJson]) = true
    · simp only [he, if_true]
    · simp only [he, hd, if_true]; rfl
  · have he : existsAt s.fs W [n, seedJson] = false := by
      simp [existsAt, walk_two s.fs W n seedJson hW hn plain_seed, hd]
    by_cases hf : (fileAt s.fs (W ++ [n])).isSome = true
    · left
      refine ⟨?_, .inr hf⟩
      simp only [createWallet, base_plain W n hn.2.1, comps_plain n hn.2.1, createDirectories, walk_one s.fs W n hW hn,
        List.singleton_append, he, mkdirs, h2, h3, hd, hf]
      simp
    · right
      refine ⟨hd, ?_⟩
      have hmk : createDirectories s.fs W [n] = ({ s.fs with dirs := (W ++ [n]) :: s.fs.dirs }, true) := by
        simp [createDirectories, walk_one s.fs W n hW hn, mkdirs, h2, h3, hd, hf]
      have hW1 : W ∈ ({ s.fs with dirs := (W ++ [n]) :: s.fs.dirs } : FS E).dirs := by simp [hW]
      have hdbdir : W ++ [n, walletDb] ∉ (W ++ [n]) :: s.fs.dirs := by
        intro hm
        rcases List.mem_cons.mp hm with hm | hm
        · have := congrArg List.length hm
          simp at this
        · have := hs.2.1 _ hm
          rw [drop_two] at this
          exact hd this
      have hne : W ++ [n, seedJson] ≠ W ++ [n, walletDb] := by
        intro h
        have := List.append_cancel_left h
        simp [seedJson, walletDb] at this
      have he2 : existsAt (putFile { s.fs with dirs := (W ++ [n]) :: s.fs.dirs } (W ++ [n, seedJson]) (.seed e)) W
          [n, walletDb] = false := by
        have hw : walk (putFile { s.fs with dirs := (W ++ [n]) :: s.fs.dirs } (W ++ [n, seedJson]) (.seed e)) W
            [n, walletDb] = some (W ++ [n, walletDb]) := by
          rw [walk_two _ W n walletDb (by simp [putFile, hW]) hn plain_db, if_pos (by simp [putFile])]
        have hfile : fileAt (putFile { s.fs with dirs := (W ++ [n]) :: s.fs.dirs } (W ++ [n, seedJson]) (.seed e))
            (W ++ [n, walletDb]) = none := by
          rw [file_put_ne _ _ _ _ hne]
          exact sane_no_file hs (W ++ [n, walletDb]) (by rw [drop_two]; exact hd)
        simp only [existsAt, hw, hfile]
        simp only [putFile, hdbdir, decide_false, Bool.false_or]
        rfl
      have hap : ∀ f : Bytes, W ++ [n] ++ [f] = W ++ [n, f] := by intro f; simp
      simp only [createWallet, base_plain W n hn.2.1, comps_plain n hn.2.1, List.singleton_append, he, hmk,
        walk_one _ W n hW1 hn, hap, he2]
      simp

private theorem sane_create {W : Path} {fs : FS E} (hs : SaneStore W fs) (n : Bytes) (a b : Content E) :
    SaneStore W (putFile (putFile { fs with dirs := (W ++ [n]) :: fs.dirs } (W ++ [n, seedJson]) a)
          (W ++ [n, walletDb]) b) := by
  refine ⟨by simp [putFile, hs.1], ?_, ?_⟩
  · intro d hd
    simp only [putFile, List.mem_cons] at hd ⊢
    rcases hd with rfl | hd
    · right; rw [List.dropLast_concat]; exact hs.1
    · right; exact hs.2.1 d hd
  · intro e he
    simp only [putFile, List.mem_cons, List.mem_filter, ne_eq, decide_not] at he ⊢
    rcases he with rfl | ⟨he, _⟩
    · left; exact drop_two W n walletDb
    · rcases he with rfl | ⟨he, _⟩
      · left; exact drop_two W n seedJson
      · right; exact hs.2.2 e he

/-- **C101, creating overwrites nothing.** Creating a wallet with a plain name, successfully or not, leaves every
directory and every file in place with its contents.  Partial: names with separators (`name_with_separator_violated`). -/
theorem create_overwrites_nothing_partial (V : Vault E) (W : Path) (s : Wallets E) (hs : SaneStore W s.fs) (raw pw seed : Bytes)
    (hn : PlainName (toLower (trim raw))) :
    (∀ d ∈ s.fs.dirs, d ∈ (rpcCreate V W raw pw seed s).1.fs.dirs) ∧
    (∀ p c, fileAt s.fs p = some c → fileAt (rpcCreate V W raw pw seed s).1.fs p = some c) := by
  simp only [rpcCreate]
  split
  · exact ⟨fun _ h => h, fun _ _ h => h⟩
  · split
    · exact ⟨fun _ h => h, fun _ _ h => h⟩
    · rcases create_plain hs _ hn (V.enc seed pw) with ⟨h, _⟩ | ⟨hd, h⟩
      · rw [h]; exact ⟨fun _ h => h, fun _ _ h => h⟩
      · rw [h]
        refine ⟨fun d hd => by simp [putFile, hd], ?_⟩
        intro p c hp
        have hne : ∀ f, W ++ [toLower (trim raw), f] ≠ p := by
          intro f e
          rw [← e, sane_no_file hs _ (by rw [drop_two]; exact hd)] at hp
          cases hp
        dsimp only
        rw [file_put_ne _ _ _ _ (hne walletDb), file_put_ne _ _ _ _ (hne seedJson)]
        exact hp

/-! ## Deleting -/

/-- **C101, deleting needs the password.** For every name: a wallet is deleted only if the password decrypts its seed and
it is not open; a call that fails changes nothing. -/
theorem delete_needs_password (V : Vault E) (W : Path) (s : Wallets E) (raw pw : Bytes) :
    ((rpcDelete V W raw pw s).2 = .ok () →
      (∃ e seed, walletFile s.fs W (toLower raw) seedJson = some (.seed e) ∧ V.dec e pw = some seed) ∧
      toLower raw ∉ s.opened) ∧
    ((rpcDelete V W raw pw s).2 ≠ .ok () → (rpcDelete V W raw pw s).1 = s) := by
  have hauth : ∀ x, authenticate V W (toLower raw) pw s = .ok x →
      ∃ e seed, walletFile s.fs W (toLower raw) seedJson = some (.seed e) ∧ V.dec e pw = some seed := by
    intro x h
    simp only [authenticate] at h
    split at h
    · split at h
      · cases h
      · exact ⟨_, _, by assumption, by assumption⟩
    · cases h
  simp only [rpcDelete]
  cases ha : authenticate V W (toLower raw) pw s with
  | ok x =>
    dsimp only
    split
    · exact ⟨by simp, fun _ => rfl⟩
    · rename_i ho
      split
      · exact ⟨by simp, fun _ => rfl⟩
      · split
        · exact ⟨fun _ => ⟨hauth x ha, ho⟩, fun h => absurd rfl h⟩
        · exact ⟨by simp, fun _ => rfl⟩
  | throw => exact ⟨by simp, fun _ => rfl⟩
  | ub => exact ⟨by simp, fun _ => rfl⟩

/-- What deleting does with a plain name. -/
private theorem delete_plain (V : Vault E) {W : Path} {s : Wallets E} (hW : W ∈ s.fs.dirs) (raw pw : Bytes)
    (hn : PlainName (toLower raw)) :
    rpcDelete V W raw pw s = (s, (rpcDelete V W raw pw s).2) ∨
    rpcDelete V W raw pw s = ({ s with fs := removeAll s.fs (W ++ [toLower raw]) }, .ok ()) := by
  simp only [rpcDelete]
  cases ha : authenticate V W (toLower raw) pw s with
  | ok x =>
    dsimp only
    rw [base_plain W _ hn.2.1, comps_plain _ hn.2.1, walk_one s.fs W _ hW hn]
    dsimp only
    split
    · left; rfl
    · split
      · right; rfl
      · left; rfl
  | throw => left; rfl
  | ub => left; rfl

private theorem prefix_one {W : Path} {n : Bytes} {p : Path} :
    (W ++ [n]).isPrefixOf p = true ↔ ∃ t, p = W ++ n :: t := by
  rw [List.isPrefixOf_iff_prefix]
  constructor
  · rintro ⟨t, rfl⟩; exact ⟨t, by simp⟩
  · rintro ⟨t, rfl⟩; exact ⟨t, by simp⟩

private theorem file_remove (fs : FS E) (q p : Path) (h : q.isPrefixOf p = false) :
    fileAt (removeAll fs q) p = fileAt fs p := by
  simp only [fileAt, removeAll]
  congr 1
  induction fs.files with
  | nil => rfl
  | cons e t ih =>
    by_cases he : q.isPrefixOf e.1 = true
    · have : e.1 ≠ p := by intro hp; rw [hp, h] at he; cases he
      simp only [List.filter_cons, he, not_true, decide_false, Bool.false_eq_true, if_false, List.find?_cons, this]
      exact ih
    · have hf : (e :: t).filter (fun e => ¬ q.isPrefixOf e.1) = e :: t.filter (fun e => ¬ q.isPrefixOf e.1) :=
        List.filter_cons_of_pos (by rw [decide_eq_true_eq]; exact he)
      rw [hf]
      simp only [List.find?_cons]
      by_cases hp : e.1 = p
      · simp [hp]
      · simp only [hp, decide_false]; exact ih

private theorem sane_remove {W : Path} {fs : FS E} (hs : SaneStore W fs) (n : Bytes) :
    SaneStore W (removeAll fs (W ++ [n])) := by
  have key : ∀ p : Path, (W ++ [n]).isPrefixOf p = false → (W ++ [n]).isPrefixOf p.dropLast = false := by
    intro p hp
    cases hq : (W ++ [n]).isPrefixOf p.dropLast with
    | false => rfl
    | true =>
      rw [List.isPrefixOf_iff_prefix] at hq
      have := hq.trans (List.dropLast_prefix p)
      rw [← List.isPrefixOf_iff_prefix, hp] at this
      cases this
  refine ⟨?_, ?_, ?_⟩
  · simp only [removeAll, List.mem_filter]
    refine ⟨hs.1, ?_⟩
    simp only [decide_eq_true_eq]
    intro h
    obtain ⟨t, e⟩ := prefix_one.mp h
    have := congrArg List.length e
    simp at this
  · intro d hd
    simp only [removeAll, List.mem_filter, decide_eq_true_eq, Bool.not_eq_true] at hd ⊢
    exact ⟨hs.2.1 d hd.1, key d hd.2⟩
  · intro e he
    simp only [removeAll, List.mem_filter, decide_eq_true_eq, Bool.not_eq_true] at he ⊢
    exact ⟨hs.2.2 e he.1, key e.1 he.2⟩

/-- **C101, deleting one wallet leaves the others.** With a plain name, whatever the outcome, every file that is not below
that wallet's directory keeps its contents, and no other directory goes.  Partial: names with separators
(`nested_wallet_deleted_violated`, `name_with_separator_violated`). -/
theorem delete_leaves_others_partial (V : Vault E) (W : Path) (s : Wallets E) (hs : SaneStore W s.fs) (raw pw : Bytes)
    (hn : PlainName (toLower raw)) :
    (∀ d ∈ s.fs.dirs, (∀ t, d ≠ W ++ toLower raw :: t) → d ∈ (rpcDelete V W raw pw s).1.fs.dirs) ∧
    (∀ p, (∀ t, p ≠ W ++ toLower raw :: t) → fileAt (rpcDelete V W raw pw s).1.fs p = fileAt s.fs p) := by
  have key : ∀ p : Path, (∀ t, p ≠ W ++ toLower raw :: t) → (W ++ [toLower raw]).isPrefixOf p = false := by
    intro p hp
    cases hq : (W ++ [toLower raw]).isPrefixOf p with
    | false => rfl
    | true => obtain ⟨t, e⟩ := prefix_one.mp hq; exact absurd e (hp t)
  rcases delete_plain V hs.1 raw pw hn with h | h
  · rw [h]; exact ⟨fun _ h _ => h, fun _ _ => rfl⟩
  · rw [h]
    refine ⟨?_, ?_⟩
    · intro d hd hp
      simp only [removeAll, List.mem_filter, decide_eq_true_eq, Bool.not_eq_true]
      exact ⟨hd, key d hp⟩
    · intro p hp
      exact file_remove _ _ _ (key p hp)

/-! ## Histories -/

private theorem step_keeps (V : Vault E) {W : Path} {s : Wallets E} (hs : SaneStore W s.fs) (c : Call)
    (hc : ∀ n, callName c = some n → PlainName n) :
    SaneStore W (stepWallets V W s c).fs ∧ ∀ b e, PlainName b → HasWallet W b e s.fs →
      HasWallet W b e (stepWallets V W s c).fs ∨
      ∃ raw pw seed, c = .delete raw pw ∧ toLower raw = b ∧ V.dec e pw = some seed := by
  cases c with
  | create raw pw seed =>
    have hn := hc _ rfl
    refine ⟨?_, ?_⟩
    · simp only [stepWallets, rpcCreate]
      split
      · exact hs
      · split
        · exact hs
        · rcases create_plain hs _ hn (V.enc seed pw) with ⟨h, _⟩ | ⟨_, h⟩
          · rw [h]; exact hs
          · rw [h]; exact sane_create hs _ _ _
    · intro b e _ hb
      obtain ⟨h1, h2⟩ := create_overwrites_nothing_partial V W s hs raw pw seed hn
      exact .inl ⟨h1 _ hb.1, h2 _ _ hb.2.1, h2 _ _ hb.2.2⟩
  | login raw pw =>
    have e : (stepWallets V W s (.login raw pw)).fs = s.fs := by
      simp only [stepWallets, rpcLogin]
      split
      · split
        · split
          · rfl
          · split <;> rfl
        · rfl
        · rfl
      · rfl
    rw [e]
    exact ⟨hs, fun _ _ _ h => .inl h⟩
  | logout name => exact ⟨hs, fun _ _ _ h => .inl h⟩
  | changePassword raw old new => exact ⟨hs, fun _ _ _ h => .inl h⟩
  | delete raw pw =>
    have hn := hc _ rfl
    refine ⟨?_, ?_⟩
    · simp only [stepWallets]
      rcases delete_plain V hs.1 raw pw hn with h | h
      · rw [h]; exact hs
      · rw [h]; exact sane_remove hs _
    · intro b e hbn hb
      by_cases heq : toLower raw = b
      · by_cases hok : (rpcDelete V W raw pw s).2 = .ok ()
        · obtain ⟨⟨e', seed, hf, hd⟩, _⟩ := (delete_needs_password V W s raw pw).1 hok
          rw [heq, walletFile_plain s.fs W b _ hs.1 hbn plain_seed, if_pos hb.1, hb.2.1] at hf
          cases hf
          exact .inr ⟨raw, pw, seed, rfl, heq, hd⟩
        · left
          simp only [stepWallets]
          rw [(delete_needs_password V W s raw pw).2 hok]
          exact hb
      · left
        obtain ⟨h1, h2⟩ := delete_leaves_others_partial V W s hs raw pw hn
        have hne : ∀ (t t' : Path), W ++ b :: t ≠ W ++ toLower raw :: t' := by
          intro t t' e
          have := List.append_cancel_left e
          simp at this
          exact heq this.1.symm
        refine ⟨h1 _ hb.1 (fun t => hne [] t), ?_, ?_⟩
        · exact (h2 _ (fun t => hne [seedJson] t)).trans hb.2.1
        · exact (h2 _ (fun t => hne [walletDb] t)).trans hb.2.2

/-- **C101, a wallet stays until it is deleted with its password.** In any history of creating, logging in and out,
deleting and changing passwords under plain names, a wallet is there afterwards with its encrypted seed and its database,
unless one of the calls deleted it by its name with a password that decrypts its seed.

Partial: with names that contain separators it is false (`nested_wallet_deleted_violated`,
`name_with_separator_violated`). -/
theorem wallet_kept_partial (V : Vault E) (W : Path) (cs : List Call) (b : Bytes) (e : E) (hb : PlainName b) :
    ∀ s : Wallets E, SaneStore W s.fs → PlainCalls cs → HasWallet W b e s.fs →
      HasWallet W b e (runWallets V W s cs).fs ∨
      ∃ raw pw seed, Call.delete raw pw ∈ cs ∧ toLower raw = b ∧ V.dec e pw = some seed := by
  induction cs with
  | nil => intro s _ _ h; exact .inl h
  | cons c cs ih =>
    intro s hs hc h
    obtain ⟨hs', hk⟩ := step_keeps V hs c (hc c (by simp))
    rcases hk b e hb h with h' | ⟨raw, pw, seed, rfl, h1, h2⟩
    · rcases ih _ hs' (fun c hm => hc c (by simp [hm])) h' with h'' | ⟨raw, pw, seed, hm, h1, h2⟩
      · exact .inl h''
      · exact .inr ⟨raw, pw, seed, by simp [hm], h1, h2⟩
    · exact .inr ⟨raw, pw, seed, by simp, h1, h2⟩

private theorem lower_byte_idem (c : UInt8) : lowerByte (lowerByte c) = lowerByte c := by
  have h : ∀ n : Fin 256, lowerByte (lowerByte (UInt8.ofNat n.1)) = lowerByte (UInt8.ofNat n.1) := by decide +kernel
  have := h ⟨c.toNat, c.toNat_lt⟩
  simpa using this

private theorem lower_idem (s : Bytes) : toLower (toLower s) = toLower s := by
  simp [toLower, lower_byte_idem]

/-- **C101, the name and the password of a wallet open it.** After a wallet was created, and after any history under
plain names that does not delete it, logging in with the name and the password it was created with gives its seed.

Partial: for plain names that do not begin with a dot or have spaces around them (`hidden_name_violated`,
`spaces_violated`). -/
theorem create_then_login_partial (V : Vault E) (W : Path) (s : Wallets E) (hs : SaneStore W s.fs) (raw pw seed : Bytes)
    (hn : PlainName (toLower raw)) (htrim : trim raw = raw) (hdot : (toLower raw).head? ≠ some 46)
    (hV : V.dec (V.enc seed pw) pw = some seed) (hok : (rpcCreate V W raw pw seed s).2 = .ok ())
    (cs : List Call) (hcs : PlainCalls cs) (hdel : ∀ raw' pw', Call.delete raw' pw' ∈ cs → toLower raw' ≠ toLower raw) :
    (rpcLogin V W raw pw (runWallets V W (rpcCreate V W raw pw seed s).1 cs)).2 = .ok seed := by
  have hhas : SaneStore W (rpcCreate V W raw pw seed s).1.fs ∧
      HasWallet W (toLower raw) (V.enc seed pw) (rpcCreate V W raw pw seed s).1.fs := by
    simp only [rpcCreate, htrim] at hok ⊢
    by_cases h1 : ((accounts s.fs W).any fun a => decide (toLower a = toLower raw)) = true
    · simp only [h1, if_true] at hok; cases hok
    · by_cases h2 : pw = []
      · simp only [h1, h2, if_true] at hok; cases hok
      · simp only [h1, h2, if_false, Bool.false_eq_true] at hok ⊢
        rcases create_plain hs _ hn (V.enc seed pw) with ⟨h, _⟩ | ⟨_, h⟩
        · rw [h] at hok; cases hok
        · rw [h]
          refine ⟨sane_create hs _ _ _, by simp [putFile], ?_, file_put_same _ _ _⟩
          rw [file_put_ne _ _ _ _ (by
            intro e
            have := List.append_cancel_left e
            simp [seedJson, walletDb] at this)]
          exact file_put_same _ _ _
  have hsane : ∀ (cs : List Call) (s : Wallets E), SaneStore W s.fs → PlainCalls cs → SaneStore W (runWallets V W s cs).fs := by
    intro cs
    induction cs with
    | nil => intro s h _; exact h
    | cons c cs ih =>
      intro s h hc
      exact ih _ (step_keeps V h c (hc c (by simp))).1 (fun c hm => hc c (by simp [hm]))
  have hS := hsane cs _ hhas.1 hcs
  have hH : HasWallet W (toLower raw) (V.enc seed pw) (runWallets V W (rpcCreate V W raw pw seed s).1 cs).fs := by
    rcases wallet_kept_partial V W cs _ _ hn _ hhas.1 hcs hhas.2 with h | ⟨raw', pw', _, hm, he, _⟩
    · exact h
    · exact absurd he (hdel _ _ hm)
  generalize runWallets V W (rpcCreate V W raw pw seed s).1 cs = z at hS hH ⊢
  have hlist : ((accounts z.fs W).any fun a => decide (toLower a = toLower raw)) = true := by
    rw [List.any_eq_true]
    refine ⟨toLower raw, ?_, by simp [lower_idem]⟩
    simp only [accounts, List.mem_filterMap]
    refine ⟨W ++ [toLower raw], hH.1, ?_⟩
    simp [hdot]
  have hauth : authenticate V W (toLower raw) pw z = .ok seed := by
    simp [authenticate, walletFile_plain z.fs W _ _ hS.1 hn plain_seed, hH.1, hH.2.1, hV]
  simp only [rpcLogin, hlist, if_true, hauth]
  split
  · rfl
  · rw [walletFile_plain z.fs W _ _ hS.1 hn plain_db, if_pos hH.1, hH.2.2]

/-! ## Where it fails -/

/-- Toy encryption: the pair of password and seed. -/
private def toyVault : Vault (Bytes × Bytes) := ⟨fun s p => (p, s), fun e p => if e.1 = p then some e.2 else none⟩
private def toyW : Path := [[119]]
/-- An empty wallet directory. -/
private def toyNone : Wallets (Bytes × Bytes) := ⟨⟨[[[119]], []], []⟩, []⟩
/-- `bob` -/
private def bob : Bytes := [98, 111, 98]
/-- `bob/al` -/
private def bobAl : Bytes := [98, 111, 98, 47, 97, 108]
/-- `x/..` -/
private def xUp : Bytes := [120, 47, 46, 46]

/-- **C101, negation: a wallet can be deleted with another's password.** The wallet `bob/al` is a directory inside that
of `bob`; deleting `bob` with bob's password deletes it as well, even while it is open. -/
theorem nested_wallet_deleted_violated : ∃ (V : Vault (Bytes × Bytes)) (W : Path) (s : Wallets (Bytes × Bytes)),
    SaneStore W s.fs ∧
    (let s1 := closeWallet bob (rpcCreate V W bob [1] [10] s).1
     let s2 := rpcCreate V W bobAl [2] [20] s1
     let s3 := rpcDelete V W bob [1] s2.1
     s2.2 = .ok () ∧ bobAl ∈ s2.1.opened ∧ authenticate V W bobAl [2] s2.1 = .ok [20] ∧
       s3.2 = .ok () ∧ authenticate V W bobAl [2] s3.1 = .throw ∧ rpcDelete V W bobAl [1] s2.1 = (s2.1, .throw)) :=
  ⟨toyVault, toyW, toyNone, by unfold SaneStore; decide, by decide +kernel⟩

/-- **C101, negation: deleting one's own wallet deletes all.** Creating a wallet named `x/..` makes the directory `x` and
writes its files into the wallet directory itself; deleting it with its own password removes the wallet directory with
the wallets of all users. -/
theorem name_with_separator_violated : ∃ (V : Vault (Bytes × Bytes)) (W : Path) (s : Wallets (Bytes × Bytes)),
    SaneStore W s.fs ∧
    (let s1 := closeWallet bob (rpcCreate V W bob [1] [10] s).1
     let s2 := rpcCreate V W xUp [2] [20] s1
     let s3 := rpcDelete V W xUp [2] (closeWallet xUp s2.1)
     s2.2 = .ok () ∧ authenticate V W bob [1] s2.1 = .ok [10] ∧
       s3.2 = .ok () ∧ authenticate V W bob [1] s3.1 = .throw ∧ s3.1.fs.files = []) :=
  ⟨toyVault, toyW, toyNone, by unfold SaneStore; decide, by decide +kernel⟩

/-- `/x` -/
private def slashX : Bytes := [47, 120]

/-- **C101, negation: absolute names.** A name that begins with a slash leaves the wallet directory: the seed is written
elsewhere in the file system, where no login finds it, and deleting the wallet removes that directory. -/
theorem absolute_name_violated : ∃ (V : Vault (Bytes × Bytes)) (W : Path) (s : Wallets (Bytes × Bytes)),
    SaneStore W s.fs ∧
    (let s1 := rpcCreate V W slashX [1] [10] s
     let s2 := rpcDelete V W slashX [1] (closeWallet slashX s1.1)
     s1.2 = .ok () ∧ s1.1.fs.files ≠ [] ∧ (∀ f ∈ s1.1.fs.files, W.isPrefixOf f.1 = false) ∧
       (rpcLogin V W slashX [1] s1.1).2 = .throw ∧ s2.2 = .ok () ∧ s2.1.fs.files = []) :=
  ⟨toyVault, toyW, toyNone, by unfold SaneStore; decide, by decide +kernel⟩

/-- **C101, negation: hidden names.** A wallet whose name begins with a dot is created, but logging in answers that there
is no such user, since hidden directories are not listed. -/
theorem hidden_name_violated : ∃ (V : Vault (Bytes × Bytes)) (W : Path) (s : Wallets (Bytes × Bytes)), SaneStore W s.fs ∧
    (let s1 := rpcCreate V W (46 :: bob) [1] [10] s
     s1.2 = .ok () ∧ (rpcLogin V W (46 :: bob) [1] s1.1).2 = .throw ∧
       authenticate V W (46 :: bob) [1] s1.1 = .ok [10]) :=
  ⟨toyVault, toyW, toyNone, by unfold SaneStore; decide, by decide +kernel⟩

/-- **C101, negation: spaces.** The name is trimmed when a wallet is created but not when logging in, so a name typed
with a space around it creates a wallet that the same name does not open. -/
theorem spaces_violated : ∃ (V : Vault (Bytes × Bytes)) (W : Path) (s : Wallets (Bytes × Bytes)), SaneStore W s.fs ∧
    (let s1 := rpcCreate V W (bob ++ [32]) [1] [10] s
     s1.2 = .ok () ∧ (rpcLogin V W (bob ++ [32]) [1] s1.1).2 = .throw ∧ (rpcLogin V W bob [1] s1.1).2 = .ok [10]) :=
  ⟨toyVault, toyW, toyNone, by unfold SaneStore; decide, by decide +kernel⟩

/-- **C101, negation: changing the password.** The call answers with a result and changes nothing: the old password still
opens every wallet and the new one does not. -/
theorem change_password_ignored_violated (V : Vault E) (W : Path) (raw old new : Bytes) (s : Wallets E) :
    (rpcChangePassword raw old new s).2 = .ok () ∧
    ∀ n p, authenticate V W n p (rpcChangePassword raw old new s).1 = authenticate V W n p s :=
  ⟨rfl, fun _ _ => rfl⟩

/-- The hypotheses are met: two wallets, one deleted, the other opened by its name in capital letters. -/
example : SaneStore toyW toyNone.fs ∧ PlainName (toLower [66, 111, 98]) ∧ trim [66, 111, 98] = [66, 111, 98] ∧
    (rpcCreate toyVault toyW [66, 111, 98] [1] [10] toyNone).2 = .ok () := by
  unfold SaneStore PlainName; decide +kernel
example : (rpcLogin toyVault toyW [66, 111, 98] [1] (runWallets toyVault toyW
    (rpcCreate toyVault toyW [66, 111, 98] [1] [10] toyNone).1
    [.create [97] [2] [20], .logout [97], .delete [97] [3], .delete [97] [2], .logout bob])).2 = .ok [10] := by
  decide +kernel
example : accounts (runWallets toyVault toyW (rpcCreate toyVault toyW [66, 111, 98] [1] [10] toyNone).1
    [.create [97] [2] [20], .logout [97], .delete [97] [3]]).fs toyW = [[97], bob] ∧
  accounts (runWallets toyVault toyW (rpcCreate toyVault toyW [66, 111, 98] [1] [10] toyNone).1
    [.create [97] [2] [20], .logout [97], .delete [97] [3], .delete [97] [2]]).fs toyW = [bob] := by decide +kernel

end Verif.Props
