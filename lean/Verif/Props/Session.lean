import Verif.Wallet.Session
import Mathlib.Data.List.Induction

/-!
# C48: a session token opens its own wallet, and only while logged in

Statements over all histories of logins and logouts, the tokens in logouts being arbitrary.
-/
namespace Verif.Props
open Verif.Wallet

/-- The number of logins in a history. -/
def logins : List SOp → Nat
  | [] => 0
  | .login _ _ _ _ :: h => logins h + 1
  | .logout _ :: h => logins h

/-- The session `id` was opened in the history `h` by a login of `user` with the seed `seed` and the token key `key`,
and has not been logged out since.  Session ids are handed out in order, beginning with `first`. -/
def Live (first : Nat) (h : List SOp) (id : Nat) (user seed key : Bytes) : Prop :=
  ∃ h1 c h2, h = h1 ++ .login user seed key c :: h2 ∧ id = (first + logins h1) % 2 ^ 64 ∧
    ∀ t, SOp.logout t ∈ h2 → t.id ≠ id

/-- The random token keys are as long as the seed with its checksum (SessionManager.cpp:135). -/
def KeysFit (h : List SOp) : Prop :=
  ∀ u d k c, SOp.login u d k c ∈ h → k.length = d.length + 4

/-- Fewer than 2^64 logins, a first id of 64 bits. -/
structure Short (first : Nat) (h : List SOp) : Prop where
  first : first < 2 ^ 64
  logins : logins h ≤ 2 ^ 64

theorem logins_append (a b : List SOp) : logins (a ++ b) = logins a + logins b := by
  induction a with
  | nil => simp [logins]
  | cons o a ih =>
    cases o
    · simp only [List.cons_append, logins, ih]; omega
    · simp only [List.cons_append, logins, ih]

private theorem live_login {first : Nat} {h : List SOp} {u' d' k' : Bytes} {c : Bool} {id : Nat} {u d k : Bytes} :
    Live first (h ++ [.login u' d' k' c]) id u d k ↔
      Live first h id u d k ∨ (id = (first + logins h) % 2 ^ 64 ∧ u = u' ∧ d = d' ∧ k = k') := by
  constructor
  · rintro ⟨h1, c1, h2, e, hid, hl⟩
    rcases List.eq_nil_or_concat h2 with rfl | ⟨h3, o, rfl⟩
    · have := List.append_inj' e rfl
      obtain ⟨rfl, e2⟩ := this
      simp only [List.cons.injEq, SOp.login.injEq, and_true] at e2
      exact .inr ⟨hid, e2.1.symm, e2.2.1.symm, e2.2.2.1.symm⟩
    · rw [List.concat_eq_append] at e hl
      rw [show h1 ++ SOp.login u d k c1 :: (h3 ++ [o]) = (h1 ++ SOp.login u d k c1 :: h3) ++ [o] by simp] at e
      obtain ⟨rfl, -⟩ := List.append_inj' e rfl
      exact .inl ⟨h1, c1, h3, rfl, hid, fun t ht => hl t (by simp [ht])⟩
  · rintro (⟨h1, c1, h2, rfl, hid, hl⟩ | ⟨rfl, rfl, rfl, rfl⟩)
    · exact ⟨h1, c1, h2 ++ [.login u' d' k' c], by simp, hid, fun t ht => hl t (by simpa using ht)⟩
    · exact ⟨h, c, [], rfl, rfl, by simp⟩

private theorem live_logout {first : Nat} {h : List SOp} {t : Token} {id : Nat} {u d k : Bytes} :
    Live first (h ++ [.logout t]) id u d k ↔ Live first h id u d k ∧ t.id ≠ id := by
  constructor
  · rintro ⟨h1, c1, h2, e, hid, hl⟩
    rcases List.eq_nil_or_concat h2 with rfl | ⟨h3, o, rfl⟩
    · obtain ⟨-, e2⟩ := List.append_inj' e rfl
      simp at e2
    · rw [List.concat_eq_append] at e hl
      rw [show h1 ++ SOp.login u d k c1 :: (h3 ++ [o]) = (h1 ++ SOp.login u d k c1 :: h3) ++ [o] by simp] at e
      obtain ⟨rfl, e2⟩ := List.append_inj' e rfl
      simp only [List.cons.injEq, and_true] at e2
      exact ⟨⟨h1, c1, h3, rfl, hid, fun t ht => hl t (by simp [ht])⟩, hl t (by simp [← e2])⟩
  · rintro ⟨⟨h1, c1, h2, rfl, hid, hl⟩, hne⟩
    refine ⟨h1, c1, h2 ++ [.logout t], by simp, hid, fun t' ht => ?_⟩
    rcases List.mem_append.1 ht with ht | ht
    · exact hl t' ht
    · simp only [List.mem_singleton, SOp.logout.injEq] at ht
      rw [ht]; exact hne

private theorem live_id {first : Nat} {h : List SOp} {id : Nat} {u d k : Bytes} (hl : Live first h id u d k) :
    ∃ j, j < logins h ∧ id = (first + j) % 2 ^ 64 := by
  obtain ⟨h1, c, h2, rfl, hid, -⟩ := hl
  exact ⟨logins h1, by rw [logins_append, logins]; omega, hid⟩

private theorem next_eq (H : Bytes → Bytes) (first : Nat) (hf : first < 2 ^ 64) (h : List SOp) :
    (runSessions H (newSM first) h).next = (first + logins h) % 2 ^ 64 := by
  induction h using List.reverseRecOn with
  | nil => simp only [runSessions, List.foldl_nil, newSM, logins]; omega
  | append_singleton h o ih =>
    rw [runSessions, List.foldl_append, List.foldl_cons, List.foldl_nil, ← runSessions, logins_append]
    cases o with
    | login u d k c =>
      simp only [stepSession, login, logins]
      split <;> simp only [ih] <;> omega
    | logout t =>
      simp only [stepSession, logout, logins]
      split <;> simp only [ih] <;> omega

private theorem find_erase_self (id : Nat) (l : List (Nat × Session)) :
    (eraseSession id l).find? (fun e => e.1 = id) = none := by
  rw [List.find?_eq_none]
  intro e he
  simp only [eraseSession, List.mem_filter, decide_eq_true_eq] at he
  simpa using he.2

private theorem find_erase_ne {id id' : Nat} (h : id' ≠ id) (l : List (Nat × Session)) :
    (eraseSession id' l).find? (fun e => e.1 = id) = l.find? (fun e => e.1 = id) := by
  induction l with
  | nil => rfl
  | cons e l ih =>
    unfold eraseSession at ih ⊢
    by_cases he : e.1 = id'
    · rw [List.filter_cons_of_neg (by simpa using he), ih, List.find?_cons_of_neg]
      simp only [decide_eq_true_eq]; omega
    · rw [List.filter_cons_of_pos (by simpa using he)]
      by_cases hi : e.1 = id
      · rw [List.find?_cons_of_pos (by simpa using hi), List.find?_cons_of_pos (by simpa using hi)]
      · rw [List.find?_cons_of_neg (by simpa using hi), List.find?_cons_of_neg (by simpa using hi), ih]

private theorem login_sessions (H : Bytes → Bytes) (u d k : Bytes) (c : Bool) (s : SM) :
    (login H u d k c s).1.sessions =
      (s.next, ⟨u, mask (d ++ seedSum H d) k⟩) :: eraseSession s.next s.sessions := by
  simp only [login]
  split <;> rfl

private theorem logout_sessions (t : Token) (s : SM) : (logout t s).sessions = eraseSession t.id s.sessions := by
  unfold logout
  split
  · rename_i h
    unfold findSession at h
    rw [Option.map_eq_none_iff, List.find?_eq_none] at h
    unfold eraseSession
    rw [List.filter_eq_self.2]
    intro e he
    simpa using h e he
  · rfl

/-- **The sessions kept are the live ones.** -/
theorem session_iff (H : Bytes → Bytes) {first : Nat} {h : List SOp} (hs : Short first h) (id : Nat) (e : Session) :
    findSession (runSessions H (newSM first) h) id = some e ↔
      ∃ u d k, Live first h id u d k ∧ e = ⟨u, mask (d ++ seedSum H d) k⟩ := by
  obtain ⟨hf, hl⟩ := hs
  induction h using List.reverseRecOn generalizing id e with
  | nil =>
    constructor
    · intro h; simp [runSessions, newSM, findSession] at h
    · rintro ⟨u, d, k, ⟨h1, c, h2, h, -⟩, -⟩; simp at h
  | append_singleton h o ih =>
    rw [logins_append] at hl
    have ih := fun id e => ih id e (by omega)
    rw [runSessions, List.foldl_append, List.foldl_cons, List.foldl_nil, ← runSessions]
    cases o with
    | login u' d' k' c =>
      simp only [logins] at hl
      simp only [stepSession, findSession, login_sessions, live_login]
      have hn := next_eq H first hf h
      by_cases hid : id = (first + logins h) % 2 ^ 64
      · rw [List.find?_cons_of_pos (by simp [hn, hid])]
        simp only [Option.map_some, Option.some.injEq]
        constructor
        · rintro rfl; exact ⟨u', d', k', .inr ⟨hid, rfl, rfl, rfl⟩, rfl⟩
        · rintro ⟨u, d, k, hlive | ⟨-, rfl, rfl, rfl⟩, rfl⟩
          · obtain ⟨j, hj, hij⟩ := live_id hlive
            omega
          · rfl
      · rw [List.find?_cons_of_neg (by simp only [hn, decide_eq_true_eq]; omega), find_erase_ne (by rw [hn]; omega)]
        have := ih id e
        simp only [findSession] at this
        rw [this]
        constructor
        · rintro ⟨u, d, k, h1, h2⟩; exact ⟨u, d, k, .inl h1, h2⟩
        · rintro ⟨u, d, k, h1 | h1, h2⟩
          · exact ⟨u, d, k, h1, h2⟩
          · exact absurd h1.1 hid
    | logout t =>
      simp only [stepSession, findSession, logout_sessions, live_logout]
      by_cases hid : t.id = id
      · rw [← hid, find_erase_self]
        constructor
        · intro h; simp at h
        · rintro ⟨u, d, k, ⟨-, h⟩, -⟩; exact absurd rfl h
      · rw [find_erase_ne hid]
        have := ih id e
        simp only [findSession] at this
        rw [this]
        constructor
        · rintro ⟨u, d, k, h1, h2⟩; exact ⟨u, d, k, ⟨h1, hid⟩, h2⟩
        · rintro ⟨u, d, k, ⟨h1, -⟩, h2⟩; exact ⟨u, d, k, h1, h2⟩

/-! ## Masks -/

private theorem mask_length (a k : Bytes) : (mask a k).length = min a.length k.length := by
  simp [mask]

private theorem mask_mask (a : Bytes) : ∀ k : Bytes, a.length ≤ k.length → mask (mask a k) k = a := by
  induction a with
  | nil => intro k _; simp [mask]
  | cons x a ih =>
    intro k hk
    cases k with
    | nil => simp at hk
    | cons y k =>
      simp only [mask, List.zipWith_cons_cons, List.cons.injEq]
      refine ⟨?_, ih k (by simpa using hk)⟩
      rw [UInt8.xor_assoc, UInt8.xor_self, UInt8.xor_zero]

private theorem mask_swap (a : Bytes) : ∀ b : Bytes, a.length = b.length → mask a (mask a b) = b := by
  induction a with
  | nil => intro b hb; cases b with
    | nil => rfl
    | cons _ _ => simp at hb
  | cons x a ih =>
    intro b hb
    cases b with
    | nil => simp at hb
    | cons y b =>
      simp only [mask, List.zipWith_cons_cons, List.cons.injEq]
      refine ⟨?_, ih b (by simpa using hb)⟩
      rw [← UInt8.xor_assoc, UInt8.xor_self, UInt8.zero_xor]

private theorem mask_take (a : Bytes) : ∀ k : Bytes, mask a (k.take a.length) = mask a k := by
  induction a with
  | nil => intro k; simp [mask]
  | cons x a ih =>
    intro k
    cases k with
    | nil => simp [mask]
    | cons y k =>
      simp only [mask, List.length_cons, List.take_succ_cons, List.zipWith_cons_cons, List.cons.injEq, true_and]
      exact ih k

/-! ## What a token opens -/

private theorem live_mem {first : Nat} {h : List SOp} {id : Nat} {u d k : Bytes} (hl : Live first h id u d k) :
    ∃ c, SOp.login u d k c ∈ h := by
  obtain ⟨h1, c, h2, rfl, -⟩ := hl
  exact ⟨c, by simp⟩

/-- **What a token opens.**  After any history: a token opens a wallet exactly if a login that has not been logged out
since issued its id, its key is long enough, and with the key the stored string becomes some seed followed by that
seed's checksum. -/
theorem opens_iff (H : Bytes → Bytes) (hH : ∀ x, 4 ≤ (H x).length) {first : Nat} {h : List SOp}
    (hs : Short first h) (hk : KeysFit h) (t : Token) (u s : Bytes) :
    openWith H t (runSessions H (newSM first) h) = .ok (u, s) ↔
      ∃ d k, Live first h t.id u d k ∧ d.length + 4 ≤ t.key.length ∧
        mask (mask (d ++ seedSum H d) k) t.key = s ++ seedSum H s := by
  have hsum : ∀ x, (seedSum H x).length = 4 := by
    intro x; rw [seedSum, List.length_take]; have := hH x; omega
  have hlen : ∀ d k : Bytes, k.length = d.length + 4 → (mask (d ++ seedSum H d) k).length = d.length + 4 := by
    intro d k h; rw [mask_length, List.length_append, hsum]; omega
  constructor
  · intro ho
    obtain ⟨s', h1, ho⟩ := Res.bind_eq_ok.1 ho
    obtain ⟨u', h2, ho⟩ := Res.bind_eq_ok.1 ho
    simp only [Res.pure_eq, Res.ok.injEq, Prod.mk.injEq] at ho
    obtain ⟨rfl, rfl⟩ := ho
    unfold getSeed at h1
    unfold getWallet at h2
    cases he : findSession (runSessions H (newSM first) h) t.id with
    | none => rw [he] at h1; cases h1
    | some e =>
      rw [he] at h1 h2
      simp only [Res.ok.injEq] at h1 h2
      subst h2
      obtain ⟨u, d, k, hlive, rfl⟩ := (session_iff H hs t.id e).1 he
      obtain ⟨c, hc⟩ := live_mem hlive
      have hkl := hlen d k (hk _ _ _ _ hc)
      simp only [hkl] at h1
      split at h1
      · cases h1
      · rename_i hlt
        split at h1
        · rename_i hd
          simp only [Res.ok.injEq] at h1
          refine ⟨d, k, hlive, by omega, ?_⟩
          rw [h1] at hd
          rw [← hd]
          conv_lhs => rw [← List.take_append_drop
            ((mask (mask (d ++ seedSum H d) k) t.key).length - 4) (mask (mask (d ++ seedSum H d) k) t.key)]
          rw [h1]
        · cases h1
  · rintro ⟨d, k, hlive, hlt, hm⟩
    have he := (session_iff H hs t.id ⟨u, mask (d ++ seedSum H d) k⟩).2 ⟨u, d, k, hlive, rfl⟩
    obtain ⟨c, hc⟩ := live_mem hlive
    have hkl := hlen d k (hk _ _ _ _ hc)
    refine Res.bind_eq_ok.2 ⟨s, ?_, Res.bind_eq_ok.2 ⟨u, ?_, rfl⟩⟩
    · unfold getSeed
      rw [he]
      simp only [hkl]
      rw [if_neg (by omega), hm]
      have : (s ++ seedSum H s).length - 4 = s.length := by rw [List.length_append, hsum]; omega
      simp only [this, List.take_left', List.drop_left', if_true]
    · unfold getWallet
      rw [he]

/-- **A token opens its own wallet**, with the seed of the login that issued it. -/
theorem issued_opens (H : Bytes → Bytes) (hH : ∀ x, 4 ≤ (H x).length) {first : Nat} {h : List SOp}
    (hs : Short first h) (hk : KeysFit h) {id : Nat} {u d k : Bytes} (hl : Live first h id u d k) :
    openWith H ⟨id, k⟩ (runSessions H (newSM first) h) = .ok (u, d) := by
  obtain ⟨c, hc⟩ := live_mem hl
  have hkl := hk _ _ _ _ hc
  refine (opens_iff H hH hs hk ⟨id, k⟩ u d).2 ⟨d, k, hl, by simp only; omega, mask_mask _ _ ?_⟩
  rw [List.length_append, seedSum, List.length_take]; omega

/-- **A token that was not issued, or was logged out, opens nothing**: every use of it is refused. -/
theorem dead_refused (H : Bytes → Bytes) {first : Nat} {h : List SOp} (hs : Short first h) (t : Token)
    (hd : ∀ u d k, ¬ Live first h t.id u d k) :
    openWith H t (runSessions H (newSM first) h) = .throw ∧
      getWallet t (runSessions H (newSM first) h) = .throw := by
  have : findSession (runSessions H (newSM first) h) t.id = none := by
    cases he : findSession (runSessions H (newSM first) h) t.id with
    | none => rfl
    | some e =>
      obtain ⟨u, d, k, hl, -⟩ := (session_iff H hs t.id e).1 he
      exact absurd hl (hd u d k)
  simp [openWith, getSeed, getWallet, this]

/-- **A different key never opens a wallet with its own seed.**  What a forged key can reach is a seed that is not the
wallet's, and only if the four bytes of its checksum fit. -/
theorem forged_key_partial (H : Bytes → Bytes) (hH : ∀ x, 4 ≤ (H x).length) {first : Nat} {h : List SOp}
    (hs : Short first h) (hk : KeysFit h) {id : Nat} {u d k key : Bytes} (hl : Live first h id u d k)
    (hne : key.take (d.length + 4) ≠ k) (u' : Bytes) :
    openWith H ⟨id, key⟩ (runSessions H (newSM first) h) ≠ .ok (u', d) := by
  intro ho
  have hsum : ∀ x, (seedSum H x).length = 4 := by
    intro x; rw [seedSum, List.length_take]; have := hH x; omega
  obtain ⟨d', k', hl', hlt, hm⟩ := (opens_iff H hH hs hk ⟨id, key⟩ u' d).1 ho
  have e1 := (session_iff H hs id _).2 ⟨u, d, k, hl, rfl⟩
  have e2 := (session_iff H hs id _).2 ⟨u', d', k', hl', rfl⟩
  rw [e1] at e2
  simp only [Option.some.injEq, Session.mk.injEq] at e2
  rw [← e2.2] at hm
  obtain ⟨c, hc⟩ := live_mem hl
  have hkl := hk _ _ _ _ hc
  obtain ⟨c', hc'⟩ := live_mem hl'
  have hkl' := hk _ _ _ _ hc'
  have hlen : (mask (d ++ seedSum H d) k).length = d.length + 4 := by
    rw [mask_length, List.length_append, hsum]; omega
  have hlen' : (mask (d' ++ seedSum H d') k').length = d'.length + 4 := by
    rw [mask_length, List.length_append, hsum]; omega
  rw [e2.2] at hlen
  simp only at hlt
  apply hne
  have hmm : mask (mask (d ++ seedSum H d) k) (d ++ seedSum H d) = k := by
    have h1 : mask (d ++ seedSum H d) k = mask k (d ++ seedSum H d) := by
      unfold mask; rw [List.zipWith_comm]; congr 1; funext a b; exact UInt8.xor_comm _ _
    rw [h1, mask_mask]
    rw [List.length_append, hsum]; omega
  have hl3 : (mask (d ++ seedSum H d) k).length = d.length + 4 := by rw [e2.2]; exact hlen
  generalize mask (d ++ seedSum H d) k = m at hm hmm hl3
  have h3 := mask_take m key
  rw [hl3] at h3
  rw [← hmm, ← hm, ← h3, mask_swap _ _ (by rw [hl3, List.length_take]; omega)]

/-! ## Open databases -/

/-- The sessions of a user. -/
private def cnt (u : Bytes) (l : List (Nat × Session)) : Nat := (l.filter (fun e => e.2.user = u)).length

private theorem cnt_erase {id : Nat} {e : Session} {u : Bytes} : ∀ {l : List (Nat × Session)},
    (l.map (·.1)).Nodup → (l.find? (fun e => e.1 = id)).map (·.2) = some e →
    cnt u (eraseSession id l) + (if e.user = u then 1 else 0) = cnt u l
  | [], _, h => by simp at h
  | x :: l, hn, h => by
    rw [List.map_cons, List.nodup_cons] at hn
    by_cases hx : x.1 = id
    · rw [List.find?_cons_of_pos (by simpa using hx)] at h
      simp only [Option.map_some, Option.some.injEq] at h
      have : eraseSession id (x :: l) = l := by
        unfold eraseSession
        rw [List.filter_cons_of_neg (by simpa using hx), List.filter_eq_self.2]
        intro y hy
        simp only [ne_eq, decide_not, Bool.not_eq_true', decide_eq_false_iff_not]
        rintro rfl
        exact hn.1 (List.mem_map.2 ⟨y, hy, hx.symm⟩)
      rw [this]
      subst h
      unfold cnt
      by_cases hu : x.2.user = u
      · rw [List.filter_cons_of_pos (by simpa using hu), if_pos hu]; rfl
      · rw [List.filter_cons_of_neg (by simpa using hu), if_neg hu]; rfl
    · rw [List.find?_cons_of_neg (by simpa using hx)] at h
      have ih := cnt_erase (u := u) hn.2 h
      have : eraseSession id (x :: l) = x :: eraseSession id l := by
        unfold eraseSession
        rw [List.filter_cons_of_pos (by simpa using hx)]
      rw [this]
      unfold cnt at ih ⊢
      by_cases hu : x.2.user = u
      · rw [List.filter_cons_of_pos (by simpa using hu), List.filter_cons_of_pos (by simpa using hu)]
        simp only [List.length_cons]; omega
      · rw [List.filter_cons_of_neg (by simpa using hu), List.filter_cons_of_neg (by simpa using hu)]
        exact ih

/-- Every user with a session has a listener, each listener counts its user's sessions, and the databases open are
those of the users with a listener. -/
private structure Counted (s : SM) : Prop where
  nodup : (s.sessions.map (·.1)).Nodup
  refs : ∀ l ∈ s.listeners, l.refs = cnt l.user s.sessions ∧ 0 < l.refs
  have_listener : ∀ e ∈ s.sessions, ∃ l ∈ s.listeners, l.user = e.2.user
  opened : ∀ u, u ∈ s.opened ↔ ∃ l ∈ s.listeners, l.user = u

private theorem mem_openWallet (u v : Bytes) (o : List Bytes) : v ∈ openWallet u o ↔ v ∈ o ∨ v = u := by
  unfold openWallet
  split
  · constructor
    · exact .inl
    · rintro (h | rfl) <;> assumption
  · simp

private theorem counted_login (H : Bytes → Bytes) (u d k : Bytes) {s : SM} (hc : Counted s)
    (hfresh : ∀ e ∈ s.sessions, e.1 ≠ s.next) : Counted (login H u d k true s).1 := by
  have her : eraseSession s.next s.sessions = s.sessions :=
    List.filter_eq_self.2 (fun e he => by simpa using hfresh e he)
  have hcnt : ∀ v m, cnt v ((s.next, (⟨u, m⟩ : Session)) :: s.sessions) =
      cnt v s.sessions + if u = v then 1 else 0 := by
    intro v m
    unfold cnt
    by_cases hu : u = v
    · rw [List.filter_cons_of_pos (by simpa using hu), if_pos hu]; rfl
    · rw [List.filter_cons_of_neg (by simpa using hu), if_neg hu]; rfl
  unfold login
  simp only [startListener, her]
  by_cases ha : s.listeners.any (fun l => decide (l.user = u)) = true
  · rw [if_pos ha]
    obtain ⟨l0, hl0, hu0⟩ := List.any_eq_true.1 ha
    have hu0 : l0.user = u := of_decide_eq_true hu0
    simp only
    have hold : ∀ l ∈ s.listeners, ∃ l' ∈ s.listeners.map
        (fun l => if l.user = u then { l with refs := l.refs + 1 } else l), l'.user = l.user := by
      intro l hl
      refine ⟨_, List.mem_map_of_mem hl, ?_⟩
      split <;> rfl
    refine ⟨?_, ?_, ?_, ?_⟩
    · simp only [List.map_cons, List.nodup_cons]
      refine ⟨?_, hc.nodup⟩
      intro hm
      obtain ⟨e, he, hh⟩ := List.mem_map.1 hm
      exact hfresh e he hh
    · intro l' hl'
      obtain ⟨l, hl, rfl⟩ := List.mem_map.1 hl'
      have := hc.refs l hl
      by_cases hu : l.user = u
      · rw [if_pos hu]
        simp only [hcnt]
        rw [if_pos hu.symm]; omega
      · rw [if_neg hu, hcnt, if_neg (Ne.symm hu)]; omega
    · intro e he
      rcases List.mem_cons.1 he with rfl | he
      · obtain ⟨l', h1, h2⟩ := hold l0 hl0
        exact ⟨l', h1, h2.trans hu0⟩
      · obtain ⟨l, hl, h⟩ := hc.have_listener e he
        obtain ⟨l', h1, h2⟩ := hold l hl
        exact ⟨l', h1, h2.trans h⟩
    · intro v
      rw [mem_openWallet, hc.opened]
      constructor
      · rintro (⟨l, hl, rfl⟩ | rfl)
        · exact hold l hl
        · obtain ⟨l', h1, h2⟩ := hold l0 hl0
          exact ⟨l', h1, h2.trans hu0⟩
      · rintro ⟨l', hl', rfl⟩
        obtain ⟨l, hl, rfl⟩ := List.mem_map.1 hl'
        exact .inl ⟨l, hl, by split <;> rfl⟩
  · rw [if_neg ha, if_pos trivial]
    have hnone : ∀ l ∈ s.listeners, l.user ≠ u := by
      intro l hl hu
      exact ha (List.any_eq_true.2 ⟨l, hl, by simpa using hu⟩)
    have hzero : cnt u s.sessions = 0 := by
      unfold cnt
      rw [List.length_eq_zero_iff, List.filter_eq_nil_iff]
      intro e he hu
      obtain ⟨l, hl, h⟩ := hc.have_listener e he
      exact hnone l hl (h.trans (of_decide_eq_true hu))
    simp only
    refine ⟨?_, ?_, ?_, ?_⟩
    · simp only [List.map_cons, List.nodup_cons]
      refine ⟨?_, hc.nodup⟩
      intro hm
      obtain ⟨e, he, hh⟩ := List.mem_map.1 hm
      exact hfresh e he hh
    · intro l hl
      rw [hcnt]
      rcases List.mem_append.1 hl with hl | hl
      · have := hc.refs l hl
        rw [if_neg (Ne.symm (hnone l hl))]; omega
      · rw [List.mem_singleton.1 hl]
        simp [hzero]
    · intro e he
      rcases List.mem_cons.1 he with rfl | he
      · exact ⟨⟨u, 1, ⟨s.next, k⟩⟩, by simp, rfl⟩
      · obtain ⟨l, hl, h⟩ := hc.have_listener e he
        exact ⟨l, List.mem_append_left _ hl, h⟩
    · intro v
      rw [mem_openWallet, hc.opened]
      constructor
      · rintro (⟨l, hl, rfl⟩ | rfl)
        · exact ⟨l, List.mem_append_left _ hl, rfl⟩
        · exact ⟨⟨v, 1, ⟨s.next, k⟩⟩, by simp, rfl⟩
      · rintro ⟨l, hl, rfl⟩
        rcases List.mem_append.1 hl with hl | hl
        · exact .inl ⟨l, hl, rfl⟩
        · rw [List.mem_singleton.1 hl]; exact .inr rfl

private theorem mem_stop {u : Bytes} {ls : List Listener} {l' : Listener} :
    l' ∈ stopListener u ls ↔
      ∃ l ∈ ls, (l' = if l.user = u then { l with refs := l.refs - 1 } else l) ∧ ¬ (l'.user = u ∧ l'.refs = 0) := by
  unfold stopListener
  rw [List.mem_filter, List.mem_map]
  constructor
  · rintro ⟨⟨l, hl, rfl⟩, h⟩; exact ⟨l, hl, rfl, of_decide_eq_true h⟩
  · rintro ⟨l, hl, rfl, h⟩; exact ⟨⟨l, hl, rfl⟩, decide_eq_true h⟩

private theorem counted_logout (t : Token) {s : SM} (hc : Counted s) : Counted (logout t s) := by
  unfold logout
  cases he : findSession s t.id with
  | none => exact hc
  | some e =>
    simp only
    have hcnt := fun u => cnt_erase (u := u) hc.nodup he
    have hmem : (t.id, e) ∈ s.sessions := by
      unfold findSession at he
      obtain ⟨x, hx, rfl⟩ := Option.map_eq_some_iff.1 he
      have h1 : x.1 = t.id := by simpa using List.find?_some hx
      rw [← h1]; exact List.mem_of_find?_eq_some hx
    have hrefs : ∀ l ∈ stopListener e.user s.listeners,
        l.refs = cnt l.user (eraseSession t.id s.sessions) ∧ 0 < l.refs := by
      intro l' hl'
      obtain ⟨l, hl, h1, h2⟩ := mem_stop.1 hl'
      have := hc.refs l hl
      have h3 := hcnt l.user
      by_cases hu : l.user = e.user
      · rw [if_pos hu] at h1
        subst h1
        rw [if_pos hu.symm] at h3
        simp only at h2 ⊢
        have : l.refs - 1 ≠ 0 := fun h => h2 ⟨hu, h⟩
        omega
      · rw [if_neg hu] at h1
        subst h1
        rw [if_neg (Ne.symm hu)] at h3
        omega
    have hhave : ∀ x ∈ eraseSession t.id s.sessions, ∃ l ∈ stopListener e.user s.listeners, l.user = x.2.user := by
      intro x hx
      have hx' : x ∈ s.sessions := (List.mem_filter.1 hx).1
      obtain ⟨l, hl, h⟩ := hc.have_listener x hx'
      refine ⟨if l.user = e.user then { l with refs := l.refs - 1 } else l, mem_stop.2 ⟨l, hl, rfl, ?_⟩, ?_⟩
      · by_cases hu : l.user = e.user
        · rw [if_pos hu]
          simp only
          rintro ⟨-, h0⟩
          have h1 := hcnt l.user
          rw [if_pos hu.symm] at h1
          have h2 := (hc.refs l hl)
          have h3 : 0 < cnt l.user (eraseSession t.id s.sessions) := by
            unfold cnt
            exact List.length_pos_of_mem (List.mem_filter.2 ⟨hx, by simp [h]⟩)
          omega
        · rw [if_neg hu]; exact fun hh => hu hh.1
      · split <;> exact h
    refine ⟨?_, hrefs, hhave, ?_⟩
    · exact hc.nodup.sublist (List.Sublist.map _ List.filter_sublist)
    · intro v
      simp only
      have hback : (∃ l ∈ stopListener e.user s.listeners, l.user = v) → v ∈ s.opened := by
        rintro ⟨l', hl', rfl⟩
        obtain ⟨l, hl, h1, -⟩ := mem_stop.1 hl'
        refine (hc.opened _).2 ⟨l, hl, ?_⟩
        rw [h1]; split <;> rfl
      have hfwd : v ≠ e.user → v ∈ s.opened → ∃ l ∈ stopListener e.user s.listeners, l.user = v := by
        intro hv ho
        obtain ⟨l, hl, rfl⟩ := (hc.opened _).1 ho
        exact ⟨l, mem_stop.2 ⟨l, hl, by rw [if_neg hv], fun hh => hv hh.1⟩, rfl⟩
      split
      · rename_i ha
        obtain ⟨l, hl, hu⟩ := List.any_eq_true.1 ha
        refine ⟨fun ho => ?_, hback⟩
        by_cases hv : v = e.user
        · subst hv; exact ⟨l, hl, of_decide_eq_true hu⟩
        · exact hfwd hv ho
      · rename_i ha
        rw [List.mem_filter]
        constructor
        · rintro ⟨ho, hv⟩; exact hfwd (by simpa using hv) ho
        · rintro ⟨l, hl, rfl⟩
          refine ⟨hback ⟨l, hl, rfl⟩, ?_⟩
          simp only [ne_eq, decide_not, Bool.not_eq_true', decide_eq_false_iff_not]
          exact fun hu => ha (List.any_eq_true.2 ⟨l, hl, by simpa using hu⟩)

/-- All listeners could be started. -/
def ListenersStart (h : List SOp) : Prop := ∀ u d k c, SOp.login u d k c ∈ h → c = true

private theorem counted_run (H : Bytes → Bytes) {first : Nat} : ∀ {h : List SOp}, Short first h → ListenersStart h →
    Counted (runSessions H (newSM first) h) := by
  intro h
  induction h using List.reverseRecOn with
  | nil => intro _ _; exact ⟨by simp [runSessions, newSM], by simp [runSessions, newSM], by simp [runSessions, newSM],
      by simp [runSessions, newSM]⟩
  | append_singleton h o ih =>
    intro hs hl
    obtain ⟨hf, hlog⟩ := hs
    rw [logins_append] at hlog
    have ih := ih ⟨hf, by omega⟩ (fun u d k c hm => hl u d k c (List.mem_append_left _ hm))
    rw [runSessions, List.foldl_append, List.foldl_cons, List.foldl_nil, ← runSessions]
    cases o with
    | login u d k c =>
      have : c = true := hl u d k c (by simp)
      subst this
      refine counted_login H u d k ih ?_
      intro e he hid
      have hfind : findSession (runSessions H (newSM first) h) e.1 ≠ none := by
        unfold findSession
        rw [ne_eq, Option.map_eq_none_iff, List.find?_eq_none]
        intro hh; exact hh e he (by simp)
      cases hfs : findSession (runSessions H (newSM first) h) e.1 with
      | none => exact hfind hfs
      | some x =>
        obtain ⟨u', d', k', hlive, -⟩ := (session_iff H ⟨hf, by omega⟩ e.1 x).1 hfs
        obtain ⟨j, hj, hij⟩ := live_id hlive
        have hn := next_eq H first hf h
        simp only [logins] at hlog
        omega
    | logout t => exact counted_logout t ih

/-- **A wallet can be deleted exactly when nobody is logged in to it.** -/
theorem deletable_iff_partial (H : Bytes → Bytes) {first : Nat} {h : List SOp} (hs : Short first h)
    (hl : ListenersStart h) (u : Bytes) :
    deletable u (runSessions H (newSM first) h) = true ↔ ∀ id d k, ¬ Live first h id u d k := by
  have hc := counted_run H hs hl
  simp only [deletable, Bool.not_eq_true', decide_eq_false_iff_not]
  rw [hc.opened]
  constructor
  · intro hno id d k hlive
    have hf := (session_iff H hs id _).2 ⟨u, d, k, hlive, rfl⟩
    unfold findSession at hf
    obtain ⟨x, hx, h1⟩ := Option.map_eq_some_iff.1 hf
    obtain ⟨l, hl, h2⟩ := hc.have_listener x (List.mem_of_find?_eq_some hx)
    exact hno ⟨l, hl, by rw [h2, h1]⟩
  · rintro hno ⟨l, hl, rfl⟩
    obtain ⟨h1, h2⟩ := hc.refs l hl
    rw [h1] at h2
    unfold cnt at h2
    obtain ⟨e, he⟩ := List.exists_mem_of_length_pos h2
    obtain ⟨he, hu⟩ := List.mem_filter.1 he
    have hfind : findSession (runSessions H (newSM first) h) e.1 ≠ none := by
      unfold findSession
      rw [ne_eq, Option.map_eq_none_iff, List.find?_eq_none]
      intro hh; exact hh e he (by simp)
    have hfs : findSession (runSessions H (newSM first) h) e.1 = some e.2 := by
      unfold findSession
      have hnd := hc.nodup
      generalize (runSessions H (newSM first) h).sessions = l at he hnd
      induction l with
      | nil => cases he
      | cons x l ih =>
        rw [List.map_cons, List.nodup_cons] at hnd
        rcases List.mem_cons.1 he with rfl | he
        · rw [List.find?_cons_of_pos (by simp)]; rfl
        · rw [List.find?_cons_of_neg, ih he hnd.2]
          simp only [decide_eq_true_eq]
          intro hx; exact hnd.1 (List.mem_map.2 ⟨e, he, hx.symm⟩)
    obtain ⟨u', d, k, hlive, hee⟩ := (session_iff H hs e.1 e.2).1 hfs
    have : u' = l.user := by
      have := of_decide_eq_true hu
      rw [hee] at this; exact this
    subst this
    exact hno _ _ _ hlive

/-! ## Violations -/

/-- **A token with a short key makes the server read past the end of it.** -/
theorem short_key_violated (H : Bytes → Bytes) (hH : ∀ x, 4 ≤ (H x).length) {first : Nat} {h : List SOp}
    (hs : Short first h) (hk : KeysFit h) {id : Nat} {u d k : Bytes} (hl : Live first h id u d k) :
    openWith H ⟨id, []⟩ (runSessions H (newSM first) h) = .ub := by
  obtain ⟨c, hc⟩ := live_mem hl
  have hkl := hk _ _ _ _ hc
  have he := (session_iff H hs id _).2 ⟨u, d, k, hl, rfl⟩
  have := hH d
  simp only [openWith, getSeed, he, List.length_nil]
  rw [if_pos]
  · rfl
  · rw [mask_length, List.length_append, seedSum, List.length_take]; omega

/-- **There are keys that open the wallet with another seed**: one for every seed of the same length. -/
theorem forged_key_violated (H : Bytes → Bytes) (hH : ∀ x, 4 ≤ (H x).length) {first : Nat} {h : List SOp}
    (hs : Short first h) (hk : KeysFit h) {id : Nat} {u d k : Bytes} (hl : Live first h id u d k)
    {s : Bytes} (hlen : s.length = d.length) :
    ∃ key, key.length = k.length ∧ openWith H ⟨id, key⟩ (runSessions H (newSM first) h) = .ok (u, s) := by
  have hsum : ∀ x, (seedSum H x).length = 4 := by
    intro x; rw [seedSum, List.length_take]; have := hH x; omega
  obtain ⟨c, hc⟩ := live_mem hl
  have hkl := hk _ _ _ _ hc
  have hm : (mask (d ++ seedSum H d) k).length = d.length + 4 := by
    rw [mask_length, List.length_append, hsum]; omega
  have hkey : (mask (mask (d ++ seedSum H d) k) (s ++ seedSum H s)).length = d.length + 4 := by
    rw [mask_length, hm, List.length_append, hsum]; omega
  refine ⟨mask (mask (d ++ seedSum H d) k) (s ++ seedSum H s), by omega,
    (opens_iff H hH hs hk _ u s).2 ⟨d, k, hl, by simp only; omega, ?_⟩⟩
  exact mask_swap _ _ (by rw [hm, List.length_append, hsum]; omega)

/-- **Bytes after the key are ignored**: tokens that were never issued are accepted. -/
theorem longer_key_violated (H : Bytes → Bytes) (hH : ∀ x, 4 ≤ (H x).length) {first : Nat} {h : List SOp}
    (hs : Short first h) (hk : KeysFit h) {id : Nat} {u d k : Bytes} (hl : Live first h id u d k) (junk : Bytes) :
    openWith H ⟨id, k ++ junk⟩ (runSessions H (newSM first) h) = .ok (u, d) := by
  have hsum : ∀ x, (seedSum H x).length = 4 := by
    intro x; rw [seedSum, List.length_take]; have := hH x; omega
  obtain ⟨c, hc⟩ := live_mem hl
  have hkl := hk _ _ _ _ hc
  refine (opens_iff H hH hs hk _ u d).2 ⟨d, k, hl, by simp only [List.length_append]; omega, ?_⟩
  have hm : (mask (d ++ seedSum H d) k).length = k.length := by
    rw [mask_length, List.length_append, hsum]; omega
  rw [← mask_take, hm]
  simp only [List.take_left']
  exact mask_mask _ _ (by rw [List.length_append, hsum]; omega)

/-- **Anyone who knows or guesses the id can end a session**: logging out does not look at the key. -/
theorem logout_forged_violated (H : Bytes → Bytes) {first : Nat} {h : List SOp}
    (hs : Short first h) (id : Nat) (key : Bytes) (t : Token) (ht : t.id = id) :
    openWith H t (runSessions H (newSM first) (h ++ [.logout ⟨id, key⟩])) = .throw := by
  refine (dead_refused H ⟨hs.first, ?_⟩ t ?_).1
  · rw [logins_append]; exact hs.logins
  · intro u d k hlive
    rw [live_logout] at hlive
    exact hlive.2 ht.symm

/-- **The listener keeps the first token.**  A user logs in twice and logs out of the first session: the listener that
receives payments still runs, with a token that is refused, although the second session is open. -/
theorem stale_listener_violated (H : Bytes → Bytes) (hH : ∀ x, 4 ≤ (H x).length) (u d k₁ k₂ : Bytes)
    (h1 : k₁.length = d.length + 4) (h2 : k₂.length = d.length + 4) :
    let s := runSessions H (newSM 0) [.login u d k₁ true, .login u d k₂ true, .logout ⟨0, k₁⟩]
    s.listeners.map (·.token) = [⟨0, k₁⟩] ∧ openWith H ⟨0, k₁⟩ s = .throw ∧ openWith H ⟨1, k₂⟩ s = .ok (u, d) := by
  have hs : Short 0 [.login u d k₁ true, .login u d k₂ true, .logout ⟨0, k₁⟩] := ⟨by decide, by simp [logins]⟩
  have hk : KeysFit [.login u d k₁ true, .login u d k₂ true, .logout ⟨0, k₁⟩] := by
    intro u' d' k' c hm
    simp only [List.mem_cons, SOp.login.injEq, reduceCtorEq, List.not_mem_nil, or_false] at hm
    rcases hm with ⟨rfl, rfl, rfl, rfl⟩ | ⟨rfl, rfl, rfl, rfl⟩ <;> assumption
  refine ⟨?_, ?_, ?_⟩
  · simp [runSessions, stepSession, login, newSM, startListener, logout, findSession, eraseSession, stopListener]
  · exact logout_forged_violated H (h := [.login u d k₁ true, .login u d k₂ true]) ⟨by decide, by simp [logins]⟩ 0 k₁ _ rfl
  · refine issued_opens H hH hs hk ⟨[.login u d k₁ true], true, [.logout ⟨0, k₁⟩], rfl, by simp [logins], ?_⟩
    intro t ht
    simp only [List.mem_singleton, SOp.logout.injEq] at ht
    rw [ht]; exact Nat.zero_ne_one

/-- **A failed login stays logged in**: no token is returned, but the session exists and the wallet cannot be
deleted. -/
theorem failed_login_violated (H : Bytes → Bytes) (u d k : Bytes) :
    (login H u d k false (newSM 0)).2 = none ∧ deletable u (login H u d k false (newSM 0)).1 = false ∧
      getWallet ⟨0, []⟩ (login H u d k false (newSM 0)).1 = .ok u := by
  simp [login, newSM, startListener, deletable, openWallet, getWallet, findSession]

/-- A history that meets the hypotheses: two users, one of whom logs out. -/
example : Short 5 [.login [1] [7] [1, 2, 3, 4, 5] true, .login [2] [8] [5, 4, 3, 2, 1] true, .logout ⟨5, []⟩] ∧
    KeysFit [.login [1] [7] [1, 2, 3, 4, 5] true, .login [2] [8] [5, 4, 3, 2, 1] true, .logout ⟨5, []⟩] ∧
    Live 5 [.login [1] [7] [1, 2, 3, 4, 5] true, .login [2] [8] [5, 4, 3, 2, 1] true, .logout ⟨5, []⟩] 6
      [2] [8] [5, 4, 3, 2, 1] := by
  refine ⟨⟨by decide, by simp [logins]⟩, ?_, ⟨[.login [1] [7] [1, 2, 3, 4, 5] true], true, _, rfl, by simp [logins], ?_⟩⟩
  · intro u d k c hm
    simp only [List.mem_cons, SOp.login.injEq, reduceCtorEq, List.not_mem_nil, or_false] at hm
    rcases hm with ⟨rfl, rfl, rfl, rfl⟩ | ⟨rfl, rfl, rfl, rfl⟩ <;> rfl
  · intro t ht
    simp only [List.mem_singleton, SOp.logout.injEq] at ht
    rw [ht]; decide

end Verif.Props
