import Verif.Wallet.Owner
import Verif.Props.Base64
import Verif.Props.Session

/-!
# Who may do what through the owner interface
-/
namespace Verif.Props
open Verif Verif.Codec Verif.Wallet Verif.Owner

/-- Other secrets for some users: another `seed.json`, another wallet, other masked seeds in their sessions, other tokens in their listeners. -/
structure Secrets (W : Type) where
  mine : Bytes → Bool
  seed : Bytes → Bytes
  wallet : Bytes → W
  masked : Nat → Bytes
  token : Bytes → Token

/-- The same world, but for the secrets of those users. -/
def Secrets.swap {W E : Type} (σ : Secrets W) (w : World W E) : World W E where
  sm :=
    { w.sm with
      sessions := w.sm.sessions.map fun e => if σ.mine e.2.user then (e.1, ⟨e.2.user, σ.masked e.1⟩) else e
      listeners := w.sm.listeners.map fun l => if σ.mine l.user then { l with token := σ.token l.user } else l }
  seeds := w.seeds.map fun e => if σ.mine e.1 then (e.1, σ.seed e.1) else e
  wallets := fun u => if σ.mine u then σ.wallet u else w.wallets u
  env := w.env

/-- The request carries no key and no password of the users `V`, and does not log them out. -/
structure Stranger {W E : Type} (P : Parts W E) (V : Bytes → Bool) (r : Req) (w : World W E) : Prop where
  token : ∀ j t e, r.params = some j → tokenIn j = .ok t → findSession w.sm t.id = some e → V e.user = true →
    openWith P.H t w.sm = .throw
  password : ∀ j u p enc, r.params = some j → credIn j = .ok (u, p) → V (Names.toLower u) = true →
    w.seeds.lookup (Names.toLower u) = some enc → P.decrypt enc p = none
  logout : ∀ j t e, r.method = str "logout" → r.params = some j → tokenIn j = .ok t → findSession w.sm t.id = some e → V e.user = false

/-- The users `V` have wallets, with names in small letters, as the interface makes them. -/
def Present {W E : Type} (V : Bytes → Bool) (w : World W E) : Prop :=
  ∀ u, V u = true → Names.toLower u = u ∧ (w.seeds.lookup u).isSome

/-- At least `k` more logins until a session number comes again. -/
def Room {W E : Type} (k : Nat) (w : World W E) : Prop :=
  w.sm.next < 2 ^ 64 ∧ ∀ e ∈ w.sm.sessions, ∃ i, i + k < 2 ^ 64 ∧ (e.1 + i + 1) % 2 ^ 64 = w.sm.next

/-- What the users `V` have is as it was. -/
structure SessionKept {W E : Type} (V : Bytes → Bool) (w w' : World W E) : Prop where
  wallets : ∀ u, V u = true → w'.wallets u = w.wallets u
  seeds : ∀ u, V u = true → w'.seeds.lookup u = w.seeds.lookup u
  sessions : ∀ id e, V e.user = true → (findSession w'.sm id = some e ↔ findSession w.sm id = some e)
  listeners : ∀ l, V l.user = true → (l ∈ w'.sm.listeners ↔ l ∈ w.sm.listeners)
  opened : ∀ u, V u = true → (u ∈ w'.sm.opened ↔ u ∈ w.sm.opened)

section
variable {W E : Type} (P : Parts W E)
set_option linter.unusedSectionVars false

private theorem kept_refl (V : Bytes → Bool) (w : World W E) : SessionKept V w w :=
  ⟨fun _ _ => rfl, fun _ _ => rfl, fun _ _ _ => Iff.rfl, fun _ _ => Iff.rfl, fun _ _ => Iff.rfl⟩

private theorem kept_env (V : Bytes → Bool) (w : World W E) (e : E) : SessionKept V w { w with env := e } :=
  ⟨fun _ _ => rfl, fun _ _ => rfl, fun _ _ _ => Iff.rfl, fun _ _ => Iff.rfl, fun _ _ => Iff.rfl⟩

private theorem kept_trans {V : Bytes → Bool} {a b c : World W E} (h : SessionKept V a b) (k : SessionKept V b c) : SessionKept V a c :=
  ⟨fun u hu => (k.wallets u hu).trans (h.wallets u hu), fun u hu => (k.seeds u hu).trans (h.seeds u hu),
    fun i e he => (k.sessions i e he).trans (h.sessions i e he), fun l hl => (k.listeners l hl).trans (h.listeners l hl),
    fun u hu => (k.opened u hu).trans (h.opened u hu)⟩

/-! ### The parts under `swap` -/

private theorem find_swap (σ : Secrets W) (w : World W E) (id : Nat) :
    findSession (σ.swap w).sm id =
      (findSession w.sm id).map fun e => if σ.mine e.user then ⟨e.user, σ.masked id⟩ else e := by
  unfold findSession Secrets.swap
  dsimp only
  induction w.sm.sessions with
  | nil => rfl
  | cons a l ih =>
    rw [List.map_cons]
    cases hm : σ.mine a.2.user with
    | true =>
      by_cases h : a.1 = id
      · simp [h, hm]
      · simp only [if_true]
        rw [List.find?_cons_of_neg (by simp [h]), List.find?_cons_of_neg (by simp [h])]
        exact ih
    | false =>
      by_cases h : a.1 = id
      · simp [h, hm]
      · simp only [Bool.false_eq_true, if_false]
        rw [List.find?_cons_of_neg (by simp [h]), List.find?_cons_of_neg (by simp [h])]
        exact ih

private theorem lookup_swap (σ : Secrets W) (w : World W E) (u : Bytes) :
    (σ.swap w).seeds.lookup u = (w.seeds.lookup u).map fun s => if σ.mine u then σ.seed u else s := by
  unfold Secrets.swap
  dsimp only
  induction w.seeds with
  | nil => rfl
  | cons a l ih =>
    obtain ⟨a, s⟩ := a
    rw [List.map_cons]
    by_cases h : u = a
    · subst h
      cases hm : σ.mine u <;> simp [List.lookup]
    · have h' : (u == a) = false := by simpa using h
      cases hm : σ.mine a <;> simp [List.lookup, h', ih]

private theorem taken_swap (σ : Secrets W) (w : World W E) (n : Bytes) : taken (σ.swap w) n = taken w n := by
  unfold taken Secrets.swap
  dsimp only
  rw [List.any_map]
  congr 1
  funext e
  simp only [Function.comp]
  split <;> rfl

private theorem inside_swap (σ : Secrets W) (m u s : Bytes) (j : Json) (w : World W E) (hu : σ.mine u = false) :
    inside P m u s j (σ.swap w) = ((inside P m u s j w).1, σ.swap (inside P m u s j w).2) := by
  have hw : (σ.swap w).wallets u = w.wallets u := by simp [Secrets.swap, hu]
  have he : (σ.swap w).env = w.env := rfl
  unfold inside
  rw [hw, he]
  unfold Secrets.swap
  dsimp only
  congr 2
  funext x
  by_cases h : x = u
  · subst h; simp [hu]
  · simp [h]

private theorem kept_inside (V : Bytes → Bool) (m u s : Bytes) (j : Json) (w : World W E) (hu : V u = false) :
    SessionKept V w (inside P m u s j w).2 := by
  refine ⟨fun x hx => ?_, fun _ _ => rfl, fun _ _ _ => Iff.rfl, fun _ _ => Iff.rfl, fun _ _ => Iff.rfl⟩
  have : x ≠ u := by rintro rfl; rw [hu] at hx; exact Bool.noConfusion hx
  simp [inside, this]

/-- A token that opens a wallet is one of a session of its user. -/
private theorem open_find {H : Bytes → Bytes} {t : Token} {s : SM} {u d : Bytes} (h : openWith H t s = .ok (u, d)) :
    ∃ e, findSession s t.id = some e ∧ e.user = u := by
  unfold openWith at h
  rw [Res.bind_eq_ok] at h
  obtain ⟨a, -, h⟩ := h
  rw [Res.bind_eq_ok] at h
  obtain ⟨b, hb, h⟩ := h
  unfold getWallet at hb
  cases hf : findSession s t.id with
  | none => rw [hf] at hb; cases hb
  | some e =>
    rw [hf] at hb
    cases hb
    cases h
    exact ⟨e, rfl, rfl⟩

private theorem open_same {H : Bytes → Bytes} {t : Token} {s s' : SM} (h : findSession s t.id = findSession s' t.id) :
    openWith H t s = openWith H t s' := by
  unfold openWith getSeed getWallet
  rw [h]

private theorem open_swap {σ : Secrets W} {r : Req} {w : World W E} (h1 : Stranger P σ.mine r w) (h2 : Stranger P σ.mine r (σ.swap w))
    {j : Json} {t : Token} (hj : r.params = some j) (ht : tokenIn j = .ok t) :
    openWith P.H t (σ.swap w).sm = openWith P.H t w.sm ∧ ∀ u d, openWith P.H t w.sm = .ok (u, d) → σ.mine u = false := by
  cases hf : findSession w.sm t.id with
  | none =>
    refine ⟨open_same (by rw [find_swap, hf]; rfl), fun u d h => ?_⟩
    obtain ⟨e, he, -⟩ := open_find h
    rw [hf] at he
    cases he
  | some e =>
    cases hm : σ.mine e.user with
    | true =>
      have a := h1.token j t e hj ht hf hm
      have b := h2.token j t ⟨e.user, σ.masked t.id⟩ hj ht (by rw [find_swap, hf]; simp [hm]) hm
      exact ⟨b.trans a.symm, fun u d h => by rw [a] at h; cases h⟩
    | false =>
      refine ⟨open_same (by rw [find_swap, hf]; simp [hm]), fun u d h => ?_⟩
      obtain ⟨e', he, rfl⟩ := open_find h
      rw [hf] at he
      cases he
      exact hm

private theorem seed_swap {σ : Secrets W} {r : Req} {w : World W E} (h1 : Stranger P σ.mine r w) (h2 : Stranger P σ.mine r (σ.swap w))
    {j : Json} {u p : Bytes} (hj : r.params = some j) (hc : credIn j = .ok (u, p)) :
    seedWith P (Names.toLower u) p (σ.swap w) = seedWith P (Names.toLower u) p w ∧
      ∀ d, seedWith P (Names.toLower u) p w = some d → σ.mine (Names.toLower u) = false := by
  unfold seedWith
  have hl := lookup_swap σ w (Names.toLower u)
  cases hf : w.seeds.lookup (Names.toLower u) with
  | none => rw [hf] at hl; rw [hl]; exact ⟨rfl, fun d h => nomatch h⟩
  | some enc =>
    rw [hf] at hl
    cases hm : σ.mine (Names.toLower u) with
    | true =>
      have a := h1.password j u p enc hj hc hm hf
      have b := h2.password j u p (σ.seed (Names.toLower u)) hj hc hm (by rw [hl]; simp [hm])
      rw [hl]
      simp only [hm, Option.map_some, if_true]
      rw [a, b]
      exact ⟨rfl, fun d h => nomatch h⟩
    | false =>
      rw [hl]
      simp [hm]

private theorem start_swap (σ : Secrets W) (c : Bool) (u : Bytes) (t : Token) (ls : List Listener) (hu : σ.mine u = false) :
    startListener c u t (ls.map fun l => if σ.mine l.user then { l with token := σ.token l.user } else l) =
      (startListener c u t ls).map (fun ls => ls.map fun l => if σ.mine l.user then { l with token := σ.token l.user } else l) := by
  have ha : (ls.map fun l => if σ.mine l.user then { l with token := σ.token l.user } else l).any (fun l => decide (l.user = u)) =
      ls.any (fun l => decide (l.user = u)) := by
    rw [List.any_map]
    congr 1
    funext l
    simp only [Function.comp]
    split <;> rfl
  unfold startListener
  rw [ha]
  split
  · simp only [Option.map_some, List.map_map]
    congr 2
    funext l
    simp only [Function.comp]
    by_cases h : l.user = u
    · simp [h, hu]
    · cases hm : σ.mine l.user <;> simp [h, hm]
  · split
    · simp [hu]
    · rfl

private theorem login_swap (σ : Secrets W) (u d k : Bytes) (c : Bool) (w : World W E) (hu : σ.mine u = false) :
    Wallet.login P.H u d k c (σ.swap w).sm =
      ((σ.swap { w with sm := (Wallet.login P.H u d k c w.sm).1 }).sm, (Wallet.login P.H u d k c w.sm).2) := by
  have he : eraseSession w.sm.next (w.sm.sessions.map fun e => if σ.mine e.2.user then (e.1, ⟨e.2.user, σ.masked e.1⟩) else e) =
      (eraseSession w.sm.next w.sm.sessions).map fun e => if σ.mine e.2.user then (e.1, ⟨e.2.user, σ.masked e.1⟩) else e := by
    unfold eraseSession
    rw [List.filter_map]
    congr 2
    funext e
    simp only [Function.comp]
    split <;> rfl
  have hs := start_swap σ c u ⟨w.sm.next, k⟩ w.sm.listeners hu
  unfold Wallet.login Secrets.swap
  dsimp only
  rw [he, hs]
  cases startListener c u ⟨w.sm.next, k⟩ w.sm.listeners with
  | none => simp [hu]
  | some ls => simp [hu]

private theorem enter_swap (σ : Secrets W) (m u d : Bytes) (j : Json) (w : World W E) (hu : σ.mine u = false) :
    enter P m u d j (σ.swap w) = ((enter P m u d j w).1, σ.swap (enter P m u d j w).2) := by
  have he : (σ.swap w).env = w.env := rfl
  have hl := login_swap P σ u d (P.random (d.length + 4) w.env).1 (P.listens (P.random (d.length + 4) w.env).2).1 w hu
  unfold enter
  simp only [he, hl]
  cases (Wallet.login P.H u d (P.random (d.length + 4) w.env).1 (P.listens (P.random (d.length + 4) w.env).2).1 w.sm).2 with
  | none => rfl
  | some t =>
    dsimp only
    rw [show ({ sm := (σ.swap { w with sm := (Wallet.login P.H u d (P.random (d.length + 4) w.env).1 (P.listens (P.random (d.length + 4) w.env).2).1 w.sm).1 }).sm,
                seeds := (σ.swap w).seeds, wallets := (σ.swap w).wallets, env := (P.listens (P.random (d.length + 4) w.env).2).2 } : World W E) =
        σ.swap { w with sm := (Wallet.login P.H u d (P.random (d.length + 4) w.env).1 (P.listens (P.random (d.length + 4) w.env).2).1 w.sm).1,
                        env := (P.listens (P.random (d.length + 4) w.env).2).2 } from rfl]
    rw [inside_swap P σ m u d j _ hu]

private theorem store_swap (σ : Secrets W) (n enc : Bytes) (w : World W E) (hn : σ.mine n = false) :
    store P n enc (σ.swap w) = σ.swap (store P n enc w) := by
  unfold store Secrets.swap
  dsimp only
  congr 1
  · simp [hn]
  · funext x
    by_cases h : x = n
    · subst h; simp [hn]
    · simp [h]

private theorem fresh_name {V : Bytes → Bool} {w : World W E} (hp : Present V w) {n : Bytes} (ht : taken w n = false) : V n = false := by
  cases hv : V n with
  | false => rfl
  | true =>
    exfalso
    obtain ⟨hl, hs⟩ := hp n hv
    obtain ⟨enc, he⟩ := Option.isSome_iff_exists.1 hs
    have hm : (n, enc) ∈ w.seeds := by
      clear ht hs hp
      revert he
      generalize w.seeds = l
      intro he
      induction l with
      | nil => cases he
      | cons a l ih =>
        obtain ⟨a, b⟩ := a
        by_cases h : n = a
        · subst h
          simp [List.lookup] at he
          subst he
          exact List.mem_cons_self
        · have h' : (n == a) = false := by simpa using h
          simp only [List.lookup, h'] at he
          exact List.mem_cons_of_mem _ (ih he)
    unfold taken at ht
    rw [List.any_eq_false] at ht
    exact ht _ hm (by simpa using hl)

private theorem make_swap (σ : Secrets W) (m n p : Bytes) (sd : E → Option Bytes × E) (j : Json) (w : World W E) (hp : Present σ.mine w) :
    make P m n p sd j (σ.swap w) = ((make P m n p sd j w).1, σ.swap (make P m n p sd j w).2) := by
  unfold make
  cases P.bad m j with
  | some why => rfl
  | none =>
    dsimp only
    rw [taken_swap]
    cases ht : taken w n with
    | true => rfl
    | false =>
      have hn := fresh_name hp ht
      simp only [Bool.false_eq_true, if_false]
      by_cases h1 : p = []
      · simp only [if_pos h1]
      · simp only [if_neg h1]
        cases P.unfit m j with
        | true => rfl
        | false =>
          simp only [Bool.false_eq_true, if_false]
          have he : (σ.swap w).env = w.env := rfl
          rw [he]
          cases (sd w.env).1 with
          | none => rfl
          | some d =>
            dsimp only
            have hl : (List.lookup n (σ.swap w).seeds).isSome = (List.lookup n w.seeds).isSome := by
              rw [lookup_swap]; cases List.lookup n w.seeds <;> rfl
            rw [hl]
            split
            · rfl
            · rw [show ({ sm := (σ.swap w).sm, seeds := (σ.swap w).seeds, wallets := (σ.swap w).wallets,
                          env := (P.encrypt d p (sd w.env).2).2 } : World W E) =
                  σ.swap { w with env := (P.encrypt d p (sd w.env).2).2 } from rfl]
              rw [store_swap P σ _ _ _ hn, enter_swap P σ _ _ _ _ _ hn]

private theorem logout_swap (σ : Secrets W) (t : Token) (w : World W E)
    (h : ∀ e, findSession w.sm t.id = some e → σ.mine e.user = false) :
    { σ.swap w with sm := Wallet.logout t (σ.swap w).sm } = σ.swap { w with sm := Wallet.logout t w.sm } := by
  unfold Wallet.logout
  rw [find_swap]
  cases hf : findSession w.sm t.id with
  | none => rfl
  | some e =>
    have hu := h e hf
    simp only [Option.map_some, hu, Bool.false_eq_true, if_false]
    have hs : stopListener e.user (w.sm.listeners.map fun l => if σ.mine l.user then { l with token := σ.token l.user } else l) =
        (stopListener e.user w.sm.listeners).map fun l => if σ.mine l.user then { l with token := σ.token l.user } else l := by
      unfold stopListener
      rw [List.map_map, List.filter_map, List.filter_map, List.map_map]
      have h1 : ((fun l : Listener => if l.user = e.user then { l with refs := l.refs - 1 } else l) ∘
            fun l => if σ.mine l.user then { l with token := σ.token l.user } else l) =
          ((fun l : Listener => if σ.mine l.user then { l with token := σ.token l.user } else l) ∘
            fun l => if l.user = e.user then { l with refs := l.refs - 1 } else l) := by
        funext l
        simp only [Function.comp]
        by_cases h : l.user = e.user
        · simp [h, hu]
        · cases hm : σ.mine l.user <;> simp [h, hm]
      rw [h1]
      congr 2
      funext l
      simp only [Function.comp]
      by_cases h : l.user = e.user
      · simp [h, hu]
      · cases hm : σ.mine l.user <;> simp [h, hm]
    have he : eraseSession t.id (w.sm.sessions.map fun e => if σ.mine e.2.user then (e.1, ⟨e.2.user, σ.masked e.1⟩) else e) =
        (eraseSession t.id w.sm.sessions).map fun e => if σ.mine e.2.user then (e.1, ⟨e.2.user, σ.masked e.1⟩) else e := by
      unfold eraseSession
      rw [List.filter_map]
      congr 2
      funext e
      simp only [Function.comp]
      split <;> rfl
    unfold Secrets.swap
    dsimp only
    rw [hs, he]
    congr 2
    rw [List.any_map]
    congr 2
    congr 1
    funext l
    simp only [Function.comp]
    split <;> rfl

/-! ### What is kept -/

private theorem find_login (H : Bytes → Bytes) (u d k : Bytes) (c : Bool) (s : SM) (id : Nat) :
    findSession (Wallet.login H u d k c s).1 id =
      if id = s.next then some ⟨u, mask (d ++ seedSum H d) k⟩ else findSession s id := by
  have h : (Wallet.login H u d k c s).1.sessions = (s.next, ⟨u, mask (d ++ seedSum H d) k⟩) :: eraseSession s.next s.sessions := by
    simp only [Wallet.login]; split <;> rfl
  unfold findSession
  rw [h]
  by_cases hi : id = s.next
  · subst hi; simp
  · rw [List.find?_cons_of_neg (by simpa using fun h => hi h.symm), if_neg hi]
    congr 1
    unfold eraseSession
    rw [List.find?_filter]
    congr 1
    funext e
    by_cases he : e.1 = id
    · simp [he, hi]
    · simp [he]

private theorem find_erase (s : SM) (i id : Nat) (ls : List Listener) (o : List Bytes) :
    findSession { s with sessions := eraseSession i s.sessions, listeners := ls, opened := o } id =
      if id = i then none else findSession s id := by
  unfold findSession eraseSession
  dsimp only
  rw [List.find?_filter]
  by_cases hi : id = i
  · subst hi
    rw [if_pos rfl]
    rw [Option.map_eq_none_iff, List.find?_eq_none]
    intro x _
    by_cases h : x.1 = id <;> simp [h]
  · rw [if_neg hi]
    congr 2
    funext e
    by_cases he : e.1 = id
    · simp [he, hi]
    · simp [he]

private theorem room_find {k : Nat} {w : World W E} (hr : Room (k + 1) w) : findSession w.sm w.sm.next = none := by
  unfold findSession
  rw [Option.map_eq_none_iff, List.find?_eq_none]
  intro e he h
  obtain ⟨i, hi, hn⟩ := hr.2 e he
  have h := of_decide_eq_true h
  have := hr.1
  omega

private theorem mem_start {c : Bool} {u : Bytes} {t : Token} {ls ls' : List Listener} (h : startListener c u t ls = some ls') (l : Listener)
    (hl : l.user ≠ u) : l ∈ ls' ↔ l ∈ ls := by
  unfold startListener at h
  split at h
  · cases h
    rw [List.mem_map]
    constructor
    · rintro ⟨a, ha, rfl⟩
      by_cases hh : a.user = u
      · exfalso; simp [hh] at hl
      · simpa [hh] using ha
    · intro h
      exact ⟨l, h, by simp [hl]⟩
  · split at h
    · cases h
      rw [List.mem_append]
      constructor
      · rintro (h | h)
        · exact h
        · rw [List.mem_singleton] at h; subst h; exact absurd rfl hl
      · exact Or.inl
    · cases h

private theorem mem_open (u x : Bytes) (o : List Bytes) (h : x ≠ u) : x ∈ openWallet u o ↔ x ∈ o := by
  unfold openWallet
  split
  · rfl
  · simp [h]

private theorem differ {V : Bytes → Bool} {x u : Bytes} (hx : V x = true) (hu : V u = false) : x ≠ u := by
  rintro rfl; rw [hu] at hx; exact Bool.noConfusion hx

private theorem kept_login (V : Bytes → Bool) (u d k : Bytes) (c : Bool) (w : World W E) (e : E) (hu : V u = false)
    (hf : findSession w.sm w.sm.next = none) :
    SessionKept V w { w with sm := (Wallet.login P.H u d k c w.sm).1, env := e } := by
  refine ⟨fun _ _ => rfl, fun _ _ => rfl, fun id s hs => ?_, fun l hl => ?_, fun x hx => ?_⟩
  · rw [find_login]
    split
    · rename_i h
      subst h
      rw [hf]
      constructor
      · intro h; cases h; exact absurd rfl (differ hs hu)
      · intro h; cases h
    · rfl
  · unfold Wallet.login
    dsimp only
    cases h : startListener c u ⟨w.sm.next, k⟩ w.sm.listeners with
    | none => rfl
    | some ls => exact mem_start h l (differ hl hu)
  · have : (Wallet.login P.H u d k c w.sm).1.opened = openWallet u w.sm.opened := by
      unfold Wallet.login; dsimp only; split <;> rfl
    show x ∈ (Wallet.login P.H u d k c w.sm).1.opened ↔ _
    rw [this]
    exact mem_open u x _ (differ hx hu)

private theorem kept_enter (V : Bytes → Bool) (m u d : Bytes) (j : Json) (w : World W E) (hu : V u = false)
    (hf : findSession w.sm w.sm.next = none) : SessionKept V w (enter P m u d j w).2 := by
  unfold enter
  dsimp only
  have h := kept_login P V u d (P.random (d.length + 4) w.env).1 (P.listens (P.random (d.length + 4) w.env).2).1 w
    (P.listens (P.random (d.length + 4) w.env).2).2 hu hf
  split
  · exact h
  · exact kept_trans h (kept_inside P V m u d j _ hu)

private theorem kept_store (V : Bytes → Bool) (n enc : Bytes) (w : World W E) (hn : V n = false) : SessionKept V w (store P n enc w) := by
  refine ⟨fun u hu => ?_, fun u hu => ?_, fun _ _ _ => Iff.rfl, fun _ _ => Iff.rfl, fun u hu => ?_⟩
  · simp [store, differ hu hn]
  · have : (u == n) = false := by simpa using differ hu hn
    simp [store, List.lookup_append, List.lookup, this]
  · exact mem_open n u _ (differ hu hn)

private theorem kept_make (V : Bytes → Bool) (m n p : Bytes) (sd : E → Option Bytes × E) (j : Json) (w : World W E) (hp : Present V w)
    (hf : findSession w.sm w.sm.next = none) : SessionKept V w (make P m n p sd j w).2 := by
  unfold make
  cases P.bad m j with
  | some why => exact kept_refl V w
  | none =>
    dsimp only
    cases ht : taken w n with
    | true => exact kept_refl V w
    | false =>
      have hn := fresh_name hp ht
      simp only [Bool.false_eq_true, if_false]
      by_cases h1 : p = []
      · simp only [if_pos h1]; exact kept_refl V w
      · simp only [if_neg h1]
        cases P.unfit m j with
        | true => exact kept_refl V w
        | false =>
          simp only [Bool.false_eq_true, if_false]
          cases (sd w.env).1 with
          | none => exact kept_env V w _
          | some d =>
            dsimp only
            split
            · exact kept_env V w _
            · refine kept_trans (kept_env V w (P.encrypt d p (sd w.env).2).2)
                (kept_trans (kept_store P V n (P.encrypt d p (sd w.env).2).1 _ hn) ?_)
              exact kept_enter P V m n d j _ hn hf

private theorem kept_logout (V : Bytes → Bool) (t : Token) (w : World W E)
    (h : ∀ e, findSession w.sm t.id = some e → V e.user = false) : SessionKept V w { w with sm := Wallet.logout t w.sm } := by
  unfold Wallet.logout
  cases hf : findSession w.sm t.id with
  | none => exact kept_refl V w
  | some e =>
    have hu := h e hf
    refine ⟨fun _ _ => rfl, fun _ _ => rfl, fun id s hs => ?_, fun l hl => ?_, fun x hx => ?_⟩
    · dsimp only
      rw [find_erase]
      split
      · rename_i hi
        subst hi
        rw [hf]
        constructor
        · intro h; cases h
        · intro h; cases h; exact absurd rfl (differ hs hu)
      · rfl
    · have hne := differ hl hu
      show l ∈ stopListener e.user w.sm.listeners ↔ _
      unfold stopListener
      rw [List.mem_filter, List.mem_map]
      constructor
      · rintro ⟨⟨a, ha, rfl⟩, -⟩
        by_cases hh : a.user = e.user
        · exfalso; simp [hh] at hne
        · simpa [hh] using ha
      · intro h
        exact ⟨⟨l, h, by simp [hne]⟩, by simp [hne]⟩
    · have hne := differ hx hu
      dsimp only
      split
      · rfl
      · rw [List.mem_filter]; simp [hne]

/-! ### A request -/

private theorem not_first {c : Prop} [Decidable c] {k k' : Kind} {o : Option Kind} (h : (if c then some k else o) = some k') (hk : k ≠ k') :
    o = some k' := by
  by_cases hc : c
  · rw [if_pos hc] at h; exact absurd (Option.some.inj h) hk
  · rw [if_neg hc] at h; exact h

private theorem logout_kind {m : Bytes} (h : kindOf m = some .logout) : m = str "logout" := by
  unfold kindOf at h
  have h := not_first (not_first (not_first h (by decide)) (by decide)) (by decide)
  by_cases hm : m = str "logout"
  · exact hm
  · rw [if_neg hm] at h
    iterate 19 replace h := not_first h (by decide)
    cases h

private theorem token_swap {σ : Secrets W} {r : Req} {w : World W E} (h1 : Stranger P σ.mine r w) (h2 : Stranger P σ.mine r (σ.swap w))
    {j : Json} {t : Token} (hj : r.params = some j) (ht : tokenIn j = .ok t) (m : Bytes) (e : E) :
    withToken P m t j { σ.swap w with env := e } =
      ((withToken P m t j { w with env := e }).1, σ.swap (withToken P m t j { w with env := e }).2) := by
  obtain ⟨ho, hv⟩ := open_swap P h1 h2 hj ht
  unfold withToken
  dsimp only
  rw [ho]
  cases h : openWith P.H t w.sm with
  | ok x =>
    obtain ⟨u, d⟩ := x
    dsimp only
    rw [show ({ σ.swap w with env := e } : World W E) = σ.swap { w with env := e } from rfl]
    exact inside_swap P σ m u d j _ (hv u d h)
  | throw => rfl
  | ub => rfl

private theorem handleWith_swap {σ : Secrets W} {r : Req} {w : World W E} (hp : Present σ.mine w) (h1 : Stranger P σ.mine r w)
    (h2 : Stranger P σ.mine r (σ.swap w)) {j : Json} (hj : r.params = some j) {k : Kind} (hk : kindOf r.method = some k) :
    handleWith P k r.method j (σ.swap w) = ((handleWith P k r.method j w).1, σ.swap (handleWith P k r.method j w).2) := by
  cases k with
  | create =>
    simp only [handleWith]
    cases credIn j with
    | ok x => exact make_swap P σ _ _ _ _ _ _ hp
    | throw => rfl
    | ub => rfl
  | restore =>
    simp only [handleWith]
    cases credIn j with
    | ok x => exact make_swap P σ _ _ _ _ _ _ hp
    | throw => rfl
    | ub => rfl
  | login =>
    simp only [handleWith]
    cases hc : credIn j with
    | ok x =>
      obtain ⟨u, p⟩ := x
      obtain ⟨hs, hv⟩ := seed_swap P h1 h2 hj hc
      dsimp only
      rw [taken_swap, hs]
      split
      · rfl
      · cases h : seedWith P (Names.toLower u) p w with
        | none => rfl
        | some d => exact enter_swap P σ _ _ _ _ _ (hv d h)
    | throw => rfl
    | ub => rfl
  | logout =>
    simp only [handleWith]
    cases ht : tokenIn j with
    | ok t =>
      dsimp only
      rw [logout_swap σ t w fun e he => h1.logout j t e (logout_kind hk) hj ht he]
    | throw => rfl
    | ub => rfl
  | token =>
    simp only [handleWith]
    cases ht : tokenIn j with
    | ok t =>
      dsimp only
      cases P.bad r.method j with
      | some why => rfl
      | none => exact token_swap P h1 h2 hj ht r.method w.env
    | throw => rfl
    | ub => rfl
  | retryTor =>
    simp only [handleWith]
    cases ht : tokenIn j with
    | ok t =>
      have he : (σ.swap w).env = w.env := rfl
      dsimp only
      rw [he]
      split
      · exact token_swap P h1 h2 hj ht r.method _
      · rfl
    | throw => rfl
    | ub => rfl
  | delete =>
    simp only [handleWith]
    cases hc : credIn j with
    | ok x =>
      obtain ⟨u, p⟩ := x
      obtain ⟨hs, hv⟩ := seed_swap P h1 h2 hj hc
      dsimp only
      rw [hs]
      cases h : seedWith P (Names.toLower u) p w with
      | none => rfl
      | some d =>
        have hm := hv d h
        have hd : deletable (Names.toLower u) (σ.swap w).sm = deletable (Names.toLower u) w.sm := rfl
        dsimp only
        rw [hd]
        split
        · unfold Secrets.swap
          dsimp only
          congr 2
          · rw [List.filter_map]
            congr 2
            funext e
            simp only [Function.comp]
            split <;> rfl
          · funext x
            by_cases h : x = Names.toLower u
            · subst h; simp [hm]
            · simp [h]
        · rfl
    | throw => rfl
    | ub => rfl
  | seed =>
    simp only [handleWith]
    cases hc : credIn j with
    | ok x =>
      obtain ⟨u, p⟩ := x
      obtain ⟨hs, hv⟩ := seed_swap P h1 h2 hj hc
      dsimp only
      rw [hs]
      cases seedWith P (Names.toLower u) p w <;> rfl
    | throw => rfl
    | ub => rfl
  | list =>
    have hl : (σ.swap w).seeds.map (fun e => Json.str e.1) = w.seeds.map fun e => Json.str e.1 := by
      unfold Secrets.swap
      dsimp only
      rw [List.map_map]
      congr 1
      funext e
      simp only [Function.comp]
      split <;> rfl
    simp only [handleWith]
    rw [hl]
  | none => rfl

private theorem list_swap (σ : Secrets W) (m : Bytes) (j : Json) (w : World W E) :
    handleWith P .list m j (σ.swap w) = ((handleWith P .list m j w).1, σ.swap (handleWith P .list m j w).2) := by
  have hl : (σ.swap w).seeds.map (fun e => Json.str e.1) = w.seeds.map fun e => Json.str e.1 := by
    unfold Secrets.swap
    dsimp only
    rw [List.map_map]
    congr 1
    funext e
    simp only [Function.comp]
    split <;> rfl
  simp only [handleWith]
  rw [hl]

/-- One request of a stranger: the answer does not depend on the secrets, and what it leaves depends on them only where they are. -/
private theorem handle_swap {σ : Secrets W} {r : Req} {w : World W E} (hp : Present σ.mine w) (h1 : Stranger P σ.mine r w)
    (h2 : Stranger P σ.mine r (σ.swap w)) : handle P r (σ.swap w) = ((handle P r w).1, σ.swap (handle P r w).2) := by
  unfold handle
  cases hk : kindOf r.method with
  | none => rfl
  | some k =>
    cases hj : r.params with
    | some j => exact handleWith_swap P hp h1 h2 hj hk
    | none =>
      cases k
      case list => exact list_swap P σ _ _ w
      all_goals rfl

private theorem kept_token (V : Bytes → Bool) (m : Bytes) (t : Token) (j : Json) (w : World W E)
    (h : ∀ u d, openWith P.H t w.sm = .ok (u, d) → V u = false) : SessionKept V w (withToken P m t j w).2 := by
  unfold withToken
  cases ho : openWith P.H t w.sm with
  | ok x => exact kept_inside P V m x.1 x.2 j w (h x.1 x.2 ho)
  | throw => exact kept_refl V w
  | ub => exact kept_refl V w

private theorem opens_own {V : Bytes → Bool} {r : Req} {w : World W E} (h1 : Stranger P V r w) {j : Json} {t : Token}
    (hj : r.params = some j) (ht : tokenIn j = .ok t) (u d : Bytes) (h : openWith P.H t w.sm = .ok (u, d)) : V u = false := by
  obtain ⟨e, he, rfl⟩ := open_find h
  cases hv : V e.user with
  | false => rfl
  | true => rw [h1.token j t e hj ht he hv] at h; cases h

private theorem knows_own {V : Bytes → Bool} {r : Req} {w : World W E} (h1 : Stranger P V r w) {j : Json} {u p d : Bytes}
    (hj : r.params = some j) (hc : credIn j = .ok (u, p)) (h : seedWith P (Names.toLower u) p w = some d) :
    V (Names.toLower u) = false := by
  cases hv : V (Names.toLower u) with
  | false => rfl
  | true =>
    unfold seedWith at h
    cases hl : w.seeds.lookup (Names.toLower u) with
    | none => rw [hl] at h; cases h
    | some enc =>
      rw [hl] at h
      dsimp only at h
      rw [h1.password j u p enc hj hc hv hl] at h
      cases h

private theorem kept_handleWith {V : Bytes → Bool} {r : Req} {w : World W E} (hp : Present V w) (h1 : Stranger P V r w)
    (hf : findSession w.sm w.sm.next = none) {j : Json} (hj : r.params = some j) {k : Kind} (hk : kindOf r.method = some k) :
    SessionKept V w (handleWith P k r.method j w).2 := by
  cases k with
  | create =>
    simp only [handleWith]
    cases credIn j with
    | ok x => exact kept_make P V _ _ _ _ _ _ hp hf
    | throw => exact kept_refl V w
    | ub => exact kept_refl V w
  | restore =>
    simp only [handleWith]
    cases credIn j with
    | ok x => exact kept_make P V _ _ _ _ _ _ hp hf
    | throw => exact kept_refl V w
    | ub => exact kept_refl V w
  | login =>
    simp only [handleWith]
    cases hc : credIn j with
    | ok x =>
      obtain ⟨u, p⟩ := x
      dsimp only
      split
      · exact kept_refl V w
      · cases h : seedWith P (Names.toLower u) p w with
        | none => exact kept_refl V w
        | some d => exact kept_enter P V _ _ _ _ _ (knows_own P h1 hj hc h) hf
    | throw => exact kept_refl V w
    | ub => exact kept_refl V w
  | logout =>
    simp only [handleWith]
    cases ht : tokenIn j with
    | ok t => exact kept_logout V t w fun e he => h1.logout j t e (logout_kind hk) hj ht he
    | throw => exact kept_refl V w
    | ub => exact kept_refl V w
  | token =>
    simp only [handleWith]
    cases ht : tokenIn j with
    | ok t =>
      dsimp only
      cases P.bad r.method j with
      | some why => exact kept_refl V w
      | none => exact kept_token P V _ _ _ _ (opens_own P h1 hj ht)
    | throw => exact kept_refl V w
    | ub => exact kept_refl V w
  | retryTor =>
    simp only [handleWith]
    cases ht : tokenIn j with
    | ok t =>
      dsimp only
      split
      · exact kept_trans (kept_env V w (P.retry w.env).2)
          (kept_token P V _ _ _ { w with env := (P.retry w.env).2 } (opens_own P h1 hj ht))
      · exact kept_env V w _
    | throw => exact kept_refl V w
    | ub => exact kept_refl V w
  | delete =>
    simp only [handleWith]
    cases hc : credIn j with
    | ok x =>
      obtain ⟨u, p⟩ := x
      dsimp only
      cases h : seedWith P (Names.toLower u) p w with
      | none => exact kept_refl V w
      | some d =>
        have hm := knows_own P h1 hj hc h
        dsimp only
        split
        · refine ⟨fun x hx => ?_, fun x hx => ?_, fun _ _ _ => Iff.rfl, fun _ _ => Iff.rfl, fun _ _ => Iff.rfl⟩
          · simp [differ hx hm]
          · have hne := differ hx hm
            dsimp only
            induction w.seeds with
            | nil => rfl
            | cons a l ih =>
              obtain ⟨a, b⟩ := a
              by_cases ha : a = Names.toLower u
              · rw [List.filter_cons_of_neg (by simp [ha]), ih]
                have : (x == a) = false := by rw [ha]; simpa using hne
                simp [List.lookup, this]
              · rw [List.filter_cons_of_pos (by simp [ha])]
                simp only [List.lookup, ih]
        · exact kept_refl V w
    | throw => exact kept_refl V w
    | ub => exact kept_refl V w
  | seed =>
    simp only [handleWith]
    cases hc : credIn j with
    | ok x =>
      dsimp only
      cases seedWith P (Names.toLower x.1) x.2 w <;> exact kept_refl V w
    | throw => exact kept_refl V w
    | ub => exact kept_refl V w
  | list => exact kept_refl V w
  | none => exact kept_env V w _

private theorem kept_handle {V : Bytes → Bool} {r : Req} {w : World W E} (hp : Present V w) (h1 : Stranger P V r w)
    (hf : findSession w.sm w.sm.next = none) : SessionKept V w (handle P r w).2 := by
  unfold handle
  cases hk : kindOf r.method with
  | none => exact kept_refl V w
  | some k =>
    cases hj : r.params with
    | some j => exact kept_handleWith P hp h1 hf hj hk
    | none =>
      cases k
      case none => exact kept_env V w _
      all_goals exact kept_refl V w

private theorem kept_present {V : Bytes → Bool} {w w' : World W E} (hp : Present V w) (h : SessionKept V w w') : Present V w' :=
  fun u hu => ⟨(hp u hu).1, by rw [h.seeds u hu]; exact (hp u hu).2⟩

/-! ### Numbers of sessions -/

private theorem room_down {k : Nat} {w : World W E} (h : Room (k + 1) w) : Room k w :=
  ⟨h.1, fun e he => by obtain ⟨i, hi, hn⟩ := h.2 e he; exact ⟨i, by omega, hn⟩⟩

private theorem room_sm {k : Nat} {w w' : World W E} (h : Room k w) (hn : w'.sm.next = w.sm.next)
    (hs : ∀ e ∈ w'.sm.sessions, e ∈ w.sm.sessions) : Room k w' :=
  ⟨by rw [hn]; exact h.1, fun e he => by rw [hn]; exact h.2 e (hs e he)⟩

private theorem room_enter {k : Nat} (m u d : Bytes) (j : Json) {w : World W E} (h : Room (k + 1) w) (hk : k < 2 ^ 64) :
    Room k (enter P m u d j w).2 := by
  have hs : ∀ key c, (Wallet.login P.H u d key c w.sm).1.sessions =
      (w.sm.next, ⟨u, mask (d ++ seedSum P.H d) key⟩) :: eraseSession w.sm.next w.sm.sessions := by
    intro key c
    simp only [Wallet.login]; split <;> rfl
  have hn : ∀ key c, (Wallet.login P.H u d key c w.sm).1.next = (w.sm.next + 1) % 2 ^ 64 := by
    intro key c
    simp only [Wallet.login]; split <;> rfl
  have h1 := h.1
  have key : ∀ w' : World W E, w'.sm = (Wallet.login P.H u d (P.random (d.length + 4) w.env).1
      (P.listens (P.random (d.length + 4) w.env).2).1 w.sm).1 → Room k w' := by
    intro w' hw
    refine ⟨by rw [hw, hn]; exact Nat.mod_lt _ (by omega), ?_⟩
    rw [hw, hs, hn]
    intro e he
    rcases List.mem_cons.1 he with rfl | he
    · exact ⟨0, by omega, rfl⟩
    · obtain ⟨i, hi, hh⟩ := h.2 e (List.mem_filter.1 he).1
      exact ⟨i + 1, by omega, by omega⟩
  unfold enter
  dsimp only
  split
  · exact key _ rfl
  · exact key _ rfl

private theorem room_make {k : Nat} (m n p : Bytes) (sd : E → Option Bytes × E) (j : Json) {w : World W E} (h : Room (k + 1) w)
    (hk : k < 2 ^ 64) : Room k (make P m n p sd j w).2 := by
  unfold make
  split
  · exact room_down h
  · split
    · exact room_down h
    · split
      · exact room_down h
      · split
        · exact room_down h
        · dsimp only
          split
          · exact room_down h
          · split
            · exact room_down h
            · exact room_enter P m n _ j (w := store P n _ _) h hk

private theorem room_token {k : Nat} (m : Bytes) (t : Token) (j : Json) {w : World W E} (h : Room k w) :
    Room k (withToken P m t j w).2 := by
  unfold withToken
  split <;> exact h

private theorem room_handle {k : Nat} (r : Req) {w : World W E} (h : Room (k + 1) w) (hk : k < 2 ^ 64) : Room k (handle P r w).2 := by
  have hd := room_down h
  unfold handle
  split
  · exact hd
  · rename_i kd j _ _
    cases kd with
    | create => simp only [handleWith]; split <;> first | exact room_make P _ _ _ _ _ h hk | exact hd
    | restore => simp only [handleWith]; split <;> first | exact room_make P _ _ _ _ _ h hk | exact hd
    | login =>
      simp only [handleWith]
      split
      · split
        · exact hd
        · split
          · exact hd
          · exact room_enter P _ _ _ _ h hk
      · exact hd
      · exact hd
    | logout =>
      simp only [handleWith]
      split
      · refine room_sm hd ?_ ?_
        · show (Wallet.logout _ w.sm).next = _
          unfold Wallet.logout; split <;> rfl
        · show ∀ e ∈ (Wallet.logout _ w.sm).sessions, _
          unfold Wallet.logout
          split
          · exact fun e he => he
          · exact fun e he => (List.mem_filter.1 he).1
      · exact hd
      · exact hd
    | token =>
      simp only [handleWith]
      split
      · split
        · exact hd
        · exact room_token P _ _ _ hd
      · exact hd
      · exact hd
    | retryTor =>
      simp only [handleWith]
      split
      · split
        · exact room_token P _ _ _ (w := { w with env := (P.retry w.env).2 }) hd
        · exact hd
      · exact hd
      · exact hd
    | delete =>
      simp only [handleWith]
      split
      · split
        · exact hd
        · split <;> exact hd
      · exact hd
      · exact hd
    | seed =>
      simp only [handleWith]
      split
      · split <;> exact hd
      · exact hd
      · exact hd
    | list => exact hd
    | none => exact hd
  · exact hd
  · exact hd
  · exact hd

/-! ### All requests -/

/-- All of the requests are a stranger's, each in the state it is handled in. -/
def Strangers (V : Bytes → Bool) : List Req → World W E → Prop
  | [], _ => True
  | r :: rs, w => Stranger P V r w ∧ Strangers V rs (handle P r w).2

/-- **C121.** Whoever has neither a key nor a password of some users, and does not log them out, learns nothing of what they have and changes nothing
of it, whatever is asked, how often, and in what order. -/
theorem owner_strangers_partial (σ : Secrets W) (rs : List Req) (w : World W E) (hp : Present σ.mine w) (hr : Room rs.length w)
    (hk : rs.length < 2 ^ 64) (h1 : Strangers P σ.mine rs w) (h2 : Strangers P σ.mine rs (σ.swap w)) :
    (handleAll P rs (σ.swap w)).1 = (handleAll P rs w).1 ∧
      (handleAll P rs (σ.swap w)).2 = σ.swap (handleAll P rs w).2 ∧
      SessionKept σ.mine w (handleAll P rs w).2 := by
  induction rs generalizing w with
  | nil => exact ⟨rfl, rfl, kept_refl _ w⟩
  | cons r rs ih =>
    have hs := handle_swap P hp h1.1 h2.1
    have hkept := kept_handle P hp h1.1 (room_find hr)
    have h2' := h2.2
    rw [hs] at h2'
    obtain ⟨a, b, c⟩ := ih (handle P r w).2 (kept_present hp hkept) (room_handle P r hr (by simp only [List.length_cons] at hk; omega))
      (by simp only [List.length_cons] at hk; omega) h1.2 h2'
    unfold handleAll
    dsimp only
    rw [hs]
    exact ⟨by rw [a], b, kept_trans hkept c⟩

/-- **C121.** A session lasts through all of that: its token opens the same wallet with the same seed. -/
theorem owner_session_lasts_partial (V : Bytes → Bool) (rs : List Req) (w : World W E) (hp : Present V w) (hr : Room rs.length w)
    (hk : rs.length < 2 ^ 64) (h1 : Strangers P V rs w) (t : Token) (u d : Bytes) (hu : V u = true)
    (ho : openWith P.H t w.sm = .ok (u, d)) : openWith P.H t (handleAll P rs w).2.sm = .ok (u, d) := by
  induction rs generalizing w with
  | nil => exact ho
  | cons r rs ih =>
    have hkept := kept_handle P hp h1.1 (room_find hr)
    refine ih (handle P r w).2 (kept_present hp hkept) (room_handle P r hr (by simp only [List.length_cons] at hk; omega))
      (by simp only [List.length_cons] at hk; omega) h1.2 ?_
    obtain ⟨e, he, rfl⟩ := open_find ho
    rw [← ho]
    exact open_same (by rw [he]; exact (hkept.sessions t.id e hu).2 he)

/-- **C121.** A request changes the wallet or the seed of a user only with a token that opens that wallet or the user's password; for the
session of a user to end it is enough to have its number. -/
theorem owner_change (r : Req) (w : World W E) (hr : Room 1 w) (u : Bytes) (hl : Names.toLower u = u) (hs : (w.seeds.lookup u).isSome)
    (hc : (handle P r w).2.wallets u ≠ w.wallets u ∨ (handle P r w).2.seeds.lookup u ≠ w.seeds.lookup u ∨
      ∃ id e, e.user = u ∧ findSession w.sm id = some e ∧ findSession (handle P r w).2.sm id ≠ some e) :
    ∃ j, r.params = some j ∧
      ((∃ t e, tokenIn j = .ok t ∧ findSession w.sm t.id = some e ∧ e.user = u ∧
          (openWith P.H t w.sm ≠ .throw ∨ r.method = str "logout")) ∨
        ∃ n p enc, credIn j = .ok (n, p) ∧ Names.toLower n = u ∧ w.seeds.lookup u = some enc ∧ P.decrypt enc p ≠ none) := by
  by_contra hno
  have hst : Stranger P (fun x => decide (x = u)) r w := by
    refine ⟨fun j t e hj ht hf hv => ?_, fun j n p enc hj hcr hv hlk => ?_, fun j t e hm hj ht hf => ?_⟩
    · by_contra hne
      exact hno ⟨j, hj, Or.inl ⟨t, e, ht, hf, of_decide_eq_true hv, Or.inl hne⟩⟩
    · by_contra hne
      have hv := of_decide_eq_true hv
      exact hno ⟨j, hj, Or.inr ⟨n, p, enc, hcr, hv, by rw [← hv]; exact hlk, hne⟩⟩
    · rw [decide_eq_false_iff_not]
      exact fun he => hno ⟨j, hj, Or.inl ⟨t, e, ht, hf, he, Or.inr hm⟩⟩
  have hp : Present (fun x => decide (x = u)) w := by
    intro x hx
    have hx := of_decide_eq_true hx
    subst hx
    exact ⟨hl, hs⟩
  have hk := kept_handle P hp hst (room_find hr)
  rcases hc with h | h | ⟨id, e, he, hf, h⟩
  · exact h (hk.wallets u (by simp))
  · exact h (hk.seeds u (by simp))
  · exact h ((hk.sessions id e (by simp [he])).2 hf)

private theorem xor_xor (a : Bytes) : ∀ k : Bytes, a.length ≤ k.length → mask (mask a k) k = a := by
  induction a with
  | nil => intro k _; rfl
  | cons x a ih =>
    intro k h
    cases k with
    | nil => simp at h
    | cons y k =>
      have := ih k (by simpa using h)
      simp only [mask, List.zipWith_cons_cons] at this ⊢
      rw [this, UInt8.xor_assoc, UInt8.xor_self, UInt8.xor_zero]

private theorem login_opens (H : Bytes → Bytes) (hH : ∀ x, 4 ≤ (H x).length) (u d k : Bytes) (c : Bool) (s : SM)
    (hk : k.length = d.length + 4) : openWith H ⟨s.next, k⟩ (Wallet.login H u d k c s).1 = .ok (u, d) := by
  have hsum : (seedSum H d).length = 4 := by
    rw [seedSum, List.length_take]; have := hH d; omega
  have hlen : (mask (d ++ seedSum H d) k).length = d.length + 4 := by
    rw [mask, List.length_zipWith, List.length_append, hsum]; omega
  have hf : findSession (Wallet.login H u d k c s).1 s.next = some ⟨u, mask (d ++ seedSum H d) k⟩ := by
    rw [find_login, if_pos rfl]
  unfold openWith getSeed getWallet
  rw [hf]
  dsimp only
  rw [hlen, if_neg (by omega), xor_xor _ _ (by rw [List.length_append, hsum]; omega)]
  have h4 : (d ++ seedSum H d).length - 4 = d.length := by rw [List.length_append, hsum]; omega
  rw [h4, List.take_left', List.drop_left', if_pos rfl]
  · rfl
  · rfl
  · rfl

/-- **C121.** Who logs in with the right password gets a token, and the next request with it acts in that user's wallet, with that user's seed. -/
theorem owner_login (hH : ∀ x, 4 ≤ (P.H x).length) (hR : ∀ n e, (P.random n e).1.length = n) (w : World W E) (hn : w.sm.next < 2 ^ 64)
    (j : Json) (n p : Bytes) (hc : credIn j = .ok (n, p)) (a : Json) (ha : (handle P ⟨str "login", some j⟩ w).1 = .answer a) :
    ∃ enc d s rest, w.seeds.lookup (Names.toLower n) = some enc ∧ P.decrypt enc p = some d ∧
      a = .obj [("session_token", .str s), rest] ∧
      ∀ m j', kindOf m = some .token → getRequired j' "session_token" = .ok (.str s) → P.bad m j' = none →
        (handle P ⟨m, some j'⟩ (handle P ⟨str "login", some j⟩ w).2).1 =
          (P.act m (Names.toLower n) d j' ((handle P ⟨str "login", some j⟩ w).2.wallets (Names.toLower n))
            (handle P ⟨str "login", some j⟩ w).2.env).1 := by
  have hh : handle P ⟨str "login", some j⟩ w = handleWith P .login (str "login") j w := by
    have hk : kindOf (str "login") = some .login := by decide +kernel
    unfold handle
    dsimp only
    rw [hk]
  rw [hh] at ha ⊢
  simp only [handleWith, hc] at ha ⊢
  split at ha
  · cases ha
  rename_i ht
  rw [if_neg ht]
  cases hsd : seedWith P (Names.toLower n) p w with
  | none => rw [hsd] at ha; cases ha
  | some d =>
    rw [hsd] at ha
    dsimp only at ha ⊢
    obtain ⟨enc, he1, he2⟩ : ∃ enc, w.seeds.lookup (Names.toLower n) = some enc ∧ P.decrypt enc p = some d := by
      unfold seedWith at hsd
      cases hl : w.seeds.lookup (Names.toLower n) with
      | none => rw [hl] at hsd; cases hsd
      | some enc => rw [hl] at hsd; exact ⟨enc, rfl, hsd⟩
    have hop := fun c => login_opens P.H hH (Names.toLower n) d (P.random (d.length + 4) w.env).1 c w.sm (hR _ _)
    have ht2 : ∀ k c t, (Wallet.login P.H (Names.toLower n) d k c w.sm).2 = some t → t = ⟨w.sm.next, k⟩ := by
      intro k c t h
      simp only [Wallet.login] at h
      split at h
      · cases h
      · exact (Option.some.inj h).symm
    unfold enter at ha ⊢
    dsimp only at ha ⊢
    generalize hlog : Wallet.login P.H (Names.toLower n) d (P.random (d.length + 4) w.env).1
      (P.listens (P.random (d.length + 4) w.env).2).1 w.sm = lg at ha ⊢
    have hop := hop (P.listens (P.random (d.length + 4) w.env).2).1
    rw [hlog] at hop
    have ht2 := ht2 (P.random (d.length + 4) w.env).1 (P.listens (P.random (d.length + 4) w.env).2).1
    rw [hlog] at ht2
    cases ht3 : lg.2 with
    | none => rw [ht3] at ha; cases ha
    | some t =>
      rw [ht3] at ha
      have htt := ht2 t ht3
      dsimp only at ha ⊢
      generalize hin : inside P (str "login") (Names.toLower n) d j
        { sm := lg.1, seeds := w.seeds, wallets := w.wallets, env := (P.listens (P.random (d.length + 4) w.env).2).2 } = x at ha ⊢
      have hsm : x.2.sm = lg.1 := by rw [← hin]; rfl
      unfold greet at ha
      split at ha
      · rename_i b hb
        refine ⟨enc, d, tokenText ⟨t.id, t.key⟩, ("wallet", b), he1, he2, (Out.answer.inj ha).symm, ?_⟩
        intro m j' hk hg hbad
        have htok : tokenIn j' = .ok t := by
          unfold tokenIn required
          rw [hg]
          simp only [Res.ok_bind, Json.asString]
          rw [session_token_roundtrip ⟨t.id, t.key⟩ (by rw [htt]; exact hn)]
          rfl
        unfold handle
        dsimp only
        rw [hk]
        simp only [handleWith, htok, hbad, withToken, hsm]
        rw [htt, hop]
        rfl
      · rename_i hno
        cases hx : x.1 with
        | answer b => exact absurd hx (hno b)
        | fail y => rw [hx] at ha; cases ha
        | ub => rw [hx] at ha; cases ha

/-- **C121, violated.** Anyone can end anyone's session, without its key: the number is enough, and numbers are given one after the other. -/
theorem owner_logout_violated (w : World W E) (id : Nat) (hid : id < 2 ^ 64) (e : Session) (_h : findSession w.sm id = some e) (k : Bytes) :
    let r : Req := ⟨str "logout", some (.obj [("session_token", .str (tokenText ⟨id, k⟩))])⟩
    ∀ key, openWith P.H ⟨id, key⟩ (handle P r w).2.sm = .throw := by
  intro r key
  have hk : kindOf (str "logout") = some .logout := by decide +kernel
  have hg : getRequired (.obj [("session_token", .str (tokenText ⟨id, k⟩))]) "session_token" = .ok (.str (tokenText ⟨id, k⟩)) := by
    unfold getRequired Json.get
    simp [Json.isNull, List.lookup]
  have htok : tokenIn (.obj [("session_token", .str (tokenText ⟨id, k⟩))]) = .ok ⟨id, k⟩ := by
    unfold tokenIn required
    rw [hg]
    simp only [Res.ok_bind, Json.asString]
    rw [session_token_roundtrip ⟨id, k⟩ hid]
    rfl
  have hs : (handle P r w).2.sm = Wallet.logout ⟨id, k⟩ w.sm := by
    unfold handle
    dsimp only [r]
    rw [hk]
    simp only [handleWith, htok]
  rw [hs]
  have hf : findSession (Wallet.logout ⟨id, k⟩ w.sm) id = none := by
    unfold Wallet.logout
    rw [_h]
    dsimp only
    rw [find_erase, if_pos rfl]
  unfold openWith getSeed
  rw [hf]
  rfl

/-- **C121, violated.** Anyone can have Tor started anew: the token is looked at only afterwards. -/
theorem owner_retry_violated (w : World W E) (id : Nat) (hid : id < 2 ^ 64) (k : Bytes) (_h : findSession w.sm id = none) :
    let r : Req := ⟨str "retry_tor", some (.obj [("session_token", .str (tokenText ⟨id, k⟩))])⟩
    (handle P r w).2.env = (P.retry w.env).2 := by
  intro r
  have hk : kindOf (str "retry_tor") = some .retryTor := by decide +kernel
  have hg : getRequired (.obj [("session_token", .str (tokenText ⟨id, k⟩))]) "session_token" = .ok (.str (tokenText ⟨id, k⟩)) := by
    unfold getRequired Json.get
    simp [Json.isNull, List.lookup]
  have htok : tokenIn (.obj [("session_token", .str (tokenText ⟨id, k⟩))]) = .ok ⟨id, k⟩ := by
    unfold tokenIn required
    rw [hg]
    simp only [Res.ok_bind, Json.asString]
    rw [session_token_roundtrip ⟨id, k⟩ hid]
    rfl
  have ho : openWith P.H ⟨id, k⟩ w.sm = .throw := by
    unfold openWith getSeed
    rw [_h]
    rfl
  unfold handle
  dsimp only [r]
  rw [hk]
  simp only [handleWith, htok]
  split
  · simp only [withToken, ho]
  · rfl

private theorem lookup_removed (l : List (Bytes × Bytes)) (u : Bytes) : (l.filter fun e => e.1 ≠ u).lookup u = none := by
  induction l with
  | nil => rfl
  | cons e l ih =>
    rw [List.filter_cons]
    by_cases he : e.1 = u
    · simpa [he] using ih
    · rw [if_pos (by simpa using he), List.lookup_cons, show (u == e.1) = false by simpa using fun h => he h.symm]
      exact ih

private theorem lookup_others (l : List (Bytes × Bytes)) (u v : Bytes) (hv : v ≠ u) :
    (l.filter fun e => e.1 ≠ u).lookup v = l.lookup v := by
  induction l with
  | nil => rfl
  | cons e l ih =>
    rw [List.filter_cons]
    by_cases he : e.1 = u
    · rw [if_neg (by simpa using he), List.lookup_cons, show (v == e.1) = false by simpa [he] using hv]
      exact ih
    · rw [if_pos (by simpa using he), List.lookup_cons, List.lookup_cons, ih]

private theorem asString_total (v : Json) : v.asString ≠ .ub := by
  cases v <;> simp [Json.asString]

private theorem stringOpt_total (j : Json) (key : String) : stringOpt j key ≠ .ub := by
  intro h
  unfold stringOpt at h
  cases hg : getOptional j key with
  | ok o =>
    rw [hg, Res.ok_bind] at h
    cases o with
    | none => cases h
    | some v =>
      dsimp only at h
      cases hv : v.asString with
      | ok x => rw [hv] at h; cases h
      | throw => rw [hv] at h; cases h
      | ub => exact asString_total v hv
  | throw => rw [hg] at h; cases h
  | ub =>
    unfold getOptional at hg
    split at hg
    · cases hg
    · cases j <;> simp [Json.get] at hg

private theorem credIn_total (j : Json) : credIn j ≠ .ub := by
  intro h
  unfold credIn at h
  split at h
  · rename_i fs
    cases h1 : stringOpt (.obj fs) "username" with
    | ok u =>
      rw [h1, Res.ok_bind] at h
      cases h2 : stringOpt (.obj fs) "password" with
      | ok p => rw [h2, Res.ok_bind] at h; cases u <;> cases p <;> cases h
      | throw => rw [h2] at h; cases h
      | ub => exact stringOpt_total _ _ h2
    | throw => rw [h1] at h; cases h
    | ub => exact stringOpt_total _ _ h1
  · cases h

/-- **C121.** Showing the seed and deleting a wallet take the password of that wallet: without it, whatever token is given, the
request fails and nothing changes. -/
theorem owner_password_needed (m : Bytes) (hm : m = str "delete_wallet" ∨ m = str "get_wallet_seed") (j : Json) (w : World W E)
    (h : ∀ n p enc, credIn j = .ok (n, p) → w.seeds.lookup (Names.toLower n) = some enc → P.decrypt enc p = none) :
    ∃ why, handle P ⟨m, some j⟩ w = (.fail why, w) := by
  have kd : kindOf (str "delete_wallet") = some .delete := by decide +kernel
  have ks : kindOf (str "get_wallet_seed") = some .seed := by decide +kernel
  unfold handle
  rcases hm with rfl | rfl <;> dsimp only <;> (first | rw [kd] | rw [ks]) <;> dsimp only [handleWith]
  all_goals
    cases hc : credIn j with
    | ub => exact absurd hc (credIn_total j)
    | throw => exact ⟨_, rfl⟩
    | ok x =>
      obtain ⟨n, p⟩ := x
      dsimp only
      have hs : seedWith P (Names.toLower n) p w = none := by
        unfold seedWith
        cases hl : w.seeds.lookup (Names.toLower n) with
        | none => rfl
        | some enc => exact h n p enc hc hl
      rw [hs]
      exact ⟨_, rfl⟩

/-- **C121.** With the password of a wallet its seed is shown, and nothing changes; and the wallet is deleted unless it is open, and
nothing else with it. -/
theorem owner_password_enough (j : Json) (w : World W E) (n p enc d : Bytes) (hc : credIn j = .ok (n, p))
    (hl : w.seeds.lookup (Names.toLower n) = some enc) (hd : P.decrypt enc p = some d) :
    handle P ⟨str "get_wallet_seed", some j⟩ w = (.answer (.obj [("wallet_seed", .str (P.words d))]), w) ∧
    (Names.toLower n ∈ w.sm.opened → ∃ why, handle P ⟨str "delete_wallet", some j⟩ w = (.fail why, w)) ∧
    (Names.toLower n ∉ w.sm.opened → ∃ a w', handle P ⟨str "delete_wallet", some j⟩ w = (.answer a, w') ∧
      w'.seeds.lookup (Names.toLower n) = none ∧ w'.wallets (Names.toLower n) = P.fresh ∧
      w'.sm = w.sm ∧ w'.env = w.env ∧
      ∀ u, u ≠ Names.toLower n → w'.seeds.lookup u = w.seeds.lookup u ∧ w'.wallets u = w.wallets u) := by
  have kd : kindOf (str "delete_wallet") = some .delete := by decide +kernel
  have ks : kindOf (str "get_wallet_seed") = some .seed := by decide +kernel
  have hs : seedWith P (Names.toLower n) p w = some d := by
    unfold seedWith
    rw [hl]
    exact hd
  refine ⟨?_, fun ho => ?_, fun ho => ?_⟩
  · unfold handle
    dsimp only
    rw [ks]
    simp only [handleWith, hc, hs]
  · unfold handle
    dsimp only
    rw [kd]
    simp only [handleWith, hc, hs, deletable, ho, decide_true, Bool.not_true, Bool.false_eq_true, if_false]
    exact ⟨_, rfl⟩
  · unfold handle
    dsimp only
    rw [kd]
    simp only [handleWith, hc, hs, deletable, ho, decide_false, Bool.not_false, if_true]
    refine ⟨_, _, rfl, ?_, ?_, rfl, rfl, fun u hu => ⟨?_, ?_⟩⟩
    · exact lookup_removed w.seeds _
    · simp
    · exact lookup_others w.seeds _ u hu
    · simp [hu]

end

/-! ### A case -/

private def exP : Parts Nat Nat where
  H := fun x => [UInt8.ofNat x.length, 1, 2, 3]
  decrypt := fun enc p => if enc.take 3 = p then some (enc.drop 3) else none
  encrypt := fun d p e => (p ++ d, e)
  random := fun n e => (List.replicate n (UInt8.ofNat e), e + 1)
  listens := fun e => (true, e)
  retry := fun e => (true, e + 100)
  fresh := 0
  act := fun _ _ _ _ w e => (.answer (.int w), w + 1, e)
  words := id
  entropy := some
  outside := fun _ _ e => (.answer .null, e)
  bad := fun _ _ => none
  unfit := fun _ _ => false

private def exW : World Nat Nat where
  sm := (Wallet.login exP.H (str "ann") [5, 6] [9, 9, 9, 9, 9, 9] true (newSM 7)).1
  seeds := [(str "ann", [1, 1, 1, 5, 6]), (str "bob", [2, 2, 2, 8])]
  wallets := fun u => if u = str "ann" then 1000 else 20
  env := 3

/-- Someone guesses ann's password, and a key for the number of ann's session; and logs in as bob. -/
private def exR : List Req :=
  [⟨str "login", some (.obj [("username", .str (str "Ann")), ("password", .str [3, 3, 3])])⟩,
    ⟨str "get_balance", some (.obj [("session_token", .str (tokenText ⟨7, [0, 0, 0, 0, 0, 0]⟩))])⟩,
    ⟨str "login", some (.obj [("username", .str (str "bob")), ("password", .str [2, 2, 2])])⟩]

private def exS : Secrets Nat :=
  ⟨fun u => decide (u = str "ann"), fun _ => [4, 4, 4, 7], fun _ => 5, fun _ => [8, 8, 8, 8, 8, 8], fun _ => ⟨0, []⟩⟩

private theorem ex_strangers (w : World Nat Nat) (hl : ∃ enc, w.seeds.lookup (str "ann") = some enc ∧ exP.decrypt enc [3, 3, 3] = none)
    (ht : openWith exP.H ⟨7, [0, 0, 0, 0, 0, 0]⟩ w.sm = .throw) :
    Strangers exP exS.mine exR w := by
  obtain ⟨enc, h1, h2⟩ := hl
  have kl : kindOf (str "login") = some .login := by decide +kernel
  have kb : kindOf (str "get_balance") = some .token := by decide +kernel
  have ca : credIn (.obj [("username", .str (str "Ann")), ("password", .str [3, 3, 3])]) = .ok (str "Ann", [3, 3, 3]) := by rfl
  have cb : credIn (.obj [("username", .str (str "bob")), ("password", .str [2, 2, 2])]) = .ok (str "bob", [2, 2, 2]) := by rfl
  have ta : tokenIn (.obj [("username", .str (str "Ann")), ("password", .str [3, 3, 3])]) = .throw := by rfl
  have tb : tokenIn (.obj [("username", .str (str "bob")), ("password", .str [2, 2, 2])]) = .throw := by rfl
  have ct : credIn (.obj [("session_token", .str (tokenText ⟨7, [0, 0, 0, 0, 0, 0]⟩))]) = .throw := by rfl
  have tt : tokenIn (.obj [("session_token", .str (tokenText ⟨7, [0, 0, 0, 0, 0, 0]⟩))]) = .ok ⟨7, [0, 0, 0, 0, 0, 0]⟩ := by
    show (do let t ← tokenOfText (tokenText ⟨7, [0, 0, 0, 0, 0, 0]⟩); return (⟨t.id, t.key⟩ : Token)) = _
    rw [session_token_roundtrip _ (by decide)]
    rfl
  have la : Names.toLower (str "Ann") = str "ann" := by decide +kernel
  have lb : Names.toLower (str "bob") = str "bob" := by decide +kernel
  have nl : str "login" ≠ str "logout" := by decide +kernel
  have nb : str "get_balance" ≠ str "logout" := by decide +kernel
  have s1 : (handle exP (exR[0]) w).2 = w := by
    show (handle exP ⟨str "login", some _⟩ w).2 = w
    unfold handle
    dsimp only
    rw [kl]
    simp only [handleWith, ca, la, seedWith, h1, h2]
    split <;> rfl
  have s2 : (handle exP (exR[1]) w).2 = w := by
    show (handle exP ⟨str "get_balance", some _⟩ w).2 = w
    unfold handle
    dsimp only
    rw [kb]
    simp only [handleWith, tt, exP, withToken] at ht ⊢
    rw [ht]
  refine ⟨?_, ?_⟩
  · refine ⟨fun j t e hj hh => ?_, fun j u p enc' hj hh _ hk => ?_, fun j t e hm => absurd hm nl⟩
    · cases hj; rw [ta] at hh; cases hh
    · cases hj; rw [ca] at hh; cases hh; rw [la, h1] at hk; cases hk; exact h2
  · show Strangers exP exS.mine [exR[1], exR[2]] (handle exP (exR[0]) w).2
    rw [s1]
    refine ⟨?_, ?_⟩
    · refine ⟨fun j t e hj hh _ _ => ?_, fun j u p enc' hj hh => ?_, fun j t e hm => absurd hm nb⟩
      · cases hj; have hh := tt.symm.trans hh; cases hh; exact ht
      · cases hj; have hh := ct.symm.trans hh; cases hh
    · rw [s2]
      refine ⟨?_, trivial⟩
      refine ⟨fun j t e hj hh => ?_, fun j u p enc' hj hh hv hk => ?_, fun j t e hm => absurd hm nl⟩
      · cases hj; rw [tb] at hh; cases hh
      · cases hj; rw [cb] at hh; cases hh; rw [lb] at hv
        exact absurd hv (by decide +kernel)

private theorem ex_find : findSession exW.sm 7 = some ⟨str "ann", mask ([5, 6] ++ seedSum exP.H [5, 6]) [9, 9, 9, 9, 9, 9]⟩ := by
  show findSession (Wallet.login exP.H (str "ann") [5, 6] [9, 9, 9, 9, 9, 9] true (newSM 7)).1 7 = _
  rw [find_login]
  rfl

private theorem ex_present : Present exS.mine exW := by
  intro u hu
  have hu := of_decide_eq_true hu
  subst hu
  exact ⟨by decide +kernel, by decide +kernel⟩

private theorem ex_room : Room 3 exW := by
  refine ⟨by decide +kernel, fun e he => ⟨0, by decide, ?_⟩⟩
  have he : e = (7, ⟨str "ann", mask ([5, 6] ++ seedSum exP.H [5, 6]) [9, 9, 9, 9, 9, 9]⟩) := by
    have : exW.sm.sessions = [(7, ⟨str "ann", mask ([5, 6] ++ seedSum exP.H [5, 6]) [9, 9, 9, 9, 9, 9]⟩)] := by rfl
    rw [this] at he
    exact List.mem_singleton.1 he
  subst he
  rfl

/-- The case meets the hypotheses of `owner_strangers_partial`; that ann's secrets differ in the two worlds, and that bob got in. -/
example : Present exS.mine exW ∧ Room exR.length exW ∧ Strangers exP exS.mine exR exW ∧ Strangers exP exS.mine exR (exS.swap exW) ∧
    exS.swap exW ≠ exW ∧ openWith exP.H ⟨7, [9, 9, 9, 9, 9, 9]⟩ exW.sm = .ok (str "ann", [5, 6]) ∧
    (handleAll exP exR exW).2.wallets (str "bob") = 21 := by
  refine ⟨ex_present, ex_room, ex_strangers exW ⟨[1, 1, 1, 5, 6], by rfl, by rfl⟩ (by rfl),
    ex_strangers _ ⟨[4, 4, 4, 7], by rfl, by rfl⟩ (by rfl), ?_, by rfl, by decide +kernel⟩
  intro h
  have := congrArg (fun w => w.wallets (str "ann")) h
  revert this
  decide +kernel

/-- A right password changes the wallet: the hypothesis of `owner_change`, and of `owner_login` an answer. -/
example : (handle exP ⟨str "login", some (.obj [("username", .str (str "bob")), ("password", .str [2, 2, 2])])⟩ exW).2.wallets (str "bob") ≠
    exW.wallets (str "bob") ∧
    ∃ a, (handle exP ⟨str "login", some (.obj [("username", .str (str "bob")), ("password", .str [2, 2, 2])])⟩ exW).1 = .answer a :=
  ⟨by decide +kernel, _, by rfl⟩

/-- A session to end, and a number without a session. -/
example : (∃ e, findSession exW.sm 7 = some e) ∧ findSession exW.sm 9 = none := ⟨⟨_, ex_find⟩, by rfl⟩

/-- A wrong password for `owner_password_needed`; the right one, and a wallet not open, for `owner_password_enough`. -/
example : (∀ n p enc, credIn (.obj [("username", .str (str "Ann")), ("password", .str [3, 3, 3])]) = .ok (n, p) →
      exW.seeds.lookup (Names.toLower n) = some enc → exP.decrypt enc p = none) ∧
    credIn (.obj [("username", .str (str "bob")), ("password", .str [2, 2, 2])]) = .ok (str "bob", [2, 2, 2]) ∧
    exW.seeds.lookup (Names.toLower (str "bob")) = some [2, 2, 2, 8] ∧ exP.decrypt [2, 2, 2, 8] [2, 2, 2] = some [8] ∧
    Names.toLower (str "bob") ∉ exW.sm.opened ∧ Names.toLower (str "Ann") ∈ exW.sm.opened := by
  refine ⟨fun n p enc h1 h2 => ?_, by rfl, by rfl, by rfl, by decide +kernel, by decide +kernel⟩
  have h : credIn (.obj [("username", .str (str "Ann")), ("password", .str [3, 3, 3])]) = .ok (str "Ann", [3, 3, 3]) := by rfl
  rw [h] at h1
  cases h1
  have h : exW.seeds.lookup (Names.toLower (str "Ann")) = some [1, 1, 1, 5, 6] := by rfl
  rw [h] at h2
  cases h2
  rfl

end Verif.Props
