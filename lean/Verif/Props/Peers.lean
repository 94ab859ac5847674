import Verif.P2P.Peers
import Mathlib.Data.List.TakeWhile
import Mathlib.Data.List.Nodup

/-!
# C52, C53, C54: pruning connections, finding peers, the peer with the most work
-/
namespace Verif.Props
open Verif.P2P

/-! ## C52 -/

/-- What one pass leaves: the connection after a dropped one is not looked at. -/
private def skim {α : Type} (drop : α → Bool) : List α → List α
  | [] => []
  | [c] => if drop c then [] else [c]
  | c :: d :: cs => if drop c then d :: skim drop cs else c :: skim drop (d :: cs)

private theorem pruneLoop_eq {α : Type} (drop : α → Bool) : ∀ (fuel : Nat) (cs pre : List α), cs.length < fuel →
    pruneLoop drop fuel (pre ++ cs) pre.length = .ok (pre ++ skim drop cs) := by
  intro fuel
  induction fuel with
  | zero => intro cs pre h; omega
  | succ fuel ih =>
    intro cs pre h
    unfold pruneLoop
    match cs, h with
    | [], _ => simp [skim]
    | [c], h =>
      have e : (pre ++ [c])[pre.length]? = some c := by simp
      rw [e]
      simp only [skim]
      by_cases hd : drop c
      · simp only [hd, if_true]
        have e2 : (pre ++ [c]).eraseIdx pre.length = pre := by
          rw [List.eraseIdx_append_of_length_le (Nat.le_refl _)]; simp
        rw [e2]
        cases fuel with
        | zero => simp at h
        | succ f => simp [pruneLoop]
      · simp only [hd, Bool.false_eq_true, if_false]
        have := ih [] (pre ++ [c]) (by simp at h ⊢; omega)
        simpa [skim] using this
    | c :: d :: cs, h =>
      have e : (pre ++ c :: d :: cs)[pre.length]? = some c := by simp
      rw [e]
      simp only [skim]
      by_cases hd : drop c
      · simp only [hd, if_true]
        have e2 : (pre ++ c :: d :: cs).eraseIdx pre.length = (pre ++ [d]) ++ cs := by
          rw [List.eraseIdx_append_of_length_le (Nat.le_refl _)]; simp
        rw [e2]
        have := ih cs (pre ++ [d]) (by simp at h ⊢; omega)
        simpa using this
      · simp only [hd, Bool.false_eq_true, if_false]
        have := ih (d :: cs) (pre ++ [c]) (by simp at h ⊢; omega)
        simpa using this

private theorem skim_facts {α : Type} (drop : α → Bool) : ∀ (cs : List α), (skim drop cs).Sublist cs ∧
    (skim drop cs).filter (fun c => !drop c) = cs.filter (fun c => !drop c) ∧
    2 * (skim drop cs).countP drop ≤ cs.countP drop := by
  intro cs
  fun_induction skim drop cs with
  | case1 => simp
  | case2 c h => simp [h]
  | case3 c h => simp [h]
  | case4 c d cs h ih =>
    obtain ⟨a, b, e⟩ := ih
    refine ⟨(a.cons_cons d).trans (List.sublist_cons_self _ _), ?_, ?_⟩
    · simp [List.filter_cons, h, b]
    · simp only [List.countP_cons, h, if_true]
      split <;> omega
  | case5 c d cs h ih =>
    obtain ⟨a, b, e⟩ := ih
    refine ⟨a.cons_cons c, ?_, ?_⟩
    · rw [List.filter_cons, b, List.filter_cons (x := c)]
    · simp only [List.countP_cons (a := c), h, Bool.false_eq_true, if_false]
      omega

private theorem skim_isolated {α : Type} (drop : α → Bool) : ∀ (cs : List α),
    (∀ i c d, cs[i]? = some c → cs[i + 1]? = some d → drop c = true → drop d = false) →
    skim drop cs = cs.filter (fun c => !drop c) := by
  intro cs
  fun_induction skim drop cs with
  | case1 => simp
  | case2 c h => simp [h]
  | case3 c h => simp [h]
  | case4 c d cs h ih =>
    intro hi
    have hd := hi 0 c d rfl rfl h
    rw [ih (fun i a b e1 e2 => hi (i + 2) a b e1 e2)]
    simp [h, hd]
  | case5 c d cs h ih =>
    intro hi
    rw [ih (fun i a b e1 e2 => hi (i + 1) a b e1 e2)]
    simp [List.filter_cons (x := c), h]

private theorem inbound_count : ∀ (cs : List Conn) (n : Nat),
    cs.foldl (fun n c => if c.inbound then n + 1 else n) n = n + cs.countP (·.inbound) := by
  intro cs
  induction cs with
  | nil => simp
  | cons c cs ih =>
    intro n
    rw [List.foldl_cons, ih, List.countP_cons]
    cases c.inbound
    · simp
    · simp; omega

private theorem prune_eq (b : Bool) (cs : List Conn) : prune b cs =
    .ok (skim (fun c => !b || !c.active) cs, (skim (fun c => !b || !c.active) cs).countP (·.inbound),
      (skim (fun c => !b || !c.active) cs).length - (skim (fun c => !b || !c.active) cs).countP (·.inbound)) := by
  have := pruneLoop_eq (fun c : Conn => !b || !c.active) (cs.length + 1) cs [] (by omega)
  simp only [List.nil_append, List.length_nil] at this
  unfold prune
  rw [this]
  simp [inbound_count]

/-- **C52, what one pass does.** A pass over any connections ends; it keeps every active connection, in order; the numbers of
inbound and outbound connections are right afterwards; of the inactive ones it leaves at most half; and when no two
inactive connections are next to each other it leaves none.

Partial: inactive connections next to each other are skipped, see below. -/
theorem prune_partial (cs : List Conn) : ∃ left inbound outbound, prune true cs = .ok (left, inbound, outbound) ∧
    left.Sublist cs ∧ left.filter (·.active) = cs.filter (·.active) ∧
    inbound = left.countP (·.inbound) ∧ outbound = left.countP (fun c => !c.inbound) ∧
    2 * left.countP (fun c => !c.active) ≤ cs.countP (fun c => !c.active) ∧
    ((∀ i c d, cs[i]? = some c → cs[i + 1]? = some d → c.active = false → d.active = true) →
      left = cs.filter (·.active)) := by
  obtain ⟨a, b, e⟩ := skim_facts (fun c : Conn => !c.active) cs
  refine ⟨_, _, _, prune_eq true cs, ?_⟩
  simp only [Bool.not_true, Bool.false_or, Bool.not_not] at *
  refine ⟨a, b, trivial, ?_, e, ?_⟩
  · have := List.length_eq_countP_add_countP (fun c : Conn => c.inbound) (l := skim (fun c : Conn => !c.active) cs)
    simp only [Bool.not_eq_true, Bool.decide_eq_false] at this
    omega
  · intro h
    have := skim_isolated (fun c : Conn => !c.active) cs (fun i c d e1 e2 hc => by
      simpa using h i c d e1 e2 (by simpa using hc))
    simpa using this

/-- `n` passes of the seeding thread, nothing else happening in between. -/
def passes : Nat → List Conn → Res (List Conn)
  | 0, cs => .ok cs
  | n + 1, cs => do
    let r ← prune true cs
    passes n r.1

/-- **C52, several passes.** When fewer than `2 ^ n` connections are inactive, `n` passes remove them all. -/
theorem prune_passes_partial : ∀ (n : Nat) (cs : List Conn), cs.countP (fun c => !c.active) < 2 ^ n →
    passes n cs = .ok (cs.filter (·.active)) := by
  intro n
  induction n with
  | zero =>
    intro cs h
    have : cs.countP (fun c => !c.active) = 0 := by omega
    rw [List.countP_eq_zero] at this
    have e : cs.filter (·.active) = cs := List.filter_eq_self.2 (fun c hc => by simpa using this c hc)
    rw [e]
    rfl
  | succ n ih =>
    intro cs h
    obtain ⟨left, i, o, e, -, e2, -, -, e3, -⟩ := prune_partial cs
    unfold passes
    rw [e, Res.ok_bind, ih left (by rw [Nat.pow_succ] at h; omega), e2]

/-- **C52 violated: neighbours.** Whatever connections there are, of two neighbouring inactive ones with only active ones
before them the second is still there after the pass. -/
theorem prune_neighbour_violated (pre cs : List Conn) (c d : Conn) (hp : ∀ x ∈ pre, x.active = true)
    (hc : c.active = false) (hd : d.active = false) :
    ∃ left i o, prune true (pre ++ c :: d :: cs) = .ok (left, i, o) ∧ d ∈ left ∧ d.active = false := by
  refine ⟨_, _, _, prune_eq true _, ?_, hd⟩
  induction pre with
  | nil => simp [skim, hc]
  | cons x pre ih =>
    have hx := hp x (by simp)
    have := ih (fun y hy => hp y (by simp [hy]))
    have e : skim (fun c : Conn => !true || !c.active) (x :: pre ++ c :: d :: cs) =
        x :: skim (fun c : Conn => !true || !c.active) (pre ++ c :: d :: cs) := by
      cases pre with
      | nil => simp [skim, hx]
      | cons y pre => simp [skim, hx]
    rw [e]
    exact List.mem_cons_of_mem _ this

/-- **C52 violated: shutting down.** Of the connections that are to be closed at shutdown, half are not. -/
theorem prune_shutdown_violated (cs : List Conn) :
    ∃ left i o, prune false cs = .ok (left, i, o) ∧ left.length = cs.length / 2 := by
  refine ⟨_, _, _, prune_eq false cs, ?_⟩
  have key : ∀ (n : Nat) (l : List Conn), l.length ≤ n → (skim (fun c : Conn => !false || !c.active) l).length = l.length / 2 := by
    intro n
    induction n with
    | zero => intro l h; rw [List.length_eq_zero_iff.1 (Nat.le_zero.1 h)]; rfl
    | succ n ih =>
      intro l h
      match l, h with
      | [], _ => rfl
      | [c], _ => simp [skim]
      | c :: d :: l, h =>
        have := ih l (by simp at h; omega)
        simp only [Bool.not_false, Bool.true_or, skim, if_true, List.length_cons] at this ⊢
        omega
  exact key _ cs (Nat.le_refl _)

example : prune true [⟨1, true, true, 5, 5⟩, ⟨2, false, false, 5, 5⟩, ⟨3, true, true, 5, 5⟩] =
    .ok ([⟨1, true, true, 5, 5⟩, ⟨3, true, true, 5, 5⟩], 2, 0) := by decide +kernel

/-! ## C54 -/

/-- `c` is one of the connections with a known height whose work no other one exceeds, and the highest of those. -/
def Best (cs : List Conn) (c : Conn) : Prop :=
  c ∈ cs ∧ 0 < c.height ∧ ∀ d ∈ cs, 0 < d.height →
    d.difficulty < c.difficulty ∨ (d.difficulty = c.difficulty ∧ d.height ≤ c.height)

private theorem most_inv (cs : List Conn) : ∀ (l pre : List Conn) (acc : Nat × Nat × List Conn),
    ((∀ d ∈ pre, 0 < d.height → d.difficulty < acc.1 ∨ (d.difficulty = acc.1 ∧ d.height ≤ acc.2.1)) ∧
      (∀ c, c ∈ acc.2.2 ↔ c ∈ pre ∧ 0 < c.height ∧ c.difficulty = acc.1 ∧ c.height = acc.2.1) ∧
      (acc.2.2 = [] → acc.1 = 0 ∧ acc.2.1 = 0)) →
    pre ++ l = cs →
    let r := l.foldl mostWorkStep acc
    (∀ d ∈ cs, 0 < d.height → d.difficulty < r.1 ∨ (d.difficulty = r.1 ∧ d.height ≤ r.2.1)) ∧
      (∀ c, c ∈ r.2.2 ↔ c ∈ cs ∧ 0 < c.height ∧ c.difficulty = r.1 ∧ c.height = r.2.1) ∧
      (r.2.2 = [] → r.1 = 0 ∧ r.2.1 = 0) := by
  intro l
  induction l with
  | nil => intro pre acc h e; simp at e; subst e; exact h
  | cons c l ih =>
    intro pre acc h e
    simp only [List.foldl_cons]
    apply ih (pre ++ [c]) _ _ (by simp [e])
    obtain ⟨m, ht, ps⟩ := acc
    obtain ⟨h1, h2, h3⟩ := h
    simp only at h1 h2 h3
    unfold mostWorkStep
    simp only
    by_cases hz : c.height = 0
    · rw [if_pos hz]
      refine ⟨?_, ?_, h3⟩
      · intro d hd hp
        rw [List.mem_append, List.mem_singleton] at hd
        rcases hd with hd | rfl
        · exact h1 d hd hp
        · omega
      · intro d
        rw [h2 d, List.mem_append, List.mem_singleton]
        constructor
        · rintro ⟨a, b⟩; exact ⟨Or.inl a, b⟩
        · rintro ⟨a | rfl, b⟩
          · exact ⟨a, b⟩
          · omega
    · rw [if_neg hz]
      by_cases hg : c.difficulty > m
      · rw [if_pos hg]
        refine ⟨?_, ?_, by simp⟩
        · intro d hd hp
          simp only [List.mem_append, List.mem_singleton] at hd ⊢
          rcases hd with hd | rfl
          · have := h1 d hd hp; omega
          · omega
        · intro d
          simp only [List.mem_append, List.mem_singleton]
          constructor
          · rintro rfl; exact ⟨Or.inr rfl, by omega, rfl, rfl⟩
          · rintro ⟨a | a, b, e1, e2⟩
            · have := h1 d a b; omega
            · exact a
      · rw [if_neg hg]
        by_cases he : c.difficulty = m
        · rw [if_pos he]
          by_cases hh : c.height > ht
          · rw [if_pos hh]
            refine ⟨?_, ?_, by simp⟩
            · intro d hd hp
              simp only [List.mem_append, List.mem_singleton] at hd ⊢
              rcases hd with hd | rfl
              · have := h1 d hd hp; omega
              · omega
            · intro d
              simp only [List.mem_append, List.mem_singleton]
              constructor
              · rintro rfl; exact ⟨Or.inr rfl, by omega, he, rfl⟩
              · rintro ⟨a | a, b, e1, e2⟩
                · have := h1 d a b; omega
                · exact a
          · rw [if_neg hh]
            by_cases hq : c.height = ht
            · rw [if_pos hq]
              refine ⟨?_, ?_, by simp⟩
              · intro d hd hp
                simp only [List.mem_append, List.mem_singleton] at hd ⊢
                rcases hd with hd | rfl
                · exact h1 d hd hp
                · omega
              · intro d
                simp only [List.mem_append, List.mem_singleton, h2 d]
                constructor
                · rintro (⟨a, b⟩ | rfl)
                  · exact ⟨Or.inl a, b⟩
                  · exact ⟨Or.inr rfl, by omega, he, hq⟩
                · rintro ⟨a | a, b⟩
                  · exact Or.inl ⟨a, b⟩
                  · exact Or.inr a
            · rw [if_neg hq]
              refine ⟨?_, ?_, h3⟩
              · intro d hd hp
                simp only [List.mem_append, List.mem_singleton] at hd ⊢
                rcases hd with hd | rfl
                · exact h1 d hd hp
                · omega
              · intro d
                simp only [List.mem_append, List.mem_singleton, h2 d]
                constructor
                · rintro ⟨a, b⟩; exact ⟨Or.inl a, b⟩
                · rintro ⟨a | rfl, b⟩
                  · exact ⟨a, b⟩
                  · omega
        · rw [if_neg he]
          refine ⟨?_, ?_, h3⟩
          · intro d hd hp
            simp only [List.mem_append, List.mem_singleton] at hd ⊢
            rcases hd with hd | rfl
            · exact h1 d hd hp
            · omega
          · intro d
            simp only [List.mem_append, List.mem_singleton, h2 d]
            constructor
            · rintro ⟨a, b⟩; exact ⟨Or.inl a, b⟩
            · rintro ⟨a | rfl, b⟩
              · exact ⟨a, b⟩
              · omega

private theorem most_mem (cs : List Conn) : ∀ c, c ∈ (cs.foldl mostWorkStep (0, 0, [])).2.2 ↔ Best cs c := by
  obtain ⟨h1, h2, h3⟩ := most_inv cs cs [] (0, 0, []) (by simp) (by simp)
  intro c
  rw [h2 c]
  constructor
  · rintro ⟨a, b, e1, e2⟩
    exact ⟨a, b, fun d hd hp => by have := h1 d hd hp; rw [e1, e2]; exact this⟩
  · rintro ⟨a, b, e⟩
    refine ⟨a, b, ?_⟩
    have := h1 c a b
    by_cases hn : (cs.foldl mostWorkStep (0, 0, [])).2.2 = []
    · have := h3 hn
      omega
    · obtain ⟨x, l, hx⟩ := List.exists_cons_of_ne_nil hn
      have hm := (h2 x).1 (by rw [hx]; simp)
      have := e x hm.1 hm.2.1
      omega

private theorem best_exists (cs : List Conn) (h : ∃ c ∈ cs, 0 < c.height) :
    (cs.foldl mostWorkStep (0, 0, [])).2.2 ≠ [] := by
  obtain ⟨h1, h2, h3⟩ := most_inv cs cs [] (0, 0, []) (by simp) (by simp)
  obtain ⟨c, hc, hp⟩ := h
  intro hn
  have := h3 hn
  have := h1 c hc hp
  omega

/-- **C54.** Whatever the random numbers: a peer is selected exactly when some connected peer has a known (non-zero) height; the
one selected is a connected one with a known height, no other such peer has more work, and no other with the same
work is higher.  Every peer like that can be the one selected, and `GetMostWorkPeers` returns exactly the connected peers
with a known height whose work no other one exceeds. -/
theorem most_work (random : Nat → Nat) (hr : ∀ n, random n ≤ n) (cs : List Conn) :
    ((mostWorkPeer random cs).isSome ↔ ∃ c ∈ cs, 0 < c.height) ∧
    (∀ c, mostWorkPeer random cs = some c → Best cs c) ∧
    (∀ c, Best cs c → ∃ random', (∀ n, random' n ≤ n) ∧ mostWorkPeer random' cs = some c) ∧
    mostWorkPeers random cs =
      cs.filter fun c => 0 < c.height ∧ ∀ d ∈ cs, 0 < d.height → d.difficulty ≤ c.difficulty := by
  have hm := most_mem cs
  have some_ : ∀ c, mostWorkPeer random cs = some c → Best cs c := by
    intro c hc
    unfold mostWorkPeer at hc
    simp only at hc
    split at hc
    · cases hc
    · exact (hm c).1 (List.mem_of_getElem? hc)
  have isSome : (mostWorkPeer random cs).isSome ↔ ∃ c ∈ cs, 0 < c.height := by
    constructor
    · intro h
      obtain ⟨c, hc⟩ := Option.isSome_iff_exists.1 h
      have := some_ c hc
      exact ⟨c, this.1, this.2.1⟩
    · intro h
      have hn := best_exists cs h
      unfold mostWorkPeer
      simp only
      rw [if_neg hn]
      have hl := List.length_pos_iff.2 hn
      have := hr ((cs.foldl mostWorkStep (0, 0, [])).2.2.length - 1)
      rw [List.getElem?_eq_getElem (by omega)]
      rfl
  refine ⟨isSome, some_, ?_, ?_⟩
  · intro c hc
    obtain ⟨k, hk⟩ := List.getElem?_of_mem ((hm c).2 hc)
    have hlt := (List.getElem?_eq_some_iff.1 hk).1
    refine ⟨fun n => min k n, fun n => Nat.min_le_right _ _, ?_⟩
    unfold mostWorkPeer
    simp only
    rw [if_neg (by intro hn; rw [hn] at hk; simp at hk), Nat.min_eq_left (by omega), hk]
  · unfold mostWorkPeers
    cases hc : mostWorkPeer random cs with
    | none =>
      symm
      simp only [List.filter_eq_nil_iff]
      intro c hc' hp
      have := isSome.2 ⟨c, hc', by simp at hp; omega⟩
      rw [hc] at this
      cases this
    | some m =>
      have hb := some_ m hc
      simp only
      apply List.filter_congr
      intro c hc'
      rw [Bool.eq_iff_iff]
      simp only [Bool.and_eq_true, decide_eq_true_eq, ge_iff_le, gt_iff_lt]
      constructor
      · rintro ⟨a, b⟩
        exact ⟨b, fun d hd hp => by have := hb.2.2 d hd hp; omega⟩
      · rintro ⟨a, b⟩
        exact ⟨b m hb.1 hb.2.1, a⟩

example : Best [⟨1, true, true, 50, 9⟩, ⟨2, true, true, 90, 0⟩, ⟨3, true, true, 70, 8⟩] ⟨3, true, true, 70, 8⟩ := by
  refine ⟨by simp, by simp, by simp⟩
example : mostWorkPeer id [⟨1, true, true, 50, 9⟩, ⟨2, true, true, 90, 0⟩, ⟨3, true, true, 70, 8⟩] =
    some ⟨3, true, true, 70, 8⟩ := by decide +kernel

/-! ## C53 -/

/-- The peers in the order they are looked at, from place `start` on. -/
def fromPlace (start : Nat) (es : List PeerEntry) : List PeerEntry := es.drop start ++ es.take start

/-- Banned at time `now`. -/
def Banned (now : Int) (e : PeerEntry) : Bool := decide (now - 10800 < e.lastBan)

/-- A peer to connect to: has the capabilities, is not connected, and was not tried in the last five minutes. -/
def Wanted (now : Int) (capability : Nat) (e : PeerEntry) : Bool :=
  hasCapability e.capabilities capability && !e.connected && decide (300 < now - e.lastAttempt)

/-- The map after an attempt to connect to the peers with these addresses. -/
def tried (now : Int) (found : List Nat) (es : List PeerEntry) : List PeerEntry :=
  es.map fun e => if e.address ∈ found then { e with lastAttempt := now } else e

private theorem stuck (now : Int) (cap max : Nat) : ∀ (n pos : Nat) (es : List PeerEntry) (found : List Nat) (e : PeerEntry),
    es[if pos = es.length then 0 else pos]? = some e → Banned now e = true →
    peersLoop now cap max true n pos es found = (found, es) := by
  intro n
  induction n with
  | zero => intro pos es found e _ _; rfl
  | succ n ih =>
    intro pos es found e he hb
    unfold peersLoop
    simp only [he]
    have hb' : decide (e.lastBan > now - banWindow) = true := hb
    simp only [hb', Bool.and_self, if_true]
    refine ih _ es found e ?_ hb
    have hlt := (List.getElem?_eq_some_iff.1 he).1
    rw [if_neg (by omega)]
    exact he

private theorem mod_ne {p j n : Nat} (hp : p < n) (h0 : 0 < j) (hj : j < n) : (p + j) % n ≠ p := by
  by_cases h : p + j < n
  · rw [Nat.mod_eq_of_lt h]; omega
  · rw [Nat.mod_eq_sub_mod (by omega), Nat.mod_eq_of_lt (by omega)]; omega

private theorem wrap_mod {pos n : Nat} (h : pos ≤ n) : (if pos = n then 0 else pos) = pos % n := by
  split
  · rename_i e; rw [e, Nat.mod_self]
  · rw [Nat.mod_eq_of_lt (by omega)]

private theorem tried_set {now : Int} {es : List PeerEntry} (hnd : (es.map (·.address)).Nodup) {pos : Nat} {e : PeerEntry}
    (he : es[pos]? = some e) : es.set pos { e with lastAttempt := now } = tried now [e.address] es := by
  have hlt := (List.getElem?_eq_some_iff.1 he).1
  apply List.ext_getElem?
  intro i
  unfold tried
  rw [List.getElem?_map, List.getElem?_set]
  by_cases hi : pos = i
  · subst hi
    rw [if_pos rfl, if_pos hlt, he]
    simp
  · rw [if_neg hi]
    cases hx : es[i]? with
    | none => rfl
    | some x =>
      have : x.address ≠ e.address := by
        intro ha
        have hil := (List.getElem?_eq_some_iff.1 hx).1
        have := (List.nodup_iff_injective_getElem.1 hnd)
        have h2 := @this ⟨i, by simpa using hil⟩ ⟨pos, by simpa using hlt⟩ (by
          simp only [List.getElem_map]
          have e1 := (List.getElem?_eq_some_iff.1 hx).2
          have e2 := (List.getElem?_eq_some_iff.1 he).2
          rw [e1, e2, ha])
        simp at h2
        omega
      simp [this]

private theorem tried_tried (now : Int) (a b : List Nat) (es : List PeerEntry) :
    tried now b (tried now a es) = tried now (a ++ b) es := by
  unfold tried
  rw [List.map_map]
  apply List.map_congr_left
  intro e _
  simp only [Function.comp, List.mem_append]
  by_cases ha : e.address ∈ a <;> by_cases hb : e.address ∈ b <;> simp [ha, hb]

private theorem tried_nil (now : Int) (es : List PeerEntry) : tried now [] es = es := by simp [tried]

private theorem tried_address (now : Int) (a : List Nat) (es : List PeerEntry) :
    (tried now a es).map (·.address) = es.map (·.address) := by
  unfold tried
  rw [List.map_map]
  apply List.map_congr_left
  intro e _
  simp only [Function.comp]
  split <;> rfl

private theorem loop_connecting (now : Int) (cap max : Nat) : ∀ (rest : List PeerEntry) (pos : Nat) (es : List PeerEntry)
    (found : List Nat), pos ≤ es.length → rest.length ≤ es.length → (es.map (·.address)).Nodup →
    (∀ k < rest.length, es[(pos + k) % es.length]? = rest[k]?) → found.length < max →
    let new := (((rest.takeWhile fun e => !Banned now e).filter (Wanted now cap)).take (max - found.length)).map (·.address)
    peersLoop now cap max true rest.length pos es found = (found ++ new, tried now new es) := by
  intro rest
  induction rest with
  | nil => intro pos es found _ _ _ _ _; simp [peersLoop, tried_nil]
  | cons e rest ih =>
    intro pos es found hpos hlen hnd hrest hmax
    have hn : 0 < es.length := by simp at hlen; omega
    have h0 := hrest 0 (by simp)
    simp only [Nat.add_zero, List.getElem?_cons_zero] at h0
    have hlt : pos % es.length < es.length := Nat.mod_lt _ hn
    by_cases hb : Banned now e = true
    · rw [stuck now cap max _ pos es found e (by rw [wrap_mod hpos]; exact h0) hb]
      simp [hb, tried_nil]
    · simp only [Bool.not_eq_true] at hb
      have next : ∀ k < rest.length, (pos % es.length + 1 + k) % es.length = (pos + (k + 1)) % es.length := by
        intro k _
        rw [Nat.add_assoc, Nat.mod_add_mod, Nat.add_comm 1 k]
      rw [List.length_cons]
      unfold peersLoop
      rw [wrap_mod hpos]
      simp only [h0]
      have hb' : decide (e.lastBan > now - banWindow) = false := hb
      simp only [hb', Bool.and_false, Bool.false_eq_true, if_false, Bool.not_true]
      simp only [List.takeWhile_cons, hb, Bool.not_false, if_true]
      by_cases hw : Wanted now cap e = true
      · have hw' := hw
        unfold Wanted at hw'
        simp only [Bool.and_eq_true] at hw'
        obtain ⟨⟨w1, w2⟩, w3⟩ := hw'
        have w3' : decide (now - e.lastAttempt > retryWindow) = true := w3
        simp only [w1, w2, w3', Bool.and_self, if_true]
        simp only [List.filter_cons, hw, if_true]
        rw [show max - found.length = (max - found.length - 1) + 1 by omega, List.take_succ_cons, List.map_cons]
        by_cases hfull : (found ++ [e.address]).length = max
        · rw [if_pos hfull]
          have : max - found.length - 1 = 0 := by simp at hfull; omega
          rw [this]
          simp [tried_set hnd h0]
        · rw [if_neg hfull]
          rw [tried_set hnd h0]
          have := ih (pos % es.length + 1) (tried now [e.address] es) (found ++ [e.address])
            (by simp [tried]; omega) (by simp [tried] at hlen ⊢; omega) (by rw [tried_address]; exact hnd) (by
              intro k hk
              rw [show (tried now [e.address] es).length = es.length by simp [tried], next k hk, ← tried_set hnd h0,
                List.getElem?_set]
              have hne : (pos + (k + 1)) % es.length ≠ pos % es.length := by
                rw [← Nat.mod_add_mod]
                exact mod_ne hlt (by omega) (by simp at hlen; omega)
              rw [if_neg (fun h => hne h.symm)]
              have := hrest (k + 1) (by simp; omega)
              simpa using this) (by simp at hfull ⊢; omega)
          rw [this]
          simp only [List.length_append, List.length_singleton, Nat.sub_add_eq, tried_tried]
          simp
      · simp only [Bool.not_eq_true] at hw
        simp only [List.filter_cons, hw, Bool.false_eq_true, if_false]
        have goal := ih (pos % es.length + 1) es found (by omega) (by simp at hlen; omega) hnd (by
          intro k hk
          rw [next k hk]
          have := hrest (k + 1) (by simp; omega)
          simpa using this) hmax
        by_cases w1 : hasCapability e.capabilities cap = true
        · have w2 : (!e.connected && decide (now - e.lastAttempt > retryWindow)) = false := by
            unfold Wanted at hw
            rw [w1, Bool.true_and] at hw
            exact hw
          simp only [w1, if_true, w2, Bool.false_eq_true, if_false]
          rw [if_neg (by omega)]
          exact goal
        · simp only [w1, Bool.false_eq_true, if_false]
          exact goal

private theorem fromPlace_get (start : Nat) (es : List PeerEntry) (hs : start ≤ es.length) :
    ∀ k < (fromPlace start es).length, es[(start + k) % es.length]? = (fromPlace start es)[k]? := by
  intro k hk
  have hl : (fromPlace start es).length = es.length := by simp [fromPlace]; omega
  rw [hl] at hk
  unfold fromPlace
  by_cases h : start + k < es.length
  · rw [Nat.mod_eq_of_lt h, List.getElem?_append_left (by simp; omega), List.getElem?_drop]
  · rw [Nat.mod_eq_sub_mod (by omega), Nat.mod_eq_of_lt (by omega), List.getElem?_append_right (by simp; omega),
      List.getElem?_take_of_lt (by simp; omega)]
    congr 1
    simp
    omega

/-- **C53, exactly what is found.** Looking for peers to connect to, from any place, finds the wanted peers in order, up to
the number asked for and **up to the first banned peer**; the peers found are marked as tried. -/
theorem peers_found (now : Int) (start cap max : Nat) (es : List PeerEntry) (hs : start ≤ es.length) (hmax : 0 < max)
    (hnd : (es.map (·.address)).Nodup) :
    let found := ((((fromPlace start es).takeWhile fun e => !Banned now e).filter (Wanted now cap)).take max).map (·.address)
    getPeersWithCapability now start cap max true es = (found, tried now found es) := by
  unfold getPeersWithCapability
  have hl : (fromPlace start es).length = es.length := by simp [fromPlace]; omega
  by_cases h0 : es.length = 0
  · rw [if_pos h0]
    rw [List.length_eq_zero_iff] at h0
    subst h0
    simp [fromPlace, tried]
  · rw [if_neg h0]
    have := loop_connecting now cap max (fromPlace start es) start es [] hs (by omega) hnd (fromPlace_get start es hs) hmax
    rw [hl] at this
    simpa using this

/-- **C53.** When no known peer is banned, looking for peers to connect to finds the wanted ones, up to the number asked for.

Partial: with a banned peer among them the search ends there, see below. -/
theorem peers_found_partial (now : Int) (start cap max : Nat) (es : List PeerEntry) (hs : start ≤ es.length) (hmax : 0 < max)
    (hnd : (es.map (·.address)).Nodup) (hb : ∀ e ∈ es, Banned now e = false) :
    (getPeersWithCapability now start cap max true es).1 =
      (((fromPlace start es).filter (Wanted now cap)).take max).map (·.address) := by
  rw [peers_found now start cap max es hs hmax hnd]
  have : (fromPlace start es).takeWhile (fun e => !Banned now e) = fromPlace start es := by
    rw [List.takeWhile_eq_self_iff]
    intro e he
    have : e ∈ es := by
      unfold fromPlace at he
      rw [List.mem_append] at he
      rcases he with he | he
      · exact List.mem_of_mem_drop he
      · exact List.mem_of_mem_take he
    rw [hb e this]
    rfl
  simp only [this]

/-- **C53, a new peer.** When no known peer is banned, a new peer is found exactly when some known peer is not
connected and was not tried in the last five minutes, and one with the preferred capabilities if there is one. -/
theorem new_peer_partial (now : Int) (start start' cap : Nat) (es : List PeerEntry) (hs : start ≤ es.length)
    (hs' : start' ≤ es.length) (hnd : (es.map (·.address)).Nodup) (hb : ∀ e ∈ es, Banned now e = false) :
    ((getNewPeer now start start' cap es).1.isSome ↔ ∃ e ∈ es, e.connected = false ∧ 300 < now - e.lastAttempt) ∧
    (∀ a, (getNewPeer now start start' cap es).1 = some a → ∃ e ∈ es, e.address = a ∧ e.connected = false ∧
      300 < now - e.lastAttempt ∧ ((∃ e' ∈ es, Wanted now cap e' = true) → hasCapability e.capabilities cap = true)) := by
  have mem : ∀ (s : Nat) (e : PeerEntry), e ∈ fromPlace s es ↔ e ∈ es := by
    intro s e
    unfold fromPlace
    rw [List.mem_append, or_comm, ← List.mem_append, List.take_append_drop]
  have f1 := peers_found_partial now start cap 1 es hs (by omega) hnd hb
  have any : ∀ e, Wanted now 0 e = true ↔ e.connected = false ∧ 300 < now - e.lastAttempt := by
    intro e; simp [Wanted, hasCapability]
  have wanted : ∀ c e, Wanted now c e = true → hasCapability e.capabilities c = true ∧ e.connected = false ∧
      300 < now - e.lastAttempt := by
    intro c e h; simp [Wanted] at h; exact ⟨h.1.1, h.1.2, h.2⟩
  have hd : ∀ (c s : Nat) (a : Nat), ((((fromPlace s es).filter (Wanted now c)).take 1).map (·.address)).head? = some a →
      ∃ e ∈ es, e.address = a ∧ Wanted now c e = true := by
    intro c s a h
    rw [List.head?_map, List.head?_take] at h
    simp at h
    obtain ⟨e, he, rfl⟩ := h
    exact ⟨e, (mem s e).1 (List.mem_of_find?_eq_some he), rfl, List.find?_some he⟩
  have nil : ∀ (c s : Nat), (((fromPlace s es).filter (Wanted now c)).take 1).map (·.address) = [] ↔
      ∀ e ∈ es, Wanted now c e = false := by
    intro c s
    rw [List.map_eq_nil_iff, List.take_eq_nil_iff]
    simp only [Nat.one_ne_zero, false_or, List.filter_eq_nil_iff, mem, Bool.not_eq_true]
  unfold getNewPeer
  simp only
  by_cases hn : (getPeersWithCapability now start cap 1 true es).1 = []
  · rw [if_pos hn]
    have hes : (getPeersWithCapability now start cap 1 true es).2 = es := by
      have e := peers_found now start cap 1 es hs (by omega) hnd
      simp only at e
      rw [e] at hn ⊢
      simp only at hn ⊢
      rw [hn, tried_nil]
    rw [hes]
    have f2 := peers_found_partial now start' 0 1 es hs' (by omega) hnd hb
    rw [f1] at hn
    rw [f2]
    constructor
    · constructor
      · intro h
        obtain ⟨a, ha⟩ := Option.isSome_iff_exists.1 h
        obtain ⟨e, he, -, hw⟩ := hd 0 start' a ha
        exact ⟨e, he, (any e).1 hw⟩
      · rintro ⟨e, he, hw⟩
        have : (((fromPlace start' es).filter (Wanted now 0)).take 1).map (·.address) ≠ [] := by
          intro h
          have := (nil 0 start').1 h e he
          rw [(any e).2 hw] at this
          cases this
        obtain ⟨x, l, hx⟩ := List.exists_cons_of_ne_nil this
        rw [hx]
        rfl
    · intro a ha
      obtain ⟨e, he, h2, hw⟩ := hd 0 start' a ha
      refine ⟨e, he, h2, ((any e).1 hw).1, ((any e).1 hw).2, ?_⟩
      rintro ⟨e', he', hw'⟩
      rw [(nil cap start).1 hn e' he'] at hw'
      cases hw'
  · rw [if_neg hn]
    rw [f1] at hn ⊢
    obtain ⟨x, l, hx⟩ := List.exists_cons_of_ne_nil hn
    have ha : ((((fromPlace start es).filter (Wanted now cap)).take 1).map (·.address)).head? = some x := by rw [hx]; rfl
    obtain ⟨e, he, h2, hw⟩ := hd cap start x ha
    have hw' := wanted cap e hw
    constructor
    · constructor
      · intro _; exact ⟨e, he, hw'.2⟩
      · intro _; rw [ha]; rfl
    · intro a ha'
      rw [ha] at ha'
      injection ha' with ha'
      exact ⟨e, he, h2.trans ha', hw'.2.1, hw'.2.2, fun _ => hw'.1⟩

/-- **C53 violated: a banned peer hides the others.** When the peer at the random place is banned, no peer is found, whoever else
is known. -/
theorem banned_hides_violated (now : Int) (start cap max : Nat) (es : List PeerEntry) (e : PeerEntry)
    (hs : start < es.length) (he : es[start]? = some e) (hb : Banned now e = true) :
    getPeersWithCapability now start cap max true es = ([], es) := by
  unfold getPeersWithCapability
  rw [if_neg (by omega)]
  exact stuck now cap max _ start es [] e (by rw [if_neg (by omega)]; exact he) hb

example : Banned 20000 ⟨1, 6, false, 15000, 0⟩ = true ∧ Wanted 20000 6 ⟨2, 7, false, 0, 0⟩ = true := by decide
example : (getPeersWithCapability 20000 0 6 5 true [⟨1, 6, false, 15000, 0⟩, ⟨2, 7, false, 0, 0⟩]).1 = [] ∧
    (getPeersWithCapability 20000 1 6 5 true [⟨1, 6, false, 15000, 0⟩, ⟨2, 7, false, 0, 0⟩]).1 = [2] := by decide +kernel
example : getPeersWithCapability 20000 1 6 5 true [⟨1, 6, false, 0, 19000⟩, ⟨2, 7, false, 0, 19900⟩, ⟨3, 6, false, 0, 0⟩] =
    ([3, 1], [⟨1, 6, false, 0, 20000⟩, ⟨2, 7, false, 0, 19900⟩, ⟨3, 6, false, 0, 20000⟩]) := by decide +kernel

private theorem loop_sharing (now : Int) (cap max : Nat) (es : List PeerEntry) : ∀ (rest : List PeerEntry) (pos : Nat)
    (found : List Nat), pos ≤ es.length → 0 < es.length →
    (∀ k < rest.length, es[(pos + k) % es.length]? = rest[k]?) → found.length < max →
    peersLoop now cap max false rest.length pos es found =
      (found ++ ((rest.filter fun e => hasCapability e.capabilities cap).take (max - found.length)).map (·.address), es) := by
  intro rest
  induction rest with
  | nil => intro pos found _ _ _ _; simp [peersLoop]
  | cons e rest ih =>
    intro pos found hpos hn hrest hmax
    have h0 := hrest 0 (by simp)
    simp only [Nat.add_zero, List.getElem?_cons_zero] at h0
    have hlt : pos % es.length < es.length := Nat.mod_lt _ hn
    have next : ∀ k < rest.length, es[(pos % es.length + 1 + k) % es.length]? = rest[k]? := by
      intro k hk
      rw [Nat.add_assoc, Nat.mod_add_mod, Nat.add_comm 1 k]
      have := hrest (k + 1) (by simp; omega)
      simpa using this
    rw [List.length_cons]
    unfold peersLoop
    rw [wrap_mod hpos]
    simp only [h0, Bool.false_and, Bool.false_eq_true, if_false, Bool.not_false, if_true]
    by_cases hw : hasCapability e.capabilities cap = true
    · simp only [hw, if_true, List.filter_cons]
      rw [show max - found.length = (max - found.length - 1) + 1 by omega, List.take_succ_cons, List.map_cons]
      by_cases hfull : (found ++ [e.address]).length = max
      · rw [if_pos hfull]
        have : max - found.length - 1 = 0 := by simp at hfull; omega
        rw [this]
        simp
      · rw [if_neg hfull, ih _ _ (by omega) hn next (by simp at hfull ⊢; omega)]
        simp [Nat.sub_add_eq]
    · simp only [hw, Bool.false_eq_true, if_false, List.filter_cons]
      exact ih _ _ (by omega) hn next hmax

/-- **C53, peers passed on.**  Asked for peers with some capabilities, a node answers with those it knows to have them, from a random
place on, up to the number asked for; if it knows none, with any peers.  Banned peers are among them. -/
theorem peers_shared (now : Int) (start start' cap max : Nat) (es : List PeerEntry) (hs : start ≤ es.length) (hs' : start' ≤ es.length)
    (hmax : 0 < max) :
    ((∃ e ∈ es, hasCapability e.capabilities cap = true) → getPeers now start start' cap max es =
      (((fromPlace start es).filter fun e => hasCapability e.capabilities cap).take max).map (·.address)) ∧
    ((∀ e ∈ es, hasCapability e.capabilities cap = false) →
      getPeers now start start' cap max es = ((fromPlace start' es).take max).map (·.address)) := by
  have mem : ∀ (s : Nat) (e : PeerEntry), e ∈ fromPlace s es ↔ e ∈ es := by
    intro s e
    unfold fromPlace
    rw [List.mem_append, or_comm, ← List.mem_append, List.take_append_drop]
  have get : ∀ (s c : Nat), s ≤ es.length → (getPeersWithCapability now s c max false es).1 =
      (((fromPlace s es).filter fun e => hasCapability e.capabilities c).take max).map (·.address) := by
    intro s c h
    unfold getPeersWithCapability
    by_cases h0 : es.length = 0
    · rw [if_pos h0]
      rw [List.length_eq_zero_iff] at h0
      subst h0
      simp [fromPlace]
    · rw [if_neg h0]
      have hl : (fromPlace s es).length = es.length := by simp [fromPlace]; omega
      have := loop_sharing now c max es (fromPlace s es) s [] h (by omega) (fromPlace_get s es h) hmax
      rw [hl] at this
      rw [this]
      simp
  have nil : (((fromPlace start es).filter fun e => hasCapability e.capabilities cap).take max).map (·.address) = [] ↔
      ∀ e ∈ es, hasCapability e.capabilities cap = false := by
    rw [List.map_eq_nil_iff, List.take_eq_nil_iff]
    simp only [show max ≠ 0 by omega, false_or, List.filter_eq_nil_iff, mem, Bool.not_eq_true]
  unfold getPeers
  simp only [get start cap hs, get start' 0 hs']
  constructor
  · rintro ⟨e, he, hw⟩
    rw [if_neg]
    intro h
    rw [nil.1 h e he] at hw
    cases hw
  · intro h
    rw [if_pos (nil.2 h)]
    have : (fromPlace start' es).filter (fun e => hasCapability e.capabilities 0) = fromPlace start' es := by
      rw [List.filter_eq_self]
      intro e _
      simp [hasCapability]
    rw [this]

example : getPeers 20000 1 0 6 5 [⟨1, 6, false, 15000, 0⟩, ⟨2, 1, false, 0, 0⟩, ⟨3, 7, true, 0, 0⟩] = [3, 1] ∧
    getPeers 20000 1 0 8 5 [⟨1, 6, false, 15000, 0⟩, ⟨2, 1, false, 0, 0⟩] = [1, 2] := by decide +kernel

end Verif.Props
