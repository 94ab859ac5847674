import Verif.P2P.Net

/-!
# C55, C56, C57: rate counters, the listener, queues and the transaction pipe
-/
namespace Verif.Props
open Verif.P2P

/-! ## C55 -/

/-- The time of a call. -/
def timeOf : RateOp → Int
  | .add t => t
  | .get t => t

/-- The times at which messages were recorded. -/
def recorded : List RateOp → List Int
  | [] => []
  | .add t :: ops => t :: recorded ops
  | .get _ :: ops => recorded ops

private theorem recorded_append : ∀ (a b : List RateOp), recorded (a ++ b) = recorded a ++ recorded b := by
  intro a
  induction a with
  | nil => intro b; rfl
  | cons o a ih => intro b; cases o <;> simp [recorded, ih]

private theorem rateDrop_sorted (m : Int) : ∀ (q : List Int), q.Pairwise (· ≤ ·) →
    rateDrop m q = q.filter (fun t => m ≤ t) := by
  intro q
  induction q with
  | nil => intro _; rfl
  | cons t q ih =>
    intro h
    rw [List.pairwise_cons] at h
    unfold rateDrop
    by_cases ht : m ≤ t
    · rw [if_pos ht]
      symm
      rw [List.filter_eq_self]
      intro a ha
      rw [List.mem_cons] at ha
      rcases ha with rfl | ha
      · simpa using ht
      · have := h.1 a ha
        simp
        omega
    · rw [if_neg ht, ih h.2]
      simp [ht]

private theorem rate_inv : ∀ (ops : List RateOp) (q : List Int) (all : List Int) (last : Int),
    q.Pairwise (· ≤ ·) → (∀ t ∈ all, t ≤ last) → (∀ t, last - 60 ≤ t → q.count t = all.count t) →
    (∀ t ∈ q, t ≤ last) → (ops.map timeOf).Pairwise (· ≤ ·) → (∀ o ∈ ops, last ≤ (timeOf o)) →
    let q' := ops.foldl RateOp.step q
    let last' := (ops.map timeOf).getLastD last
    q'.Pairwise (· ≤ ·) ∧ (∀ t, last' - 60 ≤ t → q'.count t = (all ++ recorded ops).count t) ∧ (∀ t ∈ q', t ≤ last') ∧
      last ≤ last' := by
  intro ops
  induction ops with
  | nil => intro q all last h1 h2 h3 h4 _ _; simp [recorded, List.getLastD]; exact ⟨h1, h3, h4⟩
  | cons o ops ih =>
    intro q all last h1 h2 h3 h4 h5 h6
    rw [List.map_cons, List.pairwise_cons] at h5
    have ho := h6 o (by simp)
    simp only [List.foldl_cons, List.map_cons, List.getLastD_cons]
    have later : ∀ x ∈ ops, (timeOf o) ≤ (timeOf x) := fun x hx => h5.1 _ (List.mem_map.2 ⟨x, hx, rfl⟩)
    cases o with
    | add t =>
      simp only [timeOf] at ho later ⊢
      have := ih (RateOp.step q (.add t)) (all ++ [t]) t (by
        simp only [RateOp.step, rateAdd, List.pairwise_append]
        refine ⟨h1, by simp, ?_⟩
        intro a ha b hb
        rw [List.mem_singleton] at hb
        have := h4 a ha
        omega) (by
        intro a ha
        rw [List.mem_append, List.mem_singleton] at ha
        rcases ha with ha | rfl
        · have := h2 a ha; omega
        · omega) (by
        intro a ha
        simp only [RateOp.step, rateAdd, List.count_append]
        rw [h3 a (by omega)]) (by
        intro a ha
        simp only [RateOp.step, rateAdd, List.mem_append, List.mem_singleton] at ha
        rcases ha with ha | rfl
        · have := h4 a ha; omega
        · omega) h5.2 later
      simp only [recorded]
      refine ⟨this.1, ?_, this.2.2.1, by have := this.2.2.2; omega⟩
      intro a ha
      rw [this.2.1 a ha]
      simp
    | get t =>
      simp only [timeOf] at ho later ⊢
      have := ih (RateOp.step q (.get t)) all t (by
        simp only [RateOp.step, rateGet]
        rw [rateDrop_sorted _ _ h1]
        exact h1.filter _) (by
        intro a ha
        have := h2 a ha; omega) (by
        intro a ha
        simp only [RateOp.step, rateGet]
        rw [rateDrop_sorted _ _ h1, List.count_filter (by simpa using ha), h3 a (by omega)]) (by
        intro a ha
        simp only [RateOp.step, rateGet] at ha
        rw [rateDrop_sorted _ _ h1, List.mem_filter] at ha
        have := h4 a ha.1; omega) h5.2 later
      simp only [recorded]
      exact ⟨this.1, this.2.1, this.2.2.1, by have := this.2.2.2; omega⟩

/-- **C55.** While the clock does not go back: after any calls, the number reported at time `now` is the number of messages
recorded from `now - 60` seconds on. -/
theorem rate_exact (ops : List RateOp) (now : Int) (hmono : (ops.map timeOf ++ [now]).Pairwise (· ≤ ·)) :
    (rateGet (ops.foldl RateOp.step []) now).2 = (recorded ops).countP (fun t => now - 60 ≤ t) := by
  rw [List.pairwise_append] at hmono
  obtain ⟨m1, -, m2⟩ := hmono
  have key : ∀ (q all : List Int), (∀ t, now - 60 ≤ t → q.count t = all.count t) →
      (q.filter (fun t => now - 60 ≤ t)).length = all.countP (fun t => now - 60 ≤ t) := by
    intro q all h
    rw [List.countP_eq_length_filter]
    apply List.Perm.length_eq
    rw [List.perm_iff_count]
    intro a
    by_cases ha : now - 60 ≤ a
    · rw [List.count_filter (by simpa using ha), List.count_filter (by simpa using ha), h a ha]
    · rw [List.count_eq_zero_of_not_mem (by simp [ha]), List.count_eq_zero_of_not_mem (by simp [ha])]
  cases ops with
  | nil => rfl
  | cons o ops =>
    have h0 : ∀ x ∈ o :: ops, (timeOf o) ≤ (timeOf x) := by
      intro x hx
      rw [List.map_cons, List.pairwise_cons] at m1
      rw [List.mem_cons] at hx
      rcases hx with rfl | hx
      · omega
      · exact m1.1 _ (List.mem_map.2 ⟨x, hx, rfl⟩)
    obtain ⟨a, b, c, d⟩ := rate_inv (o :: ops) [] [] (timeOf o) (by simp) (by simp) (by simp) (by simp) m1 h0
    have hl : ((o :: ops).map timeOf).getLastD (timeOf o) ≤ now := by
      have : ((o :: ops).map timeOf).getLastD (timeOf o) ∈ (o :: ops).map timeOf := by
        rw [List.map_cons, List.getLastD_cons]
        exact List.getLastD_mem_cons
      exact m2 _ this now (by simp)
    unfold rateGet
    simp only
    rw [rateDrop_sorted _ _ a]
    refine key _ _ (fun t ht => ?_)
    rw [b t (by omega), List.nil_append]

example : rateGet ([RateOp.add 100, .add 130, .get 140, .add 165].foldl RateOp.step []) 190 = ([130, 165], 2) := by decide

/-- **C55, a clock set back.** With a clock that goes back the count is wrong: a message recorded 100 seconds ago counts. -/
theorem rate_clock_violated : (rateGet ([RateOp.add 1000, .add 900].foldl RateOp.step []) 1000).2 = 2 ∧
    ([1000, 900].countP (fun t => (1000 : Int) - 60 ≤ t)) = 1 := by decide

/-! ## C56 -/

/-- A connection that `Accept` deals with properly: no error, and the other side is still there and neither blocked
nor left out of the list of allowed peers, unless there are too many connections anyway. -/
def Ordinary : NetEvent → Prop
  | .arrive a => a.error = false ∧ (a.full = true ∨ (a.gone = false ∧ a.blocked = false ∧ a.allowed = true))
  | _ => True

/-- Ready for the next connection. -/
def Listening (n : Net) : Prop := n.armed = true ∧ n.stopped = false ∧ n.dead = false

/-- **C56.** Once the port is open, after any events among which are only connections that `Accept` deals with properly (from
banned or welcome peers, or too many), the node is ready for the next one; and a connection from a welcome peer is opened.

Partial: the other connections end the listening or more, see below. -/
theorem listening_partial (es : List NetEvent) (he : ∀ e ∈ es, Ordinary e) :
    Listening (es.foldl Net.step (Net.initial true)) ∧
    ∀ a : Arrival, a = ⟨false, false, false, false, true, false⟩ →
      ((es.foldl Net.step (Net.initial true)).step (.arrive a)).opened = (es.foldl Net.step (Net.initial true)).opened + 1 := by
  have inv : ∀ (es : List NetEvent) (n : Net), Listening n → (∀ e ∈ es, Ordinary e) → Listening (es.foldl Net.step n) := by
    intro es
    induction es with
    | nil => intro n h _; exact h
    | cons e es ih =>
      intro n h ho
      rw [List.foldl_cons]
      refine ih _ ?_ (fun x hx => ho x (by simp [hx]))
      obtain ⟨h1, h2, h3⟩ := h
      cases e with
      | start => exact ⟨by simp [Net.step, h1, h3], by simp [Net.step, h2, h3], by simp [Net.step, h3]⟩
      | complete again =>
        simp only [Net.step, h2, h3, Bool.or_self, Bool.false_or]
        split
        · exact ⟨h1, h2, h3⟩
        · split
          · exact ⟨h1, rfl, rfl⟩
          · simp only [Net.settle, h1, Bool.true_eq_false, false_and, if_false]
            exact ⟨rfl, rfl, rfl⟩
      | arrive a =>
        obtain ⟨o1, o2⟩ := ho (.arrive a) (by simp)
        simp only [Net.step, h1, h2, h3, Bool.or_self, Bool.not_true, Bool.false_eq_true, if_false]
        have : Listening (n.accept a) := by
          unfold Net.accept
          simp only [o1, Bool.false_eq_true, if_false]
          rcases o2 with o2 | ⟨o2, o3, o4⟩
          · simp only [o2, if_true]; exact ⟨rfl, h2, h3⟩
          · simp only [o2, o3, o4, Bool.false_eq_true, if_false, Bool.not_true]
            split
            · exact ⟨rfl, h2, h3⟩
            · split <;> exact ⟨rfl, h2, h3⟩
        unfold Net.settle
        rw [if_neg (by rw [this.1]; simp)]
        exact this
  have h := inv es (Net.initial true) (by unfold Listening; decide) he
  refine ⟨h, ?_⟩
  rintro a rfl
  obtain ⟨h1, h2, h3⟩ := h
  generalize es.foldl Net.step (Net.initial true) = n at *
  simp [Net.step, h1, h2, h3, Net.accept, Net.settle]

/-- **C56 violated: a blocked peer ends the listening.** After one connection from a blocked peer, or from one that is not on
the list of allowed peers, or an error, no connection is ever opened again, whatever happens. -/
theorem deaf_violated (n : Net) (hn : Listening n) (a : Arrival)
    (ha : a.error = true ∨ (a.full = false ∧ a.gone = false ∧ (a.blocked = true ∨ a.allowed = false)))
    (es : List NetEvent) :
    ¬ Listening (es.foldl Net.step (n.step (.arrive a))) ∧ (es.foldl Net.step (n.step (.arrive a))).opened = n.opened := by
  obtain ⟨h1, h2, h3⟩ := hn
  have acc : n.accept a = { n with armed := false } := by
    unfold Net.accept
    by_cases he : a.error = true
    · rw [if_pos he]
    · rw [if_neg he]
      rcases ha with ha | ⟨b, c, d⟩
      · exact absurd ha he
      · simp only [b, c, Bool.false_eq_true, if_false]
        rcases d with d | d
        · simp [d]
        · by_cases hb : a.blocked = true <;> simp [hb, d]
  have base : (n.step (.arrive a)).armed = false ∧ (n.step (.arrive a)).opened = n.opened := by
    simp only [Net.step, h1, h2, h3, Bool.or_self, Bool.not_true, Bool.false_eq_true, if_false, acc, Net.settle]
    split <;> exact ⟨rfl, rfl⟩
  have inv : ∀ (es : List NetEvent) (m : Net), m.armed = false →
      (es.foldl Net.step m).armed = false ∧ (es.foldl Net.step m).opened = m.opened := by
    intro es
    induction es with
    | nil => intro m h; exact ⟨h, rfl⟩
    | cons e es ih =>
      intro m h
      rw [List.foldl_cons]
      have : (m.step e).armed = false ∧ (m.step e).opened = m.opened := by
        cases e with
        | arrive b => simp [Net.step, h]
        | start => simp only [Net.step]; split <;> simp [h]
        | complete again =>
          simp only [Net.step]
          split
          · exact ⟨h, rfl⟩
          · split
            · exact ⟨h, rfl⟩
            · simp only [Net.settle]
              split <;> exact ⟨h, rfl⟩
      have r := ih _ this.1
      exact ⟨r.1, r.2.trans this.2⟩
  have r := inv es _ base.1
  exact ⟨fun hl => by rw [hl.1] at r; exact absurd r.1 (by simp), r.2.trans base.2⟩

/-- **C56 violated: the whole network thread stops.** When no other operation is pending at that moment (the port could not be
opened at start, or no peer is connected yet when the blocked peer calls), the context stops for good: no
operation started afterwards is ever completed, so no peer is ever connected to again. -/
theorem stopped_violated (n : Net) (hs : n.stopped = true) (es : List NetEvent) :
    (es.foldl Net.step n).served = n.served ∧ (es.foldl Net.step n).opened = n.opened := by
  have inv : ∀ (es : List NetEvent) (m : Net), m.stopped = true →
      (es.foldl Net.step m).served = m.served ∧ (es.foldl Net.step m).opened = m.opened := by
    intro es
    induction es with
    | nil => intro m _; exact ⟨rfl, rfl⟩
    | cons e es ih =>
      intro m h
      rw [List.foldl_cons]
      have : (m.step e).stopped = true ∧ (m.step e).served = m.served ∧ (m.step e).opened = m.opened := by
        cases e with
        | arrive b => simp [Net.step, h]
        | start => simp only [Net.step]; split <;> simp [h]
        | complete again => simp [Net.step, h]
      have r := ih _ this.1
      exact ⟨r.1.trans this.2.1, r.2.trans this.2.2⟩
  exact inv es n hs

/-- The two ways into it, and the one below. -/
example : (Net.initial false).stopped = true := by decide
example : ((Net.initial true).step (.arrive ⟨false, false, false, true, true, false⟩)).stopped = true := by decide
example : Listening (Net.initial true) := by unfold Listening; decide

/-- **C56 violated: hanging up early ends the program.** A connection that the other side has closed before the handler asks for its
address raises an exception in the thread that runs the handlers, where nothing catches it. -/
theorem hang_up_violated (n : Net) (hn : Listening n) (a : Arrival) (h1 : a.error = false) (h2 : a.full = false)
    (h3 : a.gone = true) : (n.step (.arrive a)).dead = true := by
  obtain ⟨l1, l2, l3⟩ := hn
  simp only [Net.step, l1, l2, l3, Net.accept, h1, h2, h3, Net.settle, Bool.or_self, Bool.not_true, Bool.false_eq_true, if_false,
    if_true]
  split <;> rfl

/-! ## C57 -/

/-- What was taken into the queue, in order. -/
def takenIn {α : Type} (same : α → α → Bool) : List α → List (QOp α) → List α
  | _, [] => []
  | q, .push a :: ops => a :: takenIn same (q ++ [a]) ops
  | q, .pushUnique a :: ops =>
    if q.any (fun b => same b a) then takenIn same q ops else a :: takenIn same (q ++ [a]) ops
  | q, .pop n :: ops => takenIn same (q.drop n) ops

/-- **C57, first in first out.** After any calls, what was popped followed by what is queued is what was taken in, in order; and
a pop takes the oldest elements. -/
theorem queue_fifo {α : Type} (same : α → α → Bool) (ops : List (QOp α)) :
    (ops.foldl (QOp.step same) ([], [])).2 ++ (ops.foldl (QOp.step same) ([], [])).1 = takenIn same [] ops ∧
    ∀ n, copyFront (ops.foldl (QOp.step same) ([], [])).1 (n + 1) =
      ((takenIn same [] ops).drop (ops.foldl (QOp.step same) ([], [])).2.length).take (n + 1) := by
  have key : ∀ (ops : List (QOp α)) (s : List α × List α),
      (ops.foldl (QOp.step same) s).2 ++ (ops.foldl (QOp.step same) s).1 = s.2 ++ s.1 ++ takenIn same s.1 ops := by
    intro ops
    induction ops with
    | nil => intro s; simp [takenIn]
    | cons o ops ih =>
      intro s
      rw [List.foldl_cons, ih]
      cases o with
      | push a => simp [QOp.step, takenIn]
      | pop n => simp [QOp.step, takenIn]
      | pushUnique a =>
        simp only [QOp.step, pushUnique, takenIn]
        split <;> simp
  have h := key ops ([], [])
  simp only [List.nil_append] at h
  refine ⟨h, ?_⟩
  intro n
  rw [← h, List.drop_left]
  simp [copyFront]

/-- **C57, unique.** When elements are only pushed with `push_back_unique`, no element in the queue is the same as an
earlier one, and a push is refused exactly when the element is the same as one in the queue. -/
theorem queue_unique {α : Type} (same : α → α → Bool) (ops : List (QOp α)) (h : ∀ o ∈ ops, ∀ a, o ≠ .push a) :
    (ops.foldl (QOp.step same) ([], [])).1.Pairwise (fun a b => same a b = false) ∧
    ∀ a, (pushUnique same (ops.foldl (QOp.step same) ([], [])).1 a).2 = false ↔
      ∃ b ∈ (ops.foldl (QOp.step same) ([], [])).1, same b a = true := by
  have key : ∀ (ops : List (QOp α)) (s : List α × List α), (∀ o ∈ ops, ∀ a, o ≠ .push a) →
      s.1.Pairwise (fun a b => same a b = false) → (ops.foldl (QOp.step same) s).1.Pairwise (fun a b => same a b = false) := by
    intro ops
    induction ops with
    | nil => intro s _ h; exact h
    | cons o ops ih =>
      intro s ho hs
      rw [List.foldl_cons]
      refine ih _ (fun x hx => ho x (by simp [hx])) ?_
      cases o with
      | push a => exact absurd rfl (ho (.push a) (by simp) a)
      | pop n => exact hs.sublist (List.drop_sublist n s.1)
      | pushUnique a =>
        simp only [QOp.step, pushUnique]
        split
        · exact hs
        · rename_i hn
          rw [List.pairwise_append]
          refine ⟨hs, by simp, ?_⟩
          intro x hx y hy
          rw [List.mem_singleton] at hy
          subst hy
          simp only [List.any_eq_true, not_exists, not_and, Bool.not_eq_true] at hn
          exact hn x hx
  refine ⟨key ops _ h (by simp), ?_⟩
  intro a
  unfold pushUnique
  rw [← List.any_eq_true (p := fun b => same b a)]
  split <;> simp_all

/-- **C57, the transaction pipe moves on.** If adding a transaction again right after it was added does not succeed, then
whatever the transactions and whatever announcing them does, after `2 * n` rounds the first `n` transactions queued are
gone and the others follow in order: no transaction blocks the ones behind it. -/
theorem pipe_moves {T P : Type} (add : P → TxEntry T → P × TxStatus) (announce : P → T → Res Unit)
    (hdup : ∀ p e, (add p e).2 = .success → (add (add p e).1 e).2 ≠ .success) (n : Nat) (s : Pipe T P) :
    ∃ k ≤ 2 * n, (Pipe.rounds add announce k s).queue = s.queue.drop n := by
  have rounds_add : ∀ (a b : Nat) (s : Pipe T P),
      Pipe.rounds add announce (a + b) s = Pipe.rounds add announce b (Pipe.rounds add announce a s) := by
    intro a
    induction a with
    | zero => intro b s; simp [Pipe.rounds]
    | succ a ih => intro b s; rw [Nat.succ_add]; simp only [Pipe.rounds]; exact ih b _
  have one : ∀ s : Pipe T P, ∃ k ≤ 2, (Pipe.rounds add announce k s).queue = s.queue.drop 1 := by
    intro s
    cases hq : s.queue with
    | nil => exact ⟨0, by omega, by simp [Pipe.rounds, hq]⟩
    | cons e rest =>
      have other : ∀ s : Pipe T P, s.queue = e :: rest → (add s.pool e).2 ≠ .success →
          (s.round add announce).queue = rest := by
        intro s hq hne
        unfold Pipe.round
        simp only [hq, hne, false_and, if_false]
        split <;> rfl
      by_cases hs : (add s.pool e).2 = .success
      · by_cases hm : e.mempool = true
        · by_cases ha : announce (add s.pool e).1 e.tx = .ok ()
          · exact ⟨1, by omega, by simp [Pipe.rounds, Pipe.round, hq, hs, hm, ha]⟩
          · have h1 : (s.round add announce).queue = e :: rest ∧ (s.round add announce).pool = (add s.pool e).1 := by
              unfold Pipe.round
              simp only [hq, hs, hm, and_self, if_true]
              split
              · rename_i h; exact absurd h ha
              · exact ⟨rfl, rfl⟩
            refine ⟨2, by omega, ?_⟩
            simp only [Pipe.rounds, List.drop_succ_cons, List.drop_zero]
            exact other _ h1.1 (by rw [h1.2]; exact hdup _ _ hs)
        · exact ⟨1, by omega, by simp [Pipe.rounds, Pipe.round, hq, hs, hm]⟩
      · exact ⟨1, by omega, by simp only [Pipe.rounds, List.drop_succ_cons, List.drop_zero]; exact other s hq hs⟩
  induction n with
  | zero => exact ⟨0, by omega, by simp [Pipe.rounds]⟩
  | succ n ih =>
    obtain ⟨k, k1, k2⟩ := ih
    obtain ⟨j, j1, j2⟩ := one (Pipe.rounds add announce k s)
    refine ⟨k + j, by omega, ?_⟩
    rw [rounds_add, j2, k2, List.drop_drop]

/-- A pool that takes each transaction once. -/
private def addOnce (p : List Nat) (e : TxEntry Nat) : List Nat × TxStatus :=
  if e.tx ∈ p then (p, .unknownError) else (p ++ [e.tx], .success)

example : ∀ p e, (addOnce p e).2 = .success → (addOnce (addOnce p e).1 e).2 ≠ .success := by
  intro p e h
  unfold addOnce at h ⊢
  by_cases hm : e.tx ∈ p <;> simp_all

example : (Pipe.rounds addOnce (fun _ t => if t = 7 then .throw else .ok ()) 3
    ⟨[⟨1, 7, true⟩, ⟨2, 8, true⟩], [], [], []⟩) = ⟨[], [7, 8], [], [8]⟩ := rfl

/-- **C57, who is banned and what is announced.**  In every round the transaction at the front is added; its peer is banned exactly
if it is found invalid, and it is announced exactly if it was added, is for the pool, and announcing does not fail. -/
theorem pipe_round {T P : Type} (add : P → TxEntry T → P × TxStatus) (announce : P → T → Res Unit) (s : Pipe T P) (e : TxEntry T)
    (rest : List (TxEntry T)) (hq : s.queue = e :: rest) :
    (s.round add announce).pool = (add s.pool e).1 ∧
    (s.round add announce).banned = s.banned ++ (if (add s.pool e).2 = .invalid then [e.peer] else []) ∧
    (s.round add announce).announced = s.announced ++
      (if (add s.pool e).2 = .success ∧ e.mempool = true ∧ announce (add s.pool e).1 e.tx = .ok () then [e.tx] else []) := by
  unfold Pipe.round
  simp only [hq]
  cases hr : (add s.pool e).2 with
  | success =>
    cases hm : e.mempool with
    | true =>
      cases ha : announce (add s.pool e).1 e.tx with
      | ok u => simp
      | throw => simp
      | ub => simp
    | false => simp
  | invalid => simp
  | unknownError => simp

/-- **C57, only peers of invalid transactions are banned.** -/
theorem pipe_bans {T P : Type} (add : P → TxEntry T → P × TxStatus) (announce : P → T → Res Unit) (n : Nat) (s : Pipe T P) :
    ∀ p ∈ (Pipe.rounds add announce n s).banned, p ∈ s.banned ∨ ∃ e ∈ s.queue, e.peer = p ∧ ∃ pool, (add pool e).2 = .invalid := by
  induction n generalizing s with
  | zero => intro p hp; exact Or.inl hp
  | succ n ih =>
    intro p hp
    cases hq : s.queue with
    | nil =>
      have : s.round add announce = s := by unfold Pipe.round; rw [hq]
      rw [show Pipe.rounds add announce (n + 1) s = Pipe.rounds add announce n (s.round add announce) from rfl, this] at hp
      have := ih s p hp
      rw [hq] at this
      exact this
    | cons e rest =>
      have hsub : ∀ x ∈ (s.round add announce).queue, x ∈ e :: rest := by
        intro x hx
        unfold Pipe.round at hx
        simp only [hq] at hx
        split at hx
        · split at hx
          · exact List.mem_cons_of_mem _ hx
          · simpa [hq] using hx
        · split at hx <;> exact List.mem_cons_of_mem _ hx
      rcases ih (s.round add announce) p hp with h | ⟨x, hx, h1, h2⟩
      · rw [(pipe_round add announce s e rest hq).2.1, List.mem_append] at h
        rcases h with h | h
        · exact Or.inl h
        · split at h
          · rename_i hi
            simp at h
            exact Or.inr ⟨e, by simp, h.symm, _, hi⟩
          · cases h
      · exact Or.inr ⟨x, hsub x hx, h1, h2⟩

/-- **C56, only welcome connections are opened.**  Whatever the state, an event opens at most one connection, and only one that arrives
without error, within the limit, from a peer still there that is not blocked, is allowed and is not banned. -/
theorem opened_welcome (n : Net) (e : NetEvent) :
    (n.step e).opened = n.opened ∨ ((n.step e).opened = n.opened + 1 ∧ e = .arrive ⟨false, false, false, false, true, false⟩) := by
  have settle : ∀ m : Net, m.settle.opened = m.opened := by
    intro m; unfold Net.settle; split <;> rfl
  cases e with
  | arrive a =>
    obtain ⟨a1, a2, a3, a4, a5, a6⟩ := a
    simp only [Net.step]
    split
    · exact Or.inl rfl
    · rw [settle]
      cases a1 <;> cases a2 <;> cases a3 <;> cases a4 <;> cases a5 <;> cases a6 <;> simp [Net.accept]
  | start => simp only [Net.step]; split <;> exact Or.inl rfl
  | complete again =>
    left
    simp only [Net.step]
    split
    · rfl
    · split
      · rfl
      · exact settle _

end Verif.Props
