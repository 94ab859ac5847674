import Verif.Conc.Deadlock
import Mathlib.Tactic.SplitIfs

/-!
# C139: the threads of a node never wait for each other for good

`canStep` and `schedule` say what threads do that wait for locks.  A thread has finished when it has nothing left to do.
-/
namespace Verif.Props
open Verif Verif.Conc

/-- A program that takes locks in the order of their ranks: what it asks for at once is of one rank, and of a higher rank than all it
holds; only when it reads, it may also hold others of that rank for reading.  At the end it holds nothing. -/
def Ordered {L : Type} [DecidableEq L] (rank : L → Nat) : List (L × Mode) → List (LockOp L) → Prop
  | held, [] => held = []
  | held, .take m ls :: p =>
    (∀ l ∈ ls, ∀ l' ∈ ls, rank l = rank l') ∧
    (∀ l ∈ ls, ∀ h ∈ held, rank h.1 < rank l ∨ (rank h.1 = rank l ∧ m = .shared ∧ h.2 = .shared)) ∧
    Ordered rank (ls.map (fun l => (l, m)) ++ held) p
  | held, .drop ls :: p => Ordered rank (held.filter (fun h => h.1 ∉ ls)) p

/-- Nobody can go on, though not all have finished. -/
def Deadlocked {L : Type} [DecidableEq L] (s : List (Thread L)) : Prop :=
  (∃ t ∈ s, t.prog ≠ []) ∧ ∀ i, canStep s i = false

section general
variable {L : Type} [DecidableEq L]

private theorem ordered_next {rank : L → Nat} {t : Thread L} (h : Ordered rank t.held t.prog) :
    Ordered rank t.next.held t.next.prog := by
  obtain ⟨held, prog⟩ := t
  cases prog with
  | nil => exact h
  | cons op p =>
    cases op with
    | take m ls => exact h.2.2
    | drop ls => exact h

private theorem all_next {P : Thread L → Prop} (hP : ∀ t, P t → P t.next) (s : List (Thread L)) (i : Nat)
    (h : ∀ t ∈ s, P t) : ∀ t ∈ stepThread s i, P t := by
  intro t ht
  unfold stepThread at ht
  split_ifs at ht with hc
  · obtain ⟨j, hj, rfl⟩ := List.mem_iff_getElem.mp ht
    rw [List.getElem_modify]
    have hm : s[j]'(by simpa using hj) ∈ s := List.getElem_mem _
    split_ifs
    · exact hP _ (h _ hm)
    · exact h _ hm
  · exact h t ht

private theorem all_schedule {P : Thread L → Prop} (hP : ∀ t, P t → P t.next) (order : List Nat) :
    ∀ s : List (Thread L), (∀ t ∈ s, P t) → ∀ t ∈ schedule s order, P t := by
  induction order with
  | nil => intro s h; exact h
  | cons i is ih => intro s h; exact ih _ (all_next hP s i h)

/-- Threads that take their locks in order go on doing so. -/
theorem ordered_schedule {rank : L → Nat} {s : List (Thread L)} (h : ∀ t ∈ s, Ordered rank t.held t.prog)
    (order : List Nat) : ∀ t ∈ schedule s order, Ordered rank t.held t.prog :=
  all_schedule (P := fun t => Ordered rank t.held t.prog) (fun _ => ordered_next) order s h

omit [DecidableEq L] in
private theorem exists_top (f : Thread L → Nat) (l : List (Thread L)) (hne : l ≠ []) :
    ∃ t ∈ l, ∀ u ∈ l, f u ≤ f t := by
  induction l with
  | nil => exact absurd rfl hne
  | cons a l ih =>
    by_cases hl : l = []
    · subst hl
      exact ⟨a, by simp, by simp⟩
    · obtain ⟨t, ht, hmax⟩ := ih hl
      by_cases hat : f a ≤ f t
      · exact ⟨t, by simp [ht], by
          intro u hu
          rcases List.mem_cons.mp hu with rfl | hu
          · exact hat
          · exact hmax u hu⟩
      · refine ⟨a, by simp, ?_⟩
        intro u hu
        rcases List.mem_cons.mp hu with rfl | hu
        · exact Nat.le_refl _
        · exact Nat.le_trans (hmax u hu) (by omega)

/-- The rank of what a thread asks for. -/
private def asks (rank : L → Nat) (t : Thread L) : Nat :=
  match t.prog with
  | .take _ (l :: _) :: _ => rank l
  | _ => 0

/-- What a thread waits for, if nobody can go on. -/
private theorem waits {s : List (Thread L)} (hstuck : ∀ i, canStep s i = false)
    {t : Thread L} (ht : t ∈ s) (hp : t.prog ≠ []) :
    ∃ m ls p l, t.prog = .take m ls :: p ∧ l ∈ ls ∧
      ∃ u ∈ s, ∃ mu, (l, mu) ∈ u.held ∧ (m = .excl ∨ mu = .excl) := by
  obtain ⟨i, hi, rfl⟩ := List.mem_iff_getElem.mp ht
  have hc := hstuck i
  unfold canStep at hc
  rw [List.getElem?_eq_getElem hi] at hc
  simp only at hc
  cases hprog : (s[i]).prog with
  | nil => exact absurd hprog hp
  | cons op p =>
    rw [hprog] at hc
    cases op with
    | drop ls => simp at hc
    | take m ls =>
      simp only [List.all_eq_false] at hc
      obtain ⟨l, hl, hfree⟩ := hc
      refine ⟨m, ls, p, l, rfl, hl, ?_⟩
      have hf : free s m l = false := by simpa using hfree
      unfold free at hf
      rw [List.all_eq_false] at hf
      obtain ⟨u, hu, hu2⟩ := hf
      have hu3 := Bool.eq_false_iff.mpr hu2
      rw [List.all_eq_false] at hu3
      obtain ⟨⟨l', mu⟩, hh, hh2⟩ := hu3
      simp only [ne_eq, decide_not, Bool.or_eq_true, Bool.not_eq_eq_eq_not, Bool.not_true,
        decide_eq_false_iff_not, Bool.and_eq_true, decide_eq_true_eq, not_or, not_not, not_and] at hh2
      obtain ⟨rfl, hm⟩ := hh2
      refine ⟨u, hu, mu, hh, ?_⟩
      cases m <;> cases mu <;> simp_all

private theorem asks_eq {rank : L → Nat} {t : Thread L} {m : Mode} {ls : List L} {p : List (LockOp L)} {l : L}
    (ho : Ordered rank t.held t.prog) (hp : t.prog = .take m ls :: p) (hl : l ∈ ls) : asks rank t = rank l := by
  rw [hp] at ho
  unfold asks
  rw [hp]
  cases ls with
  | nil => cases hl
  | cons a ls => exact ho.1 a (by simp) l hl

/-- **C139**, for any locks and ranks: threads whose programs take their locks in the order of the ranks are never stuck, however
many they are, whatever they do and in whatever order they run. -/
theorem ordered_never_stuck (rank : L → Nat) (s : List (Thread L)) (h : ∀ t ∈ s, Ordered rank t.held t.prog)
    (order : List Nat) : ¬ Deadlocked (schedule s order) := by
  intro ⟨⟨t0, ht0, hp0⟩, hstuck⟩
  have hord := all_schedule (P := fun t => Ordered rank t.held t.prog) (fun t => ordered_next) order s h
  generalize schedule s order = s' at *
  let live := s'.filter (fun t => t.prog ≠ [])
  have hlive : ∀ t, t ∈ live ↔ t ∈ s' ∧ t.prog ≠ [] := by
    intro t
    simp [live, List.mem_filter]
  obtain ⟨t, htl, hmax⟩ := exists_top (asks rank) live (List.ne_nil_of_mem ((hlive t0).mpr ⟨ht0, hp0⟩))
  obtain ⟨ht, hp⟩ := (hlive t).mp htl
  have unfinished : ∀ u ∈ s', ∀ x ∈ u.held, u.prog ≠ [] := by
    intro u hu x hx hnil
    have := hord u hu
    rw [hnil] at this
    unfold Ordered at this
    rw [this] at hx
    cases hx
  obtain ⟨m, ls, p, l, hprog, hl, u, hu, mu, hheld, hconf⟩ := waits hstuck ht hp
  have hup := unfinished u hu _ hheld
  obtain ⟨m', ls', p', l', hprog', hl', v, hv, mv, hheld', hconf'⟩ := waits hstuck hu hup
  have htr := asks_eq (hord t ht) hprog hl
  have hur := asks_eq (hord u hu) hprog' hl'
  have hle := hmax u ((hlive u).mpr ⟨hu, hup⟩)
  have ho := hord u hu
  rw [hprog'] at ho
  rcases ho.2.1 l' hl' _ hheld with hlt | ⟨heq, hm', hmu⟩
  · simp only at hlt
    omega
  · simp only at heq hm' hmu
    have hmv : mv = .excl := by
      rcases hconf' with h' | h'
      · rw [hm'] at h'
        cases h'
      · exact h'
    have hvp := unfinished v hv _ hheld'
    obtain ⟨m'', ls'', p'', l'', hprog'', hl'', _⟩ := waits hstuck hv hvp
    have hvr := asks_eq (hord v hv) hprog'' hl''
    have hle' := hmax v ((hlive v).mpr ⟨hv, hvp⟩)
    have hov := hord v hv
    rw [hprog''] at hov
    rcases hov.2.1 l'' hl'' _ hheld' with hlt' | ⟨_, _, hs⟩
    · simp only at hlt'
      omega
    · simp only at hs
      rw [hmv] at hs
      cases hs

/-- Who is stuck stays so. -/
theorem stuck_stays (s : List (Thread L)) (h : Deadlocked s) (order : List Nat) : schedule s order = s := by
  induction order with
  | nil => rfl
  | cons i is ih =>
    show schedule (stepThread s i) is = s
    rw [show stepThread s i = s by unfold stepThread; rw [h.2 i]; rfl]
    exact ih

end general

/-! ## The operations of a node -/

/-- The order in which a node takes its locks. -/
def nodeRank : NodeLock → Nat
  | .connection _ => 0
  | .chainState => 1
  | .chainStore | .blockDB | .headerMMR | .txHashSet => 2
  | .files => 3
  | .pool => 4
  | .connections => 5

/-- A program that, whatever is held, can be put before another. -/
private def Fits (held : List (NodeLock × Mode)) (p : List (LockOp NodeLock)) : Prop :=
  ∀ q, Ordered nodeRank held q → Ordered nodeRank held (p ++ q)

private theorem fits_nil (held : List (NodeLock × Mode)) : Fits held [] := fun _ h => h

private theorem fits_append {held : List (NodeLock × Mode)} {p q : List (LockOp NodeLock)} (hp : Fits held p)
    (hq : Fits held q) : Fits held (p ++ q) := by
  intro r hr
  rw [List.append_assoc]
  exact hp _ (hq _ hr)

private theorem fits_flatMap {α : Type} {held : List (NodeLock × Mode)} (f : α → List (LockOp NodeLock)) (l : List α)
    (h : ∀ a ∈ l, Fits held (f a)) : Fits held (l.flatMap f) := by
  induction l with
  | nil => exact fits_nil held
  | cons a l ih =>
    rw [List.flatMap_cons]
    exact fits_append (h a (by simp)) (ih fun b hb => h b (by simp [hb]))

/-- Locks of one rank, above all that is held for writing and not below what is held for reading. -/
private theorem fits_holding {held : List (NodeLock × Mode)} {m : Mode} {ls : List NodeLock}
    {inner : List (LockOp NodeLock)} (h1 : ∀ l ∈ ls, ∀ l' ∈ ls, nodeRank l = nodeRank l')
    (h2 : ∀ l ∈ ls, ∀ h ∈ held, nodeRank h.1 < nodeRank l ∨ (nodeRank h.1 = nodeRank l ∧ m = .shared ∧ h.2 = .shared))
    (h3 : ∀ h ∈ held, h.1 ∉ ls) (hin : Fits (ls.map (fun l => (l, m)) ++ held) inner) :
    Fits held (holding m ls inner) := by
  intro q hq
  show Ordered nodeRank held (.take m ls :: ((inner ++ [.drop ls]) ++ q))
  refine ⟨h1, h2, ?_⟩
  rw [List.append_assoc]
  refine hin _ ?_
  show Ordered nodeRank (List.filter (fun h => h.1 ∉ ls) (ls.map (fun l => (l, m)) ++ held)) q
  rw [List.filter_append]
  have e1 : List.filter (fun h : NodeLock × Mode => decide (h.1 ∉ ls)) (ls.map fun l => (l, m)) = [] := by
    rw [List.filter_eq_nil_iff]
    intro h hh
    obtain ⟨l, hl, rfl⟩ := List.mem_map.mp hh
    simpa using hl
  have e2 : List.filter (fun h : NodeLock × Mode => decide (h.1 ∉ ls)) held = held := by
    rw [List.filter_eq_self]
    intro h hh
    simpa using h3 h hh
  rw [e1, e2]
  exact hq

private theorem calls_fit {held : List (NodeLock × Mode)} (ps : List Part)
    (h : ∀ p ∈ ps, ∀ x ∈ held, (nodeRank x.1 < 2 ∨ (nodeRank x.1 = 2 ∧ x.2 = .shared)) ∧ x.1 ≠ p.lock) :
    Fits held (calls ps) := by
  refine fits_flatMap _ _ fun p hp => fits_holding (by simp) ?_ ?_ (fits_nil _)
  · intro l hl x hx
    have hl' : l = p.lock := by simpa using hl
    subst hl'
    have hr : nodeRank p.lock = 2 := by cases p <;> rfl
    rw [hr]
    rcases (h p hp x hx).1 with h1 | h1
    · exact Or.inl h1
    · exact Or.inr ⟨h1.1, rfl, h1.2⟩
  · intro x hx
    simpa using (h p hp x hx).2

/-- One more lock. -/
local macro "lock1" : tactic =>
  `(tactic| refine fits_holding (by simp [nodeRank]) (by simp [nodeRank]) (by simp) ?_)

private theorem chain_fits (held : List (NodeLock × Mode)) (hh : held = [] ∨ ∃ id, held = [(.connection id, .excl)])
    (op : ChainOp) : Fits held op.locks := by
  have hpool : ∀ n, Fits ([(NodeLock.files, Mode.excl)] ++ ([(NodeLock.chainStore, Mode.excl), (.blockDB, .excl),
      (.headerMMR, .excl), (.txHashSet, .excl)] ++ ([(NodeLock.chainState, Mode.excl)] ++ held)))
      ((List.replicate n (holding .excl [.pool] [])).flatten) := by
    intro n
    induction n with
    | zero => exact fits_nil _
    | succ n ih =>
      rw [List.replicate_succ, List.flatten_cons]
      refine fits_append ?_ ih
      rcases hh with rfl | ⟨id, rfl⟩ <;> (lock1; exact fits_nil _)
  have hcalls : ∀ ps, Fits ([(NodeLock.chainState, Mode.shared)] ++ held) (calls ps) := by
    intro ps
    refine calls_fit ps ?_
    intro p _ x hx
    rcases hh with rfl | ⟨id, rfl⟩
    · simp at hx; subst hx; cases p <;> simp [nodeRank, Part.lock]
    · simp at hx; rcases hx with rfl | rfl <;> cases p <;> simp [nodeRank, Part.lock]
  cases op with
  | read ps =>
    rcases hh with rfl | ⟨id, rfl⟩ <;> (unfold ChainOp.locks; lock1; exact hcalls ps)
  | addTransaction b =>
    unfold ChainOp.locks
    have e : Fits ([(NodeLock.chainState, Mode.shared)] ++ held)
        (if b then holding .shared [.blockDB] (holding .shared [.txHashSet] (holding .excl [.pool] []))
          else holding .shared [.txHashSet] (holding .shared [.blockDB] (holding .excl [.pool] []))) := by
      rcases hh with rfl | ⟨id, rfl⟩ <;> cases b <;> simp only [if_true, if_false, Bool.false_eq_true] <;>
        (lock1; lock1; lock1; exact fits_nil _)
    have e2 := fits_append (hcalls [.chainStore, .blockDB]) e
    rcases hh with rfl | ⟨id, rfl⟩ <;> (lock1; exact e2)
  | coinView =>
    rcases hh with rfl | ⟨id, rfl⟩ <;> (unfold ChainOp.locks; lock1; lock1; exact calls_fit _ (by
      simp [nodeRank, Part.lock]))
  | write n =>
    rcases hh with rfl | ⟨id, rfl⟩ <;> (unfold ChainOp.locks; lock1; lock1; lock1; exact hpool n)
  | relay =>
    rcases hh with rfl | ⟨id, rfl⟩ <;> (unfold ChainOp.locks; lock1; lock1; exact fits_nil _)
  | post =>
    unfold ChainOp.locks
    have e := hcalls [.chainStore, .blockDB]
    refine fits_append ?_ ?_
    · rcases hh with rfl | ⟨id, rfl⟩ <;> (lock1; exact e)
    · rcases hh with rfl | ⟨id, rfl⟩ <;>
        (lock1; refine fits_append ?_ ?_; (lock1; exact fits_nil _); (unfold Conc.broadcast; lock1; exact fits_nil _))
  | lookup => rcases hh with rfl | ⟨id, rfl⟩ <;> (unfold ChainOp.locks; lock1; exact fits_nil _)
  | readPool => rcases hh with rfl | ⟨id, rfl⟩ <;> (unfold ChainOp.locks; lock1; exact fits_nil _)
  | changePool => rcases hh with rfl | ⟨id, rfl⟩ <;> (unfold ChainOp.locks; lock1; exact fits_nil _)
  | broadcast => rcases hh with rfl | ⟨id, rfl⟩ <;> (unfold ChainOp.locks Conc.broadcast; lock1; exact fits_nil _)

/-- Operations one after the other take the locks in their order, unless a dead connection is closed. -/
theorem node_ops_ordered (ops : List NodeOp) (hprune : ∀ dead, NodeOp.prune dead ∈ ops → dead = []) :
    Ordered nodeRank [] (ops.flatMap NodeOp.locks) := by
  have hf : Fits [] (ops.flatMap NodeOp.locks) := by
    refine fits_flatMap _ _ fun op hop => ?_
    cases op with
    | chain op => exact chain_fits [] (Or.inl rfl) op
    | message id ops =>
      unfold NodeOp.locks
      lock1
      exact fits_flatMap _ _ fun op _ => chain_fits _ (Or.inr ⟨id, rfl⟩) op
    | prune dead =>
      rw [hprune dead hop]
      unfold NodeOp.locks
      lock1
      exact fits_nil _
  have := hf [] rfl
  rwa [List.append_nil] at this

/-- **C139**, as far as it holds: any number of threads that read and change the chain and the pool, post and relay transactions, and handle
messages of peers, each any number of them, are never stuck, in whatever order they run — as long as no connection is
closed because it was found dead. -/
theorem node_never_stuck_partial (threads : List (List NodeOp)) (order : List Nat)
    (hprune : ∀ ops ∈ threads, ∀ dead, NodeOp.prune dead ∈ ops → dead = []) :
    ¬ Deadlocked (schedule (threads.map worker) order) := by
  refine ordered_never_stuck nodeRank _ ?_ order
  intro t ht
  obtain ⟨ops, hops, rfl⟩ := List.mem_map.mp ht
  exact node_ops_ordered ops (hprune ops hops)

/-- Two threads that handle blocks of two peers and pass them on, one that reads, one that relays, one that looks for dead connections: the
case is one of those above, and after some steps some of them wait. -/
example : canStep (schedule ([[NodeOp.message 1 [.write 1, .broadcast]], [.message 2 [.write 1, .broadcast]],
      [.chain (.read [.chainStore])], [.chain .relay], [.prune []]].map worker) [0, 0, 1]) 1 = false ∧
    canStep (schedule ([[NodeOp.message 1 [.write 1, .broadcast]], [.message 2 [.write 1, .broadcast]],
      [.chain (.read [.chainStore])], [.chain .relay], [.prune []]].map worker) [0, 0, 1]) 0 = true := by
  decide +kernel

/-- **C139 is violated**: while one thread handles a block that a peer sent, and is about to tell the others of it, another finds this very
connection dead.  Both wait for each other for good, and so does, sooner or later, every other thread that handles a message, posts
a transaction or tells peers of anything, whatever else there is. -/
theorem node_stuck_violated (id : Nat) :
    Deadlocked (schedule ([[NodeOp.message id [.write 1, .broadcast]], [.prune [id]]].map worker) ([0, 1] ++ List.replicate 8 0)) ∧
    ∀ order, schedule (schedule ([[NodeOp.message id [.write 1, .broadcast]], [.prune [id]]].map worker)
      ([0, 1] ++ List.replicate 8 0)) order =
      schedule ([[NodeOp.message id [.write 1, .broadcast]], [.prune [id]]].map worker) ([0, 1] ++ List.replicate 8 0) := by
  have hs : schedule ([[NodeOp.message id [.write 1, .broadcast]], [.prune [id]]].map worker) ([0, 1] ++ List.replicate 8 0) =
      [⟨[(.connection id, .excl)], [.take .shared [.connections], .drop [.connections], .drop [.connection id]]⟩,
       ⟨[(.connections, .excl)], [.take .excl [.connection id], .drop [.connection id], .drop [.connections]]⟩] := by
    simp [schedule, stepThread, canStep, worker, NodeOp.locks, ChainOp.locks, Conc.broadcast, holding, free, Thread.next,
      List.replicate]
  have hstuck : Deadlocked (schedule ([[NodeOp.message id [.write 1, .broadcast]], [.prune [id]]].map worker)
      ([0, 1] ++ List.replicate 8 0)) := by
    rw [hs]
    refine ⟨⟨_, by simp; left; rfl, by simp⟩, ?_⟩
    intro i
    match i with
    | 0 => simp [canStep, free]
    | 1 => simp [canStep, free]
    | i + 2 => simp [canStep]
  exact ⟨hstuck, fun order => stuck_stays _ hstuck order⟩

/-- The thread still has to take the lock of the list of connections. -/
private def Needs (t : Thread NodeLock) : Prop := ∃ m ls, .take m ls ∈ t.prog ∧ NodeLock.connections ∈ ls

/-- The thread that handles a message of the connection, waiting. -/
private def waitingReader (id : Nat) : Thread NodeLock :=
  ⟨[(.connection id, .excl)], [.take .shared [.connections], .drop [.connections], .drop [.connection id]]⟩

/-- The thread that closes it, waiting. -/
private def waitingPruner (id : Nat) : Thread NodeLock :=
  ⟨[(.connections, .excl)], [.take .excl [.connection id], .drop [.connection id], .drop [.connections]]⟩

private theorem pair_step (id : Nat) (r : List (Thread NodeLock)) (i : Nat) :
    stepThread (waitingReader id :: waitingPruner id :: r) i = waitingReader id :: waitingPruner id :: r ∨
    ∃ k, k < r.length ∧ canStep (waitingReader id :: waitingPruner id :: r) (k + 2) = true ∧
      stepThread (waitingReader id :: waitingPruner id :: r) i =
        waitingReader id :: waitingPruner id :: r.modify k Thread.next := by
  unfold stepThread
  match i with
  | 0 => left; rw [show canStep (waitingReader id :: waitingPruner id :: r) 0 = false by
      simp [canStep, free, waitingReader, waitingPruner]]; rfl
  | 1 => left; rw [show canStep (waitingReader id :: waitingPruner id :: r) 1 = false by
      simp [canStep, free, waitingReader, waitingPruner]]; rfl
  | k + 2 =>
    by_cases hc : canStep (waitingReader id :: waitingPruner id :: r) (k + 2) = true
    · right
      have hk : k < r.length := by
        by_contra hk
        unfold canStep at hc
        simp only [List.getElem?_cons_succ] at hc
        rw [List.getElem?_eq_none (by omega)] at hc
        simp at hc
      exact ⟨k, hk, hc, by rw [if_pos hc]; simp [List.modify_succ_cons]⟩
    · left
      rw [if_neg hc]

private theorem needs_next {id : Nat} {r : List (Thread NodeLock)} {k : Nat} (hk : k < r.length)
    (hc : canStep (waitingReader id :: waitingPruner id :: r) (k + 2) = true) (hn : Needs r[k]) : Needs (r[k]).next := by
  obtain ⟨m, ls, hm, hl⟩ := hn
  unfold canStep at hc
  simp only [List.getElem?_cons_succ] at hc
  rw [List.getElem?_eq_getElem hk] at hc
  simp only at hc
  cases hprog : (r[k]).prog with
  | nil => rw [hprog] at hm; cases hm
  | cons op p =>
    rw [hprog] at hc hm
    have hnext : (r[k]).next.prog = p := by
      unfold Thread.next
      rw [hprog]
      cases op <;> rfl
    rcases List.mem_cons.mp hm with rfl | hm'
    · exfalso
      simp only [List.all_eq_true] at hc
      have := hc _ hl
      unfold free at this
      simp [waitingPruner] at this
    · exact ⟨m, ls, by rw [hnext]; exact hm', hl⟩

private theorem pair_stays (id : Nat) (order : List Nat) :
    ∀ r : List (Thread NodeLock), ∃ r' : List (Thread NodeLock),
      schedule (waitingReader id :: waitingPruner id :: r) order = waitingReader id :: waitingPruner id :: r' ∧
      ∃ hlen : r'.length = r.length, ∀ k, ∀ hk : k < r.length, Needs r[k] → Needs (r'[k]'(hlen ▸ hk)) := by
  induction order with
  | nil => intro r; exact ⟨r, rfl, rfl, fun _ _ h => h⟩
  | cons i is ih =>
    intro r
    show ∃ r', schedule (stepThread (waitingReader id :: waitingPruner id :: r) i) is = _ ∧ _
    rcases pair_step id r i with h | ⟨k, hk, hc, h⟩
    · rw [h]
      exact ih r
    · rw [h]
      obtain ⟨r', he, hlen, hn⟩ := ih (r.modify k Thread.next)
      refine ⟨r', he, hlen.trans (by simp), ?_⟩
      intro j hj hnj
      refine hn j (by simpa using hj) ?_
      rw [List.getElem_modify]
      split_ifs with hkj
      · subst hkj
        exact needs_next hk hc hnj
      · exact hnj

private theorem stuck_pair (id : Nat) : schedule ([[NodeOp.message id [.write 1, .broadcast]], [.prune [id]]].map worker)
    ([0, 1] ++ List.replicate 8 0) = [waitingReader id, waitingPruner id] := by
  simp [schedule, stepThread, canStep, worker, NodeOp.locks, ChainOp.locks, Conc.broadcast, holding, free, Thread.next,
    List.replicate, waitingReader, waitingPruner]

private theorem needs_of_locks {ops : List NodeOp} {op : NodeOp} (h : op ∈ ops)
    (hn : ∃ m ls, .take m ls ∈ op.locks ∧ NodeLock.connections ∈ ls) : Needs (worker ops) := by
  obtain ⟨m, ls, h1, h2⟩ := hn
  exact ⟨m, ls, List.mem_flatMap.mpr ⟨op, h, h1⟩, h2⟩

/-- **C139 is violated**: from then on, whatever other threads there are and however they run, none finishes that tells peers of
anything, posts a transaction, handles a message that it passes on, or looks for dead connections. -/
theorem whole_node_stuck_violated (id : Nat) (others : List (List NodeOp)) (order : List Nat) (k : Nat)
    (hk : k < others.length)
    (hneeds : NodeOp.chain .broadcast ∈ others[k] ∨ NodeOp.chain .post ∈ others[k] ∨ (∃ dead, NodeOp.prune dead ∈ others[k]) ∨
      ∃ c ops, NodeOp.message c ops ∈ others[k] ∧ ChainOp.broadcast ∈ ops) :
    ∃ t, (schedule (schedule ([[NodeOp.message id [.write 1, .broadcast]], [.prune [id]]].map worker)
        ([0, 1] ++ List.replicate 8 0) ++ others.map worker) order)[k + 2]? = some t ∧ t.prog ≠ [] := by
  rw [stuck_pair]
  obtain ⟨r', he, hlen, hn⟩ := pair_stays id order (others.map worker)
  have hk' : k < (others.map worker).length := by simpa using hk
  have hN : Needs ((others.map worker)[k]'hk') := by
    rw [List.getElem_map]
    rcases hneeds with h | h | ⟨dead, h⟩ | ⟨c, ops, h, hb⟩
    · exact needs_of_locks h ⟨.shared, [.connections], by
        simp [NodeOp.locks, ChainOp.locks, Conc.broadcast, holding], by simp⟩
    · exact needs_of_locks h ⟨.shared, [.connections], by
        simp [NodeOp.locks, ChainOp.locks, Conc.broadcast, holding], by simp⟩
    · exact needs_of_locks h ⟨.excl, [.connections], by simp [NodeOp.locks, holding], by simp⟩
    · refine needs_of_locks h ⟨.shared, [.connections], ?_, by simp⟩
      simp only [NodeOp.locks, holding, List.mem_cons, List.mem_append, List.mem_flatMap]
      refine Or.inr (Or.inl ⟨.broadcast, hb, ?_⟩)
      simp [ChainOp.locks, Conc.broadcast, holding]
  obtain ⟨m, ls, hm, _⟩ := hn k hk' hN
  refine ⟨r'[k]'(hlen ▸ hk'), ?_, ?_⟩
  · show (schedule (waitingReader id :: waitingPruner id :: others.map worker) order)[k + 2]? = _
    rw [he]
    simp only [List.getElem?_cons_succ]
    exact List.getElem?_eq_getElem _
  · intro hnil
    rw [hnil] at hm
    cases hm

end Verif.Props
