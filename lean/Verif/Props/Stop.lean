import Verif.Conc.Stop
import Verif.Props.Deadlock
import Mathlib.Tactic.SplitIfs

/-!
# C142: a node that is asked to stop stops

`Doing` says what the threads of a node are doing when it is asked to stop, `stopping` is the node from that moment on.  A thread has
ended when it has nothing left to do.
-/
namespace Verif.Props
open Verif Verif.Conc

section general
variable {L : Type} [DecidableEq L]

/-- How much is left to do. -/
private def left (s : List (Thread L)) : Nat := (s.map fun t => t.prog.length).sum

omit [DecidableEq L] in
private theorem left_modify (s : List (Thread L)) : ∀ (i : Nat) (f : Thread L → Thread L) (t : Thread L), s[i]? = some t →
    (f t).prog.length < t.prog.length → left (s.modify i f) < left s := by
  induction s with
  | nil => intro i f t h; simp at h
  | cons a s ih =>
    intro i f t h hlt
    cases i with
    | zero =>
      simp at h
      subst h
      simp [left]
      exact hlt
    | succ i =>
      simp at h
      have := ih i f t h hlt
      simp [left, List.modify_succ_cons] at *
      exact this

private theorem left_step {s : List (Thread L)} {i : Nat} (h : canStep s i = true) : left (stepThread s i) < left s := by
  unfold stepThread
  rw [if_pos h]
  unfold canStep at h
  cases hs : s[i]? with
  | none => rw [hs] at h; cases h
  | some t =>
    rw [hs] at h
    refine left_modify s i _ t hs ?_
    unfold Thread.next
    cases hp : t.prog with
    | nil => simp [hp] at h
    | cons op p => cases op <;> simp

private theorem schedule_append (s : List (Thread L)) (a b : List Nat) :
    schedule s (a ++ b) = schedule (schedule s a) b := by
  unfold schedule
  exact List.foldl_append

/-- Threads that take their locks in an order of ranks can all finish, whatever they have done so far. -/
theorem ordered_finishes (rank : L → Nat) (s : List (Thread L)) (h : ∀ t ∈ s, Ordered rank t.held t.prog) :
    ∃ more, ∀ t ∈ schedule s more, t.prog = [] := by
  generalize hn : left s = n
  induction n using Nat.strongRecOn generalizing s with
  | _ n ih =>
    by_cases hd : ∀ t ∈ s, t.prog = []
    · exact ⟨[], hd⟩
    · have hstep : ∃ i, canStep s i = true := by
        by_contra hno
        refine ordered_never_stuck rank s h [] ⟨?_, fun i => ?_⟩
        · show ∃ t ∈ s, t.prog ≠ []
          simpa using hd
        · show canStep s i = false
          rw [Bool.eq_false_iff]
          exact fun hc => hno ⟨i, hc⟩
      obtain ⟨i, hi⟩ := hstep
      obtain ⟨more, hm⟩ := ih (left (stepThread s i)) (hn ▸ left_step hi) (stepThread s i)
        (ordered_schedule h [i]) rfl
      exact ⟨i :: more, hm⟩

private theorem step_length (s : List (Thread L)) (i : Nat) : (stepThread s i).length = s.length := by
  unfold stepThread
  split_ifs <;> simp

/-- What a step does to a thread. -/
private theorem step_get (s : List (Thread L)) (j i : Nat) (t : Thread L) (h : s[i]? = some t) :
    (stepThread s j)[i]? = some t ∨ (j = i ∧ canStep s i = true ∧ (stepThread s j)[i]? = some t.next) := by
  unfold stepThread
  split_ifs with hc
  · by_cases hji : j = i
    · subst hji
      right
      exact ⟨rfl, hc, by simp [h]⟩
    · left
      simp [h, hji]
  · exact Or.inl h

/-- The thread has this lock until it ends. -/
private def Alive (l : L) (t : Thread L) : Prop :=
  t.prog = [] ∨ ((l, Mode.excl) ∈ t.held ∧ ∃ q, t.prog = q ++ [.drop [l]] ∧ ∀ ls, .drop ls ∈ q → l ∉ ls)

private theorem alive_next {l : L} {t : Thread L} (h : Alive l t) : Alive l t.next := by
  rcases h with h | ⟨hh, q, hp, hq⟩
  · left
    unfold Thread.next
    rw [h]
    exact h
  · cases q with
    | nil =>
      left
      unfold Thread.next
      rw [hp]
      rfl
    | cons op q =>
      right
      unfold Thread.next
      rw [hp]
      cases op with
      | take m ls => exact ⟨List.mem_append_right _ hh, q, rfl, fun ls' h' => hq ls' (List.mem_cons_of_mem _ h')⟩
      | drop ls =>
        refine ⟨?_, q, rfl, fun ls' h' => hq ls' (List.mem_cons_of_mem _ h')⟩
        show (l, Mode.excl) ∈ t.held.filter _
        rw [List.mem_filter]
        exact ⟨hh, by simpa using hq ls (by simp)⟩

/-- Thread `i` has ended, or thread `w` still waits for it. -/
private def Joined (l : L) (w i : Nat) (s : List (Thread L)) : Prop :=
  ∃ tw ti, s[w]? = some tw ∧ s[i]? = some ti ∧ Alive l ti ∧
    (ti.prog = [] ∨ ∃ m ls, .take m ls ∈ tw.prog ∧ l ∈ ls)

private theorem joined_step {l : L} {w i : Nat} {s : List (Thread L)} (h : Joined l w i s) (j : Nat) :
    Joined l w i (stepThread s j) := by
  obtain ⟨tw, ti, hw, hi, ha, hor⟩ := h
  have hi' : ∃ ti', (stepThread s j)[i]? = some ti' ∧ Alive l ti' ∧ (ti.prog = [] → ti'.prog = []) := by
    rcases step_get s j i ti hi with h1 | ⟨_, _, h1⟩
    · exact ⟨ti, h1, ha, id⟩
    · refine ⟨_, h1, alive_next ha, fun hn => ?_⟩
      unfold Thread.next
      rw [hn]
      exact hn
  obtain ⟨ti', h1, h2, h3⟩ := hi'
  rcases step_get s j w tw hw with h4 | ⟨rfl, hc, h4⟩
  · exact ⟨tw, ti', h4, h1, h2, hor.imp h3 id⟩
  · refine ⟨_, ti', h4, h1, h2, ?_⟩
    rcases hor with hor | ⟨m, ls, hm, hl⟩
    · exact Or.inl (h3 hor)
    · cases hp : tw.prog with
      | nil => rw [hp] at hm; cases hm
      | cons op p =>
        have hn : tw.next.prog = p := by
          unfold Thread.next
          rw [hp]
          cases op <;> rfl
        rw [hp] at hm
        rcases List.mem_cons.mp hm with rfl | hm
        · left
          refine h3 ?_
          rcases ha with ha | ⟨hh, _⟩
          · exact ha
          · exfalso
            unfold canStep at hc
            rw [hw] at hc
            simp only [hp, List.all_eq_true] at hc
            have hf := hc l hl
            unfold free at hf
            rw [List.all_eq_true] at hf
            have := hf ti (List.mem_of_getElem? hi)
            rw [List.all_eq_true] at this
            have := this _ hh
            simp at this
        · exact Or.inr ⟨m, ls, by rw [hn]; exact hm, hl⟩

private theorem joined_schedule {l : L} {w i : Nat} (order : List Nat) :
    ∀ s : List (Thread L), Joined l w i s → Joined l w i (schedule s order) := by
  induction order with
  | nil => intro s h; exact h
  | cons j js ih => intro s h; exact ih _ (joined_step h j)

/-- What a thread has left is the end of what it had. -/
private theorem suffix_schedule (order : List Nat) :
    ∀ (s : List (Thread L)) (i : Nat) (t : Thread L), s[i]? = some t →
      ∃ t', (schedule s order)[i]? = some t' ∧ t'.prog <:+ t.prog := by
  induction order with
  | nil => intro s i t h; exact ⟨t, h, List.suffix_refl _⟩
  | cons j js ih =>
    intro s i t h
    rcases step_get s j i t h with h1 | ⟨_, _, h1⟩
    · exact ih _ i t h1
    · obtain ⟨t', h2, h3⟩ := ih _ i _ h1
      refine ⟨t', h2, h3.trans ?_⟩
      unfold Thread.next
      cases hp : t.prog with
      | nil => simp [hp]
      | cons op p => cases op <;> exact List.suffix_cons _ _

/-- A thread with more to do after it has done the same. -/
private def More (c : List (LockOp L)) (t : Thread L) : Thread L := ⟨t.held, t.prog ++ c⟩

private theorem more_free (c : List (LockOp L)) (a : Thread L) (o : List (Thread L)) (m : Mode) (l : L) :
    free (More c a :: o) m l = free (a :: o) m l := rfl

private theorem more_step (c : List (LockOp L)) (a : Thread L) (o : List (Thread L)) (j : Nat)
    (h : j = 0 → a.prog ≠ []) :
    ∃ a' o', stepThread (a :: o) j = a' :: o' ∧ stepThread (More c a :: o) j = More c a' :: o' := by
  cases j with
  | zero =>
    have hne := h rfl
    obtain ⟨held, prog⟩ := a
    cases prog with
    | nil => exact absurd rfl hne
    | cons op p =>
      have hc : canStep (More c ⟨held, op :: p⟩ :: o) 0 = canStep (⟨held, op :: p⟩ :: o) 0 := by
        cases op <;> rfl
      unfold stepThread
      rw [hc]
      split_ifs
      · cases op with
        | take m ls => exact ⟨_, o, rfl, rfl⟩
        | drop ls => exact ⟨_, o, rfl, rfl⟩
      · exact ⟨_, o, rfl, rfl⟩
  | succ j =>
    have hc : canStep (More c a :: o) (j + 1) = canStep (a :: o) (j + 1) := rfl
    unfold stepThread
    rw [hc]
    split_ifs
    · exact ⟨a, o.modify j Thread.next, by simp [List.modify_succ_cons], by simp [List.modify_succ_cons]⟩
    · exact ⟨a, o, rfl, rfl⟩

/-- A thread that, once all others have ended, goes on in another order of the locks. -/
private theorem more_schedule (rank' : L → Nat) (c : List (LockOp L)) (hc : Ordered rank' [] c) (order : List Nat) :
    ∀ (a : Thread L) (o : List (Thread L)),
      (∀ ord t, (schedule (a :: o) ord)[0]? = some t → t.prog = [] →
        ∀ u ∈ schedule (a :: o) ord, u.prog = [] ∧ u.held = []) →
      (∃ a' o', schedule (a :: o) order = a' :: o' ∧ schedule (More c a :: o) order = More c a' :: o') ∨
      (∀ t ∈ schedule (More c a :: o) order, Ordered rank' t.held t.prog) := by
  induction order with
  | nil => intro a o _; exact Or.inl ⟨a, o, rfl, rfl⟩
  | cons j js ih =>
    intro a o hend
    by_cases hj : j = 0 → a.prog ≠ []
    · obtain ⟨a', o', h1, h2⟩ := more_step c a o j hj
      have hend' : ∀ ord t, (schedule (a' :: o') ord)[0]? = some t → t.prog = [] →
          ∀ u ∈ schedule (a' :: o') ord, u.prog = [] ∧ u.held = [] := by
        intro ord t ht hp u hu
        refine hend (j :: ord) t ?_ hp u ?_
        · show (schedule (stepThread (a :: o) j) ord)[0]? = some t
          rw [h1]
          exact ht
        · show u ∈ schedule (stepThread (a :: o) j) ord
          rw [h1]
          exact hu
      have := ih a' o' hend'
      show (∃ a'' o'', schedule (stepThread (a :: o) j) js = _ ∧ schedule (stepThread (More c a :: o) j) js = _) ∨
        ∀ t ∈ schedule (stepThread (More c a :: o) j) js, _
      rw [h1, h2]
      exact this
    · right
      have ha : a.prog = [] := by
        by_contra hne
        exact hj fun _ => hne
      have hall := hend [] a rfl ha
      refine ordered_schedule (s := More c a :: o) ?_ (j :: js)
      intro t ht
      rcases List.mem_cons.mp ht with rfl | ht
      · have := hall a (by simp [schedule])
        unfold More
        rw [this.1, this.2]
        exact hc
      · have := hall t (by simp [schedule, ht])
        rw [this.1, this.2]
        rfl

end general

/-! ## The node -/

/-- The order in which the locks are taken until all threads have ended. -/
def stopRank : StopLock → Nat
  | .accept => 0
  | .ended (.task _) => 2
  | .ended _ => 1
  | .node l => 3 + nodeRank l

/-- The order in which they are taken afterwards. -/
private def closeRank : StopLock → Nat
  | .node .connections => 0
  | _ => 1

private theorem lift_ordered {B : List (StopLock × Mode)} (hB : ∀ b ∈ B, stopRank b.1 < 3) {r : List (LockOp StopLock)}
    (hr : Ordered stopRank B r) (p : List (LockOp NodeLock)) :
    ∀ h : List (NodeLock × Mode), Ordered nodeRank h p →
      Ordered stopRank (h.map (fun x => (StopLock.node x.1, x.2)) ++ B) (lift p ++ r) := by
  induction p with
  | nil =>
    intro h ho
    have : h = [] := ho
    subst this
    exact hr
  | cons op p ih =>
    intro h ho
    cases op with
    | take m ls =>
      obtain ⟨h1, h2, h3⟩ := ho
      refine ⟨?_, ?_, ?_⟩
      · intro l hl l' hl'
        obtain ⟨x, hx, rfl⟩ := List.mem_map.mp hl
        obtain ⟨y, hy, rfl⟩ := List.mem_map.mp hl'
        simp only [stopRank]
        rw [h1 x hx y hy]
      · intro l hl b hb
        obtain ⟨x, hx, rfl⟩ := List.mem_map.mp hl
        rcases List.mem_append.mp hb with hb | hb
        · obtain ⟨y, hy, rfl⟩ := List.mem_map.mp hb
          simp only [stopRank]
          rcases h2 x hx y hy with hlt | ⟨he, hm⟩
          · left
            omega
          · right
            exact ⟨by omega, hm⟩
        · left
          have := hB b hb
          have e : stopRank (.node x) = 3 + nodeRank x := rfl
          omega
      · have := ih _ h3
        simpa [lift, Function.comp_def] using this
    | drop ls =>
      have := ih _ ho
      show Ordered stopRank (List.filter (fun x => x.1 ∉ ls.map StopLock.node) _) (lift p ++ r)
      rw [List.filter_append]
      have e1 : List.filter (fun x : StopLock × Mode => decide (x.1 ∉ ls.map StopLock.node))
          (h.map fun x => (StopLock.node x.1, x.2)) =
          (h.filter fun x => decide (x.1 ∉ ls)).map fun x => (StopLock.node x.1, x.2) := by
        rw [List.filter_map]
        congr 1
        refine List.filter_congr ?_
        intro x _
        refine decide_eq_decide.mpr (not_congr ?_)
        constructor
        · intro hx
          obtain ⟨y, hy, hxy⟩ := List.mem_map.mp hx
          injection hxy with hxy
          exact hxy ▸ hy
        · exact fun hx => List.mem_map.mpr ⟨_, hx, rfl⟩
      have e2 : List.filter (fun x : StopLock × Mode => decide (x.1 ∉ ls.map StopLock.node)) B = B := by
        rw [List.filter_eq_self]
        intro b hb
        have := hB b hb
        simp only [List.mem_map, not_exists, not_and, decide_eq_true_eq]
        intro x _ hx
        rw [← hx] at this
        simp only [stopRank] at this
        omega
      rw [e1, e2]
      exact this

private theorem wait_ordered {rank : StopLock → Nat} {B : List (StopLock × Mode)} {r : List (LockOp StopLock)}
    {n : ThreadName} (hB : ∀ b ∈ B, rank b.1 < rank (.ended n)) (hr : Ordered rank B r) :
    Ordered rank B (waitFor n ++ r) := by
  refine ⟨by simp, ?_, ?_⟩
  · intro l hl b hb
    simp at hl
    subst hl
    exact Or.inl (hB b hb)
  · show Ordered rank (List.filter _ ((StopLock.ended n, Mode.shared) :: B)) r
    rw [List.filter_cons_of_neg (by simp)]
    rw [List.filter_eq_self.mpr]
    · exact hr
    · intro b hb
      have := hB b hb
      simp only [List.mem_singleton, decide_eq_true_eq]
      intro he
      rw [he] at this
      omega

private theorem waits_ordered {α : Type} {rank : StopLock → Nat} {B : List (StopLock × Mode)} {r : List (LockOp StopLock)}
    (f : α → ThreadName) (hr : Ordered rank B r) (l : List α) (hB : ∀ k ∈ l, ∀ b ∈ B, rank b.1 < rank (.ended (f k))) :
    Ordered rank B (l.flatMap (fun k => waitFor (f k)) ++ r) := by
  induction l with
  | nil => exact hr
  | cons a l ih =>
    rw [List.flatMap_cons, List.append_assoc]
    exact wait_ordered (hB a (by simp)) (ih fun k hk => hB k (by simp [hk]))

private theorem counting_ordered {B : List (StopLock × Mode)} (hB : ∀ b ∈ B, stopRank b.1 < 3) {r : List (LockOp StopLock)}
    (hr : Ordered stopRank B r) : Ordered stopRank B (counting ++ r) := by
  have := lift_ordered hB hr (holding .shared [.connections] []) [] (by
    refine ⟨by simp, by simp, ?_⟩
    simp [Ordered])
  simpa [counting] using this

private theorem thread_ordered (d : Doing) (t : ThreadName) (haccept : d.accepting ≠ some false)
    (hprune : ∀ dead, NodeOp.prune dead ∈ d.rest t → dead = []) :
    Ordered stopRank (d.thread t).held (d.thread t).prog := by
  have hend : Ordered stopRank [(StopLock.ended t, Mode.excl)] [.drop [.ended t]] := by
    simp [Ordered]
  have hlt : ∀ b ∈ [(StopLock.ended t, Mode.excl)], stopRank b.1 < 3 := by
    intro b hb
    simp at hb
    subst hb
    cases t <;> simp [stopRank]
  have hops := lift_ordered hlt hend _ [] (node_ops_ordered (d.rest t) hprune)
  rw [List.map_nil, List.nil_append] at hops
  unfold Doing.thread
  simp only [List.append_assoc]
  cases t with
  | asio =>
    cases ha : d.accepting with
    | none => simpa [Doing.first, ha] using hops
    | some b =>
      cases b with
      | false => exact absurd ha haccept
      | true =>
        simp only [Doing.first, ha, and_self, if_true, List.append_assoc]
        refine counting_ordered ?_ ?_
        · intro b hb
          simp at hb
          rcases hb with rfl | rfl <;> simp [stopRank]
        · show Ordered stopRank (List.filter _ _) _
          simpa using hops
  | blocks =>
    simp only [Doing.first, reduceCtorEq, false_and, if_false]
    refine waits_ordered ThreadName.task hops _ ?_
    intro k _ b hb
    simp at hb
    subst hb
    simp [stopRank]
  | _ => simpa [Doing.first] using hops

private theorem joins_ordered (d : Doing) : Ordered stopRank [] d.joins := by
  unfold Doing.joins
  simp only [List.append_assoc]
  refine wait_ordered (by simp) (wait_ordered (by simp) ?_)
  refine ⟨by simp, by simp, ?_⟩
  refine wait_ordered (by simp [stopRank]) (wait_ordered (by simp [stopRank]) ?_)
  show Ordered stopRank (List.filter _ _) _
  simp only [List.map_cons, List.map_nil, List.append_nil, List.mem_singleton]
  refine wait_ordered (by simp) (waits_ordered ThreadName.send ?_ _ (by simp))
  refine wait_ordered (by simp) (wait_ordered (by simp) (wait_ordered (by simp) ?_))
  have : Ordered stopRank [] (waitFor .ping ++ []) := wait_ordered (by simp) rfl
  simpa using this

private theorem closing_ordered (ids : List Nat) : Ordered closeRank [] (closing ids) := by
  have key : ∀ ids : List Nat, Ordered closeRank [(.node .connections, .excl)]
      (lift (ids.flatMap fun id => holding .excl [.connection id] []) ++ [.drop [.node .connections]]) := by
    intro ids
    induction ids with
    | nil => simp [lift, Ordered]
    | cons a l ih =>
      refine ⟨by simp, by simp [closeRank], ?_⟩
      show Ordered closeRank (List.filter (fun h => h.1 ∉ [StopLock.node (.connection a)])
        [(.node (.connection a), .excl), (.node .connections, .excl)]) _
      rw [show List.filter (fun h => h.1 ∉ [StopLock.node (.connection a)])
        [(.node (.connection a), Mode.excl), (.node .connections, .excl)] = [(.node .connections, .excl)] by simp]
      exact ih
  refine ⟨by simp, by simp, ?_⟩
  have := key ids
  simpa [lift] using this

private theorem thread_alive (d : Doing) (t : ThreadName) : Alive (StopLock.ended t) (d.thread t) := by
  refine Or.inr ⟨by simp [Doing.thread], _, rfl, ?_⟩
  have hl : ∀ (p : List (LockOp NodeLock)) ls, LockOp.drop ls ∈ lift p → StopLock.ended t ∉ ls := by
    intro p ls h
    obtain ⟨op, _, hop⟩ := List.mem_map.mp h
    cases op with
    | take m l => cases hop
    | drop l =>
      injection hop with hop
      subst hop
      simp
  intro ls h
  rcases List.mem_append.mp h with h | h
  · cases t with
    | blocks =>
      simp only [Doing.first, waitFor, List.mem_flatMap] at h
      obtain ⟨k, _, h⟩ := h
      simp at h
      subst h
      simp
    | asio =>
      cases ha : d.accepting with
      | none => simp [Doing.first, ha] at h
      | some b =>
        have hc := hl (holding .shared [.connections] []) ls
        cases b with
        | false =>
          simp only [Doing.first, ha, List.mem_cons, List.mem_append] at h
          rcases h with h | h | h
          · cases h
          · exact hc h
          · simp at h
            subst h
            simp
        | true =>
          simp only [Doing.first, ha, List.mem_append] at h
          rcases h with h | h
          · exact hc h
          · simp at h
            subst h
            simp
    | _ => simp [Doing.first] at h
  · exact hl _ ls h

/-- Who waits for a thread. -/
private theorem who_waits (d : Doing) {t : ThreadName} (h : t ∈ d.names) :
    (∃ m ls, .take m ls ∈ d.joins ∧ StopLock.ended t ∈ ls) ∨
    (∃ m ls, .take m ls ∈ (d.thread .blocks).prog ∧ StopLock.ended t ∈ ls) := by
  unfold Doing.names at h
  simp only [List.mem_append, List.mem_map, List.mem_range] at h
  rcases h with (h | ⟨k, hk, rfl⟩) | ⟨k, hk, rfl⟩
  · left
    refine ⟨.shared, [.ended t], ?_, by simp⟩
    simp at h
    rcases h with rfl | rfl | rfl | rfl | rfl | rfl | rfl | rfl | rfl <;> simp [Doing.joins, waitFor]
  · left
    refine ⟨.shared, [.ended (.send k)], ?_, by simp⟩
    simp [Doing.joins, waitFor, hk]
  · right
    refine ⟨.shared, [.ended (.task k)], ?_, by simp⟩
    simp [Doing.thread, Doing.first, waitFor, hk]

/-- Programs that wait for no thread. -/
private def NoWait (c : List (LockOp StopLock)) : Prop := ∀ m ls, .take m ls ∈ c → ∀ t, StopLock.ended t ∉ ls

private theorem closing_nowait (ids : List Nat) : NoWait (closing ids) := by
  intro m ls h t
  obtain ⟨op, _, hop⟩ := List.mem_map.mp h
  cases op with
  | take m' l =>
    injection hop with _ hop
    subst hop
    simp
  | drop l => cases hop

private theorem ended_before (d : Doing) (c : List (LockOp StopLock)) (hc : NoWait c) (order : List Nat) (t : Thread StopLock)
    (ht : (schedule (⟨[], d.joins ++ c⟩ :: d.names.map d.thread) order)[0]? = some t) (hl : t.prog.length ≤ c.length)
    (i : Nat) (u : Thread StopLock)
    (hu : (schedule (⟨[], d.joins ++ c⟩ :: d.names.map d.thread) order)[i + 1]? = some u) : u.prog = [] := by
  have hlen : ∀ (order : List Nat) (s : List (Thread StopLock)), (schedule s order).length = s.length := by
    intro order
    induction order with
    | nil => intro s; rfl
    | cons j js ih => intro s; exact (ih _).trans (step_length s j)
  have hi : i < d.names.length := by
    have := (List.getElem?_eq_some_iff.mp hu).1
    rw [hlen] at this
    simpa using this
  have hmain : ∀ n, ¬ ∃ m ls, .take m ls ∈ t.prog ∧ StopLock.ended n ∈ ls := by
    intro n ⟨m, ls, hm, hn⟩
    obtain ⟨t', h1, h2⟩ := suffix_schedule order (⟨[], d.joins ++ c⟩ :: d.names.map d.thread) 0 _ rfl
    rw [ht] at h1
    injection h1 with h1
    subst h1
    have : t.prog <:+ c := List.suffix_of_suffix_length_le h2 (List.suffix_append _ _) hl
    exact hc m ls (this.subset hm) n hn
  have hget : (⟨[], d.joins ++ c⟩ :: d.names.map d.thread)[i + 1]? = some (d.thread d.names[i]) := by
    simp [hi]
  have main : ∀ j n, (⟨[], d.joins ++ c⟩ :: d.names.map d.thread)[j + 1]? = some (d.thread n) →
      (∃ m ls, .take m ls ∈ d.joins ∧ StopLock.ended n ∈ ls) → ∀ v,
      (schedule (⟨[], d.joins ++ c⟩ :: d.names.map d.thread) order)[j + 1]? = some v → v.prog = [] := by
    intro j n hj ⟨m, ls, hm, hn⟩ v hv
    have hJ : Joined (StopLock.ended n) 0 (j + 1) (⟨[], d.joins ++ c⟩ :: d.names.map d.thread) :=
      ⟨_, _, rfl, hj, thread_alive d n, Or.inr ⟨m, ls, List.mem_append_left _ hm, hn⟩⟩
    obtain ⟨tw, ti, h1, h2, _, h3⟩ := joined_schedule order _ hJ
    rw [ht] at h1
    rw [hv] at h2
    injection h1 with h1
    injection h2 with h2
    subst h1 h2
    exact h3.resolve_right (hmain n)
  rcases who_waits d (List.getElem_mem hi) with hw | ⟨m, ls, hm, hn⟩
  · exact main i _ hget hw u hu
  · have hb : (⟨[], d.joins ++ c⟩ :: d.names.map d.thread)[6 + 1]? = some (d.thread .blocks) := by
      simp [Doing.names]
    obtain ⟨tb, h1, _⟩ := suffix_schedule order _ 7 _ hb
    have htb := main 6 .blocks hb ⟨.shared, [.ended .blocks], by simp [Doing.joins, waitFor], by simp⟩ tb h1
    have hJ : Joined (StopLock.ended d.names[i]) 7 (i + 1) (⟨[], d.joins ++ c⟩ :: d.names.map d.thread) :=
      ⟨_, _, hb, hget, thread_alive d _, Or.inr ⟨m, ls, hm, hn⟩⟩
    obtain ⟨tw, ti, h4, h5, _, h6⟩ := joined_schedule order _ hJ
    rw [h1] at h4
    rw [hu] at h5
    injection h4 with h4
    injection h5 with h5
    subst h4 h5
    rcases h6 with h6 | ⟨m, ls, h6, _⟩
    · exact h6
    · rw [htb] at h6
      cases h6

/-- **C142**: when the node that stops comes to closing its connections, all its threads have ended, whatever they were
doing and however they ran. -/
theorem threads_end_first (d : Doing) (ids : List Nat) (order : List Nat) (t : Thread StopLock)
    (ht : (schedule (d.stopping ids) order)[0]? = some t) (hl : t.prog.length ≤ (closing ids).length)
    (i : Nat) (u : Thread StopLock) (hu : (schedule (d.stopping ids) order)[i + 1]? = some u) : u.prog = [] :=
  ended_before d (closing ids) (closing_nowait ids) order t ht hl i u hu

/-- **C142**, as far as it holds: whatever its threads are doing and however they have run, a node that was asked to stop can go on until
it has stopped, and is never stuck before — as long as it is not just about to accept a connection, and no connection is being closed
because it was found dead. -/
theorem node_stops_partial (d : Doing) (ids : List Nat) (order : List Nat) (haccept : d.accepting ≠ some false)
    (hprune : ∀ t dead, NodeOp.prune dead ∈ d.rest t → dead = []) :
    ¬ Deadlocked (schedule (d.stopping ids) order) ∧
    ∃ more, ∀ t ∈ schedule (schedule (d.stopping ids) order) more, t.prog = [] := by
  have hord : ∀ t ∈ (⟨[], d.joins⟩ :: d.names.map d.thread : List (Thread StopLock)), Ordered stopRank t.held t.prog := by
    intro t ht
    rcases List.mem_cons.mp ht with rfl | ht
    · exact joins_ordered d
    · obtain ⟨n, _, rfl⟩ := List.mem_map.mp ht
      exact thread_ordered d n haccept (hprune n)
  have hend : ∀ ord t, (schedule (⟨[], d.joins⟩ :: d.names.map d.thread) ord)[0]? = some t → t.prog = [] →
      ∀ u ∈ schedule (⟨[], d.joins⟩ :: d.names.map d.thread) ord, u.prog = [] ∧ u.held = [] := by
    intro ord t ht hp u hu
    have hup : u.prog = [] := by
      obtain ⟨i, hi⟩ := List.mem_iff_getElem?.mp hu
      cases i with
      | zero =>
        rw [ht] at hi
        injection hi with hi
        subst hi
        exact hp
      | succ i =>
        have := ended_before d [] (fun _ _ h => by cases h) ord t
        simp only [List.append_nil] at this
        exact this ht (by simp [hp]) i u hi
    refine ⟨hup, ?_⟩
    have := ordered_schedule hord ord u hu
    rw [hup] at this
    exact this
  have hfin : ∃ more, ∀ t ∈ schedule (schedule (d.stopping ids) order) more, t.prog = [] := by
    have hstop : d.stopping ids = More (closing ids) ⟨[], d.joins⟩ :: d.names.map d.thread := rfl
    have finish : ∀ ord, (∀ t ∈ schedule (d.stopping ids) ord, Ordered closeRank t.held t.prog) →
        ∃ more, ∀ t ∈ schedule (schedule (d.stopping ids) ord) more, t.prog = [] :=
      fun ord h => ordered_finishes closeRank _ h
    obtain ⟨more, hmore⟩ := ordered_finishes stopRank _ (ordered_schedule hord order)
    rw [← schedule_append] at hmore
    have hgood : ∀ t ∈ schedule (d.stopping ids) (order ++ more), Ordered closeRank t.held t.prog := by
      rcases more_schedule closeRank (closing ids) (closing_ordered ids) (order ++ more) ⟨[], d.joins⟩
          (d.names.map d.thread) hend with ⟨a', o', h1, h2⟩ | h
      · rw [hstop, h2]
        rw [h1] at hmore
        have ha := hmore a' (by simp)
        have hall := hend (order ++ more) a' (by rw [h1]; rfl) ha
        rw [h1] at hall
        intro t ht
        rcases List.mem_cons.mp ht with rfl | ht
        · unfold More
          rw [ha, (hall a' (by simp)).2]
          exact closing_ordered ids
        · have := hall t (by simp [ht])
          rw [this.1, this.2]
          rfl
      · rw [hstop]
        exact h
    obtain ⟨more', hm⟩ := finish _ hgood
    exact ⟨more ++ more', by rw [schedule_append, ← schedule_append _ order]; exact hm⟩
  refine ⟨?_, hfin⟩
  intro hd
  obtain ⟨more, hm⟩ := hfin
  rw [stuck_stays _ hd more] at hm
  obtain ⟨t, ht, hp⟩ := hd.1
  exact hp (hm t ht)

/-- What its threads might be doing: a message is handled, three blocks are processed as a group, dead connections are looked for. -/
private def someDoing (accepting : Option Bool) : Doing where
  rest := fun
    | .asio => [.message 1 [.write 1, .broadcast]]
    | .task _ => [.chain (.write 1)]
    | .dandelion => [.chain .relay]
    | .seed => [.prune []]
    | _ => []
  tasks := 3
  sends := 1
  accepting := accepting

example : (someDoing (some true)).accepting ≠ some false ∧
    (∀ t dead, NodeOp.prune dead ∈ (someDoing (some true)).rest t → dead = []) ∧
    canStep (schedule ((someDoing (some true)).stopping [1, 2]) [0, 1, 1]) 0 = false := by
  refine ⟨by decide, ?_, by decide +kernel⟩
  intro t dead h
  cases t <;> simp [someDoing] at h
  exact h

/-- The state of the two threads that wait for each other. -/
private def Hangs (s : List (Thread StopLock)) : Prop :=
  ∃ tm ta, s[0]? = some tm ∧ s[4]? = some ta ∧ (StopLock.accept, Mode.excl) ∈ tm.held ∧
    (StopLock.ended .asio, Mode.excl) ∈ ta.held ∧ (∃ p, ta.prog = .take .excl [.accept] :: p) ∧
    ∃ pre post, tm.prog = pre ++ .take .shared [.ended .asio] :: post ∧ ∀ ls, .drop ls ∈ pre → StopLock.accept ∉ ls

private theorem not_free {s : List (Thread StopLock)} {i : Nat} {t : Thread StopLock} {l : StopLock} (m : Mode)
    (h : s[i]? = some t) (hh : (l, Mode.excl) ∈ t.held) : free s m l = false := by
  rw [Bool.eq_false_iff]
  intro hf
  unfold free at hf
  rw [List.all_eq_true] at hf
  have := hf t (List.mem_of_getElem? h)
  rw [List.all_eq_true] at this
  have := this _ hh
  simp at this

private theorem hangs_step {s : List (Thread StopLock)} (h : Hangs s) (j : Nat) : Hangs (stepThread s j) := by
  obtain ⟨tm, ta, h0, h4, hm, ha, ⟨p, hp⟩, pre, post, hpre, hd⟩ := h
  have h4' : (stepThread s j)[4]? = some ta := by
    rcases step_get s j 4 ta h4 with h | ⟨_, hc, _⟩
    · exact h
    · exfalso
      unfold canStep at hc
      rw [h4] at hc
      simp [hp, not_free .excl h0 hm] at hc
  rcases step_get s j 0 tm h0 with h | ⟨_, hc, h⟩
  · exact ⟨tm, ta, h, h4', hm, ha, ⟨p, hp⟩, pre, post, hpre, hd⟩
  · cases pre with
    | nil =>
      exfalso
      unfold canStep at hc
      rw [h0] at hc
      simp [hpre, not_free .shared h4 ha] at hc
    | cons op pre =>
      refine ⟨_, ta, h, h4', ?_, ha, ⟨p, hp⟩, pre, post, ?_, fun ls h' => hd ls (List.mem_cons_of_mem _ h')⟩
      · unfold Thread.next
        rw [hpre]
        cases op with
        | take m ls => exact List.mem_append_right _ hm
        | drop ls =>
          show _ ∈ tm.held.filter _
          rw [List.mem_filter]
          exact ⟨hm, by simpa using hd ls (by simp)⟩
      · unfold Thread.next
        rw [hpre]
        cases op <;> rfl

/-- **C142 is violated**: a peer connects just when the node is asked to stop — the handler has been called but has not yet locked its mutex.  Then, whatever
the other threads do, the node may get to where it never stops, however it goes on. -/
theorem stop_hangs_violated (rest : ThreadName → List NodeOp) (hr : rest .dandelion = [] ∧ rest .sync = []) (ids : List Nat) :
    ∃ order, ∀ more, ∃ t, (schedule (schedule ((⟨rest, 0, 0, some false⟩ : Doing).stopping ids) order) more)[0]? = some t ∧
      t.prog ≠ [] := by
  refine ⟨[1, 2, 0, 0, 0, 0, 0], fun more => ?_⟩
  have hstart : Hangs (schedule ((⟨rest, 0, 0, some false⟩ : Doing).stopping ids) [1, 2, 0, 0, 0, 0, 0]) := by
    refine ⟨⟨[(.accept, .excl)], waitFor .seed ++ waitFor .asio ++ [.drop [.accept]] ++
      (waitFor .snapshot ++ waitFor .tx ++ waitFor .blocks ++ waitFor .orphans ++ waitFor .ping) ++ closing ids⟩,
      (⟨rest, 0, 0, some false⟩ : Doing).thread .asio, ?_, ?_, by simp, by simp [Doing.thread], ?_, ?_⟩
    · simp [schedule, stepThread, canStep, free, Thread.next, Doing.stopping, Doing.names, Doing.thread, Doing.first, Doing.joins,
        waitFor, hr.1, hr.2, lift]
    · simp [schedule, stepThread, canStep, free, Thread.next, Doing.stopping, Doing.names, Doing.thread, Doing.first, Doing.joins,
        waitFor, hr.1, hr.2, lift]
    · exact ⟨_, rfl⟩
    · exact ⟨waitFor .seed, _, rfl, by simp [waitFor]⟩
  have : ∀ (more : List Nat) (s : List (Thread StopLock)), Hangs s → Hangs (schedule s more) := by
    intro more
    induction more with
    | nil => intro s h; exact h
    | cons j js ih => intro s h; exact ih _ (hangs_step h j)
  obtain ⟨tm, _, h0, _, _, _, _, pre, post, hp, _⟩ := this more _ hstart
  exact ⟨tm, h0, by rw [hp]; simp⟩

end Verif.Props
