import Verif.Props.Cache

/-!
# Least recently used caches that live inside other objects

Lemmas only: a cache that puts and gets have made, and what it holds.
-/
namespace Verif.Cache
open Verif.Props

variable {K V : Type} [DecidableEq K]

/-- The cache is what puts of pairs with `P`, and gets, have made of an empty one of `n` entries. -/
def LruOf (n : Nat) (P : K → V → Prop) (c : Cache K V) : Prop :=
  ∃ ops : List (Op K V), runOps (create .lru n) ops = .ok c ∧ ∀ o ∈ ops, match o with
    | .put k v => P k v
    | .get _ => True
    | .clear => False

theorem runOps_cons (c : Cache K V) (o : Op K V) (l : List (Op K V)) :
    runOps c (o :: l) = (do let c ← Op.step c o; runOps c l) := rfl

theorem runOps_append : ∀ (a b : List (Op K V)) (c : Cache K V),
    runOps c (a ++ b) = (do let c ← runOps c a; runOps c b) := by
  intro a
  induction a with
  | nil => intro b c; rfl
  | cons o l ih =>
    intro b c
    rw [List.cons_append, runOps_cons, runOps_cons]
    cases Op.step c o with
    | ok d => exact ih b d
    | throw => rfl
    | ub => rfl

theorem lruOf_create (n : Nat) (P : K → V → Prop) : LruOf n P (create .lru n) := ⟨[], rfl, by simp⟩

theorem LruOf.mono {n : Nat} {P Q : K → V → Prop} {c : Cache K V} (hc : LruOf n P c) (h : ∀ k v, P k v → Q k v) : LruOf n Q c := by
  obtain ⟨ops, e1, e2⟩ := hc
  refine ⟨ops, e1, fun o ho => ?_⟩
  have := e2 o ho
  cases o with
  | put k v => exact h _ _ this
  | get _ => trivial
  | clear => exact this

theorem lruOf_put {n : Nat} {P : K → V → Prop} {c : Cache K V} (hc : LruOf n P c) (k : K) (v : V) (hk : P k v) :
    ∃ c', put c k v = .ok c' ∧ LruOf n P c' := by
  obtain ⟨ops, e1, e2⟩ := hc
  obtain ⟨c', e3, -⟩ := lru_cache n _ rfl (ops ++ [Op.put k v])
  have e4 := e3
  rw [runOps_append, e1] at e4
  have e5 : put c k v = .ok c' := by
    change (do let c ← put c k v; runOps c []) = _ at e4
    cases ep : put c k v with
    | ok d => rw [ep] at e4; exact e4
    | throw => rw [ep] at e4; cases e4
    | ub => rw [ep] at e4; cases e4
  refine ⟨c', e5, ops ++ [Op.put k v], e3, ?_⟩
  intro o ho
  rw [List.mem_append, List.mem_singleton] at ho
  rcases ho with ho | rfl
  · exact e2 o ho
  · exact hk

theorem putStep_mem {P : K → V → Prop} : ∀ (ops : List (Op K V)) (m : K → Option V),
    (∀ k v, m k = some v → P k v) → (∀ o ∈ ops, match o with
    | .put k v => P k v
    | .get _ => True
    | .clear => False) → ∀ k v, ops.foldl putStep m k = some v → P k v := by
  intro ops
  induction ops with
  | nil => intro m hm _; exact hm
  | cons o l ih =>
    intro m hm ho
    apply ih (putStep m o) _ (fun o' h' => ho o' (List.mem_cons_of_mem _ h'))
    intro k v e
    have := ho o (by simp)
    cases o with
    | put k' v' =>
      simp only [putStep] at e
      by_cases hk : k = k'
      · rw [if_pos hk] at e
        injection e with e
        subst hk; subst e
        exact this
      · rw [if_neg hk] at e
        exact hm k v e
    | get _ => exact hm k v e
    | clear => exact absurd this id

/-- A cached key has a value that was put, and getting it leaves such a cache. -/
theorem lruOf_get {n : Nat} {P : K → V → Prop} {c : Cache K V} (hc : LruOf n P c) (k : K) (hk : cached c k = true) :
    ∃ c' v, fetch c k = .ok (c', v) ∧ P k v ∧ LruOf n P c' := by
  obtain ⟨ops, e1, e2⟩ := hc
  obtain ⟨c0, e3, a⟩ := lru_cache n _ rfl ops
  rw [e1] at e3
  injection e3 with e3
  subst e3
  obtain ⟨c', v, m, g⟩ := a.value k ((a.cached k).1 hk)
  refine ⟨c', v, g, putStep_mem ops _ (by simp) e2 k v m, ops ++ [Op.get k], ?_, ?_⟩
  · rw [runOps_append, e1]
    show (do let c ← Op.step c (Op.get k); runOps c []) = _
    simp only [Op.step, g]
    rfl
  · intro o ho
    rw [List.mem_append, List.mem_singleton] at ho
    rcases ho with ho | rfl
    · exact e2 o ho
    · trivial

theorem lruOf_size {n : Nat} (h0 : n ≠ 0) {P : K → V → Prop} {c : Cache K V} (hc : LruOf n P c) : size c ≤ n := by
  obtain ⟨ops, e1, -⟩ := hc
  obtain ⟨c0, e3, a⟩ := lru_cache n _ rfl ops
  rw [e1] at e3
  injection e3 with e3
  subst e3
  have := a.bound
  rwa [if_neg h0] at this

/-- A key just put is cached. -/
theorem lruOf_cached_put {n : Nat} {P : K → V → Prop} {c c' : Cache K V} (hc : LruOf n P c) {k : K} {v : V}
    (h : put c k v = .ok c') : cached c' k = true := by
  obtain ⟨ops, e1, -⟩ := hc
  obtain ⟨c1, e3, a⟩ := lru_cache n _ rfl (ops ++ [Op.put k v])
  have e4 := e3
  rw [runOps_append, e1] at e4
  change (do let c ← put c k v; runOps c []) = _ at e4
  rw [h] at e4
  injection e4 with e4
  subst e4
  rw [a.cached, List.foldl_append]
  generalize hn : (if n = 0 then 2 ^ 64 - 1 else n) = cap at *
  have : 0 < cap := by rw [← hn]; split <;> omega
  obtain ⟨m, rfl⟩ : ∃ m, cap = m + 1 := ⟨cap - 1, by omega⟩
  simp [useStep]

end Verif.Cache
