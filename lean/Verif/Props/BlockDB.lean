import Verif.Cache.BlockDB
import Verif.Props.Cache

/-!
# C58: headers read from the block database
-/
namespace Verif.Props
open Verif.Cache

variable {K H : Type} [DecidableEq K]

/-- The use of a writer: `none` while no writer is held, otherwise whether it is batched and whether it can still be written to,
which ends with an explicit commit or rollback. -/
abbrev Held := Option (Bool × Bool)

/-- The calls the code makes: a writer is taken when none is held, headers are added while it can be written to, only a batched writer is
rolled back explicitly; anyone may read at any time. -/
def follows : Held → DBCall K H → Option Held
  | none, .take b => some (some (b, true))
  | some (b, true), .add _ _ => some (some (b, true))
  | some (b, true), .addMany _ => some (some (b, true))
  | some (b, true), .commit works => if b && !works then some (some (b, true)) else some (some (b, false))
  | some (true, true), .rollback => some (some (true, false))
  | some (b, _), .release b' => if b = b' then some none else none
  | s, .get _ => some s
  | _, _ => none

/-- A sequence of such calls. -/
def Follows : Held → List (DBCall K H) → Held → Prop
  | s, [], s' => s = s'
  | s, o :: l, s' => ∃ t, follows s o = some t ∧ Follows t l s'

/-- What should be in the database: the headers kept for good and those of the batch under way, the later first. -/
structure Kept (K H : Type) where
  kept : List (K × H)
  pending : List (K × H)

/-- What each call should do: a batch keeps its headers when it is committed, without a batch they are kept at once. -/
def Kept.step (s : Held) (x : Kept K H) : DBCall K H → Kept K H
  | .take _ => x
  | .add k h => match s with
    | some (true, _) => { x with pending := (k, h) :: x.pending }
    | _ => { x with kept := (k, h) :: x.kept }
  | .addMany l => match s with
    | some (true, _) => { x with pending := l.reverse ++ x.pending }
    | _ => { x with kept := l.reverse ++ x.kept }
  | .commit works => if works then ⟨x.pending ++ x.kept, []⟩ else x
  | .rollback => { x with pending := [] }
  | .release _ => { x with pending := [] }
  | .get _ => x

/-- What should be in the database after a sequence of calls. -/
def keeping : Held → Kept K H → List (DBCall K H) → Kept K H
  | _, x, [] => x
  | s, x, o :: l => keeping ((follows s o).getD none) (x.step s o) l

/-- The cache is what puts of kept headers and gets have made it. -/
private def CacheOf (kept : List (K × H)) (c : Cache K H) : Prop :=
  ∃ ops : List (Op K H), runOps (create .fifo 128) ops = .ok c ∧ ∀ o ∈ ops, match o with
    | .put k h => (k, h) ∈ kept
    | _ => True

private theorem runOps_cons (c : Cache K H) (o : Op K H) (l : List (Op K H)) :
    runOps c (o :: l) = (do let c ← Op.step c o; runOps c l) := rfl

private theorem runOps_append : ∀ (a b : List (Op K H)) (c : Cache K H),
    runOps c (a ++ b) = (do let c ← runOps c a; runOps c b) := by
  intro a
  induction a with
  | nil => intro b c; rfl
  | cons o l ih =>
    intro b c
    rw [List.cons_append, runOps_cons, runOps_cons]
    cases Op.step c o with
    | ok d => exact ih b d
    | throw => rfl
    | ub => rfl

private theorem cacheOf_put {kept : List (K × H)} {c : Cache K H} (hc : CacheOf kept c) (k : K) (h : H) (hk : (k, h) ∈ kept) :
    ∃ c', put c k h = .ok c' ∧ CacheOf kept c' := by
  obtain ⟨ops, e1, e2⟩ := hc
  obtain ⟨c', e3, -⟩ := fifo_cache 128 128 rfl (ops ++ [Op.put k h])
  have e4 := e3
  rw [runOps_append, e1] at e4
  have e5 : put c k h = .ok c' := by
    change (do let c ← put c k h; runOps c []) = _ at e4
    cases ep : put c k h with
    | ok d => rw [ep] at e4; exact e4
    | throw => rw [ep] at e4; cases e4
    | ub => rw [ep] at e4; cases e4
  refine ⟨c', e5, ops ++ [Op.put k h], e3, ?_⟩
  intro o ho
  rw [List.mem_append, List.mem_singleton] at ho
  rcases ho with ho | rfl
  · exact e2 o ho
  · exact hk

private theorem CacheOf.mono {a b : List (K × H)} {c : Cache K H} (hc : CacheOf a c) (hs : ∀ x ∈ a, x ∈ b) : CacheOf b c := by
  obtain ⟨ops, e1, e2⟩ := hc
  refine ⟨ops, e1, fun o ho => ?_⟩
  have := e2 o ho
  cases o with
  | put k h => exact hs _ this
  | get _ => trivial
  | clear => trivial

private theorem cacheAll_of {kept : List (K × H)} : ∀ (l : List (K × H)) (c : Cache K H), CacheOf kept c → (∀ x ∈ l, x ∈ kept) →
    ∃ c', cacheAll c l = .ok c' ∧ CacheOf kept c' := by
  intro l
  induction l with
  | nil => intro c hc _; exact ⟨c, rfl, hc⟩
  | cons a t ih =>
    intro c hc hl
    obtain ⟨k, h⟩ := a
    obtain ⟨c1, e1, e2⟩ := cacheOf_put hc k h (hl _ (by simp))
    obtain ⟨c2, e3, e4⟩ := ih c1 e2 (fun x hx => hl x (by simp [hx]))
    refine ⟨c2, ?_, e4⟩
    unfold cacheAll
    rw [e1]
    exact e3

private theorem putStep_mem {kept : List (K × H)} : ∀ (ops : List (Op K H)) (m : K → Option H),
    (∀ k h, m k = some h → (k, h) ∈ kept) → (∀ o ∈ ops, match o with
    | .put k h => (k, h) ∈ kept
    | _ => True) → ∀ k h, ops.foldl putStep m k = some h → (k, h) ∈ kept := by
  intro ops
  induction ops with
  | nil => intro m hm _; exact hm
  | cons o l ih =>
    intro m hm ho
    apply ih (putStep m o) _ (fun o' h' => ho o' (List.mem_cons_of_mem _ h'))
    intro k h e
    have := ho o (by simp)
    cases o with
    | put k' h' =>
      simp only [putStep] at e
      by_cases hk : k = k'
      · rw [if_pos hk] at e
        injection e with e
        subst hk; subst e
        exact this
      · rw [if_neg hk] at e
        exact hm k h e
    | get _ => exact hm k h e
    | clear => simp [putStep] at e

/-- A cached header is kept, and reading it leaves the cache. -/
private theorem cacheOf_get {kept : List (K × H)} {c : Cache K H} (hc : CacheOf kept c) (k : K) (hk : cached c k = true) :
    ∃ c' h, fetch c k = .ok (c', h) ∧ (k, h) ∈ kept ∧ CacheOf kept c' := by
  obtain ⟨ops, e1, e2⟩ := hc
  obtain ⟨c0, e3, a⟩ := fifo_cache 128 128 rfl ops
  rw [e1] at e3
  injection e3 with e3
  subst e3
  obtain ⟨c', h, m, g⟩ := a.value k ((a.cached k).1 hk)
  refine ⟨c', h, g, putStep_mem ops _ (by simp) e2 k h m, ops ++ [Op.get k], ?_, ?_⟩
  · rw [runOps_append, e1]
    show (do let c ← Op.step c (Op.get k); runOps c []) = _
    simp only [Op.step, g]
    rfl
  · intro o ho
    rw [List.mem_append, List.mem_singleton] at ho
    rcases ho with ho | rfl
    · exact e2 o ho
    · trivial

/-- The state matches what should be in it. -/
private structure Matches (s : Held) (x : Kept K H) (d : HeaderDB K H) : Prop where
  disk : d.disk = x.kept
  cache : CacheOf x.kept d.cache
  tx : d.tx = match s with
    | some (true, _) => some x.pending
    | _ => none
  pend : (∃ w, s = some (true, w)) ∨ x.pending = []
  unc : ∀ y ∈ d.uncommitted, y ∈ x.pending
  dirty : ∀ b w, s = some (b, w) → d.dirty = w
  done : ∀ b, s = some (b, false) → x.pending = []

private theorem Matches.uncNil {s : Held} {x : Kept K H} {d : HeaderDB K H} (m : Matches s x d) (h : x.pending = []) : d.uncommitted = [] := by
  apply List.eq_nil_iff_forall_not_mem.2
  intro a ha
  have := m.unc a ha
  simp [h] at this

omit [DecidableEq K] in
private theorem addMany_spec : ∀ (l : List (K × H)) (d : HeaderDB K H),
    (∀ t, d.tx = some t → d.addMany l = { d with tx := some (l.reverse ++ t) }) ∧
    (d.tx = none → d.addMany l = { d with disk := l.reverse ++ d.disk }) := by
  intro l
  induction l with
  | nil =>
    intro d
    refine ⟨fun t h => ?_, fun _ => rfl⟩
    show d = _
    cases d; simp_all
  | cons a t ih =>
    intro d
    obtain ⟨k, h⟩ := a
    constructor
    · intro u hu
      unfold HeaderDB.addMany
      have hw : d.write k h = { d with tx := some ((k, h) :: u) } := by simp [HeaderDB.write, hu]
      rw [hw, (ih _).1 ((k, h) :: u) rfl]
      simp
    · intro hu
      unfold HeaderDB.addMany
      have hw : d.write k h = { d with disk := (k, h) :: d.disk } := by simp [HeaderDB.write, hu]
      have := (ih { d with disk := (k, h) :: d.disk }).2 hu
      rw [hw, this]
      simp

private theorem commit_matches {b : Bool} {x : Kept K H} {d : HeaderDB K H} (m : Matches (some (b, true)) x d) (works : Bool)
    (hw : b = true → works = true) :
    ∃ d', d.writerCommit works = .ok d' ∧ Matches (some (b, false)) ⟨x.pending ++ x.kept, []⟩ d' := by
  have hd : d.dirty = true := m.dirty b true rfl
  have hdisk : d.view = x.pending ++ x.kept := by
    unfold HeaderDB.view
    rw [m.tx, m.disk]
    cases b with
    | true => rfl
    | false =>
      rcases m.pend with ⟨w, hw⟩ | hp
      · simp at hw
      · simp [hp]
  have hno : (d.tx.isSome && !works) = false := by
    rw [m.tx]
    cases b with
    | true => simp [hw rfl]
    | false => simp
  obtain ⟨c', e1, e2⟩ := cacheAll_of (kept := x.pending ++ x.kept) d.uncommitted d.cache
    (m.cache.mono (fun y hy => List.mem_append_right _ hy)) (fun y hy => List.mem_append_left _ (m.unc y hy))
  refine ⟨{ d with disk := x.pending ++ x.kept, tx := d.tx.map (fun _ => []), uncommitted := [], cache := c', dirty := false }, ?_, ?_⟩
  · unfold HeaderDB.writerCommit HeaderDB.commit
    rw [if_pos hd, hno]
    simp only [Bool.false_eq_true, if_false, e1, hdisk]
    rfl
  · refine ⟨rfl, e2, ?_, Or.inr rfl, by simp, ?_, fun _ _ => rfl⟩
    · show d.tx.map (fun _ => []) = _
      rw [m.tx]
      cases b <;> rfl
    · intro b' w h
      injection h with h
      simp only [Prod.mk.injEq] at h
      exact h.2

private theorem rollback_matches {w : Bool} {x : Kept K H} {d : HeaderDB K H} (m : Matches (some (true, w)) x d) :
    ∃ d', d.writerRollback = .ok d' ∧ Matches (some (true, false)) { x with pending := [] } d' := by
  cases w with
  | true =>
    have hd : d.dirty = true := m.dirty true true rfl
    have ht : d.tx = some x.pending := m.tx
    refine ⟨{ d with tx := some [], uncommitted := [], dirty := false }, ?_, ?_⟩
    · unfold HeaderDB.writerRollback HeaderDB.rollback
      rw [if_pos hd, ht]
      rfl
    · refine ⟨m.disk, m.cache, rfl, Or.inr rfl, by simp, ?_, fun _ _ => rfl⟩
      intro b' w h
      injection h with h
      simp only [Prod.mk.injEq] at h
      exact h.2
  | false =>
    have hd : d.dirty = false := m.dirty true false rfl
    have hp := m.done true rfl
    refine ⟨d, by simp [HeaderDB.writerRollback, hd], ?_⟩
    have : ({ x with pending := [] } : Kept K H) = x := by cases x; simp_all
    rw [this]
    exact m

private theorem release_matches {b w : Bool} {x y : Kept K H} {d' : HeaderDB K H} (m : Matches (some (b, w)) y d')
    (hy : y.pending = []) (hx : y = { x with pending := [] } ∨ y = x) : Matches none { x with pending := [] } { d' with tx := none } := by
  have e : y.kept = x.kept := by rcases hx with rfl | rfl <;> rfl
  have hu := m.uncNil hy
  exact ⟨by rw [← e]; exact m.disk, by rw [← e]; exact m.cache, rfl, Or.inr rfl, by simp [hu], by simp, by simp⟩

private theorem get_matches {s : Held} {x : Kept K H} {d : HeaderDB K H} (m : Matches s x d) (k : K) :
    ∃ d' r, d.getHeader k = .ok (d', r) ∧ Matches s x d' ∧ (∀ h, r = some h → (k, h) ∈ x.pending ++ x.kept) ∧
      (r = none → k ∉ (x.pending ++ x.kept).map (·.1)) := by
  unfold HeaderDB.getHeader
  by_cases hc : cached d.cache k = true
  · obtain ⟨c', h, e1, e2, e3⟩ := cacheOf_get m.cache k hc
    rw [if_pos hc, e1]
    refine ⟨{ d with cache := c' }, some h, rfl, ⟨m.disk, e3, m.tx, m.pend, m.unc, m.dirty, m.done⟩, ?_, by simp⟩
    intro h' e
    injection e with e
    subst e
    exact List.mem_append_right _ e2
  · rw [if_neg hc]
    have hr : d.read k = lookup (x.pending ++ x.kept) k := by
      unfold HeaderDB.read HeaderDB.view
      rw [m.tx, m.disk]
      match s, m.pend with
      | some (true, _), _ => rfl
      | some (false, w), hp =>
        have : x.pending = [] := by rcases hp with ⟨w', h⟩ | h; · simp at h
                                    · exact h
        simp [this]
      | none, hp =>
        have : x.pending = [] := by rcases hp with ⟨w', h⟩ | h; · simp at h
                                    · exact h
        simp [this]
    refine ⟨d, d.read k, rfl, m, ?_, ?_⟩
    · intro h e
      rw [hr] at e
      unfold lookup at e
      cases hf : (x.pending ++ x.kept).find? (fun p => p.1 = k) with
      | none => simp [hf] at e
      | some p =>
        rw [hf] at e
        simp only [Option.map_some, Option.some.injEq] at e
        have h1 := List.mem_of_find?_eq_some hf
        have h2 := List.find?_some hf
        simp only [decide_eq_true_eq] at h2
        rw [← h2, ← e]
        exact h1
    · intro e
      rw [hr] at e
      unfold lookup at e
      rw [Option.map_eq_none_iff, List.find?_eq_none] at e
      intro hm
      rw [List.mem_map] at hm
      obtain ⟨p, p1, p2⟩ := hm
      exact e p p1 (by simp [p2])

private theorem step_matches {s t : Held} {x : Kept K H} {d : HeaderDB K H} (m : Matches s x d) (o : DBCall K H)
    (ho : follows s o = some t) : ∃ d', DBCall.step d o = .ok d' ∧ Matches t (x.step s o) d' := by
  cases o with
  | take b =>
    cases s with
    | some _ => simp [follows] at ho
    | none =>
      simp only [follows, Option.some.injEq] at ho
      subst ho
      have hp : x.pending = [] := by rcases m.pend with ⟨w, h⟩ | h; · simp at h
                                     · exact h
      refine ⟨_, rfl, ⟨m.disk, m.cache, ?_, Or.inr hp, m.unc, ?_, ?_⟩⟩
      · have : d.tx = none := m.tx
        cases b with
        | true => simp [Kept.step, hp]
        | false => simp [this]
      · intro b' w h
        injection h with h
        simp only [Prod.mk.injEq] at h
        exact h.2
      · intro b' h
        simp at h
  | add k h =>
    match s, ho with
    | some (true, true), ho =>
      simp only [follows, Option.some.injEq] at ho
      subst ho
      have ht : d.tx = some x.pending := m.tx
      refine ⟨{ d with tx := some ((k, h) :: x.pending), uncommitted := d.uncommitted ++ [(k, h)] }, ?_, ?_⟩
      · simp [DBCall.step, HeaderDB.add, HeaderDB.write, ht]
      · refine ⟨m.disk, m.cache, rfl, Or.inl ⟨true, rfl⟩, ?_, m.dirty, by simp⟩
        intro y hy
        have hy' : y ∈ d.uncommitted ++ [(k, h)] := hy
        rw [List.mem_append, List.mem_singleton] at hy'
        show y ∈ (k, h) :: x.pending
        rcases hy' with hy' | rfl
        · exact List.mem_cons_of_mem _ (m.unc y hy')
        · simp
    | some (false, true), ho =>
      simp only [follows, Option.some.injEq] at ho
      subst ho
      have ht : d.tx = none := m.tx
      obtain ⟨c', e1, e2⟩ := cacheOf_put (m.cache.mono (b := (k, h) :: x.kept) (fun y hy => List.mem_cons_of_mem _ hy)) k h (by simp)
      have hp : x.pending = [] := by rcases m.pend with ⟨w, h⟩ | h; · simp at h
                                     · exact h
      refine ⟨{ d with disk := (k, h) :: d.disk, cache := c' }, ?_, ?_⟩
      · simp [DBCall.step, HeaderDB.add, HeaderDB.write, ht, e1]
      · exact ⟨by simp [Kept.step, m.disk], e2, ht, Or.inr hp, m.unc, m.dirty, by simp⟩
  | addMany l =>
    match s, ho with
    | some (true, true), ho =>
      simp only [follows, Option.some.injEq] at ho
      subst ho
      have ht : d.tx = some x.pending := m.tx
      refine ⟨_, rfl, ?_⟩
      rw [(addMany_spec l d).1 _ ht]
      refine ⟨m.disk, m.cache, rfl, Or.inl ⟨true, rfl⟩, ?_, m.dirty, by simp⟩
      intro y hy
      exact List.mem_append_right _ (m.unc y hy)
    | some (false, true), ho =>
      simp only [follows, Option.some.injEq] at ho
      subst ho
      have ht : d.tx = none := m.tx
      have hp : x.pending = [] := by rcases m.pend with ⟨w, h⟩ | h; · simp at h
                                     · exact h
      refine ⟨_, rfl, ?_⟩
      rw [(addMany_spec l d).2 ht]
      exact ⟨by simp [Kept.step, m.disk], m.cache.mono (fun y hy => List.mem_append_right _ hy), ht, Or.inr hp, m.unc, m.dirty, by simp⟩
  | commit works =>
    match s, ho with
    | some (b, true), ho =>
      simp only [follows] at ho
      by_cases hb : (b && !works) = true
      · rw [if_pos hb, Option.some.injEq] at ho
        subst ho
        simp only [Bool.and_eq_true, Bool.not_eq_true'] at hb
        obtain ⟨rfl, rfl⟩ := hb
        have ht : d.tx = some x.pending := m.tx
        have hd : d.dirty = true := m.dirty true true rfl
        refine ⟨d, ?_, by simpa [Kept.step] using m⟩
        simp [DBCall.step, HeaderDB.writerCommit, HeaderDB.commit, ht, hd]
      · rw [if_neg hb, Option.some.injEq] at ho
        subst ho
        have hw : b = true → works = true := by
          intro h; subst h; simpa using hb
        obtain ⟨d', e1, e2⟩ := commit_matches m works hw
        refine ⟨d', by simp only [DBCall.step, e1], ?_⟩
        cases works with
        | true => exact e2
        | false =>
          have : b = false := by cases b; · rfl
                                 · simp at hw
          subst this
          have hp : x.pending = [] := by rcases m.pend with ⟨w, h⟩ | h; · simp at h
                                         · exact h
          have hx : (⟨x.pending ++ x.kept, []⟩ : Kept K H) = x := by cases x; simp_all
          rw [hx] at e2
          exact e2
  | rollback =>
    match s, ho with
    | some (true, true), ho =>
      simp only [follows, Option.some.injEq] at ho
      subst ho
      exact rollback_matches m
  | release b =>
    match s, ho with
    | some (b', w), ho =>
      simp only [follows] at ho
      by_cases hb : b' = b
      · subst hb
        simp only [if_true, Option.some.injEq] at ho
        subst ho
        cases b' with
        | true =>
          obtain ⟨d', e1, e2⟩ := rollback_matches m
          refine ⟨{ d' with tx := none }, ?_, release_matches e2 rfl (Or.inl rfl)⟩
          simp only [DBCall.step, if_true, e1]
          rfl
        | false =>
          have hp : x.pending = [] := by rcases m.pend with ⟨w, h⟩ | h; · simp at h
                                         · exact h
          have hx : ({ x with pending := [] } : Kept K H) = x := by cases x; simp_all
          have hx2 : (⟨x.pending ++ x.kept, []⟩ : Kept K H) = x := by cases x; simp_all
          cases w with
          | true =>
            obtain ⟨d', e1, e2⟩ := commit_matches m true (fun _ => rfl)
            rw [hx2] at e2
            refine ⟨{ d' with tx := none }, ?_, release_matches e2 hp (Or.inr rfl)⟩
            simp only [DBCall.step, Bool.false_eq_true, if_false, e1]
            rfl
          | false =>
            have hd : d.dirty = false := m.dirty false false rfl
            refine ⟨{ d with tx := none }, ?_, release_matches m hp (Or.inr rfl)⟩
            simp [DBCall.step, HeaderDB.writerCommit, hd]
      · simp [hb] at ho
  | get k =>
    have hs : t = s := by
      match s, ho with
      | none, ho => simpa [follows] using ho.symm
      | some (true, true), ho => simpa [follows] using ho.symm
      | some (true, false), ho => simpa [follows] using ho.symm
      | some (false, true), ho => simpa [follows] using ho.symm
      | some (false, false), ho => simpa [follows] using ho.symm
    subst hs
    obtain ⟨d', r, e1, e2, -, -⟩ := get_matches m k
    refine ⟨d', ?_, e2⟩
    simp only [DBCall.step, e1]
    rfl

private theorem run_matches : ∀ (l : List (DBCall K H)) (s t : Held) (x : Kept K H) (d : HeaderDB K H), Matches s x d →
    Follows s l t → ∃ d', runCalls d l = .ok d' ∧ Matches t (keeping s x l) d' := by
  intro l
  induction l with
  | nil =>
    intro s t x d m h
    cases h
    exact ⟨d, rfl, m⟩
  | cons o l ih =>
    intro s t x d m h
    obtain ⟨u, h1, h2⟩ := h
    obtain ⟨d1, e1, e2⟩ := step_matches m o h1
    obtain ⟨d2, e3, e4⟩ := ih u t _ d1 e2 h2
    refine ⟨d2, ?_, ?_⟩
    · unfold runCalls
      rw [e1]
      exact e3
    · unfold keeping
      rw [h1]
      exact e4

/-- **C58.** After any calls made as the code makes them, a header read from the database is one that was kept (added and committed, or added
without a batch) or one added in the batch under way; a header of a batch that was rolled back, or failed to commit, is never
returned; and a header kept or added in the batch under way is always found.

Headers are told apart by their hash, the key; if no two different headers have the same, the one found is the one
asked for. -/
theorem header_read (disk : List (K × H)) (l : List (DBCall K H)) (s : Held) (hl : Follows none l s) :
    ∃ d, runCalls (.open disk) l = .ok d ∧ ∀ k, ∃ d' r, d.getHeader k = .ok (d', r) ∧
      (∀ h, r = some h → (k, h) ∈ (keeping none ⟨disk, []⟩ l).pending ++ (keeping none ⟨disk, []⟩ l).kept) ∧
      (∀ h, (k, h) ∈ (keeping none ⟨disk, []⟩ l).pending ++ (keeping none ⟨disk, []⟩ l).kept → ∃ h', r = some h') := by
  have m0 : Matches (none : Held) ⟨disk, []⟩ (HeaderDB.open disk : HeaderDB K H) :=
    ⟨rfl, ⟨[], rfl, by simp⟩, rfl, Or.inr rfl, by simp [HeaderDB.open], by simp, by simp⟩
  obtain ⟨d, e1, e2⟩ := run_matches l none s ⟨disk, []⟩ _ m0 hl
  refine ⟨d, e1, fun k => ?_⟩
  obtain ⟨d', r, g1, -, g3, g4⟩ := get_matches e2 k
  refine ⟨d', r, g1, g3, fun h hm => ?_⟩
  cases hr : r with
  | some h' => exact ⟨h', rfl⟩
  | none =>
    exfalso
    exact g4 hr (List.mem_map.2 ⟨(k, h), hm, rfl⟩)

example : Follows (K := Nat) (H := Nat) none [.take true, .add 1 10, .commit false, .release true, .take true, .add 2 20, .commit true,
    .release true, .get 1, .get 2] none := by
  simp [Follows, follows]

example : (keeping (K := Nat) (H := Nat) none ⟨[], []⟩ [.take true, .add 1 10, .commit false, .release true, .take true, .add 2 20, .commit true,
    .release true, .get 1, .get 2]).kept = [(2, 20)] := by decide

/-- Why the calls must be made so: a header added to a batch after its explicit commit is neither stored nor forgotten; the next
commit puts it into the cache, and it is returned although it is not in the database. -/
theorem late_add_violated :
    (match runCalls (K := Nat) (H := Nat) (.open []) [.take true, .commit true, .add 1 10, .release true, .take true, .commit true, .release true] with
     | .ok d => (match d.getHeader 1 with | .ok (_, r) => r | _ => none) == some 10 && d.disk == []
     | _ => false) = true := by decide

end Verif.Props
