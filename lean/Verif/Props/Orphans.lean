import Verif.Chain.Orphans
import Verif.Cache.Lru

/-!
# C64: the orphan pool
-/
namespace Verif.Props
open Verif.Cache Verif.BC.Orphans

variable {K B H : Type} [DecidableEq K] (v : BlockView K B H)

/-- The orphans, in the order they came: a block is kept unless one with its height and hash is kept already, until it is removed. -/
def orphanStep (kept : List B) : Call K B H → List B
  | .addBlock b => if kept.any (fun x => v.height x = v.height b ∧ v.key x = v.key b) then kept else kept ++ [b]
  | .remove h k => kept.filter (fun x => ¬ (v.height x = h ∧ v.key x = k))
  | .addHeader _ => kept
  | .getHeader _ => kept

/-- The hashes of the orphan headers in the order of their last use.  A block whose header is among the last 64 does not count as a use. -/
def headerUse (r : List K) : Call K B H → List K
  | .addBlock b => if v.key b ∈ r.take 64 then r else v.key b :: r.erase (v.key b)
  | .remove _ _ => r
  | .addHeader hd => v.hash hd :: r.erase (v.hash hd)
  | .getHeader k => if k ∈ r.take 64 then k :: r.erase k else r

/-- The header last given for each hash; the first of them is kept if later ones come with a block while it is among the last 64. -/
def headerGiven (s : List K × (K → Option H)) (c : Call K B H) : List K × (K → Option H) :=
  (headerUse v s.1 c, match c with
    | .addBlock b => if v.key b ∈ s.1.take 64 then s.2 else fun k => if k = v.key b then some (v.header b) else s.2 k
    | .addHeader hd => fun k => if k = v.hash hd then some hd else s.2 k
    | _ => s.2)

private theorem findHeight_set (m : List (Nat × List B)) (h h' : Nat) (l : List B) :
    findHeight (setHeight m h l) h' = if h' = h then (findHeight m h).map (fun _ => l) else findHeight m h' := by
  induction m with
  | nil => simp [findHeight, setHeight]
  | cons p m ih =>
    simp only [findHeight, setHeight, List.map_cons, List.find?_cons] at ih ⊢
    by_cases h1 : p.1 = h
    · by_cases h2 : h' = h
      · simp [h1, h2]
      · have : ¬ h = h' := fun e => h2 e.symm
        simp only [h1, h2, this, if_true, if_false, decide_false, decide_true] at ih ⊢
        exact ih
    · by_cases h2 : p.1 = h'
      · have : ¬ h' = h := fun e => h1 (h2.trans e)
        simp [h2, this]
      · simp only [h1, h2, if_false, decide_false] at ih ⊢
        exact ih

private theorem findHeight_erase (m : List (Nat × List B)) (h h' : Nat) :
    findHeight (eraseHeight m h) h' = if h' = h then none else findHeight m h' := by
  induction m with
  | nil => simp [findHeight, eraseHeight]
  | cons p m ih =>
    simp only [findHeight, eraseHeight, List.filter_cons] at ih ⊢
    by_cases h1 : p.1 = h
    · by_cases h2 : h' = h
      · simp only [h1, h2, if_true] at ih ⊢
        simp
      · have h3 : ¬ h = h' := fun e => h2 e.symm
        simp only [h1, ne_eq, not_true_eq_false, decide_false, Bool.false_eq_true, if_false, h2, List.find?_cons, h3] at ih ⊢
        exact ih
    · simp only [h1, ne_eq, not_false_eq_true, decide_true, if_true, List.find?_cons]
      by_cases h2 : p.1 = h'
      · have : ¬ h' = h := fun e => h1 (h2.trans e)
        simp [h2, this]
      · simp only [h2, decide_false]
        exact ih

/-- The pool holds these orphans and headers. -/
private structure Pools (kept : List B) (s : List K × (K → Option H)) (p : OrphanPool K B H) : Prop where
  at_ : ∀ h, (findHeight p.byHeight h).getD [] = kept.filter (fun x => v.height x = h)
  one : kept.Pairwise (fun x y => ¬ (v.height x = v.height y ∧ v.key x = v.key y))
  heads : ∃ ops : List (Op K H), runOps (create .lru 64) ops = .ok p.headers ∧ ops.foldl (useStep 64) [] = s.1 ∧
    ops.foldl putStep (fun _ => none) = s.2

private theorem heads_answers {r : List K} {m : K → Option H} {c : Cache K H} (h : ∃ ops : List (Op K H),
    runOps (create .lru 64) ops = .ok c ∧ ops.foldl (useStep 64) [] = r ∧ ops.foldl putStep (fun _ => none) = m) :
    Answers 64 r m c := by
  obtain ⟨ops, e1, rfl, rfl⟩ := h
  obtain ⟨c0, e3, a⟩ := lru_cache 64 64 rfl ops
  rw [e1] at e3
  injection e3 with e3
  subst e3
  exact a

private theorem heads_put {r : List K} {m : K → Option H} {c : Cache K H} (h : ∃ ops : List (Op K H),
    runOps (create .lru 64) ops = .ok c ∧ ops.foldl (useStep 64) [] = r ∧ ops.foldl putStep (fun _ => none) = m) (k : K) (hd : H) :
    ∃ c', Cache.put c k hd = .ok c' ∧ ∃ ops : List (Op K H), runOps (create .lru 64) ops = .ok c' ∧
      ops.foldl (useStep 64) [] = k :: r.erase k ∧
      ops.foldl putStep (fun _ => none) = fun k' => if k' = k then some hd else m k' := by
  obtain ⟨ops, e1, rfl, rfl⟩ := h
  obtain ⟨c', e3, -⟩ := lru_cache 64 64 rfl (ops ++ [Op.put k hd])
  have e4 := e3
  rw [runOps_append, e1] at e4
  have e5 : Cache.put c k hd = .ok c' := by
    change (do let c ← Cache.put c k hd; runOps c []) = _ at e4
    cases ep : Cache.put c k hd with
    | ok d => rw [ep] at e4; exact e4
    | throw => rw [ep] at e4; cases e4
    | ub => rw [ep] at e4; cases e4
  exact ⟨c', e5, ops ++ [Op.put k hd], e3, by rw [List.foldl_append]; rfl, by rw [List.foldl_append]; rfl⟩

private theorem heads_get {r : List K} {m : K → Option H} {c c' : Cache K H} {hd : H} (h : ∃ ops : List (Op K H),
    runOps (create .lru 64) ops = .ok c ∧ ops.foldl (useStep 64) [] = r ∧ ops.foldl putStep (fun _ => none) = m) (k : K)
    (g : fetch c k = .ok (c', hd)) : ∃ ops : List (Op K H), runOps (create .lru 64) ops = .ok c' ∧
      ops.foldl (useStep 64) [] = (if k ∈ r.take 64 then k :: r.erase k else r) ∧
      ops.foldl putStep (fun _ => none) = m := by
  obtain ⟨ops, e1, rfl, rfl⟩ := h
  refine ⟨ops ++ [Op.get k], ?_, by rw [List.foldl_append]; rfl, by rw [List.foldl_append]; rfl⟩
  rw [runOps_append, e1]
  show (do let c ← Op.step c (Op.get k); runOps c []) = _
  simp only [Op.step, g]
  rfl

private theorem any_filter (kept : List B) (h : Nat) (k : K) :
    (kept.filter (fun x => v.height x = h)).any (fun x => v.key x = k) = kept.any (fun x => v.height x = h ∧ v.key x = k) := by
  induction kept with
  | nil => rfl
  | cons b l ih =>
    by_cases hb : v.height b = h
    · simp only [List.filter_cons, hb, decide_true, if_true, List.any_cons, true_and, ih]
    · simp only [List.filter_cons, hb, decide_false, Bool.false_eq_true, if_false, List.any_cons, false_and, Bool.false_or, ih]

omit [DecidableEq K] in
private theorem find_filter (q : B → Prop) [DecidablePred q] (kept : List B) (h : Nat) :
    (kept.filter (fun x => v.height x = h)).find? (fun x => q x) = kept.find? (fun x => v.height x = h ∧ q x) := by
  induction kept with
  | nil => rfl
  | cons b l ih =>
    by_cases hb : v.height b = h
    · by_cases hq : q b
      · simp [hb, hq]
      · simp only [List.filter_cons, hb, decide_true, if_true, List.find?_cons, hq, decide_false, and_false, ih]
    · simp only [List.filter_cons, hb, decide_false, Bool.false_eq_true, if_false, List.find?_cons, false_and, ih]

private theorem eraseP_eq (kept : List B) (h : Nat) (k : K)
    (one : kept.Pairwise (fun x y => ¬ (v.height x = v.height y ∧ v.key x = v.key y))) :
    (kept.filter (fun x => v.height x = h)).eraseP (fun x => v.key x = k) =
      (kept.filter (fun x => ¬ (v.height x = h ∧ v.key x = k))).filter (fun x => v.height x = h) := by
  induction kept with
  | nil => rfl
  | cons b l ih =>
    rw [List.pairwise_cons] at one
    have ih := ih one.2
    by_cases hb : v.height b = h
    · by_cases hk : v.key b = k
      · simp only [List.filter_cons, hb, decide_true, if_true, List.eraseP_cons, hk, and_self, not_true_eq_false, decide_false,
          Bool.false_eq_true, if_false, cond_true]
        rw [List.filter_filter]
        apply List.filter_congr
        intro x hx
        have := one.1 x hx
        rw [hb, hk] at this
        by_cases h1 : v.height x = h
        · have h2 : ¬ v.key x = k := fun e => this ⟨h1.symm, e.symm⟩
          simp [h1, h2]
        · simp [h1]
      · simp only [List.filter_cons, hb, decide_true, if_true, List.eraseP_cons, hk, and_false, not_false_eq_true, decide_false,
          cond_false]
        rw [ih]
    · simp only [List.filter_cons, hb, decide_false, Bool.false_eq_true, if_false, false_and, not_false_eq_true, decide_true, if_true]
      rw [ih]

private theorem step_pools {kept : List B} {s : List K × (K → Option H)} {p : OrphanPool K B H} (hp : Pools v kept s p) (c : Call K B H) :
    ∃ p', Call.step v p c = .ok p' ∧ Pools v (orphanStep v kept c) (headerGiven v s c) p' := by
  have ans := heads_answers hp.heads
  cases c with
  | addBlock b =>
    -- the headers
    have hh : ∃ hs, keepHeader v p.headers b = .ok hs ∧
        ∃ ops : List (Op K H), runOps (create .lru 64) ops = .ok hs ∧
          ops.foldl (useStep 64) [] = (headerGiven v s (.addBlock b)).1 ∧
          ops.foldl putStep (fun _ => none) = (headerGiven v s (.addBlock b)).2 := by
      by_cases hc : cached p.headers (v.key b) = true
      · have hm := (ans.cached _).1 hc
        refine ⟨p.headers, if_pos hc, ?_⟩
        simp only [headerGiven, headerUse, if_pos hm]
        exact hp.heads
      · have hm : v.key b ∉ s.1.take 64 := fun e => hc ((ans.cached _).2 e)
        obtain ⟨c', e1, e2⟩ := heads_put hp.heads (v.key b) (v.header b)
        refine ⟨c', by unfold keepHeader; rw [if_neg hc]; exact e1, ?_⟩
        simp only [headerGiven, headerUse, if_neg hm]
        exact e2
    obtain ⟨hs, e1, e2⟩ := hh
    have hat := hp.at_ (v.height b)
    have hany := any_filter v kept (v.height b) (v.key b)
    simp only [Call.step, OrphanPool.addBlock, e1, Res.ok_bind]
    by_cases ha : kept.any (fun x => v.height x = v.height b ∧ v.key x = v.key b) = true
    · cases ef : findHeight p.byHeight (v.height b) with
      | none =>
        rw [ef] at hat
        rw [← hat] at hany
        rw [ha] at hany
        simp at hany
      | some l =>
        rw [ef] at hat
        simp only [Option.getD_some] at hat
        rw [← hat, ha] at hany
        refine ⟨_, if_pos hany, ?_, ?_, e2⟩
        · simp only [orphanStep, if_pos ha]; exact hp.at_
        · simp only [orphanStep, if_pos ha]; exact hp.one
    · have hone : (kept ++ [b]).Pairwise (fun x y => ¬ (v.height x = v.height y ∧ v.key x = v.key y)) := by
        rw [List.pairwise_append]
        refine ⟨hp.one, by simp, ?_⟩
        intro x hx y hy
        rw [List.mem_singleton] at hy
        subst hy
        intro hc
        apply ha
        rw [List.any_eq_true]
        exact ⟨x, hx, by simpa using hc⟩
      have hfa : ∀ h, (kept ++ [b]).filter (fun x => v.height x = h) =
          kept.filter (fun x => v.height x = h) ++ if v.height b = h then [b] else [] := by
        intro h
        rw [List.filter_append]
        by_cases hb : v.height b = h <;> simp [hb]
      cases ef : findHeight p.byHeight (v.height b) with
      | none =>
        refine ⟨_, rfl, ?_, by simp only [orphanStep, if_neg ha]; exact hone, e2⟩
        intro h
        simp only [orphanStep, if_neg ha]
        rw [hfa]
        by_cases hb : v.height b = h
        · rw [ef] at hat
          subst hb
          rw [← hat]
          simp [findHeight]
        · rw [if_neg hb, List.append_nil, ← hp.at_ h]
          simp [findHeight, hb]
      | some l =>
        rw [ef] at hat
        simp only [Option.getD_some] at hat
        rw [← hat] at hany
        refine ⟨_, if_neg (by rw [hany]; exact ha), ?_, by simp only [orphanStep, if_neg ha]; exact hone, e2⟩
        intro h
        simp only [orphanStep, if_neg ha]
        rw [hfa, findHeight_set]
        by_cases hb : v.height b = h
        · subst hb
          rw [if_pos rfl, if_pos rfl, ef, ← hat]
          rfl
        · rw [if_neg (fun e => hb e.symm), if_neg hb, List.append_nil]
          exact hp.at_ h
  | remove h k =>
    refine ⟨_, rfl, ?_, ?_, ?_⟩
    · intro h'
      have hat := hp.at_ h
      have her := eraseP_eq v kept h k hp.one
      have hother : h' ≠ h → (kept.filter (fun x => ¬ (v.height x = h ∧ v.key x = k))).filter (fun x => v.height x = h') =
          kept.filter (fun x => v.height x = h') := by
        intro hne
        rw [List.filter_filter]
        apply List.filter_congr
        intro x _
        by_cases h1 : v.height x = h'
        · simp [h1, hne]
        · simp [h1]
      simp only [orphanStep, OrphanPool.remove]
      cases ef : findHeight p.byHeight h with
      | none =>
        rw [ef] at hat
        by_cases hh : h' = h
        · subst hh
          simp only [Option.getD_none] at hat
          rw [ef, ← her, ← hat]
          rfl
        · rw [hother hh]; exact hp.at_ h'
      | some l =>
        rw [ef] at hat
        simp only [Option.getD_some] at hat
        rw [← hat] at her
        by_cases hh : h' = h
        · subst hh
          rw [← her]
          dsimp only
          by_cases hl : l.eraseP (fun b => v.key b = k) = []
          · rw [if_pos hl, findHeight_erase, if_pos rfl, hl]
            rfl
          · rw [if_neg hl, findHeight_set, if_pos rfl, ef]
            rfl
        · rw [hother hh]
          dsimp only
          by_cases hl : l.eraseP (fun b => v.key b = k) = []
          · rw [if_pos hl, findHeight_erase, if_neg hh, findHeight_set, if_neg hh]
            exact hp.at_ h'
          · rw [if_neg hl, findHeight_set, if_neg hh]
            exact hp.at_ h'
    · exact hp.one.filter _
    · have : (p.remove v h k).headers = p.headers := by
        unfold OrphanPool.remove
        cases findHeight p.byHeight h <;> rfl
      rw [this]
      exact hp.heads
  | addHeader hd =>
    obtain ⟨c', e1, e2⟩ := heads_put hp.heads (v.hash hd) hd
    exact ⟨{ p with headers := c' }, by simp [Call.step, OrphanPool.addHeader, e1], hp.at_, hp.one, e2⟩
  | getHeader k =>
    by_cases hc : cached p.headers k = true
    · obtain ⟨c', hd, -, g⟩ := ans.value k ((ans.cached k).1 hc)
      exact ⟨{ p with headers := c' }, by simp [Call.step, OrphanPool.getHeader, hc, g], hp.at_, hp.one, heads_get hp.heads k g⟩
    · have hm : k ∉ s.1.take 64 := fun e => hc ((ans.cached _).2 e)
      refine ⟨p, by simp [Call.step, OrphanPool.getHeader, hc], hp.at_, hp.one, ?_⟩
      simp only [headerGiven, headerUse, if_neg hm]
      exact hp.heads

private theorem run_pools : ∀ (calls : List (Call K B H)) (kept : List B) (s : List K × (K → Option H)) (p : OrphanPool K B H),
    Pools v kept s p → ∃ p', runCalls v p calls = .ok p' ∧ Pools v (calls.foldl (orphanStep v) kept) (calls.foldl (headerGiven v) s) p' := by
  intro calls
  induction calls with
  | nil => intro kept s p h; exact ⟨p, rfl, h⟩
  | cons c l ih =>
    intro kept s p h
    obtain ⟨p1, e1, h1⟩ := step_pools v h c
    obtain ⟨p2, e2, h2⟩ := ih _ _ p1 h1
    exact ⟨p2, by simp [runCalls, e1, e2], h2⟩

/-- **C64.** After any calls the pool holds exactly the blocks that were added and not removed since, the first one of each height
and hash: it tells them as orphans, returns them by height and hash, and by height and previous hash the one that came
first.  Of the headers it keeps the 64 used last and returns the header that was given for the hash; no call throws or is undefined. -/
theorem orphan_pool (calls : List (Call K B H)) (kept : List B) (s : List K × (K → Option H))
    (hk : kept = calls.foldl (orphanStep v) []) (hs : s = calls.foldl (headerGiven v) ([], fun _ => none)) :
    ∃ p, runCalls v OrphanPool.create calls = .ok p ∧
      (∀ h k, p.isOrphan v h k = true ↔ ∃ b ∈ kept, v.height b = h ∧ v.key b = k) ∧
      (∀ h k, p.getBlock v h k = kept.find? (fun b => v.height b = h ∧ v.key b = k)) ∧
      (∀ h k, p.nextBlock v h k = kept.find? (fun b => v.height b = h ∧ v.prev b = k)) ∧
      (∀ k, ∃ p', p.getHeader k = .ok (p', if k ∈ s.1.take 64 then s.2 k else none)) ∧
      size p.headers ≤ 64 := by
  obtain ⟨p, e1, hp⟩ := run_pools v calls [] ([], fun _ => none) OrphanPool.create
    ⟨fun h => rfl, List.Pairwise.nil, [], rfl, rfl, rfl⟩
  rw [← hk, ← hs] at hp
  have ans := heads_answers hp.heads
  refine ⟨p, e1, ?_, ?_, ?_, ?_, ans.bound⟩
  · intro h k
    have hat := hp.at_ h
    have hany := any_filter v kept h k
    have : p.isOrphan v h k = kept.any (fun x => v.height x = h ∧ v.key x = k) := by
      rw [← hany, ← hat]
      unfold OrphanPool.isOrphan
      cases findHeight p.byHeight h <;> rfl
    rw [this, List.any_eq_true]
    simp
  · intro h k
    rw [← find_filter v (fun b => v.key b = k), ← hp.at_ h]
    unfold OrphanPool.getBlock
    cases findHeight p.byHeight h <;> rfl
  · intro h k
    rw [← find_filter v (fun b => v.prev b = k), ← hp.at_ h]
    unfold OrphanPool.nextBlock
    cases findHeight p.byHeight h <;> rfl
  · intro k
    by_cases hc : k ∈ s.1.take 64
    · obtain ⟨c', hd, m, g⟩ := ans.value k hc
      exact ⟨_, by simp [OrphanPool.getHeader, (ans.cached k).2 hc, g, hc, m]; rfl⟩
    · have : ¬ cached p.headers k = true := fun e => hc ((ans.cached k).1 e)
      exact ⟨p, by simp [OrphanPool.getHeader, this, hc]⟩

/-- Every header returned for a hash has that hash and was given to the pool, alone or with a block. -/
theorem orphan_header (calls : List (Call K B H)) (p p' : OrphanPool K B H) (k : K) (hd : H)
    (hr : runCalls v OrphanPool.create calls = .ok p) (h : p.getHeader k = .ok (p', some hd)) :
    v.hash hd = k ∧ ∃ c ∈ calls, match c with
      | .addHeader x => x = hd
      | .addBlock b => v.header b = hd
      | _ => False := by
  have key : ∀ (l : List (Call K B H)) (s : List K × (K → Option H)) (Q : H → Prop),
      (∀ k x, s.2 k = some x → v.hash x = k ∧ Q x) → (∀ c ∈ l, match c with
        | .addHeader x => Q x
        | .addBlock b => Q (v.header b)
        | _ => True) → ∀ k x, (l.foldl (headerGiven v) s).2 k = some x → v.hash x = k ∧ Q x := by
    intro l
    induction l with
    | nil => intro s Q hs _; exact hs
    | cons c l ih =>
      intro s Q hs hq
      apply ih (headerGiven v s c) Q _ (fun c hc => hq c (List.mem_cons_of_mem _ hc))
      intro k x e
      have hqc := hq c (by simp)
      cases c with
      | addBlock b =>
        simp only [headerGiven] at e
        by_cases hm : v.key b ∈ s.1.take 64
        · rw [if_pos hm] at e; exact hs k x e
        · rw [if_neg hm] at e
          by_cases hkb : k = v.key b
          · simp only [if_pos hkb, Option.some.injEq] at e
            subst e
            exact ⟨hkb.symm, hqc⟩
          · simp only [if_neg hkb] at e; exact hs k x e
      | addHeader y =>
        simp only [headerGiven] at e
        by_cases hkb : k = v.hash y
        · simp only [if_pos hkb, Option.some.injEq] at e
          subst e
          exact ⟨hkb.symm, hqc⟩
        · simp only [if_neg hkb] at e; exact hs k x e
      | remove _ _ => exact hs k x e
      | getHeader _ => exact hs k x e
  obtain ⟨q, e1, -, -, -, e2, -⟩ := orphan_pool v calls _ _ rfl rfl
  rw [hr] at e1
  injection e1 with e1
  subst e1
  obtain ⟨q', e3⟩ := e2 k
  rw [h] at e3
  injection e3 with e3; injection e3 with e3 e4
  by_cases hm : k ∈ (calls.foldl (headerGiven v) ([], fun _ => none)).1.take 64
  · rw [if_pos hm] at e4
    apply key calls ([], fun _ => none) (fun hd => ∃ c ∈ calls, match c with
      | .addHeader x => x = hd
      | .addBlock b => v.header b = hd
      | _ => False) (by simp) _ k hd e4.symm
    intro c hc
    cases c with
    | addHeader x => exact ⟨_, hc, rfl⟩
    | addBlock b => exact ⟨_, hc, rfl⟩
    | remove _ _ => trivial
    | getHeader _ => trivial
  · rw [if_neg hm] at e4; cases e4

/-- **C64 is violated: the pool has no bound.** Any number of blocks with different hashes are all kept. -/
theorem unbounded_orphans_violated (bs : List B) (hn : (bs.map v.key).Nodup) :
    ∃ p, runCalls v OrphanPool.create (bs.map (Call.addBlock (H := H))) = .ok p ∧ ∀ b ∈ bs, p.isOrphan v (v.height b) (v.key b) = true := by
  have hk : ∀ (l pre : List B), ((pre ++ l).map v.key).Nodup →
      (l.map (Call.addBlock (K := K) (H := H))).foldl (orphanStep v) pre = pre ++ l := by
    intro l
    induction l with
    | nil => intro pre _; simp
    | cons b l ih =>
      intro pre hp
      have hno : ¬ pre.any (fun x => v.height x = v.height b ∧ v.key x = v.key b) = true := by
        rw [List.any_eq_true]
        rintro ⟨x, hx, hxk⟩
        rw [decide_eq_true_eq] at hxk
        rw [List.map_append, List.nodup_append] at hp
        exact hp.2.2 (v.key x) (List.mem_map.2 ⟨x, hx, rfl⟩) (v.key b) (by simp) hxk.2
      simp only [List.map_cons, List.foldl_cons, orphanStep, if_neg hno]
      rw [ih (pre ++ [b]) (by simpa using hp)]
      simp
  obtain ⟨p, e1, e2, -⟩ := orphan_pool v (bs.map Call.addBlock) bs _ (hk bs [] hn).symm rfl
  exact ⟨p, e1, fun b hb => (e2 _ _).2 ⟨b, hb, rfl, rfl⟩⟩

/-- **C64 is violated: the first body wins.** If a block comes whose header is that of an orphan, its body is dropped, although the
body of the orphan may be the wrong one. -/
theorem first_body_violated (calls : List (Call K B H)) (p : OrphanPool K B H) (b b' : B)
    (hr : runCalls v OrphanPool.create calls = .ok p) (hb : p.getBlock v (v.height b) (v.key b) = some b')
    (hne : b ≠ b') : ∃ p', p.addBlock v b = .ok p' ∧ p'.getBlock v (v.height b) (v.key b) = some b' ∧
      ∀ h k, p'.getBlock v h k ≠ some b := by
  obtain ⟨q, e1, -, e2, -⟩ := orphan_pool v calls _ _ rfl rfl
  rw [hr] at e1; injection e1 with e1; subst e1
  have hrun : runCalls v OrphanPool.create (calls ++ [Call.addBlock b]) = (do let p ← Res.ok p; Call.step v p (Call.addBlock b)) := by
    rw [← hr]
    clear hr e2 hb
    generalize (OrphanPool.create : OrphanPool K B H) = p0
    induction calls generalizing p0 with
    | nil => simp only [List.nil_append, runCalls, Res.ok_bind]; cases Call.step v p0 (Call.addBlock b) <;> rfl
    | cons c l ih =>
      simp only [List.cons_append, runCalls]
      cases Call.step v p0 c with
      | ok p1 => exact ih p1
      | throw => rfl
      | ub => rfl
  obtain ⟨p', f1, -, f2, -⟩ := orphan_pool v (calls ++ [Call.addBlock b]) _ _ rfl rfl
  have hsame : (calls ++ [Call.addBlock b]).foldl (orphanStep v) [] = calls.foldl (orphanStep v) [] := by
    rw [List.foldl_append]
    simp only [List.foldl_cons, List.foldl_nil, orphanStep]
    rw [if_pos]
    rw [e2] at hb
    have h1 := List.mem_of_find?_eq_some hb
    have h2 := List.find?_some hb
    rw [List.any_eq_true]
    exact ⟨b', h1, h2⟩
  refine ⟨p', by rw [hrun] at f1; exact f1, ?_, ?_⟩
  · rw [f2, hsame, ← e2]; exact hb
  · intro h k hh
    rw [f2, hsame] at hh
    have h2 := List.find?_some hh
    rw [decide_eq_true_eq] at h2
    rw [← e2 h k, ← h2.1, ← h2.2, hb] at hh
    injection hh with hh
    exact hne hh.symm

/-- A block for the examples: height, hash, previous hash and a body. -/
private abbrev ToyBlock := Nat × Nat × Nat × Nat
private def toyView : BlockView Nat ToyBlock (Nat × Nat × Nat) := ⟨(·.1), (·.2.2.1), fun b => (b.1, b.2.1, b.2.2.1), (·.2.1)⟩

example : [Call.addBlock (5, 50, 40, 1), .addBlock (5, 51, 40, 2), .addBlock (6, 60, 50, 3), .addBlock (5, 50, 40, 9), .remove 5 51].foldl
    (orphanStep toyView) [] = [(5, 50, 40, 1), (6, 60, 50, 3)] := by decide
example : (match runCalls toyView OrphanPool.create [Call.addBlock (5, 50, 40, 1), .addBlock (5, 51, 40, 2), .remove 5 50, .addHeader (7, 70, 60)] with
  | .ok p => (p.isOrphan toyView 5 50, p.nextBlock toyView 5 40, size p.headers) | _ => (true, none, 0)) =
    (false, some (5, 51, 40, 2), 3) := by decide

end Verif.Props
