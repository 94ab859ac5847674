import Verif.MMR.Pruneable
import Verif.MMR.PruneCount

/-!
# Helper lemmas on the pruneable Merkle mountain range
-/
namespace Verif.MMR

/-- A list with the entries at the positions `P` left out. -/
def without {α : Type} (P : Nat → Bool) (full : List α) : List α :=
  (List.range full.length).filterMap (fun p => if P p then none else full[p]?)

theorem without_nil {α : Type} (P : Nat → Bool) : without P ([] : List α) = [] := rfl

theorem without_snoc {α : Type} (P : Nat → Bool) (full : List α) (x : α) :
    without P (full ++ [x]) = without P full ++ (if P full.length then [] else [x]) := by
  unfold without
  rw [List.length_append, List.length_singleton, List.range_succ, List.filterMap_append]
  congr 1
  · apply List.filterMap_congr
    intro p hp
    rw [List.mem_range] at hp
    rw [List.getElem?_append_left hp]
  · cases h : P full.length <;> simp [h]

theorem without_append {α : Type} (P : Nat → Bool) (full ext : List α)
    (h : ∀ p, full.length ≤ p → P p = false) : without P (full ++ ext) = without P full ++ ext := by
  induction ext using List.reverseRecOn with
  | nil => simp
  | append_singleton ext x ih =>
    rw [← List.append_assoc, without_snoc, ih, h _ (by simp), ← List.append_assoc]
    rfl

theorem without_length {α : Type} (P : Nat → Bool) (full : List α) :
    (without P full).length + (List.range full.length).countP P = full.length := by
  induction full using List.reverseRecOn with
  | nil => rfl
  | append_singleton full x ih =>
    rw [without_snoc, List.length_append, List.length_append, List.length_singleton,
      List.range_succ, List.countP_append]
    cases h : P full.length <;> simp [h] <;> omega

theorem without_get {α : Type} (P : Nat → Bool) (full : List α) (p : Nat) (hp : p < full.length)
    (hP : P p = false) : (without P full)[p - (List.range p).countP P]? = full[p]? := by
  have hsplit : full = full.take p ++ full[p] :: full.drop (p + 1) := by
    rw [List.cons_getElem_drop_succ]; exact (List.take_append_drop p full).symm
  have key : ∀ (ext : List α) (a : List α) (x : α), P a.length = false →
      (without P ((a ++ [x]) ++ ext))[a.length - (List.range a.length).countP P]? = some x := by
    intro ext a x hPa
    induction ext using List.reverseRecOn with
    | nil =>
      have := without_length P a
      rw [List.append_nil, without_snoc, hPa, List.getElem?_append_right (by omega)]
      rw [show a.length - (List.range a.length).countP P - (without P a).length = 0 by omega]
      rfl
    | append_singleton ext y ih =>
      rw [← List.append_assoc, without_snoc, List.getElem?_append_left, ih]
      exact (List.getElem?_eq_some_iff.mp ih).1
  have hl : (full.take p).length = p := by simp; omega
  have := key (full.drop (p + 1)) (full.take p) full[p] (by rw [hl]; exact hP)
  rw [hl] at this
  rw [List.getElem?_eq_getElem hp, ← this]
  congr 2
  rw [List.append_assoc]
  exact hsplit

theorem countP_eq_card (P : Nat → Bool) (p : Nat) :
    (List.range p).countP P = ((Finset.range p).filter (fun q => P q = true)).card := by
  induction p with
  | zero => rfl
  | succ p ih =>
    rw [List.range_succ, List.countP_append, ih, Finset.range_add_one, Finset.filter_insert]
    cases h : P p
    · simp [h]
    · simp only [List.countP_singleton, h, if_true]
      rw [Finset.card_insert_of_notMem (by simp)]

/-- A prune list whose caches were built from its roots, none of which lies below another. -/
structure Built (l : PruneList) : Prop where
  anti : Antichain l.roots
  bound : maximumOf l.roots ≤ 2 ^ 62
  built : l.rebuild = l
  cacheEmpty : l.roots = ∅ → l.cache = ∅

theorem Built.mem_cache {l : PruneList} (h : Built l) (p : Nat) : p ∈ l.cache ↔ Pruned l.roots p := by
  by_cases h0 : l.roots = ∅
  · rw [h.cacheEmpty h0]
    simp [Pruned, h0]
  · have : l.cache = buildPruned l.roots := by
      conv => lhs; rw [← h.built]
      unfold PruneList.rebuild; rw [if_neg h0]
    rw [this, mem_buildPruned h.bound]

theorem Built.isPruned {l : PruneList} (h : Built l) (p : Nat) :
    l.isPruned p = true ↔ Pruned l.roots p := by
  unfold PruneList.isPruned; rw [decide_eq_true_iff]; exact h.mem_cache p

theorem Built.isCompacted {l : PruneList} (h : Built l) (p : Nat) :
    l.isCompacted p = true ↔ Inner l.roots p := by
  unfold PruneList.isCompacted PruneList.isPrunedRoot Inner
  rw [Bool.and_eq_true, h.isPruned]
  simp

theorem Built.lookup {l : PruneList} (h : Built l) (q : Nat) :
    lookupShift l.roots l.shiftCache q = sumBelow l.roots hashWeight q := by
  by_cases h0 : l.roots = ∅
  · unfold lookupShift sumBelow; rw [if_pos h0, h0]; simp
  · have : l.shiftCache = buildCache l.roots hashWeight (maximumOf l.roots) := by
      conv => lhs; rw [← h.built]
      unfold PruneList.rebuild; rw [if_neg h0]
    rw [this, lookup_build]

theorem Built.lookupLeaf {l : PruneList} (h : Built l) (q : Nat) :
    lookupShift l.roots l.leafShiftCache q = sumBelow l.roots leafWeight q := by
  by_cases h0 : l.roots = ∅
  · unfold lookupShift sumBelow; rw [if_pos h0, h0]; simp
  · have : l.leafShiftCache = buildCache l.roots leafWeight (maximumOf l.roots) := by
      conv => lhs; rw [← h.built]
      unfold PruneList.rebuild; rw [if_neg h0]
    rw [this, lookup_build]

theorem Built.not_inner {l : PruneList} {p : Nat} (hp : maximumOf l.roots ≤ p + 1) :
    ¬ Inner l.roots p := by
  rintro ⟨⟨r, hr, hin⟩, hn⟩
  have := lt_maximumOf hr
  have := hin.2
  have : p = r := by omega
  exact hn (this ▸ hr)

open Classical in
theorem Built.shift_count {l : PruneList} (h : Built l) (p : Nat) (hp : l.isCompacted p = false) :
    l.shift p = (List.range p).countP l.isCompacted := by
  have hn : ¬ Inner l.roots p := by rw [← h.isCompacted]; simp [hp]
  unfold PruneList.shift
  rw [h.lookup, ← count_inner h.anti h.bound p hn, countP_eq_card]
  congr 1
  apply Finset.filter_congr
  intro q _
  rw [h.isCompacted]

open Classical in
theorem Built.leafShift_count {l : PruneList} (h : Built l) (n : Nat)
    (hp : l.isCompacted (leafPos n) = false) :
    l.leafShift (leafPos n) = (List.range n).countP (fun m => l.isCompacted (leafPos m)) := by
  have hn : ¬ Inner l.roots (leafPos n) := by rw [← h.isCompacted]; simp [hp]
  unfold PruneList.leafShift
  rw [h.lookupLeaf, ← count_inner_leaves h.anti h.bound n hn, countP_eq_card]
  congr 1
  apply Finset.filter_congr
  intro q _
  rw [h.isCompacted]

theorem sumBelow_ge_max {roots : Finset Nat} {w : Nat → Nat} {q : Nat} (h : maximumOf roots ≤ q) :
    sumBelow roots w q = sumBelow roots w (maximumOf roots) := by
  unfold sumBelow; rw [filter_lt_max h]

theorem Built.compacted_ge {l : PruneList} (h : Built l) {p : Nat} (hp : maximumOf l.roots ≤ p + 1) :
    l.isCompacted p = false := by
  have := Built.not_inner (l := l) hp
  rw [← h.isCompacted] at this
  simpa using this

/-- Beyond the last root nothing is compacted, and the count stays at the total. -/
theorem Built.total_count {l : PruneList} (h : Built l) {q : Nat} (hq : maximumOf l.roots ≤ q) :
    (List.range q).countP l.isCompacted = l.totalShift ∧
    lookupShift l.roots l.shiftCache q = l.totalShift := by
  have h1 := h.shift_count q (h.compacted_ge (by omega))
  have h2 : l.shift q = l.totalShift := by
    unfold PruneList.totalShift PruneList.shift
    rw [h.lookup, h.lookup, sumBelow_ge_max (by omega), sumBelow_ge_max (q := maximumOf l.roots + 1) (by omega)]
  refine ⟨by rw [← h1, h2], ?_⟩
  rw [← h2]
  unfold PruneList.shift
  rw [h.lookup, h.lookup, sumBelow_ge_max hq, sumBelow_ge_max (q := q + 1) (by omega)]

theorem Built.leaf_total {l : PruneList} (h : Built l) {n : Nat} (hq : maximumOf l.roots ≤ leafPos n) :
    lookupShift l.roots l.leafShiftCache (leafPos n)
      = (List.range n).countP (fun m => l.isCompacted (leafPos m)) := by
  rw [← h.leafShift_count n (h.compacted_ge (by omega))]
  unfold PruneList.leafShift
  rw [h.lookupLeaf, h.lookupLeaf, sumBelow_ge_max hq, sumBelow_ge_max (q := leafPos n + 1) (by omega)]

/-! ## Appending and rooting through the prune list -/

theorem getHashAt_rep {l : PruneList} (h : Built l) {full : List Bytes} {p : Nat}
    (hc : l.isCompacted p = false) (hp : p < full.length) :
    getHashAt (without l.isCompacted full) p (some l.view) = getHashAt full p none := by
  unfold getHashAt PruneList.view
  simp only [hc, Bool.false_eq_true, if_false]
  rw [h.shift_count p hc]
  unfold fileAt
  rw [without_get l.isCompacted full p hp hc]

/-- Children of a node beyond all roots are not compacted. -/
theorem child_not_inner {l : PruneList} (h : Built l) {a b p : Nat} (hch : Children a b p)
    (hp : maximumOf l.roots ≤ p) : l.isCompacted a = false ∧ l.isCompacted b = false := by
  obtain ⟨e1, e2, e3, e4, e5⟩ := inSub_children hch
  have key : ∀ c, (c = a ∨ c = b) → ¬ Inner l.roots c := by
    intro c hc hin
    obtain ⟨r, hr, hin, hne⟩ := (inner_iff h.anti c).mp hin
    have hrm := lt_maximumOf hr
    have hrp : InSub r p := by
      refine ⟨?_, by omega⟩
      have := startOf_le a; have := hin.2
      rcases hc with rfl | rfl <;> omega
    rcases (e5 r).mp hrp with h1 | h1 | h1
    · rcases hc with rfl | rfl
      · exact hne (inSub_antisymm hin h1)
      · have := hin.2; have := h1.2; omega
    · rcases hc with rfl | rfl
      · have h3 := h1.start_le; have := hin.1; omega
      · exact hne (inSub_antisymm hin h1)
    · omega
  constructor
  · have := key a (Or.inl rfl); rw [← h.isCompacted] at this; simpa using this
  · have := key b (Or.inr rfl); rw [← h.isCompacted] at this; simpa using this

theorem index_children {p : Nat} (hp : p < 2 ^ 64) (h : (Index.at p).isLeaf = false) :
    Children (Index.at p).leftChild.pos (Index.at p).rightChild.pos p := by
  have hne : ht p ≠ 0 := by
    intro h0
    simp [Index.at, Index.isLeaf, calcHeight_eq hp, h0] at h
  obtain ⟨k, hk⟩ : ∃ k, ht p = k + 1 := ⟨ht p - 1, by omega⟩
  obtain ⟨s, hs, e⟩ := isNode_ht p
  rw [hk] at hs e
  have h1 := Nat.pow_succ 2 (k + 1)
  have hpos := two_pow_pos' (k + 1)
  have hcalc : calcHeight p = k + 1 := by rw [calcHeight_eq hp, hk]
  have e' := e
  simp only [rootPos] at e'
  refine ⟨s, k, hs, e, ?_, ?_⟩
  · simp only [Index.at, Index.leftChild, hcalc, Nat.shiftLeft_eq, Nat.one_mul, rootPos]; omega
  · simp only [Index.at, Index.rightChild, rootPos]; omega

theorem addParents_rep {H : Bytes → Bytes} {l : PruneList} (h : Built l) (fuel : Nat) :
    ∀ (full full' : List Bytes), maximumOf l.roots ≤ full.length → full'.length < 2 ^ 64 →
      addParents H none fuel full full.length = .ok full' →
      addParents H (some l.view) fuel (without l.isCompacted full) full.length
        = .ok (without l.isCompacted full') ∧ full.length ≤ full'.length := by
  induction fuel with
  | zero => intro full full' _ _ he; simp [addParents] at he
  | succ fuel ih =>
    intro full full' hm hb he
    rw [addParents] at he ⊢
    by_cases hl : (Index.at full.length).isLeaf
    · rw [if_pos hl] at he ⊢
      simp only [Res.ok.injEq] at he
      subst he
      exact ⟨rfl, Nat.le_refl _⟩
    · have hlb : full.length < 2 ^ 64 := by
        rw [if_neg hl] at he
        -- the result extends the file
        have : ∀ (f : Nat) (a b : List Bytes) (p : Nat), addParents H none f a p = .ok b →
            a.length ≤ b.length := by
          intro f
          induction f with
          | zero => intro a b p hh; simp [addParents] at hh
          | succ f ihf =>
            intro a b p hh
            rw [addParents] at hh
            split at hh
            · simp only [Res.ok.injEq] at hh; subst hh; omega
            · obtain ⟨x, _, hh⟩ := Res.bind_eq_ok.mp hh
              obtain ⟨y, _, hh⟩ := Res.bind_eq_ok.mp hh
              have := ihf _ _ _ hh
              simp at this; omega
        obtain ⟨x, _, hh⟩ := Res.bind_eq_ok.mp he
        obtain ⟨y, _, hh⟩ := Res.bind_eq_ok.mp hh
        have := this _ _ _ _ hh
        simp at this; omega
      have hch := index_children hlb (by simpa using hl)
      obtain ⟨c1, c2⟩ := child_not_inner h hch hm
      obtain ⟨_, _, e3, e4, _⟩ := inSub_children hch
      rw [if_neg hl] at he ⊢
      rw [getHashAt_rep h c1 (by omega), getHashAt_rep h c2 (by omega)]
      obtain ⟨x, hx, hh⟩ := Res.bind_eq_ok.mp he
      obtain ⟨y, hy, hh⟩ := Res.bind_eq_ok.mp hh
      rw [hx, hy, Res.ok_bind, Res.ok_bind]
      have hlen : (full ++ [hashParent H x y full.length]).length = full.length + 1 := by simp
      rw [← hlen] at hh
      have := ih _ full' (by omega) hb hh
      rw [hlen] at this
      rw [without_append _ _ _ (fun p hp => h.compacted_ge (by omega))] at this
      exact ⟨this.1, by omega⟩

theorem addHashes_rep {H : Bytes → Bytes} {l : PruneList} (h : Built l) (full full' : List Bytes)
    (x : Bytes) (hm : maximumOf l.roots ≤ full.length) (hb : full'.length < 2 ^ 64)
    (he : addHashes H none full x = .ok full') :
    addHashes H (some l.view) (without l.isCompacted full) x = .ok (without l.isCompacted full') := by
  have hw := without_length l.isCompacted full
  rw [(h.total_count hm).1] at hw
  have hpos : (without l.isCompacted full).length + l.view.total = full.length := hw
  unfold addHashes at he ⊢
  simp only [Nat.add_zero, hpos] at he ⊢
  have hlen : (full ++ [hashLeaf H x full.length]).length = full.length + 1 := by simp
  rw [← hlen] at he
  have := (addParents_rep h _ _ _ (by omega) hb he).1
  rw [hlen, without_append _ _ _ (fun p hp => h.compacted_ge (by omega))] at this
  exact this

theorem rootLoop_rep {H : Bytes → Bytes} {l : PruneList} (h : Built l) (full : List Bytes) (size : Nat) :
    ∀ (ps : List Nat) (a : Bytes), (∀ p ∈ ps, p < full.length ∧ l.isCompacted p = false) →
      rootLoop H (some l.view) (without l.isCompacted full) size ps a = rootLoop H none full size ps a := by
  intro ps
  induction ps with
  | nil => intro a _; rfl
  | cons p ps ih =>
    intro a hp
    obtain ⟨h1, h2⟩ := hp p (by simp)
    have := getHashAt_rep h h2 h1
    unfold getHashAt PruneList.view at this
    simp only [h2, Bool.false_eq_true, if_false] at this
    simp only [rootLoop, shiftedIndex, PruneList.view, this]
    cases fileAt full p with
    | ok x => simp only [Res.ok_bind]; exact ih _ (fun q hq => hp q (by simp [hq]))
    | throw => rfl
    | ub => rfl

theorem root_rep {H : Bytes → Bytes} {l : PruneList} (h : Built l) (full : List Bytes) (size : Nat)
    (hp : ∀ p ∈ peakIndices size, p < full.length ∧ l.isCompacted p = false) :
    root H (some l.view) (without l.isCompacted full) size = root H none full size := by
  unfold root
  split
  · rfl
  · exact rootLoop_rep h full size _ _ (fun p hp' => hp p (by simpa using hp'))

end Verif.MMR
