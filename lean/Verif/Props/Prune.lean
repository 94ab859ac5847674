import Verif.MMR.PruneableLemmas
import Verif.MMR.PruneHistory
import Verif.Props.MMRIndex
import Verif.Props.MMR

/-!
# C22: the prune list and the pruned Merkle mountain range
-/
namespace Verif.Props

open Verif Verif.MMR

/-- Spec: position `p` lies in the perfect subtree whose root is at `r`. -/
def Below (p r : Nat) : Prop := ∃ s h, Subtree s h ∧ r = rootPos s h ∧ s ≤ p ∧ p ≤ r

theorem below_iff (p r : Nat) : Below p r ↔ InSub p r := by
  constructor
  · rintro ⟨s, h, hs, rfl, h1, h2⟩
    exact ⟨by rw [startOf_rootPos hs]; exact h1, h2⟩
  · intro h
    obtain ⟨hs, e⟩ := subtree_startOf r
    exact ⟨_, _, hs, e, h.1, h.2⟩

/-- One step in the life of a prune list: adding a leaf, or writing the list to disk, which rebuilds
the caches. -/
inductive PruneOp
  | add (leaf : Nat)
  | flush
deriving DecidableEq

/-- A history of the prune list. -/
def pruneRun : List PruneOp → PruneList → Res PruneList
  | [], l => .ok l
  | .add n :: ops, l => do
    let l' ← l.add (Index.at (leafPos n))
    pruneRun ops l'
  | .flush :: ops, l => pruneRun ops l.rebuild

structure PInv (S : Nat → Prop) (l : PruneList) : Prop where
  canon : Canon l.roots
  cache : ∀ c, c ∈ l.cache ↔ Pruned l.roots c
  leaves : ∀ n, PrunedLeaf l.roots n ↔ S n

theorem PInv.max_le {S : Nat → Prop} {l : PruneList} (h : PInv S l) {N : Nat} (hS : ∀ n, S n → n < N) :
    maximumOf l.roots ≤ leafPos N := root_bound (fun n hn => hS n ((h.leaves n).mp hn))

theorem PInv.add {S : Nat → Prop} {l : PruneList} (h : PInv S l) {N : Nat} (hS : ∀ n, S n → n < N)
    (hN : leafPos N ≤ 2 ^ 60) (n : Nat) (hn : n < N) :
    ∃ l', l.add (Index.at (leafPos n)) = .ok l' ∧ PInv (fun m => S m ∨ m = n) l' := by
  have hmax := h.max_le hS
  have hcard := card_le_max l.roots
  have hlt := leafPos_strictMono hn
  have hleaf : ∀ c, InSub c (leafPos n) ↔ c = leafPos n := by
    intro c
    have : startOf (leafPos n) = leafPos n := by simp [startOf, ht_leafPos]
    unfold InSub
    rw [this]; omega
  have hleaf' : ∀ m, InSub (leafPos m) (leafPos n) ↔ m = n := by
    intro m; rw [hleaf]
    exact ⟨leafPos_inj, fun e => by rw [e]⟩
  by_cases hp : Pruned l.roots (leafPos n)
  · obtain ⟨r, hr, hin⟩ := hp
    have hrm := lt_maximumOf hr
    refine ⟨l, ?_, ⟨h.canon, h.cache, ?_⟩⟩
    · unfold PruneList.add
      rw [addLoop_noop _ _ _ _ r (by omega) h.canon h.cache hr hin (by omega)]
      rfl
    · intro m
      rw [h.leaves m]
      constructor
      · exact Or.inl
      · rintro (hm | rfl)
        · exact hm
        · exact (h.leaves m).mp ⟨r, hr, hin⟩
  · have hdisj : ∀ r ∈ l.roots, ¬ InSub (leafPos n) r ∧ ¬ InSub r (leafPos n) := by
      intro r hr
      refine ⟨fun hin => hp ⟨r, hr, hin⟩, fun hin => ?_⟩
      rw [hleaf] at hin
      exact hp ⟨r, hr, by rw [hin]; exact inSub_self _⟩
    obtain ⟨roots', cache', h1, h2, h3, h4, h5⟩ := addLoop_spec
      (maximumOf l.roots + l.roots.card + 1) l.roots l.cache (leafPos n) (by omega) h.canon hdisj
      (fun c hc => Or.inl ((h.cache c).mp hc)) (by omega)
    have h6 := addLoop_cache _ l.roots l.cache (leafPos n) roots' cache' (by omega) h.canon hdisj
      (fun c hc => Or.inl ((h.cache c).mp hc)) (fun c hc => (h.cache c).mpr hc)
      (fun c hc hne => absurd ((hleaf c).mp hc) hne) h1
    refine ⟨{ l with roots := roots', cache := cache' }, ?_, ⟨h2, fun c => ⟨h3 c, h6 c⟩, ?_⟩⟩
    · unfold PruneList.add; rw [h1]; rfl
    · intro m
      show PrunedLeaf roots' m ↔ _
      rw [h4 m, h.leaves m, hleaf' m]

theorem PInv.flush {S : Nat → Prop} {l : PruneList} (h : PInv S l) {N : Nat} (hS : ∀ n, S n → n < N)
    (hN : leafPos N ≤ 2 ^ 60) : PInv S l.rebuild ∧ Built l.rebuild := by
  have hmax := h.max_le hS
  have hroots : l.rebuild.roots = l.roots := by unfold PruneList.rebuild; split <;> rfl
  have hcache : ∀ c, c ∈ l.rebuild.cache ↔ Pruned l.roots c := by
    intro c
    unfold PruneList.rebuild
    split
    · exact h.cache c
    · exact mem_buildPruned (by omega) c
  refine ⟨⟨by rw [hroots]; exact h.canon, by rw [hroots]; exact hcache, by rw [hroots]; exact h.leaves⟩,
    ⟨by rw [hroots]; exact h.canon.anti, by rw [hroots]; omega, ?_, ?_⟩⟩
  · by_cases h0 : l.roots = ∅
    · simp only [PruneList.rebuild, h0, if_true]
    · simp only [PruneList.rebuild, h0, if_false]
  · intro h0
    rw [hroots] at h0
    ext c
    rw [hcache]
    simp [Pruned, h0]

theorem PInv.run {N : Nat} (hN : leafPos N ≤ 2 ^ 60) : ∀ (ops : List PruneOp) {S : Nat → Prop}
    {l : PruneList}, PInv S l → (∀ n, S n → n < N) → (∀ n, PruneOp.add n ∈ ops → n < N) →
    ∃ l', pruneRun ops l = .ok l' ∧ PInv (fun n => S n ∨ PruneOp.add n ∈ ops) l' := by
  intro ops
  induction ops with
  | nil => intro S l h _ _; exact ⟨l, rfl, by simpa using h⟩
  | cons op ops ih =>
    intro S l h hS hops
    cases op with
    | add n =>
      obtain ⟨l1, e1, h1⟩ := h.add hS hN n (hops n (by simp))
      obtain ⟨l2, e2, h2⟩ := ih h1 (by rintro m (hm | rfl)
                                       · exact hS m hm
                                       · exact hops _ (by simp)) (fun m hm => hops m (by simp [hm]))
      refine ⟨l2, by simp only [pruneRun, e1, Res.ok_bind, e2], ?_⟩
      refine ⟨h2.canon, h2.cache, fun m => ?_⟩
      rw [h2.leaves]
      simp only [List.mem_cons, PruneOp.add.injEq]
      exact or_assoc
    | flush =>
      obtain ⟨h1, _⟩ := h.flush hS hN
      obtain ⟨l2, e2, h2⟩ := ih h1 hS (fun m hm => hops m (by simp [hm]))
      refine ⟨l2, e2, ?_⟩
      simpa using h2

theorem pinv_empty : PInv (fun _ => False) PruneList.empty := by
  refine ⟨⟨?_, ?_⟩, ?_, ?_⟩
  · intro r hr; simp [PruneList.empty] at hr
  · intro l r p _ h; simp [PruneList.empty] at h
  · intro c; simp [PruneList.empty, Pruned]
  · intro n; simp [PruneList.empty, PrunedLeaf, Pruned]

/-- **C22.** After any history of pruning leaves and flushing, in any order and with repetitions, the
prune list holds the roots of disjoint subtrees, no two of which could be merged into their parent;
together they cover exactly the pruned leaves; and `IsPruned` holds for exactly the positions inside
these subtrees. -/
theorem prune_history (ops : List PruneOp) (N : Nat) (hN : leafPos N ≤ 2 ^ 60)
    (hops : ∀ n, PruneOp.add n ∈ ops → n < N) :
    ∃ l, pruneRun ops PruneList.empty = .ok l ∧
      (∀ r ∈ l.roots, ∀ r' ∈ l.roots, Below r r' → r = r') ∧
      (∀ a b p, Children a b p → ¬ (a ∈ l.roots ∧ b ∈ l.roots)) ∧
      (∀ n, (∃ r ∈ l.roots, Below (leafPos n) r) ↔ PruneOp.add n ∈ ops) ∧
      (∀ p, l.isPruned p = true ↔ ∃ r ∈ l.roots, Below p r) ∧
      (∀ p, l.isPrunedRoot p = true ↔ p ∈ l.roots) := by
  obtain ⟨l, e, h⟩ := PInv.run hN ops pinv_empty (by simp) hops
  refine ⟨l, e, ?_, h.canon.nosib, ?_, ?_, ?_⟩
  · intro r hr r' hr' hb; exact h.canon.anti r hr r' hr' ((below_iff r r').mp hb)
  · intro n
    have := h.leaves n
    simp only [false_or] at this
    simp only [below_iff]
    exact this
  · intro p
    simp only [below_iff]
    unfold PruneList.isPruned
    rw [decide_eq_true_iff]
    exact h.cache p
  · intro p; simp [PruneList.isPrunedRoot]

/-- **C22.** After any such history that ends with a flush, a position is compacted exactly if it lies
strictly inside a pruned subtree; the shift of a position that is not compacted is the number of
compacted positions before it, the leaf shift of a leaf the number of compacted leaves before it, and
the total shift the number of all compacted positions. -/
theorem prune_shift (ops : List PruneOp) (N : Nat) (hN : leafPos N ≤ 2 ^ 60)
    (hops : ∀ n, PruneOp.add n ∈ ops → n < N) :
    ∃ l, pruneRun (ops ++ [.flush]) PruneList.empty = .ok l ∧
      (∀ p, l.isCompacted p = true ↔ ∃ r ∈ l.roots, Below p r ∧ p ≠ r) ∧
      (∀ p, l.isCompacted p = false → l.shift p = (List.range p).countP l.isCompacted) ∧
      (∀ n, l.isCompacted (leafPos n) = false →
        l.leafShift (leafPos n) = (List.range n).countP (fun m => l.isCompacted (leafPos m))) ∧
      (∀ q, leafPos N ≤ q → l.totalShift = (List.range q).countP l.isCompacted) := by
  obtain ⟨l, e, h⟩ := PInv.run hN ops pinv_empty (by simp) hops
  have hS : ∀ n, (False ∨ PruneOp.add n ∈ ops) → n < N := by
    rintro n (h | h)
    · exact h.elim
    · exact hops n h
  obtain ⟨h1, hb⟩ := h.flush hS hN
  have happ : ∀ (xs : List PruneOp) (l0 : PruneList), pruneRun (xs ++ [.flush]) l0
      = (pruneRun xs l0 >>= fun l => .ok l.rebuild) := by
    intro xs
    induction xs with
    | nil => intro l0; rfl
    | cons x xs ih =>
      intro l0
      cases x with
      | add n =>
        simp only [List.cons_append, pruneRun]
        cases l0.add (Index.at (leafPos n)) with
        | ok y => simp only [Res.ok_bind]; exact ih y
        | throw => rfl
        | ub => rfl
      | flush => simp only [List.cons_append, pruneRun]; exact ih _
  refine ⟨l.rebuild, by rw [happ, e, Res.ok_bind], ?_, hb.shift_count, hb.leafShift_count, ?_⟩
  · intro p
    rw [hb.isCompacted, inner_iff hb.anti]
    simp only [below_iff]
  · intro q hq
    exact (hb.total_count (Nat.le_trans (h1.max_le hS) hq)).1.symm

/-! ## The pruned range behaves as the full one -/

theorem tiles_le {ps : List Nat} {s e H : Nat} (h : Tiles ps s e H) : e ≤ s + (2 ^ (H + 1) - 2) := by
  induction h with
  | nil e H => omega
  | @cons ps s e H h hh hs ht ih =>
    have h1 : 2 ^ (h + 1) ≤ 2 ^ H := Nat.pow_le_pow_right (by omega) hh
    have h2 := Nat.pow_succ 2 H
    have := two_pow_pos' (h + 1)
    simp only [rootPos] at ih
    omega

theorem tiles_start {ps : List Nat} {s e H : Nat} (h : Tiles ps s e H) (hlt : s < e) : ht s = 0 := by
  cases h with
  | nil => omega
  | cons a b c => exact ht_start b

theorem tiles_start_le {ps : List Nat} {s e H : Nat} (h : Tiles ps s e H) : s ≤ e := by
  induction h with
  | nil => omega
  | @cons ps s e H h hh hs ht ih => simp only [rootPos] at ih; omega

theorem tiles_maximal {ps : List Nat} {s e H : Nat} (h : Tiles ps s e H) :
    ∀ p ∈ ps, p < e ∧ ∀ r, InSub p r → r < e → r < 2 ^ 62 → r = p := by
  induction h with
  | nil => intro p hp; simp at hp
  | @cons ps s e H h hh hs htl ih =>
    intro p hp
    rcases List.mem_cons.mp hp with rfl | hp
    · have hle := tiles_start_le htl
      refine ⟨by omega, ?_⟩
      intro r hin hr hr62
      by_contra hne
      have hp62 : rootPos s h < 2 ^ 62 := by have := hin.2; omega
      have hpar := (hin.parent hp62 (fun e => hne e.symm)).2
      rcases parent_children hp62 with hc | hc
      · obtain ⟨s', k, hs', e1, e2, e3⟩ := hc
        obtain ⟨rfl, rfl⟩ := rootPos_inj hs hs'.left e2
        have h2 := Nat.pow_succ 2 (h + 1)
        have := two_pow_pos' (h + 1)
        have := tiles_le htl
        rw [e1] at hpar
        simp only [rootPos] at *
        omega
      · obtain ⟨s', k, hs', e1, e2, e3⟩ := hc
        have e4 := (inSub_children (⟨s', k, hs', e1, e2, e3⟩ : Children _ _ _)).2.2.1
        have h0 := tiles_start htl (by omega)
        rw [← e4, e1, ht_rootPos hs'] at h0
        omega
    · exact ih p hp

/-- Spec: the pruned range `m` stores the leaves `ls`, of which `U` are unspent: its files are those
of the full range with the compacted entries left out. -/
structure Stores (H : Bytes → Bytes) (m : PMMR) (ls : List Bytes) (U : Finset Nat) : Prop where
  hashes : ∃ full, appendAll H [] ls = .ok full ∧ m.hashes = without m.pl.isCompacted full
  data : m.data = without (fun n => m.pl.isCompacted (leafPos n)) ls
  unspent : m.leafSet = U
  inRange : ∀ n ∈ U, n < ls.length
  kept : ∀ n ∈ U, m.pl.isCompacted (leafPos n) = false
  built : Built m.pl
  horizon : maximumOf m.pl.roots ≤ leafPos ls.length

theorem leafPos_mono {a b : Nat} (h : a ≤ b) : leafPos a ≤ leafPos b := by
  rcases Nat.eq_or_lt_of_le h with e | e
  · rw [e]
  · exact Nat.le_of_lt (leafPos_strictMono e)

theorem Stores.size {H : Bytes → Bytes} {m : PMMR} {ls : List Bytes} {U : Finset Nat}
    (h : Stores H m ls U) (hb : leafPos ls.length < 2 ^ 64) : m.size = leafPos ls.length := by
  obtain ⟨full, e, hh⟩ := h.hashes
  obtain ⟨f2, k1, k2, _⟩ := append_stores_hashes H ls hb
  rw [e] at k1; injection k1 with k1; subst k1
  rw [rangeSize_eq] at k2
  have := without_length m.pl.isCompacted full
  rw [(h.built.total_count (by rw [k2]; exact h.horizon)).1] at this
  unfold PMMR.size
  rw [hh]; omega

/-- **C22.** Appending to a pruned range gives the pruned form of the longer range, with the new leaf
unspent. -/
theorem pruned_append (H : Bytes → Bytes) (m : PMMR) (ls : List Bytes) (U : Finset Nat) (x : Bytes)
    (h : Stores H m ls U) (hb : leafPos (ls.length + 1) < 2 ^ 64) :
    ∃ m', m.append H x = .ok m' ∧ Stores H m' (ls ++ [x]) (insert ls.length U) ∧ m'.pl = m.pl := by
  obtain ⟨full, e, hh⟩ := h.hashes
  have hlt : leafPos ls.length < leafPos (ls.length + 1) := leafPos_strictMono (by omega)
  obtain ⟨f2, k1, k2, _⟩ := append_stores_hashes H ls (by omega)
  rw [e] at k1; injection k1 with k1; subst k1
  rw [rangeSize_eq] at k2
  obtain ⟨f, ext, a1, a2, a3⟩ := append_is_extension H ls [x] (by simpa using hb)
  rw [e] at a1; injection a1 with a1; subst a1
  obtain ⟨f3, b1, b2, _⟩ := append_stores_hashes H (ls ++ [x]) (by simpa using hb)
  rw [a3] at b1; injection b1 with b1
  rw [rangeSize_eq, ← b1] at b2
  have hadd : addHashes H none full x = .ok (full ++ ext) := by
    simp only [appendAll] at a2
    cases hc : addHashes H none full x with
    | ok y => rw [hc] at a2; simpa using a2
    | throw => rw [hc] at a2; simp at a2
    | ub => rw [hc] at a2; simp at a2
  have hrep := addHashes_rep h.built full (full ++ ext) x (by rw [k2]; exact h.horizon)
    (by rw [b2]; simpa using hb) hadd
  have hsz : m.hashes.length + m.pl.totalShift = leafPos ls.length := by
    have := h.size (by omega)
    unfold PMMR.size at this; omega
  have hidx : leafIndexAt (leafPos ls.length) = ls.length := leafIndex_roundtrip _ (by omega)
  have hnc : m.pl.isCompacted (leafPos ls.length) = false :=
    h.built.compacted_ge (by have := h.horizon; omega)
  refine ⟨{ m with
    hashes := without m.pl.isCompacted (full ++ ext)
    data := m.data ++ [x]
    leafSet := insert ls.length m.leafSet }, ?_, ?_, rfl⟩
  · unfold PMMR.append
    rw [hsz, hidx, hh, hrep]; rfl
  refine ⟨⟨full ++ ext, a3, rfl⟩, ?_, by simp [h.unspent], ?_, ?_, h.built, ?_⟩
  · show m.data ++ [x] = without (fun n => m.pl.isCompacted (leafPos n)) (ls ++ [x])
    rw [without_snoc, hnc, h.data]; rfl
  · intro n hn
    rcases Finset.mem_insert.mp hn with rfl | hn
    · simp
    · have := h.inRange n hn; simp; omega
  · intro n hn
    rcases Finset.mem_insert.mp hn with rfl | hn
    · exact hnc
    · exact h.kept n hn
  · show maximumOf m.pl.roots ≤ _
    have := h.horizon
    simp only [List.length_append, List.length_singleton]
    omega

/-- **C22.** Spending an unspent leaf removes it from the unspent set and changes nothing else;
spending any other leaf is refused. -/
theorem pruned_remove (H : Bytes → Bytes) (m : PMMR) (ls : List Bytes) (U : Finset Nat) (n : Nat)
    (h : Stores H m ls U) :
    (n ∈ U → ∃ m', m.remove n = .ok m' ∧ Stores H m' ls (U.erase n)) ∧
    (n ∉ U → m.remove n = .throw) := by
  unfold PMMR.remove
  rw [h.unspent]
  constructor
  · intro hn
    rw [if_pos hn]
    exact ⟨_, rfl, ⟨h.hashes, h.data, rfl, fun k hk => h.inRange k (Finset.mem_of_mem_erase hk),
      fun k hk => h.kept k (Finset.mem_of_mem_erase hk), h.built, h.horizon⟩⟩
  · intro hn; rw [if_neg hn]

/-- **C22.** Rewinding a pruned range to `n` leaves, not below its pruned part, restoring leaves that
were not compacted, gives the pruned form of the range of the first `n` leaves. -/
theorem pruned_rewind (H : Bytes → Bytes) (m : PMMR) (ls : List Bytes) (U : Finset Nat) (n : Nat)
    (restore : List Nat) (h : Stores H m ls U) (hb : leafPos ls.length < 2 ^ 64) (hn : n ≤ ls.length)
    (hz : maximumOf m.pl.roots ≤ leafPos n)
    (hr : ∀ k ∈ restore, m.pl.isCompacted (leafPos k) = false) :
    ∃ m', m.rewind n restore = .ok m' ∧
      Stores H m' (ls.take n) ((U ∪ restore.toFinset).filter (· < n)) := by
  obtain ⟨full, e, hh⟩ := h.hashes
  have hsplit : ls = ls.take n ++ ls.drop n := (List.take_append_drop n ls).symm
  have hlen : (ls.take n).length = n := by simp; omega
  obtain ⟨f, ext, a1, a2, a3⟩ := append_is_extension H (ls.take n) (ls.drop n)
    (by rw [← List.length_append, ← hsplit]; exact hb)
  rw [← hsplit, e] at a3; injection a3 with a3
  have hbn : leafPos n < 2 ^ 64 := by have := leafPos_mono hn; omega
  obtain ⟨f2, k1, k2, _⟩ := append_stores_hashes H (ls.take n) (by rw [hlen]; exact hbn)
  rw [a1] at k1; injection k1 with k1; subst k1
  rw [rangeSize_eq, hlen] at k2
  have hw : m.hashes = without m.pl.isCompacted f ++ ext := by
    rw [hh, a3, without_append _ _ _ (fun p hp => h.built.compacted_ge (by omega))]
  have hwl := without_length m.pl.isCompacted f
  rw [(h.built.total_count (by rw [k2]; exact hz)).1, k2] at hwl
  have hd : m.data = without (fun k => m.pl.isCompacted (leafPos k)) (ls.take n) ++ ls.drop n := by
    rw [h.data]
    conv => lhs; rw [hsplit]
    rw [without_append]
    intro k hk
    rw [hlen] at hk
    exact h.built.compacted_ge (by have := leafPos_mono hk; omega)
  have hdl := without_length (fun k => m.pl.isCompacted (leafPos k)) (ls.take n)
  rw [hlen] at hdl
  unfold PMMR.rewind
  rw [(h.built.total_count hz).2, h.built.leaf_total hz, hw, hd]
  unfold fileRewind
  rw [if_neg (by rw [List.length_append]; omega), if_neg (by rw [List.length_append]; omega)]
  simp only [Res.ok_bind, Res.pure_eq]
  refine ⟨_, rfl, ⟨⟨f, a1, ?_⟩, ?_, by simp only [h.unspent], ?_, ?_, h.built, by rw [hlen]; exact hz⟩⟩
  · show List.take _ (_ ++ ext) = _
    rw [show leafPos n - m.pl.totalShift = (without m.pl.isCompacted f).length by omega,
      List.take_left]
  · show List.take _ (_ ++ ls.drop n) = _
    rw [show n - (List.range n).countP (fun m_1 => m.pl.isCompacted (leafPos m_1))
      = (without (fun k => m.pl.isCompacted (leafPos k)) (ls.take n)).length by omega, List.take_left]
  · intro k hk; rw [hlen]; exact (Finset.mem_filter.mp hk).2
  · intro k hk
    rcases Finset.mem_union.mp (Finset.mem_filter.mp hk).1 with h1 | h1
    · exact h.kept k h1
    · exact hr k (by simpa using h1)

/-- **C22, C20.** The root of a pruned range at its current size, or at any earlier size not below its
pruned part, is the root of the full range. -/
theorem pruned_root (H : Bytes → Bytes) (m : PMMR) (ls : List Bytes) (U : Finset Nat) (n : Nat)
    (h : Stores H m ls U) (hb : leafPos ls.length < 2 ^ 62) (hn : n ≤ ls.length)
    (hz : maximumOf m.pl.roots ≤ leafPos n)
    (hnz : ∀ x ∈ rangeInputs H (leafOf ls) n, H x ≠ zeroHash) :
    m.root H (leafPos n) = .ok (rangeRoot H (leafOf ls) n) := by
  obtain ⟨full, e, hh⟩ := h.hashes
  have hle := leafPos_mono hn
  obtain ⟨f2, k1, k2, k3, _⟩ := append_stores_hashes H ls (by omega)
  rw [e] at k1; injection k1 with k1; subst k1
  rw [rangeSize_eq] at k2
  obtain ⟨Ht, ht⟩ := peaks_tile n (by omega)
  unfold PMMR.root
  rw [hh, root_rep h.built]
  · apply root_good (leaf := leafOf ls) _ (by omega) (by omega) hnz
    intro s a hgt hs hlt
    exact k3 s a hgt hs (hs.range (by rw [← k2]; exact hlt))
  · intro p hp
    obtain ⟨h1, h2⟩ := tiles_maximal ht p hp
    refine ⟨by omega, ?_⟩
    have : ¬ Inner m.pl.roots p := by
      intro hin
      obtain ⟨r, hr, hir, hne⟩ := (inner_iff h.built.anti p).mp hin
      have := lt_maximumOf hr
      exact hne (h2 r hir (by omega) (by omega)).symm
    rw [← h.built.isCompacted] at this
    simpa using this

/-- **C22.** Reading a leaf gives its data exactly if it is unspent; reading a hash gives the hash of
the full range at that position unless the position is compacted. -/
theorem pruned_get (H : Bytes → Bytes) (m : PMMR) (ls : List Bytes) (U : Finset Nat)
    (h : Stores H m ls U) (hb : leafPos ls.length < 2 ^ 64) :
    (∀ n, m.getAt n = .ok (if n ∈ U then ls[n]? else none)) ∧
    (∃ full, appendAll H [] ls = .ok full ∧ ∀ p, p < full.length →
      m.hashAt p = .ok (if m.pl.isCompacted p then none else full[p]?)) := by
  have hsz := h.size hb
  constructor
  · intro n
    unfold PMMR.getAt PMMR.isUnpruned
    rw [hsz, h.unspent]
    by_cases hn : n ∈ U
    · have hr := h.inRange n hn
      have hk := h.kept n hn
      have hlt := leafPos_strictMono hr
      rw [if_pos (by simp [hn, hlt]), if_pos hn, h.built.leafShift_count n hk, h.data]
      unfold fileAt
      rw [without_get (fun k => m.pl.isCompacted (leafPos k)) ls n hr hk, List.getElem?_eq_getElem hr]
      rfl
    · rw [if_neg (by simp [hn]), if_neg hn]
  · obtain ⟨full, e, hh⟩ := h.hashes
    refine ⟨full, e, ?_⟩
    intro p hp
    unfold PMMR.hashAt
    cases hc : m.pl.isCompacted p with
    | true => simp
    | false =>
      simp only [Bool.false_eq_true, if_false]
      rw [hh, getHashAt_rep h.built hc hp]
      unfold getHashAt fileAt
      simp only [List.getElem?_eq_getElem hp]
      rfl

/-! ## The hypotheses are met by concrete cases -/

/-- An empty range with an empty prune list stores no leaves. -/
theorem stores_empty (H : Bytes → Bytes) : Stores H ⟨[], [], ∅, PruneList.empty⟩ [] ∅ := by
  refine ⟨⟨[], rfl, rfl⟩, rfl, rfl, by simp, by simp, ⟨?_, ?_, ?_, ?_⟩, ?_⟩
  · intro r hr; simp [PruneList.empty] at hr
  · simp [PruneList.empty, maximumOf]
  · simp [PruneList.rebuild, PruneList.empty]
  · simp [PruneList.empty]
  · simp [PruneList.empty, maximumOf]

/-- The pruned form of any range for any flushed prune list that stays within it. -/
theorem stores_compacted (H : Bytes → Bytes) (ls : List Bytes) (l : PruneList) (hb : Built l)
    (hm : maximumOf l.roots ≤ leafPos ls.length) (hl : leafPos ls.length < 2 ^ 64) (U : Finset Nat)
    (hU : ∀ n ∈ U, n < ls.length ∧ l.isCompacted (leafPos n) = false) :
    ∃ m, m.pl = l ∧ Stores H m ls U := by
  obtain ⟨f, e, _⟩ := append_stores_hashes H ls hl
  exact ⟨⟨without l.isCompacted f, without (fun n => l.isCompacted (leafPos n)) ls, U, l⟩, rfl,
    ⟨f, e, rfl⟩, rfl, rfl, fun n hn => (hU n hn).1, fun n hn => (hU n hn).2, hb, hm⟩

/-- Pruning leaves 0, 1, 3, 2 leaves the one root 6 with shift 6 and leaf shift 4 beyond it; pruning
only 0, 1 and 3 leaves the roots 2 and 4. -/
example :
    (match pruneRun [.add 0, .add 1, .add 3, .add 2, .flush] PruneList.empty with
      | .ok l => decide (l.roots = {6} ∧ l.shift 7 = 6 ∧ l.leafShift 7 = 4 ∧ l.shiftCache = [6])
      | _ => false) = true ∧
    (match pruneRun [.add 0, .add 1, .add 3, .flush] PruneList.empty with
      | .ok l => decide (l.roots = {2, 4} ∧ l.shift 3 = 2 ∧ l.shift 7 = 2 ∧ l.isCompacted 0 = true)
      | _ => false) = true := by
  decide +kernel

end Verif.Props
