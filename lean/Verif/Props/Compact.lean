import Verif.Tx.Compact
import Mathlib.Data.List.Sort
import Mathlib.Data.List.Perm.Basic
import Mathlib.Data.List.Nodup

/-!
# C39: rebuilding a block from its compact form and the pool
-/
namespace Verif.Props
open Verif Verif.Tx

/-! ## Helper lemmas -/

private theorem findLoop_eq (sought : Kernel → Bool) (n : Nat) : ∀ (ps : List (Tx × Kernel))
    (found : List Tx), found.length < n →
    findLoop sought n ps found =
      found ++ ((ps.filter (fun p => sought p.2)).map (·.1)).take (n - found.length)
  | [], found, _ => by simp [findLoop]
  | (t, k) :: rest, found, hl => by
    have hlen : (found ++ [t]).length = found.length + 1 := by simp
    by_cases hs : sought k = true
    · simp only [findLoop, hs, if_true, List.filter_cons, List.map_cons]
      obtain ⟨m, hm⟩ : ∃ m, n - found.length = m + 1 := ⟨n - found.length - 1, by omega⟩
      rw [hm, List.take_succ_cons]
      by_cases he : (found ++ [t]).length = n
      · rw [if_pos he]
        have : m = 0 := by omega
        subst this
        simp
      · rw [if_neg he, findLoop_eq sought n rest _ (by omega)]
        have : n - (found ++ [t]).length = m := by omega
        rw [this]
        simp
    · simp only [Bool.not_eq_true] at hs
      simp only [findLoop, hs, List.filter_cons]
      exact findLoop_eq sought n rest found hl

section
variable {α : Type} (h : α → Nat)

private theorem mem_fold (a : α) : ∀ (l acc : List α), a ∈ l.foldl (addNew h) acc →
    a ∈ acc ∨ a ∈ l
  | [], _, ha => Or.inl ha
  | b :: l, acc, ha => by
    rcases mem_fold a l (addNew h acc b) ha with hb | hb
    · unfold addNew at hb
      split at hb
      · exact Or.inl hb
      · rcases List.mem_append.1 hb with hc | hc
        · exact Or.inl hc
        · exact Or.inr (by rw [List.mem_singleton.1 hc]; exact List.mem_cons_self)
    · exact Or.inr (List.mem_cons_of_mem _ hb)

private theorem fold_acc (a : α) : ∀ (l acc : List α), a ∈ acc → a ∈ l.foldl (addNew h) acc
  | [], _, ha => ha
  | b :: l, acc, ha => by
    refine fold_acc a l _ ?_
    unfold addNew
    split
    · exact ha
    · exact List.mem_append_left _ ha

private theorem fold_covers (a : α) : ∀ (l acc : List α), a ∈ l →
    ∃ b ∈ l.foldl (addNew h) acc, h b = h a
  | [], _, ha => by simp at ha
  | b :: l, acc, ha => by
    rcases List.mem_cons.1 ha with rfl | ha
    · by_cases hc : (acc.map h).contains (h a) = true
      · obtain ⟨b, hb, he⟩ := List.mem_map.1 (List.contains_iff_mem.1 hc)
        refine ⟨b, fold_acc h b l _ ?_, he⟩
        unfold addNew
        rw [if_pos hc]
        exact hb
      · refine ⟨a, fold_acc h a l _ ?_, rfl⟩
        unfold addNew
        rw [if_neg hc]
        simp
    · exact fold_covers a l _ ha

private theorem fold_nodup : ∀ (l acc : List α), (acc.map h).Nodup →
    ((l.foldl (addNew h) acc).map h).Nodup
  | [], _, ha => ha
  | b :: l, acc, ha => by
    refine fold_nodup l _ ?_
    unfold addNew
    split
    · exact ha
    · rename_i hc
      rw [List.map_append]
      refine List.nodup_append.2 ⟨ha, by simp, ?_⟩
      intro x hx y hy
      simp only [List.map_cons, List.map_nil, List.mem_singleton] at hy
      rintro rfl
      exact hc (List.contains_iff_mem.2 (hy ▸ hx))

private theorem mem_fold_iff {l : List α} (hinj : ∀ a ∈ l, ∀ b ∈ l, h a = h b → a = b) (a : α) :
    a ∈ l.foldl (addNew h) [] ↔ a ∈ l := by
  constructor
  · intro ha
    rcases mem_fold h a l [] ha with hb | hb
    · simp at hb
    · exact hb
  · intro ha
    obtain ⟨b, hb, he⟩ := fold_covers h a l [] ha
    have hbl : b ∈ l := by
      rcases mem_fold h b l [] hb with hc | hc
      · simp at hc
      · exact hc
    exact hinj b hbl a ha he ▸ hb

private theorem sort_strict {l : List α} (hn : (l.map h).Nodup) :
    (sortByHash h l).Pairwise (fun a b => h a < h b) := by
  have hp : (sortByHash h l).Perm l := List.mergeSort_perm l _
  have hs : (sortByHash h l).Pairwise (fun a b => decide (h a ≤ h b) = true) :=
    List.pairwise_mergeSort (fun a b c hab hbc => by simp at *; omega)
      (fun a b => by simp; omega) l
  have hn' : ((sortByHash h l).map h).Nodup := (hp.map h).nodup_iff.2 hn
  rw [List.Nodup, List.pairwise_map] at hn'
  refine (hs.and hn').imp ?_
  rintro a b ⟨hab, hne⟩
  simp only [decide_eq_true_eq] at hab
  omega

private theorem strict_nodup {l : List α} (hs : l.Pairwise (fun a b => h a < h b)) : l.Nodup :=
  hs.imp (fun hab he => by subst he; omega)

private theorem strict_ext {l₁ l₂ : List α} (h₁ : l₁.Pairwise (fun a b => h a < h b))
    (h₂ : l₂.Pairwise (fun a b => h a < h b)) (hm : ∀ a, a ∈ l₁ ↔ a ∈ l₂) : l₁ = l₂ := by
  refine List.Perm.eq_of_pairwise (le := fun a b => h a < h b) ?_ h₁ h₂
    ((List.perm_ext_iff_of_nodup (strict_nodup h h₁) (strict_nodup h h₂)).2 hm)
  intro a b _ _ hab hba
  omega

private theorem mem_sort {l : List α} {a : α} : a ∈ sortByHash h l ↔ a ∈ l :=
  (List.mergeSort_perm l _).mem_iff
end

/-! ## What hydration yields -/

/-- Pool transaction `t` has a kernel whose short id is listed in the compact block. -/
def Matched (E : Hashes) (c : CompactBlk) (t : Tx) : Prop :=
  ∃ k ∈ t.body.kernels, kernelId E c.header c.nonce k ∈ c.shortIds

private theorem mem_pairs {pool : List Tx} {t : Tx} {k : Kernel} :
    (t, k) ∈ pool.flatMap (fun t => t.body.kernels.map (fun k => (t, k))) ↔
      t ∈ pool ∧ k ∈ t.body.kernels := by
  simp only [List.mem_flatMap, List.mem_map, Prod.mk.injEq]
  constructor
  · rintro ⟨t', ht', k', hk', rfl, rfl⟩
    exact ⟨ht', hk'⟩
  · rintro ⟨ht, hk⟩
    exact ⟨t, ht, k, hk, rfl, rfl⟩

private theorem find_eq (E : Hashes) (pool : List Tx) (h : Header) (nonce : Nat) (ids : List Bytes)
    (hne : ids ≠ []) :
    findByShortId E pool h nonce ids =
      (((pool.flatMap (fun t => t.body.kernels.map (fun k => (t, k)))).filter
        (fun p => ids.contains (kernelId E h nonce p.2))).map (·.1)).take ids.dedup.length := by
  unfold findByShortId
  rw [findLoop_eq _ _ _ _ ?_]
  · simp
  · obtain ⟨a, ha⟩ := List.exists_mem_of_ne_nil _ hne
    exact List.length_pos_of_mem (List.mem_dedup.2 ha)

private theorem find_matched {E : Hashes} {pool : List Tx} {c : CompactBlk} (hne : c.shortIds ≠ [])
    {t : Tx} (ht : t ∈ findByShortId E pool c.header c.nonce c.shortIds) :
    t ∈ pool ∧ Matched E c t := by
  rw [find_eq _ _ _ _ _ hne] at ht
  obtain ⟨⟨t', k⟩, hp, rfl⟩ := List.mem_map.1 (List.mem_of_mem_take ht)
  rw [List.mem_filter, mem_pairs] at hp
  exact ⟨hp.1.1, k, hp.1.2, List.contains_iff_mem.1 hp.2⟩

/-- **C39.**  For every pool and every compact block, honest or not, a block that comes back has
the compact block's header; its inputs come from pool transactions matched by a listed short id;
its outputs and kernels come from such transactions or are listed in full in the compact block;
every fully listed kernel is in it; and its three lists are strictly sorted by hash. -/
theorem hydrate_sound (E : Hashes) (pool : List Tx) (c : CompactBlk) (b : Block)
    (hb : hydrate E pool c = some b) :
    b.header = c.header ∧
    (∀ i ∈ b.body.inputs, ∃ t ∈ pool, Matched E c t ∧ i ∈ t.body.inputs) ∧
    (∀ o ∈ b.body.outputs, o ∈ c.outputs ∨ ∃ t ∈ pool, Matched E c t ∧ o ∈ t.body.outputs) ∧
    (∀ k ∈ b.body.kernels, k ∈ c.kernels ∨ ∃ t ∈ pool, Matched E c t ∧ k ∈ t.body.kernels) ∧
    (∀ k ∈ c.kernels, ∃ k' ∈ b.body.kernels, kernelHash E.H k' = kernelHash E.H k) ∧
    (∀ i ∈ b.body.inputs, ∀ o ∈ b.body.outputs, i.commit ≠ o.commit) ∧
    b.body.inputs.Pairwise (fun x y => inputHash E.H x < inputHash E.H y) ∧
    b.body.outputs.Pairwise (fun x y => outputHash E.H x < outputHash E.H y) ∧
    b.body.kernels.Pairwise (fun x y => kernelHash E.H x < kernelHash E.H y) := by
  obtain ⟨txs, htxs, rfl⟩ : ∃ txs, (∀ t ∈ txs, t ∈ pool ∧ Matched E c t) ∧
      hydrateWith E c txs = b := by
    unfold hydrate at hb
    by_cases hne : c.shortIds = []
    · rw [if_pos hne, Option.some.injEq] at hb
      exact ⟨[], by simp, hb⟩
    · rw [if_neg hne] at hb
      dsimp only at hb
      by_cases hl : (findByShortId E pool c.header c.nonce c.shortIds).length = c.shortIds.length
      · rw [if_pos hl, Option.some.injEq] at hb
        exact ⟨_, fun t ht => find_matched hne ht, hb⟩
      · rw [if_neg hl] at hb
        exact absurd hb (by simp)
  unfold hydrateWith cutThrough
  dsimp only
  refine ⟨rfl, ?_, ?_, ?_, ?_, ?_, ?_, ?_, ?_⟩
  · intro i hi
    rw [mem_sort, List.mem_filter] at hi
    rcases mem_fold _ _ _ _ hi.1 with h | h
    · simp at h
    · obtain ⟨t, ht, hit⟩ := List.mem_flatMap.1 h
      exact ⟨t, (htxs t ht).1, (htxs t ht).2, hit⟩
  · intro o ho
    rw [mem_sort, List.mem_filter] at ho
    rcases mem_fold _ _ _ _ ho.1 with h | h
    · simp at h
    · rcases List.mem_append.1 h with h | h
      · obtain ⟨t, ht, hit⟩ := List.mem_flatMap.1 h
        exact Or.inr ⟨t, (htxs t ht).1, (htxs t ht).2, hit⟩
      · exact Or.inl h
  · intro k hk
    rw [mem_sort] at hk
    rcases mem_fold _ _ _ _ hk with h | h
    · simp at h
    · rcases List.mem_append.1 h with h | h
      · obtain ⟨t, ht, hit⟩ := List.mem_flatMap.1 h
        exact Or.inr ⟨t, (htxs t ht).1, (htxs t ht).2, hit⟩
      · exact Or.inl h
  · intro k hk
    obtain ⟨k', hk', he⟩ := fold_covers (kernelHash E.H) k
      (txs.flatMap (·.body.kernels) ++ c.kernels) [] (List.mem_append_right _ hk)
    exact ⟨k', (mem_sort _).2 hk', he⟩
  · intro i hi o ho he
    rw [mem_sort, List.mem_filter] at hi ho
    have hm := hi.2
    simp only [Bool.not_eq_true', List.contains_eq_mem, decide_eq_false_iff_not,
      List.mem_map] at hm
    exact hm ⟨o, ho.1, he.symm⟩
  · refine sort_strict _ (List.Nodup.sublist (List.Sublist.map _ List.filter_sublist) ?_)
    exact fold_nodup _ _ _ (by simp)
  · refine sort_strict _ (List.Nodup.sublist (List.Sublist.map _ List.filter_sublist) ?_)
    exact fold_nodup _ _ _ (by simp)
  · exact sort_strict _ (fold_nodup _ _ _ (by simp))

/-- How many pairs of a pool transaction and one of its kernels carry a listed short id. -/
def matchCount (E : Hashes) (pool : List Tx) (c : CompactBlk) : Nat :=
  ((pool.flatMap (·.body.kernels)).countP
    (fun k => decide (kernelId E c.header c.nonce k ∈ c.shortIds)))

private theorem pairs_count (E : Hashes) (pool : List Tx) (c : CompactBlk) :
    ((pool.flatMap (fun t => t.body.kernels.map (fun k => (t, k)))).filter
        (fun p => c.shortIds.contains (kernelId E c.header c.nonce p.2))).length =
      matchCount E pool c := by
  unfold matchCount
  rw [← List.countP_eq_length_filter]
  induction pool with
  | nil => rfl
  | cons t pool ih =>
    rw [List.flatMap_cons, List.flatMap_cons, List.countP_append, List.countP_append, ih,
      List.countP_map]
    congr 1
    apply List.countP_congr
    intro k _
    simp [List.contains_eq_mem]

/-- **C39, when a block comes back.**  With no short id listed, always.  Otherwise exactly when no
short id is listed twice and the pool has at least as many matching kernels as ids are listed:
kernels are counted, not short ids, which is what `overlapping_pool_violated` turns against it. -/
theorem hydrate_some_iff (E : Hashes) (pool : List Tx) (c : CompactBlk) :
    (hydrate E pool c).isSome ↔
      c.shortIds = [] ∨ c.shortIds.Nodup ∧ c.shortIds.length ≤ matchCount E pool c := by
  unfold hydrate
  by_cases hne : c.shortIds = []
  · simp [hne]
  · rw [if_neg hne]
    dsimp only
    have hl : (findByShortId E pool c.header c.nonce c.shortIds).length =
        min c.shortIds.dedup.length (matchCount E pool c) := by
      rw [find_eq _ _ _ _ _ hne, List.length_take, List.length_map, pairs_count]
    have hd : c.shortIds.dedup.length ≤ c.shortIds.length := (List.dedup_sublist _).length_le
    have hdn : c.shortIds.Nodup ↔ c.shortIds.dedup.length = c.shortIds.length := by
      constructor
      · intro h
        rw [h.dedup]
      · intro h
        rw [← (List.dedup_sublist c.shortIds).eq_of_length h]
        exact List.nodup_dedup _
    rw [hl, hdn]
    by_cases he : min c.shortIds.dedup.length (matchCount E pool c) = c.shortIds.length
    · rw [if_pos he]
      simp only [Option.isSome_some, true_iff]
      right
      omega
    · rw [if_neg he]
      simp only [Option.isSome_none, Bool.false_eq_true, hne, false_or, false_iff]
      omega

/-! ## The original block comes back -/

/-- Block `b` consists of the transactions `ts` and the coinbase items `cbOuts`, `cbKers`, after
cut-through, each list strictly sorted by hash. -/
structure MadeOf (H : DigestNum) (b : Block) (ts : List Tx) (cbOuts : List TxOutput)
    (cbKers : List Kernel) : Prop where
  /-- An input is in the block iff a transaction has it and no output it could spend is created by
  the same block. -/
  inputs : ∀ i, i ∈ b.body.inputs ↔ (∃ t ∈ ts, i ∈ t.body.inputs) ∧
    ¬ ∃ o, ((∃ t ∈ ts, o ∈ t.body.outputs) ∨ o ∈ cbOuts) ∧ o.commit = i.commit
  outputs : ∀ o, o ∈ b.body.outputs ↔ ((∃ t ∈ ts, o ∈ t.body.outputs) ∨ o ∈ cbOuts) ∧
    ¬ ∃ t ∈ ts, ∃ i ∈ t.body.inputs, i.commit = o.commit
  kernels : ∀ k, k ∈ b.body.kernels ↔ (∃ t ∈ ts, k ∈ t.body.kernels) ∨ k ∈ cbKers
  sortedI : b.body.inputs.Pairwise (fun x y => inputHash H x < inputHash H y)
  sortedO : b.body.outputs.Pairwise (fun x y => outputHash H x < outputHash H y)
  sortedK : b.body.kernels.Pairwise (fun x y => kernelHash H x < kernelHash H y)
  /-- Coinbase items are those with the coinbase feature, and no transaction spends them. -/
  cbOut : ∀ o ∈ cbOuts, outIsCoinbase o = true
  cbKer : ∀ k ∈ cbKers, kerIsCoinbase k = true
  txOut : ∀ t ∈ ts, ∀ o ∈ t.body.outputs, outIsCoinbase o = false
  txKer : ∀ t ∈ ts, ∀ k ∈ t.body.kernels, kerIsCoinbase k = false
  unspent : ∀ o ∈ cbOuts, ¬ ∃ t ∈ ts, ∃ i ∈ t.body.inputs, i.commit = o.commit
  /-- Every transaction has a kernel, and no kernel is in two of them. -/
  kernel : ∀ t ∈ ts, t.body.kernels ≠ []
  distinct : (ts.flatMap (·.body.kernels)).Nodup
  txs : ts.Nodup

/-- No two different items that occur have the same hash. -/
structure NoCollision (H : DigestNum) (ts : List Tx) (cbOuts : List TxOutput)
    (cbKers : List Kernel) : Prop where
  ins : ∀ a ∈ ts.flatMap (·.body.inputs), ∀ b ∈ ts.flatMap (·.body.inputs),
    inputHash H a = inputHash H b → a = b
  outs : ∀ a ∈ ts.flatMap (·.body.outputs) ++ cbOuts, ∀ b ∈ ts.flatMap (·.body.outputs) ++ cbOuts,
    outputHash H a = outputHash H b → a = b
  kers : ∀ a ∈ ts.flatMap (·.body.kernels) ++ cbKers, ∀ b ∈ ts.flatMap (·.body.kernels) ++ cbKers,
    kernelHash H a = kernelHash H b → a = b

private theorem filter_pairs (sought : Kernel → Bool) (ts : List Tx) : ∀ pool : List Tx,
    (∀ t ∈ pool, ∀ k ∈ t.body.kernels, sought k = decide (t ∈ ts)) →
    (pool.flatMap (fun t => t.body.kernels.map (fun k => (t, k)))).filter (fun p => sought p.2) =
      (pool.filter (fun t => decide (t ∈ ts))).flatMap
        (fun t => t.body.kernels.map (fun k => (t, k)))
  | [], _ => rfl
  | t :: pool, hs => by
    rw [List.flatMap_cons, List.filter_append,
      filter_pairs sought ts pool (fun t' ht' => hs t' (List.mem_cons_of_mem _ ht')),
      List.filter_cons]
    have hk := hs t List.mem_cons_self
    by_cases ht : t ∈ ts
    · rw [if_pos (by simpa using ht), List.flatMap_cons]
      congr 1
      apply List.filter_eq_self.2
      intro p hp
      obtain ⟨k, hk', rfl⟩ := List.mem_map.1 hp
      simpa [ht] using hk k hk'
    · rw [if_neg (by simpa using ht)]
      have : (t.body.kernels.map (fun k => (t, k))).filter (fun p => sought p.2) = [] := by
        apply List.filter_eq_nil_iff.2
        intro p hp
        obtain ⟨k, hk', rfl⟩ := List.mem_map.1 hp
        simpa [ht] using hk k hk'
      rw [this]
      rfl

private theorem find_exact (E : Hashes) (pool ts : List Tx) (h : Header) (nonce : Nat)
    (ids : List Bytes) (hne : ids ≠ []) (hnodup : ids.Nodup)
    (hidp : ids.Perm ((ts.flatMap (·.body.kernels)).map (kernelId E h nonce))) (hts : ts.Nodup)
    (hker : ∀ t ∈ ts, t.body.kernels ≠ []) (hpool : ∀ t ∈ ts, t ∈ pool) (hnd : pool.Nodup)
    (hother : ∀ t ∈ pool, ∀ k ∈ t.body.kernels,
      kernelId E h nonce k ∈ (ts.flatMap (·.body.kernels)).map (kernelId E h nonce) → t ∈ ts) :
    (findByShortId E pool h nonce ids).length = ids.length ∧
      ∀ t, t ∈ findByShortId E pool h nonce ids ↔ t ∈ ts := by
  have hsought : ∀ t ∈ pool, ∀ k ∈ t.body.kernels,
      ids.contains (kernelId E h nonce k) = decide (t ∈ ts) := by
    intro t ht k hk
    rw [List.contains_eq_mem]
    apply decide_eq_decide.2
    rw [hidp.mem_iff]
    constructor
    · exact hother t ht k hk
    · intro hts
      exact List.mem_map.2 ⟨k, List.mem_flatMap.2 ⟨t, hts, hk⟩, rfl⟩
  have hpp : (pool.filter (fun t => decide (t ∈ ts))).Perm ts := by
    refine (List.perm_ext_iff_of_nodup (hnd.filter _) hts).2 ?_
    intro t
    rw [List.mem_filter, decide_eq_true_eq]
    exact ⟨fun h => h.2, fun h => ⟨hpool t h, h⟩⟩
  have hlen : (((pool.filter (fun t => decide (t ∈ ts))).flatMap
      (fun t => t.body.kernels.map (fun k => (t, k)))).map (·.1)).length = ids.length := by
    rw [List.length_map, hidp.length_eq, List.length_map,
      (hpp.flatMap_right _).length_eq, List.length_flatMap, List.length_flatMap]
    simp
  rw [find_eq _ _ _ _ _ hne, filter_pairs (fun k => ids.contains (kernelId E h nonce k)) ts pool
    hsought, hnodup.dedup, List.take_of_length_le (le_of_eq hlen)]
  refine ⟨hlen, fun t => ?_⟩
  rw [List.mem_map]
  constructor
  · rintro ⟨⟨t', k⟩, hp, rfl⟩
    rw [mem_pairs] at hp
    exact hpp.mem_iff.1 hp.1
  · intro ht
    obtain ⟨k, hk⟩ := List.exists_mem_of_ne_nil _ (hker t ht)
    exact ⟨(t, k), mem_pairs.2 ⟨hpp.mem_iff.2 ht, hk⟩, rfl⟩

/-- **C39, completeness.**  If the block consists of transactions that are all in the pool, the
short ids of its kernels are distinct, and no other pool transaction has a kernel with one of these
ids, then hydrating the compact block the node makes of it gives that very block, for every
nonce. -/
theorem hydrate_original (E : Hashes) (nonce : Nat) (b : Block) (pool ts : List Tx)
    (cbOuts : List TxOutput) (cbKers : List Kernel)
    (hb : MadeOf E.H b ts cbOuts cbKers) (hc : NoCollision E.H ts cbOuts cbKers)
    (hpool : ∀ t ∈ ts, t ∈ pool) (hnd : pool.Nodup)
    (hids : ((ts.flatMap (·.body.kernels)).map (kernelId E b.header nonce)).Nodup)
    (hother : ∀ t ∈ pool, ∀ k ∈ t.body.kernels,
      kernelId E b.header nonce k ∈ (ts.flatMap (·.body.kernels)).map (kernelId E b.header nonce) →
      t ∈ ts) :
    hydrate E pool (compact E nonce b) = some b := by
  -- the transaction kernels of the block
  have hperm : (b.body.kernels.filter (fun k => !kerIsCoinbase k)).Perm
      (ts.flatMap (·.body.kernels)) := by
    refine (List.perm_ext_iff_of_nodup ((strict_nodup _ hb.sortedK).filter _) hb.distinct).2 ?_
    intro k
    rw [List.mem_filter, hb.kernels, List.mem_flatMap]
    constructor
    · rintro ⟨h | h, hn⟩
      · exact h
      · simp [hb.cbKer k h] at hn
    · rintro ⟨t, ht, hk⟩
      exact ⟨Or.inl ⟨t, ht, hk⟩, by simp [hb.txKer t ht k hk]⟩
  have hidp : (compact E nonce b).shortIds.Perm
      ((ts.flatMap (·.body.kernels)).map (kernelId E b.header nonce)) :=
    (List.mergeSort_perm _ _).trans (hperm.map _)
  have hlen : (compact E nonce b).shortIds.length = (ts.flatMap (·.body.kernels)).length := by
    rw [hidp.length_eq, List.length_map]
  have hkers : (compact E nonce b).kernels = sortByHash (kernelHash E.H)
      (b.body.kernels.filter kerIsCoinbase) := rfl
  have houts : (compact E nonce b).outputs = sortByHash (outputHash E.H)
      (b.body.outputs.filter outIsCoinbase) := rfl
  have memK : ∀ k, k ∈ (compact E nonce b).kernels ↔ k ∈ cbKers := by
    intro k
    rw [hkers, mem_sort, List.mem_filter, hb.kernels]
    constructor
    · rintro ⟨⟨t, ht, hk⟩ | h, hn⟩
      · simp [hb.txKer t ht k hk] at hn
      · exact h
    · intro h
      exact ⟨Or.inr h, hb.cbKer k h⟩
  have memO : ∀ o, o ∈ (compact E nonce b).outputs ↔ o ∈ cbOuts := by
    intro o
    rw [houts, mem_sort, List.mem_filter, hb.outputs]
    constructor
    · rintro ⟨⟨⟨t, ht, ho⟩ | h, -⟩, hn⟩
      · simp [hb.txOut t ht o ho] at hn
      · exact h
    · intro h
      exact ⟨⟨Or.inr h, hb.unspent o h⟩, hb.cbOut o h⟩
  -- any list of transactions with the same members rebuilds the block
  have build : ∀ txs : List Tx, (∀ t, t ∈ txs ↔ t ∈ ts) →
      hydrateWith E (compact E nonce b) txs = b := by
    intro txs hmem
    have mI : ∀ i, i ∈ txs.flatMap (·.body.inputs) ↔ i ∈ ts.flatMap (·.body.inputs) := by
      intro i; simp only [List.mem_flatMap, hmem]
    have mO : ∀ o, o ∈ txs.flatMap (·.body.outputs) ++ (compact E nonce b).outputs ↔
        o ∈ ts.flatMap (·.body.outputs) ++ cbOuts := by
      intro o; simp only [List.mem_append, List.mem_flatMap, hmem, memO]
    have mK : ∀ k, k ∈ txs.flatMap (·.body.kernels) ++ (compact E nonce b).kernels ↔
        k ∈ ts.flatMap (·.body.kernels) ++ cbKers := by
      intro k; simp only [List.mem_append, List.mem_flatMap, hmem, memK]
    have fI : ∀ i, i ∈ (txs.flatMap (·.body.inputs)).foldl (addNew (inputHash E.H)) [] ↔
        i ∈ ts.flatMap (·.body.inputs) := by
      intro i
      rw [mem_fold_iff _ ?_ i, mI]
      intro a ha c' hc'
      exact hc.ins a ((mI a).1 ha) c' ((mI c').1 hc')
    have fO : ∀ o, o ∈ (txs.flatMap (·.body.outputs) ++ (compact E nonce b).outputs).foldl
        (addNew (outputHash E.H)) [] ↔ o ∈ ts.flatMap (·.body.outputs) ++ cbOuts := by
      intro o
      rw [mem_fold_iff _ ?_ o, mO]
      intro a ha c' hc'
      exact hc.outs a ((mO a).1 ha) c' ((mO c').1 hc')
    have fK : ∀ k, k ∈ (txs.flatMap (·.body.kernels) ++ (compact E nonce b).kernels).foldl
        (addNew (kernelHash E.H)) [] ↔ k ∈ ts.flatMap (·.body.kernels) ++ cbKers := by
      intro k
      rw [mem_fold_iff _ ?_ k, mK]
      intro a ha c' hc'
      exact hc.kers a ((mK a).1 ha) c' ((mK c').1 hc')
    have eqI : (hydrateWith E (compact E nonce b) txs).body.inputs = b.body.inputs := by
      refine strict_ext (inputHash E.H) (sort_strict _ (List.Nodup.sublist
        (List.Sublist.map _ List.filter_sublist) (fold_nodup _ _ _ (by simp)))) hb.sortedI ?_
      intro i
      simp only [hydrateWith, cutThrough]
      rw [mem_sort, List.mem_filter, fI, hb.inputs]
      simp only [Bool.not_eq_true', List.contains_eq_mem, decide_eq_false_iff_not, List.mem_map,
        fO, List.mem_append, List.mem_flatMap]
    have eqO : (hydrateWith E (compact E nonce b) txs).body.outputs = b.body.outputs := by
      refine strict_ext (outputHash E.H) (sort_strict _ (List.Nodup.sublist
        (List.Sublist.map _ List.filter_sublist) (fold_nodup _ _ _ (by simp)))) hb.sortedO ?_
      intro o
      simp only [hydrateWith, cutThrough]
      rw [mem_sort, List.mem_filter, fO, hb.outputs]
      simp only [Bool.not_eq_true', List.contains_eq_mem, decide_eq_false_iff_not, List.mem_map,
        fI, List.mem_append, List.mem_flatMap]
      constructor
      · rintro ⟨h, hn⟩
        exact ⟨h, fun ⟨t, ht, i, hi, he⟩ => hn ⟨i, ⟨t, ht, hi⟩, he⟩⟩
      · rintro ⟨h, hn⟩
        exact ⟨h, fun ⟨i, ⟨t, ht, hi⟩, he⟩ => hn ⟨t, ht, i, hi, he⟩⟩
    have eqK : (hydrateWith E (compact E nonce b) txs).body.kernels = b.body.kernels := by
      refine strict_ext (kernelHash E.H) (sort_strict _ (fold_nodup _ _ _ (by simp)))
        hb.sortedK ?_
      intro k
      simp only [hydrateWith]
      rw [mem_sort, fK, hb.kernels, List.mem_append, List.mem_flatMap]
    have eqH : (hydrateWith E (compact E nonce b) txs).header = b.header := rfl
    cases hx : hydrateWith E (compact E nonce b) txs with
    | mk h' bd =>
      cases hbd : bd with
      | mk i o k =>
        rw [hx] at eqI eqO eqK eqH
        subst hbd
        cases b with
        | mk h2 bd2 =>
          cases bd2
          simp only at eqI eqO eqK eqH
          simp [eqI, eqO, eqK, eqH]
  unfold hydrate
  by_cases hne : (compact E nonce b).shortIds = []
  · rw [if_pos hne]
    rw [hne, List.length_nil] at hlen
    have hts : ts = [] := by
      cases hts : ts with
      | nil => rfl
      | cons t rest =>
        exfalso
        apply hb.kernel t (by rw [hts]; exact List.mem_cons_self)
        rw [hts, List.flatMap_cons, List.length_append] at hlen
        exact List.eq_nil_of_length_eq_zero (by omega)
    rw [build [] (by simp [hts])]
  · rw [if_neg hne]
    dsimp only
    obtain ⟨hl, hm⟩ := find_exact E pool ts b.header nonce (compact E nonce b).shortIds hne
      (hidp.nodup_iff.2 hids) hidp hb.txs hb.kernel hpool hnd hother
    have hh : (compact E nonce b).header = b.header := rfl
    have hn : (compact E nonce b).nonce = nonce := rfl
    rw [hh, hn, if_pos hl, build _ hm]

/-! ### A block of two transactions, the second spending an output of the first -/

/-- Readable stand-ins for the hash functions, for examples. -/
private def exE : Hashes :=
  ⟨fun bs => beVal bs, fun bs => bs, fun _ _ h => beVal h % 2 ^ 48, fun _ => [1]⟩
private def exK (f n : Nat) : Kernel := ⟨f, ⟨0, 0⟩, 0, [UInt8.ofNat n], [UInt8.ofNat n]⟩
private def exT1 : Tx := ⟨[], ⟨[⟨0, [1]⟩], [⟨0, [2], []⟩, ⟨0, [3], []⟩], [exK 0 1]⟩⟩
private def exT2 : Tx := ⟨[], ⟨[⟨0, [2]⟩], [⟨0, [4], []⟩], [exK 0 2]⟩⟩
private def exOther : Tx := ⟨[], ⟨[⟨0, [8]⟩], [⟨0, [9], []⟩], [exK 0 9]⟩⟩
private def exHeader : Header :=
  ⟨1, 0, 0, [], [], [], [], [], [], 0, 0, 0, 0, 0, ⟨29, [], []⟩⟩
private def exBlock : Block :=
  ⟨exHeader, ⟨[⟨0, [1]⟩], [⟨0, [3], []⟩, ⟨0, [4], []⟩, ⟨1, [5], []⟩],
    [exK 0 1, exK 0 2, exK 1 3]⟩⟩

/-- The pool holds both transactions in another order and one that is not in the block. -/
example : hydrate exE [exOther, exT2, exT1] (compact exE 7 exBlock) = some exBlock := by
  refine hydrate_original exE 7 exBlock _ [exT1, exT2] [⟨1, [5], []⟩] [exK 1 3] ?_ ?_ ?_ ?_ ?_ ?_
  · refine ⟨?_, ?_, ?_, ?_, ?_, ?_, ?_, ?_, ?_, ?_, ?_, ?_, ?_, ?_⟩
    · rintro ⟨f, cm⟩
      simp [exBlock, exT1, exT2]
      grind
    · rintro ⟨f, cm, pr⟩
      simp [exBlock, exT1, exT2]
      grind
    · intro k
      simp [exBlock, exT1, exT2]
      grind
    all_goals decide +kernel
  · refine ⟨?_, ?_, ?_⟩ <;> decide +kernel
  all_goals decide +kernel

/-! ## Overlapping pool transactions -/

/-- **C39, violated.**  A block lists two kernels.  The pool does not hold the second, but holds
the first twice, alone and inside a larger transaction with an unrelated kernel.  Matching kernels
are counted instead of matched ids, so the count comes out right and a block is returned: it lacks
the second kernel and contains the unrelated one. -/
theorem overlapping_pool_violated (E : Hashes) (h : Header) (nonce : Nat) (k1 k2 k3 : Kernel)
    (o1 o2 : Bytes) (ins : List TxInput) (outs : List TxOutput)
    (h12 : kernelId E h nonce k1 ≠ kernelId E h nonce k2) (hk12 : k1 ≠ k2) (hk32 : k3 ≠ k2)
    (h13 : kernelHash E.H k1 ≠ kernelHash E.H k3) :
    ∃ b, hydrate E [⟨o1, ⟨[], [], [k1]⟩⟩, ⟨o2, ⟨ins, outs, [k1, k3]⟩⟩]
        ⟨h, nonce, [], [], [kernelId E h nonce k1, kernelId E h nonce k2]⟩ = some b ∧
      k2 ∉ b.body.kernels ∧ k3 ∈ b.body.kernels := by
  have hf : findByShortId E [⟨o1, ⟨[], [], [k1]⟩⟩, ⟨o2, ⟨ins, outs, [k1, k3]⟩⟩] h nonce
      [kernelId E h nonce k1, kernelId E h nonce k2] =
      [⟨o1, ⟨[], [], [k1]⟩⟩, ⟨o2, ⟨ins, outs, [k1, k3]⟩⟩] := by
    unfold findByShortId
    rw [List.Nodup.dedup (by simpa using h12)]
    simp [findLoop]
  refine ⟨hydrateWith E ⟨h, nonce, [], [], [kernelId E h nonce k1, kernelId E h nonce k2]⟩
    [⟨o1, ⟨[], [], [k1]⟩⟩, ⟨o2, ⟨ins, outs, [k1, k3]⟩⟩], ?_, ?_, ?_⟩
  · unfold hydrate
    simp only [hf]
    simp
  · simp only [hydrateWith]
    rw [mem_sort]
    intro hm
    rcases mem_fold _ _ _ _ hm with hm | hm
    · simp at hm
    · simp at hm
      grind
  · simp only [hydrateWith]
    rw [mem_sort]
    have h31 : ¬ kernelHash E.H k3 = kernelHash E.H k1 := fun e => h13 e.symm
    simp [addNew, h31]

example : ∃ b, hydrate exE [⟨[], ⟨[], [], [exK 0 1]⟩⟩, ⟨[], ⟨[], [], [exK 0 1, exK 0 3]⟩⟩]
    ⟨exHeader, 7, [], [], [kernelId exE exHeader 7 (exK 0 1), kernelId exE exHeader 7 (exK 0 2)]⟩ =
      some b ∧ exK 0 2 ∉ b.body.kernels ∧ exK 0 3 ∈ b.body.kernels :=
  overlapping_pool_violated exE exHeader 7 _ _ _ [] [] [] [] (by decide +kernel) (by decide)
    (by decide) (by decide +kernel)

/-- A compact block whose ids the pool does not have gives nothing. -/
example : hydrate exE [exOther]
    ⟨exHeader, 7, [], [], [kernelId exE exHeader 7 (exK 0 1)]⟩ = none := by decide +kernel

/-- A compact block without short ids, as a block with the coinbase only, needs no pool. -/
example : (hydrate exE [] ⟨exHeader, 7, [⟨1, [5], []⟩], [exK 1 3], []⟩).isSome = true :=
  (hydrate_some_iff _ _ _).2 (Or.inl rfl)

/-! ## What a short id is -/

/-- **C39.** The short id of a kernel: write the Blake2b digest of the block's hash and the nonce (eight bytes, the highest
first) as two little-endian words of eight bytes and a rest; then the id is the SipHash of the kernel's hash under these two
words, its lowest six bytes, the lowest first.  Peers must agree on this to understand one another's compact blocks. -/
theorem short_id (E : Hashes) (h : Header) (nonce k0 k1 : Nat) (rest : Bytes) (k : Kernel) (h0 : k0 < 2 ^ 64)
    (h1 : k1 < 2 ^ 64) (hd : E.B (E.blockHash h ++ beBytes 8 nonce) = leBytes 8 k0 ++ leBytes 8 k1 ++ rest) :
    kernelId E h nonce k = leBytes 6 (E.sip k0 k1 (beBytes 32 (kernelHash E.H k)) % 2 ^ 48) := by
  have hl : ∀ n x, (leBytes n x).length = n := fun n x => by simp [leBytes]
  have hv : ∀ x, x < 2 ^ 64 → beVal (leBytes 8 x).reverse = x := fun x hx => by
    simp only [leBytes, List.reverse_reverse]
    exact beVal_beBytes_of_lt (by have : (256 : Nat) ^ 8 = 2 ^ 64 := by decide
                                  omega)
  have e0 : (leBytes 8 k0 ++ leBytes 8 k1 ++ rest).take 8 = leBytes 8 k0 := by
    rw [List.append_assoc, List.take_append_of_le_length (by rw [hl]), List.take_of_length_le (by rw [hl])]
  have e1 : ((leBytes 8 k0 ++ leBytes 8 k1 ++ rest).drop 8).take 8 = leBytes 8 k1 := by
    rw [List.append_assoc, List.drop_append_of_le_length (by rw [hl]), List.drop_of_length_le (by rw [hl]),
      List.nil_append, List.take_append_of_le_length (by rw [hl]), List.take_of_length_le (by rw [hl])]
  unfold kernelId shortIdCreate
  simp only [hd, e0, e1, hv k0 h0, hv k1 h1]
  generalize E.sip k0 k1 _ = v
  have key : ∀ (m n x : Nat), m ≤ n → (leBytes n x).take m = leBytes m (x % 256 ^ m) := by
    intro m
    induction m with
    | zero => intro n x _; simp [leBytes, beBytes]
    | succ m ih =>
      intro n x hn
      obtain ⟨n, rfl⟩ : ∃ k, n = k + 1 := ⟨n - 1, by omega⟩
      have hs : ∀ j y, leBytes (j + 1) y = UInt8.ofNat y :: leBytes j (y / 256) := fun j y => by simp [leBytes, beBytes]
      rw [hs, hs, List.take_succ_cons, ih n _ (by omega)]
      rw [Nat.pow_succ, Nat.mul_comm (256 ^ m) 256, Nat.mod_mul]
      congr 1
      · apply UInt8.toNat_inj.1
        simp only [UInt8.toNat_ofNat']
        omega
      · rw [show (x % 256 + 256 * (x / 256 % 256 ^ m)) / 256 = x / 256 % 256 ^ m by omega]
  exact key 6 8 v (by omega)

example : ∃ E : Hashes, E.B (E.blockHash exHeader ++ beBytes 8 7) = leBytes 8 258 ++ leBytes 8 3 ++ [1, 2] ∧
    kernelId E exHeader 7 (exK 0 1) = [0, 2, 1, 3, 0, 0] :=
  ⟨⟨fun _ => 0, fun _ => leBytes 8 258 ++ leBytes 8 3 ++ [1, 2], fun a b _ => a * 256 + b * 2 ^ 24 + 5 * 2 ^ 48, fun _ => []⟩, rfl,
    by decide +kernel⟩

end Verif.Props
