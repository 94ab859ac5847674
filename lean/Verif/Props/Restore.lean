import Verif.Wallet.Restore
import Verif.Props.TxHashSet

/-!
# C82, C83: the list of unspent outputs, and the wallet's search through it
-/
namespace Verif.Props
open Verif.Tx Verif.MMR Verif.Wallet

/-- Every unspent output has its position in the database. -/
def Indexed (db : DB) (s : State) : Prop :=
  ∀ n d, n ∈ s.unspent → s.leaves[n]? = some d → ∃ l, db.pos (idCommit d) = some l ∧ l.leaf = n

/-- The entry of one unspent output. -/
def entryAt (db : DB) (s : State) (n : Nat) : Option Listed :=
  match s.leaves[n]?, s.proofs[n]? with
  | some d, some p => (db.pos (idCommit d)).map fun l => ⟨d, l, p⟩
  | _, _ => none

/-- The unspent leaves from one on, in order. -/
def unspentFrom (s : State) (start : Nat) : List Nat :=
  (List.range' start (s.leaves.length - start)).filter (· ∈ s.unspent)

/-- The entries of the unspent outputs from a leaf on, in order. -/
def entriesFrom (db : DB) (s : State) (start : Nat) : List Listed := (unspentFrom s start).filterMap (entryAt db s)

private theorem from_succ (s : State) (n : Nat) (h : n < s.leaves.length) :
    unspentFrom s n = if n ∈ s.unspent then n :: unspentFrom s (n + 1) else unspentFrom s (n + 1) := by
  unfold unspentFrom
  rw [show s.leaves.length - n = (s.leaves.length - (n + 1)) + 1 by omega, List.range'_succ]
  by_cases hn : n ∈ s.unspent
  · rw [List.filter_cons_of_pos (by simp [hn]), if_pos hn]
  · rw [List.filter_cons_of_neg (by simp [hn]), if_neg hn]

theorem entry_some {H : Bytes → Bytes} {db : DB} {t : THS} {s : State} (h : Holds H db t s) (hi : Indexed db s)
    {n : Nat} (hn : n ∈ s.unspent) : ∃ d p l, s.leaves[n]? = some d ∧ s.proofs[n]? = some p ∧
      db.pos (idCommit d) = some l ∧ l.leaf = n ∧ entryAt db s n = some ⟨d, l, p⟩ := by
  have hlt := h.outputs.inRange n hn
  have h1 : s.leaves[n]? = some s.leaves[n] := List.getElem?_eq_getElem hlt
  have hlt2 : n < s.proofs.length := by rw [h.same]; exact hlt
  have h2 : s.proofs[n]? = some s.proofs[n] := List.getElem?_eq_getElem hlt2
  obtain ⟨l, e1, e2⟩ := hi n _ hn h1
  refine ⟨_, _, l, h1, h2, e1, e2, ?_⟩
  unfold entryAt
  rw [h1, h2]
  simp only [e1, Option.map_some]

private theorem loop_spec {H : Bytes → Bytes} {db : DB} {t : THS} {s : State} (h : Holds H db t s) (hi : Indexed db s)
    (hb : leafPos s.leaves.length < 2 ^ 64) (max : Nat) : ∀ (f n : Nat) (acc : List Listed),
      s.leaves.length < f + n → 0 < f → acc.length ≤ max →
      listLoop db t max f n acc = .ok (acc ++ (entriesFrom db s n).take (max - acc.length)) := by
  intro f
  induction f with
  | zero => intro n acc _ h0; omega
  | succ f ih =>
    intro n acc hf _ hm
    unfold listLoop
    by_cases h1 : acc.length ≥ max
    · rw [if_pos h1, show max - acc.length = 0 by omega]; simp
    · rw [if_neg h1]
      have hsz := h.outputs.size hb
      rw [hsz]
      by_cases h2 : leafPos n ≥ leafPos s.leaves.length
      · rw [if_pos h2]
        have hn : s.leaves.length ≤ n := by
          by_contra hc
          have := leafPos_strictMono (show n < s.leaves.length by omega)
          omega
        unfold entriesFrom unspentFrom
        rw [show s.leaves.length - n = 0 by omega]
        simp
      · rw [if_neg h2]
        have hn : n < s.leaves.length := by
          by_contra hc
          have := leafPos_mono (show s.leaves.length ≤ n by omega)
          omega
        rw [(pruned_get H t.outputs s.leaves s.unspent h.outputs hb).1 n, Res.ok_bind]
        by_cases hu : n ∈ s.unspent
        · obtain ⟨d, p, l, e1, e2, e3, e4, e5⟩ := entry_some h hi hu
          rw [if_pos hu, e1]
          simp only
          rw [(pruned_get H t.proofs s.proofs s.unspent h.proofs (by rw [h.same]; exact hb)).1 n, Res.ok_bind, if_pos hu, e2, e3]
          simp only
          rw [if_neg (show ¬ l.leaf ≠ n from fun c => c e4), ih (n + 1) _ (by omega) (by omega) (by
            rw [List.length_append, List.length_singleton]; omega)]
          unfold entriesFrom
          rw [from_succ s n hn, if_pos hu, List.filterMap_cons, e5]
          simp only [List.length_append, List.length_singleton, List.append_assoc]
          rw [show max - acc.length = (max - (acc.length + 1)) + 1 by omega]
          rfl
        · rw [if_neg hu]
          simp only
          rw [ih (n + 1) acc (by omega) (by omega) hm]
          unfold entriesFrom
          rw [from_succ s n hn, if_neg hu]

/-- **C82.**  The node answers a request for outputs from a leaf on with exactly the unspent outputs from there, in order, up to the
number asked for; each with its identifier, its location and its range proof. -/
theorem outputs_listed (H : Bytes → Bytes) (db : DB) (t : THS) (s : State) (h : Holds H db t s) (hi : Indexed db s)
    (hb : leafPos s.leaves.length < 2 ^ 64) (start max : Nat) :
    outputsByLeafIndex db t start max = .ok ⟨s.leaves.length - 1,
      (((unspentFrom s start).take max).getLast?).getD 0, (entriesFrom db s start).take max⟩ := by
  have hle : s.leaves.length ≤ leafPos s.leaves.length := by
    have : ∀ n, n ≤ leafPos n := by
      intro n
      induction n with
      | zero => simp
      | succ n ih => have := leafPos_strictMono (show n < n + 1 by omega); omega
    exact this _
  unfold outputsByLeafIndex
  rw [h.outputs.size hb, loop_spec h hi hb max _ start [] (by omega) (by omega) (by simp), Res.ok_bind]
  simp only [List.nil_append, List.length_nil, Nat.sub_zero, leafIndex_roundtrip _ hb]
  have hmap : ∀ l : List Nat, (∀ n ∈ l, n ∈ s.unspent) → (l.filterMap (entryAt db s)).map (fun e => e.loc.leaf) = l ∧
      ∀ k, (l.filterMap (entryAt db s)).take k = (l.take k).filterMap (entryAt db s) := by
    intro l
    induction l with
    | nil => intro _; simp
    | cons n l ih =>
      intro hl
      obtain ⟨d, p, lo, -, -, -, e4, e5⟩ := entry_some h hi (hl n (by simp))
      obtain ⟨i1, i2⟩ := ih (fun m hm => hl m (by simp [hm]))
      rw [List.filterMap_cons, e5]
      simp only
      refine ⟨by rw [List.map_cons, i1, e4], ?_⟩
      intro k
      cases k with
      | zero => simp
      | succ k => rw [List.take_succ_cons, List.take_succ_cons, List.filterMap_cons, e5]; simp only; rw [i2 k]
  have hsub : ∀ n ∈ unspentFrom s start, n ∈ s.unspent := by
    intro n hn
    unfold unspentFrom at hn
    exact of_decide_eq_true (List.mem_filter.1 hn).2
  have e1 : (entriesFrom db s start).take max = ((unspentFrom s start).take max).filterMap (entryAt db s) :=
    (hmap _ hsub).2 max
  have e2 := (hmap ((unspentFrom s start).take max) (fun n hn => hsub n (List.mem_of_mem_take hn))).1
  rw [e1]
  generalize (unspentFrom s start).take max = l at e2 ⊢
  have e3 : (match (l.filterMap (entryAt db s)).getLast? with | none => 0 | some o => o.loc.leaf) = l.getLast?.getD 0 := by
    conv_rhs => rw [← e2]
    rw [List.getLast?_map]
    cases (l.filterMap (entryAt db s)).getLast? <;> rfl
  simp only [Res.pure_eq, Res.ok.injEq, OutputRange.mk.injEq, and_true]
  exact ⟨by split <;> omega, e3⟩


/-! ## Every unspent output has its position -/

theorem next_indexed {env : PoW.Env} {H : Bytes → Bytes} (hh : Header → Bytes) {db : DB} {t : THS} {s : State} {b : Block}
    (h : Holds H db t s) (hi : Indexed db s) (ha : Applies env db s b)
    (hcut : ∀ i ∈ b.body.inputs, ∀ o ∈ b.body.outputs, i.commit ≠ o.commit) :
    Indexed (dbAfter hh db s.leaves.length b) (s.next db b) := by
  intro n d hn hd
  have hpos : ∀ c, (dbAfter hh db s.leaves.length b).pos c =
      if c ∈ b.body.inputs.map (·.commit) then none
      else match b.body.outputs.findIdx? (fun x => x.commit = c) with
        | some k => some ⟨s.leaves.length + k, b.header.height⟩
        | none => db.pos c := by
    intro c
    unfold dbAfter DB.removePos
    simp only
    rw [addAll_pos _ _ _ _ _ ha.outputs]
    rfl
  rw [hpos]
  simp only [State.next, Finset.mem_union, Finset.mem_sdiff, List.mem_toFinset] at hn hd
  rcases hn with ⟨hn, hs⟩ | hn
  · have hlt := h.outputs.inRange n hn
    rw [List.getElem?_append_left hlt] at hd
    obtain ⟨l, e1, e2⟩ := hi n d hn hd
    rw [if_neg (show ¬ idCommit d ∈ b.body.inputs.map (·.commit) by
      intro hc
      obtain ⟨i, i1, i2⟩ := List.mem_map.1 hc
      refine hs (List.mem_filterMap.2 ⟨i, i1, ?_⟩)
      rw [i2, e1, Option.map_some, e2])]
    have : b.body.outputs.findIdx? (fun x => x.commit = idCommit d) = none := by
      rw [List.findIdx?_eq_none_iff]
      intro x hx
      simp only [decide_eq_false_iff_not]
      intro hc
      refine ha.fresh x hx l (by rw [hc]; exact e1) (Finset.mem_sdiff.2 ⟨by rw [e2]; exact hn, ?_⟩)
      rw [e2, List.mem_toFinset]
      exact hs
    rw [this]
    exact ⟨l, e1, e2⟩
  · unfold newLeaves at hn
    rw [Finset.mem_filter, Finset.mem_range] at hn
    rw [List.getElem?_append_right hn.2] at hd
    obtain ⟨k, rfl⟩ : ∃ k, n = s.leaves.length + k := ⟨n - s.leaves.length, by omega⟩
    have hk : k < b.body.outputs.length := by omega
    rw [Nat.add_sub_cancel_left, List.getElem?_map, List.getElem?_eq_getElem hk, Option.map_some, Option.some.injEq] at hd
    have hc : idCommit d = b.body.outputs[k].commit := by rw [← hd, idCommit_identifier]
    rw [if_neg (show ¬ idCommit d ∈ b.body.inputs.map (·.commit) by
      intro hm
      obtain ⟨i, i1, i2⟩ := List.mem_map.1 hm
      exact hcut i i1 _ (List.getElem_mem hk) (i2.trans hc))]
    have : b.body.outputs.findIdx? (fun x => x.commit = idCommit d) = some k := by
      rw [List.findIdx?_eq_some_iff_getElem]
      refine ⟨hk, by simp [hc], ?_⟩
      intro j hj
      have hnd := List.nodup_iff_pairwise_ne.1 ha.outputs
      rw [List.pairwise_map] at hnd
      have := List.pairwise_iff_getElem.1 hnd j k (by omega) hk hj
      simp only [decide_eq_true_eq]
      rw [hc]
      exact this
    rw [this]
    exact ⟨_, rfl, rfl⟩

/-- **C82.**  Every state reached from the empty set by blocks that do not spend what they create is stored correctly and
has the position of every unspent output, so the theorems of this file apply to it. -/
theorem reachable_indexed (env : PoW.Env) (H : Bytes → Bytes) (hh : Header → Bytes) (db0 : DB) (h : Header)
    (hpos : ∀ c, db0.pos c = none) (bs : List Block) (db : DB) (t : THS)
    (ha : Applied env H hh db0 (emptySet h) bs db t)
    (hb : leafPos (bs.flatMap (·.body.outputs)).length < 2 ^ 64)
    (hk : leafPos (bs.flatMap (·.body.kernels)).length < 2 ^ 64)
    (hcut : ∀ b ∈ bs, ∀ i ∈ b.body.inputs, ∀ o ∈ b.body.outputs, i.commit ≠ o.commit) :
    ∃ s, Holds H db t s ∧ Indexed db s ∧ s.leaves = (bs.flatMap (·.body.outputs)).map identifier ∧
      s.kernels = (bs.flatMap (·.body.kernels)).map (kernelSer 1) := by
  induction ha with
  | nil =>
    exact ⟨⟨[], [], ∅, []⟩, ⟨stores_empty H, stores_empty H, rfl, rfl,
      fun c l e => by rw [hpos c] at e; cases e⟩, fun n d hn => by simp at hn, rfl, rfl⟩
  | @snoc bs db db' t t' b ha hap hprev hheight ih =>
    simp only [List.flatMap_append, List.flatMap_cons, List.flatMap_nil, List.append_nil,
      List.length_append] at hb hk
    obtain ⟨s, hs, hi, e1, e2⟩ := ih (leafPos_bound hb (by omega)) (leafPos_bound hk (by omega))
      (fun c hc => hcut c (by simp [hc]))
    have b1 : leafPos (s.leaves.length + b.body.outputs.length) < 2 ^ 64 := by rw [e1, List.length_map]; exact hb
    have b2 : leafPos (s.kernels.length + b.body.kernels.length) < 2 ^ 64 := by rw [e2, List.length_map]; exact hk
    have hap' := applyBlock_only hs b1 hap
    obtain ⟨t2, q1, q2, -⟩ := applyBlock_ok (hh := hh) hs b1 b2 hap'
    rw [hap] at q1
    injection q1 with q1; injection q1 with q1; injection q1 with r1 r2
    subst r1; subst r2
    have q3 := next_indexed hh hs hi hap' (hcut b (by simp))
    refine ⟨s.next db b, ⟨q2.outputs, q2.proofs, q2.same, q2.kernels, q2.pos⟩, q3, ?_, ?_⟩
    · simp [State.next, e1]
    · simp [State.next, e2]

/-- **C82.**  An output is in the list exactly if it can be spent: asked for all outputs from a leaf on, the node lists the
outputs that a lookup by commitment finds, with the same identifier, proof and height. -/
theorem listed_iff_coin (H : Bytes → Bytes) (db : DB) (t : THS) (s : State) (h : Holds H db t s) (hi : Indexed db s)
    (hb : leafPos s.leaves.length < 2 ^ 64) (k : Coin) (c : Bytes) :
    (∃ e ∈ entriesFrom db s 0, idCommit e.id = c ∧ k = ⟨e.id, e.proof, e.loc.height⟩) ↔ coin db t c = .ok (some k) := by
  rw [coin_eq h hb]
  constructor
  · rintro ⟨e, e1, rfl, rfl⟩
    unfold entriesFrom at e1
    obtain ⟨n, n1, n2⟩ := List.mem_filterMap.1 e1
    have hn : n ∈ s.unspent := by
      unfold unspentFrom at n1
      exact of_decide_eq_true (List.mem_filter.1 n1).2
    obtain ⟨d, p, l, f1, f2, f3, f4, f5⟩ := entry_some h hi hn
    rw [f5] at n2
    injection n2 with n2
    subst n2
    simp only [f3, Option.map_some, f4, List.getD_eq_getElem?_getD, f1, f2, Option.getD_some]
  · intro e
    injection e with e
    rw [Option.map_eq_some_iff] at e
    obtain ⟨l, l1, l2⟩ := e
    obtain ⟨p1, p2⟩ := h.pos c l l1
    obtain ⟨d, p, l', f1, f2, f3, f4, f5⟩ := entry_some h hi p1
    rw [f1, Option.map_some, Option.some.injEq] at p2
    rw [p2, l1] at f3
    injection f3 with f3
    subst f3
    refine ⟨⟨d, l, p⟩, ?_, p2, ?_⟩
    · refine List.mem_filterMap.2 ⟨l.leaf, ?_, f5⟩
      unfold unspentFrom
      refine List.mem_filter.2 ⟨?_, by simp [p1]⟩
      rw [List.mem_range'_1]
      exact ⟨by omega, by have := h.outputs.inRange _ p1; omega⟩
    · rw [← l2]
      simp only [List.getD_eq_getElem?_getD, f1, f2, Option.getD_some]

/-! ## The search -/

theorem drop_from (s : State) (k : Nat) : ∀ (j a l : Nat), s.leaves.length - a = j →
    ((unspentFrom s a).take k).getLast? = some l → (unspentFrom s a).drop k = unspentFrom s (l + 1) ∧ a ≤ l ∧ l < s.leaves.length := by
  intro j
  induction j generalizing k with
  | zero =>
    intro a l hj hl
    have : unspentFrom s a = [] := by unfold unspentFrom; rw [hj]; rfl
    rw [this] at hl
    simp at hl
  | succ j ih =>
    intro a l hj hl
    rw [from_succ s a (by omega)] at hl ⊢
    by_cases hu : a ∈ s.unspent
    · rw [if_pos hu] at hl ⊢
      cases k with
      | zero => simp at hl
      | succ k =>
        rw [List.take_succ_cons] at hl
        rw [List.drop_succ_cons]
        cases hr : (unspentFrom s (a + 1)).take k with
        | nil =>
          rw [hr] at hl
          simp only [List.getLast?_singleton, Option.some.injEq] at hl
          subst hl
          refine ⟨?_, Nat.le_refl _, by omega⟩
          rcases List.take_eq_nil_iff.1 hr with hk | hk
          · subst hk; rfl
          · rw [hk]; simp
        | cons x xs =>
          rw [hr, List.getLast?_cons_cons, ← hr] at hl
          obtain ⟨i1, i2, i3⟩ := ih k (a + 1) l (by omega) hl
          exact ⟨i1, by omega, i3⟩
    · rw [if_neg hu] at hl ⊢
      obtain ⟨i1, i2, i3⟩ := ih k (a + 1) l (by omega) hl
      exact ⟨i1, by omega, i3⟩

private theorem take_nil_from {s : State} {a : Nat} (h : ((unspentFrom s a).take 1000).getLast? = none) : unspentFrom s a = [] := by
  rw [List.getLast?_eq_none_iff, List.take_eq_nil_iff] at h
  rcases h with h | h
  · omega
  · exact h

private theorem mem_from {s : State} {a n : Nat} (hn : n ∈ s.unspent) (ha : a ≤ n) (hlt : n < s.leaves.length) :
    n ∈ unspentFrom s a := by
  unfold unspentFrom
  refine List.mem_filter.2 ⟨?_, by simp [hn]⟩
  rw [List.mem_range'_1]
  omega

private theorem ask_eq {H : Bytes → Bytes} {states : Nat → DB × THS} {k : Nat} {s : State}
    (h : Holds H (states k).1 (states k).2 s) (hi : Indexed (states k).1 s) (hb : leafPos s.leaves.length < 2 ^ 64) (a : Nat) :
    askNode states k a = .ok (some ⟨s.leaves.length - 1,
      (((unspentFrom s a).take 1000).getLast?).getD 0, (entriesFrom (states k).1 s a).take 1000⟩) := by
  unfold askNode
  rw [outputs_listed H _ _ s h hi hb a 1000]
  rfl

private theorem entries_split {H : Bytes → Bytes} {db : DB} {t : THS} {s : State} (h : Holds H db t s) (hi : Indexed db s) {a l : Nat}
    (hl : ((unspentFrom s a).take 1000).getLast? = some l) :
    entriesFrom db s a = (entriesFrom db s a).take 1000 ++ entriesFrom db s (l + 1) := by
  have key : ∀ (k : Nat) (xs : List Nat), (∀ n ∈ xs, n ∈ s.unspent) →
      (xs.filterMap (entryAt db s)).drop k = (xs.drop k).filterMap (entryAt db s) := by
    intro k
    induction k with
    | zero => intro xs _; simp
    | succ k ih =>
      intro xs hx
      cases xs with
      | nil => simp
      | cons n xs =>
        obtain ⟨d, p, lo, -, -, -, -, e5⟩ := entry_some h hi (hx n (by simp))
        rw [List.filterMap_cons, e5]
        simp only
        rw [List.drop_succ_cons, List.drop_succ_cons, ih xs (fun m hm => hx m (by simp [hm]))]
  have hsub : ∀ n ∈ unspentFrom s a, n ∈ s.unspent := by
    intro n hn
    unfold unspentFrom at hn
    exact of_decide_eq_true (List.mem_filter.1 hn).2
  have hd : entriesFrom db s (l + 1) = (entriesFrom db s a).drop 1000 := by
    unfold entriesFrom
    rw [key 1000 _ hsub, (drop_from s 1000 _ a l rfl hl).1]
  rw [hd, List.take_append_drop]

private theorem search_spec {H : Bytes → Bytes} {W : Type} (mine : Listed → Option W) {db : DB} {t : THS} {s : State}
    (h : Holds H db t s) (hi : Indexed db s) (hb : leafPos s.leaves.length < 2 ^ 64)
    (htop : s.leaves.length - 1 ∈ s.unspent) (h2 : 2 ≤ s.leaves.length) :
    ∀ (f k a highest : Nat) (found : List W), s.leaves.length < f + a → a < s.leaves.length →
      (highest = 0 ∨ highest = s.leaves.length - 1) →
      restoreLoop (askNode fun _ => (db, t)) mine f k a highest found =
        .ok (found ++ (entriesFrom db s a).filterMap mine, some (s.leaves.length - 1)) := by
  intro f
  induction f with
  | zero => intro k a highest found hf ha; omega
  | succ f ih =>
    intro k a highest found hf ha hh
    unfold restoreLoop
    rw [ask_eq (states := fun _ => (db, t)) h hi hb a, Res.ok_bind]
    simp only
    have hm := mem_from htop (show a ≤ s.leaves.length - 1 by omega) (by omega)
    cases hl : ((unspentFrom s a).take 1000).getLast? with
    | none => rw [take_nil_from hl] at hm; cases hm
    | some l =>
      obtain ⟨d1, d2, d3⟩ := drop_from s 1000 _ a l rfl hl
      simp only [Option.getD_some]
      have hl0 : l ≠ 0 := by
        intro h0
        subst h0
        have ha0 : a = 0 := by omega
        subst ha0
        -- the last of the first 1000 cannot be leaf 0, as there is a later one
        have hlast := List.mem_of_getLast? hl
        have hmem := List.mem_of_mem_take hlast
        rw [from_succ s 0 (by omega)] at hl hm
        by_cases hu : (0 : Nat) ∈ s.unspent
        · rw [if_pos hu] at hl hm
          rcases List.mem_cons.1 hm with h0 | h1
          · omega
          · cases hr : unspentFrom s (0 + 1) with
            | nil => rw [hr] at h1; cases h1
            | cons x xs =>
              rw [hr, List.take_succ_cons, List.take_succ_cons, List.getLast?_cons_cons] at hl
              have := List.mem_of_mem_take (List.mem_of_getLast? (show (List.take 999 (x :: xs)).getLast? = some 0 from hl))
              rw [← hr] at this
              unfold unspentFrom at this
              have := List.mem_range'_1.1 (List.mem_filter.1 this).1
              omega
        · exact hu (by
            unfold unspentFrom at hmem
            exact of_decide_eq_true (List.mem_filter.1 hmem).2)
      rw [if_neg hl0]
      have hhi : (if highest = 0 then s.leaves.length - 1 else highest) = s.leaves.length - 1 := by
        split <;> omega
      rw [hhi]
      have hsp := entries_split h hi hl
      by_cases he : l + 1 > s.leaves.length - 1
      · rw [if_pos he]
        have : entriesFrom db s (l + 1) = [] := by
          have hle : l = s.leaves.length - 1 := by omega
          unfold entriesFrom unspentFrom
          rw [show s.leaves.length - (l + 1) = 0 by omega]
          rfl
        rw [this, List.append_nil] at hsp
        rw [← hsp, show l = s.leaves.length - 1 by omega]
      · rw [if_neg he, ih (k + 1) (l + 1) _ _ (by omega) (by omega) (.inr rfl)]
        conv_rhs => rw [hsp]
        rw [List.filterMap_append, List.append_assoc]

/-- **C83, while the chain stands still.**  If the last output of the chain is unspent, as it is after every block with an
output, the search ends and finds exactly the wallet's outputs among the unspent ones from the first leaf not searched
yet, and the index saved is that of the last output; if there is no new output, nothing is found or saved.

Partial: the chain must not change during the search or be reorganised before the next. -/
theorem restore_finds_partial (H : Bytes → Bytes) {W : Type} (mine : Listed → Option W) (db : DB) (t : THS) (s : State)
    (h : Holds H db t s) (hi : Indexed db s) (hb : leafPos s.leaves.length < 2 ^ 64)
    (htop : s.leaves.length - 1 ∈ s.unspent) (h2 : 2 ≤ s.leaves.length) (saved : Nat) (fromGenesis : Bool) (fuel : Nat)
    (hf : s.leaves.length < fuel) :
    let start := if fromGenesis then 0 else saved + 1
    findAndRewind (askNode fun _ => (db, t)) mine fuel saved fromGenesis =
      .ok ((entriesFrom db s start).filterMap mine, if start < s.leaves.length then some (s.leaves.length - 1) else none) := by
  intro start
  unfold findAndRewind
  show restoreLoop _ _ fuel 0 start 0 [] = _
  by_cases hs : start < s.leaves.length
  · rw [if_pos hs, search_spec mine h hi hb htop h2 fuel 0 start 0 [] (by omega) hs (.inl rfl), List.nil_append]
  · rw [if_neg hs]
    obtain ⟨f, rfl⟩ : ∃ f, fuel = f + 1 := ⟨fuel - 1, by omega⟩
    unfold restoreLoop
    rw [ask_eq (states := fun _ => (db, t)) h hi hb start, Res.ok_bind]
    have hu : unspentFrom s start = [] := by
      unfold unspentFrom
      rw [show s.leaves.length - start = 0 by omega]
      rfl
    simp only [hu, List.take_nil, List.getLast?_nil, Option.getD_none, if_true]
    unfold entriesFrom
    rw [hu]
    rfl

/-- **C83 violated: a reorganisation before the next search.**  Whatever outputs of the wallet the present chain has up to
the index saved from the former chain, the search does not look at them, and they stay unknown. -/
theorem restore_after_reorg_violated (H : Bytes → Bytes) {W : Type} (mine : Listed → Option W) (states : Nat → DB × THS) (s : State)
    (h : Holds H (states 0).1 (states 0).2 s) (hi : Indexed (states 0).1 s) (hb : leafPos s.leaves.length < 2 ^ 64)
    (saved : Nat) (hs : s.leaves.length ≤ saved + 1) (fuel : Nat) :
    findAndRewind (askNode states) mine (fuel + 1) saved false = .ok ([], none) := by
  unfold findAndRewind restoreLoop
  rw [if_neg (by simp), ask_eq h hi hb (saved + 1), Res.ok_bind]
  have hu : unspentFrom s (saved + 1) = [] := by
    unfold unspentFrom
    rw [show s.leaves.length - (saved + 1) = 0 by omega]
    rfl
  simp only [hu, List.take_nil, List.getLast?_nil, Option.getD_none, if_true]

/-- **C83 violated: a reorganisation during the search.**  If the chain becomes shorter after the first answer, so that the
second is empty, everything found so far is thrown away. -/
theorem restore_discards_violated (H : Bytes → Bytes) {W : Type} (mine : Listed → Option W) (states : Nat → DB × THS)
    (s s' : State) (h : Holds H (states 0).1 (states 0).2 s) (hi : Indexed (states 0).1 s)
    (h' : Holds H (states 1).1 (states 1).2 s') (hi' : Indexed (states 1).1 s') (hb : leafPos s.leaves.length < 2 ^ 64)
    (hb' : leafPos s'.leaves.length < 2 ^ 64) (l : Nat) (hl : ((unspentFrom s 0).take 1000).getLast? = some l) (hl0 : l ≠ 0)
    (hmore : l + 1 ≤ s.leaves.length - 1) (hshort : ∀ n ∈ s'.unspent, n ≤ l) (fuel saved : Nat) :
    findAndRewind (askNode states) mine (fuel + 2) saved true = .ok ([], none) := by
  unfold findAndRewind restoreLoop
  rw [if_pos rfl, ask_eq h hi hb 0, Res.ok_bind]
  simp only [hl, Option.getD_some]
  rw [if_neg hl0]
  simp only [if_true]
  rw [if_neg (show ¬ l + 1 > s.leaves.length - 1 by omega)]
  unfold restoreLoop
  rw [ask_eq (k := 0 + 1) h' hi' hb' (l + 1), Res.ok_bind]
  have hu : unspentFrom s' (l + 1) = [] := by
    rw [List.eq_nil_iff_forall_not_mem]
    intro n hn
    unfold unspentFrom at hn
    obtain ⟨n1, n2⟩ := List.mem_filter.1 hn
    have := hshort n (of_decide_eq_true n2)
    have := List.mem_range'_1.1 n1
    omega
  simp only [hu, List.take_nil, List.getLast?_nil, Option.getD_none, if_true]

/-! ## Concrete chains -/

def rHeader (height : Nat) (prev : Bytes) : Header :=
  { version := 1, height := height, timestamp := 0, prevHash := prev, prevRoot := [], outputRoot := [],
    rangeProofRoot := [], kernelRoot := [], offset := [], outputMMRSize := 0, kernelMMRSize := 0,
    totalDifficulty := 0, scaling := 0, nonce := 0, pow := ⟨0, [], []⟩ }

def rHash (h : Header) : Bytes := [UInt8.ofNat h.height]
def rDB : DB := ⟨fun _ => none, fun _ => none, fun _ => none, fun _ => none⟩

/-- The state after a list of blocks. -/
def rRun : List Block → Option (DB × THS) → Option (DB × THS)
  | [], r => r
  | _, none => none
  | b :: bs, some (db, t) =>
    match applyBlock .testing toyHash rHash db t b with
    | .ok (some r) => rRun bs (some r)
    | _ => none

def rB1 : Block := ⟨rHeader 1 [0], ⟨[], [⟨0, [7], [1]⟩, ⟨0, [8], [2]⟩], []⟩⟩
def rB2 : Block := ⟨rHeader 2 [1], ⟨[⟨0, [7]⟩], [⟨0, [10], [3]⟩], []⟩⟩
def rStart : Option (DB × THS) := some (rDB, emptySet (rHeader 0 []))
private def rMine (e : Listed) : Option Bytes := if e.id = [0, 9] then none else some e.id

/-- Three outputs, the first of them spent: the other two are listed. -/
example : (rRun [rB1, rB2] rStart).map (fun w => decide (outputsByLeafIndex w.1 w.2 0 10 = .ok ⟨2, 2,
    [⟨[0, 8], ⟨1, 1⟩, proofSer [2]⟩, ⟨[0, 10], ⟨2, 2⟩, proofSer [3]⟩]⟩)) = some true := by decide +kernel

/-- One at a time. -/
example : (rRun [rB1, rB2] rStart).map (fun w => decide (outputsByLeafIndex w.1 w.2 0 1 = .ok ⟨2, 1, [⟨[0, 8], ⟨1, 1⟩, proofSer [2]⟩]⟩))
    = some true := by decide +kernel

/-- The hypotheses of `reachable_indexed`, `outputs_listed` and `restore_finds_partial`. -/
example : ∃ db t s, Holds toyHash db t s ∧ Indexed db s ∧ s.leaves = [[0, 7], [0, 8]] := by
  have e : ∃ db t, applyBlock .testing toyHash rHash rDB (emptySet (rHeader 0 [])) rB1 = .ok (some (db, t)) := by
    have h : (match applyBlock .testing toyHash rHash rDB (emptySet (rHeader 0 [])) rB1 with
      | .ok (some _) => true | _ => false) = true := by decide +kernel
    split at h
    · rename_i r e; exact ⟨r.1, r.2, e⟩
    · cases h
  obtain ⟨db, t, e⟩ := e
  obtain ⟨s, h1, h2, h3, -⟩ := reachable_indexed .testing toyHash rHash rDB (rHeader 0 []) (fun _ => rfl) [rB1] _ t
    (.snoc .nil e rfl rfl) (by decide +kernel) (by decide +kernel) (by decide)
  exact ⟨_, t, s, h1, h2, h3⟩

/-- The search finds the wallet's outputs and saves the index of the last. -/
example : (rRun [rB1, rB2] rStart).map (fun w => decide (findAndRewind (askNode fun _ => w) rMine 10 0 true =
    .ok ([[0, 8], [0, 10]], some 2))) = some true := by decide +kernel

/-- **C83 violated.**  The wallet has searched a chain with three outputs; now the chain is the one with two; the search
finds neither. -/
theorem restore_after_reorg_case_violated :
    (match rRun [rB1, rB2] rStart, rRun [rB1] rStart with
     | some a, some b => decide (findAndRewind (askNode fun _ => a) rMine 10 0 true = .ok ([[0, 8], [0, 10]], some 2)) &&
         decide (findAndRewind (askNode fun _ => b) rMine 10 2 false = .ok ([], none)) &&
         decide (findAndRewind (askNode fun _ => b) rMine 10 2 true = .ok ([[0, 7], [0, 8]], some 1))
     | _, _ => false) = true := by decide +kernel

/-- **C83 violated.**  With the last output spent the search finds nothing, though one of the wallet's outputs is unspent. -/
theorem restore_last_spent_violated :
    (rRun [rB1, rB2, ⟨rHeader 3 [2], ⟨[⟨0, [10]⟩], [], []⟩⟩] rStart).map (fun w =>
      decide (outputsByLeafIndex w.1 w.2 0 1000 = .ok ⟨2, 1, [⟨[0, 8], ⟨1, 1⟩, proofSer [2]⟩]⟩) &&
      decide (findAndRewind (askNode fun _ => w) rMine 10 0 true = .ok ([], none))) = some true := by decide +kernel

end Verif.Props
