import Verif.Tx.SavePos
import Verif.Props.Restore

/-!
# C140: after a snapshot the node knows exactly the outputs of the snapshot

`Holds` and `Indexed` say that a chain state is stored correctly and that the database has exactly the positions of its unspent
outputs (C36, C82); `coin` is a lookup by commitment.
-/
namespace Verif.Props
open Verif.PoW Verif.Tx Verif.MMR

/-- No two unspent outputs have the same commitment. -/
def Distinct (s : State) : Prop :=
  ∀ i j d e, i ∈ s.unspent → j ∈ s.unspent → s.leaves[i]? = some d → s.leaves[j]? = some e → idCommit d = idCommit e → i = j

/-- The headers of a chain up to a height, with their numbers of outputs: the chain has them all, and the last has as many outputs as
the snapshot. -/
structure HeadersFor (chain : Nat → Option Bytes) (db : DB) (t : THS) (s : State) (hs : Nat → Header) : Prop where
  known : ∀ k ≤ t.header.height, (chain k).bind db.header = some (hs k)
  height : ∀ k ≤ t.header.height, (hs k).height = k
  mono : ∀ k < t.header.height, numOutputs (hs k) ≤ numOutputs (hs (k + 1))
  last : numOutputs (hs t.header.height) = s.leaves.length

/-- The output was created by the block of this height: its header is the first that counts it. -/
def CreatedAt (hs : Nat → Header) (leaf height : Nat) : Prop :=
  leaf < numOutputs (hs height) ∧ ∀ k < height, numOutputs (hs k) ≤ leaf

private theorem leaves_saved {o : PMMR} {s : State} (hd : Distinct s)
    (hget : ∀ n, o.getAt n = .ok (if n ∈ s.unspent then s.leaves[n]? else none)) (height : Nat) (n : Nat) :
    ∀ (leaf : Nat) (db : DB), ∃ db', saveLeaves o height n leaf db = .ok db' ∧ db'.header = db.header ∧
      (∀ i d, leaf ≤ i → i < leaf + n → i ∈ s.unspent → s.leaves[i]? = some d → db'.pos (idCommit d) = some ⟨i, height⟩) ∧
      (∀ c, (∀ i d, leaf ≤ i → i < leaf + n → i ∈ s.unspent → s.leaves[i]? = some d → idCommit d ≠ c) →
        db'.pos c = db.pos c) := by
  induction n with
  | zero =>
    intro leaf db
    exact ⟨db, rfl, rfl, fun i d h1 h2 => by omega, fun _ _ => rfl⟩
  | succ n ih =>
    intro leaf db
    unfold saveLeaves
    rw [hget leaf, Res.ok_bind]
    have skip : (if leaf ∈ s.unspent then s.leaves[leaf]? else none) = none →
        ∀ i d, leaf ≤ i → i ∈ s.unspent → s.leaves[i]? = some d → leaf + 1 ≤ i := by
      intro he i d h1 h3 h4
      rcases Nat.lt_or_ge leaf i with h | h
      · exact h
      · have : i = leaf := by omega
        subst this
        rw [if_pos h3, h4] at he
        cases he
    cases he : (if leaf ∈ s.unspent then s.leaves[leaf]? else none) with
    | none =>
      obtain ⟨db', e, h0, hA, hB⟩ := ih (leaf + 1) db
      refine ⟨db', e, h0, ?_, ?_⟩
      · intro i d h1 h2 h3 h4
        exact hA i d (skip he i d h1 h3 h4) (by omega) h3 h4
      · intro c hc
        exact hB c fun i d h1 h2 => hc i d (by omega) (by omega)
    | some d0 =>
      obtain ⟨hu, hl⟩ : leaf ∈ s.unspent ∧ s.leaves[leaf]? = some d0 := by
        by_cases hu : leaf ∈ s.unspent
        · rw [if_pos hu] at he; exact ⟨hu, he⟩
        · rw [if_neg hu] at he; cases he
      obtain ⟨db', e, h0, hA, hB⟩ := ih (leaf + 1) (db.addPos (idCommit d0) ⟨leaf, height⟩)
      refine ⟨db', e, h0, ?_, ?_⟩
      · intro i d h1 h2 h3 h4
        rcases Nat.lt_or_ge leaf i with h | h
        · exact hA i d h (by omega) h3 h4
        · have : i = leaf := by omega
          subst this
          rw [hl] at h4
          injection h4 with h4
          subst h4
          rw [hB _ fun j e' g1 g2 g3 g4 hne => by
            have := hd j i e' d0 g3 hu g4 hl hne
            omega]
          simp [DB.addPos]
      · intro c hc
        rw [hB c fun i d h1 h2 => hc i d (by omega) (by omega)]
        have : c ≠ idCommit d0 := fun h => hc leaf d0 (Nat.le_refl _) (by omega) hu hl h.symm
        simp [DB.addPos, this]

/-- **C140.**  Whatever the database held before: after a snapshot was taken over, every unspent output of it is recorded at its
place and with the height of the block that created it, and the entry of any other commitment is as it was. -/
theorem positions_saved (H : Bytes → Bytes) (chain : Nat → Option Bytes) (db : DB) (t : THS) (s : State) (hs : Nat → Header)
    (ho : Stores H t.outputs s.leaves s.unspent) (hb : leafPos s.leaves.length < 2 ^ 64) (hd : Distinct s)
    (hh : HeadersFor chain db t s hs) :
    ∃ db', savePositions chain db t = .ok db' ∧
      (∀ i d, i ∈ s.unspent → s.leaves[i]? = some d →
        ∃ k, db'.pos (idCommit d) = some ⟨i, k⟩ ∧ CreatedAt hs i k) ∧
      (∀ c, (∀ i d, i ∈ s.unspent → s.leaves[i]? = some d → idCommit d ≠ c) → db'.pos c = db.pos c) := by
  have hget := (pruned_get H _ _ _ ho hb).1
  have key : ∀ m, m ≤ t.header.height + 1 → ∃ r, (List.range m).foldlM (saveHeight chain t.outputs) (0, db) = .ok r ∧
      r.1 = (if m = 0 then 0 else numOutputs (hs (m - 1))) ∧ r.2.header = db.header ∧
      (∀ i d, i < r.1 → i ∈ s.unspent → s.leaves[i]? = some d →
        ∃ k, k < m ∧ r.2.pos (idCommit d) = some ⟨i, k⟩ ∧ CreatedAt hs i k) ∧
      (∀ c, (∀ i d, i ∈ s.unspent → s.leaves[i]? = some d → idCommit d ≠ c) → r.2.pos c = db.pos c) := by
    intro m
    induction m with
    | zero =>
      intro _
      exact ⟨(0, db), rfl, rfl, rfl, fun i d h => by simp at h, fun _ _ => rfl⟩
    | succ m ih =>
      intro hm
      obtain ⟨⟨leaf, db1⟩, e, e1, e2, hA, hB⟩ := ih (by omega)
      simp only at e1 e2 hA hB
      rw [List.range_succ, List.foldlM_append, e]
      have hk := hh.known m (by omega)
      obtain ⟨db', f, f0, fA, fB⟩ := leaves_saved hd hget m (numOutputs (hs m) - leaf) leaf db1
      have hstep : saveHeight chain t.outputs (leaf, db1) m = .ok (max leaf (numOutputs (hs m)), db') := by
        unfold saveHeight
        rw [e2, hk]
        simp only
        rw [hh.height m (by omega), f]
        rfl
      have hmono : leaf ≤ numOutputs (hs m) := by
        rw [e1]
        by_cases h0 : m = 0
        · rw [if_pos h0]; omega
        · rw [if_neg h0]
          have := hh.mono (m - 1) (by omega)
          rwa [show m - 1 + 1 = m by omega] at this
      have hbelow : ∀ k < m, numOutputs (hs k) ≤ leaf := by
        intro k hkm
        rw [e1, if_neg (by omega)]
        have : ∀ j, k + j ≤ m - 1 → numOutputs (hs k) ≤ numOutputs (hs (k + j)) := by
          intro j
          induction j with
          | zero => intro _; exact Nat.le_refl _
          | succ j ihj =>
            intro hj
            exact Nat.le_trans (ihj (by omega)) (hh.mono (k + j) (by omega))
        have h := this (m - 1 - k) (by omega)
        rwa [show k + (m - 1 - k) = m - 1 by omega] at h
      refine ⟨(max leaf (numOutputs (hs m)), db'), ?_, ?_, ?_, ?_, ?_⟩
      · show (Res.ok (leaf, db1) >>= fun s' => List.foldlM (saveHeight chain t.outputs) s' [m]) = _
        rw [Res.ok_bind, List.foldlM_cons, hstep]
        rfl
      · simp only [Nat.add_sub_cancel]
        rw [if_neg (by omega)]
        exact Nat.max_eq_right hmono
      · rw [f0, e2]
      · intro i d hi hu hl
        simp only [Nat.max_eq_right hmono] at hi
        by_cases hil : i < leaf
        · obtain ⟨k, k1, k2, k3⟩ := hA i d hil hu hl
          refine ⟨k, by omega, ?_, k3⟩
          show db'.pos _ = _
          rw [fB _ fun j e' g1 g2 g3 g4 hne => by
            have := hd j i e' d g3 hu g4 hl hne
            omega]
          exact k2
        · exact ⟨m, by omega, fA i d (by omega) (by omega) hu hl, hi, fun k hk => Nat.le_trans (hbelow k hk) (by omega)⟩
      · intro c hc
        show db'.pos c = _
        rw [fB c fun i d _ _ => hc i d]
        exact hB c hc
  obtain ⟨r, e, e1, _, hA, hB⟩ := key (t.header.height + 1) (Nat.le_refl _)
  refine ⟨r.2, ?_, ?_, hB⟩
  · unfold savePositions
    rw [e]
    rfl
  · intro i d hu hl
    have hi : i < r.1 := by
      rw [e1, if_neg (by omega), Nat.add_sub_cancel, hh.last]
      exact ho.inRange i hu
    obtain ⟨k, _, k2, k3⟩ := hA i d hi hu hl
    exact ⟨k, k2, k3⟩

/-- **C140**, as far as it holds: if the database had no positions (a new node, or one told to start over), then after
the snapshot the chain state is stored correctly and has exactly the positions of its unspent outputs: everything proved of such
states — which blocks can be applied, what lookups and lists give, that blocks can be undone — holds from here on. -/
theorem snapshot_taken_over_partial (H : Bytes → Bytes) (chain : Nat → Option Bytes) (db : DB) (t : THS) (s : State)
    (hs : Nat → Header) (ho : Stores H t.outputs s.leaves s.unspent) (hp : Stores H t.proofs s.proofs s.unspent)
    (hsame : s.proofs.length = s.leaves.length) (hk : kmmrOf H s.kernels = .ok t.kernels)
    (hb : leafPos s.leaves.length < 2 ^ 64) (hd : Distinct s) (hh : HeadersFor chain db t s hs)
    (hempty : ∀ c, db.pos c = none) :
    ∃ db', savePositions chain db t = .ok db' ∧ Holds H db' t s ∧ Indexed db' s ∧
      ∀ c, coin db' t c = .ok none ↔ ∀ i d, i ∈ s.unspent → s.leaves[i]? = some d → idCommit d ≠ c := by
  obtain ⟨db', e, hA, hB⟩ := positions_saved H chain db t s hs ho hb hd hh
  have hpos : ∀ c l, db'.pos c = some l → l.leaf ∈ s.unspent ∧ (s.leaves[l.leaf]?).map idCommit = some c := by
    intro c l hl
    by_cases hc : ∀ i d, i ∈ s.unspent → s.leaves[i]? = some d → idCommit d ≠ c
    · rw [hB c hc, hempty] at hl
      cases hl
    · simp only [not_forall, not_not] at hc
      obtain ⟨i, d, hu, hi, rfl⟩ := hc
      obtain ⟨k, hk1, _⟩ := hA i d hu hi
      rw [hk1] at hl
      injection hl with hl
      subst hl
      exact ⟨hu, by rw [hi]; rfl⟩
  have hH : Holds H db' t s := ⟨ho, hp, hsame, hk, hpos⟩
  refine ⟨db', e, hH, ?_, ?_⟩
  · intro i d hu hi
    obtain ⟨k, hk1, _⟩ := hA i d hu hi
    exact ⟨_, hk1, rfl⟩
  · intro c
    rw [coin_eq hH hb]
    constructor
    · intro h i d hu hi hc
      obtain ⟨k, hk1, _⟩ := hA i d hu hi
      rw [hc] at hk1
      rw [hk1] at h
      cases h
    · intro h
      rw [hB c h, hempty]
      rfl

private theorem distinct_of_indexed {db : DB} {s : State} (h : Indexed db s) : Distinct s := by
  intro i j d e hi hj hd he hc
  obtain ⟨l, h1, h2⟩ := h i d hi hd
  obtain ⟨l', h1', h2'⟩ := h j e hj he
  rw [hc, h1'] at h1
  injection h1 with h1
  rw [← h2, ← h2', h1]

/-- **C140 is violated**: a node that has been away takes over a snapshot of the chain as it went on, by one block here, without
forgetting the positions of what was spent meanwhile.  For each output the block spent, which a node that saw it does not find: the position is
still there, so the node calls the output unspent; looking it up fails; and a block that names it first makes the node
dereference a null pointer, where a node that saw it refuses the block. -/
theorem spent_output_kept_violated (env : Env) (H : Bytes → Bytes) (hh : Header → Bytes) (chain : Nat → Option Bytes) (db : DB)
    (t : THS) (s : State) (hs : Nat → Header) (b : Block) (h : Holds H db t s) (hi : Indexed db s)
    (hb : leafPos (s.leaves.length + b.body.outputs.length) < 2 ^ 64)
    (hk : leafPos (s.kernels.length + b.body.kernels.length) < 2 ^ 64)
    (hcut : ∀ i ∈ b.body.inputs, ∀ o ∈ b.body.outputs, i.commit ≠ o.commit) (db1 : DB) (t1 : THS)
    (e : applyBlock env H hh db t b = .ok (some (db1, t1))) (hhd : HeadersFor chain db t1 (s.next db b) hs) :
    ∃ db', savePositions chain db t1 = .ok db' ∧ ∀ i ∈ b.body.inputs,
      coin db1 t1 i.commit = .ok none ∧ (∃ l, db'.pos i.commit = some l) ∧ coin db' t1 i.commit = .throw ∧
      ∀ b2 : Block, (b2.body.inputs.map (·.commit)).head? = some i.commit →
        applyBlock env H hh db' t1 b2 = .ub ∧ applyBlock env H hh db1 t1 b2 = .ok none := by
  have ha := applyBlock_only h hb e
  have heff := (apply_effect env H hh db t s b h hb hk db1 t1 e).1
  obtain ⟨t2, e1, hH, _⟩ := applyBlock_ok (hh := hh) h hb hk ha
  rw [e] at e1
  injection e1 with e1
  injection e1 with e1
  injection e1 with q1 q2
  subst q1; subst q2
  have hind := next_indexed hh h hi ha hcut
  have hb1 : leafPos (s.next db b).leaves.length < 2 ^ 64 := by simpa [State.next] using hb
  have hd := distinct_of_indexed hind
  obtain ⟨db', f, _, hB⟩ := positions_saved H chain db t1 (s.next db b) hs hH.outputs hb1 hd hhd
  refine ⟨db', f, ?_⟩
  intro i himem
  have hnone : (dbAfter hh db s.leaves.length b).pos i.commit = none := by
    simp only [dbAfter, DB.removePos]
    rw [if_pos (List.mem_map_of_mem himem)]
  have hgone : ∀ j d, j ∈ (s.next db b).unspent → (s.next db b).leaves[j]? = some d → idCommit d ≠ i.commit := by
    intro j d hj hd' hc
    obtain ⟨l, hl, _⟩ := hind j d hj hd'
    rw [hc, hnone] at hl
    cases hl
  obtain ⟨l, d0, hl, hu, hleaf, _⟩ := ha.spendable i himem
  have hpos' : db'.pos i.commit = some l := by rw [hB _ hgone, hl]
  have hcommit := (h.pos i.commit l hl).2
  rw [hleaf] at hcommit
  simp only [Option.map_some, Option.some.injEq] at hcommit
  have hlt : l.leaf < s.leaves.length := h.outputs.inRange _ hu
  have hleaf' : (s.next db b).leaves[l.leaf]? = some d0 := by
    simp only [State.next]
    rw [List.getElem?_append_left hlt, hleaf]
  have hnot : l.leaf ∉ (s.next db b).unspent := fun hm => hgone _ _ hm hleaf' hcommit
  have hg1 := (pruned_get H _ _ _ hH.outputs hb1).1 l.leaf
  have hg2 := (pruned_get H _ _ _ hH.proofs (by rw [hH.same]; exact hb1)).1 l.leaf
  rw [if_neg hnot] at hg1 hg2
  refine ⟨?_, ⟨l, hpos'⟩, ?_, ?_⟩
  · rw [heff, if_pos (List.mem_map_of_mem himem)]
  · unfold coin
    rw [hpos']
    simp only [hg1, hg2, Res.ok_bind]
  · intro b2 hb2
    cases hin : b2.body.inputs with
    | nil => rw [hin] at hb2; cases hb2
    | cons j js =>
      rw [hin] at hb2
      simp only [List.map_cons, List.head?_cons, Option.some.injEq] at hb2
      constructor
      · unfold applyBlock
        rw [hin]
        unfold spendInputs
        rw [hb2, hpos']
        simp only [hg1, Res.ok_bind]
        rfl
      · unfold applyBlock
        rw [hin]
        unfold spendInputs
        rw [hb2, hnone]
        rfl

/-! ## Cases -/

/-- A header with a number of outputs. -/
private def sHeader (height : Nat) (prev : Bytes) (outs : Nat) : Header :=
  { version := 1, height := height, timestamp := 0, prevHash := prev, prevRoot := [], outputRoot := [],
    rangeProofRoot := [], kernelRoot := [], offset := [], outputMMRSize := leafPos outs, kernelMMRSize := 0,
    totalDifficulty := 0, scaling := 0, nonce := 0, pow := ⟨0, [], []⟩ }

private def sDB : DB where
  pos := fun _ => none
  spent := fun _ => none
  block := fun _ => none
  header := fun x => if x = [0] then some (sHeader 0 [] 0) else if x = [1] then some (sHeader 1 [0] 2) else
    if x = [2] then some (sHeader 2 [1] 3) else if x = [3] then some (sHeader 1 [0] 2) else none

private def sChain (n : Nat) : Option Bytes := if n < 3 then some [UInt8.ofNat n] else none

/-- Outputs 7 and 8 are created; 7 is spent and 10 created; and another first block, which creates 9 and 8. -/
private def sB1 : Block := ⟨sHeader 1 [0] 2, ⟨[], [⟨0, [7], [1]⟩, ⟨0, [8], [2]⟩], []⟩⟩
private def sB2 : Block := ⟨sHeader 2 [1] 3, ⟨[⟨0, [7]⟩], [⟨0, [10], [3]⟩], []⟩⟩
private def sB1' : Block := ⟨sHeader 1 [0] 2, ⟨[], [⟨0, [9], [1]⟩, ⟨0, [8], [2]⟩], []⟩⟩
private def sStart : Option (DB × THS) := some (sDB, emptySet (sHeader 0 [] 0))

/-- A new node that takes over the snapshot after the second block: 8 and 10 are found with the heights of their blocks, 7 is not. -/
example : (match rRun [sB1, sB2] sStart with
    | some (_, t) => match savePositions sChain sDB t with
      | .ok db => decide (coin db t [7] = .ok none ∧ coin db t [8] = .ok (some ⟨[0, 8], proofSer [2], 1⟩) ∧
          coin db t [10] = .ok (some ⟨[0, 10], proofSer [3], 2⟩))
      | _ => false
    | none => false) = true := by decide +kernel

/-- **C140 is violated**, a case: the node that had only seen the first block still has a position for 7. -/
theorem spent_output_kept_case_violated : (match rRun [sB1] sStart, rRun [sB1, sB2] sStart with
    | some (db, _), some (_, t) => match savePositions sChain db t with
      | .ok db => decide (db.pos [7] = some ⟨0, 1⟩ ∧ coin db t [7] = .throw ∧ coin db t [8] = .ok (some ⟨[0, 8], proofSer [2], 1⟩))
      | _ => false
    | _, _ => false) = true := by decide +kernel

/-- **C140 is violated**: a node that followed another chain takes over the snapshot of the right one, in which output 7 never
existed.  It then applies a block that spends 7, and thereby removes output 9, which nobody spent. -/
theorem other_output_spent_violated : (match rRun [sB1] sStart, rRun [sB1'] sStart with
    | some (db, _), some (_, t) => match savePositions sChain db t with
      | .ok db => decide (coin db t [9] = .ok (some ⟨[0, 9], proofSer [1], 1⟩)) &&
          (match applyBlock .testing toyHash rHash db t ⟨sHeader 2 [1] 2, ⟨[⟨0, [7]⟩], [], []⟩⟩ with
           | .ok (some (db2, t2)) => decide (coin db2 t2 [9] = .throw ∧ t2.outputs.leafSet = {1})
           | _ => false)
      | _ => false
    | _, _ => false) = true := by decide +kernel

end Verif.Props
