import Verif.PoW.CuckooDirected

/-!
# C31 — a proof of work is accepted exactly if its edges form one cycle

The hash that maps an edge nonce to its two endpoints is an arbitrary function `ends`; every theorem holds for all
of them.
-/
namespace Verif.Props

open Verif Verif.PoW

/-! ## The specification -/

/-- The endpoints of a proof, numbered so that edge `n` has the endpoints `2 n` and `2 n + 1`: the node of
endpoint `i`. -/
def nodeOf (ends : Nat → Nat × Nat) (edges : List Nat) (i : Nat) : Nat :=
  let p := ends (edges.getD (i / 2) 0)
  if i % 2 = 0 then p.1 else p.2

/-- `len` edges form a single cycle: every endpoint is near exactly one other endpoint and fits it, and going from
edge to edge through endpoints that are near reaches all edges. -/
structure Cycle (len : Nat) (near fits : Nat → Nat → Prop) : Prop where
  partner : ∀ i < 2 * len, ∃ j < 2 * len, j ≠ i ∧ near i j ∧ fits i j ∧ ∀ k < 2 * len, k ≠ i → near i k → k = j
  connected : ∀ S : Nat → Prop, S 0 →
    (∀ i < 2 * len, ∀ j < 2 * len, near i j → S (i / 2) → S (j / 2)) → ∀ e < len, S e

/-- Bipartite graph (cuckaroo): endpoints of the same side at the same node. -/
def SameNode (ends : Nat → Nat × Nat) (edges : List Nat) (i j : Nat) : Prop :=
  i % 2 = j % 2 ∧ nodeOf ends edges i = nodeOf ends edges j

/-- Bipartite graph of node pairs (cuckatoo): endpoints of the same side in the same pair of nodes. -/
def SamePair (ends : Nat → Nat × Nat) (edges : List Nat) (i j : Nat) : Prop :=
  i % 2 = j % 2 ∧ nodeOf ends edges i / 2 = nodeOf ends edges j / 2

/-- The answer of `Cuckatoo::Validate` (Cuckatoo.cpp:74-90), given the endpoints of the edges. -/
def cuckatooValid (ends : Nat → Nat × Nat) (edgeBits : Nat) (edges : List Nat) : Res Bool :=
  verifyProof (fun len es => verifyCuckatooLen len ends edgeBits es) edges

/-- `Cuckaroo::Validate` (Cuckaroo.cpp:66-82). -/
def cuckarooValid (ends : Nat → Nat × Nat) (edgeBits : Nat) (edges : List Nat) : Res Bool :=
  verifyProof (fun len es => verifyCuckarooLen len ends edgeBits es) edges

/-- `Cuckarooz::Validate` (Cuckarooz.cpp:90-107). -/
def cuckaroozValid (ends : Nat → Nat × Nat) (edges : List Nat) : Res Bool :=
  verifyProof (fun len es => verifyCuckaroozLen len ends es) edges

/-! ## Helpers -/

private theorem cycle_iff {len : Nat} {near fits : Nat → Nat → Prop} :
    Cycle len near fits ↔ TwoRegular len near fits ∧ Connected len near := by
  constructor
  · intro h
    refine ⟨fun i hi => ?_, h.connected⟩
    obtain ⟨j, h1, h2, h3, h4, h5⟩ := h.partner i hi
    exact ⟨j, ⟨h1, h2, h3, h5⟩, h4⟩
  · rintro ⟨h, hc⟩
    refine ⟨fun i hi => ?_, hc⟩
    obtain ⟨j, ⟨h1, h2, h3, h4⟩, h5⟩ := h i hi
    exact ⟨j, h1, h2, h3, h5, h4⟩

private theorem endpoint_map {ends : Nat → Nat × Nat} {edges : List Nat} {i : Nat} (hi : i < 2 * edges.length) :
    endpoint (edges.map ends) i = nodeOf ends edges i := by
  have h : i / 2 < edges.length := by omega
  simp only [endpoint, nodeOf, List.getD_eq_getElem?_getD, List.getElem?_map, List.getElem?_eq_getElem h,
    Option.map_some, Option.getD_some]

private theorem side_zero {ends : Nat → Nat × Nat} {edges : List Nat} :
    (edges.map ends).map (·.1) = ((List.range edges.length).map (2 * ·)).map (nodeOf ends edges) := by
  refine List.ext_getElem (by simp) fun n h1 h2 => ?_
  simp only [List.length_map] at h1
  simp only [List.getElem_map, List.getElem_range, nodeOf]
  rw [if_pos (by omega), show 2 * n / 2 = n by omega]
  simp [List.getD_eq_getElem?_getD, List.getElem?_eq_getElem h1]

private theorem side_one {ends : Nat → Nat × Nat} {edges : List Nat} :
    (edges.map ends).map (·.2) = ((List.range edges.length).map (2 * · + 1)).map (nodeOf ends edges) := by
  refine List.ext_getElem (by simp) fun n h1 h2 => ?_
  simp only [List.length_map] at h1
  simp only [List.getElem_map, List.getElem_range, nodeOf]
  rw [if_neg (by omega), show (2 * n + 1) / 2 = n by omega]
  simp [List.getD_eq_getElem?_getD, List.getElem?_eq_getElem h1]

private theorem regular_xor {len : Nat} {rel good : Nat → Nat → Prop} {f : Nat → Nat} {c : Nat}
    (hsymm : ∀ i j, rel i j → rel j i) (htrans : ∀ i j k, rel i j → rel j k → rel i k)
    (h : TwoRegular len rel good) {l : List Nat} (hnd : l.Nodup) (hl : ∀ i ∈ l, i < 2 * len)
    (hcl : ∀ i ∈ l, ∀ j < 2 * len, rel i j → j ∈ l)
    (hc : ∀ i j, rel i j → good i j → f i ^^^ f j = c) :
    xorOver f l = xorTimes c (l.length / 2) := by
  classical
  let m : Nat → Nat := fun i => if hi : i < 2 * len then (h i hi).choose else 0
  have hm : ∀ i < 2 * len, Mate (2 * len) rel i (m i) ∧ good i (m i) := fun i hi => by
    simp only [m, dif_pos hi]
    exact (h i hi).choose_spec
  refine (xorOver_pairs (m := m) _ l rfl hnd fun i hi => ?_).1
  have hi' := hl i hi
  obtain ⟨hmi, hg⟩ := hm i hi'
  refine ⟨hcl i hi _ hmi.1 hmi.2.2.1, hmi.2.1, ?_, hc _ _ hmi.2.2.1 hg⟩
  exact (hmi.symm hsymm htrans hi').unique (hm _ hmi.1).1

private theorem nodup_evens (n : Nat) : ((List.range n).map (2 * ·)).Nodup :=
  List.Nodup.map (fun a b h => by have h' : 2 * a = 2 * b := h; omega) List.nodup_range

private theorem nodup_odds (n : Nat) : ((List.range n).map (2 * · + 1)).Nodup :=
  List.Nodup.map (fun a b h => by have h' : 2 * a + 1 = 2 * b + 1 := h; omega) List.nodup_range

private theorem mem_evens {n i : Nat} : i ∈ (List.range n).map (2 * ·) ↔ i < 2 * n ∧ i % 2 = 0 := by
  rw [List.mem_map]
  constructor
  · rintro ⟨t, ht, rfl⟩
    rw [List.mem_range] at ht
    omega
  · rintro ⟨h1, h2⟩
    exact ⟨i / 2, by rw [List.mem_range]; omega, by omega⟩

private theorem mem_odds {n i : Nat} : i ∈ (List.range n).map (2 * · + 1) ↔ i < 2 * n ∧ i % 2 = 1 := by
  rw [List.mem_map]
  constructor
  · rintro ⟨t, ht, rfl⟩
    rw [List.mem_range] at ht
    omega
  · rintro ⟨h1, h2⟩
    exact ⟨i / 2, by rw [List.mem_range]; omega, by omega⟩

private theorem sides_xor {len : Nat} {rel good : Nat → Nat → Prop} {f : Nat → Nat} {c : Nat}
    (hsymm : ∀ i j, rel i j → rel j i) (htrans : ∀ i j k, rel i j → rel j k → rel i k)
    (hside : ∀ i j, rel i j → i % 2 = j % 2)
    (h : TwoRegular len rel good) (hc : ∀ i j, rel i j → good i j → f i ^^^ f j = c) :
    xorOver f ((List.range len).map (2 * ·)) = xorTimes c (len / 2) ∧
    xorOver f ((List.range len).map (2 * · + 1)) = xorTimes c (len / 2) := by
  constructor
  · rw [regular_xor hsymm htrans h (nodup_evens len) (fun i hi => (mem_evens.1 hi).1)
      (fun i hi j hj hr => mem_evens.2 ⟨hj, by rw [← hside i j hr]; exact (mem_evens.1 hi).2⟩) hc,
      List.length_map, List.length_range]
  · rw [regular_xor hsymm htrans h (nodup_odds len) (fun i hi => (mem_odds.1 hi).1)
      (fun i hi j hj hr => mem_odds.2 ⟨hj, by rw [← hside i j hr]; exact (mem_odds.1 hi).2⟩) hc,
      List.length_map, List.length_range]

private theorem xor_of_pair {a b : Nat} (h : a / 2 = b / 2) (hne : a ≠ b) : a ^^^ b = 1 := by
  rcases eq_or_eq_xor_one h with h' | h'
  · exact absurd h'.symm hne
  · rw [h', ← Nat.xor_assoc, Nat.xor_self, Nat.zero_xor]

private theorem pow_pred (n : Nat) : 2 ^ n - 1 + 1 = 2 ^ n := Nat.sub_add_cancel (Nat.one_le_two_pow)

/-! ## Cuckatoo -/

private theorem cuckatoo_len {len : Nat} (hlen : 0 < len) {ends : Nat → Nat × Nat} {edgeBits : Nat} {edges : List Nat}
    (hl : edges.length = len) :
    (∃ c, verifyCuckatooLen len ends edgeBits edges = .ok c) ∧
    (verifyCuckatooLen len ends edgeBits edges = .ok .ok ↔ Ascending (2 ^ edgeBits) edges ∧
      Cycle len (SamePair ends edges) (fun i j => nodeOf ends edges i ≠ nodeOf ends edges j)) := by
  have hro := readEdges_ok (mask := 2 ^ edgeBits - 1) (ends := ends) edges none
  rw [verifyCuckatooLen]
  cases hr : readEdges (2 ^ edgeBits - 1) ends none edges with
  | error c =>
    refine ⟨⟨c, rfl⟩, ?_⟩
    constructor
    · intro h
      injection h with h
      exact absurd h (readEdges_error _ _ _ hr)
    · rintro ⟨ha, _⟩
      have := (hro (edges.map ends)).2 ⟨⟨by rw [pow_pred]; exact ha, by simp⟩, rfl⟩
      rw [hr] at this
      cases this
  | ok uvs =>
    obtain ⟨⟨ha, _⟩, rfl⟩ := (hro uvs).1 hr
    rw [pow_pred] at ha
    simp only
    have hsymm : ∀ i j, SamePair ends edges i j → SamePair ends edges j i := fun i j h => ⟨h.1.symm, h.2.symm⟩
    have htrans : ∀ i j k, SamePair ends edges i j → SamePair ends edges j k → SamePair ends edges i k :=
      fun i j k h1 h2 => ⟨h1.1.trans h2.1, h1.2.trans h2.2⟩
    have hstep : ∀ i < 2 * len, ∀ i', followStep (scanOrder (2 * len) 2)
        (fun i k => endpoint (edges.map ends) k >>> 1 == endpoint (edges.map ends) i >>> 1)
        (fun i j => endpoint (edges.map ends) j == endpoint (edges.map ends) i) i = .ok i' ↔
        ∃ j, Mate (2 * len) (SamePair ends edges) i j ∧ nodeOf ends edges i ≠ nodeOf ends edges j ∧ i' = j ^^^ 1 := by
      intro i hi i'
      obtain ⟨h1, h2, h3⟩ := scanOrder_two hi
      have hei := endpoint_map (ends := ends) (edges := edges) (by rw [hl]; exact hi)
      rw [followStep_ok (total := 2 * len) (rel := SamePair ends edges) h1 h2]
      · constructor
        · rintro ⟨j, hm, hb, rfl⟩
          refine ⟨j, hm, ?_, rfl⟩
          rw [hei, endpoint_map (by rw [hl]; exact hm.1)] at hb
          intro hc
          rw [hc] at hb
          simp at hb
        · rintro ⟨j, hm, hb, rfl⟩
          refine ⟨j, hm, ?_, rfl⟩
          rw [hei, endpoint_map (by rw [hl]; exact hm.1)]
          simpa using fun h => hb h.symm
      · intro k
        rw [h3]
        constructor
        · rintro ⟨⟨g1, g2, g3⟩, g4⟩
          refine ⟨g1, g2, g3.symm, ?_⟩
          rw [hei, endpoint_map (by rw [hl]; exact g1), Nat.shiftRight_one, Nat.shiftRight_one, beq_iff_eq] at g4
          exact g4.symm
        · rintro ⟨g1, g2, g3, g4⟩
          refine ⟨⟨g1, g2, g3.symm⟩, ?_⟩
          rw [hei, endpoint_map (by rw [hl]; exact g1), Nat.shiftRight_one, Nat.shiftRight_one, beq_iff_eq]
          exact g4.symm
    obtain ⟨hterm, hiff⟩ := walk_right hsymm htrans (fun i j h => Ne.symm h) hlen hstep
      (fun i c h => followStep_error h)
    rw [cycle_iff, ← hiff]
    by_cases hx : (len / 2 &&& 1 ^^^ xorAll ((edges.map ends).map (·.1)) |||
        (len / 2 &&& 1 ^^^ xorAll ((edges.map ends).map (·.2)))) ≠ 0
    · rw [if_pos hx]
      refine ⟨⟨_, rfl⟩, ?_⟩
      constructor
      · intro h; cases h
      · rintro ⟨_, hw⟩
        exfalso
        apply hx
        obtain ⟨hx0, hx1⟩ := sides_xor hsymm htrans (fun i j h => h.1) (hiff.1 hw).1
          (f := nodeOf ends edges) (c := 1) (fun i j h hne => xor_of_pair h.2 hne)
        rw [side_zero, side_one, xorAll_map, xorAll_map, hl, hx0, hx1, xorTimes_one, Nat.and_one_is_mod]
        simp
    · rw [if_neg hx]
      exact ⟨hterm, ⟨fun h => ⟨ha, h⟩, fun h => h.2⟩⟩

private theorem verifyProof_total {verify : Nat → List Nat → Res Code} {edges : List Nat}
    (h : edges.length = PROOFSIZE → ∃ c, verify PROOFSIZE edges = .ok c) :
    ∃ b, verifyProof verify edges = .ok b := by
  unfold verifyProof
  by_cases hl : edges.length = PROOFSIZE
  · obtain ⟨c, hc⟩ := h hl
    rw [if_neg (by simpa using hl), hc]
    exact ⟨_, rfl⟩
  · rw [if_pos (by simpa using hl)]
    exact ⟨_, rfl⟩

private theorem verifyProof_iff {verify : Nat → List Nat → Res Code} {edges : List Nat} :
    verifyProof verify edges = .ok true ↔ edges.length = PROOFSIZE ∧ verify PROOFSIZE edges = .ok .ok := by
  unfold verifyProof
  by_cases hl : edges.length = PROOFSIZE
  · rw [if_neg (by simpa using hl)]
    cases hv : verify PROOFSIZE edges with
    | ok c => simp [Res.ok_bind, Res.pure_eq, hl]
    | throw => simp [Res.throw_bind]
    | ub => simp [Res.ub_bind]
  · rw [if_pos (by simpa using hl)]
    simp [hl]

/-- **C31, cuckatoo**: a proof is accepted exactly if it has 42 ascending nonces within the graph whose edges form
one cycle, consecutive edges being joined at the two different nodes of a pair. -/
theorem cuckatoo_accepts_iff (ends : Nat → Nat × Nat) (edgeBits : Nat) (edges : List Nat) :
    cuckatooValid ends edgeBits edges = .ok true ↔
      edges.length = 42 ∧ Ascending (2 ^ edgeBits) edges ∧
      Cycle 42 (SamePair ends edges) (fun i j => nodeOf ends edges i ≠ nodeOf ends edges j) := by
  rw [cuckatooValid, verifyProof_iff]
  constructor
  · rintro ⟨hl, h⟩
    exact ⟨hl, ((cuckatoo_len (by decide) hl).2).1 h⟩
  · rintro ⟨hl, h⟩
    exact ⟨hl, ((cuckatoo_len (by decide) hl).2).2 h⟩

/-- **C31, cuckatoo**: verification ends with an answer, whatever the nonces and the hash. -/
theorem cuckatoo_answers (ends : Nat → Nat × Nat) (edgeBits : Nat) (edges : List Nat) :
    ∃ b, cuckatooValid ends edgeBits edges = .ok b :=
  verifyProof_total fun hl => (cuckatoo_len (by decide) hl).1

/-! ## Cuckaroo -/

private theorem cuckaroo_len {len : Nat} (hlen : 0 < len) {ends : Nat → Nat × Nat} {edgeBits : Nat} {edges : List Nat}
    (hl : edges.length = len) :
    (∃ c, verifyCuckarooLen len ends edgeBits edges = .ok c) ∧
    (verifyCuckarooLen len ends edgeBits edges = .ok .ok ↔ Ascending (2 ^ edgeBits) edges ∧
      Cycle len (SameNode ends edges) (fun _ _ => True)) := by
  have hro := readEdges_ok (mask := 2 ^ edgeBits - 1) (ends := ends) edges none
  rw [verifyCuckarooLen]
  cases hr : readEdges (2 ^ edgeBits - 1) ends none edges with
  | error c =>
    refine ⟨⟨c, rfl⟩, ?_⟩
    constructor
    · intro h
      injection h with h
      exact absurd h (readEdges_error _ _ _ hr)
    · rintro ⟨ha, _⟩
      have := (hro (edges.map ends)).2 ⟨⟨by rw [pow_pred]; exact ha, by simp⟩, rfl⟩
      rw [hr] at this
      cases this
  | ok uvs =>
    obtain ⟨⟨ha, _⟩, rfl⟩ := (hro uvs).1 hr
    rw [pow_pred] at ha
    simp only
    have hsymm : ∀ i j, SameNode ends edges i j → SameNode ends edges j i := fun i j h => ⟨h.1.symm, h.2.symm⟩
    have htrans : ∀ i j k, SameNode ends edges i j → SameNode ends edges j k → SameNode ends edges i k :=
      fun i j k h1 h2 => ⟨h1.1.trans h2.1, h1.2.trans h2.2⟩
    have hstep : ∀ i < 2 * len, ∀ i', followStep (scanOrder (2 * len) 2)
        (fun i k => endpoint (edges.map ends) k == endpoint (edges.map ends) i) (fun _ _ => false) i = .ok i' ↔
        ∃ j, Mate (2 * len) (SameNode ends edges) i j ∧ True ∧ i' = j ^^^ 1 := by
      intro i hi i'
      obtain ⟨h1, h2, h3⟩ := scanOrder_two hi
      have hei := endpoint_map (ends := ends) (edges := edges) (by rw [hl]; exact hi)
      rw [followStep_ok (total := 2 * len) (rel := SameNode ends edges) h1 h2]
      · simp
      · intro k
        rw [h3]
        constructor
        · rintro ⟨⟨g1, g2, g3⟩, g4⟩
          refine ⟨g1, g2, g3.symm, ?_⟩
          rw [hei, endpoint_map (by rw [hl]; exact g1), beq_iff_eq] at g4
          exact g4.symm
        · rintro ⟨g1, g2, g3, g4⟩
          refine ⟨⟨g1, g2, g3.symm⟩, ?_⟩
          rw [hei, endpoint_map (by rw [hl]; exact g1), beq_iff_eq]
          exact g4.symm
    obtain ⟨hterm, hiff⟩ := walk_right hsymm htrans (fun i j h => h) hlen hstep
      (fun i c h => followStep_error h)
    rw [cycle_iff, ← hiff]
    by_cases hx : (xorAll ((edges.map ends).map (·.1)) ||| xorAll ((edges.map ends).map (·.2))) ≠ 0
    · rw [if_pos hx]
      refine ⟨⟨_, rfl⟩, ?_⟩
      constructor
      · intro h; cases h
      · rintro ⟨_, hw⟩
        exfalso
        apply hx
        obtain ⟨hx0, hx1⟩ := sides_xor hsymm htrans (fun i j h => h.1) (hiff.1 hw).1
          (f := nodeOf ends edges) (c := 0) (fun i j h _ => by rw [h.2, Nat.xor_self])
        rw [side_zero, side_one, xorAll_map, xorAll_map, hl, hx0, hx1, xorTimes_zero]
        simp
    · rw [if_neg hx]
      exact ⟨hterm, ⟨fun h => ⟨ha, h⟩, fun h => h.2⟩⟩

/-- **C31, cuckaroo**: accepted exactly if there are 42 ascending nonces within the graph whose edges form one cycle
of the bipartite graph. -/
theorem cuckaroo_accepts_iff (ends : Nat → Nat × Nat) (edgeBits : Nat) (edges : List Nat) :
    cuckarooValid ends edgeBits edges = .ok true ↔
      edges.length = 42 ∧ Ascending (2 ^ edgeBits) edges ∧
      Cycle 42 (SameNode ends edges) (fun _ _ => True) := by
  rw [cuckarooValid, verifyProof_iff]
  constructor
  · rintro ⟨hl, h⟩
    exact ⟨hl, ((cuckaroo_len (by decide) hl).2).1 h⟩
  · rintro ⟨hl, h⟩
    exact ⟨hl, ((cuckaroo_len (by decide) hl).2).2 h⟩

/-- **C31, cuckaroo**: verification ends with an answer. -/
theorem cuckaroo_answers (ends : Nat → Nat × Nat) (edgeBits : Nat) (edges : List Nat) :
    ∃ b, cuckarooValid ends edgeBits edges = .ok b :=
  verifyProof_total fun hl => (cuckaroo_len (by decide) hl).1

/-! ## Cuckarooz -/

/-- The graph of cuckarooz is not bipartite: any two endpoints at the same node. -/
def SameNodeAnySide (ends : Nat → Nat × Nat) (edges : List Nat) (i j : Nat) : Prop :=
  nodeOf ends edges i = nodeOf ends edges j

private theorem xorOver_append (f : Nat → Nat) (l l' : List Nat) :
    xorOver f (l ++ l') = xorOver f l ^^^ xorOver f l' := by
  unfold xorOver
  induction l with
  | nil => simp
  | cons x l ih => rw [List.cons_append, List.foldr_cons, List.foldr_cons, ih, Nat.xor_assoc]

private theorem cuckarooz_len {len : Nat} (hlen : 0 < len) {ends : Nat → Nat × Nat} {edges : List Nat}
    (hl : edges.length = len) :
    (∃ c, verifyCuckaroozLen len ends edges = .ok c) ∧
    (verifyCuckaroozLen len ends edges = .ok .ok ↔ Ascending (2 ^ 29) edges ∧
      Cycle len (SameNodeAnySide ends edges) (fun _ _ => True)) := by
  have hro := readEdges_ok (mask := 2 ^ 29 - 1) (ends := ends) edges none
  rw [verifyCuckaroozLen]
  cases hr : readEdges (2 ^ 29 - 1) ends none edges with
  | error c =>
    refine ⟨⟨c, rfl⟩, ?_⟩
    constructor
    · intro h
      injection h with h
      exact absurd h (readEdges_error _ _ _ hr)
    · rintro ⟨ha, _⟩
      have := (hro (edges.map ends)).2 ⟨⟨by rw [pow_pred]; exact ha, by simp⟩, rfl⟩
      rw [hr] at this
      cases this
  | ok uvs =>
    obtain ⟨⟨ha, _⟩, rfl⟩ := (hro uvs).1 hr
    rw [pow_pred] at ha
    simp only
    have hsymm : ∀ i j, SameNodeAnySide ends edges i j → SameNodeAnySide ends edges j i := fun i j h => h.symm
    have htrans : ∀ i j k, SameNodeAnySide ends edges i j → SameNodeAnySide ends edges j k →
        SameNodeAnySide ends edges i k := fun i j k h1 h2 => h1.trans h2
    have hstep : ∀ i < 2 * len, ∀ i', followStep (scanOrder (2 * len) 1)
        (fun i k => endpoint (edges.map ends) k == endpoint (edges.map ends) i) (fun _ _ => false) i = .ok i' ↔
        ∃ j, Mate (2 * len) (SameNodeAnySide ends edges) i j ∧ True ∧ i' = j ^^^ 1 := by
      intro i hi i'
      obtain ⟨h1, h2, h3⟩ := scanOrder_one hi
      have hei := endpoint_map (ends := ends) (edges := edges) (by rw [hl]; exact hi)
      rw [followStep_ok (total := 2 * len) (rel := SameNodeAnySide ends edges) h1 h2]
      · simp
      · intro k
        rw [h3]
        constructor
        · rintro ⟨⟨g1, g2⟩, g4⟩
          refine ⟨g1, g2, ?_⟩
          rw [hei, endpoint_map (by rw [hl]; exact g1), beq_iff_eq] at g4
          exact g4.symm
        · rintro ⟨g1, g2, g4⟩
          refine ⟨⟨g1, g2⟩, ?_⟩
          rw [hei, endpoint_map (by rw [hl]; exact g1), beq_iff_eq]
          exact g4.symm
    obtain ⟨hterm, hiff⟩ := walk_right hsymm htrans (fun i j h => h) hlen hstep
      (fun i c h => followStep_error h)
    rw [cycle_iff, ← hiff]
    by_cases hx : (xorAll ((edges.map ends).map (·.1)) ^^^ xorAll ((edges.map ends).map (·.2))) ≠ 0
    · rw [if_pos hx]
      refine ⟨⟨_, rfl⟩, ?_⟩
      constructor
      · intro h; cases h
      · rintro ⟨_, hw⟩
        exfalso
        apply hx
        rw [side_zero, side_one, xorAll_map, xorAll_map, hl, ← xorOver_append,
          regular_xor hsymm htrans (hiff.1 hw).1 (c := 0) (f := nodeOf ends edges), xorTimes_zero]
        · refine List.nodup_append.2 ⟨nodup_evens len, nodup_odds len, ?_⟩
          intro a ha b hb hab
          have := mem_evens.1 ha
          have := mem_odds.1 hb
          omega
        · intro i hi
          rcases List.mem_append.1 hi with hi | hi
          · exact (mem_evens.1 hi).1
          · exact (mem_odds.1 hi).1
        · intro i _ j hj _
          rw [List.mem_append, mem_evens, mem_odds]
          omega
        · intro i j h _
          rw [show nodeOf ends edges i = nodeOf ends edges j from h, Nat.xor_self]
    · rw [if_neg hx]
      exact ⟨hterm, ⟨fun h => ⟨ha, h⟩, fun h => h.2⟩⟩

/-- **C31, cuckarooz**: accepted exactly if there are 42 ascending nonces within the graph whose edges form one cycle
of the graph without sides. -/
theorem cuckarooz_accepts_iff (ends : Nat → Nat × Nat) (edges : List Nat) :
    cuckaroozValid ends edges = .ok true ↔
      edges.length = 42 ∧ Ascending (2 ^ 29) edges ∧
      Cycle 42 (SameNodeAnySide ends edges) (fun _ _ => True) := by
  rw [cuckaroozValid, verifyProof_iff]
  constructor
  · rintro ⟨hl, h⟩
    exact ⟨hl, ((cuckarooz_len (by decide) hl).2).1 h⟩
  · rintro ⟨hl, h⟩
    exact ⟨hl, ((cuckarooz_len (by decide) hl).2).2 h⟩

/-- **C31, cuckarooz**: verification ends with an answer. -/
theorem cuckarooz_answers (ends : Nat → Nat × Nat) (edges : List Nat) :
    ∃ b, cuckaroozValid ends edges = .ok b :=
  verifyProof_total fun hl => (cuckarooz_len (by decide) hl).1

/-! ## Cuckaroom -/

/-- `Cuckaroom::Validate` (Cuckaroom.cpp:82-99). -/
def cuckaroomValid (ends : Nat → Nat × Nat) (edges : List Nat) : Res Bool :=
  verifyProof (fun len es => verifyCuckaroomLen len ends es) edges

private theorem xorOver_congr {f g : Nat → Nat} : ∀ {l : List Nat}, (∀ t ∈ l, f t = g t) → xorOver f l = xorOver g l
  | [], _ => rfl
  | x :: l, h => by
    rw [xorOver, List.foldr_cons, ← xorOver, xorOver_congr (l := l) (fun t ht => h t (List.mem_cons_of_mem _ ht)),
      h x List.mem_cons_self]
    rfl

private theorem getD_map {ends : Nat → Nat × Nat} {edges : List Nat} {e : Nat} (he : e < edges.length) :
    (edges.map ends).getD e (0, 0) = ends (edges.getD e 0) := by
  simp only [List.getD_eq_getElem?_getD, List.getElem?_map, List.getElem?_eq_getElem he, Option.map_some,
    Option.getD_some]

private theorem directed_congr {len : Nat} (hlen : 0 < len) {src dst src' dst' : Nat → Nat}
    (hs : ∀ e < len, src e = src' e) (hd : ∀ e < len, dst e = dst' e) (h : DirectedCycle len src dst) :
    DirectedCycle len src' dst' := by
  obtain ⟨⟨order, h0, hr, hinj, hn⟩, hi⟩ := h
  refine ⟨⟨order, h0, hr, hinj, fun t ht => ?_⟩, fun e he e' he' hee => hi e he e' he' ?_⟩
  · rw [← hd _ (hr t ht), hn t ht, hs _ (hr _ (Nat.mod_lt _ hlen))]
  · rw [hs e he, hs e' he', hee]

private theorem cuckaroom_len {len : Nat} (hlen : 0 < len) {ends : Nat → Nat × Nat} {edges : List Nat}
    (hl : edges.length = len) :
    (∃ c, verifyCuckaroomLen len ends edges = .ok c) ∧
    (verifyCuckaroomLen len ends edges = .ok .ok ↔ Ascending (2 ^ 29) edges ∧
      DirectedCycle len (fun e => (ends (edges.getD e 0)).1) (fun e => (ends (edges.getD e 0)).2)) := by
  have hro := readEdges_ok (mask := 2 ^ 29 - 1) (ends := ends) edges none
  rw [verifyCuckaroomLen]
  cases hr : readEdges (2 ^ 29 - 1) ends none edges with
  | error c =>
    refine ⟨⟨c, rfl⟩, ?_⟩
    constructor
    · intro h
      injection h with h
      exact absurd h (readEdges_error _ _ _ hr)
    · rintro ⟨ha, _⟩
      have := (hro (edges.map ends)).2 ⟨⟨by rw [pow_pred]; exact ha, by simp⟩, rfl⟩
      rw [hr] at this
      cases this
  | ok uvs =>
    obtain ⟨⟨ha, _⟩, rfl⟩ := (hro uvs).1 hr
    rw [pow_pred] at ha
    simp only
    obtain ⟨hterm, hiff⟩ := walkDirected_right (uvs := edges.map ends) hlen (by rw [List.length_map, hl])
    have hiff' : walkDirected len (edges.map ends) (len + 1) [] 0 0 = .ok .ok ↔
        DirectedCycle len (fun e => (ends (edges.getD e 0)).1) (fun e => (ends (edges.getD e 0)).2) := by
      rw [hiff]
      constructor
      · exact directed_congr hlen (fun e he => by simp only [getD_map (ends := ends) (hl ▸ he)])
          (fun e he => by simp only [getD_map (ends := ends) (hl ▸ he)])
      · exact directed_congr hlen (fun e he => by simp only [getD_map (ends := ends) (hl ▸ he)])
          (fun e he => by simp only [getD_map (ends := ends) (hl ▸ he)])
    rw [← hiff']
    have hsrc : (edges.map ends).map (·.1) = (List.range len).map (fun e => (ends (edges.getD e 0)).1) := by
      refine List.ext_getElem (by simp [hl]) fun n h1 h2 => ?_
      simp only [List.length_map] at h1
      simp [List.getD_eq_getElem?_getD, List.getElem?_eq_getElem h1]
    have hdst : (edges.map ends).map (·.2) = (List.range len).map (fun e => (ends (edges.getD e 0)).2) := by
      refine List.ext_getElem (by simp [hl]) fun n h1 h2 => ?_
      simp only [List.length_map] at h1
      simp [List.getD_eq_getElem?_getD, List.getElem?_eq_getElem h1]
    by_cases hx : xorAll ((edges.map ends).map (·.1)) ≠ xorAll ((edges.map ends).map (·.2))
    · rw [if_pos hx]
      refine ⟨⟨_, rfl⟩, ?_⟩
      constructor
      · intro h; cases h
      · rintro ⟨_, hw⟩
        exfalso
        apply hx
        rw [hsrc, hdst, xorAll_map, xorAll_map]
        exact directed_xor hlen (hiff'.1 hw)
    · rw [if_neg hx]
      exact ⟨hterm, ⟨fun h => ⟨ha, h⟩, fun h => h.2⟩⟩

/-- **C31, cuckaroom**: accepted exactly if there are 42 ascending nonces within the graph whose directed edges can be
arranged in one cycle, each ending where the next starts, no two starting at the same node. -/
theorem cuckaroom_accepts_iff (ends : Nat → Nat × Nat) (edges : List Nat) :
    cuckaroomValid ends edges = .ok true ↔
      edges.length = 42 ∧ Ascending (2 ^ 29) edges ∧
      DirectedCycle 42 (fun e => (ends (edges.getD e 0)).1) (fun e => (ends (edges.getD e 0)).2) := by
  rw [cuckaroomValid, verifyProof_iff]
  constructor
  · rintro ⟨hl, h⟩
    exact ⟨hl, ((cuckaroom_len (by decide) hl).2).1 h⟩
  · rintro ⟨hl, h⟩
    exact ⟨hl, ((cuckaroom_len (by decide) hl).2).2 h⟩

/-- **C31, cuckaroom**: verification ends with an answer. -/
theorem cuckaroom_answers (ends : Nat → Nat × Nat) (edges : List Nat) :
    ∃ b, cuckaroomValid ends edges = .ok b :=
  verifyProof_total fun hl => (cuckaroom_len (by decide) hl).1

/-! ## Cuckarood -/

/-- `Cuckarood::Validate` (Cuckarood.cpp:58-75). -/
def cuckaroodValid (ends : Nat → Nat × Nat) (edges : List Nat) : Res Bool :=
  verifyProof (fun len es => verifyCuckaroodLen len ends es) edges

/-- The edges of a cuckarood proof, numbered so that even numbers are the edges of even nonce. -/
def edgeAt (edges : List Nat) (e : Nat) : Nat :=
  if e % 2 = 0 then (edges.filter (· % 2 = 0)).getD (e / 2) 0 else (edges.filter (· % 2 ≠ 0)).getD (e / 2) 0

/-- The node of endpoint `i`; edge `e` has the endpoints `2 e` and `2 e + 1`. -/
def nodeAt (ends : Nat → Nat × Nat) (edges : List Nat) (i : Nat) : Nat :=
  if i % 2 = 0 then (ends (edgeAt edges (i / 2))).1 else (ends (edgeAt edges (i / 2))).2

private theorem endpointD_map {ends : Nat → Nat × Nat} {edges : List Nat} {half i : Nat} (hi : i < 2 * (2 * half))
    (h0 : (edges.filter (· % 2 = 0)).length = half) (h1 : (edges.filter (· % 2 ≠ 0)).length = half) :
    endpointD ((edges.filter (· % 2 = 0)).map ends, (edges.filter (· % 2 ≠ 0)).map ends) i = nodeAt ends edges i := by
  have hd : i / 2 / 2 = i / 4 := by omega
  rw [endpointD, nodeAt, edgeAt, hd]
  by_cases h : i / 2 % 2 = 0
  · simp only [if_pos h]
    rw [getD_map (by omega)]
  · simp only [if_neg h]
    rw [getD_map (by omega)]

private theorem xorAll_append (l l' : List Nat) : xorAll (l ++ l') = xorAll l ^^^ xorAll l' := by
  rw [xorAll, List.foldl_append, foldl_xor, ← xorAll]
  rw [show xorAll l' = l'.foldr (· ^^^ ·) 0 by rw [xorAll, foldl_xor, Nat.zero_xor]]

private theorem range_map_getD {f : Nat × Nat → Nat} {ends : Nat → Nat × Nat} {l : List Nat} :
    (l.map ends).map f = (List.range l.length).map (fun t => f (ends (l.getD t 0))) := by
  refine List.ext_getElem (by simp) fun n h1 h2 => ?_
  simp only [List.length_map] at h1
  simp [List.getD_eq_getElem?_getD, List.getElem?_eq_getElem h1]

/-- The exclusive or over both directions. -/
private theorem side_xor {ends : Nat → Nat × Nat} {edges : List Nat} {half : Nat}
    (h0 : (edges.filter (· % 2 = 0)).length = half) (h1 : (edges.filter (· % 2 ≠ 0)).length = half) :
    xorAll (((edges.filter (· % 2 = 0)).map ends ++ (edges.filter (· % 2 ≠ 0)).map ends).map (·.1)) =
      xorOver (nodeAt ends edges) ((List.range half).map (4 * ·) ++ (List.range half).map (4 * · + 2)) ∧
    xorAll (((edges.filter (· % 2 = 0)).map ends ++ (edges.filter (· % 2 ≠ 0)).map ends).map (·.2)) =
      xorOver (nodeAt ends edges) ((List.range half).map (4 * · + 1) ++ (List.range half).map (4 * · + 3)) := by
  have hmap : ∀ (g f : Nat → Nat) (l : List Nat), (∀ t ∈ l, f t = nodeAt ends edges (g t)) →
      xorAll (l.map f) = xorOver (nodeAt ends edges) (l.map g) := by
    intro g f l h
    rw [← xorAll_map, List.map_map]
    congr 1
    exact List.map_congr_left h
  rw [List.map_append, List.map_append, xorAll_append, xorAll_append, xorOver_append, xorOver_append,
    range_map_getD, range_map_getD, range_map_getD, range_map_getD, h0, h1]
  refine ⟨?_, ?_⟩ <;> congr 1 <;> refine hmap _ _ _ fun t _ => ?_
  · rw [nodeAt, edgeAt, if_pos (by omega), if_pos (by omega), show 4 * t / 2 / 2 = t by omega]
  · rw [nodeAt, edgeAt, if_pos (by omega), if_neg (by omega), show (4 * t + 2) / 2 / 2 = t by omega]
  · rw [nodeAt, edgeAt, if_neg (by omega), if_pos (by omega), show (4 * t + 1) / 2 / 2 = t by omega]
  · rw [nodeAt, edgeAt, if_neg (by omega), if_neg (by omega), show (4 * t + 3) / 2 / 2 = t by omega]

private theorem nodup_fours {n c : Nat} : ((List.range n).map (4 * · + c)).Nodup :=
  List.Nodup.map (fun a b h => by have h' : 4 * a + c = 4 * b + c := h; omega) List.nodup_range

private theorem mem_fours {n c i : Nat} (hc : c < 4) :
    i ∈ (List.range n).map (4 * · + c) ↔ i < 2 * (2 * n) ∧ i % 4 = c := by
  rw [List.mem_map]
  constructor
  · rintro ⟨t, ht, rfl⟩
    rw [List.mem_range] at ht
    omega
  · rintro ⟨h1, h2⟩
    exact ⟨i / 4, by rw [List.mem_range]; omega, by omega⟩

private theorem filter_lengths (l : List Nat) :
    (l.filter (· % 2 = 0)).length + (l.filter (· % 2 ≠ 0)).length = l.length := by
  induction l with
  | nil => rfl
  | cons x l ih =>
    by_cases hx : x % 2 = 0
    · rw [List.filter_cons_of_pos (by simpa using hx), List.filter_cons_of_neg (by simpa using hx)]
      simp only [List.length_cons]
      omega
    · rw [List.filter_cons_of_neg (by simpa using hx), List.filter_cons_of_pos (by simpa using hx)]
      simp only [List.length_cons]
      omega

private theorem cuckarood_len {half : Nat} (hhalf : 0 < half) {ends : Nat → Nat × Nat} {edges : List Nat}
    (hl : edges.length = 2 * half) :
    verifyCuckaroodLen (2 * half) ends edges = .ok .ok ↔
      Ascending (2 ^ 29) edges ∧ (edges.filter (· % 2 = 0)).length = half ∧
      Cycle (2 * half) (fun i j => i % 2 = j % 2 ∧ nodeAt ends edges i = nodeAt ends edges j)
        (fun i j => i / 2 % 2 ≠ j / 2 % 2) := by
  have hfl := filter_lengths edges
  have hd2 : 2 * half / 2 = half := by omega
  have hro := readDirected_ok (half := half) (ends := ends) edges none ([], [])
  rw [verifyCuckaroodLen, hd2]
  cases hr : readDirected half ends none edges ([], []) with
  | error c =>
    constructor
    · intro h
      injection h with h
      exact absurd h (readDirected_error _ _ _ _ hr)
    · rintro ⟨ha, hb, _⟩
      have := (hro ((edges.filter (· % 2 = 0)).map ends, (edges.filter (· % 2 ≠ 0)).map ends)
        (Nat.zero_le _) (Nat.zero_le _)).2
        ⟨⟨ha, by simp⟩, ⟨rfl, rfl⟩, by rw [List.length_map]; omega, by rw [List.length_map]; omega⟩
      rw [hr] at this
      cases this
  | ok uvs =>
    obtain ⟨⟨ha, _⟩, ⟨hu1, hu2⟩, hb1, hb2⟩ := (hro uvs (Nat.zero_le _) (Nat.zero_le _)).1 hr
    obtain ⟨u1, u2⟩ := uvs
    simp only [List.nil_append] at hu1 hu2 hb1 hb2
    subst hu1 hu2
    rw [List.length_map] at hb1 hb2
    have h0 : (edges.filter (· % 2 = 0)).length = half := by omega
    have h1 : (edges.filter (· % 2 ≠ 0)).length = half := by omega
    simp only
    obtain ⟨hx0, hx1⟩ := side_xor (ends := ends) h0 h1
    generalize hE : endpointD ((edges.filter (· % 2 = 0)).map ends, (edges.filter (· % 2 ≠ 0)).map ends) = E
    have hEn : ∀ i < 2 * (2 * half), E i = nodeAt ends edges i := fun i hi => by
      rw [← hE]; exact endpointD_map hi h0 h1
    -- the step of the code
    have hstep : ∀ i < 2 * (2 * half), ∀ i', followStep (scanOther (2 * (2 * half)))
        (fun i k => E k == E i) (fun _ _ => false) i = .ok i' ↔
        ∃ j, Mate (2 * (2 * half)) (OtherWay (nodeAt ends edges)) i j ∧ i' = j ^^^ 1 := by
      intro i hi i'
      obtain ⟨g1, g2, g3⟩ := scanOther_spec (total := 2 * (2 * half)) (i := i)
      rw [followStep_ok (total := 2 * (2 * half)) (rel := OtherWay (nodeAt ends edges)) g1 g2]
      · simp
      · intro k
        rw [g3]
        constructor
        · rintro ⟨⟨k1, k2⟩, k3⟩
          rw [hEn k k1, hEn i hi, beq_iff_eq] at k3
          exact ⟨k1, by rintro rfl; omega, k2, k3.symm⟩
        · rintro ⟨k1, _, k2, k3⟩
          refine ⟨⟨k1, k2⟩, ?_⟩
          rw [hEn k k1, hEn i hi, beq_iff_eq]
          exact k3.symm
    -- the step that looks at all endpoints of the side
    let stepF := followStep (scanOrder (2 * (2 * half)) 2) (fun i k => nodeAt ends edges k == nodeAt ends edges i)
      (fun i j => decide (i / 2 % 2 = j / 2 % 2))
    have hstepF : ∀ i < 2 * (2 * half), ∀ i', stepF i = .ok i' ↔
        ∃ j, Mate (2 * (2 * half)) (fun i j => i % 2 = j % 2 ∧ nodeAt ends edges i = nodeAt ends edges j) i j ∧
          i / 2 % 2 ≠ j / 2 % 2 ∧ i' = j ^^^ 1 := by
      intro i hi i'
      obtain ⟨g1, g2, g3⟩ := scanOrder_two hi
      rw [followStep_ok (total := 2 * (2 * half))
        (rel := fun i j => i % 2 = j % 2 ∧ nodeAt ends edges i = nodeAt ends edges j) g1 g2]
      · simp
      · intro k
        rw [g3]
        constructor
        · rintro ⟨⟨k1, k2, k3⟩, k4⟩
          exact ⟨k1, k2, k3.symm, (beq_iff_eq.1 k4).symm⟩
        · rintro ⟨k1, k2, k3, k4⟩
          exact ⟨⟨k1, k2, k3.symm⟩, beq_iff_eq.2 k4.symm⟩
    obtain ⟨_, hiff⟩ := walk_right (len := 2 * half)
      (rel := fun i j => i % 2 = j % 2 ∧ nodeAt ends edges i = nodeAt ends edges j)
      (good := fun i j => i / 2 % 2 ≠ j / 2 % 2)
      (fun i j h => ⟨h.1.symm, h.2.symm⟩) (fun i j k h h' => ⟨h.1.trans h'.1, h.2.trans h'.2⟩)
      (fun i j h => Ne.symm h) (by omega) hstepF (fun i c h => followStep_error h)
    -- on a regular graph both steps are the same
    have hsame : TwoRegular (2 * half) (fun i j => i % 2 = j % 2 ∧ nodeAt ends edges i = nodeAt ends edges j)
        (fun i j => i / 2 % 2 ≠ j / 2 % 2) →
        walk (2 * half) (followStep (scanOther (2 * (2 * half))) (fun i k => E k == E i) (fun _ _ => false))
          (2 * (2 * half) + 1) 0 0 = walk (2 * half) stepF (2 * (2 * half) + 1) 0 0 := by
      intro htr
      refine walk_congr (total := 2 * (2 * half)) (fun i hi => ?_) (fun i hi i' h => ?_) _ _ _ (by omega)
      · obtain ⟨j, hm, hg⟩ := htr i hi
        rw [(hstepF i hi (j ^^^ 1)).2 ⟨j, hm, hg, rfl⟩]
        have hm1 := hm.2.2.1.1
        refine (hstep i hi (j ^^^ 1)).2 ⟨j, ⟨hm.1, hm.2.1, ⟨by omega, hm.2.2.1.2⟩, ?_⟩, rfl⟩
        rintro k hk hki ⟨k1, k2⟩
        exact hm.2.2.2 k hk hki ⟨by omega, k2⟩
      · obtain ⟨j, hm, rfl⟩ := (hstep i hi i').1 h
        exact xor_one_lt hm.1
    rw [cycle_iff]
    by_cases hx : (xorAll (((edges.filter (· % 2 = 0)).map ends ++ (edges.filter (· % 2 ≠ 0)).map ends).map (·.1)) |||
        xorAll (((edges.filter (· % 2 = 0)).map ends ++ (edges.filter (· % 2 ≠ 0)).map ends).map (·.2))) ≠ 0
    · rw [if_pos hx]
      constructor
      · intro h; cases h
      · rintro ⟨_, _, htr, _⟩
        exfalso
        apply hx
        have hsymm : ∀ i j, (i % 2 = j % 2 ∧ nodeAt ends edges i = nodeAt ends edges j) →
            (j % 2 = i % 2 ∧ nodeAt ends edges j = nodeAt ends edges i) := fun i j h => ⟨h.1.symm, h.2.symm⟩
        have hz : ∀ c c', c < 4 → c' < 4 → c ≠ c' → c % 2 = c' % 2 →
            xorOver (nodeAt ends edges) ((List.range half).map (4 * · + c) ++ (List.range half).map (4 * · + c')) = 0 := by
          intro c c' hc hc' hne hpar
          rw [regular_xor hsymm (fun i j k h h' => ⟨h.1.trans h'.1, h.2.trans h'.2⟩) htr (c := 0), xorTimes_zero]
          · refine List.nodup_append.2 ⟨nodup_fours, nodup_fours, ?_⟩
            intro a ha b hb hab
            have := (mem_fours hc).1 ha
            have := (mem_fours hc').1 hb
            omega
          · intro i hi
            rcases List.mem_append.1 hi with hi | hi
            · exact ((mem_fours hc).1 hi).1
            · exact ((mem_fours hc').1 hi).1
          · intro i hi j hj hr
            rw [List.mem_append, mem_fours hc, mem_fours hc'] at hi ⊢
            have := hr.1
            omega
          · intro i j h _
            rw [h.2, Nat.xor_self]
        rw [hx0, hx1, hz 1 3 (by decide) (by decide) (by decide) rfl]
        have := hz 0 2 (by decide) (by decide) (by decide) rfl
        simp only [Nat.add_zero] at this
        rw [this]
        rfl
    · rw [if_neg hx]
      constructor
      · intro hw
        have htr := regular_of_walk hhalf hstep (fun i c h => followStep_error h) hw
        rw [hsame htr] at hw
        exact ⟨ha, h0, hiff.1 hw⟩
      · rintro ⟨_, _, htr, hconn⟩
        rw [hsame htr]
        exact hiff.2 ⟨htr, hconn⟩

/-- **C31, cuckarood**: accepted exactly if there are 42 ascending nonces within the graph, half of them even, whose
edges form one cycle of the bipartite graph in which consecutive edges have nonces of different parity. -/
theorem cuckarood_accepts_iff (ends : Nat → Nat × Nat) (edges : List Nat) :
    cuckaroodValid ends edges = .ok true ↔
      edges.length = 42 ∧ Ascending (2 ^ 29) edges ∧ (edges.filter (· % 2 = 0)).length = 21 ∧
      Cycle 42 (fun i j => i % 2 = j % 2 ∧ nodeAt ends edges i = nodeAt ends edges j)
        (fun i j => i / 2 % 2 ≠ j / 2 % 2) := by
  rw [cuckaroodValid, verifyProof_iff]
  constructor
  · rintro ⟨hl, h⟩
    exact ⟨hl, (cuckarood_len (half := 21) (by decide) hl).1 h⟩
  · rintro ⟨hl, h⟩
    exact ⟨hl, (cuckarood_len (half := 21) (by decide) hl).2 h⟩

/-- The endpoints of a proof on which `verify_cuckarood` loops: edges 1 and 2 join the same two nodes in opposite
directions, and edge 0 leads into them. -/
def hangEnds : Nat → Nat × Nat
  | 0 => (5, 9)
  | 1 => (5, 7)
  | 2 => (5, 7)
  | 4 => (5, 9)
  | _ => (0, 0)

/-- **C31 fails for cuckarood**: there are 42 ascending nonces, half of them even, and endpoints for them, on which
verification gives no answer: the walk leads into a loop that does not contain the first edge.  (Whether a given
header hash yields such endpoints is a matter of search: a pair of opposite edges between the same nodes, an edge
leading into them, and enough other edges to make the exclusive or vanish.) -/
theorem cuckarood_hangs_violated : ∃ ends edges, edges.length = 42 ∧ Ascending (2 ^ 29) edges ∧
    (edges.filter (· % 2 = 0)).length = 21 ∧ cuckaroodValid ends edges = .ub := by
  refine ⟨hangEnds, List.range 42, rfl, ⟨List.pairwise_lt_range, fun e he => ?_⟩, by decide +kernel, by decide +kernel⟩
  have := List.mem_range.1 he
  omega

/-! ## Cases -/

/-- The loop above is one: after any even number of rounds from the second position on, the walk is back there. -/
example : ∀ k, pos (followStep (scanOther 84)
    (fun i k => nodeAt hangEnds (List.range 42) k == nodeAt hangEnds (List.range 42) i) (fun _ _ => false)) (2 * k + 1) = 3 := by
  intro k
  have h3 : followStep (scanOther 84)
    (fun i k => nodeAt hangEnds (List.range 42) k == nodeAt hangEnds (List.range 42) i) (fun _ _ => false) 3 = .ok 4 := by
    decide +kernel
  have h4 : followStep (scanOther 84)
    (fun i k => nodeAt hangEnds (List.range 42) k == nodeAt hangEnds (List.range 42) i) (fun _ _ => false) 4 = .ok 3 := by
    decide +kernel
  induction k with
  | zero => decide +kernel
  | succ k ih =>
    rw [show 2 * (k + 1) + 1 = 2 * k + 1 + 1 + 1 by omega, pos, pos, ih, h3]
    simp only
    rw [h4]

example : cuckatooValid (fun n => (n, (n + 1) % 42)) 31 (List.range 42) = .ok true := by decide +kernel
example : cuckarooValid (fun n => (n / 2, (n + 1) / 2 % 21)) 29 (List.range 42) = .ok true := by decide +kernel
example : cuckaroozValid (fun n => (n, (n + 1) % 42)) (List.range 42) = .ok true := by decide +kernel
example : cuckaroomValid (fun n => (n, (n + 1) % 42)) (List.range 42) = .ok true := by decide +kernel
example : cuckaroodValid (fun n => (n / 2, (n + 1) / 2 % 21)) (List.range 42) = .ok true := by decide +kernel
/-- Two cycles of 21 edges are no proof. -/
example : cuckaroozValid (fun n => (n, if n % 21 = 20 then n - 20 else n + 1)) (List.range 42) = .ok false := by
  decide +kernel
/-- Nor is a cycle in the wrong graph. -/
example : cuckatooValid (fun n => (n / 2, (n + 1) / 2 % 21)) 31 (List.range 42) = .ok false := by decide +kernel

end Verif.Props
