import Verif.Codec.Slate
import Verif.Ser.CoreLemmas

/-!
# C08: binary slates
-/
namespace Verif.Props
open Verif Verif.Codec

/-- Spec: the fields of a slate have the sizes of their types, the signatures are ones secp256k1 converts both
ways, and the feature arguments fit the kernel features. -/
structure SlateWellFormed (ops : SigOps) (s : Slate) : Prop where
  id : s.id.length = 16
  stage : s.stage ≠ .none
  version : s.version < 2 ^ 16
  blockVersion : s.blockVersion < 2 ^ 16
  numParts : s.numParts < 256
  ttl : s.ttl < 2 ^ 64
  features : s.features < 256
  offset : s.offset.length = 32
  amount : s.amount < 2 ^ 64
  feeShift : s.fee.shift < 16
  feeValue : s.fee.fee < 2 ^ 40
  numSigs : s.sigs.length < 256
  sigKeys : ∀ g ∈ s.sigs, g.excess.length = 33 ∧ g.nonce.length = 33
  sigParts : ∀ g ∈ s.sigs, ∀ p ∈ g.partialSig, ∃ raw, ops.parse p = some raw ∧ raw.length = 64 ∧
    ops.compact raw = some p
  numComs : s.coms.length < 65536
  coms : ∀ c ∈ s.coms, c.features < 256 ∧ c.commit.length = 33 ∧ ∀ p ∈ c.proof, p.length ≤ 675
  proof : ∀ p ∈ s.proof, p.sender.length = 32 ∧ p.receiver.length = 32 ∧
    ∀ g ∈ p.signature, g.length = 64
  plain : s.features = 0 → s.featureArgs = none
  locked : s.features = 2 → ∃ h, h < 2 ^ 64 ∧ s.featureArgs = some (some h)
  other : s.features ≠ 0 → s.features ≠ 2 → s.featureArgs = some none

private theorem reads_lift' {α : Type} {r : Res α} {a : α} (h : r = .ok a) :
    Reads (Parser.lift r) [] a := by
  subst h
  intro pre post _
  simp [Parser.lift]

private theorem reads_if {α : Type} {c : Prop} [Decidable c] {b : Bool} {p : Parser α} {d a : α} {bs : Bytes}
    (hb : b = decide c) (h1 : c → Reads p bs a) (h2 : ¬ c → a = d) :
    Reads (readIf b p d) (if c then bs else []) a := by
  subst hb
  by_cases h : c
  · simp only [readIf, h, decide_true, if_true]; exact h1 h
  · simp only [readIf, h, decide_false, if_false]; rw [h2 h]; exact Reads.pure d

private theorem status5 (b0 b1 b2 b3 b4 : Bool) :
    let s := statusBit b0 0 ||| statusBit b1 1 ||| statusBit b2 2 ||| statusBit b3 3 ||| statusBit b4 4
    isSet s 0 = b0 ∧ isSet s 1 = b1 ∧ isSet s 2 = b2 ∧ isSet s 3 = b3 ∧ isSet s 4 = b4 ∧ s < 256 := by
  revert b0 b1 b2 b3 b4; decide

private theorem status2 (b0 b1 : Bool) :
    let s := statusBit b0 0 ||| statusBit b1 1
    isSet s 0 = b0 ∧ isSet s 1 = b1 ∧ s < 256 := by
  revert b0 b1; decide

private theorem reads_sig (ops : SigOps) (g : SlateSig) (h1 : g.excess.length = 33) (h2 : g.nonce.length = 33)
    (h3 : ∀ p ∈ g.partialSig, ∃ raw, ops.parse p = some raw ∧ raw.length = 64 ∧ ops.compact raw = some p) :
    ∃ bs, sigSer ops g = .ok bs ∧ Reads (sigDeser ops) bs g := by
  obtain ⟨ex, no, pt⟩ := g
  cases pt with
  | none =>
    refine ⟨_, rfl, ?_⟩
    unfold sigDeser
    refine Reads.bind (reads_u8 (by omega)) (Reads.bind (reads_bytes h1) (Reads.bind0 (reads_bytes h2) ?_))
    rw [if_neg (by omega)]
    exact Reads.pure _
  | some p =>
    obtain ⟨raw, e1, e2, e3⟩ := h3 p rfl
    refine ⟨beBytes 1 1 ++ (ex ++ (no ++ raw)), by simp [sigSer, e1], ?_⟩
    unfold sigDeser
    refine Reads.bind (reads_u8 (by omega)) (Reads.bind (reads_bytes h1) (Reads.bind (reads_bytes h2) ?_))
    rw [if_pos (by omega)]
    refine Reads.bind0 (reads_bytes e2) ?_
    rw [e3]
    exact Reads.pure _

private theorem reads_sigs (ops : SigOps) (l : List SlateSig)
    (h : ∀ g ∈ l, ∃ bs, sigSer ops g = .ok bs ∧ Reads (sigDeser ops) bs g) :
    ∃ bs, serManyRes (sigSer ops) l = .ok bs ∧ Reads (readMany (sigDeser ops) l.length) bs l := by
  induction l with
  | nil => exact ⟨[], rfl, Reads.pure _⟩
  | cons g l ih =>
    obtain ⟨a, ea, ra⟩ := h g (by simp)
    obtain ⟨b, eb, rb⟩ := ih (fun x hx => h x (by simp [hx]))
    refine ⟨a ++ b, by simp [serManyRes, ea, eb], ?_⟩
    rw [List.length_cons, readMany]
    exact Reads.bind ra (Reads.map (f := fun as => g :: as) rb)

private theorem reads_com (c : SlateCom) (h1 : c.features < 256) (h2 : c.commit.length = 33)
    (h3 : ∀ p ∈ c.proof, p.length ≤ 675) : Reads comDeser (comSer c) c := by
  obtain ⟨f, co, pr⟩ := c
  unfold comDeser comSer
  cases pr with
  | none =>
    refine Reads.bind (reads_u8 (by omega)) (Reads.bind (reads_u8 h1) (Reads.bind0 (reads_bytes h2) ?_))
    rw [if_neg (by omega)]
    exact Reads.pure _
  | some p =>
    refine Reads.bind (reads_u8 (by omega)) (Reads.bind (reads_u8 h1) (Reads.bind (reads_bytes h2) ?_))
    rw [if_pos (by omega)]
    exact Reads.bind0 (reads_proof (h3 p rfl)) (Reads.pure _)

private theorem reads_payProof (p : PayProof) (h1 : p.sender.length = 32) (h2 : p.receiver.length = 32)
    (h3 : ∀ g ∈ p.signature, g.length = 64) : Reads payProofDeser (payProofSer p) p := by
  obtain ⟨a, b, g⟩ := p
  unfold payProofDeser payProofSer
  cases g with
  | none =>
    refine Reads.bind (reads_bytes h1) (Reads.bind (reads_bytes h2) (Reads.bind0 (reads_u8 (by omega)) ?_))
    rw [if_neg (by omega)]
    exact Reads.pure _
  | some g =>
    refine Reads.bind (reads_bytes h1) (Reads.bind (reads_bytes h2) (Reads.bind (reads_u8 (by omega)) ?_))
    rw [if_pos rfl]
    exact Reads.bind0 (reads_bytes (h3 g rfl)) (Reads.pure _)

private theorem stage_bytes (st : Stage) (h : st ≠ .none) :
    st.toByte < 256 ∧ Stage.fromByte st.toByte = .ok st := by
  cases st with
  | none => exact absurd rfl h
  | _ => exact ⟨by decide, rfl⟩

private theorem reads_args (s : Slate) (h0 : s.features = 0 → s.featureArgs = none)
    (h2 : s.features = 2 → ∃ h, h < 2 ^ 64 ∧ s.featureArgs = some (some h))
    (h3 : s.features ≠ 0 → s.features ≠ 2 → s.featureArgs = some none) :
    Reads (readArgs s.features) (if s.features = 2 then beBytes 8 s.lockHeight else []) s.featureArgs := by
  unfold readArgs
  by_cases c0 : s.features = 0
  · rw [if_neg (by omega), if_neg (by omega), h0 c0]
    exact Reads.pure _
  · rw [if_pos c0]
    by_cases c2 : s.features = 2
    · obtain ⟨h, hh, e⟩ := h2 c2
      have hl : s.lockHeight = h := by simp [Slate.lockHeight, e]
      rw [if_pos c2, if_pos c2, e, hl]
      exact Reads.bind0 (reads_u64 hh) (Reads.pure _)
    · rw [if_neg c2, if_neg c2, h3 c0 c2]
      exact Reads.pure _

/-- **C08.** A well-formed slate is serialized, and its bytes, wherever they lie in a buffer, are read back as
the same slate in every field, whichever optional fields are left out. -/
theorem slate_roundtrip (ops : SigOps) (s : Slate) (h : SlateWellFormed ops s) :
    ∃ bs, slateSer ops s = .ok bs ∧ Reads (slateDeser ops) bs s := by
  obtain ⟨sg, esg, rsg⟩ := reads_sigs ops s.sigs
    (fun g hg => reads_sig ops g (h.sigKeys g hg).1 (h.sigKeys g hg).2 (h.sigParts g hg))
  refine ⟨_, by rw [slateSer, esg]; rfl, ?_⟩
  obtain ⟨f0, f1, f2, f3, f4, f5⟩ := status5 (s.numParts ≠ 2) (s.amount ≠ 0) (s.fee ≠ ⟨0, 0⟩)
    (s.features ≠ 0) (s.ttl ≠ 0)
  obtain ⟨g0, g1, g2⟩ := status2 (s.coms ≠ []) s.proof.isSome
  obtain ⟨t1, t2⟩ := stage_bytes s.stage h.stage
  have hproof : Reads (readIf (isSet (structStatus s) 1) (do
      let p ← payProofDeser
      return some p) none) (match s.proof with | some p => payProofSer p | none => []) s.proof := by
    have e : isSet (structStatus s) 1 = s.proof.isSome := g1
    rw [e]
    cases hp : s.proof with
    | none => exact Reads.pure _
    | some p =>
      have := h.proof p hp
      exact Reads.bind0 (reads_payProof p this.1 this.2.1 this.2.2) (Reads.pure _)
  unfold slateDeser
  refine Reads.bind (reads_u16 h.version) (Reads.bind (reads_u16 h.blockVersion)
    (Reads.bind (reads_bytes h.id) (Reads.bind (reads_u8 t1) ?_)))
  refine Reads.congr (bs := [] ++ _) (Reads.bind (reads_lift' t2) ?_) (List.nil_append _) rfl
  refine Reads.bind (reads_bytes h.offset) (Reads.bind (reads_u8 f5)
    (Reads.bind (reads_if f0 (fun _ => reads_u8 h.numParts) (fun c => by simpa using c))
    (Reads.bind (reads_if f1 (fun _ => reads_u64 h.amount) (fun c => by simpa using c))
    (Reads.bind (reads_if f2 (fun _ => reads_fee h.feeShift h.feeValue) (fun c => by simpa using c))
    (Reads.bind (reads_if f3 (fun _ => reads_u8 h.features) (fun c => by simpa using c))
    (Reads.bind (reads_if f4 (fun _ => reads_u64 h.ttl) (fun c => by simpa using c)) ?_))))))
  rw [Nat.mod_eq_of_lt h.numSigs, Nat.mod_eq_of_lt h.numComs]
  refine Reads.bind (reads_u8 h.numSigs) (Reads.bind rsg (Reads.bind (reads_u8 g2)
    (Reads.bind (reads_if g0 (fun _ => Reads.bind (reads_u16 h.numComs)
      (reads_many fun c hc => reads_com c (h.coms c hc).1 (h.coms c hc).2.1 (h.coms c hc).2.2))
      (fun c => by simpa using c))
    (Reads.bind hproof (Reads.bind0 (reads_args s h.plain h.locked h.other) (Reads.pure _))))))

private def idOps : SigOps := ⟨some, some⟩

private def sampleSlate : Slate :=
  ⟨List.replicate 16 3, .standardReceived, 4, 5, 3, 1000, 2, some (some 77), List.replicate 32 4, 60000000000,
    ⟨0, 23500000⟩, [⟨List.replicate 33 2, List.replicate 33 3, some (List.replicate 64 5)⟩],
    [⟨0, List.replicate 33 8, none⟩, ⟨0, List.replicate 33 9, some (List.replicate 675 1)⟩],
    some ⟨List.replicate 32 1, List.replicate 32 2, none⟩⟩

private theorem sample_slate : SlateWellFormed idOps sampleSlate where
  id := rfl
  stage := by decide
  version := by decide
  blockVersion := by decide
  numParts := by decide
  ttl := by decide
  features := by decide
  offset := rfl
  amount := by decide
  feeShift := by decide
  feeValue := by decide
  numSigs := by decide
  sigKeys := by decide
  sigParts := by
    intro g hg p hp
    simp only [sampleSlate, List.mem_singleton] at hg
    subst hg
    simp only [Option.mem_def, Option.some.injEq] at hp
    subst hp
    exact ⟨_, rfl, rfl, rfl⟩
  numComs := by decide
  coms := by
    intro c hc
    simp only [sampleSlate, List.mem_cons, List.not_mem_nil, or_false] at hc
    rcases hc with rfl | rfl
    · exact ⟨by decide, rfl, by intro p hp; cases hp⟩
    · refine ⟨by decide, rfl, ?_⟩
      intro p hp
      simp only [Option.mem_def, Option.some.injEq] at hp
      subst hp; decide +kernel
  proof := by
    intro p hp
    simp only [sampleSlate, Option.mem_def, Option.some.injEq] at hp
    subst hp
    exact ⟨rfl, rfl, by intro g hg; cases hg⟩
  plain := by decide
  locked := fun _ => ⟨77, by decide, rfl⟩
  other := by decide

example : ∃ bs, slateSer idOps sampleSlate = .ok bs ∧ Reads (slateDeser idOps) bs sampleSlate :=
  slate_roundtrip _ _ sample_slate

/-- Slates outside `SlateWellFormed` that a peer can cause: a partial signature that secp256k1 does not parse
(the JSON reader takes any 64 bytes) makes serializing undefined. -/
theorem slate_bad_signature_undefined (ops : SigOps) (s : Slate) (g : SlateSig) (rest : List SlateSig) (p : Bytes)
    (hs : s.sigs = g :: rest) (hg : g.partialSig = some p) (hp : ops.parse p = none) :
    slateSer ops s = .ub := by
  have h1 : sigSer ops g = .ub := by simp [sigSer, hg, hp]
  simp [slateSer, hs, serManyRes, h1]

example : slateSer ⟨fun _ => none, some⟩ sampleSlate = .ub :=
  slate_bad_signature_undefined _ _ _ _ _ rfl rfl rfl

/-- The relative lock height of a no-recent-duplicate slate (features 3) is not part of the binary form: two
slates differing only there have the same bytes. -/
theorem slate_nrd_height_lost (ops : SigOps) (s : Slate) (h : s.features = 3) (a : Option (Option Nat)) :
    slateSer ops { s with featureArgs := a } = slateSer ops s := by
  simp [slateSer, fieldStatus, structStatus, h]

example : slateSer idOps { sampleSlate with features := 3, featureArgs := some (some 5) } =
    slateSer idOps { sampleSlate with features := 3, featureArgs := some none } :=
  slate_nrd_height_lost idOps { sampleSlate with features := 3, featureArgs := some none } rfl _

/-- **C66 fails.** Slates of different block versions, or with different lock heights, compare equal. -/
theorem slate_equality_violated (s : Slate) (h : s.blockVersion ≠ 0) (v : Nat) (hv : v ≠ 0)
    (a : Option (Option Nat)) : slateEq s { s with blockVersion := v, featureArgs := a } = true := by
  simp [slateEq, h, hv]

/-- **C66 fails** the other way: a slate of block version 0 does not equal itself. -/
theorem slate_equality_irreflexive_violated (s : Slate) (h : s.blockVersion = 0) : slateEq s s = false := by
  simp [slateEq, h]

/-- **C66, what holds**: for block versions other than 0, slates compare equal exactly when they agree on
everything but the block version and the feature arguments. -/
theorem slate_equality_partial (a b : Slate) (ha : a.blockVersion ≠ 0) (hb : b.blockVersion ≠ 0) :
    slateEq a b = true ↔ a = { b with blockVersion := a.blockVersion, featureArgs := a.featureArgs } := by
  obtain ⟨a1, a2, a3, a4, a5, a6, a7, a8, a9, a10, a11, a12, a13, a14⟩ := a
  obtain ⟨b1, b2, b3, b4, b5, b6, b7, b8, b9, b10, b11, b12, b13, b14⟩ := b
  simp only at ha hb
  simp only [slateEq, ha, hb, Bool.and_eq_true,
    decide_eq_true_eq, Slate.mk.injEq, true_and, ne_eq,
    not_false_eq_true, and_true]
  constructor
  · rintro ⟨⟨⟨⟨⟨⟨⟨⟨⟨⟨⟨h1, h2⟩, h3⟩, h4⟩, h5⟩, h6⟩, h7⟩, h8⟩, h9⟩, h10⟩, h11⟩, h12⟩
    exact ⟨h1, h2, h3, h7, h9, h8, h6, h4, h5, h10, h11, h12⟩
  · rintro ⟨h1, h2, h3, h7, h9, h8, h6, h4, h5, h10, h11, h12⟩
    exact ⟨⟨⟨⟨⟨⟨⟨⟨⟨⟨⟨h1, h2⟩, h3⟩, h4⟩, h5⟩, h6⟩, h7⟩, h8⟩, h9⟩, h10⟩, h11⟩, h12⟩

/-- Spec: a call that adds an input or an output to a slate. -/
inductive SlateAdd
  | input (features : Nat) (commit : Bytes)
  | output (features : Nat) (commit proof : Bytes)

/-- Spec: perform one call. -/
def slateAdd (s : Slate) : SlateAdd → Slate
  | .input f c => s.addInput f c
  | .output f c p => s.addOutput f c p

private theorem addOutputTo_commits (f : Nat) (c p : Bytes) (l : List SlateCom) :
    (addOutputTo f c p l).map (·.commit) =
      if c ∈ l.map (·.commit) then l.map (·.commit) else l.map (·.commit) ++ [c] := by
  induction l with
  | nil => rfl
  | cons x l ih =>
    unfold addOutputTo
    by_cases hx : x.commit = c
    · rw [if_pos hx, if_pos (by simp [hx])]
      cases hp : x.proof <;> simp
    · rw [if_neg hx, List.map_cons, ih]
      by_cases hc : c ∈ l.map (·.commit)
      · rw [if_pos hc, if_pos (by simp [hc])]; simp
      · rw [if_neg hc, if_neg (by simp only [List.map_cons, List.mem_cons, not_or]; exact ⟨fun e => hx e.symm, hc⟩)]
        simp

/-- **C65.** Whatever inputs and outputs are added to a slate, in any order, no commitment occurs in it twice,
so no coin is both spent and created or listed twice. -/
theorem slate_commitments_distinct (s : Slate) (adds : List SlateAdd)
    (h : (s.coms.map (·.commit)).Nodup) : ((adds.foldl slateAdd s).coms.map (·.commit)).Nodup := by
  induction adds generalizing s with
  | nil => exact h
  | cons a adds ih =>
    refine ih _ ?_
    cases a with
    | input f c =>
      simp only [slateAdd, Slate.addInput]
      split
      · exact h
      · rename_i hc
        simp only [List.map_append, List.map_cons, List.map_nil]
        rw [List.nodup_append]
        refine ⟨h, by simp, ?_⟩
        intro x hx y hy e
        simp only [List.mem_singleton] at hy
        rw [hy] at e
        rw [e] at hx
        obtain ⟨z, hz, ez⟩ := List.mem_map.mp hx
        exact hc (List.any_eq_true.mpr ⟨z, hz, by simpa using ez⟩)
    | output f c p =>
      simp only [slateAdd, Slate.addOutput]
      rw [addOutputTo_commits]
      split
      · exact h
      · rename_i hc
        rw [List.nodup_append]
        refine ⟨h, by simp, ?_⟩
        intro x hx y hy e
        simp only [List.mem_singleton] at hy
        rw [hy] at e
        exact hc (e ▸ hx)

/-- **C65, additions take effect.** Every commitment added is in the slate, and nothing that was there is
removed. -/
theorem slate_additions_kept (s : Slate) (adds : List SlateAdd) (c : Bytes) :
    c ∈ (adds.foldl slateAdd s).coms.map (·.commit) ↔
      c ∈ s.coms.map (·.commit) ∨
        ∃ a ∈ adds, (∃ f, a = .input f c) ∨ ∃ f p, a = .output f c p := by
  induction adds generalizing s with
  | nil => simp
  | cons a adds ih =>
    rw [List.foldl_cons, ih]
    have step : c ∈ (slateAdd s a).coms.map (·.commit) ↔
        c ∈ s.coms.map (·.commit) ∨ ((∃ f, a = .input f c) ∨ ∃ f p, a = .output f c p) := by
      cases a with
      | input f d =>
        simp only [slateAdd, Slate.addInput]
        split
        · rename_i hd
          obtain ⟨z, hz, ez⟩ := List.any_eq_true.mp hd
          have : d ∈ s.coms.map (·.commit) := List.mem_map.mpr ⟨z, hz, by simpa using ez⟩
          constructor
          · intro h; exact .inl h
          · rintro (h | ⟨f', e⟩ | ⟨f', p', e⟩)
            · exact h
            · cases e; exact this
            · cases e
        · simp only [List.map_append, List.mem_append, List.map_cons, List.map_nil, List.mem_singleton]
          constructor
          · rintro (h | h)
            · exact .inl h
            · exact .inr (.inl ⟨f, by rw [h]⟩)
          · rintro (h | ⟨f', e⟩ | ⟨f', p', e⟩)
            · exact .inl h
            · cases e; exact .inr rfl
            · cases e
      | output f d p =>
        simp only [slateAdd, Slate.addOutput]
        rw [addOutputTo_commits]
        split
        · rename_i hd
          constructor
          · intro h; exact .inl h
          · rintro (h | ⟨f', e⟩ | ⟨f', p', e⟩)
            · exact h
            · cases e
            · cases e; exact hd
        · simp only [List.mem_append, List.mem_singleton]
          constructor
          · rintro (h | h)
            · exact .inl h
            · exact .inr (.inr ⟨f, p, by rw [h]⟩)
          · rintro (h | ⟨f', e⟩ | ⟨f', p', e⟩)
            · exact .inl h
            · cases e
            · cases e; exact .inr rfl
    rw [step]
    simp only [List.mem_cons, exists_eq_or_imp, or_assoc]

example : (([SlateAdd.input 0 [1], .output 0 [2] [9], .input 0 [1], .output 0 [1] [7]].foldl slateAdd
    { sampleSlate with coms := [] }).coms.map (·.commit)) = [[1], [2]] := by decide

end Verif.Props
