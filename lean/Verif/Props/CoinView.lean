import Verif.Chain.CoinView
import Verif.Props.Restore
import Verif.Props.Core

/-!
# C141: what a peer of protocol version 3 or later sends is read as it was meant

`coin` is a lookup of an output by commitment in the chain state, `Holds` says that the chain state is stored correctly (C36).
`Reads p bs a`: the deserializer `p` reads `a` from the bytes `bs`, whatever comes before and after.
-/
namespace Verif.Props
open Verif Verif.PoW Verif.Tx Verif.MMR

/-- Spec: the features an input should have: those of the output it spends; plain if the chain has no such output. -/
def featuresOf (db : DB) (t : THS) (c : Bytes) : Nat :=
  match coin db t c with
  | .ok (some k) => (k.output.headD 0).toNat
  | _ => 0

/-- **C141.**  With the chain state open, the features looked up are those of the unspent output, and plain if there is none;
the lookup never fails. -/
theorem view_right (H : Bytes → Bytes) (db : DB) (t : THS) (s : State) (h : Holds H db t s)
    (hb : leafPos s.leaves.length < 2 ^ 64) (c : Bytes) : coinView db (some t) c = .ok (featuresOf db t c) := by
  unfold featuresOf
  rw [coin_eq h hb]
  unfold coinView
  cases e : db.pos c with
  | none => rfl
  | some l =>
    have hm := (h.pos c l e).1
    have h1 := h.outputs.inRange _ hm
    have h2 := h.proofs.inRange _ hm
    simp only
    rw [(pruned_get H _ _ _ h.outputs hb).1, (pruned_get H _ _ _ h.proofs (by rw [h.same]; exact hb)).1,
      if_pos hm, if_pos hm, List.getElem?_eq_getElem h1, List.getElem?_eq_getElem h2]
    simp only [Res.ok_bind, Option.map_some, List.getD_eq_getElem?_getD, List.getElem?_eq_getElem h1, Option.getD_some]
    rfl

private theorem body_view (H : DigestNum) (view : Bytes → Res Nat) (f : Bytes → Nat) (hv : ∀ c, view c = .ok (f c))
    (ver : Nat) : bodyDeserView H view ver = bodyDeser H f ver := by
  have : inputDeserView view ver = inputDeser f ver := by
    unfold inputDeserView inputDeser
    split
    · funext b
      simp only [Parser.bind_run, Parser.lift, hv, Res.ok_bind]
      rfl
    · rfl
  unfold bodyDeserView bodyDeser
  rw [this]

/-- **C141.**  With the chain state open, any bytes whatever are read as by a deserializer that knows the features: nothing proved
about reading blocks (C03, C04, C107) depends on the lookup. -/
theorem block_view_total (H : Bytes → Bytes) (db : DB) (t : THS) (s : State) (h : Holds H db t s)
    (hb : leafPos s.leaves.length < 2 ^ 64) (D : DigestNum) (HB : Bytes → Bytes) (ver : Nat) :
    blockDeserView D HB (coinView db (some t)) ver = blockDeser D HB (featuresOf db t) ver ∧
    txDeserView D (coinView db (some t)) ver = txDeser D (featuresOf db t) ver := by
  have hb' := body_view D (coinView db (some t)) (featuresOf db t) (view_right H db t s h hb) ver
  constructor
  · unfold blockDeserView blockDeser
    rw [hb']
  · unfold txDeserView txDeser
    rw [hb']

/-- The body as it is read: each input with the features looked up. -/
private def reread (db : DB) (t : THS) (b : Body) : Body :=
  { b with inputs := b.inputs.map fun i => ⟨featuresOf db t i.commit, i.commit⟩ }

private theorem features_lt (db : DB) (t : THS) (c : Bytes) : featuresOf db t c < 256 := by
  unfold featuresOf
  split
  · exact UInt8.toNat_lt _
  · decide

private theorem reread_valid {D : DigestNum} {db : DB} {t : THS} {b : Body} {f : Bytes → Nat} (ver : Nat)
    (h : ValidBody D f 1 b) : ValidBody D (featuresOf db t) ver (reread db t b) where
  inputs := by
    intro i hi
    obtain ⟨j, hj, rfl⟩ := List.mem_map.mp hi
    exact ⟨(h.inputs j hj).1, features_lt db t _, fun _ => rfl⟩
  outputs := h.outputs
  kernels := h.kernels
  inputsSorted := by
    show (b.inputs.map fun i => (⟨featuresOf db t i.commit, i.commit⟩ : TxInput)).Pairwise _
    rw [List.pairwise_map]
    exact h.inputsSorted.imp fun {a c} hac => by simpa [inputHash, inputSer] using hac
  outputsSorted := h.outputsSorted
  kernelsSorted := h.kernelsSorted

private theorem reread_ser (db : DB) (t : THS) (b : Body) (ver : Nat) (hver : 3 ≤ ver) :
    bodySer ver (reread db t b) = bodySer ver b := by
  unfold bodySer reread
  simp only [List.length_map]
  congr 4
  unfold serMany
  rw [List.map_map]
  congr 1
  refine List.map_congr_left fun i _ => ?_
  simp [inputSer, show ¬ ver < 3 by omega]

private theorem block_reread (H : Bytes → Bytes) (db : DB) (t : THS) (s : State) (h : Holds H db t s)
    (hb : leafPos s.leaves.length < 2 ^ 64) (D : DigestNum) (HB : Bytes → Bytes) (ver : Nat) (hver : 3 ≤ ver) (b : Block)
    (hh : ValidHeader HB b.header) (hv : ValidBody D (fun _ => 0) 1 b.body)
    (hni : b.body.inputs.length < U64) (hno : b.body.outputs.length < U64) (hnk : b.body.kernels.length < U64) :
    ∃ bs, blockSer ver b = .ok bs ∧ Reads (blockDeserView D HB (coinView db (some t)) ver) bs ⟨b.header, reread db t b.body⟩ := by
  obtain ⟨bs, e, r⟩ := block_roundtrip D HB (featuresOf db t) ver ⟨b.header, reread db t b.body⟩ hh
    (reread_valid ver hv) (by simpa [reread] using hni) hno hnk
  refine ⟨bs, ?_, by rw [(block_view_total H db t s h hb D HB ver).1]; exact r⟩
  rw [← e]
  unfold blockSer
  rw [reread_ser db t b.body ver hver]

/-- **C141**, as far as it holds: a block that spends what is unspent here, sent at version 3 or later, is read as the block that was
sent, features included; so it is stored, and sent on at any version, as it should. -/
theorem block_received_partial (H : Bytes → Bytes) (db : DB) (t : THS) (s : State) (h : Holds H db t s)
    (hb : leafPos s.leaves.length < 2 ^ 64) (D : DigestNum) (HB : Bytes → Bytes) (ver : Nat) (hver : 3 ≤ ver) (b : Block)
    (hh : ValidHeader HB b.header) (hv : ValidBody D (fun _ => 0) 1 b.body)
    (hni : b.body.inputs.length < U64) (hno : b.body.outputs.length < U64) (hnk : b.body.kernels.length < U64)
    (hin : ∀ i ∈ b.body.inputs, ∃ k, coin db t i.commit = .ok (some k) ∧ (k.output.headD 0).toNat = i.features) :
    ∃ bs, blockSer ver b = .ok bs ∧ Reads (blockDeserView D HB (coinView db (some t)) ver) bs b := by
  obtain ⟨bs, e, r⟩ := block_reread H db t s h hb D HB ver hver b hh hv hni hno hnk
  refine ⟨bs, e, ?_⟩
  have : reread db t b.body = b.body := by
    unfold reread
    have : b.body.inputs.map (fun i => (⟨featuresOf db t i.commit, i.commit⟩ : TxInput)) = b.body.inputs := by
      conv_rhs => rw [← List.map_id b.body.inputs]
      refine List.map_congr_left fun i hi => ?_
      obtain ⟨k, hk, hf⟩ := hin i hi
      simp only [featuresOf, hk, hf, id]
    rw [this]
  rw [this] at r
  exact r

/-- **C141 is violated**: a block that arrives before its parent, and spends a coinbase output that the parent (or a block of its branch)
created, is read with plain inputs.  It is another block, and what the node sends of it to peers of version 1 or 2, or stores,
differs from what its peer would. -/
theorem orphan_features_violated (H : Bytes → Bytes) (db : DB) (t : THS) (s : State) (h : Holds H db t s)
    (hb : leafPos s.leaves.length < 2 ^ 64) (D : DigestNum) (HB : Bytes → Bytes) (ver : Nat) (hver : 3 ≤ ver) (b : Block)
    (hh : ValidHeader HB b.header) (hv : ValidBody D (fun _ => 0) 1 b.body)
    (hni : b.body.inputs.length < U64) (hno : b.body.outputs.length < U64) (hnk : b.body.kernels.length < U64)
    (i : TxInput) (hi : i ∈ b.body.inputs) (hcb : i.features = 1) (hnew : coin db t i.commit = .ok none) :
    ∃ bs b', blockSer ver b = .ok bs ∧ Reads (blockDeserView D HB (coinView db (some t)) ver) bs b' ∧ b' ≠ b ∧
      ⟨0, i.commit⟩ ∈ b'.body.inputs ∧ ∀ ver' < 3, ∀ x, blockSer ver' b = .ok x → x.length < U64 →
        blockSer ver' b' ≠ .ok x := by
  obtain ⟨bs, e, r⟩ := block_reread H db t s h hb D HB ver hver b hh hv hni hno hnk
  have hmem : (⟨0, i.commit⟩ : TxInput) ∈ (reread db t b.body).inputs :=
    List.mem_map.mpr ⟨i, hi, by simp [featuresOf, hnew]⟩
  have hne : (⟨b.header, reread db t b.body⟩ : Block) ≠ b := by
    intro heq
    have hin : (reread db t b.body).inputs = b.body.inputs := by
      have := congrArg Block.body heq
      exact congrArg Body.inputs this
    obtain ⟨n, hn, hni'⟩ := List.mem_iff_getElem.mp hi
    have := congrArg (fun l => l[n]?) hin
    simp only [reread, List.getElem?_map, List.getElem?_eq_getElem hn, Option.map_some, Option.some.injEq] at this
    rw [hni'] at this
    have hf := congrArg TxInput.features this
    simp only [featuresOf, hnew, hcb] at hf
    cases hf
  refine ⟨bs, _, e, r, hne, hmem, ?_⟩
  intro ver' hver' x hx hlen heq
  have val : ∀ (f : Bytes → Nat) (b : Body), ValidBody D f 1 b → ValidBody D (fun _ => 0) ver' b := by
    intro f b hv
    exact ⟨fun i hi => ⟨(hv.inputs i hi).1, (hv.inputs i hi).2.1, fun h => by omega⟩, hv.outputs, hv.kernels,
      hv.inputsSorted, hv.outputsSorted, hv.kernelsSorted⟩
  obtain ⟨b1, e1, r1⟩ := block_roundtrip D HB (fun _ => 0) ver' b hh (val _ _ hv) hni hno hnk
  obtain ⟨b2, e2, r2⟩ := block_roundtrip D HB (fun _ => 0) ver' ⟨b.header, reread db t b.body⟩ hh
    (val _ _ (reread_valid 1 hv)) (by simpa [reread] using hni) hno hnk
  rw [e1] at hx
  rw [e2] at heq
  injection hx with hx
  injection heq with heq
  subst hx; subst heq
  have hl : ([] ++ b2 ++ [] : Bytes).length < U64 := by simpa using hlen
  have q1 := r1 [] [] hl
  have q2 := r2 [] [] hl
  rw [q1] at q2
  injection q2 with q2
  injection q2 with q2 _
  exact hne q2.symm

/-! ## While a snapshot is taken over -/

/-- The deserializer reaches undefined behaviour on these bytes, whatever comes before and after. -/
private def Crashes {α : Type} (p : Parser α) (bs : Bytes) : Prop :=
  ∀ pre post : Bytes, (pre ++ bs ++ post).length < U64 → p ⟨pre ++ bs ++ post, pre.length⟩ = .ub

private theorem crash_after {α β : Type} {p : Parser α} {f : α → Parser β} {bs cs : Bytes} {a : α} (hp : Reads p bs a)
    (hf : Crashes (f a) cs) : Crashes (p >>= f) (bs ++ cs) := by
  intro pre post hl
  have h1 := hp pre (cs ++ post) (by simpa [List.append_assoc] using hl)
  have h2 := hf (pre ++ bs) post (by simpa [List.append_assoc] using hl)
  simp only [List.append_assoc, List.length_append] at h1 h2 ⊢
  rw [Parser.bind_run, h1]
  exact h2

private theorem crash_first {α β : Type} {p : Parser α} {f : α → Parser β} {bs : Bytes} (cs : Bytes) (hp : Crashes p bs) :
    Crashes (p >>= f) (bs ++ cs) := by
  intro pre post hl
  have h1 := hp pre (cs ++ post) (by simpa [List.append_assoc] using hl)
  simp only [List.append_assoc] at h1 ⊢
  rw [Parser.bind_run, h1]
  rfl

private theorem inputs_crash (db : DB) (ver : Nat) (hver : 3 ≤ ver) (is : List TxInput)
    (hlen : ∀ i ∈ is, i.commit.length = 33) (h : ∃ i ∈ is, (db.pos i.commit).isSome = true) :
    Crashes (readMany (inputDeserView (coinView db none) ver) is.length) (serMany (inputSer ver) is) := by
  induction is with
  | nil => obtain ⟨i, hi, _⟩ := h; cases hi
  | cons i is ih =>
    have hser : serMany (inputSer ver) (i :: is) = i.commit ++ serMany (inputSer ver) is := by
      simp [serMany, inputSer, show ¬ ver < 3 by omega]
    rw [hser]
    have hc := hlen i (by simp)
    unfold readMany
    cases hp : db.pos i.commit with
    | some l =>
      refine crash_first _ ?_
      unfold inputDeserView
      rw [if_pos hver]
      have := crash_after (f := fun c => Parser.lift (coinView db none c) >>= fun f => (pure ⟨f, c⟩ : Parser TxInput))
        (cs := []) (reads_bytes hc) (by
          intro pre post _
          rw [Parser.bind_run]
          simp [Parser.lift, coinView, hp]
          rfl)
      rwa [List.append_nil] at this
    | none =>
      refine crash_after (a := ⟨0, i.commit⟩) ?_ ?_
      · unfold inputDeserView
        rw [if_pos hver]
        have := Reads.bind (f := fun c => Parser.lift (coinView db none c) >>= fun f => (pure ⟨f, c⟩ : Parser TxInput))
          (cs := []) (reads_bytes hc) (b := ⟨0, i.commit⟩) (by
            intro pre post _
            rw [Parser.bind_run]
            simp [Parser.lift, coinView, hp]
            rfl)
        rwa [List.append_nil] at this
      · have hex : ∃ j ∈ is, (db.pos j.commit).isSome = true := by
          obtain ⟨j, hj, hjs⟩ := h
          rcases List.mem_cons.mp hj with rfl | hj
          · rw [hp] at hjs; cases hjs
          · exact ⟨j, hj, hjs⟩
        have := crash_first (f := fun as => (pure ((⟨0, i.commit⟩ : TxInput) :: as) : Parser (List TxInput))) []
          (ih (fun j hj => hlen j (by simp [hj])) hex)
        rwa [List.append_nil] at this

/-- **C141 is violated**: while the node takes over a snapshot, its chain state is closed but the positions of the outputs it knew are
still there.  Every block with an input among them, sent by any peer of version 3 or later, valid or not, makes the node dereference a null
pointer while it reads the message. -/
theorem closed_crash_violated (db : DB) (D : DigestNum) (HB : Bytes → Bytes) (ver : Nat) (hver : 3 ≤ ver) (b : Block)
    (hh : ValidHeader HB b.header) (hlen : ∀ i ∈ b.body.inputs, i.commit.length = 33)
    (hni : b.body.inputs.length < U64) (hno : b.body.outputs.length < U64) (hnk : b.body.kernels.length < U64)
    (hknown : ∃ i ∈ b.body.inputs, (db.pos i.commit).isSome = true) :
    ∃ bs, blockSer ver b = .ok bs ∧ ∀ rest : Bytes, (bs ++ rest).length < U64 →
      blockDeserView D HB (coinView db none) ver ⟨bs ++ rest, 0⟩ = .ub := by
  obtain ⟨hd, e, r⟩ := header_roundtrip HB b.header hh
  refine ⟨hd ++ bodySer ver b.body, by simp [blockSer, e], ?_⟩
  have hbody : Crashes (bodyDeserView D (coinView db none) ver) (bodySer ver b.body) := by
    unfold bodyDeserView bodySer
    exact crash_after (reads_u64 hni) (crash_after (reads_u64 hno) (crash_after (reads_u64 hnk)
      (crash_first _ (inputs_crash db ver hver _ hlen hknown))))
  have hall : Crashes (blockDeserView D HB (coinView db none) ver) (hd ++ (bodySer ver b.body ++ [])) := by
    unfold blockDeserView
    exact crash_after r (crash_first [] hbody)
  intro rest hl
  have := hall [] rest (by simpa using hl)
  simpa using this

/-! ## Cases -/

/-- A commitment of 33 bytes. -/
private def com (n : UInt8) : Bytes := 8 :: List.replicate 31 0 ++ [n]

/-- One block that creates a coinbase output and a plain one. -/
private def vB1 : Block := ⟨rHeader 1 [0], ⟨[], [⟨1, com 7, [1]⟩, ⟨0, com 8, [2]⟩], []⟩⟩

/-- The features found; once the chain state is closed, the lookup crashes for known outputs and says plain for others. -/
example : (rRun [vB1] rStart).map (fun w => decide (coinView w.1 (some w.2) (com 7) = .ok 1 ∧
    coinView w.1 (some w.2) (com 8) = .ok 0 ∧ coinView w.1 (some w.2) (com 9) = .ok 0 ∧
    coinView w.1 none (com 7) = .ub ∧ coinView w.1 none (com 9) = .ok 0)) = some true := by decide +kernel

/-- A body that spends both, read at version 3: as it was sent with the chain state open, and a crash with it closed. -/
example : (rRun [vB1] rStart).map (fun w =>
    decide (bodyDeserView (fun b => beVal (b.drop 32)) (coinView w.1 (some w.2)) 3
      ⟨bodySer 3 ⟨[⟨1, com 7⟩], [], []⟩, 0⟩ = .ok (⟨[⟨1, com 7⟩], [], []⟩, ⟨bodySer 3 ⟨[⟨1, com 7⟩], [], []⟩, 57⟩)) &&
    decide (bodyDeserView (fun b => beVal (b.drop 32)) (coinView w.1 none) 3 ⟨bodySer 3 ⟨[⟨1, com 7⟩], [], []⟩, 0⟩ = .ub))
    = some true := by decide +kernel

/-- The hypotheses on blocks are met: a header and a body that spends a coinbase output. -/
example : ValidBody (fun b => beVal (b.drop 32)) (fun _ => 0) 1 ⟨[⟨1, com 7⟩, ⟨0, com 8⟩], [], []⟩ :=
  ⟨by simp [ValidInput, com], by simp, by simp, by simp [inputHash, inputSer, com, beVal], by simp, by simp⟩

end Verif.Props
