import Verif.Ser.CoreLemmas
import Verif.Props.Pow

/-!
# C03, C06: transactions, blocks and headers on the wire; fees

`Reads p bs a` (Verif/Ser/Reads.lean) says that `p`, started where the bytes `bs` begin in any
buffer, returns `a` and stops right after them.
-/
namespace Verif.Props

open Verif

/-- Spec: a fee that fits the wire format. -/
def ValidFee (f : Fee) : Prop := f.shift < 16 ∧ f.fee < 2 ^ 40

/-- Spec: a well-formed input.  From protocol version 3 on, the features travel implicitly: they
are those of the output in the receiver's coin view. -/
def ValidInput (coin : Bytes → Nat) (ver : Nat) (i : TxInput) : Prop :=
  i.commit.length = 33 ∧ i.features < 256 ∧ (3 ≤ ver → coin i.commit = i.features)

/-- Spec: a well-formed output. -/
def ValidOutput (o : TxOutput) : Prop :=
  o.features < 256 ∧ o.commit.length = 33 ∧ o.proof.length ≤ 675

/-- Spec: a well-formed kernel of one of the four kinds.  Coinbase kernels carry neither fee nor
lock height, plain kernels no lock height, no-recent-duplicate kernels a relative height of at most
a week. -/
def ValidKernel (k : Kernel) : Prop :=
  ValidFee k.fee ∧ k.excess.length = 33 ∧ k.sig.length = 64 ∧
    ((k.features = 0 ∧ k.lockHeight = 0) ∨
     (k.features = 1 ∧ k.lockHeight = 0 ∧ k.fee = ⟨0, 0⟩) ∨
     (k.features = 2 ∧ k.lockHeight < 2 ^ 64) ∨
     (k.features = 3 ∧ 1 ≤ k.lockHeight ∧ k.lockHeight ≤ 10080))

/-- Spec: items are well formed and strictly sorted by hash, as body validation demands. -/
structure ValidBody (H : DigestNum) (coin : Bytes → Nat) (ver : Nat) (b : Body) : Prop where
  inputs : ∀ i ∈ b.inputs, ValidInput coin ver i
  outputs : ∀ o ∈ b.outputs, ValidOutput o
  kernels : ∀ k ∈ b.kernels, ValidKernel k
  inputsSorted : b.inputs.Pairwise (fun a b => inputHash H a < inputHash H b)
  outputsSorted : b.outputs.Pairwise (fun a b => outputHash H a < outputHash H b)
  kernelsSorted : b.kernels.Pairwise (fun a b => kernelHash H a < kernelHash H b)

/-- Spec: header fields within the ranges of their C++ types, with a proof of work built from
nonces that fit. -/
structure ValidHeader (HB : Bytes → Bytes) (h : Header) : Prop where
  version : h.version < 2 ^ 16
  height : h.height < 2 ^ 64
  time : -2 ^ 63 ≤ h.timestamp ∧ h.timestamp < 2 ^ 63
  prevHash : h.prevHash.length = 32
  prevRoot : h.prevRoot.length = 32
  outputRoot : h.outputRoot.length = 32
  rangeProofRoot : h.rangeProofRoot.length = 32
  kernelRoot : h.kernelRoot.length = 32
  offset : h.offset.length = 32
  outputMMRSize : h.outputMMRSize < 2 ^ 64
  kernelMMRSize : h.kernelMMRSize < 2 ^ 64
  totalDifficulty : h.totalDifficulty < 2 ^ 64
  scaling : h.scaling < 2 ^ 32
  nonce : h.nonce < 2 ^ 64
  edgeBits : 1 ≤ h.pow.edgeBits ∧ h.pow.edgeBits ≤ 63
  nonces : ValidNonces h.pow.edgeBits h.pow.nonces
  powHash : powMake HB h.pow.edgeBits h.pow.nonces = .ok h.pow

/-- **C06 (wire).** A fee that fits the format survives the wire.  The full claim (every 8-bit shift
and 64-bit amount) is false, see `fee_roundtrip_violated`. -/
theorem fee_roundtrip_partial (f : Fee) (h : ValidFee f) : Reads feeDeser (feeSer f) f :=
  reads_fee h.1 h.2

/-- **C06 is violated**: outside `ValidFee` no fee survives the wire: amounts are cut to 40 bits and
shifts to 4. -/
theorem fee_roundtrip_violated (f : Fee) (hs : f.shift < 256) (hf : f.fee < 2 ^ 64)
    (hbad : ¬ ValidFee f) : ¬ Reads feeDeser (feeSer f) f := by
  intro hr
  have h1 : f.fee >>> 32 = f.fee / 2 ^ 32 := Nat.shiftRight_eq_div_pow _ _
  have h2 : f.fee &&& 0xffffffff = f.fee % 2 ^ 32 := Nat.and_two_pow_sub_one_eq_mod f.fee 32
  have h3 : f.shift &&& 0x0f = f.shift % 16 := by
    have := Nat.and_two_pow_sub_one_eq_mod f.shift 4
    simpa using this
  -- what is really read
  have key : Reads feeDeser (feeSer f) ⟨f.shift % 16, f.fee % 2 ^ 40⟩ := by
    unfold feeDeser feeSer
    have e8 : beBytes 1 (f.fee >>> 32) = beBytes 1 ((f.fee >>> 32) % 256) := by
      simp only [beBytes, List.nil_append, List.cons.injEq, and_true]
      apply UInt8.toNat_inj.mp
      simp
    rw [e8]
    refine Reads.bind (reads_u16 (by omega)) (Reads.bind (reads_u8 hs)
      (Reads.bind (reads_u8 (x := (f.fee >>> 32) % 256) (by omega))
        (Reads.bind0 (reads_u32 (x := f.fee &&& 0xffffffff) (by omega)) ?_)))
    refine Reads.congr (Reads.pure _) rfl ?_
    rw [h3, Nat.shiftLeft_eq]
    simp only [Fee.mk.injEq, true_and]
    omega
  have hlen : (feeSer f).length = 8 := by simp [feeSer]
  have e1 := hr [] [] (by simp [hlen, U64])
  have e2 := key [] [] (by simp [hlen, U64])
  rw [e1] at e2
  injection e2 with e2
  injection e2 with e2 _
  apply hbad
  have es : f.shift = f.shift % 16 := congrArg Fee.shift e2
  have ef : f.fee = f.fee % 2 ^ 40 := congrArg Fee.fee e2
  exact ⟨by omega, by omega⟩

/-- **C06 (JSON).** A fee without shift and below 2^40 survives JSON.  The full claim is false, see
`fee_json_violated`. -/
theorem fee_json_roundtrip_partial (f : Fee) (hs : f.shift = 0) (hf : f.fee < 2 ^ 40) :
    feeFromJSON (feeToJSON f) = f := by
  have h1 : f.fee >>> 32 = f.fee / 2 ^ 32 := Nat.shiftRight_eq_div_pow _ _
  have h2 : f.fee &&& 0xffffffff = f.fee % 2 ^ 32 := Nat.and_two_pow_sub_one_eq_mod f.fee 32
  have : feeToJSON f = f.fee := by
    unfold feeToJSON feeSer
    rw [hs, h1, h2]
    simp [beBytes, beVal]
    omega
  cases f with
  | mk s v => simp only at hs; subst hs; simp only [feeFromJSON, this]

/-- **C06 is violated** for JSON: a fee with any non-zero shift comes back different. -/
theorem fee_json_violated (f : Fee) (hs : f.shift ≠ 0) : feeFromJSON (feeToJSON f) ≠ f := by
  intro h
  exact hs (congrArg Fee.shift h).symm

/-- **C03, inputs**, at every protocol version. -/
theorem input_roundtrip (coin : Bytes → Nat) (ver : Nat) (i : TxInput)
    (h : ValidInput coin ver i) : Reads (inputDeser coin ver) (inputSer ver i) i :=
  reads_input h.1 h.2.1 h.2.2

/-- **C03, outputs.** -/
theorem output_roundtrip (o : TxOutput) (h : ValidOutput o) :
    Reads outputDeser (outputSer o) o :=
  reads_output h.1 h.2.1 h.2.2

/-- **C03, output identifiers** (the entries of the output MMR). -/
theorem outputId_roundtrip (o : TxInput) (hf : o.features < 256) (hc : o.commit.length = 33) :
    Reads outputIdDeser (outputIdSer o) o :=
  reads_outputId hf hc

/-- **C03, kernels**, at every protocol version. -/
theorem kernel_roundtrip (ver : Nat) (k : Kernel) (h : ValidKernel k) :
    Reads (kernelDeser ver) (kernelSer ver k) k := by
  obtain ⟨hfee, hex, hsig, hk⟩ := h
  rw [kernelSer_eq]
  unfold kernelDeser
  have hl : k.lockHeight < U64 := by
    simp only [U64]; omega
  have hft : k.features < 256 := by omega
  refine Reads.bind (reads_u8 hft) (Reads.bind (reads_kernelArgs hfee.1 hfee.2 hl ?_)
    (Reads.bind (reads_bytes hex) (Reads.bind0 (reads_bytes hsig) ?_)))
  · intro _
    rcases hk with ⟨a, b⟩ | ⟨a, b, c⟩ | ⟨a, b⟩ | ⟨a, b, c⟩
    · exact ⟨by omega, fun _ => b, by omega, by omega⟩
    · exact ⟨by omega, by omega, fun _ => ⟨b, c⟩, by omega⟩
    · exact ⟨by omega, by omega, by omega, by omega⟩
    · exact ⟨by omega, by omega, by omega, by omega⟩
  · have : ¬ (k.features = 3 ∧ (k.lockHeight = 0 ∨ k.lockHeight > WEEK_HEIGHT)) := by
      simp only [WEEK_HEIGHT]; omega
    simp only [this, if_false]
    exact Reads.pure _

/-- **C03, bodies**, with any number of inputs, outputs and kernels (fewer than 2^64, which memory
guarantees). -/
theorem body_roundtrip (H : DigestNum) (coin : Bytes → Nat) (ver : Nat) (b : Body)
    (h : ValidBody H coin ver b) (hni : b.inputs.length < U64) (hno : b.outputs.length < U64)
    (hnk : b.kernels.length < U64) :
    Reads (bodyDeser H coin ver) (bodySer ver b) b := by
  unfold bodyDeser bodySer
  refine Reads.bind (reads_u64 hni) (Reads.bind (reads_u64 hno) (Reads.bind (reads_u64 hnk)
    (Reads.bind (reads_many fun i hi => input_roundtrip coin ver i (h.inputs i hi))
    (Reads.bind (reads_many fun o ho => output_roundtrip o (h.outputs o ho))
    (Reads.bind0 (reads_many fun k hk => kernel_roundtrip ver k (h.kernels k hk)) ?_)))))
  refine Reads.congr (Reads.pure _) rfl ?_
  rw [sortByHash_of_sorted h.inputsSorted, sortByHash_of_sorted h.outputsSorted,
    sortByHash_of_sorted h.kernelsSorted]

/-- **C03, transactions.** -/
theorem tx_roundtrip (H : DigestNum) (coin : Bytes → Nat) (ver : Nat) (t : Tx)
    (h : ValidBody H coin ver t.body) (ho : t.offset.length = 32)
    (hni : t.body.inputs.length < U64) (hno : t.body.outputs.length < U64)
    (hnk : t.body.kernels.length < U64) :
    Reads (txDeser H coin ver) (txSer ver t) t := by
  unfold txDeser txSer
  exact Reads.bind (reads_bytes ho)
    (Reads.bind0 (body_roundtrip H coin ver t.body h hni hno hnk) (Reads.pure _))

/-- **C03, block headers.** -/
theorem header_roundtrip (HB : Bytes → Bytes) (h : Header) (hv : ValidHeader HB h) :
    ∃ bs, headerSer h = .ok bs ∧ Reads (headerDeser HB) bs h := by
  obtain ⟨p, pb, hp1, hp2, hp3⟩ :=
    pow_roundtrip HB h.pow.edgeBits hv.edgeBits.1 hv.edgeBits.2 h.pow.nonces hv.nonces
  have : p = h.pow := by
    have := hv.powHash
    rw [hp1] at this
    injection this
  subst this
  have hU : U64 = 2 ^ 64 := rfl
  refine ⟨headerPre h ++ pb, by simp [headerSer, hp2], ?_⟩
  unfold headerDeser headerPre
  simp only [List.append_assoc]
  refine Reads.bind (reads_u16 hv.version) (Reads.bind (reads_u64 hv.height)
    (Reads.bind (reads_i64 hv.time.1 hv.time.2) (Reads.bind (reads_bytes hv.prevHash)
    (Reads.bind (reads_bytes hv.prevRoot) (Reads.bind (reads_bytes hv.outputRoot)
    (Reads.bind (reads_bytes hv.rangeProofRoot) (Reads.bind (reads_bytes hv.kernelRoot)
    (Reads.bind (reads_bytes hv.offset) (Reads.bind (reads_u64 hv.outputMMRSize)
    (Reads.bind (reads_u64 hv.kernelMMRSize) (Reads.bind (reads_u64 hv.totalDifficulty)
    (Reads.bind (reads_u32 hv.scaling) (Reads.bind (reads_u64 hv.nonce)
    (Reads.bind0 hp3 (Reads.pure _)))))))))))))))

/-- **C03, full blocks.** -/
theorem block_roundtrip (H : DigestNum) (HB : Bytes → Bytes) (coin : Bytes → Nat) (ver : Nat)
    (b : Block) (hh : ValidHeader HB b.header) (h : ValidBody H coin ver b.body)
    (hni : b.body.inputs.length < U64) (hno : b.body.outputs.length < U64)
    (hnk : b.body.kernels.length < U64) :
    ∃ bs, blockSer ver b = .ok bs ∧ Reads (blockDeser H HB coin ver) bs b := by
  obtain ⟨hb, e, r⟩ := header_roundtrip HB b.header hh
  refine ⟨hb ++ bodySer ver b.body, by simp [blockSer, e], ?_⟩
  unfold blockDeser
  exact Reads.bind r (Reads.bind0 (body_roundtrip H coin ver b.body h hni hno hnk) (Reads.pure _))

/-- **C03, compact blocks.** -/
theorem compact_roundtrip (HB : Bytes → Bytes) (ver : Nat) (b : CompactBlk)
    (hh : ValidHeader HB b.header) (hn : b.nonce < U64)
    (ho : ∀ o ∈ b.outputs, ValidOutput o) (hk : ∀ k ∈ b.kernels, ValidKernel k)
    (hs : ∀ s ∈ b.shortIds, s.length = 6) (hno : b.outputs.length < U64)
    (hnk : b.kernels.length < U64) (hns : b.shortIds.length < U64) :
    ∃ bs, compactSer ver b = .ok bs ∧ Reads (compactDeser HB ver) bs b := by
  obtain ⟨hb, e, r⟩ := header_roundtrip HB b.header hh
  refine ⟨_, by simp only [compactSer, e, Res.ok_bind]; rfl, ?_⟩
  unfold compactDeser
  exact Reads.bind r (Reads.bind (reads_u64 hn) (Reads.bind (reads_u64 hno)
    (Reads.bind (reads_u64 hnk) (Reads.bind (reads_u64 hns)
    (Reads.bind (reads_many fun o h => output_roundtrip o (ho o h))
    (Reads.bind (reads_many fun k h => kernel_roundtrip ver k (hk k h))
    (Reads.bind0 (reads_many fun s h => reads_bytes (hs s h)) (Reads.pure _))))))))

/-- The deserializer accepts kernels with an unknown features byte, and (from protocol version 2 on)
what it then accepts cannot be sent on: re-serializing drops the fee it read, so the 97 remaining
bytes end eight bytes early.  Hence the round trip needs `ValidKernel`. -/
theorem kernel_unknown_features_violated (ver : Nat) (hv : 2 ≤ ver) (k : Kernel)
    (hf : 4 ≤ k.features) (hf2 : k.features < 256)
    (he : k.excess.length = 33) (hs : k.sig.length = 64) :
    ¬ Reads (kernelDeser ver) (kernelSer ver k) k := by
  intro h
  have hser : kernelSer ver k = beBytes 1 k.features ++ (k.excess ++ k.sig) := by
    rw [kernelSer_eq, kernelArgsSer, if_pos hv, if_neg (by omega), if_neg (by omega),
      if_neg (by omega), if_neg (by omega)]
    rfl
  have hl : (kernelSer ver k).length = 98 := by simp [hser, he, hs]
  have h1 := h [] [] (by simp [hl, U64])
  simp only [List.nil_append, List.append_nil, List.length_nil, Nat.zero_add] at h1
  rw [hl] at h1
  generalize kernelSer ver k = d at h1 hl hser
  -- the features byte read is the one written
  have hb : readBE 1 ⟨d, 0⟩ = .ok (k.features, ⟨d, 1⟩) := by
    have := reads_u8 hf2 [] (k.excess ++ k.sig) (by simp [he, hs, U64])
    simp only [List.nil_append, List.length_nil, Nat.zero_add, beBytes_length, ← hser] at this
    exact this
  have step : ∀ i n : Nat, i + n ≤ 98 →
      readBytes n ⟨d, i⟩ = .ok ((d.drop i).take n, ⟨d, i + n⟩) := by
    intro i n hin
    have hm : (i + n) % U64 = i + n := Nat.mod_eq_of_lt (by simp only [U64]; omega)
    simp only [readBytes, hm, hl]
    rw [if_neg (by omega), if_pos hin]
  have hsix : readBytes 64 ⟨d, 42⟩ = .throw := by
    have hm : (42 + 64) % U64 = 106 := rfl
    simp only [readBytes, hm, hl]
    rw [if_pos (by omega)]
  have hbe : ∀ i n : Nat, i + n ≤ 98 →
      readBE n ⟨d, i⟩ = .ok (beVal ((d.drop i).take n), ⟨d, i + n⟩) := by
    intro i n hin
    simp [readBE, Parser.bind_run, step i n hin, Res.bind, Parser.pure_run]
  have hfee : ∃ f, feeDeser ⟨d, 1⟩ = .ok (f, ⟨d, 9⟩) := by
    unfold feeDeser
    simp only [Parser.bind_run, hbe 1 2 (by omega), Res.bind, hbe 3 1 (by omega),
      hbe 4 1 (by omega), hbe 5 4 (by omega), Parser.pure_run]
    exact ⟨_, rfl⟩
  obtain ⟨f, hfee⟩ := hfee
  have hargs : kernelArgsDeser ver k.features ⟨d, 1⟩ = .ok ((f, 0), ⟨d, 9⟩) := by
    unfold kernelArgsDeser
    rw [if_pos hv, if_pos (by omega), if_neg (by omega), if_neg (by omega)]
    simp [Parser.bind_run, hfee, Res.bind, Parser.pure_run]
  unfold kernelDeser at h1
  simp [Parser.bind_run, hb, hargs, step 9 33 (by omega), hsix, Res.bind] at h1

/-- A body is read back sorted whatever order it was sent in: an unsorted body is not refused by the
deserializer, it is silently reordered, so the received object differs from the one sent. -/
theorem unsorted_body_accepted (H : DigestNum) (coin : Bytes → Nat) (ver : Nat) (b : Body)
    (hi : ∀ i ∈ b.inputs, ValidInput coin ver i) (ho : ∀ o ∈ b.outputs, ValidOutput o)
    (hk : ∀ k ∈ b.kernels, ValidKernel k) (hni : b.inputs.length < U64)
    (hno : b.outputs.length < U64) (hnk : b.kernels.length < U64) :
    ∃ b', Reads (bodyDeser H coin ver) (bodySer ver b) b' ∧
      b'.inputs.Perm b.inputs ∧ b'.outputs.Perm b.outputs ∧ b'.kernels.Perm b.kernels ∧
      b'.inputs.Pairwise (fun x y => inputHash H x ≤ inputHash H y) ∧
      b'.outputs.Pairwise (fun x y => outputHash H x ≤ outputHash H y) ∧
      b'.kernels.Pairwise (fun x y => kernelHash H x ≤ kernelHash H y) := by
  refine ⟨⟨sortByHash (inputHash H) b.inputs, sortByHash (outputHash H) b.outputs,
    sortByHash (kernelHash H) b.kernels⟩, ?_, List.mergeSort_perm _ _, List.mergeSort_perm _ _, List.mergeSort_perm _ _,
    ?_, ?_, ?_⟩
  · unfold bodyDeser bodySer
    exact Reads.bind (reads_u64 hni) (Reads.bind (reads_u64 hno) (Reads.bind (reads_u64 hnk)
      (Reads.bind (reads_many fun i h => input_roundtrip coin ver i (hi i h))
      (Reads.bind (reads_many fun o h => output_roundtrip o (ho o h))
      (Reads.bind0 (reads_many fun k h => kernel_roundtrip ver k (hk k h)) (Reads.pure _))))))
  all_goals
    refine (List.pairwise_mergeSort ?_ ?_ _).imp (fun h => by simpa using h)
    · intro a b c h1 h2; simp only [decide_eq_true_eq] at *; omega
    · intro a b; simp only [Bool.or_eq_true, decide_eq_true_eq]; omega

/-- **C03 / C47 support.** The message a kernel's signature signs determines its kind, fee and lock
height: two well-formed kernels with the same message agree on them. -/
theorem kernel_message_injective (k k' : Kernel) (h : ValidKernel k) (h' : ValidKernel k')
    (e : kernelMsg k.features k.fee k.lockHeight = kernelMsg k'.features k'.fee k'.lockHeight) :
    k.features = k'.features ∧ k.fee = k'.fee ∧ k.lockHeight = k'.lockHeight := by
  have key : ∀ k : Kernel, ValidKernel k →
      Reads (do let f ← readBE 1; let a ← kernelArgsDeser 2 f; pure (f, a))
        (kernelMsg k.features k.fee k.lockHeight) (k.features, (k.fee, k.lockHeight)) := by
    intro k hv
    have he : kernelMsg k.features k.fee k.lockHeight
        = beBytes 1 k.features ++ kernelArgsSer 2 k := by
      unfold kernelMsg kernelArgsSer
      obtain ⟨_, _, _, hk⟩ := hv
      rcases hk with ⟨a, b⟩ | ⟨a, b, c⟩ | ⟨a, b⟩ | ⟨a, b, c⟩ <;> simp [a]
    rw [he]
    obtain ⟨hfee, hex, hsig, hk⟩ := hv
    refine Reads.bind (reads_u8 (by omega)) (Reads.bind0 (reads_kernelArgs hfee.1 hfee.2
      (by simp only [U64]; omega) ?_) (Reads.pure _))
    intro _
    rcases hk with ⟨a, b⟩ | ⟨a, b, c⟩ | ⟨a, b⟩ | ⟨a, b, c⟩
    · exact ⟨by omega, fun _ => b, by omega, by omega⟩
    · exact ⟨by omega, by omega, fun _ => ⟨b, c⟩, by omega⟩
    · exact ⟨by omega, by omega, by omega, by omega⟩
    · exact ⟨by omega, by omega, by omega, by omega⟩
  have hlen : ∀ k : Kernel, (kernelMsg k.features k.fee k.lockHeight).length < U64 := by
    intro k
    simp only [kernelMsg, feeSer, U64]
    split <;> split <;> split <;> simp
  have r1 := key k h [] [] (by simpa using hlen k)
  have r2 := key k' h' [] [] (by simpa using hlen k')
  rw [e] at r1
  rw [r1] at r2
  injection r2 with r2
  injection r2 with r2 _
  injection r2 with r3 r4
  injection r4 with r5 r6
  exact ⟨r3, r5, r6⟩

/-! ## The hypotheses are met by concrete objects -/

/-- A coinbase kernel, a height-locked kernel and a no-recent-duplicate kernel are well formed. -/
example : ValidKernel ⟨1, ⟨0, 0⟩, 0, List.replicate 33 7, List.replicate 64 9⟩ ∧
    ValidKernel ⟨2, ⟨3, 7000000⟩, 1234567, List.replicate 33 7, List.replicate 64 9⟩ ∧
    ValidKernel ⟨3, ⟨15, 1099511627775⟩, 10080, List.replicate 33 7, List.replicate 64 9⟩ := by
  refine ⟨?_, ?_, ?_⟩ <;> simp [ValidKernel, ValidFee]

/-- A body with two inputs, two outputs and a kernel is well formed for a hash that reads the bytes
as a number. -/
example : ValidBody beVal (fun _ => 0) 3
    ⟨[⟨0, List.replicate 33 1⟩, ⟨0, List.replicate 33 2⟩],
     [⟨0, List.replicate 33 3, List.replicate 675 5⟩, ⟨1, List.replicate 33 3, []⟩],
     [⟨0, ⟨0, 8⟩, 0, List.replicate 33 7, List.replicate 64 9⟩]⟩ := by
  constructor
  · intro i hi
    simp only [List.mem_cons, List.not_mem_nil, or_false] at hi
    rcases hi with rfl | rfl <;> simp [ValidInput]
  · intro o ho
    simp only [List.mem_cons, List.not_mem_nil, or_false] at ho
    rcases ho with rfl | rfl
    · exact ⟨by decide, List.length_replicate, Nat.le_of_eq List.length_replicate⟩
    · exact ⟨by decide, List.length_replicate, by decide⟩
  · intro k hk
    simp only [List.mem_cons, List.not_mem_nil, or_false] at hk
    subst hk; simp [ValidKernel, ValidFee]
  · simp [inputHash, inputSer, List.replicate, beVal]
  · simp only [List.pairwise_cons, List.mem_singleton, List.not_mem_nil, forall_eq]
    exact ⟨by decide +kernel, by simp, List.Pairwise.nil⟩
  · simp

/-- A header with a proof over 31 edge bits is well formed. -/
example (HB : Bytes → Bytes) : ∃ h : Header, ValidHeader HB h := by
  obtain ⟨p, _, hp1, _, _⟩ := pow_roundtrip HB 31 (by omega) (by omega) (List.range 42)
    ⟨by simp, by intro x hx; simp at hx; omega⟩
  have hpe : p.edgeBits = 31 ∧ p.nonces = List.range 42 := by
    unfold powMake at hp1
    obtain ⟨c, _, hc⟩ := Res.bind_eq_ok.mp hp1
    injection hc with hc
    subst hc
    exact ⟨rfl, rfl⟩
  let z := List.replicate 32 (5 : UInt8)
  refine ⟨⟨5, 262080 * 4, 1600000000, z, z, z, z, z, z, 7, 4, 1000, 1, 99, p⟩, ?_⟩
  constructor <;> simp [z, hpe.1]
  · simp only [ValidNonces, hpe.2]
    refine ⟨by simp, ?_⟩
    intro x hx
    simp at hx
    omega
  · rw [hpe.2]; exact hp1

/-- The violated claims have witnesses. -/
example : ¬ ValidFee ⟨0, 2 ^ 40⟩ ∧ ¬ ValidFee ⟨16, 1⟩ := by simp [ValidFee]

end Verif.Props
