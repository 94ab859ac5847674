import Verif.Wallet.TxList
import Verif.Ser.CoreLemmas
import Verif.Props.Core
import Verif.Props.Json
import Mathlib.Data.List.Forall2

/-!
# C118: the transactions a wallet remembers, and their list

What `list_txs` shows of a wallet: the records it stored, those of older versions included, that meet what was asked for, in the order they
were stored, each with the outputs that are its own.
-/
namespace Verif.Props
open Verif Verif.Codec Verif.Wallet Verif.Wallet.Schema

/-! ## The record -/

/-- A record whose members fit their types. -/
structure TxInRange (H : DigestNum) (coin : Bytes → Nat) (t : TxRecord) : Prop where
  id : t.id < 4294967296
  type : t.type < 8
  slateId : ∀ u ∈ t.slateId, u.length = 16
  address : ∀ a ∈ t.address, a.length < U64
  message : ∀ m ∈ t.message, m.length < U64
  creation : -2 ^ 63 ≤ t.creation ∧ t.creation < 2 ^ 63
  confirmation : ∀ c ∈ t.confirmation, -2 ^ 63 ≤ c ∧ c < 2 ^ 63
  height : ∀ h ∈ t.height, h < U64
  credited : t.credited < U64
  debited : t.debited < U64
  fee : ∀ f ∈ t.fee, f.shift < 16 ∧ f.fee < 2 ^ 40
  proof : ∀ p ∈ t.proof, p.sender.length = 32 ∧ p.receiver.length = 32 ∧ ∀ g ∈ p.signature, g.length = 64
  tx : ∀ x ∈ t.tx, ValidBody H coin 1 x.body ∧ x.offset.length = 32 ∧ x.body.inputs.length < U64 ∧
    x.body.outputs.length < U64 ∧ x.body.kernels.length < U64

/-- What a version of the wallet wrote: messages came with format 1, addresses with format 2, payment proofs with format 3. -/
def writtenBy (v : Nat) (t : TxRecord) : Bytes :=
  beBytes 1 v ++ (beBytes 4 t.id ++ (beBytes 1 t.type ++ (serVarStr (t.slateId.elim [] uuidText) ++
    ((if 2 ≤ v then serVarStr (t.address.getD []) else []) ++ ((if 1 ≤ v then serVarStr (t.message.getD []) else []) ++
      (serI64 (t.creation.tdiv 1000000) ++ (serI64 (t.confirmation.elim 0 (·.tdiv 1000000)) ++
        (beBytes 8 (t.height.getD 0) ++ (beBytes 8 t.credited ++ (beBytes 8 t.debited ++
          ((t.fee.elim [0] (1 :: feeSer ·)) ++
            ((if 3 ≤ v then (t.proof.elim [0] (1 :: payProofSer ·)) else []) ++
              (t.tx.elim [] (txSer 1))))))))))))))

/-- A time without what is less than a millisecond. -/
def wholeMs (t : Int) : Int := t.tdiv 1000000 * 1000000

/-- What is left of a record that such a version wrote. -/
def leftOf (v : Nat) (t : TxRecord) : TxRecord :=
  { t with
    address := if 2 ≤ v then t.address.filter (· ≠ []) else none
    message := if 1 ≤ v then t.message.filter (· ≠ []) else none
    creation := wholeMs t.creation
    confirmation := (t.confirmation.map wholeMs).filter (· ≠ 0)
    height := t.height.filter (· ≠ 0)
    proof := if 3 ≤ v then t.proof else none }

private theorem lift_reads {α : Type} {r : Res α} {a : α} (h : r = .ok a) : Reads (Parser.lift r) [] a := by
  subst h
  intro pre post _
  simp [Parser.lift]

private theorem payProof_reads (p : PayProof) (h1 : p.sender.length = 32) (h2 : p.receiver.length = 32)
    (h3 : ∀ g ∈ p.signature, g.length = 64) : Reads payProofDeser (payProofSer p) p := by
  obtain ⟨a, b, g⟩ := p
  unfold payProofDeser payProofSer
  cases g with
  | none =>
    refine Reads.bind (reads_bytes h1) (Reads.bind (reads_bytes h2) (Reads.bind0 (reads_u8 (by omega)) ?_))
    rw [if_neg (by omega)]
    exact Reads.pure _
  | some g =>
    refine Reads.bind (reads_bytes h1) (Reads.bind (reads_bytes h2) (Reads.bind (reads_u8 (by omega)) ?_))
    rw [if_pos rfl]
    exact Reads.bind0 (reads_bytes (h3 g rfl)) (Reads.pure _)

private theorem textOpt_eq (o : Option Bytes) : textOpt (o.getD []) = o.filter (· ≠ []) := by
  cases o with
  | none => rfl
  | some s =>
    by_cases h : s = []
    · subst h; rfl
    · simp [textOpt, h, Option.filter]

private theorem zero_getD (o : Option Nat) : zeroIsNone (o.getD 0) = o.filter (· ≠ 0) := by
  cases o with
  | none => rfl
  | some i =>
    by_cases h : i = 0
    · subst h; rfl
    · simp [zeroIsNone, h, Option.filter]

private theorem text_reads (since v : Nat) (o : Option Bytes) (h : ∀ a ∈ o, a.length < U64) :
    Reads (readTextFrom since v) (if since ≤ v then serVarStr (o.getD []) else [])
      (if since ≤ v then o.filter (· ≠ []) else none) := by
  unfold readTextFrom
  by_cases c : since ≤ v
  · rw [if_pos c, if_pos c, if_pos (show v ≥ since from c)]
    refine Reads.bind0 (reads_varStr (s := o.getD []) ?_) (Reads.congr (Reads.pure _) rfl (textOpt_eq o))
    cases o with
    | none => simp [U64]
    | some a => exact h a rfl
  · rw [if_neg c, if_neg c, if_neg (show ¬ v ≥ since from c)]
    exact Reads.pure _

private theorem flag_reads {α : Type} {p : Parser α} {f : α → Bytes} (o : Option α) (h : ∀ a ∈ o, Reads p (f a) a) :
    Reads (readFlag p) (o.elim [0] (1 :: f ·)) o := by
  unfold readFlag
  cases o with
  | none =>
    refine Reads.bind0 (show Reads (readBE 1) [0] 0 from reads_u8 (x := 0) (by omega)) ?_
    rw [if_neg (by omega)]
    exact Reads.pure _
  | some a =>
    refine Reads.bind (bs := [1]) (show Reads (readBE 1) [1] 1 from reads_u8 (x := 1) (by omega)) ?_
    rw [if_pos rfl]
    exact Reads.bind0 (h a rfl) (Reads.pure _)

private theorem tdiv_range {x : Int} (h1 : -2 ^ 63 ≤ x) (h2 : x < 2 ^ 63) :
    -2 ^ 63 ≤ x.tdiv 1000000 * 1000000 ∧ x.tdiv 1000000 * 1000000 < 2 ^ 63 ∧
      -2 ^ 63 ≤ x.tdiv 1000000 ∧ x.tdiv 1000000 < 2 ^ 63 := by
  rcases Int.le_total 0 x with h | h
  · rw [Int.tdiv_eq_ediv_of_nonneg h]; omega
  · obtain ⟨y, rfl⟩ : ∃ y, x = -y := ⟨-x, by omega⟩
    rw [Int.neg_tdiv, Int.tdiv_eq_ediv_of_nonneg (by omega)]; omega

private theorem time_ok {x : Int} (h1 : -2 ^ 63 ≤ x) (h2 : x < 2 ^ 63) :
    toTimePoint (x.tdiv 1000000) = .ok (wholeMs x) := by
  have := tdiv_range h1 h2
  unfold toTimePoint wholeMs
  rw [if_pos ⟨this.1, this.2.1⟩]

private theorem confirmation_reads (o : Option Int) (h : ∀ c ∈ o, -2 ^ 63 ≤ c ∧ c < 2 ^ 63) :
    Reads readConfirmation (serI64 (o.elim 0 (·.tdiv 1000000))) ((o.map wholeMs).filter (· ≠ 0)) := by
  unfold readConfirmation
  cases o with
  | none =>
    refine Reads.bind0 (reads_i64 (x := 0) (by omega) (by omega)) ?_
    rw [if_neg (by omega)]
    exact Reads.pure _
  | some c =>
    have hc := h c rfl
    have hr := tdiv_range hc.1 hc.2
    refine Reads.bind0 (reads_i64 (x := c.tdiv 1000000) hr.2.2.1 hr.2.2.2) ?_
    by_cases z : c.tdiv 1000000 = 0
    · rw [if_neg (by omega)]
      refine Reads.congr (Reads.pure _) rfl ?_
      simp [wholeMs, z, Option.filter]
    · rw [if_pos z]
      refine Reads.bind0 (lift_reads (time_ok hc.1 hc.2)) (Reads.congr (Reads.pure _) rfl ?_)
      have : c.tdiv 1000000 * 1000000 ≠ 0 := by omega
      simp [wholeMs, this, Option.filter]

private theorem proof_reads (v : Nat) (o : Option PayProof)
    (h : ∀ p ∈ o, p.sender.length = 32 ∧ p.receiver.length = 32 ∧ ∀ g ∈ p.signature, g.length = 64) :
    Reads (readTxProof v) (if 3 ≤ v then (o.elim [0] (1 :: payProofSer ·)) else [])
      (if 3 ≤ v then o else none) := by
  unfold readTxProof
  by_cases c : 3 ≤ v
  · rw [if_pos c, if_pos c, if_pos (show v ≥ 3 from c)]
    exact flag_reads o fun p hp => payProof_reads p (h p hp).1 (h p hp).2.1 (h p hp).2.2
  · rw [if_neg c, if_neg c, if_neg (show ¬ v ≥ 3 from c)]
    exact Reads.pure _

private theorem txSer_ne (x : Tx) (h : x.offset.length = 32) : txSer 1 x ≠ [] := by
  intro e
  have := congrArg List.length e
  unfold txSer at this
  rw [List.length_append, h] at this
  simp at this

private theorem end_reads (H : DigestNum) (coin : Bytes → Nat) (o : Option Tx)
    (h : ∀ x ∈ o, ValidBody H coin 1 x.body ∧ x.offset.length = 32 ∧ x.body.inputs.length < U64 ∧
      x.body.outputs.length < U64 ∧ x.body.kernels.length < U64) :
    ReadsEnd (readTxEnd H coin) (o.elim [] (txSer 1)) o := by
  intro pre hl
  unfold readTxEnd
  rw [Parser.bind_run]
  cases o with
  | none =>
    have hr : ¬ (pre ++ ([] : Bytes)).length - pre.length > 0 := by simp
    show (if (pre ++ ([] : Bytes)).length - pre.length > 0 then (txDeser H coin 1 >>= fun t => pure (some t)) else (pure none : Parser (Option Tx))) ⟨pre ++ [], pre.length⟩ = _
    rw [if_neg hr]
    exact (Reads.pure (none : Option Tx)).toEnd pre hl
  | some x =>
    obtain ⟨h1, h2, h3, h4, h5⟩ := h x rfl
    have hr : (pre ++ txSer 1 x).length - pre.length > 0 := by
      have := List.length_pos_of_ne_nil (txSer_ne x h2)
      rw [List.length_append]; omega
    show (if (pre ++ txSer 1 x).length - pre.length > 0 then (txDeser H coin 1 >>= fun t => pure (some t)) else (pure none : Parser (Option Tx))) ⟨pre ++ txSer 1 x, pre.length⟩ = _
    rw [if_pos hr]
    exact (Reads.bind0 (tx_roundtrip H coin 1 x h1 h2 h3 h4 h5) (Reads.pure (some x))).toEnd pre hl

private theorem ends_map {α β : Type} {p : Parser α} {f : α → β} {bs : Bytes} {a : α}
    (h : ReadsEnd p bs a) : ReadsEnd (p >>= fun x => pure (f x)) bs (f a) := by
  intro pre hl
  rw [Parser.bind_run, h pre hl]
  rfl

private theorem getD_lt' {o : Option Nat} (h : ∀ i ∈ o, i < U64) : o.getD 0 < U64 := by
  cases o with
  | none => simp [U64]
  | some i => exact h i rfl

private theorem slate_len (u : Bytes) (h : u.length = 16) : uuidText u ≠ [] ∧ (uuidText u).length < U64 := by
  match u, h with
  | [a0, a1, a2, a3, a4, a5, a6, a7, a8, a9, a10, a11, a12, a13, a14, a15], _ =>
    constructor
    · simp [uuidText, toHex]
    · simp [uuidText, toHex, U64]

/-- **C118, records.**  Whatever version wrote a record of a transaction, this one reads it back: all of it but empty texts and what is less
than a millisecond.  What it writes itself is the newest of these formats. -/
theorem tx_record_read_back (H : DigestNum) (coin : Bytes → Nat) (v : Nat) (hv : v ≤ 3) (t : TxRecord) (h : TxInRange H coin t) :
    ReadsEnd (txRecordDeser H coin) (writtenBy v t) (leftOf v t) ∧ txRecordSer t = writtenBy 3 t := by
  constructor
  · unfold txRecordDeser writtenBy
    refine ReadsEnd.bind (reads_u8 (by omega)) ?_
    rw [if_neg (show ¬ v > 3 by omega)]
    refine ReadsEnd.bind (reads_u32 h.id) (ReadsEnd.bind (reads_u8 (by have := h.type; omega)) ?_)
    refine ReadsEnd.bind (reads_varStr ?_) ?_
    · cases hs : t.slateId with
      | none => simp [U64]
      | some u => exact (slate_len u (h.slateId u (by simp [hs]))).2
    refine ReadsEnd.bind (text_reads 2 v t.address h.address) (ReadsEnd.bind (text_reads 1 v t.message h.message) ?_)
    have hr := tdiv_range h.creation.1 h.creation.2
    refine ReadsEnd.bind (reads_i64 hr.2.2.1 hr.2.2.2) ?_
    refine ReadsEnd.bind (bs := []) (lift_reads (time_ok h.creation.1 h.creation.2)) ?_
    refine ReadsEnd.bind (confirmation_reads t.confirmation h.confirmation) ?_
    refine ReadsEnd.bind (reads_u64 (getD_lt' h.height)) (ReadsEnd.bind (reads_u64 h.credited) (ReadsEnd.bind (reads_u64 h.debited) ?_))
    refine ReadsEnd.bind (flag_reads t.fee fun f hf => reads_fee (h.fee f hf).1 (h.fee f hf).2) ?_
    refine ReadsEnd.bind (proof_reads v t.proof h.proof) ?_
    have := ends_map (f := fun x => (⟨t.id, t.type, if (t.slateId.elim [] uuidText) = [] then none
        else uuidParse (t.slateId.elim [] uuidText),
      if 2 ≤ v then t.address.filter (· ≠ []) else none, if 1 ≤ v then t.message.filter (· ≠ []) else none, wholeMs t.creation,
      (t.confirmation.map wholeMs).filter (· ≠ 0), zeroIsNone (t.height.getD 0), t.credited, t.debited, t.fee,
      if 3 ≤ v then t.proof else none, x⟩ : TxRecord)) (end_reads H coin t.tx h.tx)
    have hs : (if (t.slateId.elim [] uuidText) = [] then none
        else uuidParse (t.slateId.elim [] uuidText)) = t.slateId := by
      cases hs : t.slateId with
      | none => simp
      | some u =>
        have hu := h.slateId u (by simp [hs])
        show (if uuidText u = [] then none else uuidParse (uuidText u)) = _
        rw [if_neg (slate_len u hu).1]
        exact uuid_text_roundtrip u hu
    rw [hs, zero_getD] at this
    simp only [hs, zero_getD]
    exact this
  · unfold txRecordSer writtenBy toMillis
    have e1 : (t.slateId.map uuidText).getD [] = (t.slateId.elim [] uuidText) := by
      cases t.slateId <;> rfl
    have e2 : (t.confirmation.map fun t => t.tdiv 1000000).getD 0 = (t.confirmation.elim 0 (·.tdiv 1000000)) := by
      cases t.confirmation <;> rfl
    have e3 : flagSer feeSer t.fee = (t.fee.elim [0] (1 :: feeSer ·)) := by
      cases t.fee <;> rfl
    have e4 : flagSer payProofSer t.proof = (t.proof.elim [0] (1 :: payProofSer ·)) := by
      cases t.proof <;> rfl
    have e5 : (t.tx.map (txSer 1)).getD [] = t.tx.elim [] (txSer 1) := by
      cases t.tx <;> rfl
    rw [e1, e2, e3, e4, e5]
    simp only [show (2 : Nat) ≤ 3 from by omega, show (1 : Nat) ≤ 3 from by omega, Nat.le_refl, if_true]

/-- **C118, records, exactly.**  Nothing is lost of a record with times in whole milliseconds, without empty texts and with a confirmation
after 1970 and above the first block.

Missing: `tx_record_lossy_violated`. -/
theorem tx_record_roundtrip_partial (H : DigestNum) (coin : Bytes → Nat) (t : TxRecord) (h : TxInRange H coin t)
    (hms : t.creation % 1000000 = 0) (hcf : ∀ c ∈ t.confirmation, c % 1000000 = 0 ∧ 0 < c) (ha : t.address ≠ some [])
    (hm : t.message ≠ some []) (hh : t.height ≠ some 0) : ReadsEnd (txRecordDeser H coin) (txRecordSer t) t := by
  have hw : ∀ x : Int, x % 1000000 = 0 → wholeMs x = x := by
    intro x hx
    unfold wholeMs
    exact Int.tdiv_mul_cancel (Int.dvd_of_emod_eq_zero hx)
  obtain ⟨h1, h2⟩ := tx_record_read_back H coin 3 (by omega) t h
  rw [h2]
  have e : leftOf 3 t = t := by
    obtain ⟨i, ty, sl, ad, me, cr, cf, he, am, db, fe, pr, tx⟩ := t
    unfold leftOf
    simp only [show (2 : Nat) ≤ 3 from by omega, show (1 : Nat) ≤ 3 from by omega, Nat.le_refl, if_true] at *
    rw [hw cr hms]
    have a1 : ad.filter (· ≠ []) = ad := by
      cases ad with
      | none => rfl
      | some a => have : a ≠ [] := fun e => ha (by rw [e]); simp [Option.filter, this]
    have a2 : me.filter (· ≠ []) = me := by
      cases me with
      | none => rfl
      | some a => have : a ≠ [] := fun e => hm (by rw [e]); simp [Option.filter, this]
    have a3 : he.filter (· ≠ 0) = he := by
      cases he with
      | none => rfl
      | some a => have : a ≠ 0 := fun e => hh (by rw [e]); simp [Option.filter, this]
    have a4 : (cf.map wholeMs).filter (· ≠ 0) = cf := by
      cases cf with
      | none => rfl
      | some c =>
        obtain ⟨c1, c2⟩ := hcf c rfl
        have : c ≠ 0 := by omega
        simp [Option.filter, hw c c1, this]
    rw [a1, a2, a3, a4]
  rw [e] at h1
  exact h1

/-- **C118, newer records.**  A record in a format this version does not know is refused. -/
theorem tx_record_newer_refused (H : DigestNum) (coin : Bytes → Nat) (b : UInt8) (rest : Bytes) (hb : 3 < b.toNat)
    (hl : (b :: rest).length < U64) : txRecordDeser H coin ⟨b :: rest, 0⟩ = .throw := by
  unfold txRecordDeser
  have e : beBytes 1 b.toNat = [b] := by simp [beBytes]
  have := reads_u8 (x := b.toNat) b.toNat_lt [] rest (by rw [e]; exact hl)
  rw [e] at this
  rw [Parser.bind_run, show (⟨b :: rest, 0⟩ : Buf) = ⟨[] ++ [b] ++ rest, ([] : Bytes).length⟩ from rfl, this]
  show (if b.toNat > 3 then Parser.fail else _ : Parser TxRecord) _ = _
  rw [if_pos hb]
  rfl

/-- **C118, stored again.**  Storing what was read changes nothing more, however often. -/
theorem tx_record_settles (v : Nat) (t : TxRecord) : leftOf v (leftOf v t) = leftOf v t := by
  obtain ⟨i, ty, sl, ad, me, cr, cf, he, am, db, fe, pr, tx⟩ := t
  have hw : ∀ x : Int, wholeMs (wholeMs x) = wholeMs x := by
    intro x; unfold wholeMs; rw [Int.mul_tdiv_cancel _ (by omega)]
  have hf : ∀ {α : Type} (p : α → Bool) (o : Option α), (o.filter p).filter p = o.filter p := by
    intro α p o
    cases o with
    | none => rfl
    | some a => by_cases h : p a <;> simp [Option.filter, h]
  have hc : ((((cf.map wholeMs).filter (· ≠ 0)).map wholeMs).filter (· ≠ 0)) = (cf.map wholeMs).filter (· ≠ 0) := by
    cases cf with
    | none => rfl
    | some c =>
      by_cases h : wholeMs c = 0
      · simp [Option.filter, h]
      · simp [Option.filter, h, hw]
  unfold leftOf
  simp only [hw, hf, hc]
  by_cases a : 2 ≤ v <;> by_cases b : 1 ≤ v <;> by_cases c : 3 ≤ v <;> simp [a, b, c, hf]

/-- **C118, times.**  Storing does not change the seconds a list shows. -/
theorem tx_record_seconds (v : Nat) (t : TxRecord) (h : ∀ c ∈ t.confirmation, 1000000 ≤ c) :
    toSeconds (leftOf v t).creation = toSeconds t.creation ∧
    (leftOf v t).confirmation.map toSeconds = t.confirmation.map toSeconds := by
  have hw : ∀ x : Int, (x.tdiv 1000000 * 1000000).tdiv 1000000000 = x.tdiv 1000000000 := by
    intro x
    rcases Int.le_total 0 x with h | h
    · rw [Int.tdiv_eq_ediv_of_nonneg h, Int.tdiv_eq_ediv_of_nonneg (by omega), Int.tdiv_eq_ediv_of_nonneg h]; omega
    · obtain ⟨y, rfl⟩ : ∃ y, x = -y := ⟨-x, by omega⟩
      rw [Int.neg_tdiv, Int.neg_mul, Int.neg_tdiv, Int.neg_tdiv, Int.tdiv_eq_ediv_of_nonneg (by omega : 0 ≤ y),
        Int.tdiv_eq_ediv_of_nonneg (by omega), Int.tdiv_eq_ediv_of_nonneg (by omega : 0 ≤ y)]
      omega
  refine ⟨hw t.creation, ?_⟩
  show ((t.confirmation.map wholeMs).filter (· ≠ 0)).map toSeconds = _
  cases hc : t.confirmation with
  | none => rfl
  | some c =>
    have h1 := h c (by simp [hc])
    have h2 : wholeMs c ≠ 0 := by
      unfold wholeMs
      rw [Int.tdiv_eq_ediv_of_nonneg (by omega)]; omega
    simp only [Option.map_some, Option.filter, ne_eq, h2, not_false_eq_true, decide_true, if_true]
    exact congrArg some (hw c)

/-- **C118, a lossy record.**  An address or a message that is an empty text comes back as none. -/
theorem tx_record_lossy_violated (H : DigestNum) (coin : Bytes → Nat) (t : TxRecord) (h : TxInRange H coin t)
    (ha : t.address = some [] ∨ t.message = some []) :
    ∃ t', ReadsEnd (txRecordDeser H coin) (txRecordSer t) t' ∧ t' ≠ t := by
  obtain ⟨h1, h2⟩ := tx_record_read_back H coin 3 (by omega) t h
  rw [h2]
  refine ⟨_, h1, fun e => ?_⟩
  rcases ha with ha | ha
  · have := congrArg TxRecord.address e
    simp [leftOf, ha, Option.filter] at this
  · have := congrArg TxRecord.message e
    simp [leftOf, ha, Option.filter] at this

/-! ## The list -/

/-- The names of the kinds of transactions in a request. -/
def statusNames : List String :=
  ["COINBASE", "SENT", "RECEIVED", "SENT_CANCELED", "RECEIVED_CANCELED", "SENDING_NOT_FINALIZED", "RECEIVING_IN_PROGRESS",
    "SENDING_FINALIZED"]

/-- The members of a request: `ids` names transactions, the range is in milliseconds since 1970, `kinds` are numbers of kinds; each may be left
out. -/
structure Asks (fs : List (String × Json)) (ids : Option (List Nat)) (first last : Option Nat) (kinds : Option (List Nat)) : Prop where
  token : ∃ s, fs.lookup "session_token" = some (.str s)
  ids : fs.lookup "ids" = ids.map fun l => .arr (l.map fun n : Nat => .int n)
  first : fs.lookup "start_range_ms" = first.map fun n : Nat => .int n
  last : fs.lookup "end_range_ms" = last.map fun n : Nat => .int n
  kinds : ∃ names : Option (List Bytes), fs.lookup "statuses" = names.map (fun l => .arr (l.map .str)) ∧
    (names.isSome ↔ kinds.isSome) ∧
    ∀ ns ∈ names, ∀ ks ∈ kinds, List.Forall₂ (fun n k => (statusNames[k]?).map str = some (toUpper n)) ns ks

/-- A transaction that was asked for: its time is that of its creation or, if earlier, of its confirmation; an empty list of ids or kinds is
as none at all. -/
def WantedTx (ids : Option (List Nat)) (first last : Option Nat) (kinds : Option (List Nat)) (t : TxRecord) : Prop :=
  (∀ l ∈ ids, l = [] ∨ t.id ∈ l) ∧
  (∀ a ∈ first, (a : Int) * 1000000 ≤ min t.creation (t.confirmation.getD t.creation)) ∧
  (∀ b ∈ last, min t.creation (t.confirmation.getD t.creation) ≤ (b : Int) * 1000000) ∧
  (∀ l ∈ kinds, l = [] ∨ t.type ∈ l)

/-- What an entry of the list says about a transaction. -/
structure EntryShows {S : Type} (dec : Bytes → Bytes → Option S) (s : Schema.Store) (outputs : List OutputRecord) (v : TxView S) (t : TxRecord) :
    Prop where
  id : v.id = t.id
  type : v.type = str (["Coinbase", "Sent", "Received", "Canceled", "Canceled", "Sending (Not Finalized)", "Receiving (Unconfirmed)",
    "Sending (Finalized)"][t.type]?.getD "")
  credited : v.credited = t.credited
  debited : v.debited = t.debited
  created : v.created = t.creation.tdiv 1000000000
  confirmed : v.confirmed = t.confirmation.map (·.tdiv 1000000000)
  address : v.address = t.address
  message : v.message = t.message
  height : v.height = t.height
  fee : v.fee = t.fee.map feeToJSON
  slateId : v.slateId = t.slateId.map uuidText
  kernels : v.kernels = (t.tx.elim [] fun x => x.body.kernels.map (·.excess)).filter (· ≠ List.replicate 33 0)
  outputs : v.outputs.map (fun o => (o.commit, o.amount, o.status, o.path, o.height, o.mmrIndex, o.label)) =
    (outputs.filter (·.txId = some t.id)).map fun o => (o.output.commit, o.amount, o.status, o.path, o.height, o.mmrIndex, o.labels.head?)
  owner : ∀ o ∈ v.outputs, o.txId = some t.id
  slate : (∀ u ∈ t.slateId, loadLatest dec (uuidText u) s = .ok (v.slate, v.armored)) ∧ (t.slateId = none → v.slate = none ∧ v.armored = [])

private theorem idsOf_ints (l : List Nat) (h : ∀ n ∈ l, n < 2 ^ 64) :
    idsOf (l.map fun n : Nat => Json.int n) = .ok (l.map (· % 2 ^ 32)) := by
  induction l with
  | nil => rfl
  | cons a l ih =>
    have ha := h a (by simp)
    have : jsonUInt64 (.int (a : Int)) = .ok a := by
      simp only [jsonUInt64]
      rw [if_pos ⟨by omega, by omega⟩]
      simp
    simp only [List.map_cons, idsOf, this, Res.ok_bind, ih fun n hn => h n (by simp [hn]), Res.pure_eq]

private theorem typeOfKey_name (n : Bytes) (k : Nat) (h : (statusNames[k]?).map str = some (toUpper n)) : typeOfKey n = .ok k := by
  have hk : k < 8 := by
    rcases Nat.lt_or_ge k 8 with h' | h'
    · exact h'
    · rw [List.getElem?_eq_none (by simpa [statusNames] using h')] at h
      simp at h
  unfold typeOfKey
  match k, hk with
  | 0, _ | 1, _ | 2, _ | 3, _ | 4, _ | 5, _ | 6, _ | 7, _ =>
    simp only [statusNames, List.getElem?_cons_zero, List.getElem?_cons_succ, Option.map_some, Option.some.injEq] at h
    rw [← h]
    decide +kernel

private theorem typesOf_names {ns : List Bytes} {ks : List Nat}
    (h : List.Forall₂ (fun n k => (statusNames[k]?).map str = some (toUpper n)) ns ks) :
    typesOf (ns.map .str) = .ok ks := by
  induction h with
  | nil => rfl
  | cons a _ ih => simp only [List.map_cons, typesOf, Json.asString, Res.ok_bind, typeOfKey_name _ _ a, ih, Res.pure_eq]

private theorem bound_ok (fs : List (String × Json)) (key : String) (o : Option Nat) (h : fs.lookup key = o.map fun n : Nat => Json.int n)
    (hr : ∀ n ∈ o, n ≤ 9223372036854) : boundOf (.obj fs) key = .ok (o.map fun n : Nat => (n : Int) * 1000000) := by
  unfold boundOf
  rw [show memberOf (.obj fs) key = fs.lookup key from rfl, h]
  cases o with
  | none => rfl
  | some n =>
    have hn := hr n rfl
    have e1 : jsonUInt64 (.int (n : Int)) = .ok n := by
      simp only [jsonUInt64]
      rw [if_pos ⟨by omega, by omega⟩]
      simp
    have e2 : toInt64 n = n := by unfold toInt64; rw [if_pos (by omega)]
    have e3 : toTimePoint (n : Int) = .ok ((n : Int) * 1000000) := by unfold toTimePoint; rw [if_pos ⟨by omega, by omega⟩]
    simp only [Option.map_some, e1, e2, e3, Res.ok_bind, Res.pure_eq]

private theorem token_ok {fs : List (String × Json)} {s : Bytes} (h : fs.lookup "session_token" = some (.str s)) :
    getRequired (.obj fs) "session_token" = .ok (.str s) := by
  simp [getRequired, Json.isNull, Json.get, h, Res.ok_bind]

private theorem criteria_ok (fs : List (String × Json)) (ids : Option (List Nat)) (first last : Option Nat) (kinds : Option (List Nat))
    (h : Asks fs ids first last kinds) (hi : ∀ l ∈ ids, ∀ n ∈ l, n < 2 ^ 32) (hf : ∀ n ∈ first, n ≤ 9223372036854)
    (hl : ∀ n ∈ last, n ≤ 9223372036854) :
    criteriaFromJson (.obj fs) = .ok ⟨ids.getD [], first.map fun n : Nat => (n : Int) * 1000000, last.map fun n : Nat => (n : Int) * 1000000, kinds.getD []⟩ := by
  obtain ⟨tok, ht⟩ := h.token
  have a1 : getArray (.obj fs) "ids" >>= idsOf = .ok (ids.getD []) := by
    cases hids : ids with
    | none =>
      have := h.ids
      rw [hids] at this
      simp [getArray, getOptional, Json.isNull, Json.get, this, Res.ok_bind, idsOf]
    | some l =>
      have hh := h.ids
      rw [hids] at hh
      have hm : l.map (· % 2 ^ 32) = l := by
        conv_rhs => rw [← List.map_id l]
        refine List.map_congr_left fun n hn => ?_
        exact Nat.mod_eq_of_lt (hi l (by simp [hids]) n hn)
      have e := idsOf_ints l fun n hn => by have := hi l (by simp [hids]) n hn; omega
      rw [hm] at e
      simp only [getArray, getOptional, Json.isNull, Json.get, hh, Res.ok_bind, Option.map_some, Option.getD_some, Bool.false_eq_true,
        if_false, Res.pure_eq, e]
  have a2 : statusesOf (.obj fs) = .ok (kinds.getD []) := by
    obtain ⟨names, n1, n2, n3⟩ := h.kinds
    unfold statusesOf
    rw [show memberOf (.obj fs) "statuses" = fs.lookup "statuses" from rfl, n1]
    cases names with
    | none =>
      cases kinds with
      | none => rfl
      | some _ => simp at n2
    | some ns =>
      cases kinds with
      | none => simp at n2
      | some ks => exact typesOf_names (n3 ns rfl ks rfl)
  have a1' : (getArray (.obj fs) "ids" >>= fun l => idsOf l >>= fun ids => boundOf (.obj fs) "start_range_ms" >>= fun start =>
      boundOf (.obj fs) "end_range_ms" >>= fun stop => statusesOf (.obj fs) >>= fun types => (pure ⟨ids, start, stop, types⟩ : Res Criteria)) =
      ((getArray (.obj fs) "ids" >>= idsOf) >>= fun ids => boundOf (.obj fs) "start_range_ms" >>= fun start =>
      boundOf (.obj fs) "end_range_ms" >>= fun stop => statusesOf (.obj fs) >>= fun types => (pure ⟨ids, start, stop, types⟩ : Res Criteria)) := by
    cases getArray (.obj fs) "ids" <;> rfl
  unfold criteriaFromJson
  simp only [token_ok ht, Res.ok_bind, Json.asString]
  rw [a1', a1, bound_ok fs _ first h.first hf, bound_ok fs _ last h.last hl, a2]
  rfl

private theorem txTime_eq (t : TxRecord) : txTime t = min t.creation (t.confirmation.getD t.creation) := by
  unfold txTime
  cases t.confirmation with
  | none => simp
  | some c =>
    simp only [Option.getD_some]
    split <;> omega

private theorem meets_iff (ids : Option (List Nat)) (first last : Option Nat) (kinds : Option (List Nat)) (t : TxRecord) :
    meets ⟨ids.getD [], first.map fun n : Nat => (n : Int) * 1000000, last.map fun n : Nat => (n : Int) * 1000000, kinds.getD []⟩ t = true ↔
      WantedTx ids first last kinds t := by
  unfold meets WantedTx
  rw [txTime_eq]
  generalize min t.creation (t.confirmation.getD t.creation) = T
  have b1 : ∀ (o : Option (List Nat)) (x : Nat), (∀ l ∈ o, l = [] ∨ x ∈ l) ↔ (o.getD [] = [] ∨ x ∈ o.getD []) := by
    intro o x
    cases o with
    | none => simp
    | some l => simp
  rw [b1 ids, b1 kinds]
  cases first with
  | none =>
    cases last with
    | none => simp [List.isEmpty_iff]
    | some b => simp [List.isEmpty_iff]; tauto
  | some a =>
    cases last with
    | none => simp [List.isEmpty_iff]; tauto
    | some b => simp [List.isEmpty_iff]; tauto

private theorem toViews_spec {S : Type} (dec : Bytes → Bytes → Option S) (s : Schema.Store) (outputs : List OutputRecord)
    (ts : List TxRecord) (ht : ∀ t ∈ ts, t.type < 8) (hs : ∀ t ∈ ts, ∀ u ∈ t.slateId, ∃ r, loadLatest dec (uuidText u) s = .ok r) :
    ∃ vs, toViews dec s outputs ts = .ok vs ∧ List.Forall₂ (EntryShows dec s outputs) vs ts := by
  induction ts with
  | nil => exact ⟨[], rfl, .nil⟩
  | cons t ts ih =>
    obtain ⟨vs, h1, h2⟩ := ih (fun x hx => ht x (by simp [hx])) fun x hx => hs x (by simp [hx])
    have hv : ∃ v, toView dec s outputs t = .ok v ∧ EntryShows dec s outputs v t := by
      have key : ∀ p : Option S × Bytes, latestOf dec s t = .ok p →
          ∃ v, toView dec s outputs t = .ok v ∧ EntryShows dec s outputs v t := by
        intro p hp
        refine ⟨_, by unfold toView; rw [hp, Res.ok_bind, Res.pure_eq], ?_⟩
        refine ⟨rfl, ?_, rfl, rfl, rfl, rfl, rfl, rfl, rfl, rfl, rfl, ?_, ?_, ?_, ?_, ?_⟩
        · have := ht t (by simp)
          show typeText t.type = _
          generalize t.type = k at this
          match k, this with
          | 0, _ | 1, _ | 2, _ | 3, _ | 4, _ | 5, _ | 6, _ | 7, _ => rfl
        · show kernelsOf t = _
          unfold kernelsOf
          cases t.tx <;> simp
        · simp [outputView, Function.comp_def]
        · intro o ho
          simp only [List.mem_map, List.mem_filter, decide_eq_true_eq] at ho
          obtain ⟨r, ⟨_, hr⟩, rfl⟩ := ho
          exact hr
        · intro u hu
          unfold latestOf at hp
          rw [Option.mem_def.mp hu] at hp
          exact hp
        · intro hn
          unfold latestOf at hp
          rw [hn] at hp
          injection hp with hp
          subst hp
          exact ⟨rfl, rfl⟩
      cases hsl : t.slateId with
      | none => exact key (none, []) (by unfold latestOf; rw [hsl])
      | some u =>
        obtain ⟨r, hr⟩ := hs t (by simp) u (by simp [hsl])
        exact key r (by unfold latestOf; rw [hsl]; exact hr)
    obtain ⟨v, hv1, hv2⟩ := hv
    exact ⟨v :: vs, by simp only [toViews, hv1, h1, Res.ok_bind, Res.pure_eq], .cons hv2 h2⟩

/-- **C118, the list.**  `list_txs` answers with the transactions that were asked for and no others, each once, in the order they were
stored; an entry says what the record of its transaction says, with exactly the outputs of the wallet that are its own.  Slates of the stages the
wallet writes can be loaded (`Schema`).

Missing: ids from `2 ^ 32` on and times from `9223372036855` on, ids that are no list, and an empty list: the theorems below. -/
theorem list_txs_exact_partial {S : Type} (dec : Bytes → Bytes → Option S) (s : Schema.Store) (render : TxView S → Json)
    (outputs : List OutputRecord) (txs : List TxRecord) (fs : List (String × Json)) (ids : Option (List Nat)) (first last : Option Nat)
    (kinds : Option (List Nat)) (h : Asks fs ids first last kinds) (hi : ∀ l ∈ ids, ∀ n ∈ l, n < 2 ^ 32)
    (hf : ∀ n ∈ first, n ≤ 9223372036854) (hl : ∀ n ∈ last, n ≤ 9223372036854) (ht : ∀ t ∈ txs, t.type < 8)
    (hs : ∀ t ∈ txs, ∀ u ∈ t.slateId, ∃ r, loadLatest dec (uuidText u) s = .ok r) :
    ∃ vs listed, listTxsCall dec s render outputs txs (some (.obj fs)) = .ok (vs, Json.elements (vs.map render)) ∧
      List.Forall₂ (EntryShows dec s outputs) vs listed ∧ listed.Sublist txs ∧
      ∀ t, (WantedTx ids first last kinds t → listed.count t = txs.count t) ∧ (t ∈ listed → WantedTx ids first last kinds t) := by
  obtain ⟨vs, h1, h2⟩ := toViews_spec dec s outputs (txs.filter (meets ⟨ids.getD [], first.map fun n : Nat => (n : Int) * 1000000,
    last.map fun n : Nat => (n : Int) * 1000000, kinds.getD []⟩)) (fun t m => ht t (List.mem_of_mem_filter m))
    fun t m => hs t (List.mem_of_mem_filter m)
  refine ⟨vs, _, ?_, h2, List.filter_sublist, fun t => ⟨fun w => ?_, fun m => ?_⟩⟩
  · simp only [listTxsCall, criteria_ok fs ids first last kinds h hi hf hl, Res.ok_bind, listTxs, h1, Res.pure_eq]
  · exact List.count_filter ((meets_iff ids first last kinds t).2 w)
  · exact (meets_iff ids first last kinds t).1 (List.mem_filter.1 m).2

/-- **C118, outputs.**  In a list of everything, each output of the wallet that belongs to a transaction stands under the entry with its id and
under no other. -/
theorem list_txs_outputs {S : Type} (dec : Bytes → Bytes → Option S) (s : Schema.Store) (outputs : List OutputRecord) (v : TxView S)
    (t : TxRecord) (h : EntryShows dec s outputs v t) (o : OutputRecord) (ho : o ∈ outputs) :
    (o.txId = some v.id → (o.output.commit, o.amount, o.status, o.path, o.height, o.mmrIndex, o.labels.head?) ∈
      v.outputs.map (fun o => (o.commit, o.amount, o.status, o.path, o.height, o.mmrIndex, o.label))) ∧
    ((∀ o' ∈ outputs, o'.output.commit = o.output.commit → o' = o) → o.txId ≠ some v.id →
      ∀ w ∈ v.outputs, w.commit ≠ o.output.commit) := by
  rw [h.id, h.outputs]
  constructor
  · intro e
    exact List.mem_map.2 ⟨o, List.mem_filter.2 ⟨ho, by simpa using e⟩, rfl⟩
  · intro hu hne w hw hc
    have hm : (w.commit, w.amount, w.status, w.path, w.height, w.mmrIndex, w.label) ∈
        v.outputs.map (fun o => (o.commit, o.amount, o.status, o.path, o.height, o.mmrIndex, o.label)) := List.mem_map.2 ⟨w, hw, rfl⟩
    rw [h.outputs] at hm
    obtain ⟨o', ho', e⟩ := List.mem_map.1 hm
    have hf := List.mem_filter.1 ho'
    have e1 : o'.output.commit = w.commit := congrArg Prod.fst e
    have := hu o' hf.1 (e1.trans hc)
    subst this
    exact hne (by simpa using hf.2)

/-! ## What is missing -/

private theorem call_eq {S : Type} (dec : Bytes → Bytes → Option S) (s : Schema.Store) (render : TxView S → Json) (outputs : List OutputRecord)
    (txs : List TxRecord) (j : Json) (c : Criteria) (h : criteriaFromJson j = .ok c) :
    listTxsCall dec s render outputs txs (some j) =
      (toViews dec s outputs (txs.filter (meets c)) >>= fun vs => .ok (vs, Json.elements (vs.map render))) := by
  simp only [listTxsCall, h, Res.ok_bind, listTxs]
  rfl

private theorem ids_criteria (l : List Json) (ns : List Nat) (h : idsOf l = .ok ns) :
    criteriaFromJson (.obj [("session_token", .str []), ("ids", .arr l)]) = .ok ⟨ns, none, none, []⟩ := by
  have a1 : getRequired (.obj [("session_token", .str []), ("ids", .arr l)]) "session_token" = .ok (.str []) := rfl
  have a2 : getArray (.obj [("session_token", .str []), ("ids", .arr l)]) "ids" = .ok l := rfl
  have a3 : boundOf (.obj [("session_token", .str []), ("ids", .arr l)]) "start_range_ms" = .ok none := rfl
  have a4 : boundOf (.obj [("session_token", .str []), ("ids", .arr l)]) "end_range_ms" = .ok none := rfl
  have a5 : statusesOf (.obj [("session_token", .str []), ("ids", .arr l)]) = .ok [] := rfl
  simp only [criteriaFromJson, a1, a2, a3, a4, a5, h, Json.asString, Res.ok_bind, Res.pure_eq]

private theorem none_before (txs : List TxRecord) (x : Int) (hx : x < 0)
    (h : ∀ t ∈ txs, 0 ≤ t.creation ∧ ∀ c ∈ t.confirmation, 0 ≤ c) : txs.filter (meets ⟨[], none, some x, []⟩) = [] := by
  rw [List.filter_eq_nil_iff]
  intro t ht
  obtain ⟨p1, p2⟩ := h t ht
  have : 0 ≤ txTime t := by
    unfold txTime
    cases hcf : t.confirmation with
    | none => exact p1
    | some c =>
      have := p2 c (by simp [hcf])
      simp only
      split <;> omega
  unfold meets
  have hlt : x < txTime t := by omega
  simp [hlt]

private theorem end_criteria (v : Json) (n : Nat) (h : jsonUInt64 v = .ok n) :
    criteriaFromJson (.obj [("session_token", .str []), ("end_range_ms", v)]) =
      (toTimePoint (toInt64 n) >>= fun t => .ok ⟨[], none, some t, []⟩) := by
  have a1 : getRequired (.obj [("session_token", .str []), ("end_range_ms", v)]) "session_token" = .ok (.str []) := rfl
  have a2 : getArray (.obj [("session_token", .str []), ("end_range_ms", v)]) "ids" = .ok [] := rfl
  have a3 : boundOf (.obj [("session_token", .str []), ("end_range_ms", v)]) "start_range_ms" = .ok none := rfl
  have a4 : statusesOf (.obj [("session_token", .str []), ("end_range_ms", v)]) = .ok [] := rfl
  have a5 : boundOf (.obj [("session_token", .str []), ("end_range_ms", v)]) "end_range_ms" =
      (toTimePoint (toInt64 n) >>= fun t => .ok (some t)) := by
    have : memberOf (.obj [("session_token", .str []), ("end_range_ms", v)]) "end_range_ms" = some v := rfl
    unfold boundOf
    rw [this]
    simp only [h, Res.ok_bind]
    rfl
  simp only [criteriaFromJson, a1, a2, a3, a4, a5, idsOf, Json.asString, Res.ok_bind, Res.pure_eq]
  cases toTimePoint (toInt64 n) <;> rfl

/-- **C118, another transaction.**  An id that no transaction of a wallet can have names another one: its lowest 32 bits. -/
theorem list_txs_id_cut_violated {S : Type} (dec : Bytes → Bytes → Option S) (s : Schema.Store) (render : TxView S → Json)
    (outputs : List OutputRecord) (t : TxRecord) (n : Nat) (hn : n < 2 ^ 64) (hid : t.id = n % 2 ^ 32) (ht : t.type < 8)
    (hs : t.slateId = none) :
    ∃ v, listTxsCall dec s render outputs [t] (some (.obj [("session_token", .str []), ("ids", .arr [.int n])])) =
      .ok ([v], .arr [render v]) ∧ v.id = t.id := by
  have hc : criteriaFromJson (.obj [("session_token", .str []), ("ids", .arr [.int n])]) = .ok ⟨[n % 2 ^ 32], none, none, []⟩ := by
    exact ids_criteria _ _ (idsOf_ints [n] (by simpa using hn))
  rw [call_eq dec s render outputs [t] _ _ hc]
  rw [← hid]
  have hm : meets ⟨[t.id], none, none, []⟩ t = true :=
    (meets_iff (some [t.id]) none none none t).2 ⟨by simp, by simp, by simp, by simp⟩
  rw [List.filter_cons_of_pos hm, List.filter_nil]
  obtain ⟨vs, h1, h2⟩ := toViews_spec dec s outputs [t] (by simpa using ht) (by simp [hs])
  rw [h1]
  cases h2 with
  | cons a b =>
    cases b
    exact ⟨_, rfl, a.id⟩

/-- **C118, all of them.**  An `ids` that is no list — a single id — is as none at all: everything is listed. -/
theorem list_txs_single_id_violated {S : Type} (dec : Bytes → Bytes → Option S) (s : Schema.Store) (render : TxView S → Json)
    (outputs : List OutputRecord) (txs : List TxRecord) (n : Nat) :
    listTxsCall dec s render outputs txs (some (.obj [("session_token", .str []), ("ids", .int n)])) =
      listTxsCall dec s render outputs txs (some (.obj [("session_token", .str [])])) := by
  rw [call_eq dec s render outputs txs _ ⟨[], none, none, []⟩ rfl, call_eq dec s render outputs txs _ ⟨[], none, none, []⟩ rfl]

/-- **C118, far ends.**  An end of the range from `9223372036855` milliseconds on (the year 2262) overflows a signed number, but for those a
64-bit number has just below its end: such a one is before 1970, and no later transaction is listed.  So neither the largest number of 64
bits nor the largest of JavaScript stands for no end. -/
theorem list_txs_far_end_violated {S : Type} (dec : Bytes → Bytes → Option S) (s : Schema.Store) (render : TxView S → Json)
    (outputs : List OutputRecord) (txs : List TxRecord) (n : Nat) (hn : n < 2 ^ 64) :
    (9223372036855 ≤ n → n < 2 ^ 64 - 9223372036854 →
      listTxsCall dec s render outputs txs (some (.obj [("session_token", .str []), ("end_range_ms", .int n)])) = .ub) ∧
    (2 ^ 64 - 9223372036854 ≤ n → (∀ t ∈ txs, 0 ≤ t.creation ∧ ∀ c ∈ t.confirmation, 0 ≤ c) →
      listTxsCall dec s render outputs txs (some (.obj [("session_token", .str []), ("end_range_ms", .int n)])) = .ok ([], .null)) := by
  have e1 : jsonUInt64 (.int (n : Int)) = .ok n := by
    simp only [jsonUInt64]
    rw [if_pos ⟨by omega, by omega⟩]
    simp
  have hc := end_criteria _ _ e1
  constructor
  · intro h1 h2
    have ht : toTimePoint (toInt64 n) = .ub := by
      unfold toTimePoint toInt64
      split
      · rw [if_neg (by omega)]
      · rw [if_neg (by omega)]
    simp only [listTxsCall]
    rw [hc, ht]
    rfl
  · intro h1 hpos
    have ht : ∃ x : Int, x < 0 ∧ toTimePoint (toInt64 n) = .ok x := by
      have e : toInt64 n = (n : Int) - 2 ^ 64 := by unfold toInt64; rw [if_neg (by omega)]
      rw [e]
      unfold toTimePoint
      rw [if_pos ⟨by omega, by omega⟩]
      exact ⟨_, by omega, rfl⟩
    obtain ⟨x, hx, ht⟩ := ht
    rw [ht, Res.ok_bind] at hc
    rw [call_eq dec s render outputs txs _ _ hc, none_before txs x hx hpos]
    rfl

/-- **C118, no list.**  If no transaction was asked for, `txs` is null and no list. -/
theorem list_txs_null_violated {S : Type} (dec : Bytes → Bytes → Option S) (s : Schema.Store) (render : TxView S → Json)
    (outputs : List OutputRecord) : listTxsCall dec s render outputs [] (some (.obj [("session_token", .str [])])) = .ok ([], .null) := rfl

/-- **C118, kinds.**  Of the kinds a list shows, only those of settled transactions can be asked for. -/
theorem list_txs_kinds_violated : ∀ k < 8, typeOfKey (typeText k) = if k < 3 then .ok k else .throw := by decide +kernel

/-! ## Examples -/

private def sampleTx : TxRecord :=
  ⟨7, 1, some (List.replicate 16 17), some (str "addr"), none, 1600000000123000000, some 1600000060000000000, some 900, 5, 1000, some ⟨0, 23⟩,
    some ⟨List.replicate 32 1, List.replicate 32 2, none⟩, some ⟨List.replicate 32 3, ⟨[], [], []⟩⟩⟩

private def coinbaseTx : TxRecord := ⟨8, 0, none, none, none, 1600000100000000000, none, none, 60, 0, none, none, none⟩

private def H0 : DigestNum := fun _ => 0

private theorem sampleTx_inRange : TxInRange H0 (fun _ => 0) sampleTx := by
  refine ⟨by decide, by decide, by simp [sampleTx], ?_, by simp [sampleTx], by decide +kernel, by simp [sampleTx], ?_, ?_, ?_, by simp [sampleTx],
    by simp [sampleTx], ?_⟩
  · intro a ha
    have : a = str "addr" := by simpa [sampleTx] using ha.symm
    subst this
    decide +kernel
  · simp [sampleTx, U64]
  · simp [sampleTx, U64]
  · simp [sampleTx, U64]
  · intro x hx
    have : x = ⟨List.replicate 32 3, ⟨[], [], []⟩⟩ := by simpa [sampleTx] using hx.symm
    subst this
    refine ⟨⟨by simp, by simp, by simp, by simp, by simp, by simp⟩, by decide, by simp [U64], by simp [U64], by simp [U64]⟩

example : ReadsEnd (txRecordDeser H0 (fun _ => 0)) (txRecordSer sampleTx) sampleTx :=
  tx_record_roundtrip_partial H0 _ sampleTx sampleTx_inRange (by decide) (by decide +kernel) (by decide) (by decide) (by decide)

/-- The oldest format keeps neither the address nor the payment proof. -/
example : leftOf 0 sampleTx = { sampleTx with address := none, proof := none } := by decide +kernel

example : txRecordDeser H0 (fun _ => 0) ⟨[4, 0, 0, 0, 1], 0⟩ = .throw := tx_record_newer_refused H0 _ 4 [0, 0, 0, 1] (by decide) (by decide +kernel)

example : TxInRange H0 (fun _ => 0) { sampleTx with message := some [] } := by
  have h := sampleTx_inRange
  exact ⟨h.id, h.type, h.slateId, h.address, by simp [U64], h.creation, h.confirmation, h.height, h.credited, h.debited, h.fee, h.proof, h.tx⟩

private def sampleAsk : List (String × Json) :=
  [("end_range_ms", .int 1600000099999), ("ids", .arr [.int 7, .int 8]), ("session_token", .str (str "AAAA")),
    ("statuses", .arr [.str (str "coinbase"), .str (str "SENT")])]

private theorem sampleAsk_asks : Asks sampleAsk (some [7, 8]) none (some 1600000099999) (some [0, 1]) :=
  ⟨⟨_, rfl⟩, rfl, rfl, rfl, ⟨some [str "coinbase", str "SENT"], rfl, by simp,
    by
      intro ns hns ks hks
      have e1 : ns = [str "coinbase", str "SENT"] := by simpa using hns.symm
      have e2 : ks = [0, 1] := by simpa using hks.symm
      subst e1; subst e2
      exact .cons (by decide +kernel) (.cons (by decide +kernel) .nil)⟩⟩

example : WantedTx (some [7, 8]) none (some 1600000099999) (some [0, 1]) sampleTx ∧
    ¬ WantedTx (some [7, 8]) none (some 1600000099999) (some [0, 1]) coinbaseTx := by
  constructor
  · exact ⟨by simp [sampleTx], by simp, by simp [sampleTx]; decide +kernel, by simp [sampleTx]⟩
  · intro h
    have := h.2.2.1 _ rfl
    simp [coinbaseTx] at this

/-- The first of the two is listed. -/
example : ∃ vs listed, listTxsCall (fun _ b => some b) (createStore 0) (fun v => .int v.id) [] [{ sampleTx with slateId := none }, coinbaseTx]
      (some (.obj sampleAsk)) = .ok (vs, Json.elements (vs.map fun v => .int v.id)) ∧
    List.Forall₂ (EntryShows (fun _ b => some b) (createStore 0) []) vs listed ∧
    listed.Sublist [{ sampleTx with slateId := none }, coinbaseTx] := by
  obtain ⟨vs, l, h1, h2, h3, _⟩ := list_txs_exact_partial (fun _ b => some b) (createStore 0) (fun v => .int v.id) []
    [{ sampleTx with slateId := none }, coinbaseTx] sampleAsk _ _ _ _ sampleAsk_asks (by simp) (by simp) (by simp)
    (by simp [sampleTx, coinbaseTx]) (by simp [coinbaseTx])
  exact ⟨vs, l, h1, h2, h3⟩

/-- **C118.**  The names of the kinds of transactions: a text names a kind exactly if it is the name of that kind in capitals or otherwise,
and only the eight kinds have names. -/
theorem tx_type_names (s : Bytes) (t : Nat) : typeOfKey s = .ok t ↔ t < 8 ∧ toUpper s = typeKey t := by
  constructor
  · intro h
    unfold typeOfKey at h
    repeat' split at h
    all_goals cases h <;> exact ⟨by omega, by simpa [typeKey]⟩
  · rintro ⟨h8, h⟩
    refine typeOfKey_name s t ?_
    rw [h]
    exact (show ∀ t < 8, (statusNames[t]?).map str = some (typeKey t) by decide +kernel) t h8

example : typeOfKey (str "sent") = .ok 1 := by decide +kernel

end Verif.Props
