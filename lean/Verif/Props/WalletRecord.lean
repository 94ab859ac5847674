import Verif.Codec.WalletRecord
import Verif.Ser.CoreLemmas
import Verif.Props.KeyPath

/-!
# C15: records of the wallet database
-/
namespace Verif.Props
open Verif Verif.Codec

/-- Spec: every field has the size of its C++ type and the texts fit in memory. -/
structure RecordInRange (o : OutputRecord) : Prop where
  path : (formatPath o.path).length < U64
  blind : o.blind.length = 32
  features : o.output.features < 256
  commit : o.output.commit.length = 33
  proof : o.output.proof.length ≤ 675
  amount : o.amount < U64
  status : o.status < 256
  mmrIndex : ∀ i ∈ o.mmrIndex, i < U64
  height : ∀ i ∈ o.height, i < U64
  txId : ∀ i ∈ o.txId, i < 2 ^ 32
  labels : ∀ l ∈ o.labels, l.length < U64

/-- Spec: what the store keeps of a record: a present zero becomes absent, only the first label is kept
and an empty label is dropped. -/
def keptRecord (o : OutputRecord) : OutputRecord :=
  { o with
    mmrIndex := o.mmrIndex.filter (· ≠ 0)
    height := o.height.filter (· ≠ 0)
    labels := (o.labels.take 1).filter (· ≠ []) }

private theorem reads_remaining {α : Type} {p q : Parser α} {bs : Bytes} {a : α} (hb : bs ≠ [])
    (h : Reads p bs a) : Reads (remaining >>= fun r => if r ≠ 0 then p else q) bs a := by
  intro pre post hl
  rw [Parser.bind_run]
  have : 0 < bs.length := List.length_pos_iff.mpr hb
  have hr : (pre ++ bs ++ post).length - pre.length ≠ 0 := by
    simp only [List.length_append]; omega
  show (if (pre ++ bs ++ post).length - pre.length ≠ 0 then p else q) ⟨pre ++ bs ++ post, pre.length⟩ = _
  rw [if_pos hr]
  exact h pre post hl

private theorem ends_remaining {α : Type} {p q : Parser α} {a : α}
    (h : ReadsEnd q [] a) : ReadsEnd (remaining >>= fun r => if r ≠ 0 then p else q) [] a := by
  intro pre hl
  rw [Parser.bind_run]
  have hr : ¬ (pre ++ ([] : Bytes)).length - pre.length ≠ 0 := by simp
  show (if (pre ++ ([] : Bytes)).length - pre.length ≠ 0 then p else q) ⟨pre ++ [], pre.length⟩ = _
  rw [if_neg hr]
  exact h pre hl

private theorem reads_lift {α : Type} {r : Res α} {a : α} (h : r = .ok a) :
    Reads (Parser.lift r) [] a := by
  subst h
  intro pre post _
  simp [Parser.lift]

private theorem be_ne (n x : Nat) (h : 0 < n) : beBytes n x ≠ [] := by
  intro e
  have := beBytes_length n x
  rw [e] at this
  simp at this; omega

private theorem zeroIsNone_getD (o : Option Nat) : zeroIsNone (o.getD 0) = o.filter (· ≠ 0) := by
  cases o with
  | none => rfl
  | some i =>
    by_cases h : i = 0
    · subst h; rfl
    · simp [zeroIsNone, h, Option.filter]

private theorem reads_height {n : Nat} (h : n < U64) : Reads readHeight (beBytes 8 n) n :=
  reads_remaining (be_ne 8 n (by omega)) (reads_u64 h)

private theorem reads_labels (ls : List Bytes) (h : ∀ l ∈ ls, l.length < U64) :
    Reads (readLabels 1) (serVarStr (ls.headD [])) ((ls.take 1).filter (· ≠ [])) := by
  unfold readLabels
  rw [if_pos (by omega)]
  cases ls with
  | nil =>
    exact Reads.bind0 (reads_varStr (s := []) (by simp [U64])) (Reads.pure _)
  | cons l ls =>
    refine Reads.congr (Reads.bind0 (reads_varStr (s := l) (h l (by simp))) (Reads.pure _)) rfl ?_
    by_cases hl : l = []
    · subst hl; simp
    · simp [hl]

private theorem reads_txId_some {i : Nat} (h : i < 2 ^ 32) :
    Reads readTxId (txIdSer (some i)) (some i) :=
  reads_remaining (be_ne 4 i (by omega)) (Reads.bind0 (reads_u32 h) (Reads.pure _))

private theorem reads_txId_none : ReadsEnd readTxId (txIdSer none) none :=
  ends_remaining (Reads.pure _).toEnd

private theorem getD_lt {o : Option Nat} (h : ∀ i ∈ o, i < U64) : o.getD 0 < U64 := by
  cases o with
  | none => simp [U64]
  | some i => exact h i rfl

private theorem ends_congr {α : Type} {p : Parser α} {bs bs' : Bytes} {a a' : α}
    (h : ReadsEnd p bs a) (hb : bs = bs') (ha : a = a') : ReadsEnd p bs' a' := by
  subst hb; subst ha; exact h

private theorem ends_last' {α β : Type} {p : Parser α} {f : α → Parser β} {bs : Bytes} {a : α} {b : β}
    (hp : ReadsEnd p bs a) (hf : f a = pure b) : ReadsEnd (p >>= f) bs b := by
  intro pre hl
  rw [Parser.bind_run, hp pre hl]
  simp only [Res.bind, hf]
  rfl

private theorem ends_last {α β : Type} {p : Parser α} {f : α → β} {bs : Bytes} {a : α}
    (hp : ReadsEnd p bs a) : ReadsEnd (p >>= fun x => pure (f x)) bs (f a) :=
  ends_last' hp rfl

/-- A record inside a longer buffer. -/
private theorem record_reads (o : OutputRecord) (h : RecordInRange o) (hp : ∀ i ∈ o.path, i < 2 ^ 31)
    (ht : o.txId.isSome) : Reads recordDeser (recordSer o) (keptRecord o) := by
  obtain ⟨t, ht⟩ := Option.isSome_iff_exists.mp ht
  have hpath : pathFromString (formatPath o.path) = .ok o.path := by
    rw [path_text_roundtrip_partial, if_pos hp]
  unfold recordDeser recordSer
  rw [ht]
  refine Reads.bind (reads_u8 (by omega)) ?_
  rw [if_neg (by omega)]
  refine Reads.bind (reads_varStr h.path) ?_
  refine Reads.congr (Reads.bind (reads_lift hpath) (Reads.bind (reads_bytes h.blind)
    (Reads.bind (reads_output h.features h.commit h.proof) (Reads.bind (reads_u64 h.amount)
    (Reads.bind (reads_u8 h.status) (Reads.bind (reads_u64 (getD_lt h.mmrIndex))
    (Reads.bind (reads_height (getD_lt h.height)) (Reads.bind (reads_labels o.labels h.labels)
    (Reads.bind0 (reads_txId_some (h.txId t ht)) (Reads.pure _)))))))))) (List.nil_append _) ?_
  simp only [zeroIsNone_getD, keptRecord, ht]

/-- **C15, one record: what is read back.** An output record whose key path has only indices below `2^31`,
stored as the whole blob, is read back as the part of it the format keeps. -/
theorem output_record_read_back (o : OutputRecord) (h : RecordInRange o)
    (hp : ∀ i ∈ o.path, i < 2 ^ 31) : ReadsEnd recordDeser (recordSer o) (keptRecord o) := by
  cases ht : o.txId with
  | some t => exact (record_reads o h hp (by rw [ht]; rfl)).toEnd
  | none =>
    have hpath : pathFromString (formatPath o.path) = .ok o.path := by
      rw [path_text_roundtrip_partial, if_pos hp]
    unfold recordDeser recordSer
    rw [ht]
    refine ReadsEnd.bind (reads_u8 (by omega)) ?_
    rw [if_neg (by omega)]
    refine ReadsEnd.bind (reads_varStr h.path) ?_
    refine ends_congr (ReadsEnd.bind (reads_lift hpath) (ReadsEnd.bind (reads_bytes h.blind)
      (ReadsEnd.bind (reads_output h.features h.commit h.proof) (ReadsEnd.bind (reads_u64 h.amount)
      (ReadsEnd.bind (reads_u8 h.status) (ReadsEnd.bind (reads_u64 (getD_lt h.mmrIndex))
      (ReadsEnd.bind (reads_height (getD_lt h.height)) (ReadsEnd.bind (reads_labels o.labels h.labels)
      (ends_last reads_txId_none)))))))))  (List.nil_append _) ?_
    simp only [zeroIsNone_getD, keptRecord, ht]

/-- **C15, one record.** A record comes back unchanged if its path indices are below `2^31`, no optional
value is a present zero, and it has at most one label, not empty. -/
theorem output_record_roundtrip_partial (o : OutputRecord) (h : RecordInRange o)
    (hp : ∀ i ∈ o.path, i < 2 ^ 31) (hm : o.mmrIndex ≠ some 0) (hh : o.height ≠ some 0)
    (hl : o.labels = [] ∨ ∃ l, l ≠ [] ∧ o.labels = [l]) :
    ReadsEnd recordDeser (recordSer o) o := by
  have e : keptRecord o = o := by
    have f : ∀ x : Option Nat, x ≠ some 0 → x.filter (· ≠ 0) = x := by
      intro x hx
      cases x with
      | none => rfl
      | some i =>
        have : i ≠ 0 := fun e => hx (by rw [e])
        simp [Option.filter, this]
    have g : (o.labels.take 1).filter (· ≠ []) = o.labels := by
      rcases hl with hl | ⟨l, hl, e⟩
      · rw [hl]; rfl
      · rw [e]; simp [hl]
    unfold keptRecord
    rw [f _ hm, f _ hh, g]
  have := output_record_read_back o h hp
  rwa [e] at this

/-- **C15 fails** for a record whose path has an index from `2^31` on (a hardened key): its stored form is
refused. -/
theorem output_record_hardened_violated (o : OutputRecord) (h : RecordInRange o)
    (hp : ¬ ∀ i ∈ o.path, i < 2 ^ 31) (hlen : (recordSer o).length < U64) :
    recordDeser ⟨recordSer o, 0⟩ = .throw := by
  have hpath : pathFromString (formatPath o.path) = .throw := by
    rw [path_text_roundtrip_partial, if_neg hp]
  unfold recordDeser
  have h1 := reads_u8 (x := 1) (by omega) [] ((recordSer o).drop 1) (by
    simp only [recordSer, beBytes_length, List.length_append, List.length_drop, List.length_nil] at hlen ⊢
    omega)
  have e1 : [] ++ beBytes 1 1 ++ (recordSer o).drop 1 = recordSer o := by
    unfold recordSer
    rw [List.nil_append, List.drop_left' (by rw [beBytes_length])]
  rw [e1] at h1
  simp only [List.length_nil, beBytes_length] at h1
  rw [Parser.bind_run, h1]
  simp only [Res.bind]
  rw [if_neg (by omega)]
  have h2 := reads_varStr h.path (beBytes 1 1) ((o.blind ++ (outputSer o.output ++
    (beBytes 8 o.amount ++ (beBytes 1 o.status ++ (beBytes 8 (o.mmrIndex.getD 0) ++
      (beBytes 8 (o.height.getD 0) ++ (serVarStr (o.labels.headD []) ++ txIdSer o.txId)))))))) (by
    simp only [recordSer, List.append_assoc] at hlen ⊢; exact hlen)
  simp only [List.append_assoc, beBytes_length] at h2
  rw [Parser.bind_run, show recordSer o = _ from rfl, recordSer, h2]
  simp only [Res.bind]
  rw [Parser.bind_run, hpath]
  rfl

/-- **C15 fails** for present zeros and further labels: what is read back is another record. -/
theorem output_record_lossy_violated (o : OutputRecord) (h : RecordInRange o)
    (hp : ∀ i ∈ o.path, i < 2 ^ 31) (hlen : (recordSer o).length < U64)
    (hx : o.mmrIndex = some 0 ∨ o.height = some 0 ∨ 2 ≤ o.labels.length ∨ o.labels = [[]]) :
    ∃ r b, recordDeser ⟨recordSer o, 0⟩ = .ok (r, b) ∧ r ≠ o := by
  have h2 := output_record_read_back o h hp [] (by simpa using hlen)
  refine ⟨keptRecord o, _, h2, ?_⟩
  intro e
  rcases hx with hx | hx | hx | hx
  · have := congrArg OutputRecord.mmrIndex e
    simp [keptRecord, hx, Option.filter] at this
  · have := congrArg OutputRecord.height e
    simp [keptRecord, hx, Option.filter] at this
  · have := congrArg (fun r => r.labels.length) e
    have hle := List.length_filter_le (p := fun l : Bytes => decide (l ≠ [])) (l := o.labels.take 1)
    rw [List.length_take] at hle
    simp only [keptRecord] at this
    omega
  · have := congrArg (fun r => r.labels.length) e
    simp [keptRecord, hx] at this

private theorem reads_many' {α : Type} {p : Parser α} {f : α → Bytes} {g : α → α} {l : List α}
    (h : ∀ a ∈ l, Reads p (f a) (g a)) : Reads (readMany p l.length) (serMany f l) (l.map g) := by
  induction l with
  | nil => simpa [serMany, readMany] using Reads.pure ([] : List α)
  | cons a l ih =>
    have ha := h a (by simp)
    have hl := ih (fun b hb => h b (by simp [hb]))
    have : Reads (readMany p (l.length + 1)) (f a ++ (serMany f l)) (g a :: l.map g) := by
      unfold readMany
      exact Reads.bind ha (Reads.map (f := fun as => g a :: as) hl)
    simpa [serMany] using this

private theorem ends_many {α : Type} {p : Parser α} {f : α → Bytes} {g : α → α} {l : List α} {b : α}
    (h : ∀ a ∈ l, Reads p (f a) (g a)) (hb : ReadsEnd p (f b) (g b)) :
    ReadsEnd (readMany p (l ++ [b]).length) (serMany f (l ++ [b])) ((l ++ [b]).map g) := by
  induction l with
  | nil =>
    have : ReadsEnd (readMany p 1) (f b) [g b] := by
      unfold readMany readMany
      refine ends_last' hb ?_
      rfl
    simpa [serMany] using this
  | cons a l ih =>
    have ha := h a (by simp)
    have hl := ih (fun b hb => h b (by simp [hb]))
    have : ReadsEnd (readMany p ((l ++ [b]).length + 1)) (f a ++ (serMany f (l ++ [b])))
        (g a :: (l ++ [b]).map g) := by
      rw [readMany]
      exact ReadsEnd.bind ha (ends_last' (f := fun as => Pure.pure (g a :: as)) hl rfl)
    simpa [serMany] using this

/-- Spec: the records of a context in the order they are stored. -/
def contextRecords (c : SlateContext) : List OutputRecord := c.inputs ++ c.outputs

/-- **C15, contexts.** A transaction context with any number of inputs and outputs comes back unchanged (up
to what a record keeps), provided every input and every output but the last carries its transaction id. -/
theorem slate_context_roundtrip_partial (c : SlateContext) (hk : c.secretKey.length = 32)
    (hn : c.secretNonce.length = 32) (hni : c.inputs.length < U64) (hno : c.outputs.length < U64)
    (h : ∀ o ∈ contextRecords c, RecordInRange o ∧ ∀ i ∈ o.path, i < 2 ^ 31)
    (hi : ∀ o ∈ c.inputs, o.txId.isSome) (ho : ∀ o ∈ c.outputs.dropLast, o.txId.isSome) :
    ReadsEnd contextDeser (contextSer c)
      { c with inputs := c.inputs.map keptRecord, outputs := c.outputs.map keptRecord } := by
  have hin : ∀ o ∈ c.inputs, Reads recordDeser (recordSer o) (keptRecord o) := fun o ho =>
    record_reads o (h o (by simp [contextRecords, ho])).1 (h o (by simp [contextRecords, ho])).2 (hi o ho)
  have hout : ReadsEnd (readMany recordDeser c.outputs.length) (serMany recordSer c.outputs)
      (c.outputs.map keptRecord) := by
    rcases List.eq_nil_or_concat c.outputs with e | ⟨l, b, e⟩
    · rw [e]; exact (Reads.pure _).toEnd
    · rw [List.concat_eq_append] at e
      rw [e] at ho ⊢
      rw [List.dropLast_concat] at ho
      have hb := h b (by simp [contextRecords, e])
      refine ends_many (fun a ha => ?_) (output_record_read_back b hb.1 hb.2)
      have := h a (by simp [contextRecords, e, ha])
      exact record_reads a this.1 this.2 (ho a ha)
  unfold contextDeser contextSer
  exact ReadsEnd.bind (reads_bytes hk) (ReadsEnd.bind (reads_bytes hn) (ReadsEnd.bind (reads_u64 hni)
    (ReadsEnd.bind (reads_many' hin) (ReadsEnd.bind (reads_u64 hno) (ends_last hout)))))

private def sampleRecord : OutputRecord :=
  ⟨[0, 0, 7], List.replicate 32 9, ⟨0, List.replicate 33 8, List.replicate 675 7⟩, 60000000000, 2, some 5, none,
    some 3, [[65]]⟩

private theorem sample_inRange : RecordInRange sampleRecord := by
  constructor <;> decide +kernel

example : ReadsEnd recordDeser (recordSer sampleRecord) sampleRecord :=
  output_record_roundtrip_partial _ sample_inRange (by decide) (by decide) (by decide)
    (.inr ⟨[65], by decide, rfl⟩)

example : ReadsEnd contextDeser (contextSer ⟨List.replicate 32 1, List.replicate 32 2,
    [sampleRecord, sampleRecord], [sampleRecord, { sampleRecord with txId := none }]⟩)
    ⟨List.replicate 32 1, List.replicate 32 2,
    [sampleRecord, sampleRecord], [sampleRecord, { sampleRecord with txId := none }]⟩ := by
  have h2 : RecordInRange { sampleRecord with txId := none } := by constructor <;> decide +kernel
  refine slate_context_roundtrip_partial _ (by simp) (by simp) (by simp [U64]) (by simp [U64]) ?_ ?_ ?_
  · intro o ho
    simp only [contextRecords, List.mem_append, List.mem_cons, List.not_mem_nil, or_false] at ho
    rcases ho with (rfl | rfl) | (rfl | rfl)
    · exact ⟨sample_inRange, by decide⟩
    · exact ⟨sample_inRange, by decide⟩
    · exact ⟨sample_inRange, by decide⟩
    · exact ⟨h2, by decide⟩
  · decide +kernel
  · decide +kernel

/-- A record without transaction id, followed by anything, reads as a record with one. -/
private theorem record_steals (o : OutputRecord) (post : Bytes) (h4 : 4 ≤ post.length)
    (ht : o.txId = none) : recordSer o ++ post =
      recordSer { o with txId := some (beVal (post.take 4)) } ++ post.drop 4 := by
  have hl : (post.take 4).length = 4 := by rw [List.length_take]; omega
  have e : beBytes 4 (beVal (post.take 4)) = post.take 4 := by
    have := beBytes_beVal (post.take 4)
    rwa [hl] at this
  simp only [recordSer, ht, txIdSer, e, List.append_assoc, List.append_nil, List.take_append_drop]

/-- **C15 fails** for a context whose first input has no transaction id: reading the record takes the first
four bytes of what follows for it, so the context never comes back. -/
theorem slate_context_violated (c : SlateContext) (r : OutputRecord) (rest : List OutputRecord)
    (hk : c.secretKey.length = 32) (hn : c.secretNonce.length = 32) (hin : c.inputs = r :: rest)
    (hr : RecordInRange r) (hp : ∀ i ∈ r.path, i < 2 ^ 31) (ht : r.txId = none)
    (hlen : (contextSer c).length < U64) (b : Buf) : contextDeser ⟨contextSer c, 0⟩ ≠ .ok (c, b) := by
  intro hok
  have hcl : c.inputs.length < U64 := by
    have h1 : ∀ l : List OutputRecord, l.length ≤ (serMany recordSer l).length := by
      intro l
      induction l with
      | nil => simp
      | cons a l ih =>
        have : 1 ≤ (recordSer a).length := by simp [recordSer, beBytes_length]
        simp only [serMany, List.map_cons, List.flatten_cons, List.length_append, List.length_cons] at ih ⊢
        omega
    have := h1 c.inputs
    simp only [contextSer, List.length_append] at hlen
    omega
  -- the bytes after the first record
  obtain ⟨post, hpost⟩ : ∃ post, post = serMany recordSer rest ++
    (beBytes 8 c.outputs.length ++ serMany recordSer c.outputs) := ⟨_, rfl⟩
  have h4 : 4 ≤ post.length := by
    rw [hpost]; simp only [List.length_append, beBytes_length]; omega
  obtain ⟨o', ho'⟩ : ∃ o', o' = { r with txId := some (beVal (post.take 4)) } := ⟨_, rfl⟩
  have hv : beVal (post.take 4) < 2 ^ 32 := by
    have := beVal_lt (post.take 4)
    have hl : (post.take 4).length = 4 := by rw [List.length_take]; omega
    rwa [hl] at this
  have hr' : RecordInRange o' := by
    rw [ho']
    exact ⟨hr.path, hr.blind, hr.features, hr.commit, hr.proof, hr.amount, hr.status, hr.mmrIndex,
      hr.height, (by intro i hi; simp only [Option.mem_def, Option.some.injEq] at hi; omega), hr.labels⟩
  have hread := record_reads o' hr' (by rw [ho']; exact hp) (by rw [ho']; rfl)
  have hser : contextSer c = (c.secretKey ++ (c.secretNonce ++ beBytes 8 (rest.length + 1))) ++
      recordSer o' ++ post.drop 4 := by
    rw [List.append_assoc, ho', ← record_steals r post h4 ht, hpost]
    simp [contextSer, hin, serMany]
  have hread := hread (c.secretKey ++ (c.secretNonce ++ beBytes 8 (rest.length + 1))) (post.drop 4)
    (by rw [← hser]; exact hlen)
  rw [← hser] at hread
  -- the three fields before it
  have r1 := reads_bytes hk [] (c.secretNonce ++ (beBytes 8 (rest.length + 1) ++ (recordSer o' ++ post.drop 4)))
    (by rw [List.nil_append, show c.secretKey ++ (c.secretNonce ++ (beBytes 8 (rest.length + 1) ++
      (recordSer o' ++ post.drop 4))) = contextSer c by rw [hser]; simp only [List.append_assoc]]; exact hlen)
  have r2 := reads_bytes hn c.secretKey (beBytes 8 (rest.length + 1) ++ (recordSer o' ++ post.drop 4))
    (by rw [show c.secretKey ++ c.secretNonce ++ (beBytes 8 (rest.length + 1) ++
      (recordSer o' ++ post.drop 4)) = contextSer c by rw [hser]; simp only [List.append_assoc]]; exact hlen)
  have r3 := reads_u64 (x := rest.length + 1) (by rw [hin] at hcl; simpa using hcl)
    (c.secretKey ++ c.secretNonce) (recordSer o' ++ post.drop 4)
    (by rw [show c.secretKey ++ c.secretNonce ++ beBytes 8 (rest.length + 1) ++
      (recordSer o' ++ post.drop 4) = contextSer c by rw [hser]; simp only [List.append_assoc]]; exact hlen)
  have e1 : [] ++ c.secretKey ++ (c.secretNonce ++ (beBytes 8 (rest.length + 1) ++
      (recordSer o' ++ post.drop 4))) = contextSer c := by rw [hser]; simp only [List.append_assoc, List.nil_append]
  have e2 : c.secretKey ++ c.secretNonce ++ (beBytes 8 (rest.length + 1) ++ (recordSer o' ++ post.drop 4)) =
      contextSer c := by rw [hser]; simp only [List.append_assoc]
  have e3 : c.secretKey ++ c.secretNonce ++ beBytes 8 (rest.length + 1) ++ (recordSer o' ++ post.drop 4) =
      contextSer c := by rw [hser]; simp only [List.append_assoc]
  rw [e1] at r1
  rw [e2] at r2
  rw [e3] at r3
  simp only [List.length_nil, Nat.zero_add, List.length_append, ← Nat.add_assoc] at r1 r2 r3 hread
  unfold contextDeser at hok
  rw [Parser.bind_run, r1] at hok
  simp only [Res.bind] at hok
  rw [Parser.bind_run, r2] at hok
  simp only [Res.bind] at hok
  rw [Parser.bind_run, r3] at hok
  simp only [Res.bind] at hok
  rw [Parser.bind_run, readMany, Parser.bind_run, hread] at hok
  simp only [Res.bind] at hok
  rw [Parser.bind_run] at hok
  cases hm : readMany recordDeser rest.length
      ⟨contextSer c, c.secretKey.length + c.secretNonce.length + (beBytes 8 (rest.length + 1)).length +
        (recordSer o').length⟩ with
  | throw => rw [hm] at hok; exact absurd hok (by simp [Res.bind])
  | ub => rw [hm] at hok; exact absurd hok (by simp [Res.bind])
  | ok x =>
    rw [hm] at hok
    simp only [Res.bind, Parser.pure_run] at hok
    rw [Parser.bind_run] at hok
    cases hm1 : readBE 8 x.2 with
    | throw => rw [hm1] at hok; exact absurd hok (by simp [Res.bind])
    | ub => rw [hm1] at hok; exact absurd hok (by simp [Res.bind])
    | ok y =>
      rw [hm1] at hok
      simp only [Res.bind] at hok
      rw [Parser.bind_run] at hok
      cases hm2 : readMany recordDeser y.1 y.2 with
      | throw => rw [hm2] at hok; exact absurd hok (by simp [Res.bind])
      | ub => rw [hm2] at hok; exact absurd hok (by simp [Res.bind])
      | ok z =>
        rw [hm2] at hok
        simp only [Res.bind, Parser.pure_run, Res.ok.injEq, Prod.mk.injEq] at hok
        have := congrArg SlateContext.inputs hok.1
        simp only [hin, List.cons.injEq] at this
        have := congrArg OutputRecord.txId this.1
        rw [ht, ho'] at this
        simp [keptRecord] at this

example : ∀ b, contextDeser ⟨contextSer ⟨List.replicate 32 1, List.replicate 32 2,
    [{ sampleRecord with txId := none }], []⟩, 0⟩ ≠ .ok (⟨List.replicate 32 1, List.replicate 32 2,
    [{ sampleRecord with txId := none }], []⟩, b) :=
  slate_context_violated _ _ _ (by simp) (by simp) rfl (by constructor <;> decide +kernel) (by decide) rfl
    (by decide +kernel)

example : ∃ r b, recordDeser ⟨recordSer { sampleRecord with mmrIndex := some 0 }, 0⟩ = .ok (r, b) ∧
    r ≠ { sampleRecord with mmrIndex := some 0 } :=
  output_record_lossy_violated _ (by constructor <;> decide +kernel) (by decide) (by decide +kernel) (.inl rfl)

example : recordDeser ⟨recordSer { sampleRecord with path := [2147483648] }, 0⟩ = .throw :=
  output_record_hardened_violated _ (by constructor <;> decide +kernel) (by decide) (by decide +kernel)

end Verif.Props
