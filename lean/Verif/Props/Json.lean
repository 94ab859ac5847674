import Verif.Codec.Json
import Verif.Props.KeyPath
import Verif.Props.Core
import Mathlib.Data.List.Forall2

/-!
# C87, C88, C89: slates, transactions and numbers as JSON
-/
namespace Verif.Props
open Verif Verif.Codec

/-! ## Numbers -/

private theorem u8_all {p : UInt8 → Prop} (h : ∀ n : Fin 256, p (UInt8.ofNat n.1)) (c : UInt8) : p c := by
  have := h ⟨c.toNat, c.toNat_lt⟩
  simpa using this

private theorem digit_plain (c : UInt8) (h : isDigit c = true) : isSpace c = false ∧ c ≠ 45 ∧ c ≠ 43 ∧ c ≠ 58 := by
  revert c; apply u8_all; decide +kernel

private theorem takeWhile_all {α : Type} {p : α → Bool} {l : List α} (h : ∀ a ∈ l, p a = true) (m : List α)
    (hm : ∀ a ∈ m.head?, p a = false) : (l ++ m).takeWhile p = l := by
  induction l with
  | nil =>
    cases m with
    | nil => rfl
    | cons a m => simp [hm a rfl]
  | cons a l ih =>
    rw [List.cons_append, List.takeWhile_cons, h a (by simp)]
    simp only [if_true]
    rw [ih (fun x hx => h x (by simp [hx]))]

private theorem dec_head (n : Nat) : ∃ c cs, decStr n = c :: cs ∧ isDigit c = true := by
  obtain ⟨h1, h2, -⟩ := decStr_facts n
  cases h : decStr n with
  | nil => exact absurd h h1
  | cons c cs => exact ⟨c, cs, rfl, h2 c (by simp [h])⟩

theorem stoull_dec (n : Nat) (h : n < 2 ^ 64) (rest : Bytes) (hr : ∀ c ∈ rest.head?, isDigit c = false) :
    stoull (decStr n ++ rest) = .ok n := by
  obtain ⟨c, cs, e, hc⟩ := dec_head n
  obtain ⟨h1, h2, h3⟩ := decStr_facts n
  have hp := digit_plain c hc
  have hd : (decStr n ++ rest).dropWhile isSpace = decStr n ++ rest := by
    apply dropWhile_head; rw [e]; intro x hx
    simp only [List.cons_append, List.head?_cons, Option.mem_some_iff] at hx
    rw [← hx]; exact hp.1
  have hh : (decStr n ++ rest).head? = some c := by rw [e]; rfl
  have e45 : ¬ (some c = some (45 : UInt8)) := fun x => hp.2.1 (Option.some.inj x)
  have e43 : ¬ (some c = some (43 : UInt8)) := fun x => hp.2.2.1 (Option.some.inj x)
  unfold stoull
  simp only [hd, hh, e45, e43, or_self, if_false]
  rw [takeWhile_all h2 rest hr, h3]
  rw [if_neg (fun x => x.elim h1 (fun y => by omega))]

theorem stoull_minus (n : Nat) (h0 : 0 < n) (h : n < 2 ^ 64) : stoull (45 :: decStr n) = .ok (2 ^ 64 - n) := by
  obtain ⟨h1, h2, h3⟩ := decStr_facts n
  have hd : (45 :: decStr n).dropWhile isSpace = 45 :: decStr n := rfl
  have ht := takeWhile_all h2 [] (by simp)
  rw [List.append_nil] at ht
  unfold stoull
  simp only [hd, List.head?_cons, true_or, if_true, List.drop_succ_cons, List.drop_zero, ht, h3]
  rw [if_neg (fun x => x.elim h1 (fun y => by omega)), Nat.mod_eq_of_lt (by omega)]

theorem json_nat_text (n : Nat) (h : n < 2 ^ 64) : jsonUInt64 (.str (decStr n)) = .ok n := by
  have := stoull_dec n h [] (by simp)
  rw [List.append_nil] at this
  exact this

theorem json_nat_int (n : Nat) (h : n < 2 ^ 64) : jsonUInt64 (.int n) = .ok n := by
  have : (0 : Int) ≤ n ∧ (n : Int) < 2 ^ 64 := by omega
  rw [jsonUInt64, if_pos this]
  simp

theorem json_bytes_hex (bs : Bytes) (n : Nat) :
    jsonBytes n (.str (toHex bs)) = if bs.length = n then .ok bs else .throw := by
  simp [jsonBytes, Json.isNull, Json.asString, hex_roundtrip]

/-! ## Identifiers -/

private theorem hex_pair (b : UInt8) :
    hexIndex (hexSymbol (b >>> 4)) = some (b >>> 4) ∧ hexIndex (hexSymbol (b &&& 0xf)) = some (b &&& 0xf) ∧
    ((b >>> 4) <<< 4) ||| (b &&& 0xf) = b ∧ hexSymbol (b >>> 4) ≠ 45 ∧ hexSymbol (b &&& 0xf) ≠ 45 ∧
    hexSymbol (b >>> 4) ≠ 0 ∧ hexSymbol (b &&& 0xf) ≠ 0 ∧ hexSymbol (b >>> 4) ≠ 123 := by
  revert b; apply u8_all; decide +kernel

private theorem uuid_step (c : UInt8) (s data : Bytes) (digit : Option UInt8) :
    uuidLoop (c :: s) digit data =
      if c = 45 then uuidLoop s digit data
      else if data.length ≥ 16 then none
      else
        match hexIndex c, digit with
        | none, _ => none
        | some i, none => uuidLoop s (some i) data
        | some i, some d => uuidLoop s none (data ++ [(d <<< 4) ||| i]) := by
  rw [uuidLoop.eq_def]; rfl

private theorem uuid_hex (bs rest data : Bytes) (h : data.length + bs.length ≤ 16) :
    uuidLoop (toHex bs ++ rest) none data = uuidLoop rest none (data ++ bs) := by
  induction bs generalizing data with
  | nil => simp [toHex]
  | cons b bs ih =>
    obtain ⟨h1, h2, h3, h4, h5, -⟩ := hex_pair b
    simp only [List.length_cons] at h
    have hl : ¬ data.length ≥ 16 := by omega
    rw [toHex, List.cons_append, List.cons_append, uuid_step, if_neg h4, if_neg hl, h1]
    simp only
    rw [uuid_step, if_neg h5, if_neg hl, h2]
    simp only
    rw [h3, ih _ (by rw [List.length_append, List.length_singleton]; omega), List.append_assoc]
    rfl

private theorem uuid_dash (rest data : Bytes) (d : Option UInt8) :
    uuidLoop (45 :: rest) d data = uuidLoop rest d data := by
  rw [uuid_step, if_pos rfl]

private theorem hex_nonzero (bs : Bytes) : ∀ c ∈ toHex bs, c ≠ 0 := by
  induction bs with
  | nil => simp [toHex]
  | cons b bs ih =>
    obtain ⟨-, -, -, -, -, h6, h7, -⟩ := hex_pair b
    intro c hc
    simp only [toHex, List.mem_cons] at hc
    rcases hc with rfl | rfl | hc
    · exact h6
    · exact h7
    · exact ih c hc

theorem uuid_text_roundtrip (id : Bytes) (h : id.length = 16) : uuidParse (uuidText id) = some id := by
  have hz : (uuidText id).takeWhile (· ≠ 0) = uuidText id := by
    have := takeWhile_all (p := fun c : UInt8 => decide (c ≠ 0)) (l := uuidText id) (by
      intro c hc
      unfold uuidText at hc
      simp only [List.mem_append, List.mem_cons] at hc
      rw [decide_eq_true_eq]
      rcases hc with hc | rfl | hc | rfl | hc | rfl | hc | rfl | hc
      all_goals first | exact hex_nonzero _ c hc | decide) [] (by simp)
    rwa [List.append_nil] at this
  have hh : ∃ c cs, uuidText id = c :: cs ∧ c ≠ 123 := by
    cases id with
    | nil => simp at h
    | cons b bs =>
      refine ⟨hexSymbol (b >>> 4), _, rfl, (hex_pair b).2.2.2.2.2.2.2⟩
  obtain ⟨c, cs, e1, e2⟩ := hh
  unfold uuidParse
  simp only [hz]
  rw [if_neg (by rw [e1, List.head?_cons]; exact fun x => e2 (Option.some.inj x)), if_neg (by rw [e1]; simp)]
  unfold uuidText
  have l1 : (id.take 4).length = 4 := by simp; omega
  have l2 : ((id.drop 4).take 2).length = 2 := by simp; omega
  have l3 : ((id.drop 6).take 2).length = 2 := by simp; omega
  have l4 : ((id.drop 8).take 2).length = 2 := by simp; omega
  have l5 : (id.drop 10).length = 6 := by simp; omega
  have hj : ((([] ++ id.take 4) ++ (id.drop 4).take 2) ++ (id.drop 6).take 2) ++ (id.drop 8).take 2 ++ id.drop 10 = id := by
    have a1 : id.drop 8 = (id.drop 8).take 2 ++ id.drop 10 := by
      rw [show id.drop 10 = (id.drop 8).drop 2 by rw [List.drop_drop]]; exact (List.take_append_drop _ _).symm
    have a2 : id.drop 6 = (id.drop 6).take 2 ++ id.drop 8 := by
      rw [show id.drop 8 = (id.drop 6).drop 2 by rw [List.drop_drop]]; exact (List.take_append_drop _ _).symm
    have a3 : id.drop 4 = (id.drop 4).take 2 ++ id.drop 6 := by
      rw [show id.drop 6 = (id.drop 4).drop 2 by rw [List.drop_drop]]; exact (List.take_append_drop _ _).symm
    rw [List.nil_append, List.append_assoc, List.append_assoc, List.append_assoc, ← a1, ← a2, ← a3,
      List.take_append_drop]
  rw [uuid_hex _ _ _ (by rw [l1]; decide), uuid_dash,
    uuid_hex _ _ _ (by rw [List.length_append, l1, l2]; decide), uuid_dash,
    uuid_hex _ _ _ (by rw [List.length_append, List.length_append, l1, l2, l3]; decide), uuid_dash,
    uuid_hex _ _ _ (by rw [List.length_append, List.length_append, List.length_append, l1, l2, l3, l4]; decide), uuid_dash]
  rw [show toHex (id.drop 10) = toHex (id.drop 10) ++ [] by simp,
    uuid_hex _ _ _ (by simp only [List.length_append, l1, l2, l3, l4, l5]; decide), hj, uuidLoop, if_neg (by omega)]

private theorem version_text (a b : Nat) (ha : a < 2 ^ 16) (hb : b < 2 ^ 16) :
    versionOfText (decStr a ++ 58 :: decStr b) = .ok (a, b) := by
  have hs : split 58 (decStr a ++ 58 :: decStr b) = [decStr a, decStr b] := by
    apply split_join 58 [decStr a, decStr b]
    intro t ht
    have : ∃ n, t = decStr n := by
      simp only [List.mem_cons, List.not_mem_nil, or_false] at ht
      rcases ht with rfl | rfl
      · exact ⟨a, rfl⟩
      · exact ⟨b, rfl⟩
    obtain ⟨n, rfl⟩ := this
    obtain ⟨h1, h2, -⟩ := decStr_facts n
    exact ⟨h1, fun hm => (digit_plain 58 (h2 58 hm)).2.2.2 rfl⟩
  have e1 := json_nat_text a (by omega)
  have e2 := json_nat_text b (by omega)
  simp only [jsonUInt64] at e1 e2
  unfold versionOfText
  rw [hs]
  simp only [e1, e2, Res.ok_bind, Res.pure_eq]
  rw [Nat.mod_eq_of_lt (by omega), Nat.mod_eq_of_lt (by omega)]

/-! ## Members -/

private theorem lookup_opt (c : Prop) [Decidable c] (k key : String) (v : Json) :
    (optField c k v).lookup key = if c then (if key = k then some v else none) else none := by
  unfold optField
  by_cases h : c
  · simp only [h, if_true, List.lookup]
    by_cases h2 : key = k
    · simp [h2]
    · have : (key == k) = false := by simpa using h2
      simp [this, h2]
  · simp [h]

private theorem required_obj {α : Type} (f : Json → Res α) (fs : List (String × Json)) (key : String) (v : Json)
    (h : fs.lookup key = some v) (hv : v.isNull = false) : required f (.obj fs) key = f v := by
  cases v <;> simp_all [required, getRequired, Json.isNull, Json.get]

private theorem optionally_obj {α : Type} (f : Json → Res α) (fs : List (String × Json)) (key : String) (v : Json)
    (h : fs.lookup key = some v) (hv : v.isNull = false) :
    optionally f (.obj fs) key = (do let a ← f v; return some a) := by
  cases v <;> simp_all [optionally, getOptional, Json.isNull, Json.get]

private theorem optionally_none {α : Type} (f : Json → Res α) (fs : List (String × Json)) (key : String)
    (h : fs.lookup key = none) : optionally f (.obj fs) key = .ok none := by
  simp [optionally, getOptional, Json.isNull, Json.get, h]

private theorem readAll_map {α : Type} (f : Json → Res α) (g : α → Json) (e : α → α) (l : List α)
    (h : ∀ a ∈ l, f (g a) = .ok (e a)) : readAll f (l.map g) = .ok (l.map e) := by
  induction l with
  | nil => rfl
  | cons a l ih =>
    rw [List.map_cons, readAll, h a (by simp), Res.ok_bind, ih (fun b hb => h b (by simp [hb]))]
    rfl

private theorem readAll_throw {α : Type} (f : Json → Res α) (g : α → Json) (e : α → α) (l : List α)
    (h : ∀ a ∈ l, f (g a) = .ok (e a) ∨ f (g a) = .throw) (hx : ∃ a ∈ l, f (g a) = .throw) :
    readAll f (l.map g) = .throw := by
  induction l with
  | nil => obtain ⟨a, ha, -⟩ := hx; simp at ha
  | cons a l ih =>
    rw [List.map_cons, readAll]
    rcases h a (by simp) with ha | ha
    · rw [ha, Res.ok_bind]
      have : ∃ b ∈ l, f (g b) = .throw := by
        obtain ⟨b, hb, e⟩ := hx
        rcases List.mem_cons.mp hb with rfl | hb
        · rw [e] at ha; cases ha
        · exact ⟨b, hb, e⟩
      rw [ih (fun b hb => h b (by simp [hb])) this]
      rfl
    · rw [ha]; rfl

/-! ## Slates -/

/-- Spec: the fields of a slate have the sizes of their types. -/
structure SlateTyped (s : Slate) : Prop where
  id : s.id.length = 16
  version : s.version < 2 ^ 16
  blockVersion : s.blockVersion < 2 ^ 16
  numParts : s.numParts < 2 ^ 8
  ttl : s.ttl < 2 ^ 64
  features : s.features < 2 ^ 8
  offset : s.offset.length = 32
  amount : s.amount < 2 ^ 64
  sigs : ∀ g ∈ s.sigs, g.excess.length = 33 ∧ g.nonce.length = 33 ∧ ∀ p ∈ g.partialSig, p.length = 64
  coms : ∀ c ∈ s.coms, c.commit.length = 33
  proof : ∀ p ∈ s.proof, p.sender.length = 32 ∧ p.receiver.length = 32 ∧ ∀ g ∈ p.signature, g.length = 64

/-- Spec: what JSON can carry.  There is a stage, the kernel is plain and has no arguments, the fee has no shift and
fits in 40 bits, inputs and outputs are plain or coinbase, and range proofs have their full length. -/
structure SlateCarried (s : Slate) : Prop where
  stage : s.stage ≠ .none
  features : s.features = 0
  args : s.featureArgs = none
  shift : s.fee.shift = 0
  fee : s.fee.fee < 2 ^ 40
  coms : ∀ c ∈ s.coms, c.features ≤ 1 ∧ ∀ p ∈ c.proof, p.length = 675

private theorem sig_json (g : SlateSig) (h1 : g.excess.length = 33) (h2 : g.nonce.length = 33)
    (h3 : ∀ p ∈ g.partialSig, p.length = 64) : sigFromJson (sigToJson g) = .ok g := by
  obtain ⟨ex, no, pt⟩ := g
  simp only at h1 h2 h3
  unfold sigFromJson sigToJson
  rw [required_obj _ _ _ (.str (toHex ex)) (by simp [List.lookup]) rfl, json_bytes_hex, if_pos h1, Res.ok_bind,
    required_obj _ _ _ (.str (toHex no)) (by simp [List.lookup]) rfl, json_bytes_hex, if_pos h2, Res.ok_bind]
  cases pt with
  | none => rw [optionally_none _ _ _ (by simp [List.lookup])]; rfl
  | some p =>
    rw [optionally_obj _ _ _ (.str (toHex p)) (by simp [List.lookup]) rfl, json_bytes_hex, if_pos (h3 p rfl)]
    rfl

private def comRead (c : SlateCom) : SlateCom := { c with features := if c.features = 1 then 1 else 0 }

private theorem com_json (c : SlateCom) (h1 : c.commit.length = 33) :
    comFromJson (comToJson c) =
      if (∀ p ∈ c.proof, p.length = 675) then .ok (comRead c) else .throw := by
  obtain ⟨f, co, pt⟩ := c
  simp only at h1
  have hread : ∀ fs : List (String × Json), fs.lookup "c" = some (.str (toHex co)) →
      fs.lookup "f" = (if f = 1 then some (.int 1) else none) →
      comFromJson (.obj fs) = (do
        let proof ← optionally (jsonBytes 675) (.obj fs) "p"
        return ⟨if f = 1 then 1 else 0, co, proof⟩) := by
    intro fs hc hf
    unfold comFromJson
    rw [required_obj _ _ _ _ hc rfl, json_bytes_hex, if_pos h1, Res.ok_bind]
    by_cases h : f = 1
    · rw [if_pos h] at hf
      have h1 : jsonUInt64 (.int 1) = .ok 1 := json_nat_int 1 (by decide)
      rw [optionally_obj _ _ _ _ hf rfl, h1]
      simp [h]
    · rw [if_neg h] at hf
      rw [optionally_none _ _ _ hf]
      simp [h]
  unfold comToJson
  cases pt with
  | none =>
    rw [hread _ (by simp) (by simp [List.lookup, List.lookup_append, lookup_opt]),
      optionally_none _ _ _ (by simp [List.lookup, List.lookup_append, lookup_opt])]
    have hx : ∀ q ∈ (⟨f, co, none⟩ : SlateCom).proof, q.length = 675 := by simp
    rw [if_pos hx]
    rfl
  | some p =>
    rw [hread _ (by simp) (by simp [List.lookup, List.lookup_append, lookup_opt]),
      optionally_obj _ _ _ (.str (toHex p)) (by simp [List.lookup, List.lookup_append, lookup_opt]) rfl, json_bytes_hex]
    by_cases hp : p.length = 675
    · have hx : ∀ q ∈ (⟨f, co, some p⟩ : SlateCom).proof, q.length = 675 := by simpa using hp
      rw [if_pos hp, if_pos hx]; rfl
    · have hx : ¬ ∀ q ∈ (⟨f, co, some p⟩ : SlateCom).proof, q.length = 675 := by simpa using hp
      rw [if_neg hp, if_neg hx]; rfl

private theorem pay_json (p : PayProof) (h1 : p.sender.length = 32) (h2 : p.receiver.length = 32)
    (h3 : ∀ g ∈ p.signature, g.length = 64) : payProofFromJson (payProofToJson p) = .ok p := by
  obtain ⟨ex, no, pt⟩ := p
  simp only at h1 h2 h3
  unfold payProofFromJson payProofToJson
  rw [required_obj _ _ _ (.str (toHex ex)) (by simp [List.lookup]) rfl, json_bytes_hex, if_pos h1, Res.ok_bind,
    required_obj _ _ _ (.str (toHex no)) (by simp [List.lookup]) rfl, json_bytes_hex, if_pos h2, Res.ok_bind]
  cases pt with
  | none => rw [optionally_none _ _ _ (by simp [List.lookup])]; rfl
  | some p =>
    rw [optionally_obj _ _ _ (.str (toHex p)) (by simp [List.lookup]) rfl, json_bytes_hex, if_pos (h3 p rfl)]
    rfl

private theorem stage_text (st : Stage) (h : st ≠ .none) :
    ∃ t, stageText st = .ok t ∧ stageOfText t = .ok st := by
  cases st with
  | none => exact absurd rfl h
  | standardSent => exact ⟨_, rfl, by decide +kernel⟩
  | standardReceived => exact ⟨_, rfl, by decide +kernel⟩
  | standardFinalized => exact ⟨_, rfl, by decide +kernel⟩
  | invoiceSent => exact ⟨_, rfl, by decide +kernel⟩
  | invoicePaid => exact ⟨_, rfl, by decide +kernel⟩
  | invoiceFinalized => exact ⟨_, rfl, by decide +kernel⟩

private theorem fee_json_iff (f : Fee) : feeFromJSON (feeToJSON f) = f ↔ f.shift = 0 ∧ f.fee < 2 ^ 40 := by
  constructor
  · intro h
    have hs : f.shift = 0 := Classical.byContradiction fun hs => fee_json_violated f hs h
    refine ⟨hs, ?_⟩
    have hv : feeToJSON f = f.fee := congrArg Fee.fee h
    have h1 : f.fee >>> 32 = f.fee / 2 ^ 32 := Nat.shiftRight_eq_div_pow _ _
    have h2 : f.fee &&& 0xffffffff = f.fee % 2 ^ 32 := Nat.and_two_pow_sub_one_eq_mod f.fee 32
    unfold feeToJSON feeSer at hv
    rw [hs, h1, h2] at hv
    simp [beBytes, beVal] at hv
    omega
  · rintro ⟨hs, hf⟩
    exact fee_json_roundtrip_partial f hs hf

private theorem fee_json_lt (f : Fee) : feeToJSON f < 2 ^ 64 := by
  have h := beVal_lt (feeSer f)
  have hl : (feeSer f).length = 8 := by simp [feeSer]
  rw [hl] at h
  exact h

/-- What is read back. -/
private def slateRead (s : Slate) : Slate :=
  { s with featureArgs := none, fee := feeFromJSON (feeToJSON s.fee), coms := s.coms.map comRead }

private theorem coms_json (cs : List SlateCom) (h : ∀ c ∈ cs, c.commit.length = 33) :
    readAll comFromJson (cs.map comToJson) =
      if (∀ c ∈ cs, ∀ p ∈ c.proof, p.length = 675) then .ok (cs.map comRead) else .throw := by
  by_cases hp : ∀ c ∈ cs, ∀ p ∈ c.proof, p.length = 675
  · rw [if_pos hp]
    exact readAll_map _ _ comRead _ (fun c hc => by rw [com_json c (h c hc), if_pos (hp c hc)])
  · rw [if_neg hp]
    apply readAll_throw _ _ comRead
    · intro c hc
      rw [com_json c (h c hc)]
      by_cases h1 : ∀ p ∈ c.proof, p.length = 675
      · rw [if_pos h1]; exact .inl rfl
      · rw [if_neg h1]; exact .inr rfl
    · obtain ⟨c, hc⟩ := Classical.not_forall.mp hp
      obtain ⟨hc, hn⟩ := Classical.not_imp.mp hc
      exact ⟨c, hc, by rw [com_json c (h c hc), if_neg hn]⟩

private theorem opt_u64 (fs : List (String × Json)) (key : String) (n : Nat) (hn : n < 2 ^ 64)
    (h : fs.lookup key = if n ≠ 0 then some (.str (decStr n)) else none) :
    ∃ x, optionally jsonUInt64 (.obj fs) key = .ok x ∧ x.getD 0 = n := by
  by_cases h0 : n = 0
  · rw [if_neg (by simpa using h0)] at h
    exact ⟨none, optionally_none _ _ _ h, by simp [h0]⟩
  · rw [if_pos h0] at h
    refine ⟨some n, ?_, rfl⟩
    rw [optionally_obj _ _ _ _ h rfl, json_nat_text n hn]
    rfl

private theorem slate_json_fields (s : Slate) (ht : SlateTyped s) (stage : Bytes) (hst : stageOfText stage = .ok s.stage)
    (fs : List (String × Json))
    (hver : fs.lookup "ver" = some (.str (decStr s.version ++ 58 :: decStr s.blockVersion)))
    (hid : fs.lookup "id" = some (.str (uuidText s.id)))
    (hsta : fs.lookup "sta" = some (.str stage))
    (hoff : fs.lookup "off" = if s.offset ≠ List.replicate 32 0 then some (.str (toHex s.offset)) else none)
    (hnum : fs.lookup "num_parts" = if s.numParts ≠ 2 then some (.str (decStr s.numParts)) else none)
    (hfee : fs.lookup "fee" = if s.fee ≠ ⟨0, 0⟩ then some (.int (feeToJSON s.fee)) else none)
    (hamt : fs.lookup "amt" = if s.amount ≠ 0 then some (.str (decStr s.amount)) else none)
    (hfeat : fs.lookup "feat" = if s.features ≠ 0 then some (.int s.features) else none)
    (httl : fs.lookup "ttl" = if s.ttl ≠ 0 then some (.str (decStr s.ttl)) else none)
    (hsigs : fs.lookup "sigs" = some (.arr (s.sigs.map sigToJson)))
    (hcoms : fs.lookup "coms" = some (.arr (s.coms.map comToJson)))
    (hproof : fs.lookup "proof" = s.proof.map payProofToJson) :
    slateFromJson (.obj fs) =
      if (∀ c ∈ s.coms, ∀ p ∈ c.proof, p.length = 675) then .ok (slateRead s) else .throw := by
  have hoff' : ∃ x, optionally (jsonBytes 32) (.obj fs) "off" = .ok x ∧ x.getD (List.replicate 32 0) = s.offset := by
    by_cases h0 : s.offset = List.replicate 32 0
    · rw [if_neg (by simpa using h0)] at hoff
      exact ⟨none, optionally_none _ _ _ hoff, h0.symm⟩
    · rw [if_pos h0] at hoff
      exact ⟨some s.offset, by rw [optionally_obj _ _ _ _ hoff rfl, json_bytes_hex, if_pos ht.offset]; rfl, rfl⟩
  have hnum' : jsonUInt8 (.obj fs) "num_parts" 2 = .ok s.numParts := by
    unfold jsonUInt8
    by_cases h0 : s.numParts = 2
    · rw [if_neg (by simpa using h0)] at hnum
      rw [optionally_none _ _ _ hnum, h0]; rfl
    · rw [if_pos h0] at hnum
      have := ht.numParts
      rw [optionally_obj _ _ _ _ hnum rfl, json_nat_text _ (by omega)]
      simp only [Res.ok_bind, Res.pure_eq]
      rw [Nat.mod_eq_of_lt (by omega)]
  have hfeat' : jsonUInt8 (.obj fs) "feat" 0 = .ok s.features := by
    unfold jsonUInt8
    by_cases h0 : s.features = 0
    · rw [if_neg (by simpa using h0)] at hfeat
      rw [optionally_none _ _ _ hfeat, h0]; rfl
    · rw [if_pos h0] at hfeat
      have := ht.features
      rw [optionally_obj _ _ _ _ hfeat rfl, json_nat_int _ (by omega)]
      simp only [Res.ok_bind, Res.pure_eq]
      rw [Nat.mod_eq_of_lt (by omega)]
  have hfee' : ∃ x, optionally feeOfJson (.obj fs) "fee" = .ok x ∧ x.getD ⟨0, 0⟩ = feeFromJSON (feeToJSON s.fee) := by
    by_cases h0 : s.fee = ⟨0, 0⟩
    · rw [if_neg (by simpa using h0)] at hfee
      exact ⟨none, optionally_none _ _ _ hfee, by rw [h0]; decide⟩
    · rw [if_pos h0] at hfee
      refine ⟨some (feeFromJSON (feeToJSON s.fee)), ?_, rfl⟩
      rw [optionally_obj _ _ _ _ hfee rfl, feeOfJson, json_nat_int _ (fee_json_lt _)]
      rfl
  obtain ⟨off, hoff1, hoff2⟩ := hoff'
  obtain ⟨fee, hfee1, hfee2⟩ := hfee'
  obtain ⟨amt, hamt1, hamt2⟩ := opt_u64 fs "amt" s.amount ht.amount hamt
  obtain ⟨ttl, httl1, httl2⟩ := opt_u64 fs "ttl" s.ttl ht.ttl httl
  have hs1 : getRequiredArray (.obj fs) "sigs" = .ok (s.sigs.map sigToJson) := by
    simp [getRequiredArray, getRequired, Json.isNull, Json.get, hsigs]
  have hs2 : readAll sigFromJson (s.sigs.map sigToJson) = .ok s.sigs := by
    have := readAll_map sigFromJson sigToJson id s.sigs (fun g hg =>
      sig_json g (ht.sigs g hg).1 (ht.sigs g hg).2.1 (ht.sigs g hg).2.2)
    simpa using this
  have hc1 : getArray (.obj fs) "coms" = .ok (s.coms.map comToJson) := by
    simp [getArray, getOptional, Json.isNull, Json.get, hcoms]
  have hp : optionally payProofFromJson (.obj fs) "proof" = .ok s.proof := by
    cases hpr : s.proof with
    | none => rw [hpr] at hproof; exact optionally_none _ _ _ hproof
    | some p =>
      rw [hpr] at hproof
      obtain ⟨h1, h2, h3⟩ := ht.proof p hpr
      rw [optionally_obj _ _ _ _ hproof rfl, pay_json p h1 h2 h3]
      rfl
  unfold slateFromJson
  rw [required_obj _ _ _ _ hver rfl, Json.asString, Res.ok_bind, version_text _ _ ht.version ht.blockVersion, Res.ok_bind,
    required_obj _ _ _ _ hid rfl, Json.asString, Res.ok_bind,
    slateId, uuid_text_roundtrip _ ht.id]
  simp only [Res.ok_bind]
  rw [required_obj _ _ _ _ hsta rfl, Json.asString, Res.ok_bind, hst, Res.ok_bind, hoff1, Res.ok_bind, hnum', Res.ok_bind,
    hfee1, Res.ok_bind, hamt1, Res.ok_bind, hfeat', Res.ok_bind, httl1, Res.ok_bind, hs1, Res.ok_bind, hs2, Res.ok_bind,
    hc1, Res.ok_bind, coms_json _ ht.coms]
  by_cases hpr : ∀ c ∈ s.coms, ∀ p ∈ c.proof, p.length = 675
  · rw [if_pos hpr, if_pos hpr, Res.ok_bind, hp, Res.ok_bind, hoff2, hfee2, hamt2, httl2]
    rfl
  · rw [if_neg hpr, if_neg hpr]; rfl

private theorem slate_json_written (s : Slate) (ht : SlateTyped s) (hs : s.stage ≠ .none)
    (ha : s.features = 0 ∨ s.featureArgs ≠ none) :
    (slateToJson s >>= slateFromJson) =
      if (∀ c ∈ s.coms, ∀ p ∈ c.proof, p.length = 675) then .ok (slateRead s) else .throw := by
  obtain ⟨t, h1, h2⟩ := stage_text s.stage hs
  have hf : ∃ l, featFields s = .ok l ∧ (l = [] ∧ s.features = 0 ∨
      ∃ x, l = [("feat", Json.int s.features), ("feat_args", x)] ∧ s.features ≠ 0) := by
    unfold featFields
    by_cases h0 : s.features = 0
    · exact ⟨[], by simp [h0], .inl ⟨rfl, h0⟩⟩
    · rw [if_pos h0]
      cases hx : s.featureArgs with
      | none => rw [hx] at ha; simp [h0] at ha
      | some a => exact ⟨_, rfl, .inr ⟨_, rfl, h0⟩⟩
  obtain ⟨l, h3, h4⟩ := hf
  unfold slateToJson
  rw [h1, Res.ok_bind, h3, Res.ok_bind, Res.pure_eq, Res.ok_bind]
  have hp : ∀ key, (proofFields s.proof).lookup key =
      if key = "proof" then s.proof.map payProofToJson else none := by
    intro key
    unfold proofFields
    cases s.proof with
    | none => simp
    | some p =>
      by_cases hk : key = "proof"
      · simp [hk]
      · have : (key == "proof") = false := by simpa using hk
        simp [List.lookup, this, hk]
  apply slate_json_fields s ht t h2
  all_goals
    rcases h4 with ⟨rfl, h0⟩ | ⟨x, rfl, h0⟩ <;>
    simp [List.lookup, List.lookup_append, lookup_opt, hp, h0]

/-- **C87, what comes back.**  A slate with a stage, with arguments wherever it has kernel features, and with full range
proofs, is read back with every field but the arguments, the fee and the features of inputs and outputs as they were:
the arguments are gone, the fee is read as a bare number, and features other than coinbase become plain. -/
theorem slate_json_outcome (s : Slate) (ht : SlateTyped s) (hs : s.stage ≠ .none)
    (ha : s.features = 0 ∨ s.featureArgs ≠ none) (hp : ∀ c ∈ s.coms, ∀ p ∈ c.proof, p.length = 675) :
    (slateToJson s >>= slateFromJson) = .ok { s with
      featureArgs := none
      fee := ⟨0, feeToJSON s.fee⟩
      coms := s.coms.map fun c => { c with features := if c.features = 1 then 1 else 0 } } := by
  rw [slate_json_written s ht hs ha, if_pos hp]
  rfl

/-- **C87, partial.**  Writing a slate as JSON and reading it gives the same slate exactly when JSON can carry it
(`SlateCarried`).  The full claim, without that condition, is false: see `slate_json_violated_lock_height` and
`slate_json_violated_fee`. -/
theorem slate_json_roundtrip_iff_partial (s : Slate) (ht : SlateTyped s) :
    (slateToJson s >>= slateFromJson) = .ok s ↔ SlateCarried s := by
  constructor
  · intro h
    have hs : s.stage ≠ .none := by
      intro e
      unfold slateToJson at h
      rw [e] at h
      cases h
    have ha : s.features = 0 ∨ s.featureArgs ≠ none := by
      rcases Classical.em (s.features = 0) with h0 | h0
      · exact .inl h0
      · refine .inr fun e => ?_
        obtain ⟨t, h1, -⟩ := stage_text s.stage hs
        have hf : featFields s = .throw := by rw [featFields, if_pos h0, e]
        unfold slateToJson at h
        rw [h1, Res.ok_bind, hf] at h
        cases h
    rw [slate_json_written s ht hs ha] at h
    by_cases hp : ∀ c ∈ s.coms, ∀ p ∈ c.proof, p.length = 675
    · rw [if_pos hp] at h
      have e : slateRead s = s := by injection h
      have e1 : none = s.featureArgs := congrArg Slate.featureArgs e
      have e2 : feeFromJSON (feeToJSON s.fee) = s.fee := congrArg Slate.fee e
      have e3 : s.coms.map comRead = s.coms := congrArg Slate.coms e
      obtain ⟨f1, f2⟩ := (fee_json_iff s.fee).mp e2
      refine ⟨hs, ?_, e1.symm, f1, f2, ?_⟩
      · rcases ha with ha | ha
        · exact ha
        · exact absurd e1.symm ha
      · intro c hc
        refine ⟨?_, hp c hc⟩
        have : comRead c = c := by
          obtain ⟨i, hi, rfl⟩ := List.getElem_of_mem hc
          have h4 := congrArg (fun l => l[i]?) e3
          simpa [hi] using h4
        have h2 : (if c.features = 1 then 1 else 0) = c.features := congrArg SlateCom.features this
        split at h2 <;> omega
    · rw [if_neg hp] at h; cases h
  · intro hc
    rw [slate_json_written s ht hc.stage (.inl hc.features), if_pos (fun c h => (hc.coms c h).2)]
    have e1 : s.coms.map comRead = s.coms := by
      refine (List.map_congr_left (g := id) ?_).trans (List.map_id _)
      intro c h
      have := (hc.coms c h).1
      obtain ⟨f, co, pr⟩ := c
      simp only at this
      simp only [comRead]
      congr 1
      split <;> omega
    have e2 := fee_json_roundtrip_partial s.fee hc.shift hc.fee
    have e3 := hc.args
    unfold slateRead
    rw [e1, e2, ← e3]

/-- **C87 is violated** for slates with a lock height (or any kernel features): what is read back has no arguments, so
its lock height is zero, and it cannot be written again. -/
theorem slate_json_violated_lock_height (s : Slate) (ht : SlateTyped s) (hs : s.stage ≠ .none) (hf : s.features ≠ 0)
    (ha : s.featureArgs ≠ none) (hp : ∀ c ∈ s.coms, ∀ p ∈ c.proof, p.length = 675) :
    ∃ r, (slateToJson s >>= slateFromJson) = .ok r ∧ r.features = s.features ∧ r.lockHeight = 0 ∧ slateToJson r = .throw := by
  refine ⟨_, slate_json_outcome s ht hs (.inr ha) hp, rfl, rfl, ?_⟩
  obtain ⟨t, h1, -⟩ := stage_text s.stage hs
  unfold slateToJson featFields
  simp only
  rw [h1, Res.ok_bind, if_pos hf]
  rfl

/-- **C87 is violated** for fees with a shift: the amount read is not the amount written, it is at least `2 ^ 40`. -/
theorem slate_json_violated_fee (s : Slate) (ht : SlateTyped s) (hs : s.stage ≠ .none) (hf : s.features = 0)
    (hp : ∀ c ∈ s.coms, ∀ p ∈ c.proof, p.length = 675) (h1 : s.fee.shift ≠ 0) (h2 : s.fee.shift < 256) :
    ∃ r, (slateToJson s >>= slateFromJson) = .ok r ∧ r.fee.shift = 0 ∧ r.fee.fee ≥ 2 ^ 40 := by
  refine ⟨_, slate_json_outcome s ht hs (.inl hf) hp, rfl, ?_⟩
  show feeToJSON s.fee ≥ 2 ^ 40
  unfold feeToJSON feeSer
  have h3 : s.fee.shift % 256 = s.fee.shift := Nat.mod_eq_of_lt h2
  simp [beBytes, beVal]
  omega

private def carriedSlate : Slate :=
  ⟨List.replicate 16 7, .standardSent, 4, 3, 2, 0, 0, none, List.replicate 32 5, 60000, ⟨0, 1000⟩,
    [⟨List.replicate 33 2, List.replicate 33 3, some (List.replicate 64 9)⟩],
    [⟨1, List.replicate 33 8, none⟩, ⟨0, List.replicate 33 9, some (List.replicate 675 1)⟩],
    some ⟨List.replicate 32 1, List.replicate 32 2, none⟩⟩

private theorem carriedSlate_proofs : ∀ c ∈ carriedSlate.coms, ∀ p ∈ c.proof, p.length = 675 := by
  simp [carriedSlate, -List.reduceReplicate]

private theorem carriedSlate_typed : SlateTyped carriedSlate := by
  constructor <;> simp [carriedSlate, -List.reduceReplicate]

example : SlateTyped carriedSlate ∧ SlateCarried carriedSlate ∧
    (slateToJson carriedSlate >>= slateFromJson) = .ok carriedSlate := by
  have h : SlateCarried carriedSlate := by constructor <;> simp [carriedSlate, -List.reduceReplicate]
  exact ⟨carriedSlate_typed, h, (slate_json_roundtrip_iff_partial _ carriedSlate_typed).mpr h⟩

example : ∃ s : Slate, SlateTyped s ∧ s.stage ≠ .none ∧ s.features ≠ 0 ∧ s.lockHeight = 100000 ∧
    (∀ c ∈ s.coms, ∀ p ∈ c.proof, p.length = 675) :=
  ⟨{ carriedSlate with features := 2, featureArgs := some (some 100000) },
    by constructor <;> simp [carriedSlate, -List.reduceReplicate], by decide, by decide, by decide, carriedSlate_proofs⟩

example : ∃ s : Slate, SlateTyped s ∧ s.stage ≠ .none ∧ s.features = 0 ∧ s.fee.shift ≠ 0 ∧ s.fee.shift < 256 ∧
    (∀ c ∈ s.coms, ∀ p ∈ c.proof, p.length = 675) :=
  ⟨{ carriedSlate with fee := ⟨4, 1000⟩ },
    by constructor <;> simp [carriedSlate, -List.reduceReplicate], by decide, by decide, by decide, by decide, carriedSlate_proofs⟩

/-! ## Reading never goes wrong -/

private theorem bind_no_ub {α β : Type} {x : Res α} {f : α → Res β} (hx : x ≠ .ub) (hf : ∀ a, f a ≠ .ub) :
    (x >>= f) ≠ .ub := by
  intro h
  rcases (Res.bind_eq_ub).mp h with h | ⟨a, -, h⟩
  · exact hx h
  · exact hf a h

private theorem asString_no_ub (j : Json) : j.asString ≠ .ub := by cases j <;> simp [Json.asString]

private theorem get_no_ub (j : Json) (k : String) : j.get k ≠ .ub := by cases j <;> simp [Json.get]

private theorem required_no_ub {α : Type} {f : Json → Res α} (hf : ∀ j, f j ≠ .ub) (j : Json) (k : String) :
    required f j k ≠ .ub := by
  refine bind_no_ub ?_ hf
  unfold getRequired
  split
  · simp
  · refine bind_no_ub (get_no_ub j k) fun v => ?_
    split <;> simp

private theorem optional_no_ub (j : Json) (k : String) : getOptional j k ≠ .ub := by
  unfold getOptional
  split
  · simp
  · exact bind_no_ub (get_no_ub j k) fun v => by simp

private theorem optionally_no_ub {α : Type} {f : Json → Res α} (hf : ∀ j, f j ≠ .ub) (j : Json) (k : String) :
    optionally f j k ≠ .ub := by
  refine bind_no_ub (optional_no_ub j k) fun v => ?_
  cases v with
  | none => simp
  | some x => exact bind_no_ub (hf x) fun a => by simp

private theorem fromHex_no_ub (s : Bytes) : fromHex s ≠ .ub := (hex_decode_sound s).1

private theorem bytes_no_ub (n : Nat) (j : Json) : jsonBytes n j ≠ .ub := by
  unfold jsonBytes
  split
  · simp
  · refine bind_no_ub (asString_no_ub j) fun s => bind_no_ub (fromHex_no_ub s) fun b => ?_
    split <;> simp

private theorem stoull_no_ub (s : Bytes) : stoull s ≠ .ub := by
  unfold stoull
  simp only
  split
  all_goals split <;> simp

private theorem u64_no_ub (j : Json) : jsonUInt64 j ≠ .ub := by
  cases j with
  | int n => rw [jsonUInt64]; split <;> simp
  | str s => exact stoull_no_ub s
  | _ => simp [jsonUInt64]

private theorem u8_no_ub (j : Json) (k : String) (d : Nat) : jsonUInt8 j k d ≠ .ub :=
  bind_no_ub (optionally_no_ub u64_no_ub j k) fun v => by simp

private theorem readAll_no_ub {α β : Type} {f : β → Res α} (hf : ∀ j, f j ≠ .ub) (l : List β) : readAll f l ≠ .ub := by
  induction l with
  | nil => simp [readAll]
  | cons j l ih => exact bind_no_ub (hf j) fun a => bind_no_ub ih fun as => by simp

/-- **C87, any JSON.**  Reading a slate from any JSON value whatever gives a slate or throws. -/
theorem slate_from_json_no_ub (j : Json) : slateFromJson j ≠ .ub := by
  have hreq : ∀ k, getRequiredArray j k ≠ .ub := by
    intro k
    have := required_no_ub (f := fun v => (.ok v : Res Json)) (fun j => by simp) j k
    refine bind_no_ub ?_ fun v => by cases v <;> simp
    intro h
    exact this (by rw [required, h]; rfl)
  have harr : ∀ k, getArray j k ≠ .ub := by
    intro k
    refine bind_no_ub (optional_no_ub j k) fun v => ?_
    rcases v with _ | v
    · simp
    · cases v <;> simp
  have hsig : ∀ j, sigFromJson j ≠ .ub := fun j =>
    bind_no_ub (required_no_ub (bytes_no_ub _) _ _) fun _ => bind_no_ub (required_no_ub (bytes_no_ub _) _ _) fun _ =>
      bind_no_ub (optionally_no_ub (bytes_no_ub _) _ _) fun _ => by simp
  have hcom : ∀ j, comFromJson j ≠ .ub := fun j =>
    bind_no_ub (required_no_ub (bytes_no_ub _) _ _) fun _ => bind_no_ub (optionally_no_ub u64_no_ub _ _) fun _ =>
      bind_no_ub (optionally_no_ub (bytes_no_ub _) _ _) fun _ => by simp
  have hpay : ∀ j, payProofFromJson j ≠ .ub := fun j =>
    bind_no_ub (required_no_ub (bytes_no_ub _) _ _) fun _ => bind_no_ub (required_no_ub (bytes_no_ub _) _ _) fun _ =>
      bind_no_ub (optionally_no_ub (bytes_no_ub _) _ _) fun _ => by simp
  have hfee : ∀ j, feeOfJson j ≠ .ub := fun j => bind_no_ub (u64_no_ub j) fun _ => by simp
  have hver : ∀ s, versionOfText s ≠ .ub := by
    intro s
    unfold versionOfText
    split
    · exact bind_no_ub (stoull_no_ub _) fun _ => bind_no_ub (stoull_no_ub _) fun _ => by simp
    · simp
  have hsta : ∀ s, stageOfText s ≠ .ub := by
    intro s
    unfold stageOfText
    repeat' split
    all_goals simp
  have hid : ∀ s, slateId s ≠ .ub := by
    intro s
    unfold slateId
    cases uuidParse s <;> simp
  unfold slateFromJson
  exact bind_no_ub (required_no_ub asString_no_ub _ _) fun _ => bind_no_ub (hver _) fun _ =>
    bind_no_ub (required_no_ub asString_no_ub _ _) fun _ => bind_no_ub (hid _) fun _ =>
    bind_no_ub (required_no_ub asString_no_ub _ _) fun _ => bind_no_ub (hsta _) fun _ =>
    bind_no_ub (optionally_no_ub (bytes_no_ub _) _ _) fun _ => bind_no_ub (u8_no_ub _ _ _) fun _ =>
    bind_no_ub (optionally_no_ub hfee _ _) fun _ => bind_no_ub (optionally_no_ub u64_no_ub _ _) fun _ =>
    bind_no_ub (u8_no_ub _ _ _) fun _ => bind_no_ub (optionally_no_ub u64_no_ub _ _) fun _ =>
    bind_no_ub (hreq _) fun _ => bind_no_ub (readAll_no_ub hsig _) fun _ => bind_no_ub (harr _) fun _ =>
    bind_no_ub (readAll_no_ub hcom _) fun _ => bind_no_ub (optionally_no_ub hpay _ _) fun _ => by simp

/-! ## Transactions -/

/-- Spec: a transaction as the program holds one: fields of their sizes, features of inputs, outputs and kernels among
those that exist, lists sorted by hash, and signatures that have a compact form which parses back. -/
structure TxTyped (H : DigestNum) (ops : SigOps) (t : Tx) : Prop where
  offset : t.offset.length = 32
  inputs : ∀ i ∈ t.body.inputs, i.features ≤ 1 ∧ i.commit.length = 33
  outputs : ∀ o ∈ t.body.outputs, o.features ≤ 1 ∧ o.commit.length = 33
  kernels : ∀ k ∈ t.body.kernels, k.features ≤ 3 ∧ k.lockHeight < 2 ^ 64 ∧ k.excess.length = 33 ∧
    ∃ c, ops.compact k.sig = some c ∧ c.length = 64 ∧ ops.parse c = some k.sig
  sortedIn : t.body.inputs.Pairwise fun a b => inputHash H a < inputHash H b
  sortedOut : t.body.outputs.Pairwise fun a b => outputHash H a < outputHash H b
  sortedKer : t.body.kernels.Pairwise fun a b => kernelHash H a < kernelHash H b

/-- Spec: what JSON can carry.  No list is empty, range proofs have their full length, kernels are plain or locked to a
height, and fees have no shift and fit in 40 bits. -/
structure TxCarried (t : Tx) : Prop where
  inputs : t.body.inputs ≠ []
  outputs : t.body.outputs ≠ []
  kernels : t.body.kernels ≠ []
  proofs : ∀ o ∈ t.body.outputs, o.proof.length = 675
  kernel : ∀ k ∈ t.body.kernels, (k.features = 0 ∧ k.lockHeight = 0 ∨ k.features = 2) ∧ k.fee.shift = 0 ∧ k.fee.fee < 2 ^ 40

private theorem out_feat (f : Nat) (h : f ≤ 1) : outFeatOfText (outFeatText f) = .ok f := by
  rcases Nat.le_one_iff_eq_zero_or_eq_one.mp h with rfl | rfl <;> decide +kernel

private theorem input_json (i : TxInput) (h1 : i.features ≤ 1) (h2 : i.commit.length = 33) :
    inputFromJson (inputToJson i) = .ok i := by
  unfold inputFromJson inputToJson
  rw [required_obj _ _ _ (.str (outFeatText i.features)) (by simp [List.lookup]) rfl, Json.asString, Res.ok_bind,
    out_feat _ h1, Res.ok_bind, required_obj _ _ _ (.str (toHex i.commit)) (by simp [List.lookup]) rfl, json_bytes_hex,
    if_pos h2]
  rfl

private theorem output_json (o : TxOutput) (h1 : o.features ≤ 1) (h2 : o.commit.length = 33) :
    outputFromJson (outputToJson o) = if o.proof.length = 675 then .ok o else .throw := by
  unfold outputFromJson outputToJson
  rw [required_obj _ _ _ (.str (outFeatText o.features)) (by simp [List.lookup]) rfl, Json.asString, Res.ok_bind,
    out_feat _ h1, Res.ok_bind, required_obj _ _ _ (.str (toHex o.commit)) (by simp [List.lookup]) rfl, json_bytes_hex,
    if_pos h2, Res.ok_bind, required_obj _ _ _ (.str (toHex o.proof)) (by simp [List.lookup]) rfl, json_bytes_hex]
  split <;> rfl

private theorem ker_feat (f : Nat) (h : f ≤ 3) : kerFeatOfText (kerFeatText f) = .ok f := by
  have : f = 0 ∨ f = 1 ∨ f = 2 ∨ f = 3 := by omega
  rcases this with rfl | rfl | rfl | rfl <;> decide +kernel

private theorem attrs_obj (k : Kernel) (h : k.features ≠ 1) : ∃ fs, kernelAttrs k = .obj fs ∧
    fs.lookup "fee" = some (.int (feeToJSON k.fee)) ∧
    fs.lookup "lock_height" = if k.features = 2 then some (.int k.lockHeight) else none := by
  unfold kernelAttrs
  refine ⟨optField (k.features ≠ 1) "fee" (.int (feeToJSON k.fee)) ++
    optField (k.features = 2) "lock_height" (.int k.lockHeight), ?_, ?_, ?_⟩
  · simp [optField, h, Json.members]
  · simp [List.lookup_append, lookup_opt, h]
  · simp [List.lookup_append, lookup_opt]

/-- **C88, one kernel.**  A kernel that is plain or locked to a height is read back with its fee as a bare number, and
without its lock height if it is plain; coinbase kernels and kernels that must not be repeated are not read back. -/
theorem kernel_json_outcome (ops : SigOps) (k : Kernel) (c : Bytes) (h1 : k.features ≤ 3) (h2 : k.lockHeight < 2 ^ 64)
    (h3 : k.excess.length = 33) (h4 : ops.compact k.sig = some c) (h5 : c.length = 64) (h6 : ops.parse c = some k.sig) :
    (kernelToJson ops k >>= kernelFromJson ops) =
      if k.features = 0 then .ok { k with fee := ⟨0, feeToJSON k.fee⟩, lockHeight := 0 }
      else if k.features = 2 then .ok { k with fee := ⟨0, feeToJSON k.fee⟩ }
      else .throw := by
  unfold kernelToJson
  rw [h4]
  simp only [Res.ok_bind]
  have hf : getRequired (.obj [("features", .obj [(kerFeatText k.features, kernelAttrs k)]),
      ("excess", .str (toHex k.excess)), ("excess_sig", .str (toHex c))]) "features" =
      .ok (.obj [(kerFeatText k.features, kernelAttrs k)]) := by
    simp [getRequired, Json.isNull, Json.get]
  have hn : firstName (.obj [(kerFeatText k.features, kernelAttrs k)]) = .ok (kerFeatText k.features) := rfl
  have hg : (Json.obj [(kerFeatText k.features, kernelAttrs k)]).get (kerFeatText k.features) = .ok (kernelAttrs k) := by
    simp [Json.get]
  have hsig : required (jsonSignature ops) (.obj [("features", .obj [(kerFeatText k.features, kernelAttrs k)]),
      ("excess", .str (toHex k.excess)), ("excess_sig", .str (toHex c))]) "excess_sig" = .ok k.sig := by
    rw [required_obj _ _ _ (.str (toHex c)) (by simp [List.lookup]) rfl, jsonSignature, json_bytes_hex, if_pos h5,
      Res.ok_bind, h6]
  have hexc : required (jsonBytes 33) (.obj [("features", .obj [(kerFeatText k.features, kernelAttrs k)]),
      ("excess", .str (toHex k.excess)), ("excess_sig", .str (toHex c))]) "excess" = .ok k.excess := by
    rw [required_obj _ _ _ (.str (toHex k.excess)) (by simp [List.lookup]) rfl, json_bytes_hex, if_pos h3]
  unfold kernelFromJson
  rw [hf, Res.ok_bind, hn, Res.ok_bind, ker_feat _ h1, Res.ok_bind, hg, Res.ok_bind]
  by_cases hc : k.features = 1
  · have ha : kernelAttrs k = .null := by simp [kernelAttrs, optField, hc, Json.members]
    have hz : optionally feeOfJson .null "fee" = .throw := rfl
    rw [ha, hz, hc]
    rfl
  · obtain ⟨fs, e1, e2, e3⟩ := attrs_obj k hc
    have hfee : optionally feeOfJson (.obj fs) "fee" = .ok (some ⟨0, feeToJSON k.fee⟩) := by
      rw [optionally_obj _ _ _ _ e2 rfl, feeOfJson, json_nat_int _ (fee_json_lt _)]
      rfl
    rw [e1] at hexc hsig ⊢
    rw [hfee, Res.ok_bind]
    by_cases hl : k.features = 2
    · rw [if_pos hl] at e3
      rw [optionally_obj _ _ _ _ e3 rfl, json_nat_int _ h2, hexc, hsig]
      simp [hl]
    · rw [if_neg hl] at e3
      rw [optionally_none _ _ _ e3, hexc, hsig]
      have : k.features = 0 ∨ k.features = 3 := by omega
      rcases this with h | h <;> simp [h]

private theorem readAll_ok {α β : Type} (f : α → Res β) (l : List α) (r : List β) :
    readAll f l = .ok r ↔ List.Forall₂ (fun a b => f a = .ok b) l r := by
  induction l generalizing r with
  | nil =>
    rw [readAll]
    constructor
    · intro h; cases h; exact .nil
    · intro h; cases h; rfl
  | cons a l ih =>
    rw [readAll]
    constructor
    · intro h
      obtain ⟨b, h1, h⟩ := (Res.bind_eq_ok).mp h
      obtain ⟨bs, h2, h⟩ := (Res.bind_eq_ok).mp h
      cases h
      exact .cons h1 ((ih bs).mp h2)
    · intro h
      cases h with
      | cons h1 h2 => rw [h1, Res.ok_bind, (ih _).mpr h2]; rfl

private def kernelJson (ops : SigOps) (k : Kernel) : Json :=
  match kernelToJson ops k with
  | .ok j => j
  | _ => .null

private def kernelRead (k : Kernel) : Kernel :=
  { k with fee := ⟨0, feeToJSON k.fee⟩, lockHeight := if k.features = 2 then k.lockHeight else 0 }

private theorem tx_json_body (H : DigestNum) (ops : SigOps) (t : Tx) (ht : TxTyped H ops t) :
    (txToJson ops t >>= txFromJson H ops) = (do
      let _ ← (if t.body.inputs = [] then (.throw : Res Unit) else .ok ())
      let _ ← (if t.body.outputs = [] then (.throw : Res Unit) else .ok ())
      let outs ← readAll (fun o : TxOutput => if o.proof.length = 675 then .ok o else .throw) t.body.outputs
      let _ ← (if t.body.kernels = [] then (.throw : Res Unit) else .ok ())
      let kers ← readAll (fun k : Kernel => if k.features = 0 ∨ k.features = 2 then .ok (kernelRead k) else .throw)
        t.body.kernels
      return ⟨t.offset, t.body.inputs, sortByHash (outputHash H) outs, sortByHash (kernelHash H) kers⟩) := by
  have hk : ∀ k ∈ t.body.kernels, kernelToJson ops k = .ok (kernelJson ops k) := by
    intro k hk
    obtain ⟨-, -, -, c, h4, -⟩ := ht.kernels k hk
    unfold kernelJson kernelToJson
    rw [h4]
  have hks : ∀ l : List Kernel, (∀ k ∈ l, kernelToJson ops k = .ok (kernelJson ops k)) →
      readAll (kernelToJson ops) l = .ok (l.map (kernelJson ops)) := by
    intro l
    induction l with
    | nil => intro _; rfl
    | cons k l ih =>
      intro h
      rw [readAll, h k (by simp), Res.ok_bind, ih (fun x hx => h x (by simp [hx]))]
      rfl
  have hkr : ∀ k ∈ t.body.kernels, kernelFromJson ops (kernelJson ops k) =
      if k.features = 0 ∨ k.features = 2 then .ok (kernelRead k) else .throw := by
    intro k hkm
    obtain ⟨h1, h2, h3, c, h4, h5, h6⟩ := ht.kernels k hkm
    have := kernel_json_outcome ops k c h1 h2 h3 h4 h5 h6
    rw [hk k hkm, Res.ok_bind] at this
    rw [this]
    unfold kernelRead
    by_cases a : k.features = 0
    · simp [a]
    · by_cases b : k.features = 2
      · simp [b]
      · simp [a, b]
  have hcongr : ∀ {α β γ : Type} (f : β → Res γ) (g : α → β) (e : α → Res γ) (l : List α), (∀ a ∈ l, f (g a) = e a) →
      readAll f (l.map g) = readAll e l := by
    intro α β γ f g e l
    induction l with
    | nil => intro _; rfl
    | cons a l ih =>
      intro h
      rw [List.map_cons, readAll, h a (by simp), ih (fun x hx => h x (by simp [hx])), readAll]
  have hin : readAll inputFromJson (t.body.inputs.map inputToJson) = .ok t.body.inputs := by
    have := readAll_map inputFromJson inputToJson id t.body.inputs
      (fun i hi => input_json i (ht.inputs i hi).1 (ht.inputs i hi).2)
    simpa using this
  have hout := hcongr outputFromJson outputToJson (fun o => if o.proof.length = 675 then .ok o else .throw) t.body.outputs
    (fun o ho => output_json o (ht.outputs o ho).1 (ht.outputs o ho).2)
  have hker := hcongr (kernelFromJson ops) (kernelJson ops)
    (fun k => if k.features = 0 ∨ k.features = 2 then .ok (kernelRead k) else .throw) t.body.kernels hkr
  have hel : ∀ {α : Type} (l : List α) (g : α → Json) (fs : List (String × Json)) (key : String),
      fs.lookup key = some (Json.elements (l.map g)) →
      getRequired (.obj fs) key = if l = [] then .throw else .ok (.arr (l.map g)) := by
    intro α l g fs key h
    cases l with
    | nil => simp [getRequired, Json.isNull, Json.get, h, Json.elements]
    | cons a l => simp [getRequired, Json.isNull, Json.get, h, Json.elements]
  unfold txToJson bodyToJson
  rw [hks _ hk, Res.ok_bind, Res.pure_eq, Res.ok_bind, Res.pure_eq, Res.ok_bind]
  unfold txFromJson
  rw [required_obj _ _ _ (.str (toHex t.offset)) (by simp [List.lookup]) rfl, json_bytes_hex, if_pos ht.offset, Res.ok_bind]
  have hb : ∀ x y, getRequired (.obj [("offset", x), ("body", .obj y)]) "body" = .ok (.obj y) := by
    intro x y; simp [getRequired, Json.isNull, Json.get, List.lookup]
  rw [hb, Res.ok_bind]
  unfold bodyFromJson
  rw [hel t.body.inputs inputToJson _ "inputs" (by simp [List.lookup]),
    hel t.body.outputs outputToJson _ "outputs" (by simp [List.lookup]),
    hel t.body.kernels (kernelJson ops) _ "kernels" (by simp [List.lookup])]
  by_cases h1 : t.body.inputs = []
  · rw [if_pos h1, if_pos h1]; rfl
  rw [if_neg h1, if_neg h1, Res.ok_bind, Res.ok_bind, indexed, Res.ok_bind, hin, Res.ok_bind]
  by_cases h2 : t.body.outputs = []
  · rw [if_pos h2, if_pos h2]; rfl
  rw [if_neg h2, if_neg h2, Res.ok_bind, Res.ok_bind, indexed, Res.ok_bind, hout]
  cases readAll (fun o : TxOutput => if o.proof.length = 675 then Res.ok o else .throw) t.body.outputs with
  | throw => rfl
  | ub => rfl
  | ok outs =>
    rw [Res.ok_bind, Res.ok_bind]
    by_cases h3 : t.body.kernels = []
    · rw [if_pos h3, if_pos h3]; rfl
    rw [if_neg h3, if_neg h3, Res.ok_bind, Res.ok_bind, indexed, Res.ok_bind, hker]
    cases readAll (fun k : Kernel => if k.features = 0 ∨ k.features = 2 then Res.ok (kernelRead k) else .throw)
        t.body.kernels with
    | throw => rfl
    | ub => rfl
    | ok kers =>
      rw [Res.ok_bind, Res.ok_bind, Res.pure_eq, Res.ok_bind, sortByHash_of_sorted ht.sortedIn]

private theorem fee_json_small (f : Fee) (h : f.shift = 0) : feeToJSON f < 2 ^ 40 := by
  have h1 : f.fee >>> 32 = f.fee / 2 ^ 32 := Nat.shiftRight_eq_div_pow _ _
  have h2 : f.fee &&& 0xffffffff = f.fee % 2 ^ 32 := Nat.and_two_pow_sub_one_eq_mod f.fee 32
  unfold feeToJSON feeSer
  rw [h, h1, h2]
  simp [beBytes, beVal]
  omega

private theorem sortByHash_perm {α : Type} (h : α → Nat) (l : List α) : (sortByHash h l).Perm l :=
  List.mergeSort_perm _ _

/-- **C88, partial.**  Writing a transaction as JSON and reading it gives the same transaction exactly when JSON can carry
it (`TxCarried`).  The full claim, for every transaction, is false: see `tx_json_violated_fee`,
`kernel_json_violated_nrd` and `tx_json_violated_empty`. -/
theorem tx_json_roundtrip_iff_partial (H : DigestNum) (ops : SigOps) (t : Tx) (ht : TxTyped H ops t) :
    (txToJson ops t >>= txFromJson H ops) = .ok t ↔ TxCarried t := by
  rw [tx_json_body H ops t ht]
  constructor
  · intro h
    obtain ⟨_, h1, h⟩ := (Res.bind_eq_ok).mp h
    obtain ⟨_, h2, h⟩ := (Res.bind_eq_ok).mp h
    obtain ⟨outs, h3, h⟩ := (Res.bind_eq_ok).mp h
    obtain ⟨_, h4, h⟩ := (Res.bind_eq_ok).mp h
    obtain ⟨kers, h5, h⟩ := (Res.bind_eq_ok).mp h
    have hne : ∀ {α : Type} {l : List α} {u : Unit}, (if l = [] then (.throw : Res Unit) else .ok ()) = .ok u → l ≠ [] := by
      intro α l u hh e
      rw [if_pos e] at hh; cases hh
    have h3' := (readAll_ok _ _ _).mp h3
    have h5' := (readAll_ok _ _ _).mp h5
    have he : (⟨t.offset, t.body.inputs, sortByHash (outputHash H) outs, sortByHash (kernelHash H) kers⟩ : Tx) = t := by
      injection h
    have hker : sortByHash (kernelHash H) kers = t.body.kernels := congrArg (fun t : Tx => t.body.kernels) he
    have hperm : kers.Perm t.body.kernels := hker ▸ (sortByHash_perm (kernelHash H) kers).symm
    have himg : ∀ k ∈ kers, ∃ k0 ∈ t.body.kernels, (k0.features = 0 ∨ k0.features = 2) ∧ k = kernelRead k0 := by
      intro k hk
      obtain ⟨i, hi, rfl⟩ := List.getElem_of_mem hk
      have hi0 : i < t.body.kernels.length := by rw [h5'.length_eq]; exact hi
      have := (List.forall₂_iff_get.mp h5').2 i hi0 hi
      refine ⟨t.body.kernels[i], List.getElem_mem hi0, ?_⟩
      simp only [List.get_eq_getElem] at this
      by_cases hf : t.body.kernels[i].features = 0 ∨ t.body.kernels[i].features = 2
      · rw [if_pos hf] at this
        injection this with this
        exact ⟨hf, this.symm⟩
      · rw [if_neg hf] at this; cases this
    refine ⟨hne h1, hne h2, hne h4, ?_, ?_⟩
    · intro o ho
      obtain ⟨i, hi, rfl⟩ := List.getElem_of_mem ho
      have hi0 : i < outs.length := by rw [← h3'.length_eq]; exact hi
      have := (List.forall₂_iff_get.mp h3').2 i hi hi0
      simp only [List.get_eq_getElem] at this
      apply Classical.byContradiction
      intro hn
      rw [if_neg hn] at this; cases this
    · have hshift : ∀ k ∈ t.body.kernels, k.fee.shift = 0 := by
        intro k hk
        obtain ⟨k0, -, -, rfl⟩ := himg k (hperm.mem_iff.mpr hk)
        rfl
      intro k hk
      obtain ⟨k0, hk0, hf, rfl⟩ := himg k (hperm.mem_iff.mpr hk)
      refine ⟨?_, rfl, fee_json_small k0.fee (hshift k0 hk0)⟩
      rcases hf with hf | hf
      · refine .inl ⟨hf, ?_⟩
        simp [kernelRead, hf]
      · exact .inr hf
  · intro hc
    have ho : readAll (fun o : TxOutput => if o.proof.length = 675 then Res.ok o else .throw) t.body.outputs =
        .ok t.body.outputs := by
      rw [readAll_ok]
      exact List.forall₂_same.mpr fun o ho => by rw [if_pos (hc.proofs o ho)]
    have hk : readAll (fun k : Kernel => if k.features = 0 ∨ k.features = 2 then Res.ok (kernelRead k) else .throw)
        t.body.kernels = .ok t.body.kernels := by
      rw [readAll_ok]
      refine List.forall₂_same.mpr fun k hk => ?_
      obtain ⟨h1, h2, h3⟩ := hc.kernel k hk
      have hfee : (⟨0, feeToJSON k.fee⟩ : Fee) = k.fee := fee_json_roundtrip_partial k.fee h2 h3
      rw [if_pos (h1.imp And.left id), kernelRead, hfee]
      rcases h1 with ⟨h1, h4⟩ | h1
      · obtain ⟨f, fee, l, e, g⟩ := k
        simp only at h1 h4
        simp [h1, h4]
      · obtain ⟨f, fee, l, e, g⟩ := k
        simp only at h1
        simp [h1]
    rw [if_neg hc.inputs, if_neg hc.outputs, if_neg hc.kernels, ho, hk]
    simp only [Res.ok_bind, Res.pure_eq]
    rw [sortByHash_of_sorted ht.sortedOut, sortByHash_of_sorted ht.sortedKer]

/-- **C88 is violated** for fees with a shift: the kernel read back has another fee, of at least `2 ^ 40`, so its signature
no longer covers what it says. -/
theorem tx_json_violated_fee (ops : SigOps) (k : Kernel) (c : Bytes) (h1 : k.features = 0 ∨ k.features = 2)
    (h2 : k.lockHeight < 2 ^ 64) (h3 : k.excess.length = 33) (h4 : ops.compact k.sig = some c) (h5 : c.length = 64)
    (h6 : ops.parse c = some k.sig) (h7 : k.fee.shift ≠ 0) (h8 : k.fee.shift < 256) :
    ∃ r, (kernelToJson ops k >>= kernelFromJson ops) = .ok r ∧ r.fee.shift = 0 ∧ r.fee.fee ≥ 2 ^ 40 := by
  have hge : feeToJSON k.fee ≥ 2 ^ 40 := by
    unfold feeToJSON feeSer
    have h3 : k.fee.shift % 256 = k.fee.shift := Nat.mod_eq_of_lt h8
    simp [beBytes, beVal]
    omega
  rw [kernel_json_outcome ops k c (by omega) h2 h3 h4 h5 h6]
  rcases h1 with h1 | h1
  · rw [if_pos h1]; exact ⟨_, rfl, rfl, hge⟩
  · rw [if_neg (by omega), if_pos h1]; exact ⟨_, rfl, rfl, hge⟩

/-- **C88 is violated** for kernels that must not be repeated, and for coinbase kernels: none can be read back. -/
theorem kernel_json_violated_nrd (ops : SigOps) (k : Kernel) (c : Bytes) (h1 : k.features = 3 ∨ k.features = 1)
    (h2 : k.lockHeight < 2 ^ 64) (h3 : k.excess.length = 33) (h4 : ops.compact k.sig = some c) (h5 : c.length = 64)
    (h6 : ops.parse c = some k.sig) : (kernelToJson ops k >>= kernelFromJson ops) = .throw := by
  rw [kernel_json_outcome ops k c (by omega) h2 h3 h4 h5 h6, if_neg (by omega), if_neg (by omega)]

/-- **C88 is violated** for transactions without inputs, without outputs or without kernels: none can be read back. -/
theorem tx_json_violated_empty (H : DigestNum) (ops : SigOps) (t : Tx) (ht : TxTyped H ops t)
    (he : t.body.inputs = [] ∨ t.body.outputs = [] ∨ t.body.kernels = []) :
    ∀ r, (txToJson ops t >>= txFromJson H ops) ≠ .ok r := by
  intro r h
  rw [tx_json_body H ops t ht] at h
  obtain ⟨_, h1, h⟩ := (Res.bind_eq_ok).mp h
  obtain ⟨_, h2, h⟩ := (Res.bind_eq_ok).mp h
  obtain ⟨outs, h3, h⟩ := (Res.bind_eq_ok).mp h
  obtain ⟨_, h4, h⟩ := (Res.bind_eq_ok).mp h
  rcases he with e | e | e
  · rw [if_pos e] at h1; cases h1
  · rw [if_pos e] at h2; cases h2
  · rw [if_pos e] at h4; cases h4

/-- **C88 is violated** for JSON from outside: a kernel whose features have no member, or whose signature does not parse,
makes the program take the first element of an empty vector, whatever the rest of the transaction is. -/
theorem kernel_from_json_violated_ub (ops : SigOps) :
    (∀ rest, kernelFromJson ops (.obj (("features", .obj []) :: rest)) = .ub) ∧
    (∀ sig : Bytes, sig.length = 64 → ops.parse sig = none → ∀ excess : Bytes, excess.length = 33 →
      kernelFromJson ops (.obj [("features", .obj [("Plain", .obj [("fee", .int 7)])]), ("excess", .str (toHex excess)),
        ("excess_sig", .str (toHex sig))]) = .ub) := by
  constructor
  · intro rest
    have : getRequired (.obj (("features", .obj []) :: rest)) "features" = .ok (.obj []) := by
      simp [getRequired, Json.isNull, Json.get]
    unfold kernelFromJson
    rw [this, Res.ok_bind]
    rfl
  · intro sig hs hp excess he
    generalize hj : [("features", Json.obj [("Plain", .obj [("fee", .int 7)])]), ("excess", .str (toHex excess)),
        ("excess_sig", .str (toHex sig))] = fs
    have h1 : getRequired (.obj fs) "features" = .ok (.obj [("Plain", .obj [("fee", .int 7)])]) := by
      subst hj; simp [getRequired, Json.isNull, Json.get]
    have h2 : required (jsonBytes 33) (.obj fs) "excess" = .ok excess := by
      rw [required_obj _ _ _ (.str (toHex excess)) (by subst hj; simp [List.lookup]) rfl, json_bytes_hex, if_pos he]
    have h3 : required (jsonSignature ops) (.obj fs) "excess_sig" = .ub := by
      rw [required_obj _ _ _ (.str (toHex sig)) (by subst hj; simp [List.lookup]) rfl, jsonSignature, json_bytes_hex,
        if_pos hs, Res.ok_bind, hp]
    have h4 : jsonUInt64 (.int 7) = .ok 7 := json_nat_int 7 (by decide)
    have h5 : optionally feeOfJson (.obj [("fee", .int 7)]) "fee" = .ok (some ⟨0, 7⟩) := by
      rw [optionally_obj _ _ _ (.int 7) (by simp) rfl, feeOfJson, h4]; rfl
    unfold kernelFromJson
    rw [h1, Res.ok_bind, show firstName (.obj [("Plain", .obj [("fee", .int 7)])]) = .ok "Plain" from rfl, Res.ok_bind,
      show kerFeatOfText "Plain" = .ok 0 from by decide +kernel, Res.ok_bind,
      show (Json.obj [("Plain", .obj [("fee", .int 7)])]).get "Plain" = .ok (.obj [("fee", .int 7)]) from by simp [Json.get],
      Res.ok_bind, h5, Res.ok_bind, optionally_none _ _ _ (by simp [List.lookup]), Res.ok_bind, h2, Res.ok_bind, h3]
    rfl

/-- **C88, any JSON, partial.**  Reading a transaction from any JSON value whose kernels have features with a member, and
signatures that parse, gives a transaction or throws; without those conditions see `kernel_from_json_violated_ub`. -/
theorem tx_from_json_no_ub_partial (H : DigestNum) (ops : SigOps) (j : Json)
    (hp : ∀ c : Bytes, c.length = 64 → ops.parse c ≠ none)
    (hk : ∀ b l k f, getRequired j "body" = .ok b → getRequired b "kernels" = .ok (.arr l) → k ∈ l →
      getRequired k "features" = .ok f → f ≠ .obj []) :
    txFromJson H ops j ≠ .ub := by
  have hreq : ∀ j k, getRequired j k ≠ .ub := by
    intro j k h
    exact required_no_ub (f := fun v => (.ok v : Res Json)) (fun j => by simp) j k (by rw [required, h]; rfl)
  have hreqn : ∀ {j k v}, getRequired j k = .ok v → v ≠ .null := by
    intro j k v h e
    subst e
    unfold getRequired at h
    split at h
    · cases h
    · obtain ⟨x, -, h⟩ := (Res.bind_eq_ok).mp h
      split at h
      · cases h
      · rename_i hx
        cases h
        exact hx rfl
  have hidx : ∀ j, indexed j ≠ .ub := by
    intro j
    unfold indexed
    split <;> simp
  have hfeat : ∀ s, outFeatOfText s ≠ .ub := by
    intro s
    unfold outFeatOfText
    repeat' split
    all_goals simp
  have hin : ∀ j, inputFromJson j ≠ .ub := fun j =>
    bind_no_ub (required_no_ub asString_no_ub _ _) fun _ => bind_no_ub (hfeat _) fun _ =>
      bind_no_ub (required_no_ub (bytes_no_ub _) _ _) fun _ => by simp
  have hout : ∀ j, outputFromJson j ≠ .ub := fun j =>
    bind_no_ub (required_no_ub asString_no_ub _ _) fun _ => bind_no_ub (hfeat _) fun _ =>
      bind_no_ub (required_no_ub (bytes_no_ub _) _ _) fun _ => bind_no_ub (required_no_ub (bytes_no_ub _) _ _) fun _ => by
        simp
  have hsig : ∀ j, jsonSignature ops j ≠ .ub := by
    intro j h
    unfold jsonSignature at h
    rcases (Res.bind_eq_ub).mp h with h | ⟨c, hc, h⟩
    · exact bytes_no_ub _ _ h
    · have hl : c.length = 64 := by
        unfold jsonBytes at hc
        split at hc
        · cases hc
        · obtain ⟨s, -, hc⟩ := (Res.bind_eq_ok).mp hc
          obtain ⟨b, -, hc⟩ := (Res.bind_eq_ok).mp hc
          split at hc
          · injection hc with hc; rw [← hc]; assumption
          · cases hc
      cases hx : ops.parse c with
      | none => exact hp c hl hx
      | some s => rw [hx] at h; cases h
  have hkf : ∀ s, kerFeatOfText s ≠ .ub := by
    intro s
    unfold kerFeatOfText
    repeat' split
    all_goals simp
  have hfee : ∀ j, feeOfJson j ≠ .ub := fun j => bind_no_ub (u64_no_ub j) fun _ => by simp
  have hker : ∀ k, (∀ f, getRequired k "features" = .ok f → f ≠ .obj []) → kernelFromJson ops k ≠ .ub := by
    intro k hf h
    unfold kernelFromJson at h
    rcases (Res.bind_eq_ub).mp h with h | ⟨f, h1, h⟩
    · exact hreq _ _ h
    · rcases (Res.bind_eq_ub).mp h with h | ⟨n, -, h⟩
      · have hfn := hf f h1
        have hnn := hreqn h1
        cases f with
        | null => exact hnn rfl
        | obj l =>
          cases l with
          | nil => exact hfn rfl
          | cons a l =>
            simp only [firstName, List.map_cons, leastName] at h
            cases hl : leastName (l.map Prod.fst) with
            | none => rw [hl] at h; cases h
            | some m =>
              rw [hl] at h
              by_cases hm : m < a.1
              · simp only [if_pos hm] at h; cases h
              · simp only [if_neg hm] at h; cases h
        | _ => simp [firstName] at h
      · refine absurd h (bind_no_ub (hkf _) fun _ => bind_no_ub (get_no_ub _ _) fun _ =>
          bind_no_ub (optionally_no_ub hfee _ _) fun _ => bind_no_ub (optionally_no_ub u64_no_ub _ _) fun _ =>
          bind_no_ub (required_no_ub (bytes_no_ub _) _ _) fun _ => bind_no_ub (required_no_ub hsig _ _) fun _ => ?_)
        split <;> simp
  have hall : ∀ l : List Json, (∀ k ∈ l, kernelFromJson ops k ≠ .ub) → readAll (kernelFromJson ops) l ≠ .ub := by
    intro l
    induction l with
    | nil => intro _; simp [readAll]
    | cons k l ih =>
      intro h
      exact bind_no_ub (h k (by simp)) fun a => bind_no_ub (ih fun x hx => h x (by simp [hx])) fun as => by simp
  unfold txFromJson
  refine bind_no_ub (required_no_ub (bytes_no_ub _) _ _) fun off => ?_
  intro h
  rcases (Res.bind_eq_ub).mp h with h | ⟨b, hb, h⟩
  · exact hreq _ _ h
  rcases (Res.bind_eq_ub).mp h with h | ⟨_, -, h⟩
  · unfold bodyFromJson at h
    refine absurd h (bind_no_ub (hreq _ _) fun _ => bind_no_ub (hidx _) fun _ => bind_no_ub (readAll_no_ub hin _) fun _ =>
      bind_no_ub (hreq _ _) fun _ => bind_no_ub (hidx _) fun _ => bind_no_ub (readAll_no_ub hout _) fun _ => ?_)
    intro h
    rcases (Res.bind_eq_ub).mp h with h | ⟨kj, hkj, h⟩
    · exact hreq _ _ h
    rcases (Res.bind_eq_ub).mp h with h | ⟨l, hl, h⟩
    · exact hidx _ h
    have : ∀ k ∈ l, kernelFromJson ops k ≠ .ub := by
      intro k hkl
      apply hker
      intro f hf
      have hkj2 : kj = .arr l := by
        unfold indexed at hl
        split at hl
        · injection hl with hl; rw [hl]
        · cases hl
        · injection hl with hl; rw [← hl] at hkl; simp at hkl
      exact hk b l k f hb (hkj2 ▸ hkj) hkl hf
    exact absurd h (bind_no_ub (hall l this) fun _ => by simp)
  · simp at h

private def jsonOps : SigOps := ⟨fun c => some c, fun s => if s.length = 64 then some s else none⟩

private def jsonTx : Tx :=
  ⟨List.replicate 32 1, [⟨0, List.replicate 33 8⟩], [⟨1, List.replicate 33 9, List.replicate 675 1⟩],
    [⟨2, ⟨0, 7000⟩, 123456, List.replicate 33 4, List.replicate 64 5⟩]⟩

private theorem jsonTx_typed (H : DigestNum) : TxTyped H jsonOps jsonTx := by
  constructor <;> simp [jsonTx, jsonOps, -List.reduceReplicate]

example (H : DigestNum) : TxTyped H jsonOps jsonTx ∧ TxCarried jsonTx ∧
    (txToJson jsonOps jsonTx >>= txFromJson H jsonOps) = .ok jsonTx := by
  have h : TxCarried jsonTx := by constructor <;> simp [jsonTx, -List.reduceReplicate]
  exact ⟨jsonTx_typed H, h, (tx_json_roundtrip_iff_partial H _ _ (jsonTx_typed H)).mpr h⟩

example (H : DigestNum) : ∃ t : Tx, TxTyped H jsonOps t ∧ t.body.inputs = [] ∧ t.body.kernels ≠ [] :=
  ⟨⟨List.replicate 32 1, [], jsonTx.body.outputs, jsonTx.body.kernels⟩,
    by constructor <;> simp [jsonTx, jsonOps, -List.reduceReplicate], rfl, by simp [jsonTx, -List.reduceReplicate]⟩

example : ∃ (k : Kernel) (c : Bytes), k.features = 0 ∧ k.lockHeight < 2 ^ 64 ∧ k.excess.length = 33 ∧
    jsonOps.compact k.sig = some c ∧ c.length = 64 ∧ jsonOps.parse c = some k.sig ∧ k.fee.shift = 3 :=
  ⟨⟨0, ⟨3, 7000⟩, 0, List.replicate 33 4, List.replicate 64 5⟩, List.replicate 64 5, by decide, by decide, by decide,
    by decide, by decide, by decide, by decide⟩

/-! ## Numbers that are not -/

/-- **C89, what is accepted.**  A JSON integer is read as itself if it fits 64 bits and refused otherwise; a decimal text
of a number that fits is read as that number, whatever follows its digits. -/
theorem json_number_read (n : Nat) (h : n < 2 ^ 64) :
    jsonUInt64 (.int n) = .ok n ∧ jsonUInt64 (.str (decStr n)) = .ok n ∧
    ∀ rest : Bytes, (∀ c ∈ rest.head?, isDigit c = false) → jsonUInt64 (.str (decStr n ++ rest)) = .ok n :=
  ⟨json_nat_int n h, json_nat_text n h, fun rest hr => stoull_dec n h rest hr⟩

/-- **C89, what is refused.**  Integers out of range, texts of numbers out of range, texts that start with neither space,
sign nor digit, and everything that is neither integer nor text. -/
theorem json_number_refused :
    (∀ n : Int, n < 0 ∨ n ≥ 2 ^ 64 → jsonUInt64 (.int n) = .throw) ∧
    (∀ n : Nat, n ≥ 2 ^ 64 → jsonUInt64 (.str (decStr n)) = .throw) ∧
    (∀ s : Bytes, (∀ c ∈ s.head?, isSpace c = false ∧ isDigit c = false ∧ c ≠ 45 ∧ c ≠ 43) → jsonUInt64 (.str s) = .throw) ∧
    (∀ b, jsonUInt64 (.bool b) = .throw) ∧ jsonUInt64 .null = .throw ∧ (∀ l, jsonUInt64 (.arr l) = .throw) ∧
    (∀ l, jsonUInt64 (.obj l) = .throw) := by
  refine ⟨?_, ?_, ?_, fun _ => rfl, rfl, fun _ => rfl, fun _ => rfl⟩
  · intro n h
    rw [jsonUInt64, if_neg (by omega)]
  · intro n h
    obtain ⟨c, cs, e, hc⟩ := dec_head n
    obtain ⟨h1, h2, h3⟩ := decStr_facts n
    have hp := digit_plain c hc
    have hd : (decStr n).dropWhile isSpace = decStr n := by
      apply dropWhile_head; rw [e]; intro x hx
      simp only [List.head?_cons, Option.mem_some_iff] at hx
      rw [← hx]; exact hp.1
    have hh : (decStr n).head? = some c := by rw [e]; rfl
    have e45 : ¬ (some c = some (45 : UInt8)) := fun x => hp.2.1 (Option.some.inj x)
    have e43 : ¬ (some c = some (43 : UInt8)) := fun x => hp.2.2.1 (Option.some.inj x)
    have ht := takeWhile_all h2 [] (by simp)
    rw [List.append_nil] at ht
    unfold jsonUInt64 stoull
    simp only [hd, hh, e45, e43, or_self, if_false]
    rw [ht, h3, if_pos (.inr h)]
  · intro s h
    have hd : s.dropWhile isSpace = s := by
      apply dropWhile_head
      intro x hx; exact (h x hx).1
    unfold jsonUInt64 stoull
    simp only [hd]
    cases s with
    | nil => simp
    | cons c s =>
      obtain ⟨-, a, b, d⟩ := h c rfl
      simp [a, b, d]

/-- **C89 is violated.**  A negative number in quotes is read as one near `2 ^ 64`; text after the digits is dropped; an
eight-bit field keeps only the low eight bits of what it is given. -/
theorem json_number_violated :
    (∀ n : Nat, 0 < n → n < 2 ^ 64 → jsonUInt64 (.str (45 :: decStr n)) = .ok (2 ^ 64 - n)) ∧
    jsonUInt64 (.str (str "12abc")) = .ok 12 ∧ jsonUInt64 (.str (str "1.5")) = .ok 1 ∧
    (∀ n d : Nat, n < 2 ^ 64 → jsonUInt8 (.obj [("num_parts", .str (decStr n))]) "num_parts" d = .ok (n % 256)) := by
  refine ⟨?_, by decide +kernel, by decide +kernel, ?_⟩
  · intro n h0 h
    obtain ⟨h1, h2, h3⟩ := decStr_facts n
    have hd : (45 :: decStr n).dropWhile isSpace = 45 :: decStr n := by
      apply dropWhile_head; intro x hx
      simp only [List.head?_cons, Option.mem_some_iff] at hx
      rw [← hx]; decide
    have ht := takeWhile_all h2 [] (by simp)
    rw [List.append_nil] at ht
    unfold jsonUInt64 stoull
    simp only [hd, List.head?_cons, true_or, if_true, List.drop_one, List.tail_cons, ht, h3]
    rw [if_neg (fun x => x.elim h1 (fun y => by omega)), Nat.mod_eq_of_lt (by omega)]
  · intro n d h
    unfold jsonUInt8
    rw [optionally_obj _ _ _ (.str (decStr n)) (by simp) rfl, json_nat_text n h]
    rfl

example : jsonUInt64 (.str (str "-1")) = .ok 18446744073709551615 := by decide +kernel

example : jsonUInt8 (.obj [("num_parts", .str (str "258"))]) "num_parts" 2 = .ok 2 := by decide +kernel

end Verif.Props
