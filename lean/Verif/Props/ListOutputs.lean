import Verif.Wallet.ListOutputs
import Verif.Props.Requests
import Verif.Props.Wallet
import Mathlib.Data.List.Forall2

/-!
# C129: the outputs listed and the balance shown
-/
namespace Verif.Props
open Verif Verif.Codec Verif.Wallet Verif.PoW

/-! ## Spec -/

/-- The parts of a stored output have the sizes of their types, its status is one there is, and the indices of its path are not hardened. -/
structure OutputFits (o : OutputRecord) : Prop where
  path : ∀ i ∈ o.path, i < 2 ^ 31
  commit : o.output.commit.length = 33
  amount : o.amount < 2 ^ 64
  status : o.status ≤ 5
  mmr : ∀ n ∈ o.mmrIndex, n < 2 ^ 64
  height : ∀ n ∈ o.height, n < 2 ^ 64
  txId : ∀ n ∈ o.txId, n < 2 ^ 32

/-- A member of a JSON object. -/
def Json.member (j : Json) (key : String) : Option Json :=
  match j with
  | .obj fs => fs.lookup key
  | _ => none

/-- The number a line of the list has as its amount. -/
def amountOf (j : Json) : Nat :=
  match Json.member j "amount" with
  | some (.int n) => n.toNat
  | _ => 0

/-- The text a line of the list has as its status. -/
def listedStatus (j : Json) : Option Bytes :=
  match Json.member j "status" with
  | some (.str t) => some t
  | _ => none

/-- The sum of the amounts of the lines with this status. -/
def sumListed (lines : List Json) (status : String) : Nat :=
  ((lines.filter fun j => listedStatus j = some (str status)).map amountOf).sum

/-- What the wallet still counts: neither spent nor canceled. -/
def heldOutputs (l : List OutputRecord) : List OutputRecord := l.filter fun o => o.status ≠ SPENT ∧ o.status ≠ CANCELED

/-! ## The list -/

private theorem status_text (s : Nat) (h : s ≤ 5) : outStatusOf (outStatusText s) = .ok s := by
  have : ∀ s : Fin 6, outStatusOf (outStatusText s.1) = .ok s.1 := by decide +kernel
  exact this ⟨s, by omega⟩

private theorem line_lookups (o : OutputLine) : ∃ fs, writeOutputLine o = .obj fs ∧
    fs.lookup "keychain_path" = some (.str (formatPath o.path)) ∧ fs.lookup "commitment" = some (.str (toHex o.commit)) ∧
    fs.lookup "amount" = some (.int o.amount) ∧ fs.lookup "status" = some (.str (outStatusText o.status)) ∧
    fs.lookup "mmr_index" = o.mmrIndex.map (fun (n : Nat) => .int n) ∧ fs.lookup "block_height" = o.height.map (fun (n : Nat) => .int n) ∧
    fs.lookup "transaction_id" = o.txId.map (fun (n : Nat) => .int n) ∧ fs.lookup "label" = o.label.map .str := by
  obtain ⟨path, commit, amount, status, mmr, height, txId, label⟩ := o
  refine ⟨_, rfl, ?_⟩
  cases mmr <;> cases height <;> cases txId <;> cases label <;> exact ⟨rfl, rfl, rfl, rfl, rfl, rfl, rfl, rfl⟩

private theorem opt_number {fs : List (String × Json)} {key : String} {v : Option Nat} (h : fs.lookup key = v.map fun (n : Nat) => .int n)
    (hv : ∀ n ∈ v, n < 2 ^ 64) : optionally jsonUInt64 (.obj fs) key = .ok v := by
  cases v with
  | none => exact optional_missing (.inl h) _
  | some n => rw [optional_given h rfl, json_nat_int n (hv n rfl)]; rfl

private theorem line_reads (o : OutputRecord) (h : OutputFits o) : readOutputLine (writeOutputLine (outputLine o)) = .ok (outputLine o) := by
  obtain ⟨fs, hw, l1, l2, l3, l4, l5, l6, l7, l8⟩ := line_lookups (outputLine o)
  rw [hw]
  have e1 : required Json.asString (.obj fs) "keychain_path" = .ok (formatPath o.path) := required_given l1 rfl _
  have e1' : pathFromString (formatPath o.path) = .ok o.path := by rw [path_text_roundtrip_partial, if_pos h.path]
  have e2 : required (jsonBytes 33) (.obj fs) "commitment" = .ok o.output.commit := by
    rw [required_given l2 rfl, json_bytes_hex]; exact if_pos h.commit
  have e3 : required jsonUInt64 (.obj fs) "amount" = .ok o.amount := by rw [required_given l3 rfl]; exact json_nat_int _ h.amount
  have e4 : required Json.asString (.obj fs) "status" = .ok (outStatusText o.status) := required_given l4 rfl _
  have e5 := opt_number l5 h.mmr
  have e6 := opt_number l6 h.height
  have e7 : Settings.uint32Opt (.obj fs) "transaction_id" = .ok o.txId := by
    rw [Settings.uint32Opt, opt_number l7 (fun n hn => Nat.lt_trans (h.txId n hn) (by decide))]
    have := h.txId
    cases ht : o.txId with
    | none => simp [outputLine, ht, Res.ok_bind, Res.pure_eq]
    | some n =>
      have := this n ht
      simp [outputLine, ht, Res.ok_bind, Res.pure_eq]
      omega
  have e8 : Verif.Owner.stringOpt (.obj fs) "label" = .ok o.labels.head? := by
    have l8 : fs.lookup "label" = o.labels.head?.map .str := l8
    cases hl : o.labels.head? with
    | none => rw [hl] at l8; exact string_missing l8
    | some a => rw [hl] at l8; rw [string_given l8 rfl]; rfl
  simp only [readOutputLine, e1, e1', e2, e3, e4, status_text _ h.status, e5, e6, e7, e8, Res.ok_bind, Res.pure_eq]
  rfl

private theorem held (db : WDB) : getOutputs false false db = (heldOutputs db.outputs).map outputLine := by
  unfold getOutputs heldOutputs
  congr 1
  apply List.filter_congr
  intro o _
  by_cases h1 : o.status = SPENT <;> by_cases h2 : o.status = CANCELED <;> simp [h1, h2]

/-- **C129** (partial: `listed_spendable_violated`; of several labels only the first is listed, and paths with hardened indices cannot be
read): `list_outputs` lists each output that is neither spent nor canceled once, in the order stored, and a client reads from each line the
path, commitment, amount, status, position, height and transaction stored. -/
theorem list_outputs_exact_partial (db : WDB) (h : ∀ o ∈ db.outputs, OutputFits o) :
    ∃ lines, listOutputs db = .obj [("outputs", .arr lines)] ∧
      List.Forall₂ (fun j o => readOutputLine j =
        .ok ⟨o.path, o.output.commit, o.amount, o.status, o.mmrIndex, o.height, o.txId, o.labels.head?⟩) lines (heldOutputs db.outputs) := by
  refine ⟨_, rfl, ?_⟩
  rw [held, List.map_map, List.forall₂_map_left_iff]
  apply List.forall₂_same.2
  intro o ho
  exact line_reads o (h o (List.mem_of_mem_filter ho))

private theorem sum_listed (st : Nat) (name : String) (hst : ∀ s ≤ 5, outStatusText s = str name ↔ s = st) (hne : st ≠ SPENT ∧ st ≠ CANCELED) :
    ∀ l : List OutputRecord, (∀ o ∈ l, OutputFits o) →
      sumListed ((heldOutputs l).map fun o => writeOutputLine (outputLine o)) name = worthOf (fun o => o.status = st) l
  | [], _ => rfl
  | o :: l, h => by
    have ih := sum_listed st name hst hne l (fun x hx => h x (by simp [hx]))
    obtain ⟨fs, hw, -, -, l3, l4, -⟩ := line_lookups (outputLine o)
    have hs := hst o.status (h o (by simp)).status
    have hm : listedStatus (writeOutputLine (outputLine o)) = some (outStatusText o.status) := by
      have : Json.member (writeOutputLine (outputLine o)) "status" = some (.str (outStatusText o.status)) := by rw [hw]; exact l4
      rw [listedStatus, this]
    have ha : amountOf (writeOutputLine (outputLine o)) = o.amount := by
      have : Json.member (writeOutputLine (outputLine o)) "amount" = some (.int o.amount) := by rw [hw]; exact l3
      rw [amountOf, this]; rfl
    unfold sumListed worthOf worth heldOutputs at *
    by_cases e : o.status = st
    · have : o.status ≠ SPENT ∧ o.status ≠ CANCELED := by rw [e]; exact hne
      rw [List.filter_cons_of_pos (by simpa using this), List.map_cons, List.filter_cons_of_pos (by rw [hm, hs.2 e]; simp), List.map_cons,
        List.sum_cons, List.filter_cons_of_pos (by simpa using e), List.map_cons, List.sum_cons, ih, ha]
    · have hn : ¬ outStatusText o.status = str name := fun x => e (hs.1 x)
      rw [List.filter_cons_of_neg (p := fun o : OutputRecord => decide (o.status = st)) (by simpa using e), ← ih]
      by_cases hk : o.status ≠ SPENT ∧ o.status ≠ CANCELED
      · rw [List.filter_cons_of_pos (by simpa using hk), List.map_cons, List.filter_cons_of_neg (by rw [hm]; simpa using hn)]
      · rw [List.filter_cons_of_neg (by simpa using hk)]

/-- **C129**: the amounts listed add up to the balance shown: those listed as locked to `locked`, those without confirmations to `unconfirmed`,
those listed as spendable to `spendable` and `immature` together, and all but the locked ones to `total`. -/
theorem listed_sums (env : Env) (conf : Nat) (db : WDB) (h : ∀ o ∈ db.outputs, OutputFits o) (hb : worth db.outputs < 2 ^ 64)
    (hh : HeightsFit conf db.outputs) :
    ∃ lines total unconfirmed immature locked spendable, listOutputs db = .obj [("outputs", .arr lines)] ∧
      balanceJson (getBalance env conf db) = .obj [("total", .int (total : Nat)), ("unconfirmed", .int (unconfirmed : Nat)),
        ("immature", .int (immature : Nat)), ("locked", .int (locked : Nat)), ("spendable", .int (spendable : Nat))] ∧
      sumListed lines "Locked" = locked ∧ sumListed lines "No Confirmations" = unconfirmed ∧
      sumListed lines "Spendable" = spendable + immature ∧ total = sumListed lines "Spendable" + sumListed lines "No Confirmations" := by
  obtain ⟨h1, h2, h3, h4, h5, h6⟩ := balance_partition (env := env) hb hh
  refine ⟨_, _, _, _, _, _, rfl, rfl, ?_⟩
  rw [held, List.map_map]
  have a1 := sum_listed LOCKED "Locked" (by decide +kernel) (by decide) db.outputs h
  have a2 := sum_listed NO_CONFIRMATIONS "No Confirmations" (by decide +kernel) (by decide) db.outputs h
  have a3 := sum_listed SPENDABLE "Spendable" (by decide +kernel) (by decide) db.outputs h
  simp only [Function.comp_def]
  rw [a1, a2, a3, h1, h2, h5, h1, h3, h4]
  have : worthOf (fun o => o.status = SPENDABLE) db.outputs =
      worthOf (fun o => o.status = SPENDABLE && decide (Spendable env conf db.refreshHeight o)) db.outputs +
      worthOf (fun o => o.status = SPENDABLE && !decide (Spendable env conf db.refreshHeight o)) db.outputs := by
    have : ∀ l : List OutputRecord, worthOf (fun o => o.status = SPENDABLE) l =
      worthOf (fun o => o.status = SPENDABLE && decide (Spendable env conf db.refreshHeight o)) l +
      worthOf (fun o => o.status = SPENDABLE && !decide (Spendable env conf db.refreshHeight o)) l := by
      intro l
      induction l with
      | nil => rfl
      | cons o l ih =>
        unfold worthOf worth at *
        simp only [List.filter_cons]
        by_cases e : o.status = SPENDABLE <;> by_cases e' : Spendable env conf db.refreshHeight o <;> simp [e, e'] at ih ⊢ <;> omega
    exact this _
  exact ⟨rfl, rfl, this, by omega⟩

/-- **C129** violated: an output listed as spendable may be one the wallet does not spend: it is listed so as soon as it is in a block, and
chosen only after the confirmations asked for, or, a coinbase, after a day. -/
theorem listed_spendable_violated (env : Env) (conf tip : Nat) (db : WDB) (o : OutputRecord) (ho : o ∈ db.outputs) (hs : o.status = SPENDABLE)
    (hi : immature env conf o.output.features (o.height.getD 0) tip = true) :
    (∃ lines j, listOutputs db = .obj [("outputs", .arr lines)] ∧ j ∈ lines ∧ Json.member j "commitment" = some (.str (toHex o.output.commit)) ∧
      listedStatus j = some (str "Spendable")) ∧ o ∉ availableCoins env conf tip db.outputs := by
  refine ⟨⟨_, writeOutputLine (outputLine o), rfl, ?_, ?_, ?_⟩, ?_⟩
  · rw [held, List.map_map]
    refine List.mem_map.2 ⟨o, ?_, rfl⟩
    exact List.mem_filter.2 ⟨ho, by rw [hs]; decide⟩
  · obtain ⟨fs, hw, -, l2, -⟩ := line_lookups (outputLine o)
    rw [hw]; exact l2
  · obtain ⟨fs, hw, -, -, -, l4, -⟩ := line_lookups (outputLine o)
    have : Json.member (writeOutputLine (outputLine o)) "status" = some (.str (outStatusText o.status)) := by rw [hw]; exact l4
    rw [listedStatus, this, hs]
    rfl
  · intro h
    have := (List.mem_filter.1 h).2
    rw [hs, hi] at this
    simp at this

/-! ## Cases -/

/-- Four outputs: spendable, a young coinbase, locked and spent. -/
private def sampleHeld : WDB :=
  ⟨[⟨[0, 0, 1], [], ⟨0, List.replicate 33 1, []⟩, 100, SPENDABLE, some 4, some 20, some 1, []⟩,
    ⟨[0, 0, 2], [], ⟨1, List.replicate 33 2, []⟩, 60, SPENDABLE, some 9, some 2000, none, [str "mine"]⟩,
    ⟨[0, 0, 3], [], ⟨0, List.replicate 33 3, []⟩, 30, LOCKED, none, some 10, some 2, []⟩,
    ⟨[0, 0, 4], [], ⟨0, List.replicate 33 4, []⟩, 7, SPENT, none, none, none, []⟩], [], [], 5, 3, 2010⟩

private theorem sampleHeld_fits : ∀ o ∈ sampleHeld.outputs, OutputFits o := by
  intro o ho
  simp only [sampleHeld, List.mem_cons, List.not_mem_nil, or_false] at ho
  rcases ho with rfl | rfl | rfl | rfl <;> exact ⟨by decide, rfl, by decide, by decide, by decide, by decide, by decide⟩

example := list_outputs_exact_partial sampleHeld sampleHeld_fits

example := listed_sums .mainnet 10 sampleHeld sampleHeld_fits (by decide) (by decide)

example : sumListed ((getOutputs false false sampleHeld).map writeOutputLine) "Spendable" = 160 ∧
    (getBalance .mainnet 10 sampleHeld).spendable = 100 ∧ (getBalance .mainnet 10 sampleHeld).immature = 60 := by decide +kernel

example := listed_spendable_violated .mainnet 10 2010 sampleHeld
  ⟨[0, 0, 2], [], ⟨1, List.replicate 33 2, []⟩, 60, SPENDABLE, some 9, some 2000, none, [str "mine"]⟩ (by simp [sampleHeld]) rfl (by decide)

end Verif.Props
