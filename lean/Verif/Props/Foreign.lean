import Verif.Props.Rpc
import Verif.Props.Json
import Verif.Props.KeyPath
import Verif.Props.Requests
import Verif.Wallet.Foreign

/-!
# C132: wallets that talk over Tor
-/
namespace Verif.Props
open Verif Verif.Codec Verif.Rpc Verif.Wallet Verif.Foreign

/-! ## Spec -/

/-- What the one who sent `req` reads, if the wallet is in state `s`: the answer, as JSON and read again. -/
def AnswerRead {σ : Type} (bad : Json → Fail) (unwritable : Fail) (B : Behind σ) (s : σ) (req : Rpc.Request) (r : Rpc.Response) : Prop :=
  ∃ j, (serve (methods bad unwritable B s) (.value req.toJson)).1.toJson = .ok j ∧ responseFromJson j = .ok r

/-- A slate as this program makes them, which JSON can carry (C87). -/
def CarriedSlate (s : Slate) : Prop := SlateTyped s ∧ SlateCarried s

/-- The greatest of the versions that is at most 4; 0 if there is none. -/
def bestOf (versions : List Nat) : Nat := ((versions.filter (· ≤ 4)).max?).getD 0

/-! ## Lemmas -/

private theorem slate_written {s : Slate} (h : CarriedSlate s) : ∃ j, slateToJson s = .ok j ∧ slateFromJson j = .ok s ∧ j.isNull = false := by
  have := (slate_json_roundtrip_iff_partial s h.1).2 h.2
  obtain ⟨j, h1, h2⟩ := Res.bind_eq_ok.1 this
  refine ⟨j, h1, h2, ?_⟩
  cases j with
  | null => exact absurd h2 (by intro h; cases h)
  | _ => rfl

private theorem ok_member {j : Json} (h : j.isNull = false) : getRequired (.obj [("Ok", j)]) "Ok" = .ok j := by
  have : Json.isNull (.obj [("Ok", j)]) = false := rfl
  simp [getRequired, this, Json.get, List.lookup, Res.ok_bind, h]

private theorem read_answer {id j : Json} {s : Slate} (h : j.isNull = false) (hs : slateFromJson j = .ok s) :
    readSlateAnswer ⟨id, some (.obj [("Ok", j)]), none⟩ = .ok s := by
  simp only [readSlateAnswer, Option.isSome_none, Bool.false_eq_true, if_false, ok_member h, Res.ok_bind, hs]

private theorem recv_ne : str "receive_tx" ≠ [] := by decide +kernel
private theorem fin_ne : str "finalize_tx" ≠ [] := by decide +kernel
private theorem ver_ne : str "check_version" ≠ [] := by decide +kernel
private theorem coin_ne : str "build_coinbase" ≠ [] := by decide +kernel
private theorem fin_recv : str "finalize_tx" ≠ str "receive_tx" := by decide +kernel
private theorem ver_recv : str "check_version" ≠ str "receive_tx" := by decide +kernel
private theorem ver_fin : str "check_version" ≠ str "finalize_tx" := by decide +kernel
private theorem ver_coin : str "check_version" ≠ str "build_coinbase" := by decide +kernel
private theorem coin_recv : str "build_coinbase" ≠ str "receive_tx" := by decide +kernel
private theorem coin_fin : str "build_coinbase" ≠ str "finalize_tx" := by decide +kernel
private theorem coin_ver : str "build_coinbase" ≠ str "check_version" := by decide +kernel

private theorem asked {id : Json} (hid : id.isNull = false) {m : Bytes} (hm : m ≠ []) (p : Json) (hp : p.isNull = false) :
    parseRequest (.value (Rpc.Request.toJson ⟨id, m, some p⟩)) = .ok ⟨id, m, some p⟩ := by
  refine (request_read _ _).2 ⟨rfl, hid, rfl, rfl, hm, ?_⟩
  show some p = if p.isNull then none else some p
  rw [hp]; rfl

private theorem asked_none {id : Json} (hid : id.isNull = false) {m : Bytes} (hm : m ≠ []) :
    parseRequest (.value (Rpc.Request.toJson ⟨id, m, none⟩)) = .ok ⟨id, m, none⟩ :=
  (request_read _ _).2 ⟨rfl, hid, rfl, rfl, hm, rfl⟩

private theorem texts_read : ∀ l : List Nat, readAll Json.asString (l.map fun v => .str (str "V" ++ decStr v)) = .ok (l.map fun v => str "V" ++ decStr v)
  | [] => rfl
  | v :: l => by
    rw [List.map_cons, readAll, texts_read l]
    rfl

private theorem elements_of (l : List Json) (h : l ≠ []) : Json.elements l = .arr l := by
  cases l with
  | nil => exact absurd rfl h
  | cons a l => rfl

private theorem version_read (versions : List Nat) (h : versions ≠ []) :
    readVersion (versionJson 2 versions) = .ok (2, versions.map fun v => str "V" ++ decStr v) := by
  unfold readVersion versionJson
  rw [ok_member rfl, Res.ok_bind, required_given (v := .int 2) rfl rfl]
  rw [show jsonUInt64 (.int 2) = .ok 2 from rfl, Res.ok_bind, if_neg (by simp)]
  rw [elements_of _ (by simpa using h)]
  have : getRequired (.obj [("foreign_api_version", .int ((2 : Nat) : Int)),
      ("supported_slate_versions", .arr (versions.map fun v => .str (str "V" ++ decStr v)))]) "supported_slate_versions" =
      .ok (.arr (versions.map fun v => .str (str "V" ++ decStr v))) := rfl
  rw [this, Res.ok_bind]
  simp only [elementsOf]
  rw [texts_read]
  rfl

private theorem highest_fold : ∀ (l : List Nat) (b : Nat), (∀ v ∈ l, v < 65536) → b ≤ 4 →
    highestVersion b (l.map fun v => str "V" ++ decStr v) = .ok ((l.filter (· ≤ 4)).foldl max b)
  | [], b, _, _ => rfl
  | v :: l, b, h, hb => by
    have hv := h v (by simp)
    have e : str "V" = [86] := by decide +kernel
    have e1 : stoull ((str "V" ++ decStr v).drop 1) = .ok v := by
      rw [e]
      have := stoull_dec v (by omega) [] (by simp)
      rw [List.append_nil] at this
      exact this
    have e2 : (str "V" ++ decStr v).head? = some 86 := by rw [e]; rfl
    rw [List.map_cons, highestVersion, if_pos e2, e1, Res.ok_bind]
    simp only [Nat.mod_eq_of_lt hv]
    have hmx : MAX_SLATE_VERSION = 4 := rfl
    rw [hmx, List.filter_cons]
    by_cases h4 : v ≤ 4
    · rw [if_pos (show decide (v ≤ 4) = true by simpa using h4), List.foldl_cons]
      by_cases hg : v > b
      · rw [if_pos ⟨hg, h4⟩, highest_fold l v (fun x hx => h x (by simp [hx])) h4, Nat.max_eq_right (by omega)]
      · rw [if_neg (by omega), highest_fold l b (fun x hx => h x (by simp [hx])) hb, Nat.max_eq_left (by omega)]
    · rw [if_neg (by omega), if_neg (show ¬ decide (v ≤ 4) = true by simpa using h4), highest_fold l b (fun x hx => h x (by simp [hx])) hb]

private theorem fold_best (l : List Nat) : l.foldl max 0 = (l.max?).getD 0 := by
  cases l with
  | nil => rfl
  | cons a l => rw [List.max?_cons', List.foldl_cons, Nat.zero_max]; rfl

/-! ## Theorems -/

variable {σ : Type} (bad : Json → Fail) (unwritable : Fail) (B : Behind σ)

/-- **C132**: one wallet asks another to receive a payment.  The other gets the slate that was sent, its answer is what the first one reads, and
the other is left as receiving, and changing its address, leaves it. -/
theorem receive_over_tor (st st1 st2 : σ) (s out : Slate) (hs : CarriedSlate s) (ho : CarriedSlate out) (id : Json) (hid : id.isNull = false)
    (hr : B.receive s st = (.ok out, st1)) (hn : if B.reuse then st2 = st1 else B.renew st1 = (.ok (), st2)) :
    ∃ params r, receiveParams s = .ok params ∧ AnswerRead bad unwritable B st ⟨id, str "receive_tx", some params⟩ r ∧
      readSlateAnswer r = .ok out ∧
      after bad unwritable B (.value (Rpc.Request.toJson ⟨id, str "receive_tx", some params⟩)) st = st2 := by
  obtain ⟨j, h1, h2, -⟩ := slate_written hs
  obtain ⟨k, g1, g2, g3⟩ := slate_written ho
  have hp : receiveParams s = .ok (.arr [j, .null, .null]) := by rw [receiveParams, h1]; rfl
  have hrd : readReceive (.arr [j, .null, .null]) = .ok (s, none, none) := by
    simp only [readReceive, h2, Res.ok_bind]; rfl
  have hx : receiveTx bad unwritable B (some (.arr [j, .null, .null])) st = (.inl (.obj [("Ok", k)]), st2) := by
    unfold receiveTx
    simp only [Option.getD_some, hrd, hr]
    have ha : slateAnswer out = .ok (.obj [("Ok", k)]) := by rw [slateAnswer, g1]; rfl
    cases hb : B.reuse with
    | true =>
      rw [hb] at hn
      simp only [if_true] at hn ⊢
      rw [ha, hn]
    | false =>
      rw [hb] at hn
      simp only [Bool.false_eq_true, if_false] at hn ⊢
      rw [hn]
      simp only [ha]
  refine ⟨_, ⟨id, some (.obj [("Ok", k)]), none⟩, hp, ?_, read_answer g3 g2, ?_⟩
  · have hm : methods bad unwritable B st (str "receive_tx") = some ⟨false, fun r => .ok (receiveTx bad unwritable B r.params st).1⟩ := by
      unfold methods; rw [if_pos rfl]
    exact (call_round_trip (methods bad unwritable B st) ⟨id, str "receive_tx", some (.arr [j, .null, .null])⟩ _ hid recv_ne
      (fun p e => by cases e; rfl) hm).1 (.obj [("Ok", k)]) (by simp only [hx]) rfl
  · unfold after
    rw [asked hid recv_ne _ rfl]
    simp only [if_true, hx]

/-- **C132**: the same for a payment sent to be finalized. -/
theorem finalize_over_tor (st st1 : σ) (s out : Slate) (hs : CarriedSlate s) (ho : CarriedSlate out) (id : Json) (hid : id.isNull = false)
    (hr : B.finalize s st = (.ok out, st1)) :
    ∃ params r, finalizeParams s = .ok params ∧ AnswerRead bad unwritable B st ⟨id, str "finalize_tx", some params⟩ r ∧
      readSlateAnswer r = .ok out ∧
      after bad unwritable B (.value (Rpc.Request.toJson ⟨id, str "finalize_tx", some params⟩)) st = st1 := by
  obtain ⟨j, h1, h2, -⟩ := slate_written hs
  obtain ⟨k, g1, g2, g3⟩ := slate_written ho
  have hp : finalizeParams s = .ok (.arr [j]) := by rw [finalizeParams, h1]; rfl
  have hx : finalizeTx bad unwritable B (some (.arr [j])) st = (.inl (.obj [("Ok", k)]), st1) := by
    unfold finalizeTx
    have ha : slateAnswer out = .ok (.obj [("Ok", k)]) := by rw [slateAnswer, g1]; rfl
    simp only [Option.getD_some, readFinalize, h2, hr, ha]
  refine ⟨_, ⟨id, some (.obj [("Ok", k)]), none⟩, hp, ?_, read_answer g3 g2, ?_⟩
  · have hm : methods bad unwritable B st (str "finalize_tx") = some ⟨false, fun r => .ok (finalizeTx bad unwritable B r.params st).1⟩ := by
      unfold methods; rw [if_neg fin_recv, if_pos rfl]
    exact (call_round_trip (methods bad unwritable B st) ⟨id, str "finalize_tx", some (.arr [j])⟩ _ hid fin_ne
      (fun p e => by cases e; rfl) hm).1 (.obj [("Ok", k)]) (by simp only [hx]) rfl
  · unfold after
    rw [asked hid fin_ne _ rfl]
    simp only [fin_recv, if_false, if_true, hx]

private theorem caught_code (f : Fail) (hf : ∀ c m, f = .api c m → -2 ^ 31 ≤ c ∧ c < 2 ^ 31) : -2 ^ 31 ≤ (caught f).code ∧ (caught f).code < 2 ^ 31 := by
  cases f with
  | api c m => exact hf c m rfl
  | deser m => exact (by decide : -2 ^ 31 ≤ INVALID_PARAMS ∧ INVALID_PARAMS < 2 ^ 31)
  | rpc m i => exact (by decide : -2 ^ 31 ≤ INTERNAL_ERROR ∧ INTERNAL_ERROR < 2 ^ 31)
  | other m => exact (by decide : -2 ^ 31 ≤ INTERNAL_ERROR ∧ INTERNAL_ERROR < 2 ^ 31)

/-- **C132**: if the other wallet refuses, the first one gets an error with what the other says, and no slate. -/
theorem refused_over_tor (st st1 : σ) (s : Slate) (hs : CarriedSlate s) (f : Fail) (id : Json) (hid : id.isNull = false)
    (hf : ∀ c m, f = .api c m → -2 ^ 31 ≤ c ∧ c < 2 ^ 31) (hr : B.receive s st = (.error f, st1)) :
    ∃ params r e, receiveParams s = .ok params ∧ AnswerRead bad unwritable B st ⟨id, str "receive_tx", some params⟩ r ∧ r.error = some e ∧
      e.message = (caught f).message ∧ readSlateAnswer r = .throw ∧
      after bad unwritable B (.value (Rpc.Request.toJson ⟨id, str "receive_tx", some params⟩)) st = st1 := by
  obtain ⟨j, h1, h2, -⟩ := slate_written hs
  have hp : receiveParams s = .ok (.arr [j, .null, .null]) := by rw [receiveParams, h1]; rfl
  have hrd : readReceive (.arr [j, .null, .null]) = .ok (s, none, none) := by
    simp only [readReceive, h2, Res.ok_bind]; rfl
  have hx : receiveTx bad unwritable B (some (.arr [j, .null, .null])) st = (.inr (caught f), st1) := by
    unfold receiveTx
    simp only [Option.getD_some, hrd, hr]
  have hm : methods bad unwritable B st (str "receive_tx") = some ⟨false, fun r => .ok (receiveTx bad unwritable B r.params st).1⟩ := by
    unfold methods; rw [if_pos rfl]
  obtain ⟨c1, c2⟩ := caught_code f hf
  obtain ⟨j', e', a1, a2, a3, a4⟩ := (call_round_trip (methods bad unwritable B st) ⟨id, str "receive_tx", some (.arr [j, .null, .null])⟩ _ hid recv_ne
      (fun p e => by cases e; rfl) hm).2 (caught f) (by simp only [hx]) c1 c2
  refine ⟨_, _, e', hp, ⟨j', a1, a2⟩, rfl, a4, rfl, ?_⟩
  unfold after
  rw [asked hid recv_ne _ rfl]
  simp only [if_true, hx]

/-- **C132**: what cannot be read, other methods and questions for the version leave the wallet as it was. -/
theorem unread_changes_nothing (st : σ) (body : ReqBody)
    (h : ∀ r, parseRequest body = .ok r → (r.method = str "build_coinbase" → ∀ x, readCoinbase (r.params.getD .null) ≠ .ok x) ∧
      (r.method = str "receive_tx" → ∀ x, readReceive (r.params.getD .null) ≠ .ok x) ∧
      (r.method = str "finalize_tx" → ∀ x, readFinalize (r.params.getD .null) ≠ .ok x)) :
    after bad unwritable B body st = st := by
  unfold after
  cases hp : parseRequest body with
  | error e => rfl
  | ok r =>
    obtain ⟨h1, h2, h3⟩ := h r hp
    simp only
    split
    · rename_i hm
      unfold receiveTx
      cases hx : readReceive (r.params.getD .null) with
      | ok x => exact absurd hx (h2 hm x)
      | throw => rfl
      | ub => rfl
    · split
      · rename_i hm
        unfold finalizeTx
        cases hx : readFinalize (r.params.getD .null) with
        | ok x => exact absurd hx (h3 hm x)
        | throw => rfl
        | ub => rfl
      · split
        · rename_i hm
          unfold buildCoinbaseTx
          cases hx : readCoinbase (r.params.getD .null) with
          | ok x => exact absurd hx (h1 hm x)
          | throw => rfl
          | ub => rfl
        · rfl

/-- **C132** (partial: versions from 2¹⁶ on are cut, `version_wraps_violated`, and an empty list is taken for an error,
`no_version_violated`): a wallet that says which versions it supports is spoken to in the highest one both know, and if there is none it is not
spoken to. -/
theorem version_agreed_partial (id : Json) (versions : List Nat) (hn : versions ≠ []) (hv : ∀ v ∈ versions, v < 2 ^ 16) :
    askedVersion (some ⟨id, some (versionJson 2 versions), none⟩) = some (bestOf versions) ∧
    getSlateVersion true (some (2, versions.map fun v => str "V" ++ decStr v)) = (if 4 ∈ versions then .ok 4 else .throw) := by
  have hh : highestVersion 0 (versions.map fun v => str "V" ++ decStr v) = .ok (bestOf versions) := by
    rw [highest_fold versions 0 hv (by omega), fold_best]; rfl
  have hc : checkVersion (some (2, versions.map fun v => str "V" ++ decStr v)) = some (bestOf versions) := by
    simp only [checkVersion, ne_eq, not_true, if_false, hh]
  have hle : bestOf versions ≤ 4 := by
    unfold bestOf
    cases hm : (versions.filter (· ≤ 4)).max? with
    | none => simp
    | some m =>
      have := List.mem_filter.1 (List.max?_mem hm)
      simpa using this.2
  constructor
  · simp only [askedVersion, Option.isSome_none, Bool.false_eq_true, if_false, version_read versions hn, hc]
  · simp only [getSlateVersion, Bool.not_true, Bool.false_eq_true, if_false, hc]
    have hmin : MIN_SLATE_VERSION = 4 := rfl
    rw [hmin]
    by_cases h4 : 4 ∈ versions
    · have hf : 4 ∈ versions.filter (· ≤ 4) := List.mem_filter.2 ⟨h4, by simp⟩
      have : 4 ≤ bestOf versions := by
        unfold bestOf
        cases hm : (versions.filter (· ≤ 4)).max? with
        | none => rw [List.max?_eq_none_iff.1 hm] at hf; cases hf
        | some m => exact (List.max?_le_iff hm).1 (Nat.le_refl m) 4 hf
      rw [if_neg (by omega), if_pos h4, show bestOf versions = 4 by omega]
    · have : bestOf versions ≠ 4 := by
        intro e
        unfold bestOf at e
        cases hm : (versions.filter (· ≤ 4)).max? with
        | none => rw [hm] at e; simp at e
        | some m =>
          rw [hm] at e
          simp only [Option.getD_some] at e
          have := List.mem_filter.1 (List.max?_mem hm)
          exact h4 (e ▸ this.1)
      rw [if_pos (by omega), if_neg h4]

/-- **C132**: this wallet, asked by another one, is spoken to in version 4. -/
theorem version_asked (st : σ) (id : Json) (hid : id.isNull = false) :
    ∃ r, AnswerRead bad unwritable B st ⟨id, str "check_version", none⟩ r ∧ askedVersion (some r) = some 4 := by
  refine ⟨⟨id, some (versionJson 2 [4]), none⟩, ?_, ?_⟩
  · have hm : methods bad unwritable B st (str "check_version") = some ⟨false, fun _ => .ok (.inl (versionJson 2 [4]))⟩ := by
      unfold methods; rw [if_neg ver_recv, if_neg ver_fin, if_pos rfl]
    exact (call_round_trip (methods bad unwritable B st) ⟨id, str "check_version", none⟩ _ hid ver_ne (fun p e => by cases e) hm).1 _ rfl rfl
  · exact (version_agreed_partial id [4] (by simp) (by simp)).1

/-- **C132** violated: versions are cut to sixteen bits, so a wallet that knows only version 65540 is taken to know version 4. -/
theorem version_wraps_violated (id : Json) : askedVersion (some ⟨id, some (versionJson 2 [65540]), none⟩) = some 4 := by
  simp only [askedVersion, Option.isSome_none, Bool.false_eq_true, if_false, version_read [65540] (by simp)]
  decide +kernel

/-- **C132** violated: a wallet that says it supports no version at all is sent version 4, as one that does not answer. -/
theorem no_version_violated (id : Json) : askedVersion (some ⟨id, some (versionJson 2 []), none⟩) = none ∧
    getSlateVersion true none = .ok 4 := ⟨rfl, rfl⟩

/-- **C132**: a miner's request with a session's token, fees and a key, as the answer to an earlier request gives it, is read as such. -/
theorem coinbase_request (t : SessionToken) (ht : t.id < 2 ^ 64) (fees : Nat) (hf : fees < 2 ^ 64) (path : List Nat) (hl : path.length ≤ 4)
    (hp : ∀ i ∈ path, i < 2 ^ 32) (more : List (String × Json)) :
    readCoinbase (.obj ([("session_token", .str (tokenText t)), ("fees", .int fees), ("key_id", .str (pathToHex path))] ++ more)) =
      .ok ⟨⟨t.id, t.key⟩, fees, some path⟩ := by
  unfold readCoinbase Verif.Owner.tokenIn
  rw [required_given (v := .str (tokenText t)) rfl rfl, show Json.asString (.str (tokenText t)) = .ok (tokenText t) from rfl, Res.ok_bind,
    session_token_roundtrip t ht, Res.ok_bind, Res.pure_eq, Res.ok_bind, required_given (v := .int fees) rfl rfl]
  have hj : jsonUInt64 (.int fees) = .ok fees := by
    rw [jsonUInt64, if_pos ⟨by omega, by omega⟩]; rfl
  rw [hj, Res.ok_bind, string_given (v := .str (pathToHex path)) rfl rfl, show Json.asString (.str (pathToHex path)) = .ok (pathToHex path) from rfl,
    Res.ok_bind, Res.ok_bind]
  simp only [path_hex_roundtrip path hl hp, Res.ok_bind]
  rfl

/-- **C132** violated: a request for a coinbase in the form documented, the parameters in a list and without a token, is refused whatever the
wallet. -/
theorem coinbase_documented_violated (st : σ) (id : Json) (hid : id.isNull = false) (l : List Json) :
    (serve (methods bad unwritable B st) (.value (Rpc.Request.toJson ⟨id, str "build_coinbase", some (.arr l)⟩))).1.result = none ∧
      after bad unwritable B (.value (Rpc.Request.toJson ⟨id, str "build_coinbase", some (.arr l)⟩)) st = st := by
  have hq := asked hid coin_ne (.arr l) rfl
  have hx : buildCoinbaseTx bad B (some (.arr l)) st = (.error (bad (.arr l)), st) := rfl
  have hm : methods bad unwritable B st (str "build_coinbase") = some ⟨false, fun r => (buildCoinbaseTx bad B r.params st).1⟩ := by
    unfold methods; rw [if_neg coin_recv, if_neg coin_fin, if_neg coin_ver, if_pos rfl]
  constructor
  · rw [serve, hq]
    simp only [hm, hx]
    cases bad (.arr l) <;> rfl
  · unfold after
    rw [hq]
    simp only [coin_recv, coin_fin, if_false, if_true, hx]

/-! ## Examples -/

/-- A wallet that counts payments, refuses those without an amount and answers with the same slate, and changes its address. -/
private def counter : Behind (Nat × Nat) where
  receive s st := if s.amount = 0 then (.error (.other (str "no amount")), st) else (.ok s, (st.1 + 1, st.2))
  finalize s st := (.ok s, st)
  renew st := (.ok (), (st.1, st.2 + 1))
  coinbase _ st := (.error (.other []), st)
  reuse := false

private def someSlate : Slate :=
  { id := List.replicate 16 7, version := 4, blockVersion := 5, numParts := 2, ttl := 0, stage := .standardSent, features := 0, featureArgs := none
    offset := List.replicate 32 1, amount := 5, fee := ⟨0, 8⟩, sigs := [⟨List.replicate 33 2, List.replicate 33 3, none⟩]
    coms := [⟨0, List.replicate 33 9, none⟩], proof := none }

private theorem some_sendable : CarriedSlate someSlate := by
  constructor
  · constructor <;> simp [someSlate, -List.reduceReplicate]
  · constructor <;> simp [someSlate, -List.reduceReplicate]

/-- The payment is counted once and the address changed once. -/
example : ∃ params r, receiveParams someSlate = .ok params ∧
    AnswerRead (fun _ => .other []) (.other []) counter (3, 8) ⟨.int 1, str "receive_tx", some params⟩ r ∧ readSlateAnswer r = .ok someSlate ∧
    after (fun _ => .other []) (.other []) counter (.value (Rpc.Request.toJson ⟨.int 1, str "receive_tx", some params⟩)) (3, 8) = (4, 9) :=
  receive_over_tor _ _ counter (3, 8) (4, 8) (4, 9) someSlate someSlate some_sendable some_sendable (.int 1) rfl rfl rfl

example := finalize_over_tor (fun _ => .other []) (.other []) counter (3, 8) (3, 8) someSlate someSlate some_sendable some_sendable (.int 1) rfl rfl

/-- Refused: nothing is counted. -/
example : ∃ params r e, receiveParams { someSlate with amount := 0 } = .ok params ∧
    AnswerRead (fun _ => .other []) (.other []) counter (3, 8) ⟨.int 1, str "receive_tx", some params⟩ r ∧ r.error = some e ∧
    e.message = str "no amount" ∧ readSlateAnswer r = .throw ∧
    after (fun _ => .other []) (.other []) counter (.value (Rpc.Request.toJson ⟨.int 1, str "receive_tx", some params⟩)) (3, 8) = (3, 8) :=
  refused_over_tor _ _ counter (3, 8) (3, 8) { someSlate with amount := 0 }
    ⟨by constructor <;> simp [someSlate, -List.reduceReplicate], by constructor <;> simp [someSlate, -List.reduceReplicate]⟩
    (.other (str "no amount")) (.int 1) rfl (by intro c m h; cases h) rfl

/-- Two parameters instead of three. -/
example : after (fun _ => .other []) (.other []) counter
    (.value (Rpc.Request.toJson ⟨.int 1, str "receive_tx", some (.arr [.obj [], .null])⟩)) (3, 8) = (3, 8) := by
  refine unread_changes_nothing _ _ counter (3, 8) _ fun r h => ?_
  rw [asked rfl recv_ne _ rfl] at h
  cases h
  refine ⟨fun h => absurd h.symm coin_recv, fun _ x h => ?_, fun h => absurd h.symm fin_recv⟩
  cases h

example : askedVersion (some ⟨.int 1, some (versionJson 2 [3, 4, 5]), none⟩) = some 4 ∧ bestOf [1, 3] = 3 :=
  ⟨(version_agreed_partial (.int 1) [3, 4, 5] (by simp) (by decide)).1, by decide⟩

example := coinbase_request ⟨7, [1, 2]⟩ (by decide) 5 (by decide) [0, 0, 7] (by decide) (by decide) [("height", .int 9)]

end Verif.Props
