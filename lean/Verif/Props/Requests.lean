import Verif.Wallet.Requests
import Verif.Props.Cancel
import Verif.Props.Exchange
import Verif.Props.Json
import Verif.Props.Base64
import Verif.Props.Onion

/-!
# C128: requests are read as they were meant
-/
namespace Verif.Props
open Verif Verif.Codec Verif.Wallet

/-! ## Spec -/

/-- The member is the number, or the number as decimal text. -/
def Gives (fs : List (String × Json)) (key : String) (n : Nat) : Prop :=
  fs.lookup key = some (.int n) ∨ fs.lookup key = some (.str (decStr n))

/-- A request to send whose parts have the sizes of their types: numbers of 64 bits, at most 255 change outputs, commitments of 33 bytes, each
named once, and an address for joining that is one. -/
structure SendAskFits (l : OnionLib) (r : SendAsk) : Prop where
  token : r.token.id < 2 ^ 64
  amount : ∀ n ∈ r.amount, n < 2 ^ 64
  base : r.base < 2 ^ 64
  outputs : r.outputs < 256
  inputs : ∀ c ∈ r.inputs, c.length = 33
  once : r.inputs.Nodup
  post : ∀ p ∈ r.post, ∀ a ∈ p.2, onionParse l a.text = some a

/-! ## Reading what was written -/

private theorem strategy_text (s : Strategy) : strategyOf (strategyText s) = .ok s := by
  cases s <;> decide +kernel

private theorem method_text (m : PostMethod) : methodOf (methodText m) = .ok m := by
  cases m <;> decide +kernel

/-- **C128**: a way to choose coins or to post is read from its own name only; any other text is refused. -/
theorem request_words (s : Bytes) :
    (∀ st, strategyOf s = .ok st ↔ s = strategyText st) ∧ (∀ m, methodOf s = .ok m ↔ s = methodText m) ∧
    ((∀ st, s ≠ strategyText st) → strategyOf s = .throw) ∧ ((∀ m, s ≠ methodText m) → methodOf s = .throw) := by
  refine ⟨fun st => ⟨fun h => ?_, fun h => h ▸ strategy_text st⟩, fun m => ⟨fun h => ?_, fun h => h ▸ method_text m⟩, fun h => ?_, fun h => ?_⟩
  · unfold strategyOf at h
    split at h
    · cases h; assumption
    split at h
    · cases h; assumption
    split at h
    · cases h; assumption
    split at h
    · cases h; assumption
    cases h
  · unfold methodOf at h
    split at h
    · cases h; assumption
    split at h
    · cases h; assumption
    split at h
    · cases h; assumption
    cases h
  · unfold strategyOf
    exact (if_neg (h .smallest)).trans ((if_neg (h .fewest)).trans ((if_neg (h .custom)).trans (if_neg (h .all))))
  · unfold methodOf
    exact (if_neg (h .fluff)).trans ((if_neg (h .stem)).trans (if_neg (h .join)))

example : strategyOf (str "SMALL") = .throw ∧ strategyOf (str "ALL") = .ok .all ∧ methodOf (str "fluff") = .throw := by decide +kernel

private theorem readInputs_hex : ∀ (l acc : List Bytes), (∀ c ∈ l, c.length = 33) → (acc ++ l).Nodup →
    readInputs (l.map fun c => .str (toHex c)) acc = .ok (acc ++ l)
  | [], acc, _, _ => by rw [List.map_nil, readInputs, List.append_nil]
  | c :: l, acc, h, hn => by
    rw [List.map_cons, readInputs, json_bytes_hex, if_pos (h c (by simp)), Res.ok_bind]
    have hc : c ∉ acc := by
      intro hc
      exact (List.nodup_append.1 hn).2.2 c hc c (by simp) rfl
    rw [insertOnce, if_neg hc, readInputs_hex l (acc ++ [c]) (fun x hx => h x (by simp [hx])) (by simpa using hn)]
    simp

private theorem read_strategy (s : Strategy) (l : List Bytes) (h : ∀ c ∈ l, c.length = 33) (hn : l.Nodup) :
    readStrategy (writeStrategy s l) = .ok (s, l) := by
  have := readInputs_hex l [] h (by simpa using hn)
  unfold readStrategy writeStrategy
  by_cases e : l = []
  · subst e
    simp [required, getRequired, getOptional, Json.isNull, Json.get, List.lookup, Json.asString, Res.ok_bind, Res.pure_eq, readInputs,
      strategy_text]
  · simp [e, required, getRequired, getOptional, Json.isNull, Json.get, List.lookup, Json.asString, Res.ok_bind, Res.pure_eq, jsonValues, this,
      strategy_text]

private theorem read_post (l : OnionLib) (p : PostMethod × Option TorAddr) (h : ∀ a ∈ p.2, onionParse l a.text = some a) :
    readPost l (writePost p) = .ok p := by
  obtain ⟨m, a⟩ := p
  unfold readPost writePost
  cases a with
  | none =>
    simp [required, getRequired, Verif.Owner.stringOpt, getOptional, Json.isNull, Json.get, List.lookup, Json.asString, Res.ok_bind, Res.pure_eq, method_text]
  | some a =>
    have := h a rfl
    simp [required, getRequired, Verif.Owner.stringOpt, getOptional, Json.isNull, Json.get, List.lookup, Json.asString, Res.ok_bind, Res.pure_eq, method_text, this]

theorem optional_given {fs : List (String × Json)} {key : String} {v : Json} (h : fs.lookup key = some v) (hv : v.isNull = false)
    {α : Type} (f : Json → Res α) : optionally f (.obj fs) key = (f v >>= fun a => .ok (some a)) := by
  have : Json.isNull (.obj fs) = false := rfl
  simp [optionally, getOptional, this, Json.get, h, Res.ok_bind, Res.pure_eq, hv]

theorem optional_missing {fs : List (String × Json)} {key : String} (h : fs.lookup key = none ∨ fs.lookup key = some .null)
    {α : Type} (f : Json → Res α) : optionally f (.obj fs) key = .ok none := by
  have : Json.isNull (.obj fs) = false := rfl
  have n1 : Json.isNull .null = true := rfl
  rcases h with h | h <;> simp [optionally, getOptional, this, Json.get, h, Res.ok_bind, Res.pure_eq, n1]

theorem required_given {fs : List (String × Json)} {key : String} {v : Json} (h : fs.lookup key = some v) (hv : v.isNull = false)
    {α : Type} (f : Json → Res α) : required f (.obj fs) key = f v := by
  have : Json.isNull (.obj fs) = false := rfl
  simp [required, getRequired, this, Json.get, h, Res.ok_bind, hv]

theorem string_given {fs : List (String × Json)} {key : String} {v : Json} (h : fs.lookup key = some v) (hv : v.isNull = false) :
    Verif.Owner.stringOpt (.obj fs) key = (v.asString >>= fun a => .ok (some a)) := by
  have : Json.isNull (.obj fs) = false := rfl
  simp [Verif.Owner.stringOpt, getOptional, this, Json.get, h, Res.ok_bind, Res.pure_eq, hv]

theorem string_missing {fs : List (String × Json)} {key : String} (h : fs.lookup key = none) :
    Verif.Owner.stringOpt (.obj fs) key = .ok none := by
  have : Json.isNull (.obj fs) = false := rfl
  have n1 : Json.isNull .null = true := rfl
  simp [Verif.Owner.stringOpt, getOptional, this, Json.get, h, Res.ok_bind, Res.pure_eq, n1]

/-- **C128**: a request to send written as JSON is read as the same request: token, amount, base of the fee, number of change outputs, coins, address
and the way to post. -/
theorem send_request_roundtrip (l : OnionLib) (r : SendAsk) (h : SendAskFits l r) : readSend l (writeSend r) = .ok r := by
  obtain ⟨t, amount, base, n, st, ins, addr, post⟩ := r
  obtain ⟨h1, h2, h3, h4, h5, h6, h7⟩ := h
  simp only at h1 h2 h3 h4 h5 h6 h7
  have ht := session_token_roundtrip ⟨t.id, t.key⟩ h1
  have hs := read_strategy st ins h5 h6
  obtain ⟨fs, hw, l1, l2, l3, l4, l5, l6, l7⟩ : ∃ fs, writeSend ⟨t, amount, base, n, st, ins, addr, post⟩ = .obj fs ∧
      fs.lookup "session_token" = some (.str (tokenText ⟨t.id, t.key⟩)) ∧ fs.lookup "amount" = amount.map (fun (x : Nat) => .int x) ∧
      fs.lookup "fee_base" = some (.int base) ∧ fs.lookup "change_outputs" = some (.int n) ∧
      fs.lookup "selection_strategy" = some (writeStrategy st ins) ∧ fs.lookup "address" = addr.map .str ∧
      fs.lookup "post_tx" = post.map writePost := by
    refine ⟨_, rfl, ?_⟩
    cases amount <;> cases addr <;> cases post <;> exact ⟨rfl, rfl, rfl, rfl, rfl, rfl, rfl⟩
  rw [hw]
  have e1 : Verif.Owner.tokenIn (.obj fs) = .ok t := by
    have : required Json.asString (.obj fs) "session_token" = .ok (tokenText ⟨t.id, t.key⟩) := required_given l1 rfl _
    simp only [Verif.Owner.tokenIn, this, Res.ok_bind, ht]
    rfl
  have e2 : optionally jsonUInt64 (.obj fs) "amount" = .ok amount := by
    cases amount with
    | none => exact optional_missing (.inl l2) _
    | some a => rw [optional_given l2 rfl, json_nat_int a (h2 a rfl)]; rfl
  have e3 : required jsonUInt64 (.obj fs) "fee_base" = .ok base := by rw [required_given l3 rfl, json_nat_int base h3]
  have e4 : changeOutputs (.obj fs) = .ok n := by
    have : (0 : Int) ≤ n ∧ (n : Int) < 2 ^ 32 := by omega
    simp only [changeOutputs, l4, Option.getD_some]
    rw [Settings.asUInt, if_pos this, Int.toNat_natCast, Res.ok_bind, Nat.mod_eq_of_lt h4]
    rfl
  have e5 : readCoins (.obj fs) = .ok (st, ins) := by
    rw [← hs]
    exact required_given (f := readStrategy) l5 rfl
  have e6 : Verif.Owner.stringOpt (.obj fs) "address" = .ok addr := by
    cases addr with
    | none => exact string_missing l6
    | some a => rw [string_given l6 rfl]; rfl
  have e7 : optionally (readPost l) (.obj fs) "post_tx" = .ok post := by
    cases post with
    | none => exact optional_missing (.inl l7) _
    | some p => rw [optional_given l7 rfl, read_post l p (h7 p rfl)]; rfl
  simp only [readSend, e1, e2, e3, e4, e5, e6, e7, Res.ok_bind, Res.pure_eq]

/-! ## Reading what others wrote -/

private theorem gives_reads {fs : List (String × Json)} {key : String} {n : Nat} (h : Gives fs key n) (hn : n < 2 ^ 64) :
    ∃ v, fs.lookup key = some v ∧ v.isNull = false ∧ jsonUInt64 v = .ok n := by
  rcases h with h | h
  · exact ⟨_, h, rfl, json_nat_int n hn⟩
  · exact ⟨_, h, rfl, json_nat_text n hn⟩

private theorem readSend_parts {l : OnionLib} {fs : List (String × Json)} {r : SendAsk} (h : readSend l (.obj fs) = .ok r) :
    Verif.Owner.tokenIn (.obj fs) = .ok r.token ∧ optionally jsonUInt64 (.obj fs) "amount" = .ok r.amount ∧
      required jsonUInt64 (.obj fs) "fee_base" = .ok r.base ∧ changeOutputs (.obj fs) = .ok r.outputs ∧
      readCoins (.obj fs) = .ok (r.strategy, r.inputs) := by
  unfold readSend at h
  obtain ⟨t, h1, h⟩ := Res.bind_eq_ok.1 h
  obtain ⟨a, h2, h⟩ := Res.bind_eq_ok.1 h
  obtain ⟨b, h3, h⟩ := Res.bind_eq_ok.1 h
  obtain ⟨n, h4, h⟩ := Res.bind_eq_ok.1 h
  obtain ⟨s, h5, h⟩ := Res.bind_eq_ok.1 h
  obtain ⟨d, h6, h⟩ := Res.bind_eq_ok.1 h
  obtain ⟨p, h7, h⟩ := Res.bind_eq_ok.1 h
  cases h
  exact ⟨h1, h2, h3, h4, h5⟩

private theorem outputs_given {fs : List (String × Json)} {n : Nat} (h : fs.lookup "change_outputs" = some (.int n)) (hn : n < 2 ^ 32) :
    changeOutputs (.obj fs) = .ok (n % 256) := by
  have : (0 : Int) ≤ n ∧ (n : Int) < 2 ^ 32 := by omega
  simp only [changeOutputs, h, Option.getD_some]
  rw [Settings.asUInt, if_pos this, Int.toNat_natCast]
  rfl

/-- **C128** (partial: `amount_text_violated`, `change_outputs_violated`): the amount and the base of the fee of a request that is read are the
numbers given, be it as numbers or as text, up to 2⁶⁴; without an amount all is sent; at most 255 change outputs are as many as asked for, and one
if not said. -/
theorem send_request_reads_partial (l : OnionLib) (fs : List (String × Json)) (r : SendAsk) (h : readSend l (.obj fs) = .ok r) :
    (∀ n < 2 ^ 64, Gives fs "amount" n → r.amount = some n) ∧
      (fs.lookup "amount" = none ∨ fs.lookup "amount" = some .null → r.amount = none) ∧
      (∀ n < 2 ^ 64, Gives fs "fee_base" n → r.base = n) ∧
      (∀ n : Nat, n < 256 → fs.lookup "change_outputs" = some (.int n) → r.outputs = n) ∧
      (fs.lookup "change_outputs" = none → r.outputs = 1) := by
  obtain ⟨-, h2, h3, h4, -⟩ := readSend_parts h
  refine ⟨fun n hn g => ?_, fun g => ?_, fun n hn g => ?_, fun n hn g => ?_, fun g => ?_⟩
  · obtain ⟨v, e, hv, hr⟩ := gives_reads g hn
    rw [optional_given e hv, hr] at h2
    exact (Res.ok.inj h2).symm
  · rw [optional_missing g] at h2
    exact (Res.ok.inj h2).symm
  · obtain ⟨v, e, hv, hr⟩ := gives_reads g hn
    rw [required_given e hv, hr] at h3
    exact (Res.ok.inj h3).symm
  · rw [outputs_given g (by omega), Nat.mod_eq_of_lt hn] at h4
    exact (Res.ok.inj h4).symm
  · have : changeOutputs (.obj fs) = .ok 1 := by simp only [changeOutputs, g]; rfl
    rw [this] at h4
    exact (Res.ok.inj h4).symm

/-- **C128** violated: an amount in text is read up to the first character that is no digit, so that "1.5" is 1, and a minus before it makes it
2⁶⁴ less the number. -/
theorem amount_text_violated (l : OnionLib) (fs : List (String × Json)) (r : SendAsk) (h : readSend l (.obj fs) = .ok r) (n : Nat)
    (hn : n < 2 ^ 64) :
    (∀ rest : Bytes, (∀ c ∈ rest.head?, isDigit c = false) → fs.lookup "amount" = some (.str (decStr n ++ rest)) → r.amount = some n) ∧
      (0 < n → fs.lookup "amount" = some (.str (45 :: decStr n)) → r.amount = some (2 ^ 64 - n)) := by
  obtain ⟨-, h2, -⟩ := readSend_parts h
  refine ⟨fun rest hr g => ?_, fun h0 g => ?_⟩
  · rw [optional_given g rfl, jsonUInt64, stoull_dec n hn rest hr] at h2
    exact (Res.ok.inj h2).symm
  · have : stoull (45 :: decStr n) = .ok (2 ^ 64 - n) := stoull_minus n h0 hn
    rw [optional_given g rfl, jsonUInt64, this] at h2
    exact (Res.ok.inj h2).symm

/-- **C128** violated: of the number of change outputs only the last eight bits are kept, and null is zero: asking for 256 is asking for none. -/
theorem change_outputs_violated (l : OnionLib) (fs : List (String × Json)) (r : SendAsk) (h : readSend l (.obj fs) = .ok r) :
    (∀ n : Nat, n < 2 ^ 32 → fs.lookup "change_outputs" = some (.int n) → r.outputs = n % 256) ∧
      (fs.lookup "change_outputs" = some .null → r.outputs = 0) := by
  obtain ⟨-, -, -, h4, -⟩ := readSend_parts h
  refine ⟨fun n hn g => ?_, fun g => ?_⟩
  · rw [outputs_given g hn] at h4
    exact (Res.ok.inj h4).symm
  · have : changeOutputs (.obj fs) = .ok 0 := by simp only [changeOutputs, g]; rfl
    rw [this] at h4
    exact (Res.ok.inj h4).symm

/-- **C128**: the same JSON given to estimate the fee is read as the same request, except that no change is counted when all is sent. -/
theorem estimate_reads_same (l : OnionLib) (fs : List (String × Json)) (r : SendAsk) (h : readSend l (.obj fs) = .ok r) :
    readEstimate (.obj fs) = .ok (r.token, ⟨r.amount, r.base, if r.amount.isNone then 0 else r.outputs, r.strategy, r.inputs⟩) := by
  obtain ⟨h1, h2, h3, h4, h5⟩ := readSend_parts h
  simp only [readEstimate, h1, h2, h3, h4, h5, Res.ok_bind, Res.pure_eq]

/-! ## Canceling and posting again -/

private theorem txId_given {fs : List (String × Json)} {n : Nat} (h : Gives fs "tx_id" n) (hn : n < 2 ^ 64) :
    txIdIn fs = .ok (n % 2 ^ 32) := by
  obtain ⟨v, e, hv, hr⟩ := gives_reads h hn
  simp [txIdIn, e, hv, hr, Res.ok_bind, Res.pure_eq]

private theorem cancel_call {fs : List (String × Json)} {t : Token} {n : Nat} (ht : Verif.Owner.tokenIn (.obj fs) = .ok t) (h : Gives fs "tx_id" n)
    (hn : n < 2 ^ 64) (db : WDB) : cancelCall (.obj fs) db = cancel (n % 2 ^ 32) db := by
  simp only [cancelCall, readCancel, ht, txId_given h hn, Res.ok_bind, Res.pure_eq]

/-- **C128** (partial: `cancel_other_violated`, `cancel_unknown_violated`): a request to cancel transaction `n`, the number below 2³², that
succeeds has canceled that transaction and changed no other. -/
theorem cancel_request_partial (fs : List (String × Json)) (t : Token) (n : Nat) (db db' : WDB) (hdb : Sane db) (x : WTx) (hx : x ∈ db.txs)
    (hid : x.id = n) (ht : Verif.Owner.tokenIn (.obj fs) = .ok t) (hg : Gives fs "tx_id" n) (hn : n < 2 ^ 32)
    (h : cancelCall (.obj fs) db = .ok db') :
    Cancelable x ∧ db'.txs = db.txs.map (fun r => if r.id = n then { x with type := if x.type = 6 then 4 else 3 } else r) := by
  rw [cancel_call ht hg (by omega), Nat.mod_eq_of_lt hn] at h
  obtain ⟨h1, -, h2, -⟩ := cancel_effect hdb hx hid h
  exact ⟨h1, h2⟩

/-- **C128**: a request to cancel or to repost that names no transaction is refused. -/
theorem unnamed_tx_refused (l : OnionLib) (fs : List (String × Json)) (t : Token) (db : WDB) (ht : Verif.Owner.tokenIn (.obj fs) = .ok t)
    (hg : fs.lookup "tx_id" = none ∨ fs.lookup "tx_id" = some .null) : cancelCall (.obj fs) db = .throw ∧ readRepost l (.obj fs) = .throw := by
  have h : txIdIn fs = .throw := by
    have hn : Json.isNull .null = true := rfl
    rcases hg with e | e <;> simp [txIdIn, e, hn]
  refine ⟨?_, ?_⟩
  · simp only [cancelCall, readCancel, ht, h, Res.ok_bind, Res.throw_bind]
  · simp only [readRepost, ht, h, Res.ok_bind, Res.throw_bind]

/-- **C128** violated: of the number only the last 32 bits count: asked to cancel `2 ^ 32 * k + n`, the wallet cancels `n`. -/
theorem cancel_other_violated (fs gs : List (String × Json)) (t t' : Token) (n k : Nat) (db : WDB) (ht : Verif.Owner.tokenIn (.obj fs) = .ok t)
    (ht' : Verif.Owner.tokenIn (.obj gs) = .ok t') (hg : Gives fs "tx_id" n) (hg' : Gives gs "tx_id" (2 ^ 32 * k + n)) (hk : 2 ^ 32 * k + n < 2 ^ 64) :
    cancelCall (.obj gs) db = cancelCall (.obj fs) db := by
  rw [cancel_call ht hg (by omega), cancel_call ht' hg' hk]
  congr 1
  omega

/-- **C128** violated: asked to cancel a transaction that does not exist, the wallet answers that it was done. -/
theorem cancel_unknown_violated (fs : List (String × Json)) (t : Token) (n : Nat) (db : WDB) (ht : Verif.Owner.tokenIn (.obj fs) = .ok t)
    (hg : Gives fs "tx_id" n) (hn : n < 2 ^ 32) (hx : ∀ x ∈ db.txs, x.id ≠ n) : cancelCall (.obj fs) db = .ok db := by
  rw [cancel_call ht hg (by omega), Nat.mod_eq_of_lt hn]
  have : db.txs.find? (fun t => t.id = n) = none := List.find?_eq_none.2 fun x h => by simpa using hx x h
  simp [cancel, this]

/-- **C128**: a request to post transaction `n` again answers SUCCESS exactly if the wallet has that transaction, finished, and the way asked for
took it; nothing in the wallet changes. -/
theorem repost_request (l : OnionLib) (W : World) (fs : List (String × Json)) (t : Token) (n : Nat) (m : PostMethod) (a : Option TorAddr) (p : Purse)
    (ht : Verif.Owner.tokenIn (.obj fs) = .ok t) (hg : Gives fs "tx_id" n) (hn : n < 2 ^ 32) (hm : readPost l (.obj fs) = .ok (m, a)) :
    ((repostCall l W (.obj fs) p).1 = .ok true ↔ ∃ x tx, p.db.txs.find? (fun x => x.id = n) = some x ∧ x.tx = some tx ∧ PutIn W m tx) ∧
      (repostCall l W (.obj fs) p).2.db = p.db := by
  have : repostCall l W (.obj fs) p = repost W m n p := by
    simp only [repostCall, readRepost, ht, txId_given hg (show n < 2 ^ 64 by omega), hm, Res.ok_bind, Res.pure_eq, Nat.mod_eq_of_lt hn]
  rw [this]
  exact ⟨(repost_exact W m n p).1, (repost_exact W m n p).2.2.2⟩

/-! ## Cases -/

/-- A request to send 1.5 from one coin, two change outputs, posted by Dandelion. -/
private def sampleAsk : SendAsk :=
  ⟨⟨5, List.replicate 32 9⟩, some 1500000000, 500000, 2, .custom, [List.replicate 33 8], some (str "someone"), some (.stem, none)⟩

private theorem sampleAsk_fits (l : OnionLib) : SendAskFits l sampleAsk :=
  ⟨by decide +kernel, by decide +kernel, by decide +kernel, by decide +kernel, by decide +kernel, by decide +kernel,
    by intro p hp a ha; cases hp; cases ha⟩

example (l : OnionLib) : readSend l (writeSend sampleAsk) = .ok sampleAsk := send_request_roundtrip l _ (sampleAsk_fits l)

/-- The same request with the amount and the change outputs as given. -/
private def sampleFields (amount : Json) (outputs : Json) : List (String × Json) :=
  [("session_token", .str (tokenText ⟨5, List.replicate 32 9⟩)), ("amount", amount), ("fee_base", .int 500000), ("change_outputs", outputs),
    ("selection_strategy", .obj [("strategy", .str (str "SMALLEST"))])]

private theorem sample_reads (l : OnionLib) (amount outputs : Json) (a : Option Nat) (n : Nat)
    (ha : optionally jsonUInt64 (.obj (sampleFields amount outputs)) "amount" = .ok a)
    (ho : changeOutputs (.obj (sampleFields amount outputs)) = .ok n) :
    readSend l (.obj (sampleFields amount outputs)) = .ok ⟨⟨5, List.replicate 32 9⟩, a, 500000, n, .smallest, [], none, none⟩ := by
  have ht := session_token_roundtrip ⟨5, List.replicate 32 9⟩ (by decide)
  have e1 : Verif.Owner.tokenIn (.obj (sampleFields amount outputs)) = .ok ⟨5, List.replicate 32 9⟩ := by
    have : required Json.asString (.obj (sampleFields amount outputs)) "session_token" = .ok (tokenText ⟨5, List.replicate 32 9⟩) :=
      required_given (v := .str (tokenText ⟨5, List.replicate 32 9⟩)) rfl rfl _
    simp only [Verif.Owner.tokenIn, this, Res.ok_bind, ht]
    rfl
  have e3 : required jsonUInt64 (.obj (sampleFields amount outputs)) "fee_base" = .ok 500000 := rfl
  have e5 : readCoins (.obj (sampleFields amount outputs)) = .ok (.smallest, []) := by
    have : readStrategy (.obj [("strategy", .str (str "SMALLEST"))]) = .ok (.smallest, []) := by decide +kernel
    rw [← this]
    exact required_given (f := readStrategy) rfl rfl
  have e6 : Verif.Owner.stringOpt (.obj (sampleFields amount outputs)) "address" = .ok none := rfl
  have e7 : optionally (readPost l) (.obj (sampleFields amount outputs)) "post_tx" = .ok none := rfl
  simp only [readSend, e1, ha, e3, ho, e5, e6, e7, Res.ok_bind, Res.pure_eq]

example (l : OnionLib) : ∃ r, readSend l (.obj (sampleFields (.str (decStr 1500000000)) (.int 3))) = .ok r ∧ r.amount = some 1500000000 ∧
    r.outputs = 3 :=
  ⟨_, sample_reads l _ _ _ _ (by rw [optional_given rfl rfl, json_nat_text _ (by decide)]; rfl) rfl, rfl, rfl⟩

/-- "1.5" is read as 1, "-1" as 2⁶⁴ − 1, and 256 change outputs as none. -/
example (l : OnionLib) :
    (∃ r, readSend l (.obj (sampleFields (.str (str "1.5")) (.int 256))) = .ok r ∧ r.amount = some 1 ∧ r.outputs = 0) ∧
      ∃ r, readSend l (.obj (sampleFields (.str (str "-1")) .null)) = .ok r ∧ r.amount = some (2 ^ 64 - 1) ∧ r.outputs = 0 :=
  ⟨⟨_, sample_reads l _ _ _ _ (by decide +kernel) rfl, rfl, rfl⟩, ⟨_, sample_reads l _ _ _ _ (by decide +kernel) rfl, rfl, rfl⟩⟩

private def sampleTxFields (n : Nat) : List (String × Json) :=
  [("session_token", .str (tokenText ⟨5, List.replicate 32 9⟩)), ("tx_id", .int n), ("method", .str (str "FLUFF"))]

private theorem sampleTx_token (n : Nat) : Verif.Owner.tokenIn (.obj (sampleTxFields n)) = .ok ⟨5, List.replicate 32 9⟩ := by
  have ht := session_token_roundtrip ⟨5, List.replicate 32 9⟩ (by decide)
  have : required Json.asString (.obj (sampleTxFields n)) "session_token" = .ok (tokenText ⟨5, List.replicate 32 9⟩) :=
    required_given (v := .str (tokenText ⟨5, List.replicate 32 9⟩)) rfl rfl _
  simp only [Verif.Owner.tokenIn, this, Res.ok_bind, ht]
  rfl

private theorem sampleTx_gives (n : Nat) : Gives (sampleTxFields n) "tx_id" n := .inl rfl

/-- A wallet with a receive in progress, number 3. -/
private def sampleDb : WDB := ⟨[], [⟨3, 5, none, none, 10, 0, none, none⟩], [], 0, 4, 0⟩

private theorem sampleDb_sane : Sane sampleDb := ⟨by decide, by decide, by decide, by intro o ho; cases ho⟩

private theorem sample_cancel : ∃ db', cancelCall (.obj (sampleTxFields 3)) sampleDb = .ok db' := by
  rw [cancel_call (sampleTx_token 3) (sampleTx_gives 3) (by decide)]
  exact ⟨⟨[], [⟨3, 3, none, none, 10, 0, none, none⟩], [], 0, 4, 0⟩, by decide +kernel⟩

example : ∃ db', cancelCall (.obj (sampleTxFields 3)) sampleDb = .ok db' ∧ db'.txs.map (·.type) = [3] := by
  obtain ⟨db', h⟩ := sample_cancel
  obtain ⟨-, h2⟩ := cancel_request_partial _ _ 3 _ _ sampleDb_sane ⟨3, 5, none, none, 10, 0, none, none⟩ (by decide) rfl (sampleTx_token 3)
    (sampleTx_gives 3) (by decide) h
  exact ⟨db', h, by rw [h2]; rfl⟩

example : cancelCall (.obj (sampleTxFields (2 ^ 32 * 7 + 3))) sampleDb = cancelCall (.obj (sampleTxFields 3)) sampleDb :=
  cancel_other_violated _ _ _ _ 3 7 _ (sampleTx_token _) (sampleTx_token _) (sampleTx_gives _) (sampleTx_gives _) (by decide)

example : cancelCall (.obj (sampleTxFields 4)) sampleDb = .ok sampleDb :=
  cancel_unknown_violated _ _ 4 _ (sampleTx_token _) (sampleTx_gives _) (by decide) (by decide)

example (l : OnionLib) : cancelCall (.obj [("session_token", .str (tokenText ⟨5, List.replicate 32 9⟩)), ("tx_id", .null)]) sampleDb = .throw := by
  refine (unnamed_tx_refused l _ ⟨5, List.replicate 32 9⟩ sampleDb ?_ (.inr rfl)).1
  have ht := session_token_roundtrip ⟨5, List.replicate 32 9⟩ (by decide)
  have : required Json.asString (.obj [("session_token", .str (tokenText ⟨5, List.replicate 32 9⟩)), ("tx_id", .null)]) "session_token" =
    .ok (tokenText ⟨5, List.replicate 32 9⟩) := required_given (v := .str (tokenText ⟨5, List.replicate 32 9⟩)) rfl rfl _
  simp only [Verif.Owner.tokenIn, this, Res.ok_bind, ht]
  rfl

example (l : OnionLib) : readPost l (.obj (sampleTxFields 3)) = .ok (.fluff, none) := by
  have : methodOf (str "FLUFF") = .ok .fluff := by decide +kernel
  have h : required Json.asString (.obj (sampleTxFields 3)) "method" = .ok (str "FLUFF") := required_given (v := .str (str "FLUFF")) rfl rfl _
  have h' : Verif.Owner.stringOpt (.obj (sampleTxFields 3)) "grinjoin_address" = .ok none := rfl
  simp only [readPost, h, h', this, Res.ok_bind, Res.pure_eq]
  rfl

end Verif.Props
