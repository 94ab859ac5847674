import Verif.Net.RemoteNode
import Verif.Props.Json
import Verif.Props.Rpc
import Verif.Props.Core

/-!
# C120: a wallet on a node elsewhere

Started with the address of a node, the wallet asks that node for heights, headers and coins, and hands it transactions.  What it sees is what
the node has.
-/
namespace Verif.Props
open Verif Verif.Codec Verif.Rpc Verif.Api Verif.Remote

/-! ## Times as text -/

private theorem year_day (doe : Int) (h0 : 0 ≤ doe) (h1 : doe < 146097) :
    0 ≤ (yearDay doe).1 ∧ (yearDay doe).1 ≤ 399 ∧ 0 ≤ (yearDay doe).2 ∧ (yearDay doe).2 ≤ 365 ∧
      (yearDay doe).1 * 365 + (yearDay doe).1 / 4 - (yearDay doe).1 / 100 + (yearDay doe).2 = doe := by
  unfold yearDay
  dsimp only
  generalize hc : (if doe / 36524 = 4 then 3 else doe / 36524) = c
  generalize hy : (if (doe - c * 36524) % 1461 / 365 = 4 then 3 else (doe - c * 36524) % 1461 / 365) = y
  have c1 : 0 ≤ c ∧ c ≤ 3 ∧ 0 ≤ doe - c * 36524 ∧ doe - c * 36524 ≤ 36524 := by split at hc <;> omega
  have y1 : 0 ≤ y ∧ y ≤ 3 ∧ 0 ≤ (doe - c * 36524) % 1461 - y * 365 ∧ (doe - c * 36524) % 1461 - y * 365 ≤ 365 := by split at hy <;> omega
  clear hc hy
  have hd : doe = doe - c * 36524 + c * 36524 := by omega
  generalize doe - c * 36524 = doc at hd c1 y1 ⊢
  have q : 0 ≤ doc / 1461 ∧ doc / 1461 ≤ 24 := by omega
  have f : (c * 100 + doc / 1461 * 4 + y) / 4 = c * 25 + doc / 1461 := by omega
  have g : (c * 100 + doc / 1461 * 4 + y) / 100 = c := by omega
  rw [f, g]
  omega

private theorem tm_ranges (s : Int) : 1 ≤ (gmTime s).mon ∧ (gmTime s).mon ≤ 12 ∧ 1 ≤ (gmTime s).day ∧ (gmTime s).day ≤ 31 ∧ 0 ≤ (gmTime s).hour ∧ (gmTime s).hour ≤ 23 ∧
    0 ≤ (gmTime s).min ∧ (gmTime s).min ≤ 59 ∧ 0 ≤ (gmTime s).sec ∧ (gmTime s).sec ≤ 59 := by
  obtain ⟨h1, h2, h3, h4, h5⟩ := year_day ((s / 86400 + 719468) % 146097) (by omega) (by omega)
  unfold gmTime
  dsimp only
  generalize yearDay ((s / 86400 + 719468) % 146097) = r at *
  refine ⟨?_, ?_, ?_, ?_, ?_, ?_, ?_, ?_, ?_, ?_⟩ <;> (try split) <;> omega

private theorem tm_back (s : Int) : secsOf (gmTime s) = s := by
  obtain ⟨h1, h2, h3, h4, h5⟩ := year_day ((s / 86400 + 719468) % 146097) (by omega) (by omega)
  rcases hr : yearDay ((s / 86400 + 719468) % 146097) with ⟨yoe, doy⟩
  rw [hr] at h1 h2 h3 h4 h5
  simp only at h1 h2 h3 h4 h5
  simp only [gmTime, hr, secsOf]
  clear hr
  generalize hm : (5 * doy + 2) / 153 = mp
  have m1 : 0 ≤ mp ∧ mp ≤ 11 := by omega
  have hyoe : ∀ e : Int, (yoe + e * 400) % 400 = yoe ∧ (yoe + e * 400) / 400 = e := by intro e; omega
  by_cases h : mp < 10
  · rw [if_pos h, if_neg (by omega : ¬ mp + 3 ≤ 2), if_neg (by omega : ¬ mp + 3 ≤ 2), if_pos (by omega), Int.add_zero, (hyoe _).1, (hyoe _).2]
    omega
  · rw [if_neg h, if_pos (by omega : mp - 9 ≤ 2), if_pos (by omega : mp - 9 ≤ 2), if_neg (by omega), Int.add_sub_cancel, (hyoe _).1, (hyoe _).2]
    omega
example : gmTime 0 = ⟨1970, 1, 1, 0, 0, 0⟩ ∧ gmTime 951782400 = ⟨2000, 2, 29, 0, 0, 0⟩ ∧ gmTime 1547560800 = ⟨2019, 1, 15, 14, 0, 0⟩ := by
  decide +kernel

private theorem tm_year (s : Int) (h0 : 0 ≤ s) (h1 : s < 253402300800) : 1000 ≤ (gmTime s).year ∧ (gmTime s).year ≤ 9999 := by
  obtain ⟨h1, h2, h3, h4, h5⟩ := year_day ((s / 86400 + 719468) % 146097) (by omega) (by omega)
  rcases hr : yearDay ((s / 86400 + 719468) % 146097) with ⟨yoe, doy⟩
  rw [hr] at h1 h2 h3 h4 h5
  simp only at h1 h2 h3 h4 h5
  simp only [gmTime, hr]
  clear hr
  have hera : 4 ≤ (s / 86400 + 719468) / 146097 ∧ (s / 86400 + 719468) / 146097 ≤ 24 := by omega
  by_cases hl : yoe ≤ 398 ∨ (s / 86400 + 719468) / 146097 ≤ 23
  · split <;> split <;> omega
  · have : yoe = 399 := by omega
    subst this
    have : doy ≤ 305 := by omega
    rw [if_pos (by omega : (5 * doy + 2) / 153 < 10), if_neg (by omega)]
    omega

private theorem pad2_read (n : Int) (lo hi : Nat) (rest : Bytes) (h0 : 0 ≤ n) (h1 : n ≤ 99) (hlo : lo ≤ n) (hhi : n ≤ hi) :
    takeNum 2 lo hi (pad2 n ++ rest) = some (n, rest) := by
  obtain ⟨k, rfl⟩ : ∃ k : Nat, n = k := ⟨n.toNat, by omega⟩
  have hk : k < 100 := by omega
  have d : ∀ k : Fin 100, (pad2 (k.val : Int)).takeWhile isDigit = pad2 (k.val : Int) ∧ decVal (pad2 (k.val : Int)) = k.val := by decide +kernel
  obtain ⟨d1, d2⟩ := d ⟨k, hk⟩
  have e : (pad2 (k : Int) ++ rest).take 2 = pad2 (k : Int) := by simp [pad2]
  unfold takeNum
  simp only
  rw [e, d1, d2, if_neg (by
    rintro (x | x | x)
    · simp [pad2] at x
    · simp only at x; omega
    · simp only at x; omega)]
  simp [pad2]

private theorem year_read (y : Int) (rest : Bytes) (h0 : 1000 ≤ y) (h1 : y ≤ 9999) :
    takeNum 4 0 9999 (decStr y.toNat ++ rest) = some (y, rest) := by
  obtain ⟨k, rfl⟩ : ∃ k : Nat, y = k := ⟨y.toNat, by omega⟩
  have hl : (decStr k).length = 4 := by
    rw [decStr, if_neg (by omega), List.length_append, decStr, if_neg (by omega), List.length_append, decStr, if_neg (by omega),
      List.length_append, decStr, if_pos (by omega)]
    rfl
  obtain ⟨f1, f2, f3⟩ := decStr_facts k
  have tw : (decStr k).takeWhile isDigit = decStr k := by
    have := List.takeWhile_append_of_pos (l₂ := []) f2
    simpa using this
  unfold takeNum
  simp only [Int.toNat_natCast]
  rw [List.take_append_of_le_length (by omega), List.take_of_length_le (by omega), tw, f3, if_neg (by
    rintro (x | x | x)
    · exact f1 x
    · omega
    · omega)]
  simp

/-- What was written as text is read as it was, for years of four digits, whatever follows it. -/
private theorem get_put (t : Tm) (rest : Bytes) (hy : 1000 ≤ t.year ∧ t.year ≤ 9999) (hm : 1 ≤ t.mon ∧ t.mon ≤ 12) (hd : 1 ≤ t.day ∧ t.day ≤ 31)
    (hh : 0 ≤ t.hour ∧ t.hour ≤ 23) (hi : 0 ≤ t.min ∧ t.min ≤ 59) (hs : 0 ≤ t.sec ∧ t.sec ≤ 59) : getTime (putTime t ++ rest) = t := by
  have e : putTime t ++ rest = decStr t.year.toNat ++ (45 :: (pad2 t.mon ++ (45 :: (pad2 t.day ++ (32 :: (pad2 t.hour ++ (58 :: (pad2 t.min ++
      (58 :: (pad2 t.sec ++ rest)))))))))) := by simp [putTime]
  have c : ∀ (x : UInt8) (s : Bytes), takeChar x (x :: s) = some s := by intro x s; simp [takeChar]
  unfold getTime
  rw [e, year_read _ _ hy.1 hy.2]
  simp only [c, Option.bind_eq_bind, Option.bind_some]
  rw [pad2_read _ _ _ _ (by omega) (by omega) (by omega) (by omega)]
  simp only [c, Option.bind_some]
  rw [pad2_read _ _ _ _ (by omega) (by omega) (by omega) (by omega)]
  simp only [c, Option.bind_some]
  rw [pad2_read _ _ _ _ (by omega) (by omega) (by omega) (by omega)]
  simp only [c, Option.bind_some]
  rw [pad2_read _ _ _ _ (by omega) (by omega) (by omega) (by omega)]
  simp only [c, Option.bind_some]
  rw [pad2_read _ _ _ _ (by omega) (by omega) (by omega) (by omega)]

/-- A time the node writes as text, in the years 1970 to 9999, is read by the wallet as another: the node's local time, taken for local time
without summer time where the wallet is. -/
theorem time_text (zn zw : Zone) (t : Int) (h0 : 0 ≤ t + zn.ahead t) (h1 : t + zn.ahead t < 253402300800) :
    timeFromString zw (formatUtc zn t) = t + zn.ahead t - zw.standard := by
  obtain ⟨r1, r2, r3, r4, r5, r6, r7, r8, r9, r10⟩ := tm_ranges (t + zn.ahead t)
  unfold timeFromString formatUtc Zone.mkTime Zone.localTime
  rw [get_put _ _ (tm_year _ h0 h1) ⟨r1, r2⟩ ⟨r3, r4⟩ ⟨r5, r6⟩ ⟨r7, r8⟩ ⟨r9, r10⟩, tm_back]

/-! ## Headers -/

private theorem req_obj {α : Type} (f : Json → Res α) (fs : List (String × Json)) (key : String) (v : Json)
    (h : fs.lookup key = some v) (hv : v.isNull = false) : required f (.obj fs) key = f v := by
  cases v <;> simp_all [required, getRequired, Json.isNull, Json.get]

private theorem json_jn (n : Nat) (h : n < 2 ^ 64) : jsonUInt64 (jn n) = .ok n := json_nat_int n h

private theorem nonces_read (l : List Nat) (h : ∀ n ∈ l, n < 2 ^ 64) : noncesFromJson (l.map jn) = .ok l := by
  induction l with
  | nil => rfl
  | cons a l ih =>
    have ha := h a (by simp)
    rw [List.map_cons, noncesFromJson, ih fun n hn => h n (by simp [hn])]
    have : asUInt64 (jn a) = .ok a := by
      rw [jn, asUInt64, if_pos (by omega), Int.toNat_natCast]
    rw [this]
    rfl

/-- What is read of a header written as JSON, the proof of work being made anew. -/
private theorem header_read (H : Bytes → Bytes) (zn zw : Zone) (h : Header) (hv : h.version < 2 ^ 16) (hh : h.height < 2 ^ 64)
    (hs : ∀ b ∈ [h.prevHash, h.prevRoot, h.outputRoot, h.rangeProofRoot, h.kernelRoot, h.offset, h.pow.hash], b.length = 32)
    (hn : ∀ n ∈ [h.outputMMRSize, h.kernelMMRSize, h.totalDifficulty, h.nonce], n < 2 ^ 64) (hc : h.scaling < 2 ^ 32)
    (he : h.pow.edgeBits < 256) (hne : h.pow.nonces ≠ []) (h64 : ∀ n ∈ h.pow.nonces, n < 2 ^ 64)
    (t0 : 0 ≤ h.timestamp + zn.ahead h.timestamp) (t1 : h.timestamp + zn.ahead h.timestamp < 253402300800) :
    headerFromJson H zw (headerToJson zn h) =
      (powMake H h.pow.edgeBits h.pow.nonces >>= fun p => .ok { h with timestamp := h.timestamp + zn.ahead h.timestamp - zw.standard, pow := p }) := by
  simp only [List.mem_cons, List.not_mem_nil, or_false, forall_eq_or_imp, forall_eq] at hs hn
  obtain ⟨s1, s2, s3, s4, s5, s6, s7⟩ := hs
  obtain ⟨n1, n2, n3, n4⟩ := hn
  have hx : ∀ b : Bytes, b.length = 32 → jsonBytes 32 (jx b) = .ok b := by
    intro b hb
    rw [jx, json_bytes_hex, if_pos hb]
  have hi : ∀ n : Nat, n < 2 ^ 64 → jsonUInt64 (jn n) = .ok n := fun n h => json_nat_int n h
  unfold headerFromJson headerToJson uintCut
  rw [req_obj _ _ "hash" (jx h.pow.hash) rfl rfl, hx _ s7, Res.ok_bind, req_obj _ _ "height" (jn h.height) rfl rfl, hi _ hh, Res.ok_bind,
    req_obj _ _ "version" (jn h.version) rfl rfl, hi _ (by omega), Res.ok_bind, Res.pure_eq, Res.ok_bind, Nat.mod_eq_of_lt hv,
    req_obj _ _ "total_kernel_offset" (jx h.offset) rfl rfl, hx _ s6, Res.ok_bind,
    req_obj _ _ "secondary_scaling" (jn h.scaling) rfl rfl, hi _ (by omega), Res.ok_bind, Res.pure_eq, Res.ok_bind, Nat.mod_eq_of_lt hc,
    req_obj _ _ "total_difficulty" (jn h.totalDifficulty) rfl rfl, hi _ n3, Res.ok_bind,
    req_obj _ _ "nonce" (jn h.nonce) rfl rfl, hi _ n4, Res.ok_bind,
    req_obj _ _ "timestamp" (.str (formatUtc zn h.timestamp)) rfl rfl, Json.asString, Res.ok_bind,
    req_obj _ _ "kernel_root" (jx h.kernelRoot) rfl rfl, hx _ s5, Res.ok_bind,
    req_obj _ _ "kernel_mmr_size" (jn h.kernelMMRSize) rfl rfl, hi _ n2, Res.ok_bind,
    req_obj _ _ "output_root" (jx h.outputRoot) rfl rfl, hx _ s3, Res.ok_bind,
    req_obj _ _ "output_mmr_size" (jn h.outputMMRSize) rfl rfl, hi _ n1, Res.ok_bind,
    req_obj _ _ "range_proof_root" (jx h.rangeProofRoot) rfl rfl, hx _ s4, Res.ok_bind,
    req_obj _ _ "prev_root" (jx h.prevRoot) rfl rfl, hx _ s2, Res.ok_bind,
    req_obj _ _ "previous" (jx h.prevHash) rfl rfl, hx _ s1, Res.ok_bind,
    req_obj _ _ "edge_bits" (jn h.pow.edgeBits) rfl rfl, hi _ (by omega), Res.ok_bind, Res.pure_eq, Res.ok_bind,
    Nat.mod_eq_of_lt (show h.pow.edgeBits < 2 ^ 8 by omega)]
  have hg : getRequired (.obj [("height", jn h.height), ("hash", jx h.pow.hash), ("version", jn h.version), ("timestamp_raw", .int h.timestamp),
      ("timestamp", .str (formatUtc zn h.timestamp)), ("previous", jx h.prevHash), ("prev_root", jx h.prevRoot), ("kernel_root", jx h.kernelRoot),
      ("output_root", jx h.outputRoot), ("range_proof_root", jx h.rangeProofRoot), ("output_mmr_size", jn h.outputMMRSize),
      ("kernel_mmr_size", jn h.kernelMMRSize), ("total_kernel_offset", jx h.offset), ("secondary_scaling", jn h.scaling),
      ("total_difficulty", jn h.totalDifficulty), ("nonce", jn h.nonce), ("edge_bits", jn h.pow.edgeBits),
      ("cuckoo_solution", Json.elements (h.pow.nonces.map jn))]) "cuckoo_solution" = .ok (.arr (h.pow.nonces.map jn)) := by
    cases hp : h.pow.nonces with
    | nil => exact absurd hp hne
    | cons a l => rfl
  rw [hg, Res.ok_bind, members, nonces_read _ h64, Res.ok_bind, time_text zn zw _ t0 t1]
  rfl

/-- Spec: a header a node can have, with a time of the years 1970 to 9999 where the node is. -/
structure Told (H : Bytes → Bytes) (zn : Zone) (h : Header) : Prop where
  valid : ValidHeader H h
  hash : h.pow.hash.length = 32
  first : 0 ≤ h.timestamp + zn.ahead h.timestamp
  last : h.timestamp + zn.ahead h.timestamp < 253402300800

/-- The header as the wallet has it: all but the time. -/
def retimed (zn zw : Zone) (h : Header) : Header := { h with timestamp := h.timestamp + zn.ahead h.timestamp - zw.standard }

private theorem header_back (H : Bytes → Bytes) (zn zw : Zone) (h : Header) (ht : Told H zn h) :
    headerFromJson H zw (headerToJson zn h) = .ok (retimed zn zw h) := by
  have v := ht.valid
  have hl : h.pow.nonces.length = 42 := v.nonces.1
  rw [header_read H zn zw h v.version v.height ?_ ?_ v.scaling (by have := v.edgeBits; omega) ?_ ?_ ht.first ht.last, v.powHash, Res.ok_bind]
  · rfl
  · simp only [List.mem_cons, List.not_mem_nil, or_false, forall_eq_or_imp, forall_eq]
    exact ⟨v.prevHash, v.prevRoot, v.outputRoot, v.rangeProofRoot, v.kernelRoot, v.offset, ht.hash⟩
  · simp only [List.mem_cons, List.not_mem_nil, or_false, forall_eq_or_imp, forall_eq]
    exact ⟨v.outputMMRSize, v.kernelMMRSize, v.totalDifficulty, v.nonce⟩
  · intro e; rw [e] at hl; cases hl
  · intro n hn
    have := v.nonces.2 n hn
    exact Nat.lt_trans this (Nat.pow_lt_pow_right (by omega) (by have := v.edgeBits; omega))

/-! ## Calls -/

private theorem no_result {r r' : Response} {j : Json} (hr : r.result = none) (hj : r.toJson = .ok j) (h : responseFromJson j = .ok r') :
    r'.result = none := by
  obtain ⟨i, v, e⟩ := r
  cases hr
  cases e with
  | none => cases hj
  | some e =>
    injection hj with hj
    subst hj
    rw [responseFromJson] at h
    obtain ⟨o, -, h⟩ := Res.bind_eq_ok.mp h
    cases o with
    | none => cases h
    | some i' =>
      obtain ⟨o, -, h⟩ := Res.bind_eq_ok.mp h
      rcases o with _ | (_ | _ | _ | v | _ | _)
      case some.str =>
        simp only at h
        split at h
        · cases h
        · obtain ⟨o, h0, h⟩ := Res.bind_eq_ok.mp h
          have : o = none := by
            have : getOptional (.obj [("jsonrpc", .str (str "2.0")), ("id", i), ("error", e.toJson)]) "result" = .ok none := rfl
            rw [this] at h0
            injection h0 with h0
            exact h0.symm
          subst this
          obtain ⟨o, -, h⟩ := Res.bind_eq_ok.mp h
          cases o with
          | none => injection h with h; rw [← h]
          | some x =>
            obtain ⟨o, -, h⟩ := Res.bind_eq_ok.mp h
            injection h with h
            rw [← h]
      all_goals cases h

section
variable (D : DigestNum) (ops : SigOps) (n : RemoteNode)

private theorem answered {m : Bytes} {meth : Method} (id : Nat) (ps : Option Json) (hps : ∀ p, ps = some p → p.isNull = false) (hm : m ≠ [])
    (hmeth : methods D ops n m = some meth) :
    (∀ v, meth.handle ⟨jn id, m, ps⟩ = .ok (.inl v) → v.isNull = false →
      callNode D ops n FOREIGN ⟨jn id, m, ps⟩ = .ok ⟨jn id, some v, none⟩) ∧
    (∀ e, meth.handle ⟨jn id, m, ps⟩ = .ok (.inr e) → -2 ^ 31 ≤ e.code → e.code < 2 ^ 31 →
      ∃ e', callNode D ops n FOREIGN ⟨jn id, m, ps⟩ = .ok ⟨jn id, none, some e'⟩) := by
  obtain ⟨h1, h2⟩ := call_round_trip (methods D ops n) ⟨jn id, m, ps⟩ meth rfl hm hps hmeth
  constructor
  · intro v hv hn
    obtain ⟨j, a, b⟩ := h1 v hv hn
    rw [callNode, if_pos rfl, a, Res.ok_bind, b]
  · intro e he c1 c2
    obtain ⟨j, e', a, b, -⟩ := h2 e he c1 c2
    exact ⟨e', by rw [callNode, if_pos rfl, a, Res.ok_bind, b]⟩

private theorem ok_read (v : Json) (h : v.isNull = false) : getRequired (okJson v) "Ok" = .ok v := by
  simp [getRequired, okJson, Json.isNull, Json.get, Res.ok_bind]
  cases v <;> simp_all [Json.isNull]

private theorem lookup_tip : methods D ops n (str "get_tip") = some ⟨false, getTip n⟩ := by
  rw [methods, if_neg (by decide), if_pos rfl]

private theorem lookup_header : methods D ops n (str "get_header") = some ⟨false, getHeader n⟩ := by
  rw [methods, if_neg (by decide), if_neg (by decide), if_pos rfl]

private theorem lookup_push : methods D ops n (str "push_transaction") = some ⟨false, pushTransaction D ops n⟩ := by
  rw [methods, if_neg (by decide), if_neg (by decide), if_neg (by decide), if_pos rfl]

/-- **C120**: the height a wallet gets from a node elsewhere is that of the tip of the node's chain. -/
theorem remote_height (id : Nat) (hh : n.tip.height < 2 ^ 64) : chainHeight (callNode D ops n) id = .ok n.tip.height := by
  have := (answered D ops n id none (by simp) (by decide) (lookup_tip D ops n)).1 _ rfl rfl
  rw [chainHeight, ask, invoke, this, Res.ok_bind]
  simp only
  rw [ok_read _ rfl, Res.ok_bind]
  rw [req_obj _ _ "height" (jn n.tip.height) rfl rfl, json_jn _ hh]

private theorem pick_number (f : Nat → Option Header) (k : Nat) (hk : k < 2 ^ 64) : pick jsonUInt64 f (jn k) none = .ok (f k) := by
  have : (jn k).isNull = false := rfl
  unfold pick
  rw [this, json_jn k hk]
  rfl

private theorem pick_null {α β : Type} (conv : Json → Res α) (f : α → Option β) (x : Option β) : pick conv f .null x = .ok x := rfl

private theorem rpc_header (k : Nat) (hk : k < 2 ^ 64) :
    n.chain.rpcHeader (jn k) .null .null = .ok (n.chain.headerByHeight k .confirmed) := by
  unfold Node.rpcHeader
  rw [pick_number _ k hk, Res.ok_bind, pick_null, Res.ok_bind, pick_null]

private theorem get_header (i : Json) (m : Bytes) (a b c : Json) (x : Option Header) (h : n.chain.rpcHeader a b c = .ok x) :
    getHeader n ⟨i, m, some (.arr [a, b, c])⟩ = .ok (match x with
      | some h => .inl (okJson (headerToJson n.zone h))
      | none => .inr (typedError (str "NOT_FOUND") (str "Header not found"))) := by
  simp only [getHeader, h]
  cases x <;> rfl

private theorem header_asked (id k : Nat) (hk : k < 2 ^ 64) :
    (∀ h, n.chain.headerByHeight k .confirmed = some h →
      ask (callNode D ops n) id (str "get_header") (some (.arr [jn k, .null, .null])) = .ok (headerToJson n.zone h)) ∧
    (n.chain.headerByHeight k .confirmed = none →
      ask (callNode D ops n) id (str "get_header") (some (.arr [jn k, .null, .null])) = .throw) := by
  have hr := rpc_header n k hk
  have ha := answered D ops n id (some (.arr [jn k, .null, .null])) (fun p h => Option.some.inj h ▸ rfl) (by decide)
    (lookup_header D ops n)
  dsimp only at ha
  constructor
  · intro h hf
    rw [hf] at hr
    have hg := get_header n (jn id) (str "get_header") (jn k) .null .null (some h) hr
    dsimp only at hg
    have := ha.1 (okJson (headerToJson n.zone h)) hg rfl
    rw [ask, invoke, this, Res.ok_bind]
    exact ok_read _ rfl
  · intro hf
    rw [hf] at hr
    have hg := get_header n (jn id) (str "get_header") (jn k) .null .null none hr
    dsimp only at hg
    obtain ⟨e', this⟩ := ha.2 (typedError (str "NOT_FOUND") (str "Header not found")) hg (by simp [typedError]) (by simp [typedError])
    rw [ask, invoke, this, Res.ok_bind]

/-- **C120**, what holds of headers: what the wallet gets for a height is the header the node has on its chain there, with all but the time as it
is; and an exception if there is none.  The time is the header's exactly if the node's clock was ahead of UTC at that time by what the wallet's is
without summer time.  The rest fails: `remote_time_violated`. -/
theorem remote_header_partial (H : Bytes → Bytes) (zw : Zone) (id k : Nat) (hk : k < 2 ^ 64) :
    (∀ h, n.chain.headerByHeight k .confirmed = some h → Told H n.zone h →
      blockHeader H zw (callNode D ops n) id k = .ok (retimed n.zone zw h) ∧
      (blockHeader H zw (callNode D ops n) id k = .ok h ↔ n.zone.ahead h.timestamp = zw.standard)) ∧
    (n.chain.headerByHeight k .confirmed = none → blockHeader H zw (callNode D ops n) id k = .throw) := by
  constructor
  · intro h hf ht
    have e : blockHeader H zw (callNode D ops n) id k = .ok (retimed n.zone zw h) := by
      rw [blockHeader, (header_asked D ops n id k hk).1 h hf, Res.ok_bind, header_back H n.zone zw h ht]
    refine ⟨e, ?_⟩
    rw [e]
    constructor
    · intro x
      have := congrArg Header.timestamp (Res.ok.inj x)
      simp only [retimed] at this
      omega
    · intro x
      have : h.timestamp + n.zone.ahead h.timestamp - zw.standard = h.timestamp := by omega
      rw [retimed, this]
  · intro hf
    rw [blockHeader, (header_asked D ops n id k hk).2 hf]
    rfl

/-- **C120**, what holds of the tip: the header the wallet takes for the tip is that of the node's tip, but for the time, if the node's chain does
not change between its two calls. -/
theorem remote_tip_partial (H : Bytes → Bytes) (zw : Zone) (id : Nat) (hf : n.chain.headerByHeight n.tip.height .confirmed = some n.tip)
    (ht : Told H n.zone n.tip) : tipHeader H zw (callNode D ops n) id = .ok (retimed n.zone zw n.tip) := by
  rw [tipHeader, remote_height D ops n id ht.valid.height, Res.ok_bind]
  exact ((remote_header_partial D ops n H zw (id + 1) n.tip.height ht.valid.height).1 n.tip hf ht).1

/-- **C120**, what holds of posting to a node of this program: the transaction handed to the node's pool is the one posted, for the pool that was
asked for, and the wallet is told `true` exactly if the pool took it.  The rest fails: `remote_refused_violated`. -/
theorem remote_post_partial (id : Nat) (tx : Tx) (fluff : Bool) (ht : TxTyped D ops tx) (hc : TxCarried tx) :
    (∃ j, txToJson ops tx = .ok j ∧ handed D ops ⟨jn id, str "push_transaction", some (.arr [j, .bool fluff])⟩ = some (fluff, tx)) ∧
    (postTransaction ops (callNode D ops n) id tx fluff = .ok true ↔ n.add fluff tx = .ok true) ∧
    (n.add fluff tx = .ok false → postTransaction ops (callNode D ops n) id tx fluff = .ok false) := by
  obtain ⟨j, h1, h2⟩ := Res.bind_eq_ok.mp ((tx_json_roundtrip_iff_partial D ops tx ht).mpr hc)
  have hjn : j.isNull = false := by
    rw [txToJson] at h1
    obtain ⟨b, -, h1⟩ := Res.bind_eq_ok.mp h1
    injection h1 with h1
    rw [← h1]
    rfl
  have hp : pushAsks D ops (some (.arr [j, .bool fluff])) = some (.ok (fluff, tx)) := by
    simp only [pushAsks, hjn, h2, Res.ok_bind, asBool, Res.pure_eq]
    rfl
  have ha := answered D ops n id (some (.arr [j, .bool fluff])) (fun p h => Option.some.inj h ▸ rfl) (by decide)
    (lookup_push D ops n)
  have e : ∀ r, callNode D ops n FOREIGN ⟨jn id, str "push_transaction", some (.arr [j, .bool fluff])⟩ = .ok r →
      postTransaction ops (callNode D ops n) id tx fluff = .ok r.result.isSome := by
    intro r hr
    rw [postTransaction, h1, Res.ok_bind, invoke, hr, Res.ok_bind, Res.pure_eq]
  have ef : n.add fluff tx = .ok false → postTransaction ops (callNode D ops n) id tx fluff = .ok false := by
    intro hadd
    obtain ⟨e', he⟩ := ha.2 (typedError (str "TX_POOL_ERROR") (str "Failed to submit transaction to the transaction pool"))
      (by simp only [pushTransaction, hp, hadd]) (by simp [typedError]) (by simp [typedError])
    exact e _ he
  refine ⟨⟨j, h1, by simp only [handed, hp]⟩, ⟨?_, ?_⟩, ef⟩
  · intro hpost
    cases hadd : n.add fluff tx with
    | ok b =>
      cases b with
      | true => rfl
      | false => rw [ef hadd] at hpost; cases hpost
    | error f =>
      exfalso
      rw [postTransaction, h1, Res.ok_bind, invoke] at hpost
      obtain ⟨r, hr, hpost⟩ := Res.bind_eq_ok.mp hpost
      injection hpost with hpost
      have hreq : parseRequest (.value (Request.toJson ⟨jn id, str "push_transaction", some (.arr [j, .bool fluff])⟩)) =
          .ok ⟨jn id, str "push_transaction", some (.arr [j, .bool fluff])⟩ := by
        rfl
      have hs : ∃ r0 : Response, r0.result = none ∧ r0.toJson >>= responseFromJson = .ok r := by
        refine ⟨(serve (methods D ops n) (.value (Request.toJson ⟨jn id, str "push_transaction", some (.arr [j, .bool fluff])⟩))).1, ?_, ?_⟩
        · rw [serve, hreq]
          simp only [lookup_push, pushTransaction, hp, hadd]
          cases f <;> rfl
        · rw [callNode, if_pos rfl] at hr
          exact hr
      obtain ⟨r0, h0, hs⟩ := hs
      obtain ⟨j0, hj0, hs⟩ := Res.bind_eq_ok.mp hs
      rw [no_result h0 hj0 hs] at hpost
      cases hpost
  · intro hadd
    exact e _ (ha.1 (okJson .null) (by simp only [pushTransaction, hp, hadd]) rfl)

/-! ## What fails -/

/-- **C120** is violated: a wallet does not start on a node elsewhere, whatever the node. -/
theorem remote_start_violated (id : Nat) : create (callNode D ops n) id = .throw := by
  rw [create, invoke, callNode, if_neg (by decide)]
  rfl

private theorem unserved (id : Nat) (m : Bytes) (ps : Option Json) (hps : ∀ p, ps = some p → p.isNull = false) (hm : m ≠ [])
    (hno : methods D ops n m = none) : ask (callNode D ops n) id m ps = .throw := by
  have hreq : parseRequest (.value (Request.toJson ⟨jn id, m, ps⟩)) = .ok ⟨jn id, m, ps⟩ := by
    cases ps with
    | none => exact (request_read _ _).2 ⟨rfl, rfl, rfl, rfl, hm, rfl⟩
    | some p =>
      refine (request_read _ _).2 ⟨rfl, rfl, rfl, rfl, hm, ?_⟩
      have h1 := hps p rfl
      show some p = if p.isNull then none else some p
      rw [h1]; rfl
  rw [ask, invoke, callNode, if_pos rfl, serve, hreq]
  simp only [hno]
  rfl

/-- **C120** is violated: of the wallet's coins a node of this program tells nothing, and which coins are asked for is not told to any node. -/
theorem remote_coins_violated (id : Nat) (commits : List Bytes) :
    outputsByCommitment (callNode D ops n) id commits = .throw ∧
    ∀ (call : Call) (others : List Bytes), outputsByCommitment call id commits = outputsByCommitment call id others := by
  refine ⟨?_, fun _ _ => rfl⟩
  rw [outputsByCommitment, unserved D ops n id _ none (by simp) (by decide) (by
    rw [methods, if_neg (by decide), if_neg (by decide), if_neg (by decide), if_neg (by decide), if_neg (by decide)])]
  rfl

/-- **C120** is violated: a wallet cannot scan the coins of a node of this program. -/
theorem remote_scan_violated (id start most : Nat) : outputsByIndex (callNode D ops n) id start most = .throw := by
  rw [outputsByIndex]
  exact unserved D ops n id _ _ (fun p h => Option.some.inj h ▸ rfl) (by decide) (by
    rw [methods, if_neg (by decide), if_neg (by decide), if_neg (by decide), if_neg (by decide), if_neg (by decide)])

/-- **C120** is violated: where the node's clock was ahead of UTC by other than the wallet's, in summer in one place for one, the wallet gets a
header with a time the header does not have. -/
theorem remote_time_violated (H : Bytes → Bytes) (zw : Zone) (id k : Nat) (h : Header) (hk : k < 2 ^ 64)
    (hf : n.chain.headerByHeight k .confirmed = some h) (ht : Told H n.zone h) (hz : n.zone.ahead h.timestamp ≠ zw.standard) :
    ∃ h', blockHeader H zw (callNode D ops n) id k = .ok h' ∧ h'.timestamp ≠ h.timestamp := by
  refine ⟨_, ((remote_header_partial D ops n H zw id k hk).1 h hf ht).1, ?_⟩
  simp only [retimed]
  omega

/-- **C120** is violated: a node that refuses a transaction with a result that says so, as nodes of another program do, is taken to have it. -/
theorem remote_refused_violated (id : Nat) (tx : Tx) (fluff : Bool) (why : Json) (ht : TxTyped D ops tx) (hc : TxCarried tx) :
    postTransaction ops (fun _ r => .ok ⟨r.id, some (.obj [("Err", why)]), none⟩) id tx fluff = .ok true := by
  obtain ⟨j, h1, h2⟩ := Res.bind_eq_ok.mp ((tx_json_roundtrip_iff_partial D ops tx ht).mpr hc)
  rw [postTransaction, h1, Res.ok_bind]
  rfl

end

/-- **C120** is violated: the wallet trusts the node with its memory.  A header with one nonce too many is written out of bounds. -/
theorem remote_header_overflow_violated (H : Bytes → Bytes) (zn zw : Zone) (id k : Nat) (h : Header) (ht : Told H zn h) :
    blockHeader H zw (fun _ r => .ok ⟨r.id, some (okJson (headerToJson zn { h with pow := ⟨31, List.replicate 43 (2 ^ 30), h.pow.hash⟩ })), none⟩)
      id k = .ub := by
  have v := ht.valid
  have e : blockHeader H zw (fun _ r => .ok ⟨r.id, some (okJson (headerToJson zn { h with pow := ⟨31, List.replicate 43 (2 ^ 30), h.pow.hash⟩ })), none⟩)
      id k = headerFromJson H zw (headerToJson zn { h with pow := ⟨31, List.replicate 43 (2 ^ 30), h.pow.hash⟩ }) := rfl
  have hp : serCycle 31 (List.replicate 43 (2 ^ 30)) = .ub := by decide +kernel
  have := header_read H zn zw { h with pow := ⟨31, List.replicate 43 (2 ^ 30), h.pow.hash⟩ } v.version v.height (by
      simp only [List.mem_cons, List.not_mem_nil, or_false, forall_eq_or_imp, forall_eq]
      exact ⟨v.prevHash, v.prevRoot, v.outputRoot, v.rangeProofRoot, v.kernelRoot, v.offset, ht.hash⟩) (by
      simp only [List.mem_cons, List.not_mem_nil, or_false, forall_eq_or_imp, forall_eq]
      exact ⟨v.outputMMRSize, v.kernelMMRSize, v.totalDifficulty, v.nonce⟩) v.scaling (by simp) (by simp) (by simp) ht.first ht.last
  rw [e, this, powMake]
  simp only [hp]
  rfl

/-! ## The hypotheses are met -/

/-- A place an hour ahead of UTC, two in the summer of 2020. -/
private def town : Zone := ⟨fun t => if 1585443600 ≤ t ∧ t < 1603587600 then 7200 else 3600, 3600⟩

private def sigs : SigOps := ⟨fun c => some c, fun s => if s.length = 64 then some s else none⟩

private def aTx : Tx :=
  ⟨List.replicate 32 1, [⟨0, List.replicate 33 8⟩], [⟨1, List.replicate 33 9, List.replicate 675 1⟩],
    [⟨2, ⟨0, 7000⟩, 123456, List.replicate 33 4, List.replicate 64 5⟩]⟩

example (D : DigestNum) : TxTyped D sigs aTx ∧ TxCarried aTx := by
  constructor
  · constructor <;> simp [aTx, sigs, -List.reduceReplicate]
  · constructor <;> simp [aTx, -List.reduceReplicate]

private theorem a_header (t : Int) (h0 : 0 ≤ t) (h1 : t < 2 ^ 33) :
    ∃ h : Header, Told (fun _ => List.replicate 32 3) town h ∧ h.timestamp = t ∧ h.height = 1 := by
  obtain ⟨p, _, hp1, _, _⟩ := pow_roundtrip (fun _ => List.replicate 32 3) 31 (by omega) (by omega) (List.range 42)
    ⟨by simp, by intro x hx; simp at hx; omega⟩
  have hpe : p.edgeBits = 31 ∧ p.nonces = List.range 42 ∧ p.hash = List.replicate 32 3 := by
    unfold powMake at hp1
    obtain ⟨c, _, hc⟩ := Res.bind_eq_ok.mp hp1
    injection hc with hc
    subst hc
    exact ⟨rfl, rfl, rfl⟩
  let z := List.replicate 32 (5 : UInt8)
  have hz : 3600 ≤ town.ahead t ∧ town.ahead t ≤ 7200 := by
    simp only [town]
    split <;> omega
  refine ⟨⟨5, 1, t, z, z, z, z, z, z, 7, 4, 1000, 1, 99, p⟩, ⟨?_, ?_, ?_, ?_⟩, rfl, rfl⟩
  · constructor <;> simp [z, hpe.1]
    · omega
    · simp only [ValidNonces, hpe.2.1]
      refine ⟨by simp, ?_⟩
      intro x hx
      simp at hx
      omega
    · rw [hpe.2.1]; exact hp1
  · rw [hpe.2.2]; rfl
  · simp only; omega
  · simp only; omega

/-- A node that has a header of January and one that has a header of July, and its own wallet, in the same place. -/
example (t : Int) (h0 : 0 ≤ t) (h1 : t < 2 ^ 33) : ∃ (n : RemoteNode) (h : Header), n.zone = town ∧ h.timestamp = t ∧
    n.chain.headerByHeight 1 .confirmed = some h ∧ n.tip = h ∧ n.tip.height = 1 ∧ Told (fun _ => List.replicate 32 3) n.zone h := by
  obtain ⟨h, ht, e, e'⟩ := a_header t h0 h1
  exact ⟨⟨⟨⟨fun _ => none, fun _ => none, fun _ => none, fun _ => some h⟩, [[1], [2]], []⟩, h, h, town, [], fun _ _ => .ok true, fun _ => none⟩, h, rfl,
    e, rfl, rfl, e', ht⟩

example : town.ahead 1579000000 = town.standard ∧ town.ahead 1595000000 ≠ town.standard := by decide

end Verif.Props
