import Verif.Api.Query
import Verif.Props.Json
import Verif.Props.TxHashSet
import Mathlib.Data.List.Induction

/-!
# C105, C106: asking the node for blocks, headers and outputs
-/
namespace Verif.Props
open Verif Verif.Codec Verif.Tx Verif.MMR Verif.Api

/-! ## Numbers in a request -/

private theorem q_all {p : UInt8 → Prop} (h : ∀ n : Fin 256, p (UInt8.ofNat n.1)) (c : UInt8) : p c := by
  have := h ⟨c.toNat, c.toNat_lt⟩
  simpa using this

private theorem q_digit (c : UInt8) (h : isDigit c = true) :
    digitOf c < 10 ∧ digitOf c = c.toNat - 48 ∧ isSpace c = false ∧ c ≠ 45 ∧ c ≠ 43 := by
  revert c; apply q_all; decide +kernel

private theorem q_lt10 (c : UInt8) (h : isDigit c = false) : ¬ digitOf c < 10 := by
  revert c; apply q_all; decide +kernel

private theorem decStr_first (n : Nat) (h : 0 < n) : ∃ c cs, decStr n = c :: cs ∧ isDigit c = true ∧ c ≠ 48 := by
  induction n using Nat.strongRecOn with
  | _ n ih =>
    by_cases h10 : n < 10
    · rw [decStr, if_pos h10]
      refine ⟨_, _, rfl, ?_⟩
      have : ∀ m : Fin 10, 0 < m.1 → isDigit (UInt8.ofNat (48 + m.1)) = true ∧ UInt8.ofNat (48 + m.1) ≠ 48 := by
        decide +kernel
      exact this ⟨n, h10⟩ h
    · obtain ⟨c, cs, e, h1, h2⟩ := ih (n / 10) (by omega) (by omega)
      rw [decStr, if_neg h10, e]
      exact ⟨c, _, rfl, h1, h2⟩

private theorem decStr_length (k n : Nat) (h : n < 10 ^ (k + 1)) : (decStr n).length ≤ k + 1 := by
  induction k generalizing n with
  | zero => rw [decStr, if_pos (by omega)]; simp
  | succ k ih =>
    rw [decStr]
    split
    · simp
    · have := ih (n / 10) (by
        rw [Nat.div_lt_iff_lt_mul (by omega)]
        rw [Nat.pow_succ] at h; omega)
      simp only [List.length_append, List.length_singleton]; omega

private theorem takeWhile_digits (l m : Bytes) (h : ∀ c ∈ l, isDigit c = true)
    (hm : ∀ c ∈ m.head?, isDigit c = false) : (l ++ m).takeWhile (fun c => digitOf c < 10) = l := by
  induction l with
  | nil =>
    cases m with
    | nil => rfl
    | cons a m => simp [q_lt10 a (hm a rfl)]
  | cons a l ih =>
    rw [List.cons_append, List.takeWhile_cons]
    simp only [(q_digit a (h a (by simp))).1, decide_true, if_true]
    rw [ih (fun x hx => h x (by simp [hx]))]

private theorem fold_digits (l : Bytes) (h : ∀ c ∈ l, isDigit c = true) (a : Nat) :
    l.foldl (fun a c => 10 * a + digitOf c) a = l.foldl (fun a c => 10 * a + (c.toNat - 48)) a := by
  induction l generalizing a with
  | nil => rfl
  | cons c l ih =>
    simp only [List.foldl_cons, (q_digit c (h c (by simp))).2.1]
    exact ih (fun x hx => h x (by simp [hx])) _

private theorem baseOf_plain (c : UInt8) (cs : Bytes) (h : c ≠ 48) : baseOf (c :: cs) = (10, c :: cs) := by
  unfold baseOf
  split
  · rename_i e; injection e with e1 e2; exact absurd e1 h
  · rename_i e; injection e with e1 e2; exact absurd e1 h
  · rfl

/-- A positive decimal number, followed by anything that is not a digit, is read as that number. -/
theorem stoullAuto_dec (n : Nat) (h0 : 0 < n) (h : n < 2 ^ 64) (rest : Bytes)
    (hr : ∀ c ∈ rest.head?, isDigit c = false) : stoullAuto (decStr n ++ rest) = .ok n := by
  obtain ⟨c, cs, e, hc, hne⟩ := decStr_first n h0
  obtain ⟨h1, h2, h3⟩ := decStr_facts n
  have hp := q_digit c hc
  have hd : (decStr n ++ rest).dropWhile isSpace = decStr n ++ rest := by
    apply dropWhile_head; rw [e]; intro x hx
    simp only [List.cons_append, List.head?_cons, Option.mem_some_iff] at hx
    rw [← hx]; exact hp.2.2.1
  have hh : (decStr n ++ rest).head? = some c := by rw [e]; rfl
  have e45 : ¬ (some c = some (45 : UInt8)) := fun x => hp.2.2.2.1 (Option.some.inj x)
  have e43 : ¬ (some c = some (43 : UInt8)) := fun x => hp.2.2.2.2 (Option.some.inj x)
  have hb : baseOf (decStr n ++ rest) = (10, decStr n ++ rest) := by
    rw [e, List.cons_append]; exact baseOf_plain _ _ hne
  unfold stoullAuto
  simp only [hd, hh, e45, e43, or_self, if_false, hb]
  rw [takeWhile_digits _ _ h2 hr, fold_digits _ h2]
  have h3' : (decStr n).foldl (fun a c => 10 * a + (c.toNat - 48)) 0 = n := h3
  rw [h3', if_neg (fun x => x.elim h1 (fun y => by omega))]

private theorem stoullAuto_number (n : Nat) (h : n < 2 ^ 64) : stoullAuto (decStr n) = .ok n := by
  by_cases h0 : n = 0
  · subst h0; decide +kernel
  · have := stoullAuto_dec n (by omega) h [] (by simp)
    rwa [List.append_nil] at this

private theorem stoullAuto_safe (s : Bytes) : stoullAuto s ≠ .ub := by
  unfold stoullAuto
  dsimp only
  generalize (List.dropWhile isSpace s) = s1
  generalize (baseOf _) = b
  generalize (List.takeWhile _ b.2) = d
  by_cases h : d = [] ∨ d.foldl (fun a c => b.1 * a + digitOf c) 0 ≥ 2 ^ 64
  · rw [if_pos h]; simp
  · rw [if_neg h]; simp

private theorem height_text (n : Nat) (h : n < 2 ^ 64) :
    (decStr n).length ≠ 64 ∧ (decStr n).length ≠ 66 := by
  have := decStr_length 19 n (by omega)
  omega

/-! ## Blocks and headers by REST -/

/-- Spec: the block of the confirmed chain at a height. -/
def blockAt (n : Node) (h : Nat) : Option Block := (n.confirmed[h]?).bind n.db.block

/-- Spec: the header of a chain at a height. -/
def headerAt (n : Node) (t : ChainType) (h : Nat) : Option Header := ((n.chain t)[h]?).bind n.db.header

private theorem blockByHeight_eq (n : Node) (h : Nat) : n.blockByHeight h = blockAt n h := by
  unfold Node.blockByHeight blockAt
  cases n.confirmed[h]? <;> rfl

private theorem headerByHeight_eq (n : Node) (h : Nat) (t : ChainType) : n.headerByHeight h t = headerAt n t h := by
  unfold Node.headerByHeight headerAt
  cases (n.chain t)[h]? <;> rfl

/-- **C105.**  Asked for the decimal form of a height, the node returns the block of the confirmed chain at that
height, and the header of the candidate chain at that height. -/
theorem rest_by_height (n : Node) (h : Nat) (hh : h < 2 ^ 64) :
    n.restBlock (decStr h) = .ok (blockAt n h) ∧
    n.restHeader (decStr h) = .ok (headerAt n .candidate h) := by
  have hl := height_text h hh
  constructor
  · unfold Node.restBlock
    rw [if_neg (fun e => hl.1 e.1), if_neg (fun e => hl.2 e.1), stoullAuto_number h hh, Res.ok_bind,
      Res.pure_eq, blockByHeight_eq]
    rfl
  · unfold Node.restHeader
    rw [if_neg (fun e => hl.1 e.1), if_neg (fun e => hl.2 e.1), stoullAuto_number h hh, Res.ok_bind,
      Res.pure_eq, headerByHeight_eq]
    rfl

private theorem digits_parse (id : Bytes) (k : Nat) (hl : id.length = 2 * k)
    (hd : ∀ c ∈ id, (digitVal c).isSome = true) :
    isValidHex id = true ∧ ∃ bs, hexSpec id = some bs ∧ fromHex id = .ok bs := by
  have hx : ¬ (id.take 2 = str "0x") := by
    intro e
    have h120 : (120 : UInt8) ∈ id.take 2 := by rw [e]; decide
    have := hd 120 (List.mem_of_mem_take h120)
    revert this; decide
  have hp : hexPart id = id := by unfold hexPart; rw [if_neg (fun e => hx e.2)]
  have hv : isValidHex id = true := (hex_valid_iff id).mpr (by rw [hp]; exact hd)
  obtain ⟨bs, h1, h2⟩ := hex_valid_decodes_partial id hv (by rw [hp, hl]; omega)
  rw [hp] at h1
  exact ⟨hv, bs, h1, h2⟩

private theorem hexSpec_length : ∀ (s bs : Bytes), hexSpec s = some bs → s.length = 2 * bs.length
  | [], bs, h => by simp [hexSpec] at h; subst h; rfl
  | [c], bs, h => by simp [hexSpec] at h
  | c :: d :: s, bs, h => by
    unfold hexSpec at h
    split at h
    · rename_i i j rest _ _ hr
      injection h with h
      subst h
      have := hexSpec_length s rest hr
      simp only [List.length_cons, this]; omega
    · cases h

private theorem big_parse (id : Bytes) (k : Nat) (hl : id.length = 2 * k)
    (hd : ∀ c ∈ id, (digitVal c).isSome = true) :
    isValidHex id = true ∧ ∃ bs, hexSpec id = some bs ∧ bigFromHex k id = .ok bs := by
  obtain ⟨h1, bs, h2, h3⟩ := digits_parse id k hl hd
  refine ⟨h1, bs, h2, ?_⟩
  have := hexSpec_length id bs h2
  unfold bigFromHex
  rw [h3, Res.ok_bind, if_pos (by omega)]

/-- **C105.**  Sixty-four hexadecimal digits, of either case, name a block or header by its hash: the node returns
what is stored under that hash and nothing else. -/
theorem rest_by_hash (n : Node) (id : Bytes) (hl : id.length = 64) (hd : ∀ c ∈ id, (digitVal c).isSome = true) :
    ∃ hash, hexSpec id = some hash ∧ n.restBlock id = .ok (n.db.block hash) ∧
      n.restHeader id = .ok (n.db.header hash) := by
  obtain ⟨h1, bs, h2, h3⟩ := big_parse id 32 hl hd
  refine ⟨bs, h2, ?_, ?_⟩
  · unfold Node.restBlock
    rw [if_pos ⟨hl, h1⟩, h3, Res.ok_bind]
    rfl
  · unfold Node.restHeader
    rw [if_pos ⟨hl, h1⟩, h3, Res.ok_bind]
    rfl

private theorem rest_by_commit (n : Node) (id : Bytes) (hl : id.length = 66)
    (hd : ∀ c ∈ id, (digitVal c).isSome = true) :
    ∃ c, hexSpec id = some c ∧ n.restBlock id = .ok (n.blockByCommit c) ∧
      n.restHeader id = .ok (n.headerByCommit c) := by
  obtain ⟨h1, bs, h2, h3⟩ := big_parse id 33 hl hd
  refine ⟨bs, h2, ?_, ?_⟩
  · unfold Node.restBlock
    rw [if_neg (fun e => by omega), if_pos ⟨hl, h1⟩, h3, Res.ok_bind]
    rfl
  · unfold Node.restHeader
    rw [if_neg (fun e => by omega), if_pos ⟨hl, h1⟩, h3, Res.ok_bind]
    rfl

private theorem caught_answers {α : Type} (r : Res (Option α)) (h : r ≠ .ub) : ∃ x, caught r = .ok x := by
  cases r with
  | ok a => exact ⟨a, rfl⟩
  | throw => exact ⟨none, rfl⟩
  | ub => exact absurd rfl h

private theorem bigFromHex_safe (k : Nat) (s : Bytes) : bigFromHex k s ≠ .ub := by
  unfold bigFromHex
  intro h
  rcases Res.bind_eq_ub.mp h with h | ⟨bs, -, h⟩
  · exact (hex_decode_sound s).1 h
  · split at h <;> cases h

/-- **C105.**  Every request is answered, whatever its text. -/
theorem rest_answers (n : Node) (id : Bytes) :
    (∃ r, n.restBlock id = .ok r) ∧ ∃ r, n.restHeader id = .ok r := by
  have hs : ∀ {α β : Type} (r : Res α) (f : α → β), r ≠ .ub → (r >>= fun a => (pure (f a) : Res β)) ≠ .ub := by
    intro α β r f h e
    rcases Res.bind_eq_ub.mp e with h' | ⟨a, -, h'⟩
    · exact h h'
    · cases h'
  constructor
  · apply caught_answers
    split
    · exact hs _ _ (bigFromHex_safe _ _)
    · split
      · exact hs _ _ (bigFromHex_safe _ _)
      · exact hs _ _ (stoullAuto_safe _)
  · apply caught_answers
    split
    · exact hs _ _ (bigFromHex_safe _ _)
    · split
      · exact hs _ _ (bigFromHex_safe _ _)
      · exact hs _ _ (stoullAuto_safe _)

/-- **C105 violated.**  What is not the decimal form of a height is taken for one: a number with leading zeros is
read in base eight, so that `0100` gives block 64; a number followed by other text is read up to that text, so
that `12abc` gives block 12; and a minus sign counts down from the largest 64-bit number. -/
theorem rest_height_text_violated (n : Node) :
    n.restBlock (str "0100") = .ok (blockAt n 64) ∧
    n.restBlock (str "12abc") = .ok (blockAt n 12) ∧
    n.restBlock (str "-18446744073709551611") = .ok (blockAt n 5) ∧
    (∀ h rest, 0 < h → h < 2 ^ 64 → (∀ c ∈ rest.head?, isDigit c = false) → rest.length < 44 →
      n.restBlock (decStr h ++ rest) = .ok (blockAt n h)) := by
  have key : ∀ (s : Bytes) (h : Nat), s.length < 64 → stoullAuto s = .ok h → n.restBlock s = .ok (blockAt n h) := by
    intro s h hl e
    unfold Node.restBlock
    rw [if_neg (fun x => by omega), if_neg (fun x => by omega), e, Res.ok_bind, Res.pure_eq, blockByHeight_eq]
    rfl
  refine ⟨key _ _ (by decide +kernel) (by decide +kernel), key _ _ (by decide +kernel) (by decide +kernel),
    key _ _ (by decide +kernel) (by decide +kernel), ?_⟩
  intro h rest h0 h1 hr hl
  refine key _ _ ?_ (stoullAuto_dec h h0 h1 rest hr)
  have := decStr_length 19 h (by omega)
  rw [List.length_append]; omega

private theorem q_octal : ∀ c : UInt8, 48 ≤ c → c ≤ 55 → digitOf c = c.toNat - 48 ∧ digitOf c < 8 ∧ c ≠ 120 ∧ c ≠ 88 := by
  apply q_all; decide +kernel

private theorem baseOf_zero (l : Bytes) (h : ∀ c ∈ l.head?, c ≠ 120 ∧ c ≠ 88) : baseOf (48 :: l) = (8, 48 :: l) := by
  match l, h with
  | [], _ => rfl
  | [x], _ => rfl
  | x :: d :: r, h =>
    have hx := h x rfl
    simp only [baseOf, hx.1, hx.2, or_self, false_and, if_false]

private theorem takeWhile_octal (ds rest : Bytes) (h : ∀ c ∈ ds, 48 ≤ c ∧ c ≤ 55) (hr : ∀ c ∈ rest.head?, c = 56 ∨ c = 57) :
    (ds ++ rest).takeWhile (fun c => decide (digitOf c < 8)) = ds := by
  induction ds with
  | nil =>
    match rest, hr with
    | [], _ => rfl
    | c :: r, hr =>
      rcases hr c rfl with rfl | rfl <;> rw [List.nil_append, List.takeWhile_cons_of_neg (by decide)]
  | cons c l ih =>
    have hc := h c (by simp)
    rw [List.cons_append, List.takeWhile_cons_of_pos (by simpa using (q_octal c hc.1 hc.2).2.1),
      ih (fun x hx => h x (by simp [hx]))]

private theorem fold_octal (l : Bytes) (h : ∀ c ∈ l, 48 ≤ c ∧ c ≤ 55) (a : Nat) :
    l.foldl (fun a c => 8 * a + digitOf c) a = l.foldl (fun a c => 8 * a + (c.toNat - 48)) a := by
  induction l generalizing a with
  | nil => rfl
  | cons c l ih =>
    have hc := h c (by simp)
    simp only [List.foldl_cons, (q_octal c hc.1 hc.2).1]
    exact ih (fun x hx => h x (by simp [hx])) _

/-- **C105 violated.**  A height written with a leading zero is always read in base eight: the digits up to the first 8 or
9 give the number, the others are ignored (so that `08` is the genesis block and `0128` block 10). -/
theorem rest_leading_zero_violated (n : Node) (ds rest : Bytes) (h : ∀ c ∈ ds, 48 ≤ c ∧ c ≤ 55)
    (hr : ∀ c ∈ rest.head?, c = 56 ∨ c = 57) (hl : ds.length + rest.length < 63)
    (hv : ds.foldl (fun a c => 8 * a + (c.toNat - 48)) 0 < 2 ^ 64) :
    n.restBlock (48 :: (ds ++ rest)) = .ok (blockAt n (ds.foldl (fun a c => 8 * a + (c.toNat - 48)) 0)) := by
  have hx : ∀ c ∈ (ds ++ rest).head?, c ≠ 120 ∧ c ≠ 88 := by
    intro c hc
    match ds, h with
    | [], _ => rcases hr c hc with rfl | rfl <;> decide
    | d :: l, h =>
      have : d = c := by simpa using hc
      subst this
      exact (q_octal d (h d (by simp)).1 (h d (by simp)).2).2.2
  have hs : stoullAuto (48 :: (ds ++ rest)) = .ok (ds.foldl (fun a c => 8 * a + (c.toNat - 48)) 0) := by
    have hd : (48 :: (ds ++ rest)).dropWhile isSpace = 48 :: (ds ++ rest) :=
      List.dropWhile_cons_of_neg (by decide)
    unfold stoullAuto
    have e45 : ¬ (some (48 : UInt8) = some 45) := by decide
    have e43 : ¬ (some (48 : UInt8) = some 43) := by decide
    simp only [hd, List.head?_cons, e45, e43, or_self, if_false, baseOf_zero _ hx]
    have ht := takeWhile_octal (48 :: ds) rest (by
      intro c hc; rcases List.mem_cons.mp hc with rfl | hc
      · decide
      · exact h c hc) hr
    rw [List.cons_append] at ht
    rw [ht, List.foldl_cons, show 8 * 0 + digitOf 48 = 0 from by decide, fold_octal ds h 0,
      if_neg (fun x => x.elim (fun e => by cases e) (fun y => by omega))]
  unfold Node.restBlock
  have e : (48 :: (ds ++ rest)).length = ds.length + rest.length + 1 := by simp
  rw [if_neg (fun x => by omega), if_neg (fun x => by omega), hs, Res.ok_bind, Res.pure_eq, blockByHeight_eq]
  rfl

/-- `0128` is block 10, `08` the genesis block. -/
example (n : Node) : n.restBlock (str "0128") = .ok (blockAt n 10) ∧ n.restBlock (str "08") = .ok (blockAt n 0) :=
  ⟨rest_leading_zero_violated n [49, 50] [56] (by decide) (by simp) (by decide) (by decide),
    rest_leading_zero_violated n [] [56] (by decide) (by simp) (by decide) (by decide)⟩

/-! ## Blocks and headers by JSON-RPC -/

/-- **C105.**  With one parameter given and the others null, `get_block` and `get_header` return what the parameter
names: by height the block and the header of the confirmed chain, by hash what is stored under the hash. -/
theorem rpc_one_parameter (n : Node) :
    (∀ h, h < 2 ^ 64 → ∀ j, j = .int h ∨ j = .str (decStr h) →
      n.rpcBlock j .null .null = .ok (blockAt n h) ∧
      n.rpcHeader j .null .null = .ok (headerAt n .confirmed h)) ∧
    (∀ hash : Bytes, hash.length = 32 →
      n.rpcBlock .null (.str (toHex hash)) .null = .ok (n.db.block hash) ∧
      n.rpcHeader .null (.str (toHex hash)) .null = .ok (n.db.header hash)) ∧
    n.rpcBlock .null .null .null = .ok none ∧ n.rpcHeader .null .null .null = .ok none := by
  refine ⟨?_, ?_, rfl, rfl⟩
  · intro h hh j hj
    rcases hj with rfl | rfl
    · simp only [Node.rpcBlock, Node.rpcHeader, pick, json_nat_int h hh, Bool.false_eq_true, if_false, Res.ok_bind,
        Res.pure_eq, Json.isNull, if_true, blockByHeight_eq, headerByHeight_eq, and_self]
    · simp only [Node.rpcBlock, Node.rpcHeader, pick, json_nat_text h hh, Bool.false_eq_true, if_false, Res.ok_bind,
        Res.pure_eq, Json.isNull, if_true, blockByHeight_eq, headerByHeight_eq, and_self]
  · intro hash hl
    have hc : jsonBytes 32 (.str (toHex hash)) = .ok hash := by rw [json_bytes_hex, if_pos hl]
    constructor
    · simp only [Node.rpcBlock, pick, hc, Bool.false_eq_true, if_false, Res.ok_bind, Res.pure_eq,
        Json.isNull, if_true, Node.blockByHash]
    · simp only [Node.rpcHeader, pick, hc, Bool.false_eq_true, if_false, Res.ok_bind, Res.pure_eq,
        Json.isNull, if_true, Node.headerByHash]

/-- **C105 violated.**  Given a height and a hash that do not belong together, `get_block` ignores the height: it
returns the block of the hash, at whatever height that is, and does not report the contradiction; and a hash
that is not known hides the block at the height. -/
theorem rpc_conflict_violated (n : Node) (h : Nat) (hh : h < 2 ^ 64) (hash : Bytes) (hl : hash.length = 32) :
    n.rpcBlock (.int h) (.str (toHex hash)) .null = .ok (n.db.block hash) := by
  have hc : jsonBytes 32 (.str (toHex hash)) = .ok hash := by rw [json_bytes_hex, if_pos hl]
  simp only [Node.rpcBlock, pick, hc, json_nat_int h hh, Bool.false_eq_true, if_false, Res.ok_bind, Res.pure_eq,
    Json.isNull, if_true, Node.blockByHash]

/-- **C105 violated.**  Given an output as well, `get_block` and `get_header` answer for the output alone, whatever height and
hash are given with it. -/
theorem rpc_output_wins_violated (n : Node) (h : Nat) (hh : h < 2 ^ 64) (hash c : Bytes) (hl : hash.length = 32)
    (hc : c.length = 33) :
    n.rpcBlock (.int h) (.str (toHex hash)) (.str (toHex c)) = n.rpcBlock .null .null (.str (toHex c)) ∧
    n.rpcHeader (.int h) (.str (toHex hash)) (.str (toHex c)) = n.rpcHeader .null .null (.str (toHex c)) := by
  have h1 : jsonBytes 32 (.str (toHex hash)) = .ok hash := by rw [json_bytes_hex, if_pos hl]
  have h2 : jsonBytes 33 (.str (toHex c)) = .ok c := by rw [json_bytes_hex, if_pos hc]
  constructor
  · simp only [Node.rpcBlock, pick, h1, h2, json_nat_int h hh, Bool.false_eq_true, if_false, Res.ok_bind, Res.pure_eq,
      Json.isNull, if_true]
  · simp only [Node.rpcHeader, pick, h1, h2, json_nat_int h hh, Bool.false_eq_true, if_false, Res.ok_bind, Res.pure_eq,
      Json.isNull, if_true]

/-! ## Outputs -/

/-- The hash of a header is that of its proof of work (BlockHeader.h:101). -/
def headerId (h : Header) : Bytes := h.pow.hash

/-- Spec: a node that holds the blocks `bs` on top of the genesis header `g`, applied one after the other to the
empty set of outputs. -/
structure Serves (env : PoW.Env) (H : Bytes → Bytes) (g : Header) (bs : List Block) (n : Node) (t : THS) : Prop where
  applied : ∃ db0 : DB, (∀ c, db0.pos c = none) ∧ (∀ b ∈ bs, db0.header (headerId b.header) = some b.header) ∧
    Applied env H headerId db0 (emptySet g) bs n.db t
  genesis : g.height = 0
  confirmed : n.confirmed = headerId g :: bs.map (fun b => headerId b.header)
  distinct : (bs.map (fun b => headerId b.header)).Nodup
  outputs : leafPos (bs.flatMap (·.body.outputs)).length < 2 ^ 64
  kernels : leafPos (bs.flatMap (·.body.kernels)).length < 2 ^ 64

private theorem apply_tables {env : PoW.Env} {H : Bytes → Bytes} {hh : Header → Bytes} {db db' : DB} {t t' : THS}
    {b : Block} (e : applyBlock env H hh db t b = .ok (some (db', t'))) :
    db'.block = db.block ∧ db'.header = db.header ∧ t'.header = b.header := by
  have hadd : ∀ (os : List TxOutput) (db : DB) (o p : PMMR) (r : DB × PMMR × PMMR),
      addOutputs H b.header.height os db o p = .ok (some r) → r.1.block = db.block ∧ r.1.header = db.header := by
    intro os
    induction os with
    | nil => intro db o p r hr; simp only [addOutputs] at hr; cases hr; exact ⟨rfl, rfl⟩
    | cons x os ih =>
      intro db o p r hr
      simp only [addOutputs] at hr
      split at hr
      · cases hr
      · rw [Res.bind_eq_ok] at hr; obtain ⟨o', -, hr⟩ := hr
        rw [Res.bind_eq_ok] at hr; obtain ⟨p', -, hr⟩ := hr
        have := ih _ _ _ _ hr
        exact this
  unfold applyBlock at e
  rw [Res.bind_eq_ok] at e; obtain ⟨r, -, e⟩ := e
  cases r with
  | none => cases e
  | some r =>
    dsimp only at e
    rw [Res.bind_eq_ok] at e; obtain ⟨q, hq, e⟩ := e
    cases q with
    | none => cases e
    | some q =>
      dsimp only at e
      have := hadd _ _ _ _ _ hq
      rw [Res.bind_eq_ok] at e; obtain ⟨k, -, e⟩ := e
      injection e with e; injection e with e; injection e with e1 e2
      subst e1; subst e2
      exact ⟨this.1, this.2, rfl⟩

private structure Chained (H : Bytes → Bytes) (g : Header) (bs : List Block) (db0 db : DB) (t : THS) : Prop where
  blocks : ∀ b ∈ bs, db.block (headerId b.header) = some b
  headers : db.header = db0.header
  tip : t.header.height = g.height + bs.length
  heights : ∀ i b, bs[i]? = some b → b.header.height = g.height + i + 1
  coins : ∀ c k, coin db t c = .ok (some k) → ∃ b ∈ bs, ∃ x ∈ b.body.outputs, x.commit = c ∧
    k = ⟨identifier x, proofSer x.proof, b.header.height⟩

private theorem chained (env : PoW.Env) (H : Bytes → Bytes) (g : Header) (db0 : DB) (hpos : ∀ c, db0.pos c = none)
    (bs : List Block) (db : DB) (t : THS) (ha : Applied env H headerId db0 (emptySet g) bs db t)
    (hd : (bs.map (fun b => headerId b.header)).Nodup)
    (hb : leafPos (bs.flatMap (·.body.outputs)).length < 2 ^ 64)
    (hk : leafPos (bs.flatMap (·.body.kernels)).length < 2 ^ 64) : Chained H g bs db0 db t := by
  induction ha with
  | nil =>
    refine ⟨by simp, rfl, rfl, by simp, ?_⟩
    intro c k e
    unfold coin at e
    rw [hpos c] at e
    cases e
  | @snoc bs db db' t t' b ha hap hprev hheight ih =>
    have hb0 := hb
    have hk0 := hk
    simp only [List.flatMap_append, List.flatMap_cons, List.flatMap_nil, List.append_nil,
      List.length_append] at hb hk
    rw [List.map_append, List.map_singleton] at hd
    have hd' := List.nodup_append.mp hd
    have ih := ih hd'.1 (leafPos_bound hb (by omega)) (leafPos_bound hk (by omega))
    obtain ⟨s, hs, e1, e2⟩ := reachable_holds env H headerId db0 g hpos bs db t ha
      (leafPos_bound hb (by omega)) (leafPos_bound hk (by omega))
    obtain ⟨q1, q2, s', q3, q4, q5⟩ := apply_effect env H headerId db t s b hs
      (by rw [e1, List.length_map]; exact hb) (by rw [e2, List.length_map]; exact hk) db' t' hap
    obtain ⟨r1, r2, r3⟩ := apply_tables hap
    refine ⟨?_, r2.trans ih.headers, ?_, ?_, ?_⟩
    · intro x hx
      rw [List.mem_append, List.mem_singleton] at hx
      show (if headerId x.header = headerId b.header then some b else db'.block (headerId x.header)) = some x
      rcases hx with hx | rfl
      · rw [if_neg, r1]
        · exact ih.blocks x hx
        · exact hd'.2.2 _ (List.mem_map.mpr ⟨x, hx, rfl⟩) _ (by simp)
      · rw [if_pos rfl]
    · rw [r3, hheight, ih.tip, List.length_append]; simp; omega
    · intro i x hx
      by_cases hi : i < bs.length
      · rw [List.getElem?_append_left hi] at hx
        exact ih.heights i x hx
      · rw [List.getElem?_append_right (by omega)] at hx
        have h0 : i - bs.length = 0 := by
          by_contra hne
          rw [List.getElem?_eq_none (by simp; omega)] at hx
          cases hx
        rw [h0] at hx
        simp only [List.getElem?_cons_zero, Option.some.injEq] at hx
        subst hx
        rw [hheight, ih.tip]; omega
    · intro c k e
      have e' : coin db' t' c = .ok (some k) := e
      rw [q1] at e'
      by_cases hc : c ∈ b.body.inputs.map (·.commit)
      · rw [if_pos hc] at e'; cases e'
      · rw [if_neg hc] at e'
        cases hf : b.body.outputs.find? (fun x => x.commit = c) with
        | none =>
          rw [hf] at e'
          obtain ⟨b', m1, x, m2, m3, m4⟩ := ih.coins c k e'
          exact ⟨b', by simp [m1], x, m2, m3, m4⟩
        | some x =>
          rw [hf] at e'
          injection e' with e'; injection e' with e'
          have := List.find?_some hf
          exact ⟨b, by simp, x, List.mem_of_find?_eq_some hf, by simpa using this, e'.symm⟩

private theorem pos_coin {env : PoW.Env} {H : Bytes → Bytes} {g : Header} {bs : List Block} {n : Node} {t : THS}
    (h : Serves env H g bs n t) (c : Bytes) :
    ∃ f : Loc → Coin, (∀ l, (f l).height = l.height) ∧ coin n.db t c = .ok ((n.db.pos c).map f) := by
  obtain ⟨db0, hp, -, ha⟩ := h.applied
  obtain ⟨s, hs, e1, -⟩ := reachable_holds env H headerId db0 g hp bs n.db t ha h.outputs h.kernels
  exact ⟨_, fun _ => rfl, coin_eq hs (by rw [e1, List.length_map]; exact h.outputs) c⟩

private theorem served {env : PoW.Env} {H : Bytes → Bytes} {g : Header} {bs : List Block} {n : Node} {t : THS}
    (h : Serves env H g bs n t) : ∃ db0, Chained H g bs db0 n.db t ∧
      ∀ b ∈ bs, db0.header (headerId b.header) = some b.header := by
  obtain ⟨db0, hp, hh, ha⟩ := h.applied
  exact ⟨db0, chained env H g db0 hp bs n.db t ha h.distinct h.outputs h.kernels, hh⟩

private theorem served_at {env : PoW.Env} {H : Bytes → Bytes} {g : Header} {bs : List Block} {n : Node} {t : THS}
    (h : Serves env H g bs n t) (i : Nat) (b : Block) (hb : bs[i]? = some b) :
    b.header.height = i + 1 ∧ n.confirmed[i + 1]? = some (headerId b.header) ∧ blockAt n (i + 1) = some b ∧
      headerAt n .confirmed (i + 1) = some b.header := by
  obtain ⟨db0, hc, hh⟩ := served h
  have hm : b ∈ bs := List.mem_of_getElem? hb
  have hconf : n.confirmed[i + 1]? = some (headerId b.header) := by
    rw [h.confirmed, List.getElem?_cons_succ, List.getElem?_map, hb]; rfl
  refine ⟨?_, hconf, ?_, ?_⟩
  · have := hc.heights i b hb
    rw [h.genesis] at this; omega
  · unfold blockAt; rw [hconf]; exact hc.blocks b hm
  · unfold headerAt
    show (n.confirmed[i + 1]?).bind n.db.header = _
    rw [hconf]
    show n.db.header (headerId b.header) = some b.header
    rw [hc.headers]; exact hh b hm

/-- **C105.**  Sixty-six hexadecimal digits name the block by one of its outputs: the node finds it exactly if the
output is unspent, and then returns the block of the confirmed chain that created it, and its header. -/
theorem rest_by_output (env : PoW.Env) (H : Bytes → Bytes) (g : Header) (bs : List Block) (n : Node) (t : THS)
    (hs : Serves env H g bs n t) (id : Bytes) (hl : id.length = 66)
    (hd : ∀ c ∈ id, (digitVal c).isSome = true) :
    ∃ c, hexSpec id = some c ∧
      ((coin n.db t c = .ok none ∧ n.restBlock id = .ok none ∧ n.restHeader id = .ok none) ∨
       ∃ k b, coin n.db t c = .ok (some k) ∧ n.restBlock id = .ok (some b) ∧ n.restHeader id = .ok (some b.header) ∧
         b ∈ bs ∧ b.header.height = k.height ∧ n.confirmed[k.height]? = some (headerId b.header) ∧
         ∃ x ∈ b.body.outputs, x.commit = c ∧ k.output = identifier x ∧ k.proof = proofSer x.proof) := by
  obtain ⟨c, h1, h2, h3⟩ := rest_by_commit n id hl hd
  refine ⟨c, h1, ?_⟩
  rw [h2, h3]
  obtain ⟨f, f1, f2⟩ := pos_coin hs c
  obtain ⟨db0, hc, hh⟩ := served hs
  cases hp : n.db.pos c with
  | none =>
    left
    rw [hp] at f2
    refine ⟨f2, ?_, ?_⟩ <;> simp only [Node.blockByCommit, Node.headerByCommit, hp]
  | some l =>
    right
    rw [hp] at f2
    simp only [Option.map_some] at f2
    obtain ⟨b, m1, x, m2, m3, m4⟩ := hc.coins c (f l) f2
    obtain ⟨i, hi, hi2⟩ := List.getElem_of_mem m1
    have hi3 : bs[i]? = some b := by rw [List.getElem?_eq_getElem hi, hi2]
    obtain ⟨a1, a2, a3, a4⟩ := served_at hs i b hi3
    have hlh : l.height = i + 1 := by rw [← f1 l, m4]; exact a1
    have hhead : n.headerByCommit c = some b.header := by
      simp only [Node.headerByCommit, hp, hlh, a2]
      rw [hc.headers]; exact hh b m1
    refine ⟨f l, b, f2, ?_, ?_, m1, ?_, ?_, x, m2, m3, by rw [m4], by rw [m4]⟩
    · simp only [Node.blockByCommit, hhead, Node.blockByHash]
      exact congrArg _ (hc.blocks b m1)
    · rw [hhead]
    · rw [m4]
    · rw [f1, hlh]; exact a2

/-- Spec: the outputs of a block that are unspent. -/
def unspentOf (db : DB) (t : THS) (b : Block) : List TxOutput :=
  b.body.outputs.filter (fun x => coin db t x.commit ≠ .ok none)

private theorem range_getElem {α : Type} (l : List α) (f : Nat → Option α) (s k : Nat)
    (h : ∀ i x, l[i]? = some x → f (i + 1) = some x) (hs : 1 ≤ s) (hk : s + k ≤ l.length + 1) :
    (List.range' s k).filterMap f = (l.drop (s - 1)).take k := by
  induction k generalizing s with
  | zero => simp
  | succ k ih =>
    have hlt : s - 1 < l.length := by omega
    rw [List.range'_succ, List.filterMap_cons]
    have := h (s - 1) _ (List.getElem?_eq_getElem hlt)
    rw [show s - 1 + 1 = s by omega] at this
    rw [this, ih (s + 1) (by omega) (by omega)]
    rw [show s + 1 - 1 = s - 1 + 1 by omega, List.drop_eq_getElem_cons hlt, List.take_succ_cons]

private theorem listed_outputs {env : PoW.Env} {H : Bytes → Bytes} {g : Header} {bs : List Block} {n : Node} {t : THS}
    (h : Serves env H g bs n t) (os : List TxOutput) :
    (os.filterMap (fun x => (n.db.pos x.commit).map (fun l => (⟨x, l⟩ : OutputInfo)))).map (·.output) =
      os.filter (fun x => coin n.db t x.commit ≠ .ok none) := by
  induction os with
  | nil => rfl
  | cons x os ih =>
    obtain ⟨f, f1, f2⟩ := pos_coin h x.commit
    rw [List.filterMap_cons, List.filter_cons, f2]
    cases hp : n.db.pos x.commit with
    | none => simpa using ih
    | some l => simpa using ih

/-- **C106.**  Asked for the outputs of a range of heights above the genesis block, the node answers with the blocks
of these heights of the confirmed chain, in order, cut off at its tip, each with those of its outputs whose
commitments are unspent. -/
theorem outputs_by_height (env : PoW.Env) (H : Bytes → Bytes) (g : Header) (bs : List Block) (n : Node) (t : THS)
    (hs : Serves env H g bs n t) (limit start last : Nat) (h1 : 1 ≤ start) (h2 : start ≤ last)
    (h3 : start ≤ bs.length + 1) (h4 : start < 2 ^ 64) (h5 : bs.length < 2 ^ 64 - 1) (hl : min bs.length last + 1 - start ≤ limit) :
    ∃ l, n.outputsByHeight limit start last = .ok l ∧
      l.map (fun e => (e.hash, e.prevHash, e.height, e.outputs.map (·.output))) =
        ((bs.take last).drop (start - 1)).map
          (fun b => (headerId b.header, b.header.prevHash, b.header.height, unspentOf n.db t b)) := by
  have hlen : n.confirmed.length - 1 = bs.length := by rw [hs.confirmed]; simp
  have hmod : (min bs.length last + 2 ^ 64 - start + 1) % 2 ^ 64 = min bs.length last + 1 - start := by omega
  unfold Node.outputsByHeight
  dsimp only
  rw [hlen, hmod, if_neg (by omega)]
  refine ⟨_, rfl, ?_⟩
  let F : Block → BlockOutputs := fun b => ⟨b.header.pow.hash, b.header.prevHash, b.header.height,
    b.body.outputs.filterMap (fun x => (n.db.pos x.commit).map (fun l => ⟨x, l⟩))⟩
  have hF : ∀ i x, (bs.map F)[i]? = some x → n.blockWithOutputs (i + 1) = some x := by
    intro i x hx
    rw [List.getElem?_map] at hx
    obtain ⟨b, e1, e2⟩ := Option.map_eq_some_iff.mp hx
    have := (served_at hs i b e1).2.2.1
    unfold Node.blockWithOutputs
    rw [blockByHeight_eq, this]
    exact congrArg some e2
  rw [range_getElem (bs.map F) _ _ _ hF h1 (by rw [List.length_map]; omega)]
  rw [← List.map_drop, ← List.map_take, List.map_map]
  have e : (List.drop (start - 1) bs).take (min bs.length last + 1 - start) = (bs.take last).drop (start - 1) := by
    rw [List.drop_take]
    by_cases hc : bs.length ≤ last
    · rw [Nat.min_eq_left hc, List.take_of_length_le (by rw [List.length_drop]; omega),
        List.take_of_length_le (by rw [List.length_drop]; omega)]
    · rw [Nat.min_eq_right (by omega)]
      congr 1; omega
  rw [e]
  apply List.map_congr_left
  intro b _
  simp only [Function.comp, F, listed_outputs hs]
  rfl

/-- **C106.**  If no two outputs of the chain have the same commitment, every output listed under a block is an unspent
output of that block, with its height. -/
theorem listed_height_partial (env : PoW.Env) (H : Bytes → Bytes) (g : Header) (bs : List Block) (n : Node) (t : THS)
    (hs : Serves env H g bs n t) (hu : ((bs.flatMap (·.body.outputs)).map (·.commit)).Nodup) (h : Nat)
    (e : BlockOutputs) (he : n.blockWithOutputs h = some e) (hh : 1 ≤ h) (o : OutputInfo) (ho : o ∈ e.outputs) :
    e.height = h ∧ o.loc.height = h ∧
      coin n.db t o.output.commit = .ok (some ⟨identifier o.output, proofSer o.output.proof, h⟩) := by
  obtain ⟨db0, hc, -⟩ := served hs
  unfold Node.blockWithOutputs at he
  rw [blockByHeight_eq] at he
  obtain ⟨i, rfl⟩ : ∃ i, h = i + 1 := ⟨h - 1, by omega⟩
  have hlt : i < bs.length := by
    by_contra hc'
    have : n.confirmed[i + 1]? = none := by
      rw [List.getElem?_eq_none]; rw [hs.confirmed]; simp; omega
    unfold blockAt at he
    rw [this] at he; cases he
  obtain ⟨a1, a2, a3, a4⟩ := served_at hs i bs[i] (List.getElem?_eq_getElem hlt)
  rw [a3] at he
  injection he with he
  subst he
  obtain ⟨x, hx, hx2⟩ := List.mem_filterMap.mp ho
  obtain ⟨l, l1, l2⟩ := Option.map_eq_some_iff.mp hx2
  subst l2
  obtain ⟨f, f1, f2⟩ := pos_coin hs x.commit
  rw [l1, Option.map_some] at f2
  obtain ⟨b, m1, y, m2, m3, m4⟩ := hc.coins _ _ f2
  -- both blocks hold an output with this commitment
  obtain ⟨j, hj, hj2⟩ := List.getElem_of_mem m1
  have hji : j = i ∧ y = x := by
    have key : ∀ (bs : List Block), ((bs.flatMap (·.body.outputs)).map (·.commit)).Nodup → ∀ i j (hi : i < bs.length)
        (hj : j < bs.length), ∀ x ∈ bs[i].body.outputs, ∀ y ∈ bs[j].body.outputs, y.commit = x.commit →
        j = i ∧ y = x := by
      intro bs
      induction bs with
      | nil => intro _ i j hi; simp at hi
      | cons b bs ih =>
        intro hn i j hi hj x hx y hy hxy
        rw [List.flatMap_cons, List.map_append, List.nodup_append] at hn
        have inb : ∀ (k : Nat) (hk : k < bs.length) (z : TxOutput), z ∈ bs[k].body.outputs →
            z.commit ∈ (bs.flatMap (·.body.outputs)).map (·.commit) := by
          intro k hk z hz
          exact List.mem_map.mpr ⟨z, List.mem_flatMap.mpr ⟨_, List.getElem_mem hk, hz⟩, rfl⟩
        cases i with
        | zero =>
          cases j with
          | zero =>
            refine ⟨rfl, ?_⟩
            exact List.inj_on_of_nodup_map hn.1 hy hx hxy
          | succ j =>
            exact absurd hxy.symm (hn.2.2 _ (List.mem_map.mpr ⟨x, hx, rfl⟩) _ (inb j (by simpa using hj) y hy))
        | succ i =>
          cases j with
          | zero =>
            exact absurd hxy (hn.2.2 _ (List.mem_map.mpr ⟨y, hy, rfl⟩) _ (inb i (by simpa using hi) x hx))
          | succ j =>
            have := ih hn.2.1 i j (by simpa using hi) (by simpa using hj) x hx y hy hxy
            exact ⟨by rw [this.1], this.2⟩
    exact key bs hu i j hlt hj x hx y (by rw [hj2]; exact m2) m3
  obtain ⟨rfl, rfl⟩ := hji
  rw [← hj2] at m4
  refine ⟨a1, ?_, ?_⟩
  · rw [← f1 l, m4]; exact a1
  · rw [f2, m4, a1]

/-- **C106 violated.**  A start two or more above the tip is an error instead of an empty answer: the number of blocks
to reserve room for is computed below zero. -/
theorem outputs_above_tip_violated (n : Node) (limit start last : Nat) (hn : n.confirmed ≠ [])
    (h1 : n.confirmed.length < start) (h2 : start ≤ 2 ^ 63) (h3 : start ≤ last) (hl : limit < 2 ^ 63) :
    n.outputsByHeight limit start last = .throw ∧
    (∀ text, heightArgs 0 0 (split 38 text) = .ok (some (start, last)) → n.restOutputs limit text = .ok none) := by
  have hpos : 0 < n.confirmed.length := List.length_pos_iff.mpr hn
  have key : n.outputsByHeight limit start last = .throw := by
    unfold Node.outputsByHeight
    dsimp only
    rw [if_pos]
    omega
  refine ⟨key, ?_⟩
  intro text ht
  unfold Node.restOutputs
  rw [ht, Res.ok_bind]
  dsimp only
  rw [if_neg (by omega), key]
  rfl

/-! ### The text of the query -/

private theorem dec_no (n : Nat) (c : UInt8) (h : isDigit c = false) : c ∉ decStr n := by
  intro hm
  rw [(decStr_facts n).2.1 c hm] at h
  cases h

private theorem arg_split (name : String) (v : Nat) (h : str name ≠ [] ∧ (61 : UInt8) ∉ str name) :
    split 61 (str name ++ 61 :: decStr v) = [str name, decStr v] := by
  have := split_join 61 [str name, decStr v] (by
    intro t ht
    simp only [List.mem_cons, List.not_mem_nil, or_false] at ht
    rcases ht with rfl | rfl
    · exact h
    · exact ⟨(decStr_facts v).1, dec_no v 61 (by decide)⟩)
  exact this

private theorem startsWith_append (p s : Bytes) : startsWith (p ++ s) p = true := by
  simp [startsWith]

private theorem startsWith_other (a b : UInt8) (p s : Bytes) (h : a ≠ b) : startsWith (a :: p) (b :: s) = false := by
  simp [startsWith, List.isPrefixOf, Ne.symm h]

private theorem arg_text (p q : Bytes) (h : q = p ++ [61]) (v : Bytes) : q ++ v = p ++ 61 :: v := by
  rw [h, List.append_assoc]; rfl

private theorem start_arg (a b v : Nat) (hv : v < 2 ^ 64) :
    heightArg a b (str "start_height" ++ 61 :: decStr v) = .ok (some (v, b)) := by
  have sw : startsWith (str "start_height" ++ 61 :: decStr v) (str "start_height=") = true := by
    rw [← arg_text _ (str "start_height=") (by decide +kernel)]; exact startsWith_append _ _
  have hv' := stoull_dec v hv [] (by simp)
  rw [List.append_nil] at hv'
  unfold heightArg
  rw [if_pos sw, arg_split _ _ ⟨by decide +kernel, by decide +kernel⟩]
  dsimp only
  rw [hv']; rfl

private theorem end_arg (a b v : Nat) (hv : v < 2 ^ 64) :
    heightArg a b (str "end_height" ++ 61 :: decStr v) = .ok (some (a, v)) := by
  have sw : startsWith (str "end_height" ++ 61 :: decStr v) (str "end_height=") = true := by
    rw [← arg_text _ (str "end_height=") (by decide +kernel)]; exact startsWith_append _ _
  have sn : startsWith (str "end_height" ++ 61 :: decStr v) (str "start_height=") = false := by
    have e1 : ∃ p, str "end_height" = 101 :: p := ⟨(str "end_height").tail, by decide +kernel⟩
    have e2 : ∃ p, str "start_height=" = 115 :: p := ⟨(str "start_height=").tail, by decide +kernel⟩
    obtain ⟨p, e1⟩ := e1
    obtain ⟨q, e2⟩ := e2
    rw [e1, e2, List.cons_append]
    exact startsWith_other _ _ _ _ (by decide)
  have hv' := stoull_dec v hv [] (by simp)
  rw [List.append_nil] at hv'
  unfold heightArg
  rw [sn, if_neg Bool.false_ne_true, if_pos sw, arg_split _ _ ⟨by decide +kernel, by decide +kernel⟩]
  dsimp only
  rw [hv']; rfl

private theorem query_split (p q : Bytes) (a b : Nat) (hp : (38 : UInt8) ∉ p) (hq : (38 : UInt8) ∉ q) :
    split 38 (p ++ 61 :: decStr a ++ 38 :: (q ++ 61 :: decStr b)) = [p ++ 61 :: decStr a, q ++ 61 :: decStr b] := by
  have := split_join 38 [p ++ 61 :: decStr a, q ++ 61 :: decStr b] (by
    intro t ht
    simp only [List.mem_cons, List.not_mem_nil, or_false] at ht
    rcases ht with rfl | rfl
    · refine ⟨by simp, ?_⟩
      simp only [List.mem_append, List.mem_cons, not_or]
      exact ⟨hp, by decide, dec_no a 38 (by decide)⟩
    · refine ⟨by simp, ?_⟩
      simp only [List.mem_append, List.mem_cons, not_or]
      exact ⟨hq, by decide, dec_no b 38 (by decide)⟩)
  exact this

private theorem query_text (a b : Nat) : str "start_height=" ++ decStr a ++ str "&end_height=" ++ decStr b =
    str "start_height" ++ 61 :: decStr a ++ 38 :: (str "end_height" ++ 61 :: decStr b) := by
  have e1 : str "start_height=" = str "start_height" ++ [61] := by decide +kernel
  have e2 : str "&end_height=" = 38 :: (str "end_height" ++ [61]) := by decide +kernel
  rw [e1, e2]
  generalize str "start_height" = p
  generalize str "end_height" = q
  simp

/-- **C106.**  The two parameters of the query are read as the numbers they write; an end below the start, or zero, is
replaced by the start. -/
theorem outputs_query (n : Node) (limit a b : Nat) (ha : a < 2 ^ 64) (hb : b < 2 ^ 64) :
    n.restOutputs limit (str "start_height=" ++ decStr a ++ str "&end_height=" ++ decStr b) =
      caught (n.outputsByHeight limit a (if b = 0 ∨ b < a then a else b) >>= fun l => .ok (some l)) := by
  have n1 : (38 : UInt8) ∉ str "start_height" := by decide +kernel
  have n2 : (38 : UInt8) ∉ str "end_height" := by decide +kernel
  have hq := query_split (str "start_height") (str "end_height") a b n1 n2
  rw [query_text]
  generalize str "start_height" ++ 61 :: decStr a ++ 38 :: (str "end_height" ++ 61 :: decStr b) = q at hq
  unfold Node.restOutputs
  rw [hq]
  rw [heightArgs, start_arg 0 0 a ha, Res.ok_bind]
  dsimp only
  rw [heightArgs, end_arg a 0 b hb, Res.ok_bind]
  dsimp only
  have h0 : heightArgs a b [] = .ok (some (a, b)) := by rw [heightArgs]
  rw [h0, Res.ok_bind]
  dsimp only
  generalize (if b = 0 ∨ b < a then a else b) = y
  generalize n.outputsByHeight limit a y = z
  rfl

/-! ## Concrete nodes -/

/-- Applying blocks one after the other and storing them. -/
private def runBlocks (env : PoW.Env) (H : Bytes → Bytes) (db : DB) (t : THS) (bs : List Block) : Res (Option (DB × THS)) :=
  bs.foldl (fun r b => r >>= fun x => match x with
    | none => .ok none
    | some (db, t) => applyBlock env H headerId db t b >>= fun y => match y with
      | none => .ok none
      | some (db', t') => .ok (some (db'.addBlock (headerId b.header) b, t'))) (.ok (some (db, t)))

private def linkedFrom (g : Header) : List Block → Bool
  | [] => true
  | b :: bs => decide (b.header.prevHash = headerId g ∧ b.header.height = g.height + 1) && linkedFrom b.header bs

private theorem linked_snoc (bs : List Block) (b : Block) (g : Header) (h : linkedFrom g (bs ++ [b]) = true) :
    linkedFrom g bs = true ∧ b.header.prevHash = headerId ((bs.map (·.header)).getLast?.getD g) ∧
      b.header.height = ((bs.map (·.header)).getLast?.getD g).height + 1 := by
  induction bs generalizing g with
  | nil => simpa [linkedFrom] using h
  | cons a bs ih =>
    simp only [List.cons_append, linkedFrom, Bool.and_eq_true] at h
    obtain ⟨h1, h2, h3⟩ := ih a.header h.2
    refine ⟨by simp [linkedFrom, h.1, h1], ?_, ?_⟩
    · rw [List.map_cons, List.getLast?_cons, Option.getD_some]; exact h2
    · rw [List.map_cons, List.getLast?_cons, Option.getD_some]; exact h3

private theorem run_applied (env : PoW.Env) (H : Bytes → Bytes) (g : Header) (db0 : DB) (bs : List Block)
    (hl : linkedFrom g bs = true) (db : DB) (t : THS)
    (e : runBlocks env H db0 (emptySet g) bs = .ok (some (db, t))) :
    Applied env H headerId db0 (emptySet g) bs db t ∧ t.header = (bs.map (·.header)).getLast?.getD g := by
  induction bs using List.reverseRecOn generalizing db t with
  | nil =>
    injection e with e; injection e with e; injection e with e1 e2
    subst e1; subst e2
    exact ⟨.nil, rfl⟩
  | append_singleton bs b ih =>
    obtain ⟨l1, l2, l3⟩ := linked_snoc bs b g hl
    unfold runBlocks at e
    rw [List.foldl_append, List.foldl_cons, List.foldl_nil, Res.bind_eq_ok] at e
    obtain ⟨x, hx, e⟩ := e
    cases x with
    | none => cases e
    | some x =>
      obtain ⟨d, u⟩ := x
      dsimp only at e
      rw [Res.bind_eq_ok] at e
      obtain ⟨y, hy, e⟩ := e
      cases y with
      | none => cases e
      | some y =>
        obtain ⟨d', u'⟩ := y
        injection e with e; injection e with e; injection e with e1 e2
        subst e1; subst e2
        obtain ⟨i1, i2⟩ := ih l1 d u hx
        refine ⟨.snoc i1 hy (by rw [i2]; exact l2) (by rw [i2]; exact l3), ?_⟩
        rw [(apply_tables hy).2.2]
        simp

private def qHeader (height : Nat) : Header :=
  { version := 1, height := height, timestamp := 0, prevHash := [UInt8.ofNat (height - 1)], prevRoot := [],
    outputRoot := [], rangeProofRoot := [], kernelRoot := [], offset := [], outputMMRSize := 0, kernelMMRSize := 0,
    totalDifficulty := 0, scaling := 0, nonce := 0, pow := ⟨0, [], [UInt8.ofNat height]⟩ }

/-- Commitments of 33 bytes. -/
private def qCommit (x : UInt8) : Bytes := x :: List.replicate 32 0

/-- Three blocks: the first creates the outputs 7 and 8, the second spends 7 and creates 10, the third spends 10 and
creates 7 again. -/
private def qBlocks : List Block :=
  [⟨qHeader 1, ⟨[], [⟨0, qCommit 7, [1]⟩, ⟨0, qCommit 8, [2]⟩], [⟨0, ⟨0, 5⟩, 0, [9], [9]⟩]⟩⟩,
   ⟨qHeader 2, ⟨[⟨0, qCommit 7⟩], [⟨0, qCommit 10, [3]⟩], []⟩⟩,
   ⟨qHeader 3, ⟨[⟨0, qCommit 10⟩], [⟨0, qCommit 7, [4]⟩], []⟩⟩]

private def qDB : DB where
  pos := fun _ => none
  spent := fun _ => none
  block := fun _ => none
  header := fun x => if x = [1] then some (qHeader 1) else if x = [2] then some (qHeader 2)
    else if x = [3] then some (qHeader 3) else none

private def qNode (db : DB) (k : Nat) : Node :=
  ⟨db, [0] :: (qBlocks.take k).map (fun b => headerId b.header), [0] :: qBlocks.map (fun b => headerId b.header)⟩

private def qCheck (k : Nat) (p : Node → THS → Bool) : Bool :=
  match runBlocks .testing toyHash qDB (emptySet (qHeader 0)) (qBlocks.take k) with
  | .ok (some (db, t)) => p (qNode db k) t
  | _ => false

private theorem qServes (k : Nat) (hk : k = 2 ∨ k = 3) (p : Node → THS → Bool) (h : qCheck k p = true) :
    ∃ n t, Serves .testing toyHash (qHeader 0) (qBlocks.take k) n t ∧ p n t = true := by
  unfold qCheck at h
  split at h
  · rename_i db t e
    refine ⟨qNode db k, t, ⟨⟨qDB, fun _ => rfl, ?_, ?_⟩, rfl, rfl, ?_, ?_, ?_⟩, h⟩
    · rcases hk with rfl | rfl <;> decide +kernel
    · exact (run_applied _ _ _ _ _ (by rcases hk with rfl | rfl <;> decide +kernel) _ _ e).1
    · rcases hk with rfl | rfl <;> decide +kernel
    · rcases hk with rfl | rfl <;> decide +kernel
    · rcases hk with rfl | rfl <;> decide +kernel
  · cases h

/-- **C106 violated.**  The list of a block names an output that was spent long ago, if an output with the same
commitment was created later: there is a chain whose second block spends an output of the first, whose third
block creates the commitment again, and for which the node lists the output under height 1, with its first range
proof, as well as under height 3. -/
theorem recreated_output_violated : ∃ env H g bs n t, Serves env H g bs n t ∧
    ∃ b1 b2 b3 x i y, bs = [b1, b2, b3] ∧ x ∈ b1.body.outputs ∧ i ∈ b2.body.inputs ∧ y ∈ b3.body.outputs ∧
      i.commit = x.commit ∧ y.commit = x.commit ∧ x.proof ≠ y.proof ∧
      coin n.db t x.commit = .ok (some ⟨identifier y, proofSer y.proof, 3⟩) ∧
      (∃ e ∈ n.blockWithOutputs 1, x ∈ e.outputs.map (·.output)) ∧
      (∃ e ∈ n.blockWithOutputs 3, y ∈ e.outputs.map (·.output)) := by
  obtain ⟨n, t, h1, h2⟩ := qServes 3 (Or.inr rfl) (fun n t =>
    decide (coin n.db t (qCommit 7) = .ok (some ⟨identifier ⟨0, qCommit 7, [4]⟩, proofSer [4], 3⟩)) &&
    ((n.blockWithOutputs 1).map (fun e => e.outputs.map (·.output))).any
      (fun l => decide ((⟨0, qCommit 7, [1]⟩ : TxOutput) ∈ l)) &&
    ((n.blockWithOutputs 3).map (fun e => e.outputs.map (·.output))).any
      (fun l => decide ((⟨0, qCommit 7, [4]⟩ : TxOutput) ∈ l))) (by decide +kernel)
  simp only [Bool.and_eq_true, decide_eq_true_eq, Option.any_eq_true] at h2
  obtain ⟨⟨a1, l1, a2, a3⟩, l2, a4, a5⟩ := h2
  obtain ⟨e1, b1, rfl⟩ := Option.map_eq_some_iff.mp a2
  obtain ⟨e2, b2, rfl⟩ := Option.map_eq_some_iff.mp a4
  refine ⟨_, _, _, _, n, t, h1, _, _, _, ⟨0, qCommit 7, [1]⟩, ⟨0, qCommit 7⟩, ⟨0, qCommit 7, [4]⟩, rfl,
    by decide +kernel, by decide +kernel, by decide +kernel, rfl, rfl, by decide, a1, ⟨e1, b1, a3⟩, ⟨e2, b2, a5⟩⟩

/-- **C105 violated.**  While the headers of a longer branch are known but its blocks are not, the two interfaces, and
the two requests by REST, disagree about a height: a node with two blocks and three headers answers a request
by REST for the header at height 3, which is not a header of its confirmed chain; JSON-RPC does not know it, nor
does the request for the block. -/
theorem header_height_violated : ∃ env H g bs n t, Serves env H g bs n t ∧ ∃ h : Header, h.height = 3 ∧
    n.restHeader (decStr 3) = .ok (some h) ∧ n.restBlock (decStr 3) = .ok none ∧
    n.rpcHeader (.int 3) .null .null = .ok none := by
  obtain ⟨n, t, h1, h2⟩ := qServes 2 (Or.inl rfl) (fun n _ =>
    decide (headerAt n .candidate 3 = some (qHeader 3)) && decide (blockAt n 3 = none) &&
    decide (headerAt n .confirmed 3 = none)) (by decide +kernel)
  simp only [Bool.and_eq_true, decide_eq_true_eq] at h2
  obtain ⟨⟨a1, a2⟩, a3⟩ := h2
  have r := rest_by_height n 3 (by omega)
  rw [a1, a2] at r
  have q := ((rpc_one_parameter n).1 3 (by omega) _ (Or.inl rfl)).2
  rw [a3] at q
  exact ⟨_, _, _, _, n, t, h1, qHeader 3, rfl, r.2, r.1, q⟩

/-- Requests of each kind, answered by a node with two blocks: a height, an unspent output and a spent one, and the
outputs from height 1 on. -/
example : qCheck 2 (fun n _ =>
    decide (n.restBlock (str "1") = .ok qBlocks[0]?) &&
    decide (n.restBlock (toHex (qCommit 8)) = .ok qBlocks[0]?) &&
    decide (n.restBlock (toHex (qCommit 7)) = .ok none) &&
    decide (n.rpcBlock .null .null (.str (toHex (qCommit 10))) = .ok qBlocks[1]?) &&
    decide (n.restOutputs 1000 (str "start_height=1&end_height=9") = .ok (some
      [⟨[1], [0], 1, [⟨⟨0, qCommit 8, [2]⟩, ⟨1, 1⟩⟩]⟩, ⟨[2], [1], 2, [⟨⟨0, qCommit 10, [3]⟩, ⟨2, 2⟩⟩]⟩])) &&
    decide (n.restOutputs 1000 (str "start_height=4") = .ok none)) = true := by decide +kernel

/-- The hypotheses of `listed_height_partial` and of `outputs_by_height` are met by this node. -/
example : ∃ n t, Serves .testing toyHash (qHeader 0) (qBlocks.take 2) n t ∧
    ((((qBlocks.take 2).flatMap (·.body.outputs)).map (·.commit)).Nodup) ∧
    ∃ e, n.blockWithOutputs 1 = some e ∧ e.outputs ≠ [] := by
  obtain ⟨n, t, h1, h2⟩ := qServes 2 (Or.inl rfl) (fun n _ =>
    (n.blockWithOutputs 1).any (fun e : BlockOutputs => decide (e.outputs ≠ []))) (by decide +kernel)
  cases e1 : n.blockWithOutputs 1 with
  | none => simp [e1] at h2
  | some e => exact ⟨n, t, h1, by decide +kernel, e, e1, of_decide_eq_true (by simpa [e1] using h2)⟩

/-- Requests by hash and by output have the digits the theorems ask for. -/
example : (toHex (List.replicate 32 171)).length = 64 ∧ (∀ c ∈ toHex (List.replicate 32 171), (digitVal c).isSome = true) ∧
    (toHex (qCommit 8)).length = 66 ∧ ∀ c ∈ toHex (qCommit 8), (digitVal c).isSome = true := by decide +kernel

end Verif.Props
