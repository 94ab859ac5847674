import Verif.Ser.Reads

/-!
# C01, C02: buffer reads stay inside the buffer; primitive encodings round-trip
-/
namespace Verif.Props

/-- The bytes `bs` are exactly those of `b` at its cursor, and `b'` is `b` advanced past them. -/
def TakesExactly (b : Buf) (n : Nat) (bs : Bytes) (b' : Buf) : Prop :=
  b'.data = b.data ∧ b'.idx = b.idx + n ∧ bs.length = n ∧
    ∃ pre post, b.data = pre ++ bs ++ post ∧ pre.length = b.idx

/-- A buffer that can exist: fewer than `2^63` bytes (`std::vector<uint8_t>::max_size()`), cursor
not past the end. -/
def Buf.Valid (b : Buf) : Prop := b.data.length < 2 ^ 63 ∧ b.idx ≤ b.data.length

theorem slice_takes {b : Buf} {n : Nat} (h : b.idx + n ≤ b.data.length) :
    TakesExactly b n ((b.data.drop b.idx).take n) { b with idx := b.idx + n } := by
  refine ⟨rfl, rfl, ?_, b.data.take b.idx, b.data.drop (b.idx + n), ?_, ?_⟩
  · simp; omega
  · rw [List.append_assoc, ← List.drop_drop, List.take_append_drop, List.take_append_drop]
  · simp; omega

/-- **C01 (partial).** A read of `n < 2^63` bytes – every fixed-width integer, hash, commitment,
signature or proof read – from any buffer either throws, and then fewer than `n` bytes remain, or
returns exactly the `n` bytes at the cursor.  The full statement quantifies over every encoded
64-bit length; see `readBytes_violated`. -/
theorem readBytes_in_bounds_partial (b : Buf) (n : Nat) (hb : Buf.Valid b) (hn : n < 2 ^ 63) :
    (readBytes n b = .throw ∧ b.data.length < b.idx + n) ∨
    (∃ bs b', readBytes n b = .ok (bs, b') ∧ TakesExactly b n bs b' ∧ Buf.Valid b') := by
  obtain ⟨h1, h2⟩ := hb
  have hm : (b.idx + n) % U64 = b.idx + n := Nat.mod_eq_of_lt (by simp only [U64]; omega)
  unfold readBytes
  by_cases h : b.idx + n ≤ b.data.length
  · right
    rw [hm, if_neg (by omega), if_pos h]
    exact ⟨_, _, rfl, slice_takes h, h1, h⟩
  · left
    rw [hm, if_pos (by omega)]
    exact ⟨rfl, by omega⟩

/-- Non-vacuity: a three-byte buffer read at offset 1. -/
example : Buf.Valid ⟨[1, 2, 3], 1⟩ ∧
    readBytes 2 ⟨[1, 2, 3], 1⟩ = .ok ([2, 3], ⟨[1, 2, 3], 3⟩) ∧
    readBytes 3 ⟨[1, 2, 3], 1⟩ = .throw := by
  refine ⟨⟨by decide, by decide⟩, by decide, by decide⟩

/-- The fixed-width integer reads never touch memory outside the buffer. -/
theorem readBE_safe (b : Buf) (n : Nat) (hb : Buf.Valid b) (hn : n < 2 ^ 63) :
    (readBE n b).Safe := by
  rcases readBytes_in_bounds_partial b n hb hn with ⟨h, _⟩ | ⟨bs, b', h, _⟩
  · simp [readBE, Parser.bind_run, h, Res.bind, Res.Safe]
  · simp [readBE, Parser.bind_run, h, Res.bind, Res.Safe, Parser.pure_run]

/-- **C01, exact boundary.** On a valid buffer a read of a 64-bit length is undefined behaviour
exactly when `m_index + n` wraps around to something inside the buffer; otherwise it is in
bounds or throws. -/
theorem readBytes_ub_iff (b : Buf) (n : Nat) (hb : Buf.Valid b) (hn : n < U64) :
    readBytes n b = .ub ↔ U64 ≤ b.idx + n := by
  obtain ⟨h1, h2⟩ := hb
  unfold readBytes
  constructor
  · intro h
    by_contra hc
    have hm : (b.idx + n) % U64 = b.idx + n := Nat.mod_eq_of_lt (by omega)
    rw [hm] at h
    split at h
    · cases h
    · split at h
      · cases h
      · omega
  · intro h
    have hU : U64 = 18446744073709551616 := rfl
    have hm : (b.idx + n) % U64 = b.idx + n - U64 := by
      rw [Nat.mod_eq_sub_mod h, Nat.mod_eq_of_lt (by omega)]
    rw [hm, if_neg (by omega), if_neg (by omega)]

/-- **C01 violated.** A nine-byte message whose string length prefix is `2^64 - 8` passes the bounds
check of `ReadVarStr` and forms iterators outside the buffer. -/
theorem readVarStr_violated :
    Buf.Valid ⟨[255, 255, 255, 255, 255, 255, 255, 248, 65], 0⟩ ∧
    readVarStr ⟨[255, 255, 255, 255, 255, 255, 255, 248, 65], 0⟩ = .ub := by
  refine ⟨⟨by decide, by decide⟩, by decide +kernel⟩

/-- **C01 (partial), strings.** Every length-prefixed string read whose encoded length is below
`2^63` is in bounds or throws: it returns exactly the bytes following the prefix. -/
theorem readVarStr_in_bounds_partial (b : Buf) (hb : Buf.Valid b)
    (hlen : ∀ bs b', readBytes 8 b = .ok (bs, b') → beVal bs < 2 ^ 63) :
    readVarStr b = .throw ∨
    ∃ pre s b', readVarStr b = .ok (s, b') ∧ TakesExactly b (8 + s.length) (pre ++ s) b' ∧
      pre.length = 8 ∧ beVal pre = s.length ∧ Buf.Valid b' := by
  rcases readBytes_in_bounds_partial b 8 hb (by omega) with ⟨h, _⟩ | ⟨bs, b', h, ht, hb'⟩
  · left; simp [readVarStr, readBE, Parser.bind_run, h, Res.bind]
  · have hl := hlen bs b' h
    have hrun : readVarStr b = (if beVal bs = 0 then (pure [] : Parser Bytes) else
        readBytes (beVal bs)) b' := by
      simp only [readVarStr, readBE, Parser.bind_run, h, Res.bind, Parser.pure_run]
    by_cases h0 : beVal bs = 0
    · right
      refine ⟨bs, [], b', ?_, ?_, ht.2.2.1, by simpa using h0, hb'⟩
      · rw [hrun, if_pos h0]; rfl
      · simpa using ht
    · rw [hrun, if_neg h0]
      rcases readBytes_in_bounds_partial b' (beVal bs) hb' hl with ⟨h2, _⟩ | ⟨s, b2, h2, ht2, hb2⟩
      · left; exact h2
      · right
        refine ⟨bs, s, b2, h2, ?_, ht.2.2.1, ht2.2.2.1.symm, hb2⟩
        obtain ⟨hd1, hi1, hn1, pre, post, he, hp⟩ := ht
        obtain ⟨hd2, hi2, hn2, pre2, post2, he2, hp2⟩ := ht2
        refine ⟨by rw [hd2, hd1], by omega, by simp; omega, pre, post2, ?_, hp⟩
        rw [hd1, he] at he2
        have hpre2 : pre2 = pre ++ bs := by
          have hlen2 : pre2.length = (pre ++ bs).length := by simp; omega
          have := congrArg (List.take pre2.length) he2
          rw [List.append_assoc pre2, List.take_left' rfl, hlen2, List.take_left' rfl] at this
          exact this.symm
        rw [he, he2, hpre2]
        simp

/-- **C02.** Unsigned integers of `n` bytes round-trip at any place of any buffer. -/
theorem integer_roundtrip (n x : Nat) (h : x < 256 ^ n) : Reads (readBE n) (beBytes n x) x :=
  reads_be h

/-- **C02.** Little-endian integers round-trip. -/
theorem integer_le_roundtrip (n x : Nat) (h : x < 256 ^ n) : Reads (readLE n) (leBytes n x) x :=
  reads_le h

/-- **C02.** Length-prefixed strings round-trip. -/
theorem varStr_roundtrip (s : Bytes) (h : s.length < U64) : Reads readVarStr (serVarStr s) s :=
  reads_varStr h

/-- **C02.** Fixed-size byte vectors round-trip. -/
theorem bytes_roundtrip (s : Bytes) : Reads (readBytes s.length) s s := reads_bytes rfl

/-- **C02.** Vectors of items round-trip whenever each item does. -/
theorem vector_roundtrip {α : Type} (p : Parser α) (f : α → Bytes) (l : List α)
    (h : ∀ a ∈ l, Reads p (f a) a) : Reads (readMany p l.length) (serMany f l) l := reads_many h

/-- **C02.** An encoding determines the value and the bytes determine the integer: the `n`-byte
encoding is a bijection between integers below `256^n` and byte strings of length `n`. -/
theorem integer_encoding_bijective (n : Nat) :
    (∀ x, x < 256 ^ n → beVal (beBytes n x) = x) ∧
    (∀ bs : Bytes, bs.length = n → beVal bs < 256 ^ n ∧ beBytes n (beVal bs) = bs) :=
  ⟨fun _ h => beVal_beBytes_of_lt h, fun bs h => by subst h; exact ⟨beVal_lt bs, beBytes_beVal bs⟩⟩

/-- Non-vacuity: concrete encodings, most significant byte first. -/
example : beBytes 4 0x01020304 = [1, 2, 3, 4] ∧ leBytes 2 0x0102 = [2, 1] ∧
    serVarStr [104, 105] = [0, 0, 0, 0, 0, 0, 0, 2, 104, 105] ∧
    readVarStr ⟨[9, 0, 0, 0, 0, 0, 0, 0, 2, 104, 105, 7], 1⟩
      = .ok ([104, 105], ⟨[9, 0, 0, 0, 0, 0, 0, 0, 2, 104, 105, 7], 11⟩) := by
  refine ⟨by decide, by decide, by decide, by decide⟩

end Verif.Props
