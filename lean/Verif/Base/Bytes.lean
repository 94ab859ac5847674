import Mathlib.Data.List.Induction

/-!
# Byte strings and big-endian integers
-/
namespace Verif

/-- `std::vector<uint8_t>`. -/
abbrev Bytes := List UInt8

/-- `2^64`, the modulus of `uint64_t`/`size_t` arithmetic. -/
abbrev U64 : Nat := 18446744073709551616

/-- The `n` low-order bytes of `x`, most significant first: what
`Serializer::Append<uintN_t>` appends (Serializer.h:35-48, converting `x` to the `n`-byte type
truncates). -/
def beBytes : Nat → Nat → Bytes
  | 0, _ => []
  | n + 1, x => beBytes n (x / 256) ++ [UInt8.ofNat x]

/-- The unsigned value of big-endian bytes. -/
def beVal (bs : Bytes) : Nat := bs.foldl (fun a b => a * 256 + b.toNat) 0

@[simp] theorem beBytes_length (n x : Nat) : (beBytes n x).length = n := by
  induction n generalizing x with
  | zero => rfl
  | succ n ih => simp [beBytes, ih]

theorem beVal_append_single (bs : Bytes) (b : UInt8) :
    beVal (bs ++ [b]) = beVal bs * 256 + b.toNat := by
  simp [beVal, List.foldl_append]

theorem beVal_beBytes (n x : Nat) : beVal (beBytes n x) = x % 256 ^ n := by
  induction n generalizing x with
  | zero => simp [beBytes, beVal, Nat.mod_one]
  | succ n ih =>
    rw [beBytes, beVal_append_single, ih, Nat.pow_succ, Nat.mul_comm (256 ^ n) 256,
      Nat.mod_mul]
    simp only [UInt8.toNat_ofNat']
    omega

theorem beVal_beBytes_of_lt {n x : Nat} (h : x < 256 ^ n) : beVal (beBytes n x) = x := by
  rw [beVal_beBytes, Nat.mod_eq_of_lt h]

theorem beVal_lt (bs : Bytes) : beVal bs < 256 ^ bs.length := by
  have key : ∀ (l : Bytes) (a : Nat),
      l.foldl (fun a b => a * 256 + b.toNat) a < (a + 1) * 256 ^ l.length := by
    intro l
    induction l with
    | nil => intro a; simp
    | cons b l ih =>
      intro a
      simp only [List.foldl_cons, List.length_cons]
      refine Nat.lt_of_lt_of_le (ih _) ?_
      have hb : b.toNat < 256 := b.toNat_lt
      rw [Nat.pow_succ, Nat.mul_comm (256 ^ l.length) 256, ← Nat.mul_assoc]
      exact Nat.mul_le_mul_right _ (by omega)
  simpa [beVal] using key bs 0

theorem beBytes_beVal (bs : Bytes) : beBytes bs.length (beVal bs) = bs := by
  induction bs using List.reverseRecOn with
  | nil => rfl
  | append_singleton l b ih =>
    have hb : b.toNat < 256 := b.toNat_lt
    rw [List.length_append, List.length_singleton, beBytes, beVal_append_single]
    have h1 : (beVal l * 256 + b.toNat) / 256 = beVal l := by omega
    have h2 : UInt8.ofNat (beVal l * 256 + b.toNat) = b := by
      apply UInt8.toNat_inj.mp
      rw [UInt8.toNat_ofNat']
      omega
    rw [h1, h2, ih]

end Verif
