import Verif.Wallet.Crypt
import Verif.Props.Hex
import Verif.Props.Crash

/-!
# C85, C86: the encrypted seed and encrypted records
-/
namespace Verif.Props
open Verif.Wallet Verif.Codec Verif.File

/-- What AES is trusted for: under every key, two inverse functions on blocks of 16 bytes. -/
structure BlockCipher (P : Primitives) : Prop where
  enc_length : ∀ k b, b.length = 16 → (P.encrypt k b).length = 16
  dec_length : ∀ k b, b.length = 16 → (P.decrypt k b).length = 16
  dec_enc : ∀ k b, b.length = 16 → P.decrypt k (P.encrypt k b) = b
  enc_dec : ∀ k b, b.length = 16 → P.encrypt k (P.decrypt k b) = b

/-- What is trusted of the hash: 32 bytes. -/
def HmacLength (P : Primitives) : Prop := ∀ k m, (P.hmac k m).length = 32

private theorem xor_length {a b : Bytes} (h : a.length = b.length) : (xorBlock a b).length = b.length := by
  simp [xorBlock, h]

private theorem xor_xor : ∀ {a b : Bytes}, a.length = b.length → xorBlock a (xorBlock a b) = b
  | [], [], _ => rfl
  | x :: a, y :: b, h => by
    have h' : a.length = b.length := by simpa using h
    have := xor_xor h'
    simp only [xorBlock, List.zipWith_cons_cons] at this ⊢
    rw [this, ← UInt8.xor_assoc, UInt8.xor_self, UInt8.zero_xor]

private theorem xor_comm : ∀ (a b : Bytes), xorBlock a b = xorBlock b a
  | [], [] => rfl
  | [], _ :: _ => rfl
  | _ :: _, [] => rfl
  | x :: a, y :: b => by
    have := xor_comm a b
    simp only [xorBlock, List.zipWith_cons_cons] at this ⊢
    rw [this, UInt8.xor_comm]

section
variable {E D : Bytes → Bytes}

private theorem cbcEncrypt_length (hE : ∀ b, b.length = 16 → (E b).length = 16) (n : Nat) :
    ∀ (iv data : Bytes), data.length ≤ n → iv.length = 16 → (cbcEncrypt E iv data).length = 16 * (data.length / 16 + 1) := by
  induction n with
  | zero =>
    intro iv data hd hi
    rw [cbcEncrypt, dif_neg (by omega), hE]
    · have : data.length = 0 := by omega
      simp [this]
    · rw [xor_length] <;> simp <;> omega
  | succ n ih =>
    intro iv data hd hi
    rw [cbcEncrypt]
    split
    · rename_i h
      have hc := hE (xorBlock iv (data.take 16)) (by rw [xor_length] <;> simp <;> omega)
      simp only [List.length_append, hc]
      rw [ih _ _ (by simp; omega) hc]
      simp only [List.length_drop]
      omega
    · rw [hE]
      · omega
      · rw [xor_length] <;> simp <;> omega

private theorem blocks_enc (hE : ∀ b, b.length = 16 → (E b).length = 16) (hDE : ∀ b, b.length = 16 → D (E b) = b) (n : Nat) :
    ∀ (iv data : Bytes), data.length ≤ n → iv.length = 16 →
      cbcBlocks D iv (cbcEncrypt E iv data) =
        data ++ List.replicate (16 - data.length % 16) (UInt8.ofNat (16 - data.length % 16)) := by
  have last : ∀ iv data : Bytes, data.length < 16 → iv.length = 16 → cbcBlocks D iv (cbcEncrypt E iv data) =
        data ++ List.replicate (16 - data.length % 16) (UInt8.ofNat (16 - data.length % 16)) := by
    intro iv data hd hi
    rw [cbcEncrypt, dif_neg (by omega), Nat.mod_eq_of_lt hd]
    generalize hpd : data ++ List.replicate (16 - data.length) (UInt8.ofNat (16 - data.length)) = pd
    have hl : pd.length = 16 := by rw [← hpd]; simp; omega
    have hx : (xorBlock iv pd).length = 16 := by rw [xor_length (by omega)]; exact hl
    have he := hE _ hx
    have hne : E (xorBlock iv pd) ≠ [] := by intro h; rw [h] at he; simp at he
    rw [cbcBlocks, dif_neg hne, List.take_of_length_le (by omega), List.drop_eq_nil_of_le (by omega), hDE _ hx,
      cbcBlocks, dif_pos rfl, List.append_nil, xor_comm, xor_xor (by omega)]
  induction n with
  | zero => intro iv data hd hi; exact last iv data (by omega) hi
  | succ n ih =>
    intro iv data hd hi
    by_cases h : 16 ≤ data.length
    · rw [cbcEncrypt, dif_pos h]
      have hx : (xorBlock iv (data.take 16)).length = 16 := by rw [xor_length] <;> simp <;> omega
      have hc := hE _ hx
      have hne : E (xorBlock iv (data.take 16)) ++ cbcEncrypt E (E (xorBlock iv (data.take 16))) (data.drop 16) ≠ [] := by
        intro h
        have := congrArg List.length h
        simp [hc] at this
      rw [cbcBlocks, dif_neg hne, List.take_left' hc, List.drop_left' hc, hDE _ hx, xor_comm, xor_xor (by simp; omega),
        ih _ _ (by simp; omega) hc, ← List.append_assoc, List.take_append_drop]
      have : (data.drop 16).length % 16 = data.length % 16 := by simp only [List.length_drop]; omega
      rw [this]
    · exact last iv data (by omega) hi

private theorem enc_blocks (hD : ∀ b, b.length = 16 → (D b).length = 16) (hED : ∀ b, b.length = 16 → E (D b) = b) (n : Nat) :
    ∀ (iv text p : Bytes) (k : Nat), text.length ≤ n → text ≠ [] → text.length % 16 = 0 → iv.length = 16 → 1 ≤ k → k ≤ 16 →
      cbcBlocks D iv text = p ++ List.replicate k (UInt8.ofNat k) → cbcEncrypt E iv p = text := by
  induction n with
  | zero => intro iv text p k h hn; exact absurd (List.length_eq_zero_iff.mp (by omega)) hn
  | succ n ih =>
    intro iv text p k hl hn hm hi hk1 hk2 hb
    have hpos := List.length_pos_iff.mpr hn
    have ht : (text.take 16).length = 16 := by simp; omega
    have hd := hD _ ht
    have hx : (xorBlock (D (text.take 16)) iv).length = 16 := by rw [xor_length] <;> omega
    rw [cbcBlocks, dif_neg hn] at hb
    by_cases hr : text.drop 16 = []
    · have h16 : text.length = 16 := by
        have := congrArg List.length hr
        simp at this; omega
      rw [List.take_of_length_le (by omega)] at hb hd hx
      rw [hr, cbcBlocks, dif_pos rfl, List.append_nil] at hb
      have hlen := congrArg List.length hb
      simp only [List.length_append, List.length_replicate, hx] at hlen
      rw [cbcEncrypt, dif_neg (by omega), show 16 - p.length = k by omega, ← hb, xor_comm (D text), xor_xor (by omega), hED _ h16]
    · have hrest : ∀ q : Bytes, cbcBlocks D (text.take 16) (text.drop 16) = q → 16 ≤ q.length := by
        intro q hq
        rw [cbcBlocks, dif_neg hr] at hq
        have h2 : ((text.drop 16).take 16).length = 16 := by
          have := List.length_pos_iff.mpr hr
          simp at this ⊢; omega
        rw [← hq, List.length_append, xor_length (by rw [hD _ h2, ht]), ht]
        omega
      have h1 := hrest _ rfl
      have hlen := congrArg List.length hb
      simp only [List.length_append, List.length_replicate, hx] at hlen
      have hp : 16 ≤ p.length := by omega
      have hsplit : p = p.take 16 ++ p.drop 16 := (List.take_append_drop 16 p).symm
      have hb1 : xorBlock (D (text.take 16)) iv = p.take 16 ∧
          cbcBlocks D (text.take 16) (text.drop 16) = p.drop 16 ++ List.replicate k (UInt8.ofNat k) := by
        apply List.append_inj
        · rw [hb, ← List.append_assoc, List.take_append_drop]
        · rw [hx]; simp; omega
      rw [cbcEncrypt, dif_pos hp, ← hb1.1, xor_comm (D _), xor_xor (by omega), hED _ ht]
      show text.take 16 ++ cbcEncrypt E (text.take 16) (p.drop 16) = text
      rw [ih (text.take 16) (text.drop 16) (p.drop 16) k (by simp; omega) hr (by simp; omega) ht hk1 hk2 hb1.2]
      exact List.take_append_drop 16 text

private theorem unpad_pad (p : Bytes) (k : Nat) (h1 : 1 ≤ k) (h2 : k ≤ 16) : unpad (p ++ List.replicate k (UInt8.ofNat k)) = p := by
  have hv : (UInt8.ofNat k).toNat = k := by simp; omega
  have hlast : (p ++ List.replicate k (UInt8.ofNat k)).getLastD 0 = UInt8.ofNat k := by
    rw [List.getLastD_eq_getLast?, List.getLast?_append, List.getLast?_replicate, if_neg (by omega)]
    rfl
  have hf : ¬ (UInt8.ofNat k = 0 ∨ 16 < UInt8.ofNat k) := by
    rw [not_or]
    constructor
    · intro h
      have := congrArg UInt8.toNat h
      rw [hv] at this
      have h0 : (0 : UInt8).toNat = 0 := rfl
      omega
    · intro h
      have : (16 : UInt8).toNat < (UInt8.ofNat k).toNat := h
      rw [hv] at this
      have h0 : (16 : UInt8).toNat = 16 := rfl
      omega
  unfold unpad
  simp only [hlast, if_neg hf, hv, List.length_append, List.length_replicate, Nat.add_sub_cancel, List.drop_left, List.take_left]
  rw [if_neg]
  rintro (h | h)
  · exact hf h
  · obtain ⟨x, hx, hy⟩ := List.any_eq_true.mp h
    have := List.eq_of_mem_replicate hx
    simp [this] at hy

private theorem pad_of_unpad (out : Bytes) (h : unpad out ≠ []) :
    ∃ k, 1 ≤ k ∧ k ≤ 16 ∧ out = unpad out ++ List.replicate k (UInt8.ofNat k) := by
  unfold unpad at h ⊢
  simp only at h ⊢
  generalize hp : out.getLastD 0 = p at h ⊢
  by_cases hf : p = 0 ∨ 16 < p
  · simp [hf] at h
  · rw [if_neg hf] at h ⊢
    by_cases ha : (out.drop (out.length - p.toNat)).any (fun x => x ≠ p) = true
    · rw [if_pos (Or.inr ha)] at h; exact absurd rfl h
    · have hc : ¬ ((p = 0 ∨ 16 < p) ∨ (out.drop (out.length - p.toNat)).any (fun x => x ≠ p) = true) := by
        rintro (x | x)
        · exact hf x
        · exact ha x
      rw [if_neg hc] at h ⊢
      have h1 : p.toNat ≠ 0 := by
        intro h0
        exact hf (Or.inl (UInt8.toNat_inj.mp h0))
      have h2 : p.toNat ≤ 16 := by
        apply Nat.le_of_not_lt
        intro h0
        exact hf (Or.inr h0)
      have hlen : p.toNat ≤ out.length := by
        apply Nat.le_of_not_lt
        intro h0
        rw [show out.length - p.toNat = 0 by omega] at h
        exact h rfl
      refine ⟨p.toNat, by omega, h2, ?_⟩
      have hr : out.drop (out.length - p.toNat) = List.replicate p.toNat (UInt8.ofNat p.toNat) := by
        rw [List.eq_replicate_iff]
        constructor
        · simp; omega
        · intro x hx
          apply Classical.byContradiction
          intro hne
          apply ha
          rw [List.any_eq_true]
          refine ⟨x, hx, ?_⟩
          have e : UInt8.ofNat p.toNat = p := by simp
          rw [e] at hne
          simp [hne]
      rw [← hr, List.take_append_drop]

end

/-- **CBC.**  What decrypts to `p` is exactly the encryption of `p`. -/
theorem cbc_decrypts_iff {P : Primitives} (hP : BlockCipher P) (k iv text p : Bytes) (hi : iv.length = 16) :
    aesDecrypt P text k iv = .ok p ↔ p ≠ [] ∧ aesEncrypt P p k iv = .ok text := by
  unfold aesDecrypt aesEncrypt cbcDecrypt
  simp only
  constructor
  · intro h
    by_cases ht : text = [] ∨ text.length % 16 ≠ 0
    · rw [if_pos ht] at h; simp at h
    · rw [if_neg ht] at h
      split at h
      · cases h
      · rename_i hn
        injection h with h
        obtain ⟨n, h1, h2, h3⟩ := pad_of_unpad _ hn
        rw [h] at h3 hn
        rw [not_or, Decidable.not_not] at ht
        refine ⟨hn, ?_⟩
        rw [if_neg hn]
        exact congrArg Res.ok (enc_blocks (hP.dec_length k) (hP.enc_dec k) _ iv text p n (Nat.le_refl _) ht.1 ht.2 hi h1 h2 h3)
  · rintro ⟨hn, h⟩
    rw [if_neg hn] at h
    injection h with h
    have hlen := cbcEncrypt_length (hP.enc_length k) _ iv p (Nat.le_refl _) hi
    have hne : text ≠ [] := by
      intro h0; rw [h, h0] at hlen; simp at hlen
    have hc : ¬ (text = [] ∨ text.length % 16 ≠ 0) := by
      rw [not_or]
      refine ⟨hne, ?_⟩
      rw [← h, hlen]
      omega
    simp only [if_neg hc]
    rw [← h, blocks_enc (hP.enc_length k) (hP.dec_enc k) _ iv p (Nat.le_refl _) hi, unpad_pad _ _ (by omega) (by omega), if_neg hn]

/-- The bytes stored for a seed under a password key. -/
def sealed (P : Primitives) (key iv seed : Bytes) : Bytes := cbcEncrypt (P.encrypt key) iv (seed ++ P.hmac seed key)

/-- **C85, what opens.**  A stored seed opens with a password, giving a seed, exactly if its bytes are the encryption of that seed and
of its authentication code under the key of that password.  So nothing damaged opens, and a wrong password opens the file only if
the two encryptions coincide. -/
theorem seed_opens_iff {P : Primitives} (hP : BlockCipher P) (hm : HmacLength P) (e : EncSeed) (password seed : Bytes)
    (hi : e.iv.length = 16) :
    decryptSeed P e password = .ok seed ↔ ∃ key, P.kdf password e.salt e.scrypt = some key ∧ e.bytes = sealed P key e.iv seed := by
  have hne : ∀ s k : Bytes, s ++ P.hmac s k ≠ [] := by
    intro s k h
    have := congrArg List.length h
    simp [hm s k] at this
  unfold decryptSeed
  cases hk : P.kdf password e.salt e.scrypt with
  | none => simp
  | some key =>
    simp only [Option.some.injEq]
    constructor
    · intro h
      cases hd : aesDecrypt P e.bytes key e.iv with
      | throw => rw [hd] at h; cases h
      | ub => rw [hd] at h; cases h
      | ok d =>
        rw [hd] at h
        simp only at h
        split at h
        · cases h
        · split at h
          · rename_i hl he
            injection h with h
            obtain ⟨h1, h2⟩ := (cbc_decrypts_iff hP key e.iv e.bytes d hi).mp hd
            refine ⟨key, rfl, ?_⟩
            have hs : seed ++ P.hmac seed key = d := by
              rw [← h, he, List.take_append_drop]
            unfold aesEncrypt at h2
            rw [if_neg h1] at h2
            injection h2 with h2
            rw [← h2, sealed, hs]
          · cases h
    · rintro ⟨key', rfl, he⟩
      have hd : aesDecrypt P e.bytes key e.iv = .ok (seed ++ P.hmac seed key) := by
        rw [cbc_decrypts_iff hP key e.iv _ _ hi]
        refine ⟨hne _ _, ?_⟩
        unfold aesEncrypt
        rw [if_neg (hne _ _), he, sealed]
      rw [hd]
      have hl : (seed ++ P.hmac seed key).length - 32 = seed.length := by simp [hm seed key]
      simp only [hl, List.take_left, List.drop_left, if_true]
      rw [if_neg (by simp [hm seed key])]

private theorem hex_fixed (n : Nat) (b : Bytes) (h : b.length = n) : fixedHex n (toHex b) = .ok b := by
  unfold fixedHex
  rw [hex_roundtrip, Res.ok_bind, if_pos h]
  rfl

private theorem load_toFile (e : EncSeed) (hi : e.iv.length = 16) (hs : e.salt.length = 8) : e.toFile.load = .ok e := by
  unfold SeedFile.load EncSeed.toFile
  simp only [hex_fixed 16 _ hi, hex_fixed 8 _ hs, hex_roundtrip, Res.ok_bind, Res.pure_eq]

private theorem encryptSeed_ok {P : Primitives} (hm : HmacLength P) (iv salt seed password key : Bytes)
    (hk : P.kdf password salt (32768, 8, 1) = some key) :
    encryptSeed P iv salt seed password = .ok ⟨iv, salt, sealed P key iv seed, (32768, 8, 1)⟩ := by
  have hne : seed ++ P.hmac seed key ≠ [] := by
    intro h
    have := congrArg List.length h
    simp [hm seed key] at this
  simp only [encryptSeed, hk, aesEncrypt, if_neg hne, Res.ok_bind, Res.pure_eq, sealed]

/-- **C85, the password opens the wallet.**  A seed of any length, encrypted with any password, written to the seed file and read
back, opens with the same password, and gives the same seed. -/
theorem seed_file_opens {P : Primitives} (hP : BlockCipher P) (hm : HmacLength P) (iv salt seed password : Bytes) (e : EncSeed)
    (hi : iv.length = 16) (hs : salt.length = 8) (he : encryptSeed P iv salt seed password = .ok e) :
    openSeed P e.toFile password = .ok seed := by
  cases hk : P.kdf password salt (32768, 8, 1) with
  | none => simp [encryptSeed, hk] at he
  | some key =>
    rw [encryptSeed_ok hm iv salt seed password key hk] at he
    injection he with he
    subst he
    unfold openSeed
    rw [load_toFile _ hi hs, Res.ok_bind, seed_opens_iff hP hm _ _ _ hi]
    exact ⟨key, hk, rfl⟩

/-- **C85, a wrong password.**  Another password opens the file of a seed exactly if its key and some seed encrypt to the very same
bytes. -/
theorem other_password {P : Primitives} (hP : BlockCipher P) (hm : HmacLength P) (iv salt seed password key other : Bytes) (e : EncSeed)
    (hi : iv.length = 16) (hs : salt.length = 8) (hk : P.kdf password salt (32768, 8, 1) = some key)
    (he : encryptSeed P iv salt seed password = .ok e) (found : Bytes) :
    openSeed P e.toFile other = .ok found ↔
      ∃ key', P.kdf other salt (32768, 8, 1) = some key' ∧ sealed P key iv seed = sealed P key' iv found := by
  rw [encryptSeed_ok hm iv salt seed password key hk] at he
  injection he with he
  subst he
  unfold openSeed
  rw [load_toFile _ hi hs, Res.ok_bind, seed_opens_iff hP hm _ _ _ hi]

/-- **C85, changing the password.**  If the old password opens the wallet and the key of the new one can be derived, the new file
opens with the new password and gives the same seed; if the old password does not open the wallet, nothing is written. -/
theorem password_changed {P : Primitives} (hP : BlockCipher P) (hm : HmacLength P) (iv salt old new : Bytes) (f : SeedFile)
    (hi : iv.length = 16) (hs : salt.length = 8) :
    (∀ seed key, openSeed P f old = .ok seed → P.kdf new salt (32768, 8, 1) = some key →
      ∃ f', changePassword P iv salt f old new = .ok f' ∧ openSeed P f' new = .ok seed) ∧
    (openSeed P f old = .throw → changePassword P iv salt f old new = .throw) := by
  constructor
  · intro seed key h hk
    have he := encryptSeed_ok hm iv salt seed new key hk
    refine ⟨_, ?_, seed_file_opens hP hm iv salt seed new _ hi hs he⟩
    unfold changePassword
    rw [h, Res.ok_bind, he, Res.ok_bind, Res.pure_eq]
  · intro h
    unfold changePassword
    rw [h]
    rfl

/-- **C85, stops.**  Whenever the change of password is interrupted, the seed file holds the old content or the new one, or is
missing with the complete new content beside it. -/
theorem password_change_stop_partial (p : Path) (text : SeedFile → Bytes) (f f' : SeedFile) (d d' : Disk) (h : d p = some (text f))
    (hc : CrashStates d (safeWriteEffects p (text f')) d') :
    d' p = some (text f) ∨ d' p = some (text f') ∨ (d' p = none ∧ d' (p ++ ".tmp") = some (text f')) := by
  rw [← h]
  exact safe_write_crash_partial p (text f') d d' hc

/-- **C85 violated: a stop in between.**  For every seed file there is a moment in the change of password at which no seed file
exists: after a stop there the wallet is not found. -/
theorem password_change_stop_violated (p : Path) (new : Bytes) (d : Disk) :
    ∃ d', CrashStates d (safeWriteEffects p new) d' ∧ d' p = none := by
  refine ⟨_, ⟨new.length + 2, rfl⟩, ?_⟩
  unfold safeWriteEffects
  have he : (Effect.create (p ++ ".tmp") :: new.map (.appendByte (p ++ ".tmp")) ++
      [Effect.remove p, Effect.rename (p ++ ".tmp") p]).take (new.length + 2) =
      (Effect.create (p ++ ".tmp") :: new.map (.appendByte (p ++ ".tmp"))) ++ [Effect.remove p] := by
    rw [List.take_append, List.length_cons, List.length_map, List.take_of_length_le (by simp),
      show new.length + 2 - (new.length + 1) = 1 by omega]
    rfl
  rw [he]
  simp [applyAll, List.foldl_append, Effect.apply, Disk.put]

private theorem blocks_length {D : Bytes → Bytes} (hD : ∀ b, b.length = 16 → (D b).length = 16) (n : Nat) :
    ∀ (iv text : Bytes), text.length ≤ n → text.length % 16 = 0 → iv.length = 16 → (cbcBlocks D iv text).length = text.length := by
  induction n with
  | zero =>
    intro iv text h _ _
    have := List.length_eq_zero_iff.mp (Nat.le_zero.mp h)
    subst this
    rw [cbcBlocks, dif_pos rfl]
  | succ n ih =>
    intro iv text hl hm hi
    rw [cbcBlocks]
    split
    · rename_i h; rw [h]
    · rename_i h
      have hpos := List.length_pos_iff.mpr h
      have ht : (text.take 16).length = 16 := by simp; omega
      rw [List.length_append, xor_length (by rw [hD _ ht, hi]), hi, ih _ _ (by simp; omega) (by simp; omega) ht]
      simp; omega

/-- What decrypting can give: nothing, or between one and sixteen bytes less than the text. -/
private theorem decrypt_length {P : Primitives} (hP : BlockCipher P) (k iv text d : Bytes) (hi : iv.length = 16)
    (h : aesDecrypt P text k iv = .ok d) : d.length < text.length ∧ text.length ≤ d.length + 16 := by
  obtain ⟨h1, h2⟩ := (cbc_decrypts_iff hP k iv text d hi).mp h
  unfold aesEncrypt at h2
  rw [if_neg h1] at h2
  injection h2 with h2
  have := cbcEncrypt_length (hP.enc_length k) _ iv d (Nat.le_refl _) hi
  rw [h2] at this
  omega

/-- **C85, no password breaks the program.**  A seed file with at least 48 encrypted bytes, and so every file written for a seed of
16 bytes or more, either opens or is refused, whatever the password. -/
theorem seed_file_safe {P : Primitives} (hP : BlockCipher P) (e : EncSeed) (password : Bytes) (hi : e.iv.length = 16)
    (hl : 48 ≤ e.bytes.length) : decryptSeed P e password ≠ .ub := by
  unfold decryptSeed
  cases P.kdf password e.salt e.scrypt with
  | none => simp
  | some key =>
    simp only
    cases hd : aesDecrypt P e.bytes key e.iv with
    | throw => simp
    | ub =>
      unfold aesDecrypt at hd
      simp only at hd
      split at hd <;> cases hd
    | ok d =>
      have := decrypt_length hP key e.iv e.bytes d hi hd
      simp only
      rw [if_neg (by omega)]
      split <;> simp

/-- Files written by the wallet are that long. -/
theorem written_length {P : Primitives} (hP : BlockCipher P) (hm : HmacLength P) (iv salt seed password : Bytes) (e : EncSeed)
    (hi : iv.length = 16) (he : encryptSeed P iv salt seed password = .ok e) : 48 ≤ e.bytes.length := by
  cases hk : P.kdf password salt (32768, 8, 1) with
  | none => simp [encryptSeed, hk] at he
  | some key =>
    rw [encryptSeed_ok hm iv salt seed password key hk] at he
    injection he with he
    subst he
    have := cbcEncrypt_length (hP.enc_length key) _ iv (seed ++ P.hmac seed key) (Nat.le_refl _) hi
    simp only [sealed, this, List.length_append, hm seed key]
    omega

/-- **C85 violated: a shortened seed file.**  A file whose encrypted bytes are one or two blocks that decrypt under the key of the
password to fewer than 32 bytes is not refused: the program reads before the beginning of the decrypted bytes. -/
theorem short_seed_file_violated {P : Primitives} (hP : BlockCipher P) (e : EncSeed) (password key d : Bytes) (hi : e.iv.length = 16)
    (hk : P.kdf password e.salt e.scrypt = some key) (hd : d ≠ []) (hl : d.length < 32)
    (he : aesEncrypt P d key e.iv = .ok e.bytes) : decryptSeed P e password = .ub := by
  unfold decryptSeed
  rw [hk]
  simp only
  rw [(cbc_decrypts_iff hP key e.iv e.bytes d hi).mpr ⟨hd, he⟩]
  simp only [if_pos hl]

/-- **C86, records.**  Stored bytes decrypt, as data of a type under a seed, to a record exactly if they are some encryption of that
record for that type and seed. -/
theorem record_decrypts_iff {P : Primitives} (hP : BlockCipher P) (seed dataType stored record : Bytes) :
    decryptRecord P seed dataType stored = .ok record ↔
      record ≠ [] ∧ ∃ iv, iv.length = 16 ∧ encryptRecord P iv seed dataType record = .ok stored := by
  constructor
  · intro h
    cases stored with
    | nil => cases h
    | cons v rest =>
      simp only [decryptRecord] at h
      split at h
      · cases h
      · rename_i hv
        split at h
        · cases h
        · rename_i hl
          have hi : (rest.take 16).length = 16 := by simp; omega
          obtain ⟨h1, h2⟩ := (cbc_decrypts_iff hP _ _ _ _ hi).mp h
          refine ⟨h1, _, hi, ?_⟩
          unfold encryptRecord
          rw [h2, Res.ok_bind, Res.pure_eq, List.take_append_drop, Decidable.not_not.mp hv]
  · rintro ⟨h1, iv, hi, h2⟩
    unfold encryptRecord at h2
    rw [Res.bind_eq_ok] at h2
    obtain ⟨x, h3, h4⟩ := h2
    rw [Res.pure_eq] at h4
    injection h4 with h4
    subst h4
    simp only [decryptRecord]
    rw [if_neg (by simp), if_neg (by simp [hi]), List.take_left' hi, List.drop_left' hi]
    exact (cbc_decrypts_iff hP _ _ _ _ hi).mpr ⟨h1, h3⟩

/-- **C86, a record comes back.** -/
theorem record_roundtrip {P : Primitives} (hP : BlockCipher P) (iv seed dataType record : Bytes) (hi : iv.length = 16) (hr : record ≠ []) :
    ∃ stored, encryptRecord P iv seed dataType record = .ok stored ∧ decryptRecord P seed dataType stored = .ok record := by
  have : encryptRecord P iv seed dataType record = .ok (0 :: (iv ++ cbcEncrypt (P.encrypt (recordKey P seed dataType)) iv record)) := by
    unfold encryptRecord aesEncrypt
    rw [if_neg hr]
    rfl
  exact ⟨_, this, (record_decrypts_iff hP _ _ _ _).mpr ⟨hr, iv, hi, this⟩⟩

/-- **C86 violated: altered records are read.**  Whoever changes the stored initial vector of a record by `delta` changes the first 16
bytes of the record by `delta`, and the record is read without complaint. -/
theorem altered_record_violated {P : Primitives} (hP : BlockCipher P) (iv delta seed dataType record stored : Bytes)
    (hi : iv.length = 16) (hd : delta.length = 16) (hr : 16 ≤ record.length)
    (hs : encryptRecord P iv seed dataType record = .ok stored) :
    ∃ stored', stored'.length = stored.length ∧ stored'.drop 17 = stored.drop 17 ∧
      decryptRecord P seed dataType stored' = .ok (xorBlock (record.take 16) delta ++ record.drop 16) := by
  have hx : ∀ x y : Bytes, x.length = 16 → y.length = 16 → (xorBlock x y).length = 16 := by
    intro x y h1 h2; rw [xor_length (by omega)]; exact h2
  have ht : (record.take 16).length = 16 := by simp; omega
  have hne : record ≠ [] := by intro h; rw [h] at hr; simp at hr
  have hs' : stored = 0 :: (iv ++ cbcEncrypt (P.encrypt (recordKey P seed dataType)) iv record) := by
    unfold encryptRecord aesEncrypt at hs
    rw [if_neg hne, Res.ok_bind, Res.pure_eq] at hs
    injection hs with hs
    exact hs.symm
  have hassoc : xorBlock (xorBlock iv delta) (xorBlock (record.take 16) delta) = xorBlock iv (record.take 16) := by
    have : ∀ a b c : Bytes, a.length = b.length → b.length = c.length →
        xorBlock (xorBlock a b) (xorBlock c b) = xorBlock a c := by
      intro a
      induction a with
      | nil => intro b c h1 h2; cases b <;> cases c <;> simp_all [xorBlock]
      | cons x a ih =>
        intro b c h1 h2
        cases b with
        | nil => simp at h1
        | cons y b =>
          cases c with
          | nil => simp at h2
          | cons z c =>
            have := ih b c (by simpa using h1) (by simpa using h2)
            simp only [xorBlock, List.zipWith_cons_cons] at this ⊢
            rw [this]
            congr 1
            rw [UInt8.xor_comm z y, UInt8.xor_assoc, ← UInt8.xor_assoc y y z, UInt8.xor_self, UInt8.zero_xor]
    exact this _ _ _ (by omega) (by omega)
  generalize hrec : xorBlock (record.take 16) delta ++ record.drop 16 = record'
  have hfst : (xorBlock (record.take 16) delta).length = 16 := hx _ _ ht hd
  have hlen : record'.length = record.length := by rw [← hrec]; simp [hfst]; omega
  have hne' : record' ≠ [] := by intro h; rw [h] at hlen; simp at hlen; omega
  have htake : record'.take 16 = xorBlock (record.take 16) delta := by rw [← hrec, List.take_left' hfst]
  have hdrop : record'.drop 16 = record.drop 16 := by rw [← hrec, List.drop_left' hfst]
  have hiv := hx iv delta hi hd
  have hcbc : ∀ E : Bytes → Bytes, cbcEncrypt E (xorBlock iv delta) record' = cbcEncrypt E iv record := by
    intro E
    rw [cbcEncrypt, dif_pos (by omega), htake, hassoc, hdrop]
    conv => rhs; rw [cbcEncrypt, dif_pos hr]
  refine ⟨0 :: (xorBlock iv delta ++ cbcEncrypt (P.encrypt (recordKey P seed dataType)) (xorBlock iv delta) record'), ?_, ?_, ?_⟩
  · rw [hs', hcbc]; simp [hiv, hi]
  · rw [hs', hcbc]
    rw [show (17 : Nat) = 16 + 1 from rfl, List.drop_succ_cons, List.drop_succ_cons, List.drop_left' hiv, List.drop_left' hi]
  · rw [record_decrypts_iff hP]
    refine ⟨hne', _, hiv, ?_⟩
    unfold encryptRecord aesEncrypt
    rw [if_neg hne']
    rfl

/-! ## A toy instance: the hypotheses can be met -/

/-- Blocks shifted by the first byte of the key; the key of a password is its first byte with the salt. -/
def toy : Primitives :=
  ⟨fun k b => b.map (· + k.headD 1), fun k b => b.map (· - k.headD 1), fun p s _ => some (p ++ s), fun k m => List.replicate 32 (k.headD 3 + m.headD 7),
    fun b => b⟩

theorem toy_cipher : BlockCipher toy := by
  refine ⟨?_, ?_, ?_, ?_⟩
  · intro k b h; simpa [toy] using h
  · intro k b h; simpa [toy] using h
  · intro k b _; simp [toy, Function.comp_def]
  · intro k b _; simp [toy, Function.comp_def]

example : HmacLength toy := by intro k m; simp [toy]

private def toySeed : Bytes := List.replicate 16 9
private def toyIv : Bytes := List.replicate 16 4

private def toyEnc : EncSeed := ⟨toyIv, List.replicate 8 0, sealed toy ([5] ++ List.replicate 8 0) toyIv toySeed, (32768, 8, 1)⟩

example : encryptSeed toy toyIv (List.replicate 8 0) toySeed [5] = .ok toyEnc :=
  encryptSeed_ok (by intro k m; simp [toy]) _ _ _ _ _ rfl

/-- The wrong password 6 is refused. -/
example : openSeed toy toyEnc.toFile [5] = .ok toySeed ∧ ∀ s, openSeed toy toyEnc.toFile [6] ≠ .ok s := by
  have he : encryptSeed toy toyIv (List.replicate 8 0) toySeed [5] = .ok toyEnc :=
    encryptSeed_ok (by intro k m; simp [toy]) _ _ _ _ _ rfl
  refine ⟨seed_file_opens toy_cipher (by intro k m; simp [toy]) _ _ _ _ _ (by decide) (by decide) he, ?_⟩
  intro s h
  have : openSeed toy toyEnc.toFile [6] = .throw := by
    unfold openSeed
    rw [load_toFile _ (by decide) (by decide), Res.ok_bind]
    decide +kernel
  rw [this] at h
  cases h

example : aesEncrypt toy [1, 2, 3] [5] toyIv ≠ .ub ∧ ([1, 2, 3] : Bytes).length < 32 := by decide

example : ∃ s, encryptRecord toy toyIv toySeed [7] (List.replicate 20 1) = .ok s := ⟨_, rfl⟩

end Verif.Props
