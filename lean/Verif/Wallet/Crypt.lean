import Verif.Base.Outcome
import Verif.Ser.ByteBuffer
import Verif.Ser.Reads
import Verif.Codec.Hex

/-!
# Encryption of the seed and of database records

Model of `AES256` (src/Crypto/AES256.cpp) over the CBC mode of deps/bitcoin/src/aes.cpp, of `SeedEncrypter`
(src/Wallet/Keychain/SeedEncrypter.cpp), of the seed file (EncryptedSeed.h, SqliteStore.cpp) and of `WalletEncryptionUtil`.
The AES block function, scrypt, HMAC and Blake2b are parameters.  Lengths are assumed to fit `int`.
-/
namespace Verif.Wallet
open Verif.Codec

/-- `mixed[i] ^= …` over a block (aes.cpp:88-89, 118-119). -/
def xorBlock (a b : Bytes) : Bytes := List.zipWith (· ^^^ ·) a b

/-- `CBCEncrypt` with padding (aes.cpp:71-105) for data that is not empty; `E` is the block function under the key. -/
def cbcEncrypt (E : Bytes → Bytes) (iv data : Bytes) : Bytes :=
  if _h : 16 ≤ data.length then
    let c := E (xorBlock iv (data.take 16))
    c ++ cbcEncrypt E c (data.drop 16)
  else
    E (xorBlock iv (data ++ List.replicate (16 - data.length) (UInt8.ofNat (16 - data.length))))
termination_by data.length
decreasing_by simp only [List.length_drop]; omega

/-- The loop of `CBCDecrypt` (aes.cpp:121-127). -/
def cbcBlocks (D : Bytes → Bytes) (prev data : Bytes) : Bytes :=
  if _h : data = [] then []
  else xorBlock (D (data.take 16)) prev ++ cbcBlocks D (data.take 16) (data.drop 16)
termination_by data.length
decreasing_by
  have : 0 < data.length := List.length_pos_iff.mpr ‹_›
  simp only [List.length_drop]; omega

/-- The padding check of `CBCDecrypt` (aes.cpp:130-146): what is kept of the output, nothing if the padding is wrong. -/
def unpad (out : Bytes) : Bytes :=
  let p := out.getLastD 0
  let fail := p = 0 ∨ 16 < p
  let n := if fail then 0 else p.toNat
  if fail ∨ (out.drop (out.length - n)).any (fun x => x ≠ p) then [] else out.take (out.length - n)

/-- `CBCDecrypt` with padding (aes.cpp:108-148). -/
def cbcDecrypt (D : Bytes → Bytes) (iv data : Bytes) : Bytes :=
  if data = [] ∨ data.length % 16 ≠ 0 then [] else unpad (cbcBlocks D iv data)

/-- The external functions: AES-256 under a key in both directions, scrypt followed by Blake2b (`KDF::PBKDF`, KDF.cpp:10-19,
refused for some parameters), `HMAC_SHA256` (key first), Blake2b. -/
structure Primitives where
  encrypt : Bytes → Bytes → Bytes
  decrypt : Bytes → Bytes → Bytes
  kdf : Bytes → Bytes → Nat × Nat × Nat → Option Bytes
  hmac : Bytes → Bytes → Bytes
  blake : Bytes → Bytes

/-- `AES256::Encrypt` (AES256.cpp:6-22); an empty input reads `input[0]`. -/
def aesEncrypt (P : Primitives) (input key iv : Bytes) : Res Bytes :=
  if input = [] then .ub else .ok (cbcEncrypt (P.encrypt key) iv input)

/-- `AES256::Decrypt` (AES256.cpp:24-41). -/
def aesDecrypt (P : Primitives) (text key iv : Bytes) : Res Bytes :=
  let out := cbcDecrypt (P.decrypt key) iv text
  if out = [] then .throw else .ok out

/-- `EncryptedSeed` (EncryptedSeed.h:10-17, 83-87). -/
structure EncSeed where
  iv : Bytes
  salt : Bytes
  bytes : Bytes
  scrypt : Nat × Nat × Nat
deriving DecidableEq, Repr

/-- `SeedEncrypter::EncryptWalletSeed` (SeedEncrypter.cpp:49-72); `iv`, `salt` come from the random source. -/
def encryptSeed (P : Primitives) (iv salt seed password : Bytes) : Res EncSeed :=
  match P.kdf password salt (32768, 8, 1) with
  | none => .throw
  | some key => do
    let e ← aesEncrypt P (seed ++ P.hmac seed key) key iv
    return ⟨iv, salt, e, (32768, 8, 1)⟩

/-- `SeedEncrypter::DecryptWalletSeed` (SeedEncrypter.cpp:10-47); `decrypted.begin() + decrypted.size() - 32` is undefined for
fewer than 32 bytes. -/
def decryptSeed (P : Primitives) (e : EncSeed) (password : Bytes) : Res Bytes :=
  match P.kdf password e.salt e.scrypt with
  | none => .throw
  | some key =>
    match aesDecrypt P e.bytes key e.iv with
    | .throw => .throw
    | .ub => .ub
    | .ok d =>
      if d.length < 32 then .ub
      else
        let seed := d.take (d.length - 32)
        if P.hmac seed key = d.drop (d.length - 32) then .ok seed else .throw

/-- The fields of seed.json (EncryptedSeed.h:36-45, ScryptParameters.h:15-22); the JSON text itself is not modelled. -/
structure SeedFile where
  version : Nat
  iv : Bytes
  salt : Bytes
  scrypt : Nat × Nat × Nat
  seed : Bytes
deriving DecidableEq, Repr

/-- `EncryptedSeed::ToJSON` (EncryptedSeed.h:36-45). -/
def EncSeed.toFile (e : EncSeed) : SeedFile := ⟨1, toHex e.iv, toHex e.salt, e.scrypt, toHex e.bytes⟩

/-- `CBigInteger::FromHex` (BigInteger.h:96-105). -/
def fixedHex (n : Nat) (s : Bytes) : Res Bytes := do
  let d ← fromHex s
  if d.length = n then return d else .throw

/-- `EncryptedSeed::FromJSON` (EncryptedSeed.h:69-80); the version is not looked at. -/
def SeedFile.load (f : SeedFile) : Res EncSeed := do
  let iv ← fixedHex 16 f.iv
  let salt ← fixedHex 8 f.salt
  let bytes ← fromHex f.seed
  return ⟨iv, salt, bytes, f.scrypt⟩

/-- `LoadWalletSeed` and `DecryptWalletSeed`, as at login (SessionManager.cpp:105-120, SqliteStore.cpp:177-205). -/
def openSeed (P : Primitives) (f : SeedFile) (password : Bytes) : Res Bytes := do
  let e ← f.load
  decryptSeed P e password

/-- `WalletManager::ChangePassword` (WalletManagerImpl.cpp:247-259, SqliteStore.cpp:125-133): the new content of the file. -/
def changePassword (P : Primitives) (iv salt : Bytes) (f : SeedFile) (old new : Bytes) : Res SeedFile := do
  let seed ← openSeed P f old
  let e ← encryptSeed P iv salt seed new
  return e.toFile

/-- `CreateSecureKey` (WalletEncryptionUtil.cpp:50-65). -/
def recordKey (P : Primitives) (seed dataType : Bytes) : Bytes := P.blake (seed ++ (beBytes 8 dataType.length ++ dataType))

/-- `WalletEncryptionUtil::Encrypt` (WalletEncryptionUtil.cpp:9-25). -/
def encryptRecord (P : Primitives) (iv seed dataType record : Bytes) : Res Bytes := do
  let e ← aesEncrypt P record (recordKey P seed dataType) iv
  return 0 :: (iv ++ e)

/-- `WalletEncryptionUtil::Decrypt` (WalletEncryptionUtil.cpp:27-48); the reads are those of `ByteBuffer` on a buffer of
fewer than 17 bytes, which throw. -/
def decryptRecord (P : Primitives) (seed dataType : Bytes) : Bytes → Res Bytes
  | [] => .throw
  | v :: rest =>
    if v ≠ 0 then .throw
    else if rest.length < 16 then .throw
    else aesDecrypt P (rest.drop 16) (recordKey P seed dataType) (rest.take 16)

end Verif.Wallet
