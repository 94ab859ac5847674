import Verif.Codec.Base64
import Verif.Codec.Armor

/-!
# Age encryption

Model of `src/Crypto/Age.cpp`, `include/Crypto/Age/{Header,RecipientLine}.h`, `include/Crypto/ChaChaPoly.h` and
the construction in `deps/chachapoly/chachapoly.cpp`, in a build where `assert` is off.  The primitives (the
ChaCha20 key stream, the Poly1305 tag, X25519, HKDF, HMAC) are parameters.
-/
namespace Verif.Codec

/-- The primitives. -/
structure AgeEnv where
  /-- byte `i` of the ChaCha20 key stream from block 1 on, for a key and a nonce -/
  stream : Bytes → Bytes → Nat → UInt8
  /-- `poly1305_get_tag` (chachapoly.cpp:67-97) under the key from block 0, without associated data -/
  tag : Bytes → Bytes → Bytes → Bytes
  tag_length : ∀ k n c, (tag k n c).length = 16
  /-- `X25519::ECDH` (X25519.h:73-86): secret key, public key -/
  ecdh : Bytes → Bytes → Res Bytes
  /-- `crypto_scalarmult_curve25519_base` -/
  pub : Bytes → Bytes
  pub_length : ∀ s, (pub s).length = 32
  /-- `KDF::HKDF` (KDF.cpp:21-43): salt, label, input -/
  hkdf : Option Bytes → Bytes → Bytes → Bytes
  /-- `Hasher::HMAC_SHA256` -/
  hmac : Bytes → Bytes → Bytes
  hmac_length : ∀ k m, (hmac k m).length = 32

/-- `chacha_encrypt_bytes` of the data (chachapoly.cpp:128-131). -/
def chachaXor (E : AgeEnv) (k n bs : Bytes) : Bytes := bs.mapIdx fun i b => b ^^^ E.stream k n i

/-- `ChaChaPoly::Encrypt` (ChaChaPoly.h:24-47). -/
def sealBox (E : AgeEnv) (k n p : Bytes) : Bytes := chachaXor E k n p ++ E.tag k n (chachaXor E k n p)

/-- `ChaChaPoly::Decrypt` (ChaChaPoly.h:81-109).  With fewer than 16 bytes `encrypted_len` wraps around and the
iterators leave the vector. -/
def openBox (E : AgeEnv) (k n c : Bytes) : Res Bytes :=
  if c.length < 16 then .ub
  else
    let ct := c.take (c.length - 16)
    if E.tag k n ct = c.drop (c.length - 16) then .ok (chachaXor E k n ct) else .throw

/-- The loop of `CBigInteger::operator++` (BigInteger.h:170-185), last byte first.  Past the first byte the
index wraps around and the access is out of bounds. -/
def incRev : Bytes → Res Bytes
  | [] => .ub
  | b :: bs => if b = 255 then (do let r ← incRev bs; return 0 :: r) else .ok ((b + 1) :: bs)

/-- `CBigInteger::operator++(int)` (BigInteger.h:170-185). -/
def incBE (bs : Bytes) : Res Bytes := do
  let r ← incRev bs.reverse
  return r.reverse

/-- The loop of `ChaChaPoly::StreamEncrypt` (ChaChaPoly.h:55-76); the argument is the data from `index` on. -/
def streamEncGo (E : AgeEnv) (k : Bytes) : Nat → Bytes → Bytes → Res Bytes
  | 0, _, data => if data = [] then .ok [] else .ub
  | fuel + 1, counter, data =>
    if data = [] then .ok []
    else do
      let rest := data.drop (min 65536 data.length)
      let c := sealBox E k (counter ++ [if rest = [] then 1 else 0]) (data.take (min 65536 data.length))
      let counter' ← incBE counter
      let cs ← streamEncGo E k fuel counter' rest
      return c ++ cs

/-- `ChaChaPoly::StreamEncrypt` (ChaChaPoly.h:49-79). -/
def streamEncrypt (E : AgeEnv) (k data : Bytes) : Res Bytes :=
  streamEncGo E k data.length (List.replicate 11 0) data

/-- The loop of `ChaChaPoly::StreamDecrypt` (ChaChaPoly.h:117-138). -/
def streamDecGo (E : AgeEnv) (k : Bytes) : Nat → Bytes → Bytes → Res Bytes
  | 0, _, data => if data = [] then .ok [] else .ub
  | fuel + 1, counter, data =>
    if data = [] then .ok []
    else do
      let rest := data.drop (min 65552 data.length)
      let p ← openBox E k (counter ++ [if rest = [] then 1 else 0]) (data.take (min 65552 data.length))
      let counter' ← incBE counter
      let ps ← streamDecGo E k fuel counter' rest
      return p ++ ps

/-- `ChaChaPoly::StreamDecrypt` (ChaChaPoly.h:111-141). -/
def streamDecrypt (E : AgeEnv) (k data : Bytes) : Res Bytes :=
  streamDecGo E k data.length (List.replicate 11 0) data

/-- `RecipientLine` (RecipientLine.h:12-15). -/
structure RecipientLine where
  ephemeral : Bytes
  fileKey : Bytes
deriving DecidableEq, Repr

/-- `RecipientLine::Encode` (RecipientLine.h:17-24). -/
def encodeLine (l : RecipientLine) : Bytes :=
  str "-> X25519 " ++ b64Encode false l.ephemeral ++ [10] ++ b64Encode false l.fileKey ++ [10]

/-- The recipient lines, joined (Header.h:57-60). -/
def encodeLines (ls : List RecipientLine) : Bytes := (ls.map encodeLine).flatten

/-- `Header::Encode` (Header.h:55-67). -/
def encodeHeader (mac : Bytes) (ls : List RecipientLine) : Bytes :=
  str "age-encryption.org/v1\n" ++ encodeLines ls ++ str "--- " ++ b64Encode false mac ++ [10]

/-- The code computed in `Header::Create` (Header.h:19-37). -/
def headerMac (E : AgeEnv) (macKey : Bytes) (ls : List RecipientLine) : Bytes :=
  E.hmac macKey (str "age-encryption.org/v1\n" ++ encodeLines ls ++ str "---")

/-- `RecipientLine::CalcEncryptionKey` (RecipientLine.h:26-41): shared secret, ephemeral key, recipient. -/
def lineKey (E : AgeEnv) (shared eph pk : Bytes) : Bytes :=
  E.hkdf (some (eph ++ pk)) (str "age-encryption.org/v1/X25519") shared

/-- `CBigInteger<12>::ValueOf(0)`. -/
def zeroNonce : Bytes := List.replicate 12 0

/-- What the generator gives to one encryption: the file key, the nonce (Age.cpp:11, 22) and the secret of the
ephemeral pair for each recipient (47). -/
structure AgeRnd where
  fileKey : Bytes
  nonce : Bytes
  eph : Nat → Bytes

/-- `Age::BuildRecipientLines` (Age.cpp:40-67). -/
def buildLines (E : AgeEnv) (rnd : AgeRnd) : Nat → List Bytes → Res (List RecipientLine)
  | _, [] => .ok []
  | i, r :: rs => do
    let shared ← E.ecdh (rnd.eph i) r
    let key := lineKey E shared (E.pub (rnd.eph i)) r
    let ls ← buildLines E rnd (i + 1) rs
    return ⟨E.pub (rnd.eph i), sealBox E key zeroNonce rnd.fileKey⟩ :: ls

/-- The key of the payload (Age.cpp:23-27, 140-144). -/
def payloadKey (E : AgeEnv) (nonce fileKey : Bytes) : Bytes := E.hkdf (some nonce) (str "payload") fileKey

/-- `Age::Encrypt` (Age.cpp:7-38). -/
def ageEncrypt (E : AgeEnv) (rnd : AgeRnd) (recipients : List Bytes) (payload : Bytes) : Res Bytes := do
  let macKey := E.hkdf none (str "header") rnd.fileKey
  let ls ← buildLines E rnd 0 recipients
  let c ← streamEncrypt E (payloadKey E rnd.nonce rnd.fileKey) payload
  return encodeHeader (headerMac E macKey ls) ls ++ rnd.nonce ++ c

/-- The loop that reads the lines of the header (Age.cpp:73-90): the lines and what follows. -/
def ageLines : Bytes → Bytes → Res (List Bytes × Bytes)
  | [], _ => .throw
  | c :: s, cur =>
    if c = 10 then
      if startsWith cur (str "---") then .ok ([cur], s)
      else do
        let r ← ageLines s []
        return (cur :: r.1, r.2)
    else ageLines s (cur ++ [c])

/-- `std::regex_match` with `-> X25519 ([^-\s]*)` (Header.h:84): the group. -/
def x25519Arg (line : Bytes) : Option Bytes :=
  if startsWith line (str "-> X25519 ") ∧ (line.drop 10).all (fun c => c != 45 && !isSpace c) = true
  then some (line.drop 10) else none

/-- The loop of `Header::Decode` (Header.h:80-118).  The code read from the last line is kept, whatever its
size, and not used. -/
def decodeLines : List Bytes → Res (List RecipientLine)
  | [] => .throw
  | line :: ls =>
    match x25519Arg line with
    | some arg => do
      let eph ← b64Decode false arg
      if eph.length ≠ 32 then .throw
      else
        match ls with
        | [] => .throw
        | second :: ls' => do
          let fk ← b64Decode false second
          if fk.length ≠ 32 then .throw
          else do
            let r ← decodeLines ls'
            return ⟨eph, fk⟩ :: r
    | none =>
      if startsWith line (str "---") then
        match split 32 line with
        | [_, m] => do
          let _ ← b64Decode false m
          return []
        | _ => .throw
      else decodeLines ls

/-- The body of `Age::TryDecrypt` (Age.cpp:119-146); `sk` is the secret key of the pair. -/
def tryLine (E : AgeEnv) (sk nonce payload : Bytes) (l : RecipientLine) : Res Bytes := do
  let shared ← E.ecdh sk l.ephemeral
  let fk ← openBox E (lineKey E shared l.ephemeral (E.pub sk)) zeroNonce l.fileKey
  streamDecrypt E (payloadKey E nonce fk) payload

/-- The loop over the recipient lines (Age.cpp:97-109) with the `catch` of `TryDecrypt` (147-152). -/
def tryLines (E : AgeEnv) (sk nonce payload : Bytes) : List RecipientLine → Res Bytes
  | [] => .throw
  | l :: ls =>
    match tryLine E sk nonce payload l with
    | .ok [] => tryLines E sk nonce payload ls
    | .ok p => .ok p
    | .throw => tryLines E sk nonce payload ls
    | .ub => .ub

/-- `Age::Decrypt` (Age.cpp:69-112). -/
def ageDecrypt (E : AgeEnv) (sk m : Bytes) : Res Bytes := do
  let r ← ageLines m []
  if r.2.length < 16 then .throw
  else do
    let ls ← decodeLines r.1.tail
    tryLines E sk (r.2.take 16) (r.2.drop 16) ls

end Verif.Codec
