import Verif.Codec.Base58
import Verif.Codec.Bech32
import Verif.Ser.Reads

/-!
# Slatepacks

Model of `include/Wallet/Models/Slatepack/{Armor,SlatepackMessage,SlatepackAddress}.h`.  `H` is the double
SHA-256 of `Base58::SHA256d`, `valid` is libsodium's `crypto_core_ed25519_is_valid_point`, and the age
encryption is a parameter.
-/
namespace Verif.Codec

/-- `Armor::HEADER` (Armor.h:86). -/
def armorHeader : Bytes := str "BEGINSLATEPACK"
/-- `Armor::FOOTER` (Armor.h:87). -/
def armorFooter : Bytes := str "ENDSLATEPACK"

/-- The loop of `Armor::FormatSpacing` from index `i` on (Armor.h:70-81). -/
def spacingGo : Nat → Bytes → Bytes
  | _, [] => []
  | i, c :: s =>
    (if i ≠ 0 ∧ i % 15 = 0 then (if i % (15 * 200) = 0 then [10] else [32]) else []) ++ c :: spacingGo (i + 1) s

/-- `Armor::FormatSpacing` (Armor.h:67-84). -/
def formatSpacing (s : Bytes) : Bytes := spacingGo 0 s

/-- The armoring of the serialized message in `Armor::Pack` (Armor.h:30-38). -/
def armorText (H : Bytes → Bytes) (bs : Bytes) : Res Bytes := do
  let t ← simpleEncodeCheck H bs
  return armorHeader ++ str ". " ++ formatSpacing t ++ str ". " ++ armorFooter ++ str "."

/-- The unarmoring in `Armor::Unpack` (Armor.h:43-62). -/
def unarmor (H : Bytes → Bytes) (s : Bytes) : Res Bytes :=
  match split 46 (s.filter fun c => !isSpace c) with
  | h :: body :: f :: _ =>
    if h ≠ armorHeader ∨ f ≠ armorFooter then .throw else simpleDecodeCheck H body
  | _ => .throw

/-- `SlatepackAddress::Serialize` (SlatepackAddress.h:42-47); an address is its 32-byte key. -/
def serAddress (a : Bytes) : Res Bytes := do
  let t ← bech32ToString (str "grin") a
  return beBytes 1 (t.length % 256) ++ t

/-- `SlatepackAddress::Parse` (SlatepackAddress.h:18-24) with `ED25519::ToPubKey` (ED25519.cpp:8-21).
The prefix is not looked at. -/
def parseAddress (valid : Bytes → Bool) (s : Bytes) : Res Bytes := do
  let r ← bech32Parse s
  if r.2.length ≠ 32 ∨ valid r.2 = false then .throw else return r.2

/-- `SlatepackAddress::Deserialize` (SlatepackAddress.h:49-53).  `ReadString(0)` takes the address of the
first element of an empty vector; that is not modelled (the empty string is then refused). -/
def deserAddress (valid : Bytes → Bool) : Parser Bytes := do
  let n ← readBE 1
  let t ← readBytes n
  fun b => parseAddress valid t >>= fun a => .ok (a, b)

/-- `SlatepackMessage` (SlatepackMessage.h:105-118). -/
structure Message where
  major : Nat
  minor : Nat
  mode : Nat
  sender : Bytes
  recipients : List Bytes
  payload : Bytes
deriving DecidableEq, Repr

/-- The default address (SlatepackAddress.h:14) and the test `IsNull` (34). -/
def nullAddress : Bytes := List.replicate 32 0

/-- The age functions of `include/Crypto/Age.h`, on the converted recipient keys; `rnd` stands for the
random bytes drawn. -/
structure AgeOps where
  Key : Type
  Rnd : Type
  convert : Bytes → Res Bytes
  encrypt : Rnd → List Bytes → Bytes → Res Bytes
  decrypt : Key → Bytes → Res Bytes

/-- Serializations of several addresses, concatenated. -/
def serAddresses : List Bytes → Res Bytes
  | [] => .ok []
  | a :: as => do
    let x ← serAddress a
    let xs ← serAddresses as
    return x ++ xs

/-- The x25519 keys of the recipients (SlatepackMessage.h:233-240). -/
def convertAll (age : AgeOps) : List Bytes → Res (List Bytes)
  | [] => .ok []
  | a :: as => do
    let k ← age.convert a
    let ks ← convertAll age as
    return k :: ks

/-- The plain text handed to age by `EncryptPayload` (SlatepackMessage.h:209-231). -/
def innerText (m : Message) : Res Bytes := do
  let s ← serAddress m.sender
  let rs ← serAddresses m.recipients
  let inner :=
    if m.recipients = [] then beBytes 2 1 ++ s
    else beBytes 2 3 ++ s ++ beBytes 2 (m.recipients.length % 65536) ++ rs
  return beBytes 4 (inner.length % 4294967296) ++ inner ++ m.payload

/-- `SlatepackMessage::EncryptPayload` (SlatepackMessage.h:207-243). -/
def encryptPayload (age : AgeOps) (rnd : age.Rnd) (m : Message) (recipients : List Bytes) : Res Bytes := do
  let text ← innerText m
  let keys ← convertAll age recipients
  age.encrypt rnd keys text

/-- `SlatepackMessage::Encrypt` (SlatepackMessage.h:119-148). -/
def serMessage (age : AgeOps) (rnd : age.Rnd) (m : Message) (recipients : List Bytes) : Res Bytes := do
  let withSender : Bool := decide (m.mode = 0 ∧ m.sender ≠ nullAddress)
  let opt ← if withSender then serAddress m.sender else .ok []
  let payload ← if m.mode = 0 then .ok m.payload else encryptPayload age rnd m recipients
  return beBytes 1 m.major ++ (beBytes 1 m.minor ++ (beBytes 1 m.mode ++
    (beBytes 2 (if withSender then 1 else 0) ++ (beBytes 4 (opt.length % 4294967296) ++ (opt ++
    (beBytes 8 payload.length ++ payload))))))

/-- Run a deserializer on a buffer of its own (SlatepackMessage.h:78, 160). -/
def onBuffer {α : Type} (p : Parser α) (bs : Bytes) : Parser α :=
  fun b => p ⟨bs, 0⟩ >>= fun r => .ok (r.1, b)

/-- Reading the metadata, `Metadata::Deserialize` (SlatepackMessage.h:75-97), from its own buffer. -/
def deserMetadata (valid : Bytes → Bool) : Parser (Bytes × List Bytes) := do
  let flags ← readBE 2
  let sender ← if flags % 2 = 1 then deserAddress valid else pure nullAddress
  let recipients ← if flags / 2 % 2 = 1 then (do
      let n ← readBE 2
      readMany (deserAddress valid) n)
    else pure []
  return (sender, recipients)

/-- Reading the decrypted text, `DecryptPayload` (SlatepackMessage.h:245-257): sender, recipients,
payload. -/
def deserInner (valid : Bytes → Bool) : Parser (Bytes × List Bytes × Bytes) := do
  let n ← readBE 4
  let inner ← readBytes n
  let md ← onBuffer (deserMetadata valid) inner
  let payload ← readRemaining
  return (md.1, md.2, payload)

/-- `SlatepackMessage::Decrypt` (SlatepackMessage.h:150-174). -/
def deserMessage (age : AgeOps) (valid : Bytes → Bool) (key : age.Key) : Parser Message := do
  let major ← readBE 1
  let minor ← readBE 1
  let mode ← readBE 1
  let flags ← readBE 2
  let n ← readBE 4
  let opt ← readBytes n
  let sender ← if flags % 2 = 1 then onBuffer (deserAddress valid) opt else pure nullAddress
  let k ← readBE 8
  let payload ← readBytes k
  if mode = 1 then
    fun b => age.decrypt key payload >>= fun text =>
      deserInner valid ⟨text, 0⟩ >>= fun r =>
        .ok (⟨major, minor, mode, r.1.1, r.1.2.1, r.1.2.2⟩, b)
  else return ⟨major, minor, mode, sender, [], payload⟩

/-- `Armor::Pack` from the serialized slate on (Armor.h:24-39): without recipients the message is plain
text. -/
def armorPack (H : Bytes → Bytes) (age : AgeOps) (rnd : age.Rnd) (sender slate : Bytes)
    (recipients : List Bytes) : Res Bytes := do
  let m : Message := ⟨1, 0, if recipients = [] then 0 else 1, sender, [], slate⟩
  let bs ← serMessage age rnd m recipients
  armorText H bs

/-- `Armor::Unpack` (Armor.h:41-64). -/
def armorUnpack (H : Bytes → Bytes) (age : AgeOps) (valid : Bytes → Bool) (key : age.Key) (s : Bytes) :
    Res Message := do
  let bs ← unarmor H s
  let r ← deserMessage age valid key ⟨bs, 0⟩
  return r.1

end Verif.Codec
