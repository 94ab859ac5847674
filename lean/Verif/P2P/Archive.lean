import Verif.Codec.Text

/-!
# Transfer and use of chain snapshots

Model of `src/P2P/Pipeline/TxHashSetPipe.cpp`, `src/BlockChain/Processors/TxHashSetProcessor.cpp`,
`src/PMMR/Zip/{TxHashSetZip,ZipFile}.cpp` and `TxHashSetManager::LoadFromZip`.
-/
namespace Verif.P2P

open Verif.Codec

/-- `BUFFER_SIZE` (TxHashSetPipe.cpp:17). -/
def archiveBuffer : Nat := 128 * 1024

/-! ## The transfer -/

/-- The loop that sends the file (TxHashSetPipe.cpp:211-220), from the current position on: a `read` that meets
the end of the file before `BUFFER_SIZE` bytes makes the stream false. -/
def archiveSend : Nat → Bytes → Bytes
  | 0, _ => []
  | fuel + 1, file =>
    if file.length < archiveBuffer then []
    else file.take archiveBuffer ++ archiveSend fuel (file.drop archiveBuffer)

/-- The bytes of the file that `Thread_SendTxHashSet` puts on the wire after the message that announces its size
(TxHashSetPipe.cpp:204-220); nothing goes wrong with the socket. -/
def sentBytes (file : Bytes) : Bytes := archiveSend (file.length + 1) file

/-- The conversion of a 64-bit number to `int`. -/
def toInt32 (n : Nat) : Int := if n % 2 ^ 32 < 2 ^ 31 then (n % 2 ^ 32 : Nat) else (n % 2 ^ 32 : Nat) - 2 ^ 32

/-- `bytesToRead` (TxHashSetPipe.cpp:97). -/
def bytesToRead (size received : Nat) : Int := min (toInt32 (size - received)) archiveBuffer

/-- How a download stands. -/
inductive Recv
  | complete (file rest : Bytes)
  | failed
  | running
deriving DecidableEq, Repr

/-- The loop that receives the file (TxHashSetPipe.cpp:94-116) with `ReceiveSync` (Connection.cpp:258-270,
Socket.cpp:229-263).  `input` is all the peer sends before it falls silent; a read beyond it times out.  A negative
count becomes a vector of more than 2^63 bytes, whose constructor throws (caught at 142).  The node is not
shut down meanwhile and the connection stays open; a read of no bytes succeeds, and the address `&buffer[0]` taken then of an
empty vector is not used.  `running` means that the rounds allowed have been used up. -/
def recvLoop (size : Nat) : Nat → Nat → Bytes → Bytes → Recv
  | 0, _, _, _ => .running
  | fuel + 1, received, input, file =>
    if received < size then
      if bytesToRead size received < 0 then .failed
      else
        let n := (bytesToRead size received).toNat
        if input.length < n then .failed
        else recvLoop size fuel (received + n) (input.drop n) (file ++ input.take n)
    else .complete file input

/-! ## Unpacking -/

/-- A file below the directory of the chain state: folder and name. -/
abbrev Path := Bytes × Bytes

/-- The files below that directory. -/
abbrev Files := Path → Option Bytes

/-- What an archive holds under a name: the bytes `unzReadCurrentFile` yields until the end of the entry or its first
error, which `ExtractFile` does not tell apart (ZipFile.cpp:52-61). -/
abbrev Zip := Bytes → Option Bytes

/-- Emptying and creating a folder (TxHashSetZip.cpp:46-72, 85-111); no error of the file system is modelled. -/
def emptyFolder (fs : Files) (folder : Bytes) : Files := fun p => if p.1 = folder then none else fs p

/-- One file written. -/
def writeFile (fs : Files) (p : Path) (bs : Bytes) : Files := fun q => if q = p then some bs else fs q

/-- The loops over the file names (TxHashSetZip.cpp:74-78, 113-117) with `ExtractFile` (ZipFile.cpp:30-62): a missing
entry throws. -/
def extractFiles (zip : Zip) (folder : Bytes) : List Bytes → Files → Bool × Files
  | [], fs => (true, fs)
  | f :: names, fs =>
    match zip (folder ++ str "/" ++ f) with
    | none => (false, fs)
    | some bs => extractFiles zip folder names (writeFile fs (folder, f) bs)

/-- `FileUtil::RenameFile` within a folder. -/
def renameFile (fs : Files) (folder source target : Bytes) : Files :=
  fun q => if q = (folder, target) then fs (folder, source) else if q = (folder, source) then none else fs q

/-- `ExtractKernelFolder` (TxHashSetZip.cpp:42-79). -/
def extractKernel (zip : Zip) (fs : Files) : Bool × Files :=
  extractFiles zip (str "kernel") [str "pmmr_data.bin", str "pmmr_hash.bin"] (emptyFolder fs (str "kernel"))

/-- `ExtractFolder` (TxHashSetZip.cpp:81-120); `short` is the short hash of the header. -/
def extractFolder (zip : Zip) (folder short : Bytes) (fs : Files) : Bool × Files :=
  let leaf := str "pmmr_leaf.bin." ++ short
  match extractFiles zip folder [str "pmmr_data.bin", str "pmmr_hash.bin", str "pmmr_prun.bin", leaf] (emptyFolder fs folder) with
  | (true, fs') => (true, renameFile fs' folder leaf (str "pmmr_leaf.bin"))
  | (false, fs') => (false, fs')

/-- `TxHashSetZip::Extract` (TxHashSetZip.cpp:16-40); `zip` is empty if the file cannot be opened as an archive. -/
def extractArchive (zip : Option Zip) (short : Bytes) (fs : Files) : Bool × Files :=
  match zip with
  | none => (false, fs)
  | some z =>
    match extractKernel z fs with
    | (false, fs1) => (false, fs1)
    | (true, fs1) =>
      match extractFolder z (str "output") short fs1 with
      | (false, fs2) => (false, fs2)
      | (true, fs2) => extractFolder z (str "rangeproof") short fs2

/-! ## Use -/

/-- The parts of the node's state that a snapshot touches.  The chains are the lists of hashes that C37 shows them to
be; `txHashSet` is the block at which the open set of outputs and kernels stands, if one is open; `sums` are the
blocks with stored sums; `positions` is the snapshot whose output positions were stored last. -/
structure NodeState where
  headers : Bytes → Option Nat
  candidate : List Bytes
  confirmed : List Bytes
  txHashSet : Option Bytes
  files : Files
  sums : List Bytes
  positions : Option Bytes

/-- The loop of `FindCommonIndex` (ChainStore.cpp:75-86) from height `h` downwards. -/
def commonHeight (a b : List Bytes) : Nat → Res Nat
  | 0 => if a[0]? = b[0]? ∧ a[0]? ≠ none then .ok 0 else .ub
  | h + 1 => if a[h + 1]? = b[h + 1]? then .ok (h + 1) else commonHeight a b h

/-- `UpdateConfirmedChain` (TxHashSetProcessor.cpp:76-98): the new confirmed chain, or nothing if it returns false.
A header above the candidate chain has no index there: a null pointer is dereferenced. -/
def updateConfirmed (s : NodeState) (hash : Bytes) (height : Nat) : Res (Option (List Bytes)) :=
  match s.candidate[height]? with
  | none => .ub
  | some h =>
    if h ≠ hash then .ok none
    else do
      let common ← commonHeight s.candidate s.confirmed (min s.candidate.length s.confirmed.length - 1)
      return some (s.confirmed.take (common + 1) ++ (s.candidate.take (height + 1)).drop (common + 1))

/-- `ProcessTxHashSet` (TxHashSetProcessor.cpp:21-74) with `LoadFromZip` (TxHashSetManager.cpp:51-89).  `valid` tells
whether the unpacked files load, rewind to the header and validate (C63, C77); changes of the files by the rewinding
are not modelled.  A batch that is not committed is rolled back. -/
def processSnapshot (short : Bytes → Bytes) (valid : Bytes → Files → Bool) (s : NodeState) (hash : Bytes)
    (zip : Option Zip) : Res (Bool × NodeState) :=
  match s.headers hash with
  | none => .ok (false, s)
  | some height =>
    let s1 := { s with txHashSet := none }
    match extractArchive zip (short hash) s1.files with
    | (false, fs) => .ok (false, { s1 with files := fs })
    | (true, fs) =>
      let s2 := { s1 with files := fs }
      if valid hash fs = false then .ok (false, s2)
      else do
        let c ← updateConfirmed s2 hash height
        match c with
        | none => return (false, s2)
        | some confirmed =>
          return (true, { s2 with txHashSet := some hash, confirmed := confirmed, sums := hash :: s2.sums, positions := some hash })

/-- What becomes of a peer that announces a snapshot. -/
inductive Fate | kept | banned
deriving DecidableEq, Repr

/-- `ReceiveTxHashSet` and `Thread_ProcessTxHashSet` (TxHashSetPipe.cpp:37-151) for an announced size and hash, once the
thread has ended: the state, and the fate of the peer.  `syncing` is whether a snapshot was asked for (logged only),
`processing` whether another one is being handled, `unzip` the library that reads archives.  The result is empty while the
download runs. -/
def receiveArchive (short : Bytes → Bytes) (valid : Bytes → Files → Bool) (unzip : Bytes → Option Zip) (fuel : Nat)
    (_syncing processing : Bool) (s : NodeState) (hash : Bytes) (size : Nat) (input : Bytes) :
    Res (Option (Fate × NodeState)) :=
  if processing then .ok (some (.banned, s))
  else
    match recvLoop size fuel 0 input [] with
    | .running => .ok none
    | .failed => .ok (some (.banned, s))
    | .complete file _ => do
      let r ← processSnapshot short valid s hash (unzip file)
      return some (if r.1 then .kept else .banned, r.2)

end Verif.P2P
