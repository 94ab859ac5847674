import Verif.Base.Outcome
import Verif.Codec.Json

/-!
# The stored wallet and its schema

Model of `src/Wallet/WalletDB/Sqlite/SqliteStore.cpp` (opening and creating a database), of the schema updates of
`src/Wallet/WalletDB/Sqlite/Tables/*.cpp` and of the slate table.  A table is absent (`none`) or the list of its rows in
the order of a full scan.  A failing statement throws; the update of the schema runs in one transaction, rolled back by
the destructor of `SqliteTransaction` (SqliteTransaction.h:15-20).  Encryption is a parameter.
-/
namespace Verif.Wallet.Schema
open Verif.Codec

/-- A row of `slate` (SlateTable.cpp:14). -/
structure SlateRow where
  id : Bytes
  stage : Bytes
  iv : Bytes
  blob : Bytes
  armored : Option Bytes
deriving DecidableEq, Repr

/-- The table `slate`; databases of schema 2 written by older programs lack the column `armored_slatepack`
(SlateTable.cpp:14, 23-27). -/
structure SlateTab where
  hasArmored : Bool
  rows : List SlateRow
deriving DecidableEq, Repr

/-- A row of `accounts` (AccountsTable.cpp:10-14). -/
structure AccountRow where
  path : Bytes
  name : Bytes
  next : Nat
  addr : Nat
deriving DecidableEq, Repr

/-- The table `accounts`; before schema 4 it lacks the column `current_address_index` (AccountsTable.cpp:25-29). -/
structure AccountTab where
  hasAddr : Bool
  rows : List AccountRow
deriving DecidableEq, Repr

/-- The file `wallet.db`: the tables `version` (VersionTable.cpp:11), `outputs` (OutputsTable.cpp:16), `transactions`
(TransactionsTable.cpp:15), the row of `metadata` (MetadataTable.cpp:15), `slate_contexts` (SlateContextTable.cpp:11),
`slate` and `accounts`.  Of `outputs` the commitment and the encrypted record, of `slate_contexts` the slate and the
encrypted context are kept. -/
structure Store where
  version : Option (List Nat)
  outputs : Option (List (Bytes × Bytes))
  txs : List (Nat × Bytes)
  metaRow : Option (Nat × Nat × Nat)
  contexts : Option (List (Bytes × Bytes))
  slate : Option SlateTab
  accounts : Option AccountTab
deriving DecidableEq, Repr

/-- `LATEST_SCHEMA_VERSION` (Schema.h:3). -/
def LATEST : Nat := 4

/-- `insert … ON CONFLICT(key) DO UPDATE` (OutputsTable.cpp:56-57, TransactionsTable.cpp:28-29). -/
def upsert {K V : Type} [DecidableEq K] (k : K) (v : V) : List (K × V) → List (K × V)
  | [] => [(k, v)]
  | (k', v') :: t => if k' = k then (k, v) :: t else (k', v') :: upsert k v t

/-- `VersionTable::GetCurrentVersion` (VersionTable.cpp:30-43). -/
def currentVersion (s : Store) : Nat :=
  match s.version with
  | some (v :: _) => v
  | _ => 0

/-- `VersionTable::CreateTable` (VersionTable.cpp:9-15): the table must be absent, and the number written is 2. -/
def createVersion (s : Store) : Res Store :=
  match s.version with
  | none => .ok { s with version := some [2] }
  | some _ => .throw

/-- `VersionTable::UpdateSchema` (VersionTable.cpp:17-28). -/
def versionUpdate (prev : Nat) (s : Store) : Res Store :=
  if prev = 0 then createVersion s
  else .ok { s with version := s.version.map (fun l => l.map (fun _ => LATEST)) }

/-- The encryption of an output record with the master seed (OutputsTable.cpp:59-61, 93-98): the commitment inside the
record, decryption, and encryption with a fresh vector. -/
structure OutCrypt (O : Type) where
  commit : O → Bytes
  dec : Bytes → Option O
  enc : O → Bytes

/-- The loop of `OutputsTable::GetOutputs` (OutputsTable.cpp:91-99); a record that does not decrypt throws. -/
def decRows {O : Type} (C : OutCrypt O) : List (Bytes × Bytes) → Res (List O)
  | [] => .ok []
  | r :: t =>
    match C.dec r.2 with
    | none => .throw
    | some o => decRows C t >>= fun os => .ok (o :: os)

/-- `OutputsTable::GetOutputs` (OutputsTable.cpp:84-102). -/
def getOutputs {O : Type} (C : OutCrypt O) (s : Store) : Res (List O) :=
  match s.outputs with
  | none => .throw
  | some rows => decRows C rows

/-- `OutputsTable::AddOutputs` (OutputsTable.cpp:50-77) into a list of rows. -/
def addOutputs {O : Type} (C : OutCrypt O) (os : List O) (rows : List (Bytes × Bytes)) : List (Bytes × Bytes) :=
  os.foldl (fun rs o => upsert (C.commit o) (C.enc o) rs) rows

/-- `OutputsTable::UpdateSchema` (OutputsTable.cpp:20-43). -/
def outputsUpdate {O : Type} (C : OutCrypt O) (prev : Nat) (s : Store) : Res Store :=
  if 1 ≤ prev then .ok s
  else do
    let os ← getOutputs C s
    return { s with outputs := some (addOutputs C os []) }

/-- `MetadataTable::UpdateSchema` (MetadataTable.cpp:21-35). -/
def metaUpdate (prev : Nat) (s : Store) : Res Store :=
  if prev = 0 then
    match s.metaRow with
    | none => .throw
    | some (n, h, _) => .ok { s with metaRow := some (n, h, 0) }
  else .ok s

/-- `SlateContextTable::UpdateSchema` (SlateContextTable.cpp:16-25): dropping an absent table throws. -/
def contextUpdate (prev : Nat) (s : Store) : Res Store :=
  if prev < 2 then
    match s.contexts with
    | none => .throw
    | some _ => .ok { s with contexts := some [] }
  else .ok s

/-- `SlateTable::UpdateSchema` (SlateTable.cpp:19-61): the rows are copied without the slatepack. -/
def slateUpdate (prev : Nat) (s : Store) : Res Store :=
  if prev < 2 then
    match s.slate with
    | none => .ok { s with slate := some ⟨true, []⟩ }
    | some _ => .throw
  else if prev < 3 then
    match s.slate with
    | none => .throw
    | some t => .ok { s with slate := some ⟨true, t.rows.map (fun r => { r with armored := none })⟩ }
  else .ok s

/-- `AccountsTable::UpdateSchema` (AccountsTable.cpp:21-31): `CREATE TABLE IF NOT EXISTS` below schema 2; from then on
the column is added, and a failure to do so is ignored. -/
def accountsUpdate (prev : Nat) (s : Store) : Res Store :=
  if prev < 2 then
    match s.accounts with
    | none => .ok { s with accounts := some ⟨true, []⟩ }
    | some _ => .ok s
  else if prev < 4 then
    match s.accounts with
    | none => .ok s
    | some t =>
      if t.hasAddr then .ok s
      else .ok { s with accounts := some ⟨true, t.rows.map (fun r => { r with addr := 0 })⟩ }
  else .ok s

/-- The update of the schema (SqliteStore.cpp:49-65). -/
def migrate {O : Type} (C : OutCrypt O) (s : Store) : Res Store :=
  let v := currentVersion s
  if v < LATEST then do
    let s ← versionUpdate v s
    let s ← outputsUpdate C v s
    let s ← metaUpdate v s
    let s ← contextUpdate v s
    let s ← slateUpdate v s
    accountsUpdate v s
  else if LATEST < v then .throw
  else .ok s

/-- `SqliteStore::OpenWallet` (SqliteStore.cpp:34-70) of a wallet that is closed and exists: the file afterwards, and
whether the call returned.  A failed update is rolled back. -/
def openStore {O : Type} (C : OutCrypt O) (s : Store) : Store × Bool :=
  match migrate C s with
  | .ok s' => (s', true)
  | _ => (s, false)

/-- The path `m/0/0` as text. -/
def userPath : Bytes := [0x6d, 0x2f, 0x30, 0x2f, 0x30]

/-- `AccountsTable::GetCurrentAddressIndex` (AccountsTable.cpp:58-69): an absent table or column is an error of the
statement, an absent row an exception. -/
def currentAddress (s : Store) (path : Bytes) : Res Nat :=
  match s.accounts with
  | none => .throw
  | some t =>
    if !t.hasAddr then .throw
    else
      match t.rows.find? (fun r => r.path = path) with
      | none => .throw
      | some r => .ok r.addr

/-- Logging in from a closed wallet as far as the stored data matters: `SessionManager::Login` opens the database and
`WalletImpl::LoadWallet` reads the address index of `m/0/0` (SessionManager.cpp:112-113, 146-153; WalletImpl.cpp:39-41).
The file afterwards and the address index. -/
def loginStore {O : Type} (C : OutCrypt O) (s : Store) : Store × Res Nat :=
  match openStore C s with
  | (s', true) => (s', currentAddress s' userPath)
  | (s', false) => (s', .throw)

/-- `SqliteStore::CreateWalletDB` (SqliteStore.cpp:135-165): every table in its newest form, the number of
`VersionTable::CreateTable`, and the account with a random next child. -/
def createStore (child : Nat) : Store :=
  { version := some [2]
    outputs := some []
    txs := []
    metaRow := some (0, 0, 0)
    contexts := some []
    slate := some ⟨true, []⟩
    accounts := some ⟨true, [⟨userPath, [0x44, 0x45, 0x46, 0x41, 0x55, 0x4c, 0x54], child, 0⟩]⟩ }

/-- `SlateTable::SaveSlate` (SlateTable.cpp:63-83): an empty slatepack is stored as null; a table of four columns
refuses five values. -/
def saveSlate (id stage iv blob armored : Bytes) (s : Store) : Res Store :=
  match s.slate with
  | none => .throw
  | some t =>
    if !t.hasArmored then .throw
    else .ok { s with slate := some ⟨true, t.rows ++ [⟨id, stage, iv, blob, if armored = [] then none else some armored⟩]⟩ }

/-- What `LoadLatestSlate` carries through its loop: the highest stage and the slate with its slatepack. -/
abbrev Latest (S : Type) := Nat × Option S × Bytes

/-- One round of the loop of `SlateTable::LoadLatestSlate` (SlateTable.cpp:132-165).  `dec` decrypts and deserializes the
slate of the id. -/
def latestStep {S : Type} (dec : Bytes → Bytes → Option S) (r : SlateRow) (a : Latest S) : Res (Latest S) :=
  match stageOfText r.stage with
  | .ok st =>
    if st.toByte < a.1 then .ok a
    else if r.iv.length ≠ 16 then .ok a
    else
      match dec r.iv r.blob with
      | none => .ok a
      | some x => .ok (st.toByte, some x, r.armored.getD [])
  | .throw => .throw
  | .ub => .ub

/-- The loop. -/
def latestLoop {S : Type} (dec : Bytes → Bytes → Option S) : List SlateRow → Latest S → Res (Latest S)
  | [], a => .ok a
  | r :: t, a => latestStep dec r a >>= latestLoop dec t

/-- `SlateTable::LoadLatestSlate` (SlateTable.cpp:122-168). -/
def loadLatest {S : Type} (dec : Bytes → Bytes → Option S) (id : Bytes) (s : Store) : Res (Option S × Bytes) :=
  match s.slate with
  | none => .throw
  | some t =>
    if !t.hasArmored then .throw
    else latestLoop dec (t.rows.filter (fun r => r.id = id)) (0, none, []) >>= fun a => .ok a.2

/-- The loop of `SlateTable::LoadArmoredSlatepack` (SlateTable.cpp:179-190): the highest stage stays `NONE`, so every
row replaces the slatepack. -/
def armoredLoop : List SlateRow → Bytes → Res Bytes
  | [], a => .ok a
  | r :: t, a =>
    match r.armored with
    | none => armoredLoop t a
    | some p =>
      match stageOfText r.stage with
      | .ok _ => armoredLoop t p
      | .throw => .throw
      | .ub => .ub

/-- `SlateTable::LoadArmoredSlatepack` (SlateTable.cpp:170-193). -/
def loadArmored (id : Bytes) (s : Store) : Res Bytes :=
  match s.slate with
  | none => .throw
  | some t => if !t.hasArmored then .throw else armoredLoop (t.rows.filter (fun r => r.id = id)) []

/-- What a session writes, and closing and opening the wallet again. -/
inductive Op where
  | saveSlate (id stage iv blob armored : Bytes)
  | saveContext (id blob : Bytes)
  | addOutput (commit blob : Bytes)
  | addTx (id : Nat) (blob : Bytes)
  | saveMeta (m : Nat × Nat × Nat)
  | nextChild (i : Nat)
  | nextAddress
  | reopen
deriving DecidableEq

/-- `SlateContextTable::SaveSlateContext` (SlateContextTable.cpp:27-45): the slate is a primary key. -/
def saveContext (id blob : Bytes) (s : Store) : Res Store :=
  match s.contexts with
  | none => .throw
  | some l => if l.any (fun e => e.1 = id) then .throw else .ok { s with contexts := some (l ++ [(id, blob)]) }

/-- An update of the rows of the account `m/0/0` (AccountsTable.cpp:46-55, 71-80). -/
def updateAccount (f : AccountRow → AccountRow) (s : Store) : Store :=
  { s with accounts := s.accounts.map (fun t =>
      { t with rows := t.rows.map (fun r => if r.path = userPath then f r else r) }) }

/-- `WalletSqlite::IncreaseAddressIndex` (WalletSqlite.cpp:60-65). -/
def increaseAddress (s : Store) : Res Store := do
  let i ← currentAddress s userPath
  return updateAccount (fun r => { r with addr := i + 1 }) s

/-- One operation; one that throws is rolled back (WalletSqlite.cpp:27-31). -/
def stepStore {O : Type} (C : OutCrypt O) (s : Store) : Op → Store
  | .saveSlate id st iv b a => (match saveSlate id st iv b a s with | .ok s' => s' | _ => s)
  | .saveContext id b => (match saveContext id b s with | .ok s' => s' | _ => s)
  | .addOutput c b => { s with outputs := s.outputs.map (upsert c b) }
  | .addTx i b => { s with txs := upsert i b s.txs }
  | .saveMeta m => { s with metaRow := s.metaRow.map (fun _ => m) }
  | .nextChild i => updateAccount (fun r => { r with next := i }) s
  | .nextAddress => (match increaseAddress s with | .ok s' => s' | _ => s)
  | .reopen => (openStore C s).1

/-- A history. -/
def runStore {O : Type} (C : OutCrypt O) (s : Store) (ops : List Op) : Store := ops.foldl (stepStore C) s

end Verif.Wallet.Schema
