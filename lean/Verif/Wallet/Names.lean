import Verif.Base.Outcome
import Verif.Base.Bytes

/-!
# Wallets by name

Model of creating, logging into, deleting and listing wallets: the handlers of `src/API/Wallet/Owner/Handlers`, the
criteria of `include/API/Wallet/Owner/Models`, `WalletManagerImpl.cpp`, the files of `SqliteStore.cpp` and the functions
of `FileUtil.cpp` they use.  The file system is a set of directories and files; a path is the list of its components from
the root.  Links, permissions, failing disks and Windows paths are left out.  The contents of `wallet.db` are in
`Verif.Wallet.Schema`, sessions in `Verif.Wallet.Session`; here a database is a file, and the open databases are the names
they were opened with.
-/
namespace Verif.Wallet.Names

/-- Components of a path. -/
abbrev Path := List Bytes

/-- The files a wallet writes: `seed.json` with an encrypted seed, and `wallet.db`. -/
inductive Content (E : Type) where
  | seed (e : E)
  | db
deriving DecidableEq

/-- The file system. -/
structure FS (E : Type) where
  dirs : List Path
  files : List (Path × Content E)
deriving DecidableEq

/-- Encrypting a seed with a password, and decrypting (SeedEncrypter.cpp, modelled in `Verif.Wallet.Crypt`). -/
structure Vault (E : Type) where
  enc : Bytes → Bytes → E
  dec : E → Bytes → Option Bytes

/-- `std::tolower` in the classic locale. -/
def lowerByte (c : UInt8) : UInt8 := if 65 ≤ c ∧ c ≤ 90 then c + 32 else c

/-- `StringUtil::ToLower` (StringUtil.h:73-84). -/
def toLower (s : Bytes) : Bytes := s.map lowerByte

/-- `std::isspace` in the classic locale.  The code passes negative values for bytes from 128 on, which the standard
leaves undefined; they are taken not to be spaces. -/
def isSpace (c : UInt8) : Bool := c = 32 || (9 ≤ c && c ≤ 13)

/-- `StringUtil::Trim` (StringUtil.h:118-139). -/
def trim (s : Bytes) : Bytes := ((s.dropWhile isSpace).reverse.dropWhile isSpace).reverse

/-- A text split at the separators, with empty components. -/
def comps : Bytes → Path
  | [] => [[]]
  | c :: s =>
    if c = 47 then [] :: comps s
    else
      match comps s with
      | [] => [[c]]
      | h :: t => (c :: h) :: t

/-- `m_walletDirectory / username` (SqliteStore.cpp:26, 83, 113, 179): an absolute name replaces the directory
(`fs::path::operator/`).  Where the components are looked up from. -/
def base (W : Path) (name : Bytes) : Path := if name.head? = some 47 then [] else W

/-- `.` -/
def dot : Bytes := [46]
/-- `..` -/
def dotdot : Bytes := [46, 46]
/-- `seed.json` (SqliteStore.cpp:84). -/
def seedJson : Bytes := [0x73, 0x65, 0x65, 0x64, 0x2e, 0x6a, 0x73, 0x6f, 0x6e]
/-- `wallet.db` (SqliteStore.cpp:26). -/
def walletDb : Bytes := [0x77, 0x61, 0x6c, 0x6c, 0x65, 0x74, 0x2e, 0x64, 0x62]

variable {E : Type}

/-- The system's resolution of a path: every component is looked up in an existing directory; the last need not exist. -/
def walk (fs : FS E) : Path → Path → Option Path
  | cur, [] => some cur
  | cur, c :: cs =>
    if cur ∉ fs.dirs then none
    else if c = [] ∨ c = dot then walk fs cur cs
    else if c = dotdot then walk fs cur.dropLast cs
    else walk fs (cur ++ [c]) cs

/-- The contents of a file. -/
def fileAt (fs : FS E) (p : Path) : Option (Content E) := (fs.files.find? (fun e => e.1 = p)).map (·.2)

/-- `FileUtil::Exists` (FileUtil.cpp:128-138). -/
def existsAt (fs : FS E) (b cs : Path) : Bool :=
  match walk fs b cs with
  | none => false
  | some p => decide (p ∈ fs.dirs) || (fileAt fs p).isSome

/-- A file of a wallet: `m_walletDirectory / username / file`. -/
def walletFile (fs : FS E) (W : Path) (name file : Bytes) : Option (Content E) :=
  match walk fs (base W name) (comps name ++ [file]) with
  | none => none
  | some p => fileAt fs p

/-- The directories `fs::create_directories` makes, component by component, and whether the last one was new.  The
result of the library's function is false for a directory that exists. -/
def mkdirs (fs : FS E) (made : Bool) : Path → Path → FS E × Bool
  | _, [] => (fs, made)
  | cur, c :: cs =>
    if c = [] ∨ c = dot then mkdirs fs made cur cs
    else if c = dotdot then mkdirs fs made cur.dropLast cs
    else if cur ++ [c] ∈ fs.dirs then mkdirs fs false (cur ++ [c]) cs
    else if (fileAt fs (cur ++ [c])).isSome then (fs, false)
    else mkdirs { fs with dirs := (cur ++ [c]) :: fs.dirs } true (cur ++ [c]) cs

/-- `FileUtil::CreateDirectories` (FileUtil.cpp:116-126) as in libstdc++. -/
def createDirectories (fs : FS E) (b cs : Path) : FS E × Bool :=
  match walk fs b cs with
  | some p => if p ∈ fs.dirs then (fs, false) else mkdirs fs false b cs
  | none => mkdirs fs false b cs

/-- Writing a file over what was there (`FileUtil::SafeWriteToFile`, FileUtil.cpp:56-70, run to its end). -/
def putFile (fs : FS E) (p : Path) (c : Content E) : FS E :=
  { fs with files := (p, c) :: fs.files.filter (fun e => e.1 ≠ p) }

/-- `FileUtil::RemoveFile` (FileUtil.cpp:85-93): `fs::remove_all`. -/
def removeAll (fs : FS E) (p : Path) : FS E :=
  ⟨fs.dirs.filter (fun d => ¬ p.isPrefixOf d), fs.files.filter (fun e => ¬ p.isPrefixOf e.1)⟩

/-- `FileUtil::GetSubDirectories` without hidden ones (FileUtil.cpp:187-233), `SqliteStore::GetAccounts`
(SqliteStore.cpp:29-32): the directories right below the wallet directory. -/
def accounts (fs : FS E) (W : Path) : List Bytes :=
  fs.dirs.filterMap (fun d =>
    match d.getLast? with
    | none => none
    | some n => if d.dropLast = W ∧ n.head? ≠ some 46 then some n else none)

/-- The file system and the open databases, `SqliteStore::m_userDBs`, by name. -/
structure Wallets (E : Type) where
  fs : FS E
  opened : List Bytes
deriving DecidableEq

/-- `SqliteStore::CreateWallet` with `CreateWalletDB` (SqliteStore.cpp:81-104, 135-171).  What was written stays when the
call throws; a database that is already there makes the first statement fail and is removed. -/
def createWallet (W : Path) (name : Bytes) (e : E) (s : Wallets E) : Wallets E × Res Unit :=
  let b := base W name
  let cs := comps name
  if existsAt s.fs b (cs ++ [seedJson]) then (s, .throw)
  else
    match createDirectories s.fs b cs with
    | (fs1, false) => ({ s with fs := fs1 }, .throw)
    | (fs1, true) =>
      match walk fs1 b cs with
      | none => ({ s with fs := fs1 }, .throw)
      | some d =>
        let fs2 := putFile fs1 (d ++ [seedJson]) (.seed e)
        if existsAt fs2 b (cs ++ [walletDb]) then ({ s with fs := removeAll fs2 (d ++ [walletDb]) }, .throw)
        else (⟨putFile fs2 (d ++ [walletDb]) .db, if name ∈ s.opened then s.opened else name :: s.opened⟩, .ok ())

/-- The handler of `create_wallet` (CreateWalletHandler.h:22-73, CreateWalletCriteria.h:29-50,
WalletManagerImpl.cpp:51-84).  The number of words is taken to be valid, `seed` is the random seed. -/
def rpcCreate (V : Vault E) (W : Path) (raw pw seed : Bytes) (s : Wallets E) : Wallets E × Res Unit :=
  let name := toLower (trim raw)
  if (accounts s.fs W).any (fun a => toLower a = name) then (s, .throw)
  else if pw = [] then (s, .throw)
  else createWallet W name (V.enc seed pw) s

/-- `SqliteStore::LoadWalletSeed` and decryption (SqliteStore.cpp:173-200, SessionManager.cpp:49-97). -/
def authenticate (V : Vault E) (W : Path) (name pw : Bytes) (s : Wallets E) : Res Bytes :=
  match walletFile s.fs W name seedJson with
  | some (.seed e) =>
    match V.dec e pw with
    | none => .throw
    | some seed => .ok seed
  | _ => .throw

/-- The handler of `login` (LoginHandler.h:22-75, LoginCriteria.h:27-46, WalletManagerImpl.cpp:192-222,
SessionManager.cpp:99-120, SqliteStore.cpp:34-70): the name is not trimmed.  The seed, or an exception. -/
def rpcLogin (V : Vault E) (W : Path) (raw pw : Bytes) (s : Wallets E) : Wallets E × Res Bytes :=
  let name := toLower raw
  if (accounts s.fs W).any (fun a => toLower a = name) then
    match authenticate V W name pw s with
    | .ok seed =>
      if name ∈ s.opened then (s, .ok seed)
      else
        match walletFile s.fs W name walletDb with
        | none => (s, .throw)
        | some _ => ({ s with opened := name :: s.opened }, .ok seed)
    | .throw => (s, .throw)
    | .ub => (s, .ub)
  else (s, .throw)

/-- The handler of `delete_wallet` (DeleteWalletHandler.h, DeleteWalletCriteria.h:36, WalletManagerImpl.cpp:229-245,
SqliteStore.cpp:106-123). -/
def rpcDelete (V : Vault E) (W : Path) (raw pw : Bytes) (s : Wallets E) : Wallets E × Res Unit :=
  let name := toLower raw
  match authenticate V W name pw s with
  | .ok _ =>
    if name ∈ s.opened then (s, .throw)
    else
      match walk s.fs (base W name) (comps name) with
      | none => (s, .throw)
      | some p =>
        if p ∈ s.fs.dirs ∨ (fileAt s.fs p).isSome then ({ s with fs := removeAll s.fs p }, .ok ()) else (s, .throw)
  | .throw => (s, .throw)
  | .ub => (s, .ub)

/-- The handler of `change_password` (ChangePasswordHandler.h:22-31): not implemented, it answers with a result. -/
def rpcChangePassword (_raw _old _new : Bytes) (s : Wallets E) : Wallets E × Res Unit := (s, .ok ())

/-- Closing the database of the last session of a user (SqliteStore.cpp:72-79). -/
def closeWallet (name : Bytes) (s : Wallets E) : Wallets E := { s with opened := s.opened.filter (· ≠ name) }

/-- Calls. -/
inductive Call where
  | create (raw pw seed : Bytes)
  | login (raw pw : Bytes)
  | logout (name : Bytes)
  | delete (raw pw : Bytes)
  | changePassword (raw old new : Bytes)
deriving DecidableEq

/-- One call. -/
def stepWallets (V : Vault E) (W : Path) (s : Wallets E) : Call → Wallets E
  | .create raw pw seed => (rpcCreate V W raw pw seed s).1
  | .login raw pw => (rpcLogin V W raw pw s).1
  | .logout name => closeWallet name s
  | .delete raw pw => (rpcDelete V W raw pw s).1
  | .changePassword raw old new => (rpcChangePassword raw old new s).1

/-- A history of calls. -/
def runWallets (V : Vault E) (W : Path) (s : Wallets E) (cs : List Call) : Wallets E := cs.foldl (stepWallets V W) s

end Verif.Wallet.Names
