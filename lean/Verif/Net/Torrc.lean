import Verif.Codec.Json

/-!
# The bridges in the configuration of Tor

Model of the file `.torrc` as `TorConfig` (src/Core/Config/TorConfig.h) reads and writes it, and of `update_tor_config`
(src/API/Wallet/Owner/Handlers/UpdateTorConfigHandler.h).  The file is its text; opening it is taken to succeed, and the program is taken to be
one that was not built for Windows.
-/
namespace Verif.Torrc
open Verif.Codec

/-- The lines `std::getline` reads: what follows the last line feed is one if it is not empty. -/
def getlines : Bytes → List Bytes
  | [] => []
  | c :: cs =>
    if c = 10 then [] :: getlines cs
    else match getlines cs with
      | [] => [[c]]
      | l :: ls => (c :: l) :: ls

/-- Lines written with a line feed after each. -/
def unlines (ls : List Bytes) : Bytes := ls.flatMap (· ++ [10])

/-- `line.find(n) != npos`. -/
def has (n : Bytes) : Bytes → Bool
  | [] => n == []
  | c :: cs => n.isPrefixOf (c :: cs) || has n cs

/-- Where the program runs: the directory of Tor, and whether a file of the working directory can be written there and renamed to the
configuration (`std::filesystem::rename` throws if it is on another file system, or if the file could not be made). -/
structure Place where
  dir : Bytes
  renames : Bool

/-- `UseBridges 1`. -/
def useLine : Bytes := str "UseBridges 1"

/-- The line for snowflake (TorConfig.h:219-227). -/
def snowLine (dir : Bytes) : Bytes :=
  str "ClientTransportPlugin snowflake exec " ++ (dir ++ ([
    "/PluggableTransports/snowflake-client ", "-url https://snowflake-broker.torproject.net", ".global.prod.fastly.net/ ",
    "-front cdn.sstatic.net ", "-ice stun:stun.l.google.com:19302,", "stun:stun.voip.blackberry.com:3478,",
    "stun:stun.altar.com.pl:3478,", "stun:stun.antisip.com:3478,", "stun:stun.bluesip.net:3478,", "stun:stun.dus.net:3478,",
    "stun:stun.epygi.com:3478,", "stun:stun.sonetel.com:3478,", "stun:stun.sonetel.net:3478,", "stun:stun.stunprotocol.org:3478,",
    "stun:stun.uls.co.za:3478,", "stun:stun.voipgate.com:3478,", "stun:stun.voys.nl:3478"].map str).flatten)

/-- The bridge of snowflake (TorConfig.h:228). -/
def snowBridge : Bytes := str "snowflake 192.0.2.3:1 2B280B23E1107BB62ABFC40DDCC8824814F80A72"

/-- The line for obfs4 (TorConfig.h:232-237). -/
def obfsLine (dir : Bytes) : Bytes := str "ClientTransportPlugin obfs4 exec " ++ (dir ++ str "/PluggableTransports/obfs4proxy")

/-- A line for a bridge (TorConfig.h:49, 228). -/
def bridgeLine (b : Bytes) : Bytes := str "Bridge " ++ b

/-- `IsTorBridgesEnabled` (TorConfig.h:77-92). -/
def bridgesOn (f : Bytes) : Bool := (getlines f).any (has useLine)

/-- `IsObfs4ConfigPresent` (TorConfig.h:94-109). -/
def obfsOn (f : Bytes) : Bool := (getlines f).any (has (str "ClientTransportPlugin obfs4 exec"))

/-- `IsSnowflakeConfigPresent` (TorConfig.h:111-126). -/
def snowOn (f : Bytes) : Bool := (getlines f).any (has (str "ClientTransportPlugin snowflake exec"))

/-- `remove(m_torrcPath); rename("temp.torrc", m_torrcPath);` (TorConfig.h:250-251, 279-280, 309-310): in functions that are `noexcept`, so
the program ends if it throws. -/
def Place.replace (P : Place) (f : Bytes) : Res Bytes := if P.renames then .ok f else .ub

/-- `AddRequiredHeadersTorBridges` (TorConfig.h:209-254): of the old lines it keeps those without `UseBridges 1` that name both
`ClientTransportPlugin` and `Bridge`. -/
def addHeaders (P : Place) (snow : Bool) (f : Bytes) : Res Bytes :=
  P.replace (unlines (useLine :: ((if snow then [snowLine P.dir, bridgeLine snowBridge] else [obfsLine P.dir]) ++
    (getlines f).filter fun l => !(has useLine l || !has (str "ClientTransportPlugin") l || !has (str "Bridge") l))))

/-- `RemoveObfs4Config` (TorConfig.h:256-283). -/
def removeObfs (P : Place) (f : Bytes) : Res Bytes :=
  P.replace (unlines ((getlines f).filter fun l =>
    !(has useLine l || has (str "ClientTransportPlugin obfs4") l || has (str "Bridge obfs4") l)))

/-- `RemoveSnowflakeConfig` (TorConfig.h:285-313). -/
def removeSnow (P : Place) (f : Bytes) : Res Bytes :=
  P.replace (unlines ((getlines f).filter fun l =>
    !(has useLine l || has (str "ClientTransportPlugin snowflake") l || has (str "Bridge snowflake") l)))

/-- `AddObfs4TorBridge` (TorConfig.h:44-50): the line is appended to the text. -/
def addBridge (P : Place) (b : Bytes) (f : Bytes) : Res Bytes :=
  if b = [] then .ok f
  else do
    let f' ← if obfsOn f then .ok f else addHeaders P false f
    return f' ++ (bridgeLine b ++ [10])

/-- `DisableObfsBridges` (TorConfig.h:59-63). -/
def disableObfs (P : Place) (f : Bytes) : Res Bytes := if obfsOn f then removeObfs P f else .ok f

/-- `EnableSnowflake` (TorConfig.h:65-69). -/
def enableSnow (P : Place) (f : Bytes) : Res Bytes := if snowOn f then .ok f else addHeaders P true f

/-- `DisableSnowflake` (TorConfig.h:71-75). -/
def disableSnow (P : Place) (f : Bytes) : Res Bytes := if snowOn f then removeSnow P f else .ok f

/-- The loop of `ListTorBridges` (TorConfig.h:139-145): `substr(7)` of a line that is just `Bridge` throws in a `noexcept` function. -/
def bridgesOf : List Bytes → Res (List Bytes)
  | [] => .ok []
  | l :: ls =>
    if (str "Bridge").isPrefixOf l then
      if l.length < 7 then .ub
      else do
        let bs ← bridgesOf ls
        return l.drop 7 :: bs
    else bridgesOf ls

/-- `ListTorBridges` (TorConfig.h:134-148). -/
def listBridges (f : Bytes) : Res (List Bytes) := bridgesOf (getlines f)

/-- What is answered: an error, or the bridges and their type. -/
inductive TorReply
  | invalid
  | failed
  | done (bridges : List Bytes) (type : Bytes)
deriving DecidableEq

/-- The loop over the bridges (UpdateTorConfigHandler.h:51-54): what is no text throws, the bridges before it are in the file. -/
def addBridges (P : Place) : List Json → Bytes → Res (Bool × Bytes)
  | [], f => .ok (true, f)
  | b :: bs, f =>
    match b.asString with
    | .ok s => do
      let f' ← addBridge P s f
      addBridges P bs f'
    | _ => .ok (false, f)

/-- `UpdateTorConfigHandler::Handle` (UpdateTorConfigHandler.h:18-74), the parameters read: the answer and the file. -/
def handle (P : Place) (bs : List Json) (snow : Bool) (f : Bytes) : Res (TorReply × Bytes) :=
  if snow = true ∧ bs ≠ [] then .ok (.invalid, f)
  else do
    let f1 ← if snow then enableSnow P f else disableSnow P f
    let x ← if bs ≠ [] then addBridges P bs f1 else (disableObfs P f1 >>= fun f2 => .ok (true, f2))
    if x.1 then do
      let l ← listBridges x.2
      return (.done l (if bridgesOn x.2 then if snowOn x.2 then str "snowflake" else str "obfs4" else []), x.2)
    else return (.failed, x.2)

/-- Calls one after the other: the answer to the last one and the file. -/
def calls (P : Place) : List (List Json × Bool) → TorReply × Bytes → Res (TorReply × Bytes)
  | [], x => .ok x
  | (bs, snow) :: cs, x => do
    let x' ← handle P bs snow x.2
    calls P cs x'

end Verif.Torrc
