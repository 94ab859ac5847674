import Verif.Base.Outcome

/-!
# State sync and handshake

Model of `src/P2P/Sync/StateSyncer.cpp` and `src/P2P/Seed/HandShake.cpp`.
-/
namespace Verif.P2P

/-! ## State sync -/

/-- `Consensus::CUT_THROUGH_HORIZON` and `STATE_SYNC_THRESHOLD` (include/Consensus.h:153,166). -/
def cutThroughHorizon : Nat := 10080
def stateSyncThreshold : Nat := 2880

/-- `ESyncStatus` as far as the state syncer tells its values apart. -/
inductive SyncPhase | processingTxHashSet | txHashSetFailed | other
deriving DecidableEq, Repr

/-- `SyncStatus` and the members of `StateSyncer` (StateSyncer.h): `requested` is `m_requestedHeight`, `peer` is whether
`m_pPeer` is set and, if so, whether it is still connected; times in seconds. -/
structure SyncView where
  phase : SyncPhase
  headerHeight : Nat
  blockHeight : Nat
  downloaded : Nat
  requested : Nat
  timeRequested : Int
  peer : Option Bool

/-- Subtraction of 64-bit numbers. -/
def sub64 (a b : Nat) : Nat := (a + 2 ^ 64 - b) % 2 ^ 64

/-- `IsStateSyncDue` (StateSyncer.cpp:28-88). -/
def stateSyncDue (now : Int) (v : SyncView) : Bool :=
  if v.phase = .processingTxHashSet then false
  else if v.phase = .txHashSetFailed then true
  else if v.headerHeight < cutThroughHorizon then false
  else if v.blockHeight > sub64 v.headerHeight cutThroughHorizon then false
  else if v.requested = 0 then true
  else if v.timeRequested + 7200 < now then true
  else if v.timeRequested + 10 < now ∧ v.downloaded = 0 then true
  else if v.peer = some false then true
  else false

/-- `RequestState` (StateSyncer.cpp:90-116), the height asked for: the header at that height of the candidate chain is
taken without looking whether there is one. -/
def requestHeight (hasHeader : Nat → Bool) (v : SyncView) : Res Nat :=
  let height := sub64 v.headerHeight stateSyncThreshold
  if hasHeader height then .ok height else .ub

/-- What the sync thread does next (StateSyncer.cpp:8-25, Syncer.cpp:77-88): request the state, wait for it, or go on
to the blocks. -/
inductive SyncStep | request (height : Nat) | wait | blocks
deriving DecidableEq, Repr

/-- `SyncState` (StateSyncer.cpp:8-25); `true` makes the sync thread skip the blocks (Syncer.cpp:78-80). -/
def syncState (now : Int) (hasHeader : Nat → Bool) (v : SyncView) : Res SyncStep :=
  if stateSyncDue now v then do
    let h ← requestHeight hasHeader v
    .ok (.request h)
  else if v.blockHeight < sub64 v.headerHeight cutThroughHorizon then .ok .wait
  else .ok .blocks

/-! ## Handshake -/

/-- `P2P::PROTOCOL_VERSION` (include/P2P/Common.h:13). -/
def protocolVersion : Nat := 1000

/-- The fields of `HandMessage` and `ShakeMessage` the handshake looks at, or could. -/
structure Hand where
  version : Nat
  capabilities : Nat
  nonce : Nat
  genesis : Nat
  difficulty : Nat
deriving DecidableEq, Repr

structure Shake where
  version : Nat
  capabilities : Nat
  genesis : Nat
  difficulty : Nat
deriving DecidableEq, Repr

/-- What arrives first on a new connection (HandShake.cpp:123-140): nothing complete, a hand, a shake, or another message.
Messages that cannot be parsed count as `other`. -/
inductive FirstMessage
  | none
  | hand (m : Hand)
  | shake (m : Shake)
  | other
deriving DecidableEq, Repr

/-- Our side: `SELF_NONCE`, the genesis hash of the configured network, the difficulty of the sync status. -/
structure Self where
  nonce : Nat
  genesis : Nat
  difficulty : Nat
deriving DecidableEq, Repr

/-- What the handshake leaves in the connected peer: version, capabilities and total difficulty; the height is set to 0. -/
structure Settled where
  version : Nat
  capabilities : Nat
  difficulty : Nat
deriving DecidableEq, Repr

/-- `TransmitHandMessage` (HandShake.cpp:89-106).  `Capabilities::FAST_SYNC_NODE` is 6. -/
def handOf (s : Self) : Hand := ⟨protocolVersion, 6, s.nonce, s.genesis, s.difficulty⟩

/-- `PerformInboundHandshake` (HandShake.cpp:55-87): what is settled, and the shake message sent.  `connected` is
`IsConnected` for the address. -/
def inboundHandshake (s : Self) (connected : Bool) : FirstMessage → Res (Settled × Shake)
  | .hand m =>
    if m.nonce = s.nonce then .throw
    else if connected then .throw
    else
      let version := min protocolVersion m.version
      .ok (⟨version, m.capabilities, m.difficulty⟩, ⟨version, 6, s.genesis, s.difficulty⟩)
  | _ => .throw

/-- `PerformOutboundHandshake` (HandShake.cpp:30-53), after the hand message was sent. -/
def outboundHandshake : FirstMessage → Res Settled
  | .shake m => .ok ⟨min protocolVersion m.version, m.capabilities, m.difficulty⟩
  | _ => .throw

/-- A connection between two nodes: the outbound side sends a hand, the inbound side answers with a shake or closes. -/
def exchange (out inn : Self) (connected : Bool) : Res (Settled × Settled) :=
  match inboundHandshake inn connected (.hand (handOf out)) with
  | .ok (settled, shake) => do
    let o ← outboundHandshake (.shake shake)
    .ok (o, settled)
  | _ => do
    let _ ← outboundHandshake .none
    .throw

/-- `ProtocolVersion::ToEnum` (include/Core/Enums/ProtocolVersion.h:20-31). -/
def toEnum (version : Nat) : Nat :=
  if version ≥ 1000 then 1000 else if version ≥ 3 then 3 else if version = 2 then 2 else 1

end Verif.P2P
