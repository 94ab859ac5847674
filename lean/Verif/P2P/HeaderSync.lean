import Verif.Base.Outcome

/-!
# The header syncer

Model of `src/P2P/Sync/HeaderSyncer.cpp`: which peer is asked for headers, and which is banned.  `P` are the peers; a peer
and its IP address are taken for the same.
-/
namespace Verif.P2P

/-- The members of `HeaderSyncer` (HeaderSyncer.h:32-35); times in seconds. -/
structure HeaderSyncer (P : Type) where
  peer : Option P
  lastHeight : Nat
  timeout : Int
  retried : Bool
deriving DecidableEq, Repr

/-- What one call of `SyncHeaders` sees: the clock (read once here), the sync status, whether the peer asked last has an
active connection (`IsConnected`, ConnectionManager.cpp:66-77) or any connection (`SendMessageToPeer`, lines 147-158),
and the peer `SendMessageToMostWorkPeer` picks (lines 135-145). -/
structure HeaderView (P : Type) where
  now : Int
  headerHeight : Nat
  networkHeight : Nat
  active : P → Bool
  reachable : P → Bool
  mostWork : Option P

/-- What one call does to peers: whom it asks and whom it bans. -/
structure HeaderActs (P : Type) where
  asked : Option P
  banned : Option P
deriving DecidableEq, Repr

variable {P : Type}

/-- `IsHeaderSyncDue` (HeaderSyncer.cpp:33-79): whether it is, the members after it and the peer banned.  Heights are not
near 2^64. -/
def HeaderSyncer.due (s : HeaderSyncer P) (v : HeaderView P) : Bool × HeaderSyncer P × Option P :=
  match s.peer with
  | none => (true, s, none)
  | some p =>
    if v.headerHeight ≥ s.lastHeight + 512 - 1 then (true, { s with retried := false }, none)
    else if !v.active p then (true, { s with peer := none }, none)
    else if s.timeout < v.now then
      if s.retried then (true, { s with peer := none, retried := false }, some p)
      else (true, { s with retried := true }, none)
    else (false, s, none)

/-- The peer a message is sent to (HeaderSyncer.cpp:91-100). -/
def HeaderSyncer.target (s : HeaderSyncer P) (v : HeaderView P) : Option P :=
  match s.peer with
  | none => v.mostWork
  | some p => if v.reachable p then some p else v.mostWork

/-- `RequestHeaders` (HeaderSyncer.cpp:81-111). -/
def HeaderSyncer.request (s : HeaderSyncer P) (v : HeaderView P) : HeaderSyncer P × Option P :=
  match s.target v with
  | none => ({ s with peer := none }, none)
  | some p => ({ s with peer := some p, timeout := v.now + 10, lastHeight := v.headerHeight }, some p)

/-- `SyncHeaders` (HeaderSyncer.cpp:7-31) with its result. -/
def HeaderSyncer.step (s : HeaderSyncer P) (v : HeaderView P) (startup : Bool) : HeaderSyncer P × HeaderActs P × Bool :=
  if v.networkHeight = 0 then (s, ⟨none, none⟩, true)
  else if v.networkHeight ≥ v.headerHeight + 5 ∨ (startup ∧ v.networkHeight > v.headerHeight) then
    match s.due v with
    | (true, s', b) =>
      let r := s'.request v
      (r.1, ⟨r.2, b⟩, true)
    | (false, s', b) => (s', ⟨none, b⟩, true)
  else ({ s with peer := none, retried := false }, ⟨none, none⟩, false)

/-- A new syncer (HeaderSyncer.h:17-21). -/
def HeaderSyncer.init (now : Int) : HeaderSyncer P := ⟨none, 0, now, false⟩

/-- The calls of the sync thread, each with what it sees; what each call did. -/
def HeaderSyncer.run : HeaderSyncer P → List (HeaderView P × Bool) → List (HeaderActs P)
  | _, [] => []
  | s, (v, b) :: vs =>
    let r := s.step v b
    r.2.1 :: r.1.run vs

end Verif.P2P
