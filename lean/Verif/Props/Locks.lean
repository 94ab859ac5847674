import Verif.Conc.Locks

/-!
# C67, C68: no thread locks a mutex it holds
-/
namespace Verif.Props

open Verif Verif.Codec Verif.Conc

/-- **C67 (partial)**: handling a received message, in a thread without locks, always ends; afterwards the
connection waits for the next message or its socket is closed or receiving was disabled; and a message that
did not arrive whole, or met an unexpected error, closes it.  Messages the deserializer refuses are missing
here: for them the claim is false, see `malformed_message_violated`. -/
theorem message_handling_ends_partial (complete : Bool) (r : Processed) (c : Conn)
    (hr : r ≠ .malformed ∨ complete = false ∨ c.socketOpen = false) :
    ∃ c', handleReceivedBody complete r c [] = .ok c' ∧
      (c'.waiting = true ∨ c'.socketOpen = false ∨ c'.receivingDisabled = true) ∧
      ((complete = false ∨ r = .otherError) → c'.socketOpen = false ∧ c'.peerConnected = false) ∧
      (complete = true → c.socketOpen = true → r = .badData → c'.banned = true) := by
  obtain ⟨t, s, p, b, rd, w⟩ := c
  cases complete <;> cases s <;> cases r <;> simp_all [handleReceivedBody, locked, processMessage]

/-- **C67 is violated**: whenever a complete message on an open connection is refused by its deserializer, the
thread locks the connection's mutex a second time and never finishes. -/
theorem malformed_message_violated (c : Conn) (hs : c.socketOpen = true) :
    handleReceivedBody true .malformed c [] = .ub := by
  simp [handleReceivedBody, locked, processMessage, disconnect, hs]

/-- Eleven bytes from any peer suffice: the header of a ping that announces an empty body is accepted, its body
is refused. -/
theorem empty_ping_violated (H : DigestNum) (HB : Bytes → Bytes) (coin : Bytes → Nat) (ver : Nat) (c : Conn)
    (hs : c.socketOpen = true) (r : Processed) :
    msgHeaderDeser (97, 61) ⟨[97, 61, 3, 0, 0, 0, 0, 0, 0, 0, 0], 0⟩ =
        .ok ((3, 0), ⟨[97, 61, 3, 0, 0, 0, 0, 0, 0, 0, 0], 11⟩) ∧
      payloadDeser H HB coin ver 3 ⟨[], 0⟩ = .throw ∧
      handleReceivedBody true (outcomeOf (payloadDeser H HB coin ver 3 ⟨[], 0⟩) r) c [] = .ub := by
  have h : payloadDeser H HB coin ver 3 ⟨[], 0⟩ = .throw := rfl
  refine ⟨by decide +kernel, h, ?_⟩
  rw [h]
  exact malformed_message_violated c hs

private theorem startupWith_some (g : Nat → Nat) (f height : Nat) :
    startupWith g (some f) height [] = if f < g height then .ub else .ok false := by
  by_cases h : f < g height <;> simp [startupWith, locked, dropOrCompact, h]

private theorem lt_horizon (f h : Nat) : f < horizonHeight h ↔ f + 10080 < h := by
  unfold horizonHeight
  generalize 10080 = k
  omega

/-- **C68 (partial)**: opening the chain finishes unless a tx hash set exists whose flushed header is below the
horizon.  The full claim drops the last hypothesis and asks for `closed = decide (some f below the horizon)`,
see `startup_violated`. -/
theorem startup_ends_partial (flushed : Option Nat) (height : Nat)
    (h : ∀ f, flushed = some f → height ≤ f + 10080) :
    startupCompaction flushed height [] = .ok false := by
  cases flushed with
  | none => simp [startupCompaction, startupWith, locked]
  | some f =>
    have := h f rfl
    have hn : ¬ f < horizonHeight height := by
      rw [lt_horizon]
      generalize 10080 = k at this ⊢
      omega
    rw [startupCompaction, startupWith_some, if_neg hn]

/-- **C68 is violated**: a node whose tx hash set was last flushed more than a week of blocks below its
confirmed tip does not drop the set and start: the thread locks the set's mutex a second time. -/
theorem startup_violated (f height : Nat) (h : f + 10080 < height) :
    startupCompaction (some f) height [] = .ub := by
  have hn : f < horizonHeight height := (lt_horizon _ _).mpr h
  rw [startupCompaction, startupWith_some, if_pos hn]

/-! ## The hypotheses are met -/

example : ∃ c, handleReceivedBody true .done ⟨false, true, true, false, false, false⟩ [] = .ok c ∧
    c.waiting = true := ⟨_, rfl, rfl⟩

example : startupCompaction (some 995000) 1000000 [] = .ok false ∧
    startupCompaction (some 985000) 1000000 [] = .ub := by
  exact ⟨startup_ends_partial _ _ (by intro f h; injection h; omega), startup_violated _ _ (by omega)⟩

end Verif.Props
