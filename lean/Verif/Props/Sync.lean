import Verif.P2P.Sync

/-!
# C61, C62: when the state is synced, and the handshake
-/
namespace Verif.Props
open Verif.P2P

/-! ## C61 -/

private theorem sub64_eq {a b : Nat} (h : b ≤ a) (ha : a < 2 ^ 64) : sub64 a b = a - b := by
  unfold sub64
  rw [show a + 2 ^ 64 - b = a - b + 2 ^ 64 by omega, Nat.add_mod_right, Nat.mod_eq_of_lt (by omega)]

private theorem sub64_wrap {a b : Nat} (h : a < b) (_ : b ≤ 2 ^ 64) : sub64 a b = a + 2 ^ 64 - b := by
  unfold sub64
  rw [Nat.mod_eq_of_lt (by omega)]

/-- **C61.** On a chain of at least 10080 headers, unless an earlier state sync failed or its result is being processed: the
state is requested only when our blocks end 10080 blocks or more below the headers, and then the first time it is; the
height requested is 2880 below the headers; blocks are synced when our blocks end at most 10080 below the headers and
no request is due.

Partial: shorter chains, see below; after a failed sync the state is requested whatever the heights. -/
theorem state_sync_partial (now : Int) (hasHeader : Nat → Bool) (v : SyncView) (hh : v.headerHeight < 2 ^ 64)
    (hp : v.phase = .other) (hs : 10080 ≤ v.headerHeight) (hhas : ∀ i ≤ v.headerHeight, hasHeader i = true) :
    (∀ h, syncState now hasHeader v = .ok (.request h) → v.blockHeight + 10080 ≤ v.headerHeight ∧ h + 2880 = v.headerHeight) ∧
    (v.blockHeight + 10080 ≤ v.headerHeight → v.requested = 0 →
      syncState now hasHeader v = .ok (.request (v.headerHeight - 2880))) ∧
    (syncState now hasHeader v = .ok .blocks ↔ v.headerHeight < v.blockHeight + 10080 ∨
      (v.headerHeight = v.blockHeight + 10080 ∧ stateSyncDue now v = false)) ∧
    (syncState now hasHeader v = .ok .wait ↔ v.blockHeight + 10080 < v.headerHeight ∧ stateSyncDue now v = false) := by
  have e1 : sub64 v.headerHeight cutThroughHorizon = v.headerHeight - 10080 := sub64_eq hs hh
  have e2 : requestHeight hasHeader v = .ok (v.headerHeight - 2880) := by
    unfold requestHeight
    rw [show sub64 v.headerHeight stateSyncThreshold = v.headerHeight - 2880 from
      sub64_eq (by unfold stateSyncThreshold; omega) hh]
    simp only [hhas _ (Nat.sub_le _ _), if_true]
  have sound : stateSyncDue now v = true → v.blockHeight + 10080 ≤ v.headerHeight := by
    intro h
    unfold stateSyncDue at h
    rw [if_neg (by simp [hp]), if_neg (by simp [hp]), if_neg (show ¬ v.headerHeight < cutThroughHorizon from Nat.not_lt.2 hs), e1] at h
    by_cases hb : v.blockHeight > v.headerHeight - 10080
    · rw [if_pos hb] at h; cases h
    · omega
  have first : v.blockHeight + 10080 ≤ v.headerHeight → v.requested = 0 → stateSyncDue now v = true := by
    intro h0 h
    unfold stateSyncDue
    rw [if_neg (by simp [hp]), if_neg (by simp [hp]), if_neg (show ¬ v.headerHeight < cutThroughHorizon from Nat.not_lt.2 hs), e1, if_neg (by omega), if_pos h]
  have due : stateSyncDue now v = true → syncState now hasHeader v = .ok (.request (v.headerHeight - 2880)) := by
    intro h
    unfold syncState
    rw [if_pos h, e2]
    rfl
  have nd : stateSyncDue now v = false → syncState now hasHeader v =
      if v.blockHeight < v.headerHeight - 10080 then .ok .wait else .ok .blocks := by
    intro h
    unfold syncState
    rw [if_neg (by simp [h]), e1]
  cases hd : stateSyncDue now v with
  | true =>
    have hb := sound hd
    rw [due hd]
    refine ⟨?_, fun _ _ => rfl, ?_, ?_⟩
    · intro h e
      injection e with e
      injection e with e
      omega
    · simp; omega
    · simp
  | false =>
    rw [nd hd]
    refine ⟨?_, ?_, ?_, ?_⟩
    · intro h e
      split at e <;> cases e
    · intro a b
      rw [first a b] at hd
      cases hd
    · split
      · simp; omega
      · simp; omega
    · split
      · simp; omega
      · simp; omega

example : syncState 0 (fun i => i ≤ 3000000) ⟨.other, 3000000, 0, 0, 0, 0, none⟩ = .ok (.request 2997120) := by decide +kernel
example : syncState 0 (fun i => i ≤ 3000000) ⟨.other, 3000000, 2990000, 0, 0, 0, none⟩ = .ok .blocks := by decide +kernel

/-- **C61, when the state is asked for again.**  On a chain of at least 10080 headers with our blocks 10080 or more below, the state is
requested exactly if it was not yet, or was more than two hours ago, or more than ten seconds ago and nothing has come, or
from a peer that is gone. -/
theorem state_sync_again (now : Int) (hasHeader : Nat → Bool) (v : SyncView) (hh : v.headerHeight < 2 ^ 64)
    (hp : v.phase = .other) (hs : 10080 ≤ v.headerHeight) (hb : v.blockHeight + 10080 ≤ v.headerHeight)
    (hhas : ∀ i ≤ v.headerHeight, hasHeader i = true) :
    (∃ h, syncState now hasHeader v = .ok (.request h)) ↔
      v.requested = 0 ∨ 7200 < now - v.timeRequested ∨ (10 < now - v.timeRequested ∧ v.downloaded = 0) ∨ v.peer = some false := by
  have e1 : sub64 v.headerHeight cutThroughHorizon = v.headerHeight - 10080 := sub64_eq hs hh
  have due : stateSyncDue now v = true ↔
      v.requested = 0 ∨ 7200 < now - v.timeRequested ∨ (10 < now - v.timeRequested ∧ v.downloaded = 0) ∨ v.peer = some false := by
    unfold stateSyncDue
    rw [if_neg (by simp [hp]), if_neg (by simp [hp]), if_neg (by unfold cutThroughHorizon; omega), e1, if_neg (by omega)]
    by_cases h1 : v.requested = 0
    · simp [h1]
    · by_cases h2 : v.timeRequested + 7200 < now
      · simp only [h1, h2, if_false, if_true, true_iff]; omega
      · by_cases h3 : v.timeRequested + 10 < now ∧ v.downloaded = 0
        · rw [if_neg h1, if_neg h2, if_pos h3]; simp only [true_iff]; omega
        · simp only [h1, h2, if_neg h3, if_false]
          by_cases h4 : v.peer = some false
          · simp [h4]
          · simp only [h4, if_false, Bool.false_eq_true, false_or, or_false, false_iff]; omega
  rw [← due]
  obtain ⟨p1, p2, p3, p4⟩ := state_sync_partial now hasHeader v hh hp hs hhas
  constructor
  · rintro ⟨h, hr⟩
    cases hd : stateSyncDue now v with
    | true => rfl
    | false =>
      by_cases hx : v.headerHeight = v.blockHeight + 10080
      · have := (p3.2 (Or.inr ⟨hx, hd⟩)).symm.trans hr
        simp at this
      · have := (p4.2 ⟨by omega, hd⟩).symm.trans hr
        simp at this
  · intro hd
    refine ⟨v.headerHeight - 2880, ?_⟩
    unfold syncState requestHeight
    rw [if_pos hd, show sub64 v.headerHeight stateSyncThreshold = v.headerHeight - 2880 from
      sub64_eq (by unfold stateSyncThreshold; omega) hh]
    simp only [hhas _ (Nat.sub_le _ _), if_true]
    rfl

example : syncState 8000 (fun i => i ≤ 3000000) ⟨.other, 3000000, 0, 5, 2997120, 800, some true⟩ = .ok .wait ∧
    syncState 8001 (fun i => i ≤ 3000000) ⟨.other, 3000000, 0, 5, 2997120, 800, some true⟩ = .ok (.request 2997120) := by decide +kernel

/-- **C61 violated: a chain shorter than the horizon.** On a chain of fewer than 10080 headers the syncing node waits
forever: it neither requests the state nor goes on to the blocks, at any time and whatever its block height below 2 ^ 63. -/
theorem short_chain_violated (now : Int) (hasHeader : Nat → Bool) (v : SyncView) (hp : v.phase = .other)
    (hs : v.headerHeight < 10080) (hb : v.blockHeight < 2 ^ 63) : syncState now hasHeader v = .ok .wait := by
  have e1 : sub64 v.headerHeight cutThroughHorizon = v.headerHeight + 2 ^ 64 - 10080 := sub64_wrap hs (by decide)
  have hd : stateSyncDue now v = false := by
    unfold stateSyncDue
    rw [if_neg (by simp [hp]), if_neg (by simp [hp]), if_pos (show v.headerHeight < cutThroughHorizon from hs)]
  unfold syncState
  rw [if_neg (by simp [hd]), e1, if_pos (by omega)]

/-- **C61 violated: after a failed sync.** When a state sync has failed the state is requested although the node has the
blocks; on a chain shorter than 2880 headers this reads through a null pointer. -/
theorem failed_sync_violated (now : Int) (hasHeader : Nat → Bool) (v : SyncView) (hp : v.phase = .txHashSetFailed) :
    (v.headerHeight < 2 ^ 64 → 2880 ≤ v.headerHeight → hasHeader (v.headerHeight - 2880) = true →
      syncState now hasHeader v = .ok (.request (v.headerHeight - 2880))) ∧
    (v.headerHeight < 2880 → (∀ i, v.headerHeight < i → hasHeader i = false) → syncState now hasHeader v = .ub) := by
  have hd : stateSyncDue now v = true := by
    unfold stateSyncDue
    simp [hp]
  constructor
  · intro h1 h2 h3
    unfold syncState requestHeight
    rw [if_pos hd, show sub64 v.headerHeight stateSyncThreshold = v.headerHeight - 2880 from sub64_eq h2 h1]
    simp [h3]
  · intro h1 h2
    unfold syncState requestHeight
    rw [if_pos hd, show sub64 v.headerHeight stateSyncThreshold = v.headerHeight + 2 ^ 64 - 2880 from sub64_wrap h1 (by decide)]
    simp only [h2 (v.headerHeight + 2 ^ 64 - 2880) (by omega), Bool.false_eq_true, if_false]
    rfl

/-! ## C62 -/

/-- **C62, the side that is called.** The handshake succeeds exactly when the first message is a hand with another nonce than
ours and no connection to the address is active; the version settled is the lower of the two and is the one we answer.

Partial: the genesis of the other side is not looked at, see below. -/
theorem inbound_partial (s : Self) (connected : Bool) (m : FirstMessage) (st : Settled) (sh : Shake) :
    inboundHandshake s connected m = .ok (st, sh) ↔ ∃ h, m = .hand h ∧ h.nonce ≠ s.nonce ∧ connected = false ∧
      st = ⟨min 1000 h.version, h.capabilities, h.difficulty⟩ ∧ sh = ⟨min 1000 h.version, 6, s.genesis, s.difficulty⟩ := by
  cases m with
  | hand h =>
    unfold inboundHandshake
    by_cases h1 : h.nonce = s.nonce
    · simp [h1]
    · by_cases h2 : connected = true
      · simp [h2]
      · simp only [h1, if_false, h2, Bool.false_eq_true, protocolVersion]
        simp only [Bool.not_eq_true] at h2
        constructor
        · intro e
          simp only [Res.ok.injEq, Prod.mk.injEq] at e
          exact ⟨h, rfl, h1, by simp, e.1.symm, e.2.symm⟩
        · rintro ⟨h', e, -, -, e1, e2⟩
          injection e with e
          subst e
          rw [e1, e2]
  | none => simp [inboundHandshake]
  | shake _ => simp [inboundHandshake]
  | other => simp [inboundHandshake]

/-- **C62, the side that calls.** The handshake succeeds exactly when a shake is answered; the version settled is the
lower of the two. -/
theorem outbound_partial (m : FirstMessage) (st : Settled) :
    outboundHandshake m = .ok st ↔ ∃ h, m = .shake h ∧ st = ⟨min 1000 h.version, h.capabilities, h.difficulty⟩ := by
  cases m with
  | shake h =>
    simp only [outboundHandshake, protocolVersion, Res.ok.injEq, FirstMessage.shake.injEq, exists_eq_left']
    exact eq_comm
  | none => simp [outboundHandshake]
  | hand _ => simp [outboundHandshake]
  | other => simp [outboundHandshake]

/-- **C62, both sides.** Two of these nodes connect exactly when their nonces differ and the called one is not connected to
the other's address, and they settle on the same version, which both know; in particular a node never
connects to itself. -/
theorem exchange_partial (out inn : Self) (connected : Bool) :
    (∃ a b, exchange out inn connected = .ok (a, b)) ↔ out.nonce ≠ inn.nonce ∧ connected = false := by
  unfold exchange
  by_cases h1 : out.nonce = inn.nonce
  · simp [inboundHandshake, handOf, h1, outboundHandshake]
  · cases connected <;> simp [inboundHandshake, handOf, h1, outboundHandshake]

/-- The version settled on both sides is 1000, and the messages are written for it. -/
theorem exchange_version (out inn : Self) (connected : Bool) (a b : Settled)
    (h : exchange out inn connected = .ok (a, b)) : a.version = 1000 ∧ b.version = 1000 ∧ toEnum a.version = toEnum b.version := by
  unfold exchange at h
  by_cases h1 : out.nonce = inn.nonce
  · simp [inboundHandshake, handOf, h1, outboundHandshake] at h
  · cases connected with
    | true => simp [inboundHandshake, handOf, outboundHandshake] at h
    | false =>
      simp [inboundHandshake, handOf, h1, outboundHandshake, protocolVersion] at h
      obtain ⟨rfl, rfl⟩ := h
      exact ⟨rfl, rfl, rfl⟩

example : inboundHandshake ⟨1, 100, 5⟩ false (.hand ⟨3, 7, 2, 100, 9⟩) = .ok (⟨3, 7, 9⟩, ⟨3, 6, 100, 5⟩) := by decide
example : exchange ⟨1, 100, 5⟩ ⟨2, 100, 7⟩ false = .ok (⟨1000, 6, 7⟩, ⟨1000, 6, 5⟩) := by decide

/-- **C62 violated: another network.** Nodes of different networks connect: the genesis hashes in the messages are not
compared on either side. -/
theorem other_genesis_violated (out inn : Self) (h : out.nonce ≠ inn.nonce) (g : Nat) :
    ∃ a b, exchange { out with genesis := g } inn false = .ok (a, b) :=
  (exchange_partial _ _ _).2 ⟨h, rfl⟩

/-- **C62 violated: the side that calls does not look at its connections.** Its handshake succeeds with a node it is connected to
already (the called side refuses only if it sees that connection as active). -/
theorem outbound_connected_violated (m : Shake) : ∃ st, outboundHandshake (.shake m) = .ok st := ⟨_, rfl⟩

end Verif.Props
