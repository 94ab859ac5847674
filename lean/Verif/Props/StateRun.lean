import Verif.P2P.StateRun

/-!
# C145: whom a node asks for the state, and whom it bans
-/
namespace Verif.Props
open Verif Verif.P2P

private theorem sub64_far {h : Nat} (hh : h < 2 ^ 64) (hs : 10080 ≤ h) : sub64 h cutThroughHorizon = h - 10080 := by
  unfold sub64 cutThroughHorizon
  omega

/-- When the state is asked for, with a chain of 10080 headers or more. -/
private theorem due_iff (now : Int) (v : SyncView) (hh : v.headerHeight < 2 ^ 64) (hs : 10080 ≤ v.headerHeight) :
    stateSyncDue now v = true ↔ v.phase = .txHashSetFailed ∨ (v.phase = .other ∧ v.blockHeight + 10080 ≤ v.headerHeight ∧
      (v.requested = 0 ∨ v.timeRequested + 7200 < now ∨ (v.timeRequested + 10 < now ∧ v.downloaded = 0) ∨ v.peer = some false)) := by
  have e := sub64_far hh hs
  have hc : ¬ v.headerHeight < cutThroughHorizon := by unfold cutThroughHorizon; omega
  unfold stateSyncDue
  rw [e]
  cases hp : v.phase with
  | processingTxHashSet => simp
  | txHashSetFailed => simp
  | other =>
    rw [if_neg (by simp), if_neg (by simp), if_neg hc]
    by_cases h1 : v.blockHeight > v.headerHeight - 10080
    · rw [if_pos h1]
      simp
      omega
    · rw [if_neg h1]
      have h2 : v.blockHeight + 10080 ≤ v.headerHeight := by omega
      simp only [h2, true_and, reduceCtorEq, false_or]
      by_cases a : v.requested = 0 <;> by_cases b : v.timeRequested + 7200 < now <;>
        by_cases c : v.timeRequested + 10 < now ∧ v.downloaded = 0 <;> by_cases d : v.peer = some false <;> simp [a, b, c, d]

private theorem request_lists (now : Int) (best : Option Nat) (s : StateSync) :
    (s.request now best).banned = s.banned ++ s.peer.toList ∧ (s.request now best).asked = s.asked ++ best.toList ∧
      (s.request now best).peer = best := ⟨rfl, rfl, rfl⟩

private theorem tick_some {s : StateSync} {now : Int} {connected : Nat → Bool} {q : Nat} (hd : stateSyncDue now (s.view connected) = true) :
    ∃ r, r = sub64 s.headerHeight stateSyncThreshold ∧
      s.tick now connected (some q) = ⟨.other, s.headerHeight, s.blockHeight, s.downloaded, r, now, some q, s.asked ++ [q], s.banned ++ s.peer.toList⟩ := by
  refine ⟨_, rfl, ?_⟩
  unfold StateSync.tick
  rw [if_pos hd]
  unfold StateSync.request
  simp only [Option.isSome_some, if_true, Option.toList_some]

private theorem tick_none {s : StateSync} {now : Int} {connected : Nat → Bool} (hd : stateSyncDue now (s.view connected) = true) :
    s.tick now connected none =
      ⟨.other, s.headerHeight, s.blockHeight, s.downloaded, s.requested, s.timeRequested, none, s.asked ++ [], s.banned ++ s.peer.toList⟩ := by
  unfold StateSync.tick
  rw [if_pos hd]
  unfold StateSync.request
  simp only [Option.isSome_none, Bool.false_eq_true, if_false, Option.toList_none]

private theorem failed_due {s : StateSync} (now : Int) (connected : Nat → Bool) (h : s.phase = .txHashSetFailed) :
    stateSyncDue now (s.view connected) = true := by
  have h' : (s.view connected).phase = .txHashSetFailed := h
  unfold stateSyncDue
  rw [if_neg (by rw [h']; exact fun x => nomatch x), if_pos h']

private theorem first_due {h : Nat} (t : Int) (hb : h < 2 ^ 64) (hh : 10080 ≤ h) :
    stateSyncDue t ((StateSync.fresh h 0).view (fun _ => true)) = true := by
  have key : ∀ v : SyncView, v.phase = .other → v.blockHeight = 0 → v.headerHeight = h → v.requested = 0 → stateSyncDue t v = true := by
    intro v a b c d
    subst c
    exact (due_iff t v hb hh).mpr (.inr ⟨a, by omega, .inl d⟩)
  exact key _ rfl rfl rfl rfl

private theorem asked_height {h r : Nat} (hb : h < 2 ^ 64) (hh : 12960 ≤ h) (hr : r = sub64 h stateSyncThreshold) : r ≠ 0 := by
  have e : sub64 h stateSyncThreshold = h - 2880 := by
    unfold sub64 stateSyncThreshold
    omega
  rw [hr, e]
  omega

/-- **C145.** Only peers the state was asked of, and peers whose archive broke off or was not valid, are banned, in every run; the peer waited for is
always the one asked last, or none.  Missing: that such a peer did anything wrong, see `helpful_peer_banned_violated`. -/
theorem state_bans_partial (headerHeight blockHeight : Nat) (es : List SyncEvent) :
    let s := (StateSync.fresh headerHeight blockHeight).run es
    (∀ p ∈ s.banned, p ∈ s.asked ∨ SyncEvent.failed p ∈ es) ∧ (∀ p, s.peer = some p → s.asked.getLast? = some p) := by
  suffices h : ∀ (es : List SyncEvent) (s : StateSync) (F : Nat → Prop), (∀ p, SyncEvent.failed p ∈ es → F p) →
      (∀ p ∈ s.banned, p ∈ s.asked ∨ F p) → (∀ p, s.peer = some p → s.asked.getLast? = some p) →
      (∀ p ∈ (s.run es).banned, p ∈ (s.run es).asked ∨ F p) ∧ (∀ p, (s.run es).peer = some p → (s.run es).asked.getLast? = some p) from
    h es _ (fun p => SyncEvent.failed p ∈ es) (fun _ h => h) (fun _ h => (nomatch h)) (fun _ h => (nomatch h))
  intro es
  induction es with
  | nil => exact fun s F _ h1 h2 => ⟨h1, h2⟩
  | cons e t ih =>
    intro s F hF h1 h2
    have next : (∀ p ∈ (s.on e).banned, p ∈ (s.on e).asked ∨ F p) ∧ (∀ p, (s.on e).peer = some p → (s.on e).asked.getLast? = some p) := by
      cases e with
      | tick now connected best =>
        show (∀ p ∈ (s.tick now connected best).banned, _ ∈ (s.tick now connected best).asked ∨ _) ∧ _
        unfold StateSync.on StateSync.tick
        by_cases hd : stateSyncDue now (s.view connected) = true
        · simp only [if_pos hd]
          obtain ⟨b, a, q⟩ := request_lists now best { s with phase := .other }
          rw [b, a, q]
          refine ⟨fun p hp => ?_, fun p hp => ?_⟩
          · rcases List.mem_append.mp hp with hp | hp
            · exact (h1 p hp).imp (fun x => List.mem_append_left _ x) id
            · refine .inl (List.mem_append_left _ (List.mem_of_getLast? (h2 p ?_)))
              simpa using hp
          · rw [hp]
            simp
        · simp only [if_neg hd]
          exact ⟨h1, h2⟩
      | failed q =>
        refine ⟨fun p hp => ?_, h2⟩
        rcases List.mem_append.mp hp with hp | hp
        · exact h1 p hp
        · rw [List.mem_singleton.mp hp]
          exact .inr (hF q (List.mem_cons_self ..))
      | _ => exact ⟨h1, h2⟩
    exact ih (s.on e) F (fun p hp => hF p (List.mem_cons_of_mem _ hp)) next.1 next.2

/-- **C145.** On a chain of 10080 headers or more, when the sync thread comes to the state: it bans the peer waited for, if any, and asks `best`, if the
last attempt failed, or if our blocks end 10080 or more below the headers and nothing was asked yet, or two hours have passed, or ten seconds have and
the count of bytes is 0, or the peer is gone; and it bans and asks no one otherwise. -/
theorem state_asked_when (now : Int) (connected : Nat → Bool) (best : Option Nat) (s : StateSync) (hh : s.headerHeight < 2 ^ 64)
    (hs : 10080 ≤ s.headerHeight) :
    let due := s.phase = .txHashSetFailed ∨ (s.phase = .other ∧ s.blockHeight + 10080 ≤ s.headerHeight ∧
      (s.requested = 0 ∨ s.timeRequested + 7200 < now ∨ (s.timeRequested + 10 < now ∧ s.downloaded = 0) ∨
        ∃ p, s.peer = some p ∧ connected p = false))
    (due → (s.tick now connected best).banned = s.banned ++ s.peer.toList ∧ (s.tick now connected best).asked = s.asked ++ best.toList ∧
      (s.tick now connected best).peer = best ∧ ∀ q, best = some q → (s.tick now connected best).timeRequested = now) ∧
    (¬ due → s.tick now connected best = s) := by
  have e := due_iff now (s.view connected) hh hs
  have ep : (s.view connected).peer = some false ↔ ∃ p, s.peer = some p ∧ connected p = false := by
    show s.peer.map connected = some false ↔ _
    rw [Option.map_eq_some_iff]
  rw [ep] at e
  intro due
  refine ⟨fun h => ?_, fun h => ?_⟩
  · unfold StateSync.tick
    rw [if_pos (e.mpr h)]
    obtain ⟨b, a, q⟩ := request_lists now best { s with phase := .other }
    refine ⟨b, a, q, ?_⟩
    intro x hx
    subst hx
    rfl
  · unfold StateSync.tick
    exact if_neg (fun x => h (e.mp x))

/-- **C145.** After an attempt that failed, whatever went before, the next time the sync thread comes to the state it asks `best`. -/
theorem failed_attempt_next_asked (s : StateSync) (es : List SyncEvent) (p : Nat) (now : Int) (connected : Nat → Bool) (best : Option Nat) :
    (s.run (es ++ [.failed p, .tick now connected best])).asked = (s.run es).asked ++ best.toList ∧
      (s.run (es ++ [.failed p, .tick now connected best])).peer = best ∧ p ∈ (s.run (es ++ [.failed p, .tick now connected best])).banned := by
  have e : s.run (es ++ [.failed p, .tick now connected best]) = ((s.run es).on (.failed p)).tick now connected best := by
    unfold StateSync.run
    rw [List.foldl_append]
    rfl
  rw [e]
  unfold StateSync.tick
  rw [if_pos (failed_due now connected rfl)]
  obtain ⟨b, a, q⟩ := request_lists now best { (s.run es).on (.failed p) with phase := .other }
  rw [a, q, b]
  exact ⟨rfl, rfl, List.mem_append_left _ (List.mem_append_right _ (List.mem_singleton.mpr rfl))⟩

/-- **C145.** In a run in which no bytes of an archive have come so far, a peer asked more than ten seconds ago is replaced, if the node still is 10080
blocks or more behind and no archive is being processed.  Missing: later attempts, see `second_silent_peer_waited_for_violated`. -/
theorem silent_peer_replaced_partial (headerHeight blockHeight : Nat) (es : List SyncEvent) (hes : ∀ n, SyncEvent.received n ∈ es → n = 0) (now : Int)
    (connected : Nat → Bool) (q : Nat) :
    let s := (StateSync.fresh headerHeight blockHeight).run es
    s.headerHeight < 2 ^ 64 → s.blockHeight + 10080 ≤ s.headerHeight → s.phase = .other → s.timeRequested + 10 < now →
      (s.tick now connected (some q)).asked = s.asked ++ [q] ∧ (s.tick now connected (some q)).peer = some q := by
  have zero : ∀ (es : List SyncEvent) (s : StateSync), (∀ n, SyncEvent.received n ∈ es → n = 0) → s.downloaded = 0 → (s.run es).downloaded = 0 := by
    intro es
    induction es with
    | nil => exact fun _ _ h => h
    | cons e t ih =>
      intro s h hs
      refine ih (s.on e) (fun n hn => h n (List.mem_cons_of_mem _ hn)) ?_
      cases e with
      | tick now connected best =>
        show (s.tick now connected best).downloaded = 0
        unfold StateSync.tick
        split
        · exact hs
        · exact hs
      | received n => exact h n (List.mem_cons_self ..)
      | announced => rfl
      | _ => exact hs
  intro s hh hb hp ht
  have h := (state_asked_when now connected (some q) s hh (by omega)).1
    (.inr ⟨hp, hb, .inr (.inr (.inl ⟨ht, zero es _ hes rfl⟩))⟩)
  exact ⟨h.2.1, h.2.2.1⟩

/-- A silent first peer is banned after ten seconds and the next one asked. -/
example : let s := (StateSync.fresh 20000 0).run [.tick 100 (fun _ => true) (some 1), .tick 105 (fun _ => true) (some 2), .tick 111 (fun _ => true) (some 2)]
    s.asked = [1, 2] ∧ s.banned = [1] ∧ s.peer = some 2 := by decide +kernel

/-- **C145 fails.** A peer that delivered a valid state, from which the node went on, is banned when the node falls behind once more: nothing forgets it
when the state is accepted.  For every peer, every size of the archive, all heights and times. -/
theorem helpful_peer_banned_violated (p n h0 h1 : Nat) (t now : Int) (best : Option Nat) (hh0 : 10080 ≤ h0) (hb0 : h0 < 2 ^ 64)
    (hh1 : h0 + 10080 ≤ h1) (hb1 : h1 < 2 ^ 64) (hnow : t + 7200 < now) :
    let s := (StateSync.fresh h0 0).run [.tick t (fun _ => true) (some p), .announced, .received n, .processing, .accepted (h0 - 2880), .blocks h0,
      .status, .headers h1]
    s.blockHeight = h0 ∧ s.banned = [] ∧ (s.tick now (fun _ => true) best).banned = [p] := by
  obtain ⟨r, -, e⟩ := tick_some (q := p) (first_due t hb0 hh0)
  have run : (StateSync.fresh h0 0).run [.tick t (fun _ => true) (some p), .announced, .received n, .processing, .accepted (h0 - 2880), .blocks h0,
      .status, .headers h1] = ⟨.other, h1, h0, n, r, t, some p, [p], []⟩ := by
    simp only [StateSync.run, List.foldl_cons, List.foldl_nil, StateSync.on, e]
    rfl
  rw [run]
  refine ⟨rfl, rfl, ?_⟩
  exact ((state_asked_when now (fun _ => true) best ⟨.other, h1, h0, n, r, t, some p, [p], []⟩ hb1
    (by show 10080 ≤ h1; omega)).1 (.inr ⟨rfl, hh1, .inr (.inl hnow)⟩)).1

/-- A day after a sync at height 20000 the node was suspended for two weeks. -/
example : 10080 ≤ 20000 ∧ 20000 < 2 ^ 64 ∧ 20000 + 10080 ≤ 41000 ∧ 41000 < 2 ^ 64 ∧ (100 : Int) + 7200 < 1300000 := by decide

/-- **C145 fails.** After a first attempt that broke off with some bytes received, a second peer that does not answer at all is waited for two hours
instead of ten seconds: the bytes of the first are taken for its own. -/
theorem second_silent_peer_waited_for_violated (p q n h : Nat) (t t' : Int) (hn : 0 < n) (hh : 12960 ≤ h) (hb : h < 2 ^ 64) :
    let s := (StateSync.fresh h 0).run [.tick t (fun _ => true) (some p), .announced, .received n, .failed p, .tick t' (fun _ => true) (some q)]
    s.asked = [p, q] ∧ s.peer = some q ∧
      ∀ (now : Int) (best : Option Nat), now ≤ t' + 7200 → s.tick now (fun _ => true) best = s := by
  obtain ⟨r, -, e⟩ := tick_some (q := p) (first_due t hb (by omega))
  obtain ⟨r', hr, e'⟩ := tick_some (s := ⟨.txHashSetFailed, h, 0, n, r, t, some p, [p], [p]⟩) (now := t') (connected := fun _ => true) (q := q)
    (failed_due _ _ rfl)
  have run : (StateSync.fresh h 0).run [.tick t (fun _ => true) (some p), .announced, .received n, .failed p, .tick t' (fun _ => true) (some q)] =
      ⟨.other, h, 0, n, r', t', some q, [p, q], [p, p]⟩ := by
    simp only [StateSync.run, List.foldl_cons, List.foldl_nil, StateSync.on, e]
    exact e'
  rw [run]
  refine ⟨rfl, rfl, fun now best hw => ?_⟩
  refine (state_asked_when now (fun _ => true) best _ hb (by show 10080 ≤ h; omega)).2 ?_
  rintro (x | ⟨-, -, x | x | ⟨-, x⟩ | ⟨-, -, x⟩⟩)
  · cases x
  · exact asked_height hb hh hr x
  · dsimp only at x; omega
  · dsimp only at x; omega
  · cases x

/-- **C145 fails.** If there is no peer at the moment the second attempt is made, none is asked when there is one again, until two hours after the
first attempt. -/
theorem no_peer_then_waits_violated (p n h : Nat) (t t' : Int) (hn : 0 < n) (hh : 12960 ≤ h) (hb : h < 2 ^ 64) :
    let s := (StateSync.fresh h 0).run [.tick t (fun _ => true) (some p), .announced, .received n, .failed p, .tick t' (fun _ => false) none]
    s.peer = none ∧ ∀ (now : Int) (connected : Nat → Bool) (best : Option Nat), now ≤ t + 7200 → s.tick now connected best = s := by
  obtain ⟨r, hr, e⟩ := tick_some (q := p) (first_due t hb (by omega))
  have e' := tick_none (s := ⟨.txHashSetFailed, h, 0, n, r, t, some p, [p], [p]⟩) (failed_due t' (fun _ => false) rfl)
  have run : (StateSync.fresh h 0).run [.tick t (fun _ => true) (some p), .announced, .received n, .failed p, .tick t' (fun _ => false) none] =
      ⟨.other, h, 0, n, r, t, none, [p], [p, p]⟩ := by
    simp only [StateSync.run, List.foldl_cons, List.foldl_nil, StateSync.on, e]
    exact e'
  rw [run]
  refine ⟨rfl, fun now connected best hw => ?_⟩
  refine (state_asked_when now connected best _ hb (by show 10080 ≤ h; omega)).2 ?_
  rintro (x | ⟨-, -, x | x | ⟨-, x⟩ | ⟨_, x, -⟩⟩)
  · cases x
  · exact asked_height hb hh hr x
  · dsimp only at x; omega
  · dsimp only at x; omega
  · cases x

/-- A first attempt of which one byte came, at height 20000. -/
example : 0 < 1 ∧ 12960 ≤ 20000 ∧ 20000 < 2 ^ 64 := by decide

end Verif.Props
