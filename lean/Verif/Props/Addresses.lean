import Verif.Wallet.Addresses
import Verif.Props.Armor
import Mathlib.Data.List.Nodup

/-!
# C109: the addresses of a wallet
-/
namespace Verif.Props
open Verif.Codec Verif.Wallet

/-! ## Every address that was shown can be used -/

private structure Bounded (d : Desk) : Prop where
  ses : ∀ e ∈ d.sessions, e.1 < d.next ∧ e.2.shown ≤ d.index e.2.user ∧ e.2.sender ≤ d.index e.2.user ∧ e.2.tor ≤ d.index e.2.user
  srv : ∀ v ∈ d.servers, v.tor ≤ d.index v.user
  nodup : (d.sessions.map (·.1)).Nodup

private theorem find_mem {d : Desk} {k : Nat} {s : AddrSession} (h : d.find k = some s) : (k, s) ∈ d.sessions := by
  unfold Desk.find at h
  rw [Option.map_eq_some_iff] at h
  obtain ⟨e, he, rfl⟩ := h
  have h1 := List.find?_some he
  have h2 := List.mem_of_find?_eq_some he
  obtain ⟨k', s⟩ := e
  have : k' = k := by simpa using h1
  exact this ▸ h2

private theorem mem_put {d : Desk} {k : Nat} {s : AddrSession} {e : Nat × AddrSession} (h : e ∈ d.put k s) :
    e = (k, s) ∨ (e ∈ d.sessions ∧ e.1 ≠ k) := by
  unfold Desk.put at h
  obtain ⟨x, hx, rfl⟩ := List.mem_map.mp h
  by_cases hk : x.1 = k
  · left; rw [if_pos hk]
  · right; rw [if_neg hk]; exact ⟨hx, hk⟩

private theorem put_keys (d : Desk) (k : Nat) (s : AddrSession) : (d.put k s).map (·.1) = d.sessions.map (·.1) := by
  unfold Desk.put
  rw [List.map_map]
  apply List.map_congr_left
  intro e _
  show (if e.1 = k then (k, s) else e).1 = e.1
  split
  · rename_i h; exact h.symm
  · rfl

private theorem find_put {d : Desk} {k : Nat} {s s' : AddrSession} (h : d.find k = some s) {d' : Desk}
    (hd : d'.sessions = d.put k s') : d'.find k = some s' := by
  unfold Desk.find Desk.put at *
  rw [hd]
  rw [Option.map_eq_some_iff] at h ⊢
  obtain ⟨e, he, rfl⟩ := h
  refine ⟨(k, s'), ?_, rfl⟩
  generalize d.sessions = l at he
  induction l with
  | nil => cases he
  | cons x l ih =>
    rw [List.map_cons]
    by_cases hx : x.1 = k
    · rw [if_pos hx, List.find?_cons_of_pos (by simp)]
    · rw [if_neg hx, List.find?_cons_of_neg (by simpa using hx)]
      rw [List.find?_cons_of_neg (by simpa using hx)] at he
      exact ih he

private theorem index_mono (d : Desk) (e : DeskEvent) (u : Nat) : d.index u ≤ (d.step e).index u ∧ (d.step e).seed = d.seed := by
  cases e with
  | login u p => simp only [Desk.step, Desk.login]; split <;> exact ⟨Nat.le_refl _, rfl⟩
  | logout k =>
    simp only [Desk.step, Desk.logout]
    split
    · exact ⟨Nat.le_refl _, rfl⟩
    · split
      · exact ⟨Nat.le_refl _, rfl⟩
      · split <;> exact ⟨Nat.le_refl _, rfl⟩
  | rotate k =>
    simp only [Desk.step, Desk.rotate]
    split
    · exact ⟨Nat.le_refl _, rfl⟩
    · rename_i s _
      refine ⟨?_, rfl⟩
      show _ ≤ (if u = s.user then _ else _)
      split
      · rename_i h; rw [h]; omega
      · exact Nat.le_refl _
  | retry k => simp only [Desk.step, Desk.retry]; split <;> exact ⟨Nat.le_refl _, rfl⟩
  | work ok => exact ⟨Nat.le_refl _, rfl⟩
  | lost => exact ⟨Nat.le_refl _, rfl⟩
  | start ok => exact ⟨Nat.le_refl _, rfl⟩

private theorem run_mono (es : List DeskEvent) (d : Desk) (u : Nat) : d.index u ≤ (d.run es).index u ∧ (d.run es).seed = d.seed := by
  induction es generalizing d with
  | nil => exact ⟨Nat.le_refl _, rfl⟩
  | cons e es ih =>
    have h1 := index_mono d e u
    have h2 := ih (d.step e)
    exact ⟨Nat.le_trans h1.1 h2.1, h2.2.trans h1.2⟩

private theorem bounded_step (d : Desk) (e : DeskEvent) (h : Bounded d) : Bounded (d.step e) := by
  cases e with
  | login u p =>
    simp only [Desk.step, Desk.login]
    have hnd : ((d.sessions ++ [(d.next, (⟨u, 0, 0, 0, 0⟩ : AddrSession))]).map (·.1)).Nodup := by
      rw [List.map_append, List.nodup_append]
      refine ⟨h.nodup, by simp, ?_⟩
      intro a ha b hb
      obtain ⟨x, hx, rfl⟩ := List.mem_map.mp ha
      have := (h.ses x hx).1
      simp only [List.map_cons, List.map_nil, List.mem_singleton] at hb
      omega
    have hnd' : ∀ s : AddrSession, ((d.sessions ++ [(d.next, s)]).map (·.1)).Nodup := by
      intro s; rw [List.map_append] at hnd ⊢; exact hnd
    split
    · rename_i v hv
      have hm := List.mem_of_find?_eq_some hv
      have hu : v.user = u := by simpa using List.find?_some hv
      refine ⟨?_, ?_, hnd' _⟩
      · intro e he
        rcases List.mem_append.mp he with he | he
        · have := h.ses e he
          exact ⟨by show _ < d.next + 1; omega, this.2⟩
        · rw [List.mem_singleton] at he
          subst he
          have := h.srv v hm
          rw [hu] at this
          exact ⟨Nat.lt_succ_self _, Nat.le_refl _, Nat.le_refl _, this⟩
      · intro x hx
        obtain ⟨y, hy, rfl⟩ := List.mem_map.mp hx
        have := h.srv y hy
        split <;> exact this
    · refine ⟨?_, ?_, hnd' _⟩
      · intro e he
        rcases List.mem_append.mp he with he | he
        · have := h.ses e he
          exact ⟨by show _ < d.next + 1; omega, this.2⟩
        · rw [List.mem_singleton] at he
          subst he
          exact ⟨Nat.lt_succ_self _, Nat.le_refl _, Nat.le_refl _, Nat.le_refl _⟩
      · intro x hx
        rcases List.mem_append.mp hx with hx | hx
        · exact h.srv x hx
        · rw [List.mem_singleton] at hx
          subst hx
          exact Nat.le_refl _
  | logout k =>
    simp only [Desk.step, Desk.logout]
    have hs : ∀ e ∈ d.sessions.eraseP (fun e => decide (e.1 = k)), e ∈ d.sessions := fun e he => List.mem_of_mem_eraseP he
    have hn : ((d.sessions.eraseP (fun e => decide (e.1 = k))).map (·.1)).Nodup :=
      h.nodup.sublist (List.eraseP_sublist.map _)
    split
    · exact h
    · split
      · exact ⟨fun e he => h.ses e (hs e he), h.srv, hn⟩
      · split
        · exact ⟨fun e he => h.ses e (hs e he), fun x hx => h.srv x (List.mem_filter.mp hx).1, hn⟩
        · refine ⟨fun e he => h.ses e (hs e he), ?_, hn⟩
          intro x hx
          obtain ⟨y, hy, rfl⟩ := List.mem_map.mp hx
          have := h.srv y hy
          split <;> exact this
  | rotate k =>
    have hi := fun u => (index_mono d (.rotate k) u).1
    simp only [Desk.step] at hi ⊢
    revert hi
    simp only [Desk.rotate]
    split
    · exact fun _ => h
    · rename_i s hs
      intro hi
      have hm := h.ses _ (find_mem hs)
      refine ⟨?_, ?_, ?_⟩
      · intro e he
        rcases mem_put he with rfl | ⟨he, -⟩
        · refine ⟨hm.1, ?_, Nat.le_trans hm.2.2.1 (hi _), ?_⟩
          · show _ ≤ (if s.user = s.user then _ else _); rw [if_pos rfl]
          · show _ ≤ (if s.user = s.user then _ else _); rw [if_pos rfl]
        · have := h.ses e he
          have h2 := hi e.2.user
          exact ⟨this.1, Nat.le_trans this.2.1 h2, Nat.le_trans this.2.2.1 h2, Nat.le_trans this.2.2.2 h2⟩
      · intro v hv
        exact Nat.le_trans (h.srv v hv) (hi _)
      · show ((d.put k _).map (·.1)).Nodup
        rw [put_keys]; exact h.nodup
  | retry k =>
    simp only [Desk.step, Desk.retry]
    split
    · exact h
    · rename_i s hs
      have hm := h.ses _ (find_mem hs)
      refine ⟨?_, h.srv, ?_⟩
      · intro e he
        rcases mem_put he with rfl | ⟨he, -⟩
        · exact ⟨hm.1, hm.2.1, hm.2.2.1, Nat.zero_le _⟩
        · exact h.ses e he
      · show ((d.put k _).map (·.1)).Nodup
        rw [put_keys]; exact h.nodup
  | work ok => exact ⟨h.ses, h.srv, h.nodup⟩
  | lost => exact ⟨h.ses, h.srv, h.nodup⟩
  | start ok => exact ⟨h.ses, h.srv, h.nodup⟩

private theorem bounded_run (seed : Nat → Nat) (es : List DeskEvent) : Bounded ((Desk.new seed).run es) := by
  suffices ∀ d, Bounded d → Bounded (d.run es) from this _ ⟨by simp [Desk.new], by simp [Desk.new], by simp [Desk.new]⟩
  induction es with
  | nil => exact fun _ h => h
  | cons e es ih => exact fun d h => ih _ (bounded_step d e h)

private theorem loop_reads {K : Type} (unpack : K → Res Message) (key : Nat → K) (m : Message) (j : Nat)
    (hj : unpack (key j) = .ok m) (is : List Nat) (hm : j ∈ is)
    (ho : ∀ i ∈ is, unpack (key i) = .throw ∨ unpack (key i) = .ok m) :
    decryptLoop unpack (fun i => .ok (key i)) is = .ok m := by
  induction is with
  | nil => cases hm
  | cons i is ih =>
    simp only [decryptLoop, Res.ok_bind]
    rcases ho i (by simp) with h | h
    · rw [h]
      rcases List.mem_cons.mp hm with rfl | hm
      · rw [hj] at h; cases h
      · exact ih hm (fun x hx => ho x (by simp [hx]))
    · rw [h]

private theorem loop_fails {K : Type} (unpack : K → Res Message) (key : Nat → K) (is : List Nat)
    (ho : ∀ i ∈ is, unpack (key i) = .throw) : decryptLoop unpack (fun i => .ok (key i)) is = .throw := by
  induction is with
  | nil => rfl
  | cons i is ih =>
    simp only [decryptLoop, Res.ok_bind, ho i (by simp)]
    exact ih (fun x hx => ho x (by simp [hx]))

/-- **C109.**  Whatever happens: an address that a session of a wallet showed or used as sender at some time, or shows as its Tor
address, stays usable.  A slatepack packed for it, alone or among other recipients, is opened by the wallet at any later time; `secret
sd i` is the key the wallet derives for index `i` from the seed `sd`.  Missing: checksums that begin with a zero byte. -/
theorem shown_address_opens_partial (seed : Nat → Nat) (before after : List DeskEvent) (k : Nat) (s : AddrSession)
    (hs : ((Desk.new seed).run before).find k = some s) (j : Nat) (hj : j = s.shown ∨ j = s.sender ∨ j = s.tor)
    (H : Bytes → Bytes) (hH : ∀ m, 4 ≤ (H m).length) (age : AgeOps) (valid : Bytes → Bool)
    (secret : Nat → Nat → age.Key) (sender slate : Bytes) (hl : sender.length = 32) (hv : valid sender = true)
    (hsl : slate.length < 2 ^ 62) (recipients : List Bytes) (hr : recipients ≠ []) (rnd : age.Rnd)
    (hsz : ∀ ks text c, convertAll age recipients = .ok ks → age.encrypt rnd ks text = .ok c → c.length < 2 ^ 63)
    (hk : CanRead age rnd (secret (seed s.user) j) recipients)
    (ho : ∀ i, CanRead age rnd (secret (seed s.user) i) recipients ∨ CannotRead age rnd (secret (seed s.user) i) recipients)
    (h0 : ∀ bs, serMessage age rnd ⟨1, 0, 1, sender, [], slate⟩ recipients = .ok bs → (H bs).headD 0 ≠ 0) :
    ∃ t, armorPack H age rnd sender slate recipients = .ok t ∧
      decryptSlatepack (fun key => armorUnpack H age valid key t) (fun i => .ok (secret (seed s.user) i))
        (((Desk.new seed).run (before ++ after)).index s.user) = .ok ⟨1, 0, 1, sender, [], slate⟩ := by
  have hb := (bounded_run seed before).ses _ (find_mem hs)
  have hle : j ≤ ((Desk.new seed).run (before ++ after)).index s.user := by
    have h1 : (Desk.new seed).run (before ++ after) = ((Desk.new seed).run before).run after := by
      simp only [Desk.run, List.foldl_append]
    have h2 := (run_mono after ((Desk.new seed).run before) s.user).1
    rw [h1]
    rcases hj with rfl | rfl | rfl
    · exact Nat.le_trans hb.2.1 h2
    · exact Nat.le_trans hb.2.2.1 h2
    · exact Nat.le_trans hb.2.2.2 h2
  have rt : ∀ key, CanRead age rnd key recipients → ∃ t, armorPack H age rnd sender slate recipients = .ok t ∧
      armorUnpack H age valid key t = .ok ⟨1, 0, 1, sender, [], slate⟩ := by
    intro key hkey
    have := slatepack_roundtrip_partial H hH age valid sender slate hl hv hsl recipients rnd key (fun _ => hkey)
      (by simpa only [hr, if_false] using h0)
    simpa only [hr, if_false] using this
  obtain ⟨t, ht, hu⟩ := rt _ hk
  refine ⟨t, ht, ?_⟩
  refine loop_reads _ (secret (seed s.user)) _ j hu _ (List.mem_range.mpr (by omega)) ?_
  intro i _
  rcases ho i with h | h
  · right
    obtain ⟨t', ht', hu'⟩ := rt _ h
    rw [ht] at ht'
    cases ht'
    exact hu'
  · left
    exact slatepack_unreadable_partial H hH age valid sender slate recipients hr rnd hsz _ h t h0 ht

/-- **C109.**  A new address is new: after `get_new_address`, or the change of address when a payment was received, the session shows an
address with an index no session of the wallet showed, at any time before. -/
theorem new_address_fresh (seed : Nat → Nat) (before after : List DeskEvent) (k : Nat) (s : AddrSession)
    (hs : ((Desk.new seed).run (before ++ after)).find k = some s) :
    ∃ s', ((Desk.new seed).run (before ++ after ++ [.rotate k])).find k = some s' ∧ s'.user = s.user ∧ s'.tor = s'.shown ∧
      ∀ k2 old, ((Desk.new seed).run before).find k2 = some old → old.user = s.user →
        old.shown < s'.shown ∧ old.sender < s'.shown ∧ old.tor < s'.shown := by
  refine ⟨⟨s.user, ((Desk.new seed).run (before ++ after)).index s.user + 1, s.sender,
    ((Desk.new seed).run (before ++ after)).index s.user + 1, s.port⟩, ?_, rfl, rfl, ?_⟩
  · simp only [Desk.run, List.foldl_append, List.foldl_cons, List.foldl_nil] at hs ⊢
    generalize List.foldl Desk.step _ after = d at hs ⊢
    simp only [Desk.step]
    apply find_put hs
    simp only [Desk.rotate, hs]
  · intro k2 old ho hu
    have hb := (bounded_run seed before).ses _ (find_mem ho)
    have h1 : (Desk.new seed).run (before ++ after) = ((Desk.new seed).run before).run after := by
      simp only [Desk.run, List.foldl_append]
    have h2 := (run_mono after ((Desk.new seed).run before) s.user).1
    rw [← h1, ← hu] at h2
    simp only [hu] at hb h2 ⊢
    refine ⟨?_, ?_, ?_⟩
    · have := hb.2.1; omega
    · have := hb.2.2.1; omega
    · have := hb.2.2.2; omega

/-- Spec: the event changes the address of the wallet of user `u`. -/
def ChangesAddress (d : Desk) (u : Nat) (e : DeskEvent) : Prop := ∃ k s, e = .rotate k ∧ d.find k = some s ∧ s.user = u

/-- **C109.**  The current address of a wallet changes when one of its own sessions asks for it (or receives a payment) and at no other
time, and then to the next one; logging in shows the current address, and that is the one sent as sender. -/
theorem current_address (d : Desk) (u : Nat) :
    (∀ e, ChangesAddress d u e → (d.step e).index u = d.index u + 1) ∧
    (∀ e, ¬ ChangesAddress d u e → (d.step e).index u = d.index u) ∧
    (∀ seed es, d = (Desk.new seed).run es → ∀ port, ∃ s, (d.step (.login u port)).find d.next = some s ∧ s.user = u ∧
      s.shown = d.index u ∧ s.sender = d.index u) := by
  refine ⟨?_, ?_, ?_⟩
  · rintro e ⟨k, s, rfl, hs, hu⟩
    simp only [Desk.step, Desk.rotate, hs, hu, if_true]
  · intro e he
    cases e with
    | login u p => simp only [Desk.step, Desk.login]; split <;> rfl
    | logout k =>
      simp only [Desk.step, Desk.logout]
      split
      · rfl
      · split
        · rfl
        · split <;> rfl
    | rotate k =>
      simp only [Desk.step, Desk.rotate]
      split
      · rfl
      · rename_i s hs
        show (if u = s.user then _ else _) = _
        exact if_neg (fun hu => he ⟨k, s, rfl, hs, hu.symm⟩)
    | retry k => simp only [Desk.step, Desk.retry]; split <;> rfl
    | work ok => rfl
    | lost => rfl
    | start ok => rfl
  · rintro seed es rfl port
    have hb := bounded_run seed es
    generalize (Desk.new seed).run es = d at hb ⊢
    have hn : ∀ s : AddrSession, (d.sessions ++ [(d.next, s)]).find? (fun e => decide (e.1 = d.next)) = some (d.next, s) := by
      intro s
      rw [List.find?_append, List.find?_eq_none.mpr, Option.none_or, List.find?_cons_of_pos (by simp)]
      intro x hx
      have := (hb.ses x hx).1
      simp only [decide_eq_true_eq]
      omega
    simp only [Desk.step, Desk.login]
    split
    · rename_i v _
      refine ⟨⟨u, d.index u, d.index u, v.tor, v.port⟩, ?_, rfl, rfl, rfl⟩
      simp only [Desk.find, hn]; rfl
    · refine ⟨⟨u, d.index u, d.index u, d.index u, port⟩, ?_, rfl, rfl, rfl⟩
      simp only [Desk.find, hn]; rfl

/-- **C109 violated.**  The number of addresses used is not found again from the seed: the file of a restored wallet begins with the
first address, and a slatepack for a later one, which the old file would open, is not opened by it, until the user has asked for as many
new addresses. -/
theorem restored_wallet_violated (H : Bytes → Bytes) (hH : ∀ m, 4 ≤ (H m).length) (age : AgeOps) (valid : Bytes → Bool)
    (secret : Nat → age.Key) (sender slate : Bytes) (recipients : List Bytes) (hr : recipients ≠ []) (rnd : age.Rnd)
    (hsz : ∀ ks text c, convertAll age recipients = .ok ks → age.encrypt rnd ks text = .ok c → c.length < 2 ^ 63)
    (j : Nat) (ho : ∀ i, i ≠ j → CannotRead age rnd (secret i) recipients)
    (h0 : ∀ bs, serMessage age rnd ⟨1, 0, 1, sender, [], slate⟩ recipients = .ok bs → (H bs).headD 0 ≠ 0)
    (t : Bytes) (ht : armorPack H age rnd sender slate recipients = .ok t)
    (seed : Nat → Nat) (es : List DeskEvent) (u : Nat) (hj : ((Desk.new seed).run es).index u < j) :
    decryptSlatepack (fun key => armorUnpack H age valid key t) (fun i => .ok (secret i)) (((Desk.new seed).run es).index u) = .throw := by
  apply loop_fails
  intro i hi
  have := List.mem_range.mp hi
  exact slatepack_unreadable_partial H hH age valid sender slate recipients hr rnd hsz _ (ho i (by omega)) t h0 ht

/-- Tor answers every request. -/
def torAnswers : Addr → Bool := fun _ => true

/-- A user logs in, Tor is started and the service added. -/
def firstLogin (u port : Nat) : List DeskEvent := [.start torAnswers, .login u port, .work torAnswers]

private theorem first_login (seed : Nat → Nat) (u p : Nat) : (Desk.new seed).run (firstLogin u p) =
    ⟨seed, fun _ => 0, [(0, ⟨u, 0, 0, 0, p⟩)], 1, [⟨u, 1, p, 0⟩], ⟨true, [((seed u, 0), p)], [((seed u, 0), p)], []⟩⟩ := rfl

private theorem run_append (d : Desk) (a b : List DeskEvent) : d.run (a ++ b) = (d.run a).run b := by
  simp only [Desk.run, List.foldl_append]

private theorem run_cons (d : Desk) (e : DeskEvent) (b : List DeskEvent) : d.run (e :: b) = (d.step e).run b := rfl

private theorem then_rotate (seed : Nat → Nat) (u p : Nat) :
    (Desk.new seed).run (firstLogin u p ++ [.rotate 0, .work torAnswers]) =
    ⟨seed, fun v => if v = u then 1 else 0, [(0, ⟨u, 1, 0, 1, p⟩)], 1, [⟨u, 1, p, 0⟩],
      ⟨true, [((seed u, 1), p)], [((seed u, 1), p)], []⟩⟩ := by
  rw [run_append, first_login]
  simp [Desk.run, Desk.step, Desk.rotate, Desk.find, Desk.put, TorProc.remove, dropAddr, TorProc.add, TorProc.work, TorProc.onion,
    torAnswers, keepInsert]

/-- **C109 violated.**  A second login while a session is open reports a Tor address that is no longer served if the address was changed:
it is the one of the time the first session began, and differs from the address shown. -/
theorem second_login_violated (seed : Nat → Nat) (u p q : Nat) :
    let d := (Desk.new seed).run (firstLogin u p ++ [.rotate 0, .work torAnswers] ++ [.login u q, .work torAnswers])
    ∃ s, d.find 1 = some s ∧ s.shown = 1 ∧ s.tor = 0 ∧ d.tor.up = true ∧ d.tor.queue = [] ∧
      ∀ e ∈ d.tor.published, e.1 ≠ (seed u, s.tor) := by
  intro d
  have hd : d = ⟨seed, fun v => if v = u then 1 else 0, [(0, ⟨u, 1, 0, 1, p⟩), (1, ⟨u, 1, 1, 0, p⟩)], 2, [⟨u, 2, p, 0⟩],
      ⟨true, [((seed u, 1), p)], [((seed u, 1), p)], []⟩⟩ := by
    show (Desk.new seed).run _ = _
    rw [run_append, then_rotate]
    simp [Desk.run, Desk.step, Desk.login, TorProc.work]
  rw [hd]
  exact ⟨_, rfl, rfl, rfl, rfl, rfl, by simp⟩

/-- **C109 violated.**  After a change of address, logging out leaves the service published, for a port at which nobody listens any more;
and after the next login, however many rounds pass and whatever requests Tor accepts, the address of the session leads to the old port, and
not to the session's server. -/
theorem logout_leaves_service_violated (seed : Nat → Nat) (u p q : Nat) (hpq : p ≠ q) :
    (let d := (Desk.new seed).run (firstLogin u p ++ [.rotate 0, .work torAnswers] ++ [.logout 0])
     d.sessions = [] ∧ d.servers = [] ∧ d.tor.published = [((seed u, 1), p)]) ∧
    (∀ rounds : List (Addr → Bool),
     let d := (Desk.new seed).run (firstLogin u p ++ [.rotate 0, .work torAnswers] ++
        (.logout 0 :: .login u q :: rounds.map .work))
     ∃ s, d.find 1 = some s ∧ s.shown = 1 ∧ s.tor = 1 ∧ s.port = q ∧ d.tor.up = true ∧
      ((seed u, 1), q) ∉ d.tor.published ∧ ((seed u, 1), p) ∈ d.tor.published) := by
  have h1 : ((Desk.new seed).run (firstLogin u p ++ [.rotate 0, .work torAnswers])).step (.logout 0) =
      ⟨seed, fun v => if v = u then 1 else 0, [], 1, [], ⟨true, [((seed u, 1), p)], [((seed u, 1), p)], []⟩⟩ := by
    rw [then_rotate]
    simp [Desk.step, Desk.logout, Desk.find, TorProc.remove, dropAddr]
  constructor
  · intro d
    have hd : d = ⟨seed, fun v => if v = u then 1 else 0, [], 1, [], ⟨true, [((seed u, 1), p)], [((seed u, 1), p)], []⟩⟩ := by
      show (Desk.new seed).run _ = _
      rw [run_append, run_cons, h1]
      rfl
    rw [hd]
    exact ⟨rfl, rfl, rfl⟩
  · intro rounds d
    have hl : (⟨seed, fun v => if v = u then 1 else 0, [], 1, [], ⟨true, [((seed u, 1), p)], [((seed u, 1), p)], []⟩⟩ : Desk).step
        (.login u q) = ⟨seed, fun v => if v = u then 1 else 0, [(1, ⟨u, 1, 1, 1, q⟩)], 2, [⟨u, 1, q, 1⟩],
        ⟨true, [((seed u, 1), p)], [((seed u, 1), p)], [((seed u, 1), q)]⟩⟩ := by
      simp [Desk.step, Desk.login, TorProc.add]
    have key : ∀ (rounds : List (Addr → Bool)) (e : Desk), e.tor.up = true → e.tor.published = [((seed u, 1), p)] →
        e.tor.active = [((seed u, 1), p)] → (∀ x ∈ e.tor.queue, x.1 = (seed u, 1)) →
        (e.run (rounds.map .work)).tor.up = true ∧ (e.run (rounds.map .work)).tor.published = [((seed u, 1), p)] ∧
        (e.run (rounds.map .work)).sessions = e.sessions := by
      intro rounds
      induction rounds with
      | nil => intro e a b _ _; exact ⟨a, b, rfl⟩
      | cons ok rounds ih =>
        intro e a b c hq
        have hw : ∀ (l : List (Addr × Nat)) (t : TorProc), (∀ x ∈ l, x.1 = (seed u, 1)) → t.published = [((seed u, 1), p)] →
            t.active = [((seed u, 1), p)] → (∀ x ∈ t.queue, x.1 = (seed u, 1)) →
            (l.foldl (TorProc.onion ok) t).up = t.up ∧ (l.foldl (TorProc.onion ok) t).published = [((seed u, 1), p)] ∧
            (l.foldl (TorProc.onion ok) t).active = [((seed u, 1), p)] ∧ ∀ x ∈ (l.foldl (TorProc.onion ok) t).queue, x.1 = (seed u, 1) := by
          intro l
          induction l with
          | nil => intro t _ a b c; exact ⟨rfl, a, b, c⟩
          | cons x l ihl =>
            intro t hx a b c
            have hx1 := hx x (by simp)
            rw [List.foldl_cons]
            have hstep : (TorProc.onion ok t x).up = t.up ∧ (TorProc.onion ok t x).published = [((seed u, 1), p)] ∧
                (TorProc.onion ok t x).active = [((seed u, 1), p)] ∧ ∀ y ∈ (TorProc.onion ok t x).queue, y.1 = (seed u, 1) := by
              unfold TorProc.onion
              split
              · simp only [a, b, hx1, keepInsert, List.any_cons, decide_true, Bool.true_or, if_true]
                exact ⟨trivial, trivial, trivial, c⟩
              · refine ⟨rfl, a, b, ?_⟩
                intro y hy
                rcases List.mem_append.mp hy with hy | hy
                · exact c y hy
                · rw [List.mem_singleton] at hy; exact hy ▸ hx1
            obtain ⟨s1, s2, s3, s4⟩ := hstep
            obtain ⟨r1, r2, r3, r4⟩ := ihl _ (fun y hy => hx y (by simp [hy])) s2 s3 s4
            exact ⟨r1.trans s1, r2, r3, r4⟩
        have hs : e.step (.work ok) = { e with tor := e.tor.queue.foldl (TorProc.onion ok) { e.tor with queue := [] } } := by
          simp only [Desk.step, TorProc.work, a, if_true]
        obtain ⟨w1, w2, w3, w4⟩ := hw e.tor.queue { e.tor with queue := [] } hq b c (by simp)
        rw [List.map_cons, run_cons, hs]
        obtain ⟨z1, z2, z3⟩ := ih { e with tor := e.tor.queue.foldl (TorProc.onion ok) { e.tor with queue := [] } } (w1.trans a) w2 w3 w4
        exact ⟨z1, z2, z3⟩
    have hd : d = (⟨seed, fun v => if v = u then 1 else 0, [(1, ⟨u, 1, 1, 1, q⟩)], 2, [⟨u, 1, q, 1⟩],
        ⟨true, [((seed u, 1), p)], [((seed u, 1), p)], [((seed u, 1), q)]⟩⟩ : Desk).run (rounds.map .work) := by
      show (Desk.new seed).run _ = _
      rw [run_append, run_cons, h1, run_cons, hl]
    obtain ⟨k1, k2, k3⟩ := key rounds ⟨seed, fun v => if v = u then 1 else 0, [(1, ⟨u, 1, 1, 1, q⟩)], 2, [⟨u, 1, q, 1⟩],
        ⟨true, [((seed u, 1), p)], [((seed u, 1), p)], [((seed u, 1), q)]⟩⟩ rfl rfl rfl (by simp)
    rw [← hd] at k1 k2 k3
    refine ⟨⟨u, 1, 1, 1, q⟩, ?_, rfl, rfl, rfl, k1, ?_, ?_⟩
    · simp only [Desk.find, k3]; rfl
    · rw [k2]; simp [Ne.symm hpq]
    · rw [k2]; simp

/-- **C109 violated.**  A service that is still waiting to be added is not withdrawn: after logging out before Tor was ready, it is
published as soon as Tor is, for a port at which nobody listens. -/
theorem logout_before_tor_violated (seed : Nat → Nat) (u p : Nat) :
    let d := (Desk.new seed).run [.login u p, .logout 0, .start torAnswers, .work torAnswers]
    d.sessions = [] ∧ d.servers = [] ∧ d.tor.published = [((seed u, 0), p)] := by
  intro d
  have h : d = ⟨seed, fun _ => 0, [], 1, [], ⟨true, [((seed u, 0), p)], [((seed u, 0), p)], []⟩⟩ := by
    show (Desk.new seed).run _ = _
    simp [Desk.run, Desk.new, Desk.step, Desk.login, Desk.logout, Desk.find, TorProc.remove, dropAddr, TorProc.add, TorProc.work,
      TorProc.onion, TorProc.start, torAnswers, keepInsert]
  rw [h]
  exact ⟨rfl, rfl, rfl⟩

/-- **C109 violated.**  After a change of address, `retry_tor` starts the service of the first address and reports it: the address the
wallet shows is not the Tor address any more, and the first address, withdrawn before, is published again. -/
theorem retry_tor_violated (seed : Nat → Nat) (u p : Nat) :
    let d := (Desk.new seed).run (firstLogin u p ++ [.rotate 0, .work torAnswers] ++ [.retry 0, .start torAnswers, .work torAnswers])
    ∃ s, d.find 0 = some s ∧ s.shown = 1 ∧ s.tor = 0 ∧ ((seed u, 0), p) ∈ d.tor.published := by
  intro d
  have hd : d = ⟨seed, fun v => if v = u then 1 else 0, [(0, ⟨u, 1, 0, 0, p⟩)], 1, [⟨u, 1, p, 0⟩],
      ⟨true, [((seed u, 1), p), ((seed u, 0), p)], [((seed u, 1), p), ((seed u, 0), p)], []⟩⟩ := by
    show (Desk.new seed).run _ = _
    rw [run_append, then_rotate]
    simp [Desk.run, Desk.step, Desk.retry, Desk.find, Desk.put, TorProc.lost, TorProc.add, TorProc.start, TorProc.work, TorProc.onion,
      torAnswers, keepInsert]
  rw [hd]
  exact ⟨_, rfl, rfl, rfl, by simp⟩

/-! ## The services of the sessions -/

/-- Spec: what is left out of `tor_listener_partial`, that is what the theorems above show to go wrong.  An event is harmless if it is not a
`retry_tor`, not a login beside an open session whose address was changed, not a change of address beside another session of the wallet,
and neither a change of address nor a last logout while the service of the address waits to be added, nor a last logout after a change of
address. -/
def Harmless (d : Desk) : DeskEvent → Prop
  | .login u _ => ∀ v ∈ d.servers, v.user = u → v.tor = d.index u
  | .logout k => ∀ s, d.find k = some s → ∀ v ∈ d.servers, v.user = s.user → v.refs = 1 →
      v.tor = d.index s.user ∧ ∀ x ∈ d.tor.queue, x.1 ≠ (d.seed s.user, d.index s.user)
  | .rotate k => ∀ s, d.find k = some s → (∀ v ∈ d.servers, v.user = s.user → v.refs = 1) ∧
      ∀ x ∈ d.tor.queue, x.1 ≠ (d.seed s.user, d.index s.user)
  | .retry k => d.find k = none
  | _ => True

/-- Spec: every event of the history is harmless when it happens. -/
def HarmlessRun : Desk → List DeskEvent → Prop
  | _, [] => True
  | d, e :: es => Harmless d e ∧ HarmlessRun (d.step e) es

private def entry (d : Desk) (v : AddrServer) : Addr × Nat := ((d.seed v.user, d.index v.user), v.port)

private def Kept (t : TorProc) (x : Addr × Nat) : Prop := x ∈ t.queue ∨ (x ∈ t.active ∧ (t.up = true → x ∈ t.published))

private theorem mem_keep {l : List (Addr × Nat)} {a : Addr} {p : Nat} {x : Addr × Nat} (h : x ∈ keepInsert l a p) :
    x ∈ l ∨ x = (a, p) := by
  unfold keepInsert at h
  split at h
  · exact .inl h
  · simpa using h

private theorem keep_mono {l : List (Addr × Nat)} {a : Addr} {p : Nat} {x : Addr × Nat} (h : x ∈ l) : x ∈ keepInsert l a p := by
  unfold keepInsert
  split
  · exact h
  · exact List.mem_append_left _ h

private theorem keep_new {P : Addr × Nat → Prop} (hP : ∀ x y, P x → P y → x.1 = y.1 → x = y) {l : List (Addr × Nat)} {x : Addr × Nat}
    (hl : ∀ y ∈ l, P y) (hx : P x) : x ∈ keepInsert l x.1 x.2 := by
  unfold keepInsert
  split
  · rename_i h
    obtain ⟨y, hy, e⟩ := List.any_eq_true.mp h
    have : y = x := hP y x (hl y hy) hx (by simpa using e)
    exact this ▸ hy
  · simp

private theorem fold_onion (ok : Addr → Bool) (P : Addr × Nat → Prop) (hP : ∀ x y, P x → P y → x.1 = y.1 → x = y)
    (q : List (Addr × Nat)) (hq : ∀ x ∈ q, P x) (t : TorProc) (ht : ∀ x, x ∈ t.published ∨ x ∈ t.active ∨ x ∈ t.queue → P x) :
    let t' := q.foldl (TorProc.onion ok) t
    t'.up = t.up ∧ (∀ x, x ∈ t'.published ∨ x ∈ t'.active ∨ x ∈ t'.queue → P x) ∧ (∀ x, Kept t x → Kept t' x) ∧
      (∀ x ∈ q, Kept t' x) := by
  induction q generalizing t with
  | nil => exact ⟨rfl, ht, fun _ h => h, fun _ h => by cases h⟩
  | cons y q ih =>
    intro t'
    have hy : P y := hq y (by simp)
    have h1 : (TorProc.onion ok t y).up = t.up ∧
        (∀ x, x ∈ (TorProc.onion ok t y).published ∨ x ∈ (TorProc.onion ok t y).active ∨ x ∈ (TorProc.onion ok t y).queue → P x) ∧
        (∀ x, Kept t x → Kept (TorProc.onion ok t y) x) ∧ Kept (TorProc.onion ok t y) y := by
      unfold TorProc.onion
      split
      · refine ⟨rfl, ?_, ?_, ?_⟩
        · intro x hx
          rcases hx with hx | hx | hx
          · rcases mem_keep hx with hx | rfl
            · exact ht x (.inl hx)
            · exact hy
          · rcases mem_keep hx with hx | rfl
            · exact ht x (.inr (.inl hx))
            · exact hy
          · exact ht x (.inr (.inr hx))
        · intro x hx
          rcases hx with hx | ⟨h1, h2⟩
          · exact .inl hx
          · exact .inr ⟨keep_mono h1, fun h => keep_mono (h2 h)⟩
        · exact .inr ⟨keep_new hP (fun z hz => ht z (.inr (.inl hz))) hy, fun _ => keep_new hP (fun z hz => ht z (.inl hz)) hy⟩
      · refine ⟨rfl, ?_, ?_, ?_⟩
        · intro x hx
          rcases hx with hx | hx | hx
          · exact ht x (.inl hx)
          · exact ht x (.inr (.inl hx))
          · rcases List.mem_append.mp hx with hx | hx
            · exact ht x (.inr (.inr hx))
            · rw [List.mem_singleton] at hx; exact hx ▸ hy
        · intro x hx
          rcases hx with hx | hx
          · exact .inl (List.mem_append_left _ hx)
          · exact .inr hx
        · exact .inl (by simp)
    obtain ⟨a1, a2, a3, a4⟩ := h1
    obtain ⟨b1, b2, b3, b4⟩ := ih (fun x hx => hq x (by simp [hx])) _ a2
    refine ⟨b1.trans a1, b2, fun x hx => b3 x (a3 x hx), ?_⟩
    intro x hx
    rcases List.mem_cons.mp hx with rfl | hx
    · exact b3 _ a4
    · exact b4 x hx

private structure Served (d : Desk) : Prop where
  inj : ∀ a b, d.seed a = d.seed b → a = b
  keys : (d.sessions.map (·.1)).Nodup
  below : ∀ e ∈ d.sessions, e.1 < d.next
  users : (d.servers.map (·.user)).Nodup
  ses : ∀ e ∈ d.sessions, e.2.shown = d.index e.2.user ∧ e.2.tor = d.index e.2.user ∧
    ∃ v ∈ d.servers, v.user = e.2.user ∧ v.port = e.2.port
  refs : ∀ v ∈ d.servers, v.refs = d.sessions.countP (fun e => decide (e.2.user = v.user)) ∧ 0 < v.refs
  mine : ∀ x, x ∈ d.tor.published ∨ x ∈ d.tor.active ∨ x ∈ d.tor.queue → ∃ v ∈ d.servers, x = entry d v
  kept : ∀ v ∈ d.servers, Kept d.tor (entry d v)
  down : d.tor.up = false → d.tor.published = []

private theorem user_unique {d : Desk} (h : Served d) {v w : AddrServer} (hv : v ∈ d.servers) (hw : w ∈ d.servers)
    (e : v.user = w.user) : v = w := List.inj_on_of_nodup_map h.users hv hw e

private theorem entry_unique {d : Desk} (h : Served d) (x y : Addr × Nat) (hx : ∃ v ∈ d.servers, x = entry d v)
    (hy : ∃ v ∈ d.servers, y = entry d v) (e : x.1 = y.1) : x = y := by
  obtain ⟨v, hv, rfl⟩ := hx
  obtain ⟨w, hw, rfl⟩ := hy
  have : v.user = w.user := h.inj _ _ (congrArg Prod.fst e)
  rw [user_unique h hv hw this]

private theorem key_unique {l : List (Nat × AddrSession)} (h : (l.map (·.1)).Nodup) {a b : Nat × AddrSession} (ha : a ∈ l) (hb : b ∈ l)
    (e : a.1 = b.1) : a = b := List.inj_on_of_nodup_map h ha hb e

private theorem erase_count {d : Desk} {k : Nat} {s : AddrSession} (hk : (d.sessions.map (·.1)).Nodup) (hs : d.find k = some s) (u : Nat) :
    d.sessions.countP (fun e => decide (e.2.user = u)) =
      (d.sessions.eraseP (fun e => decide (e.1 = k))).countP (fun e => decide (e.2.user = u)) + (if s.user = u then 1 else 0) := by
  have hm := find_mem hs
  obtain ⟨a, l1, l2, -, hp, hl, he⟩ := List.exists_of_eraseP (p := fun e : Nat × AddrSession => decide (e.1 = k)) hm (by simp)
  have ha : a = (k, s) := key_unique hk (by rw [hl]; simp) hm (by simpa using hp)
  rw [he]
  conv => lhs; rw [hl]
  subst ha
  simp only [List.countP_append, List.countP_cons, decide_eq_true_eq]
  omega

private theorem server_of {d : Desk} (h : Served d) {k : Nat} {s : AddrSession} (hs : d.find k = some s) :
    ∃ v ∈ d.servers, v.user = s.user ∧ v.port = s.port ∧ d.servers.find? (fun v => decide (v.user = s.user)) = some v := by
  obtain ⟨v, hv, h1, h2⟩ := (h.ses _ (find_mem hs)).2.2
  refine ⟨v, hv, h1, h2, ?_⟩
  cases hf : d.servers.find? (fun v => decide (v.user = s.user)) with
  | none =>
    have := List.find?_eq_none.mp hf v hv
    simp only [decide_eq_true_eq] at this
    exact absurd h1 this
  | some w =>
    have hw : w.user = s.user := by simpa using List.find?_some hf
    rw [user_unique h (List.mem_of_find?_eq_some hf) hv (hw.trans h1.symm)]

private theorem map_users (l : List AddrServer) (f : AddrServer → AddrServer) (hf : ∀ v, (f v).user = v.user) :
    (l.map f).map (·.user) = l.map (·.user) := by
  rw [List.map_map]; apply List.map_congr_left; intro v _; exact hf v

private theorem served_login (d : Desk) (u p : Nat) (h : Served d) (hh : Harmless d (.login u p)) : Served (d.login u p) := by
  have hb : ∀ s : AddrSession, ∀ e ∈ d.sessions ++ [(d.next, s)], e.1 < d.next + 1 := by
    intro s e he
    rcases List.mem_append.mp he with he | he
    · have := h.below e he; omega
    · rw [List.mem_singleton] at he; subst he; exact Nat.lt_succ_self _
  have hn : ∀ s : AddrSession, ((d.sessions ++ [(d.next, s)]).map (·.1)).Nodup := by
    intro s
    rw [List.map_append, List.nodup_append]
    refine ⟨h.keys, by simp, ?_⟩
    intro a ha b hb
    obtain ⟨x, hx, rfl⟩ := List.mem_map.mp ha
    have := h.below x hx
    simp only [List.map_cons, List.map_nil, List.mem_singleton] at hb
    omega
  simp only [Desk.login]
  split
  · rename_i v hv
    have hm := List.mem_of_find?_eq_some hv
    have hu : v.user = u := by simpa using List.find?_some hv
    have ht := hh v hm hu
    have hmap : ∀ w ∈ d.servers, (if w.user = u then { w with refs := w.refs + 1 } else w) ∈
        d.servers.map (fun s => if s.user = u then { s with refs := s.refs + 1 } else s) :=
      fun w hw => List.mem_map.mpr ⟨w, hw, rfl⟩
    refine ⟨h.inj, hn _, hb _, ?_, ?_, ?_, ?_, ?_, h.down⟩
    · show ((d.servers.map _).map _).Nodup
      rw [map_users]
      · exact h.users
      · intro w; split <;> rfl
    · intro e he
      rcases List.mem_append.mp he with he | he
      · obtain ⟨a, b, w, hw, c1, c2⟩ := h.ses e he
        refine ⟨a, b, _, hmap w hw, ?_, ?_⟩
        · split <;> exact c1
        · split <;> exact c2
      · rw [List.mem_singleton] at he; subst he
        refine ⟨rfl, ht, _, hmap v hm, ?_, ?_⟩
        · split <;> exact hu
        · split <;> rfl
    · intro w hw
      obtain ⟨y, hy, rfl⟩ := List.mem_map.mp hw
      have := h.refs y hy
      show _ = (d.sessions ++ [_]).countP _ ∧ _
      rw [List.countP_append]
      by_cases hyu : y.user = u
      · simp only [hyu, if_true, List.countP_cons, List.countP_nil, decide_true] at this ⊢
        omega
      · simp only [hyu, if_false, List.countP_cons, List.countP_nil, Ne.symm hyu, decide_false, Bool.false_eq_true] at this ⊢
        omega
    · intro x hx
      obtain ⟨w, hw, rfl⟩ := h.mine x hx
      refine ⟨_, hmap w hw, ?_⟩
      unfold entry
      split <;> rfl
    · intro w hw
      obtain ⟨y, hy, rfl⟩ := List.mem_map.mp hw
      have := h.kept y hy
      unfold entry at this ⊢
      split <;> exact this
  · rename_i hnone
    have hno : ∀ w ∈ d.servers, w.user ≠ u := by
      intro w hw
      have := List.find?_eq_none.mp hnone w hw
      simpa using this
    have hnos : ∀ e ∈ d.sessions, e.2.user ≠ u := by
      intro e he hu
      obtain ⟨w, hw, c, -⟩ := (h.ses e he).2.2
      exact hno w hw (c.trans hu)
    refine ⟨h.inj, hn _, hb _, ?_, ?_, ?_, ?_, ?_, h.down⟩
    · show ((d.servers ++ [_]).map _).Nodup
      rw [List.map_append, List.nodup_append]
      refine ⟨h.users, by simp, ?_⟩
      intro a ha b hb
      obtain ⟨x, hx, rfl⟩ := List.mem_map.mp ha
      simp only [List.map_cons, List.map_nil, List.mem_singleton] at hb
      rw [hb]; exact hno x hx
    · intro e he
      rcases List.mem_append.mp he with he | he
      · obtain ⟨a, b, w, hw, c⟩ := h.ses e he
        exact ⟨a, b, w, List.mem_append_left _ hw, c⟩
      · rw [List.mem_singleton] at he; subst he
        exact ⟨rfl, rfl, ⟨u, 1, p, d.index u⟩, by simp, rfl, rfl⟩
    · intro w hw
      show _ = (d.sessions ++ [_]).countP _ ∧ _
      rw [List.countP_append]
      rcases List.mem_append.mp hw with hw | hw
      · have := h.refs w hw
        simp only [List.countP_cons, List.countP_nil, Ne.symm (hno w hw), decide_false, Bool.false_eq_true, if_false]
        omega
      · rw [List.mem_singleton] at hw; subst hw
        have : d.sessions.countP (fun e => decide (e.2.user = u)) = 0 := by
          rw [List.countP_eq_zero]; intro e he; simpa using hnos e he
        simp [this]
    · intro x hx
      have : (∃ v ∈ d.servers, x = entry d v) ∨ x = ((d.seed u, d.index u), p) := by
        rcases hx with hx | hx | hx
        · exact .inl (h.mine x (.inl hx))
        · exact .inl (h.mine x (.inr (.inl hx)))
        · rcases List.mem_append.mp hx with hx | hx
          · exact .inl (h.mine x (.inr (.inr hx)))
          · rw [List.mem_singleton] at hx; exact .inr hx
      rcases this with ⟨w, hw, rfl⟩ | rfl
      · exact ⟨w, List.mem_append_left _ hw, rfl⟩
      · exact ⟨⟨u, 1, p, d.index u⟩, by simp, rfl⟩
    · intro w hw
      rcases List.mem_append.mp hw with hw | hw
      · rcases h.kept w hw with h1 | h1
        · exact .inl (List.mem_append_left _ h1)
        · exact .inr h1
      · rw [List.mem_singleton] at hw; subst hw
        exact .inl (by show _ ∈ d.tor.queue ++ _; simp [entry])

private theorem mem_drop {l : List (Addr × Nat)} {a : Addr} {x : Addr × Nat} : x ∈ dropAddr l a ↔ x ∈ l ∧ x.1 ≠ a := by
  unfold dropAddr; simp

private theorem removed {d : Desk} (h : Served d) (a : Addr) (x : Addr × Nat)
    (hx : x ∈ (d.tor.remove a).published ∨ x ∈ (d.tor.remove a).active ∨ x ∈ (d.tor.remove a).queue)
    (hq : ∀ y ∈ d.tor.queue, y.1 ≠ a) : (∃ v ∈ d.servers, x = entry d v) ∧ x.1 ≠ a := by
  rcases hx with hx | hx | hx
  · simp only [TorProc.remove] at hx
    by_cases hup : d.tor.up = true
    · rw [if_pos hup, mem_drop] at hx
      exact ⟨h.mine x (.inl hx.1), hx.2⟩
    · rw [if_neg hup, h.down (by simpa using hup)] at hx
      cases hx
  · simp only [TorProc.remove, mem_drop] at hx
    exact ⟨h.mine x (.inr (.inl hx.1)), hx.2⟩
  · exact ⟨h.mine x (.inr (.inr hx)), hq x hx⟩

private theorem kept_remove {t : TorProc} {x : Addr × Nat} (h : Kept t x) (a : Addr) (ha : x.1 ≠ a) : Kept (t.remove a) x := by
  rcases h with h | ⟨h1, h2⟩
  · exact .inl h
  · refine .inr ⟨mem_drop.mpr ⟨h1, ha⟩, fun hu => ?_⟩
    have hu' : t.up = true := hu
    simp only [TorProc.remove, if_pos hu']
    exact mem_drop.mpr ⟨h2 hu', ha⟩

private theorem down_remove {t : TorProc} (h : t.up = false → t.published = []) (a : Addr) :
    (t.remove a).up = false → (t.remove a).published = [] := by
  intro hu
  have hu' : t.up = false := hu
  simp only [TorProc.remove, hu', Bool.false_eq_true, if_false]
  exact h hu'

private theorem served_logout (d : Desk) (k : Nat) (h : Served d) (hh : Harmless d (.logout k)) : Served (d.logout k) := by
  simp only [Desk.logout]
  cases hs : d.find k with
  | none => exact h
  | some s =>
    obtain ⟨v, hv, hvu, hvp, hf⟩ := server_of h hs
    simp only [hf]
    have hmem : ∀ e ∈ d.sessions.eraseP (fun e => decide (e.1 = k)), e ∈ d.sessions := fun e he => List.mem_of_mem_eraseP he
    have hn : ((d.sessions.eraseP (fun e => decide (e.1 = k))).map (·.1)).Nodup := h.keys.sublist (List.eraseP_sublist.map _)
    have hc := erase_count h.keys hs
    have hr := h.refs v hv
    split
    · rename_i h1
      obtain ⟨ht, hq⟩ := hh s hs v hv hvu h1
      have hgone : ∀ e ∈ d.sessions.eraseP (fun e => decide (e.1 = k)), e.2.user ≠ s.user := by
        have := hc s.user
        rw [if_pos rfl] at this
        rw [hvu, this] at hr
        have h0 : (d.sessions.eraseP (fun e => decide (e.1 = k))).countP (fun e => decide (e.2.user = s.user)) = 0 := by omega
        rw [List.countP_eq_zero] at h0
        intro e he
        simpa using h0 e he
      refine ⟨h.inj, hn, fun e he => h.below e (hmem e he), ?_, ?_, ?_, ?_, ?_, down_remove h.down _⟩
      · exact h.users.sublist (List.filter_sublist.map _)
      · intro e he
        obtain ⟨a, b, w, hw, c1, c2⟩ := h.ses e (hmem e he)
        exact ⟨a, b, w, List.mem_filter.mpr ⟨hw, by simpa [c1] using hgone e he⟩, c1, c2⟩
      · intro w hw
        obtain ⟨hw, hwu⟩ := List.mem_filter.mp hw
        have hwu : w.user ≠ s.user := by simpa using hwu
        have h2 := h.refs w hw
        have h3 := hc w.user
        rw [if_neg (Ne.symm hwu)] at h3
        show w.refs = (d.sessions.eraseP _).countP _ ∧ _
        omega
      · intro x hx
        rw [ht] at hx
        obtain ⟨⟨w, hw, rfl⟩, hx2⟩ := removed h _ x hx hq
        refine ⟨w, List.mem_filter.mpr ⟨hw, ?_⟩, rfl⟩
        simp only [decide_eq_true_eq]
        intro hwu
        exact hx2 (by simp only [entry, hwu])
      · intro w hw
        obtain ⟨hw, hwu⟩ := List.mem_filter.mp hw
        have hwu : w.user ≠ s.user := by simpa using hwu
        exact kept_remove (h.kept w hw) _ (fun e => hwu (h.inj _ _ (congrArg Prod.fst e)))
    · rename_i h1
      have hmap : ∀ w ∈ d.servers, (if w.user = s.user then { w with refs := w.refs - 1 } else w) ∈
          d.servers.map (fun v => if v.user = s.user then { v with refs := v.refs - 1 } else v) :=
        fun w hw => List.mem_map.mpr ⟨w, hw, rfl⟩
      refine ⟨h.inj, hn, fun e he => h.below e (hmem e he), ?_, ?_, ?_, ?_, ?_, h.down⟩
      · show ((d.servers.map _).map _).Nodup
        rw [map_users]
        · exact h.users
        · intro w; split <;> rfl
      · intro e he
        obtain ⟨a, b, w, hw, c1, c2⟩ := h.ses e (hmem e he)
        refine ⟨a, b, _, hmap w hw, ?_, ?_⟩
        · split <;> exact c1
        · split <;> exact c2
      · intro w hw
        obtain ⟨y, hy, rfl⟩ := List.mem_map.mp hw
        have h2 := h.refs y hy
        have h3 := hc y.user
        show _ = (d.sessions.eraseP _).countP _ ∧ _
        by_cases hyu : y.user = s.user
        · have hyv : y = v := user_unique h hy hv (hyu.trans hvu.symm)
          subst hyv
          rw [if_pos hyu.symm] at h3
          simp only [if_pos hyu]
          omega
        · rw [if_neg (Ne.symm hyu)] at h3
          simp only [if_neg hyu]
          omega
      · intro x hx
        obtain ⟨w, hw, rfl⟩ := h.mine x hx
        refine ⟨_, hmap w hw, ?_⟩
        unfold entry
        split <;> rfl
      · intro w hw
        obtain ⟨y, hy, rfl⟩ := List.mem_map.mp hw
        have := h.kept y hy
        unfold entry at this ⊢
        split <;> exact this

private theorem served_rotate (d : Desk) (k : Nat) (h : Served d) (hh : Harmless d (.rotate k)) : Served (d.rotate k) := by
  simp only [Desk.rotate]
  cases hs : d.find k with
  | none => exact h
  | some s =>
    obtain ⟨v, hv, hvu, hvp, hf⟩ := server_of h hs
    obtain ⟨h1, hq⟩ := hh s hs
    have h1 := h1 v hv hvu
    have hr := h.refs v hv
    have hgone : ∀ e ∈ d.sessions, e.1 ≠ k → e.2.user ≠ s.user := by
      have := erase_count h.keys hs s.user
      rw [if_pos rfl] at this
      rw [hvu, this] at hr
      have h0 : (d.sessions.eraseP (fun e => decide (e.1 = k))).countP (fun e => decide (e.2.user = s.user)) = 0 := by omega
      rw [List.countP_eq_zero] at h0
      intro e he hk
      simpa using h0 e ((List.mem_eraseP_of_neg (by simpa using hk)).mpr he)
    have hent : ∀ w : AddrServer, w.user ≠ s.user →
        ((d.seed w.user, if w.user = s.user then d.index s.user + 1 else d.index w.user), w.port) = entry d w := by
      intro w hw; rw [if_neg hw]; rfl
    refine ⟨h.inj, ?_, ?_, h.users, ?_, ?_, ?_, ?_, down_remove h.down _⟩
    · show ((d.put k _).map (·.1)).Nodup
      rw [put_keys]; exact h.keys
    · intro e he
      rcases mem_put he with rfl | ⟨he, -⟩
      · have := h.below (k, s) (find_mem hs)
        exact this
      · exact h.below e he
    · intro e he
      rcases mem_put he with rfl | ⟨he, hk⟩
      · show d.index s.user + 1 = (if s.user = s.user then _ else _) ∧ _ = (if s.user = s.user then _ else _) ∧ _
        rw [if_pos rfl]
        exact ⟨rfl, rfl, v, hv, hvu, hvp⟩
      · have hu := hgone e he hk
        obtain ⟨a, b, c⟩ := h.ses e he
        show _ = (if e.2.user = s.user then _ else _) ∧ _ = (if e.2.user = s.user then _ else _) ∧ _
        rw [if_neg hu]
        exact ⟨a, b, c⟩
    · intro w hw
      have h2 := h.refs w hw
      show w.refs = (d.put k _).countP _ ∧ _
      have : (d.put k ⟨s.user, d.index s.user + 1, s.sender, d.index s.user + 1, s.port⟩).countP (fun e => decide (e.2.user = w.user)) =
          d.sessions.countP (fun e => decide (e.2.user = w.user)) := by
        unfold Desk.put
        rw [List.countP_map]
        apply List.countP_congr
        intro e he
        by_cases hk : e.1 = k
        · have : e = (k, s) := key_unique h.keys he (find_mem hs) hk
          subst this
          simp
        · simp [hk]
      rw [this]
      exact h2
    · intro x hx
      have hx' : ((∃ w ∈ d.servers, x = entry d w) ∧ x.1 ≠ (d.seed s.user, d.index s.user)) ∨
          x = ((d.seed s.user, d.index s.user + 1), s.port) := by
        rcases hx with hx | hx | hx
        · exact .inl (removed h _ x (.inl hx) hq)
        · exact .inl (removed h _ x (.inr (.inl hx)) hq)
        · rcases List.mem_append.mp hx with hx | hx
          · exact .inl (removed h _ x (.inr (.inr hx)) hq)
          · rw [List.mem_singleton] at hx; exact .inr hx
      rcases hx' with ⟨⟨w, hw, rfl⟩, hne⟩ | rfl
      · have hwu : w.user ≠ s.user := fun e => hne (by simp only [entry, e])
        exact ⟨w, hw, (hent w hwu).symm⟩
      · refine ⟨v, hv, ?_⟩
        simp only [entry, hvu, hvp, if_true]
    · intro w hw
      by_cases hwu : w.user = s.user
      · have hwv : w = v := user_unique h hw hv (hwu.trans hvu.symm)
        subst hwv
        refine .inl ?_
        show _ ∈ (d.tor.remove _).queue ++ _
        simp only [entry, hwu, hvp, if_true]
        simp
      · have h3 : Kept (d.tor.remove (d.seed s.user, d.index s.user)) (entry d w) :=
          kept_remove (h.kept w hw) _ (fun e => hwu (h.inj _ _ (congrArg Prod.fst e)))
        have h4 : entry (d.rotate k) w = entry d w := by
          unfold entry
          simp only [Desk.rotate, hs]
          exact hent w hwu
        simp only [Desk.rotate, hs] at h4
        rw [h4]
        rcases h3 with h3 | h3
        · exact .inl (List.mem_append_left _ h3)
        · exact .inr h3

private theorem served_step (d : Desk) (e : DeskEvent) (h : Served d) (hh : Harmless d e) : Served (d.step e) := by
  cases e with
  | login u p => exact served_login d u p h hh
  | logout k => exact served_logout d k h hh
  | rotate k => exact served_rotate d k h hh
  | retry k =>
    have hn : d.find k = none := hh
    simp only [Desk.step, Desk.retry, hn]; exact h
  | work ok =>
    simp only [Desk.step, TorProc.work]
    split
    · rename_i hup
      obtain ⟨a1, a2, a3, a4⟩ := fold_onion ok (fun x => ∃ v ∈ d.servers, x = entry d v) (entry_unique h) d.tor.queue
        (fun x hx => h.mine x (.inr (.inr hx))) { d.tor with queue := [] } (by
          intro x hx
          rcases hx with hx | hx | hx
          · exact h.mine x (.inl hx)
          · exact h.mine x (.inr (.inl hx))
          · cases hx)
      refine ⟨h.inj, h.keys, h.below, h.users, h.ses, h.refs, a2, ?_, ?_⟩
      · intro v hv
        rcases h.kept v hv with h1 | h1
        · exact a4 _ h1
        · exact a3 _ (.inr h1)
      · intro h1
        have : d.tor.up = false := a1.symm.trans h1
        rw [hup] at this; cases this
    · exact h
  | lost =>
    refine ⟨h.inj, h.keys, h.below, h.users, h.ses, h.refs, ?_, ?_, fun _ => rfl⟩
    · intro x hx
      rcases hx with hx | hx | hx
      · cases hx
      · exact h.mine x (.inr (.inl hx))
      · exact h.mine x (.inr (.inr hx))
    · intro v hv
      rcases h.kept v hv with h1 | h1
      · exact .inl h1
      · exact .inr ⟨h1.1, fun x => by cases x⟩
  | start ok =>
    simp only [Desk.step, TorProc.start]
    split
    · exact h
    · obtain ⟨a1, a2, a3, a4⟩ := fold_onion ok (fun x => ∃ v ∈ d.servers, x = entry d v) (entry_unique h) d.tor.active
        (fun x hx => h.mine x (.inr (.inl hx))) { d.tor with up := true, published := [] } (by
          intro x hx
          rcases hx with hx | hx | hx
          · cases hx
          · exact h.mine x (.inr (.inl hx))
          · exact h.mine x (.inr (.inr hx)))
      refine ⟨h.inj, h.keys, h.below, h.users, h.ses, h.refs, a2, ?_, ?_⟩
      · intro v hv
        rcases h.kept v hv with h1 | h1
        · exact a3 _ (.inl h1)
        · exact a4 _ h1.1
      · intro h1
        have : true = false := a1.symm.trans h1
        cases this

private theorem served_run (seed : Nat → Nat) (hi : ∀ a b, seed a = seed b → a = b) (es : List DeskEvent)
    (h : HarmlessRun (Desk.new seed) es) : Served ((Desk.new seed).run es) := by
  suffices ∀ d, Served d → HarmlessRun d es → Served (d.run es) from
    this _ ⟨hi, by simp [Desk.new], by simp [Desk.new], by simp [Desk.new], by simp [Desk.new], by simp [Desk.new], by simp [Desk.new],
      by simp [Desk.new], by simp [Desk.new]⟩ h
  clear h
  induction es with
  | nil => exact fun _ h _ => h
  | cons e es ih => exact fun d h hh => ih _ (served_step d e h hh.1) hh.2

private theorem find_of_mem {d : Desk} (h : (d.sessions.map (·.1)).Nodup) {k : Nat} {s : AddrSession} (hm : (k, s) ∈ d.sessions) :
    d.find k = some s := by
  unfold Desk.find
  cases hf : d.sessions.find? (fun e => decide (e.1 = k)) with
  | none =>
    have := List.find?_eq_none.mp hf _ hm
    simp at this
  | some e =>
    have he : e.1 = k := by simpa using List.find?_some hf
    rw [key_unique h (List.mem_of_find?_eq_some hf) hm he]; rfl

/-- **C109.**  In a history of harmless events, however often Tor is lost and started again and whatever requests it refuses: the Tor
address of a session is the address it shows; once Tor runs and no request is waiting, that address is served and leads to the port of the
session's server; and nothing else is served.  Missing: the events that are not harmless, for which it is false. -/
theorem tor_listener_partial (seed : Nat → Nat) (hi : ∀ a b, seed a = seed b → a = b) (es : List DeskEvent)
    (hh : HarmlessRun (Desk.new seed) es) :
    let d := (Desk.new seed).run es
    (∀ k s, d.find k = some s → s.tor = s.shown ∧ s.shown = d.index s.user ∧
      (d.tor.up = true → d.tor.queue = [] → ((seed s.user, s.shown), s.port) ∈ d.tor.published)) ∧
    (∀ x ∈ d.tor.published, ∃ k s, d.find k = some s ∧ x = ((seed s.user, s.shown), s.port)) := by
  intro d
  have h : Served d := served_run seed hi es hh
  have hseed : d.seed = seed := (run_mono es (Desk.new seed) 0).2
  constructor
  · intro k s hs
    obtain ⟨a, b, v, hv, hvu, hvp⟩ := h.ses _ (find_mem hs)
    refine ⟨b.trans a.symm, a, ?_⟩
    intro hup hq
    rcases h.kept v hv with h1 | ⟨-, h1⟩
    · rw [hq] at h1; cases h1
    · have h1 := h1 hup
      simp only at a hvu hvp
      simp only [entry, hvu, hvp, hseed, ← a] at h1
      exact h1
  · intro x hx
    obtain ⟨v, hv, rfl⟩ := h.mine x (.inl hx)
    obtain ⟨hc, hp⟩ := h.refs v hv
    rw [hc, List.countP_pos_iff] at hp
    obtain ⟨⟨k, s⟩, he, hu⟩ := hp
    have hu : s.user = v.user := by simpa using hu
    obtain ⟨a, b, w, hw, hwu, hwp⟩ := h.ses _ he
    have hwv : w = v := user_unique h hw hv (hwu.trans hu)
    subst hwv
    refine ⟨k, s, find_of_mem h.keys he, ?_⟩
    simp only at a hwp
    simp only [entry, a, hu, hwp, hseed]

/-! ## The hypotheses are met -/

-- A harmless history with two users, a change of address, a second login, logouts, and Tor lost and started again.
example : HarmlessRun (Desk.new id) [.start torAnswers, .login 0 100, .work torAnswers, .login 0 101, .login 1 102, .work torAnswers,
    .logout 1, .rotate 0, .work torAnswers, .lost, .start torAnswers, .logout 2] ∧
    ((Desk.new id).run [.start torAnswers, .login 0 100, .work torAnswers, .login 0 101, .login 1 102, .work torAnswers,
    .logout 1, .rotate 0, .work torAnswers, .lost, .start torAnswers, .logout 2]).tor.published = [((0, 1), 100)] := by
  constructor
  · simp [HarmlessRun, Harmless, Desk.new, Desk.step, Desk.login, Desk.logout, Desk.rotate, Desk.find, Desk.put, TorProc.remove, dropAddr,
      TorProc.add, TorProc.work, TorProc.onion, TorProc.start, TorProc.lost, torAnswers, keepInsert]
  · decide +kernel

-- A message for the first address, opened after two changes of address; and one for a later address, not opened by the restored wallet.
example : ∃ t, armorPack (fun _ => [1, 2, 3, 4]) pickyAge () nullAddress [7, 8] [List.replicate 32 0] = .ok t ∧
    decryptSlatepack (fun key => armorUnpack (fun _ => [1, 2, 3, 4]) pickyAge (fun _ => true) key t)
      (fun i => .ok (List.replicate 32 (if i = 0 then 0 else 9)))
      (((Desk.new id).run ([.login 0 1] ++ [.rotate 0, .rotate 0])).index 0) = .ok ⟨1, 0, 1, nullAddress, [], [7, 8]⟩ :=
  shown_address_opens_partial id [.login 0 1] [.rotate 0, .rotate 0] 0 ⟨0, 0, 0, 0, 1⟩ rfl 0 (.inl rfl) (fun _ => [1, 2, 3, 4])
    (fun _ => by decide) pickyAge (fun _ => true) (fun _ i => List.replicate 32 (if i = 0 then 0 else 9)) nullAddress [7, 8]
    (by decide) rfl (by decide) [List.replicate 32 0] (by decide) () (picky_size _) (picky_reads _ (by decide))
    (fun i => by
      by_cases h : i = 0
      · left; rw [if_pos h]; exact picky_reads _ (by decide)
      · right; rw [if_neg h]; exact picky_refuses _ _ (by decide) (by decide))
    (fun _ _ => by decide)

example (t : Bytes) (ht : armorPack (fun _ => [1, 2, 3, 4]) pickyAge () nullAddress [7, 8] [List.replicate 32 0] = .ok t) :
    decryptSlatepack (fun key => armorUnpack (fun _ => [1, 2, 3, 4]) pickyAge (fun _ => true) key t)
      (fun i => .ok (List.replicate 32 (if i = 1 then 0 else 9))) (((Desk.new id).run [.login 0 1]).index 0) = .throw :=
  restored_wallet_violated (fun _ => [1, 2, 3, 4]) (fun _ => by decide) pickyAge (fun _ => true)
    (fun i => List.replicate 32 (if i = 1 then 0 else 9)) nullAddress [7, 8] [List.replicate 32 0] (by decide) () (picky_size _) 1
    (fun i h => by rw [if_neg h]; exact picky_refuses _ _ (by decide) (by decide)) (fun _ _ => by decide) t ht id [.login 0 1] 0
    (by decide)

example : ChangesAddress ((Desk.new id).run [.login 0 1]) 0 (.rotate 0) := ⟨0, ⟨0, 0, 0, 0, 1⟩, rfl, rfl, rfl⟩

end Verif.Props
