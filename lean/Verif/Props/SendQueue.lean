import Verif.Net.SendQueue

/-!
# C138: what is sent to a peer arrives
-/
namespace Verif.Props
open Verif Verif.SendQ

/-! ## Spec -/

/-- Something that happens while no other call is under way: a message is sent, or the write under way ends well. -/
inductive Alone where
  | send (m : Bytes)
  | done

/-- The steps of such an event, when the system takes up to `room` bytes at once: the call runs to its end before anything else happens. -/
def Alone.steps (room : Nat) : Alone → List Act
  | .send m => .call m :: List.replicate 3 (.step 0 room)
  | .done => .finish 0 true :: List.replicate 5 (.step 0 room)

/-- The message sent. -/
def Alone.msg : Alone → List Bytes
  | .send m => [m]
  | .done => []

/-- The messages sent, in order. -/
def messages (evs : List Alone) : List Bytes := evs.flatMap Alone.msg

/-- Nothing under way, nothing being written, and messages in the queue. -/
def Stuck (s : Sock) : Prop := s.threads = [] ∧ s.writes = [] ∧ s.queue ≠ []

/-! ## One call at a time -/

private theorem acts_append : ∀ (s : Sock) (as bs : List Act), acts s (as ++ bs) = (acts s as >>= fun t => acts t bs)
  | s, [], bs => by rfl
  | s, a :: as, bs => by
    change (act s a >>= fun t => acts t (as ++ bs)) = ((act s a >>= fun t => acts t as) >>= fun t => acts t bs)
    cases act s a with
    | ok t => exact acts_append t as bs
    | throw => rfl
    | ub => rfl

/-- Between the calls: nothing under way; the messages handed over are those sent first, and the rest is in the queue behind
the one whose write has not ended. -/
private def Calmly (sent : List Bytes) (s : Sock) : Prop :=
  s.threads = [] ∧ s.isOpen = true ∧
    ((s.writes = [] ∧ s.queue = [] ∧ s.wire = sent.flatten) ∨
     (s.writes = [[]] ∧ ∃ pre m rest, s.queue = m :: rest ∧ sent = pre ++ m :: rest ∧ s.wire = (pre ++ [m]).flatten))

private theorem send_calm {room : Nat} {sent : List Bytes} {s : Sock} (h : Calmly sent s) {m : Bytes} (hm : m.length ≤ room) :
    ∃ s', acts s (Alone.steps room (.send m)) = .ok s' ∧ Calmly (sent ++ [m]) s' := by
  obtain ⟨q, ts, ws, w, op⟩ := s
  obtain ⟨h1, h2, h3⟩ := h
  simp only at h1 h2 h3
  subst h1 h2
  rcases h3 with ⟨rfl, rfl, rfl⟩ | ⟨rfl, pre, a, rest, rfl, rfl, rfl⟩
  · refine ⟨⟨[m], [], [[]], sent.flatten ++ m, true⟩, ?_, rfl, rfl, .inr ⟨rfl, sent, m, [], rfl, by simp, by simp⟩⟩
    have e1 : List.drop room m = [] := List.drop_eq_nil_of_le hm
    have e2 : List.take room m = m := List.take_of_length_le hm
    change Res.ok _ = Res.ok _
    simp [line, e1, e2, Sock.ended, Sock.goOn]
  · refine ⟨⟨a :: (rest ++ [m]), [], [[]], (pre ++ [a]).flatten, true⟩, rfl, rfl, rfl, .inr ⟨rfl, pre, a, rest ++ [m], rfl, by simp, rfl⟩⟩

private theorem done_calm {room : Nat} {sent : List Bytes} {s : Sock} (h : Calmly sent s) (hr : ∀ m ∈ sent, m.length ≤ room) :
    ∃ s', acts s (Alone.steps room .done) = .ok s' ∧ Calmly sent s' ∧ s'.queue = s.queue.tail := by
  obtain ⟨q, ts, ws, w, op⟩ := s
  obtain ⟨h1, h2, h3⟩ := h
  simp only at h1 h2 h3
  subst h1 h2
  rcases h3 with ⟨rfl, rfl, rfl⟩ | ⟨rfl, pre, a, rest, rfl, rfl, rfl⟩
  · exact ⟨⟨[], [], [], sent.flatten, true⟩, rfl, ⟨rfl, rfl, .inl ⟨rfl, rfl, rfl⟩⟩, rfl⟩
  · cases rest with
    | nil => exact ⟨⟨[], [], [], (pre ++ [a]).flatten, true⟩, rfl, ⟨rfl, rfl, .inl ⟨rfl, rfl, by simp⟩⟩, rfl⟩
    | cons b rest =>
      have hb : b.length ≤ room := hr b (by simp)
      have e1 : List.drop room b = [] := List.drop_eq_nil_of_le hb
      have e2 : List.take room b = b := List.take_of_length_le hb
      refine ⟨⟨b :: rest, [], [[]], (pre ++ [a]).flatten ++ b, true⟩, ?_, ⟨rfl, rfl, .inr ⟨rfl, pre ++ [a], b, rest, rfl, by simp, by simp⟩⟩, rfl⟩
      change Res.ok _ = Res.ok _
      simp [line, e1, e2, Sock.ended, Sock.goOn]

private theorem run_calm {room : Nat} : ∀ (evs : List Alone) {sent : List Bytes} {s : Sock}, Calmly sent s →
    (∀ m ∈ sent ++ messages evs, m.length ≤ room) →
    ∃ s', acts s (evs.flatMap (Alone.steps room)) = .ok s' ∧ Calmly (sent ++ messages evs) s'
  | [], sent, s, h, _ => ⟨s, rfl, by simpa [messages] using h⟩
  | e :: evs, sent, s, h, hr => by
    have hme : messages (e :: evs) = e.msg ++ messages evs := by simp [messages]
    rw [hme, ← List.append_assoc] at hr ⊢
    have hstep : ∃ s1, acts s (e.steps room) = .ok s1 ∧ Calmly (sent ++ e.msg) s1 := by
      cases e with
      | send m => exact send_calm h (hr m (by simp [Alone.msg]))
      | done =>
        obtain ⟨s1, h1, h2, _⟩ := done_calm h (fun m hm => hr m (by simp [hm]))
        exact ⟨s1, h1, by simpa [Alone.msg] using h2⟩
    obtain ⟨s1, h1, h2⟩ := hstep
    obtain ⟨s2, h3, h4⟩ := run_calm evs h2 hr
    refine ⟨s2, ?_, h4⟩
    rw [List.flatMap_cons, acts_append, h1]
    exact h3

private theorem fresh_calm : Calmly [] Sock.fresh := ⟨rfl, rfl, .inl ⟨rfl, rfl, rfl⟩⟩

/-- **C138**, if no two calls ever overlap and the system takes each message at once: what has been handed over is, whole and in
order, the messages sent first, and all of them when nothing is being written. -/
theorem sent_in_order_partial {room : Nat} {evs : List Alone} (hr : ∀ m ∈ messages evs, m.length ≤ room) :
    ∃ s pre rest, acts .fresh (evs.flatMap (Alone.steps room)) = .ok s ∧ messages evs = pre ++ rest ∧ s.wire = pre.flatten ∧
      (s.writes = [] → rest = []) := by
  obtain ⟨s, h1, h2, h3, h4⟩ := run_calm evs fresh_calm (by simpa using hr)
  rw [List.nil_append] at h4
  rcases h4 with ⟨a, b, c⟩ | ⟨a, pre, m, rest, b, c, d⟩
  · exact ⟨s, messages evs, [], h1, by simp, c, fun _ => rfl⟩
  · exact ⟨s, pre ++ [m], rest, h1, by rw [c]; simp, d, fun h => absurd (a.symm.trans h) (by simp)⟩

/-- **C138**, nothing is left behind: if then as many writes end as messages were sent, everything has been handed over, once. -/
theorem all_sent_partial {room : Nat} {evs : List Alone} (hr : ∀ m ∈ messages evs, m.length ≤ room) :
    ∃ s, acts .fresh ((evs ++ List.replicate (messages evs).length Alone.done).flatMap (Alone.steps room)) = .ok s ∧
      s.wire = (messages evs).flatten ∧ s.queue = [] ∧ s.writes = [] ∧ s.threads = [] := by
  obtain ⟨s, h1, h2⟩ := run_calm evs fresh_calm (by simpa using hr)
  rw [List.nil_append] at h2
  have hq : s.queue.length ≤ (messages evs).length := by
    rcases h2.2.2 with ⟨_, b, _⟩ | ⟨_, pre, m, rest, b, c, _⟩
    · rw [b]; exact Nat.zero_le _
    · rw [b, c, List.length_append]; omega
  have drain : ∀ (n : Nat) (s : Sock), Calmly (messages evs) s → s.queue.length ≤ n →
      ∃ s', acts s ((List.replicate n Alone.done).flatMap (Alone.steps room)) = .ok s' ∧ Calmly (messages evs) s' ∧ s'.queue = [] := by
    intro n
    induction n with
    | zero => intro s h hl; exact ⟨s, rfl, h, List.length_eq_zero_iff.1 (by omega)⟩
    | succ n ih =>
      intro s h hl
      obtain ⟨s1, e1, c1, q1⟩ := done_calm h hr
      obtain ⟨s2, e2, c2, q2⟩ := ih s1 c1 (by rw [q1, List.length_tail]; omega)
      refine ⟨s2, ?_, c2, q2⟩
      rw [List.replicate_succ, List.flatMap_cons, acts_append, e1]
      exact e2
  obtain ⟨s2, e2, ⟨c1, c2, c3⟩, q2⟩ := drain _ s h2 hq
  refine ⟨s2, ?_, ?_⟩
  · rw [List.flatMap_append, acts_append, h1]; exact e2
  · rcases c3 with ⟨a, b, c⟩ | ⟨a, pre, m, rest, b, c, d⟩
    · exact ⟨c, b, a, c1⟩
    · rw [q2] at b; cases b

example : (∀ m ∈ messages [.send [1, 2], .send [3], .done, .send [4]], m.length ≤ 9) ∧
    messages [.send [1, 2], .send [3], .done, .send [4]] = [[1, 2], [3], [4]] ∧
    acts .fresh ([Alone.send [1, 2], .send [3], .done, .send [4]].flatMap (Alone.steps 9)) = .ok ⟨[[3], [4]], [], [[]], [1, 2, 3], true⟩ ∧
    acts .fresh ([Alone.send [1, 2], .send [3], .done, .send [4], .done, .done].flatMap (Alone.steps 9)) = .ok ⟨[], [], [], [1, 2, 3, 4], true⟩ := by
  decide

/-! ## What goes wrong -/

/-- A call that starts no write. -/
private def Quiet : Th → Bool
  | .look _ => true
  | .push _ first => !first
  | _ => false

private theorem quiet_act {s : Sock} (hq : s.queue ≠ []) (hw : s.writes = []) (ht : ∀ t ∈ s.threads, Quiet t = true) (a : Act) :
    ∃ s', act s a = .ok s' ∧ s'.queue ≠ [] ∧ s'.writes = [] ∧ (∀ t ∈ s'.threads, Quiet t = true) ∧ s'.wire = s.wire ∧
      s.queue.length ≤ s'.queue.length := by
  have he : s.queue.isEmpty = false := by cases h : s.queue with | nil => exact absurd h hq | cons _ _ => rfl
  cases a with
  | call m =>
    refine ⟨_, rfl, hq, hw, ?_, rfl, Nat.le_refl _⟩
    intro t h
    rcases List.mem_append.1 h with h | h
    · exact ht t h
    · rw [List.mem_singleton.1 h]; rfl
  | step i room =>
    simp only [act]
    split
    · rename_i t hi
      have hm : t ∈ s.threads := List.mem_of_getElem? hi
      have hqt := ht t hm
      cases t with
      | look m =>
        refine ⟨_, rfl, hq, hw, ?_, rfl, Nat.le_refl _⟩
        intro u hu
        rcases List.mem_or_eq_of_mem_set hu with h | h
        · exact ht u h
        · rw [h, he]; rfl
      | push m first =>
        have hf : first = false := by simpa [Quiet] using hqt
        subst hf
        refine ⟨_, rfl, by simp [line, Sock.ended], hw, ?_, rfl, by simp [line, Sock.ended]⟩
        intro u hu
        exact ht u (List.mem_of_mem_eraseIdx hu)
      | _ => simp [Quiet] at hqt
    · exact ⟨s, rfl, hq, hw, ht, rfl, Nat.le_refl _⟩
  | more i room =>
    simp only [act, hw, List.getElem?_nil]
    exact ⟨s, rfl, hq, hw, ht, rfl, Nat.le_refl _⟩
  | finish i ok =>
    simp only [act, hw, List.getElem?_nil]
    exact ⟨s, rfl, hq, hw, ht, rfl, Nat.le_refl _⟩
  | close => exact ⟨_, rfl, hq, hw, ht, rfl, Nat.le_refl _⟩

private theorem quiet_acts : ∀ (as : List Act) {s : Sock}, s.queue ≠ [] → s.writes = [] → (∀ t ∈ s.threads, Quiet t = true) →
    ∃ s', acts s as = .ok s' ∧ s'.wire = s.wire ∧ s.queue.length ≤ s'.queue.length
  | [], s, _, _, _ => ⟨s, rfl, rfl, Nat.le_refl _⟩
  | a :: as, s, hq, hw, ht => by
    obtain ⟨s1, e, hq1, hw1, ht1, h1, l1⟩ := quiet_act hq hw ht a
    obtain ⟨s2, e2, h2, l2⟩ := quiet_acts as hq1 hw1 ht1
    refine ⟨s2, ?_, h2.trans h1, by omega⟩
    change (act s a >>= fun t => acts t as) = _
    rw [e]
    exact e2

/-- Once stuck, a socket sends nothing more: whatever is called, in whatever order, not one byte is handed over, and the queue
only grows. -/
theorem stuck_for_good {s : Sock} (h : Stuck s) (as : List Act) :
    ∃ s', acts s as = .ok s' ∧ s'.wire = s.wire ∧ s.queue.length ≤ s'.queue.length :=
  quiet_acts as h.2.2 h.2.1 (by rw [h.1]; intro t ht; cases ht)

/-- **C138 fails**: a message sent just when the write of the one before ends is put into the queue after the queue was
found empty.  The socket is stuck: neither this message nor any later one is ever sent, although the connection is open and no
error occurred. -/
theorem send_stuck_violated : ∃ (as : List Act) (s : Sock), acts .fresh as = .ok s ∧ Stuck s ∧ s.isOpen = true ∧ s.queue = [[2]] ∧
    s.wire = [1] ∧ as.filter (fun a => a matches .call _) = [.call [1], .call [2]] ∧ as.all (fun a => !(a matches .finish _ false)) = true ∧
    ∀ bs, ∃ t, acts s bs = .ok t ∧ t.wire = [1] := by
  have hs : Stuck ⟨[[2]], [], [], [1], true⟩ := ⟨rfl, rfl, by simp⟩
  refine ⟨[.call [1], .step 0 9, .step 0 9, .step 0 9, .call [2], .step 0 9, .finish 0 true, .step 1 9, .step 1 9, .step 1 9, .step 0 9],
    ⟨[[2]], [], [], [1], true⟩, by decide, hs, rfl, rfl, rfl, by decide, by decide, fun bs => ?_⟩
  obtain ⟨t, h1, h2, _⟩ := stuck_for_good hs bs
  exact ⟨t, h1, h2⟩

/-- **C138 fails**: two messages sent at the same time by two threads that both find the queue empty: the second is sent twice. -/
theorem sent_twice_violated : ∃ (as : List Act) (s : Sock), acts .fresh as = .ok s ∧
    as.filter (fun a => a matches .call _) = [.call [1], .call [2]] ∧ s.wire = [1, 2, 2] ∧ s.queue = [] ∧ s.writes = [] ∧ s.threads = [] := by
  refine ⟨[.call [1], .call [2], .step 0 9, .step 1 9, .step 0 9, .step 0 9, .step 0 9, .step 0 9, .finish 0 true, .step 0 9, .step 0 9, .step 0 9, .step 0 9, .step 0 9,
    .finish 0 true, .step 0 9, .step 0 9, .step 0 9, .finish 0 true, .step 0 9, .step 0 9], _, by rfl, by decide, ?_, ?_, ?_, ?_⟩
  all_goals decide

/-- **C138 fails**: whenever the system does not take a whole message at once, sending the rest reads memory that has been
freed, be it the first message or one from the queue. -/
theorem buffer_freed_violated {m : Bytes} {room : Nat} (hm : room < m.length) (k : Nat) :
    acts .fresh (Alone.steps room (.send m) ++ [.more 0 (k + 1)]) = .ub ∧
    acts .fresh (Alone.steps 9 (.send [1]) ++ Alone.steps 9 (.send m) ++ Alone.steps room .done ++ [.more 0 (k + 1)]) = .ub := by
  have hd : ∃ a l, m.drop room = a :: l := by
    cases h : m.drop room with
    | nil => rw [List.drop_eq_nil_iff] at h; omega
    | cons a l => exact ⟨a, l, rfl⟩
  obtain ⟨a, l, hd⟩ := hd
  constructor
  · have : acts .fresh (Alone.steps room (.send m)) = .ok ⟨[m], [], [a :: l], m.take room, true⟩ := by
      change Res.ok _ = Res.ok _
      simp [line, hd, Sock.ended, Sock.goOn, Sock.fresh]
    rw [acts_append, this]
    rfl
  · have : acts .fresh (Alone.steps 9 (.send [1]) ++ Alone.steps 9 (.send m) ++ Alone.steps room .done) =
        .ok ⟨[m], [], [a :: l], [1] ++ m.take room, true⟩ := by
      change Res.ok _ = Res.ok _
      simp [line, hd, Sock.ended, Sock.goOn, Sock.fresh]
    rw [acts_append, this]
    rfl

end Verif.Props
