import Verif.P2P.Serve
import Verif.Props.Archive

/-!
# C144: snapshots served to several peers at a time
-/
namespace Verif.Props
open Verif Verif.P2P

/-- What is so at each place of a thread that makes the archive `b`. -/
private def Fine (d : Disk) (r : Serving) (b : Bytes) : Prop :=
  match r.phase with
  | .asked => r.size = none ∧ r.sent = []
  | .creating => r.size = none ∧ r.sent = [] ∧ ∃ f, d.path r.key = some f
  | .made => r.size = none ∧ r.sent = [] ∧ ∃ f, d.path r.key = some f ∧ d.data f = b
  | .opened f => r.size = none ∧ r.sent = [] ∧ d.path r.key = some f ∧ d.data f = b
  | .sending f off => r.size = some b.length ∧ r.sent = b.take off ∧ off ≤ b.length ∧ 131072 ∣ off ∧ d.path r.key = some f ∧ d.data f = b
  | .closing => r.size = some b.length ∧ r.sent = b.take (b.length / 131072 * 131072) ∧ r.silent = false
  | .done => r.size = some b.length ∧ r.sent = b.take (b.length / 131072 * 131072) ∧ r.silent = false

private def Sound (d : Disk) : Prop :=
  (∀ k f, d.path k = some f → f < d.next) ∧ ∀ k k' f, d.path k = some f → d.path k' = some f → k = k'

private theorem sound_create {d : Disk} (h : Sound d) (key : Nat) : Sound (d.create key) := by
  unfold Disk.create
  cases hp : d.path key with
  | some f => exact ⟨h.1, h.2⟩
  | none =>
    refine ⟨fun k f hk => ?_, fun k k' f hk hk' => ?_⟩
    · dsimp only at hk ⊢
      by_cases e : k = key
      · rw [if_pos e] at hk; injection hk with hk; omega
      · rw [if_neg e] at hk; have := h.1 k f hk; omega
    · dsimp only at hk hk'
      by_cases e : k = key <;> by_cases e' : k' = key
      · rw [e, e']
      · rw [if_pos e] at hk; rw [if_neg e'] at hk'; injection hk with hk; have := h.1 _ _ hk'; omega
      · rw [if_neg e] at hk; rw [if_pos e'] at hk'; injection hk' with hk'; have := h.1 _ _ hk; omega
      · rw [if_neg e] at hk; rw [if_neg e'] at hk'; exact h.2 _ _ _ hk hk'

private theorem sound_fill {d : Disk} (h : Sound d) (key : Nat) (b : Bytes) : Sound (d.fill key b) := by
  unfold Disk.fill
  cases d.path key with
  | some f => exact ⟨h.1, h.2⟩
  | none => exact h

private theorem sound_remove {d : Disk} (h : Sound d) (key : Nat) : Sound (d.remove key) := by
  have sub : ∀ k f, (d.remove key).path k = some f → d.path k = some f := by
    intro k f hk
    dsimp only [Disk.remove] at hk
    by_cases e : k = key
    · rw [if_pos e] at hk; cases hk
    · rwa [if_neg e] at hk
  exact ⟨fun k f hk => h.1 k f (sub k f hk), fun k k' f hk hk' => h.2 k k' f (sub k f hk) (sub k' f hk')⟩

/-- A thread leaves the names and files of other keys alone. -/
private def Apart (d d' : Disk) (key : Nat) : Prop :=
  ∀ k, k ≠ key → d'.path k = d.path k ∧ ∀ f, d.path k = some f → d'.data f = d.data f

private theorem apart_create {d : Disk} (h : Sound d) (key : Nat) : Apart d (d.create key) key := by
  intro k hk
  unfold Disk.create
  cases hp : d.path key with
  | some g =>
    refine ⟨rfl, fun f hf => ?_⟩
    dsimp only
    rw [if_neg]
    rintro rfl
    exact hk (h.2 _ _ _ hf hp)
  | none =>
    dsimp only
    refine ⟨if_neg hk, fun f hf => ?_⟩
    rw [if_neg]
    have := h.1 _ _ hf
    omega

private theorem apart_fill {d : Disk} (h : Sound d) (key : Nat) (b : Bytes) : Apart d (d.fill key b) key := by
  intro k hk
  unfold Disk.fill
  cases hp : d.path key with
  | some g =>
    refine ⟨rfl, fun f hf => ?_⟩
    dsimp only
    rw [if_neg]
    rintro rfl
    exact hk (h.2 _ _ _ hf hp)
  | none => exact ⟨rfl, fun _ _ => rfl⟩

private theorem apart_remove (d : Disk) (key : Nat) : Apart d (d.remove key) key :=
  fun _ hk => ⟨if_neg hk, fun _ _ => rfl⟩

private theorem step_disk {d : Disk} (h : Sound d) (busy : Bool) (r : Serving) :
    Sound (r.step busy d).1 ∧ Apart d (r.step busy d).1 r.key := by
  have same : Sound d ∧ Apart d d r.key := ⟨h, fun _ _ => ⟨rfl, fun _ _ => rfl⟩⟩
  unfold Serving.step
  repeat' split
  all_goals first
    | exact same
    | exact ⟨sound_remove h _, apart_remove _ _⟩
    | exact ⟨sound_create h _, apart_create h _⟩
    | exact ⟨sound_fill h _ _, apart_fill h _ _⟩

private theorem step_same (busy : Bool) (d : Disk) (r : Serving) :
    (r.step busy d).2.key = r.key ∧ (r.step busy d).2.making = r.making := by
  unfold Serving.step
  repeat' split
  all_goals exact ⟨rfl, rfl⟩

private theorem fine_other {d d' : Disk} {key : Nat} (h : Apart d d' key) {r : Serving} (hk : r.key ≠ key) {b : Bytes} (hf : Fine d r b) :
    Fine d' r b := by
  obtain ⟨hp, hd⟩ := h r.key hk
  unfold Fine at hf ⊢
  split at hf
  · exact hf
  · obtain ⟨a, c, f, e⟩ := hf
    exact ⟨a, c, f, hp.trans e⟩
  · obtain ⟨a, c, f, e, g⟩ := hf
    exact ⟨a, c, f, hp.trans e, (hd f e).trans g⟩
  · obtain ⟨a, c, e, g⟩ := hf
    exact ⟨a, c, hp.trans e, (hd _ e).trans g⟩
  · obtain ⟨a, c, o, m, e, g⟩ := hf
    exact ⟨a, c, o, m, hp.trans e, (hd _ e).trans g⟩
  · exact hf
  · exact hf

private theorem buffer : archiveBuffer = 131072 := rfl

private theorem fine_step {d : Disk} (busy : Bool) {r : Serving} {b : Bytes} (hm : r.making = .made b) (hf : Fine d r b) :
    Fine (r.step busy d).1 (r.step busy d).2 b := by
  obtain ⟨key, making, phase, size, sent, silent⟩ := r
  dsimp only at hm
  subst hm
  cases phase with
  | asked =>
    cases busy with
    | true => exact hf
    | false =>
      refine ⟨hf.1, hf.2, ?_⟩
      show ∃ f, (d.create key).path key = some f
      unfold Disk.create
      cases hp : d.path key with
      | some f => exact ⟨f, hp⟩
      | none => exact ⟨d.next, if_pos rfl⟩
  | creating =>
    obtain ⟨a, c, f, e⟩ := hf
    dsimp only at e
    refine ⟨a, c, f, ?_⟩
    show (d.fill key b).path key = some f ∧ (d.fill key b).data f = b
    unfold Disk.fill
    rw [e]
    exact ⟨e, if_pos rfl⟩
  | made =>
    obtain ⟨a, c, f, e, g⟩ := hf
    dsimp only at e
    simp only [Serving.step, e]
    exact ⟨a, c, e, g⟩
  | opened f =>
    obtain ⟨a, c, e, g⟩ := hf
    dsimp only at e c
    simp only [Serving.step, e]
    exact ⟨by rw [g], by rw [List.take_zero]; exact c, Nat.zero_le _, ⟨0, rfl⟩, e, g⟩
  | sending f off =>
    obtain ⟨a, c, o, m, e, g⟩ := hf
    dsimp only at a c e
    simp only [Serving.step, g, buffer]
    by_cases hl : b.length < off + 131072
    · rw [if_pos hl]
      obtain ⟨q, rfl⟩ := m
      have hq : b.length / 131072 = q := by omega
      refine ⟨a, ?_, rfl⟩
      rw [hq, Nat.mul_comm]
      exact c
    · rw [if_neg hl]
      refine ⟨a, ?_, by omega, Nat.dvd_add m ⟨1, rfl⟩, e, g⟩
      show sent ++ (b.drop off).take 131072 = b.take (off + 131072)
      rw [c, List.take_add]
  | closing => exact hf
  | done => exact hf

private structure Inv (st : ServeState) : Prop where
  sound : Sound st.disk
  keys : (st.reqs.map Serving.key).Nodup
  fine : ∀ r ∈ st.reqs, ∀ b, r.making = .made b → Fine st.disk r b

private theorem set_map {reqs : List Serving} {i : Nat} {r r' : Serving} (hi : reqs[i]? = some r) {α : Type} (g : Serving → α) (h : g r' = g r) :
    (reqs.set i r').map g = reqs.map g := by
  apply List.ext_getElem?
  intro j
  rw [List.getElem?_map, List.getElem?_map, List.getElem?_set]
  split
  · rename_i e
    subst e
    obtain ⟨hl, _⟩ := List.getElem?_eq_some_iff.mp hi
    rw [if_pos hl, hi]
    exact congrArg some h
  · rfl

private theorem inv_step {st : ServeState} (h : Inv st) (i : Nat) : Inv (st.step i) := by
  unfold ServeState.step
  split
  · exact h
  · rename_i r hi
    have hr : r ∈ st.reqs := List.mem_of_getElem? hi
    have hd := step_disk h.sound st.busy r
    have hs := step_same st.busy st.disk r
    refine ⟨hd.1, ?_, ?_⟩
    · rw [set_map hi _ hs.1]; exact h.keys
    · intro x hx b hb
      obtain ⟨j, hj⟩ := List.getElem?_of_mem hx
      rw [List.getElem?_set] at hj
      split at hj
      · split at hj
        · injection hj with hj
          subst hj
          exact fine_step _ (hs.2.symm.trans hb) (h.fine r hr b (hs.2.symm.trans hb))
        · cases hj
      · rename_i hne
        refine fine_other hd.2 ?_ (h.fine x (List.mem_of_getElem? hj) b hb)
        intro hk
        obtain ⟨li, _⟩ := List.getElem?_eq_some_iff.mp hi
        refine hne ((List.getElem?_inj (by rw [List.length_map]; exact li) h.keys).mp ?_)
        rw [List.getElem?_map, List.getElem?_map, hi, hj]
        exact congrArg some hk.symm

private theorem inv_run (sched : List Nat) : ∀ {st : ServeState}, Inv st → Inv (st.run sched) := by
  induction sched with
  | nil => exact fun h => h
  | cons i t ih => exact fun h => ih (inv_step h i)

private theorem step_making (st : ServeState) (i : Nat) : (st.step i).reqs.map Serving.making = st.reqs.map Serving.making := by
  unfold ServeState.step
  split
  · rfl
  · rename_i r hi
    exact set_map hi _ (step_same st.busy st.disk r).2

private theorem run_making (sched : List Nat) : ∀ st : ServeState, (st.run sched).reqs.map Serving.making = st.reqs.map Serving.making := by
  induction sched with
  | nil => exact fun _ => rfl
  | cons i t ih => exact fun st => (ih (st.step i)).trans (step_making st i)

/-- The node when these requests (number of the header, what will be made) have come in and archives of earlier times lie at `old`, one file each. -/
def serveStart (old : Nat → Option Nat) (data : Nat → Bytes) (next : Nat) (asked : List (Nat × Making)) : ServeState :=
  ⟨⟨old, data, next⟩, asked.map (fun q => askedFor q.1 q.2)⟩

/-- **C144.** In whatever order the threads run: when requests are for different headers, each peer whose archive can be made is, once its thread is at
its end, told the size of that archive, has got all whole blocks of 131072 bytes of it and nothing else, and is sent other messages again.  Missing:
requests for the same header, see `same_header_cut_violated` and `same_header_lost_violated`; the rest of the last block (C93). -/
theorem served_apart_partial (old : Nat → Option Nat) (data : Nat → Bytes) (next : Nat) (hold : ∀ k f, old k = some f → f < next)
    (hone : ∀ k k' f, old k = some f → old k' = some f → k = k') (asked : List (Nat × Making)) (hk : (asked.map Prod.fst).Nodup)
    (sched : List Nat) (i key : Nat) (b : Bytes) (hi : asked[i]? = some (key, .made b)) (r : Serving)
    (hr : ((serveStart old data next asked).run sched).reqs[i]? = some r) (hd : r.phase = .done) :
    r.size = some b.length ∧ r.sent = b.take (b.length / 131072 * 131072) ∧ r.silent = false := by
  have h0 : Inv (serveStart old data next asked) := by
    refine ⟨⟨hold, hone⟩, ?_, ?_⟩
    · show ((asked.map (fun q => askedFor q.1 q.2)).map Serving.key).Nodup
      rw [List.map_map]
      exact hk
    · intro x hx c _
      obtain ⟨q, _, rfl⟩ := List.mem_map.mp hx
      exact ⟨rfl, rfl⟩
  have hm : r.making = .made b := by
    have e := congrArg (fun l => l[i]?) (run_making sched (serveStart old data next asked))
    rw [List.getElem?_map, hr] at e
    simp only [List.getElem?_map, serveStart, hi, Option.map_some, askedFor] at e
    injection e
  have hf := (inv_run sched h0).fine r (List.mem_of_getElem? hr) b hm
  unfold Fine at hf
  rw [hd] at hf
  exact hf

/-- Two headers, threads taking turns. -/
example : (((serveStart (fun _ => none) (fun _ => []) 0 [(1, .made [1, 2, 3]), (2, .made [4])]).run
    [0, 1, 0, 1, 0, 1, 0, 1, 0, 1, 0, 1, 0, 1]).reqs.map (fun r => (r.phase, r.size, r.silent))) =
    [(.done, some 3, false), (.done, some 1, false)] := by decide +kernel

/-- **C144 fails.** While the archive of a header goes to one peer, a second peer asks for the same header: the file under the first thread is emptied.
The first peer was told the size of its archive and gets nothing of it, however large it is. -/
theorem same_header_cut_violated (data : Nat → Bytes) (b c : Bytes) :
    ∃ sched, ∃ r, ((serveStart (fun _ => none) data 0 [(1, .made b), (1, .made c)]).run sched).reqs[0]? = some r ∧
      r.phase = .done ∧ r.size = some b.length ∧ r.sent = [] := by
  refine ⟨[0, 0, 0, 0, 1, 0, 0], ⟨1, .made b, .done, some b.length, [], false⟩, ?_, rfl, rfl, rfl⟩
  simp [ServeState.run, ServeState.step, serveStart, askedFor, Serving.step, ServeState.busy, Disk.create, Disk.fill, Disk.remove, buffer]

/-- **C144 fails.** Or the first thread removes the archive before the second opens it: the second peer is sent nothing, not even a size, and no other
message from then on. -/
theorem same_header_lost_violated (data : Nat → Bytes) (b c : Bytes) (hc : c.length < 131072) :
    ∃ sched, ∃ r, ((serveStart (fun _ => none) data 0 [(1, .made b), (1, .made c)]).run sched).reqs[1]? = some r ∧
      r.phase = .done ∧ r.size = none ∧ r.sent = [] ∧ r.silent = true := by
  refine ⟨[0, 0, 0, 1, 1, 0, 0, 0, 1], ⟨1, .made c, .done, none, [], true⟩, ?_, rfl, rfl, rfl, rfl⟩
  simp [ServeState.run, ServeState.step, serveStart, askedFor, Serving.step, ServeState.busy, Disk.create, Disk.fill, Disk.remove, buffer, hc]

/-- **C144 fails.** Or it does so after the second has opened it: the second peer is told that its archive has no bytes, and blocks of it follow. -/
theorem same_header_zero_violated (data : Nat → Bytes) (b c : Bytes) (h1 : 131072 ≤ c.length) (h2 : c.length < 262144) :
    ∃ sched, ∃ r, ((serveStart (fun _ => none) data 0 [(1, .made b), (1, .made c)]).run sched).reqs[1]? = some r ∧
      r.phase = .done ∧ r.size = some 0 ∧ r.sent = c.take 131072 ∧ r.sent ≠ [] := by
  refine ⟨[0, 0, 0, 1, 1, 1, 0, 0, 0, 0, 1, 1, 1, 1], ⟨1, .made c, .done, some 0, c.take 131072, false⟩, ?_, rfl, rfl, rfl, ?_⟩
  · have h1' : ¬ c.length < 131072 := by omega
    simp [ServeState.run, ServeState.step, serveStart, askedFor, Serving.step, ServeState.busy, Disk.create, Disk.fill, Disk.remove, buffer, h1', h2]
  · intro e
    have := congrArg List.length e
    rw [List.length_take, List.length_nil] at this
    omega

/-- An archive of one block. -/
example : 131072 ≤ (List.replicate 131072 (0 : UInt8)).length ∧ (List.replicate 131072 (0 : UInt8)).length < 262144 := by
  rw [List.length_replicate]; omega

private theorem step_silent (busy : Bool) (d : Disk) (r : Serving) (hm : ∀ b, r.making ≠ .made b) (hp : r.phase = .asked ∨ r.phase = .done)
    (hs : r.silent = true) :
    ((r.step busy d).2.phase = .asked ∨ (r.step busy d).2.phase = .done) ∧ (r.step busy d).2.silent = true := by
  obtain ⟨key, making, phase, size, sent, silent⟩ := r
  dsimp only at hm hp hs
  rcases hp with rfl | rfl
  · cases busy with
    | true => exact ⟨.inl rfl, hs⟩
    | false =>
      cases making with
      | made b => exact absurd rfl (hm b)
      | _ => exact ⟨.inr rfl, hs⟩
  · exact ⟨.inr rfl, hs⟩

private theorem run_silent (sched : List Nat) (i : Nat) : ∀ (st : ServeState) (r : Serving), st.reqs[i]? = some r → (∀ b, r.making ≠ .made b) →
    (r.phase = .asked ∨ r.phase = .done) → r.silent = true → ∃ r', (st.run sched).reqs[i]? = some r' ∧ r'.silent = true := by
  induction sched with
  | nil => exact fun st r hr _ _ hs => ⟨r, hr, hs⟩
  | cons j t ih =>
    intro st r hr hm hp hs
    by_cases e : j = i
    · subst e
      have q := step_silent st.busy st.disk r hm hp hs
      refine ih (st.step j) (r.step st.busy st.disk).2 ?_ (fun b => by rw [(step_same _ _ _).2]; exact hm b) q.1 q.2
      simp only [ServeState.step, hr]
      obtain ⟨hl, _⟩ := List.getElem?_eq_some_iff.mp hr
      rw [List.getElem?_set, if_pos rfl, if_pos hl]
    · refine ih (st.step j) r ?_ hm hp hs
      unfold ServeState.step
      split
      · exact hr
      · dsimp only
        rw [List.getElem?_set, if_neg e]
        exact hr

/-- **C144 fails.** A peer whose snapshot is not made, because the header is unknown or below the horizon or because something fails, gets none of the
messages the node has for it afterwards, whatever they are and however long the node goes on. -/
theorem refused_request_silences_violated (old : Nat → Option Nat) (data : Nat → Bytes) (next : Nat) (asked : List (Nat × Making)) (i key : Nat)
    (m : Making) (hm : ∀ b, m ≠ .made b) (hi : asked[i]? = some (key, m)) (sched : List Nat) :
    ∃ r, ((serveStart old data next asked).run sched).reqs[i]? = some r ∧ ∀ msgs : List Bytes, msgs.foldl (sendAsync r.silent) [] = [] := by
  obtain ⟨r, hr, hs⟩ := run_silent sched i (serveStart old data next asked) (askedFor key m)
    (by simp only [serveStart, List.getElem?_map, hi, Option.map_some]) hm (.inl rfl) rfl
  refine ⟨r, hr, fun msgs => ?_⟩
  rw [hs]
  induction msgs with
  | nil => rfl
  | cons a t ih => exact ih

/-- A header the node does not know, among other requests; it is answered if nothing was asked. -/
example : (∀ b, Making.unknown ≠ .made b) ∧ [(7, Making.made [1]), (1, .unknown)][1]? = some (1, Making.unknown) ∧
    [[1, 2]].foldl (sendAsync false) [] = [[1, 2]] := ⟨fun _ h => (nomatch h), rfl, rfl⟩

end Verif.Props
