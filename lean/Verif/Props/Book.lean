import Verif.P2P.Book
import Verif.Props.Messages
import Mathlib.Data.List.Nodup

/-!
# C111: bans
-/
namespace Verif.Props

open Verif Verif.Codec Verif.P2P

/-! ## What holds in every state -/

/-- The map and the `Peer`s belong together: an entry's `Peer` has its address and no address has two entries. -/
structure BookOk (b : Book) : Prop where
  peer : ∀ e ∈ b.entries, ∃ p, b.peers[e.peer]? = some p ∧ p.ip = e.ip
  once : (b.entries.map (·.ip)).Nodup

private theorem find_some {b : Book} {ip : IpAddr} {o : Nat} (h : b.find ip = some o) :
    ∃ e ∈ b.entries, e.ip = ip ∧ e.peer = o := by
  unfold Book.find at h
  rw [Option.map_eq_some_iff] at h
  obtain ⟨e, he, rfl⟩ := h
  exact ⟨e, List.mem_of_find?_eq_some he, by simpa using List.find?_some he, rfl⟩

private theorem find_none {b : Book} {ip : IpAddr} : b.find ip = none ↔ ∀ e ∈ b.entries, e.ip ≠ ip := by
  unfold Book.find
  simp

private theorem find_of_mem {b : Book} (hb : BookOk b) {e : Entry} (he : e ∈ b.entries) : b.find e.ip = some e.peer := by
  cases h : b.find e.ip with
  | none => exact absurd rfl (find_none.1 h e he)
  | some o =>
    obtain ⟨e', he', hip, rfl⟩ := find_some h
    rw [List.inj_on_of_nodup_map hb.once he' he hip]

private theorem update_ok {b : Book} (hb : BookOk b) (o : Nat) (f : Peer → Peer) (hf : ∀ p, (f p).ip = p.ip) :
    BookOk (b.update o f) := by
  refine ⟨fun e he => ?_, hb.once⟩
  obtain ⟨p, hp, hip⟩ := hb.peer e he
  unfold Book.update
  simp only [List.getElem?_modify, hp]
  refine ⟨_, rfl, ?_⟩
  split
  · rw [hf, hip]
  · exact hip

private theorem update_find (b : Book) (o : Nat) (f : Peer → Peer) (ip : IpAddr) : (b.update o f).find ip = b.find ip := rfl

private theorem add_ok {b : Book} (hb : BookOk b) (p : Peer) (la : Int) (hn : b.find p.ip = none) : BookOk (b.add p la) := by
  constructor
  · intro e he
    unfold Book.add at he ⊢
    simp only [List.mem_append, List.mem_singleton] at he
    rcases he with he | rfl
    · obtain ⟨q, hq, hip⟩ := hb.peer e he
      have : e.peer < b.peers.length := by
        rw [List.getElem?_eq_some_iff] at hq
        exact hq.1
      exact ⟨q, by simp only [List.getElem?_append_left this, hq], hip⟩
    · exact ⟨p, by simp, rfl⟩
  · unfold Book.add
    simp only [List.map_append, List.map_cons, List.map_nil, List.nodup_append, List.nodup_cons, List.not_mem_nil,
      not_false_eq_true, List.nodup_nil, and_self, List.mem_map, List.mem_singleton, true_and]
    refine ⟨hb.once, ?_⟩
    rintro _ ⟨e, he, rfl⟩ _ rfl
    exact find_none.1 hn e he

private theorem add_find {b : Book} (p : Peer) (la : Int) (hn : b.find p.ip = none) (ip : IpAddr) :
    (b.add p la).find ip = if ip = p.ip then some b.peers.length else b.find ip := by
  unfold Book.find Book.add
  simp only [List.find?_append]
  by_cases h : ip = p.ip
  · subst h
    unfold Book.find at hn
    rw [Option.map_eq_none_iff] at hn
    rw [hn, if_pos rfl]
    simp
  · rw [if_neg h]
    have : List.find? (fun e : Entry => decide (e.ip = ip)) [⟨p.ip, b.peers.length, la⟩] = none := by
      simp [Ne.symm h]
    rw [this, Option.or_none]

private theorem getPeer_ok {b : Book} (hb : BookOk b) (ip : IpAddr) : BookOk (b.getPeer ip).2 := by
  unfold Book.getPeer
  cases h : b.find ip with
  | some o => exact hb
  | none => exact add_ok hb _ _ h

private theorem addFresh_ok (ips : List IpAddr) : ∀ {b : Book}, BookOk b → BookOk (b.addFresh ips) := by
  induction ips with
  | nil => intro b hb; exact hb
  | cons ip ips ih => intro b hb; exact ih (getPeer_ok hb ip)

/-- What no event but a ban or a contact changes. -/
private def key (p : Peer) : IpAddr × Int × Int := (p.ip, p.lastBan, p.lastContact)

private theorem clean_get (ds : List Nat) : ∀ (ps : List Peer) (o : Nat) (p : Peer), ps[o]? = some p →
    (ds.foldl (fun ps o => ps.modify o fun p => { p with dirty := false }) ps)[o]? =
      some { p with dirty := p.dirty && !ds.contains o } := by
  induction ds with
  | nil => intro ps o p h; simp [h]
  | cons d ds ih =>
    intro ps o p h
    rw [List.foldl_cons]
    by_cases hd : d = o
    · subst hd
      rw [ih _ d { p with dirty := false } (by simp [h])]
      simp
    · rw [ih _ o p (by simp [h, hd])]
      simp [Ne.symm hd]

private theorem clean_mem (ds : List Nat) : ∀ (ps : List Peer) (q : Peer),
    q ∈ ds.foldl (fun ps o => ps.modify o fun p => { p with dirty := false }) ps → ∃ p ∈ ps, key q = key p := by
  induction ds with
  | nil => intro ps q h; exact ⟨q, h, rfl⟩
  | cons d ds ih =>
    intro ps q h
    obtain ⟨p, hp, hk⟩ := ih _ q h
    obtain ⟨i, hi⟩ := List.mem_iff_getElem?.1 hp
    rw [List.getElem?_modify, Option.map_eq_map, Option.map_eq_some_iff] at hi
    obtain ⟨r, hr, hi⟩ := hi
    refine ⟨r, List.mem_of_getElem? hr, hk.trans ?_⟩
    rw [← hi]
    split <;> rfl

private theorem manage_ok {b : Book} (hb : BookOk b) (now : Int) : BookOk (b.manage now) := by
  constructor
  · intro e he
    have he' : e ∈ b.entries := (List.mem_filter.1 he).1
    obtain ⟨p, hp, hip⟩ := hb.peer e he'
    exact ⟨_, clean_get _ _ _ _ hp, hip⟩
  · exact (List.filter_sublist.map _).nodup hb.once

private theorem loop_seek (now : Int) (cap max : Nat) : ∀ (n pos : Nat) (es : List PeerEntry) (found : List Nat),
    (∀ a ∈ (peersLoop now cap max true n pos es found).1, a ∈ found ∨ ∃ e ∈ es, e.address = a ∧ ¬ now - banWindow < e.lastBan) ∧
    (peersLoop now cap max true n pos es found).2.map (fun e => (e.address, e.lastBan)) =
      es.map (fun e => (e.address, e.lastBan)) := by
  intro n
  induction n with
  | zero => intro pos es found; exact ⟨fun a h => Or.inl h, rfl⟩
  | succ n ih =>
    intro pos es found
    unfold peersLoop
    simp only [Bool.true_and, Bool.not_true, Bool.false_eq_true, if_false]
    generalize (if pos = es.length then 0 else pos) = pos'
    cases hg : es[pos']? with
    | none => exact ⟨fun a h => Or.inl h, rfl⟩
    | some e =>
      simp only
      have hmem : e ∈ es := List.mem_of_getElem? hg
      by_cases hban : e.lastBan > now - banWindow
      · rw [if_pos (by simpa using hban)]
        exact ih _ _ _
      · rw [if_neg (by simpa using hban)]
        have hset : (es.set pos' { e with lastAttempt := now }).map (fun e => (e.address, e.lastBan)) =
            es.map (fun e => (e.address, e.lastBan)) := by
          rw [List.map_set]
          have : (e.address, e.lastBan) = (es.map (fun e => (e.address, e.lastBan)))[pos']'(by
              rw [List.length_map]; exact (List.getElem?_eq_some_iff.1 hg).1) := by
            rw [List.getElem_map, (List.getElem?_eq_some_iff.1 hg).2]
          rw [this, List.set_getElem_self]
        have key : ∀ (r : List Nat × List PeerEntry), (r = (found ++ [e.address], es.set pos' { e with lastAttempt := now }) ∨
            r = (found, es)) →
            (∀ a ∈ (if r.1.length = max then r else peersLoop now cap max true n (pos' + 1) r.2 r.1).1,
              a ∈ found ∨ ∃ e ∈ es, e.address = a ∧ ¬ now - banWindow < e.lastBan) ∧
            (if r.1.length = max then r else peersLoop now cap max true n (pos' + 1) r.2 r.1).2.map
              (fun e => (e.address, e.lastBan)) = es.map (fun e => (e.address, e.lastBan)) := by
          intro r hr
          have r1 : ∀ a ∈ r.1, a ∈ found ∨ ∃ e ∈ es, e.address = a ∧ ¬ now - banWindow < e.lastBan := by
            intro a ha
            rcases hr with rfl | rfl
            · rw [List.mem_append, List.mem_singleton] at ha
              rcases ha with ha | rfl
              · exact Or.inl ha
              · exact Or.inr ⟨e, hmem, rfl, hban⟩
            · exact Or.inl ha
          have r2 : r.2.map (fun e => (e.address, e.lastBan)) = es.map (fun e => (e.address, e.lastBan)) := by
            rcases hr with rfl | rfl
            · exact hset
            · rfl
          split
          · exact ⟨r1, r2⟩
          · refine ⟨fun a ha => ?_, (ih _ _ _).2.trans r2⟩
            rcases (ih _ _ _).1 a ha with h | ⟨e', he', h1, h2⟩
            · exact r1 a h
            · right
              have : (e'.address, e'.lastBan) ∈ es.map (fun e => (e.address, e.lastBan)) := by
                rw [← r2]; exact List.mem_map.2 ⟨e', he', rfl⟩
              obtain ⟨e'', he'', heq⟩ := List.mem_map.1 this
              simp only [Prod.mk.injEq] at heq
              exact ⟨e'', he'', heq.1.trans h1, by rw [heq.2]; exact h2⟩
        by_cases hc : hasCapability e.capabilities cap = true
        · rw [if_pos hc]
          apply key
          split
          · exact Or.inl rfl
          · exact Or.inr rfl
        · rw [if_neg hc]
          exact ih _ _ _

private theorem seek_found (now : Int) (start start' cap : Nat) (es : List PeerEntry) :
    (∀ a, (getNewPeer now start start' cap es).1 = some a → ∃ e ∈ es, e.address = a ∧ ¬ now - banWindow < e.lastBan) ∧
    (getNewPeer now start start' cap es).2.map (fun e => (e.address, e.lastBan)) = es.map (fun e => (e.address, e.lastBan)) := by
  have get : ∀ (s c : Nat) (l : List PeerEntry),
      (∀ a ∈ (getPeersWithCapability now s c 1 true l).1, ∃ e ∈ l, e.address = a ∧ ¬ now - banWindow < e.lastBan) ∧
      (getPeersWithCapability now s c 1 true l).2.map (fun e => (e.address, e.lastBan)) =
        l.map (fun e => (e.address, e.lastBan)) := by
    intro s c l
    unfold getPeersWithCapability
    split
    · exact ⟨fun a h => (nomatch h), rfl⟩
    · refine ⟨fun a ha => ?_, (loop_seek now c 1 _ _ l []).2⟩
      rcases (loop_seek now c 1 _ _ l []).1 a ha with h | h
      · exact (nomatch h)
      · exact h
  unfold getNewPeer
  simp only
  have g1 := get start cap es
  split
  · have g2 := get start' 0 (getPeersWithCapability now start cap 1 true es).2
    refine ⟨fun a ha => ?_, g2.2.trans g1.2⟩
    obtain ⟨e', he', h1, h2⟩ := g2.1 a (List.mem_of_mem_head? ha)
    have : (e'.address, e'.lastBan) ∈ es.map (fun e => (e.address, e.lastBan)) := by
      rw [← g1.2]; exact List.mem_map.2 ⟨e', he', rfl⟩
    obtain ⟨e'', he'', heq⟩ := List.mem_map.1 this
    simp only [Prod.mk.injEq] at heq
    exact ⟨e'', he'', heq.1.trans h1, by rw [heq.2]; exact h2⟩
  · exact ⟨fun a ha => g1.1 a (List.mem_of_mem_head? ha), g1.2⟩

private theorem newPeer_entries (b : Book) (now : Int) (s s' c : Nat) :
    (b.newPeer now s s' c).2.entries.map (fun e => (e.ip, e.peer)) = b.entries.map (fun e => (e.ip, e.peer)) := by
  unfold Book.newPeer
  simp only
  have hl : (getNewPeer now s s' c b.view).2.length = b.entries.length := by
    have := congrArg List.length (seek_found now s s' c b.view).2
    simpa [Book.view] using this
  generalize (getNewPeer now s s' c b.view).2 = vs at hl
  generalize b.entries = es at hl
  induction es generalizing vs with
  | nil => simp
  | cons e es ih =>
    cases vs with
    | nil => simp at hl
    | cons v vs => simp only [List.zipWith_cons_cons, List.map_cons, ih vs (by simpa using hl)]

private theorem newPeer_find (b : Book) (now : Int) (s s' c : Nat) (ip : IpAddr) :
    (b.newPeer now s s' c).2.find ip = b.find ip := by
  have h := newPeer_entries b now s s' c
  unfold Book.find
  generalize (b.newPeer now s s' c).2.entries = es at h
  generalize b.entries = es' at h
  induction es generalizing es' with
  | nil => cases es' with
    | nil => rfl
    | cons e es' => simp at h
  | cons e es ih =>
    cases es' with
    | nil => simp at h
    | cons e' es' =>
      simp only [List.map_cons, List.cons.injEq, Prod.mk.injEq] at h
      simp only [List.find?_cons, h.1.1]
      split
      · simp [h.1.2]
      · exact ih es' h.2

private theorem newPeer_ok {b : Book} (hb : BookOk b) (now : Int) (s s' c : Nat) : BookOk (b.newPeer now s s' c).2 := by
  have h := newPeer_entries b now s s' c
  constructor
  · intro e he
    have : (e.ip, e.peer) ∈ b.entries.map (fun e => (e.ip, e.peer)) := by
      rw [← h]; exact List.mem_map.2 ⟨e, he, rfl⟩
    obtain ⟨e', he', heq⟩ := List.mem_map.1 this
    simp only [Prod.mk.injEq] at heq
    obtain ⟨p, hp, hip⟩ := hb.peer e' he'
    rw [heq.2] at hp
    exact ⟨p, hp, hip.trans heq.1⟩
  · have := congrArg (List.map Prod.fst) h
    simp only [List.map_map, Function.comp_def] at this
    rw [this]
    exact hb.once

private theorem unbanAll_fold (now : Int) (os : List Nat) : ∀ {b : Book}, BookOk b →
    BookOk (os.foldl (fun b o => b.update o fun p => if p.isBanned now then p.unban else p) b) := by
  induction os with
  | nil => intro b hb; exact hb
  | cons o os ih =>
    intro b hb
    refine ih (update_ok hb o _ fun p => ?_)
    split <;> rfl

private theorem create_empty (preferred : List IpAddr) (left : PeerDisk) :
    Book.create preferred (openDisk left) = .ok (Book.addFresh ⟨[], [], []⟩ preferred) := by
  unfold Book.create openDisk
  cases preferred with
  | nil => rfl
  | cons ip ips => rfl

private theorem empty_ok : BookOk ⟨[], [], []⟩ := ⟨fun _ he => (nomatch he), List.nodup_nil⟩

private theorem step_ok {b : Book} (hb : BookOk b) (now : Int) (ev : BookEv) : BookOk (b.step now ev) := by
  cases ev with
  | arrive ip => exact getPeer_ok hb ip
  | fresh ips => exact addFresh_ok ips hb
  | ban ip r =>
    simp only [Book.step, Book.banPeer]
    cases h : b.find ip with
    | some o => exact update_ok hb o _ fun p => rfl
    | none => exact add_ok hb _ _ h
  | unban ip =>
    simp only [Book.step, Book.unbanPeer]
    cases h : b.find ip with
    | some o => exact update_ok hb o _ fun p => rfl
    | none => exact hb
  | unbanAll => exact unbanAll_fold now _ hb
  | banned o r => exact update_ok hb o _ fun p => rfl
  | contact o => exact update_ok hb o _ fun p => rfl
  | connected o v => exact update_ok hb o _ fun p => rfl
  | shake o v c a => exact update_ok hb o _ fun p => rfl
  | seek s s' c => exact newPeer_ok hb now s s' c
  | manage => exact manage_ok hb now
  | restart preferred =>
    simp only [Book.step, create_empty]
    exact addFresh_ok preferred empty_ok

private theorem run_ok (h : List (Int × BookEv)) : ∀ {b : Book}, BookOk b → BookOk (b.run h) := by
  induction h with
  | nil => intro b hb; exact hb
  | cons e h ih => intro b hb; exact ih (step_ok hb e.1 e.2)

/-! ## A ban, while it lasts -/

/-- Spec: an event that is not about a ban of `ip`: the user neither bans nor pardons it nor everyone, the program is not started
again, and no connection bans a peer of that address. -/
def QuietEv (ip : IpAddr) (b : Book) : BookEv → Prop
  | .ban ip' _ => ip' ≠ ip
  | .unban ip' => ip' ≠ ip
  | .unbanAll => False
  | .restart _ => False
  | .banned o _ => ∀ p, b.peers[o]? = some p → p.ip ≠ ip
  | _ => True

/-- Spec: events none of which is about a ban of `ip`. -/
def Quiet (ip : IpAddr) (b : Book) : List (Int × BookEv) → Prop
  | [] => True
  | e :: h => QuietEv ip b e.2 ∧ Quiet ip (b.step e.1 e.2) h

private def Held (b : Book) (ip : IpAddr) (t : Int) : Prop :=
  ∃ o p, b.find ip = some o ∧ b.peers[o]? = some p ∧ p.lastBan = t ∧ (p.lastContact = 0 ∨ t - 594000 ≤ p.lastContact)

private def Capped (b : Book) (ip : IpAddr) (t : Int) : Prop := ∀ p ∈ b.peers, p.ip = ip → p.lastBan ≤ t

private theorem held_update {b : Book} {ip : IpAddr} {t now : Int} (h : Held b ip t) (ht : t ≤ now) (o : Nat) (f : Peer → Peer)
    (hf : ∀ p, (f p).lastBan = p.lastBan ∧ ((f p).lastContact = p.lastContact ∨ (f p).lastContact = now)) :
    Held (b.update o f) ip t := by
  obtain ⟨o', p, h1, h2, h3, h4⟩ := h
  refine ⟨o', if o = o' then f p else p, h1, ?_, ?_, ?_⟩
  · unfold Book.update
    simp only [List.getElem?_modify, h2]
    split <;> rfl
  · split
    · rw [(hf p).1, h3]
    · exact h3
  · split
    · rcases (hf p).2 with e | e
      · rw [e]; exact h4
      · rw [e]; exact Or.inr (by omega)
    · exact h4

private theorem held_other {b : Book} {ip : IpAddr} {t : Int} (hb : BookOk b) (h : Held b ip t) (o : Nat) (f : Peer → Peer)
    (ho : ∀ p, b.peers[o]? = some p → p.ip ≠ ip) : Held (b.update o f) ip t := by
  obtain ⟨o', p, h1, h2, h3, h4⟩ := h
  refine ⟨o', p, h1, ?_, h3, h4⟩
  have : o ≠ o' := by
    rintro rfl
    obtain ⟨e, he, rfl, rfl⟩ := find_some h1
    obtain ⟨q, hq, hip⟩ := hb.peer e he
    exact ho q hq hip
  unfold Book.update
  simp [this, h2]

private theorem held_add {b : Book} {ip : IpAddr} {t : Int} (h : Held b ip t) (q : Peer) (la : Int) (hn : b.find q.ip = none) :
    Held (b.add q la) ip t := by
  obtain ⟨o, p, h1, h2, h3, h4⟩ := h
  have hne : ip ≠ q.ip := by rintro rfl; rw [hn] at h1; cases h1
  refine ⟨o, p, by rw [add_find q la hn, if_neg hne]; exact h1, ?_, h3, h4⟩
  unfold Book.add
  simp only
  rw [List.getElem?_append_left (List.getElem?_eq_some_iff.1 h2).1, h2]

private theorem held_getPeer {b : Book} {ip : IpAddr} {t : Int} (h : Held b ip t) (ip' : IpAddr) : Held (b.getPeer ip').2 ip t := by
  unfold Book.getPeer
  cases h' : b.find ip' with
  | some o => exact h
  | none => exact held_add h _ _ h'

private theorem held_fresh (ips : List IpAddr) {ip : IpAddr} {t : Int} : ∀ {b : Book}, Held b ip t → Held (b.addFresh ips) ip t := by
  induction ips with
  | nil => intro b hb; exact hb
  | cons ip' ips ih => intro b hb; exact ih (held_getPeer hb ip')

private theorem manage_find {b : Book} (hb : BookOk b) (now : Int) {ip : IpAddr} {o : Nat} {p : Peer} (h1 : b.find ip = some o)
    (h2 : b.peers[o]? = some p) : (b.manage now).find ip = if drops now p then none else some o := by
  obtain ⟨e, he, rfl, rfl⟩ := find_some h1
  obtain ⟨p', hp', hip⟩ := hb.peer e he
  rw [h2] at hp'
  cases hp'
  have hdrop : (((b.entries.filterMap b.peerOf).filter (drops now)).map (·.ip)).contains e.ip = drops now p := by
    rw [Bool.eq_iff_iff, List.contains_iff_mem, List.mem_map]
    constructor
    · rintro ⟨q, hq, hqip⟩
      rw [List.mem_filter, List.mem_filterMap] at hq
      obtain ⟨⟨e', he', hq'⟩, hd⟩ := hq
      obtain ⟨q', hq'', hip'⟩ := hb.peer e' he'
      have : q' = q := by
        unfold Book.peerOf at hq'
        rw [hq''] at hq'
        exact Option.some.inj hq'
      subst this
      have : e' = e := List.inj_on_of_nodup_map hb.once he' he (hip'.symm.trans hqip)
      subst this
      rw [h2] at hq''
      cases hq''
      exact hd
    · intro hd
      exact ⟨p, List.mem_filter.2 ⟨List.mem_filterMap.2 ⟨e, he, h2⟩, hd⟩, hip⟩
  split
  · rename_i hd
    rw [find_none]
    intro e' he' hip'
    have := (List.mem_filter.1 he').2
    rw [hip', hdrop, hd] at this
    cases this
  · rename_i hd
    refine find_of_mem (manage_ok hb now) (e := e) (List.mem_filter.2 ⟨he, ?_⟩)
    rw [hdrop]
    simpa using hd

private theorem held_step {b : Book} (hb : BookOk b) {ip : IpAddr} {t now : Int} (h : Held b ip t) (h1 : t ≤ now) (h2 : now < t + 10800)
    (ev : BookEv) (hq : QuietEv ip b ev) : Held (b.step now ev) ip t := by
  cases ev with
  | arrive ip' => exact held_getPeer h ip'
  | fresh ips => exact held_fresh ips h
  | ban ip' r =>
    simp only [Book.step, Book.banPeer]
    cases hf : b.find ip' with
    | some o =>
      refine held_other hb h o _ fun p hp hip => ?_
      obtain ⟨e, he, rfl, rfl⟩ := find_some hf
      obtain ⟨q, hq', hip'⟩ := hb.peer e he
      rw [hp] at hq'
      cases hq'
      exact hq (hip'.symm.trans hip)
    | none => exact held_add h _ _ hf
  | unban ip' =>
    simp only [Book.step, Book.unbanPeer]
    cases hf : b.find ip' with
    | some o =>
      refine held_other hb h o _ fun p hp hip => ?_
      obtain ⟨e, he, rfl, rfl⟩ := find_some hf
      obtain ⟨q, hq', hip'⟩ := hb.peer e he
      rw [hp] at hq'
      cases hq'
      exact hq (hip'.symm.trans hip)
    | none => exact h
  | unbanAll => exact hq.elim
  | banned o r => exact held_other hb h o _ hq
  | contact o => exact held_update h h1 o _ fun p => ⟨rfl, Or.inr rfl⟩
  | connected o v => exact held_update h h1 o _ fun p => ⟨rfl, Or.inl rfl⟩
  | shake o v c a => exact held_update h h1 o _ fun p => ⟨rfl, Or.inl rfl⟩
  | seek s s' c =>
    obtain ⟨o, p, g1, g2, g3, g4⟩ := h
    exact ⟨o, p, (newPeer_find b now s s' c ip).trans g1, g2, g3, g4⟩
  | manage =>
    obtain ⟨o, p, g1, g2, g3, g4⟩ := h
    refine ⟨o, _, ?_, clean_get _ _ _ _ g2, g3, g4⟩
    rw [Book.step, manage_find hb now g1 g2, if_neg]
    unfold drops
    simp only [Bool.and_eq_true, decide_eq_true_eq]
    omega
  | restart preferred => exact hq.elim

private theorem capped_step {b : Book} (hb : BookOk b) {ip : IpAddr} {t now : Int} (ht : 0 ≤ t) (h : Capped b ip t)
    (ev : BookEv) (hq : QuietEv ip b ev) : Capped (b.step now ev) ip t := by
  have upd : ∀ (o : Nat) (f : Peer → Peer), (∀ p, (f p).ip = p.ip ∧ ((f p).lastBan = p.lastBan ∨ (f p).lastBan = 0 ∨
      (b.peers[o]? = some p → p.ip ≠ ip))) → Capped (b.update o f) ip t := by
    intro o f hf p hp hip
    obtain ⟨i, hi⟩ := List.mem_iff_getElem?.1 hp
    unfold Book.update at hi
    simp only [List.getElem?_modify] at hi
    rw [Option.map_eq_map, Option.map_eq_some_iff] at hi
    obtain ⟨r, hr, rfl⟩ := hi
    have := h r (List.mem_of_getElem? hr)
    split at hip
    · rename_i ho
      subst ho
      rw [(hf r).1] at hip
      rw [if_pos rfl]
      rcases (hf r).2 with e | e | e
      · rw [e]; exact this hip
      · rw [e]; exact ht
      · exact absurd hip (e hr)
    · rename_i ho
      rw [if_neg ho]
      exact this hip
  have add : ∀ (b : Book) (q : Peer) (la : Int), Capped b ip t → (q.ip = ip → q.lastBan ≤ t) → Capped (b.add q la) ip t := by
    intro b q la hc hl p hp hip
    unfold Book.add at hp
    simp only [List.mem_append, List.mem_singleton] at hp
    rcases hp with hp | rfl
    · exact hc p hp hip
    · exact hl hip
  have get : ∀ (b : Book) (ip' : IpAddr), Capped b ip t → Capped (b.getPeer ip').2 ip t := by
    intro b ip' hc
    unfold Book.getPeer
    cases b.find ip' with
    | some o => exact hc
    | none => exact add _ _ _ hc fun _ => ht
  cases ev with
  | arrive ip' => exact get b ip' h
  | fresh ips =>
    have : ∀ (ips : List IpAddr) (b : Book), Capped b ip t → Capped (b.addFresh ips) ip t := by
      intro ips
      induction ips with
      | nil => intro b hb; exact hb
      | cons ip' ips ih => intro b hb; exact ih _ (get b ip' hb)
    exact this ips b h
  | ban ip' r =>
    simp only [Book.step, Book.banPeer]
    cases hf : b.find ip' with
    | some o =>
      refine upd o _ fun p => ⟨rfl, Or.inr (Or.inr fun hp hip => ?_)⟩
      obtain ⟨e, he, rfl, rfl⟩ := find_some hf
      obtain ⟨q, hq', hip'⟩ := hb.peer e he
      rw [hp] at hq'
      cases hq'
      exact hq (hip'.symm.trans hip)
    | none => exact add _ _ _ h fun e => absurd e hq
  | unban ip' =>
    simp only [Book.step, Book.unbanPeer]
    cases hf : b.find ip' with
    | some o => exact upd o _ fun p => ⟨rfl, Or.inr (Or.inl rfl)⟩
    | none => exact h
  | unbanAll => exact hq.elim
  | banned o r => exact upd o _ fun p => ⟨rfl, Or.inr (Or.inr fun hp => hq p hp)⟩
  | contact o => exact upd o _ fun p => ⟨rfl, Or.inl rfl⟩
  | connected o v => exact upd o _ fun p => ⟨rfl, Or.inl rfl⟩
  | shake o v c a => exact upd o _ fun p => ⟨rfl, Or.inl rfl⟩
  | seek s s' c => exact h
  | manage =>
    intro q hq' hip
    obtain ⟨p, hp, hk⟩ := clean_mem _ _ q hq'
    simp only [key, Prod.mk.injEq] at hk
    rw [hk.2.1]
    exact h p hp (hk.1.symm.trans hip)
  | restart preferred => exact hq.elim

private theorem quiet_run {ip : IpAddr} {t : Int} (ht : 0 ≤ t) (h : List (Int × BookEv)) : ∀ {b : Book}, BookOk b → Quiet ip b h →
    Capped b ip t → Capped (b.run h) ip t ∧ (Held b ip t → (∀ e ∈ h, t ≤ e.1 ∧ e.1 < t + 10800) → Held (b.run h) ip t) := by
  induction h with
  | nil => intro b _ _ hc; exact ⟨hc, fun h _ => h⟩
  | cons e h ih =>
    intro b hb hq hc
    obtain ⟨i1, i2⟩ := ih (step_ok hb e.1 e.2) hq.2 (capped_step hb ht hc e.2 hq.1)
    refine ⟨i1, fun hh he => i2 ?_ fun x hx => he x (List.mem_cons_of_mem _ hx)⟩
    exact held_step hb hh (he e List.mem_cons_self).1 (he e List.mem_cons_self).2 e.2 hq.1

/-- No ban lies in the future. -/
private theorem past_step {b : Book} {t now : Int} (ht : 0 ≤ t) (hn : now ≤ t) (h : ∀ p ∈ b.peers, p.lastBan ≤ t) (ev : BookEv) :
    ∀ p ∈ (b.step now ev).peers, p.lastBan ≤ t := by
  have upd : ∀ (b : Book) (o : Nat) (f : Peer → Peer), (∀ p, (f p).lastBan = p.lastBan ∨ (f p).lastBan = 0 ∨ (f p).lastBan = now) →
      (∀ p ∈ b.peers, p.lastBan ≤ t) → ∀ p ∈ (b.update o f).peers, p.lastBan ≤ t := by
    intro b o f hf h p hp
    obtain ⟨i, hi⟩ := List.mem_iff_getElem?.1 hp
    unfold Book.update at hi
    simp only [List.getElem?_modify] at hi
    rw [Option.map_eq_map, Option.map_eq_some_iff] at hi
    obtain ⟨r, hr, rfl⟩ := hi
    have := h r (List.mem_of_getElem? hr)
    split
    · rcases hf r with e | e | e <;> omega
    · exact this
  have add : ∀ (b : Book) (q : Peer) (la : Int), (∀ p ∈ b.peers, p.lastBan ≤ t) → q.lastBan ≤ t →
      ∀ p ∈ (b.add q la).peers, p.lastBan ≤ t := by
    intro b q la hc hl p hp
    unfold Book.add at hp
    simp only [List.mem_append, List.mem_singleton] at hp
    rcases hp with hp | rfl
    · exact hc p hp
    · exact hl
  have fresh : ∀ (ips : List IpAddr) (b : Book), (∀ p ∈ b.peers, p.lastBan ≤ t) → ∀ p ∈ (b.addFresh ips).peers, p.lastBan ≤ t := by
    intro ips
    induction ips with
    | nil => intro b hb; exact hb
    | cons ip' ips ih =>
      intro b hb
      refine ih _ ?_
      simp only [Book.getPeer]
      cases b.find ip' with
      | some o => exact hb
      | none => exact add b (Peer.fresh ip') 0 hb ht
  cases ev with
  | arrive ip => exact fresh [ip] b h
  | fresh ips => exact fresh ips b h
  | ban ip' r =>
    simp only [Book.step, Book.banPeer]
    cases hf : b.find ip' with
    | some o => exact upd b o _ (fun p => Or.inr (Or.inr rfl)) h
    | none => exact add _ _ _ h hn
  | unban ip' =>
    simp only [Book.step, Book.unbanPeer]
    cases hf : b.find ip' with
    | some o => exact upd b o _ (fun p => Or.inr (Or.inl rfl)) h
    | none => exact h
  | unbanAll =>
    have : ∀ (os : List Nat) (b : Book), (∀ p ∈ b.peers, p.lastBan ≤ t) →
        ∀ p ∈ (os.foldl (fun b o => b.update o fun p => if p.isBanned now then p.unban else p) b).peers, p.lastBan ≤ t := by
      intro os
      induction os with
      | nil => intro b hb; exact hb
      | cons o os ih =>
        intro b hb
        refine ih _ (upd b o _ (fun p => ?_) hb)
        split
        · exact Or.inr (Or.inl rfl)
        · exact Or.inl rfl
    exact this _ b h
  | banned o r => exact upd b o _ (fun p => Or.inr (Or.inr rfl)) h
  | contact o => exact upd b o _ (fun p => Or.inl rfl) h
  | connected o v => exact upd b o _ (fun p => Or.inl rfl) h
  | shake o v c a => exact upd b o _ (fun p => Or.inl rfl) h
  | seek s s' c => exact h
  | manage =>
    intro q hq'
    obtain ⟨p, hp, hk⟩ := clean_mem _ _ q hq'
    simp only [key, Prod.mk.injEq] at hk
    rw [hk.2.1]
    exact h p hp
  | restart preferred =>
    simp only [Book.step, create_empty]
    exact fresh preferred _ (fun p hp => (nomatch hp))

private theorem past_run {t : Int} (ht : 0 ≤ t) (h : List (Int × BookEv)) : ∀ {b : Book}, (∀ e ∈ h, e.1 ≤ t) →
    (∀ p ∈ b.peers, p.lastBan ≤ t) → ∀ p ∈ (b.run h).peers, p.lastBan ≤ t := by
  induction h with
  | nil => intro b _ hb; exact hb
  | cons e h ih =>
    intro b he hb
    exact ih (fun x hx => he x (List.mem_cons_of_mem _ hx)) (past_step ht (he e List.mem_cons_self) hb e.2)

/-- Spec: the peer manager as it is after a start of the program and the events `h`. -/
def after (preferred : List IpAddr) (h : List (Int × BookEv)) : Book := (Book.addFresh ⟨[], [], []⟩ preferred).run h

/-- **C111, a start.**  Whatever an earlier run left in the database, the program starts with the preferred peers of its configuration. -/
theorem started (preferred : List IpAddr) (left : PeerDisk) :
    Book.create preferred (openDisk left) = .ok (after preferred []) := create_empty preferred left

private theorem after_ok (preferred : List IpAddr) (h : List (Int × BookEv)) : BookOk (after preferred h) :=
  run_ok h (addFresh_ok preferred empty_ok)

private theorem after_past (preferred : List IpAddr) (h : List (Int × BookEv)) {t : Int} (ht : 0 ≤ t) (he : ∀ e ∈ h, e.1 ≤ t) :
    ∀ p ∈ (after preferred h).peers, p.lastBan ≤ t := by
  refine past_run ht h he ?_
  have := past_step (b := ⟨[], [], []⟩) (now := 0) ht ht (fun p hp => (nomatch hp)) (.fresh preferred)
  exact this

private theorem admits_of_find {b : Book} {ip : IpAddr} {o : Nat} {p : Peer} (h1 : b.find ip = some o) (h2 : b.peers[o]? = some p)
    (now : Int) : b.admits now ip = !p.isBanned now := by
  unfold Book.admits Book.getPeer
  simp only [h1, h2]

private theorem admits_of_none {b : Book} {ip : IpAddr} (h1 : b.find ip = none) {now : Int} (hn : 10800 ≤ now) :
    b.admits now ip = true := by
  unfold Book.admits Book.getPeer
  simp only [h1]
  unfold Book.add
  simp [Peer.isBanned, Peer.fresh, banWindow]
  omega

private theorem admits_capped {b : Book} (hb : BookOk b) {ip : IpAddr} {t now : Int} (h : Capped b ip t) (hn : t + 10800 ≤ now)
    (h0 : 10800 ≤ now) : b.admits now ip = true := by
  cases hf : b.find ip with
  | none => exact admits_of_none hf h0
  | some o =>
    obtain ⟨e, he, rfl, rfl⟩ := find_some hf
    obtain ⟨p, hp, hip⟩ := hb.peer e he
    rw [admits_of_find hf hp]
    have := h p (List.mem_of_getElem? hp) hip
    simp [Peer.isBanned, banWindow]
    omega

/-- Spec: when the peer of an address was last heard of; 0 if never, or if the address is not known. -/
def lastHeard (b : Book) (ip : IpAddr) : Int :=
  match b.find ip with
  | some o => match b.peers[o]? with
    | some p => p.lastContact
    | none => 0
  | none => 0

/-- Spec: the event bans the address, by its user or by a connection to the peer known under it. -/
def Bans (b : Book) (ip : IpAddr) : BookEv → Prop
  | .ban ip' _ => ip' = ip
  | .banned o _ => b.find ip = some o
  | _ => False

/-- **C111, a ban lasts three hours.**  Whatever happened since the program was started, when the user or a connection bans an address
at time `t`, and until `now` it is not pardoned or banned again and the program not started again, then until three hours after `t`
connections from the address are refused, it is not connected to and it is shown as banned, and from then on it is welcome.

Partial: not when the peer was last heard of long ago, see `old_peer_violated`, nor when the program is started again, see
`restart_violated`. -/
theorem ban_partial (preferred : List IpAddr) (before h : List (Int × BookEv)) (ip : IpAddr) (t now : Int) (ev : BookEv) (ht : 0 ≤ t)
    (hbefore : ∀ e ∈ before, e.1 ≤ t) (hev : Bans (after preferred before) ip ev)
    (hheard : lastHeard (after preferred before) ip = 0 ∨ t - 594000 ≤ lastHeard (after preferred before) ip)
    (hq : Quiet ip ((after preferred before).step t ev) h) (hh : ∀ e ∈ h, t ≤ e.1 ∧ e.1 ≤ now) (hn : t ≤ now) (h0 : 10800 ≤ now) :
    let b := ((after preferred before).step t ev).run h
    (now < t + 10800 →
      b.admits now ip = false ∧
      (∃ p, b.lookup ip = .ok (some p) ∧ p.isBanned now = true) ∧
      ∀ start start' capability o, (b.newPeer now start start' capability).1 = some o → ∃ p, b.peers[o]? = some p ∧ p.ip ≠ ip) ∧
    (t + 10800 ≤ now → b.admits now ip = true) := by
  have hb := after_ok preferred before
  have hpast := after_past preferred before ht hbefore
  generalize after preferred before = b0 at *
  have hcap : Capped (b0.step t ev) ip t := fun p hp _ => past_step ht (Int.le_refl t) hpast ev p hp
  have hheld : Held (b0.step t ev) ip t := by
    cases ev with
    | ban ip' r =>
      have : ip' = ip := hev
      subst this
      simp only [Book.step, Book.banPeer]
      cases hf : b0.find ip' with
      | some o =>
        obtain ⟨e, he, rfl, rfl⟩ := find_some hf
        obtain ⟨p, hp, hip⟩ := hb.peer e he
        refine ⟨e.peer, p.ban t r, hf, by simp [Book.update, hp], rfl, ?_⟩
        simpa [lastHeard, hf, hp, Peer.ban] using hheard
      | none =>
        refine ⟨b0.peers.length, (Peer.fresh ip').ban t r, ?_, by simp [Book.add], rfl, Or.inl rfl⟩
        rw [add_find _ _ hf]
        simp [Peer.ban, Peer.fresh]
    | banned o r =>
      have hf : b0.find ip = some o := hev
      obtain ⟨e, he, rfl, rfl⟩ := find_some hf
      obtain ⟨p, hp, hip⟩ := hb.peer e he
      refine ⟨e.peer, p.ban t r, hf, by simp [Book.step, Book.update, hp], rfl, ?_⟩
      simpa [lastHeard, hf, hp, Peer.ban] using hheard
    | _ => exact hev.elim
  have hb1 := step_ok hb t ev
  obtain ⟨q1, q2⟩ := quiet_run ht h hb1 hq hcap
  have hb2 := run_ok h hb1
  intro b
  refine ⟨fun hlt => ?_, fun hge => admits_capped hb2 q1 hge h0⟩
  obtain ⟨o, p, h1, h2, h3, h4⟩ := q2 hheld fun e he => ⟨(hh e he).1, Int.lt_of_le_of_lt (hh e he).2 hlt⟩
  have hban : p.isBanned now = true := by
    simp [Peer.isBanned, banWindow, h3]
    omega
  refine ⟨?_, ⟨p, ?_, hban⟩, ?_⟩
  · rw [admits_of_find h1 h2, hban]; rfl
  · unfold Book.lookup
    rw [h1, ← h2]
  · intro s s' c o' hs
    obtain ⟨v, hv, hva, hvb⟩ := (seek_found now s s' c _).1 o' hs
    unfold Book.view at hv
    obtain ⟨e, he, rfl⟩ := List.mem_map.1 hv
    simp only at hva hvb
    obtain ⟨p', hp', hip⟩ := hb2.peer e he
    subst hva
    refine ⟨p', hp', fun hip' => ?_⟩
    have hf := find_of_mem hb2 he
    rw [← hip, hip', h1] at hf
    cases hf
    rw [h2] at hp'
    cases hp'
    have : (((b0.step t ev).run h).peerOf e) = some p := h2
    rw [this] at hvb
    simp only [Option.getD_some, h3, banWindow] at hvb
    omega

/-- Two addresses. -/
private def addrA : IpAddr := .v4 [10, 0, 0, 1]
private def addrB : IpAddr := .v4 [10, 0, 0, 2]

-- A peer connects, sends something and is banned for it; the pass runs, it arrives again, others come and go.
example :
    let before : List (Int × BookEv) := [(1000000, .arrive addrA), (1000001, .shake 0 3 7 []), (1000002, .contact 0)]
    let h : List (Int × BookEv) := [(1000004, .connected 0 false), (1000015, .manage), (1000016, .arrive addrA), (1000017, .ban addrB 5),
      (1000030, .manage), (1000031, .seek 0 0 0)]
    let b := ((after [] before).step 1000003 (.banned 0 3)).run h
    Bans (after [] before) addrA (.banned 0 3) ∧ lastHeard (after [] before) addrA = 1000002 ∧ b.admits 1010802 addrA = false ∧
      b.admits 1010803 addrA = true := by
  refine ⟨?_, by decide +kernel, by decide +kernel, by decide +kernel⟩
  show Book.find _ _ = some _
  decide +kernel

example : Quiet addrA ((after [] [(1000000, .arrive addrA), (1000001, .arrive addrB)]).step 1000003 (.banned 0 3))
    [(1000015, .manage), (1000016, .ban addrB 5), (1000017, .banned 1 3), (1000018, .arrive addrA)] := by
  refine ⟨trivial, by show addrB ≠ addrA; decide, ?_, trivial, trivial⟩
  intro p hp
  have : ((((after [] [(1000000, .arrive addrA), (1000001, .arrive addrB)]).step 1000003 (.banned 0 3)).step 1000015 .manage).step
      1000016 (.ban addrB 5)).peers[1]?.map (·.ip) = some addrB := by decide +kernel
  simp only at hp
  rw [hp] at this
  simp only [Option.map_some, Option.some.injEq] at this
  rw [this]
  decide

/-- **C111, nobody is banned without reason.**  An address that since the start was never banned is welcome. -/
theorem not_banned (preferred : List IpAddr) (h : List (Int × BookEv)) (ip : IpAddr) (now : Int)
    (hq : Quiet ip (after preferred []) h) (h0 : 10800 ≤ now) : (after preferred h).admits now ip = true := by
  have hb : BookOk (after preferred []) := after_ok preferred []
  have hc : Capped (after preferred []) ip 0 := fun p hp _ => after_past preferred [] (Int.le_refl 0) (fun e he => (nomatch he)) p hp
  exact admits_capped (after_ok preferred h) (quiet_run (Int.le_refl 0) h hb hq hc).1 (by omega) h0

example : Quiet addrA (after [addrA] []) [(5, .arrive addrB), (6, .ban addrB 5), (7, .manage)] :=
  ⟨trivial, by show addrB ≠ addrA; decide, trivial, trivial⟩

/-- **C111, a pardon.**  After the user lifts the ban of an address, it is welcome. -/
theorem pardoned (preferred : List IpAddr) (h : List (Int × BookEv)) (ip : IpAddr) (now : Int) (h0 : 10800 ≤ now) :
    ((after preferred h).step now (.unban ip)).admits now ip = true := by
  have hb := after_ok preferred h
  generalize after preferred h = b at *
  simp only [Book.step, Book.unbanPeer]
  cases hf : b.find ip with
  | none => exact admits_of_none hf h0
  | some o =>
    obtain ⟨e, he, rfl, rfl⟩ := find_some hf
    obtain ⟨p, hp, hip⟩ := hb.peer e he
    rw [admits_of_find (p := p.unban) ((update_find b _ _ _).trans hf) (by simp [Book.update, hp])]
    simp [Peer.isBanned, Peer.unban, banWindow]
    omega

private theorem unbanAll_get (now : Int) (os : List Nat) : ∀ (b : Book) (o : Nat) (p : Peer), b.peers[o]? = some p →
    (os.foldl (fun b o => b.update o fun p => if p.isBanned now then p.unban else p) b).peers[o]? =
      some (if o ∈ os ∧ p.isBanned now = true then p.unban else p) := by
  induction os with
  | nil => intro b o p h; simp [h]
  | cons d os ih =>
    intro b o p h
    rw [List.foldl_cons]
    by_cases hd : d = o
    · subst hd
      rw [ih _ d (if p.isBanned now then p.unban else p) (by simp [Book.update, h])]
      by_cases hb : p.isBanned now = true
      · simp only [hb, if_true, List.mem_cons, true_or, and_self]
        split <;> rfl
      · simp [hb]
    · rw [ih _ o p (by simp [Book.update, h, hd])]
      simp [Ne.symm hd]

private theorem unbanAll_find (now : Int) (os : List Nat) (ip : IpAddr) : ∀ (b : Book),
    (os.foldl (fun b o => b.update o fun p => if p.isBanned now then p.unban else p) b).find ip = b.find ip := by
  induction os with
  | nil => intro b; rfl
  | cons d os ih => intro b; rw [List.foldl_cons, ih]; rfl

private theorem unbanAll_admits {b : Book} {ip : IpAddr} {now : Int} (h0 : 10800 ≤ now) {o : Nat} {p : Peer}
    (hf : b.find ip = some o) (hp : b.peers[o]? = some p) :
    (b.unbanAll now).admits now ip = (decide (0 < p.lastContact) || !p.isBanned now) := by
  have hmem : o ∈ b.allPeers ↔ 0 < p.lastContact := by
    unfold Book.allPeers
    rw [List.mem_filter, hp]
    simp only [decide_eq_true_eq]
    obtain ⟨e, he, -, rfl⟩ := find_some hf
    exact ⟨fun h => h.2, fun h => ⟨List.mem_map.2 ⟨e, he, rfl⟩, h⟩⟩
  unfold Book.unbanAll
  rw [admits_of_find ((unbanAll_find now _ ip b).trans hf) (unbanAll_get now _ b o p hp)]
  by_cases hl : 0 < p.lastContact
  · have hm := hmem.2 hl
    by_cases hbn : p.isBanned now = true
    · rw [if_pos ⟨hm, hbn⟩]
      simp [hl, Peer.unban, Peer.isBanned, banWindow]
      omega
    · rw [if_neg fun h => hbn h.2]
      simp [hl, hbn]
  · rw [if_neg fun h => hl (hmem.1 h.1)]
    simp [hl]

/-- **C111, all are pardoned.**  After a resync the peers that were ever heard of are welcome.

Partial: not the others, see `unban_all_violated`. -/
theorem unban_all_partial (preferred : List IpAddr) (h : List (Int × BookEv)) (ip : IpAddr) (now : Int) (h0 : 10800 ≤ now)
    (hheard : 0 < lastHeard (after preferred h) ip) : ((after preferred h).step now .unbanAll).admits now ip = true := by
  have hb := after_ok preferred h
  generalize after preferred h = b at *
  unfold lastHeard at hheard
  cases hf : b.find ip with
  | none => simp [hf] at hheard
  | some o =>
    obtain ⟨e, he, rfl, rfl⟩ := find_some hf
    obtain ⟨p, hp, hip⟩ := hb.peer e he
    simp only [hf, hp] at hheard
    rw [Book.step, unbanAll_admits h0 hf hp]
    simp [hheard]

example : 0 < lastHeard (after [] [(1000000, .arrive addrA), (1000001, .contact 0), (1000002, .banned 0 3)]) addrA := by decide +kernel

/-- **C111 fails when all are to be pardoned.**  An address the node never heard from, which the user banned, stays banned when all
bans are lifted. -/
theorem unban_all_violated (preferred : List IpAddr) (h : List (Int × BookEv)) (ip : IpAddr) (t now : Int) (r : Int)
    (hheard : lastHeard (after preferred h) ip = 0) (h1 : now < t + 10800) (h0 : 10800 ≤ now) :
    (((after preferred h).step t (.ban ip r)).step now .unbanAll).admits now ip = false := by
  have hb := after_ok preferred h
  generalize after preferred h = b at *
  have hb' := step_ok hb t (.ban ip r)
  have : ∃ o p, (b.step t (.ban ip r)).find ip = some o ∧ (b.step t (.ban ip r)).peers[o]? = some p ∧ p.lastBan = t ∧
      p.lastContact = 0 := by
    simp only [Book.step, Book.banPeer]
    cases hf : b.find ip with
    | some o =>
      obtain ⟨e, he, rfl, rfl⟩ := find_some hf
      obtain ⟨p, hp, hip⟩ := hb.peer e he
      refine ⟨e.peer, p.ban t r, hf, by simp [Book.update, hp], rfl, ?_⟩
      simpa [lastHeard, hf, hp, Peer.ban] using hheard
    | none =>
      refine ⟨b.peers.length, (Peer.fresh ip).ban t r, ?_, by simp [Book.add], rfl, rfl⟩
      rw [add_find _ _ hf]
      simp [Peer.ban, Peer.fresh]
  obtain ⟨o, p, g1, g2, g3, g4⟩ := this
  generalize b.step t (.ban ip r) = b' at *
  rw [Book.step, unbanAll_admits h0 g1 g2, g4]
  simp [Peer.isBanned, g3, banWindow]
  omega

example : lastHeard (after [addrB] [(1000000, .arrive addrA)]) addrA = 0 := by decide +kernel

/-- **C111 fails when the program is started again.**  Every address is welcome then, and without preferred peers in the
configuration no peer at all is known: the database of peers is removed at the start. -/
theorem restart_violated (b : Book) (preferred : List IpAddr) (t now : Int) (ip : IpAddr) (h0 : 10800 ≤ now) :
    (b.step t (.restart preferred)).admits now ip = true ∧
    (preferred = [] → (b.step t (.restart preferred)).lookup ip = .ok none) := by
  constructor
  · have : b.step t (.restart preferred) = after preferred [] := by simp only [Book.step, create_empty]; rfl
    rw [this]
    exact not_banned preferred [] ip now trivial h0
  · rintro rfl
    rfl

/-- **C111 fails for a peer last heard of more than a week ago.**  When the user bans it, the second pass of the peer manager forgets
it and its ban with it. -/
theorem old_peer_violated (preferred : List IpAddr) (h : List (Int × BookEv)) (ip : IpAddr) (t t1 t2 r : Int)
    (hheard : 0 < lastHeard (after preferred h) ip) (hold : lastHeard (after preferred h) ip < t - 604800) (h1 : t ≤ t1) (h2 : t1 ≤ t2) :
    let b := (((after preferred h).step t (.ban ip r)).step t1 .manage).step t2 .manage
    b.admits t2 ip = true ∧ b.find ip = none := by
  have hb := after_ok preferred h
  generalize after preferred h = b at *
  have hf : ∃ o p, b.find ip = some o ∧ b.peers[o]? = some p ∧ 0 < p.lastContact ∧ p.lastContact < t - 604800 := by
    unfold lastHeard at hheard hold
    cases hf : b.find ip with
    | none => simp [hf] at hheard
    | some o =>
      obtain ⟨e, he, rfl, rfl⟩ := find_some hf
      obtain ⟨p, hp, hip⟩ := hb.peer e he
      simp only [hf, hp] at hheard hold
      exact ⟨_, p, rfl, hp, hheard, hold⟩
  obtain ⟨o, p, hf, hp, hc1, hc2⟩ := hf
  have hb1 := step_ok hb t (.ban ip r)
  have g1 : (b.step t (.ban ip r)).find ip = some o ∧ (b.step t (.ban ip r)).peers[o]? = some (p.ban t r) := by
    simp only [Book.step, Book.banPeer, hf]
    exact ⟨hf, by simp [Book.update, hp]⟩
  generalize b.step t (.ban ip r) = b1 at *
  have hb2 := step_ok hb1 t1 .manage
  have g2 : (b1.step t1 .manage).find ip = some o ∧
      (b1.step t1 .manage).peers[o]? = some { p.ban t r with dirty := false } := by
    constructor
    · rw [Book.step, manage_find hb1 t1 g1.1 g1.2]
      rfl
    · have hdirty : ((b1.entries.filter fun e => match b1.peerOf e with
          | some p => saves p
          | none => false).map (·.peer)).contains o = true := by
        rw [List.contains_iff_mem, List.mem_map]
        obtain ⟨e, he, -, rfl⟩ := find_some g1.1
        refine ⟨e, List.mem_filter.2 ⟨he, ?_⟩, rfl⟩
        unfold Book.peerOf
        rw [g1.2]
        rfl
      have := clean_get ((b1.entries.filter fun e => match b1.peerOf e with
          | some p => saves p
          | none => false).map (·.peer)) _ _ _ g1.2
      rw [hdirty] at this
      simp only [Bool.not_true, Bool.and_false] at this
      exact this
  generalize b1.step t1 .manage = b2 at *
  have g3 : (b2.step t2 .manage).find ip = none := by
    rw [Book.step, manage_find hb2 t2 g2.1 g2.2, if_pos]
    show (!false && decide (p.lastContact > 0) && decide (p.lastContact < t2 - 604800)) = true
    simp only [Bool.not_false, Bool.true_and, Bool.and_eq_true, decide_eq_true_eq]
    omega
  exact ⟨admits_of_none g3 (by omega), g3⟩

example : lastHeard (after [] [(1000000, .arrive addrA), (1000001, .contact 0), (1000002, .connected 0 false), (1000015, .manage)]) addrA =
    1000001 := by decide +kernel

/-! ## What is shown, and the database -/

private theorem ipSer_inj {a b : IpAddr} (h : ipSer a = ipSer b) : a = b := by
  have h0 : beBytes 1 0 = [0] := by decide
  have h1 : beBytes 1 1 = [1] := by decide
  cases a <;> cases b <;> simp [ipSer, h0, h1] at h <;> simp [h]

private theorem save_keys (ps : List Peer) : ∀ (d : PeerDisk) (e : Bytes × Bytes), e ∈ savePeers d ps →
    (∃ p ∈ ps, e.1 = ipSer p.ip) ∨ e ∈ d := by
  induction ps with
  | nil => intro d e h; exact Or.inr h
  | cons p ps ih =>
    intro d e h
    rcases ih _ e h with ⟨q, hq, hk⟩ | h
    · exact Or.inl ⟨q, List.mem_cons_of_mem _ hq, hk⟩
    · rw [List.mem_cons] at h
      rcases h with rfl | h
      · exact Or.inl ⟨p, List.mem_cons_self, rfl⟩
      · exact Or.inr (List.mem_filter.1 h).1

private theorem delete_keys (ps : List Peer) : ∀ (d : PeerDisk) (e : Bytes × Bytes), e ∈ deletePeers d ps →
    e ∈ d ∧ ∀ p ∈ ps, e.1 ≠ ipSer p.ip := by
  induction ps with
  | nil => intro d e h; exact ⟨h, fun p hp => (nomatch hp)⟩
  | cons p ps ih =>
    intro d e h
    obtain ⟨h1, h2⟩ := ih _ e h
    rw [List.mem_filter] at h1
    refine ⟨h1.1, fun q hq => ?_⟩
    rw [List.mem_cons] at hq
    rcases hq with rfl | hq
    · simpa using h1.2
    · exact h2 q hq

private def DiskIn (b : Book) : Prop := ∀ d ∈ b.disk, ∃ e ∈ b.entries, d.1 = ipSer e.ip

private theorem disk_step {b : Book} (hb : BookOk b) (h : DiskIn b) (now : Int) (ev : BookEv) : DiskIn (b.step now ev) := by
  have add : ∀ (b : Book) (q : Peer) (la : Int), DiskIn b → DiskIn (b.add q la) := by
    intro b q la h d hd
    obtain ⟨e, he, hk⟩ := h d hd
    exact ⟨e, List.mem_append_left _ he, hk⟩
  have fresh : ∀ (ips : List IpAddr) (b : Book), DiskIn b → DiskIn (b.addFresh ips) := by
    intro ips
    induction ips with
    | nil => intro b hb; exact hb
    | cons ip' ips ih =>
      intro b hb
      refine ih _ ?_
      simp only [Book.getPeer]
      cases b.find ip' with
      | some o => exact hb
      | none => exact add b _ 0 hb
  cases ev with
  | arrive ip => exact fresh [ip] b h
  | fresh ips => exact fresh ips b h
  | ban ip' r =>
    simp only [Book.step, Book.banPeer]
    cases hf : b.find ip' with
    | some o => exact h
    | none => exact add _ _ _ h
  | unban ip' =>
    simp only [Book.step, Book.unbanPeer]
    cases hf : b.find ip' with
    | some o => exact h
    | none => exact h
  | unbanAll =>
    have : ∀ (os : List Nat) (b : Book), DiskIn b →
        DiskIn (os.foldl (fun b o => b.update o fun p => if p.isBanned now then p.unban else p) b) := by
      intro os
      induction os with
      | nil => intro b hb; exact hb
      | cons o os ih => intro b hb; exact ih _ hb
    exact this _ b h
  | banned o r => exact h
  | contact o => exact h
  | connected o v => exact h
  | shake o v c a => exact h
  | seek s s' c =>
    intro d hd
    obtain ⟨e, he, hk⟩ := h d hd
    have : (e.ip, e.peer) ∈ (b.newPeer now s s' c).2.entries.map (fun e => (e.ip, e.peer)) := by
      rw [newPeer_entries]; exact List.mem_map.2 ⟨e, he, rfl⟩
    obtain ⟨e', he', heq⟩ := List.mem_map.1 this
    simp only [Prod.mk.injEq] at heq
    exact ⟨e', he', by rw [heq.1]; exact hk⟩
  | manage =>
    intro d hd
    obtain ⟨h1, h2⟩ := delete_keys _ _ d hd
    have : ∃ e ∈ b.entries, d.1 = ipSer e.ip := by
      rcases save_keys _ _ d h1 with ⟨p, hp, hk⟩ | h1
      · obtain ⟨q, hq, rfl⟩ := List.mem_map.1 hp
        obtain ⟨e, he, hpe⟩ := List.mem_filterMap.1 (List.mem_filter.1 hq).1
        obtain ⟨q', hq', hip⟩ := hb.peer e he
        unfold Book.peerOf at hpe
        rw [hq'] at hpe
        cases hpe
        exact ⟨e, he, by rw [hk, hip]⟩
      · exact h d h1
    obtain ⟨e, he, hk⟩ := this
    refine ⟨e, List.mem_filter.2 ⟨he, ?_⟩, hk⟩
    rw [Bool.not_eq_true', ← Bool.not_eq_true, List.contains_iff_mem, List.mem_map]
    rintro ⟨q, hq, hqe⟩
    exact h2 q hq (by rw [hk, hqe])
  | restart preferred =>
    simp only [Book.step, create_empty]
    exact fresh preferred _ (fun d hd => (nomatch hd))

/-- **C111, what is shown.**  Asked about an address, the API shows the peer the node knows under it, and nothing otherwise: the
database never has more to say. -/
theorem shown (preferred : List IpAddr) (h : List (Int × BookEv)) (ip : IpAddr) :
    (∀ p, (after preferred h).lookup ip = .ok (some p) ↔ ∃ o, (after preferred h).find ip = some o ∧ (after preferred h).peers[o]? = some p) ∧
    ((after preferred h).lookup ip = .ok none ↔ (after preferred h).find ip = none) := by
  have hd : DiskIn (after preferred h) := by
    have : ∀ (h : List (Int × BookEv)) (b : Book), BookOk b → DiskIn b → DiskIn (b.run h) := by
      intro h
      induction h with
      | nil => intro b _ hd; exact hd
      | cons e h ih => intro b hb hd; exact ih _ (step_ok hb e.1 e.2) (disk_step hb hd e.1 e.2)
    refine this h _ (addFresh_ok preferred empty_ok) ?_
    exact disk_step (b := ⟨[], [], []⟩) empty_ok (fun d hd => (nomatch hd)) 0 (.fresh preferred)
  have hb := after_ok preferred h
  generalize after preferred h = b at *
  cases hf : b.find ip with
  | some o =>
    obtain ⟨e, he, rfl, rfl⟩ := find_some hf
    obtain ⟨p, hp, hip⟩ := hb.peer e he
    simp [Book.lookup, hf, hp]
  | none =>
    have : b.disk.find? (fun e => decide (e.1 = ipSer ip)) = none := by
      rw [List.find?_eq_none]
      intro d hd' he
      obtain ⟨e, he', hk⟩ := hd d hd'
      have : e.ip = ip := ipSer_inj (by rw [← hk]; simpa using he)
      exact find_none.1 hf e he' this
    simp [Book.lookup, hf, diskGet, this]

private theorem reads_i32 {x : Int} (h1 : -2 ^ 31 ≤ x) (h2 : x < 2 ^ 31) : Reads readI32 (serI32 x) x := by
  unfold readI32 serI32
  have hlt : (x % 2 ^ 32).toNat < 4294967296 := by omega
  refine Reads.bind0 (reads_u32 hlt) ?_
  have : (if (x % 2 ^ 32).toNat < 2 ^ 31 then ((x % 2 ^ 32).toNat : Int) else ((x % 2 ^ 32).toNat : Int) - 2 ^ 32) = x := by
    split <;> omega
  rw [this]
  exact Reads.pure x

/-- **C111, the record of a peer.**  A stored peer is read back as it was, but neither connected nor changed. -/
theorem peer_record (p : Peer) (h1 : ValidAddr ⟨p.ip, 0⟩) (h2 : p.version < 2 ^ 32) (h3 : p.capabilities < 2 ^ 32)
    (h4 : p.agent.length < 2 ^ 64) (h5 : -2 ^ 63 ≤ p.lastContact ∧ p.lastContact < 2 ^ 63)
    (h6 : -2 ^ 63 ≤ p.lastBan ∧ p.lastBan < 2 ^ 63) (h7 : -2 ^ 31 ≤ p.reason ∧ p.reason < 2 ^ 31) :
    Reads peerDeser (peerSer p) { p with connected := false, dirty := false } := by
  unfold peerDeser peerSer
  exact Reads.bind (reads_addr h1) (Reads.bind (reads_u32 h2) (Reads.bind (reads_u32 h3) (Reads.bind (reads_varStr h4)
    (Reads.bind (reads_i64 h5.1 h5.2) (Reads.bind (reads_i64 h6.1 h6.2) (Reads.bind0 (reads_i32 h7.1 h7.2) (Reads.pure _)))))))

/-! ## Requests -/

/-- **C111, requests.**  The address and the command of a request about a peer, with or without a port. -/
theorem peer_request (ip port command : Bytes) (hip : 58 ∉ ip ∧ 47 ∉ ip) (hport : 47 ∉ port) (hc : 58 ∉ command) :
    parseIp ip = ip ∧ parseCommand ip = [] ∧
    parseIp (ip ++ 47 :: command) = ip ∧ parseCommand (ip ++ 47 :: command) = command ∧
    parseIp (ip ++ 58 :: port) = ip ∧ parseCommand (ip ++ 58 :: port) = [] ∧
    parseIp (ip ++ 58 :: (port ++ 47 :: command)) = ip ∧ parseCommand (ip ++ 58 :: (port ++ 47 :: command)) = command := by
  have tw : ∀ (c : UInt8) (a b : Bytes), c ∉ a → (a ++ c :: b).takeWhile (· ≠ c) = a := by
    intro c a b h
    induction a with
    | nil => simp
    | cons x a ih =>
      rw [List.mem_cons, not_or] at h
      rw [List.cons_append, List.takeWhile_cons, if_pos (by simpa using Ne.symm h.1), ih h.2]
  have dw : ∀ (c : UInt8) (a b : Bytes), c ∉ a → (a ++ c :: b).dropWhile (· ≠ c) = c :: b := by
    intro c a b h
    induction a with
    | nil => simp
    | cons x a ih =>
      rw [List.mem_cons, not_or] at h
      rw [List.cons_append, List.dropWhile_cons, if_pos (by simpa using Ne.symm h.1), ih h.2]
  have a2 : ip ++ 58 :: (port ++ 47 :: command) = (ip ++ 58 :: port) ++ 47 :: command := by simp
  have n2 : (47 : UInt8) ∉ ip ++ 58 :: port := by
    simp [hip.2, hport]
  refine ⟨?_, ?_, ?_, ?_, ?_, ?_, ?_, ?_⟩
  · simp [parseIp, hip.1, hip.2]
  · simp [parseCommand, hip.2]
  · unfold parseIp
    rw [if_neg (by simp [hip.1, hc]), if_pos (by simp), tw _ _ _ hip.2]
  · unfold parseCommand
    rw [if_pos (by simp), dw _ _ _ hip.2]
    rfl
  · unfold parseIp
    rw [if_pos (by simp), tw _ _ _ hip.1]
  · unfold parseCommand
    rw [if_neg (by simpa using n2)]
  · unfold parseIp
    rw [if_pos (by simp), tw _ _ _ hip.1]
  · unfold parseCommand
    rw [a2, if_pos (by simp), dw _ _ _ n2]
    rfl

/-- **C111, a request to ban.**  A POST of `address/ban` bans the address. -/
theorem ban_request (parse : Bytes → Option IpAddr) (b : Book) (now : Int) (text : Bytes) (ip : IpAddr) (ht : text ≠ [])
    (hip : 58 ∉ text ∧ 47 ∉ text) (hp : parse text = some ip) :
    peerHandler parse b now true (text ++ str "/ban") = (.done, b.step now (.ban ip 5)) ∧
    peerHandler parse b now true (text ++ str "/unban") = (.done, b.step now (.unban ip)) ∧
    peerHandler parse b now false text = (match b.lookup ip with
      | .ok (some p) => (.peer p, b)
      | _ => (.notFound, b)) := by
  have e1 : str "/ban" = 47 :: str "ban" := by decide
  have e2 : str "/unban" = 47 :: str "unban" := by decide
  have r1 := peer_request text [] (str "ban") hip (by simp) (by decide)
  have r2 := peer_request text [] (str "unban") hip (by simp) (by decide)
  refine ⟨?_, ?_, ?_⟩
  · unfold peerHandler
    rw [e1, if_neg (by simp), r1.2.2.1, r1.2.2.2.1, hp]
    simp only [true_and, if_true]
    rfl
  · unfold peerHandler
    rw [e2, if_neg (by simp), r2.2.2.1, r2.2.2.2.1, hp]
    simp only
    rw [if_neg (by decide), if_pos (by decide)]
    rfl
  · unfold peerHandler
    rw [if_neg ht, r1.1, r1.2.1, hp]
    simp only
    rw [if_neg (by decide), if_neg (by decide), if_pos (by decide)]
    cases b.lookup ip with
    | ok r => cases r <;> rfl
    | throw => rfl
    | ub => rfl

/-- **C111, looking changes nothing.**  Only a POST that asks for a ban or for its end changes what the node knows about its peers. -/
theorem peer_get_changes_nothing (parse : Bytes → Option IpAddr) (b : Book) (now : Int) (post : Bool) (request : Bytes)
    (h : post = false ∨ (parseCommand request ≠ str "ban" ∧ parseCommand request ≠ str "unban")) :
    (peerHandler parse b now post request).2 = b := by
  unfold peerHandler
  split
  · rfl
  split
  · rfl
  rw [if_neg (by rintro ⟨h1, h2⟩; rcases h with h | h; · simp [h] at h2
                 · exact h.1 h1),
    if_neg (by rintro ⟨h1, h2⟩; rcases h with h | h; · simp [h] at h2
               · exact h.2 h1)]
  split
  · split <;> rfl
  · rfl

example : (peerHandler (fun _ => some addrA) (after [] []) 1000000 true (str "10.0.0.1/ban")).1 = .done := by decide +kernel

/-- **C111 fails for IPv6 addresses.**  Their text has a colon, at which the address of a request is cut: no request is about such a
peer. -/
theorem ipv6_violated (parse : Bytes → Option IpAddr) (hparse : ∀ s a, parse s = some (.v6 a) → 58 ∈ s) (request : Bytes) :
    ∀ a, parse (parseIp request) ≠ some (.v6 a) := by
  intro a h
  have := hparse _ _ h
  unfold parseIp at this
  split at this
  · have hnot : ∀ l : Bytes, (58 : UInt8) ∉ l.takeWhile (· ≠ 58) := by
      intro l
      induction l with
      | nil => simp
      | cons c l ih =>
        rw [List.takeWhile_cons]
        split
        · rename_i hc
          rw [List.mem_cons, not_or]
          exact ⟨fun e => by simp [← e] at hc, ih⟩
        · simp
    exact hnot _ this
  · rename_i hn
    split at this
    · have := (List.takeWhile_sublist _).mem this
      simp [this] at hn
    · simp [this] at hn

end Verif.Props
