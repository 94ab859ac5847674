import Mathlib.Data.Nat.Find
import Verif.Chain.Store
import Verif.Props.DataFile

/-!
# C37: the chain index

The spec of a chain is a pair of lists of block hashes: the one on disk and the current one.
-/
namespace Verif.Props
open Verif.BC Verif.File

/-! ## Spec -/

/-- One chain: the hashes last committed and the current hashes, by height. -/
structure Path where
  saved : List Bytes
  cur : List Bytes
deriving DecidableEq

structure Paths where
  confirmed : Path
  candidate : Path
deriving DecidableEq

def Paths.get (s : Paths) : Which → Path
  | .confirmed => s.confirmed
  | .candidate => s.candidate

def Paths.put (s : Paths) (w : Which) (l : List Bytes) : Paths :=
  match w with
  | .confirmed => { s with confirmed := { s.confirmed with cur := l } }
  | .candidate => { s with candidate := { s.candidate with cur := l } }

/-- The two lists have the same entry at `h`. -/
def Agree (a b : List Bytes) (h : Nat) : Prop := h < a.length ∧ h < b.length ∧ a[h]? = b[h]?

instance (a b : List Bytes) (h : Nat) : Decidable (Agree a b h) := by unfold Agree; infer_instance

/-- The highest height at which two lists agree. -/
def lastAgree (a b : List Bytes) : Nat := Nat.findGreatest (Agree a b) (min a.length b.length)

/-- What each call does, and whether it succeeds; a refused call changes nothing. -/
def pSpec (s : Paths) : Op → Paths × Bool
  | .add w hash height =>
    if height = (s.get w).cur.length then (s.put w ((s.get w).cur ++ [hash]), true) else (s, false)
  | .rewind w height =>
    if height < (s.get w).cur.length then (s.put w ((s.get w).cur.take (height + 1)), true)
    else (s, false)
  | .reorg a b height =>
    if height < (s.get a).cur.length then
      let m := min (lastAgree (s.get a).cur (s.get b).cur) height
      (s.put b ((s.get b).cur.take (m + 1) ++ ((s.get a).cur.take (height + 1)).drop (m + 1)), true)
    else (s, false)
  | .addFrom a b height =>
    if height = (s.get b).cur.length then
      match (s.get a).cur[height]? with
      | some hash => (s.put b ((s.get b).cur ++ [hash]), true)
      | none => (s, false)
    else (s, false)
  | .commit => (⟨⟨s.confirmed.cur, s.confirmed.cur⟩, ⟨s.candidate.cur, s.candidate.cur⟩⟩, true)
  | .rollback => (⟨⟨s.confirmed.saved, s.confirmed.saved⟩, ⟨s.candidate.saved, s.candidate.saved⟩⟩, true)
  | .rollbackOne w => (s.put w (s.get w).saved, true)
  | .restart => (⟨⟨s.confirmed.saved, s.confirmed.saved⟩, ⟨s.candidate.saved, s.candidate.saved⟩⟩, true)

/-- The modelled store; a call that throws leaves it as it is.  Undefined behaviour has no result. -/
def storeStep (genesis : Index) (s : Store) (op : Op) : Option (Store × Bool) :=
  match op.run genesis s with
  | .ok s' => some (s', true)
  | .throw => some (s, false)
  | .ub => none

def storeRun (genesis : Index) : Store → List Op → Option (Store × List Bool)
  | s, [] => some (s, [])
  | s, op :: ops => do
    let (s', b) ← storeStep genesis s op
    let (s'', bs) ← storeRun genesis s' ops
    return (s'', b :: bs)

/-! ## Representation -/

private def indexed (l : List Bytes) : List Index := l.mapIdx (fun i x => ⟨x, i⟩)

private theorem indexed_get (l : List Bytes) (h : Nat) : (indexed l)[h]? = l[h]?.map (⟨·, h⟩) := by
  simp [indexed]

private theorem indexed_length (l : List Bytes) : (indexed l).length = l.length := by simp [indexed]

private theorem indexed_append (l : List Bytes) (x : Bytes) :
    indexed (l ++ [x]) = indexed l ++ [⟨x, l.length⟩] := by simp [indexed]

private theorem indexed_take (l : List Bytes) (n : Nat) : indexed (l.take n) = (indexed l).take n := by
  apply List.ext_getElem?
  intro i
  rw [indexed_get, List.getElem?_take, List.getElem?_take, indexed_get]
  split <;> simp

/-- A chain object holds the path. -/
private structure Holds (g : Bytes) (c : Chain) (p : Path) : Prop where
  idx : c.indices = indexed p.cur
  height : c.height + 1 = p.cur.length
  file : DFile.Shows 32 c.file p.saved p.cur
  clean : c.dirty = false → p.saved = p.cur
  gsaved : p.saved[0]? = some g
  gcur : p.cur[0]? = some g

private def Tidy (c : Chain) : Prop := ∀ (h : Nat) (i : Index), c.indices[h]? = some i → i.height = h

private theorem tidy_indexed {c : Chain} {l : List Bytes} (h : c.indices = indexed l) : Tidy c := by
  intro k i hi
  rw [h, indexed_get] at hi
  cases hk : l[k]? <;> simp [hk] at hi
  rw [← hi]

private theorem getOrCreate_eq {chains : List Chain} (h : ∀ c ∈ chains, Tidy c) (hash : Bytes) (k : Nat) :
    getOrCreate chains hash k = ⟨hash, k⟩ := by
  unfold getOrCreate
  split
  · rename_i i hi
    obtain ⟨c, hc, hf⟩ := List.exists_of_findSome?_eq_some hi
    rw [Option.filter_eq_some_iff] at hf
    obtain ⟨h1, h2⟩ := hf
    unfold Chain.getByHeight at h1
    split at h1
    · have := h c hc k i h1
      simp only [decide_eq_true_eq] at h2
      cases i; simp_all
    · cases h1
  · rfl

private theorem getByHeight_eq {g : Bytes} {c : Chain} {p : Path} (h : Holds g c p) (k : Nat) :
    c.getByHeight k = p.cur[k]?.map (⟨·, k⟩) := by
  unfold Chain.getByHeight
  have := h.height
  rw [h.idx, indexed_length, indexed_get]
  split
  · rfl
  · rw [List.getElem?_eq_none (by omega)]; rfl

private theorem fill_ok {w saved : List Bytes} {known : Chain → List Chain}
    (hk : ∀ c, Tidy c → ∀ x ∈ known c, Tidy x) (hs : w.length * 32 < U64) :
    ∀ (n k : Nat) (c : Chain), c.indices = indexed (w.take k) → k + n = w.length →
      DFile.Shows 32 c.file saved w →
      Chain.fill known n c = .ok { c with indices := indexed w } := by
  intro n
  induction n with
  | zero =>
    intro k c hi hl _
    rw [List.take_of_length_le (by omega)] at hi
    rw [Chain.fill, ← hi]
  | succ n ih =>
    intro k c hi hl hf
    have hlen : c.indices.length = k := by rw [hi, indexed_length, List.length_take]; omega
    rw [Chain.fill, hlen, hf.get k (by omega) (by omega), Res.ok_bind]
    rw [getOrCreate_eq (hk c (tidy_indexed hi))]
    rw [ih (k + 1) _ ?_ (by omega) ?_]
    · show c.indices ++ _ = _
      rw [hi, List.take_succ_eq_append_getElem (by omega), indexed_append, List.length_take]
      congr 3
      omega
    · exact hf

private theorem holds_load {g : Index} (hg : g.height = 0) (hl : g.hash.length = 32) {known : List Chain}
    (hk : ∀ x ∈ known, Tidy x) (saved : List Bytes) (h32 : ∀ r ∈ saved, r.length = 32)
    (h0 : ∀ x, saved[0]? = some x → x = g.hash) (hs : saved.length * 32 < U64) :
    ∃ c, Chain.load known g saved.flatten = .ok c ∧
      Holds g.hash c (if saved = [] then ⟨[g.hash], [g.hash]⟩ else ⟨saved, saved⟩) := by
  have hshow : DFile.Shows 32 (DFile.load saved.flatten) saved saved :=
    ⟨AFile.shows_load _, h32, h32,
      ⟨saved.length, by simp only [DFile.load, AFile.load]; exact flatten_len h32⟩, fun _ => ⟨rfl, rfl⟩⟩
  have hgi : g = ⟨g.hash, 0⟩ := by cases g; simp_all
  unfold Chain.load
  simp only [hshow.size (by decide), List.length_eq_zero_iff]
  by_cases he : saved = []
  · subst he
    rw [if_pos rfl, if_pos rfl]
    obtain ⟨_, a2⟩ := dStep_shows (by decide) hshow (.add g.hash) hl
    obtain ⟨b1, b2⟩ := dStep_shows (by decide) a2 .commit trivial
    simp only [dStep, dSpec, List.nil_append] at b1 b2
    cases hc : ((DFile.load ([] : List Bytes).flatten).add g.hash).commit with
    | ok d =>
      rw [hc] at b2
      simp only [Res.ok_bind]
      rw [b2.size (by decide)]
      refine ⟨_, rfl, ?_⟩
      exact ⟨by simp [indexed]; exact hgi, rfl, b2, fun _ => rfl, rfl, rfl⟩
    | throw => rw [hc] at b1; cases b1
    | ub => rw [hc] at b1; cases b1
  · rw [if_neg he, if_neg he]
    have hpos : 0 < saved.length := List.length_pos_iff.mpr he
    have hh : saved[0]? = some g.hash := by
      rw [List.getElem?_eq_getElem hpos]; congr 1; exact h0 _ (List.getElem?_eq_getElem hpos)
    simp only [Res.ok_bind]
    rw [hshow.size (by decide)]
    rw [fill_ok (w := saved) (saved := saved) (fun _ _ => hk) hs (saved.length - 1) 1 _ ?_ (by omega) hshow]
    · refine ⟨_, rfl, rfl, ?_, hshow, fun _ => rfl, hh, hh⟩
      show (indexed saved).length - 1 + 1 = _
      rw [indexed_length]; simp only; omega
    · show [g] = _
      have : saved.take 1 = [g.hash] := by
        cases saved with
        | nil => exact absurd rfl he
        | cons a l => simp at hh; simp [hh]
      rw [this, hgi]; rfl

private theorem holds_add {g : Bytes} {c : Chain} {p : Path} (h : Holds g c p) {known : Chain → List Chain}
    (hk : ∀ x ∈ known c, Tidy x) (hash : Bytes) (hl : hash.length = 32) (height : Nat) :
    if height = p.cur.length then
      ∃ c', c.addBlock known hash height = .ok c' ∧ Holds g c' ⟨p.saved, p.cur ++ [hash]⟩
    else c.addBlock known hash height = .throw := by
  have hh := h.height
  unfold Chain.addBlock
  by_cases he : height = p.cur.length
  · rw [if_pos he, if_neg (by omega), getOrCreate_eq hk]
    obtain ⟨_, a2⟩ := dStep_shows (by decide) h.file (.add hash) hl
    refine ⟨_, rfl, ?_, ?_, a2, by simp, h.gsaved, ?_⟩
    · show c.indices ++ _ = _
      rw [h.idx, indexed_append, he]
    · show c.height + 1 + 1 = _
      simp [hh]
    · show (p.cur ++ [hash])[0]? = _
      rw [List.getElem?_append_left (by omega), h.gcur]
  · rw [if_neg he, if_pos (by omega)]

private theorem holds_rewind {g : Bytes} {c : Chain} {p : Path} (h : Holds g c p) (last : Nat)
    (hs : p.cur.length * 32 < U64) :
    if last < p.cur.length then
      ∃ c', c.rewind last = .ok c' ∧ Holds g c' ⟨p.saved, p.cur.take (last + 1)⟩
    else c.rewind last = .throw := by
  have hh := h.height
  unfold Chain.rewind
  by_cases he : last < p.cur.length
  · rw [if_pos he, if_neg (by omega)]
    by_cases h2 : c.height > last
    · rw [if_pos h2]
      obtain ⟨a1, a2⟩ := dStep_shows (by decide) h.file (.rewind (last + 1))
        (show (last + 1) * 32 < U64 by omega)
      have ht : (p.cur.take (last + 1))[0]? = some g := by
        rw [List.getElem?_take, if_pos (by omega), h.gcur]
      simp only [dStep, dSpec] at a1 a2
      rw [if_pos (by omega)] at a2
      rcases hr : c.file.rewind 32 (last + 1) with ⟨b, d⟩
      rw [hr] at a1 a2
      simp only at a1 a2
      rw [a1, decide_eq_true (show last + 1 ≤ p.cur.length by omega)]
      refine ⟨_, rfl, ?_, ?_, a2, by simp, h.gsaved, ht⟩
      · show c.indices.take _ = _
        rw [h.idx, indexed_take]
      · show last + 1 = (p.cur.take (last + 1)).length
        rw [List.length_take]; omega
    · rw [if_neg h2]
      refine ⟨_, rfl, ?_⟩
      rw [List.take_of_length_le (by omega)]
      exact h
  · rw [if_neg he, if_pos (by omega)]

private theorem holds_commit {g : Bytes} {c : Chain} {p : Path} (h : Holds g c p) :
    ∃ c', c.commit = .ok c' ∧ Holds g c' ⟨p.cur, p.cur⟩ := by
  unfold Chain.commit
  by_cases hd : c.dirty
  · rw [if_pos hd]
    obtain ⟨b1, b2⟩ := dStep_shows (by decide) h.file .commit trivial
    simp only [dStep, dSpec] at b1 b2
    cases hc : c.file.commit with
    | ok d =>
      rw [hc] at b2
      exact ⟨_, rfl, h.idx, h.height, b2, fun _ => rfl, h.gcur, h.gcur⟩
    | throw => rw [hc] at b1; cases b1
    | ub => rw [hc] at b1; cases b1
  · rw [if_neg hd]
    have e := h.clean (by simpa using hd)
    refine ⟨_, rfl, h.idx, h.height, ?_, fun _ => rfl, h.gcur, h.gcur⟩
    rw [← e]
    have := h.file
    rw [← e] at this
    exact this

private theorem holds_rollback {g : Bytes} {c : Chain} {p : Path} (h : Holds g c p)
    {known : Chain → List Chain} (hk : ∀ c, Tidy c → ∀ x ∈ known c, Tidy x)
    (hs : p.saved.length * 32 < U64) :
    ∃ c', c.rollback known = .ok c' ∧ Holds g c' ⟨p.saved, p.saved⟩ := by
  unfold Chain.rollback
  have hpos : 0 < p.saved.length := by
    have := h.gsaved
    rcases Nat.eq_zero_or_pos p.saved.length with h0 | h0
    · rw [List.getElem?_eq_none (by omega)] at this; cases this
    · exact h0
  by_cases hd : c.dirty
  · rw [if_pos hd]
    obtain ⟨_, b2⟩ := dStep_shows (by decide) h.file .rollback trivial
    simp only [dStep, dSpec] at b2
    simp only
    rw [b2.size (by decide), fill_ok (w := p.saved) (saved := p.saved) hk hs p.saved.length 0 _ rfl (by omega) b2]
    refine ⟨_, rfl, rfl, ?_, b2, fun _ => rfl, h.gsaved, h.gsaved⟩
    show (indexed p.saved).length - 1 + 1 = _
    rw [indexed_length]; simp only; omega
  · rw [if_neg hd]
    have e := h.clean (by simpa using hd)
    refine ⟨_, rfl, ?_⟩
    rw [show (⟨p.saved, p.saved⟩ : Path) = p by cases p; simp_all]
    exact ⟨h.idx, h.height, h.file, fun _ => e, h.gsaved, h.gcur⟩

private structure StoreHolds (g : Bytes) (s : Store) (p : Paths) : Prop where
  confirmed : Holds g s.confirmed p.confirmed
  candidate : Holds g s.candidate p.candidate

private theorem StoreHolds.chain {g : Bytes} {s : Store} {p : Paths} (h : StoreHolds g s p) (w : Which) :
    Holds g (s.chain w) (p.get w) := by
  cases w
  · exact h.confirmed
  · exact h.candidate

private theorem StoreHolds.set {g : Bytes} {s : Store} {p : Paths} (h : StoreHolds g s p) (w : Which)
    {c : Chain} {l : List Bytes} (hc : Holds g c ⟨(p.get w).saved, l⟩) :
    StoreHolds g (s.set w c) (p.put w l) := by
  cases w
  · exact ⟨hc, h.candidate⟩
  · exact ⟨h.confirmed, hc⟩

private theorem StoreHolds.known {g : Bytes} {s : Store} {p : Paths} (h : StoreHolds g s p) (w : Which)
    (c : Chain) (hc : Tidy c) : ∀ x ∈ s.known w c, Tidy x := by
  intro x hx
  cases w <;> simp only [Store.known, List.mem_cons, List.not_mem_nil, or_false] at hx
  · rcases hx with rfl | rfl
    · exact hc
    · exact tidy_indexed h.candidate.idx
  · rcases hx with rfl | rfl
    · exact tidy_indexed h.confirmed.idx
    · exact hc

/-- The lists fit in a file. -/
def Small (p : Paths) : Prop :=
  ∀ w, (p.get w).saved.length * 32 < U64 ∧ (p.get w).cur.length * 32 < U64

private theorem agree_zero {g : Bytes} {a b : List Bytes} (ha : a[0]? = some g) (hb : b[0]? = some g) :
    Agree a b 0 := by
  refine ⟨?_, ?_, by rw [ha, hb]⟩
  · by_contra h; rw [List.getElem?_eq_none (by omega)] at ha; cases ha
  · by_contra h; rw [List.getElem?_eq_none (by omega)] at hb; cases hb

private theorem commonFrom_eq {g : Bytes} {a b : Chain} {p q : Path} (ha : Holds g a p) (hb : Holds g b q) :
    ∀ k, k < p.cur.length → k < q.cur.length →
      ∃ x, p.cur[Nat.findGreatest (Agree p.cur q.cur) k]? = some x ∧
        commonFrom a b k = .ok ⟨x, Nat.findGreatest (Agree p.cur q.cur) k⟩ := by
  intro k
  induction k with
  | zero =>
    intro h1 h2
    refine ⟨g, ha.gcur, ?_⟩
    simp [commonFrom, getByHeight_eq ha, getByHeight_eq hb, ha.gcur, hb.gcur]
  | succ k ih =>
    intro h1 h2
    rw [Nat.findGreatest_succ]
    unfold commonFrom
    rw [getByHeight_eq ha, getByHeight_eq hb, List.getElem?_eq_getElem h1, List.getElem?_eq_getElem h2]
    simp only [Option.map_some]
    by_cases he : p.cur[k + 1] = q.cur[k + 1]
    · rw [if_pos he, if_pos ⟨h1, h2, by rw [List.getElem?_eq_getElem h1, List.getElem?_eq_getElem h2, he]⟩]
      exact ⟨_, List.getElem?_eq_getElem h1, rfl⟩
    · rw [if_neg he, if_neg (fun h => he (by
        have := h.2.2
        rw [List.getElem?_eq_getElem h1, List.getElem?_eq_getElem h2] at this
        exact Option.some.inj this))]
      exact ih (by omega) (by omega)

private theorem lastAgree_eq (a b : List Bytes) :
    lastAgree a b = Nat.findGreatest (Agree a b) (min a.length b.length - 1) := by
  unfold lastAgree
  rcases Nat.eq_zero_or_pos (min a.length b.length) with h | h
  · rw [h]
  · obtain ⟨n, hn⟩ : ∃ n, min a.length b.length = n + 1 := ⟨_, (Nat.succ_pred_eq_of_pos h).symm⟩
    rw [hn, Nat.findGreatest_succ, if_neg (by unfold Agree; omega)]
    rfl

/-- **C37, spec of the common height.** It is a height at which the lists agree, and they agree at no
greater one. -/
theorem last_agree_spec (a b : List Bytes) (h : Agree a b 0) :
    Agree a b (lastAgree a b) ∧ ∀ k, Agree a b k → k ≤ lastAgree a b := by
  refine ⟨Nat.findGreatest_spec (P := Agree a b) (Nat.zero_le _) h, fun k hk => ?_⟩
  exact Nat.le_findGreatest (by have := hk.1; have := hk.2.1; omega) hk

private theorem findCommon_eq {g : Bytes} {s : Store} {p : Paths} (h : StoreHolds g s p) (w1 w2 : Which) :
    ∃ x, (p.get w1).cur[lastAgree (p.get w1).cur (p.get w2).cur]? = some x ∧
      s.findCommon w1 w2 = .ok ⟨x, lastAgree (p.get w1).cur (p.get w2).cur⟩ := by
  have h1 := (h.chain w1).height
  have h2 := (h.chain w2).height
  rw [lastAgree_eq]
  unfold Store.findCommon
  rw [show min (s.chain w1).height (s.chain w2).height =
    min (p.get w1).cur.length (p.get w2).cur.length - 1 by omega]
  exact commonFrom_eq (h.chain w1) (h.chain w2) _ (by omega) (by omega)

private theorem put_get (p : Paths) (w w' : Which) (l : List Bytes) :
    ((p.put w l).get w') = if w' = w then ⟨(p.get w).saved, l⟩ else p.get w' := by
  cases w <;> cases w' <;> rfl

private theorem put_put (p : Paths) (w : Which) (l l' : List Bytes) :
    (p.put w l).put w l' = p.put w l' := by
  cases w <;> rfl

private theorem copyBlocks_ok {g : Bytes} {src dst : Which} :
    ∀ (n i : Nat) (s : Store) (p : Paths), StoreHolds g s p → (src ≠ dst ∨ n = 0) →
      (∀ x ∈ (p.get src).cur, x.length = 32) → i = (p.get dst).cur.length → i + n ≤ (p.get src).cur.length →
      ∃ s', copyBlocks s src dst i n = .ok s' ∧
        StoreHolds g s' (p.put dst ((p.get dst).cur ++ ((p.get src).cur.drop i).take n)) := by
  intro n
  induction n with
  | zero =>
    intro i s p h _ _ _ _
    refine ⟨s, rfl, ?_⟩
    simp only [List.take_zero, List.append_nil]
    cases dst <;> exact h
  | succ n ih =>
    intro i s p h hne h32 hi hle
    have hne' : src ≠ dst := by rcases hne with h | h <;> [exact h; omega]
    have hlt : i < (p.get src).cur.length := by omega
    have hget : (s.chain src).getHash i = .ok (p.get src).cur[i] := by
      unfold Chain.getHash
      rw [(h.chain src).idx, indexed_get, List.getElem?_eq_getElem hlt]
      rfl
    have hadd := holds_add (h.chain dst) (h.known dst _ (tidy_indexed (h.chain dst).idx))
      (p.get src).cur[i] (h32 _ (List.getElem_mem hlt)) i
    rw [if_pos hi] at hadd
    obtain ⟨c', hc1, hc2⟩ := hadd
    have hs := h.set dst hc2
    obtain ⟨s', e1, e2⟩ := ih (i + 1) _ _ hs (Or.inl hne')
      (by rw [put_get, if_neg hne']; exact h32)
      (by rw [put_get, if_pos rfl]; simp [hi]) (by rw [put_get, if_neg hne']; omega)
    refine ⟨s', ?_, ?_⟩
    · rw [copyBlocks, hget, Res.ok_bind, hc1, Res.ok_bind, e1]
    · rw [put_get, put_get, if_pos rfl, if_neg hne', put_put] at e2
      have : (p.get src).cur.drop i = (p.get src).cur[i] :: (p.get src).cur.drop (i + 1) :=
        List.drop_eq_getElem_cons hlt
      rw [this, List.take_succ_cons]
      simpa using e2

private theorem step_holds {g : Index} (hg : g.height = 0) (hl : g.hash.length = 32) {s : Store} {p : Paths}
    (h : StoreHolds g.hash s p) (hs : Small p) (op : Op)
    (ho : ∀ w hash height, op = .add w hash height → hash.length = 32) :
    ∃ s', storeStep g s op = some (s', (pSpec p op).2) ∧ StoreHolds g.hash s' (pSpec p op).1 := by
  unfold storeStep
  cases op with
  | add w hash height =>
    have := holds_add (h.chain w) (h.known w _ (tidy_indexed (h.chain w).idx)) hash (ho _ _ _ rfl) height
    simp only [Op.run, pSpec]
    by_cases he : height = (p.get w).cur.length
    · rw [if_pos he] at this
      obtain ⟨c', e1, e2⟩ := this
      rw [e1, if_pos he]
      exact ⟨_, rfl, h.set w e2⟩
    · rw [if_neg he] at this
      rw [this, if_neg he]
      exact ⟨_, rfl, h⟩
  | rewind w height =>
    have := holds_rewind (h.chain w) height (hs w).2
    simp only [Op.run, pSpec]
    by_cases he : height < (p.get w).cur.length
    · rw [if_pos he] at this
      obtain ⟨c', e1, e2⟩ := this
      rw [e1, if_pos he]
      exact ⟨_, rfl, h.set w e2⟩
    · rw [if_neg he] at this
      rw [this, if_neg he]
      exact ⟨_, rfl, h⟩
  | reorg a b height =>
    simp only [Op.run, pSpec, Store.reorg]
    have h1 := (h.chain a).height
    have h2 := (h.chain b).height
    by_cases he : height < (p.get a).cur.length
    · rw [if_pos he, if_neg (by omega)]
      obtain ⟨x, _, hc⟩ := findCommon_eq h a b
      obtain ⟨⟨ha1, ha2, ha3⟩, _⟩ := last_agree_spec _ _ (agree_zero (h.chain a).gcur (h.chain b).gcur)
      rw [hc, Res.ok_bind]
      generalize hm : lastAgree (p.get a).cur (p.get b).cur = m at *
      simp only
      have hr := holds_rewind (h.chain b) (min m height) (hs b).2
      rw [if_pos (by omega)] at hr
      obtain ⟨c', e1, e2⟩ := hr
      rw [e1, Res.ok_bind]
      have hset := h.set b e2
      have hcond : a ≠ b ∨ height - min m height = 0 := by
        by_cases hab : a = b
        · right
          subst hab
          have : (p.get a).cur.length - 1 ≤ m := by
            rw [← hm]
            refine (last_agree_spec _ _ (agree_zero (h.chain a).gcur (h.chain a).gcur)).2 _ ⟨by omega, by omega, rfl⟩
          omega
        · exact Or.inl hab
      have hsrc : (p.put b ((p.get b).cur.take (min m height + 1))).get a
          = if a = b then ⟨(p.get b).saved, (p.get b).cur.take (min m height + 1)⟩ else p.get a := put_get _ _ _ _
      obtain ⟨s', f1, f2⟩ := copyBlocks_ok (src := a) (dst := b) (height - min m height) (min m height + 1) _ _ hset hcond
        (by
          rw [hsrc]
          intro x hx
          split at hx
          · exact (h.chain b).file.wsize x (List.mem_of_mem_take hx)
          · exact (h.chain a).file.wsize x hx)
        (by rw [put_get, if_pos rfl]; simp only [List.length_take]; omega)
        (by
          rw [hsrc]
          split
          · rename_i hab
            subst hab
            rcases hcond with hc | hc
            · exact absurd rfl hc
            · simp only [List.length_take]; omega
          · omega)
      rw [f1]
      refine ⟨_, rfl, ?_⟩
      rw [put_get, if_pos rfl, hsrc, put_put] at f2
      have heq : ((p.get b).cur.take (min m height + 1) ++ List.take (height - min m height)
          (List.drop (min m height + 1) (if a = b then (⟨(p.get b).saved, (p.get b).cur.take (min m height + 1)⟩ : Path)
            else p.get a).cur))
          = (p.get b).cur.take (min m height + 1) ++ ((p.get a).cur.take (height + 1)).drop (min m height + 1) := by
        congr 1
        rcases hcond with hc | hc
        · rw [if_neg hc, List.take_drop]
          congr 2
          omega
        · rw [hc, List.take_zero, List.drop_eq_nil_of_le]
          rw [List.length_take]; omega
      rw [heq] at f2
      exact f2
    · rw [if_neg he, if_pos (by omega)]
      exact ⟨_, rfl, h⟩
  | addFrom a b height =>
    simp only [Op.run, pSpec, Store.addFrom]
    have htip : ∀ w, ∃ t, (s.chain w).tip = .ok t ∧ t.height + 1 = (p.get w).cur.length := by
      intro w
      have hh := (h.chain w).height
      refine ⟨⟨(p.get w).cur[(s.chain w).height]'(by omega), (s.chain w).height⟩, ?_, hh⟩
      unfold Chain.tip
      rw [(h.chain w).idx, indexed_get, List.getElem?_eq_getElem (by omega)]
      rfl
    obtain ⟨t, t1, t2⟩ := htip b
    obtain ⟨u, u1, u2⟩ := htip a
    rw [t1, Res.ok_bind, t2]
    by_cases he : height = (p.get b).cur.length
    · rw [if_pos he, if_pos he.symm, u1, Res.ok_bind]
      by_cases hx : u.height ≥ height
      · have hlt : height < (p.get a).cur.length := by omega
        rw [if_pos hx, List.getElem?_eq_getElem hlt]
        have hget : (s.chain a).getHash height = .ok (p.get a).cur[height] := by
          unfold Chain.getHash
          rw [(h.chain a).idx, indexed_get, List.getElem?_eq_getElem hlt]
          rfl
        rw [hget, Res.ok_bind]
        have hadd := holds_add (h.chain b) (h.known b _ (tidy_indexed (h.chain b).idx))
          (p.get a).cur[height] ((h.chain a).file.wsize _ (List.getElem_mem hlt)) height
        rw [if_pos he] at hadd
        obtain ⟨c', e1, e2⟩ := hadd
        rw [e1]
        exact ⟨_, rfl, h.set b e2⟩
      · rw [if_neg hx, List.getElem?_eq_none (by omega)]
        exact ⟨_, rfl, h⟩
    · rw [if_neg he, if_neg (by omega)]
      exact ⟨_, rfl, h⟩
  | commit =>
    obtain ⟨c1, a1, a2⟩ := holds_commit h.confirmed
    obtain ⟨c2, b1, b2⟩ := holds_commit h.candidate
    simp only [Op.run, pSpec, a1, b1]
    exact ⟨_, rfl, a2, b2⟩
  | rollback =>
    obtain ⟨c2, b1, b2⟩ := holds_rollback h.candidate (h.known .candidate) (hs .candidate).1
    have h' : StoreHolds g.hash (s.set .candidate c2) (p.put .candidate p.candidate.saved) := h.set .candidate b2
    obtain ⟨c1, a1, a2⟩ := holds_rollback h.confirmed (h'.known .confirmed) (hs .confirmed).1
    simp only [Op.run, pSpec, a1, b1, Res.ok_bind]
    exact ⟨_, rfl, a2, b2⟩
  | rollbackOne w =>
    obtain ⟨c2, b1, b2⟩ := holds_rollback (h.chain w) (h.known w) (hs w).1
    simp only [Op.run, pSpec, b1, Res.ok_bind]
    exact ⟨_, rfl, h.set w b2⟩
  | restart =>
    simp only [Op.run, pSpec, Store.load, h.confirmed.file.file.disk, h.candidate.file.file.disk]
    have ne : ∀ {l : List Bytes}, l[0]? = some g.hash → l ≠ [] := by rintro l h rfl; cases h
    obtain ⟨c1, a1, a2⟩ := holds_load hg hl (known := []) (by simp) p.confirmed.saved h.confirmed.file.csize
      (fun x hx => by rw [h.confirmed.gsaved] at hx; exact (Option.some.inj hx).symm) (hs .confirmed).1
    rw [if_neg (ne h.confirmed.gsaved)] at a2
    obtain ⟨c2, b1, b2⟩ := holds_load hg hl (known := [c1]) (by simpa using tidy_indexed a2.idx)
      p.candidate.saved h.candidate.file.csize
      (fun x hx => by rw [h.candidate.gsaved] at hx; exact (Option.some.inj hx).symm) (hs .candidate).1
    rw [if_neg (ne h.candidate.gsaved)] at b2
    rw [a1, Res.ok_bind, b1]
    exact ⟨_, rfl, a2, b2⟩

private theorem run_holds {g : Index} (hg : g.height = 0) (hl : g.hash.length = 32) :
    ∀ (ops : List Op) (s : Store) (p : Paths), StoreHolds g.hash s p →
      (∀ n, Small (runOps pSpec p (ops.take n)).1) →
      (∀ w hash height, Op.add w hash height ∈ ops → hash.length = 32) →
      ∃ s', storeRun g s ops = some (s', (runOps pSpec p ops).2) ∧
        StoreHolds g.hash s' (runOps pSpec p ops).1 := by
  intro ops
  induction ops with
  | nil => intro s p h _ _; exact ⟨s, rfl, h⟩
  | cons op ops ih =>
    intro s p h hs ho
    obtain ⟨s1, e1, e2⟩ := step_holds hg hl h (hs 0) op
      (fun w x k e => ho w x k (by simp [e]))
    obtain ⟨s2, f1, f2⟩ := ih s1 _ e2 (fun n => by simpa [runOps] using hs (n + 1))
      (fun w x k hm => ho w x k (by simp [hm]))
    refine ⟨s2, ?_, f2⟩
    simp [storeRun, e1, f1, runOps]

/-! ## C37 -/

/-- What a store loaded from the two files shows at first: an empty file is given the genesis hash. -/
def startPath (genesis : Bytes) (file : List Bytes) : Path :=
  if file = [] then ⟨[genesis], [genesis]⟩ else ⟨file, file⟩

/-- **C37.** Through any sequence of additions, rewinds, reorganisations, commits, rollbacks and
restarts, from any two files that are empty or begin with the genesis hash: nothing undefined happens,
each call succeeds or is refused as the spec says, every lookup by height returns the hash last put at
that height, the heights run from 0 to the tip without a gap, and the common block found for two chains
is the one at the highest height where they agree. -/
theorem chain_store_refines (g : Index) (hg : g.height = 0) (hl : g.hash.length = 32)
    (fa fb : List Bytes) (ha : ∀ r ∈ fa, r.length = 32) (hb : ∀ r ∈ fb, r.length = 32)
    (ha0 : ∀ x, fa[0]? = some x → x = g.hash) (hb0 : ∀ x, fb[0]? = some x → x = g.hash)
    (ops : List Op) (ho : ∀ w hash height, Op.add w hash height ∈ ops → hash.length = 32)
    (hs : ∀ n, Small (runOps pSpec ⟨startPath g.hash fa, startPath g.hash fb⟩ (ops.take n)).1) :
    ∃ s0 s, Store.load g fa.flatten fb.flatten = .ok s0 ∧
      storeRun g s0 ops =
        some (s, (runOps pSpec ⟨startPath g.hash fa, startPath g.hash fb⟩ ops).2) ∧
      ∀ w, let l := ((runOps pSpec ⟨startPath g.hash fa, startPath g.hash fb⟩ ops).1.get w).cur
        l[0]? = some g.hash ∧
        (s.chain w).height + 1 = l.length ∧
        (∀ h, (s.chain w).getByHeight h = l[h]?.map (⟨·, h⟩)) ∧
        (∀ h x, (s.chain w).isOnChain h x = .ok (l[h]? = some x)) ∧
        (∀ x, l.getLast? = some x → (s.chain w).tip = .ok ⟨x, l.length - 1⟩) ∧
        ∀ w', let l' := ((runOps pSpec ⟨startPath g.hash fa, startPath g.hash fb⟩ ops).1.get w').cur
          ∃ m x, Agree l l' m ∧ (∀ k, Agree l l' k → k ≤ m) ∧ l[m]? = some x ∧
            s.findCommon w w' = .ok ⟨x, m⟩ := by
  have hs0 := hs 0
  have small : ∀ (f : List Bytes) w, (startPath g.hash f =
      (⟨startPath g.hash fa, startPath g.hash fb⟩ : Paths).get w) → f.length * 32 < U64 := by
    intro f w e
    have := (hs0 w).1
    simp only [List.take_zero, runOps] at this
    rw [← e] at this
    unfold startPath at this
    split at this
    · rename_i h; rw [h]; decide
    · exact this
  obtain ⟨c1, a1, a2⟩ := holds_load hg hl (known := []) (by simp) fa ha ha0 (small fa .confirmed rfl)
  obtain ⟨c2, b1, b2⟩ := holds_load hg hl (known := [c1]) (by simpa using tidy_indexed a2.idx) fb hb hb0
    (small fb .candidate rfl)
  obtain ⟨s, r1, r2⟩ := run_holds hg hl ops ⟨c1, c2⟩ ⟨startPath g.hash fa, startPath g.hash fb⟩ ⟨a2, b2⟩ hs ho
  refine ⟨⟨c1, c2⟩, s, by simp only [Store.load]; rw [a1, Res.ok_bind, b1]; rfl, r1, fun w => ?_⟩
  generalize (runOps pSpec ⟨startPath g.hash fa, startPath g.hash fb⟩ ops).1 = p at *
  have h := r2.chain w
  have hh := h.height
  refine ⟨h.gcur, hh, getByHeight_eq h, fun k x => ?_, fun x hx => ?_, fun w' => ?_⟩
  · unfold Chain.isOnChain
    rw [h.idx, indexed_get]
    split
    · rename_i hk
      rw [List.getElem?_eq_getElem (show k < (p.get w).cur.length by omega)]
      simp
    · rw [List.getElem?_eq_none (by omega)]; simp
  · unfold Chain.tip
    rw [List.getLast?_eq_getElem?, show (p.get w).cur.length - 1 = (s.chain w).height by omega] at hx
    rw [h.idx, indexed_get, hx, show (p.get w).cur.length - 1 = (s.chain w).height by omega]
    rfl
  · obtain ⟨x, e1, e2⟩ := findCommon_eq r2 w w'
    obtain ⟨k1, k2⟩ := last_agree_spec _ _ (agree_zero h.gcur (r2.chain w').gcur)
    exact ⟨_, x, k1, k2, e1, e2⟩

/-- Every hash determines the one before it (the previous hash in its header). -/
def Linked (prev : Bytes → Bytes) (l : List Bytes) : Prop :=
  ∀ h x, l[h + 1]? = some x → l[h]? = some (prev x)

/-- **C37, forks.** Two linked chains with one genesis agree exactly up to their common height. -/
theorem linked_agree_iff (prev : Bytes → Bytes) (a b : List Bytes) (ha : Linked prev a)
    (hb : Linked prev b) (h0 : Agree a b 0) (k : Nat) : Agree a b k ↔ k ≤ lastAgree a b := by
  obtain ⟨h1, h2⟩ := last_agree_spec a b h0
  refine ⟨h2 k, fun hk => ?_⟩
  have down : ∀ n m, Agree a b (m + n) → Agree a b m := by
    intro n
    induction n with
    | zero => intro m h; exact h
    | succ n ih =>
      intro m h
      refine ih m ?_
      obtain ⟨x1, x2, x3⟩ := h
      have e : (m + (n + 1)) = m + n + 1 := rfl
      rw [e] at x1 x2 x3
      refine ⟨by omega, by omega, ?_⟩
      rw [List.getElem?_eq_getElem x1] at x3
      rw [ha (m + n) _ (List.getElem?_eq_getElem x1), hb (m + n) _ x3.symm]
  exact down (lastAgree a b - k) k (by rw [Nat.add_sub_cancel' hk]; exact h1)

/-- **C37, reorganisation.** For linked chains the destination becomes the source up to the height
asked for. -/
theorem reorg_copies (prev : Bytes → Bytes) (s : Paths) (a b : Which) (height : Nat)
    (ha : Linked prev (s.get a).cur) (hb : Linked prev (s.get b).cur)
    (h0 : Agree (s.get a).cur (s.get b).cur 0) (hh : height < (s.get a).cur.length) :
    pSpec s (.reorg a b height) = (s.put b ((s.get a).cur.take (height + 1)), true) := by
  simp only [pSpec, if_pos hh]
  congr 2
  have hag := linked_agree_iff prev _ _ ha hb h0
  generalize lastAgree (s.get a).cur (s.get b).cur = m at hag
  obtain ⟨hm1, hm2, _⟩ := (hag m).mpr (Nat.le_refl _)
  have : (s.get b).cur.take (min m height + 1) = ((s.get a).cur.take (height + 1)).take (min m height + 1) := by
    apply List.ext_getElem?
    intro i
    rw [List.getElem?_take, List.getElem?_take, List.getElem?_take]
    split
    · rw [if_pos (by omega)]
      exact ((hag i).mpr (by omega)).2.2.symm
    · rfl
  rw [this, List.take_append_drop]

/-- A history with a fork: the candidate chain leaves the confirmed one at height 1, the confirmed
chain follows it to height 2, and a rollback takes that back. -/
example :
    let g : Bytes := List.replicate 32 0
    let x (n : UInt8) : Bytes := List.replicate 32 n
    let ops : List Op := [.add .candidate (x 1) 1, .add .confirmed (x 1) 1, .add .confirmed (x 2) 2,
      .add .candidate (x 3) 2, .add .candidate (x 4) 3, .commit, .add .candidate (x 5) 3,
      .reorg .candidate .confirmed 2, .rollbackOne .confirmed, .reorg .candidate .confirmed 3,
      .rewind .candidate 0, .restart]
    let r := runOps pSpec ⟨startPath g [], startPath g []⟩ ops
    r.2 = [true, true, true, true, true, true, false, true, true, true, true, true] ∧
    r.1.confirmed.cur = [g, x 1, x 2] ∧ r.1.candidate.cur = [g, x 1, x 3, x 4] ∧
    lastAgree r.1.confirmed.cur r.1.candidate.cur = 1 ∧
    (match Store.load ⟨g, 0⟩ [] [] with
      | .ok s0 => (storeRun ⟨g, 0⟩ s0 ops).map (·.2)
      | _ => none) = some r.2 := by
  refine ⟨by decide +kernel, by decide +kernel, by decide +kernel, by decide +kernel, by decide +kernel⟩

end Verif.Props
