import Verif.Tx.TxHashSet
import Verif.Props.Prune

/-! # Lemmas about the output set -/
namespace Verif.Tx
open Verif.PoW Verif.MMR Verif.Props

/-! ## Pruned ranges -/

theorem stores_unique {H : Bytes → Bytes} {m m' : PMMR} {ls : List Bytes} {U : Finset Nat}
    (h : Stores H m ls U) (h' : Stores H m' ls U) (hp : m.pl = m'.pl) : m = m' := by
  obtain ⟨f, e, hh⟩ := h.hashes
  obtain ⟨f', e', hh'⟩ := h'.hashes
  rw [e] at e'; injection e' with e'; subst e'
  have hd := h.data; have hd' := h'.data
  have hu := h.unspent; have hu' := h'.unspent
  obtain ⟨a1, a2, a3, a4⟩ := m
  obtain ⟨b1, b2, b3, b4⟩ := m'
  simp only at hp hh hh' hd hd' hu hu'
  subst hp
  rw [hh, hh', hd, hd', hu, hu']

theorem remove_in {H : Bytes → Bytes} {m : PMMR} {ls : List Bytes} {U : Finset Nat} {n : Nat}
    (h : Stores H m ls U) (hn : n ∈ U) :
    m.remove n = .ok { m with leafSet := U.erase n } ∧
      Stores H { m with leafSet := U.erase n } ls (U.erase n) := by
  obtain ⟨m', e, hs⟩ := (pruned_remove H m ls U n h).1 hn
  have : m.remove n = .ok { m with leafSet := U.erase n } := by
    unfold PMMR.remove; rw [h.unspent, if_pos hn]
  rw [e] at this; injection this with this; subst this
  exact ⟨e, hs⟩

theorem rewind_pl {m m' : PMMR} {n : Nat} {l : List Nat} (h : m.rewind n l = .ok m') :
    m'.pl = m.pl := by
  unfold PMMR.rewind at h
  obtain ⟨_, _, h⟩ := Res.bind_eq_ok.mp h
  obtain ⟨_, _, h⟩ := Res.bind_eq_ok.mp h
  simp only [Res.pure_eq, Res.ok.injEq] at h
  subst h; rfl

/-! ## Inputs -/

/-- The leaves at which the database places the given inputs. -/
def leavesOf (db : DB) (is : List TxInput) : List Nat :=
  is.filterMap (fun i => (db.pos i.commit).map (·.leaf))

/-- An input can be spent: its output has a position, is unspent, and is mature. -/
def CanSpend (db : DB) (M : Nat) (ls : List Bytes) (U : Finset Nat) (c : Bytes) : Prop :=
  ∃ loc d, db.pos c = some loc ∧ loc.leaf ∈ U ∧ ls[loc.leaf]? = some d ∧
    ¬ (idIsCoinbase d = true ∧ loc.height > M)

theorem spend_ok {H : Bytes → Bytes} {db : DB} {M : Nat} {ls ps : List Bytes}
    (hb : leafPos ls.length < 2 ^ 64)
    (hpos : ∀ c l, db.pos c = some l → (ls[l.leaf]?).map idCommit = some c) :
    ∀ (is : List TxInput) (o p : PMMR) (U : Finset Nat), Stores H o ls U → Stores H p ps U →
      (is.map (·.commit)).Nodup → (∀ i ∈ is, CanSpend db M ls U i.commit) →
      ∃ o' p', spendInputs db M is o p =
          .ok (some (o', p', is.filterMap (fun i => (db.pos i.commit).map (fun l => (i.commit, l))))) ∧
        Stores H o' ls (U \ (leavesOf db is).toFinset) ∧
        Stores H p' ps (U \ (leavesOf db is).toFinset) ∧ o'.pl = o.pl ∧ p'.pl = p.pl
  | [], o, p, U, ho, hp, _, _ => ⟨o, p, rfl, by simpa [leavesOf] using ho,
      by simpa [leavesOf] using hp, rfl, rfl⟩
  | i :: is, o, p, U, ho, hp, hn, hc => by
    obtain ⟨loc, d, e1, e2, e3, e4⟩ := hc i (by simp)
    obtain ⟨r1, so⟩ := remove_in ho e2
    obtain ⟨r2, sp⟩ := remove_in hp e2
    have hn' := List.nodup_cons.mp hn
    obtain ⟨o', p', h1, h2, h3, h4, h5⟩ := spend_ok hb hpos is _ _ _ so sp hn'.2 (by
      intro j hj
      obtain ⟨l2, d2, f1, f2, f3, f4⟩ := hc j (by simp [hj])
      refine ⟨l2, d2, f1, Finset.mem_erase.mpr ⟨?_, f2⟩, f3, f4⟩
      intro he
      have a1 := hpos _ _ f1
      have a2 := hpos _ _ e1
      rw [he] at a1
      have : i.commit = j.commit := Option.some.inj (a2.symm.trans a1)
      exact hn'.1 (List.mem_map.mpr ⟨j, hj, this.symm⟩))
    have hg := (pruned_get H o ls U ho hb).1 loc.leaf
    rw [if_pos e2, e3] at hg
    refine ⟨o', p', ?_, ?_, ?_, h4, h5⟩
    · rw [spendInputs]
      simp only [e1, hg, Res.ok_bind, if_neg e4, r1, r2, h1, Res.pure_eq, Option.map_some,
        List.filterMap_cons]
    · have : U \ (leavesOf db (i :: is)).toFinset =
          U.erase loc.leaf \ (leavesOf db is).toFinset := by
        ext x
        simp only [leavesOf, List.filterMap_cons, e1, Option.map_some, List.toFinset_cons,
          Finset.mem_sdiff, Finset.mem_insert, Finset.mem_erase]
        tauto
      rw [this]; exact h2
    · have : U \ (leavesOf db (i :: is)).toFinset =
          U.erase loc.leaf \ (leavesOf db is).toFinset := by
        ext x
        simp only [leavesOf, List.filterMap_cons, e1, Option.map_some, List.toFinset_cons,
          Finset.mem_sdiff, Finset.mem_insert, Finset.mem_erase]
        tauto
      rw [this]; exact h3

theorem spend_only {H : Bytes → Bytes} {db : DB} {M : Nat} {ls ps : List Bytes}
    (hb : leafPos ls.length < 2 ^ 64)
    (hpos : ∀ c l, db.pos c = some l → (ls[l.leaf]?).map idCommit = some c) :
    ∀ (is : List TxInput) (o p : PMMR) (U : Finset Nat) (r : PMMR × PMMR × List (Bytes × Loc)),
      Stores H o ls U → Stores H p ps U → spendInputs db M is o p = .ok (some r) →
      (is.map (·.commit)).Nodup ∧ (∀ i ∈ is, CanSpend db M ls U i.commit)
  | [], o, p, U, r, ho, hp, h => by simp
  | i :: is, o, p, U, r, ho, hp, h => by
    rw [spendInputs] at h
    cases e1 : db.pos i.commit with
    | none => rw [e1] at h; simp at h
    | some loc =>
      rw [e1] at h
      simp only at h
      have hg := (pruned_get H o ls U ho hb).1 loc.leaf
      rw [hg, Res.ok_bind] at h
      by_cases e2 : loc.leaf ∈ U
      · rw [if_pos e2] at h
        have hlt := ho.inRange _ e2
        rw [List.getElem?_eq_getElem hlt] at h
        simp only at h
        by_cases e4 : idIsCoinbase ls[loc.leaf] = true ∧ loc.height > M
        · rw [if_pos e4] at h; simp at h
        · rw [if_neg e4] at h
          obtain ⟨r1, so⟩ := remove_in ho e2
          obtain ⟨r2, sp⟩ := remove_in hp e2
          rw [r1, Res.ok_bind, r2, Res.ok_bind] at h
          obtain ⟨q, hq, h⟩ := Res.bind_eq_ok.mp h
          simp only [Res.pure_eq, Res.ok.injEq] at h
          cases q with
          | none => simp at h
          | some q =>
            obtain ⟨n1, n2⟩ := spend_only hb hpos is _ _ _ q so sp hq
            constructor
            · rw [List.map_cons, List.nodup_cons]
              refine ⟨?_, n1⟩
              intro hm
              obtain ⟨j, hj, he⟩ := List.mem_map.mp hm
              obtain ⟨l2, d2, f1, f2, _⟩ := n2 j hj
              rw [he, e1] at f1
              injection f1 with f1
              rw [← f1] at f2
              exact (Finset.mem_erase.mp f2).1 rfl
            · intro j hj
              rcases List.mem_cons.mp hj with rfl | hj
              · exact ⟨loc, _, e1, e2, List.getElem?_eq_getElem hlt, e4⟩
              · obtain ⟨l2, d2, f1, f2, f3⟩ := n2 j hj
                exact ⟨l2, d2, f1, (Finset.mem_erase.mp f2).2, f3⟩
      · rw [if_neg e2] at h; simp at h

/-- Distinct inputs are either all spent or the block is refused. -/
theorem spend_refused {H : Bytes → Bytes} {db : DB} {M : Nat} {ls ps : List Bytes}
    (hb : leafPos ls.length < 2 ^ 64)
    (hpos : ∀ c l, db.pos c = some l → (ls[l.leaf]?).map idCommit = some c) :
    ∀ (is : List TxInput) (o p : PMMR) (U : Finset Nat), Stores H o ls U → Stores H p ps U →
      (∀ i ∈ is, ∀ l, db.pos i.commit = some l → l.leaf ∈ U) → (is.map (·.commit)).Nodup →
      ¬ (∀ i ∈ is, CanSpend db M ls U i.commit) → spendInputs db M is o p = .ok none
  | [], _, _, _, _, _, _, _, hc => absurd (by simp) hc
  | i :: is, o, p, U, ho, hp, hu, hn, hc => by
    rw [spendInputs]
    cases e1 : db.pos i.commit with
    | none => rfl
    | some loc =>
      simp only
      have e2 := hu i (by simp) loc e1
      have hlt := ho.inRange _ e2
      have hg := (pruned_get H o ls U ho hb).1 loc.leaf
      rw [if_pos e2, List.getElem?_eq_getElem hlt] at hg
      rw [hg, Res.ok_bind]
      simp only
      by_cases e4 : idIsCoinbase ls[loc.leaf] = true ∧ loc.height > M
      · rw [if_pos e4]
      · rw [if_neg e4]
        obtain ⟨r1, so⟩ := remove_in ho e2
        obtain ⟨r2, sp⟩ := remove_in hp e2
        rw [r1, Res.ok_bind, r2, Res.ok_bind]
        have hn' := List.nodup_cons.mp hn
        have hdist : ∀ j ∈ is, ∀ l, db.pos j.commit = some l → l.leaf ≠ loc.leaf := by
          intro j hj l f1 he
          have a1 := hpos _ _ f1
          have a2 := hpos _ _ e1
          rw [he] at a1
          have : i.commit = j.commit := Option.some.inj (a2.symm.trans a1)
          exact hn'.1 (List.mem_map.mpr ⟨j, hj, this.symm⟩)
        rw [spend_refused hb hpos is _ _ _ so sp
          (fun j hj l f1 => Finset.mem_erase.mpr ⟨hdist j hj l f1, hu j (by simp [hj]) l f1⟩) hn'.2
          (by
            intro hall
            apply hc
            intro j hj
            rcases List.mem_cons.mp hj with rfl | hj
            · exact ⟨loc, _, e1, e2, List.getElem?_eq_getElem hlt, e4⟩
            · obtain ⟨l2, d2, f1, f2, f3⟩ := hall j hj
              exact ⟨l2, d2, f1, (Finset.mem_erase.mp f2).2, f3⟩)]
        rfl

/-! ## Outputs -/

/-- The positions recorded by adding outputs from leaf `n` on. -/
def addAll (height : Nat) : List TxOutput → Nat → DB → DB
  | [], _, db => db
  | x :: xs, n, db => addAll height xs (n + 1) (db.addPos x.commit ⟨n, height⟩)

theorem isDuplicate_iff {H : Bytes → Bytes} {db : DB} {o : PMMR} {ls : List Bytes} {U : Finset Nat}
    (ho : Stores H o ls U) (hb : leafPos ls.length < 2 ^ 64) (c : Bytes) :
    isDuplicate db o c = true ↔ ∃ l, db.pos c = some l ∧ l.leaf ∈ U := by
  unfold isDuplicate
  cases db.pos c with
  | none => simp
  | some l =>
    simp only [Option.some.injEq, exists_eq_left', PMMR.isUnpruned, Bool.and_eq_true, decide_eq_true_eq]
    rw [ho.size hb, ho.unspent]
    exact ⟨fun h => h.2, fun h => ⟨leafPos_strictMono (ho.inRange _ h), h⟩⟩

theorem leafPos_bound {a b : Nat} (hb : leafPos b < 2 ^ 64) (h : a ≤ b) : leafPos a < 2 ^ 64 :=
  Nat.lt_of_le_of_lt (leafPos_mono h) hb

/-- The leaves `n, …, n + k - 1`. -/
def newLeaves (n k : Nat) : Finset Nat := (Finset.range (n + k)).filter (n ≤ ·)

theorem add_spec {H : Bytes → Bytes} {height : Nat} :
    ∀ (xs : List TxOutput) (db : DB) (o p : PMMR) (ls ps : List Bytes) (U : Finset Nat),
      Stores H o ls U → Stores H p ps U → ps.length = ls.length →
      leafPos (ls.length + xs.length) < 2 ^ 64 →
      (∀ c l, db.pos c = some l → l.leaf < ls.length) →
      ((∀ x ∈ xs, ∀ l, db.pos x.commit = some l → l.leaf ∉ U) ∧ (xs.map (·.commit)).Nodup →
        ∃ o' p', addOutputs H height xs db o p = .ok (some (addAll height xs ls.length db, o', p')) ∧
          Stores H o' (ls ++ xs.map identifier) (U ∪ newLeaves ls.length xs.length) ∧
          Stores H p' (ps ++ xs.map (fun x => proofSer x.proof))
            (U ∪ newLeaves ls.length xs.length) ∧ o'.pl = o.pl ∧ p'.pl = p.pl) ∧
      (¬ ((∀ x ∈ xs, ∀ l, db.pos x.commit = some l → l.leaf ∉ U) ∧ (xs.map (·.commit)).Nodup) →
        addOutputs H height xs db o p = .ok none)
  | [], db, o, p, ls, ps, U, ho, hp, hl, hb, hlt => by
    constructor
    · intro _
      have : newLeaves ls.length 0 = ∅ := by
        ext x; simp only [newLeaves, Finset.mem_filter, Finset.mem_range]; simp
      exact ⟨o, p, rfl, by simpa [this] using ho, by simpa [this] using hp, rfl, rfl⟩
    · intro h; exact absurd ⟨by simp, by simp⟩ h
  | x :: xs, db, o, p, ls, ps, U, ho, hp, hl, hb, hlt => by
    simp only [List.length_cons] at hb
    have hb1 : leafPos (ls.length + 1) < 2 ^ 64 := leafPos_bound hb (by omega)
    have hb0 : leafPos ls.length < 2 ^ 64 := leafPos_bound hb (by omega)
    have hd := isDuplicate_iff (db := db) ho hb0 x.commit
    by_cases dup : isDuplicate db o x.commit = true
    · constructor
      · rintro ⟨h1, _⟩
        obtain ⟨l, e, hm⟩ := hd.mp dup
        exact absurd hm (h1 x (by simp) l e)
      · intro _
        rw [addOutputs, if_pos dup]
    · obtain ⟨o1, a1, so, po⟩ := pruned_append H o ls U (identifier x) ho hb1
      obtain ⟨p1, b1, sp, pp⟩ := pruned_append H p ps U (proofSer x.proof) hp (by rw [hl]; exact hb1)
      rw [hl] at sp
      have hsz : leafIndexAt o.size = ls.length := by
        rw [ho.size hb0]; exact leafIndex_roundtrip _ hb0
      have step : addOutputs H height (x :: xs) db o p =
          addOutputs H height xs (db.addPos x.commit ⟨ls.length, height⟩) o1 p1 := by
        rw [addOutputs, if_neg dup]
        simp only [hsz, a1, b1, Res.ok_bind]
      have ih := add_spec (height := height) xs (db.addPos x.commit ⟨ls.length, height⟩) o1 p1 _ _ _ so sp
        (by simp [hl]) (by
          rw [List.length_append, List.length_singleton, show ls.length + 1 + xs.length =
            ls.length + (xs.length + 1) by omega]; exact hb)
        (by
          intro c l h
          simp only [DB.addPos] at h
          simp only [List.length_append, List.length_singleton]
          split at h
          · injection h with h; subst h; simp
          · have := hlt c l h; omega)
      have hcond : ((∀ y ∈ xs, ∀ l, (db.addPos x.commit ⟨ls.length, height⟩).pos y.commit = some l →
          l.leaf ∉ insert ls.length U) ∧ (xs.map (·.commit)).Nodup) ↔
          ((∀ y ∈ x :: xs, ∀ l, db.pos y.commit = some l → l.leaf ∉ U) ∧
            ((x :: xs).map (·.commit)).Nodup) := by
        simp only [DB.addPos, List.map_cons, List.nodup_cons]
        constructor
        · rintro ⟨h1, h2⟩
          refine ⟨?_, ?_, h2⟩
          · intro y hy l e
            rcases List.mem_cons.mp hy with rfl | hy
            · intro hm; exact dup (hd.mpr ⟨l, e, hm⟩)
            · by_cases hc : y.commit = x.commit
              · exact absurd (Finset.mem_insert_self _ _) (h1 y hy ⟨ls.length, height⟩ (by rw [if_pos hc]))
              · have := h1 y hy l (by rw [if_neg hc]; exact e)
                intro hm; exact this (Finset.mem_insert_of_mem hm)
          · intro hm
            obtain ⟨y, hy, hc⟩ := List.mem_map.mp hm
            exact absurd (Finset.mem_insert_self _ _) (h1 y hy ⟨ls.length, height⟩ (by rw [if_pos hc]))
        · rintro ⟨h1, h2, h3⟩
          refine ⟨?_, h3⟩
          intro y hy l e
          have hc : y.commit ≠ x.commit := fun he => h2 (List.mem_map.mpr ⟨y, hy, he⟩)
          rw [if_neg hc] at e
          intro hm
          rcases Finset.mem_insert.mp hm with hm | hm
          · have := hlt _ _ e; omega
          · exact h1 y (by simp [hy]) l e hm
      rw [step]
      constructor
      · intro hok
        obtain ⟨o', p', h1, h2, h3, h4, h5⟩ := ih.1 (hcond.mpr hok)
        simp only [List.length_append, List.length_singleton] at h1 h2 h3
        have hset : insert ls.length U ∪ newLeaves (ls.length + 1) xs.length =
            U ∪ newLeaves ls.length (xs.length + 1) := by
          ext y
          simp only [newLeaves, Finset.mem_union, Finset.mem_insert, Finset.mem_filter,
            Finset.mem_range]
          constructor
          · rintro ((h | h) | h)
            · right; omega
            · left; exact h
            · right; omega
          · rintro (h | h)
            · left; right; exact h
            · by_cases hy : y = ls.length
              · left; left; exact hy
              · right; omega
        rw [hset] at h2 h3
        refine ⟨o', p', h1, ?_, ?_, h4.trans po, h5.trans pp⟩
        · simpa [List.append_assoc] using h2
        · simpa [List.append_assoc] using h3
      · intro hbad
        exact ih.2 (fun h => hbad (hcond.mp h))

theorem addAll_pos (height : Nat) : ∀ (xs : List TxOutput) (n : Nat) (db : DB) (c : Bytes),
    (xs.map (·.commit)).Nodup →
    (addAll height xs n db).pos c =
      match xs.findIdx? (fun x => x.commit = c) with
      | some k => some ⟨n + k, height⟩
      | none => db.pos c
  | [], n, db, c, _ => by simp [addAll]
  | x :: xs, n, db, c, hn => by
    have hn' := List.nodup_cons.mp hn
    rw [addAll, addAll_pos height xs (n + 1) _ c hn'.2, List.findIdx?_cons]
    by_cases hc : x.commit = c
    · have : xs.findIdx? (fun x => x.commit = c) = none := by
        rw [List.findIdx?_eq_none_iff]
        intro y hy
        simp only [decide_eq_false_iff_not]
        intro he
        exact hn'.1 (List.mem_map.mpr ⟨y, hy, he.trans hc.symm⟩)
      simp [this, hc, DB.addPos]
    · cases e : xs.findIdx? (fun x => x.commit = c) with
      | none => simp [hc, DB.addPos, Ne.symm hc]
      | some k =>
        simp [hc]
        omega

theorem addAll_tables (height : Nat) : ∀ (xs : List TxOutput) (n : Nat) (db : DB),
    (addAll height xs n db).spent = db.spent ∧ (addAll height xs n db).block = db.block ∧
      (addAll height xs n db).header = db.header
  | [], _, _ => ⟨rfl, rfl, rfl⟩
  | x :: xs, n, db => by
    rw [addAll]
    obtain ⟨h1, h2, h3⟩ := addAll_tables height xs (n + 1) (db.addPos x.commit ⟨n, height⟩)
    exact ⟨h1, h2, h3⟩

/-! ## One block -/

/-- The stored state: the leaves ever added and their proofs, the unspent ones, the kernels; and every
position in the database is that of an unspent leaf holding that commitment. -/
structure State where
  leaves : List Bytes
  proofs : List Bytes
  unspent : Finset Nat
  kernels : List Bytes

structure Holds (H : Bytes → Bytes) (db : DB) (t : THS) (s : State) : Prop where
  outputs : Stores H t.outputs s.leaves s.unspent
  proofs : Stores H t.proofs s.proofs s.unspent
  same : s.proofs.length = s.leaves.length
  kernels : kmmrOf H s.kernels = .ok t.kernels
  pos : ∀ c l, db.pos c = some l → l.leaf ∈ s.unspent ∧ (s.leaves[l.leaf]?).map idCommit = some c

/-- The state after a block. -/
def State.next (s : State) (db : DB) (b : Block) : State where
  leaves := s.leaves ++ b.body.outputs.map identifier
  proofs := s.proofs ++ b.body.outputs.map (fun x => proofSer x.proof)
  unspent := (s.unspent \ (leavesOf db b.body.inputs).toFinset) ∪
    newLeaves s.leaves.length b.body.outputs.length
  kernels := s.kernels ++ b.body.kernels.map (kernelSer 1)

/-- What a block spends. -/
def spentOf (db : DB) (is : List TxInput) : List (Bytes × Loc) :=
  is.filterMap (fun i => (db.pos i.commit).map (fun l => (i.commit, l)))

/-- When a block can be applied. -/
structure Applies (env : Env) (db : DB) (s : State) (b : Block) : Prop where
  inputs : (b.body.inputs.map (·.commit)).Nodup
  spendable : ∀ i ∈ b.body.inputs,
    CanSpend db (maxCoinbaseHeight env b.header.height) s.leaves s.unspent i.commit
  fresh : ∀ x ∈ b.body.outputs, ∀ l, db.pos x.commit = some l →
    l.leaf ∉ s.unspent \ (leavesOf db b.body.inputs).toFinset
  outputs : (b.body.outputs.map (·.commit)).Nodup

/-- The database after a block. -/
def dbAfter (hh : Header → Bytes) (db : DB) (n : Nat) (b : Block) : DB :=
  (addAll b.header.height b.body.outputs n
    (db.addSpent (hh b.header) (spentOf db b.body.inputs))).removePos (b.body.inputs.map (·.commit))

theorem idCommit_identifier (x : TxOutput) : idCommit (identifier x) = x.commit := by
  unfold idCommit identifier
  rw [show beBytes 1 x.features = [UInt8.ofNat x.features] by simp [beBytes]]
  rfl

theorem appendAll_append (H : Bytes → Bytes) : ∀ (xs ys hs : List Bytes),
    appendAll H hs (xs ++ ys) = (appendAll H hs xs >>= fun g => appendAll H g ys)
  | [], ys, hs => by simp [appendAll]
  | x :: xs, ys, hs => by
    simp only [List.cons_append, appendAll]
    cases addHashes H none hs x with
    | ok g => simp only [Res.ok_bind]; exact appendAll_append H xs ys g
    | throw => rfl
    | ub => rfl

theorem kernels_append {H : Bytes → Bytes} {ks ms : List Bytes} {k : KMMR}
    (h : kmmrOf H ks = .ok k) (hb : leafPos (ks.length + ms.length) < 2 ^ 64) :
    ∃ k', k.applyAll H ms = .ok k' ∧ kmmrOf H (ks ++ ms) = .ok k' ∧ k'.rewind ks.length = .ok k := by
  obtain ⟨m, m', h1, h2, h3⟩ := kernel_rewind H ks ms hb
  rw [h] at h1; injection h1 with h1; subst h1
  refine ⟨m', ?_, h2, h3⟩
  unfold kmmrOf at h h2
  rw [applyAll_eq] at h h2 ⊢
  obtain ⟨f, hf, h⟩ := Res.bind_eq_ok.mp h
  injection h with h; subst h
  obtain ⟨g, hg, h2⟩ := Res.bind_eq_ok.mp h2
  injection h2 with h2; subst h2
  rw [appendAll_append, hf, Res.ok_bind] at hg
  simp only [hg, Res.ok_bind, List.nil_append]

theorem applyBlock_ok {env : Env} {H : Bytes → Bytes} {hh : Header → Bytes} {db : DB} {t : THS}
    {s : State} {b : Block} (h : Holds H db t s)
    (hb : leafPos (s.leaves.length + b.body.outputs.length) < 2 ^ 64)
    (hk : leafPos (s.kernels.length + b.body.kernels.length) < 2 ^ 64)
    (ha : Applies env db s b) :
    ∃ t', applyBlock env H hh db t b = .ok (some (dbAfter hh db s.leaves.length b, t')) ∧
      Holds H (dbAfter hh db s.leaves.length b) t' (s.next db b) ∧
      t'.outputs.pl = t.outputs.pl ∧ t'.proofs.pl = t.proofs.pl ∧ t'.header = b.header := by
  have hb0 : leafPos s.leaves.length < 2 ^ 64 := leafPos_bound hb (by omega)
  obtain ⟨o, p, e1, so, sp, po, pp⟩ := spend_ok hb0 (fun c l e => (h.pos c l e).2) b.body.inputs
    t.outputs t.proofs s.unspent h.outputs h.proofs ha.inputs ha.spendable
  have hpos' : (db.addSpent (hh b.header) (spentOf db b.body.inputs)).pos = db.pos := rfl
  obtain ⟨o', p', f1, so', sp', po', pp'⟩ := (add_spec (height := b.header.height) b.body.outputs
    (db.addSpent (hh b.header) (spentOf db b.body.inputs)) o p _ _ _ so sp h.same hb (by
      intro c l e
      exact h.outputs.inRange _ (h.pos c l e).1)).1 ⟨ha.fresh, ha.outputs⟩
  obtain ⟨k', g1, g2, _⟩ := kernels_append h.kernels (ms := b.body.kernels.map (kernelSer 1))
    (by simpa using hk)
  refine ⟨⟨k', o', p', b.header⟩, ?_, ⟨so', sp', ?_, g2, ?_⟩, po'.trans po, pp'.trans pp, rfl⟩
  · unfold applyBlock
    simp only [e1, Res.ok_bind]
    change (addOutputs H b.header.height b.body.outputs
      (db.addSpent (hh b.header) (spentOf db b.body.inputs)) o p >>= _) = _
    simp only [f1, Res.ok_bind, g1, Res.pure_eq]
    rfl
  · simp [State.next, h.same]
  · intro c l e
    simp only [dbAfter, DB.removePos] at e
    split at e
    · cases e
    · rename_i hc
      rw [addAll_pos _ _ _ _ _ ha.outputs] at e
      simp only [State.next]
      cases e2 : b.body.outputs.findIdx? (fun x => x.commit = c) with
      | none =>
        rw [e2] at e
        have e : db.pos c = some l := e
        obtain ⟨a1, a2⟩ := h.pos c l e
        refine ⟨Finset.mem_union_left _ (Finset.mem_sdiff.mpr ⟨a1, ?_⟩), ?_⟩
        · intro hm
          simp only [leavesOf, List.mem_toFinset, List.mem_filterMap, Option.map_eq_some_iff] at hm
          obtain ⟨i, hi, l2, q1, q2⟩ := hm
          have a3 := (h.pos _ _ q1).2
          rw [q2, a2] at a3
          injection a3 with a3
          exact hc (List.mem_map.mpr ⟨i, hi, a3.symm⟩)
        · rw [List.getElem?_append_left (h.outputs.inRange _ a1)]; exact a2
      | some k =>
        rw [e2] at e
        simp only [Option.some.injEq] at e
        subst e
        obtain ⟨hk1, hk2, _⟩ := List.findIdx?_eq_some_iff_getElem.mp e2
        simp only [decide_eq_true_eq] at hk2
        refine ⟨Finset.mem_union_right _ ?_, ?_⟩
        · simp only [newLeaves, Finset.mem_filter, Finset.mem_range]; omega
        · rw [List.getElem?_append_right (by simp)]
          simp only [Nat.add_sub_cancel_left, List.getElem?_map, List.getElem?_eq_getElem hk1,
            Option.map_some, idCommit_identifier, hk2]

theorem applyBlock_only {env : Env} {H : Bytes → Bytes} {hh : Header → Bytes} {db : DB} {t : THS}
    {s : State} {b : Block} (h : Holds H db t s)
    (hb : leafPos (s.leaves.length + b.body.outputs.length) < 2 ^ 64)
    {r : DB × THS} (e : applyBlock env H hh db t b = .ok (some r)) : Applies env db s b := by
  have hb0 : leafPos s.leaves.length < 2 ^ 64 := leafPos_bound hb (by omega)
  unfold applyBlock at e
  obtain ⟨q, hq, e⟩ := Res.bind_eq_ok.mp e
  cases q with
  | none => simp at e
  | some q =>
    obtain ⟨n1, n2⟩ := spend_only hb0 (fun c l e => (h.pos c l e).2) _ _ _ _ q h.outputs h.proofs hq
    obtain ⟨o, p, e1, so, sp, _⟩ := spend_ok hb0 (fun c l e => (h.pos c l e).2) b.body.inputs
      t.outputs t.proofs s.unspent h.outputs h.proofs n1 n2
    rw [e1] at hq
    injection hq with hq; injection hq with hq; subst hq
    simp only at e
    by_cases hc : (∀ x ∈ b.body.outputs, ∀ l, db.pos x.commit = some l →
        l.leaf ∉ s.unspent \ (leavesOf db b.body.inputs).toFinset) ∧
        (b.body.outputs.map (·.commit)).Nodup
    · exact ⟨n1, n2, hc.1, hc.2⟩
    · have := (add_spec (height := b.header.height) b.body.outputs
        (db.addSpent (hh b.header) (spentOf db b.body.inputs)) o p _ _ _ so sp h.same hb (by
          intro c l e
          exact h.outputs.inRange _ (h.pos c l e).1)).2 hc
      unfold spentOf at this
      rw [this] at e
      simp at e

/-- A block with distinct inputs is applied or refused, nothing else. -/
theorem applyBlock_refused {env : Env} {H : Bytes → Bytes} {hh : Header → Bytes} {db : DB} {t : THS}
    {s : State} {b : Block} (h : Holds H db t s)
    (hb : leafPos (s.leaves.length + b.body.outputs.length) < 2 ^ 64)
    (hn : (b.body.inputs.map (·.commit)).Nodup) (ha : ¬ Applies env db s b) :
    applyBlock env H hh db t b = .ok none := by
  have hb0 : leafPos s.leaves.length < 2 ^ 64 := leafPos_bound hb (by omega)
  unfold applyBlock
  by_cases hs : ∀ i ∈ b.body.inputs,
      CanSpend db (maxCoinbaseHeight env b.header.height) s.leaves s.unspent i.commit
  · obtain ⟨o, p, e1, so, sp, _⟩ := spend_ok hb0 (fun c l e => (h.pos c l e).2) b.body.inputs
      t.outputs t.proofs s.unspent h.outputs h.proofs hn hs
    have := (add_spec (height := b.header.height) b.body.outputs
      (db.addSpent (hh b.header) (spentOf db b.body.inputs)) o p _ _ _ so sp h.same hb (by
        intro c l e
        exact h.outputs.inRange _ (h.pos c l e).1)).2 (fun hc => ha ⟨hn, hs, hc.1, hc.2⟩)
    unfold spentOf at this
    simp only [e1, Res.ok_bind, this]
    rfl
  · rw [spend_refused hb0 (fun c l e => (h.pos c l e).2) _ _ _ _ h.outputs h.proofs
      (fun i _ l e => (h.pos _ _ e).1) hn hs]
    rfl

/-! ## Rewinding -/

theorem find_spent {db : DB} {is : List TxInput} {i : TxInput} {l : Loc} (hi : i ∈ is)
    (hl : db.pos i.commit = some l) :
    (spentOf db is).find? (fun e => e.1 = i.commit) = some (i.commit, l) := by
  cases e : (spentOf db is).find? (fun e => e.1 = i.commit) with
  | none =>
    rw [List.find?_eq_none] at e
    have := e (i.commit, l) (List.mem_filterMap.mpr ⟨i, hi, by rw [hl]; rfl⟩)
    simp at this
  | some x =>
    have h1 := List.find?_some e
    have h2 := List.mem_of_find?_eq_some e
    obtain ⟨j, _, h3⟩ := List.mem_filterMap.mp h2
    obtain ⟨l2, h4, h5⟩ := Option.map_eq_some_iff.mp h3
    subst h5
    simp only [decide_eq_true_eq] at h1
    rw [h1, hl] at h4
    injection h4 with h4
    rw [h1, h4]

theorem unspend_ok {db : DB} (all : List TxInput) : ∀ (is : List TxInput) (d : DB),
    (∀ i ∈ is, i ∈ all ∧ ∃ l, db.pos i.commit = some l) →
    ∃ d', unspendInputs (spentOf db all) is d = .ok (d', leavesOf db is) ∧
      (∀ c, d'.pos c = if c ∈ is.map (·.commit) then db.pos c else d.pos c) ∧
      d'.spent = d.spent ∧ d'.block = d.block ∧ d'.header = d.header
  | [], d, _ => ⟨d, rfl, by simp, rfl, rfl, rfl⟩
  | i :: is, d, h => by
    obtain ⟨ha, l, hl⟩ := h i (by simp)
    obtain ⟨d', h1, h2, h3, h4, h5⟩ := unspend_ok all is (d.addPos i.commit l)
      (fun j hj => h j (by simp [hj]))
    refine ⟨d', ?_, ?_, h3, h4, h5⟩
    · rw [unspendInputs, find_spent ha hl]
      simp only [h1, Res.ok_bind, Res.pure_eq, leavesOf, List.filterMap_cons, hl, Option.map_some]
    · intro c
      rw [h2 c]
      simp only [List.map_cons, List.mem_cons, DB.addPos]
      by_cases hc : c ∈ is.map (·.commit)
      · rw [if_pos hc, if_pos (Or.inr hc)]
      · rw [if_neg hc]
        by_cases he : c = i.commit
        · rw [if_pos he, if_pos (Or.inl he), he, hl]
        · rw [if_neg he, if_neg (by tauto)]

/-- A list of linked blocks applied in turn, each stored in the database after it is applied
(BlockProcessor.cpp:184-225 without the checks). -/
inductive Applied (env : Env) (H : Bytes → Bytes) (hh : Header → Bytes) (db0 : DB) (t0 : THS) :
    List Block → DB → THS → Prop
  | nil : Applied env H hh db0 t0 [] db0 t0
  | snoc {bs : List Block} {db db' : DB} {t t' : THS} {b : Block} :
      Applied env H hh db0 t0 bs db t → applyBlock env H hh db t b = .ok (some (db', t')) →
      b.header.prevHash = hh t.header → b.header.height = t.header.height + 1 →
      Applied env H hh db0 t0 (bs ++ [b]) (db'.addBlock (hh b.header) b) t'

/-- The tables of `d` that rewinding reads are those of `db`. -/
def SameTables (d db : DB) : Prop := d.spent = db.spent ∧ d.block = db.block ∧ d.header = db.header

/-- What is known after applying a list of blocks. -/
structure After (H : Bytes → Bytes) (hh : Header → Bytes) (db0 : DB) (t0 : THS) (s0 : State)
    (bs : List Block) (db : DB) (t : THS) (s : State) : Prop where
  holds : Holds H db t s
  leaves : s.leaves = s0.leaves ++ (bs.flatMap (·.body.outputs)).map identifier
  proofs : s.proofs = s0.proofs ++ (bs.flatMap (·.body.outputs)).map (fun x => proofSer x.proof)
  kernels : s.kernels = s0.kernels ++ (bs.flatMap (·.body.kernels)).map (kernelSer 1)
  opl : t.outputs.pl = t0.outputs.pl
  ppl : t.proofs.pl = t0.proofs.pl
  header : db.header = db0.header
  height : t.header.height = t0.header.height + bs.length
  tip : t.header = t0.header ∨ ∃ b ∈ bs, t.header = b.header
  undo : ∀ (d : DB), d.pos = db.pos → d.header = db.header →
    (∀ b ∈ bs, d.spent (hh b.header) = db.spent (hh b.header) ∧
      d.block (hh b.header) = db.block (hh b.header)) →
    ∀ fuel, bs.length ≤ fuel → ∃ d' rs, rewindLoop hh t0.header fuel d t.header = .ok (d', rs) ∧
      d'.pos = db0.pos ∧ SameTables d' d ∧
      (s.unspent ∪ rs.toFinset).filter (· < s0.leaves.length) = s0.unspent ∧
      ∀ l ∈ rs, t0.outputs.pl.isCompacted (leafPos l) = false ∧
        t0.proofs.pl.isCompacted (leafPos l) = false

theorem applied_after {env : Env} {H : Bytes → Bytes} {hh : Header → Bytes} {db0 : DB} {t0 : THS}
    {s0 : State} (h0 : Holds H db0 t0 s0) {bs : List Block} {db : DB} {t : THS}
    (ha : Applied env H hh db0 t0 bs db t)
    (hb : leafPos (s0.leaves.length + (bs.flatMap (·.body.outputs)).length) < 2 ^ 64)
    (hk : leafPos (s0.kernels.length + (bs.flatMap (·.body.kernels)).length) < 2 ^ 64)
    (hin : ∀ b ∈ bs, b.body.inputs.length < 2 ^ 16)
    (hhd : db0.header (hh t0.header) = some t0.header ∧
      ∀ b ∈ bs, db0.header (hh b.header) = some b.header)
    (hnd : (hh t0.header :: bs.map (fun b => hh b.header)).Nodup) :
    ∃ s, After H hh db0 t0 s0 bs db t s := by
  induction ha with
  | nil =>
    refine ⟨s0, ⟨h0, by simp, by simp, by simp, rfl, rfl, rfl, rfl, Or.inl rfl, ?_⟩⟩
    intro d hd _ _ fuel _
    refine ⟨d, [], ?_, hd, ⟨rfl, rfl, rfl⟩, ?_, by simp⟩
    · cases fuel <;> simp [rewindLoop]
    · ext x
      simp only [List.toFinset_nil, Finset.union_empty, Finset.mem_filter]
      exact ⟨fun h => h.1, fun h => ⟨h, h0.outputs.inRange x h⟩⟩
  | @snoc bs db db' t t' b ha hap hprev hheight ih =>
    simp only [List.flatMap_append, List.flatMap_cons, List.flatMap_nil, List.append_nil,
      List.length_append] at hb hk
    have hnd' : (hh t0.header :: bs.map (fun b => hh b.header)).Nodup ∧
        hh b.header ∉ (hh t0.header :: bs.map (fun b => hh b.header)) := by
      rw [List.map_append, ← List.cons_append, List.nodup_append] at hnd
      refine ⟨hnd.1, ?_⟩
      intro hm
      exact hnd.2.2 _ hm (hh b.header) (by simp) rfl
    obtain ⟨s, hs⟩ := ih (leafPos_bound hb (by omega)) (leafPos_bound hk (by omega))
      (fun b hb => hin b (by simp [hb])) ⟨hhd.1, fun b hb => hhd.2 b (by simp [hb])⟩ hnd'.1
    have hb' : leafPos (s.leaves.length + b.body.outputs.length) < 2 ^ 64 := by
      rw [hs.leaves, List.length_append, List.length_map, Nat.add_assoc]; exact hb
    have hk' : leafPos (s.kernels.length + b.body.kernels.length) < 2 ^ 64 := by
      rw [hs.kernels, List.length_append, List.length_map, Nat.add_assoc]; exact hk
    have happ := applyBlock_only hs.holds hb' hap
    obtain ⟨t2, e1, e2, e3, e4, e5⟩ := applyBlock_ok (hh := hh) hs.holds hb' hk' happ
    rw [e1] at hap
    injection hap with hap; injection hap with hap; injection hap with hap1 hap2
    subst hap1; subst hap2
    obtain ⟨tb1, tb2, tb3⟩ := addAll_tables b.header.height b.body.outputs s.leaves.length
      (db.addSpent (hh b.header) (spentOf db b.body.inputs))
    refine ⟨s.next db b, ⟨⟨e2.outputs, e2.proofs, e2.same, e2.kernels, e2.pos⟩, ?_, ?_, ?_,
      e3.trans hs.opl, e4.trans hs.ppl, ?_, ?_, Or.inr ⟨b, by simp, e5⟩, ?_⟩⟩
    · simp [State.next, hs.leaves]
    · simp [State.next, hs.proofs]
    · simp [State.next, hs.kernels]
    · exact tb3.trans hs.header
    · rw [e5, hheight, hs.height]; simp; omega
    · intro d hd hdh hdt fuel hf
      simp only [List.length_append, List.length_singleton] at hf
      obtain ⟨fuel, rfl⟩ : ∃ g, fuel = g + 1 := ⟨fuel - 1, by omega⟩
      have hlen : (spentOf db b.body.inputs).length < 2 ^ 16 := by
        have h1 : (spentOf db b.body.inputs).length ≤ b.body.inputs.length :=
          List.length_filterMap_le _ _
        have h2 := hin b (by simp)
        omega
      have hspent : d.spent (hh b.header) = some (spentOf db b.body.inputs) := by
        rw [(hdt b (by simp)).1]
        show (addAll _ _ _ _).spent _ = _
        rw [tb1]
        simp only [DB.addSpent, if_true]
        rw [Nat.mod_eq_of_lt hlen, List.take_length]
      have hblock : d.block (hh b.header) = some b := by
        rw [(hdt b (by simp)).2]
        simp [DB.addBlock]
      obtain ⟨d1, u1, u2, u3, u4, u5⟩ := unspend_ok (db := db) b.body.inputs b.body.inputs
        (d.removePos (b.body.outputs.map (·.commit)))
        (fun i hi => by
          obtain ⟨l, _, hl, _⟩ := happ.spendable i hi
          exact ⟨hi, l, hl⟩)
      have hpos1 : d1.pos = db.pos := by
        funext c
        rw [u2 c]
        by_cases hc : c ∈ b.body.inputs.map (·.commit)
        · rw [if_pos hc]
        · rw [if_neg hc]
          simp only [DB.removePos]
          by_cases ho : c ∈ b.body.outputs.map (·.commit)
          · rw [if_pos ho]
            obtain ⟨x, hx, rfl⟩ := List.mem_map.mp ho
            cases e : db.pos x.commit with
            | none => rfl
            | some l =>
              exfalso
              refine happ.fresh x hx l e (Finset.mem_sdiff.mpr ⟨(hs.holds.pos _ _ e).1, ?_⟩)
              intro hm
              simp only [leavesOf, List.mem_toFinset, List.mem_filterMap,
                Option.map_eq_some_iff] at hm
              obtain ⟨i, hi, l2, q1, q2⟩ := hm
              have a3 := (hs.holds.pos _ _ q1).2
              rw [q2, (hs.holds.pos _ _ e).2] at a3
              injection a3 with a3
              exact hc (List.mem_map.mpr ⟨i, hi, a3.symm⟩)
          · rw [if_neg ho, hd]
            show (if c ∈ _ then _ else (addAll _ _ _ _).pos c) = _
            rw [if_neg hc, addAll_pos _ _ _ _ _ happ.outputs]
            have : b.body.outputs.findIdx? (fun x => x.commit = c) = none := by
              rw [List.findIdx?_eq_none_iff]
              intro y hy
              simp only [decide_eq_false_iff_not]
              intro he
              exact ho (List.mem_map.mpr ⟨y, hy, he⟩)
            rw [this]
            rfl
      have hheader1 : d1.header = db.header := by
        rw [u5]; show d.header = _; rw [hdh]; exact tb3
      have hprevh : d1.header b.header.prevHash = some t.header := by
        rw [hheader1, hs.header, hprev]
        rcases hs.tip with e | ⟨b2, hb2, e⟩
        · rw [e]; exact hhd.1
        · rw [e]; exact hhd.2 b2 (by simp [hb2])
      obtain ⟨d', rs, v1, v2, v3, v4, v5⟩ := hs.undo d1 hpos1 hheader1 (by
        intro b2 hb2
        have hne : hh b2.header ≠ hh b.header := by
          intro he
          exact hnd'.2 (by rw [← he]; simp only [List.mem_cons, List.mem_map]; right; exact ⟨b2, hb2, rfl⟩)
        obtain ⟨w1, w2⟩ := hdt b2 (by simp [hb2])
        constructor
        · rw [u3]; show d.spent _ = _; rw [w1]
          show (addAll _ _ _ _).spent _ = _
          rw [tb1]; simp [DB.addSpent, hne]
        · rw [u4]; show d.block _ = _; rw [w2]
          simp only [DB.addBlock, if_neg hne]
          show (addAll _ _ _ _).block _ = _
          rw [tb2]; rfl) fuel (by omega)
      refine ⟨d', leavesOf db b.body.inputs ++ rs, ?_, v2, ?_, ?_, ?_⟩
      · rw [rewindLoop, e5, if_pos (fun he => hnd'.2 (by rw [he]; simp))]
        simp only [hblock, hspent, u1, Res.ok_bind, hprevh, v1, Res.pure_eq]
      · exact ⟨v3.1.trans u3, v3.2.1.trans u4, v3.2.2.trans u5⟩
      · rw [← v4]
        ext x
        have hsub : x ∈ leavesOf db b.body.inputs → x ∈ s.unspent := by
          intro hm
          simp only [leavesOf, List.mem_filterMap, Option.map_eq_some_iff] at hm
          obtain ⟨i, hi, l2, q1, q2⟩ := hm
          rw [← q2]; exact (hs.holds.pos _ _ q1).1
        have hlen0 : s0.leaves.length ≤ s.leaves.length := by rw [hs.leaves]; simp
        simp only [State.next, Finset.mem_filter, Finset.mem_union, Finset.mem_sdiff,
          List.mem_toFinset, List.mem_append, newLeaves, Finset.mem_range]
        constructor
        · rintro ⟨h1, h2⟩
          refine ⟨?_, h2⟩
          rcases h1 with (h1 | h1) | (h1 | h1)
          · exact Or.inl h1.1
          · omega
          · exact Or.inl (hsub h1)
          · exact Or.inr h1
        · rintro ⟨h1, h2⟩
          refine ⟨?_, h2⟩
          rcases h1 with h1 | h1
          · by_cases hm : x ∈ leavesOf db b.body.inputs
            · exact Or.inr (Or.inl hm)
            · exact Or.inl (Or.inl ⟨h1, hm⟩)
          · exact Or.inr (Or.inr h1)
      · intro l hl
        rcases List.mem_append.mp hl with hl | hl
        · simp only [leavesOf, List.mem_filterMap, Option.map_eq_some_iff] at hl
          obtain ⟨i, hi, l2, q1, q2⟩ := hl
          rw [← q2, ← hs.opl, ← hs.ppl]
          have := (hs.holds.pos _ _ q1).1
          exact ⟨hs.holds.outputs.kept _ this, hs.holds.proofs.kept _ this⟩
        · exact v5 l hl

end Verif.Tx
