import Verif.Tx.TxHashSetLemmas
import Mathlib.Data.List.Nodup

/-!
# C36, C29: the set of unspent outputs

The set is looked at the way a user of the chain does: by commitment.  `coin` gives the stored output,
its range proof and the height of the block that created it, or nothing.
-/
namespace Verif.Props
open Verif.PoW Verif.MMR Verif.Tx

/-- An unspent output as reported by the node. -/
structure Coin where
  output : Bytes
  proof : Bytes
  height : Nat
deriving DecidableEq, Repr

/-- Looking up an output by commitment: `GetOutputPosition` followed by `GetOutput`
(TxHashSetImpl.cpp:326-335, BlockChainImpl.cpp), `none` if the database has no position. -/
def coin (db : DB) (t : THS) (c : Bytes) : Res (Option Coin) :=
  match db.pos c with
  | none => .ok none
  | some loc => do
    let o ← t.outputs.getAt loc.leaf
    let p ← t.proofs.getAt loc.leaf
    match o, p with
    | some o, some p => return some ⟨o, p, loc.height⟩
    | _, _ => .throw

/-- Spec: a coinbase output of height `h` may be spent in a block of height `n`. -/
def Mature (env : Env) (h n : Nat) : Prop := h = 0 ∨ h + (if env = .testing then 25 else 1440) ≤ n

/-- The stored output is a coinbase. -/
def Coin.isCoinbase (k : Coin) : Bool := (k.output.headD 0).toNat % 2 = 1

theorem coinbase_bit (d : Bytes) : idIsCoinbase d = decide ((d.headD 0).toNat % 2 = 1) := by
  unfold idIsCoinbase idFeatures
  rw [Nat.and_one_is_mod]

/-- **C29.** The height comparison of the code is the maturity rule. -/
theorem maturity_rule (env : Env) (h n : Nat) : ¬ h > maxCoinbaseHeight env n ↔ Mature env h n := by
  unfold maxCoinbaseHeight Mature
  split <;> omega

/-! ## Reading the set -/

theorem coin_eq {H : Bytes → Bytes} {db : DB} {t : THS} {s : State} (h : Holds H db t s)
    (hb : leafPos s.leaves.length < 2 ^ 64) (c : Bytes) :
    coin db t c = .ok ((db.pos c).map
      (fun l => ⟨s.leaves.getD l.leaf [], s.proofs.getD l.leaf [], l.height⟩)) := by
  unfold coin
  cases e : db.pos c with
  | none => rfl
  | some l =>
    have hm := (h.pos c l e).1
    have h1 := h.outputs.inRange _ hm
    have h2 := h.proofs.inRange _ hm
    simp only
    rw [(pruned_get H _ _ _ h.outputs hb).1, (pruned_get H _ _ _ h.proofs (by rw [h.same]; exact hb)).1,
      if_pos hm, if_pos hm, List.getElem?_eq_getElem h1, List.getElem?_eq_getElem h2]
    simp only [Res.ok_bind, Res.pure_eq, Option.map_some, List.getD_eq_getElem?_getD,
      List.getElem?_eq_getElem h1, List.getElem?_eq_getElem h2, Option.getD_some]

/-- **C36.** A lookup never fails, and what it returns is an output with that commitment. -/
theorem coin_sound {H : Bytes → Bytes} {db : DB} {t : THS} {s : State} (h : Holds H db t s)
    (hb : leafPos s.leaves.length < 2 ^ 64) (c : Bytes) :
    ∃ r, coin db t c = .ok r ∧ ∀ k, r = some k → k.output.tail = c := by
  refine ⟨_, coin_eq h hb c, ?_⟩
  intro k hk
  obtain ⟨l, e, rfl⟩ := Option.map_eq_some_iff.mp hk
  have := (h.pos c l e).2
  obtain ⟨d, hd, hd2⟩ := Option.map_eq_some_iff.mp this
  simp only [List.getD_eq_getElem?_getD, hd, Option.getD_some]
  exact hd2

/-- Spec: a body can be put into a block of height `n` on top of the given set. -/
structure Fits (env : Env) (db : DB) (t : THS) (n : Nat) (b : Body) : Prop where
  inputs : (b.inputs.map (·.commit)).Nodup
  present : ∀ i ∈ b.inputs, ∃ k, coin db t i.commit = .ok (some k) ∧
    (k.isCoinbase = true → Mature env k.height n)
  outputs : (b.outputs.map (·.commit)).Nodup
  fresh : ∀ x ∈ b.outputs, coin db t x.commit = .ok none ∨ x.commit ∈ b.inputs.map (·.commit)

theorem fits_iff {env : Env} {H : Bytes → Bytes} {db : DB} {t : THS} {s : State} {b : Block}
    (h : Holds H db t s) (hb : leafPos s.leaves.length < 2 ^ 64) :
    Fits env db t b.header.height b.body ↔ Applies env db s b := by
  have hcan : ∀ c, (∃ k, coin db t c = .ok (some k) ∧
      (k.isCoinbase = true → Mature env k.height b.header.height)) ↔
      CanSpend db (maxCoinbaseHeight env b.header.height) s.leaves s.unspent c := by
    intro c
    rw [coin_eq h hb c]
    unfold CanSpend
    constructor
    · rintro ⟨k, e, hm⟩
      injection e with e
      obtain ⟨l, e1, e2⟩ := Option.map_eq_some_iff.mp e
      subst e2
      have hu := (h.pos c l e1).1
      have hlt := h.outputs.inRange _ hu
      refine ⟨l, s.leaves[l.leaf], e1, hu, List.getElem?_eq_getElem hlt, ?_⟩
      rintro ⟨q1, q2⟩
      rw [coinbase_bit] at q1
      simp only [Coin.isCoinbase, List.getD_eq_getElem?_getD, List.getElem?_eq_getElem hlt,
        Option.getD_some] at hm
      exact (maturity_rule env _ _).mpr (hm q1) q2
    · rintro ⟨l, d, e1, e2, e3, e4⟩
      refine ⟨_, by rw [e1]; rfl, ?_⟩
      intro hc
      simp only [Coin.isCoinbase, List.getD_eq_getElem?_getD, e3, Option.getD_some] at hc
      rw [← maturity_rule]
      intro hgt
      exact e4 ⟨by rw [coinbase_bit]; exact hc, hgt⟩
  have hfresh : ∀ x : TxOutput, (coin db t x.commit = .ok none ∨
      x.commit ∈ b.body.inputs.map (·.commit)) ↔ ∀ l, db.pos x.commit = some l →
        l.leaf ∉ s.unspent \ (leavesOf db b.body.inputs).toFinset := by
    intro x
    rw [coin_eq h hb]
    constructor
    · rintro (e | e) l hl
      · rw [hl] at e; simp at e
      · intro hm
        obtain ⟨i, hi, he⟩ := List.mem_map.mp e
        apply (Finset.mem_sdiff.mp hm).2
        simp only [leavesOf, List.mem_toFinset, List.mem_filterMap, Option.map_eq_some_iff]
        exact ⟨i, hi, l, by rw [he]; exact hl, rfl⟩
    · intro hn
      cases e : db.pos x.commit with
      | none => left; rfl
      | some l =>
        right
        have hu := (h.pos _ _ e)
        have : l.leaf ∈ (leavesOf db b.body.inputs).toFinset := by
          by_contra hc
          exact hn l e (Finset.mem_sdiff.mpr ⟨hu.1, hc⟩)
        simp only [leavesOf, List.mem_toFinset, List.mem_filterMap, Option.map_eq_some_iff] at this
        obtain ⟨i, hi, l2, q1, q2⟩ := this
        have a3 := (h.pos _ _ q1).2
        rw [q2, hu.2] at a3
        injection a3 with a3
        exact List.mem_map.mpr ⟨i, hi, a3.symm⟩
  constructor
  · rintro ⟨f1, f2, f3, f4⟩
    exact ⟨f1, fun i hi => (hcan _).mp (f2 i hi), fun x hx => (hfresh x).mp (f4 x hx), f3⟩
  · rintro ⟨f1, f2, f3, f4⟩
    exact ⟨f1, fun i hi => (hcan _).mpr (f2 i hi), f4, fun x hx => (hfresh x).mpr (f3 x hx)⟩

/-! ## Applying a block -/

/-- **C36, C29.** A block is applied exactly if its inputs are distinct, each is an unspent output (and
mature if a coinbase), its outputs are distinct, and none of them has the commitment of an output
that stays unspent. -/
theorem apply_accepts_iff (env : Env) (H : Bytes → Bytes) (hh : Header → Bytes) (db : DB) (t : THS)
    (s : State) (b : Block) (h : Holds H db t s)
    (hb : leafPos (s.leaves.length + b.body.outputs.length) < 2 ^ 64)
    (hk : leafPos (s.kernels.length + b.body.kernels.length) < 2 ^ 64) :
    (∃ r, applyBlock env H hh db t b = .ok (some r)) ↔ Fits env db t b.header.height b.body := by
  rw [fits_iff h (leafPos_bound hb (by omega))]
  constructor
  · rintro ⟨r, e⟩; exact applyBlock_only h hb e
  · intro ha
    obtain ⟨t', e, _⟩ := applyBlock_ok (hh := hh) h hb hk ha
    exact ⟨_, e⟩

/-- **C36.** With distinct inputs the block is applied or refused; nothing else happens. -/
theorem apply_answers (env : Env) (H : Bytes → Bytes) (hh : Header → Bytes) (db : DB) (t : THS)
    (s : State) (b : Block) (h : Holds H db t s)
    (hb : leafPos (s.leaves.length + b.body.outputs.length) < 2 ^ 64)
    (hn : (b.body.inputs.map (·.commit)).Nodup)
    (hf : ¬ Fits env db t b.header.height b.body) : applyBlock env H hh db t b = .ok none :=
  applyBlock_refused h hb hn (fun ha => hf ((fits_iff h (leafPos_bound hb (by omega))).mpr ha))

/-- **C36.** Applying a block removes exactly its inputs and adds exactly its outputs: afterwards an
input's commitment is not found, an output of the block is found with its range proof and the height
of the block, and every other commitment gives what it gave before.  The new state is again a
correctly stored one. -/
theorem apply_effect (env : Env) (H : Bytes → Bytes) (hh : Header → Bytes) (db : DB) (t : THS)
    (s : State) (b : Block) (h : Holds H db t s)
    (hb : leafPos (s.leaves.length + b.body.outputs.length) < 2 ^ 64)
    (hk : leafPos (s.kernels.length + b.body.kernels.length) < 2 ^ 64)
    (db' : DB) (t' : THS) (e : applyBlock env H hh db t b = .ok (some (db', t'))) :
    (∀ c, coin db' t' c =
      if c ∈ b.body.inputs.map (·.commit) then .ok none
      else match b.body.outputs.find? (fun x => x.commit = c) with
        | some x => .ok (some ⟨identifier x, proofSer x.proof, b.header.height⟩)
        | none => coin db t c) ∧
    t'.header = b.header ∧ ∃ s', Holds H db' t' s' ∧
      s'.leaves = s.leaves ++ b.body.outputs.map identifier ∧
      s'.kernels = s.kernels ++ b.body.kernels.map (kernelSer 1) := by
  have ha := applyBlock_only h hb e
  obtain ⟨t2, e1, e2, _, _, e5⟩ := applyBlock_ok (hh := hh) h hb hk ha
  rw [e] at e1
  injection e1 with e1; injection e1 with e1; injection e1 with q1 q2
  subst q1; subst q2
  refine ⟨?_, e5, _, e2, rfl, rfl⟩
  intro c
  rw [coin_eq e2 (by simpa [State.next] using hb), coin_eq h (leafPos_bound hb (by omega))]
  simp only [dbAfter, DB.removePos]
  by_cases hc : c ∈ b.body.inputs.map (·.commit)
  · rw [if_pos hc, if_pos hc]; rfl
  · rw [if_neg hc, if_neg hc, addAll_pos _ _ _ _ _ ha.outputs]
    cases e6 : b.body.outputs.findIdx? (fun x => x.commit = c) with
    | none =>
      have : b.body.outputs.find? (fun x => x.commit = c) = none := by
        rw [List.find?_eq_none]
        rw [List.findIdx?_eq_none_iff] at e6
        intro x hx; rw [e6 x hx]; simp
      rw [this]
      simp only
      show Res.ok ((db.pos c).map _) = _
      cases e7 : db.pos c with
      | none => rfl
      | some l =>
        have hu := (h.pos c l e7).1
        have h1 := h.outputs.inRange _ hu
        have h2 := h.proofs.inRange _ hu
        simp only [Option.map_some, State.next, List.getD_eq_getElem?_getD,
          List.getElem?_append_left h1, List.getElem?_append_left h2]
    | some k =>
      obtain ⟨hk1, hk2, hk3⟩ := List.findIdx?_eq_some_iff_getElem.mp e6
      have : b.body.outputs.find? (fun x => x.commit = c) = some b.body.outputs[k] := by
        rw [List.find?_eq_some_iff_getElem]
        exact ⟨hk2, k, hk1, rfl, fun j hj => by simpa using hk3 j hj⟩
      rw [this]
      simp only [Option.map_some, State.next, List.getD_eq_getElem?_getD]
      rw [List.getElem?_append_right (by omega), List.getElem?_append_right (by rw [h.same]; omega),
        h.same, Nat.add_sub_cancel_left]
      simp [hk1]

/-- **C36 violated.** Checking the body does not refuse a repeated input (`double_spend_violated`), and
a block that names one unspent output twice in a row makes the code dereference the null pointer
returned for the output it has just removed. -/
theorem duplicate_input_violated (env : Env) (H : Bytes → Bytes) (hh : Header → Bytes) (db : DB)
    (t : THS) (s : State) (b : Block) (h : Holds H db t s)
    (hb : leafPos s.leaves.length < 2 ^ 64) (i j : TxInput) (is : List TxInput)
    (hi : b.body.inputs = i :: j :: is) (hij : i.commit = j.commit) (k : Coin)
    (hc : coin db t i.commit = .ok (some k))
    (hm : k.isCoinbase = true → Mature env k.height b.header.height) :
    applyBlock env H hh db t b = .ub := by
  rw [coin_eq h hb] at hc
  injection hc with hc
  obtain ⟨l, e1, e2⟩ := Option.map_eq_some_iff.mp hc
  subst e2
  have hu := (h.pos _ l e1).1
  have hlt := h.outputs.inRange _ hu
  have hg := (pruned_get H _ _ _ h.outputs hb).1 l.leaf
  rw [if_pos hu, List.getElem?_eq_getElem hlt] at hg
  obtain ⟨r1, so⟩ := remove_in h.outputs hu
  obtain ⟨r2, sp⟩ := remove_in h.proofs hu
  have hg2 := (pruned_get H _ _ _ so hb).1 l.leaf
  rw [if_neg (by simp)] at hg2
  have hno : ¬ (idIsCoinbase s.leaves[l.leaf] = true ∧
      l.height > maxCoinbaseHeight env b.header.height) := by
    rintro ⟨q1, q2⟩
    rw [coinbase_bit] at q1
    simp only [Coin.isCoinbase, List.getD_eq_getElem?_getD, List.getElem?_eq_getElem hlt,
      Option.getD_some] at hm
    exact (maturity_rule env _ _).mpr (hm q1) q2
  unfold applyBlock
  rw [hi]
  simp only [spendInputs, e1, hg, Res.ok_bind, if_neg hno, r1, r2, ← hij, hg2]
  rfl

/-! ## Rewinding -/

/-- **C36.** Applying any number of linked blocks and then rewinding to the header one started from
gives back exactly the stored ranges, unspent set and header, and exactly the positions in the
database; hence every lookup, size and root is what it was. -/
theorem rewind_restores (env : Env) (H : Bytes → Bytes) (hh : Header → Bytes) (db0 : DB) (t0 : THS)
    (s0 : State) (h0 : Holds H db0 t0 s0) (bs : List Block) (db : DB) (t : THS)
    (ha : Applied env H hh db0 t0 bs db t)
    (hb : leafPos (s0.leaves.length + (bs.flatMap (·.body.outputs)).length) < 2 ^ 64)
    (hk : leafPos (s0.kernels.length + (bs.flatMap (·.body.kernels)).length) < 2 ^ 64)
    (hin : ∀ b ∈ bs, b.body.inputs.length < 2 ^ 16)
    (hhd : db0.header (hh t0.header) = some t0.header ∧
      ∀ b ∈ bs, db0.header (hh b.header) = some b.header)
    (hnd : (hh t0.header :: bs.map (fun b => hh b.header)).Nodup)
    (hsz : numOutputs t0.header = s0.leaves.length ∧ numKernels t0.header = s0.kernels.length) :
    ∃ db', rewind hh db t t0.header = .ok (db', t0) ∧ db'.pos = db0.pos ∧
      ∀ c, coin db' t0 c = coin db0 t0 c := by
  obtain ⟨s, hs⟩ := applied_after h0 ha hb hk hin hhd hnd
  obtain ⟨d', rs, v1, v2, _, v4, v5⟩ := hs.undo db rfl rfl (fun _ _ => ⟨rfl, rfl⟩)
    (t.header.height + 1) (by rw [hs.height]; omega)
  have hl0 : s0.leaves.length ≤ s.leaves.length := by rw [hs.leaves]; simp
  have hls : leafPos s.leaves.length < 2 ^ 64 := by
    rw [hs.leaves, List.length_append, List.length_map]; exact hb
  have htake : s.leaves.take s0.leaves.length = s0.leaves := by rw [hs.leaves]; simp
  have htakep : s.proofs.take s0.leaves.length = s0.proofs := by
    rw [hs.proofs, ← h0.same]; simp
  obtain ⟨o, q1, q2⟩ := pruned_rewind H t.outputs s.leaves s.unspent s0.leaves.length rs
    hs.holds.outputs hls hl0 (by rw [hs.opl]; exact h0.outputs.horizon)
    (fun k hk => by rw [hs.opl]; exact (v5 k hk).1)
  obtain ⟨p, w1, w2⟩ := pruned_rewind H t.proofs s.proofs s.unspent s0.leaves.length rs
    hs.holds.proofs (by rw [hs.holds.same]; exact hls) (by rw [hs.holds.same]; exact hl0)
    (by rw [hs.ppl, ← h0.same]; exact h0.proofs.horizon)
    (fun k hk => by rw [hs.ppl]; exact (v5 k hk).2)
  rw [v4, htake] at q2
  rw [v4, htakep] at w2
  have eo := stores_unique q2 h0.outputs ((rewind_pl q1).trans hs.opl)
  have ep := stores_unique w2 h0.proofs ((rewind_pl w1).trans hs.ppl)
  subst eo; subst ep
  obtain ⟨k', _, g2, g3⟩ := kernels_append h0.kernels
    (ms := (bs.flatMap (·.body.kernels)).map (kernelSer 1)) (by simpa using hk)
  have : t.kernels = k' := by
    have e := hs.holds.kernels
    rw [hs.kernels, g2] at e
    injection e with e
    exact e.symm
  refine ⟨d', ?_, v2, ?_⟩
  · unfold rewind
    rw [v1, Res.ok_bind, hsz.1, hsz.2, this, g3, Res.ok_bind]
    simp only [q1, w1, Res.ok_bind, Res.pure_eq]
  · intro c
    unfold coin
    rw [v2]

/-- The empty set. -/
def emptySet (h : Header) : THS := ⟨⟨[], []⟩, ⟨[], [], ∅, PruneList.empty⟩, ⟨[], [], ∅, PruneList.empty⟩, h⟩

/-- **C36.** Every state reached from the empty set by applying blocks is correctly stored, so the
hypotheses of the theorems above hold for it. -/
theorem reachable_holds (env : Env) (H : Bytes → Bytes) (hh : Header → Bytes) (db0 : DB) (h : Header)
    (hpos : ∀ c, db0.pos c = none) (bs : List Block) (db : DB) (t : THS)
    (ha : Applied env H hh db0 (emptySet h) bs db t)
    (hb : leafPos (bs.flatMap (·.body.outputs)).length < 2 ^ 64)
    (hk : leafPos (bs.flatMap (·.body.kernels)).length < 2 ^ 64) :
    ∃ s, Holds H db t s ∧ s.leaves = (bs.flatMap (·.body.outputs)).map identifier ∧
      s.kernels = (bs.flatMap (·.body.kernels)).map (kernelSer 1) := by
  induction ha with
  | nil =>
    exact ⟨⟨[], [], ∅, []⟩, ⟨stores_empty H, stores_empty H, rfl, rfl,
      fun c l e => by rw [hpos c] at e; cases e⟩, rfl, rfl⟩
  | @snoc bs db db' t t' b ha hap hprev hheight ih =>
    simp only [List.flatMap_append, List.flatMap_cons, List.flatMap_nil, List.append_nil,
      List.length_append] at hb hk
    obtain ⟨s, hs, e1, e2⟩ := ih (leafPos_bound hb (by omega)) (leafPos_bound hk (by omega))
    obtain ⟨_, _, s', q1, q2, q3⟩ := apply_effect env H hh db t s b hs
      (by rw [e1, List.length_map]; exact hb) (by rw [e2, List.length_map]; exact hk) db' t' hap
    refine ⟨s', ⟨q1.outputs, q1.proofs, q1.same, q1.kernels, q1.pos⟩, ?_, ?_⟩
    · rw [q2, e1]; simp
    · rw [q3, e2]; simp

/-! ## Roots -/

theorem kernel_root_at (H : Bytes → Bytes) (ks : List Bytes) (k : KMMR) (m : Nat)
    (h : kmmrOf H ks = .ok k) (hb : leafPos ks.length < 2 ^ 64) (hm : m ≤ ks.length)
    (hz : ∀ x ∈ rangeInputs H (leafOf ks) m, H x ≠ zeroHash) :
    k.root H (leafPos m) = .ok (rangeRoot H (leafOf ks) m) := by
  obtain ⟨f, e, k2, k3, _⟩ := append_stores_hashes H ks hb
  rw [rangeSize_eq] at k2
  simp only [kmmrOf, applyAll_eq, e, Res.ok_bind, Res.ok.injEq] at h
  subst h
  have := leafPos_mono hm
  unfold KMMR.root
  apply root_good (leaf := leafOf ks) _ (by simp only [k2]; exact this) (by omega) hz
  intro s a hgt hs hlt
  exact k3 s a hgt hs (hs.range (by rw [← k2]; exact hlt))

/-- **C36.** The root check compares the roots named by the header with the roots of the first so many
leaves and kernels as the header's own sizes say. -/
theorem roots_check (H : Bytes → Bytes) (ubmt : Finset Nat → Nat → Bytes) (db : DB) (t : THS)
    (s : State) (hd : Header) (n m : Nat) (h : Holds H db t s)
    (hb : leafPos s.leaves.length < 2 ^ 62) (hk : leafPos s.kernels.length < 2 ^ 62)
    (hn : n ≤ s.leaves.length) (hm : m ≤ s.kernels.length)
    (ho : hd.outputMMRSize = leafPos n) (hkn : hd.kernelMMRSize = leafPos m)
    (hzo : maximumOf t.outputs.pl.roots ≤ leafPos n) (hzp : maximumOf t.proofs.pl.roots ≤ leafPos n)
    (z1 : ∀ x ∈ rangeInputs H (leafOf s.leaves) n, H x ≠ zeroHash)
    (z2 : ∀ x ∈ rangeInputs H (leafOf s.proofs) n, H x ≠ zeroHash)
    (z3 : ∀ x ∈ rangeInputs H (leafOf s.kernels) m, H x ≠ zeroHash) :
    validateRoots H ubmt t hd = .ok (decide (
      rangeRoot H (leafOf s.kernels) m = hd.kernelRoot ∧
      (if hd.version < 3 then rangeRoot H (leafOf s.leaves) n
       else hashParent H (rangeRoot H (leafOf s.leaves) n) (ubmt s.unspent n) (leafPos n)) =
        hd.outputRoot ∧
      rangeRoot H (leafOf s.proofs) n = hd.rangeProofRoot)) := by
  have e1 := kernel_root_at H s.kernels t.kernels m h.kernels (by omega) hm z3
  have e2 := pruned_root H t.outputs s.leaves s.unspent n h.outputs hb hn hzo z1
  have e3 := pruned_root H t.proofs s.proofs s.unspent n h.proofs (by rw [h.same]; exact hb)
    (by rw [h.same]; exact hn) hzp z2
  have hnum : numOutputs hd = n := by
    unfold numOutputs; rw [ho]
    exact leafIndex_roundtrip n (by have := leafPos_mono hn; omega)
  unfold validateRoots
  rw [hkn, e1, Res.ok_bind]
  by_cases c1 : rangeRoot H (leafOf s.kernels) m = hd.kernelRoot
  · rw [if_neg (by simp [c1]), ho, e2, Res.ok_bind, h.outputs.unspent, hnum]
    simp only
    by_cases c2 : (if hd.version < 3 then rangeRoot H (leafOf s.leaves) n
       else hashParent H (rangeRoot H (leafOf s.leaves) n) (ubmt s.unspent n) (leafPos n)) =
        hd.outputRoot
    · rw [if_neg (by simp [c2]), e3, Res.ok_bind]
      by_cases c3 : rangeRoot H (leafOf s.proofs) n = hd.rangeProofRoot
      · rw [if_neg (by simp [c3])]; simp [c1, c2, c3]
      · rw [if_pos c3]; simp [c3]
    · rw [if_pos c2]; simp [c2]
  · rw [if_pos c1]; simp [c1]

theorem leafOf_append (xs ys : List Bytes) (i : Nat) (h : i < xs.length) :
    leafOf (xs ++ ys) i = leafOf xs i := by
  simp [leafOf, List.getD_eq_getElem?_getD, List.getElem?_append_left h]

/-- **C36 violated.** The sizes in the header are not compared with the sizes reached by applying the
block.  Take any stored set, and any block that fits it and whose header states the sizes and the
roots of the range before the block (the first `n` leaves and `m` kernels): the block is applied, its
outputs become spendable, and the roots are found correct, although no root in the header covers the
outputs and kernels the block added. -/
theorem unlisted_outputs_violated (env : Env) (H : Bytes → Bytes) (hh : Header → Bytes)
    (ubmt : Finset Nat → Nat → Bytes) (db : DB) (t : THS) (s : State) (b : Block) (h : Holds H db t s)
    (hb : leafPos (s.leaves.length + b.body.outputs.length) < 2 ^ 62)
    (hk : leafPos (s.kernels.length + b.body.kernels.length) < 2 ^ 62)
    (hf : Fits env db t b.header.height b.body)
    (ho : b.header.outputMMRSize = leafPos s.leaves.length)
    (hkn : b.header.kernelMMRSize = leafPos s.kernels.length)
    (z1 : ∀ x ∈ rangeInputs H (leafOf (s.next db b).leaves) s.leaves.length, H x ≠ zeroHash)
    (z2 : ∀ x ∈ rangeInputs H (leafOf (s.next db b).proofs) s.leaves.length, H x ≠ zeroHash)
    (z3 : ∀ x ∈ rangeInputs H (leafOf (s.next db b).kernels) s.kernels.length, H x ≠ zeroHash)
    (r1 : b.header.outputRoot =
      if b.header.version < 3 then rangeRoot H (leafOf (s.next db b).leaves) s.leaves.length
      else hashParent H (rangeRoot H (leafOf (s.next db b).leaves) s.leaves.length)
        (ubmt (s.next db b).unspent s.leaves.length) (leafPos s.leaves.length))
    (r2 : b.header.rangeProofRoot = rangeRoot H (leafOf (s.next db b).proofs) s.leaves.length)
    (r3 : b.header.kernelRoot = rangeRoot H (leafOf (s.next db b).kernels) s.kernels.length) :
    ∃ db' t', applyBlock env H hh db t b = .ok (some (db', t')) ∧
      validateRoots H ubmt t' b.header = .ok true := by
  have ha := (fits_iff h (by have := leafPos_mono (show s.leaves.length ≤ s.leaves.length +
    b.body.outputs.length by omega); omega)).mp hf
  obtain ⟨t', e1, e2, e3, e4, _⟩ := applyBlock_ok (hh := hh) h (by omega) (by omega) ha
  refine ⟨_, t', e1, ?_⟩
  rw [roots_check H ubmt _ t' _ b.header s.leaves.length s.kernels.length e2
    (by simpa [State.next] using hb) (by simpa [State.next] using hk) (by simp [State.next])
    (by simp [State.next]) ho hkn (by rw [e3]; exact h.outputs.horizon)
    (by rw [e4, ← h.same]; exact h.proofs.horizon) z1 z2 z3]
  simp [r1, r2, r3]

/-! ## Transactions waiting for a block -/

/-- **C29, C40.** A transaction passes the check of the pool exactly if every input is an unspent
output, mature in the next block if a coinbase, and no output has the commitment of an unspent one. -/
theorem pool_check_iff (env : Env) (H : Bytes → Bytes) (db : DB) (t : THS) (s : State) (b : Body)
    (h : Holds H db t s) (hb : leafPos s.leaves.length < 2 ^ 64) :
    (∃ r, isValid env db t b = .ok r) ∧
    (isValid env db t b = .ok true ↔
      (∀ i ∈ b.inputs, ∃ k, coin db t i.commit = .ok (some k) ∧
        (k.isCoinbase = true → Mature env k.height (t.header.height + 1))) ∧
      (∀ x ∈ b.outputs, coin db t x.commit = .ok none)) := by
  have hall : ∀ (f : Bytes → Res Bool) (P : Bytes → Prop),
      (∀ c, ∃ r, f c = .ok r ∧ (r = true ↔ P c)) → ∀ cs : List Bytes,
        ∃ r, allValid f cs = .ok r ∧ (r = true ↔ ∀ c ∈ cs, P c) := by
    intro f P hf cs
    induction cs with
    | nil => exact ⟨true, rfl, by simp⟩
    | cons c cs ih =>
      obtain ⟨r, e1, e2⟩ := hf c
      obtain ⟨q, e3, e4⟩ := ih
      unfold allValid
      rw [e1, Res.ok_bind]
      cases r with
      | true =>
        refine ⟨q, by rw [if_pos rfl]; exact e3, ?_⟩
        rw [e4]
        simp only [List.mem_cons, forall_eq_or_imp]
        exact ⟨fun h => ⟨e2.mp rfl, h⟩, fun h => h.2⟩
      | false =>
        refine ⟨false, rfl, ?_⟩
        simp only [List.mem_cons, forall_eq_or_imp]
        constructor
        · intro h; cases h
        · intro h; exact e2.mpr h.1
  have hi : ∀ c, ∃ r, inputValid db t (maxCoinbaseHeight env (t.header.height + 1)) c = .ok r ∧
      (r = true ↔ ∃ k, coin db t c = .ok (some k) ∧
        (k.isCoinbase = true → Mature env k.height (t.header.height + 1))) := by
    intro c
    rw [coin_eq h hb]
    unfold inputValid
    cases e : db.pos c with
    | none => exact ⟨false, rfl, by simp⟩
    | some l =>
      obtain ⟨hu, hco⟩ := h.pos c l e
      have hlt := h.outputs.inRange _ hu
      simp only
      rw [(pruned_get H _ _ _ h.outputs hb).1, if_pos hu, List.getElem?_eq_getElem hlt]
      rw [List.getElem?_eq_getElem hlt] at hco
      simp only [Option.map_some, Option.some.injEq] at hco
      simp only [Res.ok_bind, Res.pure_eq]
      refine ⟨_, rfl, ?_⟩
      simp only [hco, decide_true, Bool.true_and, Option.map_some, Res.ok.injEq, Option.some.injEq,
        exists_eq_left', Coin.isCoinbase, List.getD_eq_getElem?_getD, List.getElem?_eq_getElem hlt,
        Option.getD_some, ← maturity_rule, coinbase_bit]
      simp only [gt_iff_lt, Bool.not_and, Bool.or_eq_true, Bool.not_eq_true', decide_eq_false_iff_not,
        decide_eq_true_eq]
      tauto
  have ho : ∀ c, ∃ r, outputValid db t c = .ok r ∧ (r = true ↔ coin db t c = .ok none) := by
    intro c
    rw [coin_eq h hb]
    unfold outputValid
    cases e : db.pos c with
    | none => exact ⟨true, rfl, by simp⟩
    | some l =>
      obtain ⟨hu, hco⟩ := h.pos c l e
      have hlt := h.outputs.inRange _ hu
      simp only
      rw [(pruned_get H _ _ _ h.outputs hb).1, if_pos hu, List.getElem?_eq_getElem hlt]
      rw [List.getElem?_eq_getElem hlt] at hco
      simp only [Option.map_some, Option.some.injEq] at hco
      simp only [Res.ok_bind, Res.pure_eq]
      refine ⟨_, rfl, ?_⟩
      simp [hco]
  obtain ⟨r1, e1, f1⟩ := hall _ _ hi (b.inputs.map (·.commit))
  obtain ⟨r2, e2, f2⟩ := hall _ _ ho (b.outputs.map (·.commit))
  simp only [List.mem_map, forall_exists_index, and_imp, forall_apply_eq_imp_iff₂] at f1 f2
  unfold isValid
  rw [e1, Res.ok_bind]
  cases r1 with
  | true =>
    rw [if_pos rfl, e2]
    refine ⟨⟨_, rfl⟩, ?_⟩
    rw [Res.ok.injEq, f2]
    exact ⟨fun h => ⟨f1.mp rfl, h⟩, fun h => h.2⟩
  | false =>
    refine ⟨⟨_, rfl⟩, ?_⟩
    constructor
    · intro h; simp at h
    · intro h; have := f1.mpr h.1; simp at this

/-- **C36.** A transaction with distinct inputs and distinct outputs that passes the check of the pool
can be put into the next block. -/
theorem pool_check_mineable (env : Env) (H : Bytes → Bytes) (hh : Header → Bytes) (db : DB) (t : THS)
    (s : State) (b : Block) (h : Holds H db t s)
    (hb : leafPos (s.leaves.length + b.body.outputs.length) < 2 ^ 64)
    (hk : leafPos (s.kernels.length + b.body.kernels.length) < 2 ^ 64)
    (hv : isValid env db t b.body = .ok true) (hn : b.header.height = t.header.height + 1)
    (hi : (b.body.inputs.map (·.commit)).Nodup) (ho : (b.body.outputs.map (·.commit)).Nodup) :
    ∃ r, applyBlock env H hh db t b = .ok (some r) := by
  rw [apply_accepts_iff env H hh db t s b h hb hk]
  have := (pool_check_iff env H db t s b.body h (leafPos_bound hb (by omega))).2.mp hv
  exact ⟨hi, by rw [hn]; exact this.1, ho, fun x hx => Or.inl (this.2 x hx)⟩

/-! ## Maturity as the wallet sees it -/

/-- `WalletUtil::IsOutputImmature` (WalletUtil.h:12-23); `minConfs` is the configured number of
confirmations, the sum is taken in 64 bits. -/
def walletImmature (env : Env) (minConfs : Nat) (coinbase : Bool) (outputHeight current : Nat) : Bool :=
  if coinbase then maxCoinbaseHeight env current ≤ outputHeight
  else (outputHeight + minConfs) % 2 ^ 64 > current

/-- **C29.** An output the wallet regards as mature at some height is accepted by the chain in every
later block: the wallet never selects a coinbase output the chain would refuse. -/
theorem wallet_mature (env : Env) (minConfs h current n : Nat)
    (hm : walletImmature env minConfs true h current = false) (hn : current < n) : Mature env h n := by
  unfold walletImmature at hm
  simp only [if_true, decide_eq_false_iff_not, Nat.not_le] at hm
  rw [← maturity_rule]
  unfold maxCoinbaseHeight at hm ⊢
  split at hm <;> split <;> omega

/-- **C29.** The wallet waits one block longer than it has to, never less: it offers an output exactly
when it was already spendable in the block at the current height minus one. -/
theorem wallet_mature_iff (env : Env) (minConfs h current : Nat) :
    walletImmature env minConfs true h current = false ↔
      h + 1 + (if env = .testing then 25 else 1440) ≤ current := by
  unfold walletImmature maxCoinbaseHeight
  simp only [if_true, decide_eq_false_iff_not, Nat.not_le]
  split <;> omega

/-! ## The hypotheses are met by concrete cases -/

/-- A header of the given height, previous hash and sizes. -/
private def exHeader (height : Nat) (prev : Bytes) (outs kers : Nat) : Header :=
  { version := 1, height := height, timestamp := 0, prevHash := prev, prevRoot := [], outputRoot := [],
    rangeProofRoot := [], kernelRoot := [], offset := [], outputMMRSize := outs, kernelMMRSize := kers,
    totalDifficulty := 0, scaling := 0, nonce := 0, pow := ⟨0, [], []⟩ }

private def exHash (h : Header) : Bytes := [UInt8.ofNat h.height]
private def exDB : DB where
  pos := fun _ => none
  spent := fun _ => none
  block := fun _ => none
  header := fun x => if x = [0] then some (exHeader 0 [] 0 0) else if x = [1] then
    some (exHeader 1 [0] 3 1) else if x = [2] then some (exHeader 2 [1] 4 1) else none

/-- A block of height 1 creating two outputs, and one of height 2 spending the first of them and
creating a third. -/
private def exB1 : Block := ⟨exHeader 1 [0] 3 1, ⟨[], [⟨0, [7], [1]⟩, ⟨0, [8], [2]⟩],
  [⟨0, ⟨0, 5⟩, 0, [9], [9]⟩]⟩⟩
private def exB2 : Block := ⟨exHeader 2 [1] 4 1, ⟨[⟨0, [7]⟩], [⟨0, [10], [3]⟩], []⟩⟩

private def exRun : Res (Option (DB × THS)) := do
  let r ← applyBlock .testing toyHash exHash exDB (emptySet (exHeader 0 [] 0 0)) exB1
  match r with
  | none => return none
  | some (db, t) => applyBlock .testing toyHash exHash (db.addBlock [1] exB1) t exB2

/-- Both blocks are applied; afterwards commitments 8 and 10 are found and 7 is not; rewinding leads
back to the empty set. -/
example : (match exRun with
    | .ok (some (db, t)) => decide (coin db t [7] = .ok none) &&
        decide (coin db t [8] = .ok (some ⟨[0, 8], proofSer [2], 1⟩)) &&
        decide (coin db t [10] = .ok (some ⟨[0, 10], proofSer [3], 2⟩)) &&
        (match rewind exHash (db.addBlock [2] exB2) t (exHeader 0 [] 0 0) with
         | .ok (d, t0) => decide (t0.outputs.hashes = [] ∧ t0.kernels.data = [] ∧
             t0.outputs.leafSet = ∅ ∧ d.pos [7] = none ∧ d.pos [8] = none)
         | _ => false)
    | _ => false) = true := by decide +kernel

/-- A block with two outputs and a kernel whose header says there are none. -/
private def exB0 : Block := ⟨{ exHeader 1 [0] 0 0 with
  outputRoot := zeroHash, rangeProofRoot := zeroHash, kernelRoot := zeroHash }, exB1.body⟩

example : (match applyBlock .testing toyHash exHash exDB (emptySet (exHeader 0 [] 0 0)) exB0 with
    | .ok (some (db, t)) => decide (coin db t [7] = .ok (some ⟨[0, 7], proofSer [1], 1⟩) ∧
        validateRoots toyHash (fun _ _ => []) t exB0.header = .ok true)
    | _ => false) = true := by decide +kernel

example : Mature .testing 0 5 ∧ Mature .mainnet 10 1450 ∧ ¬ Mature .mainnet 10 1449 := by
  unfold Mature; decide

end Verif.Props
