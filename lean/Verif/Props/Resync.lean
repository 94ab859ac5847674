import Verif.Chain.Resync
import Verif.Props.Process
import Verif.P2P.Sync

/-!
# C104: opening the chain again, and starting it over
-/
namespace Verif.Props
open Verif.BC Verif.PoW

variable {S T Z : Type}

/-! ## What a resync keeps -/

private theorem loop_spec (H : Bytes → Option Header) : ∀ (xs : List Bytes) (prev : Header),
    ∃ n, n ≤ xs.length ∧ (resyncLoop H prev xs).1 = xs.take n ∧ (resyncLoop H prev xs).2.length = n ∧
      (∀ i, i < n → ∃ p h x, (prev :: (resyncLoop H prev xs).2)[i]? = some p ∧ (resyncLoop H prev xs).2[i]? = some h ∧
        xs[i]? = some x ∧ H x = some h ∧ h.prevHash = p.pow.hash) ∧
      (∀ p x h, (prev :: (resyncLoop H prev xs).2)[n]? = some p → xs[n]? = some x → H x = some h →
        h.prevHash ≠ p.pow.hash) := by
  intro xs
  induction xs with
  | nil => intro prev; exact ⟨0, by simp [resyncLoop]⟩
  | cons x xs ih =>
    intro prev
    cases hx : H x with
    | none =>
      refine ⟨0, by omega, by simp [resyncLoop, hx], by simp [resyncLoop, hx], fun i hi => by omega, ?_⟩
      intro p x' h' _ e2 e3
      simp at e2
      subst e2
      rw [hx] at e3
      cases e3
    | some h =>
      by_cases hl : h.prevHash = hashOf prev
      · obtain ⟨n, h1, h2, h3, h4, h5⟩ := ih h
        refine ⟨n + 1, by simpa using h1, ?_, ?_, ?_, ?_⟩
        · simp [resyncLoop, hx, hl, h2]
        · simp [resyncLoop, hx, hl, h3]
        · intro i hi
          simp only [resyncLoop, hx, hl, if_true]
          cases i with
          | zero => exact ⟨prev, h, x, rfl, rfl, rfl, hx, hl⟩
          | succ i =>
            obtain ⟨p, h', x', e1, e2, e3, e4, e5⟩ := h4 i (by omega)
            exact ⟨p, h', x', by simpa using e1, by simpa using e2, by simpa using e3, e4, e5⟩
        · intro p x' h' e1 e2
          simp only [resyncLoop, hx, hl, if_true] at e1
          exact h5 p x' h' (by simpa using e1) (by simpa using e2)
      · refine ⟨0, by omega, by simp [resyncLoop, hx, hl], by simp [resyncLoop, hx, hl], fun i hi => by omega, ?_⟩
        intro p x' h' e1 e2 e3
        simp at e1 e2
        subst e1 e2
        rw [hx] at e3
        injection e3 with e3
        subst e3
        exact hl

/-- A height of the candidate chain at which the header is there and names the one below. -/
def Links (w : World S) (i : Nat) : Prop :=
  ∃ p h, CandidateAt w i p ∧ CandidateAt w (i + 1) h ∧ h.prevHash = p.pow.hash

/-- **C104, a resync repairs the header chain.** Whatever the database has become, if the header of the first block is
there: after a resync no block, no sum is left, the confirmed chain is the genesis block, and the candidate chain is
cut at the first height at which a header is missing or does not name the one below, and nowhere before; the leaves of the
header MMR from height 1 on are the headers of what is left. -/
theorem resync_repairs (wipe : T → T) (w : World (Accounts T Z)) (g0 m0 : Header) (hg : CandidateAt w 0 g0)
    (hm : w.mmr[0]? = some m0) :
    ∃ w' n, w.resync wipe = .ok w' ∧ n < w.candidate.length ∧ w'.candidate = w.candidate.take (n + 1) ∧
      (∀ i, i < n → Links w i) ∧ (n + 1 < w.candidate.length → ¬ Links w n) ∧
      w'.mmr.length = n + 1 ∧ w'.mmr[0]? = some m0 ∧ (∀ i h, i < n → (w'.mmr[i + 1]? = some h ↔ CandidateAt w (i + 1) h)) ∧
      w'.confirmed = w.confirmed.take 1 ∧ (∀ x, w'.blocks x = none) ∧ (∀ x, w'.ledger.sums x = none) ∧
      w'.headers = w.headers ∧ w'.orphans = w.orphans ∧ w'.orphanHeaders = w.orphanHeaders := by
  obtain ⟨g, hg1, hg2⟩ := hg
  cases hc : w.candidate with
  | nil => rw [hc] at hg1; simp at hg1
  | cons y rest =>
    rw [hc] at hg1
    simp at hg1
    subst hg1
    obtain ⟨n, h1, h2, h3, h4, h5⟩ := loop_spec w.headers rest g0
    have hmm : w.mmr.take 1 = [m0] := by
      cases h : w.mmr with
      | nil => rw [h] at hm; simp at hm
      | cons a b => rw [h] at hm; simp at hm; simp [hm]
    -- the headers of the kept part
    have hat : ∀ i, i ≤ n → ∀ p, (g0 :: (resyncLoop w.headers g0 rest).2)[i]? = some p → CandidateAt w i p := by
      intro i hi p hp
      cases i with
      | zero =>
        simp at hp
        subst hp
        exact ⟨y, by simp [hc], hg2⟩
      | succ i =>
        obtain ⟨_, h', x', _, e2, e3, e4, _⟩ := h4 i (by omega)
        have hp' : (resyncLoop w.headers g0 rest).2[i]? = some p := by simpa using hp
        rw [e2] at hp'
        injection hp' with hp'
        subst hp'
        exact ⟨x', by simpa [hc] using e3, e4⟩
    have he : w.resync wipe = .ok { w with
        blocks := fun _ => none
        confirmed := w.confirmed.take 1
        candidate := y :: (resyncLoop w.headers g0 rest).1
        mmr := w.mmr.take 1 ++ (resyncLoop w.headers g0 rest).2
        ledger := ⟨wipe w.ledger.tree, fun _ => none⟩ } := by
      unfold World.resync
      simp only [hc, hg2]
    refine ⟨_, n, he, by simp; omega, by simp [h2], ?_, ?_, ?_, ?_, ?_,
      rfl, fun _ => rfl, fun _ => rfl, rfl, rfl, rfl⟩
    · intro i hi
      obtain ⟨p, h', x', e1, e2, e3, e4, e5⟩ := h4 i hi
      exact ⟨p, h', hat i (by omega) p e1, hat (i + 1) (by omega) h' (by simpa using e2), e5⟩
    · rintro hn ⟨p, h, hp, ⟨x, hx1, hx2⟩, hl⟩
      obtain ⟨p', hp'⟩ : ∃ p', (g0 :: (resyncLoop w.headers g0 rest).2)[n]? = some p' :=
        ⟨_, List.getElem?_eq_getElem (by simp; omega)⟩
      have hq := hat n (Nat.le_refl _) p' hp'
      have : p = p' := by
        obtain ⟨a, a1, a2⟩ := hp
        obtain ⟨b, b1, b2⟩ := hq
        rw [a1] at b1
        injection b1 with b1
        subst b1
        rw [a2] at b2
        injection b2
      subst this
      exact h5 p x h hp' (by simpa [hc] using hx1) hx2 hl
    · simp [hmm, h3]
    · simp [hmm]
    · intro i h hi
      simp only [hmm, List.singleton_append, List.getElem?_cons_succ]
      obtain ⟨p, h', x', e1, e2, e3, e4, e5⟩ := h4 i hi
      rw [e2]
      constructor
      · intro e
        injection e with e
        subst e
        exact ⟨x', by simpa [hc] using e3, e4⟩
      · rintro ⟨x, x1, x2⟩
        rw [hc] at x1
        simp only [List.getElem?_cons_succ, e3] at x1
        injection x1 with x1
        subst x1
        rw [e4] at x2
        injection x2 with x2
        rw [x2]

/-- **C104, a resync keeps the headers.** A node that started from the genesis block and received any events has, after a
resync, the same headers, candidate chain and header MMR as before; the confirmed chain is the genesis block.

Partial: as for C73, hashes must be unique among the headers received and header batches linked. -/
theorem resync_keeps_headers_partial (env : Env) (henv : env ≠ .testing) (R : Rules (Accounts T Z))
    (hR : ChecksHeaders env R) (U : Header → Prop) (hU : ∀ h h', U h → U h' → h.pow.hash = h'.pow.hash → h = h')
    (hu : ∀ h, U h → h.height + 1 < 2 ^ 64) (g : Block) (hg : U g.header) (h0 : g.header.height = 0)
    (s : Accounts T Z) (fuel : Nat) (es : List Event) (hes : ∀ e ∈ es, Sendable U e) (w : World (Accounts T Z))
    (h1 : run R fuel (freshNode g s) es = some w) (wipe : T → T) :
    ∃ w', w.resync wipe = .ok w' ∧ w'.candidate = w.candidate ∧ w'.mmr = w.mmr ∧ w'.headers = w.headers ∧
      w'.confirmed = w.confirmed.take 1 ∧ (∀ x, w'.blocks x = none) ∧ (∀ x, w'.ledger.sums x = none) := by
  obtain ⟨a1, a2, a3, a4, _⟩ := candidate_chain_partial env henv R hR U hU hu g hg h0 s fuel [] es
    (by simpa using hes) _ w rfl (by simpa using h1)
  have c1 := run_cstep (U := U) hU (rules_sound_of_checks env henv hR hu) fuel es _ _ (fresh_inv g s hg h0)
    (fresh_cinv g s) (fun e he => sendable_proper (hes e he)) h1
  have s1 := run_step (U := U) hU (rules_sound_of_checks env henv hR hu) fuel es _ _ (fresh_inv g s hg h0)
    (fun e he => sendable_proper (hes e he)) h1
  have hex : ∀ i, i < w.candidate.length → ∃ h, CandidateAt w i h := by
    intro i hi
    obtain ⟨h, e1, e2⟩ := s1.inv.cand i _ (List.getElem?_eq_getElem hi)
    exact ⟨h, _, List.getElem?_eq_getElem hi, e1⟩
  have hpos : 0 < w.candidate.length := List.length_pos_of_ne_nil c1.inv.ne
  obtain ⟨g0, hg0⟩ := hex 0 hpos
  obtain ⟨w', n, r1, r2, r3, r4, r5, r6, r7, r8, r9, r10, r11, r12, _⟩ :=
    resync_repairs wipe w g0 g0 hg0 ((a2 0 g0).mpr hg0)
  have hn : n + 1 = w.candidate.length := by
    rcases Nat.lt_or_ge (n + 1) w.candidate.length with hlt | hge
    · exfalso
      obtain ⟨p, hp⟩ := hex n r2
      obtain ⟨h, hh⟩ := hex (n + 1) hlt
      exact r5 hlt ⟨p, h, hp, hh, a4 n p h hp hh⟩
    · omega
  refine ⟨w', r1, by rw [r3, hn, List.take_length], ?_, r12, r9, r10, r11⟩
  apply List.ext_getElem?
  intro i
  cases i with
  | zero => rw [r7, (a2 0 g0).mpr hg0]
  | succ i =>
    rcases Nat.lt_or_ge i n with hi | hi
    · obtain ⟨h, hh⟩ := hex (i + 1) (by omega)
      rw [(r8 i h hi).mpr hh, (a2 (i + 1) h).mpr hh]
    · rw [List.getElem?_eq_none (by omega), List.getElem?_eq_none (by omega)]

/-! ## After a resync no block is accepted -/

/-- What receiving headers leaves as it is. -/
private structure Keep (w w' : World S) : Prop where
  confirmed : w'.confirmed = w.confirmed
  ledger : w'.ledger = w.ledger
  long : 2 ≤ w.candidate.length → 2 ≤ w'.candidate.length

private theorem Keep.refl (w : World S) : Keep w w := ⟨rfl, rfl, fun h => h⟩

private theorem Keep.trans {a b c : World S} (h : Keep a b) (h' : Keep b c) : Keep a c :=
  ⟨h'.confirmed.trans h.confirmed, h'.ledger.trans h.ledger, fun x => h'.long (h.long x)⟩

private theorem keep_addHeaders (R : Rules S) : ∀ (hs : List Header) (w w' : World S) (prev : Header),
    w.addHeaders R prev hs = .ok w' → w'.confirmed = w.confirmed ∧ w'.ledger = w.ledger ∧
      w'.candidate.length = w.candidate.length + hs.length := by
  intro hs
  induction hs with
  | nil => intro w w' prev h; cases h; exact ⟨rfl, rfl, rfl⟩
  | cons h hs ih =>
    intro w w' prev he
    rw [World.addHeaders] at he
    obtain ⟨_, _, he⟩ := Res.bind_eq_ok.mp he
    split at he
    · cases he
    · obtain ⟨e1, e2, e3⟩ := ih _ _ _ he
      exact ⟨e1, e2, by rw [e3]; simp; omega⟩

private theorem keep_adopt (R : Rules S) {w w' : World S} {h0 : Header} {hs : List Header} {height work : Nat}
    (he : w.adoptHeaders R (h0 :: hs) height work = .ok w') : Keep w w' := by
  unfold World.adoptHeaders at he
  rw [Res.bind_eq_ok] at he
  obtain ⟨w1, e1, he⟩ := he
  rw [Res.bind_eq_ok] at he
  obtain ⟨w2, e2, he⟩ := he
  unfold World.rewindCandidate at e1
  split at e1
  · cases e1
  · rename_i hn
    injection e1 with e1
    subst e1
    unfold World.validateHeaders at e2
    simp only at e2
    split at e2
    · cases e2
    · obtain ⟨k1, k2, k3⟩ := keep_addHeaders R _ _ _ _ e2
      simp only [List.length_take, List.length_cons] at k3
      split at he
      · injection he with he
        subst he
        exact ⟨k1, k2, fun h => h⟩
      · injection he with he
        subst he
        exact ⟨k1, k2, fun _ => by omega⟩

private theorem keep_batch {w w' : World S} {x : Res (World S)} {s : Status} {r : Res Status}
    (hk : ∀ v, x = .ok v → Keep w v) (he : w.batch x s = (w', r)) : Keep w w' := by
  unfold World.batch at he
  cases x with
  | ok v => cases he; exact hk _ rfl
  | throw => cases he; exact .refl w
  | ub => cases he; exact .refl w

private theorem keep_processHeader (R : Rules S) {fuel : Nat} {w w' : World S} {h : Header} {r : Res Status}
    (he : w.processHeader R fuel h = (w', r)) : Keep w w' := by
  unfold World.processHeader at he
  split at he
  · cases he; exact .refl w
  split at he
  · cases he; exact .refl w
  split at he
  · unfold World.processOrphan at he
    split at he
    · cases he; exact ⟨rfl, rfl, fun h => h⟩
    · cases he; exact .refl w
    · exact keep_batch (fun v hv => keep_adopt R hv) he
    · cases he; exact .refl w
    · cases he; exact .refl w
  · split at he
    · cases he; exact .refl w
    · refine keep_batch (fun v hv => ?_) he
      obtain ⟨k1, k2, k3⟩ := keep_addHeaders R _ _ _ _ hv
      exact ⟨k1, k2, fun h => by omega⟩

private theorem keep_chunk (R : Rules S) {w w' : World S} {hs : List Header} {r : Res Status}
    (he : w.processChunk R hs = (w', r)) : Keep w w' := by
  unfold World.processChunk at he
  split at he
  · cases he; exact .refl w
  · split at he
    · cases he; exact .refl w
    · split at he
      · cases he; exact .refl w
      · split at he
        · cases he; exact .refl w
        · exact keep_batch (fun v hv => keep_adopt R hv) he

private theorem keep_chunks (R : Rules S) : ∀ (n : Nat) {w w' : World S} {hs : List Header} {r : Res Status},
    World.processChunks R n w hs = (w', r) → Keep w w' := by
  intro n
  induction n with
  | zero =>
    intro w w' hs r he
    cases hs with
    | nil => cases he; exact .refl w
    | cons h hs => cases he; exact .refl w
  | succ n ih =>
    intro w w' hs r he
    cases hs with
    | nil => cases he; exact .refl w
    | cons h hs =>
      rw [World.processChunks] at he
      split at he
      · rename_i w1 h1
        exact (keep_chunk R h1).trans (ih he)
      · rename_i w1 h1
        exact (keep_chunk R h1).trans (ih he)
      · exact keep_chunk R he

private theorem keep_processHeaders (R : Rules S) {w w' : World S} {hs : List Header} {r : Res Status}
    (he : w.processHeaders R hs = (w', r)) : Keep w w' := by
  unfold World.processHeaders at he
  split at he
  · cases he; exact .refl w
  · split at he
    · cases he; exact .refl w
    split at he
    · cases he; exact .refl w
    split at he
    · cases he; exact .refl w
    · exact keep_chunks R _ he

/-- The rules a node with a table of block sums works by, in terms of that table: a block is refused if the sums of the block
before are missing, and the output set is rewound without touching the table. -/
structure NeedsSums (R : Rules (Accounts T Z)) : Prop where
  apply : ∀ a b a', R.apply a b = .ok a' → (a.sums b.header.prevHash).isSome
  rewind : ∀ a h a', R.rewind a h = .ok a' → a'.sums = a.sums

theorem sumRules_needs (validate : (Bytes → Option Header) → List Header → Header → Header → Res Unit)
    (consistent : Block → Res Unit) (applyTree : T → Block → Res T) (check : Z → Block → Res Z)
    (rewindTree : T → Header → Res T) (bad : Bytes → Bool) (horizon : Nat → Nat) :
    NeedsSums (sumRules validate consistent applyTree check rewindTree bad horizon) := by
  constructor
  · intro a b a' h
    simp only [sumRules] at h
    obtain ⟨t, _, h⟩ := Res.bind_eq_ok.mp h
    cases hs : a.sums b.header.prevHash with
    | none => rw [hs] at h; cases h
    | some z => rfl
  · intro a h a' he
    simp only [sumRules] at he
    obtain ⟨t, _, he⟩ := Res.bind_eq_ok.mp he
    cases he
    rfl

private theorem stuck_applyBlock {R : Rules (Accounts T Z)} (hR : NeedsSums R) {w w' : World (Accounts T Z)} {b : Block}
    {r : Res Unit} (hs : ∀ x, w.ledger.sums x = none) (he : w.applyBlock R b = (w', r)) : w' = w ∧ r ≠ .ok () := by
  unfold World.applyBlock at he
  split at he
  · cases he; exact ⟨rfl, by simp⟩
  · split at he
    · rename_i h
      have := hR.apply _ _ _ h
      rw [hs] at this
      cases this
    · cases he; exact ⟨rfl, by simp⟩
    · cases he; exact ⟨rfl, by simp⟩

private theorem stuck_applyBlocks {R : Rules (Accounts T Z)} (hR : NeedsSums R) {w w' : World (Accounts T Z)} {b : Block}
    {bs : List Block} {r : Res Unit} (hs : ∀ x, w.ledger.sums x = none)
    (he : World.applyBlocks R w (b :: bs) = (w', r)) : w' = w ∧ r ≠ .ok () := by
  rw [World.applyBlocks] at he
  split at he
  · rename_i w1 h
    exact absurd rfl (stuck_applyBlock hR hs h).2
  · exact stuck_applyBlock hR hs he

private theorem stuck_reorg {R : Rules (Accounts T Z)} (hR : NeedsSums R) {w w' : World (Accounts T Z)}
    {bs : List Block} {r : Res Unit} (hs : ∀ x, w.ledger.sums x = none) (he : w.handleReorg R bs = (w', r))
    (hr : r ≠ .ub) : w'.confirmed = w.confirmed ∧ w'.ledger = w.ledger ∧ w'.candidate = w.candidate ∧ r = .throw := by
  unfold World.handleReorg at he
  split at he
  · split at he
    · cases he; exact ⟨rfl, rfl, rfl, rfl⟩
    · split at he
      · cases he; exact ⟨rfl, rfl, rfl, rfl⟩
      · cases he; exact absurd rfl hr
      · rename_i s hrew
        have hs' : ∀ x, s.sums x = none := by rw [hR.rewind _ _ _ hrew]; exact hs
        split at he
        · cases he; exact ⟨rfl, rfl, rfl, rfl⟩
        · cases he; exact absurd rfl hr
        · rename_i h
          exact absurd rfl (stuck_applyBlocks hR hs' h).2
  · cases he; exact absurd rfl hr

/-- The node has no sums; its confirmed chain is `c`. -/
private structure Stuck (c : List Bytes) (w : World (Accounts T Z)) : Prop where
  confirmed : w.confirmed = c
  sums : ∀ x, w.ledger.sums x = none
  long : 2 ≤ w.candidate.length

private theorem Stuck.keep {c : List Bytes} {w w' : World (Accounts T Z)} (h : Stuck c w) (k : Keep w w') : Stuck c w' :=
  ⟨k.confirmed.trans h.confirmed, by rw [k.ledger]; exact h.sums, k.long h.long⟩

private theorem stuck_internal {R : Rules (Accounts T Z)} (hR : NeedsSums R) {c : List Bytes} {w w' : World (Accounts T Z)}
    {fuel : Nat} {b : Block} {r : Res Status} (h : Stuck c w) (he : w.processInternal R fuel b = (w', r))
    (hr : r ≠ .ub) : Stuck c w' ∧ r ≠ .ok .success := by
  unfold World.processInternal at he
  split at he
  · cases he; exact ⟨h, by simp⟩
  split at he
  · cases he; exact ⟨h, by simp⟩
  split at he
  · cases he; exact ⟨h, by simp⟩
  · cases he; exact absurd rfl hr
  · split at he
    · cases he; exact ⟨h, by simp⟩
    · cases he
      refine ⟨?_, by simp⟩
      have h1 : Stuck c (if (w.orphanHeader (hashOf b.header)).isSome then w else w.addOrphanHeader b.header) := by
        split
        · exact h
        · exact ⟨h.confirmed, h.sums, h.long⟩
      unfold World.addOrphan
      generalize (if (w.orphanHeader (hashOf b.header)).isSome then w else w.addOrphanHeader b.header) = w1 at h1
      dsimp only
      split
      · exact h1
      · exact ⟨h1.confirmed, h1.sums, h1.long⟩
  · split at he
    · rename_i h1
      exact absurd (stuck_reorg hR h.sums h1 (by simp)).2.2.2 (by simp)
    · rename_i h1
      obtain ⟨e1, e2, e3, _⟩ := stuck_reorg hR h.sums h1 (by simp)
      cases he
      exact ⟨⟨e1.trans h.confirmed, by rw [e2]; exact h.sums, by rw [e3]; exact h.long⟩, by simp⟩
    · cases he; exact absurd rfl hr
  · split at he
    · cases he
      exact ⟨⟨h.confirmed, h.sums, h.long⟩, by simp⟩
    · cases he; exact absurd rfl hr
    · rename_i h1
      exact absurd rfl (stuck_applyBlock hR h.sums h1).2

private theorem stuck_block {R : Rules (Accounts T Z)} (hR : NeedsSums R) {c : List Bytes} {w w' : World (Accounts T Z)}
    {fuel : Nat} {b : Block} {r : Res Status} (h : Stuck c w) (he : w.processBlock R fuel b = (w', r))
    (hr : r ≠ .ub) : Stuck c w' ∧ r ≠ .ok .success := by
  unfold World.processBlock at he
  split at he
  · cases he; exact ⟨h, by simp⟩
  · split at he
    · rename_i h1
      cases he
      exact ⟨h.keep (keep_processHeader R h1), by simp⟩
    · cases he; exact absurd rfl hr
    · rename_i h1
      have h2 := h.keep (keep_processHeader R h1)
      split at he
      · cases he; exact ⟨h2, by simp⟩
      · cases he; exact absurd rfl hr
      · exact stuck_internal hR h2 he hr

private theorem stuck_step {R : Rules (Accounts T Z)} (hR : NeedsSums R) {c : List Bytes} {w w' : World (Accounts T Z)}
    {fuel : Nat} {e : Event} (h : Stuck c w) (he : w.step R fuel e = some w') : Stuck c w' := by
  unfold World.step at he
  cases e with
  | header x =>
    simp only at he
    split at he
    · cases he
    · rename_i h1; cases he; exact h.keep (keep_processHeader R h1)
  | headers hs =>
    simp only at he
    split at he
    · cases he
    · rename_i h1; cases he; exact h.keep (keep_processHeaders R h1)
  | block b =>
    simp only at he
    split at he
    · cases he
    · rename_i w1 r hne h1
      cases he
      exact (stuck_block hR h h1 (fun e => hne (by rw [e]))).1
  | nextOrphan =>
    simp only at he
    split at he
    · cases he
    · rename_i w1 r hne h1
      cases he
      have hub : r ≠ .ub := fun e => hne (by rw [e])
      unfold World.processNextOrphan at h1
      split at h1
      · cases h1; exact h
      · split at h1
        · cases h1; exact h
        · split at h1
          · cases h1; exact h
          · split at h1
            · rename_i h2; cases h1; exact (stuck_block hR h h2 (by simp)).1
            · rename_i h2
              cases h1
              have h3 := (stuck_block hR h h2 (by simp)).1
              exact ⟨h3.confirmed, h3.sums, h3.long⟩
            · cases h1; exact absurd rfl hub

/-- What happens to a node over its life: something received, or a stop and a new start. -/
inductive LifeEvent
  | receive (e : Event)
  | restart

/-- All in order; `none` if a call ran into undefined behaviour or did not end. -/
def live (R : Rules (Accounts T Z)) (g : Block) (z : Z) (fuel : Nat) :
    World (Accounts T Z) → List LifeEvent → Option (World (Accounts T Z))
  | w, [] => some w
  | w, .receive e :: es =>
    match w.step R fuel e with
    | none => none
    | some w' => live R g z fuel w' es
  | w, .restart :: es => live R g z fuel (w.reopen R g z) es

/-- **C104 violated: after a resync no block is accepted.** The sums of the genesis block are deleted with the others and
not put back as long as there is a header above it.  Once a node with at least one header has been resynced, whatever it
receives and however often it is restarted, its confirmed chain stays the genesis block, and every block it is given,
however correct, is not accepted; and while the header chain is shorter than 10080 no snapshot is asked for
either. -/
theorem resync_stuck_violated (R : Rules (Accounts T Z)) (hR : NeedsSums R) (g : Block) (z : Z) (wipe : T → T)
    (w w' v : World (Accounts T Z)) (fuel : Nat) (es : List LifeEvent) (h : w.resync wipe = .ok w')
    (hlong : 2 ≤ w'.candidate.length) (hv : live R g z fuel w' es = some v) :
    v.confirmed = w.confirmed.take 1 ∧
    (∀ b, (v.processBlock R fuel b).2 ≠ .ok .success) ∧
    ∀ (now : Int) (hasHeader : Nat → Bool) (view : P2P.SyncView) (n : Nat), view.phase = .other →
      view.headerHeight = v.candidate.length - 1 → v.candidate.length ≤ 10080 →
      P2P.syncState now hasHeader view ≠ .ok (.request n) := by
  have h0 : Stuck (w.confirmed.take 1) w' := by
    unfold World.resync at h
    split at h
    · cases h
    · split at h
      · cases h
      · injection h with h
        subst h
        exact ⟨rfl, fun _ => rfl, hlong⟩
      · injection h with h
        subst h
        exact ⟨rfl, fun _ => rfl, hlong⟩
  have key : ∀ (es : List LifeEvent) (w' : World (Accounts T Z)), Stuck (w.confirmed.take 1) w' →
      live R g z fuel w' es = some v → Stuck (w.confirmed.take 1) v := by
    intro es
    induction es with
    | nil => intro w' hs he; cases he; exact hs
    | cons e es ih =>
      intro w' hs he
      cases e with
      | receive e =>
        rw [live] at he
        split at he
        · cases he
        · rename_i w1 h1
          exact ih w1 (stuck_step hR hs h1) he
      | restart =>
        rw [live] at he
        refine ih _ ?_ he
        unfold World.reopen World.compactBlocks World.addGenesis
        have hl := hs.long
        rw [if_neg (by simp only; omega)]
        exact ⟨hs.confirmed, hs.sums, hs.long⟩
  have hs := key es w' h0 hv
  refine ⟨hs.confirmed, ?_, ?_⟩
  · intro b hb
    obtain ⟨v', hv'⟩ : ∃ v', v.processBlock R fuel b = (v', .ok .success) := ⟨_, Prod.ext rfl hb⟩
    exact (stuck_block hR hs hv' (by simp)).2 rfl
  · intro now hasHeader view n h1 h2 h3
    have hl := hs.long
    have hd : P2P.stateSyncDue now view = false := by
      unfold P2P.stateSyncDue
      rw [h1, if_neg (by simp), if_neg (by simp), if_pos (by unfold P2P.cutThroughHorizon; omega)]
    unfold P2P.syncState
    rw [hd]
    simp only [Bool.false_eq_true, if_false]
    split <;> simp

/-! ## Opening the node again -/

/-- **C104, opening a node for the first time.** It then has the genesis header on both chains, in the database and in the
header MMR, and the sums of the genesis block. -/
theorem first_start (R : Rules (Accounts T Z)) (g : Block) (z : Z) (t : T) :
    let w := (emptyNode g t).reopen R g z
    w.confirmed = [g.header.pow.hash] ∧ w.candidate = [g.header.pow.hash] ∧ w.mmr = [g.header] ∧
      (∀ x h, w.headers x = some h ↔ x = g.header.pow.hash ∧ h = g.header) ∧ (∀ x, w.blocks x = none) ∧
      w.ledger.tree = t ∧ ∀ x y, w.ledger.sums x = some y ↔ x = g.header.pow.hash ∧ y = z := by
  refine ⟨rfl, rfl, rfl, ?_, fun _ => rfl, rfl, ?_⟩
  · intro x h
    simp only [World.reopen, World.compactBlocks, World.addGenesis, emptyNode, World.addHeader, List.length_singleton,
      Nat.sub_self, if_true, hashOf]
    by_cases e : x = g.header.pow.hash
    · simp [e, eq_comm]
    · simp [e]
  · intro x y
    simp only [World.reopen, World.compactBlocks, World.addGenesis, emptyNode, World.addHeader, List.length_singleton,
      Nat.sub_self, if_true, hashOf]
    by_cases e : x = g.header.pow.hash
    · simp [e, eq_comm]
    · simp [e]

/-- **C104, a restart keeps the chain.** A node with at least one header above the genesis block has after a restart the same
chains, headers, header MMR, output set and sums, and exactly those blocks that are not below the horizon.

Partial: with no header above the genesis block, see below. -/
theorem restart_keeps_partial (R : Rules (Accounts T Z)) (g : Block) (z : Z) (w : World (Accounts T Z))
    (hlong : 2 ≤ w.candidate.length) :
    (w.reopen R g z).confirmed = w.confirmed ∧ (w.reopen R g z).candidate = w.candidate ∧
      (w.reopen R g z).mmr = w.mmr ∧ (w.reopen R g z).headers = w.headers ∧ (w.reopen R g z).ledger = w.ledger ∧
      ∀ x b, (w.reopen R g z).blocks x = some b ↔
        w.blocks x = some b ∧ R.horizon (w.confirmed.length - 1) ≤ b.header.height := by
  have e : World.addGenesis g z { w with orphans := [], orphanHeaders := [] } =
      { w with orphans := [], orphanHeaders := [] } := by
    unfold World.addGenesis
    rw [if_neg (by simp only; omega)]
  unfold World.reopen
  rw [e]
  refine ⟨rfl, rfl, rfl, rfl, rfl, ?_⟩
  intro x b
  simp only [World.compactBlocks]
  cases hb : w.blocks x with
  | none => simp
  | some c =>
    simp only [Option.some.injEq]
    split
    · constructor
      · intro h; cases h
      · rintro ⟨h1, h2⟩; subst h1; omega
    · constructor
      · intro h; injection h with h; subst h; exact ⟨rfl, by omega⟩
      · rintro ⟨h1, h2⟩; rw [h1]

/-! ## The genesis header twice in the header MMR -/

/-- A chain of headers as honest miners make it: each at its height, naming the one below, with its own hash, committing in
`prevRoot` to all headers below it. -/
structure HonestChain (root : List Header → Bytes) (c : Nat → Header) : Prop where
  height : ∀ i, (c i).height = i
  prev : ∀ i, (c (i + 1)).prevHash = (c i).pow.hash
  hash : ∀ i j, (c i).pow.hash = (c j).pow.hash → i = j
  commits : ∀ i, (c i).prevRoot = root ((List.range i).map c)

/-- The node checks a header against the root of the leaves of the header MMR below the height of the header
(BlockHeaderValidator.cpp:41, HeaderMMRImpl.cpp:75-82). -/
def ChecksRoot (root : List Header → Bytes) (R : Rules S) : Prop :=
  ∀ db mmr h prev, R.validate db mmr h prev = .ok () → h.prevRoot = root (mmr.take h.height)

/-- What is received belongs to the chain. -/
def FromChain (c : Nat → Header) : LifeEvent → Prop
  | .receive (.header h) => ∃ i, h = c i
  | .receive (.headers hs) => ∀ h ∈ hs, ∃ i, h = c i
  | .receive (.block b) => ∃ i, b.header = c i
  | .receive .nextOrphan => True
  | .restart => True

private structure Jam (c : Nat → Header) (w : World S) : Prop where
  candidate : w.candidate = [hashOf (c 0), hashOf (c 1)]
  mmr : w.mmr = [c 0, c 0, c 1]
  h0 : w.headers (hashOf (c 0)) = some (c 0)
  h1 : w.headers (hashOf (c 1)) = some (c 1)
  more : ∀ i, 2 ≤ i → w.headers (hashOf (c i)) = none
  orphans : ∀ h ∈ w.orphanHeaders, ∀ i, 2 ≤ i → hashOf h = hashOf (c i) → h = c i ∧ i ≠ 2

private theorem Jam.same {c : Nat → Header} {w w' : World S} (h : Jam c w) (hs : SameC w w')
    (ho : ∀ x ∈ w'.orphanHeaders, x ∈ w.orphanHeaders ∨ ∀ i, 2 ≤ i → hashOf x = hashOf (c i) → x = c i ∧ i ≠ 2) :
    Jam c w' := by
  obtain ⟨e1, e2, e3⟩ := hs
  refine ⟨by rw [e2]; exact h.candidate, by rw [e3]; exact h.mmr, by rw [e1]; exact h.h0, by rw [e1]; exact h.h1,
    by rw [e1]; exact h.more, ?_⟩
  intro x hx
  rcases ho x hx with hx | hx
  · exact h.orphans x hx
  · exact hx

private theorem oh_addOrphan (w : World S) (b : Block) :
    ∀ x ∈ (w.addOrphan b).orphanHeaders, x ∈ w.orphanHeaders ∨ x = b.header := by
  intro x hx
  have key : ∀ x ∈ (if (w.orphanHeader (hashOf b.header)).isSome then w else w.addOrphanHeader b.header).orphanHeaders,
      x ∈ w.orphanHeaders ∨ x = b.header := by
    intro x hx
    split at hx
    · exact .inl hx
    · have := List.mem_of_mem_take hx
      rcases List.mem_cons.mp this with rfl | hx
      · exact .inr rfl
      · exact .inl (List.mem_filter.mp hx).1
  unfold World.addOrphan at hx
  generalize (if (w.orphanHeader (hashOf b.header)).isSome then w else w.addOrphanHeader b.header) = w1 at hx key
  dsimp only at hx
  split at hx
  · exact key x hx
  · exact key x hx

private theorem oh_foldl : ∀ (bs : List Block) (w : World S), (bs.foldl World.addBlock w).orphanHeaders = w.orphanHeaders := by
  intro bs
  induction bs with
  | nil => intro w; rfl
  | cons b bs ih => intro w; exact ih (w.addBlock b)

private theorem oh_reorg {R : Rules S} {w w' : World S} {bs : List Block} {r : Res Unit}
    (hx : w.handleReorg R bs = (w', r)) : w'.orphanHeaders = w.orphanHeaders := by
  unfold World.handleReorg at hx
  split at hx
  · split at hx
    · cases hx; rfl
    split at hx
    · cases hx; rfl
    · cases hx; rfl
    split at hx
    · rename_i e; cases hx; exact (applyBlocks_applied _ e).orphanHeaders
    · rename_i e; cases hx; exact (applyBlocks_applied _ e).orphanHeaders
    · rename_i e
      have a := (applyBlocks_applied _ e).orphanHeaders
      split at hx
      · split at hx
        · cases hx; exact a
        split at hx
        · rename_i e2
          cases hx
          obtain ⟨f1, _⟩ := (extend_ok _ _ _).mp e2
          rw [f1]; exact a
        · cases hx; exact a
        · cases hx; exact a
      · cases hx; rw [oh_foldl]; exact a
  · cases hx; rfl

private theorem oh_internal {R : Rules S} {w w' : World S} {fuel : Nat} {b : Block} {r : Res Status}
    (he : w.processInternal R fuel b = (w', r)) :
    ∀ x ∈ w'.orphanHeaders, x ∈ w.orphanHeaders ∨ x = b.header := by
  have id' : ∀ x ∈ w.orphanHeaders, x ∈ w.orphanHeaders ∨ x = b.header := fun x hx => .inl hx
  unfold World.processInternal at he
  split at he
  · cases he; exact id'
  split at he
  · cases he; exact id'
  split at he
  · cases he; exact id'
  · cases he; exact id'
  · split at he
    · cases he; exact id'
    · cases he; exact oh_addOrphan w b
  · rename_i bs _
    rcases hx : w.handleReorg R bs with ⟨w1, r1⟩
    rw [hx] at he
    cases r1 <;> (cases he; rw [oh_reorg hx]; exact id')
  · rcases hx : w.applyBlock R b with ⟨w1, r1⟩
    have a := (applyBlock_applied hx).orphanHeaders
    rw [hx] at he
    cases r1 with
    | throw => cases he; intro x hx; exact .inl (a ▸ hx)
    | ub => cases he; rw [a]; exact id'
    | ok _ =>
      simp only at he
      split at he
      · rename_i e2
        cases he
        obtain ⟨f1, _⟩ := (extend_ok _ _ _).mp e2
        rw [f1]
        intro x hx
        exact .inl (a ▸ hx)
      · cases he; intro x hx; exact .inl (a ▸ hx)
      · cases he; rw [a]; exact id'

section jam
variable {root : List Header → Bytes} {c : Nat → Header} (hc : HonestChain root c)
  (hroot : root [c 0, c 0] ≠ root [c 0, c 1])
include hc hroot

private theorem jam_validate {R : Rules S} (hR : ChecksRoot root R) {db : Bytes → Option Header} {m : List Header}
    {prev : Header} (hm : m.take 2 = [c 0, c 0]) : R.validate db m (c 2) prev ≠ .ok () := by
  intro h
  have := hR _ _ _ _ h
  rw [hc.commits, hc.height, hm] at this
  exact hroot this.symm

private theorem jam_addHeaders {R : Rules S} (hR : ChecksRoot root R) {w v : World S} {prev : Header} {hs : List Header}
    (hm : w.mmr.take 2 = [c 0, c 0]) : w.addHeaders R prev (c 2 :: hs) ≠ .ok v := by
  intro h
  rw [World.addHeaders, Res.bind_eq_ok] at h
  obtain ⟨_, h, _⟩ := h
  exact jam_validate hc hroot hR hm h

private theorem jam_adopt {R : Rules S} (hR : ChecksRoot root R) {w v : World S} (hw : Jam c w) {hs : List Header}
    {work : Nat} : w.adoptHeaders R (c 2 :: hs) 2 work ≠ .ok v := by
  intro h
  unfold World.adoptHeaders at h
  rw [Res.bind_eq_ok] at h
  obtain ⟨w1, e1, h⟩ := h
  rw [Res.bind_eq_ok] at h
  obtain ⟨w2, e2, h⟩ := h
  unfold World.rewindCandidate at e1
  split at e1
  · cases e1
  · injection e1 with e1
    subst e1
    unfold World.validateHeaders at e2
    simp only at e2
    split at e2
    · cases e2
    · refine jam_addHeaders hc hroot hR ?_ e2
      simp [hw.mmr]

omit hroot in
private theorem jam_walk {w : World S} (hw : Jam c w) : ∀ (fuel i : Nat) (acc : List Header), 3 ≤ i →
    ∀ l, w.walkHeaders fuel (c i) acc ≠ .ok (some l) := by
  intro fuel
  induction fuel with
  | zero => intro i acc _ l h; cases h
  | succ n ih =>
    intro i acc hi l h
    rw [World.walkHeaders, if_neg (by
      simp only [onChain, hw.candidate, hc.height]
      rw [List.getElem?_eq_none (by simp; omega)]
      simp)] at h
    obtain ⟨j, rfl⟩ : ∃ j, i = j + 1 := ⟨i - 1, by omega⟩
    have hp : (c (j + 1)).prevHash = hashOf (c j) := hc.prev j
    rw [hp, hw.more j (by omega), Option.or_none] at h
    cases ho : w.orphanHeader (hashOf (c j)) with
    | none => rw [ho] at h; cases h
    | some p =>
      rw [ho] at h
      simp only at h
      have hmem := List.mem_of_find?_eq_some ho
      have hh := List.find?_some ho
      simp only [decide_eq_true_eq] at hh
      obtain ⟨e, ne⟩ := hw.orphans p hmem j (by omega) hh
      subst e
      exact ih j _ (by omega) l h

private theorem jam_header {R : Rules S} (hR : ChecksRoot root R) (hbad : ∀ i, R.bad (c i).pow.hash = false)
    {w w' : World S} (hw : Jam c w) {fuel i : Nat} {r : Res Status} (he : w.processHeader R fuel (c i) = (w', r)) :
    Jam c w' ∧ (i = 2 → ∀ s, r ≠ .ok s) := by
  unfold World.processHeader at he
  rw [if_neg (by simp [hashOf, hbad])] at he
  match i with
  | 0 => rw [hw.h0] at he; cases he; exact ⟨hw, by omega⟩
  | 1 => rw [hw.h1] at he; cases he; exact ⟨hw, by omega⟩
  | 2 =>
    rw [hw.more 2 (by omega), if_neg (by simp), if_neg (by simp [hw.candidate, hc.prev 1, hashOf])] at he
    split at he
    · cases he; exact ⟨hw, by simp⟩
    · rename_i prev _
      unfold World.batch at he
      split at he
      · rename_i e
        exact absurd e (jam_addHeaders hc hroot hR (by simp [hw.mmr]))
      · cases he; exact ⟨hw, by simp⟩
      · cases he; exact ⟨hw, by simp⟩
  | j + 3 =>
    rw [hw.more (j + 3) (by omega), if_neg (by simp), if_pos (by
      simp only [hw.candidate, hc.prev (j + 2)]
      simp only [List.getLast?_cons_cons, List.getLast?_singleton, ne_eq, Option.some.injEq]
      intro e
      have := hc.hash 1 (j + 2) e
      omega)] at he
    unfold World.processOrphan at he
    split at he
    · cases he
      refine ⟨hw.same ⟨rfl, rfl, rfl⟩ ?_, by omega⟩
      intro x hx
      have := List.mem_of_mem_take hx
      rcases List.mem_cons.mp this with rfl | hx
      · refine .inr (fun i _ e => ?_)
        have := hc.hash _ _ e
        subst this
        exact ⟨rfl, by omega⟩
      · exact .inl (List.mem_filter.mp hx).1
    · rename_i e; exact absurd e (jam_walk hc hw _ _ _ (by omega) _)
    · rename_i e; exact absurd e (jam_walk hc hw _ _ _ (by omega) _)
    · cases he; exact ⟨hw, by omega⟩
    · cases he; exact ⟨hw, by omega⟩

/-- Headers `c i, c (i+1), …`. -/
private def Slice (c : Nat → Header) (i : Nat) (hs : List Header) : Prop := ∀ k h, hs[k]? = some h → h = c (i + k)

omit hroot in
private theorem slice_of : ∀ (hs : List Header) (h : Header), (∀ x ∈ h :: hs, ∃ i, x = c i) →
    consecutive (h :: hs) = true → Slice c h.height (h :: hs) := by
  intro hs
  induction hs with
  | nil =>
    intro h hf _ k x hk
    obtain ⟨i, hi⟩ := hf h (by simp)
    cases k with
    | zero => simp at hk; subst hk; subst hi; rw [hc.height]; rfl
    | succ k => simp at hk
  | cons h2 hs ih =>
    intro h hf hcon k x hk
    simp only [consecutive, Bool.and_eq_true, decide_eq_true_eq] at hcon
    cases k with
    | zero =>
      obtain ⟨i, hi⟩ := hf h (by simp)
      simp at hk; subst hk; subst hi; rw [hc.height]; rfl
    | succ k =>
      have := ih h2 (fun y hy => hf y (by simp [hy])) hcon.2 k x (by simpa using hk)
      rw [this, hcon.1]
      congr 1
      omega

private theorem jam_chunk {R : Rules S} (hR : ChecksRoot root R) {w w' : World S} (hw : Jam c w) {hs : List Header}
    {i : Nat} (hi : i ≠ 0) (hsl : Slice c i hs) {r : Res Status} (he : w.processChunk R hs = (w', r)) : w' = w := by
  unfold World.processChunk at he
  split at he
  · cases he; rfl
  · rename_i h0 rest
    split at he
    · cases he; rfl
    · rename_i hon
      have e0 : h0 = c i := hsl 0 h0 rfl
      subst e0
      simp only [Bool.not_eq_true', Bool.not_eq_false] at hon
      obtain ⟨j, rfl⟩ : ∃ j, i = j + 1 := ⟨i - 1, by omega⟩
      have hj : j < 2 := by
        simp only [onChain, decide_eq_true_eq, hc.height, hw.candidate] at hon
        have := (List.getElem?_eq_some_iff.mp hon).1
        simpa using this
      have hdrop : ∀ n0 ns, (c (j + 1) :: rest).dropWhile (fun h => onChain w.candidate h.height (hashOf h)) = n0 :: ns →
          n0 = c 2 := by
        have on2 : onChain w.candidate (c 2).height (hashOf (c 2)) = false := by
          simp [onChain, hw.candidate, hc.height]
        match j, hj with
        | 1, _ =>
          intro n0 ns h
          rw [List.dropWhile_cons_of_neg (by simpa using on2)] at h
          injection h with h _
          exact h.symm
        | 0, _ =>
          intro n0 ns h
          have on1 : onChain w.candidate (c 1).height (hashOf (c 1)) = true := by
            simp [onChain, hw.candidate, hc.height]
          rw [List.dropWhile_cons_of_pos (by simpa using on1)] at h
          cases rest with
          | nil => simp at h
          | cons y ys =>
            have ey : y = c 2 := hsl 1 y rfl
            subst ey
            rw [List.dropWhile_cons_of_neg (by simpa using on2)] at h
            injection h with h _
            exact h.symm
      split at he
      · cases he; rfl
      · rename_i n0 ns hd
        have := hdrop n0 ns hd
        subst this
        split at he
        · cases he; rfl
        · unfold World.batch at he
          rw [hc.height] at he
          split at he
          · rename_i e
            exact absurd e (jam_adopt hc hroot hR hw)
          · cases he; rfl
          · cases he; rfl

private theorem jam_chunks {R : Rules S} (hR : ChecksRoot root R) {w : World S} (hw : Jam c w) : ∀ (n : Nat)
    {w' : World S} {hs : List Header} {i : Nat} (_ : i ≠ 0) (_ : Slice c i hs) {r : Res Status},
    World.processChunks R n w hs = (w', r) → w' = w := by
  intro n
  induction n with
  | zero =>
    intro w' hs i _ _ r he
    cases hs <;> (cases he; rfl)
  | succ n ih =>
    intro w' hs i hi hsl r he
    cases hs with
    | nil => cases he; rfl
    | cons h hs =>
      have hsl1 : Slice c i ((h :: hs).take 128) := by
        intro k x hk
        rw [List.getElem?_take] at hk
        split at hk
        · exact hsl k x hk
        · cases hk
      have hsl2 : Slice c (i + 128) ((h :: hs).drop 128) := by
        intro k x hk
        rw [List.getElem?_drop] at hk
        have := hsl _ x hk
        rw [this, Nat.add_assoc]
      rw [World.processChunks] at he
      split at he
      · rename_i w1 h1
        have := jam_chunk hc hroot hR hw hi hsl1 h1
        subst this
        exact ih (by omega) hsl2 he
      · rename_i w1 h1
        have := jam_chunk hc hroot hR hw hi hsl1 h1
        subst this
        exact ih (by omega) hsl2 he
      · exact jam_chunk hc hroot hR hw hi hsl1 he

private theorem jam_headers {R : Rules S} (hR : ChecksRoot root R) {w w' : World S} (hw : Jam c w) {hs : List Header}
    (hf : ∀ h ∈ hs, ∃ i, h = c i) {r : Res Status} (he : w.processHeaders R hs = (w', r)) : w' = w := by
  unfold World.processHeaders at he
  split at he
  · cases he; rfl
  · rename_i h rest
    split at he
    · cases he; rfl
    split at he
    · cases he; rfl
    · rename_i h0
      split at he
      · cases he; rfl
      · rename_i hcon
        exact jam_chunks hc hroot hR hw _ h0 (slice_of hc rest h hf (by simpa using hcon)) he

private theorem jam_block {R : Rules S} (hR : ChecksRoot root R) (hbad : ∀ i, R.bad (c i).pow.hash = false)
    {w w' : World S} (hw : Jam c w) {fuel : Nat} {b : Block}
    (hb : (∃ i, b.header = c i) ∨ hashOf b.header = hashOf (c 0) ∨ hashOf b.header = hashOf (c 1))
    {r : Res Status} (he : w.processBlock R fuel b = (w', r)) : Jam c w' := by
  have hh : ∀ v s, w.processHeader R fuel b.header = (v, s) → Jam c v ∧ ((∃ t, s = .ok t) →
      ∀ i, 2 ≤ i → hashOf b.header = hashOf (c i) → b.header = c i ∧ i ≠ 2) := by
    intro v s h
    rcases hb with ⟨i, hi⟩ | hb
    · rw [hi] at h
      obtain ⟨j1, j2⟩ := jam_header hc hroot hR hbad hw h
      refine ⟨j1, fun ⟨t, ht⟩ k _ e => ?_⟩
      rw [hi] at e
      have := hc.hash _ _ e
      subst this
      exact ⟨hi, fun h2 => j2 h2 t ht⟩
    · have hk : ∃ k, k < 2 ∧ hashOf b.header = hashOf (c k) ∧ (w.headers (hashOf b.header)).isSome ∧
          R.bad (hashOf b.header) = false := by
        rcases hb with hb | hb
        · exact ⟨0, by omega, hb, by rw [hb, hw.h0]; rfl, by rw [hb]; exact hbad 0⟩
        · exact ⟨1, by omega, hb, by rw [hb, hw.h1]; rfl, by rw [hb]; exact hbad 1⟩
      obtain ⟨k, k1, k2, k3, k4⟩ := hk
      unfold World.processHeader at h
      rw [if_neg (by simp [k4]), if_pos k3] at h
      cases h
      refine ⟨hw, fun _ i hi e => ?_⟩
      rw [k2] at e
      have := hc.hash _ _ e
      omega
  unfold World.processBlock at he
  split at he
  · cases he; exact hw
  · split at he
    · rename_i h1; cases he; exact (hh _ _ h1).1
    · rename_i h1; cases he; exact (hh _ _ h1).1
    · rename_i w1 s h1
      obtain ⟨j1, j2⟩ := hh _ _ h1
      split at he
      · cases he; exact j1
      · cases he; exact j1
      · refine j1.same (sameC_processInternal he) (fun x hx => ?_)
        rcases oh_internal he x hx with hx | hx
        · exact .inl hx
        · rw [hx]; exact .inr (j2 ⟨_, rfl⟩)

end jam

/-- **C104 violated: a node opened twice before its first header.** Each time a node without headers is opened, the genesis
header is added to the header MMR once more.  After the second time, a single header `c 1` of the honest chain is
still accepted; from then on every further header and block of that chain is refused, singly or in batches, in
any order and over restarts: the candidate chain never gets past `c 1`. -/
theorem genesis_twice_violated (root : List Header → Bytes) (c : Nat → Header) (hc : HonestChain root c)
    (hroot : root [c 0, c 0] ≠ root [c 0, c 1]) (R : Rules (Accounts T Z)) (hR : ChecksRoot root R)
    (hbad : ∀ i, R.bad (c i).pow.hash = false) (g : Block) (hg : g.header = c 0) (z : Z) (t : T) (fuel : Nat)
    (w v : World (Accounts T Z))
    (hw : (((emptyNode g t).reopen R g z).reopen R g z).processHeader R fuel (c 1) = (w, .ok .success))
    (es : List LifeEvent) (hes : ∀ e ∈ es, FromChain c e) (hv : live R g z fuel w es = some v) :
    v.candidate = [(c 0).pow.hash, (c 1).pow.hash] := by
  have h0 : Jam c w := by
    have e01 : hashOf (c 1) ≠ hashOf (c 0) := fun e => by have := hc.hash _ _ e; omega
    unfold World.processHeader at hw
    rw [if_neg (by simp [hashOf, hbad]), if_neg (by
      simp [World.reopen, World.compactBlocks, World.addGenesis, emptyNode, World.addHeader, hg, e01]),
      if_neg (by
        simp [World.reopen, World.compactBlocks, World.addGenesis, emptyNode, World.addHeader, hg, hc.prev 0, hashOf])] at hw
    split at hw
    · cases hw
    · rename_i prev _
      unfold World.batch at hw
      split at hw
      · rename_i v' e
        cases hw
        rw [World.addHeaders, Res.bind_eq_ok] at e
        obtain ⟨_, _, e⟩ := e
        split at e
        · cases e
        · cases e
          refine ⟨?_, ?_, ?_, ?_, ?_, ?_⟩
          · simp [World.reopen, World.compactBlocks, World.addGenesis, emptyNode, World.addHeader, hg]
          · simp [World.reopen, World.compactBlocks, World.addGenesis, emptyNode, World.addHeader, hg]
          · simp [World.reopen, World.compactBlocks, World.addGenesis, emptyNode, World.addHeader, hg, Ne.symm e01]
          · simp [World.addHeader]
          · intro i hi
            have e0 : hashOf (c i) ≠ hashOf (c 0) := fun e => by have := hc.hash _ _ e; omega
            have e1 : hashOf (c i) ≠ hashOf (c 1) := fun e => by have := hc.hash _ _ e; omega
            simp [World.reopen, World.compactBlocks, World.addGenesis, emptyNode, World.addHeader, hg, e0, e1]
          · intro h hh
            simp [World.reopen, World.compactBlocks, World.addGenesis, emptyNode, World.addHeader] at hh
      · cases hw
      · cases hw
  have key : ∀ (es : List LifeEvent) (w : World (Accounts T Z)), Jam c w → (∀ e ∈ es, FromChain c e) →
      live R g z fuel w es = some v → Jam c v := by
    intro es
    induction es with
    | nil => intro w hw _ he; cases he; exact hw
    | cons e es ih =>
      intro w hw hf he
      have hf' : ∀ e ∈ es, FromChain c e := fun x hx => hf x (by simp [hx])
      have hfe := hf e (by simp)
      cases e with
      | restart =>
        rw [live] at he
        refine ih _ ?_ hf' he
        unfold World.reopen World.compactBlocks World.addGenesis
        rw [if_neg (by simp [hw.candidate])]
        exact ⟨hw.candidate, hw.mmr, hw.h0, hw.h1, hw.more, by simp⟩
      | receive e =>
        rw [live] at he
        split at he
        · cases he
        · rename_i w1 h1
          refine ih w1 ?_ hf' he
          unfold World.step at h1
          cases e with
          | header x =>
            obtain ⟨i, rfl⟩ := hfe
            simp only at h1
            split at h1
            · cases h1
            · rename_i h2; cases h1; exact (jam_header hc hroot hR hbad hw h2).1
          | headers hs =>
            simp only at h1
            split at h1
            · cases h1
            · rename_i h2
              cases h1
              rw [jam_headers hc hroot hR hw hfe h2]
              exact hw
          | block b =>
            simp only at h1
            split at h1
            · cases h1
            · rename_i h2; cases h1; exact jam_block hc hroot hR hbad hw (.inl hfe) h2
          | nextOrphan =>
            simp only at h1
            split at h1
            · cases h1
            · rename_i h2
              cases h1
              unfold World.processNextOrphan at h2
              split at h2
              · cases h2; exact hw
              · rename_i x hx
                split at h2
                · cases h2; exact hw
                · rename_i h hh
                  split at h2
                  · cases h2; exact hw
                  · rename_i b hb
                    have hbh : hashOf b.header = hashOf h := by
                      have := List.find?_some hb
                      simp only [Bool.decide_and, Bool.and_eq_true, decide_eq_true_eq] at this
                      exact this.2
                    have hcase : hashOf b.header = hashOf (c 0) ∨ hashOf b.header = hashOf (c 1) := by
                      rw [hw.candidate] at hx
                      have hm := List.mem_of_getElem? hx
                      simp only [List.mem_cons, List.not_mem_nil, or_false] at hm
                      rcases hm with rfl | rfl
                      · rw [hw.h0] at hh
                        injection hh with hh
                        exact .inl (by rw [hbh, hh])
                      · rw [hw.h1] at hh
                        injection hh with hh
                        exact .inr (by rw [hbh, hh])
                    split at h2
                    · rename_i h3; cases h2; exact jam_block hc hroot hR hbad hw (.inr hcase) h3
                    · rename_i h3
                      cases h2
                      exact (jam_block hc hroot hR hbad hw (.inr hcase) h3).same ⟨rfl, rfl, rfl⟩ (fun x hx => .inl hx)
                    · rename_i h3; cases h2; exact jam_block hc hroot hR hbad hw (.inr hcase) h3
  exact (key es w h0 hes hv).candidate

/-! ## Cases -/

private def cRoot (l : List Header) : Bytes := l.flatMap (fun h => 0 :: h.pow.hash)

/-- An honest chain: hash `1 … 1` (`i` times), `prevRoot` the hashes of the headers below, set apart by zeros. -/
private def cChain (i : Nat) : Header :=
  ⟨1, i, 0, List.replicate (i - 1) 1, (List.range i).flatMap (fun j => 0 :: List.replicate j 1), [], [], [], [], 0, 0, i + 1, 0, 0,
    ⟨31, [], List.replicate i 1⟩⟩

private theorem cChain_honest : HonestChain cRoot cChain := by
  refine ⟨fun _ => rfl, fun _ => rfl, ?_, ?_⟩
  · intro i j h
    have := congrArg List.length h
    simpa [cChain] using this
  · intro i
    simp [cRoot, cChain, List.flatMap_map]

/-- Rules that check height, work and root of the headers, with sums counting blocks. -/
private def cRules : Rules (Accounts Nat Nat) :=
  sumRules (fun _ mmr h prev => if h.height = prev.height + 1 ∧ prev.totalDifficulty < h.totalDifficulty ∧
      h.prevRoot = cRoot (mmr.take h.height) then .ok () else .throw)
    (fun _ => .ok ()) (fun t _ => .ok (t + 1)) (fun z _ => .ok (z + 1)) (fun _ h => .ok h.height) (fun _ => false) (fun _ => 0)

private def cBlock (i : Nat) : Block := ⟨cChain i, ⟨[], [], []⟩⟩

private def cNode : World (Accounts Nat Nat) := (emptyNode (cBlock 0) 0).reopen cRules (cBlock 0) 100

example : ChecksRoot cRoot cRules := by
  intro db mmr h prev hv
  simp only [cRules, sumRules] at hv
  split at hv
  · rename_i e; exact e.2.2
  · cases hv

example : NeedsSums cRules := sumRules_needs ..

example : cRoot [cChain 0, cChain 0] ≠ cRoot [cChain 0, cChain 1] := by decide

/-- Opened once, the node follows the chain, also over restarts. -/
example : (live cRules (cBlock 0) 100 10 cNode [.receive (.block (cBlock 1)), .restart, .receive (.header (cChain 2)),
    .receive (.headers [cChain 2, cChain 3]), .receive (.block (cBlock 2)), .restart, .receive (.block (cBlock 3))]).map
      (fun w => (w.confirmed.length, w.candidate.length, w.ledger.sums [1, 1, 1])) = some (4, 4, some 103) := by
  decide +kernel

/-- Opened twice it accepts `c 1` and no more. -/
example : ((cNode.reopen cRules (cBlock 0) 100).processHeader cRules 10 (cChain 1)).2 = .ok .success ∧
    (live cRules (cBlock 0) 100 10 (cNode.reopen cRules (cBlock 0) 100) [.receive (.header (cChain 1)), .receive (.header (cChain 2)),
      .receive (.headers [cChain 1, cChain 2, cChain 3]), .restart, .receive (.block (cBlock 2))]).map
      (fun w => (w.candidate.length, w.mmr.length)) = some (2, 3) := by
  decide +kernel

/-- Opened twice, but with the first headers in a batch, all is well. -/
example : (live cRules (cBlock 0) 100 10 (cNode.reopen cRules (cBlock 0) 100)
      [.receive (.headers [cChain 1, cChain 2, cChain 3])]).map
      (fun w => (w.candidate.length, w.mmr.length)) = some (4, 4) := by
  decide +kernel

private def cThree : World (Accounts Nat Nat) :=
  (live cRules (cBlock 0) 100 10 cNode [.receive (.block (cBlock 1)), .receive (.block (cBlock 2)),
    .receive (.block (cBlock 3))]).getD cNode

/-- The same with one header lost. -/
private def cLost : World (Accounts Nat Nat) :=
  { cThree with headers := fun x => if x = [1, 1] then none else cThree.headers x }

/-- A world, if there is one. -/
private def worldOf (r : Res (World (Accounts Nat Nat))) : Option (World (Accounts Nat Nat)) :=
  match r with
  | .ok w => some w
  | _ => none

/-- A resync of a node with three blocks; then no block is accepted.  With a header lost the chain is cut. -/
example : (cThree.confirmed.length, cThree.candidate.length) = (4, 4) ∧
    (worldOf (cThree.resync id)).map (fun w => (w.confirmed.length, w.candidate.length, w.mmr.length)) = some (1, 4, 4) ∧
    ((worldOf (cThree.resync id)).bind (fun w => live cRules (cBlock 0) 100 10 w [.receive (.block (cBlock 1)), .restart,
      .receive (.block (cBlock 1))])).map (·.confirmed.length) = some 1 ∧
    (worldOf (cLost.resync id)).map (fun w => (w.confirmed.length, w.candidate, w.mmr.map (·.height))) =
      some (1, [[], [1]], [0, 1]) := by
  decide +kernel

end Verif.Props
