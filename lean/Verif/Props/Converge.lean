import Verif.Props.Process
import Verif.P2P.BlockPipe

/-!
# C99: blocks that arrive in any order
-/
namespace Verif.Props
open Verif.BC Verif.P2P

variable {S : Type}

/-- Blocks `bs` that extend the confirmed chain of `w` up to the header chain, all good, none processed yet.  `s'` is the output set after
them. -/
structure Ahead (R : Rules S) (w : World S) (bs : List Block) (s' : S) : Prop where
  known : ∀ b ∈ bs, w.headers b.header.pow.hash = some b.header
  candidate : w.candidate = w.confirmed ++ bs.map (·.header.pow.hash)
  distinct : w.candidate.Nodup
  tip : ∃ h, w.confirmed.getLast? = some h.pow.hash ∧ w.headers h.pow.hash = some h ∧
    (∀ b, bs[0]? = some b → b.header.prevHash = h.pow.hash ∧ h.totalDifficulty < b.header.totalDifficulty) ∧
    R.rewind w.ledger h = .ok w.ledger
  linked : ∀ i p c, bs[i]? = some p → bs[i + 1]? = some c →
    c.header.prevHash = p.header.pow.hash ∧ p.header.totalDifficulty < c.header.totalDifficulty
  heights : ∀ i b, bs[i]? = some b → b.header.height = w.confirmed.length + i
  small : w.confirmed.length + bs.length < 2 ^ 64
  horizon : ∀ b ∈ bs, R.horizon (w.candidate.length - 1) < b.header.height
  bodies : ∀ b ∈ bs, R.consistent b = .ok ()
  applies : bs.foldlM R.apply w.ledger = .ok s'
  still : ∀ k s b, bs[k]? = some b → (bs.take (k + 1)).foldlM R.apply w.ledger = .ok s →
    R.rewind s b.header = .ok s
  unseen : ∀ b ∈ bs, w.blocks b.header.pow.hash = none
  waiting : ∀ o ∈ w.orphans, ∀ b ∈ bs, o.header.pow.hash = b.header.pow.hash → o = b

/-- The node after the first `k` of the blocks are confirmed. -/
private structure AtK (R : Rules S) (w0 : World S) (bs : List Block) (k : Nat) (w : World S) : Prop where
  le : k ≤ bs.length
  headers : w.headers = w0.headers
  candidate : w.candidate = w0.candidate
  confirmed : w.confirmed = w0.confirmed ++ (bs.take k).map (fun b => hashOf b.header)
  ledger : (bs.take k).foldlM R.apply w0.ledger = .ok w.ledger
  unseen : ∀ i b, bs[i]? = some b → k ≤ i → w.blocks (hashOf b.header) = none
  waiting : ∀ o ∈ w.orphans, ∀ b ∈ bs, hashOf o.header = hashOf b.header → o = b

section
variable {R : Rules S} {w0 : World S} {bs : List Block} {s' : S}

private theorem idx_of_hash (P : Ahead R w0 bs s') {i j : Nat} {b c : Block} (hb : bs[i]? = some b)
    (hc : bs[j]? = some c) (h : hashOf b.header = hashOf c.header) : i = j := by
  have hd := P.distinct
  rw [P.candidate] at hd
  have hd2 := (List.nodup_append.1 hd).2.1
  have hi := (List.getElem?_eq_some_iff.1 hb)
  have hj := (List.getElem?_eq_some_iff.1 hc)
  obtain ⟨hi, rfl⟩ := hi
  obtain ⟨hj, rfl⟩ := hj
  have := (List.Nodup.getElem_inj_iff hd2 (i := i) (j := j) (hi := by simpa using hi) (hj := by simpa using hj)).1
    (by simpa [hashOf] using h)
  exact this

private theorem conf_len {k : Nat} {w : World S} (A : AtK R w0 bs k w) :
    w.confirmed.length = w0.confirmed.length + k := by
  rw [A.confirmed, List.length_append, List.length_map, List.length_take, Nat.min_eq_left A.le]

private theorem conf_get {k : Nat} {w : World S} (A : AtK R w0 bs k w) {i : Nat} {b : Block} (hb : bs[i]? = some b)
    (hi : i < k) : w.confirmed[w0.confirmed.length + i]? = some (hashOf b.header) := by
  rw [A.confirmed, List.getElem?_append_right (by omega)]
  simp [hi, hb]

/-- The header on which block `k` builds. -/
private theorem tip_at (P : Ahead R w0 bs s') {k : Nat} {w : World S} (A : AtK R w0 bs k w) :
    ∃ h, w.confirmed.getLast? = some (hashOf h) ∧ w.headers (hashOf h) = some h ∧
      (∀ b, bs[k]? = some b → b.header.prevHash = hashOf h ∧ h.totalDifficulty < b.header.totalDifficulty) ∧
      R.rewind w.ledger h = .ok w.ledger := by
  cases k with
  | zero =>
    obtain ⟨h, h1, h2, h3, h4⟩ := P.tip
    have e : w.confirmed = w0.confirmed := by rw [A.confirmed]; simp
    have l : w.ledger = w0.ledger := by
      have := A.ledger
      rw [List.take_zero, List.foldlM_nil] at this
      injection this with this
      exact this.symm
    refine ⟨h, by rw [e]; exact h1, by rw [A.headers]; exact h2, h3, by rw [l]; exact h4⟩
  | succ k =>
    have hk : k < bs.length := by have := A.le; omega
    obtain ⟨p, hp⟩ : ∃ p, bs[k]? = some p := ⟨_, List.getElem?_eq_getElem hk⟩
    refine ⟨p.header, ?_, ?_, ?_, ?_⟩
    · rw [List.getLast?_eq_getElem?, conf_len A, ← conf_get A hp (by omega)]
      congr 1
    · rw [A.headers]; exact P.known p (List.mem_of_getElem? hp)
    · intro b hb; exact P.linked k p b hp hb
    · exact P.still k _ p hp A.ledger

private theorem prev_known (P : Ahead R w0 bs s') {k : Nat} {w : World S} (A : AtK R w0 bs k w) {i : Nat} {b : Block}
    (hb : bs[i]? = some b) : (w.headers b.header.prevHash).isSome := by
  cases i with
  | zero =>
    obtain ⟨h, h1, h2, h3, _⟩ := P.tip
    rw [(h3 b hb).1, A.headers, h2]; rfl
  | succ i =>
    have hi : i < bs.length := by have := (List.getElem?_eq_some_iff.1 hb).1; omega
    have hp := List.getElem?_eq_getElem hi
    rw [(P.linked i _ b hp hb).1, A.headers, P.known _ (List.mem_of_getElem? hp)]; rfl

private theorem fold_next (P : Ahead R w0 bs s') {k n : Nat} {w : World S} (A : AtK R w0 bs k w) :
    ∃ s, ((bs.drop k).take n).foldlM R.apply w.ledger = .ok s ∧ (bs.take (k + n)).foldlM R.apply w0.ledger = .ok s := by
  have happ := P.applies
  have e : bs = bs.take (k + n) ++ bs.drop (k + n) := (List.take_append_drop _ _).symm
  rw [e, List.foldlM_append, Res.bind_eq_ok] at happ
  obtain ⟨s, h1, _⟩ := happ
  refine ⟨s, ?_, h1⟩
  rw [List.take_add, List.foldlM_append, Res.bind_eq_ok] at h1
  obtain ⟨t, h2, h3⟩ := h1
  rw [A.ledger] at h2
  injection h2 with h2
  rw [h2]
  exact h3

private theorem horizon_at (P : Ahead R w0 bs s') {k : Nat} {w : World S} (A : AtK R w0 bs k w) {b : Block} (hb : b ∈ bs) :
    b.header.height > R.horizon (w.candidate.length - 1) := by
  rw [A.candidate]; exact P.horizon b hb

/-- What one call does: the result is no exception, no confirmed block and no waiting block is lost. -/
private structure Moved (R : Rules S) (w0 : World S) (bs : List Block) (k : Nat) (w : World S) (k' : Nat) (w' : World S) :
    Prop where
  le : k ≤ k'
  now : AtK R w0 bs k' w'
  kept : ∀ o ∈ w.orphans, o ∈ w'.orphans ∨ ∃ i, i < k' ∧ bs[i]? = some o

private theorem moved_refl {k : Nat} {w : World S} (A : AtK R w0 bs k w) : Moved R w0 bs k w k w :=
  ⟨Nat.le_refl _, A, fun _ h => Or.inl h⟩

private theorem old_block (P : Ahead R w0 bs s') {k : Nat} {w : World S} (A : AtK R w0 bs k w) (fuel : Nat) {j : Nat} {b : Block}
    (hb : bs[j]? = some b) (hj : j < k) : w.processBlock R fuel b = (w, .ok .alreadyExists) := by
  have hmem := List.mem_of_getElem? hb
  have hk : (w.headers (hashOf b.header)).isSome := by rw [A.headers, hashOf, P.known b hmem]; rfl
  have hproc : ∃ st, w.processHeader R fuel b.header = (w, .ok st) := by
    unfold World.processHeader
    split
    · exact ⟨_, rfl⟩
    · exact ⟨_, rfl⟩
  obtain ⟨st, hst⟩ := hproc
  have hh := horizon_at P A hmem
  unfold World.processBlock
  rw [if_neg (by omega), hst]
  simp only [P.bodies b hmem]
  unfold World.processInternal
  rw [if_pos]
  simp only [onChain, decide_eq_true_eq]
  rw [P.heights j b hb]
  exact conf_get A hb hj

private theorem next_block (P : Ahead R w0 bs s') {k : Nat} {w : World S} (A : AtK R w0 bs k w) (fuel : Nat) {b : Block}
    (hb : bs[k]? = some b) : ∃ w', w.processBlock R fuel b = (w', .ok .success) ∧ Moved R w0 bs k w (k + 1) w' := by
  have hmem := List.mem_of_getElem? hb
  have hlt : k < bs.length := (List.getElem?_eq_some_iff.1 hb).1
  obtain ⟨h, t1, t2, t3, _⟩ := tip_at P A
  obtain ⟨s, f1, f2⟩ := fold_next P A (n := 1)
  have hone : (bs.drop k).take 1 = [b] := by
    rw [List.take_one, List.head?_drop, hb]; rfl
  rw [hone, List.foldlM_cons, Res.bind_eq_ok] at f1
  obtain ⟨s1, f1, f3⟩ := f1
  rw [List.foldlM_nil] at f3
  injection f3 with f3
  subst f3
  obtain ⟨w', p1, p2, p3, p4, p5, p6⟩ := next_block_exact R w b s1 fuel (horizon_at P A hmem) (P.bodies b hmem)
    (by rw [A.headers, P.known b hmem]; rfl) (prev_known P A hb) (by rw [(t3 b hb).1]; exact t1)
    (by rw [P.heights k b hb, conf_len A]) (A.unseen k b hb (Nat.le_refl _)) f1
  have htake : bs.take (k + 1) = bs.take k ++ [b] := by
    rw [List.take_add, hone]
  refine ⟨w', p1, by omega, ⟨by omega, p5.trans A.headers, ?_, ?_, ?_, ?_, ?_⟩, ?_⟩
  · rw [p6]; exact A.candidate
  · rw [p2, A.confirmed, htake]; simp [hashOf]
  · rw [p3]; exact f2
  · intro i c hc hi
    rw [p6]
    simp only [World.addBlock, World.removeOrphan]
    rw [if_neg, A.unseen i c hc (by omega)]
    intro he
    have := idx_of_hash P hc hb he
    omega
  · intro o ho c hc he
    rw [p6] at ho
    exact A.waiting o (List.mem_of_mem_eraseP ho) c hc he
  · intro o ho
    by_cases hob : hashOf o.header = hashOf b.header
    · exact Or.inr ⟨k, by omega, by rw [A.waiting o ho b hmem hob]; exact hb⟩
    · left
      rw [p6]
      simp only [World.addBlock, World.removeOrphan]
      rw [List.mem_eraseP_of_neg (by simp [hob])]
      exact ho

private theorem orphan_find {k : Nat} {w : World S} (_ : Ahead R w0 bs s') (A : AtK R w0 bs k w) {i : Nat} {b : Block}
    (hb : bs[i]? = some b) :
    (b ∈ w.orphans → w.orphanBlock b.header.height (hashOf b.header) = some b) ∧
    (b ∉ w.orphans → w.orphanBlock b.header.height (hashOf b.header) = none) := by
  have hmem := List.mem_of_getElem? hb
  constructor
  · intro h
    unfold World.orphanBlock
    cases hf : w.orphans.find? (fun x => x.header.height = b.header.height ∧ hashOf x.header = hashOf b.header) with
    | none =>
      have := List.find?_eq_none.1 hf b h
      simp at this
    | some c =>
      have h1 := List.find?_some hf
      simp only [decide_eq_true_eq] at h1
      rw [A.waiting c (List.mem_of_find?_eq_some hf) b hmem h1.2]
  · intro h
    unfold World.orphanBlock
    rw [List.find?_eq_none]
    intro c hc he
    simp only [decide_eq_true_eq] at he
    exact h (A.waiting c hc b hmem he.2 ▸ hc)

private theorem parent_at (P : Ahead R w0 bs s') {k : Nat} {w : World S} (A : AtK R w0 bs k w) {i : Nat} {p c : Block}
    (hp : bs[i]? = some p) (hc : bs[i + 1]? = some c) (hi : k ≤ i) :
    (w.orphanBlock ((c.header.height + U64 - 1) % U64) c.header.prevHash).or (w.blocks c.header.prevHash) =
      if p ∈ w.orphans then some p else none := by
  have h1 := P.heights _ _ hp
  have h2 := P.heights _ _ hc
  have hl : i + 1 < bs.length := (List.getElem?_eq_some_iff.1 hc).1
  have hs := P.small
  have hm : (c.header.height + U64 - 1) % U64 = p.header.height := by
    have : U64 = 2 ^ 64 := rfl
    rw [show c.header.height + U64 - 1 = p.header.height + U64 by omega, Nat.add_mod_right]
    exact Nat.mod_eq_of_lt (by omega)
  rw [hm, (P.linked i p c hp hc).1]
  change (w.orphanBlock p.header.height (hashOf p.header)).or (w.blocks (hashOf p.header)) = _
  rw [A.unseen i p hp hi, Option.or_none]
  split
  · rename_i h; exact (orphan_find P A hp).1 h
  · rename_i h; exact (orphan_find P A hp).2 h

private theorem off_chain (P : Ahead R w0 bs s') {k : Nat} {w : World S} (A : AtK R w0 bs k w) {i : Nat} {c : Block}
    (hc : bs[i]? = some c) (hi : k < i) :
    ¬ (c.header.height ≠ 0 ∧ onChain w.confirmed (c.header.height - 1) c.header.prevHash = true) := by
  rintro ⟨h0, h⟩
  simp only [onChain, decide_eq_true_eq] at h
  have := (List.getElem?_eq_some_iff.1 h).1
  rw [conf_len A] at this
  have h2 := P.heights _ _ hc
  omega

private theorem walk_missing (P : Ahead R w0 bs s') {k : Nat} {w : World S} (A : AtK R w0 bs k w) :
    ∀ (j : Nat) (b : Block) (acc : List Block) (fuel : Nat), bs[j]? = some b → k < j → j < fuel + k →
      (∃ i p, k ≤ i ∧ i < j ∧ bs[i]? = some p ∧ p ∉ w.orphans) → w.walkBlocks fuel b acc = .ok .orphan := by
  intro j
  induction j with
  | zero => intro b acc fuel _ h; omega
  | succ j ih =>
    intro b acc fuel hb hk hf ⟨i, p, h1, h2, h3, h4⟩
    obtain ⟨n, rfl⟩ : ∃ n, fuel = n + 1 := ⟨fuel - 1, by omega⟩
    rw [World.walkBlocks, if_neg (off_chain P A hb hk)]
    have hjl : j < bs.length := by have := (List.getElem?_eq_some_iff.1 hb).1; omega
    have hq := List.getElem?_eq_getElem hjl
    rw [parent_at P A hq hb (by omega)]
    by_cases hin : bs[j] ∈ w.orphans
    · rw [if_pos hin]
      simp only
      have hij : i ≠ j := by
        rintro rfl
        rw [h3] at hq
        injection hq with hq
        exact h4 (hq ▸ hin)
      exact ih _ _ _ hq (by omega) (by omega) ⟨i, p, h1, by omega, h3, h4⟩
    · rw [if_neg hin]

private theorem applyBlocks_orphans : ∀ (l : List Block) (w w' : World S) (r : Res Unit),
    World.applyBlocks R w l = (w', r) → ∀ o ∈ w.orphans, (∀ b ∈ l, hashOf o.header ≠ hashOf b.header) → o ∈ w'.orphans := by
  intro l
  induction l with
  | nil =>
    intro w w' r he o ho _
    rw [World.applyBlocks] at he
    cases he
    exact ho
  | cons b l ih =>
    intro w w' r he o ho hn
    have hap : ∀ w1 r1, w.applyBlock R b = (w1, r1) → o ∈ w1.orphans := by
      intro w1 r1 h1
      unfold World.applyBlock at h1
      split at h1
      · cases h1; exact ho
      · split at h1
        · cases h1
          simp only [World.addBlock, World.removeOrphan]
          rw [List.mem_eraseP_of_neg (by simp [hn b (by simp)])]
          exact ho
        · cases h1; exact ho
        · cases h1; exact ho
    rw [World.applyBlocks] at he
    rcases h1 : w.applyBlock R b with ⟨w1, r1⟩
    rw [h1] at he
    split at he
    · rename_i w2 e2
      cases e2
      exact ih _ _ _ he o (hap _ _ h1) fun c hc => hn c (by simp [hc])
    · cases he
      exact hap _ _ h1

private theorem late_block (P : Ahead R w0 bs s') {k : Nat} {w : World S} (A : AtK R w0 bs k w) (fuel : Nat)
    (hfuel : bs.length + 1 ≤ fuel) {j : Nat} {b : Block} (hb : bs[j]? = some b) (hj : k < j) :
    ∃ w' st k', w.processBlock R fuel b = (w', .ok st) ∧ st ≠ .invalid ∧ Moved R w0 bs k w k' w' ∧
      (j < k' ∨ b ∈ w'.orphans) := by
  have hmem := List.mem_of_getElem? hb
  have hlt : j < bs.length := (List.getElem?_eq_some_iff.1 hb).1
  have hkn : (w.headers (hashOf b.header)).isSome := by rw [A.headers, hashOf, P.known b hmem]; rfl
  obtain ⟨hd, hhd⟩ := Option.isSome_iff_exists.mp hkn
  have hproc : ∃ st, w.processHeader R fuel b.header = (w, .ok st) := by
    unfold World.processHeader
    split
    · exact ⟨_, rfl⟩
    · exact ⟨_, rfl⟩
  obtain ⟨st, hst⟩ := hproc
  have hh := horizon_at P A hmem
  obtain ⟨hq, t1, t2, t3, t4⟩ := tip_at P A
  obtain ⟨c0, hc0⟩ : ∃ c, bs[k]? = some c := ⟨_, List.getElem?_eq_getElem (by omega)⟩
  have hprev : ∃ i p, j = i + 1 ∧ bs[i]? = some p := ⟨j - 1, _, by omega, List.getElem?_eq_getElem (by omega)⟩
  obtain ⟨i, p, rfl, hp⟩ := hprev
  have hnext : w.confirmed.getLast? ≠ some b.header.prevHash := by
    rw [t1, (P.linked i p b hp hb).1]
    intro he
    injection he with he
    cases k with
    | zero =>
      have hd := P.distinct
      rw [P.candidate] at hd
      have hdis := (List.nodup_append.1 hd).2.2
      have e : w.confirmed = w0.confirmed := by rw [A.confirmed]; simp
      rw [e] at t1
      exact hdis _ (List.mem_of_getLast? t1) _ (List.mem_map_of_mem (List.mem_of_getElem? hp)) he
    | succ k =>
      have hkk : k < bs.length := by have := A.le; omega
      have hpk := List.getElem?_eq_getElem hkk
      have hgl : w.confirmed.getLast? = some (hashOf bs[k].header) := by
        rw [List.getLast?_eq_getElem?, conf_len A, ← conf_get A hpk (by omega)]
        congr 1
      rw [hgl] at t1
      injection t1 with t1
      have := idx_of_hash P hpk hp (t1.trans he)
      omega
  have hoff : ¬ onChain w.confirmed b.header.height (hashOf b.header) = true := by
    simp only [onChain, decide_eq_true_eq]
    intro h
    have := (List.getElem?_eq_some_iff.1 h).1
    rw [conf_len A, P.heights _ _ hb] at this
    omega
  by_cases hall : ∀ m p, k ≤ m → m < i + 1 → bs[m]? = some p → p ∈ w.orphans
  · -- all the blocks between are waiting
    let br := (bs.drop k).take (i + 2 - k)
    have hbr : ∀ m, m < i + 2 - k → br[m]? = bs[k + m]? := by
      intro m hm
      simp only [br]
      rw [List.getElem?_take_of_lt hm, List.getElem?_drop]
    have hbrlen : br.length = i + 2 - k := by simp [br]; omega
    have hget : ∀ m c, br[m]? = some c → bs[k + m]? = some c ∧ m < i + 2 - k := by
      intro m c hc
      have hm : m < i + 2 - k := by
        have := (List.getElem?_eq_some_iff.1 hc).1
        omega
      exact ⟨(hbr m hm) ▸ hc, hm⟩
    have hmemb : ∀ c ∈ br, ∃ m, bs[k + m]? = some c ∧ m < i + 2 - k := by
      intro c hc
      obtain ⟨m, hm⟩ := List.mem_iff_getElem?.1 hc
      exact ⟨m, hget m c hm⟩
    have hfirst : br[0]? = some c0 := by rw [hbr 0 (by omega)]; exact hc0
    have hlast : br.getLast? = some b := by
      rw [List.getLast?_eq_getElem?, hbrlen, hbr _ (by omega)]
      rw [show k + (i + 2 - k - 1) = i + 1 by omega]
      exact hb
    have hn0 : w0.confirmed.length ≠ 0 := by
      obtain ⟨h, h1, _⟩ := P.tip
      intro h0
      rw [List.length_eq_zero_iff.1 h0] at h1
      cases h1
    have B : BranchTo w b br := by
      refine ⟨hlast, ?_, ?_, ?_, ?_⟩
      · intro b0 h0
        rw [hfirst] at h0
        injection h0 with h0
        subst h0
        have e := P.heights _ _ hc0
        refine ⟨by omega, ?_⟩
        rw [(t3 _ hc0).1, ← t1, List.getLast?_eq_getElem?, conf_len A, e]
      · intro m q c hq' hc
        obtain ⟨hq1, hq2⟩ := hget _ _ hq'
        obtain ⟨hc1, hc2⟩ := hget _ _ hc
        have e1 := P.heights _ _ hq1
        have e2 := P.heights _ _ hc1
        have hs := P.small
        have hl : k + (m + 1) < bs.length := (List.getElem?_eq_some_iff.1 hc1).1
        refine ⟨(P.linked (k + m) q c hq1 hc1).1, by omega, by omega, ?_⟩
        have hin : q ∈ w.orphans := hall (k + m) q (by omega) (by omega) hq1
        have hpa := parent_at P A hq1 hc1 (by omega)
        rw [if_pos hin] at hpa
        have hm : (c.header.height + U64 - 1) % U64 = c.header.height - 1 := by
          have : U64 = 2 ^ 64 := rfl
          rw [show c.header.height + U64 - 1 = (c.header.height - 1) + U64 by omega, Nat.add_mod_right]
          exact Nat.mod_eq_of_lt (by omega)
        rw [hm] at hpa
        exact hpa
      · intro c hc h
        obtain ⟨m, hm, _⟩ := hmemb c hc
        have := (List.getElem?_eq_some_iff.1 h).1
        rw [conf_len A, P.heights _ _ hm] at this
        omega
      · intro c hc
        obtain ⟨m, hm, _⟩ := hmemb c hc
        rw [A.headers, P.known c (List.mem_of_getElem? hm)]; rfl
    have hwk : ∀ n, TipWork w n → n = hq.totalDifficulty := by
      rintro n ⟨x, ⟨y, y1, y2⟩, rfl⟩
      rw [← List.getLast?_eq_getElem?, t1] at y1
      injection y1 with y1
      rw [← y1, t2] at y2
      injection y2 with y2
      rw [y2]
    have hmono : ∀ m c, bs[k + m]? = some c → hq.totalDifficulty < c.header.totalDifficulty := by
      intro m
      induction m with
      | zero => intro c hc; exact (t3 c hc).2
      | succ m ih =>
        intro c hc
        have hm : k + m < bs.length := by have := (List.getElem?_eq_some_iff.1 hc).1; omega
        have hq := List.getElem?_eq_getElem hm
        have := ih _ hq
        have := (P.linked (k + m) _ c hq hc).2
        omega
    have htip : ∃ n, TipWork w n := by
      refine ⟨_, hq, ⟨hashOf hq, ?_, t2⟩, rfl⟩
      rw [← List.getLast?_eq_getElem?]; exact t1
    obtain ⟨s, f1, f2⟩ := fold_next P A (n := i + 2 - k)
    obtain ⟨w', q1, q2, q3, q4, w1, q5, q6⟩ := heavier_branch_exact R w b c0 br hq w.ledger s fuel
      (by rw [hbrlen]; omega) hh (P.bodies b hmem) B hfirst hnext (A.unseen _ _ hb (by omega))
      (by rw [(t3 c0 hc0).1]; exact t2)
      (fun n hn => by rw [hwk n hn]; exact hmono (i + 1 - k) b (by rw [show k + (i + 1 - k) = i + 1 by omega]; exact hb))
      htip t4 f1
    have ap := applyBlocks_applied _ q5
    have hkk : k + (i + 2 - k) = i + 2 := by omega
    rw [hkk] at f2
    have htake : bs.take (i + 2) = bs.take k ++ br := by
      rw [← hkk, List.take_add]
    refine ⟨w', _, i + 2, q1, by simp, ⟨by omega, ⟨by omega, ?_, ?_, ?_, ?_, ?_, ?_⟩, ?_⟩, Or.inl (by omega)⟩
    · rw [q6]; exact ap.headers.trans A.headers
    · rw [q6]; exact ap.candidate.trans A.candidate
    · rw [q3, htake, List.map_append, ← List.append_assoc, ← A.confirmed, P.heights k c0 hc0, ← conf_len A,
        List.take_length]
      rfl
    · rw [q4]; exact f2
    · intro m c hc hm
      rw [q6]
      change w1.blocks _ = none
      cases hx : w1.blocks (hashOf c.header) with
      | none => rfl
      | some d =>
        rcases ap.blocks _ _ hx with h | ⟨h1, h2⟩
        · change w.blocks _ = _ at h
          rw [A.unseen m c hc (by omega)] at h
          cases h
        · obtain ⟨n, hn, hn2⟩ := hmemb d h1
          have := idx_of_hash P hc hn h2
          omega
    · intro o ho c hc he
      rw [q6] at ho
      exact A.waiting o (ap.orphans o ho) c hc he
    · intro o ho
      by_cases hx : ∃ c ∈ br, hashOf o.header = hashOf c.header
      · obtain ⟨c, hc, he⟩ := hx
        obtain ⟨n, hn, hn2⟩ := hmemb c hc
        exact Or.inr ⟨k + n, by omega, by rw [A.waiting o ho c (List.mem_of_getElem? hn) he]; exact hn⟩
      · left
        rw [q6]
        exact applyBlocks_orphans br _ _ _ q5 o ho fun c hc he => hx ⟨c, hc, he⟩
  · -- one is missing
    have hmiss : ∃ m p, k ≤ m ∧ m < i + 1 ∧ bs[m]? = some p ∧ p ∉ w.orphans := by
      by_contra hc
      apply hall
      intro m p h1 h2 h3
      by_contra h4
      exact hc ⟨m, p, h1, h2, h3, h4⟩
    have hwalk := walk_missing P A (i + 1) b [] fuel hb hj (by omega) hmiss
    have hint : w.processBlock R fuel b =
        if (w.orphanBlock b.header.height (hashOf b.header)).isSome then (w, .ok .alreadyExists)
        else (w.addOrphan b, .ok .orphaned) := by
      unfold World.processBlock
      rw [if_neg (by omega), hst]
      simp only [P.bodies b hmem]
      unfold World.processInternal
      rw [if_neg hoff, if_neg (by rw [A.unseen _ _ hb (by omega)]; simp)]
      unfold World.status
      simp only [hhd, if_neg hnext, hwalk]
    by_cases hin : b ∈ w.orphans
    · rw [(orphan_find P A hb).1 hin] at hint
      exact ⟨w, _, k, hint, by simp, moved_refl A, Or.inr hin⟩
    · have hnone := (orphan_find P A hb).2 hin
      rw [hnone] at hint
      have hadd : ∃ oh, w.addOrphan b = { w with orphans := w.orphans ++ [b], orphanHeaders := oh } := by
        unfold World.addOrphan
        by_cases hoh : (w.orphanHeader (hashOf b.header)).isSome = true
        · rw [if_pos hoh]
          simp only
          rw [hnone]
          exact ⟨w.orphanHeaders, rfl⟩
        · rw [if_neg hoh]
          have : (w.addOrphanHeader b.header).orphanBlock b.header.height (hashOf b.header) = none := hnone
          simp only
          rw [this]
          exact ⟨_, rfl⟩
      obtain ⟨oh, hadd⟩ := hadd
      rw [hadd] at hint
      refine ⟨_, _, k, hint, by simp, ⟨Nat.le_refl _, ⟨A.le, A.headers, A.candidate, A.confirmed, A.ledger, A.unseen, ?_⟩, ?_⟩,
        Or.inr (by simp)⟩
      · intro o ho c hc he
        rcases List.mem_append.1 ho with ho | ho
        · exact A.waiting o ho c hc he
        · rw [List.mem_singleton] at ho
          subst ho
          obtain ⟨m, hm⟩ := List.mem_iff_getElem?.1 hc
          have := idx_of_hash P hb hm he
          subst this
          rw [hb] at hm
          injection hm
      · intro o ho
        left
        simp [ho]

/-- One block, wherever it stands in the order. -/
private theorem one_block (P : Ahead R w0 bs s') {k : Nat} {w : World S} (A : AtK R w0 bs k w) (fuel : Nat)
    (hfuel : bs.length + 1 ≤ fuel) {b : Block} (hb : b ∈ bs) :
    ∃ w' st k', w.processBlock R fuel b = (w', .ok st) ∧ st ≠ .invalid ∧ Moved R w0 bs k w k' w' ∧
      (b ∈ w'.orphans ∨ ∃ i, i < k' ∧ bs[i]? = some b) := by
  obtain ⟨j, hj⟩ := List.mem_iff_getElem?.1 hb
  rcases Nat.lt_trichotomy j k with h | h | h
  · exact ⟨w, _, k, old_block P A fuel hj h, by simp, moved_refl A, Or.inr ⟨j, h, hj⟩⟩
  · subst h
    obtain ⟨w', h1, h2⟩ := next_block P A fuel hj
    exact ⟨w', _, _, h1, by simp, h2, Or.inr ⟨j, by omega, hj⟩⟩
  · obtain ⟨w', st, k', h1, hs, h2, h3⟩ := late_block P A fuel hfuel hj h
    refine ⟨w', st, k', h1, hs, h2, ?_⟩
    rcases h3 with h3 | h3
    · exact Or.inr ⟨j, h3, hj⟩
    · exact Or.inl h3

private theorem one_orphan (P : Ahead R w0 bs s') {k : Nat} {w : World S} (A : AtK R w0 bs k w) (fuel : Nat) :
    ∃ w' r k', w.processNextOrphan R fuel = (w', .ok r) ∧ Moved R w0 bs k w k' w' ∧
      ∀ b, bs[k]? = some b → b ∈ w.orphans → k < k' := by
  have hcand : w.candidate[w.confirmed.length]? = (bs[k]?).map (fun b => hashOf b.header) := by
    rw [A.candidate, P.candidate, conf_len A, List.getElem?_append_right (by omega)]
    simp
    rfl
  cases hk : bs[k]? with
  | none =>
    rw [hk] at hcand
    refine ⟨w, false, k, ?_, moved_refl A, by simp⟩
    unfold World.processNextOrphan
    rw [hcand]
    rfl
  | some b =>
    rw [hk] at hcand
    have hh : w.headers (hashOf b.header) = some b.header := by
      rw [A.headers]; exact P.known b (List.mem_of_getElem? hk)
    have hlen : w.confirmed.length = b.header.height := by rw [conf_len A, P.heights k b hk]
    by_cases hin : b ∈ w.orphans
    · obtain ⟨w', h1, h2⟩ := next_block P A fuel hk
      refine ⟨w', true, k + 1, ?_, h2, fun _ _ _ => by omega⟩
      unfold World.processNextOrphan
      rw [hcand]
      simp only [Option.map_some, hh]
      rw [hlen, (orphan_find P A hk).1 hin]
      simp only [h1]
      rfl
    · refine ⟨w, false, k, ?_, moved_refl A, ?_⟩
      · unfold World.processNextOrphan
        rw [hcand]
        simp only [Option.map_some, hh]
        rw [hlen, (orphan_find P A hk).2 hin]
      · intro c hc hcin
        injection hc with hc
        exact absurd (hc ▸ hcin) hin

/-- What holds of the pipe at any time: `seen` are the blocks that have arrived. -/
private structure PipeAt (R : Rules S) (w0 : World S) (bs : List Block) (seen : List Block) (p : BlockPipe S) : Prop where
  queued : ∀ e ∈ p.queue, e.2 ∈ bs
  work : ∀ e ∈ p.todo, e.2 ∈ bs
  quiet : p.banned = []
  world : ∃ k, AtK R w0 bs k p.world ∧ ∀ b ∈ seen, (∃ e ∈ p.todo ++ p.queue.drop p.batch, e.2 = b) ∨ b ∈ p.world.orphans ∨
    ∃ i, i < k ∧ bs[i]? = some b
  batch : p.batch ≤ p.queue.length
  known : ∀ e ∈ p.queue, e.2 ∈ seen
  idle : p.batch = 0 → p.todo = []

private theorem eq_of_hash (P : Ahead R w0 bs s') {a b : Block} (ha : a ∈ bs) (hb : b ∈ bs)
    (h : hashOf a.header = hashOf b.header) : a = b := by
  obtain ⟨i, hi⟩ := List.mem_iff_getElem?.1 ha
  obtain ⟨j, hj⟩ := List.mem_iff_getElem?.1 hb
  have := idx_of_hash P hi hj h
  subst this
  rw [hi] at hj
  injection hj

/-- The blocks that arrive. -/
def arrivals : List PipeStep → List Block
  | [] => []
  | .arrive _ b :: es => b :: arrivals es
  | _ :: es => arrivals es

private theorem moved_seen {k k' : Nat} {w w' : World S} (m : Moved R w0 bs k w k' w') {b : Block}
    (h : b ∈ w.orphans ∨ ∃ i, i < k ∧ bs[i]? = some b) : b ∈ w'.orphans ∨ ∃ i, i < k' ∧ bs[i]? = some b := by
  rcases h with h | ⟨i, h1, h2⟩
  · exact m.kept b h
  · exact Or.inr ⟨i, by have := m.le; omega, h2⟩

private theorem pipe_step (P : Ahead R w0 bs s') (fuel : Nat) (hfuel : bs.length + 1 ≤ fuel) {seen : List Block}
    {p : BlockPipe S} (I : PipeAt R w0 bs seen p) (e : PipeStep) (he : ∀ b ∈ arrivals [e], b ∈ bs) :
    ∃ q, p.step R fuel e = some q ∧ PipeAt R w0 bs (seen ++ arrivals [e]) q := by
  obtain ⟨k, A, hs⟩ := I.world
  cases e with
  | arrive peer b =>
    have hb : b ∈ bs := he b (by simp [arrivals])
    refine ⟨_, rfl, ?_⟩
    simp only [pushUnique]
    split
    · rename_i hany
      obtain ⟨x, hx, hxb⟩ := List.any_eq_true.1 hany
      have hxe : x.2 = b := eq_of_hash P (I.queued x hx) hb (by simpa [sameBlock] using hxb)
      refine ⟨I.queued, I.work, I.quiet, ⟨k, A, ?_⟩, I.batch, fun e he => List.mem_append_left _ (I.known e he), I.idle⟩
      intro c hc
      rcases List.mem_append.1 hc with hc | hc
      · exact hs c hc
      · simp only [arrivals, List.mem_singleton] at hc
        subst hc
        exact hs c (hxe ▸ I.known x hx)
    · refine ⟨?_, I.work, I.quiet, ⟨k, A, ?_⟩, ?_, ?_, I.idle⟩
      · intro e he
        rcases List.mem_append.1 he with he | he
        · exact I.queued e he
        · rw [List.mem_singleton] at he; subst he; exact hb
      · intro c hc
        simp only
        rw [List.drop_append_of_le_length I.batch]
        rcases List.mem_append.1 hc with hc | hc
        · rcases hs c hc with ⟨x, hx, hxe⟩ | h
          · exact Or.inl ⟨x, by rw [← List.append_assoc]; exact List.mem_append_left _ hx, hxe⟩
          · exact Or.inr h
        · simp only [arrivals, List.mem_singleton] at hc
          subst hc
          exact Or.inl ⟨(peer, c), by simp, rfl⟩
      · simp only [List.length_append]; have := I.batch; omega
      · intro e he
        rcases List.mem_append.1 he with he | he
        · exact List.mem_append_left _ (I.known e he)
        · rw [List.mem_singleton] at he
          subst he
          exact List.mem_append_right _ (by simp [arrivals])
  | start =>
    simp only [BlockPipe.step, arrivals, List.append_nil]
    split
    · rename_i h0
      refine ⟨_, rfl, I.queued, ?_, I.quiet, ⟨k, A, ?_⟩, ?_, I.known, ?_⟩
      · intro e he
        exact I.queued e (List.mem_of_mem_take (by simpa [copyFront] using he))
      · intro c hc
        simp only [copyFront]
        rcases hs c hc with ⟨x, hx, hxe⟩ | h
        · rw [h0, List.drop_zero, I.idle h0, List.nil_append] at hx
          refine Or.inl ⟨x, ?_, hxe⟩
          rw [if_neg (by decide), List.length_take]
          rcases Nat.le_total 8 p.queue.length with hl | hl
          · rw [Nat.min_eq_left hl, List.take_append_drop]; exact hx
          · rw [List.take_of_length_le hl]; exact List.mem_append_left _ hx
        · exact Or.inr h
      · simp [copyFront]
      · simp [copyFront]
    · exact ⟨p, rfl, I⟩
  | task i =>
    simp only [BlockPipe.step, arrivals, List.append_nil]
    cases hi : p.todo[i]? with
    | none => exact ⟨p, rfl, I⟩
    | some e =>
      have heb := I.work e (List.mem_of_getElem? hi)
      obtain ⟨w', st, k', h1, h2, h3, h4⟩ := one_block P A fuel hfuel heb
      refine ⟨{ p with todo := p.todo.eraseIdx i, world := w' }, ?_, I.queued, ?_, I.quiet, ⟨k', h3.now, ?_⟩, I.batch, I.known, fun h => by simp [I.idle h]⟩
      · simp only [BlockPipe.processNew, h1, if_neg h2]
      · intro x hx; exact I.work x (List.mem_of_mem_eraseIdx hx)
      · intro c hc
        rcases hs c hc with ⟨x, hx, hxe⟩ | h
        · rcases List.mem_append.1 hx with hx | hx
          · by_cases hex : x = e
            · subst hex
              rw [← hxe]
              exact Or.inr h4
            · refine Or.inl ⟨x, List.mem_append_left _ ?_, hxe⟩
              obtain ⟨j, hj⟩ := List.mem_iff_getElem?.1 hx
              rw [List.mem_eraseIdx_iff_getElem?]
              refine ⟨j, ?_, hj⟩
              rintro rfl
              rw [hi] at hj
              injection hj with hj
              exact hex hj.symm
          · exact Or.inl ⟨x, List.mem_append_right _ hx, hxe⟩
        · exact Or.inr (moved_seen h3 h)
  | finish =>
    simp only [BlockPipe.step, arrivals, List.append_nil]
    split
    · rename_i h0
      refine ⟨_, rfl, fun e he => I.queued e (List.mem_of_mem_drop he), I.work, I.quiet, ⟨k, A, ?_⟩, Nat.zero_le _,
        fun e he => I.known e (List.mem_of_mem_drop he), fun _ => h0⟩
      intro c hc
      simpa using hs c hc
    · exact ⟨p, rfl, I⟩
  | orphan =>
    simp only [BlockPipe.step, arrivals, List.append_nil]
    obtain ⟨w', r, k', h1, h2, h3⟩ := one_orphan P A fuel
    refine ⟨{ p with world := w' }, by simp only [h1], I.queued, I.work, I.quiet, ⟨k', h2.now, ?_⟩, I.batch, I.known, I.idle⟩
    intro c hc
    rcases hs c hc with h | h
    · exact Or.inl h
    · exact Or.inr (moved_seen h2 h)

private theorem arrivals_append : ∀ (a b : List PipeStep), arrivals (a ++ b) = arrivals a ++ arrivals b
  | [], _ => rfl
  | .arrive _ x :: l, b => by rw [List.cons_append, arrivals, arrivals_append l b]; rfl
  | .start :: l, b => by simpa [arrivals] using arrivals_append l b
  | .task _ :: l, b => by simpa [arrivals] using arrivals_append l b
  | .finish :: l, b => by simpa [arrivals] using arrivals_append l b
  | .orphan :: l, b => by simpa [arrivals] using arrivals_append l b

private theorem pipe_run (P : Ahead R w0 bs s') (fuel : Nat) (hfuel : bs.length + 1 ≤ fuel) :
    ∀ (es : List PipeStep) (seen : List Block) (p : BlockPipe S), PipeAt R w0 bs seen p →
      (∀ b ∈ arrivals es, b ∈ bs) → ∃ q, p.run R fuel es = some q ∧ PipeAt R w0 bs (seen ++ arrivals es) q := by
  intro es
  induction es with
  | nil => intro seen p I _; exact ⟨p, rfl, by simpa [arrivals] using I⟩
  | cons e es ih =>
    intro seen p I he
    have hsplit : arrivals (e :: es) = arrivals [e] ++ arrivals es := arrivals_append [e] es
    rw [hsplit] at he
    obtain ⟨q, h1, h2⟩ := pipe_step P fuel hfuel I e fun b hb => he b (List.mem_append_left _ hb)
    obtain ⟨r, h3, h4⟩ := ih _ q h2 fun b hb => he b (List.mem_append_right _ hb)
    refine ⟨r, ?_, ?_⟩
    · rw [BlockPipe.run, h1]; exact h3
    · rw [hsplit, ← List.append_assoc]; exact h4

private theorem at_start (P : Ahead R w0 bs s') : AtK R w0 bs 0 w0 :=
  ⟨Nat.zero_le _, rfl, rfl, by simp, by simp [Pure.pure], fun _ b hb _ => P.unseen b (List.mem_of_getElem? hb), P.waiting⟩

/-- `n` rounds of the thread for waiting blocks when all blocks have been seen. -/
private theorem orphan_rounds (P : Ahead R w0 bs s') (fuel : Nat) : ∀ (n k : Nat) (p : BlockPipe S),
    AtK R w0 bs k p.world → (∀ b ∈ bs, b ∈ p.world.orphans ∨ ∃ i, i < k ∧ bs[i]? = some b) → bs.length ≤ k + n →
    ∃ q, p.run R fuel (List.replicate n .orphan) = some q ∧ AtK R w0 bs bs.length q.world ∧ q.banned = p.banned := by
  intro n
  induction n with
  | zero =>
    intro k p A _ hn
    have : k = bs.length := by have := A.le; omega
    subst this
    exact ⟨p, rfl, A, rfl⟩
  | succ n ih =>
    intro k p A hs hn
    obtain ⟨w', r, k', h1, h2, h3⟩ := one_orphan P A fuel
    have hk' : bs.length ≤ k' + n := by
      by_cases hk : k < bs.length
      · have hb := List.getElem?_eq_getElem hk
        rcases hs _ (List.getElem_mem hk) with h | ⟨i, hi, hi2⟩
        · have := h3 _ hb h
          omega
        · have := idx_of_hash P hb hi2 rfl
          omega
      · have := h2.le; omega
    obtain ⟨q, q1, q2, q3⟩ := ih k' { p with world := w' } h2.now (fun b hb => moved_seen h2 (hs b hb)) hk'
    refine ⟨q, ?_, q2, q3⟩
    rw [List.replicate_succ, BlockPipe.run]
    simp only [BlockPipe.step, h1]
    exact q1

/-- **C99.**  The blocks `bs` that lead from the confirmed chain to the header chain arrive in any order, from any peers, as often as they like;
up to eight are processed at once, the threads in any order, and the thread for waiting blocks runs at any time.  Nothing stops and nobody is
banned; once all have arrived and the queue is empty, the confirmed chain is the header chain after at most `bs.length` further rounds of the
thread for waiting blocks. -/
theorem any_order_converges (R : Rules S) (w : World S) (bs : List Block) (s' : S) (P : Ahead R w bs s') (fuel : Nat)
    (hfuel : bs.length + 1 ≤ fuel) (es : List PipeStep) (he : ∀ b ∈ arrivals es, b ∈ bs) :
    ∃ p, BlockPipe.run R fuel ⟨[], 0, [], w, []⟩ es = some p ∧ p.banned = [] ∧
      ((∀ b ∈ bs, b ∈ arrivals es) → p.queue = [] →
        ∃ q, p.run R fuel (List.replicate bs.length .orphan) = some q ∧ q.world.confirmed = w.candidate ∧
          q.world.candidate = w.candidate ∧ q.world.ledger = s' ∧ q.banned = []) := by
  have I0 : PipeAt R w bs [] ⟨[], 0, [], w, []⟩ :=
    ⟨by simp, by simp, rfl, ⟨0, at_start P, by simp⟩, Nat.le_refl _, by simp, fun _ => rfl⟩
  obtain ⟨p, h1, I⟩ := pipe_run P fuel hfuel es [] _ I0 he
  refine ⟨p, h1, I.quiet, fun hall hq => ?_⟩
  obtain ⟨k, A, hs⟩ := I.world
  have hseen : ∀ b ∈ bs, b ∈ p.world.orphans ∨ ∃ i, i < k ∧ bs[i]? = some b := by
    intro b hb
    rcases hs b (by simpa using hall b hb) with ⟨e, hin, _⟩ | h
    · have hb0 : p.batch = 0 := by have := I.batch; rw [hq] at this; exact Nat.le_zero.1 this
      rw [I.idle hb0, hq] at hin
      simp at hin
    · exact h
  obtain ⟨q, q1, q2, q3⟩ := orphan_rounds P fuel bs.length k p A hseen (by omega)
  refine ⟨q, q1, ?_, q2.candidate, ?_, q3.trans I.quiet⟩
  · rw [q2.confirmed, List.take_length, P.candidate]; rfl
  · have h := q2.ledger
    rw [List.take_length, P.applies] at h
    injection h with h
    exact h.symm

private theorem task_keeps {p q : BlockPipe S} {fuel i : Nat} (h : p.step R fuel (.task i) = some q) :
    q.todo = p.todo.eraseIdx i ∧ q.queue = p.queue ∧ q.batch = p.batch := by
  simp only [BlockPipe.step] at h
  cases hi : p.todo[i]? with
  | none =>
    rw [hi] at h
    injection h with h
    subst h
    refine ⟨?_, rfl, rfl⟩
    rw [List.eraseIdx_of_length_le (List.getElem?_eq_none_iff.1 hi)]
  | some e =>
    rw [hi] at h
    simp only [BlockPipe.processNew] at h
    split at h
    · cases h
    · injection h with h; subst h; exact ⟨rfl, rfl, rfl⟩
    · injection h with h; subst h; exact ⟨rfl, rfl, rfl⟩

private theorem run_cat (fuel : Nat) : ∀ (a b : List PipeStep) (p q : BlockPipe S), p.run R fuel a = some q →
    p.run R fuel (a ++ b) = q.run R fuel b := by
  intro a
  induction a with
  | nil => intro b p q h; rw [BlockPipe.run] at h; injection h with h; subst h; rfl
  | cons e a ih =>
    intro b p q h
    rw [BlockPipe.run] at h
    rw [List.cons_append, BlockPipe.run]
    split at h
    · cases h
    · rename_i r hr
      exact ih b r q h

private theorem tasks_done (P : Ahead R w0 bs s') (fuel : Nat) (hfuel : bs.length + 1 ≤ fuel) {seen : List Block} :
    ∀ (n : Nat) (p : BlockPipe S), PipeAt R w0 bs seen p → p.todo.length ≤ n →
      ∃ q, p.run R fuel (List.replicate n (.task 0)) = some q ∧ PipeAt R w0 bs seen q ∧ q.todo = [] ∧
        q.queue = p.queue ∧ q.batch = p.batch := by
  intro n
  induction n with
  | zero => intro p I h; exact ⟨p, rfl, I, List.length_eq_zero_iff.1 (Nat.le_zero.1 h), rfl, rfl⟩
  | succ n ih =>
    intro p I h
    obtain ⟨q, h1, h2⟩ := pipe_step P fuel hfuel I (.task 0) (by simp [arrivals])
    simp only [arrivals, List.append_nil] at h2
    obtain ⟨t1, t2, t3⟩ := task_keeps h1
    obtain ⟨r, r1, r2, r3, r4, r5⟩ := ih q h2 (by rw [t1, List.length_eraseIdx]; split <;> omega)
    refine ⟨r, ?_, r2, r3, r4.trans t2, r5.trans t3⟩
    rw [List.replicate_succ, BlockPipe.run, h1]
    exact r1

/-- One round of the thread that takes blocks. -/
def pipeRound : List PipeStep := .start :: List.replicate 8 (.task 0) ++ [.finish]

private theorem round_done (P : Ahead R w0 bs s') (fuel : Nat) (hfuel : bs.length + 1 ≤ fuel) {seen : List Block}
    (p : BlockPipe S) (I : PipeAt R w0 bs seen p) (h0 : p.batch = 0) :
    ∃ q, p.run R fuel pipeRound = some q ∧ PipeAt R w0 bs seen q ∧ q.batch = 0 ∧ q.queue = p.queue.drop 8 := by
  obtain ⟨q, h1, I1⟩ := pipe_step P fuel hfuel I .start (by simp [arrivals])
  simp only [arrivals, List.append_nil] at I1
  have hq : q = { p with batch := (copyFront p.queue 8).length, todo := copyFront p.queue 8 } := by
    simp only [BlockPipe.step, if_pos h0] at h1
    injection h1 with h1
    exact h1.symm
  obtain ⟨r, r1, r2, r3, r4, r5⟩ := tasks_done P fuel hfuel 8 q I1 (by rw [hq]; simp [copyFront])
  obtain ⟨t, t1, t2⟩ := pipe_step P fuel hfuel r2 .finish (by simp [arrivals])
  simp only [arrivals, List.append_nil] at t2
  have ht : t = { r with queue := r.queue.drop r.batch, batch := 0 } := by
    simp only [BlockPipe.step, if_pos r3] at t1
    injection t1 with t1
    exact t1.symm
  refine ⟨t, ?_, t2, by rw [ht], ?_⟩
  · unfold pipeRound
    rw [List.cons_append, BlockPipe.run, h1]
    simp only
    rw [run_cat fuel _ _ _ _ r1, BlockPipe.run, t1]
    rfl
  · rw [ht]
    simp only
    rw [r4, r5, hq]
    simp only [copyFront]
    rw [if_neg (by decide), List.length_take]
    rcases Nat.le_total 8 p.queue.length with hl | hl
    · rw [Nat.min_eq_left hl]
    · rw [Nat.min_eq_right hl, List.drop_length, List.drop_of_length_le hl]

private theorem rounds_done (P : Ahead R w0 bs s') (fuel : Nat) (hfuel : bs.length + 1 ≤ fuel) {seen : List Block} :
    ∀ (n : Nat) (p : BlockPipe S), PipeAt R w0 bs seen p → p.batch = 0 → p.queue.length ≤ 8 * n →
    ∃ q, p.run R fuel (List.replicate n pipeRound).flatten = some q ∧ PipeAt R w0 bs seen q ∧ q.queue = [] := by
  intro n
  induction n with
  | zero => intro p I _ h; exact ⟨p, rfl, I, List.length_eq_zero_iff.1 (by omega)⟩
  | succ n ih =>
    intro p I h0 hl
    obtain ⟨q, q1, q2, q3, q4⟩ := round_done P fuel hfuel p I h0
    obtain ⟨r, r1, r2, r3⟩ := ih q q2 q3 (by rw [q4, List.length_drop]; omega)
    refine ⟨r, ?_, r2, r3⟩
    rw [List.replicate_succ, List.flatten_cons, run_cat fuel _ _ _ _ q1]
    exact r1

/-- **C99, no standstill.**  Whenever all the blocks have arrived and no round is under way, as many rounds as the queue needs (eight blocks a
round) and `bs.length` rounds for waiting blocks bring the confirmed chain to the header chain. -/
theorem rounds_converge (R : Rules S) (w : World S) (bs : List Block) (s' : S) (P : Ahead R w bs s') (fuel : Nat)
    (hfuel : bs.length + 1 ≤ fuel) (es : List PipeStep) (he : ∀ b, b ∈ arrivals es ↔ b ∈ bs) :
    ∃ p, BlockPipe.run R fuel ⟨[], 0, [], w, []⟩ es = some p ∧ (p.batch = 0 → ∀ n, p.queue.length ≤ 8 * n →
      ∃ q, p.run R fuel ((List.replicate n pipeRound).flatten ++ List.replicate bs.length .orphan) = some q ∧
        q.world.confirmed = w.candidate ∧ q.world.ledger = s' ∧ q.banned = []) := by
  have I0 : PipeAt R w bs [] ⟨[], 0, [], w, []⟩ :=
    ⟨by simp, by simp, rfl, ⟨0, at_start P, by simp⟩, Nat.le_refl _, by simp, fun _ => rfl⟩
  obtain ⟨p, h1, I⟩ := pipe_run P fuel hfuel es [] _ I0 fun b hb => (he b).1 hb
  refine ⟨p, h1, fun h0 n hn => ?_⟩
  obtain ⟨r, r1, _, _⟩ := rounds_done P fuel hfuel n p I h0 hn
  have hr2 : BlockPipe.run R fuel ⟨[], 0, [], w, []⟩ (es ++ (List.replicate n pipeRound).flatten) = some r := by
    rw [run_cat fuel _ _ _ _ h1]; exact r1
  have hround : arrivals pipeRound = [] := rfl
  have hrounds : ∀ n, arrivals (List.replicate n pipeRound).flatten = [] := by
    intro n
    induction n with
    | zero => rfl
    | succ n ih => rw [List.replicate_succ, List.flatten_cons, arrivals_append, ih, hround]; rfl
  have harr : arrivals (es ++ (List.replicate n pipeRound).flatten) = arrivals es := by
    rw [arrivals_append, hrounds, List.append_nil]
  obtain ⟨p', p1, p2, p3⟩ := any_order_converges R w bs s' P fuel hfuel (es ++ (List.replicate n pipeRound).flatten)
    (by rw [harr]; exact fun b hb => (he b).1 hb)
  rw [hr2] at p1
  injection p1 with p1
  subst p1
  obtain ⟨_, _, hq⟩ : ∃ q, p.run R fuel (List.replicate n pipeRound).flatten = some q ∧ r.queue = [] := by
    obtain ⟨r', x1, _, x3⟩ := rounds_done P fuel hfuel n p I h0 hn
    rw [r1] at x1
    injection x1 with x1
    subst x1
    exact ⟨_, r1, x3⟩
  obtain ⟨q, q1, q2, _, q4, q5⟩ := p3 (by rw [harr]; exact fun b hb => (he b).2 hb) hq
  refine ⟨q, ?_, q2, q4, q5⟩
  rw [run_cat fuel _ _ _ _ r1]
  exact q1

end

/-! ### A case, and what one bad block does -/

private def cHdr (height td : Nat) (prev hash : Bytes) : Header :=
  ⟨1, height, 0, prev, [], [], [], [], [], 0, 0, td, 0, 0, ⟨31, [], hash⟩⟩
private def cBlk (n : Nat) : Block := ⟨cHdr n (10 * n + 1) [UInt8.ofNat (n + 99)] [UInt8.ofNat (n + 100)], ⟨[], [], []⟩⟩
/-- The block at height 2 with another output root: same hash, since only the nonces are hashed. -/
private def cBad : Block := ⟨{ (cBlk 2).header with outputRoot := [66] }, ⟨[], [], []⟩⟩
/-- The output set counts the blocks and refuses another output root. -/
private def cRules : Rules Nat :=
  ⟨fun _ _ _ _ => .ok (), fun _ => .ok (), fun s b => if b.header.outputRoot = [] then .ok (s + 1) else .throw,
    fun s _ => .ok s, fun _ => false, fun _ => 0⟩
private def cNode : World Nat :=
  ⟨fun x => (([0, 1, 2, 3].map cBlk).find? (fun b => hashOf b.header = x)).map (·.header), fun _ => none,
    [hashOf (cBlk 0).header], [0, 1, 2, 3].map (fun n => hashOf (cBlk n).header), [], [], [], 0⟩

example : Ahead cRules cNode [cBlk 1, cBlk 2, cBlk 3] 3 where
  known := by decide +kernel
  candidate := by decide +kernel
  distinct := by decide +kernel
  tip := ⟨(cBlk 0).header, by decide +kernel, by decide +kernel, by
    intro b hb
    injection hb with hb
    subst hb
    decide +kernel, rfl⟩
  linked := by
    intro i p c hp hc
    match i with
    | 0 => injection hp with hp; injection hc with hc; subst hp hc; decide +kernel
    | 1 => injection hp with hp; injection hc with hc; subst hp hc; decide +kernel
    | n + 2 => simp at hc
  heights := by
    intro i b hb
    match i with
    | 0 => injection hb with hb; subst hb; decide +kernel
    | 1 => injection hb with hb; subst hb; decide +kernel
    | 2 => injection hb with hb; subst hb; decide +kernel
    | n + 3 => simp at hb
  small := by decide
  horizon := by decide +kernel
  bodies := fun _ _ => rfl
  applies := by decide +kernel
  still := fun _ _ _ _ _ => rfl
  unseen := fun _ _ => rfl
  waiting := by intro o ho; cases ho

/-- Last block first, the middle one twice, the threads in odd order. -/
example : ((BlockPipe.run cRules 4 ⟨[], 0, [], cNode, []⟩ [.arrive 5 (cBlk 3), .start, .arrive 6 (cBlk 2), .task 0, .finish,
      .arrive 7 (cBlk 2), .arrive 7 (cBlk 1), .start, .task 1, .orphan, .task 0, .finish, .orphan, .orphan]).map
    fun p => (p.world.confirmed, p.world.ledger, p.banned, p.queue.length, p.world.orphans.length)) =
    some (cNode.candidate, 3, [], 0, 0) := by decide +kernel

/-- **C99 violated, the wrong peer is banned.**  Peer 1 sends a block with a false body for height 2 before the block at height 1 is there; it
waits.  Peer 2 sends the true blocks 1 and 3.  Block 3 connects through the waiting false one, which is refused: peer 2 is banned, peer 1 is
not, neither then nor when the waiting block is thrown away. -/
theorem wrong_peer_banned_violated :
    ((BlockPipe.run cRules 4 ⟨[], 0, [], cNode, []⟩ [.arrive 1 cBad, .arrive 2 (cBlk 1), .arrive 2 (cBlk 3), .start,
        .task 0, .task 0, .task 0, .finish, .orphan, .orphan]).map
      fun p => (p.banned, p.world.confirmed.length, p.world.orphans.length)) = some ([2], 2, 0) := by decide +kernel

end Verif.Props
