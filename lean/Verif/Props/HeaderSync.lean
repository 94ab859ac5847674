import Verif.Chain.SyncLemmas
import Verif.Props.Locator
import Verif.P2P.HeaderSync

/-!
# C78: synchronising headers with a peer

One round: the node sends its locators, the peer answers with headers, the node processes them
(HeaderSyncer.cpp:84-111, MessageProcessor.cpp:168-180 and 209-223).
-/
namespace Verif.Props
open Verif.BC Verif.P2P
variable {S : Type}

/-- One request of headers from a peer and the processing of its answer. -/
def syncRound (R : Rules S) (peer w : World S) : World S × Res Status :=
  match getLocators w (w.candidate.length - 1) with
  | .ok ls => w.processHeaders R (locateHeaders peer ls)
  | .throw => (w, .throw)
  | .ub => (w, .ub)

/-- The node after a number of rounds. -/
def syncRounds (R : Rules S) (peer : World S) : Nat → World S → World S
  | 0, w => w
  | n + 1, w => syncRounds R peer n (syncRound R peer w).1

/-- The peer has the chain `c` and no other headers. -/
def HasOnly (w : World S) (c : List Header) : Prop :=
  HasChain w c ∧ ∀ x, x ∉ c.map hashOf → w.headers x = none

/-! ## The answer of the peer -/

private theorem candidate_at {w : World S} {c : List Header} (hw : HasChain w c) {i : Nat} {h : Header}
    (hi : c[i]? = some h) : candidateHeader w i = some h := by
  unfold candidateHeader
  rw [hw.cand, List.getElem?_map, hi]
  exact hw.db h (List.mem_of_getElem? hi)

private theorem locators_eq {w : World S} {c : List Header} (hw : HasChain w c) : ∀ (l : List Nat),
    (∀ i ∈ l, i < c.length) →
    (l.filterMap fun i => (candidateHeader w i).map hashOf) = l.filterMap fun i => (c[i]?).map hashOf := by
  intro l hl
  apply List.filterMap_congr
  intro i hi
  rw [candidate_at hw (List.getElem?_eq_getElem (hl i hi)), List.getElem?_eq_getElem (hl i hi)]

private theorem common_eq {peer : World S} {m t : List Header} {d : Nat} (f : Fork m t d) (hp : HasOnly peer t) :
    ∀ (l : List Nat), (∀ i ∈ l, i < m.length) → l.Pairwise (· > ·) → (∃ i ∈ l, i ≤ d) →
      ∃ x h, x ∈ l ∧ x ≤ d ∧ t[x]? = some h ∧ findCommon peer (l.filterMap fun i => (m[i]?).map hashOf) = some h ∧
        ∀ y ∈ l, y ≤ d → y ≤ x := by
  intro l
  induction l with
  | nil => rintro _ _ ⟨i, hi, _⟩; simp at hi
  | cons a l ih =>
    intro hlt hs hex
    have ha := hlt a (by simp)
    have hga : m[a]? = some m[a] := List.getElem?_eq_getElem ha
    rw [List.pairwise_cons] at hs
    have hfm : ((a :: l).filterMap fun i => (m[i]?).map hashOf) =
        hashOf m[a] :: l.filterMap fun i => (m[i]?).map hashOf := by
      rw [List.filterMap_cons_some (b := hashOf m[a])]
      rw [hga]; rfl
    rw [hfm]
    unfold findCommon
    by_cases had : a ≤ d
    · have hta : t[a]? = some m[a] := by rw [← f.same had]; exact hga
      refine ⟨a, m[a], by simp, had, hta, ?_, ?_⟩
      · rw [hp.1.db _ (List.mem_of_getElem? hta)]
      · intro y hy _
        rw [List.mem_cons] at hy
        rcases hy with rfl | hy
        · exact Nat.le_refl _
        · exact Nat.le_of_lt (hs.1 y hy)
    · rw [hp.2 _ (f.foreign (by omega) hga)]
      obtain ⟨x, h, x1, x2, x3, x4, x5⟩ := ih (fun i hi => hlt i (by simp [hi])) hs.2 (by
        obtain ⟨i, hi, hid⟩ := hex
        rw [List.mem_cons] at hi
        rcases hi with rfl | hi
        · exact absurd hid had
        · exact ⟨i, hi, hid⟩)
      refine ⟨x, h, by simp [x1], x2, x3, x4, ?_⟩
      intro y hy hyd
      rw [List.mem_cons] at hy
      rcases hy with rfl | hy
      · exact absurd hyd had
      · exact x5 y hy hyd

private theorem collect_eq {w : World S} {c : List Header} (hw : HasChain w c) : ∀ (n k : Nat), k + n ≤ c.length →
    collectHeaders w n k = (c.drop k).take n := by
  intro n
  induction n with
  | zero => intro k _; simp [collectHeaders]
  | succ n ih =>
    intro k hk
    unfold collectHeaders
    rw [candidate_at hw (List.getElem?_eq_getElem (show k < c.length by omega))]
    simp only
    rw [ih (k + 1) (by omega), List.drop_eq_getElem_cons (show k < c.length by omega), List.take_succ_cons]

/-- The answer to the node's locators: the peer's headers after a height `x` the chains share, not more than twice as far
back as the fork. -/
theorem round_eq (R : Rules S) {peer w : World S} {m t : List Header} {d : Nat} (f : Fork m t d) (hw : HasChain w m)
    (hp : HasOnly peer t) (ht : t.length < 2 ^ 64) :
    ∃ x, x ≤ d ∧ (m.length - 1 - d ≤ 524286 → m.length - 1 - x ≤ 2 * (m.length - 1 - d)) ∧
      syncRound R peer w = w.processHeaders R ((t.drop (x + 1)).take (min (t.length - (x + 1)) 512)) := by
  obtain ⟨b1, b2, b3⟩ := f.below
  obtain ⟨l, l1, l2, l3, l4, l5, l6⟩ := locator_heights (m.length - 1)
  have hlt : ∀ i ∈ l, i < m.length := by
    intro i hi
    cases l with
    | nil => simp at hi
    | cons a r =>
      simp only [List.head?_cons, Option.some.injEq] at l3
      rw [List.pairwise_cons] at l2
      rw [List.mem_cons] at hi
      rcases hi with rfl | hi
      · omega
      · have : i < a := l2.1 i hi
        omega
  have h0 : (0 : Nat) ∈ l := List.mem_of_getLast? l4
  obtain ⟨x, h, x1, x2, x3, x4, x5⟩ := common_eq f hp l hlt l2 ⟨0, h0, by omega⟩
  refine ⟨x, x2, ?_, ?_⟩
  · intro hdeep
    obtain ⟨y, y1, y2, y3⟩ := l6 d (by omega) hdeep
    have := x5 y y1 y2
    omega
  · have hx : x < t.length := by omega
    have hh := f.other.height x h x3
    unfold syncRound getLocators
    rw [hw.cand, List.length_map, l1, Res.ok_bind]
    simp only
    rw [locators_eq hw l hlt]
    unfold locateHeaders
    rw [x4]
    simp only
    rw [hp.1.cand, List.length_map, hh,
      show t.length - 1 + 2 ^ 64 - x = t.length - (x + 1) + 2 ^ 64 by omega, Nat.add_mod_right, Nat.mod_eq_of_lt (by omega)]
    unfold maxBlockHeaders
    rw [collect_eq hp.1 _ _ (by have := Nat.min_le_left (t.length - (x + 1)) 512; omega)]

/-! ## Processing the answer -/

private theorem chunk_split (t : List Header) (k n : Nat) : ((t.drop k).take n).take 128 = (t.drop k).take (min 128 n) ∧
    ((t.drop k).take n).drop 128 = (t.drop (k + 128)).take (n - 128) := by
  constructor
  · rw [List.take_take]
  · rw [List.drop_take, List.drop_drop]

private theorem chunks_nil (R : Rules S) (fuel : Nat) (w : World S) : World.processChunks R fuel w [] = (w, .ok .success) := by
  unfold World.processChunks
  rfl

private theorem chunks_cons (R : Rules S) (fuel : Nat) (w : World S) (hs : List Header) (h : hs ≠ []) :
    World.processChunks R (fuel + 1) w hs = match w.processChunk R (hs.take 128) with
      | (w', .ok .success) => World.processChunks R fuel w' (hs.drop 128)
      | (w', .ok .alreadyExists) => World.processChunks R fuel w' (hs.drop 128)
      | r => r := by
  cases hs with
  | nil => exact absurd rfl h
  | cons a l => rfl

/-- The chunks carry the node along when the first has more work than its tip. -/
private theorem chunks_extend {R : Rules S} {t : List Header} (hp : Passes R t) : ∀ (fuel n k d : Nat) (m : List Header)
    (w : World S) (tip : Header), n ≤ fuel → Fork m t d → HasChain w m → m.getLast? = some tip → 1 ≤ k → k ≤ d + 1 →
    k + n ≤ t.length → 0 < n → d + 1 < k + min 128 n →
    (∀ last, t[k + min 128 n - 1]? = some last → tip.totalDifficulty < last.totalDifficulty) →
    ∃ w', World.processChunks R fuel w ((t.drop k).take n) = (w', .ok .success) ∧ HasChain w' (t.take (k + n)) := by
  intro fuel
  induction fuel with
  | zero => intro n k d m w tip h1 _ _ _ _ _ _ h2; omega
  | succ fuel ih =>
    intro n k d m w tip hf f hw htip h1 hk hlen hn hd hwk
    have hne : (t.drop k).take n ≠ [] := by
      intro he
      have := congrArg List.length he
      simp at this
      omega
    rw [chunks_cons R fuel w _ hne, (chunk_split t k n).1, (chunk_split t k n).2]
    have hn1 : 0 < min 128 n := by omega
    have hle : min 128 n ≤ n := Nat.min_le_right _ _
    have hlast : t[k + min 128 n - 1]? = some t[k + min 128 n - 1] := List.getElem?_eq_getElem (by omega)
    obtain ⟨w1, a1, a2, -⟩ := (chunk_theirs f hw hp (min 128 n) k tip htip hn1 h1 hk (by omega)).2 hd _ hlast
    have hc := a2 (hwk _ hlast)
    rw [a1]
    simp only
    by_cases hr : n ≤ 128
    · rw [show n - 128 = 0 by omega, List.take_zero, chunks_nil]
      rw [show min 128 n = n by omega] at hc
      exact ⟨w1, rfl, hc⟩
    · have hm : min 128 n = 128 := by omega
      rw [hm] at hc
      have f' := f.adopted (e := k + 127) (by omega)
      rw [show k + 127 + 1 = k + 128 by omega] at f'
      have htip' : (t.take (k + 128)).getLast? = some t[k + 127] := by
        rw [List.getLast?_eq_getElem?, List.length_take, List.getElem?_take, if_pos (by omega),
          show min (k + 128) t.length - 1 = k + 127 by omega]
        exact List.getElem?_eq_getElem (by omega)
      obtain ⟨w2, b1, b2⟩ := ih (n - 128) (k + 128) (k + 127) _ w1 t[k + 127] (by omega) f' hc htip' (by omega) (by omega)
        (by omega) (by omega) (by omega) (by
          intro last hl
          have h2 : t[k + 128]? = some t[k + 128] := List.getElem?_eq_getElem (by omega)
          have hpos : 1 ≤ min 128 (n - 128) := by omega
          have g1 := f.other.work (k + 127) _ _ (List.getElem?_eq_getElem (show k + 127 < t.length by omega)) h2
          have g2 := f.other.mono (min 128 (n - 128) - 1) (k + 128) _ last h2
            (Eq.trans (congrArg (fun i => t[i]?) (Nat.add_sub_assoc hpos (k + 128)).symm) hl)
          omega)
      exact ⟨w2, b1, by rwa [show k + 128 + (n - 128) = k + n by omega] at b2⟩

/-- The chunks leave the node where it is when the peer's first 128 headers above the fork have no more work than it. -/
private theorem chunks_stuck {R : Rules S} {t : List Header} (hp : Passes R t) {m : List Header} {d : Nat}
    (f : Fork m t d) (tip : Header) (htip : m.getLast? = some tip)
    (hlow : ∀ i b, i ≤ d + 128 → t[i]? = some b → b.totalDifficulty ≤ tip.totalDifficulty) :
    ∀ (fuel n k : Nat) (w : World S), HasChain w m → 1 ≤ k → k ≤ d + 1 → k + n ≤ t.length →
      HasChain (World.processChunks R fuel w ((t.drop k).take n)).1 m := by
  intro fuel
  induction fuel with
  | zero =>
    intro n k w hw _ _ _
    cases (t.drop k).take n <;> exact hw
  | succ fuel ih =>
    intro n k w hw h1 hk hlen
    by_cases hn : n = 0
    · subst hn; rw [List.take_zero, chunks_nil]; exact hw
    have hne : (t.drop k).take n ≠ [] := by
      intro he
      have := congrArg List.length he
      simp at this
      omega
    rw [chunks_cons R fuel w _ hne, (chunk_split t k n).1, (chunk_split t k n).2]
    have hle : min 128 n ≤ n := Nat.min_le_right _ _
    have hc := chunk_theirs f hw hp (min 128 n) k tip htip (by omega) h1 hk (by omega)
    by_cases hq : k + min 128 n ≤ d + 1
    · rw [hc.1 hq]
      simp only
      by_cases hr : n ≤ 128
      · rw [show n - 128 = 0 by omega, List.take_zero, chunks_nil]; exact hw
      · exact ih (n - 128) (k + 128) w hw (by omega) (by omega) (by omega)
    · have hlast : t[k + min 128 n - 1]? = some t[k + min 128 n - 1] := List.getElem?_eq_getElem (by omega)
      obtain ⟨w1, a1, -, a3⟩ := hc.2 (by omega) _ hlast
      have hw1 := a3 (hlow _ _ (by omega) hlast)
      rw [a1]
      simp only
      by_cases hr : n ≤ 128
      · rw [show n - 128 = 0 by omega, List.take_zero, chunks_nil]; exact hw1
      · cases fuel with
        | zero => cases (t.drop (k + 128)).take (n - 128) <;> exact hw1
        | succ fuel =>
          have hne2 : (t.drop (k + 128)).take (n - 128) ≠ [] := by
            intro he
            have := congrArg List.length he
            simp at this
            omega
          rw [chunks_cons R fuel w1 _ hne2, (chunk_split t (k + 128) (n - 128)).1]
          have hd : (t.drop (k + 128)).take (min 128 (n - 128)) =
              t[k + 128] :: (t.drop (k + 128 + 1)).take (min 128 (n - 128) - 1) := by
            obtain ⟨n', hn'⟩ : ∃ n', min 128 (n - 128) = n' + 1 := ⟨min 128 (n - 128) - 1, by omega⟩
            rw [hn', List.drop_eq_getElem_cons (by omega), List.take_succ_cons]; rfl
          have hg : t[k + 128]? = some t[k + 128] := List.getElem?_eq_getElem (by omega)
          have hg' : t[k + 127]? = some t[k + 127] := List.getElem?_eq_getElem (by omega)
          have ho : onChain w1.candidate (t[k + 128].height - 1) t[k + 128].prevHash = false := by
            rw [f.other.height _ _ hg, f.other.linked (k + 127) _ _ hg' hg, show k + 128 - 1 = k + 127 by omega,
              onChain_theirs f hw1 hg']
            simp; omega
          have hthrow : w1.processChunk R ((t.drop (k + 128)).take (min 128 (n - 128))) = (w1, .throw) := by
            rw [hd]
            unfold World.processChunk
            simp only [ho, Bool.not_false, if_true]
          rw [hthrow]
          exact hw1

private theorem consecutive_of (t : List Header) (hc : Proper t) : ∀ (n k : Nat), consecutive ((t.drop k).take n) = true := by
  intro n
  induction n with
  | zero => intro k; simp [consecutive]
  | succ n ih =>
    intro k
    by_cases hk : k < t.length
    · rw [List.drop_eq_getElem_cons hk, List.take_succ_cons]
      have h2 := ih (k + 1)
      cases n with
      | zero => simp [consecutive]
      | succ n =>
        by_cases hk1 : k + 1 < t.length
        · rw [List.drop_eq_getElem_cons hk1, List.take_succ_cons] at h2 ⊢
          unfold consecutive
          rw [h2, hc.height _ _ (List.getElem?_eq_getElem hk1), hc.height _ _ (List.getElem?_eq_getElem hk)]
          simp
        · rw [List.drop_eq_nil_of_le (by omega)]
          simp [consecutive]
    · rw [List.drop_eq_nil_of_le (by omega)]; simp [consecutive]

private theorem headers_eq (R : Rules S) (w : World S) {t : List Header} (hc : Proper t) (hb : ∀ h ∈ t, R.bad (hashOf h) = false)
    (n x : Nat) (hn : 0 < n) (hlen : x + 1 + n ≤ t.length) :
    w.processHeaders R ((t.drop (x + 1)).take n) = World.processChunks R n w ((t.drop (x + 1)).take n) := by
  have hg : t[x + 1]? = some t[x + 1] := List.getElem?_eq_getElem (by omega)
  have hbad : ((t.drop (x + 1)).take n).any (fun h => R.bad (hashOf h)) = false := by
    rw [List.any_eq_false]
    intro h hh
    rw [hb h (List.mem_of_mem_drop (List.mem_of_mem_take hh))]
    simp
  have hco := consecutive_of t hc n (x + 1)
  have hl : ((t.drop (x + 1)).take n).length = n := by simp; omega
  have hd : (t.drop (x + 1)).take n = t[x + 1] :: (t.drop (x + 1 + 1)).take (n - 1) := by
    obtain ⟨n', rfl⟩ : ∃ n', n = n' + 1 := ⟨n - 1, by omega⟩
    rw [List.drop_eq_getElem_cons (by omega), List.take_succ_cons]; rfl
  rw [hd] at hbad hco hl ⊢
  unfold World.processHeaders
  simp only [hbad, hco, Bool.false_eq_true, if_false, Bool.not_true, hl]
  rw [if_neg (by rw [hc.height _ _ hg]; omega)]

/-! ## C78 -/

/-- A node started from the genesis block has, after any events, a chain of headers as the theorems below ask for: its
header MMR is its candidate chain, in the database, linked and with growing work. -/
theorem reachable_chain (env : PoW.Env) (henv : env ≠ .testing) (R : Rules S) (hR : ChecksHeaders env R)
    (U : Header → Prop) (hU : ∀ h h', U h → U h' → h.pow.hash = h'.pow.hash → h = h')
    (hu : ∀ h, U h → h.height + 1 < 2 ^ 64) (g : Block) (hg : U g.header) (h0 : g.header.height = 0) (s : S)
    (fuel : Nat) (es : List Event) (hes : ∀ e ∈ es, Sendable U e) (w : World S)
    (h1 : run R fuel (freshNode g s) es = some w) : HasChain w w.mmr ∧ Proper w.mmr := by
  have hU' : OneHash U := hU
  have s1 := run_step hU' (rules_sound_of_checks env henv hR hu) fuel es _ _ (fresh_inv g s hg h0)
    (fun e he => sendable_proper (hes e he)) h1
  obtain ⟨c1, c2, c3, c4, -⟩ := candidate_chain_partial env henv R hR U hU hu g hg h0 s fuel es [] (by simpa using hes)
    w w h1 (by simpa using h1)
  refine ⟨⟨?_, rfl, ?_⟩, ?_, ?_, ?_⟩
  · apply List.ext_getElem?
    intro i
    rw [List.getElem?_map]
    cases hm : w.mmr[i]? with
    | none =>
      rw [List.getElem?_eq_none_iff] at hm
      exact List.getElem?_eq_none_iff.2 (by omega)
    | some h =>
      obtain ⟨x, x1, x2⟩ := (c2 i h).1 hm
      rw [x1, Option.map_some, (s1.inv.hdr x h x2).1]
  · intro h hh
    obtain ⟨i, hi⟩ := List.mem_iff_getElem?.1 hh
    obtain ⟨x, -, x2⟩ := (c2 i h).1 hi
    rw [(s1.inv.hdr x h x2).1]
    exact x2
  · intro i h hh; exact c3 i h ((c2 i h).1 hh)
  · intro i p h hp hh; exact c4 i p h ((c2 i p).1 hp) ((c2 (i + 1) h).1 hh)
  · intro i p h hp hh
    have hpr := c4 i p h ((c2 i p).1 hp) ((c2 (i + 1) h).1 hh)
    obtain ⟨x, -, x2⟩ := (c2 (i + 1) h).1 hh
    obtain ⟨y, -, y2⟩ := (c2 i p).1 hp
    rcases s1.inv.link x h x2 with h3 | ⟨q, q1, -, q3⟩
    · have := c3 (i + 1) h ((c2 (i + 1) h).1 hh); omega
    · rw [hpr] at q1
      have hy : hashOf p = y := (s1.inv.hdr y p y2).1
      rw [show p.pow.hash = y from hy, y2] at q1
      injection q1 with q1
      rw [q1]
      exact q3

/-- **C78.** A node whose chain leaves the peer's at height `d` asks the peer for headers again and again.  If the peer's
chain is valid and, 128 headers after the height twice as far back as the fork (or at its tip), has more work than the
node's, the node ends on the peer's chain: after some number of rounds its candidate chain is the peer's and stays so.

Partial: without the condition on the work 128 headers on, the node never gets there; see the violation below. -/
theorem header_sync_completes_partial (R : Rules S) (peer w : World S) (mine theirs : List Header) (d : Nat) (tip : Header)
    (f : Fork mine theirs d) (hw : HasChain w mine) (hp : HasOnly peer theirs) (hv : Passes R theirs)
    (hb : ∀ h ∈ theirs, R.bad h.pow.hash = false) (ht : theirs.length < 2 ^ 64) (hdeep : mine.length - 1 - d ≤ 524286)
    (htip : mine.getLast? = some tip)
    (hwork : ∀ h, theirs[min (2 * d - (mine.length - 1) + 128) (theirs.length - 1)]? = some h →
      tip.totalDifficulty < h.totalDifficulty) :
    ∃ N, ∀ n, N ≤ n → (syncRounds R peer n w).candidate = peer.candidate := by
  have stay : ∀ n w, HasChain w theirs → (syncRounds R peer n w).candidate = peer.candidate := by
    intro n
    induction n with
    | zero => intro w hw; exact hw.cand.trans hp.1.cand.symm
    | succ n ih =>
      intro w hw
      obtain ⟨b1, b2, b3⟩ := f.below
      have f' := f.adopted (e := theirs.length - 1) (by omega)
      rw [List.take_of_length_le (by omega)] at f'
      obtain ⟨x, x1, x2, x3⟩ := round_eq R f' hw hp ht
      have hx : x = theirs.length - 1 := by have := x2 (by omega); omega
      subst hx
      rw [show theirs.length - (theirs.length - 1 + 1) = 0 by omega] at x3
      rw [show min 0 512 = 0 by omega, List.take_zero] at x3
      unfold syncRounds
      rw [x3]
      exact ih w hw
  -- once the node is on the peer's chain it moves 512 headers a round
  have walk : ∀ g e w, theirs.length - e ≤ g → e < theirs.length → HasChain w (theirs.take (e + 1)) →
      ∃ N, HasChain (syncRounds R peer N w) theirs := by
    intro g
    induction g with
    | zero => intro e w h1 h2; omega
    | succ g ih =>
      intro e w h1 h2 hw
      by_cases he : e + 1 = theirs.length
      · exact ⟨0, by rwa [he, List.take_of_length_le (Nat.le_refl _)] at hw⟩
      · have f' := f.adopted (e := e) h2
        obtain ⟨x, x1, x2, x3⟩ := round_eq R f' hw hp ht
        have hl : (theirs.take (e + 1)).length = e + 1 := by rw [List.length_take]; omega
        have hx : x = e := by have := x2 (by rw [hl]; omega); rw [hl] at this; omega
        subst hx
        have hmin := Nat.min_le_left (theirs.length - (x + 1)) 512
        rw [headers_eq R w f.other hb _ _ (by omega) (by omega)] at x3
        have htip' : (theirs.take (x + 1)).getLast? = some theirs[x] := by
          rw [List.getLast?_eq_getElem?, hl, List.getElem?_take, if_pos (by omega)]
          exact List.getElem?_eq_getElem h2
        obtain ⟨w', a1, a2⟩ := chunks_extend hv (min (theirs.length - (x + 1)) 512) (min (theirs.length - (x + 1)) 512)
          (x + 1) x _ w theirs[x] (Nat.le_refl _) f' hw htip' (by omega) (by omega) (by omega) (by omega) (by omega) (by
            intro last hlst
            have h2' : theirs[x + 1]? = some theirs[x + 1] := List.getElem?_eq_getElem (by omega)
            have g1 := f.other.work x _ _ (List.getElem?_eq_getElem h2) h2'
            have g2 := f.other.mono (min 128 (min (theirs.length - (x + 1)) 512) - 1) (x + 1) _ last h2'
              (by rw [← hlst]; congr 1; omega)
            omega)
        rw [show x + 1 + min (theirs.length - (x + 1)) 512 = x + min (theirs.length - (x + 1)) 512 + 1 by omega] at a2
        obtain ⟨N, hN⟩ := ih (x + min (theirs.length - (x + 1)) 512) w' (by omega) (by omega) a2
        refine ⟨N + 1, ?_⟩
        unfold syncRounds
        rw [x3, a1]
        exact hN
  obtain ⟨b1, b2, b3⟩ := f.below
  have htp : mine[mine.length - 1]? = some tip := by rw [← List.getLast?_eq_getElem?]; exact htip
  -- the fork is below the peer's tip and within the first chunk
  have hbound : ∀ i h, i ≤ d → theirs[i]? = some h → h.totalDifficulty ≤ tip.totalDifficulty := by
    intro i h hi hh
    rw [← f.same hi] at hh
    exact f.own.mono (mine.length - 1 - i) i h tip hh (by rw [← htp]; congr 1; omega)
  have hidx : d < min (2 * d - (mine.length - 1) + 128) (theirs.length - 1) := by
    refine Nat.lt_of_not_le fun hle => ?_
    have hg : theirs[min (2 * d - (mine.length - 1) + 128) (theirs.length - 1)]? =
        some theirs[min (2 * d - (mine.length - 1) + 128) (theirs.length - 1)] :=
      List.getElem?_eq_getElem (by omega)
    have q1 := hwork _ hg
    have q2 := hbound _ _ hle hg
    omega
  obtain ⟨x, x1, x2, x3⟩ := round_eq R f hw hp ht
  have hx := x2 hdeep
  have hmin := Nat.min_le_left (theirs.length - (x + 1)) 512
  rw [headers_eq R w f.other hb _ _ (by omega) (by omega)] at x3
  obtain ⟨w', a1, a2⟩ := chunks_extend hv (min (theirs.length - (x + 1)) 512) (min (theirs.length - (x + 1)) 512)
    (x + 1) d mine w tip (Nat.le_refl _) f hw htip (by omega) (by omega) (by omega) (by omega) (by omega) (by
      intro last hl
      have hg : theirs[min (2 * d - (mine.length - 1) + 128) (theirs.length - 1)]? =
          some theirs[min (2 * d - (mine.length - 1) + 128) (theirs.length - 1)] := List.getElem?_eq_getElem (by omega)
      have q1 := hwork _ hg
      have q2 := f.other.mono
        (x + 1 + min 128 (min (theirs.length - (x + 1)) 512) - 1 - min (2 * d - (mine.length - 1) + 128) (theirs.length - 1))
        _ _ last hg (by rw [← hl]; congr 1; omega)
      omega)
  rw [show x + 1 + min (theirs.length - (x + 1)) 512 = x + min (theirs.length - (x + 1)) 512 + 1 by omega] at a2
  obtain ⟨N, hN⟩ := walk theirs.length (x + min (theirs.length - (x + 1)) 512) w' (by omega) (by omega) a2
  refine ⟨N + 1, fun n hn => ?_⟩
  obtain ⟨k, rfl⟩ : ∃ k, n = k + (N + 1) := ⟨n - (N + 1), by omega⟩
  have add : ∀ a b w, syncRounds R peer (b + a) w = syncRounds R peer b (syncRounds R peer a w) := by
    intro a
    induction a with
    | zero => intro b w; rfl
    | succ a ih => intro b w; exact ih b _
  rw [add (N + 1) k w]
  apply stay
  unfold syncRounds
  rw [x3, a1]
  exact hN

/-- **C78 violated: a deep fork is never left.** If the peer's first 128 headers above the fork have no more work than the
node's tip, the node stays on its chain through any number of rounds, however long and heavy the peer's chain is. -/
theorem header_sync_stuck_violated (R : Rules S) (peer w : World S) (mine theirs : List Header) (d : Nat) (tip : Header)
    (f : Fork mine theirs d) (hw : HasChain w mine) (hp : HasOnly peer theirs) (hv : Passes R theirs)
    (hb : ∀ h ∈ theirs, R.bad h.pow.hash = false) (ht : theirs.length < 2 ^ 64) (htip : mine.getLast? = some tip)
    (hlow : ∀ i h, i ≤ d + 128 → theirs[i]? = some h → h.totalDifficulty ≤ tip.totalDifficulty) (n : Nat) :
    (syncRounds R peer n w).candidate = w.candidate := by
  have go : ∀ n w, HasChain w mine → HasChain (syncRounds R peer n w) mine := by
    intro n
    induction n with
    | zero => intro w hw; exact hw
    | succ n ih =>
      intro w hw
      unfold syncRounds
      apply ih
      obtain ⟨x, x1, -, x3⟩ := round_eq R f hw hp ht
      rw [x3]
      have hmin := Nat.min_le_left (theirs.length - (x + 1)) 512
      by_cases h0 : theirs.length - (x + 1) = 0
      · rw [h0, show min 0 512 = 0 by omega, List.take_zero]; exact hw
      · rw [headers_eq R w f.other hb _ _ (by omega) (by omega)]
        exact chunks_stuck hv f tip htip hlow _ _ _ w hw (by omega) (by omega) (by omega)
  exact (go n w hw).cand.trans hw.cand.symm

/-! ## Cases

A chain `line a n` of `n + 1` headers, each of difficulty 1; two with different `a` part at the genesis block. -/

/-- The hash of the header at height `i`. -/
private def lineHash (a : UInt8) : Nat → Bytes
  | 0 => []
  | i + 1 => a :: List.replicate i 0

private def lineHeader (a : UInt8) (i : Nat) : Header :=
  ⟨1, i, 0, if i = 0 then [] else lineHash a (i - 1), [], [], [], [], [], 0, 0, i, 0, 0, ⟨31, [], lineHash a i⟩⟩

private def line (a : UInt8) (n : Nat) : List Header := (List.range (n + 1)).map (lineHeader a)

private theorem line_get (a : UInt8) (n i : Nat) (h : Header) : (line a n)[i]? = some h ↔ i ≤ n ∧ h = lineHeader a i := by
  unfold line
  rw [List.getElem?_map]
  by_cases hi : i < n + 1
  · rw [List.getElem?_range hi]
    simp only [Option.map_some, Option.some.injEq]
    exact ⟨fun e => ⟨by omega, e.symm⟩, fun e => e.2.symm⟩
  · rw [List.getElem?_eq_none (by simpa using by omega)]
    simp only [Option.map_none, reduceCtorEq, false_iff, not_and]
    intro; omega

private theorem line_proper (a : UInt8) (n : Nat) : Proper (line a n) := by
  refine ⟨?_, ?_, ?_⟩
  · intro i h hh
    rw [line_get] at hh
    rw [hh.2]; rfl
  · intro i p h hp hh
    rw [line_get] at hp hh
    rw [hp.2, hh.2]
    simp [lineHeader, hashOf]
  · intro i p h hp hh
    rw [line_get] at hp hh
    rw [hp.2, hh.2]
    simp [lineHeader]

private theorem lineHash_len (a : UInt8) (i : Nat) : (lineHash a i).length = i := by
  cases i <;> simp [lineHash]

private theorem lineHash_inj {a b : UInt8} {i j : Nat} (h : lineHash a i = lineHash b j) : lineHeader a i = lineHeader b j := by
  have hl := congrArg List.length h
  rw [lineHash_len, lineHash_len] at hl
  subst hl
  cases i with
  | zero => rfl
  | succ i =>
    simp only [lineHash, List.cons.injEq] at h
    rw [h.1]

private theorem line_mem {a : UInt8} {n : Nat} {h : Header} (hh : h ∈ line a n) : ∃ i, i ≤ n ∧ h = lineHeader a i := by
  obtain ⟨i, hi⟩ := List.mem_iff_getElem?.1 hh
  exact ⟨i, (line_get a n i h).1 hi⟩

private theorem line_fork (n k : Nat) : Fork (line 1 n) (line 2 k) 0 := by
  refine ⟨line_proper 1 n, line_proper 2 k, ?_, ⟨by simp [line], by simp [line], ?_⟩, ?_⟩
  · intro a ha b hb he
    have one : ∀ h, h ∈ line 1 n ++ line 2 k → ∃ c i, h = lineHeader c i := by
      intro h hh
      rw [List.mem_append] at hh
      rcases hh with hh | hh
      · obtain ⟨i, -, e⟩ := line_mem hh; exact ⟨1, i, e⟩
      · obtain ⟨i, -, e⟩ := line_mem hh; exact ⟨2, i, e⟩
    obtain ⟨c, i, rfl⟩ := one a ha
    obtain ⟨c', j, rfl⟩ := one b hb
    exact lineHash_inj he
  · rw [line, line, List.range_succ_eq_map, List.range_succ_eq_map]
    rfl
  · intro a h1 h2
    rw [line_get] at h1 h2
    have := h1.2.symm.trans h2.2
    have := congrArg (fun h => h.pow.hash) this
    simp [lineHeader, lineHash] at this

/-- A node that knows the headers of a chain and no other. -/
private def knows (c : List Header) : World Unit :=
  ⟨fun x => c.find? (fun h => hashOf h = x), fun _ => none, [[]], c.map hashOf, c, [], [], ()⟩

private theorem knows_chain (a : UInt8) (n : Nat) : HasOnly (knows (line a n)) (line a n) := by
  refine ⟨⟨rfl, rfl, ?_⟩, ?_⟩
  · intro h hh
    have hs : ((line a n).find? (fun x => hashOf x = hashOf h)).isSome := by
      rw [List.find?_isSome]
      exact ⟨h, hh, by simp⟩
    obtain ⟨y, hy⟩ := Option.isSome_iff_exists.1 hs
    have h1 := List.find?_some hy
    have h2 := List.mem_of_find?_eq_some hy
    obtain ⟨i, -, e1⟩ := line_mem h2
    obtain ⟨j, -, e2⟩ := line_mem hh
    subst e1 e2
    have h3 : lineHash a i = lineHash a j := of_decide_eq_true h1
    show (line a n).find? _ = _
    rw [hy, lineHash_inj h3]
  · intro x hx
    show (line a n).find? _ = none
    rw [List.find?_eq_none]
    intro y hy hq
    exact hx (List.mem_map.2 ⟨y, hy, by simpa using hq⟩)

private theorem line_passes (a : UInt8) (n : Nat) : Passes plainRules (line a n) := by
  intro i p h hp hh db _
  rw [line_get] at hp hh
  rw [hp.2, hh.2]
  simp [plainRules, lineHeader]

private theorem line_last (a : UInt8) (n : Nat) : (line a n).getLast? = some (lineHeader a n) := by
  rw [List.getLast?_eq_getElem?, line_get]
  simp [line]

/-- A node with 60 blocks of its own ends on the chain of a peer with 61 or more. -/
example (k : Nat) (hk : 61 ≤ k) (hk' : k < 2 ^ 32) : ∃ N, ∀ n, N ≤ n →
    (syncRounds plainRules (knows (line 2 k)) n (knows (line 1 60))).candidate = (line 2 k).map hashOf := by
  refine header_sync_completes_partial plainRules (knows (line 2 k)) (knows (line 1 60)) (line 1 60) (line 2 k) 0
    (lineHeader 1 60) (line_fork 60 k) (knows_chain 1 60).1 (knows_chain 2 k) (line_passes 2 k) (fun _ _ => rfl)
    (by simp [line]; omega) (by simp [line]) (line_last 1 60) ?_
  intro h hh
  rw [line_get] at hh
  rw [hh.2]
  simp [line, lineHeader]
  omega

/-- **C78 violated, a case.** A node with 128 blocks of its own never leaves them, although the peer's chain, from the same
genesis block and with the same difficulty in every block, is `k ≥ 129` blocks long: it has more work. -/
theorem header_sync_stuck_case_violated (k : Nat) (hk : 129 ≤ k) (hk' : k < 2 ^ 32) :
    ∃ (node peer : World Unit), node.candidate[0]? = peer.candidate[0]? ∧ node.candidate.length = 129 ∧
      peer.candidate.length = k + 1 ∧ node.work node.candidate = 128 ∧ peer.work peer.candidate = k ∧
      ∀ n, (syncRounds plainRules peer n node).candidate = node.candidate := by
  refine ⟨knows (line 1 128), knows (line 2 k), ?_, by simp [knows, line], by simp [knows, line], ?_, ?_, ?_⟩
  · show ((line 1 128).map hashOf)[0]? = ((line 2 k).map hashOf)[0]?
    rw [List.getElem?_map, List.getElem?_map, (line_get 1 128 0 _).2 ⟨by omega, rfl⟩, (line_get 2 k 0 _).2 ⟨by omega, rfl⟩]
    rfl
  · rw [(knows_chain 1 128).1.tipWork (line_last 1 128)]; rfl
  · rw [(knows_chain 2 k).1.tipWork (line_last 2 k)]; rfl
  · refine header_sync_stuck_violated plainRules _ _ (line 1 128) (line 2 k) 0 (lineHeader 1 128) (line_fork 128 k)
      (knows_chain 1 128).1 (knows_chain 2 k) (line_passes 2 k) (fun _ _ => rfl) (by simp [line]; omega) (line_last 1 128) ?_
    intro i h hi hh
    rw [line_get] at hh
    rw [hh.2]
    simpa [lineHeader] using hi

/-! ## Which peers header sync bans -/

variable {P : Type}

/-- The peer the syncer waits for was asked at some call, with the height and the clock of that call, and nobody was asked
since. -/
private def Waiting (s : HeaderSyncer P) (past : List (HeaderView P × HeaderActs P)) : Prop :=
  ∀ p, s.peer = some p → ∃ (i : Nat) (v : HeaderView P) (a : HeaderActs P), past[i]? = some (v, a) ∧ a.asked = some p ∧
    s.timeout = v.now + 10 ∧ s.lastHeight = v.headerHeight ∧
    ∀ (j : Nat) (v' : HeaderView P) (a' : HeaderActs P), i < j → past[j]? = some (v', a') → a'.asked = none

private theorem waiting_same {s s' : HeaderSyncer P} {past : List (HeaderView P × HeaderActs P)} (hs : Waiting s past)
    (h : s'.peer = none ∨ (s'.peer = s.peer ∧ s'.timeout = s.timeout ∧ s'.lastHeight = s.lastHeight))
    (v : HeaderView P) (a : HeaderActs P) (ha : a.asked = none) : Waiting s' (past ++ [(v, a)]) := by
  intro p hp
  rcases h with h | ⟨h1, h2, h3⟩
  · rw [h] at hp; cases hp
  · obtain ⟨i, w, b, e1, e2, e3, e4, e5⟩ := hs p (h1 ▸ hp)
    have hi : i < past.length := (List.getElem?_eq_some_iff.1 e1).1
    refine ⟨i, w, b, by rw [List.getElem?_append_left hi]; exact e1, e2, by rw [h2]; exact e3, by rw [h3]; exact e4, ?_⟩
    intro j v' a' hj hh
    by_cases hl : j < past.length
    · rw [List.getElem?_append_left hl] at hh
      exact e5 j v' a' hj hh
    · rw [List.getElem?_append_right (by omega)] at hh
      obtain ⟨-, rfl⟩ : v' = v ∧ a' = a := by
        cases hq : j - past.length with
        | zero => rw [hq] at hh; simp at hh; exact ⟨hh.1.symm, hh.2.symm⟩
        | succ n => rw [hq] at hh; simp at hh
      exact ha

private theorem waiting_request (s : HeaderSyncer P) (v : HeaderView P) (b : Option P)
    (past : List (HeaderView P × HeaderActs P)) : Waiting (s.request v).1 (past ++ [(v, ⟨(s.request v).2, b⟩)]) := by
  intro p hp
  unfold HeaderSyncer.request at hp ⊢
  cases hq : s.target v with
  | none => rw [hq] at hp; cases hp
  | some q =>
    rw [hq] at hp
    simp only [Option.some.injEq] at hp
    subst hp
    refine ⟨past.length, v, _, by rw [List.getElem?_append_right (Nat.le_refl _)]; simp; rfl, rfl, rfl, rfl, ?_⟩
    intro j v' a' hj hh
    rw [List.getElem?_append_right (by omega)] at hh
    obtain ⟨n, hn⟩ : ∃ n, j - past.length = n + 1 := ⟨j - past.length - 1, by omega⟩
    rw [hn] at hh
    simp at hh

private theorem waiting_step {s : HeaderSyncer P} {past : List (HeaderView P × HeaderActs P)} (hs : Waiting s past)
    (v : HeaderView P) (b : Bool) : Waiting (s.step v b).1 (past ++ [(v, (s.step v b).2.1)]) := by
  unfold HeaderSyncer.step
  by_cases h0 : v.networkHeight = 0
  · rw [if_pos h0]
    exact waiting_same hs (Or.inr ⟨rfl, rfl, rfl⟩) v _ rfl
  rw [if_neg h0]
  by_cases h1 : v.networkHeight ≥ v.headerHeight + 5 ∨ (b ∧ v.networkHeight > v.headerHeight)
  · rw [if_pos h1]
    cases hd : s.due v with
    | mk d r =>
      obtain ⟨s', bn⟩ := r
      cases d with
      | true => exact waiting_request s' v bn past
      | false =>
        have he : s' = s := by
          unfold HeaderSyncer.due at hd
          split at hd
          · cases hd
          · repeat' split at hd
            all_goals first | (cases hd; rfl) | cases hd
        subst he
        exact waiting_same hs (Or.inr ⟨rfl, rfl, rfl⟩) v _ rfl
  · rw [if_neg h1]
    exact waiting_same hs (Or.inl rfl) v _ rfl

private theorem ban_step {s : HeaderSyncer P} {v : HeaderView P} {b : Bool} {p : P}
    (h : (s.step v b).2.1.banned = some p) :
    s.peer = some p ∧ v.headerHeight < s.lastHeight + 511 ∧ v.active p = true ∧ s.timeout < v.now := by
  unfold HeaderSyncer.step at h
  by_cases h0 : v.networkHeight = 0
  · rw [if_pos h0] at h; cases h
  rw [if_neg h0] at h
  by_cases h1 : v.networkHeight ≥ v.headerHeight + 5 ∨ (b ∧ v.networkHeight > v.headerHeight)
  · rw [if_pos h1] at h
    have hb : (s.due v).2.2 = some p := by
      cases hd : s.due v with
      | mk d r =>
        obtain ⟨s', bn⟩ := r
        rw [hd] at h
        cases d <;> exact h
    unfold HeaderSyncer.due at hb
    cases hp : s.peer with
    | none => rw [hp] at hb; cases hb
    | some q =>
      rw [hp] at hb
      simp only at hb
      split at hb
      · cases hb
      · rename_i g1
        split at hb
        · cases hb
        · rename_i g2
          split at hb
          · rename_i g3
            split at hb
            · simp only [Option.some.injEq] at hb
              subst hb
              exact ⟨rfl, by omega, by simpa using g2, g3⟩
            · cases hb
          · cases hb
  · rw [if_neg h1] at h; cases h

/-- **C78.** However the sync thread calls and whatever it sees, header sync bans a peer only when it asked this peer at an
earlier call, asked nobody since, more than ten seconds have passed, the peer is still connected, and fewer than 511
headers were added since it was asked.

Partial: it may be the first time the peer was asked, and the peer may have sent all it has; see the violations below. -/
theorem header_ban_partial (t0 : Int) (vs : List (HeaderView P × Bool)) (k : Nat) (v : HeaderView P) (b : Bool)
    (a : HeaderActs P) (p : P) (hv : vs[k]? = some (v, b)) (ha : ((HeaderSyncer.init t0).run vs)[k]? = some a)
    (hb : a.banned = some p) :
    ∃ (i : Nat) (vi : HeaderView P) (bi : Bool) (ai : HeaderActs P), i < k ∧ vs[i]? = some (vi, bi) ∧
      ((HeaderSyncer.init t0).run vs)[i]? = some ai ∧ ai.asked = some p ∧ vi.now + 10 < v.now ∧
      v.headerHeight < vi.headerHeight + 511 ∧ v.active p = true ∧
      ∀ (j : Nat) (aj : HeaderActs P), i < j → j < k → ((HeaderSyncer.init t0).run vs)[j]? = some aj → aj.asked = none := by
  have go : ∀ (vs : List (HeaderView P × Bool)) (s : HeaderSyncer P) (past : List (HeaderView P × HeaderActs P)) (k : Nat)
      (v : HeaderView P) (b : Bool) (a : HeaderActs P), Waiting s past → vs[k]? = some (v, b) → (s.run vs)[k]? = some a →
      a.banned = some p → ∃ (i : Nat) (vi : HeaderView P) (ai : HeaderActs P), i < past.length + k ∧
        (past ++ (vs.map (·.1)).zip (s.run vs))[i]? = some (vi, ai) ∧ ai.asked = some p ∧ vi.now + 10 < v.now ∧
        v.headerHeight < vi.headerHeight + 511 ∧ v.active p = true ∧
        ∀ (j : Nat) (vj : HeaderView P) (aj : HeaderActs P), i < j → j < past.length + k →
          (past ++ (vs.map (·.1)).zip (s.run vs))[j]? = some (vj, aj) → aj.asked = none := by
    intro vs
    induction vs with
    | nil => intro s past k v b a _ h; simp at h
    | cons x vs ih =>
      intro s past k v b a hw h1 h2 h3
      obtain ⟨v0, b0⟩ := x
      have hrun : s.run ((v0, b0) :: vs) = (s.step v0 b0).2.1 :: (s.step v0 b0).1.run vs := rfl
      rw [hrun] at h2 ⊢
      cases k with
      | zero =>
        simp only [List.getElem?_cons_zero, Option.some.injEq, Prod.mk.injEq] at h1 h2
        obtain ⟨rfl, rfl⟩ := h1
        subst h2
        obtain ⟨g1, g2, g3, g4⟩ := ban_step h3
        obtain ⟨i, vi, ai, e1, e2, e3, e4, e5⟩ := hw p g1
        have hi : i < past.length := (List.getElem?_eq_some_iff.1 e1).1
        refine ⟨i, vi, ai, by omega, by rw [List.getElem?_append_left hi]; exact e1, e2, by omega, by omega, g3, ?_⟩
        intro j vj aj hj hj2 hh
        rw [List.getElem?_append_left (by omega)] at hh
        exact e5 j vj aj hj hh
      | succ k =>
        rw [List.getElem?_cons_succ] at h1 h2
        obtain ⟨i, vi, ai, e1, e2, e3⟩ := ih (s.step v0 b0).1 (past ++ [(v0, (s.step v0 b0).2.1)]) k v b a
          (waiting_step hw v0 b0) h1 h2 h3
        rw [List.length_append, List.length_singleton] at e1 e3
        refine ⟨i, vi, ai, by omega, ?_, ?_⟩
        · rw [← e2]; simp
        · refine ⟨e3.1, e3.2.1, e3.2.2.1, e3.2.2.2.1, ?_⟩
          intro j vj aj hj hj2 hh
          exact e3.2.2.2.2 j vj aj hj (by omega) (by rw [← hh]; simp)
  have hlen : ∀ (vs : List (HeaderView P × Bool)) (s : HeaderSyncer P), (s.run vs).length = vs.length := by
    intro vs
    induction vs with
    | nil => intro s; rfl
    | cons x vs ih => intro s; obtain ⟨v0, b0⟩ := x; simp [HeaderSyncer.run, ih]
  obtain ⟨i, vi, ai, e1, e2, e3, e4, e5, e6, e7⟩ := go vs (HeaderSyncer.init t0) [] k v b a (by intro p hp; cases hp) hv ha hb
  simp only [List.nil_append, List.length_nil, Nat.zero_add] at e1 e2 e7
  rw [List.getElem?_zip_eq_some, List.getElem?_map, Option.map_eq_some_iff] at e2
  obtain ⟨⟨⟨vi', bi⟩, f1, f2⟩, f3⟩ := e2
  simp only at f2
  subst f2
  refine ⟨i, vi', bi, ai, e1, f1, f3, e3, e4, e5, e6, ?_⟩
  intro j aj hj hjk hh
  have hjl : j < vs.length := by have := (List.getElem?_eq_some_iff.1 hv).1; omega
  refine e7 j vs[j].1 aj hj hjk ?_
  rw [List.getElem?_zip_eq_some, List.getElem?_map, List.getElem?_eq_getElem hjl]
  exact ⟨rfl, hh⟩

private def view (now : Int) (height network : Nat) (active : Nat → Bool) (most : Nat) : HeaderView Nat × Bool :=
  (⟨now, height, network, active, fun _ => true, some most⟩, false)

/-- A silent peer is asked twice and then banned; the next one is asked. -/
example : (HeaderSyncer.init 0 : HeaderSyncer Nat).run
    [view 0 100 9000 (fun _ => true) 1, view 5 100 9000 (fun _ => true) 1, view 11 100 9000 (fun _ => true) 1,
      view 22 100 9000 (fun _ => true) 2] = [⟨some 1, none⟩, ⟨none, none⟩, ⟨some 1, none⟩, ⟨some 2, some 1⟩] := by decide

/-- **C78 violated: a peer asked once is banned.** Peer 1 is asked twice and disconnects; peer 2 is asked in its place and
banned eleven seconds later, without the second request peer 1 had. -/
theorem header_ban_once_violated : (HeaderSyncer.init 0 : HeaderSyncer Nat).run
    [view 0 100 9000 (fun _ => true) 1, view 11 100 9000 (fun _ => true) 1, view 12 100 9000 (fun p => p ≠ 1) 2,
      view 23 100 9000 (fun _ => true) 3] =
    [⟨some 1, none⟩, ⟨some 1, none⟩, ⟨some 2, none⟩, ⟨some 3, some 2⟩] := by decide

/-- **C78 violated: a peer that sent all it has is banned.** The peer `p` is asked at height `h0`, `h1` and `h2` are the
heights after its answers, each complete but with fewer than 511 headers, and somebody claims a network height five above
or more.  Eleven seconds after the second request `p` is banned. -/
theorem header_ban_honest_violated (p : P) (t0 t1 t2 : Int) (h0 h1 h2 network : Nat) (most : Option P)
    (hn : network ≥ h0 + 5 ∧ network ≥ h1 + 5 ∧ network ≥ h2 + 5) (ha : h1 < h0 + 511) (hb : h2 < h1 + 511)
    (g1 : t0 + 10 < t1) (g2 : t1 + 10 < t2) :
    ∃ a0 a1 a2, (HeaderSyncer.init t0).run
      [(⟨t0, h0, network, fun _ => true, fun _ => true, some p⟩, false),
        (⟨t1, h1, network, fun _ => true, fun _ => true, some p⟩, false),
        (⟨t2, h2, network, fun _ => true, fun _ => true, most⟩, false)] = [a0, a1, a2] ∧
      a0.asked = some p ∧ a1.asked = some p ∧ a2.banned = some p := by
  obtain ⟨n1, n2, n3⟩ := hn
  have s0 : (HeaderSyncer.init t0).step (⟨t0, h0, network, fun _ => true, fun _ => true, some p⟩ : HeaderView P) false =
      (⟨some p, h0, t0 + 10, false⟩, ⟨some p, none⟩, true) := by
    unfold HeaderSyncer.step
    rw [if_neg (by show network ≠ 0; omega), if_pos (Or.inl n1)]
    rfl
  have s1 : (⟨some p, h0, t0 + 10, false⟩ : HeaderSyncer P).step ⟨t1, h1, network, fun _ => true, fun _ => true, some p⟩
      false = (⟨some p, h1, t1 + 10, true⟩, ⟨some p, none⟩, true) := by
    have hd : (⟨some p, h0, t0 + 10, false⟩ : HeaderSyncer P).due
        ⟨t1, h1, network, fun _ => true, fun _ => true, some p⟩ = (true, ⟨some p, h0, t0 + 10, true⟩, none) := by
      simp only [HeaderSyncer.due, Bool.not_true, Bool.false_eq_true, if_false]
      rw [if_neg (by omega), if_pos g1]
    unfold HeaderSyncer.step
    rw [if_neg (by show network ≠ 0; omega), if_pos (Or.inl n2), hd]
    rfl
  have s2 : ((⟨some p, h1, t1 + 10, true⟩ : HeaderSyncer P).step ⟨t2, h2, network, fun _ => true, fun _ => true, most⟩
      false).2.1.banned = some p := by
    have hd : (⟨some p, h1, t1 + 10, true⟩ : HeaderSyncer P).due
        ⟨t2, h2, network, fun _ => true, fun _ => true, most⟩ = (true, ⟨none, h1, t1 + 10, false⟩, some p) := by
      simp only [HeaderSyncer.due, Bool.not_true, Bool.false_eq_true, if_false, if_true]
      rw [if_neg (by omega), if_pos g2]
    unfold HeaderSyncer.step
    rw [if_neg (by show network ≠ 0; omega), if_pos (Or.inl n3), hd]
  simp only [HeaderSyncer.run]
  rw [s0]
  simp only
  rw [s1]
  exact ⟨_, _, _, rfl, rfl, rfl, s2⟩

/-! ### Two requests after progress -/

private def ahead (v : HeaderView P) (b : Bool) : Prop :=
  v.networkHeight ≥ v.headerHeight + 5 ∨ (b ∧ v.networkHeight > v.headerHeight)

private theorem request_facts (s : HeaderSyncer P) (v : HeaderView P) :
    (s.request v).1.peer = (s.request v).2 ∧ (s.request v).1.retried = s.retried ∧
    ((s.request v).2 ≠ none → (s.request v).1.timeout = v.now + 10 ∧ (s.request v).1.lastHeight = v.headerHeight) ∧
    (v.mostWork ≠ none → (s.request v).2 ≠ none) := by
  have ht : v.mostWork ≠ none → s.target v ≠ none := by
    intro h
    unfold HeaderSyncer.target
    cases s.peer with
    | none => exact h
    | some p => by_cases hr : v.reachable p = true <;> simp [hr, h]
  unfold HeaderSyncer.request
  cases hq : s.target v with
  | none => exact ⟨rfl, rfl, fun h => absurd rfl h, fun h => absurd hq (ht h)⟩
  | some q => exact ⟨rfl, rfl, fun _ => ⟨rfl, rfl⟩, fun _ h => by cases h⟩

private theorem header_step_cases (s : HeaderSyncer P) (v : HeaderView P) (b : Bool) :
    ((s.step v b).1 = s ∧ (s.step v b).2.1 = ⟨none, none⟩ ∧
      (v.networkHeight = 0 ∨ (ahead v b ∧ ∃ s1 x, s.due v = (false, s1, x)))) ∨
    ((s.step v b).1.peer = none ∧ (s.step v b).1.retried = false ∧ (s.step v b).2.1 = ⟨none, none⟩ ∧
      v.networkHeight ≠ 0 ∧ ¬ ahead v b) ∨
    (v.networkHeight ≠ 0 ∧ ahead v b ∧ ∃ s1 x, s.due v = (true, s1, x) ∧ (s.step v b).1 = (s1.request v).1 ∧
      (s.step v b).2.1 = ⟨(s1.request v).2, x⟩) := by
  unfold HeaderSyncer.step
  by_cases h0 : v.networkHeight = 0
  · rw [if_pos h0]; exact .inl ⟨rfl, rfl, .inl h0⟩
  rw [if_neg h0]
  by_cases h1 : v.networkHeight ≥ v.headerHeight + 5 ∨ (b ∧ v.networkHeight > v.headerHeight)
  · rw [if_pos h1]
    cases hd : s.due v with
    | mk d r =>
      obtain ⟨s', bn⟩ := r
      cases d with
      | true => exact .inr (.inr ⟨h0, h1, s', bn, rfl, rfl, rfl⟩)
      | false =>
        have he : s' = s ∧ bn = none := by
          unfold HeaderSyncer.due at hd
          split at hd
          · cases hd
          · repeat' split at hd
            all_goals first | (cases hd; exact ⟨rfl, rfl⟩) | cases hd
        obtain ⟨rfl, rfl⟩ := he
        exact .inl ⟨rfl, rfl, .inr ⟨h1, _, _, rfl⟩⟩
  · rw [if_neg h1]; exact .inr (.inl ⟨rfl, rfl, rfl, h0, h1⟩)

private theorem due_fresh {s s1 : HeaderSyncer P} {v : HeaderView P} {x : Option P} (h : s.due v = (true, s1, x))
    (hr : s.retried = false) : x = none ∧ (s1.retried = true → s.peer ≠ none ∧ s.timeout < v.now) := by
  unfold HeaderSyncer.due at h
  cases hp : s.peer with
  | none =>
    rw [hp] at h
    cases h
    exact ⟨rfl, fun e => by rw [hr] at e; cases e⟩
  | some q =>
    rw [hp] at h
    simp only at h
    split at h
    · cases h; exact ⟨rfl, fun e => by cases e⟩
    · split at h
      · cases h; exact ⟨rfl, fun e => by rw [show _ = s.retried from rfl, hr] at e; cases e⟩
      · split at h
        · rename_i g
          rw [hr] at h
          simp only [Bool.false_eq_true, if_false] at h
          cases h
          exact ⟨rfl, fun _ => ⟨by simp, g⟩⟩
        · cases h

/-- A peer banned was asked, by the last request before. -/
private theorem ban_asked (vs : List (HeaderView P × Bool)) : ∀ (s : HeaderSyncer P) (k : Nat) (a : HeaderActs P) (p : P),
    (s.run vs)[k]? = some a → a.banned = some p →
    s.peer = some p ∨ ∃ (j : Nat) (aj : HeaderActs P), j < k ∧ (s.run vs)[j]? = some aj ∧ aj.asked = some p := by
  induction vs with
  | nil => intro s k a p h; simp [HeaderSyncer.run] at h
  | cons x vs ih =>
    obtain ⟨v, b⟩ := x
    intro s k a p h hb
    have hrun : s.run ((v, b) :: vs) = (s.step v b).2.1 :: (s.step v b).1.run vs := rfl
    rw [hrun] at h ⊢
    cases k with
    | zero =>
      simp only [List.getElem?_cons_zero, Option.some.injEq] at h
      subst h
      exact .inl (ban_step hb).1
    | succ k =>
      rw [List.getElem?_cons_succ] at h
      rcases ih _ k a p h hb with hp | ⟨j, aj, h1, h2, h3⟩
      · rcases header_step_cases s v b with ⟨e, -, -⟩ | ⟨e, -⟩ | ⟨-, -, s1, x, -, e1, e2⟩
        · rw [e] at hp; exact .inl hp
        · rw [e] at hp; cases hp
        · rw [e1, (request_facts s1 v).1] at hp
          exact .inr ⟨0, _, by omega, rfl, by rw [e2]; exact hp⟩
      · exact .inr ⟨j + 1, aj, by omega, h2, h3⟩

private theorem ban_from_fresh (vs : List (HeaderView P × Bool)) : ∀ (s : HeaderSyncer P) (k : Nat) (a : HeaderActs P) (p : P),
    s.retried = false → (s.run vs)[k]? = some a → a.banned = some p →
    ∃ (j j2 : Nat) (vj : HeaderView P) (bj : Bool) (a2 : HeaderActs P), j ≤ j2 ∧ j2 < k ∧ vs[j]? = some (vj, bj) ∧
      (s.run vs)[j2]? = some a2 ∧ a2.asked = some p ∧
      ((∃ (j1 : Nat) (v1 : HeaderView P) (b1 : Bool) (a1 : HeaderActs P), j1 < j ∧ vs[j1]? = some (v1, b1) ∧
        (s.run vs)[j1]? = some a1 ∧ a1.asked ≠ none ∧ v1.now + 10 < vj.now) ∨ (s.peer ≠ none ∧ s.timeout < vj.now)) := by
  induction vs with
  | nil => intro s k a p _ h; simp [HeaderSyncer.run] at h
  | cons x vs ih =>
    obtain ⟨v, b⟩ := x
    intro s k a p hr h hb
    have hrun : s.run ((v, b) :: vs) = (s.step v b).2.1 :: (s.step v b).1.run vs := rfl
    rw [hrun] at h ⊢
    cases k with
    | zero =>
      exfalso
      simp only [List.getElem?_cons_zero, Option.some.injEq] at h
      subst h
      rcases header_step_cases s v b with ⟨-, e, -⟩ | ⟨-, -, e, -⟩ | ⟨-, -, s1, x, e0, -, e2⟩
      · rw [e] at hb; cases hb
      · rw [e] at hb; cases hb
      · rw [e2, (due_fresh e0 hr).1] at hb; cases hb
    | succ k =>
      rw [List.getElem?_cons_succ] at h
      have lift : (s.step v b).1.retried = false →
          (∀ t, (s.step v b).1.peer ≠ none → (s.step v b).1.timeout < t →
            ((s.step v b).2.1.asked ≠ none ∧ v.now + 10 < t) ∨ (s.peer ≠ none ∧ s.timeout < t)) →
          ∃ (j j2 : Nat) (vj : HeaderView P) (bj : Bool) (a2 : HeaderActs P), j ≤ j2 ∧ j2 < k + 1 ∧
            ((v, b) :: vs)[j]? = some (vj, bj) ∧
            ((s.step v b).2.1 :: (s.step v b).1.run vs)[j2]? = some a2 ∧ a2.asked = some p ∧
            ((∃ (j1 : Nat) (v1 : HeaderView P) (b1 : Bool) (a1 : HeaderActs P), j1 < j ∧ ((v, b) :: vs)[j1]? = some (v1, b1) ∧
              ((s.step v b).2.1 :: (s.step v b).1.run vs)[j1]? = some a1 ∧ a1.asked ≠ none ∧ v1.now + 10 < vj.now) ∨
              (s.peer ≠ none ∧ s.timeout < vj.now)) := by
        intro hr' hpt
        obtain ⟨j, j2, vj, bj, a2, h1, h2, h3, h4, h5, h6⟩ := ih _ k a p hr' h hb
        refine ⟨j + 1, j2 + 1, vj, bj, a2, by omega, by omega, h3, h4, h5, ?_⟩
        rcases h6 with ⟨j1, v1, b1, a1, g1, g2, g3, g4, g5⟩ | ⟨g1, g2⟩
        · exact .inl ⟨j1 + 1, v1, b1, a1, by omega, g2, g3, g4, g5⟩
        · rcases hpt _ g1 g2 with ⟨q1, q2⟩ | q
          · exact .inl ⟨0, v, b, _, by omega, rfl, rfl, q1, q2⟩
          · exact .inr q
      rcases header_step_cases s v b with ⟨e, -, -⟩ | ⟨e1, e2, -⟩ | ⟨-, -, s1, x, e0, e1, e2⟩
      · apply lift
        · rw [e]; exact hr
        · intro t h1 h2; rw [e] at h1 h2; exact .inr ⟨h1, h2⟩
      · apply lift e2
        intro t h1; exact absurd e1 h1
      · obtain ⟨r1, r2, r3, -⟩ := request_facts s1 v
        cases hs1 : s1.retried with
        | false =>
          apply lift
          · rw [e1, r2]; exact hs1
          · intro t h1 h2
            rw [e1, r1] at h1
            rw [e1, (r3 h1).1] at h2
            exact .inl ⟨by rw [e2]; exact h1, h2⟩
        | true =>
          have hto := (due_fresh e0 hr).2 hs1
          rcases ban_asked vs _ k a p h hb with hp | ⟨j, aj, h1, h2, h3⟩
          · rw [e1, r1] at hp
            exact ⟨0, 0, v, b, _, by omega, by omega, rfl, rfl, by rw [e2]; exact hp, .inr hto⟩
          · exact ⟨0, j + 1, v, b, aj, by omega, by omega, rfl, h2, h3, .inr hto⟩

/-- The state before a call. -/
private def stateAt (s : HeaderSyncer P) : List (HeaderView P × Bool) → HeaderSyncer P
  | [] => s
  | (v, b) :: vs => stateAt (s.step v b).1 vs

private theorem header_run_append (vs ws : List (HeaderView P × Bool)) : ∀ s : HeaderSyncer P,
    s.run (vs ++ ws) = s.run vs ++ (stateAt s vs).run ws := by
  induction vs with
  | nil => intro s; rfl
  | cons x vs ih =>
    obtain ⟨v, b⟩ := x
    intro s
    simp only [List.cons_append, HeaderSyncer.run, stateAt]
    rw [ih]

private theorem header_run_length (vs : List (HeaderView P × Bool)) : ∀ s : HeaderSyncer P, (s.run vs).length = vs.length := by
  induction vs with
  | nil => intro s; rfl
  | cons x vs ih => intro s; obtain ⟨v0, b0⟩ := x; simp [HeaderSyncer.run, ih]

private theorem stateAt_append (vs ws : List (HeaderView P × Bool)) : ∀ s : HeaderSyncer P,
    stateAt s (vs ++ ws) = stateAt (stateAt s vs) ws := by
  induction vs with
  | nil => intro s; rfl
  | cons x vs ih => obtain ⟨v, b⟩ := x; intro s; simp only [List.cons_append, stateAt]; rw [ih]

/-- From a state with no retry and without a request under way, or one made by the last call. -/
private theorem ban_after_call (s : HeaderSyncer P) (v : HeaderView P) (b : Bool) (ws : List (HeaderView P × Bool)) (k : Nat)
    (a : HeaderActs P) (p : P) (hr : (s.step v b).1.retried = false)
    (hp : (s.step v b).1.peer ≠ none → (s.step v b).2.1.asked ≠ none ∧ (s.step v b).1.timeout = v.now + 10)
    (h : ((s.step v b).1.run ws)[k]? = some a) (hb : a.banned = some p) :
    ∃ (j1 j j2 : Nat) (v1 vj : HeaderView P) (b1 bj : Bool) (a1 a2 : HeaderActs P), j1 < j ∧ j ≤ j2 ∧ j2 < k + 1 ∧
      ((v, b) :: ws)[j1]? = some (v1, b1) ∧ ((v, b) :: ws)[j]? = some (vj, bj) ∧
      (s.run ((v, b) :: ws))[j1]? = some a1 ∧ (s.run ((v, b) :: ws))[j2]? = some a2 ∧ a1.asked ≠ none ∧
      a2.asked = some p ∧ v1.now + 10 < vj.now := by
  obtain ⟨j, j2, vj, bj, a2, h1, h2, h3, h4, h5, h6⟩ := ban_from_fresh ws _ k a p hr h hb
  rcases h6 with ⟨j1, v1, b1, a1, g1, g2, g3, g4, g5⟩ | ⟨g1, g2⟩
  · exact ⟨j1 + 1, j + 1, j2 + 1, v1, vj, b1, bj, a1, a2, by omega, by omega, by omega, g2, h3, g3, h4, g4, h5, g5⟩
  · obtain ⟨q1, q2⟩ := hp g1
    exact ⟨0, j + 1, j2 + 1, v, vj, b, bj, _, a2, by omega, by omega, by omega, rfl, h3, rfl, h4, q1, h5, by omega⟩

/-- **C78, two requests after progress.**  Suppose call `i` finds the node in sync, or finds that 511 headers or more were
added since the last request, at call `n`, with somebody to ask all the time.  If the peer `p` is banned by a later call,
then between the two somebody was asked, more than ten seconds passed, and `p` was asked at that time or after: no ban
follows progress at the first timeout. -/
theorem header_ban_after_progress (t0 : Int) (vs : List (HeaderView P × Bool)) (i k : Nat) (vi : HeaderView P) (bi : Bool)
    (a : HeaderActs P) (p : P) (hik : i < k) (hi : vs[i]? = some (vi, bi))
    (ha : ((HeaderSyncer.init t0).run vs)[k]? = some a) (hb : a.banned = some p) (h0 : vi.networkHeight ≠ 0)
    (hprog : ¬ (vi.networkHeight ≥ vi.headerHeight + 5 ∨ (bi ∧ vi.networkHeight > vi.headerHeight)) ∨
      ∃ (n : Nat) (vn : HeaderView P) (bn : Bool) (an : HeaderActs P), n < i ∧ vs[n]? = some (vn, bn) ∧
        ((HeaderSyncer.init t0).run vs)[n]? = some an ∧ an.asked ≠ none ∧ vn.headerHeight + 511 ≤ vi.headerHeight ∧
        ∀ (m : Nat) (vm : HeaderView P) (bm : Bool) (am : HeaderActs P), n < m → m < i → vs[m]? = some (vm, bm) →
          ((HeaderSyncer.init t0).run vs)[m]? = some am → am.asked = none ∧ vm.mostWork ≠ none) :
    ∃ (j1 j j2 : Nat) (v1 vj : HeaderView P) (b1 bj : Bool) (a1 a2 : HeaderActs P), i ≤ j1 ∧ j1 < j ∧ j ≤ j2 ∧ j2 < k ∧
      vs[j1]? = some (v1, b1) ∧ vs[j]? = some (vj, bj) ∧ ((HeaderSyncer.init t0).run vs)[j1]? = some a1 ∧
      ((HeaderSyncer.init t0).run vs)[j2]? = some a2 ∧ a1.asked ≠ none ∧ a2.asked = some p ∧ v1.now + 10 < vj.now := by
  have hsplit : ∀ m x, vs[m]? = some x → vs = vs.take m ++ x :: vs.drop (m + 1) := by
    intro m x hm
    obtain ⟨hl, rfl⟩ := List.getElem?_eq_some_iff.mp hm
    rw [List.getElem_cons_drop, List.take_append_drop]
  have hat : ∀ m v b am, vs[m]? = some (v, b) → ((HeaderSyncer.init t0).run vs)[m]? = some am →
      am = ((stateAt (HeaderSyncer.init t0) (vs.take m)).step v b).2.1 := by
    intro m v b am h1 h2
    have hl : m < vs.length := (List.getElem?_eq_some_iff.mp h1).1
    rw [hsplit m _ h1, header_run_append, List.getElem?_append_right (by rw [header_run_length, List.length_take]; omega), header_run_length,
      List.length_take, Nat.min_eq_left (by omega), Nat.sub_self] at h2
    exact (Option.some.inj h2).symm
  have hnext : ∀ m v b, vs[m]? = some (v, b) → stateAt (HeaderSyncer.init t0) (vs.take (m + 1)) =
      ((stateAt (HeaderSyncer.init t0) (vs.take m)).step v b).1 := by
    intro m v b h1
    rw [List.take_add_one, h1, Option.toList_some, stateAt_append]
    rfl
  have hl : i < vs.length := (List.getElem?_eq_some_iff.mp hi).1
  generalize hs : stateAt (HeaderSyncer.init t0) (vs.take i) = s at *
  have key : (s.step vi bi).1.retried = false ∧
      ((s.step vi bi).1.peer ≠ none → (s.step vi bi).2.1.asked ≠ none ∧ (s.step vi bi).1.timeout = vi.now + 10) := by
    rcases hprog with hp | ⟨n, vn, bn, an, hn, hvn, han, hask, hbatch, hbetween⟩
    · rcases header_step_cases s vi bi with ⟨-, -, e | ⟨e, -⟩⟩ | ⟨e1, e2, -⟩ | ⟨-, e, -⟩
      · exact absurd e h0
      · exact absurd e hp
      · exact ⟨e2, fun h => absurd e1 h⟩
      · exact absurd e hp
    · -- the state at every call after `n`, up to `i`
      have inv : ∀ d, n + 1 + d ≤ i →
          ((stateAt (HeaderSyncer.init t0) (vs.take (n + 1 + d))).peer ≠ none ∧
            (stateAt (HeaderSyncer.init t0) (vs.take (n + 1 + d))).lastHeight = vn.headerHeight) ∨
          ((stateAt (HeaderSyncer.init t0) (vs.take (n + 1 + d))).peer = none ∧
            (stateAt (HeaderSyncer.init t0) (vs.take (n + 1 + d))).retried = false) := by
        intro d
        induction d with
        | zero =>
          intro _
          have e := hat n vn bn an hvn han
          rw [Nat.add_zero, hnext n vn bn hvn]
          rcases header_step_cases (stateAt (HeaderSyncer.init t0) (vs.take n)) vn bn with
            ⟨-, e2, -⟩ | ⟨-, -, e2, -⟩ | ⟨-, -, s1, x, -, e1, e2⟩
          · rw [e, e2] at hask; exact absurd rfl hask
          · rw [e, e2] at hask; exact absurd rfl hask
          · rw [e, e2] at hask
            obtain ⟨r1, -, r3, -⟩ := request_facts s1 vn
            rw [e1, r1]
            exact .inl ⟨hask, (r3 hask).2⟩
        | succ d ih =>
          intro hd
          have hml : n + 1 + d < vs.length := by omega
          have hv : vs[n + 1 + d]? = some (vs[n + 1 + d].1, vs[n + 1 + d].2) := List.getElem?_eq_getElem hml
          have hrl : n + 1 + d < ((HeaderSyncer.init t0).run vs).length := by rw [header_run_length]; exact hml
          obtain ⟨b1, b2⟩ := hbetween (n + 1 + d) _ _ _ (by omega) (by omega) hv (List.getElem?_eq_getElem hrl)
          have e := hat (n + 1 + d) _ _ _ hv (List.getElem?_eq_getElem hrl)
          rw [show n + 1 + (d + 1) = n + 1 + d + 1 by omega, hnext _ _ _ hv]
          rcases header_step_cases (stateAt (HeaderSyncer.init t0) (vs.take (n + 1 + d))) vs[n + 1 + d].1 vs[n + 1 + d].2 with
            ⟨e1, -, -⟩ | ⟨e1, e2, -⟩ | ⟨-, -, s1, x, -, e1, e2⟩
          · rw [e1]; exact ih (by omega)
          · exact .inr ⟨e1, e2⟩
          · exfalso
            rw [e, e2] at b1
            exact (request_facts s1 _).2.2.2 b2 b1
      have hi2 := inv (i - (n + 1)) (by omega)
      rw [show n + 1 + (i - (n + 1)) = i by omega, hs] at hi2
      rcases header_step_cases s vi bi with ⟨-, -, e | ⟨-, s1, x, e⟩⟩ | ⟨e1, e2, -⟩ | ⟨-, -, s1, x, e0, e1, e2⟩
      · exact absurd e h0
      · exfalso
        rcases hi2 with ⟨g1, g2⟩ | ⟨g1, g2⟩
        · unfold HeaderSyncer.due at e
          cases hp : s.peer with
          | none => exact g1 hp
          | some q =>
            rw [hp] at e
            simp only at e
            rw [if_pos (by omega)] at e
            cases e
        · unfold HeaderSyncer.due at e
          rw [g1] at e
          cases e
      · exact ⟨e2, fun h => absurd e1 h⟩
      · obtain ⟨r1, r2, r3, -⟩ := request_facts s1 vi
        have hs1 : s1.retried = false := by
          unfold HeaderSyncer.due at e0
          rcases hi2 with ⟨g1, g2⟩ | ⟨g1, g2⟩
          · cases hp : s.peer with
            | none => exact absurd hp g1
            | some q =>
              rw [hp] at e0
              simp only at e0
              rw [if_pos (by omega)] at e0
              cases e0; rfl
          · rw [g1] at e0
            cases e0; exact g2
        rw [e1, e2]
        refine ⟨by rw [r2]; exact hs1, fun h => ?_⟩
        rw [r1] at h
        exact ⟨h, (r3 h).1⟩
  have hvs := hsplit i _ hi
  have hrun : (HeaderSyncer.init t0).run vs = (HeaderSyncer.init t0).run (vs.take i) ++ s.run ((vi, bi) :: vs.drop (i + 1)) := by
    conv => lhs; rw [hvs]
    rw [header_run_append, hs]
  have hget : ∀ m, ((HeaderSyncer.init t0).run vs)[i + m]? = (s.run ((vi, bi) :: vs.drop (i + 1)))[m]? := by
    intro m
    rw [hrun, List.getElem?_append_right (by rw [header_run_length, List.length_take]; omega), header_run_length, List.length_take,
      Nat.min_eq_left (by omega), Nat.add_sub_cancel_left]
  have hgetv : ∀ m : Nat, vs[i + m]? = ((vi, bi) :: vs.drop (i + 1))[m]? := by
    intro m
    conv => lhs; rw [hvs]
    rw [List.getElem?_append_right (by rw [List.length_take]; omega), List.length_take, Nat.min_eq_left (by omega),
      Nat.add_sub_cancel_left]
  have hka : ((s.step vi bi).1.run (vs.drop (i + 1)))[k - i - 1]? = some a := by
    have := hget (k - i)
    rw [show i + (k - i) = k by omega, ha] at this
    rw [this, show k - i = (k - i - 1) + 1 by omega]
    rfl
  obtain ⟨j1, j, j2, v1, vj, b1, bj, a1, a2, h1, h2, h3, h4, h5, h6, h7, h8, h9, h10⟩ :=
    ban_after_call s vi bi _ _ a p key.1 key.2 hka hb
  exact ⟨i + j1, i + j, i + j2, v1, vj, b1, bj, a1, a2, by omega, by omega, by omega, by omega, by rw [hgetv]; exact h4,
    by rw [hgetv]; exact h5, by rw [hget]; exact h6, by rw [hget]; exact h7, h8, h9, h10⟩

/-- After a batch of 511 headers the peer has its two requests again before it is banned. -/
example : (HeaderSyncer.init 0 : HeaderSyncer Nat).run
    [view 0 100 9000 (fun _ => true) 1, view 11 100 9000 (fun _ => true) 1, view 12 611 9000 (fun _ => true) 1,
      view 23 611 9000 (fun _ => true) 1, view 34 611 9000 (fun _ => true) 2] =
    [⟨some 1, none⟩, ⟨some 1, none⟩, ⟨some 1, none⟩, ⟨some 1, none⟩, ⟨some 2, some 1⟩] := by decide

end Verif.Props
