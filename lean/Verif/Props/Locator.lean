import Verif.P2P.Locator
import Verif.Props.Process

/-!
# C50, C51: block locators and the headers served for them
-/
namespace Verif.Props
open Verif.BC Verif.P2P

/-! ## C50 -/

/-- What the loop appends: heights below `c`, the first `c`, each step `k` doubling the distance. -/
private theorem loop_spec : ∀ (fuel c : Nat) (hs : List Nat), hs.length < 19 → 19 ≤ hs.length + fuel →
    (0 < c → ∃ l, locatorLoop fuel c hs = .ok (hs ++ c :: l) ∧ hs.length + 1 + l.length ≤ 19 ∧
      (c :: l).Pairwise (· > ·) ∧ (∀ x ∈ c :: l, 0 < x ∧ x ≤ c) ∧
      ∀ d, d < c → c - d < 524288 - 2 ^ (hs.length + 1) + 1 →
        (∃ x ∈ c :: l, x ≤ d ∧ c - x ≤ 2 * (c - d) + (2 ^ (hs.length + 1) - 2)) ∨
        (c ≤ 2 * (c - d) + (2 ^ (hs.length + 1) - 2))) := by
  intro fuel
  induction fuel with
  | zero => intro c hs h1 h2; omega
  | succ fuel ih =>
    intro c hs h1 h2 hc
    unfold locatorLoop
    rw [if_pos hc]
    simp only [List.length_append, List.length_singleton, maxLocators]
    by_cases hb : hs.length + 1 ≥ 20 - 1
    · rw [if_pos hb]
      have hl : hs.length = 18 := by omega
      refine ⟨[], rfl, by simp [hl], by simp, by simp; omega, ?_⟩
      intro d hd hr
      rw [hl] at hr
      omega
    · rw [if_neg hb]
      by_cases hn : c > 2 ^ (hs.length + 1)
      · rw [if_pos hn]
        obtain ⟨l, e1, e2, e3, e4, e5⟩ := ih (c - 2 ^ (hs.length + 1)) (hs ++ [c]) (by simp; omega) (by simp; omega) (by omega)
        have hp : 0 < 2 ^ (hs.length + 1) := Nat.two_pow_pos _
        refine ⟨(c - 2 ^ (hs.length + 1)) :: l, by rw [e1]; simp, ?_, ?_, ?_, ?_⟩
        · simp at e2 ⊢; omega
        · rw [List.pairwise_cons]
          exact ⟨fun x hx => by have := (e4 x hx).2; show x < c; omega, e3⟩
        · intro x hx
          rw [List.mem_cons] at hx
          rcases hx with rfl | hx
          · exact ⟨hc, Nat.le_refl _⟩
          · have := e4 x hx; omega
        · intro d hd hr
          have e6 := e5 d
          rw [List.length_append, List.length_singleton] at e6
          have q : 2 ^ (hs.length + 1 + 1) = 2 * 2 ^ (hs.length + 1) := by rw [Nat.pow_succ]; omega
          have q2 : 2 ≤ 2 ^ (hs.length + 1) := by rw [Nat.pow_succ]; have := Nat.two_pow_pos hs.length; omega
          rw [q] at e6
          generalize 2 ^ (hs.length + 1) = p at *
          by_cases hd' : d < c - p
          · have hr' : c - p - d < 524288 - 2 * p + 1 := by clear e6 e5 e4 e3; omega
            rcases e6 hd' hr' with hh | hh
            · obtain ⟨x, x1, x2, x3⟩ := hh
              exact Or.inl ⟨x, List.mem_cons_of_mem _ x1, x2, by omega⟩
            · exact Or.inr (by omega)
          · exact Or.inl ⟨c - p, by simp, by omega, by omega⟩
      · rw [if_neg hn]
        refine ⟨[], rfl, by simp; omega, by simp, by simp; omega, ?_⟩
        intro d hd hr
        right
        have q2 : 2 ≤ 2 ^ (hs.length + 1) := by rw [Nat.pow_succ]; have := Nat.two_pow_pos hs.length; omega
        omega

/-- **C50.** For every header height the locator heights are strictly decreasing, start at that height, end at 0 and are at
most 20; and for every earlier height `d`, not more than 524286 below, they have a height `x ≤ d` that lies at most twice
as far back: the search for the last common header goes back at most twice as far as needed. -/
theorem locator_heights (h : Nat) : ∃ l, locatorHeights h = .ok l ∧ l.Pairwise (· > ·) ∧ l.head? = some h ∧
    l.getLast? = some 0 ∧ l.length ≤ 20 ∧
    ∀ d, d ≤ h → h - d ≤ 524286 → ∃ x ∈ l, x ≤ d ∧ h - x ≤ 2 * (h - d) := by
  by_cases h0 : h = 0
  · subst h0
    exact ⟨[0], by decide, by simp, rfl, rfl, by simp, fun d hd _ => ⟨0, by simp, by omega, by omega⟩⟩
  · obtain ⟨l, e1, e2, e3, e4, e5⟩ := loop_spec 20 h [] (by simp) (by simp) (by omega)
    refine ⟨h :: l ++ [0], ?_, ?_, rfl, List.getLast?_concat, by simp at e2 ⊢; omega, ?_⟩
    · unfold locatorHeights maxLocators
      rw [e1]
      rfl
    · rw [List.pairwise_append]
      refine ⟨e3, by simp, ?_⟩
      intro a ha b hb
      rw [List.mem_singleton] at hb
      subst hb
      exact (e4 a ha).1
    · intro d hd hr
      by_cases hd' : d = h
      · exact ⟨h, by simp, by omega, by omega⟩
      · simp at e5
        rcases e5 d (by omega) (by omega) with hx | hx
        · rcases hx with hx | ⟨x, x1, x2, x3⟩
          · omega
          · exact ⟨x, by simp [x1], x2, by omega⟩
        · exact ⟨0, by simp, by omega, by omega⟩

example : locatorHeights 1000 = .ok [1000, 998, 994, 986, 970, 938, 874, 746, 490, 0] := by decide +kernel
example : locatorHeights 3000000 = .ok [3000000, 2999998, 2999994, 2999986, 2999970, 2999938, 2999874, 2999746, 2999490,
  2998978, 2997954, 2995906, 2991810, 2983618, 2967234, 2934466, 2868930, 2737858, 2475714, 0] := by decide +kernel

/-! ## C51 -/

variable {S : Type}

theorem candidateHeader_iff (w : World S) (i : Nat) (h : Header) : candidateHeader w i = some h ↔ CandidateAt w i h := by
  unfold candidateHeader CandidateAt
  cases w.candidate[i]? <;> simp

private theorem collect_spec (w : World S) (dense : ∀ i, i < w.candidate.length → ∃ h, CandidateAt w i h) :
    ∀ (n from_ : Nat), from_ + n ≤ w.candidate.length →
      (collectHeaders w n from_).length = n ∧
      ∀ i h, (collectHeaders w n from_)[i]? = some h → CandidateAt w (from_ + i) h := by
  intro n
  induction n with
  | zero => intro f _; simp [collectHeaders]
  | succ n ih =>
    intro f hf
    obtain ⟨h, hh⟩ := dense f (by omega)
    obtain ⟨a, b⟩ := ih (f + 1) (by omega)
    unfold collectHeaders
    rw [(candidateHeader_iff w f h).2 hh]
    refine ⟨by simp [a], ?_⟩
    intro i h' e
    cases i with
    | zero => simp at e; subst e; exact hh
    | succ i =>
      rw [List.getElem?_cons_succ] at e
      have := b i h' e
      rwa [show f + 1 + i = f + (i + 1) by omega] at this

/-- The headers served answer the locator well: `common` is a header of the candidate chain named in the locator, they
follow it on the candidate chain without a gap, each naming the one before, and there are 512 of them or all that follow. -/
structure Connects (w : World S) (hashes : List Bytes) (common : Header) (served : List Header) : Prop where
  named : common.pow.hash ∈ hashes
  onChain : CandidateAt w common.height common
  follows : ∀ i h, served[i]? = some h → CandidateAt w (common.height + 1 + i) h
  linked : ∀ i p h, (common :: served)[i]? = some p → (common :: served)[i + 1]? = some h → h.prevHash = p.pow.hash
  count : served.length = min (w.candidate.length - 1 - common.height) 512

/-- **C51.** After any events, when the first locator hash the node knows is one of its candidate chain, the headers served
connect to it: they start right after it, have no gap, each names the one before, and there are 512 of them or all that
follow.

Partial: the node answers with any header it has stored; see the violation below.  Hashes must be unique among
the headers received and batches linked (C73). -/
theorem served_headers_partial (env : PoW.Env) (henv : env ≠ .testing) (R : Rules S) (hR : ChecksHeaders env R)
    (U : Header → Prop) (hU : ∀ h h', U h → U h' → h.pow.hash = h'.pow.hash → h = h')
    (hu : ∀ h, U h → h.height + 1 < 2 ^ 64) (g : Block) (hg : U g.header) (h0 : g.header.height = 0) (s : S)
    (fuel : Nat) (es : List Event) (hes : ∀ e ∈ es, Sendable U e) (w : World S)
    (h1 : run R fuel (freshNode g s) es = some w) (hashes : List Bytes) (i k : Nat) (x : Bytes)
    (hk : hashes[k]? = some x) (hfirst : ∀ j < k, ∀ y, hashes[j]? = some y → w.headers y = none)
    (hx : w.candidate[i]? = some x) :
    ∃ common, common.height = i ∧ Connects w hashes common (locateHeaders w hashes) := by
  have hU' : OneHash U := hU
  have hRs := rules_sound_of_checks env henv hR hu
  have p1 : ∀ e ∈ es, e.Proper U := fun e he => sendable_proper (hes e he)
  have s1 := run_step hU' hRs fuel es _ _ (fresh_inv g s hg h0) p1 h1
  obtain ⟨c1, c2, c3, c4, -⟩ := candidate_chain_partial env henv R hR U hU hu g hg h0 s fuel es [] (by simpa using hes)
    w w h1 (by simpa using h1)
  have dense : ∀ i, i < w.candidate.length → ∃ h, CandidateAt w i h := by
    intro i hi
    obtain ⟨y, y1, -⟩ := s1.inv.cand i w.candidate[i] (List.getElem?_eq_getElem hi)
    exact ⟨y, _, List.getElem?_eq_getElem hi, y1⟩
  obtain ⟨common, q1, q2⟩ := s1.inv.cand i x hx
  have hh : common.pow.hash = x := (s1.inv.hdr x common q1).1
  have hc : findCommon w hashes = some common := by
    have go : ∀ (l : List Bytes) (k : Nat), l[k]? = some x → (∀ j < k, ∀ y, l[j]? = some y → w.headers y = none) →
        findCommon w l = some common := by
      intro l
      induction l with
      | nil => intro k e; simp at e
      | cons a t ih =>
        intro k e hf
        unfold findCommon
        cases k with
        | zero => simp at e; subst e; rw [q1]
        | succ k =>
          rw [hf 0 (by omega) a rfl]
          exact ih k (by simpa using e) (fun j hj y hy => hf (j + 1) (by omega) y (by simpa using hy))
    exact go hashes k hk hfirst
  have hi : i < w.candidate.length := (List.getElem?_eq_some_iff.1 hx).1
  have hlen : w.candidate.length ≤ 2 ^ 64 := by
    obtain ⟨y, y1, y2⟩ := s1.inv.cand (w.candidate.length - 1) _ (List.getElem?_eq_getElem (by omega))
    have := hu y (s1.inv.hdr _ y y1).2
    omega
  have hn : min ((w.candidate.length - 1 + 2 ^ 64 - common.height) % 2 ^ 64) maxBlockHeaders =
      min (w.candidate.length - 1 - common.height) 512 := by
    rw [q2, show w.candidate.length - 1 + 2 ^ 64 - i = w.candidate.length - 1 - i + 2 ^ 64 by omega,
      Nat.add_mod_right, Nat.mod_eq_of_lt (by omega)]
    rfl
  have hserved : locateHeaders w hashes =
      collectHeaders w (min (w.candidate.length - 1 - common.height) 512) (common.height + 1) := by
    unfold locateHeaders
    rw [hc]
    simp only [hn]
  obtain ⟨l1, l2⟩ := collect_spec w dense (min (w.candidate.length - 1 - common.height) 512) (common.height + 1)
    (by rw [q2]; have := Nat.min_le_left (w.candidate.length - 1 - i) 512; omega)
  have hon : CandidateAt w common.height common := ⟨x, by rw [q2]; exact hx, q1⟩
  refine ⟨common, q2, ⟨by rw [hh]; exact List.mem_of_getElem? hk, hon, ?_, ?_, ?_⟩⟩
  · rw [hserved]; exact l2
  · rw [hserved]
    intro j p h e1 e2
    have at_ : ∀ j h, (common :: collectHeaders w (min (w.candidate.length - 1 - common.height) 512) (common.height + 1))[j]? =
        some h → CandidateAt w (common.height + j) h := by
      intro j h e
      cases j with
      | zero => simp at e; subst e; exact hon
      | succ j =>
        have := l2 j h (by simpa using e)
        rwa [show common.height + 1 + j = common.height + (j + 1) by omega] at this
    exact c4 (common.height + j) p h (at_ j p e1) (by
      have := at_ (j + 1) h e2
      rwa [← Nat.add_assoc] at this)
  · rw [hserved, l1]

private def hdr' (height td : Nat) (prev hash : Bytes) : Header :=
  ⟨1, height, 0, prev, [], [], [], [], [], 0, 0, td, 0, 0, ⟨31, [], hash⟩⟩

private def blk' (height td : Nat) (prev hash : Bytes) : Block := ⟨hdr' height td prev hash, ⟨[], [], []⟩⟩

private def chain4 : List Event := [.headers [hdr' 1 10 [0] [1], hdr' 2 20 [1] [2], hdr' 3 30 [2] [3]]]

example : (run plainRules 10 (freshNode (blk' 0 1 [9] [0]) ()) chain4).map
    (fun w => (locateHeaders w [[50], [1], [0]]).map hashOf) = some [[2], [3]] := by decide +kernel

/-- **C51 violated: a header of a fork.** The node has the chain `[0] [1] [2] [3]` and the header `[11]` of a fork above
`[0]`.  For a locator of the fork it serves `[2]` and `[3]`: the first of them names `[1]`, which the locator does not
have, and not `[11]`.  The locator's `[0]`, which is on the chain, is not looked at. -/
theorem served_fork_violated :
    (run plainRules 10 (freshNode (blk' 0 1 [9] [0]) ()) (chain4 ++ [.header (hdr' 1 9 [0] [11])])).map
      (fun w => (w.candidate, (locateHeaders w [[11], [0]]).map fun h => (h.pow.hash, h.prevHash))) =
      some ([[0], [1], [2], [3]], [([2], [1]), ([3], [2])]) := by
  decide +kernel

end Verif.Props
