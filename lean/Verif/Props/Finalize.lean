import Verif.Wallet.Finalize
import Verif.Wallet.Select
import Verif.Props.Sign
import Verif.Props.Sums
import Verif.Props.Pool
import Mathlib.Data.List.Perm.Subperm
import Mathlib.Data.List.Nodup
import Mathlib.Tactic.Abel
import Mathlib.Tactic.Module
import Mathlib.Data.List.Forall2

/-!
# What a sender pays (C122) and at what fee (C123)
-/
namespace Verif.Props
open Verif.Codec Verif.Tx Verif.PoW Verif.Wallet

/-! ## The commitments of the finalized slate -/

/-- The commitments of a list of coins. -/
def coinCommits {F : Type} (l : List (SlateCoin F)) : List Bytes := l.map (·.commit)

/-- The commitments of entries without a range proof. -/
private def insOf (l : List SlateCom) : List Bytes := (l.filter (fun c => c.proof = none)).map (·.commit)

/-- The commitments of entries with one. -/
private def outsOf (l : List SlateCom) : List Bytes := (l.filter (fun c => c.proof ≠ none)).map (·.commit)

private theorem insOf_append (a b : List SlateCom) : insOf (a ++ b) = insOf a ++ insOf b := by simp [insOf]

private theorem outsOf_append (a b : List SlateCom) : outsOf (a ++ b) = outsOf a ++ outsOf b := by simp [outsOf]

private theorem inputs_commits (s : Slate) : s.inputs.map (·.commit) = insOf s.coms := by
  unfold Slate.inputs insOf
  induction s.coms with
  | nil => rfl
  | cons c l ih =>
    cases h : c.proof with
    | none => simp [h, ih]
    | some p => simp [h, ih]

private theorem outputs_commits (s : Slate) : s.outputs.map (·.commit) = outsOf s.coms := by
  unfold Slate.outputs outsOf
  induction s.coms with
  | nil => rfl
  | cons c l ih =>
    cases h : c.proof with
    | none => simp [h, ih]
    | some p => simp [h, ih]

variable {F : Type}

/-- The entry of a coin that is spent. -/
def inEntry (i : SlateCoin F) : SlateCom := ⟨i.features, i.commit, none⟩

/-- The entry of a coin that is made. -/
def outEntry (o : SlateCoin F) : SlateCom := ⟨o.features, o.commit, some o.proof⟩

/-- A slate with other commitments. -/
def withComs (s : Slate) (l : List SlateCom) : Slate := { s with coms := l }

private theorem fold_inputs (ins : List (SlateCoin F)) : ∀ (s : Slate), (coinCommits ins).Nodup →
    (ins.foldl (fun s i => s.addInput i.features i.commit) s) =
      withComs s (s.coms ++ (ins.filter (fun i => !s.coms.any (fun c => c.commit = i.commit))).map inEntry) := by
  induction ins with
  | nil => intro s _; simp [withComs]
  | cons i ins ih =>
    intro s hn
    have hn' : i.commit ∉ coinCommits ins ∧ (coinCommits ins).Nodup := by simpa [coinCommits] using hn
    rw [List.foldl_cons]
    by_cases hc : s.coms.any (fun c => c.commit = i.commit) = true
    · have e : s.addInput i.features i.commit = s := by simp [Slate.addInput, hc]
      rw [e, ih s hn'.2, List.filter_cons_of_neg (by simpa using hc)]
    · have e : s.addInput i.features i.commit = withComs s (s.coms ++ [inEntry i]) := by
        simp [Slate.addInput, hc, withComs, inEntry]
      rw [e, ih _ hn'.2, List.filter_cons_of_pos (by simpa using hc)]
      have hf : ins.filter (fun j => !(s.coms ++ [inEntry i]).any (fun c => c.commit = j.commit)) =
          ins.filter (fun j => !s.coms.any (fun c => c.commit = j.commit)) := by
        apply List.filter_congr
        intro j hj
        have : i.commit ≠ j.commit := fun h => hn'.1 (by rw [h]; exact List.mem_map.2 ⟨j, hj, rfl⟩)
        simp [this, inEntry]
      simp only [withComs]
      simp only [hf, List.map_cons, List.append_assoc, List.singleton_append]

/-- The entries of the slate handed in, with the proofs of change put on them. -/
def patchProof (c p : Bytes) : List SlateCom → List SlateCom
  | [] => []
  | e :: es =>
    if e.commit = c then (match e.proof with | none => { e with proof := some p } | some _ => e) :: es
    else e :: patchProof c p es

theorem addOutputTo_eq (f : Nat) (c p : Bytes) : ∀ l : List SlateCom,
    addOutputTo f c p l = if l.any (fun e => e.commit = c) then patchProof c p l else l ++ [⟨f, c, some p⟩]
  | [] => by simp [addOutputTo]
  | e :: es => by
    unfold addOutputTo patchProof
    by_cases h : e.commit = c
    · rw [if_pos h, if_pos h, if_pos (by simp [h])]
      cases e.proof <;> rfl
    · rw [if_neg h, if_neg h, addOutputTo_eq f c p es]
      simp only [List.any_cons, h, decide_false, Bool.false_or]
      split <;> simp

private theorem patch_commits (c p : Bytes) : ∀ l : List SlateCom, (patchProof c p l).map (·.commit) = l.map (·.commit)
  | [] => rfl
  | e :: es => by
    unfold patchProof
    split
    · cases e.proof <;> simp
    · simp [patch_commits c p es]

private theorem patch_append (c p : Bytes) : ∀ a b : List SlateCom,
    patchProof c p (a ++ b) = if a.any (fun e => e.commit = c) then patchProof c p a ++ b else a ++ patchProof c p b
  | [], b => by simp
  | e :: es, b => by
    rw [List.cons_append]
    unfold patchProof
    by_cases h : e.commit = c
    · simp [h]
    · rw [if_neg h, if_neg h, patch_append c p es b]
      simp only [List.any_cons, h, decide_false, Bool.false_or]
      split
      · rfl
      · cases b <;> rfl

private theorem patch_other (c p : Bytes) : ∀ l : List SlateCom, l.any (fun e => e.commit = c) = false → patchProof c p l = l
  | [], _ => rfl
  | e :: es, h => by
    simp only [List.any_cons, Bool.or_eq_false_iff, decide_eq_false_iff_not] at h
    unfold patchProof
    rw [if_neg h.1, patch_other c p es h.2]

/-- Every entry with another commitment is as before. -/
private theorem patch_mem {c p : Bytes} {e : SlateCom} (hc : e.commit ≠ c) : ∀ l : List SlateCom, e ∈ patchProof c p l ↔ e ∈ l
  | [] => Iff.rfl
  | d :: l => by
    unfold patchProof
    split
    · rename_i h
      have h1 : e ≠ d := fun he => hc (he ▸ h)
      have h2 : e ≠ (match d.proof with | none => { d with proof := some p } | some _ => d) := by
        intro he
        apply hc
        rw [he]
        cases d.proof <;> exact h
      simp [h1, h2]
    · simp [patch_mem hc l]

private theorem patch_self (c p : Bytes) : ∀ l : List SlateCom, l.any (fun e => e.commit = c) = true →
    ∃ e ∈ patchProof c p l, e.commit = c ∧ e.proof ≠ none
  | [], h => by simp at h
  | d :: l, h => by
    unfold patchProof
    split
    · rename_i hd
      refine ⟨_, List.mem_cons_self, ?_⟩
      cases hp : d.proof with
      | none => exact ⟨hd, by simp⟩
      | some q => exact ⟨hd, by simp [hp]⟩
    · rename_i hd
      simp only [List.any_cons, hd, decide_false, Bool.false_or] at h
      obtain ⟨e, he, h'⟩ := patch_self c p l h
      exact ⟨e, List.mem_cons_of_mem _ he, h'⟩

/-- All of them. -/
def patchAll (outs : List (SlateCoin F)) (l : List SlateCom) : List SlateCom :=
  outs.foldl (fun l o => patchProof o.commit o.proof l) l

private theorem patchAll_commits (outs : List (SlateCoin F)) : ∀ l, (patchAll outs l).map (·.commit) = l.map (·.commit) := by
  induction outs with
  | nil => intro l; rfl
  | cons o outs ih => intro l; simp only [patchAll, List.foldl_cons] at ih ⊢; rw [ih, patch_commits]

private theorem patchAll_mem (outs : List (SlateCoin F)) {e : SlateCom} (he : e.commit ∉ coinCommits outs) :
    ∀ l, e ∈ patchAll outs l ↔ e ∈ l := by
  induction outs with
  | nil => intro l; exact Iff.rfl
  | cons o outs ih =>
    intro l
    have h : e.commit ≠ o.commit ∧ e.commit ∉ coinCommits outs := by simpa [coinCommits] using he
    simp only [patchAll, List.foldl_cons] at ih ⊢
    rw [ih h.2, patch_mem h.1]

private theorem patchAll_self (outs : List (SlateCoin F)) : ∀ l : List SlateCom, (coinCommits outs).Nodup →
    ∀ c ∈ coinCommits outs, c ∈ l.map (·.commit) → ∃ e ∈ patchAll outs l, e.commit = c ∧ e.proof ≠ none := by
  induction outs with
  | nil => intro l _ c hc; cases hc
  | cons o outs ih =>
    intro l hn c hc hl
    have hn' : o.commit ∉ coinCommits outs ∧ (coinCommits outs).Nodup := by simpa [coinCommits] using hn
    simp only [patchAll, List.foldl_cons] at ih ⊢
    by_cases h : c = o.commit
    · obtain ⟨d, hd, hdc⟩ := List.mem_map.1 hl
      obtain ⟨e, he, h1, h2⟩ := patch_self c o.proof l (List.any_eq_true.2 ⟨d, hd, by simpa using hdc⟩)
      refine ⟨e, ?_, h1, h2⟩
      exact (patchAll_mem outs (by rw [h1, h]; exact hn'.1) _).2 (by rw [← h]; exact he)
    · have hc' : c ∈ coinCommits outs := by simpa [coinCommits, h] using hc
      exact ih _ hn'.2 c hc' (by rw [patch_commits]; exact hl)

private theorem fold_outputs (outs : List (SlateCoin F)) : ∀ (s : Slate) (a b : List SlateCom), s.coms = a ++ b →
    (coinCommits outs).Nodup → (∀ c ∈ b.map (·.commit), c ∉ coinCommits outs) →
    (outs.foldl (fun s o => s.addOutput o.features o.commit o.proof) s) =
      withComs s (patchAll outs a ++ b ++ (outs.filter (fun o => !a.any (fun c => c.commit = o.commit))).map outEntry) := by
  induction outs with
  | nil => intro s a b h _ _; simp [patchAll, withComs, ← h]
  | cons o outs ih =>
    intro s a b hs hn hb
    have hn' : o.commit ∉ coinCommits outs ∧ (coinCommits outs).Nodup := by simpa [coinCommits] using hn
    have hb' : ∀ c ∈ b.map (·.commit), c ≠ o.commit ∧ c ∉ coinCommits outs := by
      intro c hc
      simpa [coinCommits] using hb c hc
    have hbo : b.any (fun e => e.commit = o.commit) = false := by
      rw [List.any_eq_false]
      intro e he h
      exact (hb' e.commit (List.mem_map.2 ⟨e, he, rfl⟩)).1 (by simpa using h)
    rw [List.foldl_cons]
    have e0 : s.addOutput o.features o.commit o.proof = withComs s (addOutputTo o.features o.commit o.proof (a ++ b)) := by
      rw [Slate.addOutput, hs, withComs]
    rw [e0, addOutputTo_eq, List.any_append, hbo, Bool.or_false]
    have pa : ∀ l, patchAll (o :: outs) l = patchAll outs (patchProof o.commit o.proof l) := fun l => rfl
    by_cases ha : a.any (fun c => c.commit = o.commit) = true
    · rw [if_pos ha, patch_append, if_pos ha,
        ih (withComs s (patchProof o.commit o.proof a ++ b)) (patchProof o.commit o.proof a) b rfl hn'.2 (fun c hc => (hb' c hc).2),
        List.filter_cons_of_neg (by simpa using ha), pa]
      have hf : outs.filter (fun j => !(patchProof o.commit o.proof a).any (fun c => c.commit = j.commit)) =
          outs.filter (fun j => !a.any (fun c => c.commit = j.commit)) := by
        apply List.filter_congr
        intro j _
        have : ∀ l : List SlateCom, l.any (fun c => c.commit = j.commit) = (l.map (·.commit)).any (fun c => c = j.commit) := by
          intro l; rw [List.any_map]; rfl
        rw [this, this, patch_commits]
      rw [hf]
      rfl
    · have ha' : a.any (fun c => c.commit = o.commit) = false := by simpa using ha
      rw [if_neg ha]
      change List.foldl _ (withComs s (a ++ b ++ [outEntry o])) outs = _
      have hbo' : ∀ c ∈ (b ++ [outEntry o]).map (·.commit), c ∉ coinCommits outs := by
        intro c hc
        rw [List.map_append, List.mem_append] at hc
        rcases hc with hc | hc
        · exact (hb' c hc).2
        · simp only [List.map_cons, List.map_nil, List.mem_singleton] at hc
          rw [hc]; exact hn'.1
      rw [ih (withComs s (a ++ b ++ [outEntry o])) a (b ++ [outEntry o])
        (by simp [withComs]) hn'.2 hbo', List.filter_cons_of_pos (by simpa using ha), pa, patch_other _ _ _ ha']
      simp [withComs]

/-- The entries of the finalized slate: those handed in, with proofs of change put on some, the inputs of the sender that were missing
and the change that was missing. -/
theorem addOwn_coms (c : SendRecord F) (s : Slate) (hn : (coinCommits c.inputs ++ coinCommits c.outputs).Nodup) :
    (addOwn c s).coms = patchAll c.outputs s.coms ++
      (c.inputs.filter (fun i => !s.coms.any (fun d => d.commit = i.commit))).map inEntry ++
      (c.outputs.filter (fun o => !s.coms.any (fun d => d.commit = o.commit))).map outEntry ∧
    addOwn c s = withComs s (addOwn c s).coms := by
  obtain ⟨h1, h2, h3⟩ := List.nodup_append.1 hn
  unfold addOwn
  rw [fold_inputs _ _ h1]
  rw [fold_outputs c.outputs (withComs s (s.coms ++ (c.inputs.filter (fun i => !s.coms.any (fun d => d.commit = i.commit))).map inEntry))
    s.coms ((c.inputs.filter (fun i => !s.coms.any (fun d => d.commit = i.commit))).map inEntry) rfl h2 (by
      intro x hx hx'
      rw [List.map_map] at hx
      obtain ⟨i, hi, rfl⟩ := List.mem_map.1 hx
      exact h3 i.commit (List.mem_map.2 ⟨i, List.mem_of_mem_filter hi, rfl⟩) _ hx' rfl)]
  exact ⟨rfl, rfl⟩

private theorem nodup_perm {l m : List Bytes} (hn : l.Nodup) (h : ∀ x ∈ l, x ∈ m) : ∃ r, m.Perm (l ++ r) := by
  obtain ⟨l', h1, h2⟩ := List.subperm_of_subset hn h
  obtain ⟨r, hr⟩ := h2.exists_perm_append
  exact ⟨r, hr.trans (h1.append_right r)⟩

private theorem insOf_inEntry (l : List (SlateCoin F)) : insOf (l.map inEntry) = coinCommits l ∧ outsOf (l.map inEntry) = [] := by
  induction l with
  | nil => exact ⟨rfl, rfl⟩
  | cons i l ih =>
    have e1 : insOf ((i :: l).map inEntry) = i.commit :: insOf (l.map inEntry) := rfl
    have e2 : outsOf ((i :: l).map inEntry) = outsOf (l.map inEntry) := rfl
    rw [e1, e2, ih.1, ih.2]
    exact ⟨rfl, rfl⟩

private theorem outsOf_outEntry (l : List (SlateCoin F)) : outsOf (l.map outEntry) = coinCommits l ∧ insOf (l.map outEntry) = [] := by
  induction l with
  | nil => exact ⟨rfl, rfl⟩
  | cons i l ih =>
    have e1 : outsOf ((i :: l).map outEntry) = i.commit :: outsOf (l.map outEntry) := rfl
    have e2 : insOf ((i :: l).map outEntry) = insOf (l.map outEntry) := rfl
    rw [e1, e2, ih.1, ih.2]
    exact ⟨rfl, rfl⟩

private theorem mem_insOf {l : List SlateCom} {c : Bytes} : c ∈ insOf l ↔ ∃ e ∈ l, e.commit = c ∧ e.proof = none := by
  simp only [insOf, List.mem_map, List.mem_filter, decide_eq_true_eq]
  constructor
  · rintro ⟨e, ⟨h1, h2⟩, h3⟩; exact ⟨e, h1, h3, h2⟩
  · rintro ⟨e, h1, h3, h2⟩; exact ⟨e, ⟨h1, h2⟩, h3⟩

private theorem mem_outsOf {l : List SlateCom} {c : Bytes} : c ∈ outsOf l ↔ ∃ e ∈ l, e.commit = c ∧ e.proof ≠ none := by
  simp only [outsOf, List.mem_map, List.mem_filter, decide_eq_true_eq]
  constructor
  · rintro ⟨e, ⟨h1, h2⟩, h3⟩; exact ⟨e, h1, h3, h2⟩
  · rintro ⟨e, h1, h3, h2⟩; exact ⟨e, ⟨h1, h2⟩, h3⟩

private theorem coin_split (l : List (SlateCoin F)) (a : List SlateCom) :
    (coinCommits (l.filter (fun i => !a.any (fun d => d.commit = i.commit))) ++
      coinCommits (l.filter (fun i => a.any (fun d => d.commit = i.commit)))).Perm (coinCommits l) := by
  rw [coinCommits, coinCommits, ← List.map_append]
  refine List.Perm.map _ ?_
  have := List.filter_append_perm (fun i : SlateCoin F => a.any (fun d => d.commit = i.commit)) l
  exact List.perm_append_comm.trans this

/-- Whose commitments the inputs and outputs of the finalized slate are. -/
private theorem own_split (c : SendRecord F) (s : Slate) (hn : (coinCommits c.inputs ++ coinCommits c.outputs).Nodup) :
    ∃ own flipped restIn restOut,
      (own ++ flipped).Perm (coinCommits c.inputs) ∧
      (∀ x ∈ flipped, ∃ e ∈ s.coms, e.commit = x ∧ e.proof ≠ none) ∧
      (insOf (addOwn c s).coms).Perm (own ++ restIn) ∧
      (outsOf (addOwn c s).coms).Perm (coinCommits c.outputs ++ flipped ++ restOut) ∧
      (∀ x ∈ restIn ++ restOut, x ∈ s.coms.map (·.commit)) := by
  obtain ⟨n1, n2, n3⟩ := List.nodup_append.1 hn
  rw [(addOwn_coms c s hn).1]
  generalize hP : patchAll c.outputs s.coms = P
  have hPc : P.map (·.commit) = s.coms.map (·.commit) := by rw [← hP, patchAll_commits]
  have sIn := coin_split c.inputs s.coms
  have sOut := coin_split c.outputs s.coms
  have oldIn : ∀ x ∈ coinCommits (c.inputs.filter (fun i => s.coms.any (fun d => d.commit = i.commit))), x ∈ P.map (·.commit) := by
    intro x hx
    obtain ⟨i, hi, rfl⟩ := List.mem_map.1 hx
    obtain ⟨d, hd, h⟩ := List.any_eq_true.1 (List.mem_filter.1 hi).2
    rw [hPc]
    exact List.mem_map.2 ⟨d, hd, by simpa using h⟩
  have oldOut : ∀ x ∈ coinCommits (c.outputs.filter (fun i => s.coms.any (fun d => d.commit = i.commit))), x ∈ outsOf P := by
    intro x hx
    obtain ⟨i, hi, rfl⟩ := List.mem_map.1 hx
    obtain ⟨d, hd, h⟩ := List.any_eq_true.1 (List.mem_filter.1 hi).2
    obtain ⟨e, he⟩ := patchAll_self c.outputs s.coms n2 i.commit (List.mem_map.2 ⟨i, List.mem_of_mem_filter hi, rfl⟩)
      (List.mem_map.2 ⟨d, hd, by simpa using h⟩)
    rw [hP] at he
    exact mem_outsOf.2 ⟨e, he.1, he.2⟩
  generalize hNI : c.inputs.filter (fun i => !s.coms.any (fun d => d.commit = i.commit)) = NI at sIn ⊢
  generalize hOI : c.inputs.filter (fun i => s.coms.any (fun d => d.commit = i.commit)) = OI at sIn oldIn
  generalize hNO : c.outputs.filter (fun i => !s.coms.any (fun d => d.commit = i.commit)) = NO at sOut ⊢
  generalize hOO : c.outputs.filter (fun i => s.coms.any (fun d => d.commit = i.commit)) = OO at sOut oldOut
  rw [insOf_append, insOf_append, outsOf_append, outsOf_append, (insOf_inEntry NI).1, (insOf_inEntry NI).2,
    (outsOf_outEntry NO).1, (outsOf_outEntry NO).2, List.append_nil, List.append_nil]
  have nOI : (coinCommits OI).Nodup := (List.nodup_append.1 (sIn.nodup_iff.2 n1)).2.1
  have nOO : (coinCommits OO).Nodup := (List.nodup_append.1 (sOut.nodup_iff.2 n2)).2.1
  have inCtx : ∀ x ∈ coinCommits OI, x ∈ coinCommits c.inputs := fun x hx => sIn.mem_iff.1 (List.mem_append_right _ hx)
  have outCtx : ∀ x ∈ coinCommits OO, x ∈ coinCommits c.outputs := fun x hx => sOut.mem_iff.1 (List.mem_append_right _ hx)
  have flip : ∀ x ∈ (coinCommits OI).filter (fun x => !decide (x ∈ insOf P)), x ∈ outsOf P := by
    intro x hx
    obtain ⟨h1, h2⟩ := List.mem_filter.1 hx
    obtain ⟨e, he, hc⟩ := List.mem_map.1 (oldIn x h1)
    refine mem_outsOf.2 ⟨e, he, hc, fun hp => ?_⟩
    simp only [Bool.not_eq_true', decide_eq_false_iff_not] at h2
    exact h2 (mem_insOf.2 ⟨e, he, hc, hp⟩)
  obtain ⟨restIn, hI⟩ := nodup_perm (l := (coinCommits OI).filter (fun x => decide (x ∈ insOf P))) (m := insOf P) (nOI.filter _)
    (fun x hx => of_decide_eq_true (List.mem_filter.1 hx).2)
  have nO : (coinCommits OO ++ (coinCommits OI).filter (fun x => !decide (x ∈ insOf P))).Nodup := by
    refine List.nodup_append.2 ⟨nOO, nOI.filter _, ?_⟩
    intro x hx y hy e
    exact n3 y (inCtx y (List.mem_of_mem_filter hy)) x (outCtx x hx) e.symm
  obtain ⟨restOut, hO⟩ := nodup_perm (m := outsOf P) nO (by
    intro x hx
    rcases List.mem_append.1 hx with h | h
    · exact oldOut x h
    · exact flip x h)
  refine ⟨coinCommits NI ++ (coinCommits OI).filter (fun x => decide (x ∈ insOf P)),
    (coinCommits OI).filter (fun x => !decide (x ∈ insOf P)), restIn, restOut, ?_, ?_, ?_, ?_, ?_⟩
  · rw [List.append_assoc]
    exact ((List.filter_append_perm (fun x => decide (x ∈ insOf P)) (coinCommits OI)).append_left _).trans sIn
  · intro x hx
    obtain ⟨e, he, h1, h2⟩ := mem_outsOf.1 (flip x hx)
    have hx' := inCtx x (List.mem_of_mem_filter hx)
    rw [← hP] at he
    exact ⟨e, (patchAll_mem c.outputs (by rw [h1]; exact fun h => n3 x hx' x h rfl) _).1 he, h1, h2⟩
  · rw [List.append_assoc]
    exact List.perm_append_comm.trans (hI.append_left _)
  · have h1 : (outsOf P ++ coinCommits NO).Perm (coinCommits NO ++ (coinCommits OO ++
        (coinCommits OI).filter (fun x => !decide (x ∈ insOf P)) ++ restOut)) :=
      List.perm_append_comm.trans (hO.append_left _)
    refine h1.trans ?_
    rw [← List.append_assoc, ← List.append_assoc]
    exact (sOut.append_right _).append_right _
  · intro x hx
    have : x ∈ insOf P ∨ x ∈ outsOf P := by
      rcases List.mem_append.1 hx with h | h
      · exact Or.inl (hI.mem_iff.2 (List.mem_append_right _ h))
      · exact Or.inr (hO.mem_iff.2 (List.mem_append_right _ h))
    rw [← hPc]
    rcases this with h | h
    · obtain ⟨e, he, h1, _⟩ := mem_insOf.1 h
      exact List.mem_map.2 ⟨e, he, h1⟩
    · obtain ⟨e, he, h1, _⟩ := mem_outsOf.1 h
      exact List.mem_map.2 ⟨e, he, h1⟩

/-! ## The theorem -/

section
variable {F G X M : Type} [Field F] [AddCommGroup G] [Module F G] [DecidableEq G] [DecidableEq X]

/-- What the sender's wallet stored when the slate was made (SendSlateBuilder.cpp:57-200): coins that are all different and committed to
with the curve's generators, a secret key from their blinding factors and the share `so` of the offset, and a balance: what is spent is the
change, the amount and the fee. -/
structure FairRecord (C : Curve G) (c : SendRecord F) (so : F) : Prop where
  distinct : (coinCommits c.inputs ++ coinCommits c.outputs).Nodup
  coins : ∀ x ∈ c.inputs ++ c.outputs, point C x.commit = x.value • C.genV + x.blind • C.genB
  key : c.key = (c.outputs.map (·.blind)).sum - (c.inputs.map (·.blind)).sum - so
  balance : (c.inputs.map (·.value)).sum = (c.outputs.map (·.value)).sum + c.sent.amount + c.sent.fee.fee

/-- How the commitments of a transaction divide: the coins of the sender it spends (`own`), those coins of the sender which the slate
handed in lists with a range proof and which are therefore made instead of spent (`flipped`), the change, and what others spend and
make. -/
structure Shares (c : SendRecord F) (r : Slate) (tx : Tx) (own flipped restIn restOut : List Bytes) : Prop where
  mine : (own ++ flipped).Perm (c.inputs.map (·.commit))
  listed : ∀ x ∈ flipped, ∃ e ∈ r.coms, e.commit = x ∧ e.proof ≠ none
  inputs : (tx.body.inputs.map (·.commit)).Perm (own ++ restIn)
  outputs : (tx.body.outputs.map (·.commit)).Perm (c.outputs.map (·.commit) ++ flipped ++ restOut)
  others : ∀ x ∈ restIn ++ restOut, x ∈ r.coms.map (·.commit)

omit [DecidableEq G] in
private theorem coins_total (C : Curve G) : ∀ l : List (SlateCoin F),
    (∀ x ∈ l, point C x.commit = x.value • C.genV + x.blind • C.genB) →
    total C (coinCommits l) = (l.map (·.value)).sum • C.genV + (l.map (·.blind)).sum • C.genB
  | [], _ => by simp [coinCommits, total]
  | x :: l, h => by
    have e : coinCommits (x :: l) = x.commit :: coinCommits l := rfl
    rw [e, total_cons, h x List.mem_cons_self, coins_total C l fun y hy => h y (List.mem_cons_of_mem _ hy)]
    simp only [List.map_cons, List.sum_cons, add_smul]
    abel

omit [DecidableEq G] in
private theorem total_perm (C : Curve G) {a b : List Bytes} (h : a.Perm b) : total C a = total C b :=
  (h.map _).sum_eq

theorem sorted_perm_of {α : Type} (h : α → Nat) (l : List α) : (sortByHash h l).Perm l := List.mergeSort_perm l _

variable {S : Scheme F G X M} {O : SlateOps F G X M} {pl : ProofLib G}

/-- What finalizing does, taken apart. -/
private theorem finalize_parts {H : DigestNum} {kernelOk : Kernel → Bool} {check : Tx → Res Unit} {c : SendRecord F} {r s' : Slate} {tx : Tx}
    (h : finalizeSlate S O pl H kernelOk check c r = .ok (s', tx)) :
    ∃ (o : Bytes) (m : Slate) (es signed : List (Entry F G X)) (P : G) (sig : X × F), finalOffset c r = .ok o ∧
      m = addOwn c { r with
        stage := .standardFinalized, offset := o, amount := c.sent.amount, fee := c.sent.fee, features := c.sent.features,
        featureArgs := c.sent.featureArgs, ttl := c.sent.ttl } ∧
      s' = { m with sigs := signed.map O.back } ∧
      finalizeSign S c.key c.nonce es (O.message m.features m.fee m.lockHeight) = .ok (signed, P, sig) ∧
      verifyProofs pl c.proof (m.proof.map proofOf) m.amount P = true ∧
      kernelOk ⟨m.features, m.fee, m.lockHeight, pl.point P, O.sig sig⟩ = true ∧
      tx = buildTransaction H m.inputs m.outputs ⟨m.features, m.fee, m.lockHeight, pl.point P, O.sig sig⟩ m.offset ∧
      check tx = .ok () := by
  obtain ⟨m, h1, h⟩ := Res.bind_eq_ok.1 h
  obtain ⟨es, h2, h⟩ := Res.bind_eq_ok.1 h
  obtain ⟨signed, h3, h⟩ := Res.bind_eq_ok.1 h
  obtain ⟨P, h4, h⟩ := Res.bind_eq_ok.1 h
  by_cases hv : verifyProofs pl c.proof (m.proof.map proofOf) m.amount P = true
  case neg => dsimp only at h; rw [if_neg hv] at h; cases h
  dsimp only at h
  rw [if_pos hv] at h
  obtain ⟨sig, h5, h⟩ := Res.bind_eq_ok.1 h
  by_cases ha : verifyAggregate S sig P (O.message m.features m.fee m.lockHeight) = true
  case neg => rw [if_neg ha] at h; cases h
  rw [if_pos ha] at h
  by_cases hk : kernelOk ⟨m.features, m.fee, m.lockHeight, pl.point P, O.sig sig⟩ = true
  case neg =>
    have : kernelOk ⟨m.features, m.fee, Slate.lockHeight { m with sigs := signed.map O.back }, pl.point P, O.sig sig⟩ ≠ true := hk
    rw [if_neg this] at h; cases h
  have hk' : kernelOk ⟨m.features, m.fee, Slate.lockHeight { m with sigs := signed.map O.back }, pl.point P, O.sig sig⟩ = true := hk
  rw [if_pos hk'] at h
  obtain ⟨_, h6, h⟩ := Res.bind_eq_ok.1 h
  simp only [Res.pure_eq, Res.ok.injEq, Prod.mk.injEq] at h
  obtain ⟨rfl, rfl⟩ := h
  obtain ⟨o, g1, g2⟩ := Res.bind_eq_ok.1 h1
  simp only [Res.pure_eq, Res.ok.injEq] at g2
  refine ⟨o, m, es, signed, P, sig, g1, g2.symm, rfl, ?_, hv, hk, rfl, h6⟩
  exact Res.bind_eq_ok.2 ⟨_, h3, Res.bind_eq_ok.2 ⟨_, h4, Res.bind_eq_ok.2 ⟨_, h5, by rw [if_pos ha]; rfl⟩⟩⟩

/-- **C122.**  Whatever slate is handed in: if finalizing succeeds, then the transaction has one kernel, with the features, fee and lock
height of the slate the sender sent and a valid signature over them under the sum of the excesses on the finalized slate, the sender's
among them; its commitments divide into the sender's coins, the change, and what
others add; and what others receive beyond what they spend is the amount, up to blinding factors: the excess that is not the sender's and
the part of the offset that is not the sender's.  Coins of the sender that are listed as outputs count twice in the sender's favour. -/
theorem sender_pays {C : Curve G} {env : Env} {H : DigestNum} {kernelOk : Kernel → Bool} {proofs : List (Bytes × Bytes) → Bool}
    {sigs : List Kernel → Bool} {height : Nat} {c : SendRecord F} {r s' : Slate} {tx : Tx} {so : F}
    (hpt : ∀ g : G, g ≠ 0 → point C (pl.point g) = g) (hc : FairRecord C c so)
    (h : finalizeSlate S O pl H kernelOk (validateTx env C H proofs sigs height) c r = .ok (s', tx)) :
    ∃ (P : G) (sig : X × F), tx.body.kernels = [⟨c.sent.features, c.sent.fee, c.sent.lockHeight, pl.point P, O.sig sig⟩] ∧
      SchnorrValid S sig P (O.message c.sent.features c.sent.fee c.sent.lockHeight) ∧
      (∃ es : List (Entry F G X), s'.sigs = es.map O.back ∧ P = (es.map (·.excess)).sum ∧ c.key • S.gen ∈ es.map (·.excess)) ∧
      ∃ own flipped restIn restOut, Shares c r tx own flipped restIn restOut ∧
        total C restOut - total C restIn + total C flipped + total C flipped =
          c.sent.amount • C.genV + (P - c.key • C.genB) + ((beVal tx.offset : F) - so) • C.genB := by
  obtain ⟨o, m, es, signed, P, sig, ho, hm, rfl, hs, hv, hk, htx, hcheck⟩ := finalize_parts h
  have hcoms := addOwn_coms c { r with
        stage := .standardFinalized, offset := o, amount := c.sent.amount, fee := c.sent.fee, features := c.sent.features,
        featureArgs := c.sent.featureArgs, ttl := c.sent.ttl } hc.distinct
  rw [← hm] at hcoms
  have e1 : m.features = c.sent.features := by rw [hcoms.2]; rfl
  have e2 : m.fee = c.sent.fee := by rw [hcoms.2]; rfl
  have e3 : m.lockHeight = c.sent.lockHeight := by rw [hcoms.2]; rfl
  have e4 : m.offset = o := by rw [hcoms.2]; rfl
  rw [e1, e2, e3] at hs htx
  obtain ⟨own, flipped, restIn, restOut, p1, p2, p3, p4, p5⟩ := own_split c { r with
        stage := .standardFinalized, offset := o, amount := c.sent.amount, fee := c.sent.fee, features := c.sent.features,
        featureArgs := c.sent.featureArgs, ttl := c.sent.ttl } hc.distinct
  rw [← hm, ← inputs_commits] at p3
  rw [← hm, ← outputs_commits] at p4
  have hin : (tx.body.inputs.map (·.commit)).Perm (own ++ restIn) := by
    rw [htx]; exact ((sorted_perm_of _ _).map _).trans p3
  have hout : (tx.body.outputs.map (·.commit)).Perm (c.outputs.map (·.commit) ++ flipped ++ restOut) := by
    rw [htx]; exact ((sorted_perm_of _ _).map _).trans p4
  have hker : tx.body.kernels = [⟨c.sent.features, c.sent.fee, c.sent.lockHeight, pl.point P, O.sig sig⟩] := by
    rw [htx]; exact List.perm_singleton.1 (sorted_perm_of _ _)
  have hsound := finalize_sound (S := S) hs
  refine ⟨P, sig, hker, hsound.1, ⟨signed, rfl, hsound.2.1, hsound.2.2.1⟩, own, flipped, restIn, restOut, ⟨p1, p2, hin, hout, p5⟩, ?_⟩
  obtain ⟨_, _, _, hsum⟩ := validator_ok env C H proofs sigs height tx hcheck
  obtain ⟨b, hb⟩ := hsum
  have hbal := transaction_balances C tx b hb
  have hP0 : P ≠ 0 := by
    obtain ⟨l, _, hs⟩ := Res.bind_eq_ok.1 hs
    obtain ⟨P', h2, hs⟩ := Res.bind_eq_ok.1 hs
    obtain ⟨sig', _, hs⟩ := Res.bind_eq_ok.1 hs
    split at hs
    · simp only [Res.pure_eq, Res.ok.injEq, Prod.mk.injEq] at hs
      obtain ⟨_, rfl, _⟩ := hs
      unfold totalExcess addPubs at h2
      split at h2
      · cases h2
      · rename_i hne
        rw [← Res.ok.inj h2]; exact hne
    · cases hs
  rw [hker, total_perm C hin, total_perm C hout] at hbal
  simp only [List.map_cons, List.map_nil, List.sum_cons, List.sum_nil, add_zero, total_cons, total_nil, hpt P hP0,
    total_append] at hbal
  have t1 := coins_total C c.inputs fun x hx => hc.coins x (List.mem_append_left _ hx)
  have t2 := coins_total C c.outputs fun x hx => hc.coins x (List.mem_append_right _ hx)
  have t3 := total_perm C p1
  rw [total_append] at t3
  have t1' : total C own = (c.inputs.map (·.value)).sum • C.genV + (c.inputs.map (·.blind)).sum • C.genB - total C flipped := by
    rw [← t1, ← t3]; abel
  have t2' : total C (c.outputs.map (·.commit)) = (c.outputs.map (·.value)).sum • C.genV + (c.outputs.map (·.blind)).sum • C.genB := t2
  rw [t1', t2', hc.balance] at hbal
  have hoff : beVal tx.offset • C.genB = (beVal tx.offset : F) • C.genB := (Nat.cast_smul_eq_nsmul F _ _).symm
  rw [hoff] at hbal
  rw [hc.key]
  simp only [add_smul, sub_smul] at hbal ⊢
  generalize (c.outputs.map (·.value)).sum • C.genV = a1 at *
  generalize (c.outputs.map (·.blind)).sum • C.genB = a2 at *
  generalize (c.inputs.map (·.blind)).sum • C.genB = a3 at *
  generalize c.sent.amount • C.genV = a4 at *
  generalize c.sent.fee.fee • C.genV = a5 at *
  generalize (beVal tx.offset : F) • C.genB = a6 at *
  have : total C restOut = P + a6 - a1 - a2 - total C flipped - a5 + (a1 + a4 + a5 + a3 - total C flipped + total C restIn) := by
    rw [← hbal]; abel
  rw [this]
  abel

/-- The commitments `cs` open to the values and blinding factors `l`. -/
def Opens (C : Curve G) (cs : List Bytes) (l : List (Nat × F)) : Prop :=
  List.Forall₂ (fun c x => point C c = x.1 • C.genV + x.2 • C.genB) cs l

omit [DecidableEq G] in
private theorem opens_total {C : Curve G} {cs : List Bytes} {l : List (Nat × F)} (h : Opens C cs l) :
    total C cs = (l.map (·.1)).sum • C.genV + (l.map (·.2)).sum • C.genB := by
  induction h with
  | nil => simp [total]
  | cons a _ ih =>
    rw [total_cons, a, ih]
    simp only [List.map_cons, List.sum_cons, add_smul]
    abel

/-- **C122.**  Where nothing is known that turns value into blinding factor: if what others spend and make opens to values, and the
rest of the kernel's excess is a blinding factor, then the values others make exceed those they spend by the amount of the slate the
sender sent, and no less than that by twice what they leave unspent of the sender's coins. -/
theorem others_get_the_amount {C : Curve G} {env : Env} {H : DigestNum} {kernelOk : Kernel → Bool}
    {proofs : List (Bytes × Bytes) → Bool} {sigs : List Kernel → Bool} {height : Nat} {c : SendRecord F} {r s' : Slate} {tx : Tx} {so : F}
    (hpt : ∀ g : G, g ≠ 0 → point C (pl.point g) = g) (hc : FairRecord C c so)
    (hind : ∀ a b : F, a • C.genV + b • C.genB = 0 → a = 0)
    (h : finalizeSlate S O pl H kernelOk (validateTx env C H proofs sigs height) c r = .ok (s', tx)) :
    ∃ P own flipped restIn restOut, Shares c r tx own flipped restIn restOut ∧ tx.body.kernels.map (·.excess) = [pl.point P] ∧
      ∀ (x : F) (fl ri ro : List (Nat × F)), P = c.key • C.genB + x • C.genB → Opens C flipped fl → Opens C restIn ri →
        Opens C restOut ro →
        (((ro.map (·.1)).sum + 2 * (fl.map (·.1)).sum : Nat) : F) = ((ri.map (·.1)).sum + c.sent.amount : Nat) := by
  obtain ⟨P, sig, hk, _, _, own, flipped, restIn, restOut, hs, he⟩ := sender_pays hpt hc h
  refine ⟨P, own, flipped, restIn, restOut, hs, by rw [hk]; rfl, ?_⟩
  intro x fl ri ro hP h1 h2 h3
  rw [opens_total h1, opens_total h2, opens_total h3, hP] at he
  simp only [← Nat.cast_smul_eq_nsmul F] at he
  have := hind ((((ro.map (·.1)).sum + 2 * (fl.map (·.1)).sum : Nat) : F) - ((ri.map (·.1)).sum + c.sent.amount : Nat))
    ((ro.map (·.2)).sum - (ri.map (·.2)).sum + (fl.map (·.2)).sum + (fl.map (·.2)).sum - x - (beVal tx.offset : F) + so) (by
      rw [← sub_eq_zero] at he
      rw [← he]
      push_cast
      module)
  exact sub_eq_zero.1 this

end

/-! ## The fee -/

section
variable {F G X M : Type} [Field F] [AddCommGroup G] [Module F G] [DecidableEq G] [DecidableEq X]
variable {S : Scheme F G X M} {O : SlateOps F G X M} {pl : ProofLib G}

omit [Field F] in
private theorem filter_new (l : List (SlateCoin F)) (e : SlateCom) (h : e.commit ∉ coinCommits l) :
    l.filter (fun i => !([e] : List SlateCom).any (fun d => d.commit = i.commit)) = l := by
  rw [List.filter_eq_self]
  intro i hi
  have : e.commit ≠ i.commit := fun he => h (by rw [he]; exact List.mem_map.2 ⟨i, hi, rfl⟩)
  simp [this]

/-- **C123, for the answers an honest receiver gives.**  If the answer adds one output and nothing else, and the fee of the slate sent is
what the wallet charges for its coins, its change and one more output, then the finalized transaction has these inputs and outputs and
nothing else, and its fee is at least the minimum nodes ask for. -/
theorem finalized_fee_partial {H : DigestNum} {env : Env} {base height : Nat} {kernelOk : Kernel → Bool} {check : Tx → Res Unit}
    {c : SendRecord F} {r s' : Slate} {tx : Tx} {e : SlateCom}
    (hn : (coinCommits c.inputs ++ coinCommits c.outputs).Nodup) (he : e.proof ≠ none) (hr : r.coms = [e])
    (hnew : e.commit ∉ coinCommits c.inputs ++ coinCommits c.outputs)
    (hv : 5 ≤ headerVersion env height) (hshift : c.sent.fee.shift = 0)
    (hfee : calcFee base c.inputs.length (c.outputs.length + 1) 1 ≤ c.sent.fee.fee) (hb : c.sent.fee.fee < 2 ^ 64)
    (h : finalizeSlate S O pl H kernelOk check c r = .ok (s', tx)) :
    (tx.body.inputs.map (·.commit)).Perm (coinCommits c.inputs) ∧
      (tx.body.outputs.map (·.commit)).Perm (e.commit :: coinCommits c.outputs) ∧
      feeMeetsMinimum env base height tx = true := by
  obtain ⟨o, m, es, signed, P, sig, ho, hm, rfl, hs, hvp, hk, htx, hcheck⟩ := finalize_parts h
  have hcoms := addOwn_coms c { r with
        stage := .standardFinalized, offset := o, amount := c.sent.amount, fee := c.sent.fee, features := c.sent.features,
        featureArgs := c.sent.featureArgs, ttl := c.sent.ttl } hn
  rw [← hm] at hcoms
  have e2 : m.fee = c.sent.fee := by rw [hcoms.2]; rfl
  have hc := hcoms.1
  simp only [hr] at hc
  rw [List.mem_append, not_or] at hnew
  have hP : patchAll c.outputs [e] = [e] := by
    have hl : (patchAll c.outputs [e]).map (·.commit) = [e.commit] := by rw [patchAll_commits]; rfl
    have hm' : e ∈ patchAll c.outputs [e] := (patchAll_mem c.outputs hnew.2 _).2 List.mem_cons_self
    have hlen : (patchAll c.outputs [e]).length = 1 := by
      have := congrArg List.length hl
      simpa using this
    obtain ⟨d, hd⟩ := List.length_eq_one_iff.1 hlen
    rw [hd] at hm' ⊢
    rw [List.mem_singleton.1 hm']
  rw [hP, filter_new _ _ hnew.1, filter_new _ _ hnew.2] at hc
  have hin : m.inputs.map (·.commit) = coinCommits c.inputs := by
    rw [inputs_commits, hc, insOf_append, insOf_append, (insOf_inEntry _).1, (outsOf_outEntry _).2, List.append_nil]
    have : insOf [e] = [] := by simp [insOf, he]
    rw [this, List.nil_append]
  have hout : m.outputs.map (·.commit) = e.commit :: coinCommits c.outputs := by
    rw [outputs_commits, hc, outsOf_append, outsOf_append, (insOf_inEntry _).2, (outsOf_outEntry _).1, List.append_nil]
    have : outsOf [e] = [e.commit] := by simp [outsOf, he]
    rw [this, List.singleton_append]
  have pin : (tx.body.inputs.map (·.commit)).Perm (coinCommits c.inputs) := by
    rw [htx, ← hin]; exact (sorted_perm_of _ _).map _
  have pout : (tx.body.outputs.map (·.commit)).Perm (e.commit :: coinCommits c.outputs) := by
    rw [htx, ← hout]; exact (sorted_perm_of _ _).map _
  refine ⟨pin, pout, ?_⟩
  have hker : tx.body.kernels = [⟨m.features, m.fee, m.lockHeight, pl.point P, O.sig sig⟩] := by
    rw [htx]; exact List.perm_singleton.1 (sorted_perm_of _ _)
  have l1 : tx.body.inputs.length = c.inputs.length := by
    have := pin.length_eq
    simpa [coinCommits] using this
  have l2 : tx.body.outputs.length = c.outputs.length + 1 := by
    have := pout.length_eq
    simpa [coinCommits] using this
  have hw : calcWeight env height tx.body = weightV5 c.inputs.length (c.outputs.length + 1) 1 := by
    unfold calcWeight
    rw [if_neg (by omega), l1, l2, hker]
    rfl
  have hsft : feeShift tx.body = 0 := by
    unfold feeShift
    rw [hker]
    simp [e2, hshift]
  unfold feeMeetsMinimum
  rw [hw, hsft, hker]
  simp only [List.map_cons, List.map_nil, List.sum_cons, List.sum_nil, Nat.add_zero, e2, pow_zero, Nat.mul_one, ge_iff_le, decide_eq_true_eq]
  rw [Nat.mod_mod, Nat.mod_eq_of_lt hb]
  exact hfee

end

/-! ## A payment -/

section Sample

/-- Pairs of integers modulo 11 as points: the first component counts the value. -/
def pairs : Curve (ZMod 11 × ZMod 11) where
  parse
    | [8, a, b] => some ((a.toNat : ZMod 11), (b.toNat : ZMod 11))
    | _ => none
  ser g := [8, UInt8.ofNat g.1.val, UInt8.ofNat g.2.val]
  genV := (1, 0)
  genB := (0, 1)
  order := 11
  parse_ser := by decide +kernel
  ser_ne := by decide +kernel

/-- Signatures over these points. -/
def pairScheme : Scheme (ZMod 11) (ZMod 11 × ZMod 11) (ZMod 11) (ZMod 11) where
  gen := (0, 1)
  quad p := if p.2 = 0 then decide (p.1.val < 6) else decide (p.2.val < 6)
  xof p := p.1 * p.1 + p.2 * p.2
  challenge x P m := x + 3 * P.2 + m
  quad_neg := by decide +kernel
  xof_neg := by decide +kernel

/-- Entries and messages as bytes. -/
def pairOps : SlateOps (ZMod 11) (ZMod 11 × ZMod 11) (ZMod 11) (ZMod 11) where
  entry s :=
    match pairs.parse s.excess, pairs.parse s.nonce, s.partialSig with
    | some e, some n, none => some ⟨e, n, none⟩
    | some e, some n, some [x, y] => some ⟨e, n, some ((x.toNat : ZMod 11), (y.toNat : ZMod 11))⟩
    | _, _, _ => none
  back e := ⟨pairs.ser e.excess, pairs.ser e.nonce, e.part.map fun p => [UInt8.ofNat p.1.val, UInt8.ofNat p.2.val]⟩
  sig p := [UInt8.ofNat p.1.val, UInt8.ofNat p.2.val]
  message f fee l := (f + fee.fee + l : Nat)

private def pairProofs : ProofLib (ZMod 11 × ZMod 11) where
  edPub b := b
  edSign _ m := m
  edVerify _ s m := s = m
  point := pairs.ser

/-- An amount of 6 at a fee of 46 from a coin of 61, with a change of 9. -/
private def sentSlate : Slate :=
  ⟨List.replicate 16 1, .standardSent, 4, 5, 2, 0, 0, none, List.replicate 31 0 ++ [2], 6, ⟨0, 46⟩, [], [], none⟩

private def sample : SendRecord (ZMod 11) :=
  ⟨sentSlate, some (List.replicate 31 0 ++ [2]), none, 2, 2, [⟨0, [8, 6, 4], [], 61, 4⟩], [⟨0, [8, 9, 8], [1], 9, 8⟩]⟩

/-- The answer of a receiver with the key 5 and the nonce 4, who makes the given outputs. -/
private def reply (coms : List SlateCom) : Slate :=
  { sentSlate with
    stage := .standardReceived, amount := 0, fee := ⟨0, 0⟩, offset := List.replicate 31 0 ++ [3], coms := coms,
    sigs := [pairOps.back (answer pairScheme 2 2 5 4 2)] }

private theorem sort_id {α : Type} {h : α → Nat} {l : List α} (hl : l.Pairwise (fun a b => h a ≤ h b)) : sortByHash h l = l := by
  unfold sortByHash
  exact List.mergeSort_of_pairwise (hl.imp fun hab => by simpa using hab)

/-- The height of the next block. -/
private def sampleHeight : Nat := 1048600

private def sampleCheck (tx : Tx) : Res Unit := validateTx .mainnet pairs beVal (fun _ => true) (fun _ => true) sampleHeight tx

/-- The merged slate, its signed entries, the excess and the signature, without the transaction. -/
private def samplePart (r : Slate) : Res (Slate × List (Entry (ZMod 11) (ZMod 11 × ZMod 11) (ZMod 11)) × (ZMod 11 × ZMod 11) × (ZMod 11 × ZMod 11)) := do
  let m ← mergeSlate sample r
  let es ← readEntries pairOps.entry m.sigs
  let signed ← addPartial pairScheme sample.key sample.nonce es (pairOps.message m.features m.fee m.lockHeight)
  let P ← totalExcess signed
  let sig ← aggregateSlate pairScheme signed
  if verifyAggregate pairScheme sig P (pairOps.message m.features m.fee m.lockHeight) then return (m, signed, P, sig) else .throw

/-- The transaction of these parts where nothing is out of order. -/
private def plainTx (m : Slate) (P : ZMod 11 × ZMod 11) (sig : ZMod 11 × ZMod 11) : Tx :=
  ⟨m.offset, ⟨m.inputs, m.outputs, [⟨m.features, m.fee, m.lockHeight, pairProofs.point P, pairOps.sig sig⟩]⟩⟩

private theorem sample_ok {r m : Slate} {es : List (Entry (ZMod 11) (ZMod 11 × ZMod 11) (ZMod 11))} {P : ZMod 11 × ZMod 11}
    {sig : ZMod 11 × ZMod 11} (h : samplePart r = .ok (m, es, P, sig))
    (h1 : m.inputs.Pairwise fun a b => inputHash beVal a ≤ inputHash beVal b)
    (h2 : m.outputs.Pairwise fun a b => outputHash beVal a ≤ outputHash beVal b)
    (h3 : sampleCheck (plainTx m P sig) = .ok ()) :
    finalizeSlate pairScheme pairOps pairProofs beVal (fun _ => true) sampleCheck sample r =
      .ok ({ m with sigs := es.map pairOps.back }, plainTx m P sig) := by
  obtain ⟨m', g1, h⟩ := Res.bind_eq_ok.1 h
  obtain ⟨es', g2, h⟩ := Res.bind_eq_ok.1 h
  obtain ⟨si', g3, h⟩ := Res.bind_eq_ok.1 h
  obtain ⟨P', g4, h⟩ := Res.bind_eq_ok.1 h
  obtain ⟨sg', g5, h⟩ := Res.bind_eq_ok.1 h
  split at h
  · rename_i g6
    simp only [Res.pure_eq, Res.ok.injEq, Prod.mk.injEq] at h
    obtain ⟨rfl, rfl, rfl, rfl⟩ := h
    refine Res.bind_eq_ok.2 ⟨_, g1, Res.bind_eq_ok.2 ⟨_, g2, Res.bind_eq_ok.2 ⟨_, g3, Res.bind_eq_ok.2 ⟨_, g4, ?_⟩⟩⟩⟩
    dsimp only
    rw [if_pos (show verifyProofs pairProofs sample.proof _ _ _ = true from rfl)]
    refine Res.bind_eq_ok.2 ⟨_, g5, ?_⟩
    rw [if_pos g6, if_pos rfl]
    have e : buildTransaction beVal m'.inputs m'.outputs
        ⟨m'.features, m'.fee, m'.lockHeight, pairProofs.point P', pairOps.sig sg'⟩ m'.offset = plainTx m' P' sg' := by
      unfold buildTransaction
      rw [sort_id h1, sort_id h2, sort_id (List.pairwise_singleton _ _)]
      rfl
    refine Res.bind_eq_ok.2 ⟨(), ?_, ?_⟩
    · exact (congrArg sampleCheck e).trans h3
    · exact congrArg (fun t => Res.ok ({ m' with sigs := si'.map pairOps.back }, t)) e
  · cases h

private theorem sample_fair : FairRecord pairs sample 2 :=
  ⟨by decide +kernel, by decide +kernel, by decide +kernel, by decide +kernel⟩

private def honest : Slate := reply [⟨0, [8, 6, 6], some [2]⟩]

private def greedy : Slate := reply [⟨0, [8, 2, 1], some [2]⟩, ⟨0, [8, 4, 5], some [3]⟩]

private def partOf (r : Slate) : Slate × List (Entry (ZMod 11) (ZMod 11 × ZMod 11) (ZMod 11)) × (ZMod 11 × ZMod 11) × (ZMod 11 × ZMod 11) :=
  match samplePart r with
  | .ok x => x
  | _ => (r, [], 0, 0)

/-- The answer of an honest receiver is finalized. -/
private theorem honest_ok : finalizeSlate pairScheme pairOps pairProofs beVal (fun _ => true) sampleCheck sample honest =
    .ok ({ (partOf honest).1 with sigs := (partOf honest).2.1.map pairOps.back },
      plainTx (partOf honest).1 (partOf honest).2.2.1 (partOf honest).2.2.2) :=
  sample_ok (by decide +kernel) (by decide +kernel) (by decide +kernel) (by decide +kernel)

private theorem greedy_ok : finalizeSlate pairScheme pairOps pairProofs beVal (fun _ => true) sampleCheck sample greedy =
    .ok ({ (partOf greedy).1 with sigs := (partOf greedy).2.1.map pairOps.back },
      plainTx (partOf greedy).1 (partOf greedy).2.2.1 (partOf greedy).2.2.2) :=
  sample_ok (by decide +kernel) (by decide +kernel) (by decide +kernel) (by decide +kernel)

/-- The fee of the sample is the minimum for one output of the receiver. -/
example := finalized_fee_partial (base := 1) (env := .mainnet) (height := sampleHeight) (e := ⟨0, [8, 6, 6], some [2]⟩)
  (by decide +kernel) (by decide +kernel) rfl (by decide +kernel) (by decide +kernel) rfl (by decide +kernel) (by decide +kernel)
  honest_ok

example := sender_pays (by decide +kernel) sample_fair honest_ok

/-- In the sample nothing turns value into blinding factor, and both answers bring their sender 6. -/
example := others_get_the_amount (by decide +kernel) sample_fair (by decide +kernel) greedy_ok

/-- **C123 is violated.**  What the receiver adds is not weighed: from an answer that splits the amount over two
outputs the sender's wallet makes a transaction below the minimum fee, which nodes refuse, although the fee is the minimum for the payment
as sent, and for an answer with one output. -/
theorem finalized_fee_low_violated : ∃ (S : Scheme (ZMod 11) (ZMod 11 × ZMod 11) (ZMod 11) (ZMod 11)) (O : SlateOps _ _ _ _)
    (pl : ProofLib (ZMod 11 × ZMod 11)) (C : Curve (ZMod 11 × ZMod 11)) (c : SendRecord (ZMod 11)) (one two s₁ s₂ : Slate) (t₁ t₂ : Tx),
    FairRecord C c 2 ∧ one.outputs.length = 1 ∧ two.outputs.length = 2 ∧
    finalizeSlate S O pl beVal (fun _ => true) (validateTx .mainnet C beVal (fun _ => true) (fun _ => true) 1048600) c one = .ok (s₁, t₁) ∧
    feeMeetsMinimum .mainnet 1 1048600 t₁ = true ∧
    finalizeSlate S O pl beVal (fun _ => true) (validateTx .mainnet C beVal (fun _ => true) (fun _ => true) 1048600) c two = .ok (s₂, t₂) ∧
    feeMeetsMinimum .mainnet 1 1048600 t₂ = false :=
  ⟨pairScheme, pairOps, pairProofs, pairs, sample, honest, greedy, _, _, _, _, sample_fair, by decide +kernel, by decide +kernel,
    honest_ok, by decide +kernel, greedy_ok, by decide +kernel⟩

end Sample

end Verif.Props
