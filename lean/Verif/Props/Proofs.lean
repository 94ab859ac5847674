import Verif.Cache.Proofs
import Verif.Cache.Lru

/-!
# C60: range proofs are verified
-/
namespace Verif.Props
open Verif.Cache

variable {C : Type} [DecidableEq C]

/-- The library does what it should: a batch passes if and only if each of its proofs is valid for its commitment. -/
def Sound (lib : ProofLib C) (valid : C → Bytes → Prop) : Prop := ∀ l, lib.multi l = true ↔ ∀ p ∈ l, valid p.1 p.2

/-- For this commitment a valid proof was given in one of the calls. -/
def Given (valid : C → Bytes → Prop) (calls : List (List (C × Bytes))) (k : C) : Prop :=
  ∃ l ∈ calls, ∃ p ∈ l, p.1 = k ∧ ∃ n, valid k (p.2.take n)

private theorem pick_of {P : C → C → Prop} (hP : ∀ k v, P k v → k = v) : ∀ (l : List (C × Bytes)) (c : Cache C C), LruOf 3000 P c →
    ∃ c' b, pick c l = .ok (c', b) ∧ LruOf 3000 P c' ∧ b.Sublist l ∧ ∀ p ∈ l, p ∈ b ∨ P p.1 p.1 := by
  intro l
  induction l with
  | nil => intro c hc; exact ⟨c, [], rfl, hc, List.Sublist.slnil, by simp⟩
  | cons p l ih =>
    intro c hc
    by_cases hk : cached c p.1 = true
    · obtain ⟨c1, v, e1, e2, e3⟩ := lruOf_get hc p.1 hk
      obtain ⟨c2, b, e4, e5, e6, e7⟩ := ih c1 e3
      have hv := hP _ _ e2
      refine ⟨c2, b, ?_, e5, e6.cons _, ?_⟩
      · simp [pick, wasVerified, hk, e1, e4, hv.symm]
      · intro q hq
        rcases List.mem_cons.1 hq with rfl | hq
        · right; rw [← hv] at e2; exact e2
        · exact e7 q hq
    · obtain ⟨c2, b, e4, e5, e6, e7⟩ := ih c hc
      refine ⟨c2, p :: b, ?_, e5, e6.cons_cons _, ?_⟩
      · simp [pick, wasVerified, hk, e4]
      · intro q hq
        rcases List.mem_cons.1 hq with rfl | hq
        · left; simp
        · rcases e7 q hq with h | h
          · left; simp [h]
          · exact .inr h

private theorem add_of {P : C → C → Prop} : ∀ (l : List (C × Bytes)) (c : Cache C C), LruOf 3000 P c → (∀ p ∈ l, P p.1 p.1) →
    ∃ c', addProven c l = .ok c' ∧ LruOf 3000 P c' := by
  intro l
  induction l with
  | nil => intro c hc _; exact ⟨c, rfl, hc⟩
  | cons p l ih =>
    intro c hc hl
    obtain ⟨c1, e1, e2⟩ := lruOf_put hc p.1 p.1 (hl p (by simp))
    obtain ⟨c2, e3, e4⟩ := ih c1 e2 (fun q hq => hl q (by simp [hq]))
    exact ⟨c2, by simp [addProven, e1, e3], e4⟩

/-- What the cache holds after some calls. -/
private def Proven (valid : C → Bytes → Prop) (calls : List (List (C × Bytes))) (k v : C) : Prop := k = v ∧ Given valid calls k

omit [DecidableEq C] in
private theorem Given.mono {valid : C → Bytes → Prop} {a b : List (List (C × Bytes))} (h : ∀ l ∈ a, l ∈ b) {k : C}
    (hg : Given valid a k) : Given valid b k := by
  obtain ⟨l, hl, r⟩ := hg
  exact ⟨l, h l hl, r⟩

private theorem verify_of {lib : ProofLib C} {valid : C → Bytes → Prop} (hs : Sound lib valid) {calls : List (List (C × Bytes))}
    {c c' : Cache C C} {l : List (C × Bytes)} {o : Option Bool} (hc : LruOf 3000 (Proven valid calls) c)
    (h : verifyProofs lib c l = .ok (c', o)) :
    LruOf 3000 (Proven valid (calls ++ [l])) c' ∧ (o = some true → ∀ p ∈ l, Given valid (calls ++ [l]) p.1) := by
  have hc' : LruOf 3000 (Proven valid (calls ++ [l])) c :=
    hc.mono (fun k v hkv => ⟨hkv.1, hkv.2.mono (by intro x hx; simp [hx])⟩)
  cases l with
  | nil => simp [verifyProofs] at h
  | cons p t =>
    obtain ⟨c1, b, e1, e2, e3, e4⟩ := pick_of (fun k v hkv => hkv.1) (p :: t) c hc'
    simp only [verifyProofs, e1, Res.ok_bind] at h
    by_cases h1 : b = []
    · rw [if_pos h1] at h
      injection h with h; injection h with h2 h3
      subst h2; subst h1
      refine ⟨e2, fun _ q hq => ?_⟩
      rcases e4 q hq with hh | hh
      · simp at hh
      · exact hh.2
    · rw [if_neg h1] at h
      by_cases h2 : b.any (fun q => !lib.parses q.1) = true
      · rw [if_pos h2] at h
        injection h with h; injection h with h3 h4
        subst h3; subst h4
        exact ⟨e2, by simp⟩
      · rw [if_neg h2] at h
        by_cases h3 : b.any (fun q => q.2.length < p.2.length) = true
        · rw [if_pos h3] at h; cases h
        · rw [if_neg h3] at h
          by_cases h4 : lib.multi (b.map (fun q => (q.1, q.2.take p.2.length))) = true
          · rw [if_pos h4] at h
            have hg : ∀ q ∈ b, Given valid (calls ++ [p :: t]) q.1 := by
              intro q hq
              have := (hs _).1 h4 (q.1, q.2.take p.2.length) (List.mem_map.2 ⟨q, hq, rfl⟩)
              exact ⟨p :: t, by simp, q, e3.subset hq, rfl, p.2.length, this⟩
            obtain ⟨c2, e5, e6⟩ := add_of b c1 e2 (fun q hq => ⟨rfl, hg q hq⟩)
            rw [e5] at h
            injection h with h; injection h with h5 h6
            subst h5
            refine ⟨e6, fun _ q hq => ?_⟩
            rcases e4 q hq with hh | hh
            · exact hg q hh
            · exact hh.2
          · rw [if_neg h4] at h
            injection h with h; injection h with h5 h6
            subst h5; subst h6
            exact ⟨e2, by simp⟩

private theorem all_of {lib : ProofLib C} {valid : C → Bytes → Prop} (hs : Sound lib valid) : ∀ (ls : List (List (C × Bytes)))
    (calls : List (List (C × Bytes))) (c c' : Cache C C) (o : List (Option Bool)), LruOf 3000 (Proven valid calls) c →
    verifyAll lib c ls = .ok (c', o) → LruOf 3000 (Proven valid (calls ++ ls)) c' := by
  intro ls
  induction ls with
  | nil => intro calls c c' o hc h; simp only [verifyAll, Res.ok.injEq, Prod.mk.injEq] at h; rw [List.append_nil, ← h.1]; exact hc
  | cons l ls ih =>
    intro calls c c' o hc h
    simp only [verifyAll] at h
    obtain ⟨⟨c1, o1⟩, e1, h⟩ := Res.bind_eq_ok.1 h
    obtain ⟨⟨c2, o2⟩, e2, h⟩ := Res.bind_eq_ok.1 h
    simp only [Res.ok.injEq, Prod.mk.injEq] at h
    have := ih (calls ++ [l]) c1 c2 o2 (verify_of hs hc e1).1 e2
    rw [← h.1]
    simpa using this

/-- **C60, partial.** Whatever was verified before, a list of range proofs is accepted only if for each of its commitments a valid
proof was given, in this list or in an earlier one.  (The full statement would be that the proof in the list is valid; see
`other_proof_violated`.) -/
theorem proofs_accepted_partial {lib : ProofLib C} {valid : C → Bytes → Prop} (hs : Sound lib valid)
    (calls : List (List (C × Bytes))) (c c' : Cache C C) (o : List (Option Bool)) (l : List (C × Bytes))
    (hr : verifyAll lib freshProofs calls = .ok (c, o)) (h : verifyProofs lib c l = .ok (c', some true)) :
    ∀ p ∈ l, Given valid (calls ++ [l]) p.1 :=
  (verify_of hs (all_of hs calls [] _ _ _ (lruOf_create _ _) hr) h).2 rfl

/-- All proofs of a list have `n` bytes and their commitments parse. -/
def Regular (lib : ProofLib C) (n : Nat) (l : List (C × Bytes)) : Prop := ∀ p ∈ l, p.2.length = n ∧ lib.parses p.1 = true

/-- **C60, partial.** If each commitment always comes with the same proof, all proofs have the same length and all commitments parse,
then a list that is not empty is accepted exactly if each of its proofs is valid, whatever was verified before. -/
theorem proofs_verified_partial {lib : ProofLib C} {valid : C → Bytes → Prop} (hs : Sound lib valid) (n : Nat)
    (calls : List (List (C × Bytes))) (l : List (C × Bytes)) (hne : l ≠ []) (hcall : ∀ x ∈ calls, x ≠ [])
    (hreg : ∀ x ∈ calls ++ [l], Regular lib n x)
    (hone : ∀ x ∈ calls ++ [l], ∀ y ∈ calls ++ [l], ∀ p ∈ x, ∀ q ∈ y, p.1 = q.1 → p.2 = q.2) :
    ∃ c o c' r, verifyAll lib freshProofs calls = .ok (c, o) ∧ verifyProofs lib c l = .ok (c', some r) ∧
      (r = true ↔ ∀ p ∈ l, valid p.1 p.2) := by
  -- the proofs in the cache are proofs of the calls that are valid
  let P : C → C → Prop := fun k v => k = v ∧ ∃ x ∈ calls ++ [l], ∃ p ∈ x, p.1 = k ∧ valid p.1 p.2
  have step : ∀ x ∈ calls ++ [l], x ≠ [] → ∀ c : Cache C C, LruOf 3000 P c →
      ∃ c' r, verifyProofs lib c x = .ok (c', some r) ∧ LruOf 3000 P c' ∧ (r = true ↔ ∀ p ∈ x, valid p.1 p.2) := by
    intro x hx hxe c hc
    cases x with
    | nil => exact absurd rfl hxe
    | cons p t =>
      obtain ⟨c1, b, e1, e2, e3, e4⟩ := pick_of (fun k v hkv => hkv.1) (p :: t) c hc
      have hold : ∀ q ∈ p :: t, P q.1 q.1 → valid q.1 q.2 := by
        rintro q hq ⟨-, y, hy, s, hs1, hs2, hs3⟩
        rw [hone (p :: t) hx y hy q hq s hs1 hs2.symm, ← hs2]
        exact hs3
      have hlen : p.2.length = n := (hreg _ hx p (by simp)).1
      have hpar : b.any (fun q => !lib.parses q.1) = false := by
        rw [List.any_eq_false]
        intro q hq
        simp [(hreg _ hx q (e3.subset hq)).2]
      have hsh : b.any (fun q => decide (q.2.length < p.2.length)) = false := by
        rw [List.any_eq_false]
        intro q hq
        simp [(hreg _ hx q (e3.subset hq)).1, hlen]
      have hmap : b.map (fun q => (q.1, q.2.take p.2.length)) = b := by
        conv_rhs => rw [← List.map_id b]
        apply List.map_congr_left
        intro q hq
        rw [List.take_of_length_le (by rw [(hreg _ hx q (e3.subset hq)).1, hlen]; exact Nat.le_refl _)]
        rfl
      simp only [verifyProofs, e1, Res.ok_bind, hpar, hsh, hmap]
      by_cases h1 : b = []
      · rw [if_pos h1]
        refine ⟨c1, true, rfl, e2, fun _ q hq => ?_, fun _ => rfl⟩
        rcases e4 q hq with hh | hh
        · rw [h1] at hh; simp at hh
        · exact hold q hq hh
      · rw [if_neg h1]
        simp only [Bool.false_eq_true, if_false]
        by_cases h4 : lib.multi b = true
        · have hv := (hs b).1 h4
          obtain ⟨c2, e5, e6⟩ := add_of b c1 e2 (fun q hq => ⟨rfl, p :: t, hx, q, e3.subset hq, rfl, hv q hq⟩)
          rw [if_pos h4, e5]
          refine ⟨c2, true, rfl, e6, fun _ q hq => ?_, fun _ => rfl⟩
          rcases e4 q hq with hh | hh
          · exact hv q hh
          · exact hold q hq hh
        · rw [if_neg h4]
          refine ⟨c1, false, rfl, e2, ⟨fun h => by simp at h, fun hall => absurd ((hs b).2 (fun q hq => hall q (e3.subset hq))) h4⟩⟩
  have run : ∀ (ls : List (List (C × Bytes))), (∀ x ∈ ls, x ∈ calls) → ∀ c : Cache C C, LruOf 3000 P c →
      ∃ c' o, verifyAll lib c ls = .ok (c', o) ∧ LruOf 3000 P c' := by
    intro ls
    induction ls with
    | nil => intro _ c hc; exact ⟨c, [], rfl, hc⟩
    | cons x ls ih =>
      intro hl c hc
      have hx := hl x (by simp)
      obtain ⟨c1, r, e1, e2, -⟩ := step x (by simp [hx]) (hcall x hx) c hc
      obtain ⟨c2, o, e3, e4⟩ := ih (fun y hy => hl y (by simp [hy])) c1 e2
      exact ⟨c2, some r :: o, by simp [verifyAll, e1, e3], e4⟩
  obtain ⟨c, o, e1, e2⟩ := run calls (fun _ h => h) freshProofs (lruOf_create _ _)
  obtain ⟨c', r, e3, -, e4⟩ := step l (by simp) hne c e2
  exact ⟨c, o, c', r, e1, e3, e4⟩

/-- **C60 is violated.** A commitment that was verified once with a valid proof is accepted with any other proof as well, valid or
not, for as long as it is among the 3000 used last. -/
theorem other_proof_violated {lib : ProofLib C} {valid : C → Bytes → Prop} (hs : Sound lib valid) (k : C) (good bad : Bytes)
    (hk : lib.parses k = true) (hg : valid k good) :
    ∃ c c' o, verifyAll lib freshProofs [[(k, good)]] = .ok (c, o) ∧ verifyProofs lib c [(k, bad)] = .ok (c', some true) := by
  have h0 : cached (freshProofs : Cache C C) k = false := rfl
  have hm : lib.multi [(k, good)] = true := (hs _).2 (by simpa using hg)
  obtain ⟨c1, e1, e2⟩ := lruOf_put (lruOf_create 3000 (fun a b : C => a = b)) k k rfl
  have e3 := lruOf_cached_put (lruOf_create 3000 (fun a b : C => a = b)) e1
  obtain ⟨c2, v, e4, e5, -⟩ := lruOf_get e2 k e3
  subst e5
  refine ⟨c1, c2, [some true], ?_, ?_⟩
  · change put freshProofs k k = _ at e1
    simp [verifyAll, verifyProofs, pick, wasVerified, h0, hk, hm, addProven, e1]
  · simp [verifyProofs, pick, wasVerified, e3, e4]

/-- **C60 is violated.** Verifying the proofs of a body without outputs is undefined. -/
theorem no_proofs_violated (lib : ProofLib C) (c : Cache C C) : verifyProofs lib c [] = .ub := rfl

/-- **C60 is violated.** If a later proof of a list is shorter than the first one, and neither commitment was verified before, the
library is made to read past its end. -/
theorem short_proof_violated (lib : ProofLib C) (k k' : C) (p p' : Bytes) (h : p'.length < p.length) (hk : lib.parses k = true)
    (hk' : lib.parses k' = true) : verifyProofs lib freshProofs [(k, p), (k', p')] = .ub := by
  have h0 : ∀ k, cached (freshProofs : Cache C C) k = false := fun _ => rfl
  simp [verifyProofs, pick, wasVerified, h0, hk, hk', h]

/-- A library for the examples: a proof is valid if it is its commitment repeated. -/
private def toyLib : ProofLib UInt8 := ⟨fun _ => true, fun l => l.all (fun p => p.2 = [p.1, p.1])⟩

private theorem toy_sound : Sound toyLib (fun k p => p = [k, k]) := by
  intro l
  simp [toyLib]

example : (∃ c o c' r, verifyAll toyLib freshProofs [[(1, [1, 1]), (2, [2, 2])], [(3, [3, 3])]] = .ok (c, o) ∧
    verifyProofs toyLib c [(2, [2, 2]), (4, [4, 5])] = .ok (c', some r) ∧
      (r = true ↔ ∀ p ∈ ([(2, [2, 2]), (4, [4, 5])] : List (UInt8 × Bytes)), p.2 = [p.1, p.1])) :=
  proofs_verified_partial toy_sound 2 _ _ (by decide) (by decide) (by
    intro x hx p hp
    simp only [List.cons_append, List.nil_append, List.mem_cons, List.not_mem_nil, or_false] at hx
    rcases hx with rfl | rfl | rfl <;> revert p <;> decide) (by decide)
example : (match verifyAll toyLib freshProofs [[(1, [1, 1])], [(1, [7, 7])]] with | .ok (_, o) => o | _ => []) = [some true, some true] := by
  decide
example : (match verifyAll toyLib freshProofs [[(2, [1, 1])], [(1, [1, 1]), (2, [2, 2])]] with | .ok (_, o) => o | _ => []) =
    [some false, some true] := by
  decide

end Verif.Props
