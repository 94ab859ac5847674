import Verif.P2P.Locator
import Verif.Chain.ProcessLemmas

/-! # Lemmas on header batches that belong to a chain -/
namespace Verif.BC
variable {S : Type}

/-- The headers of `c` are the candidate chain and the MMR, and they are in the database. -/
structure HasChain (w : World S) (c : List Header) : Prop where
  cand : w.candidate = c.map hashOf
  mmr : w.mmr = c
  db : ∀ h ∈ c, w.headers (hashOf h) = some h

/-- A chain of headers: heights count from 0, each names the one before and has more work. -/
structure Proper (c : List Header) : Prop where
  height : ∀ (i : Nat) (h : Header), c[i]? = some h → h.height = i
  linked : ∀ (i : Nat) (p h : Header), c[i]? = some p → c[i + 1]? = some h → h.prevHash = hashOf p
  work : ∀ (i : Nat) (p h : Header), c[i]? = some p → c[i + 1]? = some h → p.totalDifficulty < h.totalDifficulty

/-- Every header of the chain passes the validator, once its ancestors are in the database and the MMR. -/
def Passes (R : Rules S) (c : List Header) : Prop :=
  ∀ (i : Nat) (p h : Header), c[i]? = some p → c[i + 1]? = some h → ∀ db : Bytes → Option Header,
    (∀ x ∈ c.take (i + 1), db (hashOf x) = some x) → R.validate db (c.take (i + 1)) h p = .ok ()

theorem HasChain.tipWork {w : World S} {c : List Header} (hw : HasChain w c) {t : Header}
    (ht : c.getLast? = some t) : w.work w.candidate = t.totalDifficulty := by
  unfold World.work
  rw [hw.cand, List.getLast?_map, ht]
  simp only [Option.map_some]
  rw [hw.db t (List.mem_of_getLast? ht)]

theorem Proper.mono {c : List Header} (hc : Proper c) : ∀ (j i : Nat) (p h : Header), c[i]? = some p →
    c[i + j]? = some h → p.totalDifficulty ≤ h.totalDifficulty := by
  intro j
  induction j with
  | zero => intro i p h e1 e2; rw [Nat.add_zero, e1] at e2; cases e2; exact Nat.le_refl _
  | succ j ih =>
    intro i p h e1 e2
    have hl : i + j < c.length := by have := (List.getElem?_eq_some_iff.1 e2).1; omega
    have h1 := ih i p c[i + j] e1 (List.getElem?_eq_getElem hl)
    have h2 := hc.work (i + j) c[i + j] h (List.getElem?_eq_getElem hl) (by rw [← e2]; congr 1)
    omega

/-- `addHeaders` along a chain that passes: everything is appended. -/
theorem addHeaders_passes {R : Rules S} {c : List Header} (hc : Proper c) (hp : Passes R c)
    (huniq : ∀ a ∈ c, ∀ b ∈ c, hashOf a = hashOf b → a = b) :
    ∀ (n k : Nat) (w : World S) (p : Header), c[k]? = some p → k + 1 + n ≤ c.length →
      w.candidate = (c.take (k + 1)).map hashOf → w.mmr = c.take (k + 1) →
      (∀ h ∈ c.take (k + 1), w.headers (hashOf h) = some h) →
      ∃ w', w.addHeaders R p ((c.drop (k + 1)).take n) = .ok w' ∧
        w'.candidate = (c.take (k + 1 + n)).map hashOf ∧ w'.mmr = c.take (k + 1 + n) ∧
        (∀ h ∈ c.take (k + 1 + n), w'.headers (hashOf h) = some h) ∧
        (∀ x h, w.headers x = some h → (∀ b ∈ c, hashOf b = x → b = h) → w'.headers x = some h) := by
  intro n
  induction n with
  | zero => intro k w p _ _ e1 e2 e3; exact ⟨w, by simp [World.addHeaders], e1, e2, e3, fun _ _ h _ => h⟩
  | succ n ih =>
    intro k w p hk hl e1 e2 e3
    have hk1 : k + 1 < c.length := by omega
    have hd : (c.drop (k + 1)).take (n + 1) = c[k + 1] :: (c.drop (k + 1 + 1)).take n := by
      rw [List.drop_eq_getElem_cons hk1, List.take_succ_cons]
    have hg : c[k + 1]? = some c[k + 1] := List.getElem?_eq_getElem hk1
    rw [hd]
    unfold World.addHeaders
    rw [e2, hp k p c[k + 1] hk hg w.headers e3, Res.ok_bind, hc.height _ _ hg, e1, List.length_map, List.length_take,
      if_neg (by omega)]
    have ht : c.take (k + 1 + 1) = c.take (k + 1) ++ [c[k + 1]] := by rw [List.take_succ_eq_append_getElem hk1]
    obtain ⟨w', a1, a2, a3, a4, a5⟩ := ih (k + 1)
      { World.addHeader w (c[k + 1]) with
        mmr := c.take (k + 1) ++ [c[k + 1]],
        candidate := (c.take (k + 1)).map hashOf ++ [hashOf c[k + 1]] } c[k + 1] hg (by omega)
      (by rw [ht, List.map_append]; rfl) (by rw [ht]) (by
        intro h hh
        rw [ht, List.mem_append, List.mem_singleton] at hh
        show (if hashOf h = hashOf c[k + 1] then some c[k + 1] else w.headers (hashOf h)) = some h
        by_cases hq : hashOf h = hashOf c[k + 1]
        · rw [if_pos hq, huniq h (by rcases hh with hh | rfl; exact List.mem_of_mem_take hh; exact List.getElem_mem hk1) _
            (List.getElem_mem hk1) hq]
        · rw [if_neg hq]
          rcases hh with hh | rfl
          · exact e3 h hh
          · exact absurd rfl hq)
    refine ⟨w', a1, by rw [a2]; congr 2; omega, by rw [a3]; congr 1; omega, ?_, ?_⟩
    · intro h hh; exact a4 h (by rwa [show k + 1 + 1 + n = k + 1 + (n + 1) by omega])
    · intro x h hx hb
      refine a5 x h ?_ hb
      show (if x = hashOf c[k + 1] then some c[k + 1] else w.headers x) = some h
      by_cases hq : x = hashOf c[k + 1]
      · rw [if_pos hq, hb _ (List.getElem_mem hk1) hq.symm]
      · rw [if_neg hq]; exact hx

/-- Two chains with one genesis that agree up to height `d` and not above. -/
structure Fork (mine theirs : List Header) (d : Nat) : Prop where
  own : Proper mine
  other : Proper theirs
  uniq : ∀ a ∈ mine ++ theirs, ∀ b ∈ mine ++ theirs, hashOf a = hashOf b → a = b
  below : d < mine.length ∧ d < theirs.length ∧ mine.take (d + 1) = theirs.take (d + 1)
  above : ∀ a, mine[d + 1]? = some a → theirs[d + 1]? ≠ some a

theorem Fork.same {m t : List Header} {d : Nat} (f : Fork m t d) {i : Nat} (h : i ≤ d) : m[i]? = t[i]? := by
  have := congrArg (fun l : List Header => l[i]?) f.below.2.2
  simpa [List.getElem?_take, show i < d + 1 by omega] using this

theorem Fork.differ {m t : List Header} {d : Nat} (f : Fork m t d) : ∀ (j : Nat) (a b : Header),
    m[d + 1 + j]? = some a → t[d + 1 + j]? = some b → hashOf a ≠ hashOf b := by
  intro j
  induction j with
  | zero =>
    intro a b e1 e2 he
    have := f.uniq a (by simp [List.mem_of_getElem? e1]) b (by simp [List.mem_of_getElem? e2]) he
    subst this
    exact f.above a e1 e2
  | succ j ih =>
    intro a b e1 e2 he
    have hab := f.uniq a (by simp [List.mem_of_getElem? e1]) b (by simp [List.mem_of_getElem? e2]) he
    subst hab
    have l1 : d + 1 + j < m.length := by have := (List.getElem?_eq_some_iff.1 e1).1; omega
    have l2 : d + 1 + j < t.length := by have := (List.getElem?_eq_some_iff.1 e2).1; omega
    have p1 := f.own.linked _ _ a (List.getElem?_eq_getElem l1) (by rw [← e1]; congr 1)
    have p2 := f.other.linked _ _ a (List.getElem?_eq_getElem l2) (by rw [← e2]; congr 1)
    exact ih _ _ (List.getElem?_eq_getElem l1) (List.getElem?_eq_getElem l2) (by rw [← p1, p2])

/-- The hash of a header of one chain above the fork is not one of the other chain. -/
theorem Fork.foreign {m t : List Header} {d i : Nat} (f : Fork m t d) (hi : d < i) {a : Header} (ha : m[i]? = some a) :
    hashOf a ∉ t.map hashOf := by
  intro hm
  obtain ⟨b, hb, he⟩ := List.mem_map.1 hm
  obtain ⟨j, hj⟩ := List.mem_iff_getElem?.1 hb
  have hab := f.uniq b (by simp [hb]) a (by simp [List.mem_of_getElem? ha]) he
  subst hab
  have h1 := f.own.height _ _ ha
  have h2 := f.other.height _ _ hj
  have : i = j := by omega
  subst this
  obtain ⟨k, rfl⟩ : ∃ k, i = d + 1 + k := ⟨i - (d + 1), by omega⟩
  exact f.differ k _ _ ha hj rfl

theorem onChain_iff {w : World S} {c : List Header} (hw : HasChain w c) (i : Nat) (x : Bytes) :
    onChain w.candidate i x = true ↔ ∃ h, c[i]? = some h ∧ hashOf h = x := by
  unfold onChain
  rw [hw.cand, decide_eq_true_eq, List.getElem?_map, Option.map_eq_some_iff]

theorem onChain_theirs {w : World S} {m t : List Header} {d : Nat} (f : Fork m t d) (hw : HasChain w m) {i : Nat}
    {h : Header} (ht : t[i]? = some h) : onChain w.candidate i (hashOf h) = decide (i ≤ d) := by
  by_cases hi : i ≤ d
  · rw [decide_eq_true hi]
    exact (onChain_iff hw i _).2 ⟨h, by rw [f.same hi]; exact ht, rfl⟩
  · rw [decide_eq_false hi]
    apply Bool.eq_false_iff.2
    intro hc
    obtain ⟨a, ha, he⟩ := (onChain_iff hw i _).1 hc
    obtain ⟨k, rfl⟩ : ∃ k, i = d + 1 + k := ⟨i - (d + 1), by omega⟩
    exact f.differ k a h ha ht he

/-- The headers of the other chain that are on ours are skipped. -/
theorem dropWhile_theirs {w : World S} {m t : List Header} {d : Nat} (f : Fork m t d) (hw : HasChain w m) :
    ∀ (n k : Nat), k ≤ d + 1 →
      ((t.drop k).take n).dropWhile (fun h => onChain w.candidate h.height (hashOf h)) =
        (t.drop (d + 1)).take (n - (d + 1 - k)) := by
  intro n
  induction n with
  | zero => intro k hk; simp
  | succ n ih =>
    intro k hk
    by_cases hl : k < t.length
    · rw [List.drop_eq_getElem_cons hl, List.take_succ_cons]
      have hg : t[k]? = some t[k] := List.getElem?_eq_getElem hl
      have ho := onChain_theirs f hw hg
      by_cases hkd : k ≤ d
      · rw [List.dropWhile_cons_of_pos (by rw [f.other.height _ _ hg, ho]; simp [hkd]), ih (k + 1) (by omega)]
        congr 1; omega
      · have : k = d + 1 := by omega
        subst this
        rw [List.dropWhile_cons_of_neg (by rw [f.other.height _ _ hg, ho]; simp [hkd])]
        rw [show n + 1 - (d + 1 - (d + 1)) = n + 1 by omega, List.drop_eq_getElem_cons hl, List.take_succ_cons]
    · have := f.below.2.1
      have hk' : k = d + 1 := by omega
      subst hk'
      rw [List.drop_eq_nil_of_le (by omega)]
      simp

/-- The fork moves up when our chain becomes a part of theirs. -/
theorem Fork.adopted {m t : List Header} {d e : Nat} (f : Fork m t d) (he : e < t.length) :
    Fork (t.take (e + 1)) t e := by
  have sub : ∀ a, a ∈ t.take (e + 1) ++ t → a ∈ m ++ t := by
    intro a ha
    rw [List.mem_append] at ha ⊢
    exact Or.inr (ha.elim List.mem_of_mem_take id)
  have up : ∀ (i : Nat) (h : Header), (t.take (e + 1))[i]? = some h → t[i]? = some h := by
    intro i h hh
    rw [List.getElem?_take] at hh
    split at hh
    · exact hh
    · cases hh
  refine ⟨⟨fun i h a => f.other.height i h (up _ _ a), fun i p h a b => f.other.linked i p h (up _ _ a) (up _ _ b),
    fun i p h a b => f.other.work i p h (up _ _ a) (up _ _ b)⟩, f.other, fun a ha b hb => f.uniq a (sub a ha) b (sub b hb),
    ⟨by rw [List.length_take]; omega, he, by rw [List.take_take, Nat.min_self]⟩, ?_⟩
  intro a ha
  rw [List.getElem?_take, if_neg (by omega)] at ha
  cases ha

/-- What a batch of their headers does.  It starts at height `k`, not above the fork, and ends above it. -/
theorem adopt_theirs {R : Rules S} {w : World S} {m t : List Header} {d : Nat} (f : Fork m t d) (hw : HasChain w m)
    (hp : Passes R t) (n : Nat) (tip last : Header) (htip : m.getLast? = some tip) (hn : 0 < n)
    (hl : t[d + n]? = some last) :
    ∃ w', w.adoptHeaders R ((t.drop (d + 1)).take n) (d + 1) last.totalDifficulty = .ok w' ∧
      (tip.totalDifficulty < last.totalDifficulty → HasChain w' (t.take (d + 1 + n))) ∧
      (last.totalDifficulty ≤ tip.totalDifficulty → HasChain w' m) := by
  obtain ⟨b1, b2, b3⟩ := f.below
  have hlen : d + n < t.length := (List.getElem?_eq_some_iff.1 hl).1
  have hg : t[d]? = some t[d] := List.getElem?_eq_getElem b2
  have hmd : m[d]? = some t[d] := by rw [f.same (Nat.le_refl d)]; exact hg
  unfold World.adoptHeaders World.rewindCandidate
  rw [if_neg (by rw [hw.cand, hw.mmr, List.length_map]; omega), Res.ok_bind]
  have hd : (t.drop (d + 1)).take n = t[d + 1] :: (t.drop (d + 1 + 1)).take (n - 1) := by
    obtain ⟨n', rfl⟩ : ∃ n', n = n' + 1 := ⟨n - 1, by omega⟩
    rw [List.drop_eq_getElem_cons (by omega), List.take_succ_cons]; rfl
  have hg1 : t[d + 1]? = some t[d + 1] := List.getElem?_eq_getElem (by omega)
  have hv : World.validateHeaders R { w with candidate := w.candidate.take (d + 1), mmr := w.mmr.take (d + 1) }
      ((t.drop (d + 1)).take n) =
      World.addHeaders R { w with candidate := w.candidate.take (d + 1), mmr := w.mmr.take (d + 1) } t[d]
        ((t.drop (d + 1)).take n) := by
    rw [hd]
    unfold World.validateHeaders
    simp only [f.other.linked d _ _ hg hg1]
    rw [hw.db _ (List.mem_of_getElem? hmd)]
  rw [hv]
  obtain ⟨w', a1, a2, a3, a4, a5⟩ := addHeaders_passes f.other hp
    (fun a ha b hb => f.uniq a (by simp [ha]) b (by simp [hb])) n d
    { w with candidate := w.candidate.take (d + 1), mmr := w.mmr.take (d + 1) } t[d] hg (by omega)
    (by show w.candidate.take (d + 1) = _; rw [hw.cand, ← b3, List.map_take])
    (by show w.mmr.take (d + 1) = _; rw [hw.mmr, b3])
    (by intro h hh; rw [← b3] at hh; exact hw.db h (List.mem_of_mem_take hh))
  rw [a1, Res.ok_bind, hw.tipWork htip]
  by_cases hq : last.totalDifficulty ≤ tip.totalDifficulty
  · rw [if_pos hq]
    refine ⟨_, rfl, fun h => by omega, fun _ => ⟨hw.cand, hw.mmr, ?_⟩⟩
    intro h hh
    exact a5 _ h (hw.db h hh) (fun b hb he => f.uniq b (by simp [hb]) h (by simp [hh]) he)
  · rw [if_neg hq]
    exact ⟨_, rfl, fun _ => ⟨a2, a3, a4⟩, fun h => absurd h hq⟩

/-- A chunk of their headers that starts at height `k`, not above the fork. -/
theorem chunk_theirs {R : Rules S} {w : World S} {m t : List Header} {d : Nat} (f : Fork m t d) (hw : HasChain w m)
    (hp : Passes R t) (n k : Nat) (tip : Header) (htip : m.getLast? = some tip) (hn : 0 < n) (h1 : 1 ≤ k)
    (hk : k ≤ d + 1) (hlen : k + n ≤ t.length) :
    (k + n ≤ d + 1 → w.processChunk R ((t.drop k).take n) = (w, .ok .alreadyExists)) ∧
    (d + 1 < k + n → ∀ last, t[k + n - 1]? = some last →
      ∃ w', w.processChunk R ((t.drop k).take n) = (w', .ok .success) ∧
        (tip.totalDifficulty < last.totalDifficulty → HasChain w' (t.take (k + n))) ∧
        (last.totalDifficulty ≤ tip.totalDifficulty → HasChain w' m)) := by
  have hd : (t.drop k).take n = t[k] :: (t.drop (k + 1)).take (n - 1) := by
    obtain ⟨n', rfl⟩ : ∃ n', n = n' + 1 := ⟨n - 1, by omega⟩
    rw [List.drop_eq_getElem_cons (by omega), List.take_succ_cons]; rfl
  have hgk : t[k]? = some t[k] := List.getElem?_eq_getElem (by omega)
  have hgp : t[k - 1]? = some t[k - 1] := List.getElem?_eq_getElem (by omega)
  have hprev : onChain w.candidate (t[k].height - 1) t[k].prevHash = true := by
    have e1 := f.other.height _ _ hgk
    have e2 := f.other.linked (k - 1) _ t[k] hgp (by rw [← hgk]; congr 1; omega)
    rw [e1, e2, onChain_theirs f hw hgp]
    simp; omega
  have hdw := dropWhile_theirs f hw n k hk
  constructor
  · intro hq
    rw [show n - (d + 1 - k) = 0 by omega, List.take_zero] at hdw
    rw [hd] at hdw ⊢
    unfold World.processChunk
    simp only [hprev, Bool.not_true, Bool.false_eq_true, if_false]
    rw [hdw]
  · intro hq last hlast
    obtain ⟨w', a1, a2, a3⟩ := adopt_theirs f hw hp (n - (d + 1 - k)) tip last htip (by omega)
      (by rw [← hlast]; congr 1; omega)
    have hd2 : (t.drop (d + 1)).take (n - (d + 1 - k)) =
        t[d + 1] :: (t.drop (d + 1 + 1)).take (n - (d + 1 - k) - 1) := by
      obtain ⟨n', hn'⟩ : ∃ n', n - (d + 1 - k) = n' + 1 := ⟨n - (d + 1 - k) - 1, by omega⟩
      rw [hn', List.drop_eq_getElem_cons (by omega), List.take_succ_cons]; rfl
    have hlast' : ((t.drop (d + 1)).take (n - (d + 1 - k))).getLast? = some last := by
      rw [List.getLast?_eq_getElem?, List.length_take, List.length_drop, List.getElem?_take, if_pos (by omega),
        List.getElem?_drop, ← hlast]
      congr 1; omega
    have hg1 : t[d + 1]? = some t[d + 1] := List.getElem?_eq_getElem (by omega)
    refine ⟨w', ?_, fun h => by have := a2 h; rwa [show d + 1 + (n - (d + 1 - k)) = k + n by omega] at this, a3⟩
    rw [hd2] at hdw a1 hlast'
    rw [hd] at hdw ⊢
    unfold World.processChunk
    simp only [hprev, Bool.not_true, Bool.false_eq_true, if_false]
    rw [hdw]
    simp only [hlast', f.other.height _ _ hg1]
    rw [a1]
    rfl

end Verif.BC
