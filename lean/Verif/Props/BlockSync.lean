import Verif.P2P.BlockSync
import Mathlib.Data.List.Basic
import Mathlib.Data.List.Nodup
import Mathlib.Data.List.Perm.Subperm
import Mathlib.Data.Nat.ModEq

/-!
# C79, C80: the blocks asked for, and from whom
-/
namespace Verif.Props
open Verif.P2P

variable {P H : Type}

/-! ## C79: the blocks needed -/

private def enumFrom : Nat → List H → List (Nat × H)
  | _, [] => []
  | n, x :: xs => (n, x) :: enumFrom (n + 1) xs

private theorem enumFrom_get : ∀ (l : List H) (n i : Nat) (e : Nat × H),
    (enumFrom n l)[i]? = some e ↔ e.1 = n + i ∧ l[i]? = some e.2 := by
  intro l
  induction l with
  | nil => intro n i e; simp [enumFrom]
  | cons x xs ih =>
    intro n i e
    obtain ⟨a, b⟩ := e
    cases i with
    | zero =>
      simp only [enumFrom, List.getElem?_cons_zero, Option.some.injEq, Prod.mk.injEq, Nat.add_zero]
      exact ⟨fun h => ⟨h.1.symm, h.2⟩, fun h => ⟨h.1.symm, h.2⟩⟩
    | succ i =>
      simp only [enumFrom, List.getElem?_cons_succ]
      rw [ih (n + 1) i (a, b)]
      simp only
      rw [show n + 1 + i = n + (i + 1) by omega]

private theorem needed_eq (orphan : Nat → H → Bool) (max : Nat) : ∀ (l : List H) (n : Nat) (acc : List (Nat × H)),
    acc.length < max ∨ max = 0 →
    neededLoop orphan max n l acc =
      if max = 0 then acc ++ (enumFrom n l).filter (fun e => !orphan e.1 e.2)
      else (acc ++ (enumFrom n l).filter (fun e => !orphan e.1 e.2)).take max := by
  intro l
  induction l with
  | nil =>
    intro n acc h
    simp only [neededLoop, enumFrom, List.filter_nil, List.append_nil]
    split
    · rfl
    · rw [List.take_of_length_le (by omega)]
  | cons x xs ih =>
    intro n acc h
    unfold neededLoop enumFrom
    by_cases ho : orphan n x = true
    · rw [if_pos ho, ih (n + 1) acc h, List.filter_cons_of_neg (by simp [ho])]
    · rw [if_neg ho, List.filter_cons_of_pos (by simp [ho]), List.append_cons acc (n, x) (List.filter _ _)]
      by_cases hm : (acc ++ [(n, x)]).length = max
      · rw [if_pos hm, if_neg (by rw [← hm]; simp), List.take_append_of_le_length (by omega), ← hm,
          List.take_length]
      · rw [if_neg hm, ih (n + 1) (acc ++ [(n, x)]) (by
          rcases h with h | h
          · left; simp at hm ⊢; omega
          · right; exact h)]

private theorem enumFrom_sorted : ∀ (l : List H) (n : Nat), (enumFrom n l).Pairwise (fun a b => a.1 < b.1) := by
  intro l
  induction l with
  | nil => intro n; simp [enumFrom]
  | cons x xs ih =>
    intro n
    unfold enumFrom
    rw [List.pairwise_cons]
    refine ⟨?_, ih (n + 1)⟩
    intro e he
    obtain ⟨i, hi⟩ := List.mem_iff_getElem?.1 he
    have := ((enumFrom_get xs (n + 1) i e).1 hi).1
    show n < e.1
    omega

/-- **C79.** The blocks needed, for a number `max` above zero: they are blocks of the candidate chain above the common
height that are not in the orphan pool, in the order of their heights, at most `max`, and if there are fewer, or one with a
greater height is in the list, none is left out. -/
theorem blocks_needed (candidate : List H) (common : Nat) (orphan : Nat → H → Bool) (max : Nat) (hm : 0 < max) :
    (blocksNeeded candidate common orphan max).length ≤ max ∧
    (blocksNeeded candidate common orphan max).Pairwise (fun a b => a.1 < b.1) ∧
    (∀ h x, (h, x) ∈ blocksNeeded candidate common orphan max →
      common < h ∧ candidate[h]? = some x ∧ orphan h x = false) ∧
    ∀ h x, common < h → candidate[h]? = some x → orphan h x = false →
      (blocksNeeded candidate common orphan max).length < max ∨
        (∃ h' x', h ≤ h' ∧ (h', x') ∈ blocksNeeded candidate common orphan max) →
      (h, x) ∈ blocksNeeded candidate common orphan max := by
  have he : blocksNeeded candidate common orphan max =
      ((enumFrom (common + 1) (candidate.drop (common + 1))).filter (fun e => !orphan e.1 e.2)).take max := by
    unfold blocksNeeded
    rw [needed_eq orphan max _ _ [] (by simp [hm]), if_neg (by omega), List.nil_append]
  have hs := (enumFrom_sorted (candidate.drop (common + 1)) (common + 1)).filter (fun e => !orphan e.1 e.2)
  have mem : ∀ h x, (h, x) ∈ (enumFrom (common + 1) (candidate.drop (common + 1))).filter (fun e => !orphan e.1 e.2) ↔
      common < h ∧ candidate[h]? = some x ∧ orphan h x = false := by
    intro h x
    rw [List.mem_filter]
    constructor
    · rintro ⟨h1, h2⟩
      obtain ⟨i, hi⟩ := List.mem_iff_getElem?.1 h1
      obtain ⟨g1, g2⟩ := (enumFrom_get _ _ i _).1 hi
      simp only at g1 g2
      rw [List.getElem?_drop] at g2
      refine ⟨by omega, by rw [g1]; exact g2, by simpa using h2⟩
    · rintro ⟨h1, h2, h3⟩
      refine ⟨List.mem_iff_getElem?.2 ⟨h - (common + 1), (enumFrom_get _ _ _ _).2 ⟨?_, ?_⟩⟩, by simp [h3]⟩
      · show h = common + 1 + (h - (common + 1)); omega
      · rw [List.getElem?_drop, show common + 1 + (h - (common + 1)) = h by omega]; exact h2
  generalize (enumFrom (common + 1) (candidate.drop (common + 1))).filter (fun e => !orphan e.1 e.2) = l at *
  rw [he]
  refine ⟨List.length_take_le _ _, hs.sublist (List.take_sublist _ _), fun h x hh => (mem h x).1 (List.mem_of_mem_take hh), ?_⟩
  intro h x h1 h2 h3 h4
  have hl := (mem h x).2 ⟨h1, h2, h3⟩
  rcases h4 with h4 | ⟨h', x', h5, h6⟩
  · rw [List.length_take] at h4
    rwa [List.take_of_length_le (by omega)]
  · obtain ⟨i, hi⟩ := List.mem_iff_getElem?.1 hl
    obtain ⟨j, hj⟩ := List.mem_iff_getElem?.1 h6
    rw [List.getElem?_take] at hj
    by_cases hjm : j < max
    · rw [if_pos hjm] at hj
      have hij : i ≤ j := by
        refine Nat.le_of_not_lt fun hlt => ?_
        have a := (List.getElem?_eq_some_iff.1 hi)
        have b := (List.getElem?_eq_some_iff.1 hj)
        obtain ⟨a1, a2⟩ := a
        obtain ⟨b1, b2⟩ := b
        have := List.pairwise_iff_getElem.1 hs j i b1 a1 hlt
        rw [a2, b2] at this
        simp only at this
        omega
      exact List.mem_iff_getElem?.2 ⟨i, by rw [List.getElem?_take, if_pos (by omega)]; exact hi⟩
    · rw [if_neg hjm] at hj; cases hj

example : blocksNeeded [10, 11, 12, 13, 14, 15, 16] 2 (fun h _ => h = 4) 3 = [(3, 13), (5, 15), (6, 16)] := by decide
example : blocksNeeded [10, 11, 12, 13, 14, 15, 16] 2 (fun h _ => h = 4) 2 = [(3, 13), (5, 15)] := by decide

/-! ## C80: the requests -/

variable [DecidableEq P]

omit [DecidableEq P] in
private theorem find_mem {l : List (Nat × BlockRequest P)} {h : Nat} {r : BlockRequest P} (e : findRequest l h = some r) :
    (h, r) ∈ l := by
  unfold findRequest at e
  rw [Option.map_eq_some_iff] at e
  obtain ⟨⟨h', r'⟩, e1, e2⟩ := e
  have h1 := List.find?_some e1
  have h2 := List.mem_of_find?_eq_some e1
  simp at h1 e2
  subst h1 e2
  exact h2

omit [DecidableEq P] in
private theorem mem_set {l : List (Nat × BlockRequest P)} {h h' : Nat} {r r' : BlockRequest P} :
    (h', r') ∈ setRequest l h r → (h', r') ∈ l ∨ (h' = h ∧ r' = r) := by
  induction l with
  | nil => intro e; simp [setRequest] at e; exact Or.inr e
  | cons a l ih =>
    intro e
    unfold setRequest at e
    by_cases hq : a.1 = h
    · rw [if_pos hq, List.mem_cons] at e
      rcases e with e | e
      · simp at e; exact Or.inr e
      · exact Or.inl (by simp [e])
    · rw [if_neg hq, List.mem_cons] at e
      rcases e with e | e
      · exact Or.inl (by rw [e]; simp)
      · rcases ih e with e | e
        · exact Or.inl (by simp [e])
        · exact Or.inr e

/-- What holds while the blocks needed are looked at. -/
private structure Seen (s : BlockSyncer P) (v : DownloadView P H) (all : List (Nat × H)) (st : Visit P H) : Prop where
  asked : ∀ p h x, (p, h, x) ∈ st.asked → (h, x) ∈ all ∧ v.processing x = false ∧ v.hasBlock h x = false ∧
    v.reachable p = true
  again : ∀ p h x, (p, h, x) ∈ st.asked → ∃ r, (h, r) ∈ s.requested ∧ r.peer = p
  wanted : ∀ h x, (h, x) ∈ st.wanted → (h, x) ∈ all ∧ v.processing x = false ∧ v.hasBlock h x = false
  requested : ∀ h r, (h, r) ∈ st.requested → (h, r) ∈ s.requested ∨ ∃ x, (r.peer, h, x) ∈ st.asked ∧ v.now + 5 ≤ r.timeout
  slow : ∀ p ∈ st.slow, p ∈ s.slow ∨ p ∈ st.banned ∨ v.banned p = true
  banned : ∀ p ∈ st.banned, v.banned p = false ∧ (p ∈ s.slow ∨ ∃ h r x, (h, r) ∈ s.requested ∧ r.peer = p ∧
    r.timeout < v.now ∧ (h, x) ∈ all ∧ v.hasBlock h x = false)

private theorem seen_step {s : BlockSyncer P} {v : DownloadView P H} {all : List (Nat × H)} {st : Visit P H}
    (hs : Seen s v all st) {h : Nat} {x : H} (h1 : (h, x) ∈ all) (h2 : v.processing x = false)
    (h3 : v.hasBlock h x = false) : Seen s v all (st.step v (h, x)).2 := by
  have wanted' : ∀ h' x', (h', x') ∈ st.wanted ++ [(h, x)] → (h', x') ∈ all ∧ v.processing x' = false ∧
      v.hasBlock h' x' = false := by
    intro h' x' hh
    rw [List.mem_append, List.mem_singleton] at hh
    rcases hh with hh | hh
    · exact hs.wanted h' x' hh
    · cases hh; exact ⟨h1, h2, h3⟩
  unfold Visit.step
  simp only
  cases hf : findRequest st.requested h with
  | none => exact ⟨hs.asked, hs.again, wanted', hs.requested, hs.slow, hs.banned⟩
  | some r =>
    have hr := find_mem hf
    simp only
    by_cases hq : r.peer ∈ st.slow ∨ r.timeout < v.now
    · rw [if_pos hq]
      by_cases hb : (v.banned r.peer || decide (r.peer ∈ st.banned)) = true
      · rw [if_pos hb]
        refine ⟨hs.asked, hs.again, wanted', hs.requested, ?_, hs.banned⟩
        intro p hp
        rw [List.mem_cons] at hp
        rcases hp with rfl | hp
        · rw [Bool.or_eq_true, decide_eq_true_eq] at hb
          rcases hb with hb | hb
          · exact Or.inr (Or.inr hb)
          · exact Or.inr (Or.inl hb)
        · exact hs.slow p hp
      · rw [if_neg hb]
        rw [Bool.or_eq_true, decide_eq_true_eq, not_or, Bool.not_eq_true] at hb
        by_cases hre : (!r.retried && v.reachable r.peer) = true
        · rw [if_pos hre]
          rw [Bool.and_eq_true] at hre
          refine ⟨?_, ?_, hs.wanted, ?_, hs.slow, hs.banned⟩
          · intro p h' x' hh
            rw [List.mem_append, List.mem_singleton] at hh
            rcases hh with hh | hh
            · exact hs.asked p h' x' hh
            · cases hh; exact ⟨h1, h2, h3, hre.2⟩
          · intro p h' x' hh
            rw [List.mem_append, List.mem_singleton] at hh
            rcases hh with hh | hh
            · exact hs.again p h' x' hh
            · cases hh
              rcases hs.requested h r hr with hr | ⟨x', hx, -⟩
              · exact ⟨r, hr, rfl⟩
              · exact hs.again _ _ _ hx
          · intro h' r' hh
            rcases mem_set hh with hh | ⟨rfl, rfl⟩
            · rcases hs.requested h' r' hh with hh | ⟨x', hx, ht⟩
              · exact Or.inl hh
              · exact Or.inr ⟨x', by simp [hx], ht⟩
            · exact Or.inr ⟨x, by simp, by simp⟩
        · rw [if_neg hre]
          refine ⟨hs.asked, hs.again, wanted', hs.requested, ?_, ?_⟩
          · intro p hp
            rw [List.mem_cons] at hp
            rcases hp with rfl | hp
            · exact Or.inr (Or.inl (by simp))
            · rcases hs.slow p hp with hp | hp | hp
              · exact Or.inl hp
              · exact Or.inr (Or.inl (by simp [hp]))
              · exact Or.inr (Or.inr hp)
          · intro p hp
            rw [List.mem_append, List.mem_singleton] at hp
            rcases hp with hp | rfl
            · exact hs.banned p hp
            · refine ⟨hb.1, ?_⟩
              rcases hq with hq | hq
              · rcases hs.slow _ hq with hq | hq | hq
                · exact Or.inl hq
                · exact absurd hq hb.2
                · rw [hb.1] at hq; cases hq
              · rcases hs.requested h r hr with hr | ⟨x', -, ht⟩
                · exact Or.inr ⟨h, r, x, hr, rfl, hq, h1, h3⟩
                · omega
    · rw [if_neg hq]
      exact hs

private theorem seen_loop {s : BlockSyncer P} {v : DownloadView P H} {all : List (Nat × H)} (cap : Nat) :
    ∀ (l : List (Nat × H)) (st : Visit P H), (∀ b ∈ l, b ∈ all) → Seen s v all st →
      Seen s v all (visitLoop v cap l st) := by
  intro l
  induction l with
  | nil => intro st _ hs; exact hs
  | cons b l ih =>
    intro st hl hs
    obtain ⟨h, x⟩ := b
    unfold visitLoop
    by_cases hq : (v.processing x || v.hasBlock h x) = true
    · rw [if_pos hq]; exact ih st (fun b hb => hl b (by simp [hb])) hs
    · rw [if_neg hq]
      rw [Bool.or_eq_true, not_or, Bool.not_eq_true, Bool.not_eq_true] at hq
      have hs' := seen_step hs (hl (h, x) (by simp)) hq.1 hq.2
      simp only
      split
      · exact ih _ (fun b hb => hl b (by simp [hb])) hs'
      · split
        · exact hs'
        · exact ih _ (fun b hb => hl b (by simp [hb])) hs'

private theorem wanted_le {v : DownloadView P H} (cap : Nat) :
    ∀ (l : List (Nat × H)) (st : Visit P H), st.wanted.length < cap → (visitLoop v cap l st).wanted.length ≤ cap := by
  intro l
  induction l with
  | nil => intro st hs; exact Nat.le_of_lt hs
  | cons b l ih =>
    intro st hs
    have hstep : (st.step v b).2.wanted.length ≤ st.wanted.length + 1 ∧
        ((st.step v b).1 = true → (st.step v b).2.wanted = st.wanted) := by
      unfold Visit.step
      split
      · simp
      · split
        · split
          · simp
          · split
            · simp
            · simp
        · simp
    unfold visitLoop
    split
    · exact ih st hs
    · simp only
      split
      · rename_i hc
        exact ih _ (by rw [hstep.2 hc]; exact hs)
      · split
        · omega
        · rename_i hc
          exact ih _ (by omega)

/-- The peer the `i`-th block goes to. -/
private def peerAt (v : DownloadView P H) (i : Nat) : Option P := v.mostWork[(v.first + i / 16) % v.mostWork.length]?

private def sends (v : DownloadView P H) : Nat → List (Nat × H) → List (P × Nat × H)
  | _, [] => []
  | i, b :: bs =>
    match peerAt v i with
    | none => sends v (i + 1) bs
    | some p => if v.reachable p then (p, b) :: sends v (i + 1) bs else sends v (i + 1) bs

omit [DecidableEq P] in
private theorem send_spec {v : DownloadView P H} (hn : 0 < v.mostWork.length) : ∀ (bs : List (Nat × H)) (i next : Nat)
    (st : Visit P H), next = (v.first + i / 16) % v.mostWork.length →
    ∃ r, sendLoop v i next bs st = .ok r ∧ r.asked = st.asked ++ sends v i bs ∧ r.slow = st.slow ∧ r.banned = st.banned ∧
      (∀ h q, (h, q) ∈ r.requested → (h, q) ∈ st.requested ∨
        ∃ x, (q.peer, h, x) ∈ sends v i bs ∧ v.now + 5 ≤ q.timeout) ∧
      ∀ p b, (p, b) ∈ sends v i bs → b ∈ bs ∧ v.reachable p = true := by
  intro bs
  induction bs with
  | nil => intro i next st _; exact ⟨st, rfl, by simp [sends], rfl, rfl, fun _ _ h => Or.inl h, by simp [sends]⟩
  | cons b bs ih =>
    intro i next st he
    obtain ⟨p, hp⟩ : ∃ p, v.mostWork[next]? = some p :=
      ⟨_, List.getElem?_eq_getElem (by rw [he]; exact Nat.mod_lt _ hn)⟩
    have hpa : peerAt v i = some p := by unfold peerAt; rw [← he]; exact hp
    have hnext : (if (i + 1) % 16 = 0 then (next + 1) % v.mostWork.length else next) =
        (v.first + (i + 1) / 16) % v.mostWork.length := by
      by_cases h16 : (i + 1) % 16 = 0
      · rw [if_pos h16, he, show (i + 1) / 16 = i / 16 + 1 by omega, ← Nat.add_assoc, Nat.mod_add_mod]
      · rw [if_neg h16, he, show (i + 1) / 16 = i / 16 by omega]
    unfold sendLoop
    rw [hp]
    simp only
    unfold sends
    rw [hpa]
    simp only
    by_cases hre : v.reachable p = true
    · rw [if_pos hre, if_pos hre]
      obtain ⟨r, r1, r2, r3, r4, r5, r6⟩ := ih (i + 1) _ { st with
        requested := setRequest st.requested b.1 ⟨p, v.now + 10, false⟩, asked := st.asked ++ [(p, b)] } hnext
      refine ⟨r, r1, by rw [r2]; simp, r3, r4, ?_, ?_⟩
      · intro h q hq
        rcases r5 h q hq with hq | ⟨x, x1, x2⟩
        · rcases mem_set hq with hq | ⟨rfl, rfl⟩
          · exact Or.inl hq
          · exact Or.inr ⟨b.2, by simp, by show v.now + 5 ≤ v.now + 10; omega⟩
        · exact Or.inr ⟨x, by simp [x1], x2⟩
      · intro q c hc
        rw [List.mem_cons] at hc
        rcases hc with hc | hc
        · cases hc; exact ⟨by simp, hre⟩
        · exact ⟨by simp [(r6 q c hc).1], (r6 q c hc).2⟩
    · rw [if_neg hre, if_neg hre]
      obtain ⟨r, r1, r2, r3, r4, r5, r6⟩ := ih (i + 1) _ st hnext
      exact ⟨r, r1, r2, r3, r4, r5, fun q c hc => ⟨by simp [(r6 q c hc).1], (r6 q c hc).2⟩⟩

/-- What one call guarantees. -/
private structure CallSpec (s s' : BlockSyncer P) (v : DownloadView P H) (a : BlockActs P H) : Prop where
  requested : ∀ h r, (h, r) ∈ s'.requested → (h, r) ∈ s.requested ∨ ∃ x, (r.peer, h, x) ∈ a.asked ∧ v.now + 5 ≤ r.timeout
  slow : ∀ p ∈ s'.slow, p ∈ s.slow ∨ p ∈ a.banned ∨ v.banned p = true
  banned : ∀ p ∈ a.banned, v.banned p = false ∧ (p ∈ s.slow ∨ ∃ h r x, (h, r) ∈ s.requested ∧ r.peer = p ∧
    r.timeout < v.now ∧ (h, x) ∈ v.needed (32 * v.mostWork.length) ∧ v.hasBlock h x = false)

private theorem request_spec (s : BlockSyncer P) (v : DownloadView P H) (hfirst : v.mostWork ≠ [] → v.first < v.mostWork.length) :
    ∃ s' a, s.request v = .ok (s', a) ∧ CallSpec s s' v a ∧
      (∀ p h x, (p, h, x) ∈ a.asked → (h, x) ∈ v.needed (32 * v.mostWork.length) ∧ v.processing x = false ∧
        v.hasBlock h x = false ∧ v.reachable p = true) ∧
      ∃ again wanted, a.asked = again ++ sends v 0 wanted ∧ wanted.length ≤ 16 * v.mostWork.length ∧
        ∀ p h x, (p, h, x) ∈ again → ∃ r, (h, r) ∈ s.requested ∧ r.peer = p := by
  unfold BlockSyncer.request
  by_cases hw : v.mostWork = []
  · rw [if_pos hw]
    exact ⟨s, _, rfl, ⟨fun _ _ h => Or.inl h, fun _ h => Or.inl h, by simp⟩, by simp, [], [], by simp [sends], by simp, by simp⟩
  · rw [if_neg hw]
    have hn : 0 < v.mostWork.length := List.length_pos_iff.2 hw
    have h0 : Seen s v (v.needed (32 * v.mostWork.length)) ⟨s.requested, s.slow, [], [], []⟩ :=
      ⟨by simp, by simp, by simp, fun _ _ h => Or.inl h, fun _ h => Or.inl h, by simp⟩
    have h1 := seen_loop (16 * v.mostWork.length) _ _ (fun b hb => hb) h0
    have h2 := wanted_le (v := v) (16 * v.mostWork.length) (v.needed (32 * v.mostWork.length))
      ⟨s.requested, s.slow, [], [], []⟩ (by simp; omega)
    simp only
    rw [show 2 * (16 * v.mostWork.length) = 32 * v.mostWork.length by omega]
    generalize visitLoop v (16 * v.mostWork.length) (v.needed (32 * v.mostWork.length)) _ = seen at h1 h2 ⊢
    have hf : v.first = v.first % v.mostWork.length := (Nat.mod_eq_of_lt (hfirst hw)).symm
    · obtain ⟨r, r1, r2, r3, r4, r5, r6⟩ := send_spec hn seen.wanted 0 v.first seen (by simpa using hf)
      rw [r1, Res.ok_bind]
      refine ⟨_, _, rfl, ⟨?_, ?_, ?_⟩, ?_, seen.asked, seen.wanted, r2, h2, h1.again⟩
      · intro h q hq
        rcases r5 h q hq with hq | ⟨x, x1, x2⟩
        · rcases h1.requested h q hq with hq | ⟨x, x1, x2⟩
          · exact Or.inl hq
          · exact Or.inr ⟨x, by rw [r2]; simp [x1], x2⟩
        · exact Or.inr ⟨x, by rw [r2]; simp [x1], x2⟩
      · intro p hp
        simp only at hp
        rw [r3] at hp
        simp only [r4]
        exact h1.slow p hp
      · intro p hp
        simp only [r4] at hp
        exact h1.banned p hp
      · intro p h x hh
        simp only at hh
        rw [r2, List.mem_append] at hh
        rcases hh with hh | hh
        · exact h1.asked p h x hh
        · obtain ⟨g1, g2⟩ := r6 p (h, x) hh
          obtain ⟨g3, g4, g5⟩ := h1.wanted h x g1
          exact ⟨g3, g4, g5, g2⟩

private theorem step_cases (s : BlockSyncer P) (v : DownloadView P H) (b : Bool) :
    s.step v b = .ok (s, ⟨[], []⟩) ∨ s.step v b = .ok (s.advance v, ⟨[], []⟩) ∨ s.step v b = (s.advance v).request v := by
  unfold BlockSyncer.step
  split
  · simp only
    split
    · exact Or.inr (Or.inr rfl)
    · exact Or.inr (Or.inl rfl)
  · exact Or.inl rfl

omit [DecidableEq P] in
private theorem advance_sub (s : BlockSyncer P) (v : DownloadView P H) {e : Nat × BlockRequest P}
    (he : e ∈ (s.advance v).requested) : e ∈ s.requested := by
  unfold BlockSyncer.advance at he
  exact (List.mem_filter.1 he).1

private theorem sends_count {v : DownloadView P H} (hnd : v.mostWork.Nodup) (p : P) (bs : List (Nat × H))
    (hlen : bs.length ≤ 16 * v.mostWork.length) : ((sends v 0 bs).filter (fun e => decide (e.1 = p))).length ≤ 16 := by
  have key : ∀ (bs : List (Nat × H)) (i : Nat), ((sends v i bs).filter (fun e => decide (e.1 = p))).length ≤
      ((List.range' i bs.length).filter (fun j => decide (peerAt v j = some p))).length := by
    intro bs
    induction bs with
    | nil => intro i; simp [sends]
    | cons b bs ih =>
      intro i
      have h1 := ih (i + 1)
      rw [List.length_cons, List.range'_succ]
      unfold sends
      cases hpa : peerAt v i with
      | none => simp only; rw [List.filter_cons_of_neg (by simp [hpa])]; exact h1
      | some q =>
        simp only
        by_cases hq : q = p
        · subst hq
          rw [List.filter_cons_of_pos (by simp [hpa])]
          split
          · rw [List.filter_cons_of_pos (by simp)]; simp only [List.length_cons]; omega
          · simp only [List.length_cons]; omega
        · rw [List.filter_cons_of_neg (by simp [hpa, hq])]
          split
          · rw [List.filter_cons_of_neg (by simp [hq])]; exact h1
          · exact h1
  refine Nat.le_trans (key bs 0) ?_
  generalize hl : (List.range' 0 bs.length).filter (fun j => decide (peerAt v j = some p)) = l
  have hmem : ∀ j ∈ l, j < 16 * v.mostWork.length ∧ peerAt v j = some p := by
    intro j hj
    rw [← hl, List.mem_filter, List.mem_range'_1, decide_eq_true_eq] at hj
    exact ⟨by omega, hj.2⟩
  have hndl : l.Nodup := by rw [← hl]; exact List.Nodup.filter _ List.nodup_range'
  have hdiv : ∀ j ∈ l, ∀ k ∈ l, j / 16 = k / 16 := by
    intro j hj k hk
    obtain ⟨j1, j2⟩ := hmem j hj
    obtain ⟨k1, k2⟩ := hmem k hk
    unfold peerAt at j2 k2
    obtain ⟨j3, j4⟩ := List.getElem?_eq_some_iff.1 j2
    obtain ⟨k3, k4⟩ := List.getElem?_eq_some_iff.1 k2
    have he := (List.Nodup.getElem_inj_iff hnd).1 (j4.trans k4.symm)
    have ja : j / 16 < v.mostWork.length := by omega
    have ka : k / 16 < v.mostWork.length := by omega
    have hm : (v.first + j / 16) ≡ (v.first + k / 16) [MOD v.mostWork.length] := he
    exact Nat.ModEq.eq_of_lt_of_lt (Nat.ModEq.add_left_cancel' _ hm) ja ka
  have hnm : (l.map (· % 16)).Nodup := by
    refine List.Nodup.map_on ?_ hndl
    intro j hj k hk he
    have := hdiv j hj k hk
    have he : j % 16 = k % 16 := he
    omega
  have hsub : (l.map (· % 16)) ⊆ List.range 16 := by
    intro x hx
    obtain ⟨j, -, rfl⟩ := List.mem_map.1 hx
    rw [List.mem_range]; exact Nat.mod_lt _ (by omega)
  have := (List.subperm_of_subset hnm hsub).length_le
  simpa using this

/-- **C80.**  A call of the block syncer never fails, and each block it asks a peer for is one of the blocks needed, not
being processed and not there already, and the peer is connected.  Each request is either the repetition of an earlier
one to the same peer or a new one, and no peer gets more than 16 new ones. -/
theorem block_requests (s : BlockSyncer P) (v : DownloadView P H) (startup : Bool)
    (hfirst : v.mostWork ≠ [] → v.first < v.mostWork.length) :
    ∃ s' acts, s.step v startup = .ok (s', acts) ∧
      (∀ p h x, (p, h, x) ∈ acts.asked → (h, x) ∈ v.needed (32 * v.mostWork.length) ∧ v.processing x = false ∧
        v.hasBlock h x = false ∧ v.reachable p = true) ∧
      ∃ again fresh, acts.asked = again ++ fresh ∧
        (∀ p h x, (p, h, x) ∈ again → ∃ r, (h, r) ∈ s.requested ∧ r.peer = p) ∧
        (v.mostWork.Nodup → ∀ p, (fresh.filter (fun e => decide (e.1 = p))).length ≤ 16) := by
  rcases step_cases s v startup with e | e | e
  · exact ⟨_, _, e, by simp, [], [], rfl, by simp, by simp⟩
  · exact ⟨_, _, e, by simp, [], [], rfl, by simp, by simp⟩
  · obtain ⟨s', a, h1, -, h3, again, wanted, h4, h5, h6⟩ := request_spec (s.advance v) v hfirst
    refine ⟨s', a, e.trans h1, h3, again, sends v 0 wanted, h4, ?_, fun hnd p => sends_count hnd p wanted h5⟩
    intro p h x hh
    obtain ⟨r, hr, hp⟩ := h6 p h x hh
    exact ⟨r, advance_sub s v hr, hp⟩

private theorem step_spec {s s' : BlockSyncer P} {v : DownloadView P H} {b : Bool} {a : BlockActs P H}
    (hfirst : v.mostWork ≠ [] → v.first < v.mostWork.length) (e : s.step v b = .ok (s', a)) : CallSpec s s' v a := by
  have triv : ∀ t : BlockSyncer P, (∀ x ∈ t.requested, x ∈ s.requested) → t.slow = s.slow →
      CallSpec s t v ⟨[], []⟩ := by
    intro t h1 h2
    exact ⟨fun h r hr => Or.inl (h1 _ hr), fun p hp => Or.inl (by rw [← h2]; exact hp), by simp⟩
  rcases step_cases s v b with e' | e' | e'
  · rw [e'] at e; cases e; exact triv s (fun _ h => h) rfl
  · rw [e'] at e; cases e; exact triv _ (fun _ h => advance_sub s v h) rfl
  · obtain ⟨s2, a2, h1, h2, -⟩ := request_spec (s.advance v) v hfirst
    rw [e', h1] at e
    cases e
    refine ⟨?_, h2.slow, ?_⟩
    · intro h r hr
      rcases h2.requested h r hr with hr | hr
      · exact Or.inl (advance_sub s v hr)
      · exact Or.inr hr
    · intro p hp
      obtain ⟨h3, h4⟩ := h2.banned p hp
      refine ⟨h3, ?_⟩
      rcases h4 with h4 | ⟨h, r, x, g1, g2⟩
      · exact Or.inl h4
      · exact Or.inr ⟨h, r, x, advance_sub s v g1, g2⟩

private theorem ban_cause : ∀ (vs : List (DownloadView P H × Bool)) (s : BlockSyncer P) (as : List (BlockActs P H)),
    (∀ e ∈ vs, e.1.mostWork ≠ [] → e.1.first < e.1.mostWork.length) → s.run vs = .ok as →
    ∀ (k : Nat) (e : DownloadView P H × Bool) (a : BlockActs P H) (p : P), vs[k]? = some e → as[k]? = some a →
      p ∈ a.banned → p ∉ s.slow →
      (∀ (i : Nat) (e' : DownloadView P H × Bool) (a' : BlockActs P H), i < k → vs[i]? = some e' → as[i]? = some a' →
        p ∉ a'.banned ∧ e'.1.banned p = false) →
      e.1.banned p = false ∧ ∃ h x, (h, x) ∈ e.1.needed (32 * e.1.mostWork.length) ∧ e.1.hasBlock h x = false ∧
        ((∃ r, (h, r) ∈ s.requested ∧ r.peer = p ∧ r.timeout < e.1.now) ∨
          ∃ (i : Nat) (e' : DownloadView P H × Bool) (a' : BlockActs P H) (y : H), i < k ∧ vs[i]? = some e' ∧
            as[i]? = some a' ∧ (p, h, y) ∈ a'.asked ∧ e'.1.now + 5 < e.1.now) := by
  intro vs
  induction vs with
  | nil => intro s as _ _ k e a p h; simp at h
  | cons w vs ih =>
    intro s as hfirst hrun k e a p hk ha hp hslow hpast
    obtain ⟨w1, w2⟩ := w
    unfold BlockSyncer.run at hrun
    obtain ⟨⟨s1, a1⟩, h1, hrun⟩ := Res.bind_eq_ok.1 hrun
    obtain ⟨rest, h2, hrun⟩ := Res.bind_eq_ok.1 hrun
    cases hrun
    have hc := step_spec (hfirst (w1, w2) (by simp)) h1
    cases k with
    | zero =>
      simp at hk ha
      subst hk ha
      obtain ⟨g1, g2⟩ := hc.banned p hp
      refine ⟨g1, ?_⟩
      rcases g2 with g2 | ⟨h, r, x, q1, q2, q3, q4, q5⟩
      · exact absurd g2 hslow
      · exact ⟨h, x, q4, q5, Or.inl ⟨r, q1, q2, q3⟩⟩
    | succ k =>
      simp only [List.getElem?_cons_succ] at hk ha
      have h0 := hpast 0 (w1, w2) a1 (by omega) (by simp) (by simp)
      have hslow1 : p ∉ s1.slow := by
        intro hh
        rcases hc.slow p hh with hh | hh | hh
        · exact hslow hh
        · exact h0.1 hh
        · have := h0.2; simp only at this; rw [this] at hh; cases hh
      obtain ⟨g1, h, x, g2, g3, g4⟩ := ih s1 rest (fun e he => hfirst e (by simp [he])) h2 k e a p hk ha hp hslow1
        (fun i e' a' hi he' ha' => hpast (i + 1) e' a' (by omega) (by simpa using he') (by simpa using ha'))
      refine ⟨g1, h, x, g2, g3, ?_⟩
      rcases g4 with ⟨r, r1, r2, r3⟩ | ⟨i, e', a', y, i1, i2, i3, i4, i5⟩
      · rcases hc.requested h r r1 with r1 | ⟨y, y1, y2⟩
        · exact Or.inl ⟨r, r1, r2, r3⟩
        · exact Or.inr ⟨0, (w1, w2), a1, y, by omega, by simp, by simp, by rw [← r2]; exact y1, by
            have y2 : w1.now + 5 ≤ r.timeout := y2
            show w1.now + 5 < e.1.now; omega⟩
      · exact Or.inr ⟨i + 1, e', a', y, by omega, by simpa using i2, by simpa using i3, i4, i5⟩

/-- **C80, partial.**  The first time the block syncer bans a peer, it had asked that peer for a block more than five
seconds before, and a block of that height is still needed and not there. -/
theorem block_ban_partial (vs : List (DownloadView P H × Bool)) (as : List (BlockActs P H))
    (hfirst : ∀ e ∈ vs, e.1.mostWork ≠ [] → e.1.first < e.1.mostWork.length)
    (hrun : BlockSyncer.init.run vs = .ok as) {k : Nat} {e : DownloadView P H × Bool} {a : BlockActs P H} {p : P}
    (hk : vs[k]? = some e) (ha : as[k]? = some a) (hp : p ∈ a.banned)
    (hnew : ∀ (i : Nat) (e' : DownloadView P H × Bool) (a' : BlockActs P H), i < k → vs[i]? = some e' →
      as[i]? = some a' → p ∉ a'.banned ∧ e'.1.banned p = false) :
    e.1.banned p = false ∧ ∃ h x, (h, x) ∈ e.1.needed (32 * e.1.mostWork.length) ∧ e.1.hasBlock h x = false ∧
      ∃ (i : Nat) (e' : DownloadView P H × Bool) (a' : BlockActs P H) (y : H), i < k ∧ vs[i]? = some e' ∧
        as[i]? = some a' ∧ (p, h, y) ∈ a'.asked ∧ e'.1.now + 5 < e.1.now := by
  obtain ⟨g1, h, x, g2, g3, g4⟩ := ban_cause vs _ as hfirst hrun k e a p hk ha hp (by simp [BlockSyncer.init]) hnew
  rcases g4 with ⟨r, hr, -⟩ | g4
  · simp [BlockSyncer.init] at hr
  · exact ⟨g1, h, x, g2, g3, g4⟩

/-- What the syncer sees at a time: one block is needed; peer 1 is the only one, connected or not, banned or not. -/
private def sight (now chain need : Nat) (reachable : Bool) : DownloadView Nat Nat × Bool :=
  ({ now := now, chainHeight := chain, networkHeight := 100, needed := fun _ => [(need, 7 * need)], processing := fun _ => false
     hasBlock := fun _ _ => false, banned := fun _ => false, reachable := fun _ => reachable, mostWork := [1], first := 0 }, false)

/-- A peer asked twice for the same block that answers neither time is banned 17 seconds after the first request. -/
example : BlockSyncer.init.run [sight 0 4 5 true, sight 11 4 5 true, sight 17 4 5 true] =
    .ok [⟨[(1, 5, 35)], []⟩, ⟨[(1, 5, 35)], []⟩, ⟨[(1, 5, 35)], [1]⟩] := by decide +kernel

/-- **C80 fails.**  A peer that was banned once is remembered as slow for ever: after the ban has run out, and it was asked
for another block, it is banned again in the same second. -/
theorem block_ban_again_violated :
    BlockSyncer.init.run [sight 0 4 5 true, sight 11 4 5 true, sight 17 4 5 true, sight 20000 5 6 true, sight 20000 5 6 true,
      sight 20000 5 6 true] =
    .ok [⟨[(1, 5, 35)], []⟩, ⟨[(1, 5, 35)], []⟩, ⟨[(1, 5, 35)], [1]⟩, ⟨[(1, 6, 42)], []⟩, ⟨[(1, 6, 42)], []⟩,
      ⟨[(1, 6, 42)], [1]⟩] := by decide +kernel

/-- **C80 fails.**  A peer asked once for a block that then disconnects is banned. -/
theorem block_ban_disconnected_violated :
    BlockSyncer.init.run [sight 0 4 5 true, sight 11 4 5 false] = .ok [⟨[(1, 5, 35)], []⟩, ⟨[], [1]⟩] := by
  decide +kernel

omit [DecidableEq P] in
/-- **C79.**  Asking for fewer blocks gives the first of those asking for more gives. -/
theorem blocks_needed_prefix (candidate : List H) (common : Nat) (orphan : Nat → H → Bool) (m n : Nat) (hm : 0 < m)
    (hmn : m ≤ n) :
    blocksNeeded candidate common orphan m = (blocksNeeded candidate common orphan n).take m := by
  unfold blocksNeeded
  rw [needed_eq orphan m _ _ [] (by simp [hm]), if_neg (by omega), List.nil_append,
    needed_eq orphan n _ _ [] (by simp; omega), if_neg (by omega), List.nil_append, List.take_take, Nat.min_eq_left hmn]

omit [DecidableEq P] in
private theorem find_none {l : List (Nat × BlockRequest P)} {h : Nat} (hl : ∀ r, (h, r) ∉ l) : findRequest l h = none := by
  cases e : findRequest l h with
  | none => rfl
  | some r => exact absurd (find_mem e) (hl r)

omit [DecidableEq P] in
private theorem find_set {l : List (Nat × BlockRequest P)} {h h' : Nat} {r : BlockRequest P} (hne : h ≠ h') :
    findRequest (setRequest l h' r) h = findRequest l h := by
  induction l with
  | nil => simp [setRequest, findRequest, Ne.symm hne]
  | cons a l ih =>
    unfold setRequest
    by_cases ha : a.1 = h'
    · rw [if_pos ha]
      have h1 : ¬ h' = h := Ne.symm hne
      have h2 : ¬ a.1 = h := by rw [ha]; exact h1
      simp [findRequest, h1, h2]
    · rw [if_neg ha]
      unfold findRequest at ih ⊢
      by_cases hb : a.1 = h
      · simp [hb]
      · simp only [List.find?_cons, hb, decide_false]
        exact ih

private theorem visit_wanted {v : DownloadView P H} {cap : Nat} {b : Nat × H} (hp : v.processing b.2 = false)
    (hh : v.hasBlock b.1 b.2 = false) : ∀ (l : List (Nat × H)) (st : Visit P H), findRequest st.requested b.1 = none →
    (∃ i, l[i]? = some b ∧ st.wanted.length + i + 1 ≤ cap) ∨ b ∈ st.wanted → b ∈ (visitLoop v cap l st).wanted := by
  intro l
  induction l with
  | nil =>
    intro st _ h
    rcases h with ⟨i, h, -⟩ | h
    · simp at h
    · exact h
  | cons c l ih =>
    intro st hf h
    have hstep : findRequest (st.step v c).2.requested b.1 = none ∧
        (st.step v c).2.wanted.length ≤ st.wanted.length + 1 ∧ (∀ x ∈ st.wanted, x ∈ (st.step v c).2.wanted) ∧
        (c = b → (st.step v c).1 = false ∧ b ∈ (st.step v c).2.wanted) ∧
        ((st.step v c).1 = true → (st.step v c).2.wanted = st.wanted) := by
      unfold Visit.step
      cases hr : findRequest st.requested c.1 with
      | none => exact ⟨hf, by simp, by simp; exact fun a b h => .inl h, by intro e; subst e; simp, by simp⟩
      | some r =>
        have hne : b.1 ≠ c.1 := by intro e; rw [e, hr] at hf; cases hf
        have hcb : c ≠ b := by intro e; exact hne (by rw [e])
        simp only
        split
        · split
          · exact ⟨hf, by simp, by simp; exact fun a b h => .inl h, fun e => absurd e hcb, by simp⟩
          · split
            · exact ⟨by simp only; rw [find_set hne]; exact hf, by simp, fun x h => h, fun e => absurd e hcb, fun _ => rfl⟩
            · exact ⟨hf, by simp, by simp; exact fun a b h => .inl h, fun e => absurd e hcb, by simp⟩
        · exact ⟨hf, by simp, fun x h => h, fun e => absurd e hcb, fun _ => rfl⟩
    obtain ⟨s1, s2, s3, s4, s5⟩ := hstep
    unfold visitLoop
    by_cases hskip : (v.processing c.2 || v.hasBlock c.1 c.2) = true
    · rw [if_pos hskip]
      apply ih st hf
      rcases h with ⟨i, h, hc⟩ | h
      · cases i with
        | zero =>
          simp only [List.getElem?_cons_zero, Option.some.injEq] at h
          subst h
          rw [hp, hh] at hskip; cases hskip
        | succ i => exact .inl ⟨i, by simpa using h, by omega⟩
      · exact .inr h
    · rw [if_neg hskip]
      simp only
      have hnext : (∃ i, l[i]? = some b ∧ (st.step v c).2.wanted.length + i + 1 ≤ cap) ∨ b ∈ (st.step v c).2.wanted := by
        rcases h with ⟨i, h, hc⟩ | h
        · cases i with
          | zero =>
            simp only [List.getElem?_cons_zero, Option.some.injEq] at h
            exact .inr (s4 h).2
          | succ i => exact .inl ⟨i, by simpa using h, by omega⟩
        · exact .inr (s3 b h)
      by_cases hc : (st.step v c).1 = true
      · rw [if_pos hc]; exact ih _ s1 hnext
      · rw [if_neg hc]
        by_cases hcap : (st.step v c).2.wanted.length ≥ cap
        · rw [if_pos hcap]
          rcases hnext with ⟨i, -, hle⟩ | h
          · omega
          · exact h
        · rw [if_neg hcap]; exact ih _ s1 hnext

omit [DecidableEq P] in
private theorem sends_all {v : DownloadView P H} (hn : 0 < v.mostWork.length) (hr : ∀ p ∈ v.mostWork, v.reachable p = true)
    {b : Nat × H} : ∀ (bs : List (Nat × H)) (i : Nat), b ∈ bs → ∃ p ∈ v.mostWork, (p, b) ∈ sends v i bs := by
  intro bs
  induction bs with
  | nil => intro i h; simp at h
  | cons c bs ih =>
    intro i h
    have hlt : (v.first + i / 16) % v.mostWork.length < v.mostWork.length := Nat.mod_lt _ hn
    have hp : peerAt v i = some v.mostWork[(v.first + i / 16) % v.mostWork.length] := List.getElem?_eq_getElem hlt
    have hm := List.getElem_mem hlt
    unfold sends
    rw [hp]
    simp only
    rw [if_pos (hr _ hm)]
    rcases List.mem_cons.mp h with rfl | h
    · exact ⟨_, hm, by simp⟩
    · obtain ⟨p, h1, h2⟩ := ih (i + 1) h
      exact ⟨p, h1, by simp [h2]⟩

/-- **C80, what is missing is asked for.**  If the node is behind, has peers and reaches them all, then each of the first 15
blocks needed that has no request under way, is not being processed and is not there, is asked for by this call.
A request is under way if its height is below the height of the last call or above the chain's. -/
theorem block_missing_asked (s : BlockSyncer P) (v : DownloadView P H) (startup : Bool)
    (hfirst : v.first < v.mostWork.length) (hreach : ∀ p ∈ v.mostWork, v.reachable p = true)
    (hpre : v.needed 15 = (v.needed (32 * v.mostWork.length)).take 15)
    (hahead : v.networkHeight ≥ v.chainHeight + 5 ∨ (startup = true ∧ v.networkHeight > v.chainHeight))
    (h : Nat) (x : H) (hn : (h, x) ∈ v.needed 15) (hp : v.processing x = false) (hh : v.hasBlock h x = false)
    (hr : ∀ r, (h, r) ∈ s.requested → s.lastHeight ≤ h ∧ h ≤ v.chainHeight) :
    ∃ s' acts, s.step v startup = .ok (s', acts) ∧ ∃ p ∈ v.mostWork, (p, h, x) ∈ acts.asked := by
  have hnone : findRequest (s.advance v).requested h = none := by
    apply find_none
    intro r hm
    unfold BlockSyncer.advance at hm
    obtain ⟨h1, h2⟩ := List.mem_filter.mp hm
    obtain ⟨g1, g2⟩ := hr r h1
    simp [g1, g2] at h2
  have hdue : (s.advance v).due v = true := by
    unfold BlockSyncer.due
    split
    · rfl
    · generalize v.needed 15 = l at hn
      clear hpre
      induction l with
      | nil => simp at hn
      | cons c l ih =>
        unfold dueLoop
        rcases List.mem_cons.mp hn with rfl | hn
        · rw [hnone]
        · cases findRequest (s.advance v).requested c.1 with
          | none => rfl
          | some r =>
            simp only
            split
            · rfl
            · split
              · rfl
              · exact ih hn
  have hstep : s.step v startup = (s.advance v).request v := by
    unfold BlockSyncer.step
    rw [if_pos hahead]
    simp only
    rw [if_pos hdue]
  have hw : v.mostWork ≠ [] := by intro e; rw [e] at hfirst; simp at hfirst
  have hpos : 0 < v.mostWork.length := by omega
  rw [hstep]
  unfold BlockSyncer.request
  rw [if_neg hw]
  simp only
  rw [show 2 * (16 * v.mostWork.length) = 32 * v.mostWork.length by omega]
  have hwant : (h, x) ∈ (visitLoop v (16 * v.mostWork.length) (v.needed (32 * v.mostWork.length))
      ⟨(s.advance v).requested, (s.advance v).slow, [], [], []⟩).wanted := by
    apply visit_wanted (b := (h, x)) hp hh _ _ hnone
    left
    rw [hpre] at hn
    obtain ⟨i, hi, e⟩ := List.getElem_of_mem hn
    rw [List.length_take] at hi
    rw [List.getElem_take] at e
    refine ⟨i, by rw [List.getElem?_eq_getElem (by omega), e], ?_⟩
    simp only [List.length_nil]
    omega
  generalize visitLoop v (16 * v.mostWork.length) (v.needed (32 * v.mostWork.length)) _ = seen at hwant ⊢
  obtain ⟨r, r1, r2, -⟩ := send_spec hpos seen.wanted 0 v.first seen (by simpa using (Nat.mod_eq_of_lt hfirst).symm)
  rw [r1, Res.ok_bind]
  obtain ⟨p, p1, p2⟩ := sends_all hpos hreach seen.wanted 0 hwant
  exact ⟨_, _, rfl, p, p1, by simp only; rw [r2]; simp [p2]⟩

/-- **C80, nothing without a cause.**  If 15 requests or more are under way, and each of the first 15 blocks needed was asked
from a peer that is not slow, and its time is not over or the block is being processed, then the call asks for nothing and
bans nobody. -/
theorem block_quiet (s : BlockSyncer P) (v : DownloadView P H) (startup : Bool)
    (hmany : 15 ≤ (s.requested.filter fun e => decide (e.1 < s.lastHeight ∨ v.chainHeight < e.1)).length)
    (hfine : ∀ h x, (h, x) ∈ v.needed 15 → (h < s.lastHeight ∨ v.chainHeight < h) ∧
      ∃ r, findRequest s.requested h = some r ∧ r.peer ∉ s.slow ∧ (v.now ≤ r.timeout ∨ v.processing x = true)) :
    ∃ s', s.step v startup = .ok (s', ⟨[], []⟩) := by
  have hfil : (s.advance v).requested = s.requested.filter fun e => decide (e.1 < s.lastHeight ∨ v.chainHeight < e.1) := by
    unfold BlockSyncer.advance
    simp only
    congr 1
    funext e
    by_cases h1 : s.lastHeight ≤ e.1
    · by_cases h2 : e.1 ≤ v.chainHeight
      · have : ¬ (e.1 < s.lastHeight ∨ v.chainHeight < e.1) := by omega
        simp [h1, h2, this]
      · have : e.1 < s.lastHeight ∨ v.chainHeight < e.1 := by omega
        simp [h2, this]
    · have : e.1 < s.lastHeight ∨ v.chainHeight < e.1 := by omega
      simp [h1, this]
  have hkeep : ∀ (l : List (Nat × BlockRequest P)) (q : Nat × BlockRequest P → Bool) (h : Nat),
      (∀ e : Nat × BlockRequest P, e.1 = h → q e = true) → findRequest (l.filter q) h = findRequest l h := by
    intro l q h hq
    unfold findRequest
    rw [List.find?_filter]
    congr 1
    congr 1
    funext e
    by_cases he : e.1 = h
    · simp [he, hq e he]
    · simp [he]
  have hdue : (s.advance v).due v = false := by
    unfold BlockSyncer.due
    rw [if_neg (by rw [hfil]; omega)]
    generalize v.needed 15 = l at hfine
    induction l with
    | nil => rfl
    | cons c l ih =>
      obtain ⟨h1, r, h2, h3, h4⟩ := hfine c.1 c.2 (by simp)
      have hfind : findRequest (s.advance v).requested c.1 = some r := by
        rw [hfil, hkeep _ _ _ (fun e he => by rw [decide_eq_true_eq, he]; exact h1), h2]
      unfold dueLoop
      rw [hfind]
      simp only
      rw [if_neg (show r.peer ∉ (s.advance v).slow from h3), if_neg (by
        rintro ⟨g1, g2⟩
        rcases h4 with h4 | h4
        · omega
        · rw [h4] at g2; cases g2)]
      exact ih fun h x hm => hfine h x (by simp [hm])
  unfold BlockSyncer.step
  split
  · simp only
    rw [if_neg (by rw [hdue]; simp)]
    exact ⟨_, rfl⟩
  · exact ⟨_, rfl⟩

/-- **C80, downloaded blocks are forgotten.**  After a call of a node that is behind, a request at a height from that of the
last call up to the chain's, both included, is one this call made. -/
theorem block_forgotten (s s' : BlockSyncer P) (v : DownloadView P H) (startup : Bool) (acts : BlockActs P H)
    (hfirst : v.mostWork ≠ [] → v.first < v.mostWork.length)
    (hahead : v.networkHeight ≥ v.chainHeight + 5 ∨ (startup = true ∧ v.networkHeight > v.chainHeight))
    (hs : s.step v startup = .ok (s', acts)) (h : Nat) (r : BlockRequest P) (hr : (h, r) ∈ s'.requested)
    (h1 : s.lastHeight ≤ h) (h2 : h ≤ v.chainHeight) : ∃ x, (r.peer, h, x) ∈ acts.asked := by
  have hgone : ∀ q, (h, q) ∉ (s.advance v).requested := by
    intro q hm
    unfold BlockSyncer.advance at hm
    have := (List.mem_filter.mp hm).2
    simp [h1, h2] at this
  unfold BlockSyncer.step at hs
  rw [if_pos hahead] at hs
  simp only at hs
  split at hs
  · obtain ⟨s2, a2, e1, e2, -⟩ := request_spec (s.advance v) v hfirst
    rw [e1] at hs
    cases hs
    rcases e2.requested h r hr with hm | ⟨x, hx, -⟩
    · exact absurd hm (hgone r)
    · exact ⟨x, hx⟩
  · cases hs
    exact absurd hr (hgone r)

/-- The second of two blocks needed is asked for, the first is under way. -/
example : ∃ s' acts, (⟨4, [(5, ⟨1, 100, false⟩)], []⟩ : BlockSyncer Nat).step
    ({ (sight 0 4 5 true).1 with needed := fun _ => [(5, 35), (6, 42)] }) false = .ok (s', acts) ∧
    ∃ p ∈ [1], (p, 6, 42) ∈ acts.asked :=
  block_missing_asked _ _ _ (by decide) (by decide) (by decide) (by decide) 6 42 (by decide) rfl rfl (by intro r hr; simp at hr)

/-- Fifteen blocks asked for within their time: nothing is done. -/
example : ∃ s', (⟨4, (List.range 15).map (fun i => (i + 5, ⟨1, 100, false⟩)), []⟩ : BlockSyncer Nat).step
    ({ (sight 0 4 5 true).1 with needed := fun n => ((List.range 40).map fun i => (i + 5, i)).take n }) false =
    .ok (s', ⟨[], []⟩) := by
  apply block_quiet
  · decide +kernel
  · intro h x hm
    simp only [sight] at hm ⊢
    have hx : (h, x) ∈ (List.range 15).map fun i => (i + 5, i) := by
      have : ((List.range 40).map fun i => (i + 5, i)).take 15 = (List.range 15).map fun i => (i + 5, i) := by decide +kernel
      rw [← this]; exact hm
    obtain ⟨i, hi, e⟩ := List.mem_map.mp hx
    cases e
    have hi := List.mem_range.mp hi
    refine ⟨by omega, ⟨1, 100, false⟩, ?_, by simp, by decide⟩
    clear hm hx
    revert hi
    revert x
    decide +kernel

end Verif.Props
