import Verif.PoW.CuckooLemmas
import Mathlib.Tactic.IntervalCases

set_option linter.unusedSectionVars false

/-! # The verifiers of directed graphs -/
namespace Verif.PoW

open Verif

/-! ## Cuckaroom -/

/-- One round of the loop of `verify_cuckaroom`, as a step. -/
def stepDirected (uvs : List (Nat × Nat)) (i : Nat) : Except Code Nat :=
  match firstFrom uvs (uvs.getD i (0, 0)).2 with
  | none => .error .deadEnd
  | some i' => .ok i'

theorem walkDirected_prefix {len : Nat} {uvs : List (Nat × Nat)} {fuel : Nat} : ∀ t ≤ fuel,
    (∀ s < t, Goes (stepDirected uvs) s) →
    (∀ a b, a < b → b < t → pos (stepDirected uvs) a ≠ pos (stepDirected uvs) b) →
    walkDirected len uvs fuel [] 0 0 =
      walkDirected len uvs (fuel - t) ((List.range t).reverse.map (pos (stepDirected uvs)))
        (pos (stepDirected uvs) t) t
  | 0, _, _, _ => rfl
  | t + 1, ht, h, hd => by
    rw [walkDirected_prefix t (by omega) (fun s hs => h s (by omega)) (fun a b hab hb => hd a b hab (by omega)),
      show fuel - t = fuel - (t + 1) + 1 by omega, walkDirected, if_neg]
    · obtain ⟨h1, h2⟩ := h t (by omega)
      rw [stepDirected] at h1
      cases hf : firstFrom uvs (uvs.getD (pos (stepDirected uvs) t) (0, 0)).2 with
      | none => rw [hf] at h1; cases h1
      | some i' =>
        rw [hf] at h1
        injection h1 with h1
        simp only
        rw [if_neg (by rw [h1]; exact h2), List.range_succ, List.reverse_append, List.reverse_singleton,
          List.singleton_append, List.map_cons, h1]
    · simp only [List.mem_map, List.mem_reverse, List.mem_range, not_exists, not_and]
      exact fun a ha => hd a t ha (by omega)

/-- One cycle through all `len` directed edges: `order` lists the edges so that each ends where the next one
starts, and no two edges start at the same node. -/
def DirectedCycle (len : Nat) (src dst : Nat → Nat) : Prop :=
  (∃ order : Nat → Nat, order 0 = 0 ∧ (∀ t < len, order t < len) ∧
    (∀ s < len, ∀ t < len, order s = order t → s = t) ∧
    ∀ t < len, dst (order t) = src (order ((t + 1) % len))) ∧
  ∀ e < len, ∀ e' < len, src e = src e' → e = e'

theorem firstFrom_some {uvs : List (Nat × Nat)} {node i : Nat} :
    firstFrom uvs node = some i ↔ i < uvs.length ∧ (uvs.getD i (0, 0)).1 = node ∧
      ∀ j < i, (uvs.getD j (0, 0)).1 ≠ node := by
  rw [firstFrom, List.findIdx?_eq_some_iff_getElem]
  constructor
  · rintro ⟨h, h1, h2⟩
    refine ⟨h, by simpa [List.getD_eq_getElem?_getD, List.getElem?_eq_getElem h] using h1, fun j hj => ?_⟩
    have := h2 j hj
    simpa [List.getD_eq_getElem?_getD, List.getElem?_eq_getElem (show j < uvs.length by omega)] using this
  · rintro ⟨h, h1, h2⟩
    refine ⟨h, by simpa [List.getD_eq_getElem?_getD, List.getElem?_eq_getElem h] using h1, fun j hj => ?_⟩
    have := h2 j hj
    simpa [List.getD_eq_getElem?_getD, List.getElem?_eq_getElem (show j < uvs.length by omega)] using this

theorem firstFrom_none {uvs : List (Nat × Nat)} {node : Nat} (h : firstFrom uvs node = none) {i : Nat}
    (hi : i < uvs.length) : (uvs.getD i (0, 0)).1 ≠ node := by
  rw [firstFrom, List.findIdx?_eq_none_iff] at h
  have := h uvs[i] (List.getElem_mem hi)
  simpa [List.getD_eq_getElem?_getD, List.getElem?_eq_getElem hi] using this

theorem stepDirected_ok {uvs : List (Nat × Nat)} {i i' : Nat} :
    stepDirected uvs i = .ok i' ↔ i' < uvs.length ∧ (uvs.getD i' (0, 0)).1 = (uvs.getD i (0, 0)).2 ∧
      ∀ j < i', (uvs.getD j (0, 0)).1 ≠ (uvs.getD i (0, 0)).2 := by
  rw [← firstFrom_some, stepDirected]
  cases firstFrom uvs (uvs.getD i (0, 0)).2 <;> simp

theorem pigeon {n m : Nat} {f : Nat → Nat} (h : ∀ t < n, f t < m) (hmn : m < n) :
    ∃ a b, a < b ∧ b < n ∧ f a = f b := by
  obtain ⟨a, b, hab, he⟩ := Fintype.exists_ne_map_eq_of_card_lt
    (fun t : Fin n => (⟨f t, h t t.2⟩ : Fin m)) (by simpa using hmn)
  have he' : f a = f b := by simpa using he
  have hne : (a : Nat) ≠ b := fun hc => hab (Fin.ext hc)
  rcases Nat.lt_or_gt_of_ne hne with hl | hl
  · exact ⟨a, b, hl, b.2, he'⟩
  · exact ⟨b, a, hl, a.2, he'.symm⟩

theorem covers {n : Nat} {f : Nat → Nat} (h : ∀ t < n, f t < n) (hinj : ∀ a b, a < b → b < n → f a ≠ f b) {e : Nat}
    (he : e < n) : ∃ u < n, f u = e := by
  have hfi : Function.Injective (fun u : Fin n => (⟨f u, h u u.2⟩ : Fin n)) := by
    intro a b hab
    have hab' : f a = f b := by simpa using hab
    rcases Nat.lt_trichotomy (a : Nat) b with hlt | heq | hlt
    · exact absurd hab' (hinj _ _ hlt b.2)
    · exact Fin.ext heq
    · exact absurd hab'.symm (hinj _ _ hlt a.2)
  obtain ⟨u, hu⟩ := (Finite.injective_iff_surjective.1 hfi) ⟨e, he⟩
  exact ⟨u, u.2, by simpa using hu⟩

theorem walkDirected_right {len : Nat} {uvs : List (Nat × Nat)} (hlen : 0 < len) (hl : uvs.length = len) :
    (∃ c, walkDirected len uvs (len + 1) [] 0 0 = .ok c) ∧
    (walkDirected len uvs (len + 1) [] 0 0 = .ok .ok ↔
      DirectedCycle len (fun e => (uvs.getD e (0, 0)).1) (fun e => (uvs.getD e (0, 0)).2)) := by
  classical
  generalize hst : stepDirected uvs = step
  have hrange : ∀ t, (∀ s < t, Goes step s) → pos step t < len := by
    intro t h
    cases t with
    | zero => rw [pos]; exact hlen
    | succ t =>
      have h1 := (h t (by omega)).1
      rw [← hst] at h1
      have := (stepDirected_ok.1 h1).1
      rw [hst] at this
      omega
  -- the first round that stops the walk
  have hex : ∃ t, t ≤ len ∧ (¬ Goes step t ∨ ∃ a < t, pos step a = pos step t) := by
    by_contra hc
    have hg : ∀ t ≤ len, Goes step t := fun t ht => by
      by_contra h
      exact hc ⟨t, ht, .inl h⟩
    obtain ⟨a, b, hab, hb, he⟩ := pigeon (n := len + 1) (m := len) (f := pos step)
      (fun t ht => hrange t (fun s hs => hg s (by omega))) (by omega)
    exact hc ⟨b, by omega, .inr ⟨a, hab, he⟩⟩
  obtain ⟨ht, hstop⟩ := Nat.find_spec hex
  have hmin : ∀ s < Nat.find hex, Goes step s ∧ ∀ a < s, pos step a ≠ pos step s := fun s hs => by
    have h := Nat.find_min hex hs
    constructor
    · by_contra hc
      exact h ⟨by omega, .inl hc⟩
    · intro a ha hc
      exact h ⟨by omega, .inr ⟨a, ha, hc⟩⟩
  generalize Nat.find hex = t at ht hstop hmin
  have hpre := walkDirected_prefix (len := len) (uvs := uvs) (fuel := len + 1) t (by omega)
    (fun s hs => by rw [hst]; exact (hmin s hs).1) (fun a b hab hb => by rw [hst]; exact (hmin b hb).2 a hab)
  rw [hst, show len + 1 - t = len - t + 1 by omega] at hpre
  conv at hpre => rhs; rw [walkDirected]
  -- what completeness says about the walk
  have hcomp : DirectedCycle len (fun e => (uvs.getD e (0, 0)).1) (fun e => (uvs.getD e (0, 0)).2) →
      walkDirected len uvs (len + 1) [] 0 0 = .ok .ok := by
    rintro ⟨⟨order, h0, hr, hinj, hnext⟩, hsrc⟩
    have hstep : ∀ u < len, step (order u) = .ok (order ((u + 1) % len)) := by
      intro u hu
      rw [← hst, stepDirected_ok]
      have hm : (u + 1) % len < len := Nat.mod_lt _ hlen
      refine ⟨by rw [hl]; exact hr _ hm, (hnext u hu).symm, fun j hj hc => ?_⟩
      have hj' : j < len := Nat.lt_trans hj (hr _ hm)
      have := hsrc j hj' (order ((u + 1) % len)) (hr _ hm) (hc.trans (hnext u hu))
      omega
    have hpos : ∀ u < len, pos step u = order u := by
      intro u
      induction u with
      | zero => intro _; rw [pos, h0]
      | succ u ih =>
        intro hu
        rw [pos, ih (by omega), hstep u (by omega), Nat.mod_eq_of_lt hu]
    have hgoes : ∀ s < len - 1, Goes step s := by
      intro s hs
      refine ⟨?_, ?_⟩
      · rw [hpos s (by omega), hpos (s + 1) (by omega), hstep s (by omega), Nat.mod_eq_of_lt (by omega)]
      · rw [hpos (s + 1) (by omega)]
        intro hc
        have := hinj (s + 1) (by omega) 0 hlen (hc.trans h0.symm)
        omega
    have hdist : ∀ a b, a < b → b < len → pos step a ≠ pos step b := by
      intro a b hab hb hc
      rw [hpos a (by omega), hpos b hb] at hc
      have := hinj a (by omega) b hb hc
      omega
    rw [walkDirected_prefix (len := len) (uvs := uvs) (fuel := len + 1) (len - 1) (by omega)
      (fun s hs => by rw [hst]; exact hgoes s hs) (fun a b hab hb => by rw [hst]; exact hdist a b hab (by omega)),
      hst, show len + 1 - (len - 1) = 1 + 1 by omega, walkDirected, if_neg]
    · have h1 := hstep (len - 1) (by omega)
      rw [show len - 1 + 1 = len by omega, Nat.mod_self, h0, ← hpos (len - 1) (by omega), ← hst,
        stepDirected] at h1
      rw [hst] at h1
      cases hf : firstFrom uvs (uvs.getD (pos step (len - 1)) (0, 0)).2 with
      | none => rw [hf] at h1; cases h1
      | some i' =>
        rw [hf] at h1
        injection h1 with h1
        simp only
        rw [if_pos h1, if_pos (by omega)]
    · simp only [List.mem_map, List.mem_reverse, List.mem_range, not_exists, not_and]
      exact fun a ha => hdist a (len - 1) ha (by omega)
  by_cases hvis : ∃ a < t, pos step a = pos step t
  · have hmem : pos step t ∈ (List.range t).reverse.map (pos step) := by
      obtain ⟨a, ha, he⟩ := hvis
      exact List.mem_map.2 ⟨a, List.mem_reverse.2 (List.mem_range.2 ha), he⟩
    rw [if_pos hmem] at hpre
    refine ⟨⟨_, hpre⟩, fun h => ?_, hcomp⟩
    rw [hpre] at h
    cases h
  · have hnm : ¬ pos step t ∈ (List.range t).reverse.map (pos step) := by
      simp only [List.mem_map, List.mem_reverse, List.mem_range, not_exists, not_and]
      exact fun a ha hc => hvis ⟨a, ha, hc⟩
    rw [if_neg hnm] at hpre
    have hng : ¬ Goes step t := by
      rcases hstop with h | h
      · exact h
      · exact absurd h hvis
    cases hf : firstFrom uvs (uvs.getD (pos step t) (0, 0)).2 with
    | none =>
      rw [hf] at hpre
      refine ⟨⟨_, hpre⟩, fun h => ?_, hcomp⟩
      rw [hpre] at h
      cases h
    | some i' =>
      have hs : step (pos step t) = .ok i' := by rw [← hst, stepDirected, hst, hf]
      have hp : pos step (t + 1) = i' := by rw [pos, hs]
      have hi' : i' = 0 := by
        by_contra hc
        exact hng ⟨by rw [hp, hs], by rw [hp]; exact hc⟩
      subst hi'
      rw [hf] at hpre
      simp only [if_true] at hpre
      refine ⟨⟨_, hpre⟩, fun h => ?_, hcomp⟩
      have htl : t + 1 = len := by
        by_contra hc
        rw [hpre, if_neg hc] at h
        cases h
      have hok : ∀ u < len, step (pos step u) = .ok (pos step (u + 1)) := fun u hu => by
        by_cases hut : u = t
        · subst hut; rw [hs, hp]
        · exact (hmin u (by omega)).1.1
      have hr : ∀ u < len, pos step u < len := fun u hu => hrange u (fun s hs => (hmin s (by omega)).1)
      have hdist : ∀ a b, a < b → b < len → pos step a ≠ pos step b := by
        intro a b hab hb hc
        by_cases hbt : b = t
        · subst hbt; exact hvis ⟨a, hab, hc⟩
        · exact (hmin b (by omega)).2 a hab hc
      refine ⟨⟨pos step, rfl, hr, ?_, ?_⟩, ?_⟩
      · intro a ha b hb he
        rcases Nat.lt_trichotomy a b with h' | h' | h'
        · exact absurd he (hdist a b h' hb)
        · exact h'
        · exact absurd he.symm (hdist b a h' ha)
      · intro u hu
        have h1 := hok u hu
        rw [← hst] at h1
        have h2 := (stepDirected_ok.1 h1).2.1
        rw [hst] at h2
        by_cases hut : u + 1 = len
        · rw [hut, Nat.mod_self]
          have : pos step len = pos step 0 := by rw [← htl, hp]; rfl
          rw [hut, this] at h2
          exact h2.symm
        · rw [Nat.mod_eq_of_lt (by omega)]
          exact h2.symm
      · -- every edge is the first to start at its node
        have hfirst : ∀ e < len, ∀ j < e, (uvs.getD j (0, 0)).1 ≠ (uvs.getD e (0, 0)).1 := by
          intro e he
          obtain ⟨u, hu, hue⟩ := covers hr hdist he
          have : ∃ v < len, pos step (v + 1) = e := by
            rcases Nat.eq_zero_or_pos u with hu0 | hu0
            · subst hu0
              exact ⟨t, by omega, by rw [hp, ← hue]; rfl⟩
            · exact ⟨u - 1, by omega, by rw [show u - 1 + 1 = u by omega, hue]⟩
          obtain ⟨v, hv, hve⟩ := this
          have h1 := hok v hv
          rw [hve, ← hst] at h1
          obtain ⟨_, h2, h3⟩ := stepDirected_ok.1 h1
          intro j hj hc
          exact h3 j hj (hc.trans h2)
        intro e he e' he' hee
        rcases Nat.lt_trichotomy e e' with h' | h' | h'
        · exact absurd hee (hfirst e' he' e h')
        · exact h'
        · exact absurd hee.symm (hfirst e he e' h')

/-- In a directed cycle the exclusive or of the starts is that of the ends. -/
theorem directed_xor {len : Nat} (hlen : 0 < len) {src dst : Nat → Nat} (h : DirectedCycle len src dst) :
    xorOver src (List.range len) = xorOver dst (List.range len) := by
  obtain ⟨⟨order, h0, hr, hinj, hnext⟩, _⟩ := h
  have hdist : ∀ a b, a < b → b < len → order a ≠ order b := fun a b hab hb hc => by
    have := hinj a (by omega) b hb hc
    omega
  have hperm : ((List.range len).map order).Perm (List.range len) := by
    refine (List.perm_ext_iff_of_nodup ?_ List.nodup_range).2 ?_
    · refine List.Nodup.map_on ?_ List.nodup_range
      intro a ha b hb hab
      exact hinj a (List.mem_range.1 ha) b (List.mem_range.1 hb) hab
    · intro e
      rw [List.mem_map, List.mem_range]
      constructor
      · rintro ⟨t, ht, rfl⟩
        exact hr t (List.mem_range.1 ht)
      · intro he
        obtain ⟨u, hu, hue⟩ := covers hr hdist he
        exact ⟨u, List.mem_range.2 hu, hue⟩
  have hshift : ((List.range len).map (fun t => (t + 1) % len)).Perm (List.range len) := by
    refine (List.perm_ext_iff_of_nodup ?_ List.nodup_range).2 ?_
    · refine List.Nodup.map_on ?_ List.nodup_range
      intro a ha b hb hab
      rw [List.mem_range] at ha hb
      rw [wrap (by omega), wrap (by omega)] at hab
      split at hab <;> split at hab <;> omega
    · intro e
      rw [List.mem_map, List.mem_range]
      constructor
      · rintro ⟨t, ht, rfl⟩
        exact Nat.mod_lt _ hlen
      · intro he
        rcases Nat.eq_zero_or_pos e with h | h
        · exact ⟨len - 1, List.mem_range.2 (by omega), by rw [show len - 1 + 1 = len by omega, Nat.mod_self, h]⟩
        · exact ⟨e - 1, List.mem_range.2 (by omega), by rw [show e - 1 + 1 = e by omega, Nat.mod_eq_of_lt he]⟩
  have hmap : ∀ (f : Nat → Nat) (l : List Nat) (g : Nat → Nat), xorOver f (l.map g) = xorOver (fun t => f (g t)) l := by
    intro f l g
    rw [xorOver, List.foldr_map, xorOver]
  have hcongr : ∀ (f g : Nat → Nat) (l : List Nat), (∀ t ∈ l, f t = g t) → xorOver f l = xorOver g l := by
    intro f g l
    induction l with
    | nil => intro _; rfl
    | cons x l ih =>
      intro h
      rw [xorOver, List.foldr_cons, ← xorOver, ih (fun t ht => h t (List.mem_cons_of_mem _ ht)),
        h x List.mem_cons_self]
      rfl
  rw [← xorOver_perm hperm, hmap, ← xorOver_perm hshift, hmap, ← xorOver_perm hperm (f := dst), hmap]
  exact hcongr _ _ _ fun t ht => (hnext t (List.mem_range.1 ht)).symm

/-! ## Cuckarood -/

theorem mod_four_xor_two (i : Nat) : i % 4 ^^^ 2 = (i + 2) % 4 := by
  have h : i % 4 < 4 := Nat.mod_lt _ (by decide)
  have h2 : (i + 2) % 4 = (i % 4 + 2) % 4 := by omega
  rw [h2]
  generalize i % 4 = r at h
  interval_cases r <;> rfl

theorem scanOther_spec {total i : Nat} :
    (scanOther total i).Nodup ∧ i ∉ scanOther total i ∧
    ∀ k, k ∈ scanOther total i ↔ k < total ∧ k % 4 = (i + 2) % 4 := by
  have hmem : ∀ k, k ∈ scanOther total i ↔ k < total ∧ k % 4 = (i + 2) % 4 := by
    intro k
    rw [scanOther, List.mem_filter, List.mem_range, decide_eq_true_eq, mod_four_xor_two]
  refine ⟨List.nodup_range.filter _, fun h => ?_, hmem⟩
  have := ((hmem i).1 h).2
  omega

theorem walk_congr {len total : Nat} {step step' : Nat → Except Code Nat}
    (h : ∀ i < total, step i = step' i) (hr : ∀ i < total, ∀ i', step i = .ok i' → i' < total) :
    ∀ fuel i n, i < total → walk len step fuel i n = walk len step' fuel i n
  | 0, _, _, _ => rfl
  | fuel + 1, i, n, hi => by
    rw [walk, walk, ← h i hi]
    cases hs : step i with
    | error c => rfl
    | ok i' =>
      simp only
      split
      · rfl
      · exact walk_congr h hr fuel i' (n + 1) (hr i hi i' hs)

/-- Endpoints of the same side at the same node, where the edges go in different directions. -/
def OtherWay (node : Nat → Nat) (i k : Nat) : Prop := k % 4 = (i + 2) % 4 ∧ node i = node k

/-- What an accepting walk across edges of alternating direction shows. -/
theorem regular_of_walk {half : Nat} (hhalf : 0 < half) {node : Nat → Nat} {step : Nat → Except Code Nat}
    (hstep : ∀ i < 2 * (2 * half), ∀ i', step i = .ok i' ↔
      ∃ j, Mate (2 * (2 * half)) (OtherWay node) i j ∧ i' = j ^^^ 1)
    (herr : ∀ i c, step i = .error c → c ≠ .ok)
    (hw : walk (2 * half) step (2 * (2 * half) + 1) 0 0 = .ok .ok) :
    TwoRegular (2 * half) (fun i j => i % 2 = j % 2 ∧ node i = node j) (fun i j => i / 2 % 2 ≠ j / 2 % 2) := by
  rcases walk_cases (len := 2 * half) (step := step) (2 * (2 * half) + 1) with
    h | ⟨t, ht, hg, c, hs, hw'⟩ | ⟨n, hn, hg, hs, hp, hw'⟩
  · have := walk_prefix (len := 2 * half) (fuel := 2 * (2 * half) + 1) _ (Nat.le_refl _) h
    rw [hw, Nat.sub_self, walk] at this
    cases this
  · rw [hw] at hw'
    injection hw' with hw'
    exact absurd hw'.symm (herr _ _ hs)
  · have hnl : n + 1 = 2 * half := by
      by_contra hc
      rw [hw, if_neg hc] at hw'
      cases hw'
    have hok : ∀ u ≤ n, step (pos step u) = .ok (pos step (u + 1)) := fun u hu => by
      by_cases hun : u = n
      · subst hun; rw [hs, hp]
      · exact (hg u (by omega)).1
    -- where the walk is
    have hpos : ∀ u ≤ n + 1, pos step u < 2 * (2 * half) ∧ pos step u % 4 = if u % 2 = 0 then 0 else 3 := by
      intro u
      induction u with
      | zero => intro _; rw [pos]; exact ⟨by omega, rfl⟩
      | succ u ih =>
        intro hu
        obtain ⟨h1, h2⟩ := ih (by omega)
        obtain ⟨j, hm, hj⟩ := (hstep _ h1 _).1 (hok u (by omega))
        have h4 := hm.2.2.1.1
        have hlt := hm.1
        rw [hj]
        refine ⟨xor_one_lt hlt, ?_⟩
        rw [xor_one]
        by_cases hu2 : u % 2 = 0
        · rw [if_pos hu2] at h2
          rw [if_pos (by omega), if_neg (by omega)]
          omega
        · rw [if_neg hu2] at h2
          rw [if_neg (by omega), if_pos (by omega)]
          omega
    have hmate : ∀ u ≤ n, Mate (2 * (2 * half)) (OtherWay node) (pos step u) (pos step (u + 1) ^^^ 1) := fun u hu => by
      obtain ⟨j, hm, hj⟩ := (hstep _ (hpos u (by omega)).1 _).1 (hok u hu)
      rw [hj, xor_one_xor_one]
      exact hm
    have hnz : ∀ u, 0 < u → u ≤ n → pos step u ≠ 0 := fun u h0 hu => by
      have := (hg (u - 1) (by omega)).2
      rwa [show u - 1 + 1 = u by omega] at this
    -- no position twice
    have hfwd : ∀ k a b, a + k ≤ n + 1 → b + k ≤ n + 1 → pos step a = pos step b →
        pos step (a + k) = pos step (b + k) := by
      intro k
      induction k with
      | zero => intro a b _ _ h; exact h
      | succ k ih =>
        intro a b ha hb h
        have := ih a b (by omega) (by omega) h
        rw [show a + (k + 1) = a + k + 1 by omega, show b + (k + 1) = b + k + 1 by omega, pos, pos, this]
    have hdist : ∀ a b, a < b → b < n + 1 → pos step a ≠ pos step b := by
      intro a b hab hb hc
      have := hfwd (n + 1 - b) a b (by omega) (by omega) hc
      rw [show b + (n + 1 - b) = n + 1 by omega, hp] at this
      exact hnz _ (by omega) (by omega) this
    have hedge : ∀ a b, a < b → b < 2 * half → pos step a / 2 ≠ pos step b / 2 := by
      intro a b hab hb hc
      have h1 := (hpos a (by omega)).2
      have h2 := (hpos b (by omega)).2
      apply hdist a b hab (by omega)
      split at h1 <;> split at h2 <;> omega
    have hcov : ∀ e < 2 * half, ∃ u < 2 * half, pos step u / 2 = e := fun e he =>
      covers (f := fun u => pos step u / 2) (fun t ht => by have := (hpos t (by omega)).1; omega) hedge he
    -- an endpoint of the kind the walk comes to
    have hvisit : ∀ k < 2 * (2 * half), k % 4 = 0 ∨ k % 4 = 3 → ∃ u ≤ n, pos step u = k := by
      intro k hk hk4
      obtain ⟨u, hu, hue⟩ := hcov (k / 2) (by omega)
      refine ⟨u, by omega, ?_⟩
      have := (hpos u (by omega)).2
      split at this <;> omega
    have hsame : ∀ u ≤ n, ∀ k < 2 * (2 * half), k % 4 = pos step u % 4 → node k = node (pos step u) →
        k = pos step u := by
      intro u hu k hk hk4 hkn
      have hu4 := (hpos u (by omega)).2
      obtain ⟨w, hw, rfl⟩ := hvisit k hk (by split at hu4 <;> omega)
      have hmu := hmate u hu
      have hmw := hmate w hw
      have := hmw.2.2.2 _ hmu.1 (by
        have := hmu.2.2.1.1
        intro hc
        rw [hc] at this
        omega) ⟨by rw [hmu.2.2.1.1]; omega, hkn.trans hmu.2.2.1.2⟩
      have hnext : pos step (u + 1) = pos step (w + 1) := xor_one_inj this
      rcases Nat.lt_trichotomy u w with h | h | h
      · exfalso
        by_cases hwn : w = n
        · subst hwn
          rw [hp] at hnext
          exact hnz _ (by omega) (by omega) hnext
        · exact hdist (u + 1) (w + 1) (by omega) (by omega) hnext
      · rw [h]
      · exfalso
        by_cases hun : u = n
        · subst hun
          rw [hp] at hnext
          exact hnz _ (by omega) (by omega) hnext.symm
        · exact hdist (w + 1) (u + 1) (by omega) (by omega) hnext.symm
    intro i hi
    by_cases hi4 : i % 4 = 0 ∨ i % 4 = 3
    · obtain ⟨u, hu, rfl⟩ := hvisit i hi hi4
      have hm := hmate u hu
      have h4 := hm.2.2.1.1
      refine ⟨_, ⟨hm.1, hm.2.1, ⟨by omega, hm.2.2.1.2⟩, ?_⟩, by omega⟩
      rintro k hk hki ⟨hr1, hr2⟩
      by_cases hk4 : k % 4 = (pos step u + 2) % 4
      · exact hm.2.2.2 k hk hki ⟨hk4, hr2⟩
      · exact absurd (hsame u hu k hk (by omega) hr2.symm) hki
    · obtain ⟨u, hu, hue⟩ := hvisit (i ^^^ 1) (xor_one_lt hi) (by rw [xor_one]; split <;> omega)
      have : ∃ v ≤ n, pos step (v + 1) ^^^ 1 = i := by
        rcases Nat.eq_zero_or_pos u with hu0 | hu0
        · refine ⟨n, Nat.le_refl _, ?_⟩
          have h0 : pos step 0 = 0 := rfl
          rw [hp, ← h0, ← hu0, hue, xor_one_xor_one]
        · exact ⟨u - 1, by omega, by rw [show u - 1 + 1 = u by omega, hue, xor_one_xor_one]⟩
      obtain ⟨v, hv, rfl⟩ := this
      have hm := hmate v hv
      have h4 := hm.2.2.1.1
      refine ⟨pos step v, ⟨(hpos v (by omega)).1, hm.2.1.symm, ⟨by omega, hm.2.2.1.2.symm⟩, ?_⟩, by omega⟩
      rintro k hk hki ⟨hr1, hr2⟩
      have hkn : node k = node (pos step v) := by rw [← hr2, hm.2.2.1.2]
      by_cases hk4 : k % 4 = pos step v % 4
      · exact hsame v hv k hk hk4 hkn
      · exact absurd (hm.2.2.2 k hk (by intro hc; rw [hc] at hk4; exact hk4 rfl) ⟨by omega, hkn.symm⟩) hki

theorem readDirected_ok {half : Nat} {ends : Nat → Nat × Nat} : ∀ (edges : List Nat) (prev : Option Nat)
    (acc uvs : List (Nat × Nat) × List (Nat × Nat)), acc.1.length ≤ half → acc.2.length ≤ half →
    (readDirected half ends prev edges acc = .ok uvs ↔
      (Ascending (2 ^ 29) edges ∧ (∀ p ∈ prev, ∀ e ∈ edges, p < e)) ∧
      (uvs.1 = acc.1 ++ (edges.filter (· % 2 = 0)).map ends ∧ uvs.2 = acc.2 ++ (edges.filter (· % 2 ≠ 0)).map ends) ∧
      uvs.1.length ≤ half ∧ uvs.2.length ≤ half)
  | [], prev, acc, uvs, h1, h2 => by
    rw [readDirected]
    constructor
    · intro h
      injection h with h
      subst h
      exact ⟨⟨⟨List.Pairwise.nil, by simp⟩, by simp⟩, ⟨by simp, by simp⟩, h1, h2⟩
    · rintro ⟨_, ⟨h3, h4⟩, _⟩
      have : acc = uvs := Prod.ext (by simpa using h3.symm) (by simpa using h4.symm)
      rw [this]
  | e :: es, prev, acc, uvs, h1, h2 => by
    rw [readDirected]
    by_cases hb : (if e % 2 = 0 then acc.1.length else acc.2.length) ≥ half
    · rw [if_pos hb]
      constructor
      · intro h; cases h
      · rintro ⟨_, ⟨h3, h4⟩, h5, h6⟩
        exfalso
        rw [h3, List.length_append, List.length_map] at h5
        rw [h4, List.length_append, List.length_map] at h6
        by_cases he : e % 2 = 0
        · rw [if_pos he] at hb
          rw [List.filter_cons_of_pos (by simpa using he), List.length_cons] at h5
          omega
        · rw [if_neg he] at hb
          rw [List.filter_cons_of_pos (by simpa using he), List.length_cons] at h6
          omega
    · rw [if_neg hb]
      by_cases hbig : e ≥ 2 ^ 29
      · rw [if_pos hbig]
        constructor
        · intro h; cases h
        · rintro ⟨⟨⟨_, h⟩, _⟩, _⟩
          have := h e List.mem_cons_self
          omega
      · rw [if_neg hbig]
        by_cases hsm : prev.any (fun p => decide (e ≤ p)) = true
        · rw [if_pos hsm]
          constructor
          · intro h; cases h
          · rintro ⟨⟨_, h⟩, _⟩
            cases prev with
            | none => simp at hsm
            | some p =>
              have := h p rfl e List.mem_cons_self
              simp at hsm
              omega
        · rw [if_neg hsm]
          have hp : ∀ p ∈ prev, p < e := by
            cases prev with
            | none => simp
            | some p => simpa using hsm
          rw [readDirected_ok es (some e) _ uvs (by
              by_cases he : e % 2 = 0
              · rw [if_pos he] at hb; rw [if_pos he, List.length_append, List.length_singleton]; omega
              · rw [if_neg he]; exact h1) (by
              by_cases he : e % 2 = 0
              · rw [if_pos he]; exact h2
              · rw [if_neg he] at hb; rw [if_neg he, List.length_append, List.length_singleton]; omega)]
          have hasc : (Ascending (2 ^ 29) (e :: es) ∧ ∀ p ∈ prev, ∀ x ∈ e :: es, p < x) ↔
              (Ascending (2 ^ 29) es ∧ ∀ p ∈ some e, ∀ x ∈ es, p < x) := by
            constructor
            · rintro ⟨⟨ha, hb'⟩, _⟩
              refine ⟨⟨(List.pairwise_cons.1 ha).2, fun x hx => hb' x (List.mem_cons_of_mem _ hx)⟩, ?_⟩
              rintro p ⟨⟩ x hx
              exact (List.pairwise_cons.1 ha).1 x hx
            · rintro ⟨⟨ha, hb'⟩, hc⟩
              refine ⟨⟨List.pairwise_cons.2 ⟨hc e rfl, ha⟩, ?_⟩, ?_⟩
              · intro x hx
                rcases List.mem_cons.1 hx with rfl | hx
                · omega
                · exact hb' x hx
              · intro p hp' x hx
                rcases List.mem_cons.1 hx with rfl | hx
                · exact hp p hp'
                · exact Nat.lt_trans (hp p hp') (hc e rfl x hx)
          rw [hasc]
          by_cases he : e % 2 = 0
          · rw [if_pos he, List.filter_cons_of_pos (by simpa using he), List.filter_cons_of_neg (by simpa using he),
              List.map_cons, List.append_assoc, List.singleton_append]
          · rw [if_neg he, List.filter_cons_of_neg (by simpa using he), List.filter_cons_of_pos (by simpa using he),
              List.map_cons, List.append_assoc, List.singleton_append]

theorem readDirected_error {half : Nat} {ends : Nat → Nat × Nat} : ∀ (edges : List Nat) (prev : Option Nat)
    (acc : List (Nat × Nat) × List (Nat × Nat)) (c : Code),
    readDirected half ends prev edges acc = .error c → c ≠ .ok
  | [], prev, acc, c, h => by cases h
  | e :: es, prev, acc, c, h => by
    rw [readDirected] at h
    by_cases h1 : (if e % 2 = 0 then acc.1.length else acc.2.length) ≥ half
    · rw [if_pos h1] at h; cases h; decide
    · rw [if_neg h1] at h
      by_cases h2 : e ≥ 2 ^ 29
      · rw [if_pos h2] at h; cases h; decide
      · rw [if_neg h2] at h
        by_cases h3 : prev.any (fun p => decide (e ≤ p)) = true
        · rw [if_pos h3] at h; cases h; decide
        · rw [if_neg h3] at h
          exact readDirected_error es _ _ _ h

end Verif.PoW
