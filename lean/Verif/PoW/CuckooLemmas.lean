import Verif.PoW.Cuckoo
import Mathlib.Data.Fintype.EquivFin
import Mathlib.Data.Fintype.Pigeonhole
import Mathlib.Data.Nat.Bitwise
import Mathlib.Data.List.Nodup

/-! # Walking along a two-regular graph -/
set_option linter.unusedSectionVars false

namespace Verif.PoW

open Verif

/-! ## The other end of an edge -/

theorem xor_one (i : Nat) : i ^^^ 1 = if i % 2 = 0 then i + 1 else i - 1 := by
  have h1 : (i ^^^ 1) / 2 = i / 2 := by
    have := Nat.xor_div_two (a := i) (b := 1)
    simpa using this
  have h2 : (i ^^^ 1) % 2 = (i + 1) % 2 := by
    have := Nat.xor_mod_two_eq (m := i) (n := 1)
    simp
  split <;> omega

theorem xor_one_half (i : Nat) : (i ^^^ 1) / 2 = i / 2 := by
  rw [xor_one]; split <;> omega

theorem xor_one_ne (i : Nat) : i ^^^ 1 ≠ i := by
  rw [xor_one]; split <;> omega

theorem xor_one_xor_one (i : Nat) : i ^^^ 1 ^^^ 1 = i := by
  rw [Nat.xor_assoc, Nat.xor_self, Nat.xor_zero]

theorem xor_one_lt {i len : Nat} (h : i < 2 * len) : i ^^^ 1 < 2 * len := by
  rw [xor_one]; split <;> omega

theorem eq_or_eq_xor_one {i k : Nat} (h : i / 2 = k / 2) : k = i ∨ k = i ^^^ 1 := by
  rw [xor_one]; split <;> omega

theorem xor_one_inj {i k : Nat} (h : i ^^^ 1 = k ^^^ 1) : i = k := by
  rw [← xor_one_xor_one i, h, xor_one_xor_one]

/-! ## The inner loop -/

theorem scan_found {same : Nat → Bool} {i : Nat} : ∀ (ks : List Nat) (j : Nat), j ≠ i →
    scan same i ks j = if ks.filter same = [] then some j else none
  | [], j, _ => by simp [scan]
  | k :: ks, j, hj => by
    rw [scan]
    by_cases hk : same k
    · rw [if_pos hk, if_pos hj, List.filter_cons_of_pos hk, if_neg (by simp)]
    · rw [if_neg hk, scan_found ks j hj, List.filter_cons_of_neg hk]

theorem scan_spec {same : Nat → Bool} {i : Nat} : ∀ (ks : List Nat), i ∉ ks →
    scan same i ks i = match ks.filter same with
      | [] => some i
      | [j] => some j
      | _ => none
  | [], _ => by simp [scan]
  | k :: ks, hi => by
    rw [scan]
    have hki : k ≠ i := fun h => hi (h ▸ List.mem_cons_self)
    by_cases hk : same k
    · rw [if_pos hk, if_neg (by simp), scan_found ks k hki, List.filter_cons_of_pos hk]
      cases h : ks.filter same <;> simp
    · rw [if_neg hk, scan_spec ks (fun h => hi (List.mem_cons_of_mem _ h)), List.filter_cons_of_neg hk]

/-- `j` is the only other endpoint that `i` meets. -/
def Mate (total : Nat) (rel : Nat → Nat → Prop) (i j : Nat) : Prop :=
  j < total ∧ j ≠ i ∧ rel i j ∧ ∀ k < total, k ≠ i → rel i k → k = j

theorem followStep_ok {order : Nat → List Nat} {same bad : Nat → Nat → Bool} {total : Nat}
    {rel : Nat → Nat → Prop} {i : Nat}
    (hnd : (order i).Nodup) (hni : i ∉ order i)
    (hmem : ∀ k, (k ∈ order i ∧ same i k = true) ↔ (k < total ∧ k ≠ i ∧ rel i k)) (i' : Nat) :
    followStep order same bad i = .ok i' ↔ ∃ j, Mate total rel i j ∧ bad i j = false ∧ i' = j ^^^ 1 := by
  have hm : ∀ k, k ∈ (order i).filter (same i) ↔ (k < total ∧ k ≠ i ∧ rel i k) := fun k => by
    rw [List.mem_filter, hmem]
  have hnd' := hnd.filter (same i)
  rw [followStep, scan_spec _ hni]
  match hf : (order i).filter (same i), hm, hnd' with
  | [], hm, _ =>
    simp only [decide_true, Bool.true_or, if_true]
    constructor
    · intro h; cases h
    · rintro ⟨j, ⟨h1, h2, h3, _⟩, _⟩
      have := (hm j).2 ⟨h1, h2, h3⟩
      cases this
  | [j], hm, _ =>
    obtain ⟨h1, h2, h3⟩ := (hm j).1 (List.mem_singleton.2 rfl)
    have hmate : Mate total rel i j := ⟨h1, h2, h3, fun k hk hki hr => List.mem_singleton.1 ((hm k).2 ⟨hk, hki, hr⟩)⟩
    simp only [h2, decide_false, Bool.false_or]
    constructor
    · intro h
      by_cases hb : bad i j = true
      · rw [if_pos hb] at h; cases h
      · rw [if_neg hb] at h
        injection h with h
        exact ⟨j, hmate, by simpa using hb, h.symm⟩
    · rintro ⟨j', hmate', hb, rfl⟩
      have : j' = j := hmate.2.2.2 j' hmate'.1 hmate'.2.1 hmate'.2.2.1
      subst this
      rw [if_neg (by simp [hb])]
  | a :: b :: l, hm, hnd' =>
    simp only
    constructor
    · intro h; cases h
    · rintro ⟨j, hmate, _⟩
      obtain ⟨ha1, ha2, ha3⟩ := (hm a).1 List.mem_cons_self
      obtain ⟨hb1, hb2, hb3⟩ := (hm b).1 (List.mem_cons_of_mem _ List.mem_cons_self)
      have h1 := hmate.2.2.2 a ha1 ha2 ha3
      have h2 := hmate.2.2.2 b hb1 hb2 hb3
      rw [List.nodup_cons] at hnd'
      exact absurd (h1.trans h2.symm ▸ List.mem_cons_self) hnd'.1

/-! ## The outer loop -/

/-- The positions of the walk. -/
def pos (step : Nat → Except Code Nat) : Nat → Nat
  | 0 => 0
  | t + 1 => match step (pos step t) with
    | .ok i => i
    | .error _ => 0

/-- The walk goes on after round `t`. -/
def Goes (step : Nat → Except Code Nat) (t : Nat) : Prop :=
  step (pos step t) = .ok (pos step (t + 1)) ∧ pos step (t + 1) ≠ 0

theorem walk_prefix {len : Nat} {step : Nat → Except Code Nat} {fuel : Nat} : ∀ t ≤ fuel, (∀ s < t, Goes step s) →
    walk len step fuel 0 0 = walk len step (fuel - t) (pos step t) t
  | 0, _, _ => rfl
  | t + 1, ht, h => by
    rw [walk_prefix t (by omega) (fun s hs => h s (by omega)), show fuel - t = fuel - (t + 1) + 1 by omega, walk]
    obtain ⟨h1, h2⟩ := h t (by omega)
    simp only [h1, if_neg h2]

/-- How a walk ends. -/
theorem walk_cases {len : Nat} {step : Nat → Except Code Nat} (fuel : Nat) :
    (∀ t < fuel, Goes step t) ∨
    (∃ t < fuel, (∀ s < t, Goes step s) ∧ ∃ c, step (pos step t) = .error c ∧ walk len step fuel 0 0 = .ok c) ∨
    (∃ t < fuel, (∀ s < t, Goes step s) ∧ step (pos step t) = .ok 0 ∧ pos step (t + 1) = 0 ∧
      walk len step fuel 0 0 = .ok (if t + 1 = len then .ok else .shortCycle)) := by
  classical
  by_cases hall : ∀ t < fuel, Goes step t
  · exact .inl hall
  · right
    have hex : ∃ t, t < fuel ∧ ¬ Goes step t := by
      simpa only [not_forall, exists_prop] using hall
    obtain ⟨ht, hng⟩ := Nat.find_spec hex
    have hlt : ∀ s < Nat.find hex, Goes step s := fun s hs => by
      have := Nat.find_min hex hs
      by_contra hc
      exact this ⟨Nat.lt_trans hs ht, hc⟩
    generalize Nat.find hex = t at ht hng hlt
    have hw := walk_prefix (len := len) (fuel := fuel) t (by omega) hlt
    rw [show fuel - t = fuel - (t + 1) + 1 by omega, walk] at hw
    cases hs : step (pos step t) with
    | error c => exact .inl ⟨t, ht, hlt, c, hs, by rw [hw, hs]⟩
    | ok i =>
      have hp : pos step (t + 1) = i := by rw [pos, hs]
      have hi : i = 0 := by
        by_contra hc
        exact hng ⟨by rw [hp, hs], by rw [hp]; exact hc⟩
      subst hi
      exact .inr ⟨t, ht, hlt, hs, hp, by rw [hw, hs]; simp⟩

/-! ## Two-regular graphs -/

/-- Each of the `2 * len` endpoints meets exactly one other endpoint, and meets it properly. -/
def TwoRegular (len : Nat) (rel good : Nat → Nat → Prop) : Prop :=
  ∀ i < 2 * len, ∃ j, Mate (2 * len) rel i j ∧ good i j

/-- Any set of edges that contains the first one and is closed under meeting contains all edges. -/
def Connected (len : Nat) (rel : Nat → Nat → Prop) : Prop :=
  ∀ S : Nat → Prop, S 0 → (∀ i < 2 * len, ∀ j < 2 * len, rel i j → S (i / 2) → S (j / 2)) → ∀ e < len, S e

section
variable {len : Nat} {rel good : Nat → Nat → Prop} {step : Nat → Except Code Nat}

theorem Mate.symm (hsymm : ∀ i j, rel i j → rel j i) (htrans : ∀ i j k, rel i j → rel j k → rel i k)
    {total i j : Nat} (hi : i < total) (h : Mate total rel i j) : Mate total rel j i := by
  obtain ⟨h1, h2, h3, h4⟩ := h
  refine ⟨hi, Ne.symm h2, hsymm _ _ h3, fun k hk hkj hr => ?_⟩
  by_contra hki
  exact hkj (h4 k hk hki (htrans _ _ _ h3 hr))

theorem Mate.unique {total i j k : Nat} (h : Mate total rel i j) (h' : Mate total rel i k) : k = j :=
  h.2.2.2 k h'.1 h'.2.1 h'.2.2.1

variable (hsymm : ∀ i j, rel i j → rel j i) (htrans : ∀ i j k, rel i j → rel j k → rel i k)
  (hgood : ∀ i j, good i j → good j i) (hlen : 0 < len)
  (hstep : ∀ i < 2 * len, ∀ i', step i = .ok i' ↔ ∃ j, Mate (2 * len) rel i j ∧ good i j ∧ i' = j ^^^ 1)

include hsymm htrans hgood hlen hstep

omit hsymm htrans hgood in
/-- Positions while the walk goes on: in range, and the next one lies across the mate. -/
theorem pos_step {t : Nat} (h : ∀ s < t, ∃ i, step (pos step s) = .ok i) :
    pos step t < 2 * len ∧ ∀ s < t, Mate (2 * len) rel (pos step s) (pos step (s + 1) ^^^ 1) ∧
      good (pos step s) (pos step (s + 1) ^^^ 1) := by
  induction t with
  | zero => exact ⟨by rw [pos]; omega, fun s hs => absurd hs (by omega)⟩
  | succ t ih =>
    obtain ⟨h1, h2⟩ := ih (fun s hs => h s (by omega))
    obtain ⟨i, hi⟩ := h t (by omega)
    have hp : pos step (t + 1) = i := by rw [pos, hi]
    obtain ⟨j, hm, hg, hij⟩ := (hstep _ h1 i).1 hi
    have hj : pos step (t + 1) ^^^ 1 = j := by rw [hp, hij, xor_one_xor_one]
    refine ⟨by rw [hp, hij]; exact xor_one_lt hm.1, fun s hs => ?_⟩
    by_cases hst : s = t
    · subst hst; rw [hj]; exact ⟨hm, hg⟩
    · exact h2 s (by omega)

/-- Where the walk is determines where it was. -/
theorem pos_back {s t : Nat} (hs : ∀ u ≤ s, ∃ i, step (pos step u) = .ok i)
    (ht : ∀ u ≤ t, ∃ i, step (pos step u) = .ok i) (h : pos step (s + 1) = pos step (t + 1)) :
    pos step s = pos step t := by
  obtain ⟨_, hs2⟩ := pos_step hlen hstep (t := s + 1) (fun u hu => hs u (by omega))
  obtain ⟨_, ht2⟩ := pos_step hlen hstep (t := t + 1) (fun u hu => ht u (by omega))
  obtain ⟨hsr, _⟩ := pos_step hlen hstep (t := s) (fun u hu => hs u (by omega))
  obtain ⟨htr, _⟩ := pos_step hlen hstep (t := t) (fun u hu => ht u (by omega))
  have h1 := (hs2 s (by omega)).1.symm hsymm htrans hsr
  have h2 := (ht2 t (by omega)).1.symm hsymm htrans htr
  rw [h] at h1
  exact h2.unique h1

/-- The walk never comes to the same position twice before it is back at the start. -/
theorem pos_injective {t : Nat} (h : ∀ s < t, Goes step s) :
    ∀ d a, 0 < d → a + d ≤ t → pos step a ≠ pos step (a + d)
  | d, 0, hd, ha => by
    obtain ⟨d, rfl⟩ : ∃ d', d = d' + 1 := ⟨d - 1, by omega⟩
    rw [Nat.zero_add]
    exact fun hc => (h d (by omega)).2 hc.symm
  | d, a + 1, hd, ha => by
    intro hc
    rw [show a + 1 + d = a + d + 1 by omega] at hc
    exact pos_injective h d a hd (by omega)
      (pos_back hsymm htrans hgood hlen hstep (fun u hu => ⟨_, (h u (by omega)).1⟩)
        (fun u hu => ⟨_, (h u (by omega)).1⟩) hc)

/-- The walk ends. -/
theorem walk_ends : ¬ ∀ t < 2 * len, Goes step t := by
  intro h
  have hr : ∀ t ≤ 2 * len, pos step t < 2 * len := fun t ht =>
    (pos_step hlen hstep (t := t) (fun s hs => ⟨_, (h s (by omega)).1⟩)).1
  obtain ⟨a, b, hab, he⟩ := Fintype.exists_ne_map_eq_of_card_lt
    (fun t : Fin (2 * len + 1) => (⟨pos step t, hr t (by omega)⟩ : Fin (2 * len))) (by simp)
  have he' : pos step a = pos step b := by simpa using he
  have hne : (a : Nat) ≠ b := fun hc => hab (Fin.ext hc)
  rcases Nat.lt_or_gt_of_ne hne with hl | hl
  · have := pos_injective hsymm htrans hgood hlen hstep h (b - a) a (by omega) (by omega)
    rw [show (a : Nat) + (b - a) = b by omega] at this
    exact this he'
  · have := pos_injective hsymm htrans hgood hlen hstep h (a - b) b (by omega) (by omega)
    rw [show (b : Nat) + (a - b) = a by omega] at this
    exact this he'.symm

/-- A closed walk uses no edge twice. -/
theorem edges_injective {n : Nat} (hg : ∀ s < n, Goes step s) (hlast : step (pos step n) = .ok 0)
    {s t : Nat} (hst : s < t) (ht : t ≤ n) : pos step s / 2 ≠ pos step t / 2 := by
  have hok : ∀ u < n + 1, ∃ i, step (pos step u) = .ok i := fun u hu => by
    by_cases hun : u = n
    · subst hun; exact ⟨_, hlast⟩
    · exact ⟨_, (hg u (by omega)).1⟩
  have hm : ∀ u ≤ n, pos step u < 2 * len ∧
      Mate (2 * len) rel (pos step u) (pos step (u + 1) ^^^ 1) := fun u hu =>
    ⟨(pos_step hlen hstep (t := u) (fun v hv => hok v (by omega))).1,
      ((pos_step hlen hstep (t := n + 1) hok).2 u (by omega)).1⟩
  intro hc
  have hback : ∀ d s t, s + d = t → t ≤ n → pos step t = pos step s ^^^ 1 → False := by
    intro d
    induction d using Nat.strongRecOn with
    | _ d ih =>
      intro s t hd ht hx
      match d, hd with
      | 0, hd =>
        obtain rfl : s = t := by omega
        exact xor_one_ne _ hx.symm
      | 1, hd =>
        obtain rfl : t = s + 1 := by omega
        have := (hm s (by omega)).2.2.1
        rw [hx, xor_one_xor_one] at this
        exact this rfl
      | d + 2, hd =>
        obtain ⟨t, rfl⟩ : ∃ t', t = t' + 1 := ⟨t - 1, by omega⟩
        refine ih d (by omega) (s + 1) t (by omega) (by omega) ?_
        -- the mate of `pos t` is `pos s`
        have h1 := (hm t (by omega)).2
        rw [hx, xor_one_xor_one] at h1
        have h2 := h1.symm hsymm htrans (hm t (by omega)).1
        exact (hm s (by omega)).2.unique h2
  rcases eq_or_eq_xor_one hc with h | h
  · have := pos_injective hsymm htrans hgood hlen hstep hg (t - s) s (by omega) (by omega)
    rw [show s + (t - s) = t by omega] at this
    exact this h.symm
  · exact hback (t - s) s t (by omega) ht h

/-- **The walk is right**: it ends, and it finds a cycle of all edges exactly if the edges form one. -/
theorem walk_right (herr : ∀ i c, step i = .error c → c ≠ .ok) :
    (∃ c, walk len step (2 * len + 1) 0 0 = .ok c) ∧
    (walk len step (2 * len + 1) 0 0 = .ok .ok ↔ TwoRegular len rel good ∧ Connected len rel) := by
  have hends := walk_ends hsymm htrans hgood hlen hstep
  rcases walk_cases (len := len) (step := step) (2 * len + 1) with h | ⟨t, ht, hg, c, hs, hw⟩ | ⟨n, hn, hg, hs, hp, hw⟩
  · exact absurd (fun t ht => h t (by omega)) hends
  · refine ⟨⟨c, hw⟩, ?_⟩
    rw [hw]
    constructor
    · intro h
      injection h with h
      exact absurd h (herr _ _ hs)
    · rintro ⟨htr, _⟩
      exfalso
      obtain ⟨hr, _⟩ := pos_step hlen hstep (t := t) (fun u hu => ⟨_, (hg u hu).1⟩)
      obtain ⟨j, hm, hgd⟩ := htr _ hr
      have := (hstep _ hr (j ^^^ 1)).2 ⟨j, hm, hgd, rfl⟩
      rw [hs] at this
      cases this
  · refine ⟨⟨_, hw⟩, ?_⟩
    have hok : ∀ u < n + 1, ∃ i, step (pos step u) = .ok i := fun u hu => by
      by_cases hun : u = n
      · subst hun; exact ⟨_, hs⟩
      · exact ⟨_, (hg u (by omega)).1⟩
    have hrange : ∀ u ≤ n, pos step u < 2 * len := fun u hu =>
      (pos_step hlen hstep (t := u) (fun v hv => hok v (by omega))).1
    have hmate : ∀ u ≤ n, Mate (2 * len) rel (pos step u) (pos step (u + 1) ^^^ 1) ∧
        good (pos step u) (pos step (u + 1) ^^^ 1) := fun u hu =>
      (pos_step hlen hstep (t := n + 1) hok).2 u (by omega)
    have hinj := @edges_injective len rel good step hsymm htrans hgood hlen hstep n hg hs
    have hiff : walk len step (2 * len + 1) 0 0 = .ok .ok ↔ n + 1 = len := by
      rw [hw]
      by_cases hl : n + 1 = len
      · simp [hl]
      · simp [hl]
    rw [hiff]
    constructor
    · intro hl
      -- all edges are visited
      have hsurj : ∀ e < len, ∃ u ≤ n, pos step u / 2 = e := by
        have hfi : Function.Injective (fun u : Fin len => (⟨pos step u / 2, by
            have := hrange u (by omega); omega⟩ : Fin len)) := by
          intro a b hab
          have hab' : pos step a / 2 = pos step b / 2 := by simpa using hab
          rcases Nat.lt_trichotomy (a : Nat) b with hlt | heq | hlt
          · exact absurd hab' (hinj hlt (by omega))
          · exact Fin.ext heq
          · exact absurd hab'.symm (hinj hlt (by omega))
        intro e he
        obtain ⟨u, hu⟩ := (Finite.injective_iff_surjective.1 hfi) ⟨e, he⟩
        exact ⟨u, by omega, by simpa using hu⟩
      constructor
      · intro i hi
        obtain ⟨u, hu, hue⟩ := hsurj (i / 2) (by omega)
        rcases eq_or_eq_xor_one hue with h | h
        · exact ⟨_, by rw [h]; exact (hmate u hu).1, by rw [h]; exact (hmate u hu).2⟩
        · -- the position before
          have : ∃ v ≤ n, pos step (v + 1) = pos step u := by
            rcases Nat.eq_zero_or_pos u with hu0 | hu0
            · exact ⟨n, Nat.le_refl _, by rw [hp, hu0]; rfl⟩
            · exact ⟨u - 1, by omega, by rw [show u - 1 + 1 = u by omega]⟩
          obtain ⟨v, hv, hvu⟩ := this
          have hm := hmate v hv
          rw [hvu, ← h] at hm
          exact ⟨pos step v, hm.1.symm hsymm htrans (hrange v hv), hgood _ _ hm.2⟩
      · intro S hS hcl
        have hvis : ∀ u ≤ n, S (pos step u / 2) := by
          intro u
          induction u with
          | zero => intro _; rw [pos]; exact hS
          | succ u ih =>
            intro hu
            have hm := (hmate u (by omega)).1
            have := hcl _ (hrange u (by omega)) _ hm.1 hm.2.2.1 (ih (by omega))
            rwa [xor_one_half] at this
        intro e he
        obtain ⟨u, hu, rfl⟩ := hsurj e he
        exact hvis u hu
    · rintro ⟨_, hconn⟩
      -- the visited edges are closed under meeting
      have hall : ∀ e < len, ∃ u ≤ n, pos step u / 2 = e := by
        refine hconn (fun e => ∃ u ≤ n, pos step u / 2 = e) ⟨0, Nat.zero_le _, by simp [pos]⟩ ?_
        rintro i hi j hj hr ⟨u, hu, hue⟩
        by_cases hij : j = i
        · subst hij; exact ⟨u, hu, hue⟩
        rcases eq_or_eq_xor_one hue with h | h
        · have hm := (hmate u hu).1
          rw [← h] at hm
          have hj' := hm.2.2.2 j hj hij hr
          by_cases hun : u = n
          · refine ⟨0, Nat.zero_le _, ?_⟩
            rw [hj', xor_one_half, hun, hp]; rfl
          · exact ⟨u + 1, by omega, by rw [hj', xor_one_half]⟩
        · have : ∃ v ≤ n, pos step (v + 1) = pos step u := by
            rcases Nat.eq_zero_or_pos u with hu0 | hu0
            · exact ⟨n, Nat.le_refl _, by rw [hp, hu0]; rfl⟩
            · exact ⟨u - 1, by omega, by rw [show u - 1 + 1 = u by omega]⟩
          obtain ⟨v, hv, hvu⟩ := this
          have hm := (hmate v hv).1
          rw [hvu, ← h] at hm
          have hm' := hm.symm hsymm htrans (hrange v hv)
          exact ⟨v, hv, by rw [hm'.2.2.2 j hj hij hr]⟩
      -- count
      have h1 : n + 1 ≤ len := by
        by_contra hc
        obtain ⟨a, b, hab, he⟩ := Fintype.exists_ne_map_eq_of_card_lt
          (fun u : Fin (n + 1) => (⟨pos step u / 2, by have := hrange u (by omega); omega⟩ : Fin len)) (by simp; omega)
        have he' : pos step a / 2 = pos step b / 2 := by simpa using he
        have hne : (a : Nat) ≠ b := fun hc => hab (Fin.ext hc)
        rcases Nat.lt_or_gt_of_ne hne with hl | hl
        · exact hinj hl (by omega) he'
        · exact hinj hl (by omega) he'.symm
      have h2 : len ≤ n + 1 := by
        by_contra hc
        choose f hf1 hf2 using hall
        obtain ⟨a, b, hab, he⟩ := Fintype.exists_ne_map_eq_of_card_lt
          (fun e : Fin len => (⟨f e e.2, by have := hf1 e e.2; omega⟩ : Fin (n + 1))) (by simp; omega)
        have he' : f a a.2 = f b b.2 := by simpa using he
        apply hab
        apply Fin.ext
        rw [← hf2 a a.2, ← hf2 b b.2, he']
      omega

end

/-! ## The check of the exclusive or -/

/-- Exclusive or of `f` over a list. -/
def xorOver (f : Nat → Nat) (l : List Nat) : Nat := l.foldr (fun i a => f i ^^^ a) 0

theorem foldl_xor (l : List Nat) : ∀ a, l.foldl (· ^^^ ·) a = a ^^^ l.foldr (· ^^^ ·) 0 := by
  induction l with
  | nil => intro a; simp
  | cons x l ih => intro a; rw [List.foldl_cons, ih, List.foldr_cons, Nat.xor_assoc]

theorem xorAll_map (f : Nat → Nat) (l : List Nat) : xorAll (l.map f) = xorOver f l := by
  rw [xorAll, foldl_xor, Nat.zero_xor, List.foldr_map, xorOver]

theorem xorOver_perm {f : Nat → Nat} {l l' : List Nat} (h : l.Perm l') : xorOver f l = xorOver f l' := by
  unfold xorOver
  induction h with
  | nil => rfl
  | cons x _ ih => rw [List.foldr_cons, List.foldr_cons, ih]
  | swap x y l =>
    simp only [List.foldr_cons]
    rw [← Nat.xor_assoc, Nat.xor_comm (f y), Nat.xor_assoc]
  | trans _ _ h1 h2 => exact h1.trans h2

/-- `c ^ c ^ … ^ c`, `k` times. -/
def xorTimes (c : Nat) : Nat → Nat
  | 0 => 0
  | k + 1 => c ^^^ xorTimes c k

theorem xorOver_pairs {f m : Nat → Nat} {c : Nat} : ∀ (n : Nat) (l : List Nat), l.length = n → l.Nodup →
    (∀ i ∈ l, m i ∈ l ∧ m i ≠ i ∧ m (m i) = i ∧ f i ^^^ f (m i) = c) →
    xorOver f l = xorTimes c (n / 2) ∧ n % 2 = 0 := by
  intro n
  induction n using Nat.strongRecOn with
  | _ n ih =>
    intro l hl hnd hm
    match l, hl with
    | [], hl => subst hl; simp [xorOver, xorTimes]
    | i :: l, hl =>
      obtain ⟨h1, h2, h3, h4⟩ := hm i List.mem_cons_self
      have hmi : m i ∈ l := by
        rcases List.mem_cons.1 h1 with h | h
        · exact absurd h h2
        · exact h
      obtain ⟨hi, hnd'⟩ := List.nodup_cons.1 hnd
      have hlen : (l.erase (m i)).length = n - 2 := by
        rw [List.length_erase_of_mem hmi]
        simp only [List.length_cons] at hl
        omega
      have hpos : 0 < l.length := List.length_pos_of_mem hmi
      simp only [List.length_cons] at hl
      obtain ⟨ih1, ih2⟩ := ih (n - 2) (by omega) (l.erase (m i)) hlen (hnd'.erase _) (fun k hk => by
        have hk' := (hnd'.mem_erase_iff).1 hk
        have hki : k ≠ i := fun h => hi (h ▸ hk'.2)
        obtain ⟨g1, g2, g3, g4⟩ := hm k (List.mem_cons_of_mem _ hk'.2)
        refine ⟨?_, g2, g3, g4⟩
        rw [hnd'.mem_erase_iff]
        refine ⟨fun h => hki ?_, ?_⟩
        · rw [← g3, h, h3]
        · rcases List.mem_cons.1 g1 with h | h
          · exact absurd (by rw [← h, g3]) hk'.1
          · exact h)
      have hp : (i :: l).Perm (i :: m i :: l.erase (m i)) := (List.perm_cons_erase hmi).cons i
      rw [xorOver_perm hp]
      constructor
      · rw [show n / 2 = (n - 2) / 2 + 1 by omega, xorTimes, ← ih1]
        simp only [xorOver, List.foldr_cons]
        rw [← Nat.xor_assoc, h4]
      · omega

theorem xorTimes_zero : ∀ k, xorTimes 0 k = 0
  | 0 => rfl
  | k + 1 => by rw [xorTimes, xorTimes_zero k]; rfl

theorem xorTimes_one : ∀ k, xorTimes 1 k = k % 2
  | 0 => rfl
  | k + 1 => by
    rw [xorTimes, xorTimes_one k, Nat.xor_comm, xor_one]
    split <;> omega

/-! ## Reading the edges and the scanning order -/

/-- The nonces are in strictly ascending order and below `limit`. -/
def Ascending (limit : Nat) (edges : List Nat) : Prop :=
  edges.Pairwise (· < ·) ∧ ∀ e ∈ edges, e < limit

theorem readEdges_ok {mask : Nat} {ends : Nat → Nat × Nat} : ∀ (edges : List Nat) (prev : Option Nat)
    (uvs : List (Nat × Nat)), readEdges mask ends prev edges = .ok uvs ↔
      (Ascending (mask + 1) edges ∧ (∀ p ∈ prev, ∀ e ∈ edges, p < e)) ∧ uvs = edges.map ends
  | [], prev, uvs => by
    simp only [readEdges, Except.ok.injEq, Ascending, List.Pairwise.nil, List.not_mem_nil, List.map_nil]
    constructor
    · intro h; exact ⟨by simp, h.symm⟩
    · intro h; exact h.2.symm
  | e :: es, prev, uvs => by
    rw [readEdges]
    by_cases h1 : e > mask
    · rw [if_pos h1]
      constructor
      · intro h; cases h
      · rintro ⟨⟨⟨_, h⟩, _⟩, _⟩
        have := h e List.mem_cons_self
        omega
    · rw [if_neg h1]
      by_cases h2 : prev.any (fun p => decide (e ≤ p)) = true
      · rw [if_pos h2]
        constructor
        · intro h; cases h
        · rintro ⟨⟨_, h⟩, _⟩
          cases prev with
          | none => simp at h2
          | some p =>
            have := h p rfl e List.mem_cons_self
            simp at h2
            omega
      · rw [if_neg h2]
        have hp : ∀ p ∈ prev, p < e := by
          cases prev with
          | none => simp
          | some p => simpa using h2
        have ih := readEdges_ok (mask := mask) (ends := ends) es (some e)
        cases hr : readEdges mask ends (some e) es with
        | error c =>
          simp only
          constructor
          · intro h; cases h
          · rintro ⟨⟨⟨ha, hb⟩, _⟩, _⟩
            have := (ih (es.map ends)).2 ⟨⟨⟨(List.pairwise_cons.1 ha).2,
              fun x hx => hb x (List.mem_cons_of_mem _ hx)⟩, by
                rintro p ⟨⟩ x hx
                exact (List.pairwise_cons.1 ha).1 x hx⟩, rfl⟩
            rw [hr] at this
            cases this
        | ok rest =>
          obtain ⟨⟨⟨h3, h4⟩, h5⟩, h6⟩ := (ih rest).1 hr
          simp only [Except.ok.injEq, List.map_cons]
          constructor
          · rintro rfl
            refine ⟨⟨⟨List.pairwise_cons.2 ⟨h5 e rfl, h3⟩, ?_⟩, ?_⟩, by rw [h6]⟩
            · intro x hx
              rcases List.mem_cons.1 hx with rfl | hx
              · omega
              · exact h4 x hx
            · intro p hp' x hx
              rcases List.mem_cons.1 hx with rfl | hx
              · exact hp p hp'
              · exact Nat.lt_trans (hp p hp') (h5 e rfl x hx)
          · rintro ⟨_, rfl⟩
            rw [h6]

theorem readEdges_error {mask : Nat} {ends : Nat → Nat × Nat} : ∀ (edges : List Nat) (prev : Option Nat) (c : Code),
    readEdges mask ends prev edges = .error c → c ≠ .ok
  | [], prev, c, h => by cases h
  | e :: es, prev, c, h => by
    rw [readEdges] at h
    split at h
    · cases h; decide
    · split at h
      · cases h; decide
      · split at h
        · cases h
        · rename_i hr
          cases h
          exact readEdges_error es _ _ hr

theorem wrap {x t : Nat} (h : x < 2 * t) : x % t = if x < t then x else x - t := by
  split
  · exact Nat.mod_eq_of_lt ‹_›
  · rw [Nat.mod_eq_sub_mod (by omega), Nat.mod_eq_of_lt (by omega)]

theorem scanOrder_two {len i : Nat} (hi : i < 2 * len) :
    (scanOrder (2 * len) 2 i).Nodup ∧ i ∉ scanOrder (2 * len) 2 i ∧
    ∀ k, k ∈ scanOrder (2 * len) 2 i ↔ k < 2 * len ∧ k ≠ i ∧ k % 2 = i % 2 := by
  have hlen : 2 * len / 2 - 1 = len - 1 := by omega
  have hmem : ∀ k, k ∈ scanOrder (2 * len) 2 i ↔ k < 2 * len ∧ k ≠ i ∧ k % 2 = i % 2 := by
    intro k
    rw [scanOrder, hlen, List.mem_map]
    constructor
    · rintro ⟨t, ht, rfl⟩
      rw [List.mem_range] at ht
      rw [wrap (by omega)]
      split <;> omega
    · rintro ⟨h1, h2, h3⟩
      by_cases hk : i < k
      · refine ⟨(k - i) / 2 - 1, by rw [List.mem_range]; omega, ?_⟩
        rw [wrap (by omega)]
        split <;> omega
      · refine ⟨(k + 2 * len - i) / 2 - 1, by rw [List.mem_range]; omega, ?_⟩
        rw [wrap (by omega)]
        split <;> omega
  refine ⟨?_, fun h => ((hmem i).1 h).2.1 rfl, hmem⟩
  rw [scanOrder, hlen]
  refine List.Nodup.map_on ?_ List.nodup_range
  intro a ha b hb hab
  rw [List.mem_range] at ha hb
  rw [wrap (by omega), wrap (by omega)] at hab
  split at hab <;> split at hab <;> omega

theorem scanOrder_one {len i : Nat} (hi : i < 2 * len) :
    (scanOrder (2 * len) 1 i).Nodup ∧ i ∉ scanOrder (2 * len) 1 i ∧
    ∀ k, k ∈ scanOrder (2 * len) 1 i ↔ k < 2 * len ∧ k ≠ i := by
  have hlen : 2 * len / 1 - 1 = 2 * len - 1 := by omega
  have hmem : ∀ k, k ∈ scanOrder (2 * len) 1 i ↔ k < 2 * len ∧ k ≠ i := by
    intro k
    rw [scanOrder, hlen, List.mem_map]
    constructor
    · rintro ⟨t, ht, rfl⟩
      rw [List.mem_range] at ht
      rw [wrap (by omega)]
      split <;> omega
    · rintro ⟨h1, h2⟩
      by_cases hk : i < k
      · refine ⟨k - i - 1, by rw [List.mem_range]; omega, ?_⟩
        rw [wrap (by omega)]
        split <;> omega
      · refine ⟨k + 2 * len - i - 1, by rw [List.mem_range]; omega, ?_⟩
        rw [wrap (by omega)]
        split <;> omega
  refine ⟨?_, fun h => ((hmem i).1 h).2 rfl, hmem⟩
  rw [scanOrder, hlen]
  refine List.Nodup.map_on ?_ List.nodup_range
  intro a ha b hb hab
  rw [List.mem_range] at ha hb
  rw [wrap (by omega), wrap (by omega)] at hab
  split at hab <;> split at hab <;> omega

theorem followStep_error {order : Nat → List Nat} {same bad : Nat → Nat → Bool} {i : Nat} {c : Code}
    (h : followStep order same bad i = .error c) : c ≠ .ok := by
  unfold followStep at h
  split at h
  · cases h; decide
  · split at h
    · cases h; decide
    · cases h

end Verif.PoW
