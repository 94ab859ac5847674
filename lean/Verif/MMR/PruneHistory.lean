import Verif.MMR.PruneCount

/-!
# Helper lemmas: histories of additions to the prune list
-/
namespace Verif.MMR

theorem sibling_split {x : Nat} (hx : x < 2 ^ 62) {sib par : Nat}
    (hsib : (Index.at x).sibling.pos = sib) (hpar : (Index.at x).parent.pos = par) :
    (∀ q, InSub q par ↔ InSub q x ∨ InSub q sib ∨ q = par) ∧ x < par ∧ sib < par ∧
      ¬ InSub sib x ∧ ¬ InSub x sib := by
  have hch := parent_children hx
  rw [hsib, hpar] at hch
  rcases hch with h | h
  · obtain ⟨e1, e2, e3, e4, e5⟩ := inSub_children h
    refine ⟨e5, by omega, by omega, ?_, ?_⟩
    · intro hc; have := hc.2; omega
    · intro hc; have := hc.1; omega
  · obtain ⟨e1, e2, e3, e4, e5⟩ := inSub_children h
    refine ⟨?_, by omega, by omega, ?_, ?_⟩
    · intro q; rw [e5]; constructor <;> (rintro (h | h | h) <;> simp [h])
    · intro hc; have := hc.1; omega
    · intro hc; have := hc.2; omega

/-- Every pruned position stays in the cache. -/
theorem addLoop_cache (fuel : Nat) : ∀ (roots cache : Finset Nat) (x : Nat) (roots' cache' : Finset Nat),
    max x (maximumOf roots) + roots.card < 2 ^ 62 → Canon roots →
    (∀ r ∈ roots, ¬ InSub x r ∧ ¬ InSub r x) →
    (∀ c ∈ cache, Pruned roots c ∨ InSub c x) → (∀ c, Pruned roots c → c ∈ cache) →
    (∀ c, InSub c x → c ≠ x → c ∈ cache) →
    addLoop fuel roots cache (Index.at x) = .ok (roots', cache') →
    ∀ c, Pruned roots' c → c ∈ cache' := by
  induction fuel with
  | zero => intro _ _ _ _ _ _ _ _ _ _ _ h; simp [addLoop] at h
  | succ fuel ih =>
    intro roots cache x roots' cache' hx hcanon hdisj h1 h2 h3 he
    have hx62 : x < 2 ^ 62 := by omega
    obtain ⟨hsplit, hxp, hsp, hsx, hxs⟩ := sibling_split hx62 rfl rfl
    have hxpar : InSub x (Index.at x).parent.pos := (hsplit x).mpr (Or.inl (inSub_self x))
    have hspar := (hsplit _).mpr (Or.inr (Or.inl (inSub_self (Index.at x).sibling.pos)))
    rw [addLoop] at he
    generalize hgs : (Index.at x).sibling.pos = sib at *
    split at he
    · rename_i hor
      -- as in `addLoop_spec`, the sibling must be a root
      have hs : sib ∈ roots := by
        rcases hor with h | h
        · exact h
        · rcases h1 sib h with ⟨r, hr, hin⟩ | hin
          · by_cases hsr : sib = r
            · rw [hsr]; exact hr
            · exfalso
              have hrp : InSub (Index.at x).parent.pos r := by
                refine ⟨by have := hin.1; omega, ?_⟩
                by_contra hlt
                have hr2 : InSub r (Index.at x).parent.pos := by
                  refine ⟨?_, by omega⟩
                  have := hspar.1; have := hin.2; omega
                rcases (hsplit r).mp hr2 with h1 | h1 | h1
                · exact (hdisj r hr).2 h1
                · exact hsr (inSub_antisymm hin h1)
                · omega
              exact (hdisj r hr).1 (hxpar.trans hrp)
          · exact absurd hin hsx
      have hsm := lt_maximumOf hs
      have hcard := Finset.card_erase_of_mem hs
      have hcpos := Finset.card_pos.mpr ⟨sib, hs⟩
      have hmem : ∀ r, r ∈ roots.erase sib ↔ r ≠ sib ∧ r ∈ roots := fun r => Finset.mem_erase
      have hmax' : maximumOf (roots.erase sib) ≤ maximumOf roots :=
        maximumOf_le (fun r hr => lt_maximumOf ((hmem r).mp hr).2)
      have hple : (Index.at x).parent.pos ≤ max x sib + 1 := by
        have hch := parent_children hx62
        rw [hgs] at hch
        rcases hch with h | h
        · have := (inSub_children h).2.2.1; omega
        · have := (inSub_children h).2.2.1; omega
      have hsubs : ∀ c, InSub c sib → c ∈ cache := fun c hc => h2 c ⟨sib, hs, hc⟩
      rw [parent_index hx62] at he
      refine ih (roots.erase sib) (insert (Index.at x).pos cache) _ roots' cache' (by omega)
        ⟨fun r hr r' hr' => hcanon.anti r ((hmem r).mp hr).2 r' ((hmem r').mp hr').2,
          fun l r p hc ⟨h1, h2⟩ => hcanon.nosib l r p hc ⟨((hmem l).mp h1).2, ((hmem r).mp h2).2⟩⟩
        ?_ ?_ ?_ ?_ he
      · intro r hr
        have hr' := (hmem r).mp hr
        constructor
        · intro hin
          exact hr'.1 ((hcanon.anti sib hs r hr'.2 (hspar.trans hin)).symm)
        · intro hin
          rcases (hsplit r).mp hin with h | h | h
          · exact (hdisj r hr'.2).2 h
          · exact hr'.1 (hcanon.anti r hr'.2 sib hs h)
          · exact hr'.1 ((hcanon.anti sib hs r hr'.2 (by rw [h]; exact hspar)).symm)
      · intro c hc
        rcases Finset.mem_insert.mp hc with rfl | hc
        · exact Or.inr hxpar
        · rcases h1 c hc with ⟨r, hr, hin⟩ | hin
          · by_cases her : r = sib
            · right; subst her; exact hin.trans hspar
            · exact Or.inl ⟨r, (hmem r).mpr ⟨her, hr⟩, hin⟩
          · exact Or.inr (hin.trans hxpar)
      · rintro c ⟨r, hr, hin⟩
        exact Finset.mem_insert_of_mem (h2 c ⟨r, ((hmem r).mp hr).2, hin⟩)
      · intro c hc hne
        rcases (hsplit c).mp hc with h | h | h
        · by_cases hcx : c = x
          · subst hcx; exact Finset.mem_insert_self _ _
          · exact Finset.mem_insert_of_mem (h3 c h hcx)
        · exact Finset.mem_insert_of_mem (hsubs c h)
        · exact absurd h hne
    · simp only [Res.ok.injEq, Prod.mk.injEq] at he
      obtain ⟨rfl, rfl⟩ := he
      rintro c ⟨r, hr, hin⟩
      rcases Finset.mem_insert.mp hr with her | hr
      · rw [her] at hin
        by_cases hcx : c = x
        · subst hcx; exact Finset.mem_insert_self _ _
        · exact Finset.mem_insert_of_mem (h3 c hin hcx)
      · exact Finset.mem_insert_of_mem (h2 c ⟨r, hr, hin⟩)

/-- Adding a position that is already pruned changes nothing. -/
theorem addLoop_noop (fuel : Nat) : ∀ (roots cache : Finset Nat) (x r : Nat),
    maximumOf roots ≤ 2 ^ 62 → Canon roots → (∀ c, c ∈ cache ↔ Pruned roots c) →
    r ∈ roots → InSub x r → r < x + fuel →
    addLoop fuel roots cache (Index.at x) = .ok (roots, cache) := by
  induction fuel with
  | zero => intro _ _ x r _ _ _ _ h hf; have := h.2; omega
  | succ fuel ih =>
    intro roots cache x r hb hcanon hc hr hin hf
    have hrm := lt_maximumOf hr
    have hx62 : x < 2 ^ 62 := by have := hin.2; omega
    obtain ⟨hsplit, hxp, hsp, hsx, hxs⟩ := sibling_split hx62 rfl rfl
    have hxpar : InSub x (Index.at x).parent.pos := (hsplit x).mpr (Or.inl (inSub_self x))
    have hspar := (hsplit _).mpr (Or.inr (Or.inl (inSub_self (Index.at x).sibling.pos)))
    have hxc : insert (Index.at x).pos cache = cache :=
      Finset.insert_eq_of_mem ((hc x).mpr ⟨r, hr, hin⟩)
    rw [addLoop]
    by_cases hxr : x = r
    · rw [if_neg, hxc]
      · rw [Finset.insert_eq_of_mem (show (Index.at x).pos ∈ roots by rw [show (Index.at x).pos = x from rfl, hxr]; exact hr)]
      · intro hor
        have hps : Pruned roots (Index.at x).sibling.pos := by
          rcases hor with h | h
          · exact ⟨_, h, inSub_self _⟩
          · exact (hc _).mp h
        obtain ⟨r', hr', hin'⟩ := hps
        by_cases hs : (Index.at x).sibling.pos = r'
        · rcases parent_children hx62 with h | h
          · exact hcanon.nosib _ _ _ h ⟨hxr ▸ hr, hs ▸ hr'⟩
          · exact hcanon.nosib _ _ _ h ⟨hs ▸ hr', hxr ▸ hr⟩
        · -- then x lies in r' as well
          have hrp : InSub (Index.at x).parent.pos r' := by
            refine ⟨by have := hin'.1; omega, ?_⟩
            by_contra hlt
            have hr2 : InSub r' (Index.at x).parent.pos := by
              refine ⟨?_, by omega⟩
              have := hspar.1; have := hin'.2; omega
            rcases (hsplit r').mp hr2 with h1 | h1 | h1
            · have := hcanon.anti r' hr' r hr (hxr ▸ h1)
              subst this
              exact hsx (hxr ▸ hin')
            · exact hs (inSub_antisymm hin' h1)
            · omega
          have := hcanon.anti r hr r' hr' (hxr ▸ hxpar.trans hrp)
          subst this
          exact hsx (hxr ▸ hin')
    · have hpr := hin.parent hx62 hxr
      have hsr : InSub (Index.at x).sibling.pos r := hspar.trans hpr
      have hsnot : (Index.at x).sibling.pos ∉ roots := by
        intro h
        have := hcanon.anti _ h r hr hsr
        exact hxs (this ▸ hin)
      rw [if_pos (Or.inr ((hc _).mpr ⟨r, hr, hsr⟩)), Finset.erase_eq_of_notMem hsnot, hxc,
        parent_index hx62]
      exact ih roots cache _ r hb hcanon hc hr hpr (by omega)

/-- A set of disjoint subtrees has at most as many roots as positions. -/
theorem card_le_max (roots : Finset Nat) : roots.card ≤ maximumOf roots := by
  have : roots ⊆ Finset.range (maximumOf roots) := fun r hr => Finset.mem_range.mpr (lt_maximumOf hr)
  simpa using Finset.card_le_card this

/-- A root that covers a bounded set of leaves is bounded. -/
theorem root_bound {roots : Finset Nat} {N : Nat} (h : ∀ n, PrunedLeaf roots n → n < N) :
    maximumOf roots ≤ leafPos N := by
  apply maximumOf_le
  intro r hr
  obtain ⟨s, n, hs, e⟩ := isNode_subtreeL r
  rw [e]
  apply rootPos_lt_leafPos hs
  have hpos := two_pow_pos' (ht r)
  have hlast : InSub (leafPos (n + (2 ^ ht r - 1))) r := by
    have h1 := leafPos_in_subtree hs (2 ^ ht r - 1) (by omega)
    have h2 := leafPos_lt (k := ht r) (n := 2 ^ ht r - 1) (by omega)
    have h3 : startOf r = s := by
      obtain ⟨hs', e'⟩ := subtree_startOf r
      exact (rootPos_inj hs' hs.toSubtree (by rw [← e', ← e])).1
    have e2 := e
    simp only [rootPos] at e2
    exact ⟨by omega, by omega⟩
  have := h _ ⟨r, hr, hlast⟩
  omega

end Verif.MMR
