import Verif.Chain.ProcessLemmas

/-! # Lemmas on the candidate chain -/
namespace Verif.BC
variable {S : Type}

/-- The candidate chain is linked, and the header MMR holds its headers. -/
structure CInv (w : World S) : Prop where
  ne : w.candidate ≠ []
  linked : ∀ i x h, w.candidate[i + 1]? = some x → w.headers x = some h → w.candidate[i]? = some h.prevHash
  mmr : w.mmr.map (fun h => some h) = w.candidate.map w.headers

/-- What every event guarantees for the candidate chain. -/
structure CStep (w w' : World S) : Prop where
  inv : CInv w'
  work : w.work w.candidate ≤ w'.work w'.candidate
  moved : w'.candidate = w.candidate ∨ w.work w.candidate < w'.work w'.candidate

theorem CStep.refl {w : World S} (h : CInv w) : CStep w w := ⟨h, Nat.le_refl _, .inl rfl⟩

theorem CStep.trans {a b c : World S} (h : CStep a b) (h' : CStep b c) : CStep a c :=
  ⟨h'.inv, Nat.le_trans h.work h'.work, by
    have h1 := h.work
    have h2 := h'.work
    rcases h.moved with e | e
    · rcases h'.moved with e' | e'
      · exact .inl (e'.trans e)
      · exact .inr (by omega)
    · exact .inr (by omega)⟩

theorem mmr_grows {U : Header → Prop} {w w' : World S} (hi : Inv U w)
    (hg : ∀ x h, w.headers x = some h → w'.headers x = some h) (n : Nat) :
    (w.candidate.take n).map w'.headers = (w.candidate.take n).map w.headers := by
  apply List.map_congr_left
  intro x hx
  obtain ⟨i, hi'⟩ := List.mem_iff_getElem?.mp (List.mem_of_mem_take hx)
  obtain ⟨h, hh, _⟩ := hi.cand _ _ hi'
  rw [hh, hg _ _ hh]

theorem c_addHeaders {U : Header → Prop} (hU : OneHash U) {R : Rules S} (hR : RulesSound U R) :
    ∀ (hs : List Header) (w : World S) (prev : Header) (w' : World S), Inv U w → CInv w →
      w.headers (hashOf prev) = some prev → w.candidate.getLast? = some (hashOf prev) →
      LinkedH (hashOf prev) hs → (∀ h ∈ hs, U h) → w.addHeaders R prev hs = .ok w' →
      CInv w' ∧ ∀ l, (prev :: hs).getLast? = some l → w'.work w'.candidate = l.totalDifficulty := by
  intro hs
  induction hs with
  | nil =>
    intro w prev w' hi hc hp ht _ _ he
    rw [World.addHeaders] at he
    injection he with he
    subst he
    refine ⟨hc, fun l hl => ?_⟩
    simp at hl
    subst hl
    unfold World.work
    simp only [ht, hp]
  | cons h hs ih =>
    intro w prev w' hi hc hp ht hl hu he
    rw [World.addHeaders, Res.bind_eq_ok] at he
    obtain ⟨_, hv, he⟩ := he
    split at he
    · cases he
    rename_i hlen
    have hlen : h.height = w.candidate.length := by simpa using hlen
    obtain ⟨v1, v2⟩ := hR _ _ _ _ (hi.hdr _ _ hp).2 hv
    have hp' : w.headers h.prevHash = some prev := by rw [hl.1]; exact hp
    obtain ⟨i1, g1⟩ := inv_addHeader hU hi (hu h (by simp)) hp' v1 v2
    have hself : (w.addHeader h).headers (hashOf h) = some h := by simp [World.addHeader]
    have i2 : Inv U { w.addHeader h with mmr := w.mmr ++ [h], candidate := w.candidate ++ [hashOf h] } := by
      refine inv_candidate i1 _ _ (fun i x hx => ?_)
      by_cases hi' : i < w.candidate.length
      · rw [List.getElem?_append_left hi'] at hx
        exact i1.cand i x hx
      · rw [List.getElem?_append_right (by omega)] at hx
        have : i - w.candidate.length = 0 := by
          by_contra hne
          rw [List.getElem?_eq_none (by simp; omega)] at hx
          cases hx
        rw [this] at hx
        simp at hx
        subst hx
        exact ⟨h, hself, by omega⟩
    have c2 : CInv { w.addHeader h with mmr := w.mmr ++ [h], candidate := w.candidate ++ [hashOf h] } := by
      refine ⟨by simp, ?_, ?_⟩
      · intro i x y e1 e2
        change (w.addHeader h).headers x = some y at e2
        change (w.candidate ++ [hashOf h])[i + 1]? = some x at e1
        show (w.candidate ++ [hashOf h])[i]? = some y.prevHash
        by_cases hi' : i + 1 < w.candidate.length
        · rw [List.getElem?_append_left hi'] at e1
          rw [List.getElem?_append_left (by omega)]
          obtain ⟨z, z1, _⟩ := hi.cand _ _ e1
          have : y = z := by rw [g1.grows _ _ z1] at e2; exact (Option.some.inj e2).symm
          subst this
          exact hc.linked i x y e1 z1
        · rw [List.getElem?_append_right (by omega)] at e1
          have h0 : i + 1 - w.candidate.length = 0 := by
            by_contra hne
            rw [List.getElem?_eq_none (by simp; omega)] at e1
            cases e1
          rw [h0] at e1
          simp at e1
          subst e1
          rw [hself] at e2
          injection e2 with e2
          subst e2
          rw [List.getElem?_append_left (by omega), hl.1, ← ht, List.getLast?_eq_getElem?]
          congr 1
          omega
      · simp only [List.map_append, List.map_cons, List.map_nil]
        have := mmr_grows (w' := w.addHeader h) hi g1.grows w.candidate.length
        rw [List.take_length] at this
        show w.mmr.map (fun h => some h) ++ [some h] = w.candidate.map (w.addHeader h).headers ++ _
        rw [this, hc.mmr, hself]
    obtain ⟨j1, j2⟩ := ih _ h w' i2 c2 hself (by simp) hl.2 (fun x hx => hu x (by simp [hx])) he
    exact ⟨j1, fun l e => j2 l (by simpa using e)⟩

theorem c_adoptHeaders {U : Header → Prop} (hU : OneHash U) {R : Rules S} (hR : RulesSound U R)
    {w w' : World S} (hi : Inv U w) (hc : CInv w) {h0 l : Header} {hs : List Header} {x : Bytes}
    (hl : LinkedH x (h0 :: hs)) (hu : ∀ h ∈ h0 :: hs, U h) (hlast : (h0 :: hs).getLast? = some l)
    (hfork : ∀ p, w.headers h0.prevHash = some p → h0.height = p.height + 1 →
      w.candidate[h0.height - 1]? = some h0.prevHash)
    (he : w.adoptHeaders R (h0 :: hs) h0.height l.totalDifficulty = .ok w') : CStep w w' := by
  have hall := inv_adoptHeaders hU hR hi hl hu he
  unfold World.adoptHeaders at he
  rw [Res.bind_eq_ok] at he
  obtain ⟨w1, e1, he⟩ := he
  rw [Res.bind_eq_ok] at he
  obtain ⟨w2, e2, he⟩ := he
  unfold World.rewindCandidate at e1
  split at e1
  · cases e1
  rename_i hle
  have hle : h0.height ≠ 0 ∧ h0.height ≤ w.candidate.length ∧ h0.height ≤ w.mmr.length := by
    refine ⟨?_, ?_, ?_⟩ <;> · by_contra hx; exact hle (by omega)
  injection e1 with e1
  have i1 : Inv U w1 := by
    rw [← e1]
    refine inv_candidate hi _ _ (fun i y hy => ?_)
    rw [List.getElem?_take] at hy
    split at hy
    · exact hi.cand i y hy
    · cases hy
  have hwh : w1.headers = w.headers := by rw [← e1]
  have hwc : w1.candidate = w.candidate.take h0.height := by rw [← e1]
  have c1 : CInv w1 := by
    refine ⟨?_, ?_, ?_⟩
    · rw [hwc]
      intro h
      have := congrArg List.length h
      rw [List.length_take, List.length_nil] at this
      omega
    · rw [hwc, hwh]
      intro i y z e e'
      rw [List.getElem?_take] at e ⊢
      split at e
      · rw [if_pos (by omega)]; exact hc.linked i y z e e'
      · cases e
    · rw [hwc, hwh, ← e1]
      simp only
      rw [List.map_take, List.map_take, hc.mmr]
  unfold World.validateHeaders at e2
  simp only at e2
  split at e2
  · cases e2
  rename_i prev hp
  have hph : hashOf prev = h0.prevHash := (i1.hdr _ _ hp).1
  have hp1 : w.headers h0.prevHash = some prev := by rw [← hwh]; exact hp
  have hhh : h0.height = prev.height + 1 := by
    have e2' := e2
    rw [World.addHeaders, Res.bind_eq_ok] at e2'
    obtain ⟨_, hv, _⟩ := e2'
    exact (hR _ _ _ _ (i1.hdr _ _ hp).2 hv).1
  have htip : w1.candidate.getLast? = some (hashOf prev) := by
    rw [hwc, List.getLast?_eq_getElem?, List.length_take, Nat.min_eq_left hle.2.1, List.getElem?_take,
      if_pos (by omega), hph]
    exact hfork prev hp1 hhh
  obtain ⟨c2, t2⟩ := c_addHeaders hU hR (h0 :: hs) w1 prev w2 i1 c1 (by rw [hph]; exact hp) htip
    ⟨hph.symm, hl.2⟩ hu e2
  split at he
  · injection he with he
    subst he
    refine ⟨⟨hc.ne, ?_, ?_⟩, ?_, .inl rfl⟩
    · intro i y z e e'
      change w2.headers y = some z at e'
      obtain ⟨q, q1, _⟩ := hi.cand _ _ e
      have : z = q := by
        have := hall.2.1.grows _ _ q1
        change w2.headers y = some q at this
        rw [this] at e'
        exact (Option.some.inj e').symm
      subst this
      exact hc.linked i y z e q1
    · have := mmr_grows hi hall.2.1.grows w.candidate.length
      rw [List.take_length] at this
      show w.mmr.map _ = w.candidate.map _
      rw [this]
      exact hc.mmr
    · obtain ⟨y, hy⟩ : ∃ y, w.candidate.getLast? = some y := ⟨_, List.getLast?_eq_getLast_of_ne_nil hc.ne⟩
      have hy' := hy
      rw [List.getLast?_eq_getElem?] at hy'
      obtain ⟨z, z1, _⟩ := hi.cand _ _ hy'
      have z2 := hall.2.1.grows _ _ z1
      unfold World.work
      simp only [hy, z1]
      simp only at z2
      simp only [z2]
      exact Nat.le_refl _
  · rename_i hw
    injection he with he
    subst he
    have := t2 l (by rw [List.getLast?_cons_cons]; exact hlast)
    exact ⟨c2, by omega, .inr (by omega)⟩

/-- The header below those collected is on the candidate chain, and the last one is the header asked for. -/
theorem walkHeaders_fork {U : Header → Prop} {w : World S} (hi : Inv U w) :
    ∀ (fuel : Nat) (h : Header) (acc r : List Header), U h → LinkedH (hashOf h) acc →
      w.walkHeaders fuel h acc = .ok (some r) → ∃ p, U p ∧ onChain w.candidate p.height (hashOf p) = true ∧
        LinkedH (hashOf p) r ∧ ∀ d, r.getLastD d = (h :: acc).getLastD d ∨ r = [] := by
  intro fuel
  induction fuel with
  | zero => intro h acc r _ _ he; cases he
  | succ n ih =>
    intro h acc r hu hl he
    rw [World.walkHeaders] at he
    split at he
    · rename_i ho
      injection he with he
      injection he with he
      subst he
      refine ⟨h, hu, ho, hl, fun d => ?_⟩
      cases acc with
      | nil => exact Or.inr rfl
      | cons a acc => left; simp
    · split at he
      · injection he with he; cases he
      · rename_i p hp
        have hpp : hashOf p = h.prevHash ∧ U p := by
          rw [Option.or_eq_some_iff] at hp
          rcases hp with hp | ⟨_, hp⟩
          · have := List.find?_some hp
            exact ⟨by simpa using this, hi.orphanHeaders p (List.mem_of_find?_eq_some hp)⟩
          · exact hi.hdr _ _ hp
        obtain ⟨q, q1, q2, q3, q4⟩ := ih p (h :: acc) r hpp.2 ⟨hpp.1.symm, hl⟩ he
        refine ⟨q, q1, q2, q3, fun d => ?_⟩
        have := q4 d
        rw [List.getLastD_cons] at this
        rcases this with h1 | h1
        · left
          rw [h1, List.getLastD_cons, List.getLastD_cons]
        · exact Or.inr h1

theorem c_processHeader {U : Header → Prop} (hU : OneHash U) {R : Rules S} (hR : RulesSound U R)
    {w : World S} (hi : Inv U w) (hc : CInv w) (fuel : Nat) {h : Header} (hu : U h) {w' : World S} {r : Res Status}
    (he : w.processHeader R fuel h = (w', r)) : CStep w w' := by
  unfold World.processHeader at he
  split at he
  · cases he; exact .refl hc
  split at he
  · cases he; exact .refl hc
  split at he
  · unfold World.processOrphan at he
    split at he
    · cases he
      exact ⟨⟨hc.ne, hc.linked, hc.mmr⟩, Nat.le_refl _, .inl rfl⟩
    · cases he; exact .refl hc
    · rename_i h0 hs hw
      obtain ⟨x, hl, ha⟩ := walkHeaders_linked hi fuel h [] _ hu trivial (by simp) hw
      obtain ⟨p, p1, p2, p3, p4⟩ := walkHeaders_fork hi fuel h [] _ hu trivial hw
      have hlast : (h0 :: hs).getLast? = some h := by
        rcases p4 h with h1 | h1
        · rw [List.getLast?_eq_some_getLast (by simp)]
          rw [List.getLastD_cons] at h1
          rw [List.getLast_eq_getLastD, h1]
          rfl
        · cases h1
      unfold World.batch at he
      split at he
      · rename_i w1 e1
        cases he
        refine c_adoptHeaders hU hR hi hc hl ha hlast (fun q q1 q2 => ?_) e1
        have hq := hi.hdr _ _ q1
        have : p = q := hU _ _ p1 hq.2 (by rw [hq.1]; exact p3.1.symm)
        subst this
        have p2' : w.candidate[p.height]? = some (hashOf p) := by simpa [onChain] using p2
        rw [q2, Nat.add_sub_cancel, p2', hq.1]
      · cases he; exact .refl hc
      · cases he; exact .refl hc
    · cases he; exact .refl hc
    · cases he; exact .refl hc
  · rename_i htip
    have htip : w.candidate.getLast? = some h.prevHash := by simpa using htip
    split at he
    · cases he; exact .refl hc
    · rename_i prev hp
      have hph : hashOf prev = h.prevHash := (hi.hdr _ _ hp).1
      unfold World.batch at he
      split at he
      · rename_i w1 e1
        cases he
        obtain ⟨a, b⟩ := c_addHeaders hU hR [h] w prev _ hi hc (by rw [hph]; exact hp) (by rw [hph]; exact htip)
          ⟨hph.symm, trivial⟩ (by simpa using hu) e1
        suffices hlt : w.work w.candidate < w'.work w'.candidate from ⟨a, Nat.le_of_lt hlt, .inr hlt⟩
        rw [b h rfl]
        have hw : w.work w.candidate = prev.totalDifficulty := by
          unfold World.work; simp only [htip, hp]
        rw [World.addHeaders, Res.bind_eq_ok] at e1
        obtain ⟨_, hv, _⟩ := e1
        have := (hR _ _ _ _ (hi.hdr _ _ hp).2 hv).2
        omega
      · cases he; exact .refl hc
      · cases he; exact .refl hc

theorem linkedH_dropWhile_fork {w : World S} :
    ∀ (hs : List Header) (x : Bytes) (k : Nat), LinkedH x hs → w.candidate[k]? = some x →
      ∀ n0 ns, hs.dropWhile (fun h => onChain w.candidate h.height (hashOf h)) = n0 :: ns →
      ∃ j : Nat, w.candidate[j]? = some n0.prevHash := by
  intro hs
  induction hs with
  | nil => intro x k _ _ n0 ns e; cases e
  | cons h hs ih =>
    intro x k hl hk n0 ns e
    rw [List.dropWhile_cons] at e
    split at e
    · rename_i ho
      exact ih (hashOf h) h.height hl.2 (by simpa [onChain] using ho) n0 ns e
    · injection e with e1 e2
      subst e1
      exact ⟨k, by rw [hl.1]; exact hk⟩

theorem c_processChunk {U : Header → Prop} (hU : OneHash U) {R : Rules S} (hR : RulesSound U R)
    {w : World S} (hi : Inv U w) (hc : CInv w) {hs : List Header} {x : Bytes} (hl : LinkedH x hs)
    (hu : ∀ h ∈ hs, U h) {w' : World S} {r : Res Status} (he : w.processChunk R hs = (w', r)) : CStep w w' := by
  unfold World.processChunk at he
  cases hs with
  | nil => cases he; exact .refl hc
  | cons h0 hs =>
    simp only at he
    split at he
    · cases he; exact .refl hc
    rename_i hon
    have hon : w.candidate[h0.height - 1]? = some h0.prevHash := by simpa [onChain] using hon
    split at he
    · cases he; exact .refl hc
    · rename_i n0 ns hn
      split at he
      · cases he; exact .refl hc
      · rename_i l hlast
        obtain ⟨y, hy⟩ := linkedH_dropWhile (fun h => onChain w.candidate h.height (hashOf h)) _ _ hl
        obtain ⟨j, hj⟩ := linkedH_dropWhile_fork (h0 :: hs) h0.prevHash _ ⟨rfl, hl.2⟩ hon n0 ns hn
        rw [hn] at hy
        have hu' : ∀ h ∈ n0 :: ns, U h := by
          intro h hh
          rw [← hn] at hh
          exact hu h ((List.dropWhile_suffix _).subset hh)
        unfold World.batch at he
        split at he
        · rename_i w1 e1
          cases he
          refine c_adoptHeaders hU hR hi hc hy hu' hlast (fun p p1 p2 => ?_) e1
          obtain ⟨q, q1, q2⟩ := hi.cand _ _ hj
          rw [p1] at q1
          injection q1 with q1
          subst q1
          rw [p2, Nat.add_sub_cancel, q2]
          exact hj
        · cases he; exact .refl hc
        · cases he; exact .refl hc

theorem c_processChunks {U : Header → Prop} (hU : OneHash U) {R : Rules S} (hR : RulesSound U R) :
    ∀ (n : Nat) {w : World S} (_ : Inv U w) (_ : CInv w) {hs : List Header} {x : Bytes} (_ : LinkedH x hs)
      (_ : ∀ h ∈ hs, U h) {w' : World S} {r : Res Status},
      World.processChunks R n w hs = (w', r) → CStep w w' := by
  intro n
  induction n with
  | zero =>
    intro w hi hc hs x _ _ w' r he
    cases hs <;> (unfold World.processChunks at he; cases he; exact .refl hc)
  | succ n ih =>
    intro w hi hc hs x hl hu w' r he
    cases hs with
    | nil => rw [World.processChunks] at he; cases he; exact .refl hc
    | cons h hs =>
      rw [World.processChunks] at he
      rcases he1 : w.processChunk R ((h :: hs).take 128) with ⟨w1, r1⟩
      have s0 := processChunk_step hU hR hi (linkedH_take 128 _ _ hl)
        (fun y hy => hu y (List.mem_of_mem_take hy)) he1
      have s1 := c_processChunk hU hR hi hc (linkedH_take 128 _ _ hl)
        (fun y hy => hu y (List.mem_of_mem_take hy)) he1
      obtain ⟨z, hz⟩ := linkedH_drop 128 _ _ hl
      have hu' : ∀ y ∈ (h :: hs).drop 128, U y := fun y hy => hu y (List.mem_of_mem_drop hy)
      rw [he1] at he
      split at he
      · rename_i w2 e2
        cases e2
        exact s1.trans (ih s0.inv s1.inv hz hu' he)
      · rename_i w2 e2
        cases e2
        exact s1.trans (ih s0.inv s1.inv hz hu' he)
      · cases he; exact s1

theorem c_processHeaders {U : Header → Prop} (hU : OneHash U) {R : Rules S} (hR : RulesSound U R)
    {w : World S} (hi : Inv U w) (hc : CInv w) {hs : List Header} {x : Bytes} (hl : LinkedH x hs)
    (hu : ∀ h ∈ hs, U h) {w' : World S} {r : Res Status} (he : w.processHeaders R hs = (w', r)) : CStep w w' := by
  unfold World.processHeaders at he
  split at he
  · cases he; exact .refl hc
  · split at he
    · cases he; exact .refl hc
    split at he
    · cases he; exact .refl hc
    split at he
    · cases he; exact .refl hc
    · exact c_processChunks hU hR _ hi hc hl hu he

/-- Same headers, candidate chain and MMR. -/
def SameC (w w' : World S) : Prop := w'.headers = w.headers ∧ w'.candidate = w.candidate ∧ w'.mmr = w.mmr

theorem SameC.step {w w' : World S} (h : SameC w w') (hc : CInv w) : CStep w w' := by
  obtain ⟨h1, h2, h3⟩ := h
  refine ⟨⟨by rw [h2]; exact hc.ne, ?_, ?_⟩, ?_, .inl h2⟩
  · rw [h1, h2]; exact hc.linked
  · rw [h1, h2, h3]; exact hc.mmr
  · unfold World.work; rw [h1, h2]; exact Nat.le_refl _

theorem sameC_foldl : ∀ (bs : List Block) (w : World S), SameC w (bs.foldl World.addBlock w) := by
  intro bs
  induction bs with
  | nil => intro w; exact ⟨rfl, rfl, rfl⟩
  | cons b bs ih => intro w; exact ih (w.addBlock b)

theorem Applied.sameC {w w' : World S} {bs : List Block} (h : Applied w w' bs) : SameC w w' :=
  ⟨h.headers, h.candidate, h.mmr⟩

theorem sameC_handleReorg {R : Rules S} {w w' : World S} {bs : List Block} {r : Res Unit}
    (hx : w.handleReorg R bs = (w', r)) : SameC w w' := by
  unfold World.handleReorg at hx
  split at hx
  · split at hx
    · cases hx; exact ⟨rfl, rfl, rfl⟩
    split at hx
    · cases hx; exact ⟨rfl, rfl, rfl⟩
    · cases hx; exact ⟨rfl, rfl, rfl⟩
    split at hx
    · cases hx; exact ⟨rfl, rfl, rfl⟩
    · rename_i e; cases hx; exact (applyBlocks_applied _ e).sameC
    · rename_i e
      have a := (applyBlocks_applied _ e).sameC
      split at hx
      · split at hx
        · cases hx; exact ⟨rfl, rfl, rfl⟩
        split at hx
        · rename_i e2
          cases hx
          obtain ⟨f1, _⟩ := (extend_ok _ _ _).mp e2
          rw [f1]; exact a
        · cases hx; exact ⟨rfl, rfl, rfl⟩
        · cases hx; exact a
      · cases hx; exact sameC_foldl _ _
  · cases hx; exact ⟨rfl, rfl, rfl⟩

theorem sameC_addOrphan (w : World S) (b : Block) : SameC w (w.addOrphan b) := by
  unfold World.addOrphan
  simp only
  split <;> split <;> exact ⟨rfl, rfl, rfl⟩

theorem sameC_processInternal {R : Rules S} {w w' : World S} {fuel : Nat} {b : Block} {r : Res Status}
    (he : w.processInternal R fuel b = (w', r)) : SameC w w' := by
  unfold World.processInternal at he
  split at he
  · cases he; exact ⟨rfl, rfl, rfl⟩
  split at he
  · cases he; exact ⟨rfl, rfl, rfl⟩
  split at he
  · cases he; exact ⟨rfl, rfl, rfl⟩
  · cases he; exact ⟨rfl, rfl, rfl⟩
  · split at he
    · cases he; exact ⟨rfl, rfl, rfl⟩
    · cases he; exact sameC_addOrphan w b
  · rename_i bs _
    rcases hx : w.handleReorg R bs with ⟨w1, r1⟩
    rw [hx] at he
    cases r1 <;> (cases he; exact sameC_handleReorg hx)
  · rcases hx : w.applyBlock R b with ⟨w1, r1⟩
    have a := (applyBlock_applied hx).sameC
    rw [hx] at he
    cases r1 with
    | throw => cases he; exact ⟨rfl, rfl, rfl⟩
    | ub => cases he; exact a
    | ok _ =>
      simp only at he
      split at he
      · rename_i e2
        cases he
        obtain ⟨f1, _⟩ := (extend_ok _ _ _).mp e2
        rw [f1]; exact a
      · cases he; exact ⟨rfl, rfl, rfl⟩
      · cases he; exact a

theorem c_processBlock {U : Header → Prop} (hU : OneHash U) {R : Rules S} (hR : RulesSound U R) {w : World S}
    (hi : Inv U w) (hc : CInv w) (fuel : Nat) {b : Block} (hu : U b.header) {w' : World S} {r : Res Status}
    (he : w.processBlock R fuel b = (w', r)) : CStep w w' := by
  unfold World.processBlock at he
  split at he
  · cases he; exact .refl hc
  rcases h1 : w.processHeader R fuel b.header with ⟨w1, r1⟩
  have s1 := c_processHeader hU hR hi hc fuel hu h1
  rw [h1] at he
  cases r1 with
  | throw => cases he; exact s1
  | ub => cases he; exact s1
  | ok _ =>
    simp only at he
    split at he
    · cases he; exact s1
    · cases he; exact s1
    · exact s1.trans ((sameC_processInternal he).step s1.inv)

theorem c_step {U : Header → Prop} (hU : OneHash U) {R : Rules S} (hR : RulesSound U R) {w w' : World S}
    (hi : Inv U w) (hc : CInv w) (fuel : Nat) {e : Event} (hp : e.Proper U) (he : w.step R fuel e = some w') :
    CStep w w' := by
  unfold World.step at he
  cases e with
  | header h =>
    simp only at he
    split at he
    · cases he
    · rename_i e1
      cases he
      exact c_processHeader hU hR hi hc fuel hp e1
  | headers hs =>
    simp only at he
    split at he
    · cases he
    · rename_i e1
      cases he
      obtain ⟨h1, x, h2⟩ := hp
      exact c_processHeaders hU hR hi hc h2 h1 e1
  | block b =>
    simp only at he
    split at he
    · cases he
    · rename_i e1
      cases he
      exact c_processBlock hU hR hi hc fuel hp e1
  | nextOrphan =>
    simp only at he
    split at he
    · cases he
    · rename_i e1
      cases he
      unfold World.processNextOrphan at e1
      split at e1
      · cases e1; exact .refl hc
      split at e1
      · cases e1; exact .refl hc
      split at e1
      · cases e1; exact .refl hc
      rename_i b hb
      have hu : U b.header := hi.orphans b (List.mem_of_find?_eq_some hb)
      split at e1
      · rename_i e2; cases e1; exact c_processBlock hU hR hi hc fuel hu e2
      · rename_i e2
        cases e1
        have := c_processBlock hU hR hi hc fuel hu e2
        exact ⟨⟨this.inv.ne, this.inv.linked, this.inv.mmr⟩, this.work, this.moved⟩
      · rename_i e2; cases e1; exact c_processBlock hU hR hi hc fuel hu e2

end Verif.BC
