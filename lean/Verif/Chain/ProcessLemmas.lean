import Verif.Chain.Process
import Mathlib.Data.List.Basic

/-! # Lemmas on processing headers and blocks -/
namespace Verif.BC
variable {S : Type}

/-- What the header rules guarantee about the parent a header is checked against. -/
def RulesSound (U : Header → Prop) (R : Rules S) : Prop :=
  ∀ db mmr h prev, U prev → R.validate db mmr h prev = .ok () →
    h.height = prev.height + 1 ∧ prev.totalDifficulty < h.totalDifficulty

/-- Each header names the one before it. -/
def LinkedH : Bytes → List Header → Prop
  | _, [] => True
  | x, h :: hs => h.prevHash = x ∧ LinkedH (hashOf h) hs

/-- Consistency of the stored chain.  `U` are the headers ever seen. -/
structure Inv (U : Header → Prop) (w : World S) : Prop where
  hdr : ∀ x h, w.headers x = some h → hashOf h = x ∧ U h
  link : ∀ x h, w.headers x = some h → h.height = 0 ∨
    ∃ p, w.headers h.prevHash = some p ∧ h.height = p.height + 1 ∧ p.totalDifficulty < h.totalDifficulty
  blk : ∀ x b, w.blocks x = some b →
    w.headers x = some b.header ∧ b.header.totalDifficulty ≤ w.work w.confirmed
  conf : ∀ i x, w.confirmed[i]? = some x → ∃ h, w.headers x = some h ∧ h.height = i
  connected : ∀ i x h, w.confirmed[i + 1]? = some x → w.headers x = some h →
    w.confirmed[i]? = some h.prevHash
  ne : w.confirmed ≠ []
  gen : ∀ x h, w.headers x = some h → h.height = 0 → w.confirmed[0]? = some x
  cand : ∀ i x, w.candidate[i]? = some x → ∃ h, w.headers x = some h ∧ h.height = i
  orphans : ∀ b ∈ w.orphans, U b.header
  orphanHeaders : ∀ h ∈ w.orphanHeaders, U h

/-- Different headers seen have different hashes. -/
def OneHash (U : Header → Prop) : Prop := ∀ h h', U h → U h' → hashOf h = hashOf h' → h = h'

/-- What changes when only headers are added. -/
structure HeadersAdded (w w' : World S) : Prop where
  grows : ∀ x h, w.headers x = some h → w'.headers x = some h
  blocks : w'.blocks = w.blocks
  confirmed : w'.confirmed = w.confirmed
  orphans : w'.orphans = w.orphans
  ledger : w'.ledger = w.ledger

theorem HeadersAdded.refl (w : World S) : HeadersAdded w w := ⟨fun _ _ h => h, rfl, rfl, rfl, rfl⟩

theorem HeadersAdded.trans {a b c : World S} (h : HeadersAdded a b) (h' : HeadersAdded b c) :
    HeadersAdded a c :=
  ⟨fun x y e => h'.grows x y (h.grows x y e), h'.blocks.trans h.blocks, h'.confirmed.trans h.confirmed,
    h'.orphans.trans h.orphans, h'.ledger.trans h.ledger⟩

theorem work_same {U : Header → Prop} {w w' : World S} (hi : Inv U w)
    (hg : ∀ x h, w.headers x = some h → w'.headers x = some h) (hc : w'.confirmed = w.confirmed) :
    w'.work w'.confirmed = w.work w.confirmed := by
  unfold World.work
  rw [hc]
  cases hl : w.confirmed.getLast? with
  | none => rfl
  | some x =>
    rw [List.getLast?_eq_getElem?] at hl
    obtain ⟨h, hh, _⟩ := hi.conf _ _ hl
    simp only [hh, hg x h hh]

/-- Adding one header that names a known parent keeps the state consistent. -/
theorem inv_addHeader {U : Header → Prop} (hU : OneHash U) {w : World S} (hi : Inv U w) {h p : Header}
    (hu : U h) (hp : w.headers h.prevHash = some p) (hh : h.height = p.height + 1)
    (ht : p.totalDifficulty < h.totalDifficulty) :
    Inv U (w.addHeader h) ∧ HeadersAdded w (w.addHeader h) := by
  have hg : ∀ x y, w.headers x = some y → (w.addHeader h).headers x = some y := by
    intro x y e
    show (if x = hashOf h then some h else w.headers x) = some y
    by_cases hx : x = hashOf h
    · obtain ⟨a, b⟩ := hi.hdr x y e
      rw [if_pos hx, hU y h b hu (by rw [a, hx])]
    · rw [if_neg hx, e]
  have hw := work_same hi hg rfl
  refine ⟨⟨?_, ?_, ?_, ?_, ?_, hi.ne, ?_, ?_, hi.orphans, hi.orphanHeaders⟩, ⟨hg, rfl, rfl, rfl, rfl⟩⟩
  · intro x y e
    change (if x = hashOf h then some h else w.headers x) = some y at e
    split at e
    · rename_i hx
      injection e with e
      subst e
      exact ⟨hx.symm, hu⟩
    · exact hi.hdr x y e
  · intro x y e
    change (if x = hashOf h then some h else w.headers x) = some y at e
    split at e
    · injection e with e
      subst e
      exact Or.inr ⟨p, hg _ _ hp, hh, ht⟩
    · rcases hi.link x y e with h0 | ⟨q, h1, h2⟩
      · exact Or.inl h0
      · exact Or.inr ⟨q, hg _ _ h1, h2⟩
  · intro x b e
    obtain ⟨a, c⟩ := hi.blk x b e
    exact ⟨hg _ _ a, by rw [hw]; exact c⟩
  · intro i x e
    obtain ⟨y, a, c⟩ := hi.conf i x e
    exact ⟨y, hg _ _ a, c⟩
  · intro i x y e1 e2
    obtain ⟨z, a, _⟩ := hi.conf (i + 1) x e1
    have : y = z := by rw [hg _ _ a] at e2; exact (Option.some.inj e2).symm
    subst this
    exact hi.connected i x y e1 a
  · intro x y e h0
    change (if x = hashOf h then some h else w.headers x) = some y at e
    split at e
    · injection e with e
      subst e
      omega
    · exact hi.gen x y e h0
  · intro i x e
    obtain ⟨y, a, c⟩ := hi.cand i x e
    exact ⟨y, hg _ _ a, c⟩

/-- The candidate chain and the MMR may be replaced. -/
theorem inv_candidate {U : Header → Prop} {w : World S} (hi : Inv U w) (c : List Bytes) (m : List Header)
    (hc : ∀ i x, c[i]? = some x → ∃ h, w.headers x = some h ∧ h.height = i) :
    Inv U { w with candidate := c, mmr := m } :=
  ⟨hi.hdr, hi.link, hi.blk, hi.conf, hi.connected, hi.ne, hi.gen, hc, hi.orphans, hi.orphanHeaders⟩

theorem inv_addHeaders {U : Header → Prop} (hU : OneHash U) {R : Rules S} (hR : RulesSound U R) :
    ∀ (hs : List Header) (w : World S) (prev : Header) (w' : World S), Inv U w →
      w.headers (hashOf prev) = some prev → LinkedH (hashOf prev) hs → (∀ h ∈ hs, U h) →
      w.addHeaders R prev hs = .ok w' →
      Inv U w' ∧ HeadersAdded w w' ∧ w'.orphanHeaders = w.orphanHeaders ∧
        ∀ h ∈ hs, w'.headers (hashOf h) = some h := by
  intro hs
  induction hs with
  | nil =>
    intro w prev w' hi _ _ _ he
    rw [World.addHeaders] at he
    injection he with he
    subst he
    exact ⟨hi, HeadersAdded.refl _, rfl, by simp⟩
  | cons h hs ih =>
    intro w prev w' hi hp hl hu he
    rw [World.addHeaders, Res.bind_eq_ok] at he
    obtain ⟨_, hv, he⟩ := he
    split at he
    · cases he
    rename_i hlen
    have hlen : h.height = w.candidate.length := by simpa using hlen
    obtain ⟨v1, v2⟩ := hR _ _ _ _ (hi.hdr _ _ hp).2 hv
    have hp' : w.headers h.prevHash = some prev := by rw [hl.1]; exact hp
    obtain ⟨i1, g1⟩ := inv_addHeader hU hi (hu h (by simp)) hp' v1 v2
    have hself : (w.addHeader h).headers (hashOf h) = some h := by simp [World.addHeader]
    have i2 : Inv U { w.addHeader h with mmr := w.mmr ++ [h], candidate := w.candidate ++ [hashOf h] } := by
      refine inv_candidate i1 _ _ (fun i x hx => ?_)
      rcases Nat.lt_trichotomy i w.candidate.length with hlt | heq | hgt
      · rw [List.getElem?_append_left hlt] at hx
        exact i1.cand i x hx
      · subst heq
        rw [List.getElem?_append_right (by omega)] at hx
        simp at hx
        subst hx
        exact ⟨h, hself, hlen⟩
      · rw [List.getElem?_append_right (by omega), List.getElem?_eq_none (by simp; omega)] at hx
        cases hx
    obtain ⟨j1, j2, j3, j4⟩ := ih _ h w' i2 hself hl.2 (fun x hx => hu x (by simp [hx])) he
    have j2' : HeadersAdded (w.addHeader h) w' := ⟨j2.grows, j2.blocks, j2.confirmed, j2.orphans, j2.ledger⟩
    refine ⟨j1, g1.trans j2', j3, fun x hx => ?_⟩
    rcases List.mem_cons.mp hx with rfl | hx
    · exact j2.grows _ _ hself
    · exact j4 x hx

theorem inv_adoptHeaders {U : Header → Prop} (hU : OneHash U) {R : Rules S} (hR : RulesSound U R)
    {w w' : World S} (hi : Inv U w) {h0 : Header} {hs : List Header} {height work : Nat} {x : Bytes}
    (hl : LinkedH x (h0 :: hs)) (hu : ∀ h ∈ h0 :: hs, U h)
    (he : w.adoptHeaders R (h0 :: hs) height work = .ok w') :
    Inv U w' ∧ HeadersAdded w w' ∧ w'.orphanHeaders = w.orphanHeaders ∧
      ∀ h ∈ h0 :: hs, w'.headers (hashOf h) = some h := by
  unfold World.adoptHeaders at he
  rw [Res.bind_eq_ok] at he
  obtain ⟨w1, e1, he⟩ := he
  rw [Res.bind_eq_ok] at he
  obtain ⟨w2, e2, he⟩ := he
  unfold World.rewindCandidate at e1
  split at e1
  · cases e1
  injection e1 with e1
  have i1 : Inv U w1 := by
    rw [← e1]
    refine inv_candidate hi _ _ (fun i y hy => ?_)
    rw [List.getElem?_take] at hy
    split at hy
    · exact hi.cand i y hy
    · cases hy
  have g1 : HeadersAdded w w1 := by rw [← e1]; exact ⟨fun _ _ h => h, rfl, rfl, rfl, rfl⟩
  have o1 : w1.orphanHeaders = w.orphanHeaders := by rw [← e1]
  unfold World.validateHeaders at e2
  simp only at e2
  split at e2
  · cases e2
  rename_i prev hp
  have hph : hashOf prev = h0.prevHash := (i1.hdr _ _ hp).1
  obtain ⟨i2, g2, o2, k2⟩ := inv_addHeaders hU hR (h0 :: hs) w1 prev w2 i1 (by rw [hph]; exact hp)
    ⟨hph.symm, hl.2⟩ hu e2
  have g := g1.trans g2
  split at he
  · injection he with he
    subst he
    refine ⟨inv_candidate i2 _ _ (fun i y hy => ?_), ⟨g.grows, g.blocks, g.confirmed, g.orphans, g.ledger⟩,
      o2.trans o1, k2⟩
    obtain ⟨z, a, c⟩ := hi.cand i y hy
    exact ⟨z, g.grows _ _ a, c⟩
  · injection he with he
    subst he
    exact ⟨i2, g, o2.trans o1, k2⟩

/-- The headers collected by the walk are linked and end in the header asked for. -/
theorem walkHeaders_linked {U : Header → Prop} {w : World S} (hi : Inv U w) :
    ∀ (fuel : Nat) (h : Header) (acc r : List Header), U h → LinkedH (hashOf h) acc → (∀ x ∈ acc, U x) →
      w.walkHeaders fuel h acc = .ok (some r) → ∃ x, LinkedH x r ∧ ∀ y ∈ r, U y := by
  intro fuel
  induction fuel with
  | zero => intro h acc r _ _ _ he; cases he
  | succ n ih =>
    intro h acc r hu hl ha he
    rw [World.walkHeaders] at he
    split at he
    · injection he with he
      injection he with he
      subst he
      exact ⟨_, hl, ha⟩
    · split at he
      · injection he with he; cases he
      · rename_i p hp
        have hpp : hashOf p = h.prevHash ∧ U p := by
          rw [Option.or_eq_some_iff] at hp
          rcases hp with hp | ⟨_, hp⟩
          · have := List.find?_some hp
            exact ⟨by simpa using this, hi.orphanHeaders p (List.mem_of_find?_eq_some hp)⟩
          · exact hi.hdr _ _ hp
        refine ih p (h :: acc) r hpp.2 ⟨hpp.1.symm, hl⟩ ?_ he
        intro x hx
        rcases List.mem_cons.mp hx with rfl | hx
        · exact hu
        · exact ha x hx

/-- Consistency, and nothing lost but orphans' bookkeeping: what every header event guarantees. -/
structure HeaderStep (U : Header → Prop) (w w' : World S) : Prop where
  inv : Inv U w'
  added : HeadersAdded w w'

theorem HeaderStep.refl {U : Header → Prop} {w : World S} (h : Inv U w) : HeaderStep U w w :=
  ⟨h, HeadersAdded.refl w⟩

theorem inv_addOrphanHeader {U : Header → Prop} {w : World S} (hi : Inv U w) {h : Header} (hu : U h) :
    Inv U (w.addOrphanHeader h) := by
  refine ⟨hi.hdr, hi.link, hi.blk, hi.conf, hi.connected, hi.ne, hi.gen, hi.cand, hi.orphans, fun x hx => ?_⟩
  have := List.mem_of_mem_take hx
  rcases List.mem_cons.mp this with rfl | hx
  · exact hu
  · exact hi.orphanHeaders x (List.mem_filter.mp hx).1

theorem processHeader_step {U : Header → Prop} (hU : OneHash U) {R : Rules S} (hR : RulesSound U R)
    {w : World S} (hi : Inv U w) (fuel : Nat) {h : Header} (hu : U h) {w' : World S} {r : Res Status}
    (he : w.processHeader R fuel h = (w', r)) : HeaderStep U w w' := by
  unfold World.processHeader at he
  split at he
  · cases he; exact .refl hi
  split at he
  · cases he; exact .refl hi
  split at he
  · unfold World.processOrphan at he
    split at he
    · cases he
      exact ⟨inv_addOrphanHeader hi hu, ⟨fun _ _ h => h, rfl, rfl, rfl, rfl⟩⟩
    · cases he; exact .refl hi
    · rename_i h0 hs hw
      obtain ⟨x, hl, ha⟩ := walkHeaders_linked hi fuel h [] _ hu trivial (by simp) hw
      unfold World.batch at he
      split at he
      · rename_i w1 e1
        cases he
        obtain ⟨a, b, _⟩ := inv_adoptHeaders hU hR hi hl ha e1
        exact ⟨a, b⟩
      · cases he; exact .refl hi
      · cases he; exact .refl hi
    · cases he; exact .refl hi
    · cases he; exact .refl hi
  · split at he
    · cases he; exact .refl hi
    · rename_i prev hp
      have hph : hashOf prev = h.prevHash := (hi.hdr _ _ hp).1
      unfold World.batch at he
      split at he
      · rename_i w1 e1
        cases he
        obtain ⟨a, b, _⟩ := inv_addHeaders hU hR [h] w prev _ hi (by rw [hph]; exact hp) ⟨hph.symm, trivial⟩
          (by simpa using hu) e1
        exact ⟨a, b⟩
      · cases he; exact .refl hi
      · cases he; exact .refl hi

theorem linkedH_dropWhile (p : Header → Bool) : ∀ (hs : List Header) (x : Bytes), LinkedH x hs →
    ∃ y, LinkedH y (hs.dropWhile p) := by
  intro hs
  induction hs with
  | nil => intro x h; exact ⟨x, h⟩
  | cons h hs ih =>
    intro x hl
    rw [List.dropWhile_cons]
    split
    · exact ih _ hl.2
    · exact ⟨x, hl⟩

theorem linkedH_take (n : Nat) : ∀ (hs : List Header) (x : Bytes), LinkedH x hs → LinkedH x (hs.take n) := by
  induction n with
  | zero => intro hs x _; exact trivial
  | succ n ih =>
    intro hs x hl
    cases hs with
    | nil => exact trivial
    | cons h hs => exact ⟨hl.1, ih hs _ hl.2⟩

theorem linkedH_drop (n : Nat) : ∀ (hs : List Header) (x : Bytes), LinkedH x hs → ∃ y, LinkedH y (hs.drop n) := by
  induction n with
  | zero => intro hs x h; exact ⟨x, h⟩
  | succ n ih =>
    intro hs x hl
    cases hs with
    | nil => exact ⟨x, trivial⟩
    | cons h hs => exact ih hs _ hl.2

theorem processChunk_step {U : Header → Prop} (hU : OneHash U) {R : Rules S} (hR : RulesSound U R)
    {w : World S} (hi : Inv U w) {hs : List Header} {x : Bytes} (hl : LinkedH x hs) (hu : ∀ h ∈ hs, U h)
    {w' : World S} {r : Res Status} (he : w.processChunk R hs = (w', r)) : HeaderStep U w w' := by
  unfold World.processChunk at he
  cases hs with
  | nil => cases he; exact .refl hi
  | cons h0 hs =>
    simp only at he
    split at he
    · cases he; exact .refl hi
    split at he
    · cases he; exact .refl hi
    · rename_i n0 ns hn
      split at he
      · cases he; exact .refl hi
      · rename_i l hlast
        obtain ⟨y, hy⟩ := linkedH_dropWhile (fun h => onChain w.candidate h.height (hashOf h)) _ _ hl
        rw [hn] at hy
        have hu' : ∀ h ∈ n0 :: ns, U h := by
          intro h hh
          rw [← hn] at hh
          exact hu h ((List.dropWhile_suffix _).subset hh)
        unfold World.batch at he
        split at he
        · rename_i w1 e1
          cases he
          obtain ⟨a, b, _⟩ := inv_adoptHeaders hU hR hi hy hu' e1
          exact ⟨a, b⟩
        · cases he; exact .refl hi
        · cases he; exact .refl hi

theorem processChunks_step {U : Header → Prop} (hU : OneHash U) {R : Rules S} (hR : RulesSound U R) :
    ∀ (n : Nat) {w : World S} (_ : Inv U w) {hs : List Header} {x : Bytes} (_ : LinkedH x hs)
      (_ : ∀ h ∈ hs, U h) {w' : World S} {r : Res Status},
      World.processChunks R n w hs = (w', r) → HeaderStep U w w' := by
  intro n
  induction n with
  | zero =>
    intro w hi hs x _ _ w' r he
    cases hs <;> (unfold World.processChunks at he; cases he; exact .refl hi)
  | succ n ih =>
    intro w hi hs x hl hu w' r he
    cases hs with
    | nil => rw [World.processChunks] at he; cases he; exact .refl hi
    | cons h hs =>
      rw [World.processChunks] at he
      rcases hc : w.processChunk R ((h :: hs).take 128) with ⟨w1, r1⟩
      have s1 := processChunk_step hU hR hi (linkedH_take 128 _ _ hl)
        (fun y hy => hu y (List.mem_of_mem_take hy)) hc
      obtain ⟨z, hz⟩ := linkedH_drop 128 _ _ hl
      have hu' : ∀ y ∈ (h :: hs).drop 128, U y := fun y hy => hu y (List.mem_of_mem_drop hy)
      rw [hc] at he
      split at he
      · rename_i w2 e2
        cases e2
        have s2 := ih s1.inv hz hu' he
        exact ⟨s2.inv, s1.added.trans s2.added⟩
      · rename_i w2 e2
        cases e2
        have s2 := ih s1.inv hz hu' he
        exact ⟨s2.inv, s1.added.trans s2.added⟩
      · cases he; exact s1

theorem processHeaders_step {U : Header → Prop} (hU : OneHash U) {R : Rules S} (hR : RulesSound U R)
    {w : World S} (hi : Inv U w) {hs : List Header} {x : Bytes} (hl : LinkedH x hs) (hu : ∀ h ∈ hs, U h)
    {w' : World S} {r : Res Status} (he : w.processHeaders R hs = (w', r)) : HeaderStep U w w' := by
  unfold World.processHeaders at he
  split at he
  · cases he; exact .refl hi
  · split at he
    · cases he; exact .refl hi
    split at he
    · cases he; exact .refl hi
    split at he
    · cases he; exact .refl hi
    · exact processChunks_step hU hR _ hi hl hu he

/-! ## Blocks -/

/-- A branch of blocks with known headers, leaving the confirmed chain below its first block. -/
structure Branch (w : World S) (b0 : Block) (bs : List Block) : Prop where
  known : ∀ b ∈ b0 :: bs, w.headers (hashOf b.header) = some b.header
  pos : ∀ b ∈ b0 :: bs, b.header.height ≠ 0
  linked : LinkedH b0.header.prevHash ((b0 :: bs).map (·.header))
  fork : w.confirmed[b0.header.height - 1]? = some b0.header.prevHash

theorem branch_work {U : Header → Prop} {w : World S} (hi : Inv U w) :
    ∀ (bs : List Block) (b0 : Block), (∀ b ∈ b0 :: bs, w.headers (hashOf b.header) = some b.header) →
      (∀ b ∈ b0 :: bs, b.header.height ≠ 0) → LinkedH b0.header.prevHash ((b0 :: bs).map (·.header)) →
      ∀ last, (b0 :: bs).getLast? = some last → ∀ b ∈ b0 :: bs,
        b.header.totalDifficulty ≤ last.header.totalDifficulty := by
  intro bs
  induction bs with
  | nil => intro b0 _ _ _ last hl b hb; simp at hl hb; subst hl hb; exact Nat.le_refl _
  | cons b1 bs ih =>
    intro b0 hk hp hl last hlast b hb
    have hl1 : b1.header.prevHash = hashOf b0.header := hl.2.1
    have ih' := ih b1 (fun x hx => hk x (by simp [List.mem_cons.mp hx]))
      (fun x hx => hp x (by simp [List.mem_cons.mp hx])) ⟨rfl, hl.2.2⟩ last (by simpa using hlast)
    rcases List.mem_cons.mp hb with rfl | hb
    · have h1 := ih' b1 (by simp)
      rcases hi.link _ _ (hk b1 (by simp)) with h0 | ⟨p, p1, p2, p3⟩
      · exact absurd h0 (hp b1 (by simp))
      · rw [hl1, hk b (by simp)] at p1
        injection p1 with p1
        subst p1
        omega
    · exact ih' b hb

theorem linkedH_get : ∀ (l : List Header) (x : Bytes), LinkedH x l → ∀ (i : Nat) (h : Header),
    l[i + 1]? = some h → ∃ p, l[i]? = some p ∧ h.prevHash = hashOf p := by
  intro l
  induction l with
  | nil => intro x _ i h e; simp at e
  | cons a l ih =>
    intro x hl i h e
    cases i with
    | zero =>
      cases l with
      | nil => simp at e
      | cons b l =>
        simp at e
        subst e
        exact ⟨a, rfl, hl.2.1⟩
    | succ i =>
      obtain ⟨p, h1, h2⟩ := ih _ hl.2 i h (by simpa using e)
      exact ⟨p, by simpa using h1, h2⟩

theorem branch_last {w : World S} {b0 last : Block} {bs : List Block} (k : Nat) (c : List Bytes)
    (hlast : (b0 :: bs).getLast? = some last)
    (hk : w.headers (hashOf last.header) = some last.header) :
    w.work (c.take k ++ (b0 :: bs).map (fun b => hashOf b.header)) = last.header.totalDifficulty := by
  unfold World.work
  have hl : (c.take k ++ (b0 :: bs).map (fun b => hashOf b.header)).getLast? = some (hashOf last.header) := by
    rw [List.getLast?_append_of_ne_nil _ (by simp), List.getLast?_map, hlast]; rfl
  rw [hl]
  simp only [hk]

/-- Moving the confirmed chain to a branch with at least as much work keeps the state consistent. -/
theorem inv_adopt {U : Header → Prop} {w w' : World S} (hi : Inv U w) {b0 last : Block} {bs : List Block}
    (hb : Branch w b0 bs) (hlast : (b0 :: bs).getLast? = some last)
    (hlen : b0.header.height ≤ w.confirmed.length)
    (hh : ∀ i b, (b0 :: bs)[i]? = some b → b.header.height = b0.header.height + i)
    (h1 : w'.headers = w.headers)
    (h2 : w'.confirmed = w.confirmed.take b0.header.height ++ (b0 :: bs).map (fun b => hashOf b.header))
    (h3 : w'.candidate = w.candidate)
    (h4 : ∀ x b, w'.blocks x = some b → w.blocks x = some b ∨ (b ∈ b0 :: bs ∧ x = hashOf b.header))
    (h5 : ∀ b ∈ w'.orphans, U b.header) (h6 : ∀ h ∈ w'.orphanHeaders, U h)
    (hw : w.work w.confirmed ≤ last.header.totalDifficulty) :
    Inv U w' ∧ w'.work w'.confirmed = last.header.totalDifficulty := by
  have hmem : last ∈ b0 :: bs := List.mem_of_getLast? hlast
  have hwork : w'.work w'.confirmed = last.header.totalDifficulty := by
    rw [h2]
    exact branch_last _ _ hlast (by rw [h1]; exact hb.known last hmem)
  have hpos := hb.pos b0 (by simp)
  have hlt : (w.confirmed.take b0.header.height).length = b0.header.height := by
    rw [List.length_take]; omega
  have hget : ∀ i x, w'.confirmed[i]? = some x →
      (i < b0.header.height ∧ w.confirmed[i]? = some x) ∨
      ∃ b, b0.header.height ≤ i ∧ (b0 :: bs)[i - b0.header.height]? = some b ∧ x = hashOf b.header := by
    intro i x e
    rw [h2] at e
    by_cases hi' : i < b0.header.height
    · rw [List.getElem?_append_left (by omega), List.getElem?_take, if_pos hi'] at e
      exact Or.inl ⟨hi', e⟩
    · rw [List.getElem?_append_right (by omega), hlt, List.getElem?_map] at e
      right
      cases hc : (b0 :: bs)[i - b0.header.height]? with
      | none => rw [hc] at e; cases e
      | some b => rw [hc] at e; exact ⟨b, by omega, rfl, by simpa using e.symm⟩
  have h0 : w'.confirmed[0]? = w.confirmed[0]? := by
    rw [h2, List.getElem?_append_left (by omega), List.getElem?_take, if_pos (by omega)]
  refine ⟨⟨?_, ?_, ?_, ?_, ?_, ?_, ?_, ?_, h5, h6⟩, hwork⟩
  · rw [h1]; exact hi.hdr
  · rw [h1]; exact hi.link
  · intro x b e
    rw [hwork, h1]
    rcases h4 x b e with e | ⟨m, rfl⟩
    · obtain ⟨a, c⟩ := hi.blk x b e
      exact ⟨a, by omega⟩
    · exact ⟨hb.known b m, branch_work hi bs b0 hb.known hb.pos hb.linked last hlast b m⟩
  · intro i x e
    rw [h1]
    rcases hget i x e with ⟨_, e⟩ | ⟨b, k1, k2, rfl⟩
    · exact hi.conf i x e
    · refine ⟨b.header, hb.known b (List.mem_of_getElem? k2), ?_⟩
      have := hh _ _ k2
      omega
  · intro i x h e e'
    rw [h1] at e'
    rcases hget (i + 1) x e with ⟨a1, a2⟩ | ⟨b, k1, k2, rfl⟩
    · rw [h2, List.getElem?_append_left (by omega), List.getElem?_take, if_pos (by omega)]
      exact hi.connected i x h a2 e'
    · have hbh : h = b.header := by
        rw [hb.known b (List.mem_of_getElem? k2)] at e'; exact (Option.some.inj e').symm
      subst hbh
      rw [h2]
      rcases Nat.lt_or_ge i b0.header.height with hlt' | hge
      · have hz : i + 1 - b0.header.height = 0 := by omega
        rw [hz] at k2
        simp at k2
        subst k2
        rw [List.getElem?_append_left (by omega), List.getElem?_take, if_pos hlt']
        have := hb.fork
        rw [show b0.header.height - 1 = i by omega] at this
        exact this
      · rw [List.getElem?_append_right (by omega), hlt, List.getElem?_map]
        rw [show i + 1 - b0.header.height = (i - b0.header.height) + 1 by omega] at k2
        obtain ⟨p, p1, p2⟩ := linkedH_get _ _ hb.linked (i - b0.header.height) b.header
          (by rw [List.getElem?_map, k2]; rfl)
        rw [List.getElem?_map] at p1
        cases hc : (b0 :: bs)[i - b0.header.height]? with
        | none => rw [hc] at p1; cases p1
        | some c =>
          rw [hc] at p1
          simp at p1
          rw [p2, ← p1]
          rfl
  · rw [h2]; simp
  · intro x h e e0
    rw [h1] at e
    rw [h0]
    exact hi.gen x h e e0
  · rw [h1, h3]; exact hi.cand

/-- What applying blocks changes. -/
structure Applied (w w' : World S) (bs : List Block) : Prop where
  headers : w'.headers = w.headers
  confirmed : w'.confirmed = w.confirmed
  candidate : w'.candidate = w.candidate
  mmr : w'.mmr = w.mmr
  orphanHeaders : w'.orphanHeaders = w.orphanHeaders
  orphans : ∀ b ∈ w'.orphans, b ∈ w.orphans
  blocks : ∀ x b, w'.blocks x = some b → w.blocks x = some b ∨ (b ∈ bs ∧ x = hashOf b.header)

theorem applyBlock_applied {R : Rules S} {w w' : World S} {b : Block} {r : Res Unit}
    (he : w.applyBlock R b = (w', r)) : Applied w w' [b] := by
  have hrefl : Applied w w [b] := ⟨rfl, rfl, rfl, rfl, rfl, fun _ h => h, fun _ _ h => Or.inl h⟩
  unfold World.applyBlock at he
  split at he
  · cases he; exact hrefl
  · split at he
    · cases he
      refine ⟨rfl, rfl, rfl, rfl, rfl, fun c hc => List.mem_of_mem_eraseP hc, fun x c e => ?_⟩
      change (if x = hashOf b.header then some b else w.blocks x) = some c at e
      split at e
      · rename_i hx
        injection e with e
        subst e
        exact Or.inr ⟨by simp, hx⟩
      · exact Or.inl e
    · cases he; exact hrefl
    · cases he; exact hrefl

theorem applyBlocks_applied {R : Rules S} : ∀ (bs : List Block) {w w' : World S} {r : Res Unit},
    World.applyBlocks R w bs = (w', r) → Applied w w' bs := by
  intro bs
  induction bs with
  | nil =>
    intro w w' r he
    rw [World.applyBlocks] at he
    cases he
    exact ⟨rfl, rfl, rfl, rfl, rfl, fun _ h => h, fun _ _ h => Or.inl h⟩
  | cons b bs ih =>
    intro w w' r he
    rw [World.applyBlocks] at he
    rcases h1 : w.applyBlock R b with ⟨w1, r1⟩
    have a1 := applyBlock_applied h1
    rw [h1] at he
    split at he
    · rename_i w2 e2
      cases e2
      have a2 := ih he
      refine ⟨a2.headers.trans a1.headers, a2.confirmed.trans a1.confirmed, a2.candidate.trans a1.candidate,
        a2.mmr.trans a1.mmr, a2.orphanHeaders.trans a1.orphanHeaders, fun c hc => a1.orphans c (a2.orphans c hc),
        fun x c e => ?_⟩
      rcases a2.blocks x c e with e | ⟨m, e⟩
      · rcases a1.blocks x c e with e | ⟨m, e⟩
        · exact Or.inl e
        · exact Or.inr ⟨by simp at m; simp [m], e⟩
      · exact Or.inr ⟨by simp [m], e⟩
    · cases he
      refine ⟨a1.headers, a1.confirmed, a1.candidate, a1.mmr, a1.orphanHeaders, a1.orphans, fun x c e => ?_⟩
      rcases a1.blocks x c e with e | ⟨m, e⟩
      · exact Or.inl e
      · exact Or.inr ⟨by simp at m; simp [m], e⟩

theorem extend_ok : ∀ (bs : List Block) (w : World S) (w' : World S), w.extend bs = .ok w' ↔
    w' = { w with confirmed := w.confirmed ++ bs.map (fun b => hashOf b.header) } ∧
      ∀ i b, bs[i]? = some b → b.header.height = w.confirmed.length + i := by
  intro bs
  induction bs with
  | nil =>
    intro w w'
    simp only [World.extend, List.map_nil, List.append_nil]
    constructor
    · intro h; cases h; exact ⟨rfl, by simp⟩
    · rintro ⟨rfl, _⟩; rfl
  | cons b bs ih =>
    intro w w'
    rw [World.extend]
    by_cases hb : b.header.height = w.confirmed.length
    · rw [if_neg (by simpa using hb), ih]
      simp only [List.map_cons, List.length_append, List.length_singleton, List.append_assoc,
        List.singleton_append]
      constructor
      · rintro ⟨h1, h2⟩
        refine ⟨h1, fun i c hc => ?_⟩
        cases i with
        | zero => simp at hc; subst hc; simpa using hb
        | succ i => have := h2 i c (by simpa using hc); omega
      · rintro ⟨h1, h2⟩
        refine ⟨h1, fun i c hc => ?_⟩
        have := h2 (i + 1) c (by simpa using hc)
        omega
    · rw [if_pos (by simpa using hb)]
      constructor
      · intro h; cases h
      · rintro ⟨_, h2⟩
        exact absurd (h2 0 b rfl) hb

theorem inv_restore {U : Header → Prop} {w w' : World S} (hi : Inv U w)
    (h5 : ∀ b ∈ w'.orphans, U b.header) (h6 : ∀ h ∈ w'.orphanHeaders, U h) : Inv U (w.restore w') :=
  ⟨hi.hdr, hi.link, hi.blk, hi.conf, hi.connected, hi.ne, hi.gen, hi.cand, h5, h6⟩

/-- Adding a known block without more work to the database. -/
theorem inv_addBlock {U : Header → Prop} {w : World S} (hi : Inv U w) {b : Block}
    (hk : w.headers (hashOf b.header) = some b.header)
    (hw : b.header.totalDifficulty ≤ w.work w.confirmed) : Inv U (w.addBlock b) := by
  refine ⟨hi.hdr, hi.link, fun x c e => ?_, hi.conf, hi.connected, hi.ne, hi.gen, hi.cand, hi.orphans,
    hi.orphanHeaders⟩
  change (if x = hashOf b.header then some b else w.blocks x) = some c at e
  split at e
  · rename_i hx
    injection e with e
    subst e
    exact ⟨by rw [hx]; exact hk, hw⟩
  · exact hi.blk x c e

theorem inv_addBlocks {U : Header → Prop} : ∀ (bs : List Block) {w : World S}, Inv U w →
    (∀ b ∈ bs, w.headers (hashOf b.header) = some b.header) →
    (∀ b ∈ bs, b.header.totalDifficulty ≤ w.work w.confirmed) →
    Inv U (bs.foldl World.addBlock w) ∧ (bs.foldl World.addBlock w).confirmed = w.confirmed ∧
      (bs.foldl World.addBlock w).headers = w.headers := by
  intro bs
  induction bs with
  | nil => intro w hi _ _; exact ⟨hi, rfl, rfl⟩
  | cons b bs ih =>
    intro w hi hk hw
    exact ih (inv_addBlock hi (hk b (by simp)) (hw b (by simp)))
      (fun c hc => hk c (by simp [hc])) (fun c hc => hw c (by simp [hc]))

/-- Consistency, no work lost, and another chain only for more work. -/
structure BlockStep (U : Header → Prop) (w w' : World S) : Prop where
  inv : Inv U w'
  work : w.work w.confirmed ≤ w'.work w'.confirmed
  moved : w'.confirmed = w.confirmed ∨ w.work w.confirmed < w'.work w'.confirmed

theorem BlockStep.refl {U : Header → Prop} {w : World S} (h : Inv U w) : BlockStep U w w := ⟨h, Nat.le_refl _, .inl rfl⟩

theorem HeaderStep.block {U : Header → Prop} {w w' : World S} (hi : Inv U w) (h : HeaderStep U w w') :
    BlockStep U w w' :=
  ⟨h.inv, Nat.le_of_eq (work_same hi h.added.grows h.added.confirmed).symm, .inl h.added.confirmed⟩

/-- The branch found by the walk. -/
theorem walkBlocks_branch {U : Header → Prop} (hU : OneHash U) {w : World S} (hi : Inv U w) :
    ∀ (fuel : Nat) (b : Block) (acc bs : List Block),
      (∀ x ∈ b :: acc, w.headers (hashOf x.header) = some x.header) →
      (∀ x ∈ b :: acc, x.header.height ≠ 0) →
      LinkedH b.header.prevHash ((b :: acc).map (·.header)) →
      w.walkBlocks fuel b acc = .ok (.reorg bs) →
      ∃ b0 rest, bs = b0 :: rest ∧ Branch w b0 rest ∧ bs.getLast? = (b :: acc).getLast? := by
  intro fuel
  induction fuel with
  | zero => intro b acc bs _ _ _ he; cases he
  | succ n ih =>
    intro b acc bs hk hp hl he
    rw [World.walkBlocks] at he
    split at he
    · rename_i hc
      injection he with he
      injection he with he
      subst he
      exact ⟨b, acc, rfl, ⟨hk, hp, hl, by simpa [onChain] using hc.2⟩, rfl⟩
    · rename_i hc
      split at he
      · injection he with he; cases he
      · rename_i p hp'
        have hb0 := hp b (by simp)
        have hnot : ¬ w.confirmed[b.header.height - 1]? = some b.header.prevHash := by
          intro h; exact hc ⟨hb0, by simpa [onChain] using h⟩
        rcases hi.link _ _ (hk b (by simp)) with h0 | ⟨q, q1, q2, _⟩
        · exact absurd h0 hb0
        have hq := hi.hdr _ _ q1
        have hpp : hashOf p.header = b.header.prevHash ∧ p.header = q := by
          rw [Option.or_eq_some_iff] at hp'
          rcases hp' with hp' | ⟨_, hp'⟩
          · have h1 := List.find?_some hp'
            simp only [decide_eq_true_eq] at h1
            have h2 := hi.orphans p (List.mem_of_find?_eq_some hp')
            exact ⟨h1.2, hU _ _ h2 hq.2 (by rw [h1.2, hq.1])⟩
          · obtain ⟨a, _⟩ := hi.blk _ _ hp'
            rw [q1] at a
            injection a with a
            subst a
            exact ⟨hq.1, rfl⟩
        have hkp : w.headers (hashOf p.header) = some p.header := by rw [hpp.1, q1, hpp.2]
        have hp0 : p.header.height ≠ 0 := by
          intro h0
          have := hi.gen _ _ hkp h0
          rw [hpp.2] at h0
          apply hnot
          rw [show b.header.height - 1 = 0 by omega, this, hpp.1]
        obtain ⟨b0, rest, r1, r2, r3⟩ := ih p (b :: acc) bs
          (fun x hx => by
            rcases List.mem_cons.mp hx with rfl | hx
            · exact hkp
            · exact hk x hx)
          (fun x hx => by
            rcases List.mem_cons.mp hx with rfl | hx
            · exact hp0
            · exact hp x hx)
          ⟨rfl, by rw [hpp.1]; exact hl⟩ he
        exact ⟨b0, rest, r1, r2, r3⟩

theorem handleReorg_step {U : Header → Prop} {R : Rules S} {w : World S} (hi : Inv U w) {b0 : Block}
    {rest : List Block} (hb : Branch w b0 rest) {w' : World S} {r : Res Unit}
    (he : w.handleReorg R (b0 :: rest) = (w', r)) (hr : r ≠ .ub) : BlockStep U w w' := by
  unfold World.handleReorg at he
  obtain ⟨last, hlast⟩ : ∃ l, (b0 :: rest).getLast? = some l := ⟨_, List.getLast?_eq_getLast_of_ne_nil (by simp)⟩
  simp only [hlast] at he
  split at he
  · cases he; exact .refl hi
  split at he
  · cases he; exact .refl hi
  · cases he; exact absurd rfl hr
  rename_i s hs
  have restored : ∀ {w1 : World S}, Applied ({ w with ledger := s } : World S) w1 (b0 :: rest) →
      BlockStep U w (w.restore w1) := fun {w1} h =>
    ⟨inv_restore hi (fun c hc => hi.orphans c (h.orphans c hc))
      (fun c hc => hi.orphanHeaders c (by rw [h.orphanHeaders] at hc; exact hc)), Nat.le_refl _, .inl rfl⟩
  split at he
  · rename_i w1 e1
    cases he
    exact restored (applyBlocks_applied _ e1)
  · cases he; exact absurd rfl hr
  · rename_i w1 e1
    have a := applyBlocks_applied _ e1
    have hconf : w1.confirmed = w.confirmed := a.confirmed
    have hheads : w1.headers = w.headers := a.headers
    split at he
    · rename_i hgt
      split at he
      · cases he; exact restored a
      rename_i hlen
      split at he
      · rename_i w2 e2
        cases he
        obtain ⟨f1, f2⟩ := (extend_ok _ _ _).mp e2
        have hl : b0.header.height ≤ w.confirmed.length := by rw [← hconf]; omega
        have hlt : (w1.confirmed.take b0.header.height).length = b0.header.height := by
          rw [List.length_take, hconf]; omega
        obtain ⟨k1, k2⟩ := inv_adopt (w' := w') hi hb hlast hl (fun i b e => by rw [f2 i b e, hlt])
          (by rw [f1]; exact hheads) (by rw [f1]; simp only [hconf]) (by rw [f1]; exact a.candidate)
          (by rw [f1]; exact a.blocks)
          (by rw [f1]; exact fun c hc => hi.orphans c (a.orphans c hc))
          (by rw [f1]; exact fun c hc => hi.orphanHeaders c (by
            have := a.orphanHeaders; simp only at this; rw [this] at hc; exact hc)) (by omega)
        exact ⟨k1, by omega, .inr (by omega)⟩
      · cases he; exact restored a
      · cases he; exact absurd rfl hr
    · rename_i hle
      cases he
      have h0 := restored a
      obtain ⟨k1, k2, k3⟩ := inv_addBlocks (b0 :: rest) h0.inv hb.known
        (fun b m => by
          have := branch_work hi rest b0 hb.known hb.pos hb.linked last hlast b m
          have h' : (w.restore w1).work (w.restore w1).confirmed = w.work w.confirmed := rfl
          rw [h']; omega)
      refine ⟨k1, ?_, .inl (by rw [k2]; rfl)⟩
      have := work_same (w' := (b0 :: rest).foldl World.addBlock (w.restore w1)) hi
        (fun x h e => by rw [k3]; exact e) (by rw [k2]; rfl)
      omega

theorem addOrphan_step {U : Header → Prop} {w : World S} (hi : Inv U w) {b : Block} (hu : U b.header) :
    BlockStep U w (w.addOrphan b) := by
  unfold World.addOrphan
  have h1 : Inv U (if (w.orphanHeader (hashOf b.header)).isSome then w else w.addOrphanHeader b.header) := by
    split
    · exact hi
    · exact inv_addOrphanHeader hi hu
  have h2 : (if (w.orphanHeader (hashOf b.header)).isSome then w else w.addOrphanHeader b.header).confirmed
      = w.confirmed := by split <;> rfl
  have h3 : (if (w.orphanHeader (hashOf b.header)).isSome then w else w.addOrphanHeader b.header).headers
      = w.headers := by split <;> rfl
  generalize (if (w.orphanHeader (hashOf b.header)).isSome then w else w.addOrphanHeader b.header) = w1 at *
  have hw1 : w1.work w1.confirmed = w.work w.confirmed := by unfold World.work; rw [h2, h3]
  simp only
  split
  · exact ⟨h1, by omega, .inl h2⟩
  · refine ⟨⟨h1.hdr, h1.link, h1.blk, h1.conf, h1.connected, h1.ne, h1.gen, h1.cand, fun c hc => ?_,
      h1.orphanHeaders⟩, Nat.le_of_eq hw1.symm, .inl h2⟩
    rcases List.mem_append.mp hc with hc | hc
    · exact h1.orphans c hc
    · simp at hc; subst hc; exact hu

theorem processInternal_step {U : Header → Prop} (hU : OneHash U) {R : Rules S} {w : World S} (hi : Inv U w)
    (fuel : Nat) {b : Block} (hu : U b.header) {w' : World S} {r : Res Status}
    (he : w.processInternal R fuel b = (w', r)) (hr : r ≠ .ub) : BlockStep U w w' := by
  unfold World.processInternal at he
  split at he
  · cases he; exact .refl hi
  rename_i hon
  split at he
  · cases he; exact .refl hi
  rcases hs : w.status fuel b with st | _ | _
  rotate_left
  · rw [hs] at he; cases he; exact .refl hi
  · rw [hs] at he; cases he; exact absurd rfl hr
  rw [hs] at he
  unfold World.status at hs
  have known : ∀ h, w.headers (hashOf b.header) = some h →
      w.headers (hashOf b.header) = some b.header ∧ b.header.height ≠ 0 := by
    intro h e
    have := hU _ _ (hi.hdr _ _ e).2 hu (hi.hdr _ _ e).1
    subst this
    refine ⟨e, fun h0 => hon ?_⟩
    have := hi.gen _ _ e h0
    simp [onChain, h0, this]
  cases st with
  | orphan =>
    simp only at he
    split at he
    · cases he; exact .refl hi
    · cases he; exact addOrphan_step hi hu
  | reorg bs =>
    split at hs
    · cases hs
    rename_i h hh
    split at hs
    · cases hs
    obtain ⟨hk, hp⟩ := known h hh
    obtain ⟨b0, rest, r1, r2, _⟩ := walkBlocks_branch hU hi fuel b [] bs (by simpa using hk) (by simpa using hp)
      ⟨rfl, trivial⟩ hs
    subst r1
    simp only at he
    rcases hx : w.handleReorg R (b0 :: rest) with ⟨w1, r1⟩
    rw [hx] at he
    cases r1 with
    | ok _ => cases he; exact handleReorg_step hi r2 hx (by simp)
    | throw => cases he; exact handleReorg_step hi r2 hx (by simp)
    | ub => cases he; exact absurd rfl hr
  | next =>
    split at hs
    · cases hs
    rename_i h hh
    split at hs
    · rename_i htip
      obtain ⟨hk, hp⟩ := known h hh
      simp only at he
      rcases hx : w.applyBlock R b with ⟨w1, r1⟩
      have a := applyBlock_applied hx
      have restored : BlockStep U w (w.restore w1) :=
        ⟨inv_restore hi (fun c hc => hi.orphans c (a.orphans c hc))
          (fun c hc => hi.orphanHeaders c (by rw [a.orphanHeaders] at hc; exact hc)), Nat.le_refl _, .inl rfl⟩
      rw [hx] at he
      cases r1 with
      | throw => cases he; exact restored
      | ub => cases he; exact absurd rfl hr
      | ok _ =>
        simp only at he
        split at he
        · rename_i w2 e2
          cases he
          obtain ⟨f1, f2⟩ := (extend_ok _ _ _).mp e2
          have hlen : b.header.height = w.confirmed.length := by
            have := f2 0 b rfl; rw [a.confirmed] at this; simpa using this
          rcases hi.link _ _ hk with h0 | ⟨p, p1, p2, p3⟩
          · exact absurd h0 hp
          have hwork : w.work w.confirmed = p.totalDifficulty := by
            unfold World.work
            simp only [htip, p1]
          have hfork : w.confirmed[b.header.height - 1]? = some b.header.prevHash := by
            rw [List.getLast?_eq_getElem?] at htip
            rw [hlen]; exact htip
          obtain ⟨k1, k2⟩ := inv_adopt (w' := w') (last := b) hi (b0 := b) (bs := [])
            ⟨by simpa using hk, by simpa using hp, ⟨rfl, trivial⟩, hfork⟩ rfl (by omega)
            (fun i c e => by
              cases i with
              | zero => simp at e; subst e; simp
              | succ i => simp at e)
            (by rw [f1]; exact a.headers)
            (by rw [f1]; simp only [a.confirmed]; rw [List.take_of_length_le (by omega)])
            (by rw [f1]; exact a.candidate) (by rw [f1]; exact a.blocks)
            (by rw [f1]; exact fun c hc => hi.orphans c (a.orphans c hc))
            (by rw [f1]; exact fun c hc => hi.orphanHeaders c (by
              have := a.orphanHeaders; rw [this] at hc; exact hc)) (by omega)
          exact ⟨k1, by omega, .inr (by omega)⟩
        · cases he; exact restored
        · cases he; exact absurd rfl hr
    · rename_i hne
      exfalso
      have : ∀ n (b : Block) acc, w.walkBlocks n b acc ≠ .ok .next := by
        intro n
        induction n with
        | zero => intro b acc h; cases h
        | succ n ih =>
          intro b acc h
          rw [World.walkBlocks] at h
          split at h
          · cases h
          · split at h
            · cases h
            · exact ih _ _ h
      exact this _ _ _ hs

theorem BlockStep.trans {U : Header → Prop} {a b c : World S} (h : BlockStep U a b) (h' : BlockStep U b c) :
    BlockStep U a c := ⟨h'.inv, Nat.le_trans h.work h'.work, by
  have h1 := h.work
  have h2 := h'.work
  rcases h.moved with e | e
  · rcases h'.moved with e' | e'
    · exact .inl (e'.trans e)
    · exact .inr (by omega)
  · exact .inr (by omega)⟩

theorem processBlock_step {U : Header → Prop} (hU : OneHash U) {R : Rules S} (hR : RulesSound U R) {w : World S}
    (hi : Inv U w) (fuel : Nat) {b : Block} (hu : U b.header) {w' : World S} {r : Res Status}
    (he : w.processBlock R fuel b = (w', r)) (hr : r ≠ .ub) : BlockStep U w w' := by
  unfold World.processBlock at he
  split at he
  · cases he; exact .refl hi
  rcases h1 : w.processHeader R fuel b.header with ⟨w1, r1⟩
  have s1 := (processHeader_step hU hR hi fuel hu h1).block hi
  rw [h1] at he
  cases r1 with
  | throw => cases he; exact s1
  | ub => cases he; exact absurd rfl hr
  | ok _ =>
    simp only at he
    split at he
    · cases he; exact s1
    · cases he; exact absurd rfl hr
    · exact s1.trans (processInternal_step hU s1.inv fuel hu he hr)

theorem removeOrphan_step {U : Header → Prop} {w : World S} (hi : Inv U w) (n : Nat) (x : Bytes) :
    BlockStep U w (w.removeOrphan n x) :=
  ⟨⟨hi.hdr, hi.link, hi.blk, hi.conf, hi.connected, hi.ne, hi.gen, hi.cand,
    fun b hb => hi.orphans b (List.mem_of_mem_eraseP hb), hi.orphanHeaders⟩, Nat.le_refl _, .inl rfl⟩

/-- The headers an event carries were all seen, and a batch of headers is linked. -/
def Event.Proper (U : Header → Prop) : Event → Prop
  | .header h => U h
  | .headers hs => (∀ h ∈ hs, U h) ∧ ∃ x, LinkedH x hs
  | .block b => U b.header
  | .nextOrphan => True

theorem step_step {U : Header → Prop} (hU : OneHash U) {R : Rules S} (hR : RulesSound U R) {w w' : World S}
    (hi : Inv U w) (fuel : Nat) {e : Event} (hp : e.Proper U) (he : w.step R fuel e = some w') :
    BlockStep U w w' := by
  unfold World.step at he
  cases e with
  | header h =>
    simp only at he
    split at he
    · cases he
    · rename_i w1 r1 hn e1
      cases he
      exact (processHeader_step hU hR hi fuel hp e1).block hi
  | headers hs =>
    simp only at he
    split at he
    · cases he
    · rename_i w1 r1 hn e1
      cases he
      obtain ⟨h1, x, h2⟩ := hp
      exact (processHeaders_step hU hR hi h2 h1 e1).block hi
  | block b =>
    simp only at he
    split at he
    · cases he
    · rename_i w1 r1 hn e1
      cases he
      exact processBlock_step hU hR hi fuel hp e1 hn
  | nextOrphan =>
    simp only at he
    split at he
    · cases he
    · rename_i w1 r1 hn e1
      cases he
      unfold World.processNextOrphan at e1
      split at e1
      · cases e1; exact .refl hi
      split at e1
      · cases e1; exact .refl hi
      split at e1
      · cases e1; exact .refl hi
      rename_i b hb
      have hu : U b.header := hi.orphans b (List.mem_of_find?_eq_some hb)
      split at e1
      · rename_i w2 s2 e2
        cases e1
        exact processBlock_step hU hR hi fuel hu e2 (by simp)
      · rename_i w2 e2
        cases e1
        have := processBlock_step hU hR hi fuel hu e2 (by simp)
        exact this.trans (removeOrphan_step this.inv _ _)
      · cases e1; exact absurd rfl hn

end Verif.BC
