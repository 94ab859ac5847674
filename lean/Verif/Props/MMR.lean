import Verif.MMR.HashLemmas

/-!
# C19, C20, C21: appending, root and rewinding of a Merkle mountain range

Specification (`Verif/MMR/HashSpec.lean`): `SubtreeL s n h` says that a perfect subtree of height `h`
starts at position `s` with leaf number `n`; `treeHash` is its hash; `rangeRoot` bags the perfect
trees of a range.  `H` is Blake2b.  `2^64` bounds are the width of C++ positions.
-/
namespace Verif.Props

open Verif Verif.MMR

/-- A list of leaves as a function. -/
def leafOf (ls : List Bytes) : Nat → Bytes := fun i => ls.getD i []

/-- **C19.** Appending any sequence of leaves to an empty range succeeds; the hash file then has the
size of the range with that many leaves, and holds at the root position of every subtree that is
complete the hash of that subtree; every position is such a root. -/
theorem append_stores_hashes (H : Bytes → Bytes) (ls : List Bytes)
    (hb : leafPos ls.length < 2 ^ 64) :
    ∃ file, appendAll H [] ls = .ok file ∧ file.length = rangeSize ls.length ∧
      (∀ s n h, SubtreeL s n h → n + 2 ^ h ≤ ls.length →
        file[rootPos s h]? = some (treeHash H (leafOf ls) h s n)) ∧
      (∀ p, p < file.length → ∃ s n h, SubtreeL s n h ∧ n + 2 ^ h ≤ ls.length ∧ p = rootPos s h) := by
  obtain ⟨ext, h1, h2, h3⟩ := appendAll_good (H := H) (leaf := leafOf ls) ls (file := []) (n := 0)
    (good_nil H _) (by simp [leafPos_zero]) (by intro i _; simp [leafOf]) (by simpa using hb)
  simp only [List.nil_append, Nat.zero_add] at h1 h2 h3
  refine ⟨ext, h1, by rw [h2, rangeSize_eq], ?_, ?_⟩
  · intro s n h hs hle
    exact h3 s n h hs (by rw [h2]; exact rootPos_lt_leafPos hs hle)
  · intro p hp
    obtain ⟨s, n, hs, e⟩ := isNode_subtreeL p
    exact ⟨s, n, _, hs, hs.range (by rw [← e, ← h2]; exact hp), e⟩

/-- **C19.** Appending never changes a hash already stored: the file only grows at its end. -/
theorem append_is_extension (H : Bytes → Bytes) (ls ms : List Bytes)
    (hb : leafPos (ls.length + ms.length) < 2 ^ 64) :
    ∃ file ext, appendAll H [] ls = .ok file ∧ appendAll H file ms = .ok (file ++ ext) ∧
      appendAll H [] (ls ++ ms) = .ok (file ++ ext) := by
  have hle : leafPos ls.length ≤ leafPos (ls.length + ms.length) := by
    rcases Nat.eq_zero_or_pos ms.length with h | h
    · simp [h]
    · exact Nat.le_of_lt (leafPos_strictMono (by omega))
  obtain ⟨file, h1, h2, h3⟩ := appendAll_good (H := H) (leaf := leafOf (ls ++ ms)) ls (file := [])
    (n := 0) (good_nil H _) (by simp [leafPos_zero])
    (by intro i hi
        simp only [leafOf, Nat.zero_add]
        rw [List.getD_eq_getElem _ _ (by simp; omega), List.getD_eq_getElem _ _ hi,
          List.getElem_append_left hi])
    (by simp only [Nat.zero_add]; omega)
  simp only [List.nil_append, Nat.zero_add] at h1 h2 h3
  obtain ⟨ext, g1, g2, g3⟩ := appendAll_good (H := H) (leaf := leafOf (ls ++ ms)) ms h3 h2
    (by intro i hi
        simp only [leafOf]
        rw [List.getD_eq_getElem _ _ (by simp; omega), List.getD_eq_getElem _ _ hi,
          List.getElem_append_right (by omega)]
        simp) hb
  refine ⟨file, ext, h1, g1, ?_⟩
  have : ∀ (xs : List Bytes) (f : List Bytes),
      appendAll H f (xs ++ ms) = (appendAll H f xs >>= fun g => appendAll H g ms) := by
    intro xs
    induction xs with
    | nil => intro f; rfl
    | cons x xs ih =>
      intro f
      simp only [List.cons_append, appendAll]
      cases addHashes H none f x with
      | ok y => simp only [Res.ok_bind]; exact ih y
      | throw => rfl
      | ub => rfl
  rw [this, h1, Res.ok_bind, g1]

/-- **C20.** The computed root is the root of the specification (no digest that occurs being the
all-zero string, which the code uses as a marker). -/
theorem root_correct (H : Bytes → Bytes) (ls : List Bytes) (hb : leafPos ls.length < 2 ^ 64)
    (hz : ∀ x ∈ rangeInputs H (leafOf ls) ls.length, H x ≠ zeroHash) :
    ∃ file, appendAll H [] ls = .ok file ∧
      root H none file file.length = .ok (rangeRoot H (leafOf ls) ls.length) := by
  obtain ⟨ext, h1, h2, h3⟩ := appendAll_good (H := H) (leaf := leafOf ls) ls (file := []) (n := 0)
    (good_nil H _) (by simp [leafPos_zero]) (by intro i _; simp [leafOf]) (by simpa using hb)
  simp only [List.nil_append, Nat.zero_add] at h1 h2 h3
  exact ⟨ext, h1, by rw [h2]; exact root_good h3 (by omega) hb hz⟩

theorem rangeRoot_injective {H : Bytes → Bytes} (hlen : ∀ x, (H x).length = 32) {f g : Nat → Bytes}
    {N : Nat} {S : Bytes → Prop} (hinj : ∀ x y, S x → S y → H x = H y → x = y)
    (hf : ∀ x ∈ rangeInputs H f N, S x) (hg : ∀ x ∈ rangeInputs H g N, S x)
    (e : rangeRoot H f N = rangeRoot H g N) : ∀ i, i < N → f i = g i := by
  have hl : ∀ f : Nat → Bytes, ∀ x ∈ peakHashes H f N, x.length = 32 := by
    intro f x hx
    simp only [peakHashes, List.mem_map] at hx
    obtain ⟨t, _, rfl⟩ := hx
    obtain ⟨y, _, e⟩ := treeHash_mem_inputs H f t.2.2 t.1 t.2.1
    rw [e]; exact hlen y
  have hp : peakHashes H f N = peakHashes H g N :=
    bag_injective hinj _ _ (by simp [peakHashes]) (hl f) (hl g)
      (fun x hx => hf x (by rw [rangeInputs]; exact List.mem_append_right _ hx))
      (fun x hx => hg x (by rw [rangeInputs]; exact List.mem_append_right _ hx)) e
  intro i hi
  obtain ⟨t, ht, h1, h2⟩ := peaksSpec_cover (Nat.lt_two_pow_self (n := N)) (s := 0) (n := 0) i
    (by omega) (by omega)
  have heq : treeHash H f t.2.2 t.1 t.2.1 = treeHash H g t.2.2 t.1 t.2.1 := by
    have := List.map_inj_left.mp hp t ht
    exact this
  have := treeHash_injective hlen hinj t.2.2 t.1 t.2.1
    (fun x hx => hf x (by rw [rangeInputs]
                          exact List.mem_append_left _ (List.mem_flatMap.mpr ⟨t, ht, hx⟩)))
    (fun x hx => hg x (by rw [rangeInputs]
                          exact List.mem_append_left _ (List.mem_flatMap.mpr ⟨t, ht, hx⟩)))
    heq (i - t.2.1) (by omega)
  rw [show t.2.1 + (i - t.2.1) = i by omega] at this
  exact this

/-- **C20.** Equal roots of equally long leaf sequences mean equal leaves in equal order, when the
hash has no collision among the byte strings actually hashed for the two roots (and none of these
digests is all zero). -/
theorem root_commits (H : Bytes → Bytes) (hlen : ∀ x, (H x).length = 32) (ls ms : List Bytes)
    (hn : ls.length = ms.length) (hb : leafPos ls.length < 2 ^ 64)
    (hinj : ∀ x y, x ∈ rangeInputs H (leafOf ls) ls.length ++ rangeInputs H (leafOf ms) ms.length →
      y ∈ rangeInputs H (leafOf ls) ls.length ++ rangeInputs H (leafOf ms) ms.length →
      H x = H y → x = y)
    (hz : ∀ x ∈ rangeInputs H (leafOf ls) ls.length ++ rangeInputs H (leafOf ms) ms.length,
      H x ≠ zeroHash)
    (f g : List Bytes) (hf : appendAll H [] ls = .ok f) (hg : appendAll H [] ms = .ok g)
    (hr : root H none f f.length = root H none g g.length) : ls = ms := by
  obtain ⟨f', h1, h2⟩ := root_correct H ls hb (fun x hx => hz x (List.mem_append_left _ hx))
  obtain ⟨g', h3, h4⟩ := root_correct H ms (by rw [← hn]; exact hb)
    (fun x hx => hz x (List.mem_append_right _ hx))
  rw [hf] at h1; rw [hg] at h3
  injection h1 with h1; injection h3 with h3
  subst h1; subst h3
  rw [h2, h4] at hr
  injection hr with hr
  rw [← hn] at hr hinj
  have := rangeRoot_injective hlen
    (S := fun x => x ∈ rangeInputs H (leafOf ls) ls.length ++ rangeInputs H (leafOf ms) ls.length)
    hinj (fun x hx => List.mem_append_left _ hx) (fun x hx => List.mem_append_right _ hx) hr
  apply List.ext_getElem hn
  intro i h1 h2
  have h3 := this i h1
  simp only [leafOf] at h3
  rw [List.getD_eq_getElem _ _ h1, List.getD_eq_getElem _ _ h2] at h3
  exact h3

/-- **C20.** The root of a past size, computed after any number of further appends, is the root at
that time. -/
theorem root_historical (H : Bytes → Bytes) (ls ms : List Bytes)
    (hb : leafPos (ls.length + ms.length) < 2 ^ 64) (f g : List Bytes)
    (hf : appendAll H [] ls = .ok f) (hg : appendAll H f ms = .ok g) :
    root H none g f.length = root H none f f.length := by
  obtain ⟨f', ext, h1, h2, _⟩ := append_is_extension H ls ms hb
  rw [hf] at h1; injection h1 with h1; subst h1
  rw [hg] at h2; injection h2 with h2; subst h2
  have hle : leafPos ls.length < 2 ^ 64 := by
    rcases Nat.eq_zero_or_pos ms.length with h | h
    · simpa [h] using hb
    · have := leafPos_strictMono (show ls.length < ls.length + ms.length by omega)
      omega
  obtain ⟨f2, k1, k2, _⟩ := append_stores_hashes H ls hle
  rw [hf] at k1; injection k1 with k1; subst k1
  rw [rangeSize_eq] at k2
  unfold root
  rw [k2]
  split
  · rfl
  · apply rootLoop_append
    intro p hp
    rw [List.mem_reverse, peakIndices_eq hle, List.mem_map] at hp
    obtain ⟨t, ht, rfl⟩ := hp
    have := rangePeaks_mem ht
    rw [k2]
    exact rootPos_lt_leafPos this.1 this.2

/-- A kernel MMR built from scratch by applying kernels. -/
def kmmrOf (H : Bytes → Bytes) (ks : List Bytes) : Res KMMR := KMMR.applyAll H ⟨[], []⟩ ks

theorem applyAll_eq (H : Bytes → Bytes) : ∀ (ks : List Bytes) (m : KMMR),
    m.applyAll H ks = (appendAll H m.hashes ks >>= fun hs => .ok ⟨hs, m.data ++ ks⟩) := by
  intro ks
  induction ks with
  | nil => intro m; simp [KMMR.applyAll, appendAll]
  | cons k ks ih =>
    intro m
    simp only [KMMR.applyAll, appendAll, KMMR.apply]
    cases addHashes H none m.hashes k with
    | ok hs => simp only [Res.ok_bind, Res.pure_eq, ih, List.append_assoc, List.singleton_append]
    | throw => rfl
    | ub => rfl

/-- **C19, kernel data.** After applying kernels, kernel `i` is read back at index `i`, and the
number of stored kernels is the number applied. -/
theorem kernel_data (H : Bytes → Bytes) (ks : List Bytes) (hb : leafPos ks.length < 2 ^ 64) :
    ∃ m, kmmrOf H ks = .ok m ∧ m.data.length = ks.length ∧
      ∀ i (h : i < ks.length), m.at i = .ok ks[i] := by
  obtain ⟨f, h1, _⟩ := append_stores_hashes H ks hb
  refine ⟨⟨f, ks⟩, by simp [kmmrOf, applyAll_eq, h1], rfl, ?_⟩
  intro i h
  simp [KMMR.at, fileAt, h]

/-- **C21.** Rewinding a kernel MMR to an earlier kernel count gives exactly the MMR built from the
first so many kernels (hence the same size, kernels, hashes and root). -/
theorem kernel_rewind (H : Bytes → Bytes) (ks ms : List Bytes)
    (hb : leafPos (ks.length + ms.length) < 2 ^ 64) :
    ∃ m m', kmmrOf H ks = .ok m ∧ kmmrOf H (ks ++ ms) = .ok m' ∧ m'.rewind ks.length = .ok m := by
  obtain ⟨f, ext, h1, _, h3⟩ := append_is_extension H ks ms hb
  have hle : leafPos ks.length < 2 ^ 64 := by
    rcases Nat.eq_zero_or_pos ms.length with h | h
    · simpa [h] using hb
    · have := leafPos_strictMono (show ks.length < ks.length + ms.length by omega)
      omega
  obtain ⟨f2, k1, k2, _⟩ := append_stores_hashes H ks hle
  rw [h1] at k1; injection k1 with k1; subst k1
  rw [rangeSize_eq] at k2
  refine ⟨⟨f, ks⟩, ⟨f ++ ext, ks ++ ms⟩, by simp [kmmrOf, applyAll_eq, h1],
    by simp [kmmrOf, applyAll_eq, h3], ?_⟩
  simp only [KMMR.rewind, fileRewind, ← k2]
  rw [if_neg (by simp), if_neg (by simp)]
  simp

/-- **C21.** The same for the header MMR; moreover the header root at each past height stays what it
was, whatever is appended after it. -/
theorem header_rewind (H : Bytes → Bytes) (cs ds : List Bytes)
    (hb : leafPos (cs.length + ds.length) < 2 ^ 64) :
    ∃ f f', appendAll H [] cs = .ok f ∧ appendAll H [] (cs ++ ds) = .ok f' ∧
      headerRewind f' cs.length = .ok f ∧
      (0 < cs.length → headerRoot H f' (cs.length - 1) = headerRoot H f (cs.length - 1)) := by
  obtain ⟨f, ext, h1, h2, h3⟩ := append_is_extension H cs ds hb
  have hle : leafPos cs.length < 2 ^ 64 := by
    rcases Nat.eq_zero_or_pos ds.length with h | h
    · simpa [h] using hb
    · have := leafPos_strictMono (show cs.length < cs.length + ds.length by omega)
      omega
  obtain ⟨f2, k1, k2, _⟩ := append_stores_hashes H cs hle
  rw [h1] at k1; injection k1 with k1; subst k1
  rw [rangeSize_eq] at k2
  refine ⟨f, f ++ ext, h1, h3, ?_, ?_⟩
  · unfold headerRewind fileRewind
    by_cases he : leafPos cs.length = (f ++ ext).length
    · rw [if_neg (by simp [he])]
      have : ext = [] := by
        rw [List.length_append, ← k2] at he
        exact List.length_eq_zero_iff.mp (by omega)
      simp [this]
    · rw [if_pos he, ← k2, if_neg (by simp)]
      simp
  · intro h0
    have := root_historical H cs ds hb f (f ++ ext) h1 h2
    rw [k2] at this
    simp only [headerRoot, show cs.length - 1 + 1 = cs.length by omega]
    exact this

/-- Rewinding past the end of the data is refused. -/
theorem kernel_rewind_forward_refused (m : KMMR) (n : Nat) (h : m.data.length < n) :
    ∀ m', m.rewind n ≠ .ok m' := by
  intro m' e
  simp only [KMMR.rewind, fileRewind] at e
  split at e
  · simp at e
  · simp at e

/-! ## The hypotheses are met by concrete cases -/

/-- A toy 32-byte digest, for checking that the hypotheses can be met. -/
def toyHash (x : Bytes) : Bytes :=
  List.replicate 28 1 ++ beBytes 4 (x.foldl (fun a b => (a * 31 + b.toNat) % 4294967291) 7)

/-- Two different sequences of three leaves meet the collision and non-zero hypotheses of
`root_commits`. -/
example :
    let ls : List Bytes := [[1, 2], [3], [4, 5]]
    let ms : List Bytes := [[1, 2], [3], [4, 6]]
    let S := rangeInputs toyHash (leafOf ls) 3 ++ rangeInputs toyHash (leafOf ms) 3
    (∀ x ∈ S, ∀ y ∈ S, toyHash x = toyHash y → x = y) ∧ (∀ x ∈ S, toyHash x ≠ zeroHash) ∧
      S.length = 10 := by
  decide +kernel

example : ∀ x, (toyHash x).length = 32 := by intro x; simp [toyHash]

end Verif.Props
