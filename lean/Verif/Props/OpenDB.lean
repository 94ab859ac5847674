import Verif.Chain.OpenDB
import Mathlib.Data.List.Nodup

/-!
# C130: opening the block database
-/
namespace Verif.Props
open Verif Verif.Chain

/-! ## Spec -/

/-- A database as RocksDB leaves it: the default family came first. -/
def Made {α : Type} (disk : Option (Families α)) : Prop := ∀ fs, disk = some fs → (fs.map (·.1)).head? = some "default"

/-- The families there are, none if there is no database. -/
def names? {α : Type} (disk : Option (Families α)) : List String := (disk.getD []).map (·.1)

/-- A way to name tables: the default one first, none twice. -/
structure TableNames (names : List String) : Prop where
  head : names.head? = some "default"
  once : names.Nodup

/-- What is stored under a name; nothing stored is an empty table. -/
def contentOf {α : Type} (empty : α) (disk : Option (Families α)) (name : String) : α := ((disk.getD []).lookup name).getD empty

/-! ## Lemmas -/

variable {α : Type}

private theorem match_names : ∀ ns fs : List String, matchNames ns fs = if fs <+: ns then .ok fs else .throw
  | ns, [] => by rw [matchNames, if_pos (List.nil_prefix)]
  | [], f :: fs => by rw [matchNames, if_neg (by simp)]
  | n :: ns, f :: fs => by
    rw [matchNames, match_names ns fs]
    by_cases h : n = f
    · subst h
      rw [if_neg (by simp)]
      by_cases hp : fs <+: ns
      · rw [if_pos hp, if_pos (by simpa using hp)]; rfl
      · rw [if_neg hp, if_neg (by simpa using hp)]; rfl
    · rw [if_pos h, if_neg]
      rw [List.cons_prefix_cons]
      exact fun x => h x.1.symm

private theorem descriptors {names : List String} (hn : TableNames names) {fs : Families α} (hd : (fs.map (·.1)).head? = some "default") :
    createDescriptors names (some fs) = if fs.map (·.1) <+: names then .ok (fs.map (·.1)) else .throw := by
  obtain ⟨ns, rfl⟩ : ∃ ns, names = "default" :: ns := by
    have := hn.head
    cases names with
    | nil => cases this
    | cons a l => cases this; exact ⟨l, rfl⟩
  obtain ⟨ms, hm⟩ : ∃ ms, fs.map (·.1) = "default" :: ms := by
    cases h : fs.map (·.1) with
    | nil => rw [h] at hd; cases hd
    | cons a l => rw [h] at hd; cases hd; exact ⟨l, rfl⟩
  have hl : fs.length = ms.length + 1 := by rw [← List.length_map (f := (·.1)), hm]; rfl
  rw [createDescriptors, hm]
  by_cases hlen : fs.length > ("default" :: ns).length
  · simp only [if_pos hlen]
    rw [if_neg]
    intro h
    have := h.length_le
    simp only [List.length_cons] at this hlen
    omega
  · simp only [if_neg hlen]
    rw [List.drop_one, List.drop_one, List.tail_cons, List.tail_cons, match_names]
    by_cases hp : ms <+: ns
    · rw [if_pos hp, if_pos (by simpa using hp)]; rfl
    · rw [if_neg hp, if_neg (by simpa using hp)]; rfl

private theorem idx_range (l : List String) (h : l.Nodup) : (l.map fun n => l.idxOf n) = List.range l.length := by
  apply List.ext_getElem
  · simp
  · intro i h1 h2
    simp only [List.length_map] at h1
    simp [h.idxOf_getElem]

private theorem rocks {l : List String} (h : l.Nodup) {empty : α} {fs : Families α} (hf : fs.map (·.1) = l) :
    rocksOpen empty (some fs) l = .ok (List.range l.length, fs) := by
  subst hf
  rw [rocksOpen]
  rw [if_pos ⟨fun f hf => List.mem_map.2 ⟨f, hf, rfl⟩, fun n hn => hn⟩, idx_range _ h]

private theorem tables_old {empty : α} {bs : List String} {fs : Families α} : ∀ (as : List String) (j : Nat),
    createTables empty (as ++ bs) (List.range' j as.length) fs =
      (createTables empty bs [] fs >>= fun r => .ok (as.zipIdx j ++ r.1, r.2))
  | [], j => by
    simp only [List.nil_append, List.length_nil, List.range'_zero, List.zipIdx_nil]
    cases createTables empty bs [] fs <;> rfl
  | a :: as, j => by
    rw [List.cons_append, List.length_cons, List.range'_succ, createTables, tables_old as (j + 1)]
    cases createTables empty bs [] fs <;> rfl

private theorem tables_new {empty : α} : ∀ (bs : List String) (fs : Families α), (fs.map (·.1) ++ bs).Nodup →
    createTables empty bs [] fs = .ok (bs.zipIdx fs.length, fs ++ bs.map fun n => (n, empty))
  | [], fs, _ => by simp [createTables]
  | b :: bs, fs, h => by
    have hb : b ∉ fs.map (·.1) := fun hb => (List.nodup_append.1 h).2.2 b hb b (by simp) rfl
    rw [createTables, if_neg hb, tables_new bs (fs ++ [(b, empty)]) (by simpa using h)]
    simp [Res.ok_bind, Res.pure_eq, List.zipIdx_cons]

private theorem prefix_split {l names : List String} (h : l <+: names) : names = l ++ names.drop l.length := by
  obtain ⟨t, rfl⟩ := h
  simp

private theorem open_prefix {names : List String} (hn : TableNames names) {empty : α} {fs : Families α}
    (hd : (fs.map (·.1)).head? = some "default") (hp : fs.map (·.1) <+: names) :
    openTables empty names (some fs) = .ok (names.zipIdx, fs ++ (names.drop fs.length).map fun n => (n, empty)) := by
  have hs := prefix_split hp
  have hnd : (fs.map (·.1)).Nodup := (hp.sublist).nodup hn.once
  rw [List.length_map] at hs
  rw [openTables, descriptors hn hd, if_pos hp, Res.ok_bind, rocks hnd rfl, Res.ok_bind, List.length_map]
  have h1 := tables_old (empty := empty) (fs := fs) (bs := names.drop fs.length) (fs.map (·.1)) 0
  rw [List.length_map, ← List.range_eq_range', ← hs] at h1
  rw [h1, tables_new _ _ (by rw [← hs]; exact hn.once), Res.ok_bind]
  have h2 : names.zipIdx = (fs.map (·.1)).zipIdx ++ (names.drop fs.length).zipIdx fs.length := by
    conv => lhs; rw [hs]
    rw [List.zipIdx_append]
    simp
  rw [h2]

private theorem open_fresh {names : List String} (hn : TableNames names) {empty : α} :
    openTables empty names none = openTables empty names (some [("default", empty)]) := by
  obtain ⟨ns, rfl⟩ : ∃ ns, names = "default" :: ns := by
    have := hn.head
    cases names with
    | nil => cases this
    | cons a l => cases this; exact ⟨l, rfl⟩
  rw [openTables, openTables, descriptors hn rfl, if_pos (by simp)]
  rfl

/-- What a database that does not exist becomes before anything else. -/
private def atLeast (empty : α) (disk : Option (Families α)) : Families α := disk.getD [("default", empty)]

private theorem open_any {names : List String} (hn : TableNames names) {empty : α} {disk : Option (Families α)} (hm : Made disk)
    (hp : names? disk <+: names) :
    openTables empty names disk =
      .ok (names.zipIdx, atLeast empty disk ++ (names.drop (atLeast empty disk).length).map fun n => (n, empty)) := by
  cases disk with
  | some fs => exact open_prefix hn (hm fs rfl) hp
  | none =>
    rw [open_fresh hn, open_prefix hn rfl]
    · rfl
    · have := hn.head
      cases names with
      | nil => cases this
      | cons a l => cases this; simp

private theorem find_table (n : String) : ∀ (F : Families α) (j : Nat),
    (((F.map (·.1)).zipIdx j).find? (·.1 = n) = none ∧ F.lookup n = none) ∨
      ∃ i a, ((F.map (·.1)).zipIdx j).find? (·.1 = n) = some (n, j + i) ∧ F[i]? = some (n, a) ∧ F.lookup n = some a ∧
        ∀ (g : α → α) m, (F.modify i fun f => (f.1, g f.2)).lookup m = if m = n then some (g a) else F.lookup m
  | [], j => .inl ⟨rfl, rfl⟩
  | (x, a) :: F, j => by
    by_cases h : x = n
    · subst h
      refine .inr ⟨0, a, by simp [List.zipIdx_cons], rfl, by simp, fun g m => ?_⟩
      by_cases hm : m = x
      · subst hm; simp
      · have : (m == x) = false := by simpa using hm
        simp [hm, List.lookup, this]
    · have hx : (n == x) = false := by simpa using fun e => h e.symm
      rcases find_table n F (j + 1) with ⟨h1, h2⟩ | ⟨i, b, h1, h2, h3, h4⟩
      · exact .inl ⟨by simp [List.zipIdx_cons, h, h1], by simp [List.lookup, hx, h2]⟩
      · refine .inr ⟨i + 1, b, ?_, ?_, ?_, fun g m => ?_⟩
        · simp only [List.map_cons, List.zipIdx_cons]
          rw [List.find?_cons_of_neg (by simpa using h), h1]
          congr 2; omega
        · simpa using h2
        · simp [List.lookup, hx, h3]
        · have := h4 g m
          simp only [List.modify_succ_cons, List.lookup]
          by_cases hm : m = n
          · subst hm
            rw [hx, this, if_pos rfl]
          · rw [if_neg hm] at this ⊢
            rw [this]

private theorem lookup_rest (empty : α) (n : String) : ∀ (F : Families α) (ms : List String), n ∈ F.map (·.1) ++ ms →
    (F ++ ms.map fun m => (m, empty)).lookup n = some ((F.lookup n).getD empty)
  | [], [], h => by cases h
  | [], m :: ms, h => by
    by_cases e : n = m
    · subst e; simp
    · have : (n == m) = false := by simpa using e
      have ih := lookup_rest empty n [] ms (by simpa [e] using h)
      simpa [List.lookup, this] using ih
  | (x, a) :: F, ms, h => by
    by_cases e : n = x
    · subst e; simp
    · have : (n == x) = false := by simpa using e
      have ih := lookup_rest empty n F ms (by simpa [e] using h)
      simpa [List.lookup, this] using ih

private theorem opened_names {names : List String} (hn : TableNames names) {empty : α} {disk : Option (Families α)} (hm : Made disk)
    (hp : names? disk <+: names) :
    (atLeast empty disk).map (·.1) ++ names.drop (atLeast empty disk).length = names ∧
      ∀ n, contentOf empty disk n = ((atLeast empty disk).lookup n).getD empty := by
  cases disk with
  | some fs =>
    have := prefix_split hp
    refine ⟨?_, fun n => rfl⟩
    simp only [names?, Option.getD_some, List.length_map] at this
    exact this.symm
  | none =>
    have := hn.head
    cases names with
    | nil => cases this
    | cons a l =>
      cases this
      refine ⟨rfl, fun n => ?_⟩
      simp only [contentOf, atLeast, Option.getD_none, List.lookup]
      split <;> rfl

/-! ## Theorems -/

/-- **C130**: a database whose tables are the first of those wanted, be it by an older version, cut short or not there at all, is opened; each
table wanted is there and holds what was stored under its name, and nothing else. -/
theorem open_keeps_tables (names : List String) (hn : TableNames names) (empty : α) (disk : Option (Families α)) (hm : Made disk)
    (hp : names? disk <+: names) :
    ∃ tables fs, openTables empty names disk = .ok (tables, fs) ∧ fs.map (·.1) = names ∧
      ∀ n, readTable tables fs n = if n ∈ names then .ok (contentOf empty disk n) else .throw := by
  obtain ⟨h1, h2⟩ := opened_names (empty := empty) hn hm hp
  have hF : (atLeast empty disk ++ (names.drop (atLeast empty disk).length).map fun n => (n, empty)).map (·.1) = names := by
    rw [List.map_append, List.map_map]
    conv => rhs; rw [← h1]
    simp [Function.comp_def]
  refine ⟨_, _, open_any hn hm hp, hF, fun n => ?_⟩
  rcases find_table n (atLeast empty disk ++ (names.drop (atLeast empty disk).length).map fun n => (n, empty)) 0 with ⟨g1, g2⟩ | ⟨i, a, g1, g2, g3, -⟩
  · rw [hF] at g1
    have : n ∉ names := by
      intro hin
      have := lookup_rest empty n (atLeast empty disk) (names.drop (atLeast empty disk).length) (by rw [h1]; exact hin)
      rw [this] at g2; cases g2
    rw [if_neg this, readTable, getTable, g1]
    rfl
  · rw [hF] at g1
    have hin : n ∈ names := by
      rw [← hF]
      exact List.mem_map.2 ⟨(n, a), List.mem_of_getElem? g2, rfl⟩
    have := lookup_rest empty n (atLeast empty disk) (names.drop (atLeast empty disk).length) (by rw [h1]; exact hin)
    rw [this] at g3
    rw [if_pos hin, readTable, getTable, g1]
    simp only [Res.ok_bind, Nat.zero_add, g2]
    rw [h2, Option.some.inj g3]

/-- **C130**: a database with other tables, with more of them or in another order, is refused. -/
theorem open_refuses (names : List String) (hn : TableNames names) (empty : α) (disk : Option (Families α)) (hm : Made disk)
    (hp : ¬ names? disk <+: names) : openTables empty names disk = .throw := by
  cases disk with
  | none => exact absurd List.nil_prefix hp
  | some fs => rw [openTables, descriptors hn (hm fs rfl), if_neg (show ¬ fs.map (·.1) <+: names from hp)]; rfl

private theorem some_old {empty : α} {bs : List String} {fs : Families α} {k : Nat} : ∀ (as : List String) (j : Nat),
    createSome empty k (as ++ bs) (List.range' j as.length) fs = createSome empty k bs [] fs
  | [], j => rfl
  | a :: as, j => by
    rw [List.cons_append, List.length_cons, List.range'_succ, createSome, some_old as (j + 1)]

private theorem some_new {empty : α} : ∀ (k : Nat) (bs : List String) (fs : Families α), (fs.map (·.1) ++ bs).Nodup →
    createSome empty k bs [] fs = fs ++ (bs.take k).map fun n => (n, empty)
  | 0, [], fs, _ => by simp [createSome]
  | 0, _ :: _, fs, _ => by simp [createSome]
  | k + 1, [], fs, _ => by simp [createSome]
  | k + 1, b :: bs, fs, h => by
    have hb : b ∉ fs.map (·.1) := fun hb => (List.nodup_append.1 h).2.2 b hb b (by simp) rfl
    rw [createSome, if_neg hb, some_new k bs (fs ++ [(b, empty)]) (by simpa using h)]
    simp

private theorem cut_short {names : List String} (hn : TableNames names) {empty : α} {k : Nat} {disk : Option (Families α)} (hm : Made disk)
    (hp : names? disk <+: names) :
    openCutShort empty k names disk =
      some (atLeast empty disk ++ ((names.drop (atLeast empty disk).length).take k).map fun n => (n, empty)) := by
  have main : ∀ fs : Families α, (fs.map (·.1)).head? = some "default" → fs.map (·.1) <+: names →
      openCutShort empty k names (some fs) = some (fs ++ ((names.drop fs.length).take k).map fun n => (n, empty)) := by
    intro fs hd hp
    have hs := prefix_split hp
    have hnd : (fs.map (·.1)).Nodup := (hp.sublist).nodup hn.once
    rw [List.length_map] at hs
    simp only [openCutShort, descriptors hn hd, if_pos hp, rocks hnd rfl, List.length_map]
    have h1 := some_old (empty := empty) (fs := fs) (k := k) (bs := names.drop fs.length) (fs.map (·.1)) 0
    rw [List.length_map, ← List.range_eq_range', ← hs] at h1
    rw [h1, some_new _ _ _ (by rw [← hs]; exact hn.once)]
  cases disk with
  | some fs => exact main fs (hm fs rfl) hp
  | none =>
    have := hn.head
    cases names with
    | nil => cases this
    | cons a l =>
      cases this
      have hf : openCutShort empty k ("default" :: l) (none : Option (Families α)) =
          openCutShort empty k ("default" :: l) (some [("default", empty)]) := by
        simp only [openCutShort, descriptors hn (fs := [("default", empty)]) rfl]
        rw [if_pos (by simp)]
        rfl
      rw [hf, main _ rfl (by simp)]
      rfl

/-- **C130**: if the program ends while tables are being created, after however many, opening again gives what opening would have given. -/
theorem open_resumes (names : List String) (hn : TableNames names) (empty : α) (disk : Option (Families α)) (hm : Made disk) (k : Nat) :
    Made (openCutShort empty k names disk) ∧ openTables empty names (openCutShort empty k names disk) = openTables empty names disk := by
  by_cases hp : names? disk <+: names
  · rw [cut_short hn hm hp]
    obtain ⟨h1, -⟩ := opened_names (empty := empty) hn hm hp
    have hd : ((atLeast empty disk ++ ((names.drop (atLeast empty disk).length).take k).map fun n => (n, empty)).map (·.1)).head? =
        some "default" := by
      have : ((atLeast empty disk).map (·.1)).head? = some "default" := by
        cases disk with
        | none => rfl
        | some fs => exact hm fs rfl
      rw [List.map_append, List.head?_append, this]; rfl
    refine ⟨fun fs e => by cases e; exact hd, ?_⟩
    have hpre : (atLeast empty disk ++ ((names.drop (atLeast empty disk).length).take k).map fun n => (n, empty)).map (·.1) <+: names := by
      rw [List.map_append, List.map_map]
      simp only [Function.comp_def, List.map_id']
      conv => rhs; rw [← h1]
      exact (List.prefix_append_right_inj _).2 (List.take_prefix _ _)
    rw [open_prefix hn hd hpre, open_any hn hm hp]
    congr 2
    rw [List.append_assoc, ← List.map_append]
    congr 2
    rw [List.length_append, List.length_map, ← List.drop_drop]
    generalize names.drop (atLeast empty disk).length = l
    rw [List.length_take]
    by_cases h : k ≤ l.length
    · rw [Nat.min_eq_left h, List.take_append_drop]
    · rw [Nat.min_eq_right (by omega), List.drop_length, List.take_of_length_le (by omega), List.append_nil]
  · have : openCutShort empty k names disk = disk := by
      cases disk with
      | none => exact absurd List.nil_prefix hp
      | some fs => simp only [openCutShort, descriptors hn (hm fs rfl), if_neg (show ¬ fs.map (·.1) <+: names from hp)]
    rw [this]
    exact ⟨hm, rfl⟩

/-- **C130**: what is written to one table of an opened database is read from that table, and the others stay as they were. -/
theorem tables_apart (names : List String) (hn : TableNames names) (empty : α) (disk : Option (Families α)) (hm : Made disk)
    (tables : List (String × Nat)) (fs : Families α) (ho : openTables empty names disk = .ok (tables, fs)) (n : String) (h : n ∈ names)
    (g : α → α) :
    ∃ fs', writeTable g tables fs n = .ok fs' ∧ ∀ m ∈ names,
      readTable tables fs' m = .ok (if m = n then g (contentOf empty disk m) else contentOf empty disk m) := by
  have hp : names? disk <+: names := by
    by_contra hp
    rw [open_refuses names hn empty disk hm hp] at ho; cases ho
  obtain ⟨t, F, h1, h2, h3⟩ := open_keeps_tables names hn empty disk hm hp
  rw [ho] at h1
  cases h1
  have ht : tables = names.zipIdx := by
    rw [open_any hn hm hp] at ho
    exact (Prod.mk.inj (Res.ok.inj ho)).1.symm
  have find : ∀ m ∈ names, ∃ i a, names.zipIdx.find? (·.1 = m) = some (m, i) ∧ fs[i]? = some (m, a) ∧ contentOf empty disk m = a ∧
      ∀ k ∈ names, ∀ j b, names.zipIdx.find? (·.1 = k) = some (k, j) → fs[j]? = some (k, b) → k ≠ m → i ≠ j := by
    intro m hmn
    rcases find_table m fs 0 with ⟨g1, g2⟩ | ⟨i, a, g1, g2, g3, -⟩
    · exfalso
      have := h3 m
      rw [if_pos hmn, readTable, getTable, ht, ← h2, g1] at this
      cases this
    · rw [h2, Nat.zero_add] at g1
      refine ⟨i, a, g1, g2, ?_, ?_⟩
      · have := h3 m
        rw [if_pos hmn, readTable, getTable, ht, g1] at this
        simp only [Res.ok_bind, g2] at this
        exact (Res.ok.inj this).symm
      · intro k _ j b _ e2 hk hij
        subst hij
        rw [g2] at e2
        exact hk (Prod.mk.inj (Option.some.inj e2)).1.symm
  obtain ⟨i, a, f1, f2, f3, f4⟩ := find n h
  refine ⟨fs.modify i fun f => (f.1, g f.2), ?_, fun m hmn => ?_⟩
  · rw [writeTable, getTable, ht, f1]; rfl
  · obtain ⟨j, b, e1, e2, e3, -⟩ := find m hmn
    rw [readTable, getTable, ht, e1]
    simp only [Res.ok_bind]
    by_cases hmn' : m = n
    · subst hmn'
      rw [f1] at e1
      cases e1
      rw [List.getElem?_modify, f2]
      simp [f3]
    · have hij := f4 m hmn j b e1 e2 hmn'
      rw [List.getElem?_modify, e2]
      simp [hij, hmn', e3]

/-- **C130**: the block database of an older version or one cut short is opened with all its blocks, headers, sums and outputs; only the table no
longer used is emptied. -/
theorem block_database_opens (empty : α) (disk : Option (Families α)) (hm : Made disk) (hp : names? disk <+: blockTables) :
    ∃ tables fs, openBlockDB empty disk = .ok (tables, fs) ∧
      ∀ n ∈ ["default", "BLOCK", "HEADER", "BLOCK_SUMS", "OUTPUT_POS", "SPENT_OUTPUTS"], readTable tables fs n = .ok (contentOf empty disk n) := by
  have hn : TableNames blockTables := ⟨rfl, by decide⟩
  obtain ⟨t, F, h1, -, -⟩ := open_keeps_tables blockTables hn empty disk hm hp
  obtain ⟨F', h2, h3⟩ := tables_apart blockTables hn empty disk hm t F h1 "INPUT_BITMAP" (by decide) fun _ => empty
  refine ⟨t, F', ?_, fun n hin => ?_⟩
  · simp only [openBlockDB, h1, h2, Res.ok_bind, Res.pure_eq]
  · have hb : n ∈ blockTables ∧ n ≠ "INPUT_BITMAP" := by
      revert n; decide
    rw [h3 n hb.1, if_neg hb.2]

/-! ## Cases -/

/-- A database of a version without the last table. -/
private def olderDb : Option (Families (List Nat)) :=
  some [("default", [1]), ("BLOCK", [2]), ("HEADER", [3]), ("BLOCK_SUMS", [4]), ("OUTPUT_POS", [5]), ("INPUT_BITMAP", [6])]

private theorem olderDb_made : Made olderDb := by intro fs h; cases h; rfl

example := open_keeps_tables blockTables ⟨rfl, by decide⟩ [] olderDb olderDb_made (by decide)

example : openBlockDB [] olderDb = .ok (blockTables.zipIdx, [("default", [1]), ("BLOCK", [2]), ("HEADER", [3]), ("BLOCK_SUMS", [4]),
    ("OUTPUT_POS", [5]), ("INPUT_BITMAP", []), ("SPENT_OUTPUTS", [])]) := by decide +kernel

example : openBlockDB ([] : List Nat) none = .ok (blockTables.zipIdx, blockTables.map fun n => (n, [])) := by decide +kernel

example : openTables [] ["default", "HEADER", "BLOCK"] (some [("default", [1]), ("BLOCK", [2])]) = .throw :=
  open_refuses _ ⟨rfl, by decide⟩ _ _ (by intro fs h; cases h; rfl) (by decide)

example := open_resumes blockTables ⟨rfl, by decide⟩ ([] : List Nat) none (by intro fs h; cases h) 3

example := block_database_opens [] olderDb olderDb_made (by decide)

end Verif.Props
