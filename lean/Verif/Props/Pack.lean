import Verif.P2P.Pack
import Verif.Props.Archive

/-!
# Serving chain snapshots (C134)

What a peer unpacks from an archive this node made, against the chain state the node made it from.
-/
namespace Verif.Props
open Verif Verif.Codec Verif.P2P

/-! ## Files -/

private theorem get_del_ne (d : Dir) {p q : Path} (h : q ≠ p) : (d.del p).get q = d.get q := by
  unfold Dir.get Dir.del
  induction d with
  | nil => rfl
  | cons e d ih =>
    by_cases he : e.1 = p
    · rw [List.filter_cons_of_neg (by simpa using he), ih, List.find?_cons_of_neg (by
        simpa [he] using fun x => h x.symm)]
    · rw [List.filter_cons_of_pos (by simpa using he)]
      by_cases hq : e.1 = q
      · rw [List.find?_cons_of_pos (by simpa using hq), List.find?_cons_of_pos (by simpa using hq)]
      · rw [List.find?_cons_of_neg (by simpa using hq), List.find?_cons_of_neg (by simpa using hq), ih]

private theorem get_del_same (d : Dir) (p : Path) : (d.del p).get p = none := by
  unfold Dir.get Dir.del
  rw [Option.map_eq_none_iff, List.find?_eq_none]
  intro e he
  rw [List.mem_filter] at he
  simpa using he.2

private theorem get_put (d : Dir) (p q : Path) (bs : Bytes) :
    (d.put p bs).get q = if q = p then some bs else d.get q := by
  by_cases h : q = p
  · have := get_del_same d p
    unfold Dir.get at this
    rw [Option.map_eq_none_iff] at this
    rw [if_pos h, h]
    unfold Dir.get Dir.put
    rw [List.find?_append, this]
    simp
  · rw [if_neg h, ← get_del_ne d h]
    unfold Dir.put
    generalize d.del p = d'
    unfold Dir.get
    rw [List.find?_append]
    cases List.find? (fun e => decide (e.1 = q)) d' with
    | some x => rfl
    | none =>
      have : ¬ p = q := fun e => h e.symm
      simp [this]

private theorem slash_inj {f g m n : Bytes} (hf : 47 ∉ f) (hg : 47 ∉ g) :
    g ++ str "/" ++ m = f ++ str "/" ++ n ↔ g = f ∧ m = n := by
  constructor
  · intro h
    have key : ∀ (f g : Bytes), 47 ∉ f → 47 ∉ g → g ++ 47 :: m = f ++ 47 :: n → g = f ∧ m = n := by
      intro f
      induction f with
      | nil =>
        intro g _ hg h
        cases g with
        | nil => cases h; exact ⟨rfl, rfl⟩
        | cons c g => cases h; exact absurd (List.mem_cons_self ..) hg
      | cons c f ih =>
        intro g hf hg h
        cases g with
        | nil => cases h; exact absurd (List.mem_cons_self ..) hf
        | cons b g =>
          rw [List.cons_append, List.cons_append, List.cons.injEq] at h
          obtain ⟨a, b'⟩ := ih g (fun x => hf (List.mem_cons_of_mem _ x)) (fun x => hg (List.mem_cons_of_mem _ x)) h.2
          exact ⟨by rw [h.1, a], b'⟩
    rw [List.append_assoc, List.append_assoc] at h
    exact key f g hf hg h
  · rintro ⟨rfl, rfl⟩; rfl

private def cut (bs : Bytes) : Bytes := bs.take (bs.length % 2 ^ 32)

private theorem find_segment (d : Dir) {f g : Bytes} (n : Bytes) (hf : 47 ∉ f) (hg : 47 ∉ g) :
    ((addDirectory d g).find? (fun e => decide (e.1 = f ++ str "/" ++ n))).map (·.2) =
      if g = f then (d.get (f, n)).map cut else none := by
  unfold addDirectory Dir.get
  induction d with
  | nil => split <;> rfl
  | cons e d ih =>
    obtain ⟨⟨ef, en⟩, bs⟩ := e
    by_cases he : ef = g
    · subst he
      rw [List.filter_cons_of_pos (by simp), List.map_cons]
      by_cases hx : ef = f ∧ en = n
      · rw [List.find?_cons_of_pos (by simpa [addFile] using (slash_inj hf hg).mpr hx)]
        rw [List.find?_cons_of_pos (by simpa using hx), if_pos hx.1]
        rfl
      · rw [List.find?_cons_of_neg (by simpa [addFile] using fun x => hx ((slash_inj hf hg).mp (by simpa using x))), ih]
        rw [List.find?_cons_of_neg (by simpa using hx)]
    · rw [List.filter_cons_of_neg (by simpa using he), ih]
      split
      · rename_i hgf
        rw [List.find?_cons_of_neg (by simpa using fun x => absurd (x.trans hgf.symm) he)]
      · rfl

private theorem read_create (d : Dir) {f : Bytes} (n : Bytes) (hf : f ∈ stateFolders) :
    readZip (createZip d) (f ++ str "/" ++ n) = (d.get (f, n)).map cut := by
  have hs : ∀ g ∈ stateFolders, (47 : UInt8) ∉ g := by decide +kernel
  have k := find_segment d (g := str "kernel") n (hs f hf) (by decide)
  have o := find_segment d (g := str "output") n (hs f hf) (by decide)
  have r := find_segment d (g := str "rangeproof") n (hs f hf) (by decide)
  unfold readZip createZip
  rw [List.find?_append, List.find?_append, Option.map_or, Option.map_or, k, o, r]
  simp only [stateFolders, List.mem_cons, List.not_mem_nil, or_false] at hf
  have n1 : str "kernel" ≠ str "output" := by decide
  have n2 : str "kernel" ≠ str "rangeproof" := by decide
  have n3 : str "output" ≠ str "rangeproof" := by decide
  rcases hf with rfl | rfl | rfl
  · rw [if_pos rfl, if_neg n1.symm, if_neg n2.symm]; simp
  · rw [if_neg n1, if_pos rfl, if_neg n3.symm]; simp
  · rw [if_neg n2, if_neg n3, if_pos rfl]; simp

/-! ## Specification -/

/-- What a committed chain state has in a file. -/
def flushedFile (c : Flushed) (p : Path) : Option Bytes :=
  if p = (str "rangeproof", str "pmmr_leafset.bin") then some c.proofLeaves
  else if p = (str "rangeproof", str "pmmr_data.bin") then some c.proofData
  else if p = (str "rangeproof", str "pmmr_hash.bin") then some c.proofHash
  else if p = (str "output", str "pmmr_leafset.bin") then some c.outputLeaves
  else if p = (str "output", str "pmmr_data.bin") then some c.outputData
  else if p = (str "output", str "pmmr_hash.bin") then some c.outputHash
  else if p = (str "kernel", str "pmmr_data.bin") then some c.kernelData
  else if p = (str "kernel", str "pmmr_hash.bin") then some c.kernelHash
  else none

/-- The files of hashes and data in a chain state. -/
def dataFiles : List Path :=
  [(str "kernel", str "pmmr_hash.bin"), (str "kernel", str "pmmr_data.bin"), (str "output", str "pmmr_hash.bin"),
   (str "output", str "pmmr_data.bin"), (str "rangeproof", str "pmmr_hash.bin"), (str "rangeproof", str "pmmr_data.bin")]

/-- The files an archive carries for outputs and proofs beyond them: which leaves are unspent, and which are pruned. -/
def leafFiles : List Path :=
  [(str "output", str "pmmr_leaf.bin"), (str "output", str "pmmr_prun.bin"), (str "rangeproof", str "pmmr_leaf.bin"),
   (str "rangeproof", str "pmmr_prun.bin")]

/-- The files of a node after what has happened to it. -/
def filesAfter (create : Bytes → Bytes) (d : Dir) (events : List FileEvent) : Dir := events.foldl (fileEvent create) d

/-- What the copy of a chain state commits for a snapshot. -/
def snapshotOf (create : Bytes → Bytes) (rewound : Dir → Flushed) (state : Dir) : Flushed :=
  rewound (openFiles create state)

/-! ## Lemmas -/

private theorem commit_get (d : Dir) (c : Flushed) (p : Path) :
    (commitFiles d c).get p = (flushedFile c p).or (d.get p) := by
  unfold commitFiles flushedFile
  simp only [get_put]
  repeat' split
  all_goals rfl

private theorem load_get (create : Bytes → Bytes) (d : Dir) (f : Bytes) (p : Path)
    (h : p ≠ (f, str "pmmr_leafset.bin")) : (loadLeaves create d f).get p = d.get p := by
  unfold loadLeaves
  split
  · rw [get_put, if_neg h]
  · rfl

private theorem open_get (create : Bytes → Bytes) (d : Dir) (p : Path) (h : p.2 ≠ str "pmmr_leafset.bin") :
    (openFiles create d).get p = d.get p := by
  unfold openFiles
  rw [load_get _ _ _ _ (fun e => h (by rw [e])), load_get _ _ _ _ (fun e => h (by rw [e]))]

private theorem leaf_kept (create : Bytes → Bytes) (events : List FileEvent) : ∀ (d : Dir) (p : Path), p ∈ leafFiles →
    (filesAfter create d events).get p = d.get p := by
  have hl : ∀ p ∈ leafFiles, p.2 ≠ str "pmmr_leafset.bin" := by decide +kernel
  have hf : ∀ c, ∀ p ∈ leafFiles, flushedFile c p = none := by
    intro c p hp
    simp only [leafFiles, List.mem_cons, List.not_mem_nil, or_false] at hp
    rcases hp with rfl | rfl | rfl | rfl <;> rfl
  induction events with
  | nil => intro d p _; rfl
  | cons e events ih =>
    intro d p hp
    show (filesAfter create (fileEvent create d e) events).get p = _
    rw [ih _ p hp]
    cases e with
    | started => exact open_get create d p (hl p hp)
    | committed c => exact (commit_get d c p).trans (by rw [hf c p hp]; rfl)

private theorem rename_ok (d : Dir) (folder source target bs : Bytes) (hne : source ≠ target)
    (h : d.get (folder, source) = some bs) : ∃ d', renameIn d folder source target = .ok d' ∧
      ∀ q, d'.get q = if q = (folder, target) then some bs else if q = (folder, source) then none else d.get q := by
  have h1 : (folder, source) ≠ (folder, target) := fun e => hne (Prod.mk.inj e).2
  have hs : (d.del (folder, target)).get (folder, source) = some bs := by rw [get_del_ne _ h1, h]
  refine ⟨((d.del (folder, target)).del (folder, source)).put (folder, target) bs, by unfold renameIn; simp only [hs], fun q => ?_⟩
  rw [get_put]
  by_cases e1 : q = (folder, target)
  · rw [if_pos e1, if_pos e1]
  · rw [if_neg e1, if_neg e1]
    by_cases e2 : q = (folder, source)
    · rw [if_pos e2, e2, get_del_same]
    · rw [if_neg e2, get_del_ne _ e2, get_del_ne _ e1]

private theorem rename_missing (d : Dir) (folder source target : Bytes) (hne : source ≠ target)
    (h : d.get (folder, source) = none) : renameIn d folder source target = .throw := by
  have h1 : (folder, source) ≠ (folder, target) := fun e => hne (Prod.mk.inj e).2
  have hs : (d.del (folder, target)).get (folder, source) = none := by rw [get_del_ne _ h1, h]
  unfold renameIn
  simp only [hs]

private theorem long_leaf (short n : Bytes) (h : n.length = 13) : n ≠ str "pmmr_leaf.bin." ++ short := by
  intro e
  have := congrArg List.length e
  have h2 : (str "pmmr_leaf.bin.").length = 14 := by decide
  rw [List.length_append, h2] at this
  omega

private theorem copy_empty (state : Dir) : copyDirectory state [] = .ok state := by
  unfold copyDirectory
  rw [if_neg]
  · rfl
  · simp [Dir.get]

/-- What the archive holds, whatever the sizes. -/
private theorem saved (create : Bytes → Bytes) (rewound : Dir → Flushed) (short : Bytes) (state : Dir) {ol rl : Bytes}
    (ho : state.get (str "output", str "pmmr_leaf.bin") = some ol)
    (hr : state.get (str "rangeproof", str "pmmr_leaf.bin") = some rl) :
    ∃ z, saveSnapshot create rewound short state [] = .ok z ∧
      (∀ f ∈ stateFolders, ∀ n, n.length = 13 → n ≠ str "pmmr_leaf.bin" → readZip z (f ++ str "/" ++ n) =
        ((flushedFile (snapshotOf create rewound state) (f, n)).or (state.get (f, n))).map cut) ∧
      readZip z (str "output" ++ str "/" ++ (str "pmmr_leaf.bin." ++ short)) = some (cut ol) ∧
      readZip z (str "rangeproof" ++ str "/" ++ (str "pmmr_leaf.bin." ++ short)) = some (cut rl) := by
  have hlf : ∀ f c, flushedFile c (f, str "pmmr_leaf.bin") = none := by
    intro f c
    unfold flushedFile
    simp only [Prod.mk.injEq]
    have a1 : str "pmmr_leaf.bin" ≠ str "pmmr_leafset.bin" := by decide
    have a2 : str "pmmr_leaf.bin" ≠ str "pmmr_data.bin" := by decide
    have a3 : str "pmmr_leaf.bin" ≠ str "pmmr_hash.bin" := by decide
    simp only [a1, a2, a3, and_false, if_false]
  have hls : str "pmmr_leaf.bin" ≠ str "pmmr_leafset.bin" := by decide
  have nof : str "output" ≠ str "rangeproof" := by decide
  have hto := long_leaf short (str "pmmr_leaf.bin") (by decide)
  obtain ⟨d4, e4, g4⟩ := rename_ok (commitFiles (openFiles create state) (snapshotOf create rewound state)) (str "output")
    (str "pmmr_leaf.bin") (str "pmmr_leaf.bin." ++ short) ol hto
    (by rw [commit_get, hlf, open_get _ _ _ hls, ho]; rfl)
  obtain ⟨d5, e5, g5⟩ := rename_ok d4 (str "rangeproof") (str "pmmr_leaf.bin") (str "pmmr_leaf.bin." ++ short) rl hto
    (by rw [g4, if_neg (fun e => nof (Prod.mk.inj e).1.symm), if_neg (fun e => nof (Prod.mk.inj e).1.symm), commit_get, hlf,
          open_get _ _ _ hls, hr]; rfl)
  refine ⟨createZip d5, ?_, ?_, ?_, ?_⟩
  · unfold saveSnapshot
    unfold snapshotOf at e4
    simp only [copy_empty, Res.ok_bind, e4, e5, Res.pure_eq]
  · intro f hf n hn hnl
    have hnt := long_leaf short n hn
    rw [read_create _ _ hf, g5, if_neg (fun e => hnt (Prod.mk.inj e).2), if_neg (fun e => hnl (Prod.mk.inj e).2), g4,
      if_neg (fun e => hnt (Prod.mk.inj e).2), if_neg (fun e => hnl (Prod.mk.inj e).2), commit_get,
      open_get _ _ _ (by intro e; rw [show n = _ from e] at hn; exact absurd hn (by decide))]
  · rw [read_create _ _ (by decide), g5, if_neg (fun e => nof (Prod.mk.inj e).1), if_neg (fun e => nof (Prod.mk.inj e).1), g4,
      if_pos rfl]
    rfl
  · rw [read_create _ _ (by decide), g5, if_pos rfl]; rfl

private theorem cut_small {bs : Bytes} (h : bs.length < 2 ^ 32) : cut bs = bs := by
  unfold cut; rw [Nat.mod_eq_of_lt h, List.take_length]

/-! ## Theorems -/

/-- The archive a node makes of files below 4 GiB, for any header, unpacks at the peer to exactly the data of the chain
state rewound to that header, and to the leaf and prune files the node has.  Missing: those are not the ones of that
chain state (`served_leaves_are_old_violated`). -/
theorem snapshot_served_partial (create : Bytes → Bytes) (rewound : Dir → Flushed) (short : Bytes) (state : Dir)
    (leaf : Path → Bytes) (hl : ∀ p ∈ leafFiles, state.get p = some (leaf p) ∧ (leaf p).length < 2 ^ 32)
    (hs : ∀ p ∈ dataFiles, ∀ bs ∈ flushedFile (snapshotOf create rewound state) p, bs.length < 2 ^ 32) :
    ∃ z, saveSnapshot create rewound short state [] = .ok z ∧ ∀ fs,
      (extractArchive (some (readZip z)) short fs).1 = true ∧
      (∀ p ∈ dataFiles, (extractArchive (some (readZip z)) short fs).2 p = flushedFile (snapshotOf create rewound state) p) ∧
      (∀ p ∈ leafFiles, (extractArchive (some (readZip z)) short fs).2 p = some (leaf p)) := by
  obtain ⟨z, hz, h1, h2, h3⟩ := saved create rewound short state (hl _ (by decide)).1
    (hl (str "rangeproof", str "pmmr_leaf.bin") (by decide)).1
  refine ⟨z, hz, fun fs => ?_⟩
  have hdata : ∀ p ∈ dataFiles, readZip z (p.1 ++ str "/" ++ p.2) = flushedFile (snapshotOf create rewound state) p ∧
      (flushedFile (snapshotOf create rewound state) p).isSome := by
    intro p hp
    have hsome : ∀ c, (flushedFile c p).isSome := by
      intro c
      simp only [dataFiles, List.mem_cons, List.not_mem_nil, or_false] at hp
      rcases hp with rfl | rfl | rfl | rfl | rfl | rfl <;> rfl
    have hf : ∀ p ∈ dataFiles, p.1 ∈ stateFolders ∧ p.2.length = 13 ∧ p.2 ≠ str "pmmr_leaf.bin" := by decide +kernel
    obtain ⟨f1, f2, f3⟩ := hf p hp
    obtain ⟨bs, hb⟩ := Option.isSome_iff_exists.mp (hsome (snapshotOf create rewound state))
    refine ⟨?_, hsome _⟩
    rw [h1 p.1 f1 p.2 f2 f3, hb, Option.some_or, Option.map_some, cut_small (hs p hp bs hb)]
  have hprun : ∀ p ∈ leafFiles, p.2 = str "pmmr_prun.bin" → readZip z (p.1 ++ str "/" ++ p.2) = some (leaf p) := by
    intro p hp he
    have hn : ∀ c, ∀ p ∈ leafFiles, flushedFile c p = none := by
      intro c p hp
      simp only [leafFiles, List.mem_cons, List.not_mem_nil, or_false] at hp
      rcases hp with rfl | rfl | rfl | rfl <;> rfl
    have hf : ∀ p ∈ leafFiles, p.1 ∈ stateFolders := by decide +kernel
    rw [h1 p.1 (hf p hp) p.2 (by rw [he]; decide) (by rw [he]; decide), hn _ p hp, Option.none_or, (hl p hp).1, Option.map_some,
      cut_small (hl p hp).2]
  have hok : (extractArchive (some (readZip z)) short fs).1 = true := by
    rw [archive_extracted]
    refine ⟨_, rfl, ?_⟩
    intro n hn
    have dd : ∀ p ∈ dataFiles, (readZip z (p.1 ++ str "/" ++ p.2)).isSome := fun p hp => by
      rw [(hdata p hp).1]; exact (hdata p hp).2
    simp only [archiveNames, List.mem_cons, List.not_mem_nil, or_false] at hn
    rcases hn with rfl | rfl | rfl | rfl | rfl | rfl | rfl | rfl | rfl | rfl
    · exact dd (str "kernel", str "pmmr_data.bin") (by decide)
    · exact dd (str "kernel", str "pmmr_hash.bin") (by decide)
    · exact dd (str "output", str "pmmr_data.bin") (by decide)
    · exact dd (str "output", str "pmmr_hash.bin") (by decide)
    · have := hprun (str "output", str "pmmr_prun.bin") (by decide) rfl
      exact Option.isSome_iff_exists.mpr ⟨_, this⟩
    · exact Option.isSome_iff_exists.mpr ⟨_, h2⟩
    · exact dd (str "rangeproof", str "pmmr_data.bin") (by decide)
    · exact dd (str "rangeproof", str "pmmr_hash.bin") (by decide)
    · have := hprun (str "rangeproof", str "pmmr_prun.bin") (by decide) rfl
      exact Option.isSome_iff_exists.mpr ⟨_, this⟩
    · exact Option.isSome_iff_exists.mpr ⟨_, h3⟩
  refine ⟨hok, ?_, ?_⟩
  · intro p hp
    have hf : ∀ p ∈ dataFiles, p.1 ∈ stateFolders := by decide +kernel
    rw [archive_content _ _ _ hok p (hf p hp)]
    have := (hdata p hp).1
    rw [← this]
    simp only [dataFiles, List.mem_cons, List.not_mem_nil, or_false] at hp
    rcases hp with rfl | rfl | rfl | rfl | rfl | rfl <;> rfl
  · intro p hp
    have hf : ∀ p ∈ leafFiles, p.1 ∈ stateFolders := by decide +kernel
    rw [archive_content _ _ _ hok p (hf p hp)]
    have hc : ∀ p ∈ leafFiles, cut (leaf p) = leaf p := fun p hp => cut_small (hl p hp).2
    have hp' := hp
    simp only [leafFiles, List.mem_cons, List.not_mem_nil, or_false] at hp
    rcases hp with rfl | rfl | rfl | rfl
    · have e : leaf (str "output", str "pmmr_leaf.bin") = leaf (str "output", str "pmmr_leaf.bin") := rfl
      rw [← hc _ hp', ← h2]; rfl
    · rw [← hprun _ hp' rfl]; rfl
    · rw [← hc _ hp', ← h3]; rfl
    · rw [← hprun _ hp' rfl]; rfl

/-- **Violated**: whatever blocks a node has processed since it unpacked the archive it started from, and whatever the
header asked for, the unspent leaves it serves are those of that first archive. -/
theorem served_leaves_are_old_violated (create : Bytes → Bytes) (rewound : Dir → Flushed) (first short : Bytes)
    (z0 : Zip) (fs0 : Files) (h0 : (extractArchive (some z0) first fs0).1 = true) (d : Dir)
    (hd : ∀ p, p.1 ∈ stateFolders → d.get p = (extractArchive (some z0) first fs0).2 p) (events : List FileEvent)
    (hl : ∀ p ∈ leafFiles, ∀ bs, (extractArchive (some z0) first fs0).2 p = some bs → bs.length < 2 ^ 32)
    (hs : ∀ p ∈ dataFiles, ∀ bs ∈ flushedFile (snapshotOf create rewound (filesAfter create d events)) p,
      bs.length < 2 ^ 32) :
    ∃ z, saveSnapshot create rewound short (filesAfter create d events) [] = .ok z ∧ ∀ fs,
      (extractArchive (some (readZip z)) short fs).1 = true ∧
      ∀ p ∈ leafFiles, (extractArchive (some (readZip z)) short fs).2 p = (extractArchive (some z0) first fs0).2 p := by
  have hf : ∀ p ∈ leafFiles, p.1 ∈ stateFolders := by decide +kernel
  have hsome : ∀ p ∈ leafFiles, ∃ bs, (extractArchive (some z0) first fs0).2 p = some bs := by
    intro p hp
    rw [archive_content _ _ _ h0 p (hf p hp)]
    obtain ⟨z, e, hz⟩ := (archive_extracted _ _ _).mp h0
    cases e
    have ha : ∀ n ∈ archiveNames first, ∃ bs, z0 n = some bs := fun n hn => Option.isSome_iff_exists.mp (hz n hn)
    simp only [leafFiles, List.mem_cons, List.not_mem_nil, or_false] at hp
    rcases hp with rfl | rfl | rfl | rfl
    · exact ha (str "output/pmmr_leaf.bin." ++ first) (by simp [archiveNames])
    · exact ha (str "output/pmmr_prun.bin") (by simp [archiveNames])
    · exact ha (str "rangeproof/pmmr_leaf.bin." ++ first) (by simp [archiveNames])
    · exact ha (str "rangeproof/pmmr_prun.bin") (by simp [archiveNames])
  obtain ⟨z, hz, h⟩ := snapshot_served_partial create rewound short (filesAfter create d events)
    (fun p => ((extractArchive (some z0) first fs0).2 p).getD []) (by
      intro p hp
      obtain ⟨bs, hb⟩ := hsome p hp
      rw [leaf_kept create events d p hp, hd p (hf p hp), hb]
      exact ⟨rfl, hl p hp bs hb⟩) hs
  refine ⟨z, hz, fun fs => ⟨(h fs).1, fun p hp => ?_⟩⟩
  rw [(h fs).2.2 p hp]
  obtain ⟨bs, hb⟩ := hsome p hp
  rw [hb]; rfl

/-- **Violated**: a node that has come by all its blocks without a snapshot can serve none. -/
theorem without_archive_none_served_violated (create : Bytes → Bytes) (rewound : Dir → Flushed) (short : Bytes)
    (events : List FileEvent) : saveSnapshot create rewound short (filesAfter create [] events) [] = .throw := by
  have hk := leaf_kept create events [] (str "output", str "pmmr_leaf.bin") (by decide)
  have hg : ∀ d : Dir, d.get (str "output", str "pmmr_leaf.bin") = none →
      (commitFiles (openFiles create d) (rewound (openFiles create d))).get (str "output", str "pmmr_leaf.bin") = none := by
    intro d h
    rw [commit_get, open_get _ _ _ (by decide), h]; rfl
  have hr := rename_missing _ (str "output") (str "pmmr_leaf.bin") (str "pmmr_leaf.bin." ++ short)
    (long_leaf short _ (by decide)) (hg (filesAfter create [] events) hk)
  unfold saveSnapshot
  simp only [copy_empty, Res.ok_bind, hr, Res.throw_bind]

/-- **Violated**: of a file of 4 GiB and more only its size modulo 4 GiB is packed. -/
theorem snapshot_large_cut_violated (create : Bytes → Bytes) (rewound : Dir → Flushed) (short : Bytes) (state : Dir)
    (ol rl : Bytes) (ho : state.get (str "output", str "pmmr_leaf.bin") = some ol)
    (hr : state.get (str "rangeproof", str "pmmr_leaf.bin") = some rl) :
    ∃ z, saveSnapshot create rewound short state [] = .ok z ∧
      readZip z (str "rangeproof/pmmr_data.bin") = some ((snapshotOf create rewound state).proofData.take
        ((snapshotOf create rewound state).proofData.length % 2 ^ 32)) := by
  obtain ⟨z, hz, h1, -, -⟩ := saved create rewound short state ho hr
  exact ⟨z, hz, h1 (str "rangeproof") (by decide) (str "pmmr_data.bin") (by decide) (by decide)⟩

/-- A directory left over from an attempt that was cut short makes the next one fail. -/
theorem snapshot_stale_refused (create : Bytes → Bytes) (rewound : Dir → Flushed) (short : Bytes) (state stale : Dir)
    (p : Path) (bs : Bytes) (h1 : (p, bs) ∈ state) (h2 : (stale.get p).isSome) :
    saveSnapshot create rewound short state stale = .throw := by
  have : copyDirectory state stale = .throw := by
    unfold copyDirectory
    rw [if_pos]
    exact List.any_eq_true.mpr ⟨_, h1, h2⟩
  unfold saveSnapshot
  rw [this]
  rfl

/-! ### A node that has moved on -/

private def oldZip : Zip := fun _ => some [1]

private def oldDir : Dir :=
  [((str "kernel", str "pmmr_data.bin"), [1]), ((str "kernel", str "pmmr_hash.bin"), [1]),
   ((str "output", str "pmmr_data.bin"), [1]), ((str "output", str "pmmr_hash.bin"), [1]),
   ((str "output", str "pmmr_prun.bin"), [1]), ((str "output", str "pmmr_leaf.bin"), [1]),
   ((str "rangeproof", str "pmmr_data.bin"), [1]), ((str "rangeproof", str "pmmr_hash.bin"), [1]),
   ((str "rangeproof", str "pmmr_prun.bin"), [1]), ((str "rangeproof", str "pmmr_leaf.bin"), [1])]

private def newState : Flushed := ⟨[2], [2], [2], [2], [2], [2], [2], [2]⟩

/-- Block data of the header asked for, unspent leaves of the archive the node once started from. -/
example : ∃ z, saveSnapshot id (fun _ => newState) (str "def")
      (filesAfter id oldDir [.started, .committed newState, .started]) [] = .ok z ∧
    ((extractArchive (some (readZip z)) (str "def") (fun _ => none)).2 (str "output", str "pmmr_data.bin"),
     (extractArchive (some (readZip z)) (str "def") (fun _ => none)).2 (str "output", str "pmmr_leaf.bin"),
     (filesAfter id oldDir [.started, .committed newState, .started]).get (str "output", str "pmmr_leafset.bin")) =
    (some [2], some [1], some [2]) := by
  refine ⟨_, rfl, ?_⟩
  decide +kernel

example : ∀ p ∈ leafFiles, oldDir.get p = (extractArchive (some oldZip) (str "abc") (fun _ => none)).2 p := by
  decide +kernel

end Verif.Props
