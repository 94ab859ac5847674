import Verif.File.Batch
import Mathlib.Data.List.Forall2

/-!
# C26: batch writers

The specification is a pair (durable content, content seen through the writer).
-/
namespace Verif.Props

open Verif Verif.File

variable {σ : Type}

/-- Spec of the calls made through a writer. -/
def wSpec (s : σ × σ) : WOp σ → σ × σ
  | .modify g => (s.1, g s.2)
  | .commit => (s.2, s.2)
  | .rollback => (s.1, s.1)

/-- Spec of a session that starts from content `a`: what remains of it. -/
def sessionSpec (batched : Bool) (ops : List (WOp σ)) (a : σ) : σ :=
  if batched then (ops.foldl wSpec (a, a)).1 else (ops.foldl wSpec (a, a)).2

/-- An object nobody is writing to. -/
def Idle (o : Obj σ) (a : σ) : Prop := o.committed = a ∧ o.working = a

/-- The classes, other than the wallet database. -/
def batchKinds : List Kind := [kDataFile, kBitmap, kHeaderMMR, kChain, kPruneable, kPlain, kBlockDB]

/-- What the proof needs to know of a class. -/
structure SoundKind (k : Kind) : Prop where
  closes : k.closes = false
  tracks : k.mutDirty = true ∨ (k.initDirty = none ∧ k.clears = false ∧ k.guarded = false)

theorem batchKinds_sound {k : Kind} (h : k ∈ batchKinds) : SoundKind k := by
  simp only [batchKinds, List.mem_cons, List.not_mem_nil, or_false] at h
  rcases h with rfl | rfl | rfl | rfl | rfl | rfl | rfl <;> exact ⟨rfl, by decide⟩

/-- During a session. -/
structure InSession (k : Kind) (o : Obj σ) (s : σ × σ) : Prop where
  committed : o.committed = s.1
  working : o.working = s.2
  tx : o.txOpen = true
  clean : o.dirty = false → s.1 = s.2
  plain : k.mutDirty = false → o.dirty = true

theorem inSession_init {k : Kind} (hk : SoundKind k) {o : Obj σ} {a : σ} (h : Idle o a) :
    InSession k (o.init k true) (a, a) := by
  refine ⟨h.1, h.2, by simp [Obj.init], fun _ => rfl, fun hm => ?_⟩
  rcases hk.tracks with h' | h'
  · rw [h'] at hm; cases hm
  · simp [Obj.init, h'.1]

theorem inSession_step {k : Kind} (hk : SoundKind k) {o : Obj σ} {s : σ × σ} (h : InSession k o s)
    (op : WOp σ) : ∃ o', op.run k o = .ok o' ∧ InSession k o' (wSpec s op) := by
  have hc := hk.closes
  cases op with
  | modify g =>
    refine ⟨_, rfl, ?_, ?_, h.tx, ?_, ?_⟩
    · simp [Obj.modify, wSpec, h.tx, h.committed]
    · simp [Obj.modify, wSpec, h.working]
    · intro hd
      simp only [Obj.modify, Bool.or_eq_false_iff] at hd
      have := h.plain hd.2
      rw [hd.1] at this; cases this
    · intro hm
      simp [Obj.modify, h.plain hm]
  | commit =>
    simp only [WOp.run, Obj.commit]
    by_cases hg : (k.guarded && !o.dirty) = true
    · rw [if_pos hg]
      simp only [Bool.and_eq_true, Bool.not_eq_true'] at hg
      have hcl := h.clean hg.2
      refine ⟨_, rfl, ?_, ?_, h.tx, fun _ => rfl, ?_⟩
      · simp [wSpec, h.committed, hcl]
      · simp [wSpec, h.working]
      · intro hm
        have := h.plain hm
        rw [hg.2] at this; cases this
    · rw [if_neg hg, if_neg (by simp [hc])]
      refine ⟨_, rfl, ?_, ?_, ?_, fun _ => rfl, ?_⟩
      · exact h.working
      · exact h.working
      · simp [hc, h.tx]
      · intro hm
        rcases hk.tracks with h' | h'
        · rw [h'] at hm; cases hm
        · simp [h'.2.1, h.plain hm]
  | rollback =>
    simp only [WOp.run, Obj.rollback]
    by_cases hg : (k.guarded && !o.dirty) = true
    · rw [if_pos hg]
      simp only [Bool.and_eq_true, Bool.not_eq_true'] at hg
      have hcl := h.clean hg.2
      refine ⟨_, rfl, ?_, ?_, h.tx, fun _ => rfl, ?_⟩
      · simp [wSpec, h.committed]
      · simp [wSpec, h.working, hcl]
      · intro hm
        have := h.plain hm
        rw [hg.2] at this; cases this
    · rw [if_neg hg, if_neg (by simp [h.tx])]
      refine ⟨_, rfl, ?_, ?_, ?_, fun _ => rfl, ?_⟩
      · exact h.committed
      · exact h.committed
      · simp [hc, h.tx]
      · intro hm
        rcases hk.tracks with h' | h'
        · rw [h'] at hm; cases hm
        · simp [h'.2.1, h.plain hm]

theorem inSession_run {k : Kind} (hk : SoundKind k) : ∀ (ops : List (WOp σ)) {o : Obj σ} {s : σ × σ},
    InSession k o s → ∃ o', ops.foldlM (WOp.run k) o = .ok o' ∧ InSession k o' (ops.foldl wSpec s) := by
  intro ops
  induction ops with
  | nil => intro o s h; exact ⟨o, rfl, h⟩
  | cons op ops ih =>
    intro o s h
    obtain ⟨o1, e1, h1⟩ := inSession_step hk h op
    obtain ⟨o2, e2, h2⟩ := ih h1
    exact ⟨o2, by rw [List.foldlM_cons, e1, Res.ok_bind, e2], h2⟩

theorem inSession_release {k : Kind} (hk : SoundKind k) {o : Obj σ} {s : σ × σ} (h : InSession k o s) :
    ∃ o', o.release k true = .ok o' ∧ Idle o' s.1 := by
  unfold Obj.release
  by_cases hd : o.dirty = true
  · rw [if_pos hd]
    obtain ⟨o1, e1, h1⟩ := inSession_step hk h .rollback
    simp only [WOp.run] at e1
    simp only [if_true, e1, Res.ok_bind, Res.pure_eq]
    refine ⟨_, rfl, ?_⟩
    unfold Obj.endWrite
    split
    · exact ⟨h1.committed, h1.committed⟩
    · exact ⟨h1.committed, h1.working⟩
  · rw [if_neg hd]
    have hd' : o.dirty = false := by simpa using hd
    simp only [Res.pure_eq, Res.ok_bind]
    refine ⟨_, rfl, ?_⟩
    unfold Obj.endWrite
    split
    · exact ⟨h.committed, h.committed⟩
    · exact ⟨h.committed, by rw [h.working, h.clean hd']⟩

/-- **C26, batches.** For every class but the wallet database, and any calls made through a batch
writer: when it is dropped the object holds, durably and for the next reader, exactly what its last
explicit commit saw; without one it is as before the batch.  Nothing throws and no undefined behaviour
is reached. -/
theorem batch_session_correct (k : Kind) (hk : k ∈ batchKinds) (ops : List (WOp σ)) (o : Obj σ) (a : σ)
    (h : Idle o a) : ∃ o', session k true ops o = .ok o' ∧ Idle o' (sessionSpec true ops a) := by
  obtain ⟨o1, e1, h1⟩ := inSession_run (batchKinds_sound hk) ops (inSession_init (batchKinds_sound hk) h)
  obtain ⟨o2, e2, h2⟩ := inSession_release (batchKinds_sound hk) h1
  exact ⟨o2, by unfold session; rw [e1, Res.ok_bind, e2], h2⟩

/-- **C26.** In particular a batch dropped without commit leaves the object as it was. -/
theorem batch_dropped (k : Kind) (hk : k ∈ batchKinds) (gs : List (σ → σ)) (o : Obj σ) (a : σ)
    (h : Idle o a) : ∃ o', session k true (gs.map .modify) o = .ok o' ∧ Idle o' a := by
  obtain ⟨o', e, h'⟩ := batch_session_correct k hk (gs.map .modify) o a h
  refine ⟨o', e, ?_⟩
  have key : ∀ (gs : List (σ → σ)) (s : σ × σ), ((gs.map .modify).foldl wSpec s).1 = s.1 := by
    intro gs
    induction gs with
    | nil => intro s; rfl
    | cons g gs ih => intro s; rw [List.map_cons, List.foldl_cons, ih]; rfl
  have := key gs (a, a)
  simp only [sessionSpec, if_true] at h'
  rwa [this] at h'

/-- **C26.** A batch whose changes are committed leaves all of them. -/
theorem batch_committed (k : Kind) (hk : k ∈ batchKinds) (gs : List (σ → σ)) (o : Obj σ) (a : σ)
    (h : Idle o a) : ∃ o', session k true (gs.map .modify ++ [.commit]) o = .ok o' ∧
      Idle o' (gs.foldl (fun x g => g x) a) := by
  obtain ⟨o', e, h'⟩ := batch_session_correct k hk (gs.map .modify ++ [.commit]) o a h
  refine ⟨o', e, ?_⟩
  have key : ∀ (gs : List (σ → σ)) (s : σ × σ),
      ((gs.map .modify).foldl wSpec s).2 = gs.foldl (fun x g => g x) s.2 := by
    intro gs
    induction gs with
    | nil => intro s; rfl
    | cons g gs ih => intro s; rw [List.map_cons, List.foldl_cons, ih]; rfl
  have := key gs (a, a)
  simp only [sessionSpec, if_true, List.foldl_append, List.foldl_cons, List.foldl_nil, wSpec] at h'
  rwa [this] at h'

/-- No explicit rollback among the calls. -/
def NoRollback : List (WOp σ) → Prop
  | [] => True
  | .rollback :: _ => False
  | _ :: ops => NoRollback ops

/-- **C26, plain writers.** For every class but the wallet database, a writer that is not a batch
persists all changes made through it when it is released. -/
theorem write_session_persists (k : Kind) (hk : k ∈ batchKinds) (ops : List (WOp σ)) (hn : NoRollback ops)
    (o : Obj σ) (a : σ) (h : Idle o a) :
    ∃ o', session k false ops o = .ok o' ∧ Idle o' (sessionSpec false ops a) := by
  have hs := batchKinds_sound hk
  have hc := hs.closes
  -- the working content follows the specification; clean objects have it committed
  have key : ∀ (ops : List (WOp σ)) (o : Obj σ) (s : σ × σ), NoRollback ops →
      o.working = s.2 → (o.dirty = false → o.committed = s.2) → (k.mutDirty = false → o.dirty = true) →
      (k.direct = true → o.txOpen = false) →
      ∃ o', ops.foldlM (WOp.run k) o = .ok o' ∧ o'.working = (ops.foldl wSpec s).2 ∧
        (o'.dirty = false → o'.committed = (ops.foldl wSpec s).2) ∧
        (k.direct = true → o'.txOpen = false) := by
    intro ops
    induction ops with
    | nil => intro o s _ h1 h2 _ h4; exact ⟨o, rfl, h1, h2, h4⟩
    | cons op ops ih =>
      intro o s hn h1 h2 h3 h4
      cases op with
      | rollback => exact absurd hn (by simp [NoRollback])
      | modify g =>
        obtain ⟨o', e, r⟩ := ih (o.modify k g) (wSpec s (.modify g)) hn
          (by simp [Obj.modify, wSpec, h1])
          (by
            intro hd
            simp only [Obj.modify, Bool.or_eq_false_iff] at hd
            have := h3 hd.2
            rw [hd.1] at this; cases this)
          (by intro hm; simp [Obj.modify, h3 hm]) h4
        exact ⟨o', by rw [List.foldlM_cons]; exact e, r⟩
      | commit =>
        have hstep : ∃ o1, o.commit k = .ok o1 ∧ o1.working = s.2 ∧ o1.committed = s.2 ∧
            (k.mutDirty = false → o1.dirty = true) ∧ (k.direct = true → o1.txOpen = false) := by
          unfold Obj.commit
          by_cases hg : (k.guarded && !o.dirty) = true
          · rw [if_pos hg]
            simp only [Bool.and_eq_true, Bool.not_eq_true'] at hg
            refine ⟨_, rfl, h1, h2 hg.2, ?_, h4⟩
            intro hm
            have := h3 hm
            rw [hg.2] at this; cases this
          · rw [if_neg hg, if_neg (by simp [hc])]
            refine ⟨_, rfl, h1, h1, ?_, ?_⟩
            · intro hm
              rcases hs.tracks with h' | h'
              · rw [h'] at hm; cases hm
              · simp [h'.2.1, h3 hm]
            · intro hd; simp [hc, h4 hd]
        obtain ⟨o1, e1, w1, c1, d1, t1⟩ := hstep
        obtain ⟨o', e, r⟩ := ih o1 (wSpec s .commit) hn w1 (fun _ => c1) d1 t1
        refine ⟨o', ?_, r⟩
        rw [List.foldlM_cons]
        show (o.commit k >>= _) = _
        rw [e1, Res.ok_bind, e]
  have hdir : k.direct = true → k.beginUnbatched = false := by
    simp only [batchKinds, List.mem_cons, List.not_mem_nil, or_false] at hk
    rcases hk with rfl | rfl | rfl | rfl | rfl | rfl | rfl <;> decide
  obtain ⟨o1, e1, w1, c1, t1⟩ := key ops (o.init k false) (a, a) hn (by simp [Obj.init, h.2])
    (by intro _; simp [Obj.init, h.1])
    (by
      intro hm
      rcases hs.tracks with h' | h'
      · rw [h'] at hm; cases hm
      · simp [Obj.init, h'.1])
    (by intro hd; simp [Obj.init, hdir hd])
  unfold session
  rw [e1, Res.ok_bind]
  unfold Obj.release
  by_cases hd : o1.dirty = true
  · rw [if_pos hd]
    simp only [Bool.false_eq_true, if_false]
    unfold Obj.commit
    rw [if_neg (by simp [hd]), if_neg (by simp [hc])]
    simp only [Res.ok_bind, Res.pure_eq]
    refine ⟨_, rfl, ?_⟩
    unfold Obj.endWrite
    split
    · exact ⟨by simp [sessionSpec, w1], by simp [sessionSpec, w1]⟩
    · exact ⟨by simp [sessionSpec, w1], by simp [sessionSpec, w1]⟩
  · rw [if_neg hd]
    have hd' : o1.dirty = false := by simpa using hd
    simp only [Res.pure_eq, Res.ok_bind]
    refine ⟨_, rfl, ?_⟩
    unfold Obj.endWrite
    split
    · rename_i ht
      simp only [Bool.and_eq_true] at ht
      have := t1 ht.1
      rw [ht.2] at this; cases this
    · exact ⟨by simp [sessionSpec, c1 hd'], by simp [sessionSpec, w1]⟩

/-- **C26, chain state.** A batch on the chain state, with any changes to its parts, leaves every part
with what the last commit of the chain state saw: all parts or none take part in it.  A plain writer
persists the changes of all parts. -/
theorem composite_session_correct (batched : Bool) (ops : List (COp σ)) (ps : Parts σ) (as : List σ)
    (hk : ∀ p ∈ ps, p.1 ∈ batchKinds) (hi : List.Forall₂ (fun p a => Idle p.2 a) ps as) :
    ∃ ps', compositeSession batched ops ps = .ok ps' ∧
      List.Forall₂ (fun p a => Idle p.2 a) ps'
        (as.zipIdx.map fun a => sessionSpec batched (ops.flatMap (COp.part a.2)) a.1) := by
  unfold compositeSession
  have key : ∀ (ps : Parts σ) (as : List σ) (n : Nat), (∀ p ∈ ps, p.1 ∈ batchKinds) →
      List.Forall₂ (fun p a => Idle p.2 a) ps as →
      ∃ ps', ((ps.zipIdx n).mapM fun p => do
          let o ← partSession p.1.1 batched (ops.flatMap (COp.part p.2)) p.1.2
          pure (p.1.1, o)) = Res.ok ps' ∧
        List.Forall₂ (fun p a => Idle p.2 a) ps'
          ((as.zipIdx n).map fun a => sessionSpec batched (ops.flatMap (COp.part a.2)) a.1) := by
    intro ps
    induction ps with
    | nil =>
      intro as n _ hi
      cases hi
      exact ⟨[], by simp, by simp⟩
    | cons p ps ih =>
      intro as n hk hi
      cases hi with
      | cons h1 h2 =>
        rename_i a as
        obtain ⟨ps', e, r⟩ := ih as (n + 1) (fun q hq => hk q (by simp [hq])) h2
        obtain ⟨o', e1, r1⟩ := batch_session_correct p.1 (hk p (by simp))
          (ops.flatMap (COp.part n) ++ [if batched then .rollback else .commit]) p.2 a h1
        refine ⟨(p.1, o') :: ps', ?_, ?_⟩
        · rw [List.zipIdx_cons, List.mapM_cons]
          simp only [partSession, e1, Res.ok_bind, Res.pure_eq]
          simp only [partSession, Res.pure_eq] at e
          rw [e]; rfl
        · rw [List.zipIdx_cons, List.map_cons]
          refine List.Forall₂.cons ?_ r
          simp only [sessionSpec, if_true, List.foldl_append, List.foldl_cons, List.foldl_nil] at r1
          cases batched
          · simpa [sessionSpec, wSpec] using r1
          · simpa [sessionSpec, wSpec] using r1
  exact key ps as 0 hk hi

/-! ## The wallet database -/

/-- **C26, wallet.** A wallet batch that changes nothing after its (first and only) commit or rollback
behaves as specified; so does one dropped without either, and so does a plain writer.  Missing for the
full claim: changes after the commit, see `wallet_batch_violated`. -/
theorem wallet_session_partial (batched : Bool) (gs : List (σ → σ)) (last : Option (WOp σ))
    (hl : ∀ g, last ≠ some (.modify g)) (o : Obj σ) (a : σ) (h : Idle o a)
    (hr : batched = false → last ≠ some .rollback) :
    ∃ o', session kWallet batched (gs.map .modify ++ last.toList) o = .ok o' ∧
      Idle o' (sessionSpec batched (gs.map .modify ++ last.toList) a) := by
  have key : ∀ (gs : List (σ → σ)) (o : Obj σ), o.txOpen = true → o.dirty = true →
      ∃ o', (gs.map .modify).foldlM (WOp.run kWallet) o = Res.ok o' ∧ o'.committed = o.committed ∧
        o'.working = gs.foldl (fun x g => g x) o.working ∧ o'.txOpen = true ∧ o'.dirty = true := by
    intro gs
    induction gs with
    | nil => intro o h1 h2; exact ⟨o, rfl, rfl, rfl, h1, h2⟩
    | cons g gs ih =>
      intro o h1 h2
      obtain ⟨o', e, c, w, t, d⟩ := ih (o.modify kWallet g) h1 (by simp [Obj.modify, h2])
      refine ⟨o', by rw [List.map_cons, List.foldlM_cons]; exact e, ?_, w, t, d⟩
      rw [c]; simp [Obj.modify, h1]
  have spec : ∀ (gs : List (σ → σ)) (s : σ × σ),
      (gs.map .modify).foldl wSpec s = (s.1, gs.foldl (fun x g => g x) s.2) := by
    intro gs
    induction gs with
    | nil => intro s; rfl
    | cons g gs ih => intro s; rw [List.map_cons, List.foldl_cons, ih]; rfl
  obtain ⟨o1, e1, c1, w1, t1, d1⟩ := key gs (o.init kWallet batched)
    (by simp [Obj.init, kWallet]) (by simp [Obj.init, kWallet])
  have c1' : o1.committed = a := by rw [c1]; exact h.1
  have w1' : o1.working = gs.foldl (fun x g => g x) a := by rw [w1]; simp [Obj.init, h.2]
  unfold session
  rw [List.foldlM_append, e1, Res.ok_bind]
  unfold sessionSpec
  rw [List.foldl_append, spec]
  clear e1 c1 w1 key spec
  obtain ⟨c, w, dd, tt⟩ := o1
  simp only at t1 d1 c1' w1'
  subst t1 d1 c1' w1'
  cases last with
  | none => cases batched <;> exact ⟨_, rfl, rfl, rfl⟩
  | some op =>
    cases op with
    | modify g => exact absurd rfl (hl g)
    | commit => cases batched <;> exact ⟨_, rfl, rfl, rfl⟩
    | rollback =>
      cases batched
      · exact absurd rfl (hr rfl)
      · exact ⟨_, rfl, rfl, rfl⟩

/-- **C26, negation for the wallet.** A change made through a wallet batch after its commit is durable
although the batch is dropped without another commit; a second commit throws. -/
theorem wallet_batch_violated :
    session kWallet true [.modify (· + 1), .commit, .modify (· + 10)] (⟨0, 0, false, false⟩ : Obj Nat)
      = .ok ⟨11, 11, false, false⟩ ∧
    sessionSpec true [.modify (· + 1), .commit, .modify (· + 10)] 0 = 1 ∧
    session kWallet true [.modify (· + 1), .commit, .modify (· + 10), .commit] (⟨0, 0, false, false⟩ : Obj Nat)
      = .throw := by
  refine ⟨rfl, rfl, rfl⟩

/-! ## Replacing the output set -/

/-- `TxHashSetManager` (TxHashSetManager.h:22-50): which output set is in use, and the content of each. -/
structure Manager where
  current : Option Nat
  sets : Nat → Nat × Nat

/-- `Rollback` of the manager (TxHashSetManager.h:39-45): only the content of the set in use is rolled
back. -/
def Manager.rollback (m : Manager) : Manager :=
  match m.current with
  | some i => { m with sets := fun j => if j = i then ((m.sets i).1, (m.sets i).1) else m.sets j }
  | none => m

/-- **C26, negation for the output set.** Replacing the output set (`SetTxHashSet`, TxHashSetManager.h:26,
called inside a chain state batch at TxHashSetProcessor.cpp:60) is not undone by rolling the batch back. -/
theorem txhashset_replacement_violated :
    let m : Manager := ⟨some 1, fun _ => (0, 0)⟩
    ({ m with current := some 2 } : Manager).rollback.current = some 2 ∧ m.current = some 1 := by
  exact ⟨rfl, rfl⟩

/-- Sessions of several classes: commit, more changes, drop. -/
example : session kDataFile true [.modify (· + 1), .commit, .modify (· + 10)] (⟨0, 0, false, false⟩ : Obj Nat)
    = .ok ⟨1, 1, false, false⟩ := rfl
example : session kBlockDB false [.modify (· + 1), .modify (· + 10)] (⟨0, 0, false, false⟩ : Obj Nat)
    = .ok ⟨11, 11, false, false⟩ := rfl
example : compositeSession true [.modify 0 (· + 1), .modify 1 (· + 5), .commit, .modify 2 (· + 7)]
    [(kPlain, (⟨0, 0, false, false⟩ : Obj Nat)), (kBlockDB, ⟨0, 0, false, false⟩), (kHeaderMMR, ⟨0, 0, false, false⟩)]
    = .ok [(kPlain, ⟨1, 1, false, false⟩), (kBlockDB, ⟨5, 5, false, false⟩), (kHeaderMMR, ⟨0, 0, false, false⟩)] := rfl

end Verif.Props
