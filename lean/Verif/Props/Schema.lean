import Verif.Wallet.Schema

/-!
# C100: a stored wallet survives closing, opening and upgrading

What a wallet stored is there after it is opened again, by the program that stored it or by a newer one, and an upgraded
wallet can be used.
-/
namespace Verif.Props
open Verif.Codec Verif.Wallet.Schema

/-- A row of the slate table without its slatepack. -/
private def bare (r : SlateRow) : SlateRow := { r with armored := none }

/-- Spec: the same outputs, transactions, counters, contexts and slates are stored; slatepacks and accounts apart. -/
def SameRecords (a b : Store) : Prop :=
  a.outputs = b.outputs ∧ a.txs = b.txs ∧ a.metaRow = b.metaRow ∧ a.contexts = b.contexts ∧
    a.slate.map (fun t => t.rows.map (fun r => (r.id, r.stage, r.iv, r.blob))) =
      b.slate.map (fun t => t.rows.map (fun r => (r.id, r.stage, r.iv, r.blob)))

/-- Spec: the accounts and their next keys. -/
def accountKeys (s : Store) : Option (List (Bytes × Bytes × Nat)) :=
  s.accounts.map (fun t => t.rows.map (fun r => (r.path, r.name, r.next)))

variable {O : Type} (C : OutCrypt O)

private theorem open_four (s : Store) (t : List Nat) (hv : s.version = some (4 :: t)) : openStore C s = (s, true) := by
  simp [openStore, migrate, currentVersion, hv, LATEST]

private theorem migrate_two (s : Store) (t : SlateTab) (rs : List AccountRow) (hv : s.version = some [2])
    (hs : s.slate = some t) (ha : s.accounts = some ⟨true, rs⟩) :
    migrate C s = .ok { s with version := some [4], slate := some ⟨true, t.rows.map bare⟩ } := by
  simp only [migrate, currentVersion, hv, LATEST, versionUpdate, outputsUpdate, metaUpdate, contextUpdate, slateUpdate,
    accountsUpdate]
  simp [hs, ha, bare]

private theorem open_two (s : Store) (t : SlateTab) (rs : List AccountRow) (hv : s.version = some [2])
    (hs : s.slate = some t) (ha : s.accounts = some ⟨true, rs⟩) :
    openStore C s = ({ s with version := some [4], slate := some ⟨true, t.rows.map bare⟩ }, true) := by
  simp only [openStore, migrate_two C s t rs hv hs ha]

/-- **C100, upgrading from the last two schemas.** A database of schema 3 or 4 opens, has schema 4 afterwards and keeps
every output, transaction, counter, context, slate and slatepack, every account with its next key, and the index of the
current address where it was stored.

Partial: for databases of schema 2 the slatepacks are lost (`upgrade_from_two_partial`, and
`first_session_slatepacks_lost_violated` for new wallets), and older ones cannot be used afterwards
(`version_one_locked_out_violated`). -/
theorem upgrade_keeps_partial (s : Store) (v : Nat) (hv : s.version = some [v]) (h : v = 3 ∨ v = 4) :
    (openStore C s).2 = true ∧ (openStore C s).1.version = some [4] ∧ SameRecords (openStore C s).1 s ∧
      (openStore C s).1.slate = s.slate ∧ accountKeys (openStore C s).1 = accountKeys s ∧
      (∀ rs, s.accounts = some ⟨true, rs⟩ → (openStore C s).1.accounts = s.accounts) ∧
      (∀ rs, s.accounts = some ⟨false, rs⟩ → v = 3 →
        ∀ p, p ∈ rs.map (·.path) → currentAddress (openStore C s).1 p = .ok 0) := by
  rcases h with rfl | rfl
  · cases ha : s.accounts with
    | none =>
      simp [openStore, migrate, currentVersion, hv, LATEST, versionUpdate, outputsUpdate, metaUpdate, contextUpdate,
        slateUpdate, accountsUpdate, ha, SameRecords, accountKeys]
    | some t =>
      obtain ⟨f, rs⟩ := t
      cases f with
      | true =>
        simp [openStore, migrate, currentVersion, hv, LATEST, versionUpdate, outputsUpdate, metaUpdate, contextUpdate,
          slateUpdate, accountsUpdate, ha, SameRecords, accountKeys]
      | false =>
        have ho : openStore C s = ({ s with
            version := some [4]
            accounts := some ⟨true, rs.map (fun r => { r with addr := 0 })⟩ }, true) := by
          simp [openStore, migrate, currentVersion, hv, LATEST, versionUpdate, outputsUpdate, metaUpdate, contextUpdate,
            slateUpdate, accountsUpdate, ha]
        rw [ho]
        refine ⟨rfl, rfl, ⟨rfl, rfl, rfl, rfl, rfl⟩, rfl, ?_, ?_, ?_⟩
        · simp [accountKeys, ha]
        · intro rs' h; simp at h
        · intro rs' h _ p hp
          cases h
          simp only [currentAddress, Bool.not_true, Bool.false_eq_true, if_false]
          rw [List.find?_map]
          cases hf : rs.find? ((fun r : AccountRow => decide (r.path = p)) ∘ fun r => { r with addr := 0 }) with
          | none =>
            rw [List.find?_eq_none] at hf
            obtain ⟨r, hr, hrp⟩ := List.mem_map.mp hp
            have := hf r hr
            simp [hrp] at this
          | some r => rfl
  · rw [open_four C s [] hv]
    exact ⟨rfl, hv, ⟨rfl, rfl, rfl, rfl, rfl⟩, rfl, rfl, fun _ _ => rfl, fun _ _ h => by omega⟩

/-- **C100, a newer database is left alone.** One of a higher schema is refused and not changed. -/
theorem newer_refused (s : Store) (v : Nat) (l : List Nat) (hv : s.version = some (v :: l)) (h : 4 < v) :
    openStore C s = (s, false) := by
  have h1 : ¬ v < 4 := by omega
  simp [openStore, migrate, currentVersion, hv, LATEST, h1, h]

/-- **C100, upgrading from schema 2.** Every record but the slatepacks is kept.  Partial as
`upgrade_keeps_partial`. -/
theorem upgrade_from_two_partial (s : Store) (t : SlateTab) (hv : s.version = some [2]) (hs : s.slate = some t) :
    (openStore C s).2 = true ∧ (openStore C s).1.version = some [4] ∧ SameRecords (openStore C s).1 s ∧
      accountKeys (openStore C s).1 = accountKeys s ∧
      (∀ rs, s.accounts = some ⟨true, rs⟩ → (openStore C s).1.accounts = s.accounts) := by
  cases ha : s.accounts with
  | none =>
    simp [openStore, migrate, currentVersion, hv, LATEST, versionUpdate, outputsUpdate, metaUpdate, contextUpdate,
      slateUpdate, accountsUpdate, ha, hs, SameRecords, accountKeys, Function.comp_def]
  | some a =>
    obtain ⟨f, rs⟩ := a
    cases f <;>
    simp [openStore, migrate, currentVersion, hv, LATEST, versionUpdate, outputsUpdate, metaUpdate, contextUpdate,
      slateUpdate, accountsUpdate, ha, hs, SameRecords, accountKeys, Function.comp_def]

/-! ## Histories of a new wallet -/

/-- The shape of the database of a wallet made by this program. -/
private def Good (s : Store) : Prop :=
  (s.version = some [2] ∨ s.version = some [4]) ∧ (∃ l, s.outputs = some l) ∧ (∃ m, s.metaRow = some m) ∧
    (∃ l, s.contexts = some l) ∧ (∃ rs, s.slate = some ⟨true, rs⟩) ∧
    (∃ r, s.accounts = some ⟨true, [r]⟩ ∧ r.path = userPath)

private theorem good_create (n : Nat) : Good (createStore n) :=
  ⟨.inl rfl, ⟨_, rfl⟩, ⟨_, rfl⟩, ⟨_, rfl⟩, ⟨_, rfl⟩, ⟨_, rfl, rfl⟩⟩

private theorem good_address {s : Store} (h : Good s) : ∃ r, s.accounts = some ⟨true, [r]⟩ ∧ r.path = userPath ∧
    currentAddress s userPath = .ok r.addr := by
  obtain ⟨r, ha, hr⟩ := h.2.2.2.2.2
  exact ⟨r, ha, hr, by simp [currentAddress, ha, hr]⟩

private theorem good_open {s : Store} (h : Good s) :
    ∃ s', openStore C s = (s', true) ∧ Good s' ∧ s'.version = some [4] ∧ s'.accounts = s.accounts := by
  obtain ⟨hv, ho, hm, hc, ⟨rs, hs⟩, ⟨r, ha, hr⟩⟩ := h
  rcases hv with hv | hv
  · exact ⟨_, open_two C s _ _ hv hs ha, ⟨.inr rfl, ho, hm, hc, ⟨_, rfl⟩, ⟨r, ha, hr⟩⟩, rfl, rfl⟩
  · exact ⟨s, open_four C s [] hv, ⟨.inr hv, ho, hm, hc, ⟨rs, hs⟩, ⟨r, ha, hr⟩⟩, hv, rfl⟩

private theorem good_step {s : Store} (h : Good s) (op : Op) :
    Good (stepStore C s op) ∧ ∃ i j, currentAddress s userPath = .ok i ∧
      currentAddress (stepStore C s op) userPath = .ok j ∧ j = if op = .nextAddress then i + 1 else i := by
  obtain ⟨r, ha, hr, hi⟩ := good_address h
  have h' := h
  obtain ⟨hv, ⟨lo, ho⟩, ⟨lm, hm⟩, ⟨lc, hc⟩, ⟨rs, hs⟩, _⟩ := h'
  cases op with
  | saveSlate id st iv b a =>
    simp only [stepStore, saveSlate, hs]
    exact ⟨⟨hv, ⟨lo, ho⟩, ⟨lm, hm⟩, ⟨lc, hc⟩, ⟨_, rfl⟩, ⟨r, ha, hr⟩⟩, _, _, hi, hi, rfl⟩
  | saveContext id b =>
    simp only [stepStore, saveContext, hc]
    by_cases hx : (lc.any fun e => decide (e.1 = id)) = true
    · simp only [hx, if_true]
      exact ⟨h, _, _, hi, hi, rfl⟩
    · simp only [hx]
      exact ⟨⟨hv, ⟨lo, ho⟩, ⟨lm, hm⟩, ⟨_, rfl⟩, ⟨rs, hs⟩, ⟨r, ha, hr⟩⟩, _, _, hi, hi, rfl⟩
  | addOutput c b =>
    exact ⟨⟨hv, ⟨_, by simp [stepStore, ho]; rfl⟩, ⟨lm, hm⟩, ⟨lc, hc⟩, ⟨rs, hs⟩, ⟨r, ha, hr⟩⟩, _, _, hi, hi, rfl⟩
  | addTx i b => exact ⟨⟨hv, ⟨lo, ho⟩, ⟨lm, hm⟩, ⟨lc, hc⟩, ⟨rs, hs⟩, ⟨r, ha, hr⟩⟩, _, _, hi, hi, rfl⟩
  | saveMeta m =>
    exact ⟨⟨hv, ⟨lo, ho⟩, ⟨m, by simp [stepStore, hm]⟩, ⟨lc, hc⟩, ⟨rs, hs⟩, ⟨r, ha, hr⟩⟩, _, _, hi, hi, rfl⟩
  | nextChild i =>
    have e : stepStore C s (.nextChild i) = { s with accounts := some ⟨true, [{ r with next := i }]⟩ } := by
      simp [stepStore, updateAccount, ha, hr]
    rw [e]
    refine ⟨⟨hv, ⟨lo, ho⟩, ⟨lm, hm⟩, ⟨lc, hc⟩, ⟨rs, hs⟩, ⟨_, rfl, hr⟩⟩, r.addr, r.addr, hi, ?_, rfl⟩
    simp [currentAddress, hr]
  | nextAddress =>
    have e : stepStore C s .nextAddress = { s with accounts := some ⟨true, [{ r with addr := r.addr + 1 }]⟩ } := by
      simp only [stepStore, increaseAddress, hi, Res.ok_bind, Res.pure_eq]
      simp [updateAccount, ha, hr]
    rw [e]
    refine ⟨⟨hv, ⟨lo, ho⟩, ⟨lm, hm⟩, ⟨lc, hc⟩, ⟨rs, hs⟩, ⟨_, rfl, hr⟩⟩, r.addr, r.addr + 1, hi, ?_, by simp⟩
    simp [currentAddress, hr]
  | reopen =>
    obtain ⟨s', hopen, hg, _, hacc⟩ := good_open C h
    have e : stepStore C s .reopen = s' := by simp [stepStore, hopen]
    rw [e]
    refine ⟨hg, r.addr, r.addr, hi, ?_, by simp⟩
    simp [currentAddress, hacc, ha, hr]

private theorem good_run (ops : List Op) : ∀ s, Good s → Good (runStore C s ops) ∧ ∀ i, currentAddress s userPath = .ok i →
    currentAddress (runStore C s ops) userPath = .ok (i + ops.count .nextAddress) := by
  induction ops with
  | nil => intro s h; exact ⟨h, fun i hi => by simpa [runStore] using hi⟩
  | cons op ops ih =>
    intro s h
    obtain ⟨hg, i, j, hi, hj, hij⟩ := good_step C h op
    obtain ⟨g2, a2⟩ := ih _ hg
    refine ⟨g2, fun i' hi' => ?_⟩
    have : i' = i := by rw [hi] at hi'; cases hi'; rfl
    subst this
    have := a2 j hj
    simp only [runStore, List.foldl_cons] at this ⊢
    rw [this, hij, List.count_cons]
    by_cases hop : op = .nextAddress
    · simp [hop]; omega
    · simp [hop]

/-- **C100, a wallet made by this program can always be logged into**: after any history of saving, changing the address
and reopening, logging in opens the database and finds the address index, which is the number of times the address was
changed. -/
theorem always_opens (n : Nat) (ops : List Op) :
    (loginStore C (runStore C (createStore n) ops)).2 = .ok (ops.count .nextAddress) := by
  obtain ⟨hg, ha⟩ := good_run C ops _ (good_create n)
  obtain ⟨s', ho, hg', _, hacc⟩ := good_open C hg
  have h0 := ha 0 rfl
  rw [Nat.zero_add] at h0
  simp only [loginStore, ho]
  rw [← h0]
  simp [currentAddress, hacc]

/-- Equal but for the number of the schema. -/
private def Tagged (a b : Store) : Prop := a = { b with version := some [4] }

private theorem tagged_step {a b : Store} (h : Tagged a b) (hb : b.version = some [2]) (op : Op) (hop : op ≠ .reopen) :
    Tagged (stepStore C a op) (stepStore C b op) ∧ (stepStore C b op).version = some [2] := by
  unfold Tagged at h
  subst h
  obtain ⟨ver, outs, txs, me, ctx, sl, acc⟩ := b
  cases op with
  | saveSlate id st iv bl ar =>
    simp only [stepStore, saveSlate]
    cases sl with
    | none => exact ⟨rfl, hb⟩
    | some t => obtain ⟨f, rs⟩ := t; cases f <;> exact ⟨rfl, hb⟩
  | saveContext id bl =>
    simp only [stepStore, saveContext]
    cases ctx with
    | none => exact ⟨rfl, hb⟩
    | some t =>
      dsimp only
      by_cases hx : (t.any fun e => decide (e.1 = id)) = true
      · simp only [hx, if_true]; exact ⟨rfl, hb⟩
      · simp only [hx]; exact ⟨rfl, hb⟩
  | addOutput c bl => exact ⟨rfl, hb⟩
  | addTx i bl => exact ⟨rfl, hb⟩
  | saveMeta m => exact ⟨rfl, hb⟩
  | nextChild i => exact ⟨rfl, hb⟩
  | nextAddress =>
    simp only [stepStore, increaseAddress]
    have e : currentAddress ⟨some [4], outs, txs, me, ctx, sl, acc⟩ userPath =
      currentAddress ⟨ver, outs, txs, me, ctx, sl, acc⟩ userPath := rfl
    rw [e]
    cases currentAddress ⟨ver, outs, txs, me, ctx, sl, acc⟩ userPath with
    | ok i => exact ⟨rfl, hb⟩
    | throw => exact ⟨rfl, hb⟩
    | ub => exact ⟨rfl, hb⟩
  | reopen => exact absurd rfl hop

private theorem tagged_run (ops : List Op) : ∀ a b, Tagged a b → b.version = some [2] →
    Tagged (runStore C a ops) (runStore C b (ops.filter (fun o => o ≠ .reopen))) := by
  induction ops with
  | nil => intro a b h _; exact h
  | cons op ops ih =>
    intro a b h hb
    by_cases hop : op = .reopen
    · subst hop
      have e : stepStore C a .reopen = a := by
        simp only [stepStore]
        rw [open_four C a [] (by rw [h])]
      simpa [runStore, e] using ih a b h hb
    · obtain ⟨h1, h2⟩ := tagged_step C h hb op hop
      simpa [runStore, hop] using ih _ _ h1 h2

/-- **C100, reopening changes nothing.** Once a new wallet has been opened a second time, closing and opening it any
number of times at any points of a history leaves exactly what the same history without them leaves.

Partial: the second opening itself removes the slatepacks of the first session
(`first_session_slatepacks_lost_violated`). -/
theorem reopening_invisible_partial (n : Nat) (ops : List Op) :
    runStore C (createStore n) (.reopen :: ops) =
      { runStore C (createStore n) (ops.filter (fun o => o ≠ .reopen)) with version := some [4] } := by
  have h := tagged_run C ops (stepStore C (createStore n) .reopen) (createStore n) (by
    have e := open_two C (createStore n) ⟨true, []⟩ _ rfl rfl rfl
    simp only [stepStore, e]
    rfl) rfl
  exact h

/-- Equal but for the number of the schema and slatepacks. -/
private def Close (a b : Store) : Prop :=
  a.outputs = b.outputs ∧ a.txs = b.txs ∧ a.metaRow = b.metaRow ∧ a.contexts = b.contexts ∧ a.accounts = b.accounts ∧
    ∃ ra rb, a.slate = some ⟨true, ra⟩ ∧ b.slate = some ⟨true, rb⟩ ∧ ra.map bare = rb.map bare

private theorem close_step {a b : Store} (h : Close a b) (op : Op) (hop : op ≠ .reopen) :
    Close (stepStore C a op) (stepStore C b op) := by
  obtain ⟨h1, h2, h3, h4, h5, ra, rb, h6, h7, h8⟩ := h
  cases op with
  | saveSlate id st iv bl ar =>
    simp only [stepStore, saveSlate, h6, h7]
    exact ⟨h1, h2, h3, h4, h5, _, _, rfl, rfl, by simp [h8]⟩
  | saveContext id bl =>
    simp only [stepStore, saveContext, h4]
    cases hs : b.contexts with
    | none => exact ⟨h1, h2, h3, h4, h5, ra, rb, h6, h7, h8⟩
    | some t =>
      dsimp only
      by_cases hx : (t.any fun e => decide (e.1 = id)) = true
      · simp only [hx, if_true]; exact ⟨h1, h2, h3, h4, h5, ra, rb, h6, h7, h8⟩
      · simp only [hx]; exact ⟨h1, h2, h3, rfl, h5, ra, rb, h6, h7, h8⟩
  | addOutput c bl => exact ⟨by simp [stepStore, h1], h2, h3, h4, h5, ra, rb, h6, h7, h8⟩
  | addTx i bl => exact ⟨h1, by simp [stepStore, h2], h3, h4, h5, ra, rb, h6, h7, h8⟩
  | saveMeta m => exact ⟨h1, h2, by simp [stepStore, h3], h4, h5, ra, rb, h6, h7, h8⟩
  | nextChild i => exact ⟨h1, h2, h3, h4, by simp [stepStore, updateAccount, h5], ra, rb, h6, h7, h8⟩
  | nextAddress =>
    simp only [stepStore, increaseAddress]
    have e : currentAddress a userPath = currentAddress b userPath := by simp [currentAddress, h5]
    rw [e]
    cases currentAddress b userPath with
    | ok i => exact ⟨h1, h2, h3, h4, by simp [updateAccount, h5], ra, rb, h6, h7, h8⟩
    | throw => exact ⟨h1, h2, h3, h4, h5, ra, rb, h6, h7, h8⟩
    | ub => exact ⟨h1, h2, h3, h4, h5, ra, rb, h6, h7, h8⟩
  | reopen => exact absurd rfl hop

private theorem close_run (ops : List Op) : ∀ a b, Good a → Close a b →
    Close (runStore C a ops) (runStore C b (ops.filter (fun o => o ≠ .reopen))) := by
  induction ops with
  | nil => intro a b _ h; exact h
  | cons op ops ih =>
    intro a b hg h
    by_cases hop : op = .reopen
    · subst hop
      have hc : Close (stepStore C a .reopen) b := by
        obtain ⟨h1, h2, h3, h4, h5, ra, rb, h6, h7, h8⟩ := h
        obtain ⟨hv, _, _, _, _, ⟨r, ha, hr⟩⟩ := hg
        rcases hv with hv | hv
        · simp only [stepStore]
          rw [open_two C a _ _ hv h6 ha]
          refine ⟨h1, h2, h3, h4, h5, _, rb, rfl, h7, ?_⟩
          rw [List.map_map, ← h8]
          rfl
        · simp only [stepStore]
          rw [open_four C a [] hv]
          exact ⟨h1, h2, h3, h4, h5, ra, rb, h6, h7, h8⟩
      simpa [runStore] using ih _ b (good_step C hg .reopen).1 hc
    · simpa [runStore, hop] using ih _ _ (good_step C hg op).1 (close_step C h op hop)

/-- **C100, what a new wallet stored is there.** In every history of a wallet made by this program, with closing and
opening at any points, the outputs, transactions, counters, contexts, slates and accounts are those of the same history
without closing and opening.  Partial: not the slatepacks (`first_session_slatepacks_lost_violated`). -/
theorem stored_records_kept_partial (n : Nat) (ops : List Op) :
    SameRecords (runStore C (createStore n) ops)
      (runStore C (createStore n) (ops.filter (fun o => o ≠ .reopen))) ∧
    (runStore C (createStore n) ops).accounts =
      (runStore C (createStore n) (ops.filter (fun o => o ≠ .reopen))).accounts := by
  obtain ⟨h1, h2, h3, h4, h5, ra, rb, h6, h7, h8⟩ := close_run C ops _ _ (good_create n)
    ⟨rfl, rfl, rfl, rfl, rfl, [], [], rfl, rfl, rfl⟩
  refine ⟨⟨h1, h2, h3, h4, ?_⟩, h5⟩
  rw [h6, h7]
  have := congrArg (List.map (fun r : SlateRow => (r.id, r.stage, r.iv, r.blob))) h8
  simpa [List.map_map, Function.comp_def, bare] using this

/-! ## The slate shown for a transaction -/

private theorem latest_append {S : Type} (dec : Bytes → Bytes → Option S) (l1 l2 : List SlateRow) : ∀ a,
    latestLoop dec (l1 ++ l2) a = latestLoop dec l1 a >>= latestLoop dec l2 := by
  induction l1 with
  | nil => intro a; rfl
  | cons r t ih =>
    intro a
    simp only [List.cons_append, latestLoop]
    cases latestStep dec r a with
    | ok b => simp only [Res.ok_bind]; exact ih b
    | throw => rfl
    | ub => rfl

private theorem latest_le {S : Type} (dec : Bytes → Bytes → Option S) (k : Nat) (l : List SlateRow)
    (h : ∀ r ∈ l, ∃ st, stageOfText r.stage = .ok st ∧ st.toByte ≤ k) : ∀ a, a.1 ≤ k →
    ∃ b, latestLoop dec l a = .ok b ∧ b.1 ≤ k := by
  induction l with
  | nil => intro a ha; exact ⟨a, rfl, ha⟩
  | cons r t ih =>
    intro a ha
    obtain ⟨st, hst, hk⟩ := h r (by simp)
    have : ∃ b, latestStep dec r a = .ok b ∧ b.1 ≤ k := by
      simp only [latestStep, hst]
      split
      · exact ⟨a, rfl, ha⟩
      · split
        · exact ⟨a, rfl, ha⟩
        · split
          · exact ⟨a, rfl, ha⟩
          · exact ⟨_, rfl, hk⟩
    obtain ⟨b, hb, hbk⟩ := this
    obtain ⟨c, hc, hck⟩ := ih (fun r hr => h r (by simp [hr])) b hbk
    exact ⟨c, by simp [latestLoop, hb, hc], hck⟩

private theorem latest_lt {S : Type} (dec : Bytes → Bytes → Option S) (l : List SlateRow) (a : Latest S)
    (h : ∀ r ∈ l, ∃ st, stageOfText r.stage = .ok st ∧ st.toByte < a.1) : latestLoop dec l a = .ok a := by
  induction l with
  | nil => rfl
  | cons r t ih =>
    obtain ⟨st, hst, hk⟩ := h r (by simp)
    have : latestStep dec r a = .ok a := by simp [latestStep, hst, hk]
    simp [latestLoop, this, ih (fun r hr => h r (by simp [hr]))]

/-- **C100, the newest slate of the highest stage is shown**, with the slatepack saved with it: of the rows of a slate,
all of known stages, the one returned is the readable row after which only lower stages follow and before which no higher
stage was saved. -/
theorem latest_slate {S : Type} (dec : Bytes → Bytes → Option S) (s : Store) (id : Bytes) (rows pre post : List SlateRow)
    (r : SlateRow) (st : Stage) (x : S) (hs : s.slate = some ⟨true, rows⟩)
    (hsplit : rows.filter (fun r => r.id = id) = pre ++ r :: post)
    (hst : stageOfText r.stage = .ok st) (hiv : r.iv.length = 16) (hdec : dec r.iv r.blob = some x)
    (hpre : ∀ q ∈ pre, ∃ t, stageOfText q.stage = .ok t ∧ t.toByte ≤ st.toByte)
    (hpost : ∀ q ∈ post, ∃ t, stageOfText q.stage = .ok t ∧ t.toByte < st.toByte) :
    loadLatest dec id s = .ok (some x, r.armored.getD []) := by
  have hloop : latestLoop dec (pre ++ r :: post) (0, none, []) = .ok (st.toByte, some x, r.armored.getD []) := by
    obtain ⟨b, hb, hbk⟩ := latest_le dec st.toByte pre hpre (0, none, []) (Nat.zero_le _)
    rw [latest_append, hb, Res.ok_bind]
    have : latestStep dec r b = .ok (st.toByte, some x, r.armored.getD []) := by
      have h1 : ¬ st.toByte < b.1 := by omega
      simp [latestStep, hst, h1, hiv, hdec]
    simp only [latestLoop, this, Res.ok_bind]
    exact latest_lt dec post _ hpost
  simp only [loadLatest, hs, Bool.not_true, Bool.false_eq_true, if_false, hsplit, hloop, Res.ok_bind]

/-- **C100, slates of other transactions.** Saving a slate changes nothing of what is loaded for any other. -/
theorem other_slates_kept {S : Type} (dec : Bytes → Bytes → Option S) (s s' : Store) (id stage iv blob armored other : Bytes)
    (h : saveSlate id stage iv blob armored s = .ok s') (hne : other ≠ id) : loadLatest dec other s' = loadLatest dec other s := by
  unfold saveSlate at h
  cases hs : s.slate with
  | none => rw [hs] at h; cases h
  | some t =>
    rw [hs] at h
    dsimp only at h
    by_cases ha : t.hasArmored = true
    · rw [ha] at h
      simp only [Bool.not_true, Bool.false_eq_true, if_false, Res.ok.injEq] at h
      subst h
      simp [loadLatest, hs, ha, List.filter_append, Ne.symm hne]
    · simp only [Bool.not_eq_true] at ha
      rw [ha] at h
      cases h

/-- **C100, the stages of one transaction.** Saved at a stage not below those already stored, the slate is the one loaded
from then on, with its slatepack. -/
theorem saved_slate_loaded {S : Type} (dec : Bytes → Bytes → Option S) (s s' : Store) (id stage iv blob armored : Bytes)
    (rows : List SlateRow) (st : Stage) (x : S) (hr : s.slate = some ⟨true, rows⟩)
    (h : saveSlate id stage iv blob armored s = .ok s') (hst : stageOfText stage = .ok st) (hiv : iv.length = 16)
    (hdec : dec iv blob = some x)
    (hold : ∀ q ∈ rows, q.id = id → ∃ t, stageOfText q.stage = .ok t ∧ t.toByte ≤ st.toByte) :
    loadLatest dec id s' = .ok (some x, armored) := by
  simp only [saveSlate, hr, Bool.not_true, Bool.false_eq_true, if_false, Res.ok.injEq] at h
  subst h
  have := latest_slate dec
    { s with slate := some ⟨true, rows ++ [⟨id, stage, iv, blob, if armored = [] then none else some armored⟩]⟩ } id
    (rows ++ [⟨id, stage, iv, blob, if armored = [] then none else some armored⟩])
    (rows.filter (fun r => r.id = id)) [] ⟨id, stage, iv, blob, if armored = [] then none else some armored⟩ st x rfl
    (by simp [List.filter_append]) hst hiv hdec
    (by
      intro q hq
      simp only [List.mem_filter, decide_eq_true_eq] at hq
      exact hold q hq.1 hq.2) (by simp)
  rw [this]
  by_cases ha : armored = [] <;> simp [ha]

/-! ## Where it fails -/

/-- **C100, negation: the slatepacks of the first session are lost.** The database of a new wallet is marked as schema 2,
so the next opening copies the slate table without its slatepacks: whatever was done in the first session, after the next
opening the wallet shows an empty slatepack for every slate. -/
theorem first_session_slatepacks_lost_violated (n : Nat) (ops : List Op) (hops : Op.reopen ∉ ops) :
    (∀ t, (runStore C (createStore n) (ops ++ [.reopen])).slate = some t → ∀ r ∈ t.rows, r.armored = none) ∧
    (∀ (S : Type) (dec : Bytes → Bytes → Option S) id o p,
      loadLatest dec id (runStore C (createStore n) (ops ++ [.reopen])) = .ok (o, p) → p = []) := by
  have hb : (runStore C (createStore n) ops).version = some [2] := by
    have : ∀ (ops : List Op) b, Op.reopen ∉ ops → b.version = some [2] → (runStore C b ops).version = some [2] := by
      intro ops
      induction ops with
      | nil => intro b _ h; exact h
      | cons op ops ih =>
        intro b hno h
        have h1 := (tagged_step C (a := { b with version := some [4] }) rfl h op (by
          intro e; exact hno (by simp [e]))).2
        exact ih _ (fun hm => hno (by simp [hm])) h1
    exact this ops _ hops rfl
  obtain ⟨hg, _⟩ := good_run C ops _ (good_create n)
  obtain ⟨rs, hs⟩ := hg.2.2.2.2.1
  obtain ⟨r, ha, _⟩ := hg.2.2.2.2.2
  have e : runStore C (createStore n) (ops ++ [.reopen]) =
      { runStore C (createStore n) ops with version := some [4], slate := some ⟨true, rs.map bare⟩ } := by
    rw [runStore, List.foldl_append]
    simp only [List.foldl_cons, List.foldl_nil, stepStore]
    exact congrArg Prod.fst (open_two C _ _ _ hb hs ha)
  rw [e]
  refine ⟨?_, ?_⟩
  · intro t ht q hq
    cases ht
    obtain ⟨q', _, rfl⟩ := List.mem_map.mp hq
    rfl
  · intro S dec id o p hl
    simp only [loadLatest, Bool.not_true, Bool.false_eq_true, if_false] at hl
    have : ∀ (l : List SlateRow), (∀ q ∈ l, q.armored = none) → ∀ a b : Latest S, a.2.2 = [] →
        latestLoop dec l a = .ok b → b.2.2 = [] := by
      intro l
      induction l with
      | nil => intro _ a b ha h; cases h; exact ha
      | cons q l ih =>
        intro hq a b ha h
        simp only [latestLoop] at h
        obtain ⟨c, hc, hcb⟩ := Res.bind_eq_ok.mp h
        refine ih (fun q hq' => hq q (by simp [hq'])) c b ?_ hcb
        simp only [latestStep] at hc
        split at hc
        · split at hc
          · cases hc; exact ha
          · split at hc
            · cases hc; exact ha
            · split at hc
              · cases hc; exact ha
              · cases hc; simp [hq q (by simp)]
        · cases hc
        · cases hc
    obtain ⟨b, hb', hbe⟩ := Res.bind_eq_ok.mp hl
    have := this _ (by
      intro q hq
      obtain ⟨q', _, rfl⟩ := List.mem_map.mp (List.mem_filter.mp hq).1
      rfl) _ _ rfl hb'
    injection hbe with hbe
    rw [hbe] at this
    exact this

/-- **C100, negation: a wallet of schema 1 is locked out by the upgrade.** Its accounts have no address index, or it has
no table of accounts; the upgrade succeeds, marks the database as schema 4 and drops the contexts of pending
transactions, and every login, this one and all later ones, fails. -/
theorem version_one_locked_out_violated (s : Store) (cs : List (Bytes × Bytes)) (hv : s.version = some [1])
    (hc : s.contexts = some cs) (hs : s.slate = none)
    (ha : s.accounts = none ∨ ∃ rs, s.accounts = some ⟨false, rs⟩) :
    (openStore C s).2 = true ∧ (openStore C s).1.version = some [4] ∧ (openStore C s).1.contexts = some [] ∧
      ∀ k, (loginStore C (Nat.repeat (fun s => (loginStore C s).1) k s)).2 = .throw := by
  obtain ⟨s', ho, hv', hc', hbad⟩ : ∃ s', openStore C s = (s', true) ∧ s'.version = some [4] ∧
      s'.contexts = some [] ∧ currentAddress s' userPath = .throw := by
    rcases ha with ha | ⟨rs, ha⟩
    · refine ⟨{ s with
          version := some [4]
          contexts := some []
          slate := some ⟨true, []⟩
          accounts := some ⟨true, []⟩ }, ?_, rfl, rfl, rfl⟩
      simp [openStore, migrate, currentVersion, hv, LATEST, versionUpdate, outputsUpdate, metaUpdate, contextUpdate,
        slateUpdate, accountsUpdate, ha, hs, hc]
    · refine ⟨{ s with version := some [4], contexts := some [], slate := some ⟨true, []⟩ }, ?_, rfl, rfl, ?_⟩
      · simp [openStore, migrate, currentVersion, hv, LATEST, versionUpdate, outputsUpdate, metaUpdate, contextUpdate,
          slateUpdate, accountsUpdate, ha, hs, hc]
      · simp [currentAddress, ha]
  have h4 : openStore C s' = (s', true) := open_four C s' [] hv'
  have hrep : ∀ k, Nat.repeat (fun s => (loginStore C s).1) (k + 1) s = s' := by
    intro k
    induction k with
    | zero => simp [Nat.repeat, loginStore, ho]
    | succ k ih =>
      have : Nat.repeat (fun s => (loginStore C s).1) (k + 1 + 1) s =
          (loginStore C (Nat.repeat (fun s => (loginStore C s).1) (k + 1) s)).1 := rfl
      rw [this, ih]
      simp [loginStore, h4]
  refine ⟨by rw [ho], by rw [ho]; exact hv', by rw [ho]; exact hc', ?_⟩
  intro k
  cases k with
  | zero => simp [Nat.repeat, loginStore, ho, hbad]
  | succ k => rw [hrep k]; simp [loginStore, h4, hbad]

/-! ## The oldest databases -/

private theorem upsert_new {K V : Type} [DecidableEq K] (k : K) (v : V) (l : List (K × V)) (h : k ∉ l.map (·.1)) :
    upsert k v l = l ++ [(k, v)] := by
  induction l with
  | nil => rfl
  | cons e t ih =>
    obtain ⟨k', v'⟩ := e
    simp only [List.map_cons, List.mem_cons, not_or] at h
    simp [upsert, Ne.symm h.1, ih h.2]

private theorem add_distinct (os : List O) : ∀ rows : List (Bytes × Bytes),
    (rows.map (·.1) ++ os.map C.commit).Nodup →
    addOutputs C os rows = rows ++ os.map (fun o => (C.commit o, C.enc o)) := by
  induction os with
  | nil => intro rows _; simp [addOutputs]
  | cons o os ih =>
    intro rows h
    have hn : C.commit o ∉ rows.map (·.1) := by
      intro hm
      have := (List.nodup_append.mp h).2.2 _ hm (C.commit o) (by simp)
      exact this rfl
    have e : addOutputs C (o :: os) rows = addOutputs C os (upsert (C.commit o) (C.enc o) rows) := rfl
    rw [e, upsert_new _ _ _ hn, ih]
    · simp
    · simpa using h

private theorem dec_enc (h : ∀ o, C.dec (C.enc o) = some o) (os : List O) :
    decRows C (os.map (fun o => (C.commit o, C.enc o))) = .ok os := by
  induction os with
  | nil => rfl
  | cons o os ih => simp [decRows, h, ih]

/-- **C100, upgrading a database without a schema number** keeps the outputs, the transactions, the next transaction id
and the refreshed height; the outputs are searched for again from the first leaf.  The number written is 2, so the next
opening upgrades once more. -/
theorem upgrade_from_zero_partial (h : ∀ o, C.dec (C.enc o) = some o) (s : Store) (os : List O) (i ht lf : Nat)
    (cs : List (Bytes × Bytes)) (hv : s.version = none) (ho : getOutputs C s = .ok os)
    (hd : (os.map C.commit).Nodup) (hm : s.metaRow = some (i, ht, lf)) (hc : s.contexts = some cs)
    (hs : s.slate = none) :
    (openStore C s).2 = true ∧ getOutputs C (openStore C s).1 = .ok os ∧ (openStore C s).1.txs = s.txs ∧
      (openStore C s).1.metaRow = some (i, ht, 0) ∧ (openStore C s).1.version = some [2] ∧
      (openStore C (openStore C s).1).2 = true ∧ (openStore C (openStore C s).1).1.version = some [4] ∧
      getOutputs C (openStore C (openStore C s).1).1 = .ok os ∧
      (∀ rs, s.accounts = some ⟨false, rs⟩ → userPath ∈ rs.map (·.path) →
        (loginStore C s).2 = .throw ∧ (loginStore C (loginStore C s).1).2 = .ok 0) := by
  have hadd : addOutputs C os [] = os.map (fun o => (C.commit o, C.enc o)) := by
    simpa using add_distinct C os [] (by simpa using hd)
  have hg : ∀ s1 : Store, s1.outputs = s.outputs → getOutputs C s1 = .ok os := by
    intro s1 e
    simpa only [getOutputs, e] using ho
  let acc : Option AccountTab := match s.accounts with | none => some ⟨true, []⟩ | some t => some t
  have h1 : openStore C s = ({ s with
      version := some [2]
      outputs := some (os.map (fun o => (C.commit o, C.enc o)))
      metaRow := some (i, ht, 0)
      contexts := some []
      slate := some ⟨true, []⟩
      accounts := acc }, true) := by
    have hg' : ∀ v m c sl a, getOutputs C ⟨v, s.outputs, s.txs, m, c, sl, a⟩ = .ok os := fun _ _ _ _ _ => hg _ rfl
    cases ha : s.accounts with
    | none =>
      simp only [openStore, migrate, currentVersion, hv, LATEST, versionUpdate, createVersion, outputsUpdate, metaUpdate,
        contextUpdate, slateUpdate, accountsUpdate]
      simp [hg', hm, hc, hs, ha, hadd, acc]
    | some t =>
      simp only [openStore, migrate, currentVersion, hv, LATEST, versionUpdate, createVersion, outputsUpdate, metaUpdate,
        contextUpdate, slateUpdate, accountsUpdate]
      simp [hg', hm, hc, hs, ha, hadd, acc]
  have h2 := upgrade_from_two_partial C (openStore C s).1 ⟨true, []⟩ (by rw [h1]) (by rw [h1])
  refine ⟨by rw [h1], ?_, by rw [h1], by rw [h1], by rw [h1], h2.1, h2.2.1, ?_, ?_⟩
  · rw [h1]; exact dec_enc C h os
  · have : (openStore C (openStore C s).1).1.outputs = some (os.map (fun o => (C.commit o, C.enc o))) := by
      rw [h2.2.2.1.1, h1]
    simp only [getOutputs, this]
    exact dec_enc C h os
  · intro rs ha hp
    have hacc : acc = some ⟨false, rs⟩ := by simp [acc, ha]
    rw [hacc] at h1
    refine ⟨by simp [loginStore, h1, currentAddress], ?_⟩
    have e1 : (loginStore C s).1 = (openStore C s).1 := by simp [loginStore, h1]
    rw [e1, h1]
    have h3 : openStore C { s with
        version := some [2]
        outputs := some (os.map (fun o => (C.commit o, C.enc o)))
        metaRow := some (i, ht, 0)
        contexts := some []
        slate := some ⟨true, []⟩
        accounts := some ⟨false, rs⟩ } = ({ s with
        version := some [4]
        outputs := some (os.map (fun o => (C.commit o, C.enc o)))
        metaRow := some (i, ht, 0)
        contexts := some []
        slate := some ⟨true, []⟩
        accounts := some ⟨true, rs.map (fun r => { r with addr := 0 })⟩ }, true) := by
      simp [openStore, migrate, currentVersion, LATEST, versionUpdate, outputsUpdate, metaUpdate, contextUpdate,
        slateUpdate, accountsUpdate]
    simp only [loginStore, h3, currentAddress, Bool.not_true, Bool.false_eq_true, if_false]
    rw [List.find?_map]
    cases hf : rs.find? ((fun r : AccountRow => decide (r.path = userPath)) ∘ fun r => { r with addr := 0 }) with
    | none =>
      rw [List.find?_eq_none] at hf
      obtain ⟨r, hr, hrp⟩ := List.mem_map.mp hp
      have := hf r hr
      simp [hrp] at this
    | some r => rfl

/-! ## Cases -/

/-- Toy encryption: none. -/
private def toy : OutCrypt Bytes := ⟨fun o => o.take 1, some, fun o => o⟩
private def toyDec : Bytes → Bytes → Option Bytes := fun _ b => some b
private def toyIv : Bytes := List.replicate 16 7
private def toySent : Op := .saveSlate [1] (str "S1") toyIv [9] [66]
private def toyDone : Op := .saveSlate [1] (str "S3") toyIv [10] [67]

/-- The slatepack is shown in the first session and empty after the next opening; the slate itself is still there. -/
example : loadLatest toyDec [1] (runStore toy (createStore 5) [toySent]) = .ok (some [9], [66]) ∧
    loadLatest toyDec [1] (runStore toy (createStore 5) [toySent, .reopen]) = .ok (some [9], []) := by decide +kernel
/-- Saved in a later session it stays. -/
example : loadLatest toyDec [1] (runStore toy (createStore 5) [.reopen, toySent, toyDone, .reopen, .reopen]) =
    .ok (some [10], [67]) := by decide +kernel
example : (loginStore toy (runStore toy (createStore 5) [.nextAddress, .reopen, toySent, .nextAddress])).2 = .ok 2 := by
  decide +kernel
/-- A second transaction between the two stages of the first leaves it as it is. -/
example : loadLatest toyDec [1] (runStore toy (createStore 5) [.reopen, toySent, .saveSlate [2] (str "S1") toyIv [8] [65], toyDone]) =
      .ok (some [10], [67]) ∧
    loadLatest toyDec [2] (runStore toy (createStore 5) [.reopen, toySent, .saveSlate [2] (str "S1") toyIv [8] [65], toyDone]) =
      .ok (some [8], [65]) := by decide +kernel
/-- Databases of the schemas 1 and 3. -/
private def toyOld (v : Nat) (sl : Option SlateTab) : Store :=
  ⟨some [v], some [([1], [1, 2])], [(0, [3])], some (1, 2, 3), some [([1], [4])], sl, some ⟨false, [⟨userPath, [65], 6, 0⟩]⟩⟩
example : (loginStore toy (toyOld 1 none)).2 = .throw ∧ (loginStore toy (loginStore toy (toyOld 1 none)).1).2 = .throw := by
  decide +kernel
example : (loginStore toy (toyOld 3 (some ⟨true, [⟨[1], str "S1", toyIv, [9], some [66]⟩]⟩))).2 = .ok 0 ∧
    loadLatest toyDec [1] (openStore toy (toyOld 3 (some ⟨true, [⟨[1], str "S1", toyIv, [9], some [66]⟩]⟩))).1 =
      .ok (some [9], [66]) := by decide +kernel
example : openStore toy (toyOld 5 none) = (toyOld 5 none, false) := by decide +kernel
/-- A database without a number. -/
private def toyZero : Store := { toyOld 1 none with version := none }
example : getOutputs toy toyZero = .ok [[1, 2]] ∧ (loginStore toy toyZero).2 = .throw ∧
    (loginStore toy (loginStore toy toyZero).1).2 = .ok 0 := by decide +kernel

end Verif.Props
