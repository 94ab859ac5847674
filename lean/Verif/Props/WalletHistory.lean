import Verif.Wallet.History
import Verif.Props.Cancel

/-!
# C46, C49: receiving a slate once; key paths and transaction ids are not used twice
-/
namespace Verif.Props
open Verif.Wallet Verif.Codec Verif.PoW

/-! ## Spec -/

/-- Key paths of the outputs an operation creates and commits. -/
def pathsOf (c : Fixed) (db : WDB) : WOp → List (List Nat)
  | .send tip a =>
    match applyOp c (.send tip a) db, sendPlan c.up c.down (availableCoins c.env c.conf tip db.outputs) a.amount a.base
      a.maxChange a.entire a.strategy a.wanted with
    | .ok _, .ok p => (createOutputs c.commit db.nextTxId db p.change).1.map (·.path)
    | _, _ => []
  | .receive s v f =>
    match applyOp c (.receive s v f) db with
    | .ok _ => [(nextChildPath db).1]
    | _ => []
  | .coinbase => [(nextChildPath db).1]
  | _ => []

/-- Key paths created along a history. -/
def allPaths (c : Fixed) : WDB → List WOp → List (List Nat)
  | _, [] => []
  | db, op :: ops => pathsOf c db op ++ allPaths c (stepOp c db op) ops

/-- An upper bound for the transaction ids a history may take. -/
def idCost : List WOp → Nat
  | [] => 0
  | .send .. :: ops => 1 + idCost ops
  | .receive .. :: ops => 1 + idCost ops
  | .refresh v :: ops => v.restored.length + idCost ops
  | _ :: ops => idCost ops

/-- 1 if the operation accepts the slate `s` as a payment to this wallet. -/
def takes (c : Fixed) (s : Bytes) (db : WDB) : WOp → Nat
  | .receive s' v f =>
    match applyOp c (.receive s' v f) db with
    | .ok _ => if s' = s then 1 else 0
    | _ => 0
  | _ => 0

/-- How often a history accepts the slate `s` as a payment to this wallet. -/
def accepted (c : Fixed) (s : Bytes) : WDB → List WOp → Nat
  | _, [] => 0
  | db, op :: ops => takes c s db op + accepted c s (stepOp c db op) ops

/-- What identifies a transaction record and never changes. -/
def tag (t : WTx) : Nat × Option Bytes × Nat × Nat := (t.id, t.slateId, t.credited, t.debited)

/-- Transaction rows in order, with ids below the next one. -/
structure TxInv (db : WDB) : Prop where
  order : (db.txs.map (·.id)).Pairwise (· < ·)
  next : ∀ t ∈ db.txs, t.id < db.nextTxId

/-! ## Lemmas -/

private theorem putTx_sub {txs : List WTx} {u x : WTx} (h : x ∈ putTx txs u) : x = u ∨ x ∈ txs := by
  induction txs with
  | nil => simp [putTx] at h; exact Or.inl h
  | cons r rs ih =>
    rw [putTx] at h
    split at h
    · rcases List.mem_cons.1 h with h | h
      · exact Or.inl h
      · exact Or.inr (by simp [h])
    · split at h
      · rcases List.mem_cons.1 h with h | h
        · exact Or.inl h
        · exact Or.inr h
      · rcases List.mem_cons.1 h with h | h
        · exact Or.inr (by simp [h])
        · rcases ih h with h | h
          · exact Or.inl h
          · exact Or.inr (by simp [h])

private theorem ids_of_meta {a b : List WTx} (h : a.map tag = b.map tag) : ids a = ids b := by
  have : (a.map tag).map (·.1) = (b.map tag).map (·.1) := by rw [h]
  rw [List.map_map, List.map_map] at this
  exact this

private theorem putTx_meta {old txs : List WTx} {u w : WTx} (hs : (ids old).Pairwise (· < ·))
    (hm : txs.map tag = old.map tag) (hu : u ∈ old) (hw : tag w = tag u) : (putTx txs w).map tag = old.map tag := by
  have hid := ids_of_meta hm
  have hwi : w.id = u.id := congrArg (·.1) hw
  rw [putTx_mem (by rw [hid]; exact hs) (by rw [hid, hwi]; exact List.mem_map_of_mem hu), List.map_map, ← hm]
  apply List.map_congr_left
  intro r hr
  simp only [Function.comp_apply]
  split
  · rename_i e
    have h1 : tag r ∈ old.map tag := by rw [← hm]; exact List.mem_map_of_mem hr
    obtain ⟨r0, hr0, he⟩ := List.mem_map.1 h1
    have hri : r0.id = r.id := congrArg (·.1) he
    have hnd : (ids old).Nodup := hs.imp (fun h => Nat.ne_of_lt h)
    have : r0 = u := List.inj_on_of_nodup_map hnd hr0 hu (by rw [hri, e, hwi])
    rw [hw, ← this, he]
  · rfl

private theorem confirm_meta {old : List WTx} (hs : (ids old).Pairwise (· < ·)) : ∀ (outs : List OutputRecord)
    (txs : List WTx), txs.map tag = old.map tag → (outs.foldl (confirmTx old) txs).map tag = old.map tag
  | [], _, h => h
  | o :: os, txs, h => by
    rw [List.foldl_cons]
    refine confirm_meta hs os _ ?_
    unfold confirmTx
    split
    · rename_i u h' hu hh
      obtain ⟨i, _, hfind⟩ := Option.bind_eq_some_iff.1 hu
      have hm := List.mem_of_find?_eq_some hfind
      split
      · exact putTx_meta hs h hm rfl
      · split
        · exact putTx_meta hs h hm rfl
        · exact h
    · exact h

private theorem spent_meta {old : List WTx} {outs : List OutputRecord} (hs : (ids old).Pairwise (· < ·)) : ∀ (l txs : List WTx),
    (∀ u ∈ l, u ∈ old) → txs.map tag = old.map tag → (l.foldl (confirmSpent outs) txs).map tag = old.map tag
  | [], _, _, h => h
  | u :: us, txs, hl, h => by
    rw [List.foldl_cons]
    refine spent_meta hs us _ (fun x hx => hl x (by simp [hx])) ?_
    unfold confirmSpent
    split
    · split
      · split
        · split
          · exact putTx_meta hs h (hl u (by simp)) rfl
          · exact h
        · exact h
      · exact h
    · exact h

private theorem refreshTxs_meta {outs : List OutputRecord} {old : List WTx} (hs : (ids old).Pairwise (· < ·)) :
    (refreshTxs outs old old).map tag = old.map tag :=
  spent_meta hs old _ (fun _ h => h) (confirm_meta hs outs old rfl)

/-- What an operation does to the transactions: old records keep their identity, new ids are larger and below the new
next id, which grew by at most `n`. -/
private structure Grows (n : Nat) (db db' : WDB) : Prop where
  inv : TxInv db'
  le : db.nextTxId ≤ db'.nextTxId
  bound : db'.nextTxId ≤ db.nextTxId + n
  keep : (db.txs.map tag) <+: (db'.txs.map tag)

private theorem Grows.refl {n : Nat} {db : WDB} (h : TxInv db) : Grows n db db :=
  ⟨h, Nat.le_refl _, Nat.le_add_right _ _, List.prefix_refl _⟩

private theorem Grows.trans {n m : Nat} {a b c : WDB} (h1 : Grows n a b) (h2 : Grows m b c) : Grows (n + m) a c :=
  ⟨h2.inv, Nat.le_trans h1.le h2.le, by have := h1.bound; have := h2.bound; omega, h1.keep.trans h2.keep⟩

private theorem Grows.mono {n m : Nat} {a b : WDB} (h1 : Grows n a b) (h : n ≤ m) : Grows m a b :=
  ⟨h1.inv, h1.le, by have := h1.bound; omega, h1.keep⟩

private theorem grows_new {db db' : WDB} {t : WTx} (h : TxInv db) (hn : db.nextTxId + 1 < 2 ^ 32) (ht : t.id = db.nextTxId)
    (h1 : db'.txs = putTx db.txs t) (h2 : db'.nextTxId = (db.nextTxId + 1) % 2 ^ 32) : Grows 1 db db' := by
  rw [Nat.mod_eq_of_lt hn] at h2
  have hp := putTx_new (txs := db.txs) (t := t) (by rw [ht]; exact h.next)
  rw [hp] at h1
  refine ⟨⟨?_, ?_⟩, by omega, by omega, ?_⟩
  · rw [h1, List.map_append, List.pairwise_append]
    refine ⟨h.order, by simp, ?_⟩
    intro x hx y hy
    simp at hy
    obtain ⟨r, hr, rfl⟩ := List.mem_map.1 hx
    rw [hy, ht]
    exact h.next r hr
  · intro r hr
    rw [h1] at hr
    rw [h2]
    rcases List.mem_append.1 hr with hr | hr
    · have := h.next r hr; omega
    · simp at hr; rw [hr, ht]; omega
  · rw [h1, List.map_append]; exact List.prefix_append _ _

private theorem grows_same {db db' : WDB} (h : TxInv db) (h1 : db'.txs.map tag = db.txs.map tag)
    (h2 : db'.nextTxId = db.nextTxId) : Grows 0 db db' := by
  have hid := ids_of_meta h1
  refine ⟨⟨?_, ?_⟩, by omega, by omega, by rw [h1]; exact List.prefix_refl _⟩
  · have : (ids db'.txs).Pairwise (· < ·) := by rw [hid]; exact h.order
    exact this
  · intro t ht
    have : t.id ∈ ids db.txs := by rw [← hid]; exact List.mem_map_of_mem ht
    obtain ⟨r, hr, hrt⟩ := List.mem_map.1 this
    rw [← hrt, h2]
    exact h.next r hr

private theorem restored_grows : ∀ (rs : List OutputRecord) (db : WDB), TxInv db → db.nextTxId + rs.length < 2 ^ 32 →
    Grows rs.length db (rs.foldl addRestored db)
  | [], _, h, _ => Grows.refl h
  | r :: rs, db, h, hn => by
    rw [List.length_cons] at hn
    rw [List.foldl_cons]
    have g1 : Grows 1 db (addRestored db r) := grows_new h (by omega) (t := ⟨db.nextTxId, RECEIVED, none, r.height, r.amount, 0, none, none⟩)
      rfl rfl rfl
    have g2 := restored_grows rs (addRestored db r) g1.inv (by have := g1.bound; omega)
    exact (g1.trans g2).mono (by rw [List.length_cons]; omega)

private theorem createOutputs_rest (commit : List Nat → Nat → Bytes) (id : Nat) : ∀ (vs : List Nat) (db : WDB),
    (createOutputs commit id db vs).2 = { db with nextChild := (createOutputs commit id db vs).2.nextChild }
  | [], _ => rfl
  | v :: vs, db => by
    rw [createOutputs]
    simp only
    rw [createOutputs_rest commit id vs]
    rfl

private theorem find_mem_slate {txs : List WTx} {s : Bytes} {t : WTx} (h : txBySlate txs s = some t) :
    t ∈ txs ∧ t.slateId = some s :=
  ⟨List.mem_of_find?_eq_some h, by simpa using List.find?_some h⟩

private theorem step_grows {c : Fixed} {db : WDB} (op : WOp) (h : TxInv db) (hn : db.nextTxId + idCost [op] < 2 ^ 32) :
    Grows (idCost [op]) db (stepOp c db op) := by
  unfold stepOp
  split
  swap
  · exact Grows.refl h
  rename_i d hd
  cases op with
  | send tip a =>
    (simp only [applyOp, Wallet.send] at hd)
    obtain ⟨p, _, hd⟩ := Res.bind_eq_ok.1 hd
    unfold buildSend at hd
    simp only at hd
    split at hd
    · cases hd
    have hd := Res.ok.inj hd
    have e := createOutputs_rest c.commit (nextTxId db).1 p.change (nextTxId db).2
    rw [← hd]
    generalize createOutputs c.commit (nextTxId db).1 (nextTxId db).2 p.change = r at e
    exact grows_new h hn (t := ⟨db.nextTxId, SENDING_STARTED, some a.slateId, none, sum64 r.1, sum64 p.inputs, some p.fee,
      some (p.inputs.map (·.output.commit), r.1.map (·.output.commit))⟩) rfl
      (by show putTx r.2.txs _ = _; rw [e]; rfl) (by show r.2.nextTxId = _; rw [e]; rfl)
  | receive s v f =>
    (simp only [applyOp, Wallet.receive] at hd)
    split at hd
    · have hd := Res.ok.inj hd
      rw [← hd]
      exact grows_new h hn (t := ⟨db.nextTxId, RECEIVING_IN_PROGRESS, some s, none, v, 0, some f, none⟩) rfl rfl rfl
    · cases hd
  | finalize s ok i o =>
    (simp only [applyOp, Wallet.finalize] at hd)
    split at hd
    · rename_i x t hx ht
      split at hd
      · have hd := Res.ok.inj hd
        rw [← hd]
        exact grows_same h (putTx_meta h.order rfl (find_mem_slate ht).1 rfl) rfl
      · cases hd
    · cases hd
  | cancel i =>
    (simp only [applyOp, Wallet.cancel] at hd)
    split at hd
    · cases hd; exact Grows.refl h
    · rename_i t ht
      obtain ⟨t', ht', hd⟩ := Res.bind_eq_ok.1 hd
      obtain ⟨upd, _, hd⟩ := Res.bind_eq_ok.1 hd
      have hd := Res.ok.inj hd
      rw [← hd]
      refine grows_same h (putTx_meta h.order rfl (List.mem_of_find?_eq_some ht) ?_) rfl
      unfold cancelType at ht'
      split at ht'
      · cases ht'; rfl
      · split at ht'
        · cases ht'; rfl
        · cases ht'
  | refresh v =>
    have hd := Res.ok.inj hd
    rw [← hd]
    unfold Wallet.refresh
    split
    · exact Grows.refl h
    · have hl : (newOutputs db.outputs v.restored).length ≤ v.restored.length := List.length_filter_le _ _
      have hc : idCost [.refresh v] = v.restored.length := by simp [idCost]
      rw [hc] at hn ⊢
      have g := restored_grows (newOutputs db.outputs v.restored) db h (by omega)
      refine (g.trans (grows_same g.inv ?_ ?_)).mono (by omega)
      · exact refreshTxs_meta g.inv.order
      · rfl
  | coinbase =>
    have hd := Res.ok.inj hd
    rw [← hd]
    exact grows_same h rfl rfl

private theorem idCost_cons (op : WOp) (ops : List WOp) : idCost (op :: ops) = idCost [op] + idCost ops := by
  cases op <;> simp [idCost]

private theorem run_grows {c : Fixed} : ∀ (ops : List WOp) {db : WDB}, TxInv db → db.nextTxId + idCost ops < 2 ^ 32 →
    Grows (idCost ops) db (runOps c db ops)
  | [], _, h, _ => Grows.refl h
  | op :: ops, db, h, hn => by
    rw [idCost_cons] at hn ⊢
    have g := step_grows (c := c) op h (by omega)
    exact g.trans (run_grows ops g.inv (by have := g.bound; omega))

/-! ## C49 -/

/-- **C49**, transaction ids, up to `2^32` of them: however operations follow each other, failing or not, no transaction
record is replaced by another: the records before keep their id, slate, and amounts, in place, and the ids of all
records remain distinct. -/
theorem transactions_kept_partial {c : Fixed} {db : WDB} {ops : List WOp} (h : TxInv db) (hn : db.nextTxId + idCost ops < 2 ^ 32) :
    (db.txs.map (fun t => (t.id, t.slateId, t.credited, t.debited))) <+:
      ((runOps c db ops).txs.map (fun t => (t.id, t.slateId, t.credited, t.debited))) ∧
    ((runOps c db ops).txs.map (·.id)).Nodup ∧ ∀ t ∈ (runOps c db ops).txs, t.id < (runOps c db ops).nextTxId := by
  have g := run_grows (c := c) ops h hn
  exact ⟨g.keep, g.inv.order.imp (fun h => Nat.ne_of_lt h), g.inv.next⟩

private theorem createOutputs_paths (commit : List Nat → Nat → Bytes) (id : Nat) : ∀ (vs : List Nat) (db : WDB), db.nextChild < 2 ^ 32 →
    (createOutputs commit id db vs).1.map (·.path) = (List.range vs.length).map (fun k => [0, 0, (db.nextChild + k) % 2 ^ 32]) ∧
    (createOutputs commit id db vs).2.nextChild = (db.nextChild + vs.length) % 2 ^ 32
  | [], db, h => ⟨rfl, by rw [List.length_nil, Nat.add_zero, Nat.mod_eq_of_lt h]; rfl⟩
  | v :: vs, db, h => by
    rw [createOutputs]
    have hlt : (nextChildPath db).2.nextChild < 2 ^ 32 := Nat.mod_lt _ (by decide)
    obtain ⟨h1, h2⟩ := createOutputs_paths commit id vs (nextChildPath db).2 hlt
    have hc : (nextChildPath db).2.nextChild = (db.nextChild + 1) % 2 ^ 32 := rfl
    simp only [List.map_cons, List.length_cons]
    rw [h1, h2, hc, List.range_succ_eq_map, List.map_cons, List.map_map]
    refine ⟨?_, by rw [Nat.mod_add_mod]; congr 1; omega⟩
    congr 1
    · show [0, 0, db.nextChild] = _
      rw [Nat.add_zero, Nat.mod_eq_of_lt h]
    · apply List.map_congr_left
      intro k _
      simp only [Function.comp_apply]
      rw [Nat.mod_add_mod]
      have : db.nextChild + 1 + k = db.nextChild + (k + 1) := by omega
      rw [this]

/-- The paths that follow `start`. -/
private def cyc (start n : Nat) : List (List Nat) := (List.range n).map (fun k => [0, 0, (start + k) % 2 ^ 32])

private theorem restored_child (rs : List OutputRecord) : ∀ (db : WDB), (rs.foldl addRestored db).nextChild = db.nextChild := by
  induction rs with
  | nil => intro _; rfl
  | cons r rs ih => intro db; rw [List.foldl_cons, ih]; rfl

private theorem step_paths {c : Fixed} {db : WDB} (op : WOp) (h : db.nextChild < 2 ^ 32) :
    pathsOf c db op = cyc db.nextChild (pathsOf c db op).length ∧
    (stepOp c db op).nextChild = (db.nextChild + (pathsOf c db op).length) % 2 ^ 32 := by
  have hz : db.nextChild = (db.nextChild + 0) % 2 ^ 32 := by rw [Nat.add_zero, Nat.mod_eq_of_lt h]
  have h1 : [(nextChildPath db).1] = cyc db.nextChild 1 := by
    show [[0, 0, db.nextChild]] = [[0, 0, (db.nextChild + 0) % 2 ^ 32]]
    rw [← hz]
  cases op with
  | send tip a =>
    unfold stepOp
    simp only [pathsOf]
    rcases hd : applyOp c (.send tip a) db with d | _ | _
    · rcases hp : sendPlan c.up c.down (availableCoins c.env c.conf tip db.outputs) a.amount a.base
        a.maxChange a.entire a.strategy a.wanted with p | _ | _
      · simp only
        obtain ⟨e1, e2⟩ := createOutputs_paths c.commit db.nextTxId p.change db h
        have hlen : ((createOutputs c.commit db.nextTxId db p.change).1.map (·.path)).length = p.change.length := by
          rw [e1, List.length_map, List.length_range]
        refine ⟨by rw [hlen]; exact e1, ?_⟩
        rw [hlen]
        (simp only [applyOp, Wallet.send] at hd)
        rw [hp] at hd
        have hd : buildSend c.commit a p db = .ok d := hd
        unfold buildSend at hd
        simp only at hd
        split at hd
        · cases hd
        have hd := Res.ok.inj hd
        rw [← hd]
        exact (createOutputs_paths c.commit db.nextTxId p.change (nextTxId db).2 h).2
      · (simp only [applyOp, Wallet.send] at hd); rw [hp] at hd; cases hd
      · (simp only [applyOp, Wallet.send] at hd); rw [hp] at hd; cases hd
    · simp only [List.length_nil]; exact ⟨rfl, hz⟩
    · simp only [List.length_nil]; exact ⟨rfl, hz⟩
  | receive s v f =>
    unfold stepOp
    simp only [pathsOf]
    rcases hd : applyOp c (.receive s v f) db with d | _ | _
    · simp only [List.length_singleton]
      refine ⟨h1, ?_⟩
      (simp only [applyOp, Wallet.receive] at hd)
      split at hd
      · have hd := Res.ok.inj hd
        rw [← hd]; rfl
      · cases hd
    · exact ⟨rfl, hz⟩
    · exact ⟨rfl, hz⟩
  | coinbase => exact ⟨h1, rfl⟩
  | finalize s ok i o =>
    refine ⟨rfl, ?_⟩
    show (stepOp c db _).nextChild = (db.nextChild + 0) % 2 ^ 32
    rw [← hz]
    unfold stepOp
    split
    · rename_i d hd
      (simp only [applyOp, Wallet.finalize] at hd)
      split at hd
      · split at hd
        · have hd := Res.ok.inj hd
          rw [← hd]
        · cases hd
      · cases hd
    · rfl
  | cancel i =>
    refine ⟨rfl, ?_⟩
    show (stepOp c db _).nextChild = (db.nextChild + 0) % 2 ^ 32
    rw [← hz]
    unfold stepOp
    split
    · rename_i d hd
      (simp only [applyOp, Wallet.cancel] at hd)
      split at hd
      · cases hd; rfl
      · obtain ⟨t', ht', hd⟩ := Res.bind_eq_ok.1 hd
        obtain ⟨upd, _, hd⟩ := Res.bind_eq_ok.1 hd
        have hd := Res.ok.inj hd
        rw [← hd]
    · rfl
  | refresh v =>
    refine ⟨rfl, ?_⟩
    show (Wallet.refresh v db).2.nextChild = (db.nextChild + 0) % 2 ^ 32
    rw [← hz]
    unfold Wallet.refresh
    split
    · rfl
    · exact restored_child _ _

private theorem cyc_append (start n m : Nat) : cyc start n ++ cyc ((start + n) % 2 ^ 32) m = cyc start (n + m) := by
  unfold cyc
  rw [List.range_add, List.map_append, List.map_map]
  congr 1
  apply List.map_congr_left
  intro k _
  simp only [Function.comp_apply, Nat.mod_add_mod, Nat.add_assoc]

private theorem all_paths {c : Fixed} : ∀ (ops : List WOp) {db : WDB}, db.nextChild < 2 ^ 32 →
    allPaths c db ops = cyc db.nextChild (allPaths c db ops).length
  | [], _, _ => rfl
  | op :: ops, db, h => by
    obtain ⟨h1, h2⟩ := step_paths (c := c) op h
    have h3 := all_paths ops (db := stepOp c db op) (c := c) (by rw [h2]; exact Nat.mod_lt _ (by decide))
    rw [h2] at h3
    rw [allPaths, List.length_append, ← cyc_append, ← h1, ← h3]

/-- **C49**, key paths: over any history, whatever fails in between, the outputs created for change, receipts and coinbases
have pairwise different key paths, as long as there are no more than `2^32` of them. -/
theorem paths_distinct_partial {c : Fixed} {db : WDB} {ops : List WOp} (h : db.nextChild < 2 ^ 32)
    (hn : (allPaths c db ops).length ≤ 2 ^ 32) : (allPaths c db ops).Nodup := by
  rw [all_paths ops h]
  unfold cyc
  generalize (allPaths c db ops).length = n at hn
  apply List.Nodup.map_on _ List.nodup_range
  intro x hx y hy e
  rw [List.mem_range] at hx hy
  simp only [List.cons.injEq, and_true, true_and] at e
  omega

/-! ## C46 -/

/-- The records of slate `s` are neither canceled receipts nor sends under way. -/
private def Settled (s : Bytes) (db : WDB) : Prop := ∀ t ∈ db.txs, t.slateId = some s → t.type ≠ 4 ∧ t.type ≠ 5

private theorem restored_settled {s : Bytes} : ∀ (rs : List OutputRecord) {db : WDB}, Settled s db → Settled s (rs.foldl addRestored db)
  | [], _, h => h
  | r :: rs, db, h => by
    rw [List.foldl_cons]
    refine restored_settled rs ?_
    intro t ht hs
    rcases putTx_sub ht with rfl | ht
    · cases hs
    · exact h t ht hs

private theorem confirm_settled {s : Bytes} {old : List WTx} : ∀ (outs : List OutputRecord) (txs : List WTx),
    (∀ t ∈ txs, t.slateId = some s → t.type ≠ 4 ∧ t.type ≠ 5) →
    ∀ t ∈ outs.foldl (confirmTx old) txs, t.slateId = some s → t.type ≠ 4 ∧ t.type ≠ 5
  | [], _, h => h
  | o :: os, txs, h => by
    rw [List.foldl_cons]
    refine confirm_settled os _ ?_
    unfold confirmTx
    split
    · split
      · intro t ht hs
        rcases putTx_sub ht with rfl | ht
        · simp [RECEIVED]
        · exact h t ht hs
      · split
        · intro t ht hs
          rcases putTx_sub ht with rfl | ht
          · simp [SENT]
          · exact h t ht hs
        · exact h
    · exact h

private theorem spent_settled {s : Bytes} {outs : List OutputRecord} : ∀ (l txs : List WTx),
    (∀ t ∈ txs, t.slateId = some s → t.type ≠ 4 ∧ t.type ≠ 5) →
    ∀ t ∈ l.foldl (confirmSpent outs) txs, t.slateId = some s → t.type ≠ 4 ∧ t.type ≠ 5
  | [], _, h => h
  | u :: us, txs, h => by
    rw [List.foldl_cons]
    refine spent_settled us _ ?_
    unfold confirmSpent
    split
    · split
      · split
        · split
          · intro t ht hs
            rcases putTx_sub ht with rfl | ht
            · simp [SENT]
            · exact h t ht hs
          · exact h
        · exact h
      · exact h
    · exact h

/-- The operation is neither a cancel nor a send with slate `s` by this very wallet. -/
def Plain (s : Bytes) : WOp → Prop
  | .cancel _ => False
  | .send _ a => a.slateId ≠ s
  | _ => True

private theorem step_settled {c : Fixed} {s : Bytes} {db : WDB} (op : WOp) (hp : Plain s op) (h : Settled s db) :
    Settled s (stepOp c db op) := by
  unfold stepOp
  split
  swap
  · exact h
  rename_i d hd
  cases op with
  | send tip a =>
    (simp only [applyOp, Wallet.send] at hd)
    obtain ⟨p, _, hd⟩ := Res.bind_eq_ok.1 hd
    unfold buildSend at hd
    simp only at hd
    split at hd
    · cases hd
    have hd := Res.ok.inj hd
    have e := createOutputs_rest c.commit (nextTxId db).1 p.change (nextTxId db).2
    intro t ht hs
    rw [← hd] at ht
    rcases putTx_sub ht with rfl | ht
    · exact absurd (Option.some.inj hs) hp
    · rw [e] at ht; exact h t ht hs
  | receive s' v f =>
    (simp only [applyOp, Wallet.receive] at hd)
    split at hd
    · have hd := Res.ok.inj hd
      intro t ht hs
      rw [← hd] at ht
      rcases putTx_sub ht with rfl | ht
      · simp [RECEIVING_IN_PROGRESS]
      · exact h t ht hs
    · cases hd
  | finalize s' ok i o =>
    (simp only [applyOp, Wallet.finalize] at hd)
    split at hd
    · split at hd
      · have hd := Res.ok.inj hd
        intro t ht hs
        rw [← hd] at ht
        rcases putTx_sub ht with rfl | ht
        · simp [SENDING_FINALIZED]
        · exact h t ht hs
      · cases hd
    · cases hd
  | cancel i => exact absurd hp (fun h => h)
  | refresh v =>
    have hd := Res.ok.inj hd
    rw [← hd]
    unfold Wallet.refresh
    split
    · exact h
    · exact spent_settled _ _ (confirm_settled _ _ (restored_settled _ h))
  | coinbase =>
    have hd := Res.ok.inj hd
    rw [← hd]
    exact h

private theorem not_mayReceive {s : Bytes} {db : WDB} (h : Settled s db) (he : ∃ t ∈ db.txs, t.slateId = some s) :
    mayReceive db.txs s = false := by
  unfold mayReceive
  have hsome : ∃ t, txBySlate db.txs s = some t := by
    rw [← Option.isSome_iff_exists, txBySlate, List.find?_isSome]
    obtain ⟨t, ht, hs⟩ := he
    exact ⟨t, ht, by simp [hs]⟩
  obtain ⟨t, ht⟩ := hsome
  rw [ht]
  obtain ⟨h1, h2⟩ := find_mem_slate ht
  obtain ⟨h4, h5⟩ := h t h1 h2
  simp [RECEIVED_CANCELED, SENDING_STARTED, h4, h5]

private theorem exists_of_grows {n : Nat} {s : Bytes} {db db' : WDB} (g : Grows n db db') (he : ∃ t ∈ db.txs, t.slateId = some s) :
    ∃ t ∈ db'.txs, t.slateId = some s := by
  obtain ⟨t, ht, hs⟩ := he
  have := g.keep.subset (List.mem_map_of_mem (f := tag) ht)
  obtain ⟨r, hr, hm⟩ := List.mem_map.1 this
  exact ⟨r, hr, by rw [← hs]; exact congrArg (fun x => x.2.1) hm⟩

private theorem accepted_none {c : Fixed} {s : Bytes} : ∀ (ops : List WOp) {db : WDB}, (∀ op ∈ ops, Plain s op) → TxInv db →
    db.nextTxId + idCost ops < 2 ^ 32 → Settled s db → (∃ t ∈ db.txs, t.slateId = some s) → accepted c s db ops = 0
  | [], _, _, _, _, _, _ => rfl
  | op :: ops, db, hp, h, hn, hst, he => by
    rw [idCost_cons] at hn
    have g := step_grows (c := c) op h (by omega)
    have ih := accepted_none ops (c := c) (fun x hx => hp x (by simp [hx])) g.inv (by have := g.bound; omega)
      (step_settled op (hp op (by simp)) hst) (exists_of_grows g he)
    rw [accepted, ih, Nat.add_zero]
    cases op with
    | receive s' v f =>
      rw [takes]
      split
      · rename_i d hd
        split
        · rename_i e
          rw [e] at hd
          simp only [applyOp, Wallet.receive] at hd
          rw [not_mayReceive hst he] at hd
          simp at hd
        · rfl
      · rfl
    | send _ _ => rfl
    | finalize _ _ _ _ => rfl
    | cancel _ => rfl
    | refresh _ => rfl
    | coinbase => rfl

/-- **C46**, as long as nothing is canceled and this wallet did not itself create the slate: from a wallet that has no
record of the slate, any history accepts it at most once, and so creates at most one output for it. -/
theorem receive_once_partial {c : Fixed} {s : Bytes} {db : WDB} : ∀ {ops : List WOp}, (∀ op ∈ ops, Plain s op) → TxInv db →
    db.nextTxId + idCost ops < 2 ^ 32 → (∀ t ∈ db.txs, t.slateId ≠ some s) → accepted c s db ops ≤ 1 := by
  intro ops
  induction ops generalizing db with
  | nil => intro _ _ _ _; exact Nat.zero_le _
  | cons op ops ih =>
    intro hp h hn hno
    rw [idCost_cons] at hn
    have g := step_grows (c := c) op h (by omega)
    have hst : Settled s db := fun t ht hs => absurd hs (hno t ht)
    have hst' := step_settled (c := c) op (hp op (by simp)) hst
    have hp' : ∀ x ∈ ops, Plain s x := fun x hx => hp x (by simp [hx])
    by_cases he : ∃ t ∈ (stepOp c db op).txs, t.slateId = some s
    · have := accepted_none (c := c) ops hp' g.inv (by have := g.bound; omega) hst' he
      rw [accepted, this, Nat.add_zero]
      cases op with
      | receive s' v f =>
        rw [takes]
        split
        · split <;> omega
        · omega
      | send _ _ => exact Nat.zero_le _
      | finalize _ _ _ _ => exact Nat.zero_le _
      | cancel _ => exact Nat.zero_le _
      | refresh _ => exact Nat.zero_le _
      | coinbase => exact Nat.zero_le _
    · have i := ih hp' g.inv (by have := g.bound; omega) (fun t ht hs => he ⟨t, ht, hs⟩)
      have hz : takes c s db op = 0 := by
        cases op with
        | receive s' v f =>
          rw [takes]
          split
          · rename_i d hd
            split
            · rename_i e
              exfalso
              apply he
              have hstep : stepOp c db (.receive s' v f) = d := by unfold stepOp; rw [hd]
              rw [hstep]
              simp only [applyOp, Wallet.receive] at hd
              split at hd
              · have hd := Res.ok.inj hd
                rw [← hd]
                refine ⟨⟨db.nextTxId, RECEIVING_IN_PROGRESS, some s', none, v, 0, some f, none⟩, ?_, by rw [e]⟩
                show _ ∈ putTx db.txs ⟨db.nextTxId, RECEIVING_IN_PROGRESS, some s', none, v, 0, some f, none⟩
                rw [putTx_new (t := ⟨db.nextTxId, _, _, _, _, _, _, _⟩) h.next]
                simp
              · cases hd
            · rfl
          · rfl
        | send _ _ => rfl
        | finalize _ _ _ _ => rfl
        | cancel _ => rfl
        | refresh _ => rfl
        | coinbase => rfl
      rw [accepted, hz, Nat.zero_add]
      exact i

/-! ## Concrete histories -/

/-- The wallet's parameters for the examples. -/
def fixed : Fixed := ⟨.mainnet, 10, sortUp, fun l => (sortUp l).reverse, tagCommit⟩

/-- The wallet of the examples keeps its tables in order. -/
private theorem oneCoin_inv : TxInv oneCoin := ⟨by decide, by decide⟩

example : TxInv oneCoin ∧ (∀ op ∈ [WOp.receive [8] 5 1, .send 20 (send10 [9]), .receive [8] 5 1, .coinbase], Plain [8] op) ∧
    accepted fixed [8] oneCoin [WOp.receive [8] 5 1, .send 20 (send10 [9]), .receive [8] 5 1, .coinbase] = 1 := by
  refine ⟨oneCoin_inv, ?_, by decide +kernel⟩
  intro op h
  simp only [List.mem_cons, List.not_mem_nil, or_false] at h
  rcases h with rfl | rfl | rfl | rfl <;> simp [Plain, send10]

example : allPaths fixed oneCoin [WOp.receive [8] 5 1, .send 20 (send10 [9]), .receive [8] 5 1, .coinbase] =
    [[0, 0, 7], [0, 0, 8], [0, 0, 9]] := by decide +kernel

/-- **C46** is violated for a slate this wallet sends itself: as the record found first is the send, the slate is received
as often as it is presented, each time creating an output, until the send is finalized. -/
theorem receive_own_slate_violated :
    accepted fixed [8] oneCoin [.send 20 (send10 [8]), .receive [8] 10 46, .receive [8] 10 46, .receive [8] 10 46] = 3 ∧
    ((runOps fixed oneCoin [.send 20 (send10 [8]), .receive [8] 10 46, .receive [8] 10 46]).outputs.filter
      (fun o => o.status = NO_CONFIRMATIONS)).map (·.amount) = [44, 10, 10] := by
  decide +kernel

/-- **C46** is violated after a cancel: the canceled record is found first, so the slate is received any number of times. -/
theorem receive_after_cancel_violated :
    accepted fixed [8] oneCoin [.receive [8] 10 46, .cancel 0, .receive [8] 10 46, .receive [8] 10 46] = 3 ∧
    (getBalance .mainnet 10 (runOps fixed oneCoin
      [.receive [8] 10 46, .cancel 0, .receive [8] 10 46, .receive [8] 10 46])).unconfirmed = 20 := by
  decide +kernel

/-- **C49** is violated for restored outputs: finding an output by its range proof does not move the wallet's counter past
its key path.  If the counter happens to be there, the next receipt of the same amount has the same commitment, and the
record of the coin on the chain is replaced by one without confirmations. -/
theorem restored_path_violated :
    let found : OutputRecord := newOutput tagCommit [0, 0, 7] 60 0
    let v : NodeView := ⟨20, fun _ => some 10, [{ found with status := SPENDABLE, height := some 10 }]⟩
    let db := runOps fixed ⟨[], [], [], 7, 0, 20⟩ [.refresh v]
    (getBalance .mainnet 10 db).spendable = 60 ∧ db.nextChild = 7 ∧
    (getBalance .mainnet 10 (runOps fixed db [.receive [8] 60 46])) = ⟨60, 0, 0, 0⟩ := by
  decide +kernel

/-- Beyond `2^32` transactions the next id wraps to one in use, and its record is replaced. -/
theorem tx_id_wrap_violated :
    let db : WDB := ⟨[], [⟨0, SENT, some [3], some 5, 0, 9, some 1, none⟩], [], 7, 0, 20⟩
    TxInv { db with nextTxId := 2 ^ 32 - 1 } ∧
    ((runOps fixed { db with nextTxId := 2 ^ 32 - 1 } [.receive [8] 1 1, .receive [9] 2 1]).txs.map (·.slateId)) =
      [some [9], some [8]] := by
  refine ⟨⟨by decide, by decide⟩, by decide +kernel⟩

/-! ## Contexts -/

private theorem step_contexts (c : Fixed) (db : WDB) (op : WOp) :
    (stepOp c db op).contexts = db.contexts ∨
      ∃ s x, db.contexts.any (fun e => e.1 = s) = false ∧ (stepOp c db op).contexts = db.contexts ++ [(s, x)] := by
  have addR : ∀ (l : List OutputRecord) (d : WDB), (l.foldl addRestored d).contexts = d.contexts := by
    intro l
    induction l with
    | nil => intro d; rfl
    | cons a l ih => intro d; exact (ih _).trans rfl
  unfold stepOp
  split
  next d hd =>
    cases op with
    | send tip a =>
      simp only [applyOp, Wallet.send, Res.bind_eq_ok] at hd
      obtain ⟨p, -, hp⟩ := hd
      unfold buildSend at hp
      simp only at hp
      split at hp
      · cases hp
      · rename_i hn
        injection hp with hp
        subst hp
        exact Or.inr ⟨_, _, Bool.eq_false_iff.mpr hn, rfl⟩
    | receive s v f =>
      simp only [applyOp, Wallet.receive] at hd
      split at hd
      · injection hd with hd; subst hd; exact Or.inl rfl
      · cases hd
    | finalize s ok i o =>
      simp only [applyOp, Wallet.finalize] at hd
      split at hd
      · split at hd
        · injection hd with hd; subst hd; exact Or.inl rfl
        · cases hd
      · cases hd
    | cancel i =>
      simp only [applyOp, Wallet.cancel] at hd
      split at hd
      · injection hd with hd; subst hd; exact Or.inl rfl
      · simp only [cancelTx, Res.bind_eq_ok, Res.pure_eq] at hd
        obtain ⟨_, -, _, -, hd⟩ := hd
        injection hd with hd; subst hd; exact Or.inl rfl
    | refresh v =>
      simp only [applyOp, Wallet.refresh] at hd
      injection hd with hd
      subst hd
      left
      split
      · rfl
      · exact addR _ _
    | coinbase =>
      simp only [applyOp] at hd
      injection hd with hd
      subst hd
      exact Or.inl rfl
  next => exact Or.inl rfl

/-- **C75, one context per slate.**  However operations follow each other, the secrets stored for a sent slate are never replaced
or lost, and no slate id has two of them: a second send under an id used before is refused. -/
theorem contexts_kept (c : Fixed) (ops : List WOp) (db : WDB) (h : (db.contexts.map (·.1)).Nodup) :
    db.contexts <+: (runOps c db ops).contexts ∧ ((runOps c db ops).contexts.map (·.1)).Nodup := by
  induction ops generalizing db with
  | nil => exact ⟨List.prefix_refl _, h⟩
  | cons op ops ih =>
    have hs := step_contexts c db op
    show _ <+: (runOps c (stepOp c db op) ops).contexts ∧ ((runOps c (stepOp c db op) ops).contexts.map (·.1)).Nodup
    rcases hs with hs | ⟨s, x, hn, hs⟩
    · have := ih (stepOp c db op) (by rw [hs]; exact h)
      rw [hs] at this
      exact this
    · have hnot : s ∉ db.contexts.map (·.1) := by
        intro hm
        obtain ⟨e, he, e1⟩ := List.mem_map.mp hm
        have := (List.any_eq_false.mp hn) e he
        simp [e1] at this
      have := ih (stepOp c db op) (by
        rw [hs, List.map_append, List.nodup_append]
        refine ⟨h, by simp, ?_⟩
        intro a ha b hb
        simp at hb
        subst hb
        intro e
        subst e
        exact hnot ha)
      rw [hs] at this
      exact ⟨(List.prefix_append _ _).trans this.1, this.2⟩

/-- After a send under an id, another one is refused and changes nothing. -/
theorem send_again_refused (c : Fixed) (tip : Nat) (a : SendArgs) (db : WDB) (h : ∃ e ∈ db.contexts, e.1 = a.slateId) :
    ∀ d, applyOp c (.send tip a) db ≠ .ok d := by
  intro d hd
  simp only [applyOp, Wallet.send, Res.bind_eq_ok] at hd
  obtain ⟨p, -, hp⟩ := hd
  unfold buildSend at hp
  obtain ⟨e, he, e1⟩ := h
  have : db.contexts.any (fun e => e.1 = a.slateId) = true := List.any_eq_true.mpr ⟨e, he, by simp [e1]⟩
  simp only [this, if_true] at hp
  cases hp

example : ((runOps fixed oneCoin [.send 20 (send10 [8]), .receive [9] 10 46, .send 20 (send10 [8])]).contexts.map (·.1)) = [[8]] := by
  decide +kernel

end Verif.Props
