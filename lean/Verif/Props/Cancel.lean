import Verif.Props.Wallet

/-!
# C45: what a send and a cancel do to the wallet
-/
namespace Verif.Props
open Verif.Wallet Verif.Codec Verif.PoW

/-! ## Spec -/

/-- The transaction types that may be canceled: a send before or after finalization, and a receive in progress. -/
def Cancelable (t : WTx) : Prop := t.type = 5 ∨ t.type = 6 ∨ t.type = 7

instance (t : WTx) : Decidable (Cancelable t) := inferInstanceAs (Decidable (_ ∨ _))

/-- The coins a canceled transaction was to spend: those of a send, none for a receive. -/
def spentBy (t : WTx) : List Bytes := if t.type = 6 then [] else ((t.tx.map (·.1)).getD [])

/-- An output after the cancel of a transaction with that id, spending `ins`: a coin set aside for it is spendable again;
an output the transaction created, or a coin recorded as spent by it, is canceled. -/
def afterCancel (ins : List Bytes) (id : Nat) (o : OutputRecord) : OutputRecord :=
  if o.output.commit ∈ ins ∧ o.status = LOCKED then { o with status := SPENDABLE }
  else if (o.output.commit ∈ ins ∨ o.txId = some id) ∧ (o.status = NO_CONFIRMATIONS ∨ o.status = SPENT) then
    { o with status := CANCELED }
  else o

/-- The rows of the tables have distinct keys, in the order of the database; new ids are larger. -/
structure Sane (db : WDB) : Prop where
  commits : (db.outputs.map (·.output.commit)).Nodup
  order : (db.txs.map (·.id)).Pairwise (· < ·)
  next : ∀ t ∈ db.txs, t.id < db.nextTxId
  owner : ∀ o ∈ db.outputs, ∀ i, o.txId = some i → i < db.nextTxId

/-! ## Lemmas -/

private theorem pick_sub {amount base outs kers : Nat} : ∀ (l : List OutputRecord) (found : Nat) (sel r : List OutputRecord),
    pick amount base outs kers l found sel = .ok r → r.Sublist (sel ++ l)
  | [], _, _, _, h => by cases h
  | c :: cs, found, sel, r, h => by
    rw [pick] at h
    split at h
    · cases h
      rw [show sel ++ c :: cs = (sel ++ [c]) ++ cs by simp]
      exact List.sublist_append_left _ _
    · have := pick_sub cs _ _ _ h
      simpa using this

private theorem select_subperm {up down : List OutputRecord → List OutputRecord} (hs : Sorters up down)
    {coins r : List OutputRecord} {amount base outs kers : Nat} {s : Strategy} {wanted : List Bytes}
    (h : selectCoins up down coins amount base s wanted outs kers = .ok r) : r.Subperm coins := by
  cases s with
  | smallest => exact (pick_sub _ _ _ _ h).subperm.trans (by simpa using (hs.up_perm coins).subperm)
  | fewest => exact (pick_sub _ _ _ _ h).subperm.trans (by simpa using (hs.down_perm coins).subperm)
  | all =>
    simp only [selectCoins, selectAll] at h
    split at h
    · cases h; exact List.Subperm.refl _
    · cases h
  | custom =>
    simp only [selectCoins, selectCustom] at h
    split at h
    · cases h; exact List.filter_sublist.subperm
    · cases h

private theorem plan_subperm {up down : List OutputRecord → List OutputRecord} (hs : Sorters up down)
    {coins : List OutputRecord} {amount base n : Nat} {entire : Bool} {s : Strategy} {wanted : List Bytes} {p : Plan}
    (h : sendPlan up down coins amount base n entire s wanted = .ok p) : p.inputs.Subperm coins := by
  unfold sendPlan at h
  cases entire with
  | true => simp only [if_true] at h; cases h; exact List.Subperm.refl _
  | false =>
    simp only [Bool.false_eq_true, if_false] at h
    obtain ⟨sel, hsel, h⟩ := Res.bind_eq_ok.1 h
    cases h
    exact select_subperm hs hsel

private theorem createOutputs_db (commit : List Nat → Nat → Bytes) (id : Nat) : ∀ (vs : List Nat) (db : WDB),
    (createOutputs commit id db vs).2 = { db with nextChild := (createOutputs commit id db vs).2.nextChild }
  | [], _ => rfl
  | v :: vs, db => by
    rw [createOutputs]
    simp only
    rw [createOutputs_db commit id vs]
    rfl

/-- The outputs made for the change. -/
def changeOf (commit : List Nat → Nat → Bytes) (a : Plan) (db : WDB) : List OutputRecord :=
  (createOutputs commit db.nextTxId (nextTxId db).2 a.change).1

private theorem createOutputs_mem {commit : List Nat → Nat → Bytes} {id : Nat} : ∀ {vs : List Nat} {db : WDB} {o : OutputRecord},
    o ∈ (createOutputs commit id db vs).1 → o.status = NO_CONFIRMATIONS ∧ o.txId = some id ∧ o.height = none
  | [], _, _, h => by cases h
  | v :: vs, db, o, h => by
    rw [createOutputs] at h
    rcases List.mem_cons.1 h with rfl | h
    · exact ⟨rfl, rfl, rfl⟩
    · exact createOutputs_mem h

private theorem createOutputs_amounts (commit : List Nat → Nat → Bytes) (id : Nat) : ∀ (vs : List Nat) (db : WDB),
    (createOutputs commit id db vs).1.map (·.amount) = vs
  | [], _ => rfl
  | v :: vs, db => by
    rw [createOutputs]
    simp only [List.map_cons]
    rw [createOutputs_amounts commit id vs]
    rfl

private theorem lockCoin_oc (o : OutputRecord) : oc (lockCoin o) = oc o := rfl

/-- The change outputs have commitments of their own, new to the wallet. -/
def FreshChange (commit : List Nat → Nat → Bytes) (p : Plan) (db : WDB) : Prop :=
  ((changeOf commit p db).map (·.output.commit)).Nodup ∧
  ∀ o ∈ changeOf commit p db, o.output.commit ∉ db.outputs.map (·.output.commit)

private theorem subperm_nodup {a b : List OutputRecord} (h : a.Subperm b) (hb : (b.map oc).Nodup) : (a.map oc).Nodup := by
  obtain ⟨l, hp, hl⟩ := h
  exact (hp.map oc).nodup_iff.1 (hb.sublist (hl.map oc))

private theorem find_self {l : List OutputRecord} (hn : (l.map oc).Nodup) {o : OutputRecord} (ho : o ∈ l) :
    l.find? (fun x => oc x = oc o) = some o := by
  induction l with
  | nil => cases ho
  | cons r rs ih =>
    rw [List.map_cons, List.nodup_cons] at hn
    rcases List.mem_cons.1 ho with rfl | ho
    · rw [List.find?_cons_of_pos (by simp)]
    · rw [List.find?_cons_of_neg, ih hn.2 ho]
      simp only [decide_eq_true_eq]
      intro e
      exact hn.1 (e ▸ List.mem_map_of_mem ho)

private theorem lock_map {rows ins : List OutputRecord} (hn : (rows.map oc).Nodup) (hs : ∀ o ∈ ins, o ∈ rows)
    (hi : (ins.map oc).Nodup) :
    addOutputs rows (ins.map lockCoin) = rows.map (fun o => if o ∈ ins then lockCoin o else o) := by
  have hmap : (ins.map lockCoin).map oc = ins.map oc := by rw [List.map_map]; rfl
  rw [addOutputs_map hn (by rw [hmap]; exact hi)]
  · apply List.map_congr_left
    intro o ho
    by_cases hm : o ∈ ins
    · rw [if_pos hm]
      have : (ins.map lockCoin).find? (fun x => oc x = oc o) = some (lockCoin o) := by
        rw [List.find?_map]
        have := find_self hi hm
        show Option.map lockCoin (ins.find? (fun x => oc x = oc o)) = _
        rw [this]; rfl
      rw [this]; rfl
    · rw [if_neg hm]
      have : (ins.map lockCoin).find? (fun x => oc x = oc o) = none := by
        rw [List.find?_eq_none]
        intro x hx
        simp only [decide_eq_true_eq]
        intro e
        obtain ⟨y, hy, rfl⟩ := List.mem_map.1 hx
        have h1 := find_self hn ho
        have h2 := find_self hn (hs y hy)
        rw [lockCoin_oc] at e
        rw [e] at h2
        rw [h1] at h2
        cases h2
        exact hm hy
      rw [this]; rfl
  · intro o ho
    obtain ⟨y, hy, rfl⟩ := List.mem_map.1 ho
    rw [lockCoin_oc]
    exact List.mem_map_of_mem (hs y hy)

/-! ## What a send does -/

/-- **C45**, sending: the coins chosen, all of them spendable before, are set aside; the change is recorded without
confirmation and owned by the new transaction; every other output is as before; the new transaction is the last one,
is of type "sending started", and records what was debited and credited. -/
theorem send_effect {env : Env} {conf tip : Nat} {up down : List OutputRecord → List OutputRecord}
    {commit : List Nat → Nat → Bytes} {a : SendArgs} {db db' : WDB} (hs : Sorters up down) (hdb : Sane db)
    (h : send env conf tip up down commit a db = .ok db') :
    ∃ p, sendPlan up down (availableCoins env conf tip db.outputs) a.amount a.base a.maxChange a.entire a.strategy a.wanted
      = .ok p ∧
    (∀ o ∈ p.inputs, o ∈ db.outputs ∧ o.status = SPENDABLE) ∧
    (FreshChange commit p db → ∃ change : List OutputRecord,
      change.map (·.amount) = p.change ∧
      (∀ o ∈ change, o.status = NO_CONFIRMATIONS ∧ o.txId = some db.nextTxId) ∧
      db'.outputs = db.outputs.map (fun o => if o ∈ p.inputs then { o with status := LOCKED } else o) ++ change ∧
      ∃ t, db'.txs = db.txs ++ [t] ∧ t.id = db.nextTxId ∧ t.type = 5 ∧ t.slateId = some a.slateId ∧ t.fee = some p.fee ∧
        t.debited = worth p.inputs % 2 ^ 64 ∧ t.credited = p.change.sum % 2 ^ 64 ∧
        t.tx = some (p.inputs.map (·.output.commit), change.map (·.output.commit))) := by
  unfold send at h
  obtain ⟨p, hp, h⟩ := Res.bind_eq_ok.1 h
  have hsub := plan_subperm hs hp
  have hmem : ∀ o ∈ p.inputs, o ∈ db.outputs ∧ o.status = SPENDABLE := by
    intro o ho
    have := hsub.subset ho
    rw [availableCoins, List.mem_filter, Bool.and_eq_true, decide_eq_true_eq] at this
    exact ⟨this.1, this.2.1⟩
  refine ⟨p, hp, hmem, ?_⟩
  intro hf
  have hav : (availableCoins env conf tip db.outputs).Sublist db.outputs := List.filter_sublist
  have hin : (p.inputs.map oc).Nodup := subperm_nodup (hsub.trans hav.subperm) hdb.commits
  unfold buildSend at h
  simp only at h
  split at h
  · cases h
  have h := Res.ok.inj h
  have hco := createOutputs_db commit db.nextTxId p.change (nextTxId db).2
  have ho1 : (createOutputs commit (nextTxId db).1 (nextTxId db).2 p.change).2.outputs = db.outputs := by
    show (createOutputs commit db.nextTxId (nextTxId db).2 p.change).2.outputs = _
    rw [hco]; rfl
  have ht1 : (createOutputs commit (nextTxId db).1 (nextTxId db).2 p.change).2.txs = db.txs := by
    show (createOutputs commit db.nextTxId (nextTxId db).2 p.change).2.txs = _
    rw [hco]; rfl
  rw [ho1, ht1] at h
  have hch : (createOutputs commit (nextTxId db).1 (nextTxId db).2 p.change).1 = changeOf commit p db := rfl
  rw [hch] at h
  refine ⟨changeOf commit p db, createOutputs_amounts _ _ _ _, ?_, ?_, ?_⟩
  · intro o ho
    exact ⟨(createOutputs_mem ho).1, (createOutputs_mem ho).2.1⟩
  · rw [← h]
    show addOutputs (addOutputs db.outputs (changeOf commit p db)) (p.inputs.map lockCoin) = _
    rw [addOutputs_new hf.1 hf.2, lock_map _ _ hin, List.map_append]
    · congr 1
      calc _ = (changeOf commit p db).map id := by
            apply List.map_congr_left
            intro o ho
            rw [if_neg]; rfl
            intro hc
            have h1 := (hmem o hc).2
            have h2 := (createOutputs_mem ho).1
            rw [h1] at h2; cases h2
        _ = _ := by simp
    · rw [List.map_append]
      apply List.Nodup.append hdb.commits hf.1
      intro c hc1 hc2
      obtain ⟨o, ho, rfl⟩ := List.mem_map.1 hc2
      exact hf.2 o ho hc1
    · intro o ho
      exact List.mem_append_left _ (hmem o ho).1
  · rw [← h]
    refine ⟨_, putTx_new hdb.next, rfl, rfl, rfl, rfl, sum64_eq _, ?_, rfl⟩
    show sum64 (changeOf commit p db) = _
    rw [sum64_eq, worth, changeOf, createOutputs_amounts]
    rfl

/-! ## What a cancel does -/

private theorem cancelOutput_spec {ins : List Bytes} {t : WTx} {o : OutputRecord} {x : Option OutputRecord}
    (h : cancelOutput ins t o = .ok x) :
    x.getD o = afterCancel ins t.id o ∧ (∀ y ∈ x, oc y = oc o) := by
  unfold cancelOutput at h
  unfold afterCancel
  by_cases hc : o.output.commit ∈ ins
  · rw [if_pos (by simpa using hc)] at h
    by_cases h1 : o.status = NO_CONFIRMATIONS ∨ o.status = SPENT
    · rw [if_pos h1] at h; cases h
      rw [if_neg (by simp only [NO_CONFIRMATIONS, SPENT, LOCKED] at *; omega), if_pos ⟨Or.inl hc, h1⟩]
      exact ⟨rfl, by intro y hy; cases hy; rfl⟩
    · rw [if_neg h1] at h
      by_cases h2 : o.status = LOCKED
      · rw [if_pos h2] at h; cases h
        rw [if_pos ⟨hc, h2⟩]
        exact ⟨rfl, by intro y hy; cases hy; rfl⟩
      · rw [if_neg h2] at h
        split at h
        · cases h
        · cases h
          rw [if_neg (fun h => h2 h.2), if_neg (fun h => h1 h.2)]
          exact ⟨rfl, by intro y hy; cases hy⟩
  · rw [if_neg (by simpa using hc)] at h
    rw [if_neg (fun h => hc h.1)]
    by_cases hi : o.txId = some t.id
    · rw [if_pos hi] at h
      by_cases h1 : o.status = NO_CONFIRMATIONS ∨ o.status = SPENT
      · rw [if_pos h1] at h; cases h
        rw [if_pos ⟨Or.inr hi, h1⟩]
        exact ⟨rfl, by intro y hy; cases hy; rfl⟩
      · rw [if_neg h1] at h
        rw [if_neg (fun h => h1 h.2)]
        split at h
        · cases h
        · cases h
          exact ⟨rfl, by intro y hy; cases hy⟩
    · rw [if_neg hi] at h; cases h
      rw [if_neg (by rintro ⟨h | h, _⟩; exacts [hc h, hi h])]
      exact ⟨rfl, by intro y hy; cases hy⟩

private theorem cancelOutputs_spec {ins : List Bytes} {t : WTx} : ∀ {l upd : List OutputRecord},
    cancelOutputs ins t l = .ok upd → (l.map oc).Nodup →
    (∀ y ∈ upd, oc y ∈ l.map oc) ∧ (upd.map oc).Nodup ∧
    ∀ o ∈ l, (upd.find? (fun y => oc y = oc o)).getD o = afterCancel ins t.id o
  | [], upd, h, _ => by
    cases h
    exact ⟨by simp, List.nodup_nil, by simp⟩
  | o :: os, upd, h, hn => by
    rw [cancelOutputs] at h
    obtain ⟨x, hx, h⟩ := Res.bind_eq_ok.1 h
    obtain ⟨r, hr, h⟩ := Res.bind_eq_ok.1 h
    cases h
    rw [List.map_cons, List.nodup_cons] at hn
    obtain ⟨i1, i2, i3⟩ := cancelOutputs_spec hr hn.2
    obtain ⟨c1, c2⟩ := cancelOutput_spec hx
    have hfr : ∀ y ∈ r, oc y ≠ oc o := fun y hy e => hn.1 (e ▸ i1 y hy)
    refine ⟨?_, ?_, ?_⟩
    · intro y hy
      rcases List.mem_append.1 hy with hy | hy
      · rw [c2 y (by simpa using hy)]; simp
      · exact List.mem_cons_of_mem _ (i1 y hy)
    · cases x with
      | none => exact i2
      | some y =>
        show ((y :: r).map oc).Nodup
        rw [List.map_cons, List.nodup_cons]
        refine ⟨?_, i2⟩
        rw [c2 y rfl]
        intro hm
        exact hn.1 (by obtain ⟨z, hz, hzo⟩ := List.mem_map.1 hm; exact hzo ▸ i1 z hz)
    · intro p hp
      rcases List.mem_cons.1 hp with rfl | hp
      · cases x with
        | none =>
          show (r.find? _).getD p = _
          have : r.find? (fun y => oc y = oc p) = none := by
            rw [List.find?_eq_none]; intro y hy; simpa using hfr y hy
          rw [this, ← c1]
        | some y =>
          show ((y :: r).find? _).getD p = _
          rw [List.find?_cons_of_pos (by simp [c2 y rfl]), ← c1]
      · have hne : oc p ≠ oc o := fun e => hn.1 (e ▸ List.mem_map_of_mem hp)
        cases x with
        | none => exact i3 p hp
        | some y =>
          show ((y :: r).find? _).getD p = _
          rw [List.find?_cons_of_neg, i3 p hp]
          rw [c2 y rfl]; simpa using fun e => hne e.symm

/-- **C45**, a successful cancel: the transaction was a send not yet seen on the chain or a receive in progress; it becomes
canceled and no other transaction changes; each output becomes what `afterCancel` says, so outputs the transaction
neither spends nor created are as before. -/
theorem cancel_effect {id : Nat} {db db' : WDB} (hdb : Sane db) {t : WTx} (ht : t ∈ db.txs) (hid : t.id = id)
    (h : cancel id db = .ok db') :
    Cancelable t ∧ db'.outputs = db.outputs.map (afterCancel (spentBy t) id) ∧
    db'.txs = db.txs.map (fun r => if r.id = id then { t with type := if t.type = 6 then 4 else 3 } else r) ∧
    db'.nextChild = db.nextChild ∧ db'.nextTxId = db.nextTxId ∧ db'.contexts = db.contexts := by
  have hfind : db.txs.find? (fun t => t.id = id) = some t := by
    have hn : (db.txs.map (·.id)).Nodup := hdb.order.imp (fun h => Nat.ne_of_lt h)
    clear h
    have : ∀ l : List WTx, (l.map (·.id)).Nodup → t ∈ l → l.find? (fun t => t.id = id) = some t := by
      intro l
      induction l with
      | nil => intro _ h; cases h
      | cons r rs ih =>
        intro hn hm
        rw [List.map_cons, List.nodup_cons] at hn
        rcases List.mem_cons.1 hm with rfl | hm
        · rw [List.find?_cons_of_pos (by simp [hid])]
        · rw [List.find?_cons_of_neg, ih hn.2 hm]
          simp only [decide_eq_true_eq]
          intro e
          exact hn.1 (by rw [e, ← hid]; exact List.mem_map_of_mem hm)
    exact this _ hn ht
  unfold cancel at h
  rw [hfind] at h
  simp only [cancelTx] at h
  obtain ⟨t', ht', h⟩ := Res.bind_eq_ok.1 h
  obtain ⟨upd, hupd, h⟩ := Res.bind_eq_ok.1 h
  have h := Res.ok.inj h
  have hc : Cancelable t ∧ t' = { t with type := if t.type = 6 then 4 else 3 } := by
    unfold cancelType at ht'
    by_cases h6 : t.type = RECEIVING_IN_PROGRESS
    · rw [if_pos h6] at ht'; cases ht'
      exact ⟨Or.inr (Or.inl h6), by rw [if_pos (show t.type = 6 from h6)]; rfl⟩
    · rw [if_neg h6] at ht'
      split at ht'
      · rename_i h5; cases ht'
        refine ⟨h5.elim Or.inl (fun h => Or.inr (Or.inr h)), ?_⟩
        rw [if_neg (show ¬ t.type = 6 from h6)]; rfl
      · cases ht'
  have hins : cancelInputs t' = spentBy t := by
    rw [hc.2, cancelInputs, spentBy]
    simp only
    cases htx : t.tx with
    | none => simp
    | some x => by_cases h6 : t.type = 6 <;> simp [h6, SENT_CANCELED]
  have hid' : t'.id = id := by rw [hc.2]; exact hid
  obtain ⟨u1, u2, u3⟩ := cancelOutputs_spec hupd hdb.commits
  refine ⟨hc.1, ?_, ?_, ?_, ?_, ?_⟩
  · rw [← h]
    show addOutputs db.outputs upd = _
    rw [addOutputs_map hdb.commits u2 u1]
    apply List.map_congr_left
    intro o ho
    rw [u3 o ho, hins, hid']
  · rw [← h]
    show putTx db.txs t' = _
    rw [putTx_mem hdb.order (by rw [hid', ← hid]; exact List.mem_map_of_mem ht), hid', hc.2]
  all_goals rw [← h]

/-- **C45**: a transaction of any other type is refused and nothing changes; in particular one already canceled. -/
theorem cancel_refused {id : Nat} {db : WDB} (hdb : Sane db) {t : WTx} (ht : t ∈ db.txs) (hid : t.id = id)
    (h : ¬ Cancelable t) : ∀ db', cancel id db ≠ .ok db' :=
  fun _ hc => h (cancel_effect hdb ht hid hc).1

private theorem cancelOutput_ok {ins : List Bytes} {t : WTx} {o : OutputRecord} (ht : t.type = SENT_CANCELED)
    (h : o.txId = some t.id → o.status = NO_CONFIRMATIONS ∨ o.status = SPENT ∨ o.status = CANCELED) :
    ∃ x, cancelOutput ins t o = .ok x := by
  unfold cancelOutput
  by_cases hc : ins.contains o.output.commit
  · rw [if_pos hc]
    by_cases h1 : o.status = NO_CONFIRMATIONS ∨ o.status = SPENT
    · rw [if_pos h1]; exact ⟨_, rfl⟩
    · rw [if_neg h1]
      by_cases h2 : o.status = LOCKED
      · rw [if_pos h2]; exact ⟨_, rfl⟩
      · rw [if_neg h2, if_neg (by simp [ht])]; exact ⟨_, rfl⟩
  · rw [if_neg hc]
    by_cases hi : o.txId = some t.id
    · rw [if_pos hi]
      by_cases h1 : o.status = NO_CONFIRMATIONS ∨ o.status = SPENT
      · rw [if_pos h1]; exact ⟨_, rfl⟩
      · rw [if_neg h1]
        have : o.status = CANCELED := by
          rcases h hi with h | h | h
          · exact absurd (Or.inl h) h1
          · exact absurd (Or.inr h) h1
          · exact h
        rw [if_neg (by simp [this])]; exact ⟨_, rfl⟩
    · rw [if_neg hi]; exact ⟨_, rfl⟩

private theorem cancelOutputs_ok {ins : List Bytes} {t : WTx} (ht : t.type = SENT_CANCELED) : ∀ {l : List OutputRecord},
    (∀ o ∈ l, o.txId = some t.id → o.status = NO_CONFIRMATIONS ∨ o.status = SPENT ∨ o.status = CANCELED) →
    ∃ upd, cancelOutputs ins t l = .ok upd
  | [], _ => ⟨[], rfl⟩
  | o :: os, h => by
    obtain ⟨x, hx⟩ := cancelOutput_ok (ins := ins) ht (h o (by simp))
    obtain ⟨r, hr⟩ := cancelOutputs_ok (ins := ins) ht (l := os) (fun y hy => h y (by simp [hy]))
    rw [cancelOutputs, hx, hr]
    exact ⟨_, rfl⟩

private theorem send_nextTxId {env : Env} {conf tip : Nat} {up down : List OutputRecord → List OutputRecord}
    {commit : List Nat → Nat → Bytes} {a : SendArgs} {db db' : WDB}
    (h : send env conf tip up down commit a db = .ok db') : db'.nextTxId = (db.nextTxId + 1) % 2 ^ 32 := by
  unfold send at h
  obtain ⟨p, hp, h⟩ := Res.bind_eq_ok.1 h
  unfold buildSend at h
  simp only at h
  split at h
  · cases h
  have h := Res.ok.inj h
  rw [← h]
  show (createOutputs commit (nextTxId db).1 (nextTxId db).2 p.change).2.nextTxId = _
  rw [createOutputs_db]
  rfl

/-- **C45**: a send followed by its cancel gives back every coin: the outputs are those before the send, and the change
outputs, canceled. -/
theorem send_cancel_restores {env : Env} {conf tip : Nat} {up down : List OutputRecord → List OutputRecord}
    {commit : List Nat → Nat → Bytes} {a : SendArgs} {db db' : WDB} (hs : Sorters up down) (hdb : Sane db)
    (hfresh : ∀ p, sendPlan up down (availableCoins env conf tip db.outputs) a.amount a.base a.maxChange a.entire
      a.strategy a.wanted = .ok p → FreshChange commit p db)
    (h : send env conf tip up down commit a db = .ok db') (hnext : db.nextTxId + 1 < 2 ^ 32) :
    ∃ db'' change, cancel db.nextTxId db' = .ok db'' ∧ db''.outputs = db.outputs ++ change ∧
      ∀ o ∈ change, o.status = CANCELED := by
  have hnx := send_nextTxId h
  rw [Nat.mod_eq_of_lt hnext] at hnx
  obtain ⟨p, hp, hmem, hrest⟩ := send_effect hs hdb h
  have hf := hfresh p hp
  obtain ⟨change, hamt, hch, hout, t, htxs, hid, htype, _, _, _, _, htx⟩ := hrest hf
  have hcommits : (db'.outputs.map oc).Nodup := by
    unfold send at h
    obtain ⟨q, _, h⟩ := Res.bind_eq_ok.1 h
    unfold buildSend at h
    simp only at h
    split at h
    · cases h
    have h := Res.ok.inj h
    rw [← h]
    apply addOutputs_nodup
    apply addOutputs_nodup
    rw [createOutputs_db]
    exact hdb.commits
  have hsane : Sane db' := by
    refine ⟨hcommits, ?_, ?_, ?_⟩
    · rw [htxs, List.map_append, List.pairwise_append]
      refine ⟨hdb.order, by simp, ?_⟩
      intro x hx y hy
      simp at hy
      obtain ⟨r, hr, rfl⟩ := List.mem_map.1 hx
      rw [hy, hid]
      exact hdb.next r hr
    · intro r hr
      rw [htxs] at hr
      rw [hnx]
      rcases List.mem_append.1 hr with hr | hr
      · have := hdb.next r hr; omega
      · simp at hr; rw [hr, hid]; omega
    · intro o ho i hi
      rw [hout] at ho
      rw [hnx]
      rcases List.mem_append.1 ho with ho | ho
      · obtain ⟨x, hx, rfl⟩ := List.mem_map.1 ho
        have : x.txId = some i := by
          by_cases hm : x ∈ p.inputs
          · rw [if_pos hm] at hi; exact hi
          · rw [if_neg hm] at hi; exact hi
        have := hdb.owner x hx i this; omega
      · rw [(hch o ho).2] at hi; cases hi; omega
  have htm : t ∈ db'.txs := by rw [htxs]; simp
  have hown : ∀ o ∈ db'.outputs, o.txId = some t.id → o.status = NO_CONFIRMATIONS ∨ o.status = SPENT ∨ o.status = CANCELED := by
    intro o ho hi
    rw [hout] at ho
    rcases List.mem_append.1 ho with ho | ho
    · obtain ⟨x, hx, rfl⟩ := List.mem_map.1 ho
      have : x.txId = some t.id := by
        by_cases hm : x ∈ p.inputs
        · rw [if_pos hm] at hi; exact hi
        · rw [if_neg hm] at hi; exact hi
      have := hdb.owner x hx _ this; omega
    · exact Or.inl (hch o ho).1
  have hok : ∃ db'', cancel db.nextTxId db' = .ok db'' := by
    have hfind : ∃ r, db'.txs.find? (fun r => r.id = db.nextTxId) = some r ∧ r = t := by
      refine ⟨t, ?_, rfl⟩
      rw [htxs, List.find?_append]
      have : db.txs.find? (fun r => r.id = db.nextTxId) = none := by
        rw [List.find?_eq_none]
        intro r hr
        have := hdb.next r hr
        simp; omega
      rw [this]
      simp [hid]
    obtain ⟨r, hr, rfl⟩ := hfind
    have htc : cancelType r = .ok { r with type := SENT_CANCELED } := by
      rw [cancelType, if_neg (by simp [htype, RECEIVING_IN_PROGRESS]), if_pos (show r.type = SENDING_STARTED ∨ _ from Or.inl htype)]
    obtain ⟨upd, hupd⟩ := cancelOutputs_ok (ins := cancelInputs { r with type := SENT_CANCELED })
      (t := { r with type := SENT_CANCELED }) rfl hown
    refine ⟨{ db' with outputs := addOutputs db'.outputs upd, txs := putTx db'.txs { r with type := SENT_CANCELED } }, ?_⟩
    rw [cancel, hr]
    exact Res.bind_eq_ok.2 ⟨_, htc, Res.bind_eq_ok.2 ⟨_, hupd, rfl⟩⟩
  obtain ⟨db'', hc⟩ := hok
  refine ⟨db'', change.map (afterCancel (spentBy t) db.nextTxId), hc, ?_, ?_⟩
  · rw [(cancel_effect hsane htm hid hc).2.1, hout, List.map_append]
    congr 1
    rw [List.map_map]
    calc _ = db.outputs.map id := by
          apply List.map_congr_left
          intro o ho
          have hsp : spentBy t = p.inputs.map oc := by
            rw [spentBy, if_neg (by rw [htype]; decide), htx]; rfl
          rw [hsp]
          simp only [Function.comp_apply, id]
          by_cases hm : o ∈ p.inputs
          · rw [if_pos hm, afterCancel,
              if_pos ⟨(List.mem_map_of_mem (f := oc) hm : oc o ∈ p.inputs.map oc), rfl⟩]
            have := (hmem o hm).2
            rw [← this]
          · rw [if_neg hm, afterCancel]
            have hnc : o.output.commit ∉ p.inputs.map oc := by
              intro hmc
              obtain ⟨y, hy, hyo⟩ := List.mem_map.1 hmc
              have h1 := find_self (l := db.outputs) hdb.commits ho
              have h2 := find_self (l := db.outputs) hdb.commits (hmem y hy).1
              rw [hyo] at h2
              have h1' : db.outputs.find? (fun x => oc x = o.output.commit) = some o := h1
              rw [h1'] at h2
              cases h2
              exact hm hy
            rw [if_neg (fun h => hnc h.1), if_neg]
            rintro ⟨h | h, _⟩
            · exact hnc h
            · have := hdb.owner o ho _ h; omega
      _ = db.outputs := by simp
  · intro o ho
    obtain ⟨x, hx, rfl⟩ := List.mem_map.1 ho
    have h1 := (hch x hx).1
    rw [afterCancel, if_neg (by rw [h1]; simp [NO_CONFIRMATIONS, LOCKED]), if_pos ⟨Or.inr (hch x hx).2, Or.inl h1⟩]

/-! ## A concrete wallet -/

/-- One coin of 100 at height 10, no transactions. -/
def oneCoin : WDB := ⟨[coinOf 100 [1]], [], [], 7, 0, 20⟩

/-- A commitment function that keeps path and amount apart. -/
def tagCommit (p : List Nat) (v : Nat) : Bytes := 99 :: UInt8.ofNat v :: p.map UInt8.ofNat

/-- Send 10 with a fee of 1 per unit of weight and one change output. -/
def send10 (slate : Bytes) : SendArgs := ⟨10, 1, 1, false, .fewest, [], slate, 5, 6⟩

private theorem oneCoin_sane : Sane oneCoin :=
  ⟨by decide, by decide, by decide, by decide⟩

/-- The wallet after the send, if it succeeds. -/
def sent10 : Option WDB :=
  match send .mainnet 10 20 sortUp (fun l => (sortUp l).reverse) tagCommit (send10 [8]) oneCoin with
  | .ok db => some db
  | _ => none

example : sent10.map (·.outputs.map (fun o => (o.amount, o.status))) = some [(100, LOCKED), (44, NO_CONFIRMATIONS)] := by
  decide +kernel

example : ∃ db, send .mainnet 10 20 sortUp (fun l => (sortUp l).reverse) tagCommit (send10 [8]) oneCoin = .ok db ∧
    Sane oneCoin ∧ oneCoin.nextTxId + 1 < 2 ^ 32 ∧ worth db.outputs < 2 ^ 64 ∧ HeightsFit 10 db.outputs ∧
    ∀ p, sendPlan sortUp (fun l => (sortUp l).reverse) (availableCoins .mainnet 10 20 oneCoin.outputs) 10 1 1 false .fewest []
      = .ok p → FreshChange tagCommit p oneCoin := by
  refine ⟨sent10.getD oneCoin, by decide +kernel, oneCoin_sane, by decide, by decide +kernel, by decide +kernel, ?_⟩
  intro p hp
  have hq : sendPlan sortUp (fun l => (sortUp l).reverse) (availableCoins .mainnet 10 20 oneCoin.outputs) 10 1 1 false
    .fewest [] = .ok ⟨oneCoin.outputs, 10, 46, [44]⟩ := by decide +kernel
  rw [hq] at hp
  cases hp
  exact ⟨by unfold changeOf; decide, by unfold changeOf; decide⟩

/-! ## Sending and the balance -/

private theorem worthOf_lock {q : OutputRecord → Bool} {ins : List OutputRecord} : ∀ (l : List OutputRecord),
    worthOf q (l.map (fun o => if o ∈ ins then { o with status := LOCKED } else o)) =
      worthOf (fun o => if o ∈ ins then q { o with status := LOCKED } else q o) l
  | [] => rfl
  | o :: l => by
    rw [List.map_cons]
    unfold worthOf at *
    have ih := worthOf_lock (q := q) (ins := ins) l
    unfold worthOf at ih
    by_cases hm : o ∈ ins
    · rw [if_pos hm]
      by_cases hq : q { o with status := LOCKED }
      · rw [List.filter_cons_of_pos hq, List.filter_cons_of_pos (by rw [if_pos hm]; exact hq)]
        simp only [worth, List.map_cons, List.sum_cons] at ih ⊢
        rw [ih]
      · rw [List.filter_cons_of_neg hq, List.filter_cons_of_neg (by rw [if_pos hm]; exact hq)]
        exact ih
    · rw [if_neg hm]
      by_cases hq : q o
      · rw [List.filter_cons_of_pos hq, List.filter_cons_of_pos (by rw [if_neg hm]; exact hq)]
        simp only [worth, List.map_cons, List.sum_cons] at ih ⊢
        rw [ih]
      · rw [List.filter_cons_of_neg hq, List.filter_cons_of_neg (by rw [if_neg hm]; exact hq)]
        exact ih

private theorem worthOf_app (p : OutputRecord → Bool) (a b : List OutputRecord) :
    worthOf p (a ++ b) = worthOf p a + worthOf p b := by
  simp [worthOf, worth, List.filter_append, List.map_append, List.sum_append]

private theorem worthOf_disj {p q r : OutputRecord → Bool} : ∀ (l : List OutputRecord),
    (∀ o ∈ l, (r o = (p o || q o)) ∧ ¬ (p o = true ∧ q o = true)) → worthOf r l = worthOf p l + worthOf q l
  | [], _ => rfl
  | o :: l, h => by
    have ih := worthOf_disj l (fun x hx => h x (by simp [hx]))
    obtain ⟨h1, h2⟩ := h o (by simp)
    unfold worthOf at *
    simp only [List.filter_cons, h1]
    cases hp : p o <;> cases hq : q o <;> simp_all [worth] <;> omega

private theorem worthOf_mem {ins l : List OutputRecord} (hl : (l.map oc).Nodup) (hi : (ins.map oc).Nodup)
    (hs : ∀ o ∈ ins, o ∈ l) : worthOf (fun o => o ∈ ins) l = worth ins := by
  have hp : (l.filter (fun o => o ∈ ins)).Perm ins := by
    rw [List.perm_ext_iff_of_nodup]
    · intro o
      rw [List.mem_filter, decide_eq_true_eq]
      exact ⟨fun h => h.2, fun h => ⟨hs o h, h⟩⟩
    · exact (List.Nodup.of_map oc hl).filter _
    · exact List.Nodup.of_map oc hi
  unfold worthOf worth
  exact (hp.map _).sum_eq

/-- **C45**, sending and the balance, read at the height the send used: what the coins were worth moves from spendable to
locked, and the change is added to what awaits confirmation; nothing else moves. -/
theorem send_moves_balance {env : Env} {conf : Nat} {up down : List OutputRecord → List OutputRecord}
    {commit : List Nat → Nat → Bytes} {a : SendArgs} {db db' : WDB} (hs : Sorters up down) (hdb : Sane db)
    (hfresh : ∀ p, sendPlan up down (availableCoins env conf db.refreshHeight db.outputs) a.amount a.base a.maxChange a.entire
      a.strategy a.wanted = .ok p → FreshChange commit p db)
    (h : send env conf db.refreshHeight up down commit a db = .ok db')
    (hb : worth db'.outputs < 2 ^ 64) (hh : HeightsFit conf db'.outputs) :
    ∃ p, sendPlan up down (availableCoins env conf db.refreshHeight db.outputs) a.amount a.base a.maxChange a.entire
        a.strategy a.wanted = .ok p ∧
      (getBalance env conf db').spendable + worth p.inputs = (getBalance env conf db).spendable ∧
      (getBalance env conf db').locked = (getBalance env conf db).locked + worth p.inputs ∧
      (getBalance env conf db').unconfirmed = (getBalance env conf db).unconfirmed + p.change.sum ∧
      (getBalance env conf db').immature = (getBalance env conf db).immature := by
  obtain ⟨p, hp, hmem, hrest⟩ := send_effect hs hdb h
  have hsub := plan_subperm hs hp
  obtain ⟨change, hamt, hch, hout, _⟩ := hrest (hfresh p hp)
  have hrh : db'.refreshHeight = db.refreshHeight := by
    unfold send at h
    obtain ⟨q, _, h⟩ := Res.bind_eq_ok.1 h
    unfold buildSend at h
    simp only at h
    split at h
    · cases h
    have h := Res.ok.inj h
    rw [← h]
    show (createOutputs commit (nextTxId db).1 (nextTxId db).2 q.change).2.refreshHeight = _
    rw [createOutputs_db]
    rfl
  have hin : (p.inputs.map oc).Nodup := by
    have hav : (availableCoins env conf db.refreshHeight db.outputs).Sublist db.outputs := List.filter_sublist
    exact subperm_nodup (hsub.trans hav.subperm) hdb.commits
  have hmap : ∀ l : List OutputRecord, worth (l.map (fun o => if o ∈ p.inputs then { o with status := LOCKED } else o)) = worth l := by
    intro l
    unfold worth
    rw [List.map_map]
    congr 1
    apply List.map_congr_left
    intro o _
    simp only [Function.comp_apply]
    split <;> rfl
  have hb0 : worth db.outputs < 2 ^ 64 := by
    have : worth db'.outputs = worth db.outputs + worth change := by
      rw [hout, ← hmap db.outputs]; simp [worth, List.map_append, List.sum_append]
    omega
  have hh0 : HeightsFit conf db.outputs := by
    intro o ho
    have := hh (if o ∈ p.inputs then { o with status := LOCKED } else o)
      (by rw [hout]; exact List.mem_append_left _ (List.mem_map_of_mem ho))
    split at this <;> exact this
  have hchw : worth change = p.change.sum := by rw [worth, hamt]
  have hwm := worthOf_mem (l := db.outputs) hdb.commits hin (fun o ho => (hmem o ho).1)
  have hall : ∀ (q : OutputRecord → Bool), (∀ o, o.status = NO_CONFIRMATIONS → q o = false) → worthOf q change = 0 := by
    intro q hq
    have : change.filter q = [] := by
      rw [List.filter_eq_nil_iff]
      intro o ho
      rw [hq o (hch o ho).1]; simp
    rw [worthOf, this]; rfl
  refine ⟨p, hp, ?_, ?_, ?_, ?_⟩
  · rw [(balance_partition (env := env) hb hh).2.2.1, (balance_partition (env := env) hb0 hh0).2.2.1, hrh, hout, worthOf_app,
      worthOf_lock, hall _ (by intro o ho; simp [ho, NO_CONFIRMATIONS, SPENDABLE]), ← hwm, Nat.add_zero]
    symm
    apply worthOf_disj
    intro o ho
    by_cases hm : o ∈ p.inputs
    · have hav := hsub.subset hm
      rw [availableCoins, List.mem_filter, Bool.and_eq_true, immature_mature (hh0 o ho)] at hav
      simp only [hm, if_true, decide_true, Bool.or_true, and_true]
      refine ⟨?_, by simp [LOCKED, SPENDABLE]⟩
      rw [hav.2.1, hav.2.2]; rfl
    · simp [hm]
  · rw [(balance_partition (env := env) hb hh).2.1, (balance_partition (env := env) hb0 hh0).2.1, hout, worthOf_app,
      worthOf_lock, hall _ (by intro o ho; simp [ho, NO_CONFIRMATIONS, LOCKED]), ← hwm, Nat.add_zero]
    apply worthOf_disj
    intro o ho
    by_cases hm : o ∈ p.inputs
    · have := (hmem o hm).2
      simp [hm, this, LOCKED, SPENDABLE]
    · simp [hm]
  · rw [(balance_partition (env := env) hb hh).1, (balance_partition (env := env) hb0 hh0).1, hout, worthOf_app, worthOf_lock]
    congr 1
    · unfold worthOf
      congr 1
      apply List.filter_congr
      intro o ho
      by_cases hm : o ∈ p.inputs
      · have := (hmem o hm).2
        simp [hm, this, LOCKED, SPENDABLE, NO_CONFIRMATIONS]
      · simp [hm]
    · rw [← hchw, worthOf, List.filter_eq_self.2]
      intro o ho
      simp [(hch o ho).1]
  · rw [(balance_partition (env := env) hb hh).2.2.2.1, (balance_partition (env := env) hb0 hh0).2.2.2.1, hrh, hout, worthOf_app,
      worthOf_lock, hall _ (by intro o ho; simp [ho, NO_CONFIRMATIONS, SPENDABLE]), Nat.add_zero]
    unfold worthOf
    congr 1
    apply List.filter_congr
    intro o ho
    by_cases hm : o ∈ p.inputs
    · have hav := hsub.subset hm
      rw [availableCoins, List.mem_filter, Bool.and_eq_true, immature_mature (hh0 o ho)] at hav
      simp only [hm, if_true]
      rw [hav.2.2]
      simp [LOCKED, SPENDABLE]
    · simp [hm]

/-! ## Where the code falls short -/

private theorem putTx_other {txs : List WTx} {t u : WTx} (hs : (ids txs).Pairwise (· < ·)) (hu : u.id ∈ ids txs)
    (ht : t ∈ txs) (hne : t.id ≠ u.id) : t ∈ putTx txs u := by
  rw [putTx_mem hs hu, List.mem_map]
  exact ⟨t, ht, by rw [if_neg hne]⟩

private theorem confirm_fold {old : List WTx} (hs : (ids old).Pairwise (· < ·)) {t : WTx} : ∀ (outs : List OutputRecord)
    (txs : List WTx), ids txs = ids old → t ∈ txs → (∀ o ∈ outs, o.txId ≠ some t.id) →
    ids (outs.foldl (confirmTx old) txs) = ids old ∧ t ∈ outs.foldl (confirmTx old) txs
  | [], txs, hi, ht, _ => ⟨hi, ht⟩
  | o :: os, txs, hi, ht, hne => by
    rw [List.foldl_cons]
    have hstep : ids (confirmTx old txs o) = ids old ∧ t ∈ confirmTx old txs o := by
      unfold confirmTx
      split
      · rename_i u h hu hh
        obtain ⟨i, hoi, hfind⟩ := Option.bind_eq_some_iff.1 hu
        have hid : u.id = i := by simpa using List.find?_some hfind
        have hmem : u.id ∈ ids txs := by rw [hi]; exact List.mem_map_of_mem (List.mem_of_find?_eq_some hfind)
        have hn : t.id ≠ u.id := by
          intro e
          exact hne o (by simp) (by rw [hoi, e, hid])
        split
        · exact ⟨by refine Eq.trans (putTx_ids ?_ ?_) hi; (rw [hi]; exact hs); exact hmem,
            putTx_other (by rw [hi]; exact hs) hmem ht hn⟩
        · split
          · exact ⟨by refine Eq.trans (putTx_ids ?_ ?_) hi; (rw [hi]; exact hs); exact hmem,
              putTx_other (by rw [hi]; exact hs) hmem ht hn⟩
          · exact ⟨hi, ht⟩
      · exact ⟨hi, ht⟩
    exact confirm_fold hs os _ hstep.1 hstep.2 (fun x hx => hne x (by simp [hx]))

private theorem spent_fold {old : List WTx} {outs : List OutputRecord} (hs : (ids old).Pairwise (· < ·)) {t : WTx}
    (hto : t ∈ old) (hf : ∀ x, t.tx = some x → ∀ c ∈ x.2, c ∉ outs.map (·.output.commit)) : ∀ (l txs : List WTx),
    (∀ u ∈ l, u ∈ old) → ids txs = ids old → t ∈ txs → t ∈ l.foldl (confirmSpent outs) txs
  | [], txs, _, _, ht => ht
  | u :: us, txs, hl, hi, ht => by
    rw [List.foldl_cons]
    have hu := hl u (by simp)
    have hmem : u.id ∈ ids txs := by rw [hi]; exact List.mem_map_of_mem hu
    have hstep : ids (confirmSpent outs txs u) = ids old ∧ t ∈ confirmSpent outs txs u := by
      unfold confirmSpent
      split
      · rename_i x hx
        split
        · split
          · rename_i o ho
            split
            · have hn : t.id ≠ u.id := by
                intro e
                have hut : u = t := by
                  have hnd : (ids old).Nodup := hs.imp (fun h => Nat.ne_of_lt h)
                  exact List.inj_on_of_nodup_map hnd hu hto e.symm
                rw [hut] at hx
                obtain ⟨c, hc, hco⟩ := List.exists_of_findSome?_eq_some ho
                have hmo := List.mem_of_find?_eq_some hco
                have hce : c = o.output.commit := by simpa using List.find?_some hco
                exact hf x hx c hc (by rw [hce]; exact List.mem_map_of_mem hmo)
              exact ⟨by refine Eq.trans (putTx_ids ?_ ?_) hi; (rw [hi]; exact hs); exact hmem,
                putTx_other (by rw [hi]; exact hs) hmem ht hn⟩
            · exact ⟨hi, ht⟩
          · exact ⟨hi, ht⟩
        · exact ⟨hi, ht⟩
      · exact ⟨hi, ht⟩
    exact spent_fold hs hto hf us _ (fun x hx => hl x (by simp [hx])) hstep.1 hstep.2

/-- **C45** is violated: a send that has no change of the wallet's own is never marked as sent by a refresh, whatever the
node reports: it stays as it is, and can be canceled after the payment went through. -/
theorem sent_without_change_violated {v : NodeView} {db : WDB} (hdb : Sane db) {t : WTx} (ht : t ∈ db.txs)
    (hnew : newOutputs db.outputs v.restored = []) (hown : ∀ o ∈ db.outputs, o.txId ≠ some t.id)
    (hforeign : ∀ x, t.tx = some x → ∀ c ∈ x.2, c ∉ db.outputs.map (·.output.commit)) :
    t ∈ (refresh v db).2.txs := by
  unfold refresh
  split
  · exact ht
  · simp only [hnew, List.foldl_nil]
    have hmapc : (db.outputs.map (refreshOutput v.loc)).map (·.output.commit) = db.outputs.map (·.output.commit) := by
      rw [List.map_map]
      apply List.map_congr_left
      intro o _
      simp only [Function.comp_apply, refreshOutput]
      split <;> split <;> rfl
    have hmapi : ∀ o ∈ db.outputs.map (refreshOutput v.loc), o.txId ≠ some t.id := by
      intro o ho
      obtain ⟨x, hx, rfl⟩ := List.mem_map.1 ho
      have : (refreshOutput v.loc x).txId = x.txId := by
        unfold refreshOutput
        split <;> split <;> rfl
      rw [this]
      exact hown x hx
    unfold refreshTxs
    obtain ⟨h1, h2⟩ := confirm_fold hdb.order _ db.txs rfl ht hmapi
    exact spent_fold hdb.order ht (by rw [hmapc]; exact hforeign) db.txs _ (fun _ h => h) h1 h2

/-- Run operations one after the other, all of which must succeed. -/
def runOk (ops : List (WDB → Res WDB)) (db : WDB) : Option WDB :=
  ops.foldl (fun d f => d.bind (fun d => match f d with | .ok x => some x | _ => none)) (some db)

/-- Send, with the sorters above. -/
def doSend (a : SendArgs) : WDB → Res WDB :=
  send .mainnet 10 20 sortUp (fun l => (sortUp l).reverse) tagCommit a

/-- **C45** is violated, the whole history: send the entire balance, finalize, see the coin spent on the chain, cancel. -/
theorem cancel_after_payment_violated :
    (runOk [doSend ⟨0, 1, 0, true, .fewest, [], [8], 5, 6⟩, finalize [8] true [[1]] [[200]],
      fun db => .ok (refresh ⟨21, fun _ => none, []⟩ db).2] oneCoin).map
        (fun db => (db.outputs.map (·.status), db.txs.map (·.type))) = some ([SPENT], [7]) ∧
    (runOk [doSend ⟨0, 1, 0, true, .fewest, [], [8], 5, 6⟩, finalize [8] true [[1]] [[200]],
      fun db => .ok (refresh ⟨21, fun _ => none, []⟩ db).2, cancel 0] oneCoin).map
        (fun db => (db.outputs.map (·.status), db.txs.map (·.type))) = some ([CANCELED], [3]) := by
  decide +kernel

/-- **C45** is violated: a canceled send can still be finalized, and canceling it once more releases a coin that another
send has set aside since.  (Transaction 0 spends the coin, is canceled; transaction 1 locks the same coin; transaction 0 is
finalized and canceled again: the coin is offered as spendable while transaction 1 is under way.) -/
theorem cancel_releases_other_violated :
    (runOk [doSend (send10 [8]), cancel 0, doSend (send10 [9])] oneCoin).map
      (fun db => (db.outputs.map (fun o => (o.amount, o.status)), db.txs.map (·.type))) =
        some ([(100, LOCKED), (44, CANCELED), (44, NO_CONFIRMATIONS)], [3, 5]) ∧
    (runOk [doSend (send10 [8]), cancel 0, doSend (send10 [9]), finalize [8] true [[1]] [[200]], cancel 0] oneCoin).map
      (fun db => (db.outputs.map (fun o => (o.amount, o.status)), db.txs.map (·.type))) =
        some ([(100, SPENDABLE), (44, CANCELED), (44, NO_CONFIRMATIONS)], [3, 5]) := by
  decide +kernel

end Verif.Props
