import Verif.Props.Cancel

/-!
# C127: a payment, once it is in a block
-/
namespace Verif.Props
open Verif Verif.Wallet Verif.Codec Verif.PoW

/-! ## Spec -/

/-- Nothing the wallet counts has left the chain and nothing it has written off has come back: its spendable outputs are unspent on
the chain, and its spent and canceled ones are not.  (No output is ever stored as immature.) -/
def Calm (loc : Bytes → Option Nat) (l : List OutputRecord) : Prop :=
  ∀ o ∈ l, (o.status ≤ 5 ∧ o.status ≠ 1) ∧ (o.status = SPENDABLE → ∃ h, loc o.output.commit = some h) ∧
    (o.status = SPENT ∨ o.status = CANCELED → loc o.output.commit = none)

/-- The chain the node reports: not behind the wallet, with heights far from `2^64`, and without outputs of this wallet it has not recorded. -/
structure KeepsUp (v : NodeView) (conf : Nat) (db : WDB) : Prop where
  ahead : db.refreshHeight ≤ v.height
  none_new : newOutputs db.outputs v.restored = []
  heights : ∀ c h, v.loc c = some h → h + conf < 2 ^ 64

/-- The wallet's record of this output agrees with the chain: recorded as spendable or set aside, and there; or recorded as awaiting
confirmation, spent or canceled, and not there. -/
def Agrees (loc : Bytes → Option Nat) (o : OutputRecord) : Prop :=
  ((o.status = SPENDABLE ∨ o.status = LOCKED) ∧ ∃ h, loc o.output.commit = some h) ∨
  ((o.status = NO_CONFIRMATIONS ∨ o.status = SPENT ∨ o.status = CANCELED) ∧ loc o.output.commit = none)

/-! ## A refresh does not change what the wallet owns -/

private theorem worthOf_map (p : OutputRecord → Bool) (f : OutputRecord → OutputRecord) (h : ∀ o, (f o).amount = o.amount) :
    ∀ l : List OutputRecord, worthOf p (l.map f) = worthOf (fun o => p (f o)) l
  | [] => rfl
  | o :: l => by
    have ih := worthOf_map p f h l
    unfold worthOf at *
    rw [List.map_cons, List.filter_cons, List.filter_cons]
    split
    · simp only [worth, List.map_cons, List.sum_cons] at ih ⊢
      rw [ih, h]
    · exact ih

private theorem worthOf_congr {p q : OutputRecord → Bool} {l : List OutputRecord} (h : ∀ o ∈ l, p o = q o) : worthOf p l = worthOf q l := by
  unfold worthOf
  rw [List.filter_congr h]

private theorem worthOf_or {p q : OutputRecord → Bool} (hd : ∀ o, ¬ (p o = true ∧ q o = true)) : ∀ (l : List OutputRecord),
    worthOf (fun o => p o || q o) l = worthOf p l + worthOf q l
  | [] => rfl
  | o :: l => by
    have ih := worthOf_or hd l
    have h := hd o
    unfold worthOf at *
    simp only [List.filter_cons]
    cases hp : p o <;> cases hq : q o <;> simp_all [worth] <;> omega

private theorem refreshOutput_amount (loc : Bytes → Option Nat) (o : OutputRecord) : (refreshOutput loc o).amount = o.amount := by
  unfold refreshOutput
  split <;> split <;> rfl

private theorem refreshOutput_commit (loc : Bytes → Option Nat) (o : OutputRecord) : (refreshOutput loc o).output = o.output := by
  unfold refreshOutput
  split <;> split <;> rfl

private theorem refreshOutput_tx (loc : Bytes → Option Nat) (o : OutputRecord) : (refreshOutput loc o).txId = o.txId := by
  unfold refreshOutput
  split <;> split <;> rfl

private theorem total_eq {env : Env} {conf : Nat} {db : WDB} (hb : worth db.outputs < 2 ^ 64) (hh : HeightsFit conf db.outputs) :
    (getBalance env conf db).total = worthOf (fun o => o.status = SPENDABLE || o.status = NO_CONFIRMATIONS) db.outputs := by
  obtain ⟨h1, h2, h3, h4, h5, h6⟩ := balance_partition (env := env) hb hh
  rw [h5]
  rw [h2] at h6
  have := worthOf_or (p := fun o => o.status = SPENDABLE || o.status = NO_CONFIRMATIONS) (q := fun o => o.status = LOCKED)
    (by intro o h; simp only [Bool.or_eq_true, decide_eq_true_eq] at h; rcases h with ⟨h | h, h'⟩ <;> rw [h] at h' <;> cases h') db.outputs
  exact Nat.add_right_cancel (h6.trans this)

/-- The status a refresh gives an output. -/
private theorem refreshOutput_status (loc : Bytes → Option Nat) (o : OutputRecord) : (refreshOutput loc o).status =
    if (loc o.output.commit).isSome then (if o.status = LOCKED then LOCKED else SPENDABLE)
    else (if o.status = NO_CONFIRMATIONS ∨ o.status = SPENT ∨ o.status = CANCELED then o.status else SPENT) := by
  unfold refreshOutput
  rcases hl : loc o.output.commit with _ | h
  · simp only [Option.isSome_none, Bool.false_eq_true, if_false]
    by_cases h : o.status = NO_CONFIRMATIONS ∨ o.status = SPENT ∨ o.status = CANCELED
    · rw [if_pos h, if_pos h]
    · rw [if_neg h, if_neg h]
  · simp only [Option.isSome_some, if_true]
    by_cases h4 : o.status = LOCKED
    · simp [h4]
    · by_cases h0 : o.status = SPENDABLE <;> simp [h4, h0]

private theorem refresh_outputs {v : NodeView} {conf : Nat} {db : WDB} (hf : KeepsUp v conf db) :
    (refresh v db).2.outputs = db.outputs.map (refreshOutput v.loc) ∧ (refresh v db).2.refreshHeight = v.height ∧
    (refresh v db).2.txs = refreshTxs (db.outputs.map (refreshOutput v.loc)) db.txs db.txs := by
  unfold refresh
  rw [if_neg (Nat.not_lt.2 hf.ahead), hf.none_new]
  exact ⟨rfl, rfl, rfl⟩

private theorem refreshed_fits {v : NodeView} {conf : Nat} {db : WDB} (hf : KeepsUp v conf db) (hb : worth db.outputs < 2 ^ 64)
    (hh : HeightsFit conf db.outputs) : worth (refresh v db).2.outputs < 2 ^ 64 ∧ HeightsFit conf (refresh v db).2.outputs := by
  rw [(refresh_outputs hf).1]
  constructor
  · have : worth (db.outputs.map (refreshOutput v.loc)) = worth db.outputs := by
      unfold worth
      rw [List.map_map]
      congr 1
      exact List.map_congr_left fun o _ => refreshOutput_amount _ _
    omega
  · intro r hr
    obtain ⟨o, ho, rfl⟩ := List.mem_map.1 hr
    unfold refreshOutput
    split
    · rename_i h hl
      split
      · exact hh o ho
      · exact hf.heights _ _ hl
    · split
      · exact hh o ho
      · exact hh o ho

/-- **C127**, a refresh: if nothing the wallet counts has left the chain and nothing it wrote off came back, then what the wallet owns
stays the same to the last unit, however many transactions were mined since: what was awaiting confirmation is counted as confirmed, and coins
set aside for a send that was mined are no longer counted as set aside. -/
theorem refresh_keeps_total {env : Env} {conf : Nat} {v : NodeView} {db : WDB} (hf : KeepsUp v conf db) (hc : Calm v.loc db.outputs)
    (hb : worth db.outputs < 2 ^ 64) (hh : HeightsFit conf db.outputs) :
    (getBalance env conf (refresh v db).2).total = (getBalance env conf db).total ∧
    (getBalance env conf (refresh v db).2).locked =
      worthOf (fun o => o.status = LOCKED && (v.loc o.output.commit).isSome) db.outputs ∧
    (getBalance env conf (refresh v db).2).unconfirmed =
      worthOf (fun o => o.status = NO_CONFIRMATIONS && (v.loc o.output.commit).isNone) db.outputs := by
  obtain ⟨hb', hh'⟩ := refreshed_fits hf hb hh
  obtain ⟨h1, h2, _⟩ := balance_partition (env := env) hb' hh'
  rw [total_eq hb' hh', total_eq hb hh, h1, h2, (refresh_outputs hf).1]
  simp only [worthOf_map _ _ (refreshOutput_amount v.loc)]
  simp only [refreshOutput_status]
  refine ⟨worthOf_congr ?_, worthOf_congr ?_, worthOf_congr ?_⟩ <;> intro o ho <;> obtain ⟨c1, c2, c3⟩ := hc o ho <;>
    rcases hl : v.loc o.output.commit with _ | h <;> rw [hl] at c2 c3 <;>
    simp only [SPENDABLE, LOCKED, NO_CONFIRMATIONS, SPENT, CANCELED] at c1 c2 c3 ⊢ <;> generalize o.status = s at c1 c2 c3 ⊢ <;>
    by_cases h0 : s = 0 <;> by_cases h2 : s = 2 <;> by_cases h3 : s = 3 <;> by_cases h4 : s = 4 <;> by_cases h5 : s = 5 <;> (simp_all; try omega)

/-! ## Transactions are marked as confirmed -/

private theorem put_here {txs : List WTx} {t : WTx} (hs : (ids txs).Pairwise (· < ·)) (h : t.id ∈ ids txs) : t ∈ putTx txs t := by
  rw [putTx_mem hs h]
  obtain ⟨r, hr, e⟩ := List.mem_map.1 h
  exact List.mem_map.2 ⟨r, hr, if_pos e⟩

private theorem put_there {txs : List WTx} {t u : WTx} (hs : (ids txs).Pairwise (· < ·)) (hu : u.id ∈ ids txs)
    (ht : t ∈ txs) (hne : t.id ≠ u.id) : t ∈ putTx txs u := by
  rw [putTx_mem hs hu, List.mem_map]
  exact ⟨t, ht, by rw [if_neg hne]⟩

/-- The type of a transaction under way once it is confirmed. -/
private def doneType (t : WTx) : Nat := if t.type = RECEIVING_IN_PROGRESS then RECEIVED else SENT

/-- A transaction is recorded as confirmed at the height of one of its outputs. -/
private def Done (outs : List OutputRecord) (t : WTx) (txs : List WTx) : Prop :=
  ∃ o ∈ outs, o.txId = some t.id ∧ o.height.isSome ∧ { t with height := o.height, type := doneType t } ∈ txs

private theorem confirm_step {old txs : List WTx} {outs : List OutputRecord} {t : WTx} (hs : (ids old).Pairwise (· < ·)) (ht : t ∈ old)
    (hty : t.type = RECEIVING_IN_PROGRESS ∨ t.type = SENDING_FINALIZED) (hi : ids txs = ids old) (o : OutputRecord) (ho : o ∈ outs) :
    ids (confirmTx old txs o) = ids old ∧ (Done outs t txs → Done outs t (confirmTx old txs o)) ∧
    (o.txId = some t.id → o.height.isSome → Done outs t (confirmTx old txs o)) := by
  have hst : (ids txs).Pairwise (· < ·) := by rw [hi]; exact hs
  have hnd : (ids old).Nodup := hs.imp (fun h => Nat.ne_of_lt h)
  have key : ∀ (u u' : WTx) , u ∈ old → u'.id = u.id → (o.txId = some u.id) → (u = t → o.height.isSome ∧ u' = { t with height := o.height, type := doneType t }) →
      ids (putTx txs u') = ids old ∧ (Done outs t txs → Done outs t (putTx txs u')) ∧
      (o.txId = some t.id → o.height.isSome → Done outs t (putTx txs u')) := by
    intro u u' hu e1 e2 e3
    have hm : u'.id ∈ ids txs := by rw [hi, e1]; exact List.mem_map_of_mem hu
    refine ⟨(putTx_ids hst hm).trans hi, ?_, ?_⟩
    · rintro ⟨o', ho', h1, h2, h3⟩
      by_cases e : u.id = t.id
      · have hut : u = t := List.inj_on_of_nodup_map hnd hu ht e
        obtain ⟨e3, e4⟩ := e3 hut
        exact ⟨o, ho, by rw [e2, e], e3, e4 ▸ put_here hst hm⟩
      · exact ⟨o', ho', h1, h2, put_there hst hm h3 (by simpa [e1] using fun h => e h.symm)⟩
    · intro h1 h2
      have hut : u = t := List.inj_on_of_nodup_map hnd hu ht (by rw [e2] at h1; exact Option.some.inj h1)
      exact ⟨o, ho, h1, h2, (e3 hut).2 ▸ put_here hst hm⟩
  unfold confirmTx
  split
  · rename_i u h hu hh
    obtain ⟨i, hoi, hfind⟩ := Option.bind_eq_some_iff.1 hu
    have hid : u.id = i := by simpa using List.find?_some hfind
    have hmem := List.mem_of_find?_eq_some hfind
    split
    · rename_i hr
      refine key u _ hmem rfl (by rw [hoi, hid]) (fun e => ⟨by rw [hh]; rfl, ?_⟩)
      subst e
      rw [hh, doneType, if_pos hr]
    · rename_i hr
      split
      · refine key u _ hmem rfl (by rw [hoi, hid]) (fun e => ⟨by rw [hh]; rfl, ?_⟩)
        subst e
        rw [hh, doneType, if_neg hr]
      · rename_i hq
        refine ⟨hi, fun h => h, fun h1 _ => ?_⟩
        have hut : u = t := List.inj_on_of_nodup_map hnd hmem ht (by rw [hid]; rw [hoi] at h1; exact Option.some.inj h1)
        subst hut
        rcases hty with h | h
        · exact absurd h hr
        · exact absurd h hq
  · rename_i hno
    refine ⟨hi, fun h => h, fun h1 h2 => ?_⟩
    obtain ⟨h, hh⟩ := Option.isSome_iff_exists.1 h2
    have hfind : old.find? (fun x => x.id = t.id) = some t := by
      cases hf : old.find? (fun x => x.id = t.id) with
      | none => exact absurd (List.find?_eq_none.1 hf t ht) (by simp)
      | some u => 
        have := List.inj_on_of_nodup_map hnd (List.mem_of_find?_eq_some hf) ht (by simpa using List.find?_some hf)
        rw [this]
    exact absurd hh (hno t h (by rw [h1]; exact hfind))

private theorem confirm_all {old : List WTx} {outs : List OutputRecord} {t : WTx} (hs : (ids old).Pairwise (· < ·)) (ht : t ∈ old)
    (hty : t.type = RECEIVING_IN_PROGRESS ∨ t.type = SENDING_FINALIZED) : ∀ (l : List OutputRecord) (txs : List WTx), (∀ o ∈ l, o ∈ outs) →
    ids txs = ids old →
    (Done outs t txs ∨ ∃ o ∈ l, o.txId = some t.id ∧ o.height.isSome) →
    ids (l.foldl (confirmTx old) txs) = ids old ∧ Done outs t (l.foldl (confirmTx old) txs)
  | [], txs, _, hi, h => ⟨hi, h.resolve_right (by rintro ⟨o, ho, -⟩; cases ho)⟩
  | o :: l, txs, hl, hi, h => by
    rw [List.foldl_cons]
    obtain ⟨h1, h2, h3⟩ := confirm_step hs ht hty hi o (hl o (by simp))
    refine confirm_all hs ht hty l _ (fun x hx => hl x (by simp [hx])) h1 ?_
    rcases h with h | ⟨x, hx, hx1, hx2⟩
    · exact .inl (h2 h)
    · rcases List.mem_cons.1 hx with rfl | hx
      · exact .inl (h3 hx1 hx2)
      · exact .inr ⟨x, hx, hx1, hx2⟩

private theorem spent_all {old : List WTx} {outs : List OutputRecord} (hs : (ids old).Pairwise (· < ·)) {t : WTx} (hto : t ∈ old)
    (hf : ∀ x, t.tx = some x → ∀ o ∈ outs, o.output.commit ∈ x.2 → o.status ≠ SPENT) {d : WTx} (hd : d.id = t.id) : ∀ (l txs : List WTx),
    (∀ u ∈ l, u ∈ old) → ids txs = ids old → d ∈ txs → d ∈ l.foldl (confirmSpent outs) txs
  | [], txs, _, _, h => h
  | u :: us, txs, hl, hi, h => by
    rw [List.foldl_cons]
    have hu := hl u (by simp)
    have hm : u.id ∈ ids txs := by rw [hi]; exact List.mem_map_of_mem hu
    have hst : (ids txs).Pairwise (· < ·) := by rw [hi]; exact hs
    have hstep : ids (confirmSpent outs txs u) = ids old ∧ d ∈ confirmSpent outs txs u := by
      unfold confirmSpent
      split
      · rename_i x hx
        split
        · split
          · rename_i o ho
            split
            · rename_i hsp
              have hn : d.id ≠ u.id := by
                intro e
                have hut : u = t := List.inj_on_of_nodup_map (hs.imp (fun h => Nat.ne_of_lt h)) hu hto (by rw [← e, hd])
                rw [hut] at hx
                obtain ⟨c, hc, hco⟩ := List.exists_of_findSome?_eq_some ho
                have hce : c = o.output.commit := by simpa using List.find?_some hco
                exact hf x hx o (List.mem_of_find?_eq_some hco) (hce ▸ hc) hsp
              exact ⟨Eq.trans (putTx_ids hst hm) hi, put_there hst hm h hn⟩
            · exact ⟨hi, h⟩
          · exact ⟨hi, h⟩
        · exact ⟨hi, h⟩
      · exact ⟨hi, h⟩
    exact spent_all hs hto hf hd us _ (fun x hx => hl x (by simp [hx])) hstep.1 hstep.2

/-- A transaction under way, one of whose outputs is found on the chain, is recorded as confirmed. -/
private theorem marked {v : NodeView} {conf : Nat} {db : WDB} (hf : KeepsUp v conf db) (hs : (ids db.txs).Pairwise (· < ·)) {t : WTx} (ht : t ∈ db.txs)
    (hty : t.type = RECEIVING_IN_PROGRESS ∨ t.type = SENDING_FINALIZED)
    (hx : ∀ x, t.tx = some x → ∀ c ∈ x.2, ∃ h, v.loc c = some h)
    (ho : ∃ o ∈ db.outputs, o.txId = some t.id ∧ o.status = NO_CONFIRMATIONS ∧ ∃ h, v.loc o.output.commit = some h) :
    ∃ o ∈ (refresh v db).2.outputs, o.txId = some t.id ∧ o.height.isSome ∧
      { t with height := o.height, type := doneType t } ∈ (refresh v db).2.txs := by
  obtain ⟨h1, -, h3⟩ := refresh_outputs hf
  rw [h1, h3, refreshTxs]
  obtain ⟨hi, o, ho1, ho2, ho3, ho4⟩ := confirm_all (outs := db.outputs.map (refreshOutput v.loc)) hs ht hty _ db.txs (fun _ h => h) rfl (by
    right
    obtain ⟨o, ho, e1, e2, h, e3⟩ := ho
    refine ⟨_, List.mem_map_of_mem ho, by rw [refreshOutput_tx, e1], ?_⟩
    unfold refreshOutput
    simp only [e3, e2]
    rfl)
  refine ⟨o, ho1, ho2, ho3, spent_all (d := { t with height := o.height, type := doneType t }) hs ht ?_ rfl _ _ (fun _ h => h) hi ho4⟩
  intro x hx' r hr hc
  obtain ⟨y, hy, rfl⟩ := List.mem_map.1 hr
  rw [refreshOutput_commit] at hc
  obtain ⟨h, e⟩ := hx x hx' _ hc
  rw [refreshOutput_status, e]
  simp only [Option.isSome_some, if_true]
  split <;> decide

/-! ## A payment received -/

private theorem agrees_calm {loc : Bytes → Option Nat} {o : OutputRecord} (h : Agrees loc o) : (o.status ≤ 5 ∧ o.status ≠ 1) ∧
    (o.status = SPENDABLE → ∃ h, loc o.output.commit = some h) ∧ (o.status = SPENT ∨ o.status = CANCELED → loc o.output.commit = none) := by
  rcases h with ⟨h1, h2⟩ | ⟨h1, h2⟩
  · refine ⟨?_, fun _ => h2, fun h => ?_⟩
    · rcases h1 with h1 | h1 <;> rw [h1] <;> decide
    · rcases h1 with h1 | h1 <;> rw [h1] at h <;> exact absurd h (by decide)
  · refine ⟨?_, fun h => ?_, fun _ => h2⟩
    · rcases h1 with h1 | h1 | h1 <;> rw [h1] <;> decide
    · rcases h1 with h1 | h1 | h1 <;> rw [h1] at h <;> exact absurd h (by decide)

private theorem agrees_locked {loc : Bytes → Option Nat} {o : OutputRecord} (h : Agrees loc o) :
    (decide (o.status = LOCKED) && (loc o.output.commit).isSome) = decide (o.status = LOCKED) ∧
    (decide (o.status = NO_CONFIRMATIONS) && (loc o.output.commit).isNone) = decide (o.status = NO_CONFIRMATIONS) := by
  rcases h with ⟨h1, h, h2⟩ | ⟨h1, h2⟩
  · rw [h2]
    rcases h1 with h1 | h1 <;> rw [h1] <;> exact ⟨rfl, rfl⟩
  · rw [h2]
    rcases h1 with h1 | h1 | h1 <;> rw [h1] <;> decide

private theorem worthOf_app' (p : OutputRecord → Bool) (a b : List OutputRecord) : worthOf p (a ++ b) = worthOf p a + worthOf p b := by
  simp [worthOf, worth, List.filter_append, List.map_append, List.sum_append]

private theorem worthOf_le' (p : OutputRecord → Bool) : ∀ l : List OutputRecord, worthOf p l ≤ worth l
  | [] => Nat.le_refl _
  | o :: l => by
    have ih := worthOf_le' p l
    unfold worthOf at *
    rw [List.filter_cons]
    split <;> simp only [worth, List.map_cons, List.sum_cons] at ih ⊢ <;> omega

private theorem worth_app (a b : List OutputRecord) : worth (a ++ b) = worth a + worth b := by
  simp [worth, List.map_append, List.sum_append]

/-- **C127**, the receiver.  A payment was received, and its output is now in a block of height `h`: after a refresh the wallet owns exactly
the amount more than before it was received, the transaction is listed as received at that height and for that amount, and the output can be
spent once it has the configured number of confirmations. -/
theorem payment_received {env : Env} {conf : Nat} {commit : List Nat → Nat → Bytes} {slateId : Bytes} {amount fee h : Nat} {db db' : WDB}
    {v : NodeView} (hdb : Sane db) (hrec : receive commit slateId amount fee db = .ok db')
    (hfresh : commit [0, 0, db.nextChild] amount ∉ db.outputs.map (·.output.commit))
    (hf : KeepsUp v conf db') (hon : v.loc (commit [0, 0, db.nextChild] amount) = some h) (hrest : ∀ o ∈ db.outputs, Agrees v.loc o)
    (hb : worth db.outputs + amount < 2 ^ 64) (hh : HeightsFit conf db.outputs) :
    (getBalance env conf (refresh v db').2).total = (getBalance env conf db).total + amount ∧
    (getBalance env conf (refresh v db').2).locked = (getBalance env conf db).locked ∧
    (getBalance env conf (refresh v db').2).unconfirmed = (getBalance env conf db).unconfirmed ∧
    (∃ t ∈ (refresh v db').2.txs, t.slateId = some slateId ∧ t.type = RECEIVED ∧ t.height = some h ∧ t.credited = amount ∧ t.debited = 0 ∧
      t.fee = some fee) ∧
    (h + conf ≤ v.height → ∃ o ∈ availableCoins env conf v.height (refresh v db').2.outputs,
      o.output.commit = commit [0, 0, db.nextChild] amount ∧ o.amount = amount) := by
  unfold receive at hrec
  split at hrec
  swap
  · cases hrec
  have hrec := Res.ok.inj hrec
  have ho : db'.outputs = db.outputs ++ [newOutput commit [0, 0, db.nextChild] amount db.nextTxId] := by
    rw [← hrec]
    show addOutputs db.outputs [newOutput commit [0, 0, db.nextChild] amount db.nextTxId] = _
    exact addOutputs_new (by simp) (by intro o ho; rw [List.mem_singleton.1 ho]; exact hfresh)
  have ht : db'.txs = db.txs ++ [⟨db.nextTxId, RECEIVING_IN_PROGRESS, some slateId, none, amount, 0, some fee, none⟩] := by
    rw [← hrec]
    exact putTx_new hdb.next
  have hw : worth db'.outputs < 2 ^ 64 := by
    rw [ho, worth_app]
    simpa [worth, newOutput] using hb
  have hh1 : HeightsFit conf db'.outputs := by
    intro o hm
    rw [ho] at hm
    rcases List.mem_append.1 hm with hm | hm
    · exact hh o hm
    · rw [List.mem_singleton.1 hm]
      have := hf.heights _ _ hon
      simp only [newOutput, Option.getD_none]
      omega
  have hcalm : Calm v.loc db'.outputs := by
    intro o hm
    rw [ho] at hm
    rcases List.mem_append.1 hm with hm | hm
    · exact agrees_calm (hrest o hm)
    · rw [List.mem_singleton.1 hm]
      refine ⟨by simp only [newOutput]; decide, fun h => ?_, fun h => ?_⟩
      · exact absurd h (by simp only [newOutput]; decide)
      · exact absurd h (by simp only [newOutput]; decide)
  have hsort : (ids db'.txs).Pairwise (· < ·) := by
    rw [ht, ids, List.map_append, List.pairwise_append]
    refine ⟨hdb.order, by simp, ?_⟩
    intro x hx y hy
    obtain ⟨t, ht, rfl⟩ := List.mem_map.1 hx
    rw [List.map_singleton, List.mem_singleton] at hy
    rw [hy]
    exact hdb.next t ht
  obtain ⟨e1, e2, e3⟩ := refresh_keeps_total (env := env) hf hcalm hw hh1
  obtain ⟨b1, b2, -⟩ := balance_partition (env := env) (db := db) (by omega) hh
  have hnew : worthOf (fun o => o.status = SPENDABLE || o.status = NO_CONFIRMATIONS) [newOutput commit [0, 0, db.nextChild] amount db.nextTxId] = amount := by
    simp [worthOf, worth, newOutput]
  have houts := (refresh_outputs hf).1
  refine ⟨?_, ?_, ?_, ?_, ?_⟩
  · rw [e1, total_eq hw hh1, total_eq (by omega) hh, ho, worthOf_app', hnew]
  · rw [e2, b2, ho, worthOf_app', worthOf_congr (fun o hm => (agrees_locked (hrest o hm)).1)]
    simp [worthOf, worth, newOutput, NO_CONFIRMATIONS, LOCKED]
  · rw [e3, b1, ho, worthOf_app', worthOf_congr (fun o hm => (agrees_locked (hrest o hm)).2)]
    simp [worthOf, worth, newOutput, hon]
  · obtain ⟨o, m1, m2, -, m4⟩ := marked hf hsort (t := ⟨db.nextTxId, RECEIVING_IN_PROGRESS, some slateId, none, amount, 0, some fee, none⟩)
      (by rw [ht]; simp) (.inl rfl) (by intro x hx; cases hx)
      ⟨newOutput commit [0, 0, db.nextChild] amount db.nextTxId, by rw [ho]; simp, rfl, rfl, h, hon⟩
    refine ⟨_, m4, rfl, rfl, ?_, rfl, rfl, rfl⟩
    rw [houts] at m1
    obtain ⟨x, hx, rfl⟩ := List.mem_map.1 m1
    rw [refreshOutput_tx] at m2
    rw [ho] at hx
    rcases List.mem_append.1 hx with hx | hx
    · exact absurd (hdb.owner x hx _ m2) (Nat.lt_irrefl _)
    · rw [List.mem_singleton.1 hx]
      unfold refreshOutput
      simp only [newOutput, hon]
      rfl
  · intro hconf
    refine ⟨refreshOutput v.loc (newOutput commit [0, 0, db.nextChild] amount db.nextTxId), ?_, by rw [refreshOutput_commit]; rfl,
      by rw [refreshOutput_amount]; rfl⟩
    unfold availableCoins
    rw [List.mem_filter, houts, ho]
    refine ⟨List.mem_map_of_mem (by simp), ?_⟩
    have hr : refreshOutput v.loc (newOutput commit [0, 0, db.nextChild] amount db.nextTxId) =
        { newOutput commit [0, 0, db.nextChild] amount db.nextTxId with height := some h, status := SPENDABLE } := by
      unfold refreshOutput
      simp only [newOutput, hon]
      rfl
    rw [hr, Bool.and_eq_true]
    refine ⟨by simp, ?_⟩
    have hlt := hf.heights _ _ hon
    rw [immature_mature (o := { newOutput commit [0, 0, db.nextChild] amount db.nextTxId with height := some h, status := SPENDABLE }) hlt]
    simpa [Spendable, newOutput] using hconf

/-! ## A payment sent -/

private theorem sent_core {env : Env} {conf : Nat} {up down : List OutputRecord → List OutputRecord} {commit : List Nat → Nat → Bytes}
    {a : SendArgs} {db db1 db2 : WDB} {v : NodeView} {ins outs : List Bytes} (hs : Sorters up down) (hdb : Sane db)
    (hbal : ∀ p, sendPlan up down (availableCoins env conf db.refreshHeight db.outputs) a.amount a.base a.maxChange a.entire
      a.strategy a.wanted = .ok p → worth p.inputs = p.amount + p.fee + p.change.sum)
    (hslate : ∀ t ∈ db.txs, t.slateId ≠ some a.slateId)
    (hfresh : ∀ p, sendPlan up down (availableCoins env conf db.refreshHeight db.outputs) a.amount a.base a.maxChange a.entire
      a.strategy a.wanted = .ok p → FreshChange commit p db)
    (hsend : send env conf db.refreshHeight up down commit a db = .ok db1) (hfin : finalize a.slateId true ins outs db1 = .ok db2)
    (hsame : ∀ t ∈ db1.txs, t.slateId = some a.slateId → ∀ x, t.tx = some x → (∀ c, c ∈ ins ↔ c ∈ x.1) ∧ ∀ c ∈ x.2, c ∈ outs)
    (hf : KeepsUp v conf db2) (hin : ∀ c ∈ ins, v.loc c = none) (hout : ∀ c ∈ outs, ∃ h, v.loc c = some h)
    (hrest : ∀ o ∈ db.outputs, o.output.commit ∉ ins → Agrees v.loc o)
    (hb : worth db1.outputs < 2 ^ 64) (hh : HeightsFit conf db1.outputs) :
    ∃ p, sendPlan up down (availableCoins env conf db.refreshHeight db.outputs) a.amount a.base a.maxChange a.entire
        a.strategy a.wanted = .ok p ∧
      (getBalance env conf (refresh v db2).2).total + p.amount + p.fee = (getBalance env conf db).total ∧
      (getBalance env conf (refresh v db2).2).locked = (getBalance env conf db).locked ∧
      (getBalance env conf (refresh v db2).2).unconfirmed = (getBalance env conf db).unconfirmed ∧
      (p.change ≠ [] → ∃ t ∈ (refresh v db2).2.txs, t.slateId = some a.slateId ∧ t.type = SENT ∧ t.fee = some p.fee ∧
        t.debited = t.credited + p.amount + p.fee ∧ ∃ c ∈ outs, ∃ h, v.loc c = some h ∧ t.height = some h) := by
  obtain ⟨p, hp, hmem, heff⟩ := send_effect hs hdb hsend
  obtain ⟨change, hamt, hch, hout1, t, htxs, tid, tty, tsl, tfee, tdeb, tcred, ttx⟩ := heff (hfresh p hp)
  obtain ⟨p', hp', m1, m2, m3, m4⟩ := send_moves_balance hs hdb hfresh hsend hb hh
  have hpp : p' = p := by rw [hp] at hp'; exact (Res.ok.inj hp').symm
  subst hpp
  have bsum := hbal p' hp
  have htmem : t ∈ db1.txs := by rw [htxs]; simp
  obtain ⟨hins, houts⟩ := hsame t htmem tsl _ ttx
  -- the finalized database
  have htx1 : txBySlate db1.txs a.slateId = some t := by
    unfold txBySlate
    rw [htxs, List.find?_append, List.find?_eq_none.2 (by intro x hx; simpa using hslate x hx)]
    simp [tsl]
  have hsort : (ids db1.txs).Pairwise (· < ·) := by
    rw [htxs, ids, List.map_append, List.pairwise_append]
    refine ⟨hdb.order, by simp, ?_⟩
    intro x hx y hy
    obtain ⟨u, hu, rfl⟩ := List.mem_map.1 hx
    rw [List.map_singleton, List.mem_singleton] at hy
    rw [hy, tid]
    exact hdb.next u hu
  unfold finalize at hfin
  rw [htx1] at hfin
  split at hfin
  swap
  · cases hfin
  rename_i _ u hcx hu
  cases hu
  rw [if_pos rfl] at hfin
  have hfin := Res.ok.inj hfin
  have ho2 : db2.outputs = db1.outputs := by rw [← hfin]
  have hg2 : getBalance env conf db2 = getBalance env conf db1 := by rw [← hfin]; rfl
  have hid1 : t.id ∈ ids db1.txs := List.mem_map_of_mem htmem
  have ht2 : db2.txs = putTx db1.txs { t with type := SENDING_FINALIZED, tx := some (ins, outs) } := by rw [← hfin]
  have hsort2 : (ids db2.txs).Pairwise (· < ·) := by
    rw [ht2]
    have := putTx_ids (t := { t with type := SENDING_FINALIZED, tx := some (ins, outs) }) hsort hid1
    rw [this]
    exact hsort
  -- which outputs are which
  have hnot : ∀ o ∈ db.outputs, o ∉ p'.inputs → o.output.commit ∉ ins := by
    intro o ho hn hc
    rw [hins] at hc
    obtain ⟨x, hx, e⟩ := List.mem_map.1 hc
    exact hn (List.inj_on_of_nodup_map hdb.commits (hmem x hx).1 ho e ▸ hx)
  have hcalm : Calm v.loc db2.outputs := by
    intro o hm
    rw [ho2, hout1] at hm
    rcases List.mem_append.1 hm with hm | hm
    · obtain ⟨x, hx, rfl⟩ := List.mem_map.1 hm
      by_cases hxp : x ∈ p'.inputs
      · simp only [hxp, if_true]
        exact ⟨by decide, fun h => absurd h (by decide), fun h => absurd h (by decide)⟩
      · simp only [hxp, if_false]
        exact agrees_calm (hrest x hx (hnot x hx hxp))
    · rw [(hch o hm).1]
      exact ⟨by decide, fun h => absurd h (by decide), fun h => absurd h (by decide)⟩
  obtain ⟨e1, e2, e3⟩ := refresh_keeps_total (env := env) hf hcalm (by rw [ho2]; exact hb) (by rw [ho2]; exact hh)
  have hlockw : worth (db.outputs.map (fun o => if o ∈ p'.inputs then { o with status := LOCKED } else o)) = worth db.outputs := by
    unfold worth
    rw [List.map_map]
    congr 1
    apply List.map_congr_left
    intro o _
    simp only [Function.comp_apply]
    split <;> rfl
  have hb0 : worth db.outputs < 2 ^ 64 := by
    rw [hout1, worth_app, hlockw] at hb
    omega
  have hh0 : HeightsFit conf db.outputs := by
    intro o ho
    have := hh _ (by rw [hout1]; exact List.mem_append_left _ (List.mem_map_of_mem ho))
    split at this <;> exact this
  obtain ⟨c1, c2, -, -, c5, -⟩ := balance_partition (env := env) hb0 hh0
  obtain ⟨-, -, -, -, d5, -⟩ := balance_partition (env := env) hb hh
  refine ⟨p', hp, ?_, ?_, ?_, ?_⟩
  · rw [e1, hg2]
    omega
  · rw [e2, c2, ho2, hout1, worthOf_app', worthOf_map _ _ (by intro o; split <;> rfl)]
    rw [worthOf_congr (q := fun o => decide (o.status = LOCKED)) (l := db.outputs), worthOf_congr (q := fun _ => false) (l := change)]
    · simp [worthOf, worth]
    · intro o ho
      rw [(hch o ho).1]
      rfl
    · intro o ho
      by_cases hxp : o ∈ p'.inputs
      · have hc : o.output.commit ∈ ins := (hins _).2 (List.mem_map_of_mem hxp)
        simp only [hxp, if_true, hin _ hc, (hmem o hxp).2]
        decide
      · simp only [hxp, if_false]
        exact (agrees_locked (hrest o ho (hnot o ho hxp))).1
  · rw [e3, c1, ho2, hout1, worthOf_app', worthOf_map _ _ (by intro o; split <;> rfl)]
    rw [worthOf_congr (q := fun o => decide (o.status = NO_CONFIRMATIONS)) (l := db.outputs), worthOf_congr (q := fun _ => false) (l := change)]
    · simp [worthOf, worth]
    · intro o ho
      obtain ⟨h, e⟩ := hout _ (houts _ (List.mem_map_of_mem ho))
      rw [e]
      simp
    · intro o ho
      by_cases hxp : o ∈ p'.inputs
      · simp only [hxp, if_true, (hmem o hxp).2]
        rfl
      · simp only [hxp, if_false]
        exact (agrees_locked (hrest o ho (hnot o ho hxp))).2
  · intro hpos
    obtain ⟨o0, hc0⟩ : ∃ o, o ∈ change := by
      refine List.exists_mem_of_length_pos ?_
      have : change.length = p'.change.length := by rw [← hamt, List.length_map]
      rw [this]
      exact List.length_pos_of_ne_nil hpos
    obtain ⟨o, n1, n2, n3, n4⟩ := marked hf hsort2 (t := { t with type := SENDING_FINALIZED, tx := some (ins, outs) })
      (by rw [ht2]; exact put_here hsort hid1) (.inr rfl) (by intro x hx; cases hx; exact hout)
      ⟨o0, by rw [ho2, hout1]; exact List.mem_append_right _ hc0, by rw [(hch o0 hc0).2, tid], (hch o0 hc0).1,
        hout _ (houts _ (List.mem_map_of_mem hc0))⟩
    refine ⟨_, n4, tsl, rfl, tfee, ?_, ?_⟩
    · show t.debited = t.credited + p'.amount + p'.fee
      have hlt : worth p'.inputs < 2 ^ 64 := by
        have : (getBalance env conf db).spendable ≤ worth db.outputs := by
          rw [(balance_partition (env := env) hb0 hh0).2.2.1]
          exact worthOf_le' _ _
        omega
      rw [tdeb, tcred, Nat.mod_eq_of_lt hlt, Nat.mod_eq_of_lt (by omega)]
      omega
    · rw [(refresh_outputs hf).1] at n1
      obtain ⟨x, hx, rfl⟩ := List.mem_map.1 n1
      rw [refreshOutput_tx] at n2
      rw [ho2, hout1] at hx
      rcases List.mem_append.1 hx with hx | hx
      · obtain ⟨y, hy, rfl⟩ := List.mem_map.1 hx
        exfalso
        have : y.txId = some t.id := by
          split at n2 <;> exact n2
        have := hdb.owner y hy _ this
        rw [tid] at this
        exact Nat.lt_irrefl _ this
      · obtain ⟨h, e⟩ := hout _ (houts _ (List.mem_map_of_mem hx))
        refine ⟨_, houts _ (List.mem_map_of_mem hx), h, e, ?_⟩
        unfold refreshOutput
        simp only [e, (hch x hx).1]
        rfl

/-- **C127**, the sender.  A payment was begun and finalized, and its transaction is now in a block: its inputs are no longer on the chain,
its outputs are.  After a refresh the wallet owns exactly the amount and the fee less than before the payment was begun, as much is set aside and awaits confirmation as
before, and, if there was change, the payment is listed as sent, at the height of one of its outputs and with the amounts that went out and came back.
Missing: a payment without change is never listed as sent (`sent_without_change_violated`); sends with the strategy "all", which do not always
balance (C43).  For sends of the entire balance see `entire_balance_sent_partial`. -/
theorem payment_sent_partial {env : Env} {conf : Nat} {up down : List OutputRecord → List OutputRecord} {commit : List Nat → Nat → Bytes}
    {a : SendArgs} {db db1 db2 : WDB} {v : NodeView} {ins outs : List Bytes} (hs : Sorters up down) (hdb : Sane db)
    (hent : a.entire = false) (hall : a.strategy ≠ .all) (hmax : a.maxChange < 255)
    (hfit : CoinsFit (availableCoins env conf db.refreshHeight db.outputs) a.amount a.base (1 + a.maxChange) 1)
    (hslate : ∀ t ∈ db.txs, t.slateId ≠ some a.slateId)
    (hfresh : ∀ p, sendPlan up down (availableCoins env conf db.refreshHeight db.outputs) a.amount a.base a.maxChange a.entire
      a.strategy a.wanted = .ok p → FreshChange commit p db)
    (hsend : send env conf db.refreshHeight up down commit a db = .ok db1) (hfin : finalize a.slateId true ins outs db1 = .ok db2)
    (hsame : ∀ t ∈ db1.txs, t.slateId = some a.slateId → ∀ x, t.tx = some x → (∀ c, c ∈ ins ↔ c ∈ x.1) ∧ ∀ c ∈ x.2, c ∈ outs)
    (hf : KeepsUp v conf db2) (hin : ∀ c ∈ ins, v.loc c = none) (hout : ∀ c ∈ outs, ∃ h, v.loc c = some h)
    (hrest : ∀ o ∈ db.outputs, o.output.commit ∉ ins → Agrees v.loc o)
    (hb : worth db1.outputs < 2 ^ 64) (hh : HeightsFit conf db1.outputs) :
    ∃ fee,
      (getBalance env conf (refresh v db2).2).total + a.amount + fee = (getBalance env conf db).total ∧
      (getBalance env conf (refresh v db2).2).locked = (getBalance env conf db).locked ∧
      (getBalance env conf (refresh v db2).2).unconfirmed = (getBalance env conf db).unconfirmed ∧
      (0 < a.maxChange → ∃ t ∈ (refresh v db2).2.txs, t.slateId = some a.slateId ∧ t.type = SENT ∧ t.fee = some fee ∧
        t.debited = t.credited + a.amount + fee ∧ ∃ c ∈ outs, ∃ h, v.loc c = some h ∧ t.height = some h) := by
  obtain ⟨p, hp, h1, h2, h3, h4⟩ := sent_core hs hdb (fun p hp => by
      rw [hent] at hp
      exact (send_balances_partial hs hall hmax hfit hp).2.2.1) hslate hfresh hsend hfin hsame hf hin hout hrest hb hh
  have hbal := by
    rw [hent] at hp
    exact send_balances_partial hs hall hmax hfit hp
  obtain ⟨-, bamt, -, blen, -, -⟩ := hbal
  rw [bamt] at h1 h4
  refine ⟨p.fee, h1, h2, h3, fun hpos => h4 ?_⟩
  intro e
  rw [e] at blen
  simp at blen
  omega

/-- **C127**, the sender of everything.  The entire balance, worth at least the fee, was sent and the transaction is now in a block.  After a refresh
the amount and the fee that left are exactly what could be spent before; the wallet owns what could not yet be spent, as much is set aside and awaits
confirmation as before.  Missing: such a payment has no change and is never listed as sent (`sent_without_change_violated`). -/
theorem entire_balance_sent_partial {env : Env} {conf : Nat} {up down : List OutputRecord → List OutputRecord}
    {commit : List Nat → Nat → Bytes} {a : SendArgs} {db db1 db2 : WDB} {v : NodeView} {ins outs : List Bytes} (hs : Sorters up down)
    (hdb : Sane db) (hent : a.entire = true)
    (hfit : CoinsFit (availableCoins env conf db.refreshHeight db.outputs) 0 a.base 1 1)
    (hrich : feeFor a.base (availableCoins env conf db.refreshHeight db.outputs).length 1 1 ≤
      worth (availableCoins env conf db.refreshHeight db.outputs))
    (hslate : ∀ t ∈ db.txs, t.slateId ≠ some a.slateId)
    (hsend : send env conf db.refreshHeight up down commit a db = .ok db1) (hfin : finalize a.slateId true ins outs db1 = .ok db2)
    (hsame : ∀ t ∈ db1.txs, t.slateId = some a.slateId → ∀ x, t.tx = some x → (∀ c, c ∈ ins ↔ c ∈ x.1) ∧ ∀ c ∈ x.2, c ∈ outs)
    (hf : KeepsUp v conf db2) (hin : ∀ c ∈ ins, v.loc c = none) (hout : ∀ c ∈ outs, ∃ h, v.loc c = some h)
    (hrest : ∀ o ∈ db.outputs, o.output.commit ∉ ins → Agrees v.loc o)
    (hb : worth db1.outputs < 2 ^ 64) (hh : HeightsFit conf db1.outputs) (hb0 : worth db.outputs < 2 ^ 64) (hh0 : HeightsFit conf db.outputs) :
    ∃ amount fee,
      amount + fee = (getBalance env conf db).spendable ∧
      fee = feeFor a.base (availableCoins env conf db.refreshHeight db.outputs).length 1 1 ∧
      (getBalance env conf (refresh v db2).2).total + amount + fee = (getBalance env conf db).total ∧
      (getBalance env conf (refresh v db2).2).total = (getBalance env conf db).unconfirmed + (getBalance env conf db).immature ∧
      (getBalance env conf (refresh v db2).2).locked = (getBalance env conf db).locked ∧
      (getBalance env conf (refresh v db2).2).unconfirmed = (getBalance env conf db).unconfirmed := by
  have hplan : ∀ p, sendPlan up down (availableCoins env conf db.refreshHeight db.outputs) a.amount a.base a.maxChange a.entire
      a.strategy a.wanted = .ok p → _ := fun p hp => by
    rw [hent] at hp
    exact send_entire_partial hfit hrich hp
  obtain ⟨p, hp, h1, h2, h3, -⟩ := sent_core hs hdb (fun p hp => by
      obtain ⟨e1, -, e3, e4⟩ := hplan p hp
      rw [e1, e3, e4]
      simp) hslate (fun p hp => by
      obtain ⟨-, -, e3, -⟩ := hplan p hp
      simp [FreshChange, changeOf, e3, createOutputs]) hsend hfin hsame hf hin hout hrest hb hh
  obtain ⟨e1, e2, e3, e4⟩ := hplan p hp
  have hsp := spendable_is_available (env := env) hb0 hh0
  have htot := (balance_partition (env := env) hb0 hh0).2.2.2.2.1
  exact ⟨p.amount, p.fee, by rw [hsp]; exact e4.symm, e2, h1, by omega, h2, h3⟩

/-! ## A sample -/

/-- The chain after the payment: the coin is gone, change and payment are in block 25. -/
private def laterView : NodeView := ⟨30, fun c => if c = [1] then none else if c = tagCommit [0, 0, 7] 44 ∨ c = [200] then some 25 else none, []⟩

/-- The wallet after the send. -/
private def begun : WDB := (match doSend (send10 [8]) oneCoin with | .ok d => d | _ => oneCoin)

/-- The wallet after the payment is finalized. -/
private def finished : WDB := (match finalize [8] true [[1]] [tagCommit [0, 0, 7] 44, [200]] begun with | .ok d => d | _ => oneCoin)

example : doSend (send10 [8]) oneCoin = .ok begun ∧ finalize [8] true [[1]] [tagCommit [0, 0, 7] 44, [200]] begun = .ok finished ∧
    (send10 [8]).entire = false ∧ (send10 [8]).strategy ≠ .all ∧ (send10 [8]).maxChange = 1 ∧
    (∀ t ∈ begun.txs, t.slateId = some [8] → ∀ x, t.tx = some x → x = ([[1]], [tagCommit [0, 0, 7] 44])) ∧
    KeepsUp laterView 10 finished ∧ (∀ c ∈ [[1]], laterView.loc c = none) ∧
    (∀ c ∈ [tagCommit [0, 0, 7] 44, [200]], ∃ h, laterView.loc c = some h) ∧
    (∀ o ∈ oneCoin.outputs, o.output.commit ∉ [[1]] → Agrees laterView.loc o) ∧ worth begun.outputs < 2 ^ 64 ∧ HeightsFit 10 begun.outputs ∧
    (getBalance .mainnet 10 oneCoin).total = 100 ∧ (getBalance .mainnet 10 (refresh laterView finished).2).total = 44 ∧
    (refresh laterView finished).2.txs.map (fun t => (t.type, t.height, t.debited, t.credited, t.fee)) = [(SENT, some 25, 100, 44, some 46)] := by
  refine ⟨by decide +kernel, by decide +kernel, rfl, by decide, rfl, ?_, ⟨by decide +kernel, by decide +kernel, ?_⟩, by decide +kernel, ?_, ?_, by decide +kernel,
    by decide +kernel, by decide +kernel, by decide +kernel, by decide +kernel⟩
  · have : begun.txs.all (fun t => t.tx = some ([[1]], [tagCommit [0, 0, 7] 44])) = true := by decide +kernel
    intro t ht _ x hx
    have := List.all_eq_true.1 this t ht
    rw [hx] at this
    simpa using this
  · intro c h hc
    unfold laterView at hc
    simp only at hc
    split at hc
    · cases hc
    · split at hc
      · cases hc; decide
      · cases hc
  · intro c hc
    exact ⟨25, by revert c; decide +kernel⟩
  · intro o ho hc
    exfalso
    revert hc
    rw [List.mem_singleton.1 ho]
    decide +kernel

/-- Everything is sent. -/
private def sendAll : SendArgs := ⟨0, 1, 0, true, .fewest, [], [8], 5, 6⟩
private def begunAll : WDB := (match doSend sendAll oneCoin with | .ok d => d | _ => oneCoin)
private def finishedAll : WDB := (match finalize [8] true [[1]] [[200]] begunAll with | .ok d => d | _ => oneCoin)

example : doSend sendAll oneCoin = .ok begunAll ∧ finalize [8] true [[1]] [[200]] begunAll = .ok finishedAll ∧
    CoinsFit (availableCoins .mainnet 10 20 oneCoin.outputs) 0 1 1 1 ∧
    feeFor 1 (availableCoins .mainnet 10 20 oneCoin.outputs).length 1 1 ≤ worth (availableCoins .mainnet 10 20 oneCoin.outputs) ∧
    (getBalance .mainnet 10 oneCoin).spendable = 100 ∧ (getBalance .mainnet 10 (refresh laterView finishedAll).2).total = 0 := by
  refine ⟨by decide +kernel, by decide +kernel, ⟨by decide +kernel, by decide +kernel, by decide +kernel⟩, by decide +kernel, by decide +kernel,
    by decide +kernel⟩

/-- A wallet with one coin that was paid 10. -/
private def paid : WDB := (match receive tagCommit [8] 10 3 oneCoin with | .ok d => d | _ => oneCoin)

/-- The chain after that payment. -/
private def paidView : NodeView := ⟨40, fun c => if c = [1] then some 10 else if c = tagCommit [0, 0, 7] 10 then some 25 else none, []⟩

example : receive tagCommit [8] 10 3 oneCoin = .ok paid ∧ KeepsUp paidView 10 paid ∧ paidView.loc (tagCommit [0, 0, oneCoin.nextChild] 10) = some 25 ∧
    (∀ o ∈ oneCoin.outputs, Agrees paidView.loc o) ∧ worth oneCoin.outputs + 10 < 2 ^ 64 ∧ HeightsFit 10 oneCoin.outputs ∧
    (getBalance .mainnet 10 (refresh paidView paid).2).spendable = 110 ∧
    (refresh paidView paid).2.txs.map (fun t => (t.type, t.height, t.debited, t.credited)) = [(RECEIVED, some 25, 0, 10)] := by
  refine ⟨by decide +kernel, ⟨by decide +kernel, by decide +kernel, ?_⟩, by decide +kernel, ?_, by decide +kernel, by decide +kernel, by decide +kernel,
    by decide +kernel⟩
  · intro c h hc
    unfold paidView at hc
    simp only at hc
    split at hc
    · cases hc; decide
    · split at hc
      · cases hc; decide
      · cases hc
  · intro o ho
    rw [List.mem_singleton.1 ho]
    exact .inl ⟨.inl rfl, 10, rfl⟩

end Verif.Props
