import Verif.Props.Mined
import Mathlib.Data.List.Induction
import Mathlib.Data.List.Forall2

/-!
# C137: the wallet follows its node's chain
-/
namespace Verif.Props
open Verif Verif.Wallet Verif.Codec Verif.PoW

/-! ## Spec -/

/-- The wallet asks its node now and then, and does nothing else. -/
def follow (vs : List NodeView) (db : WDB) : WDB := vs.foldl (fun d v => (refresh v d).2) db

/-- The output is on the chain, unspent, as the node sees it. -/
def There (v : NodeView) (o : OutputRecord) : Prop := ∃ h, v.loc o.output.commit = some h

/-- Each time the node's chain is at least as high as the time before. -/
def Upward (vs : List NodeView) (db : WDB) : Prop := (db.refreshHeight :: vs.map (·.height)).Pairwise (· ≤ ·)

/-- The node finds no unspent outputs of this wallet that the wallet has not recorded. -/
def NothingNew (vs : List NodeView) (db : WDB) : Prop :=
  ∀ w ∈ vs, ∀ r ∈ w.restored, r.status = SPENT ∨ ∃ o ∈ db.outputs, o.output.commit = r.output.commit

/-- How an output is recorded after the node was asked with the answers `vs` and then `v`.  If it is there now, it can be
spent, unless it was set aside and was there all the time.  If it is not there now, it is recorded as spent, unless it was
awaited or canceled and was never there.  Nothing but its state and its height is touched. -/
def ShownAs (vs : List NodeView) (v : NodeView) (o o' : OutputRecord) : Prop :=
  o' = { o with status := o'.status, height := o'.height } ∧
  (There v o → (o.status = LOCKED ∧ ∀ w ∈ vs, There w o) → o'.status = LOCKED) ∧
  (There v o → ¬ (o.status = LOCKED ∧ ∀ w ∈ vs, There w o) → o'.status = SPENDABLE) ∧
  (¬ There v o → ((o.status = NO_CONFIRMATIONS ∨ o.status = CANCELED) ∧ ∀ w ∈ vs, ¬ There w o) → o'.status = o.status) ∧
  (¬ There v o → ¬ ((o.status = NO_CONFIRMATIONS ∨ o.status = CANCELED) ∧ ∀ w ∈ vs, ¬ There w o) → o'.status = SPENT)

/-! ## Outputs -/

private theorem refreshOutput_output (loc : Bytes → Option Nat) (o : OutputRecord) :
    refreshOutput loc o = { o with status := (refreshOutput loc o).status, height := (refreshOutput loc o).height } := by
  unfold refreshOutput
  repeat' split
  all_goals rfl

private theorem touched_trans : ∀ {o x y : OutputRecord}, x = { o with status := x.status, height := x.height } →
    y = { x with status := y.status, height := y.height } → y = { o with status := y.status, height := y.height } := by
  rintro ⟨⟩ ⟨⟩ ⟨⟩ h1 h2
  simp_all

private theorem refresh_step {v : NodeView} {db : WDB} (hh : db.refreshHeight ≤ v.height)
    (hn : ∀ r ∈ v.restored, r.status = SPENT ∨ ∃ o ∈ db.outputs, o.output.commit = r.output.commit) :
    (refresh v db).2.outputs = db.outputs.map (refreshOutput v.loc) ∧ (refresh v db).2.refreshHeight = v.height ∧
    (refresh v db).2.txs = refreshTxs (db.outputs.map (refreshOutput v.loc)) db.txs db.txs := by
  have hnew : newOutputs db.outputs v.restored = [] := by
    unfold newOutputs
    rw [List.filter_eq_nil_iff]
    intro r hr
    rcases hn r hr with h | ⟨o, ho, hc⟩
    · simp [h]
    · have : (db.outputs.any fun o => decide (o.output.commit = r.output.commit)) = true :=
        List.any_eq_true.2 ⟨o, ho, by simpa using hc⟩
      simp [this]
  unfold refresh
  rw [if_neg (Nat.not_lt.2 hh), hnew]
  exact ⟨rfl, rfl, rfl⟩

private theorem refreshOutput_commit (loc : Bytes → Option Nat) (o : OutputRecord) : (refreshOutput loc o).output = o.output := by
  rw [refreshOutput_output]

private theorem nothingNew_step {v : NodeView} {vs : List NodeView} {db : WDB} (hh : db.refreshHeight ≤ v.height)
    (hn : NothingNew (v :: vs) db) : NothingNew vs (refresh v db).2 := by
  intro w hw r hr
  rcases hn w (List.mem_cons_of_mem _ hw) r hr with h | ⟨o, ho, hc⟩
  · exact .inl h
  · refine .inr ⟨refreshOutput v.loc o, ?_, ?_⟩
    · rw [(refresh_step hh (hn v List.mem_cons_self)).1]
      exact List.mem_map_of_mem ho
    · rw [refreshOutput_commit]; exact hc

private theorem upward_step {v : NodeView} {vs : List NodeView} {db : WDB} (hu : Upward (v :: vs) db) :
    db.refreshHeight ≤ v.height ∧ (v.height :: vs.map (·.height)).Pairwise (· ≤ ·) := by
  unfold Upward at hu
  rw [List.map_cons] at hu
  exact ⟨(List.pairwise_cons.1 hu).1 _ List.mem_cons_self, (List.pairwise_cons.1 hu).2⟩

private theorem follow_outputs : ∀ (vs : List NodeView) (db : WDB), Upward vs db → NothingNew vs db →
    (follow vs db).outputs = db.outputs.map (fun o => vs.foldl (fun x v => refreshOutput v.loc x) o)
  | [], db, _, _ => by simp [follow]
  | v :: vs, db, hu, hn => by
    obtain ⟨h1, h2⟩ := upward_step hu
    have hs := refresh_step h1 (hn v List.mem_cons_self)
    have := follow_outputs vs (refresh v db).2 (by unfold Upward; rw [hs.2.1]; exact h2) (nothingNew_step h1 hn)
    unfold follow at this ⊢
    rw [List.foldl_cons, this, hs.1, List.map_map]
    rfl

private theorem one_status (loc : Bytes → Option Nat) (o : OutputRecord) :
    ((∃ h, loc o.output.commit = some h) → o.status = LOCKED → (refreshOutput loc o).status = LOCKED) ∧
    ((∃ h, loc o.output.commit = some h) → o.status ≠ LOCKED → (refreshOutput loc o).status = SPENDABLE) ∧
    ((¬ ∃ h, loc o.output.commit = some h) → (o.status = NO_CONFIRMATIONS ∨ o.status = CANCELED) → (refreshOutput loc o).status = o.status) ∧
    ((¬ ∃ h, loc o.output.commit = some h) → ¬ (o.status = NO_CONFIRMATIONS ∨ o.status = CANCELED) → (refreshOutput loc o).status = SPENT) := by
  unfold refreshOutput
  rcases hl : loc o.output.commit with _ | h
  · simp only [reduceCtorEq, exists_false, false_implies, not_false_eq_true, true_implies, true_and]
    constructor
    · rintro (h | h)
      · rw [if_pos (.inl h)]
      · rw [if_pos (.inr (.inr h))]
    · intro h
      by_cases hs : o.status = SPENT
      · rw [if_pos (.inr (.inl hs))]; exact hs
      · rw [if_neg (by rintro (h' | h' | h') <;> simp_all)]
  · simp only [Option.some.injEq, exists_eq', true_implies, not_true_eq_false, false_implies, and_true]
    constructor
    · intro h; rw [if_pos (.inl h)]; exact h
    · intro h
      by_cases hs : o.status = SPENDABLE
      · rw [if_pos (.inr hs)]; exact hs
      · rw [if_neg (by rintro (h' | h') <;> simp_all)]

private theorem shown_one (vs : List NodeView) : ∀ (v : NodeView) (o : OutputRecord),
    ShownAs vs v o ((vs ++ [v]).foldl (fun x w => refreshOutput w.loc x) o) := by
  induction vs using List.reverseRecOn with
  | nil =>
    intro v o
    obtain ⟨a, b, c, d⟩ := one_status v.loc o
    refine ⟨refreshOutput_output _ _, fun h1 h2 => a h1 h2.1, fun h1 h2 => b h1 ?_, fun h1 h2 => c h1 h2.1, fun h1 h2 => d h1 ?_⟩
    · intro h; exact h2 ⟨h, by simp⟩
    · intro h; exact h2 ⟨h, by simp⟩
  | append_singleton vs u ih =>
    intro v o
    rw [List.foldl_append]
    generalize hx : (vs ++ [u]).foldl (fun x w => refreshOutput w.loc x) o = x
    obtain ⟨e, p, q, r, s⟩ := ih u o
    rw [hx] at e p q r s
    have ho : x.output = o.output := by rw [e]
    obtain ⟨a, b, c, d⟩ := one_status v.loc x
    rw [ho] at a b c d
    change ShownAs _ _ _ (refreshOutput v.loc x)
    refine ⟨?_, fun h1 h2 => a h1 ?_, fun h1 h2 => b h1 ?_, fun h1 h2 => ?_, fun h1 h2 => d h1 ?_⟩
    · exact touched_trans e (refreshOutput_output v.loc x)
    · exact p (h2.2 u (by simp)) ⟨h2.1, fun w hw => h2.2 w (by simp [hw])⟩
    · intro hxl
      by_cases hu : There u o
      · by_cases hl : o.status = LOCKED ∧ ∀ w ∈ vs, There w o
        · refine h2 ⟨hl.1, fun w hw => ?_⟩
          rcases List.mem_append.1 hw with hw | hw
          · exact hl.2 w hw
          · rw [List.mem_singleton.1 hw]; exact hu
        · have := q hu hl; rw [hxl] at this; exact absurd this (by decide)
      · by_cases hl : (o.status = NO_CONFIRMATIONS ∨ o.status = CANCELED) ∧ ∀ w ∈ vs, ¬ There w o
        · have := r hu hl
          rw [hxl] at this
          rcases hl.1 with h | h <;> rw [h] at this <;> exact absurd this (by decide)
        · have := s hu hl; rw [hxl] at this; exact absurd this (by decide)
    · have hxs := r (h2.2 u (by simp)) ⟨h2.1, fun w hw => h2.2 w (by simp [hw])⟩
      rw [c h1 (by rw [hxs]; exact h2.1), hxs]
    · intro hxl
      by_cases hu : There u o
      · by_cases hl : o.status = LOCKED ∧ ∀ w ∈ vs, There w o
        · have := p hu hl; rw [this] at hxl; exact absurd hxl (by decide)
        · have := q hu hl; rw [this] at hxl; exact absurd hxl (by decide)
      · by_cases hl : (o.status = NO_CONFIRMATIONS ∨ o.status = CANCELED) ∧ ∀ w ∈ vs, ¬ There w o
        · refine h2 ⟨hl.1, fun w hw => ?_⟩
          rcases List.mem_append.1 hw with hw | hw
          · exact hl.2 w hw
          · rw [List.mem_singleton.1 hw]; exact hu
        · have := s hu hl; rw [this] at hxl; exact absurd hxl (by decide)

/-- **C137**, what can be proved for every course of the chain: after any number of answers from a node whose chain does
not get lower, each output is recorded as `ShownAs` says. -/
theorem shown_after_views {vs : List NodeView} {v : NodeView} {db : WDB} (hu : Upward (vs ++ [v]) db)
    (hn : NothingNew (vs ++ [v]) db) :
    List.Forall₂ (ShownAs vs v) db.outputs (follow (vs ++ [v]) db).outputs := by
  rw [follow_outputs _ _ hu hn, List.forall₂_map_right_iff]
  exact List.forall₂_same.2 fun o _ => shown_one vs v o

/-- **C137**, the last word: for outputs that were confirmed at some time and are not set aside, only the chain as it is now
matters.  Whatever happened in between, they can be spent if they are on the chain and are recorded as spent if not. -/
theorem chain_now_decides_partial {vs : List NodeView} {v : NodeView} {db : WDB} (hu : Upward (vs ++ [v]) db)
    (hn : NothingNew (vs ++ [v]) db) (hs : ∀ o ∈ db.outputs, o.status = SPENDABLE ∨ o.status = SPENT) :
    List.Forall₂ (fun o o' => o'.output = o.output ∧ o'.amount = o.amount ∧
      (There v o → o'.status = SPENDABLE) ∧ (¬ There v o → o'.status = SPENT)) db.outputs (follow (vs ++ [v]) db).outputs := by
  rw [follow_outputs _ _ hu hn, List.forall₂_map_right_iff]
  refine List.forall₂_same.2 fun o ho => ?_
  obtain ⟨e, _, q, _, s⟩ := shown_one vs v o
  refine ⟨by rw [e], by rw [e], fun h => q h ?_, fun h => s h ?_⟩
  · rintro ⟨h', _⟩; rcases hs o ho with h2 | h2 <;> rw [h2] at h' <;> exact absurd h' (by decide)
  · rintro ⟨h' | h', _⟩ <;> rcases hs o ho with h2 | h2 <;> rw [h2] at h' <;> exact absurd h' (by decide)

/-! ## Transactions -/

private theorem put_keeps {t u : WTx} (hid : t.id ≠ u.id) : ∀ {txs : List WTx}, t ∈ txs → t ∈ putTx txs u
  | r :: rs, h => by
    unfold putTx
    split
    · rename_i hr
      rcases List.mem_cons.1 h with h | h
      · subst h; exact absurd hr hid
      · exact List.mem_cons_of_mem _ h
    · split
      · exact List.mem_cons_of_mem _ h
      · rcases List.mem_cons.1 h with h | h
        · subst h; exact List.mem_cons_self
        · exact List.mem_cons_of_mem _ (put_keeps hid h)

private theorem same_of_id {txs : List WTx} (hi : (txs.map (·.id)).Nodup) {t u : WTx} (ht : t ∈ txs) (hu : u ∈ txs)
    (h : t.id = u.id) : t = u := List.inj_on_of_nodup_map hi ht hu h

private theorem refreshTxs_keeps {outs : List OutputRecord} {old : List WTx} (hi : (old.map (·.id)).Nodup) {t : WTx}
    (ht : t ∈ old) (h6 : t.type ≠ RECEIVING_IN_PROGRESS) (h7 : t.type ≠ SENDING_FINALIZED) : t ∈ refreshTxs outs old old := by
  have key1 : ∀ (os : List OutputRecord) (txs : List WTx), t ∈ txs → t ∈ os.foldl (confirmTx old) txs := by
    intro os
    induction os with
    | nil => intro txs h; exact h
    | cons o os ih =>
      intro txs h
      refine ih _ ?_
      unfold confirmTx
      split
      · rename_i u hh hf _
        have hu : u ∈ old := by
          rcases hb : o.txId with _ | i
          · rw [hb] at hf; cases hf
          · rw [hb] at hf; exact List.mem_of_find?_eq_some hf
        have hne : ∀ k, u.type = k → t.type ≠ k → t.id ≠ u.id := fun k hk hk' e => hk' (by rw [same_of_id hi ht hu e]; exact hk)
        split
        · rename_i hk; exact put_keeps (u := { u with height := some hh, type := RECEIVED }) (hne _ hk h6) h
        · split
          · rename_i hk; exact put_keeps (u := { u with height := some hh, type := SENT }) (hne _ hk h7) h
          · exact h
      · exact h
  have key2 : ∀ (us txs : List WTx), (∀ u ∈ us, u ∈ old) → t ∈ txs → t ∈ us.foldl (confirmSpent outs) txs := by
    intro us
    induction us with
    | nil => intro txs _ h; exact h
    | cons u us ih =>
      intro txs hsub h
      refine ih _ (fun x hx => hsub x (List.mem_cons_of_mem _ hx)) ?_
      unfold confirmSpent
      split
      · split
        · rename_i hk
          have hne : t.id ≠ u.id := fun e => h7 (by rw [same_of_id hi ht (hsub u List.mem_cons_self) e]; exact hk)
          split
          · split
            · exact put_keeps (u := { u with type := SENT }) hne h
            · exact h
          · exact h
        · exact h
      · exact h
  exact key2 old _ (fun _ h => h) (key1 outs old ht)

private theorem putTx_ids {u : WTx} : ∀ {txs : List WTx}, u.id ∈ txs.map (·.id) → (txs.map (·.id)).Pairwise (· < ·) →
    (putTx txs u).map (·.id) = txs.map (·.id)
  | r :: rs, h, hp => by
    unfold putTx
    split
    · rename_i hr; rw [List.map_cons, List.map_cons, hr]
    · rename_i hr
      rw [List.map_cons] at h hp
      rcases List.mem_cons.1 h with h | h
      · exact absurd h.symm hr
      · have hlt := (List.pairwise_cons.1 hp).1 _ h
        rw [if_neg (by omega), List.map_cons, List.map_cons, putTx_ids h (List.pairwise_cons.1 hp).2]

private theorem refreshTxs_ids {outs : List OutputRecord} {old : List WTx} (hi : (old.map (·.id)).Pairwise (· < ·)) :
    (refreshTxs outs old old).map (·.id) = old.map (·.id) := by
  have put : ∀ (txs : List WTx) (u w : WTx), txs.map (·.id) = old.map (·.id) → u ∈ old → w.id = u.id →
      (putTx txs w).map (·.id) = old.map (·.id) := by
    intro txs u w h hu hw
    rw [putTx_ids (by rw [h, hw]; exact List.mem_map_of_mem hu) (by rw [h]; exact hi), h]
  have key1 : ∀ (os : List OutputRecord) (txs : List WTx), txs.map (·.id) = old.map (·.id) →
      (os.foldl (confirmTx old) txs).map (·.id) = old.map (·.id) := by
    intro os
    induction os with
    | nil => intro txs h; exact h
    | cons o os ih =>
      intro txs h
      refine ih _ ?_
      unfold confirmTx
      split
      · rename_i u hh hf _
        have hu : u ∈ old := by
          rcases hb : o.txId with _ | i
          · rw [hb] at hf; cases hf
          · rw [hb] at hf; exact List.mem_of_find?_eq_some hf
        split
        · exact put _ u _ h hu rfl
        · split
          · exact put _ u _ h hu rfl
          · exact h
      · exact h
  have key2 : ∀ (us txs : List WTx), (∀ u ∈ us, u ∈ old) → txs.map (·.id) = old.map (·.id) →
      (us.foldl (confirmSpent outs) txs).map (·.id) = old.map (·.id) := by
    intro us
    induction us with
    | nil => intro txs _ h; exact h
    | cons u us ih =>
      intro txs hsub h
      refine ih _ (fun x hx => hsub x (List.mem_cons_of_mem _ hx)) ?_
      unfold confirmSpent
      split
      · split
        · split
          · split
            · exact put _ u _ h (hsub u List.mem_cons_self) rfl
            · exact h
          · exact h
        · exact h
      · exact h
  exact key2 old _ (fun _ h => h) (key1 outs old rfl)

/-- **C137**, transactions: one that is listed as sent, received, canceled or begun stays listed exactly so, whatever becomes
of its block. -/
theorem settled_for_good : ∀ {vs : List NodeView} {db : WDB}, Upward vs db → NothingNew vs db →
    (db.txs.map (·.id)).Pairwise (· < ·) → ∀ t ∈ db.txs, t.type ≠ RECEIVING_IN_PROGRESS → t.type ≠ SENDING_FINALIZED →
    t ∈ (follow vs db).txs
  | [], _, _, _, _, t, ht, _, _ => ht
  | v :: vs, db, hu, hn, hi, t, ht, h6, h7 => by
    obtain ⟨h1, h2⟩ := upward_step hu
    have hs := refresh_step h1 (hn v List.mem_cons_self)
    refine settled_for_good (vs := vs) (db := (refresh v db).2) (by unfold Upward; rw [hs.2.1]; exact h2) (nothingNew_step h1 hn) ?_ t ?_ h6 h7
    · rw [hs.2.2, refreshTxs_ids hi]; exact hi
    · rw [hs.2.2]
      exact refreshTxs_keeps (hi.imp (fun h => Nat.ne_of_lt h)) ht h6 h7

/-! ## What goes wrong -/

/-- The wallet of `oneCoin` after it was paid 10, not yet confirmed. -/
private def owed : WDB := (match receive tagCommit [8] 10 3 oneCoin with | .ok d => d | _ => oneCoin)

/-- The wallet of `oneCoin` after a send of 10 was begun. -/
private def started : WDB := (match doSend (send10 [8]) oneCoin with | .ok d => d | _ => oneCoin)

/-- A chain of this height, with these outputs. -/
private def chainOf (height : Nat) (l : List (Bytes × Nat)) : NodeView :=
  ⟨height, fun c => (l.find? (fun e => e.1 = c)).map (·.2), []⟩

example : receive tagCommit [8] 10 3 oneCoin = .ok owed ∧ doSend (send10 [8]) oneCoin = .ok started := by
  constructor <;> decide +kernel

/-- The chain with the payment of 10, then without it, then with it again. -/
private def ups : List NodeView :=
  [chainOf 40 [([1], 10), (tagCommit [0, 0, 7] 10, 25)], chainOf 41 [([1], 10)], chainOf 45 [([1], 10), (tagCommit [0, 0, 7] 10, 43)]]

-- `shown_after_views`: a payment that is mined, undone and mined again is counted once more, with its new height.
example : ups = [ups[0], ups[1]] ++ [ups[2]] ∧ Upward ups owed ∧ NothingNew ups owed ∧
    (follow ups owed).outputs.map (fun o => (o.amount, o.status, o.height)) = [(100, SPENDABLE, some 10), (10, SPENDABLE, some 43)] ∧
    (follow (ups.take 2) owed).outputs.map (fun o => (o.amount, o.status)) = [(100, SPENDABLE), (10, SPENT)] ∧
    owed.outputs.map (·.status) = [SPENDABLE, NO_CONFIRMATIONS] := by
  refine ⟨rfl, ?_, ?_, by decide +kernel, by decide +kernel, by decide +kernel⟩
  · unfold Upward; decide +kernel
  · intro w hw r hr
    simp only [ups, chainOf, List.mem_cons, List.not_mem_nil, or_false] at hw
    rcases hw with rfl | rfl | rfl <;> simp at hr

-- `chain_now_decides_partial`: the same wallet once the payment is confirmed.
example : (∀ o ∈ (follow (ups.take 1) owed).outputs, o.status = SPENDABLE ∨ o.status = SPENT) ∧
    Upward (ups.drop 1) (follow (ups.take 1) owed) := by
  refine ⟨by decide +kernel, ?_⟩
  unfold Upward; decide +kernel

/-- **C137 fails**: a payment that was in a block which is no longer part of the chain, and that never comes back, is listed as
received for ever, with the height of the block that is gone. -/
theorem undone_stays_received_violated : ∃ (db : WDB) (mined gone : NodeView) (o : OutputRecord) (t : WTx),
    receive tagCommit [8] 10 3 oneCoin = .ok db ∧ Upward [mined, gone] db ∧ o ∈ db.outputs ∧ There mined o ∧ ¬ There gone o ∧
    t.type = RECEIVED ∧ t.credited = o.amount ∧ t.height = some 25 ∧
    ∀ ws, Upward ws (follow [mined, gone] db) → NothingNew ws (follow [mined, gone] db) → (∀ w ∈ ws, ¬ There w o) →
      t ∈ (follow ws (follow [mined, gone] db)).txs := by
  have ht : (⟨0, RECEIVED, some [8], some 25, 10, 0, some 3, none⟩ : WTx) ∈ (follow [ups[0], ups[1]] owed).txs := by decide +kernel
  refine ⟨owed, ups[0], ups[1], ⟨[0, 0, 7], [], ⟨0, tagCommit [0, 0, 7] 10, []⟩, 10, NO_CONFIRMATIONS, none, none, some 0, []⟩,
    ⟨0, RECEIVED, some [8], some 25, 10, 0, some 3, none⟩, by decide +kernel, ?_, by decide +kernel, ⟨25, by decide +kernel⟩, ?_, rfl, rfl, rfl, ?_⟩
  · unfold Upward; decide +kernel
  · rintro ⟨h, hh⟩
    have : (ups[1]).loc (tagCommit [0, 0, 7] 10) = none := by decide +kernel
    exact absurd (this.symm.trans hh) (by simp)
  · intro ws hu hn _
    exact settled_for_good hu hn (by decide +kernel) _ ht (by decide) (by decide)

/-- Send, with the sorters above, when the chain has this height. -/
def sendAt (tip : Nat) (a : SendArgs) : WDB → Res WDB :=
  send .mainnet 10 tip sortUp (fun l => (sortUp l).reverse) tagCommit a

private def again : WDB :=
  (match sendAt 40 (send10 [9]) (follow [chainOf 20 [([1], 10)], chainOf 21 [], chainOf 40 [([1], 22)]] started) with | .ok d => d | _ => started)

/-- **C137 fails**: a coin set aside for a payment under way is freed if its own block is undone and it is mined again.  It is
then picked for the next payment: two payments under way spend the same coin. -/
theorem reorg_unlocks_violated : ∃ (db db' : WDB) (before gone back : NodeView),
    sendAt 20 (send10 [8]) oneCoin = .ok db ∧ Upward [before, gone, back] db ∧
    (follow [before] db).outputs.map (fun o => (o.output.commit, o.status)) = [([1], LOCKED), (tagCommit [0, 0, 7] 44, NO_CONFIRMATIONS)] ∧
    sendAt before.height (send10 [9]) (follow [before] db) = .throw ∧
    before.loc [1] = some 10 ∧ gone.loc [1] = none ∧ back.loc [1] = some 22 ∧
    sendAt back.height (send10 [9]) (follow [before, gone, back] db) = .ok db' ∧
    db'.txs.map (fun t => (t.type, t.slateId)) = [(SENDING_STARTED, some [8]), (SENDING_STARTED, some [9])] ∧
    (db'.contexts.map (fun c => (c.1, c.2.inputs.map (·.output.commit)))) = [([8], [[1]]), ([9], [[1]])] := by
  refine ⟨started, again, chainOf 20 [([1], 10)], chainOf 21 [], chainOf 40 [([1], 22)], by decide +kernel, ?_, by decide +kernel, by decide +kernel,
    by decide +kernel, by decide +kernel, by decide +kernel, by decide +kernel, by decide +kernel, by decide +kernel⟩
  unfold Upward; decide +kernel

/-- **C137 fails**: a coinbase that is mined at another height after its block was undone keeps its first height in the wallet,
which then offers it for spending before the chain allows it. -/
theorem remined_height_stale_violated : ∃ (db : WDB) (v w : NodeView) (o o' : OutputRecord),
    db.outputs = [o] ∧ o.status = SPENDABLE ∧ o.output.features = 1 ∧ o.height = some 99 ∧ Upward [v, w] db ∧
    v.loc o.output.commit = some 103 ∧ w.loc o.output.commit = some 103 ∧
    availableCoins .mainnet 10 w.height (follow [v, w] db).outputs = [o'] ∧ o'.output = o.output ∧
    w.height < 103 + coinbaseWait .mainnet := by
  refine ⟨⟨[⟨[0, 0, 1], [], ⟨1, [1], []⟩, 60, SPENDABLE, none, some 99, none, []⟩], [], [], 7, 0, 100⟩, chainOf 105 [([1], 103)], chainOf 1540 [([1], 103)],
    ⟨[0, 0, 1], [], ⟨1, [1], []⟩, 60, SPENDABLE, none, some 99, none, []⟩, ⟨[0, 0, 1], [], ⟨1, [1], []⟩, 60, SPENDABLE, none, some 99, none, []⟩,
    rfl, rfl, rfl, rfl, ?_, by decide +kernel, by decide +kernel, by decide +kernel, rfl, by decide⟩
  unfold Upward; decide +kernel

/-- **C137 fails**: if the chain with the most work is lower than the one before, the wallet keeps showing what the abandoned
chain contained, for as long as it stays lower. -/
theorem lower_chain_unseen_violated :
    (∀ (vs : List NodeView) (db : WDB), (∀ v ∈ vs, v.height < db.refreshHeight) → follow vs db = db) ∧
    ∃ (db : WDB) (v : NodeView), v.height < db.refreshHeight ∧ (∀ o ∈ db.outputs, ¬ There v o) ∧
      (getBalance .mainnet 10 (follow [v] db)).spendable = 100 := by
  refine ⟨?_, oneCoin, chainOf 19 [], by decide, ?_, by decide +kernel⟩
  · intro vs db
    induction vs with
    | nil => intro _; rfl
    | cons v vs ih =>
      intro h
      have h1 : (refresh v db).2 = db := by
        unfold refresh
        rw [if_pos (h v List.mem_cons_self)]
      have := ih (fun w hw => h w (List.mem_cons_of_mem _ hw))
      unfold follow at this ⊢
      rw [List.foldl_cons, h1]
      exact this
  · rintro o _ ⟨h, hh⟩
    simp [chainOf] at hh

end Verif.Props
