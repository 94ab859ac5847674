import Verif.Props.Exchange
import Verif.Props.Wallet

/-!
# C131: strangers and the balance
-/
namespace Verif.Props
open Verif Verif.Wallet Verif.Codec Verif.PoW

/-! ## Spec -/

/-- What anyone who reaches the wallet's Tor address can ask for and that changes the wallet (`build_coinbase` asks for a session's token). -/
def FromStranger : PurseEvent → Prop
  | .foreignFinalize _ _ => True
  | .receive _ _ _ => True
  | _ => False

/-- The keys not yet used give commitments the wallet does not have, and different keys give different ones. -/
structure NewKeysFresh (commit : List Nat → Nat → Bytes) (db : WDB) : Prop where
  fresh : ∀ i ≥ db.nextChild, ∀ v, commit [0, 0, i] v ∉ db.outputs.map (·.output.commit)
  apart : ∀ i j v w, commit [0, 0, i] v = commit [0, 0, j] w → i = j

/-! ## Lemmas -/

private theorem put_fresh : ∀ (l : List OutputRecord) (o : OutputRecord), o.output.commit ∉ l.map (·.output.commit) → putOutput l o = l ++ [o]
  | [], o, _ => rfl
  | r :: rs, o, h => by
    simp only [List.map_cons, List.mem_cons, not_or] at h
    rw [putOutput, if_neg (fun e => h.1 e.symm), put_fresh rs o h.2]
    rfl

private theorem finalize_outputs {s : Bytes} {v : Bool} {i o : List Bytes} {db db' : WDB} (h : finalize s v i o db = .ok db') :
    db'.outputs = db.outputs ∧ db'.nextChild = db.nextChild ∧ db'.refreshHeight = db.refreshHeight ∧ db'.contexts = db.contexts := by
  unfold finalize at h
  split at h
  · split at h
    · cases h; exact ⟨rfl, rfl, rfl, rfl⟩
    · cases h
  · cases h

private theorem foreign_outputs (W : World) (r : Reply) (p : Purse) :
    (foreignFinalize W r p).2.db.outputs = p.db.outputs ∧ (foreignFinalize W r p).2.db.nextChild = p.db.nextChild ∧
      (foreignFinalize W r p).2.db.refreshHeight = p.db.refreshHeight ∧ (foreignFinalize W r p).2.db.contexts = p.db.contexts := by
  unfold foreignFinalize finalizeAndPost
  cases p.db.contexts.find? (fun e => e.1 = r.id) with
  | none => exact ⟨rfl, rfl, rfl, rfl⟩
  | some e =>
    simp only
    cases hf : finalize r.id r.valid (finalTx e.2 r).1 (finalTx e.2 r).2 p.db with
    | ok db =>
      have := finalize_outputs hf
      simp only
      cases postTransaction W .stem (finalTx e.2 r) with
      | none => exact this
      | some taken => cases taken <;> exact this
    | throw => exact ⟨rfl, rfl, rfl, rfl⟩
    | ub => exact ⟨rfl, rfl, rfl, rfl⟩

private theorem receive_outputs {commit : List Nat → Nat → Bytes} {s : Bytes} {v f : Nat} {db db' : WDB} (hk : NewKeysFresh commit db)
    (hr : db.nextChild + 1 < 2 ^ 32) (h : receive commit s v f db = .ok db') :
    db'.outputs = db.outputs ++ [newOutput commit [0, 0, db.nextChild] v db.nextTxId] ∧ db'.nextChild = db.nextChild + 1 ∧
      db'.refreshHeight = db.refreshHeight ∧ db'.contexts = db.contexts ∧ NewKeysFresh commit db' := by
  unfold receive at h
  split at h
  · cases h
    have hp : addOutputs db.outputs [newOutput commit [0, 0, db.nextChild] v db.nextTxId] =
        db.outputs ++ [newOutput commit [0, 0, db.nextChild] v db.nextTxId] := by
      simp only [addOutputs, List.foldl_cons, List.foldl_nil]
      exact put_fresh _ _ (hk.fresh _ (Nat.le_refl _) v)
    have hc : (db.nextChild + 1) % 2 ^ 32 = db.nextChild + 1 := Nat.mod_eq_of_lt hr
    refine ⟨hp, hc, rfl, rfl, ⟨fun i hi w => ?_, hk.apart⟩⟩
    have hi : (db.nextChild + 1) % 2 ^ 32 ≤ i := hi
    rw [hc] at hi
    show commit [0, 0, i] w ∉ (addOutputs db.outputs [newOutput commit [0, 0, db.nextChild] v db.nextTxId]).map (·.output.commit)
    rw [hp, List.map_append, List.mem_append, not_or]
    refine ⟨hk.fresh i (by omega) w, ?_⟩
    intro hm
    have : commit [0, 0, i] w = commit [0, 0, db.nextChild] v := by simpa [newOutput] using hm
    have := hk.apart _ _ _ _ this
    omega
  · cases h

private theorem stranger_step {parse : Bytes → Option Bytes} {c : Fixed} {p : Purse} {e : PurseEvent} (he : FromStranger e)
    (hk : NewKeysFresh c.commit p.db) (hr : p.db.nextChild + 1 < 2 ^ 32) :
    ∃ new, (p.step parse c e).db.outputs = p.db.outputs ++ new ∧ (∀ o ∈ new, o.status = NO_CONFIRMATIONS) ∧
      (p.step parse c e).db.refreshHeight = p.db.refreshHeight ∧ (p.step parse c e).db.contexts = p.db.contexts ∧
      NewKeysFresh c.commit (p.step parse c e).db ∧ (p.step parse c e).db.nextChild ≤ p.db.nextChild + 1 := by
  cases e with
  | foreignFinalize W r =>
    obtain ⟨h1, h2, h3, h4⟩ := foreign_outputs W r p
    refine ⟨[], by rw [List.append_nil]; exact h1, by simp, h3, h4, ⟨fun i hi v => ?_, hk.apart⟩, ?_⟩
    · have hi : (foreignFinalize W r p).2.db.nextChild ≤ i := hi
      show c.commit [0, 0, i] v ∉ (foreignFinalize W r p).2.db.outputs.map (·.output.commit)
      rw [h1]; rw [h2] at hi
      exact hk.fresh i hi v
    · show (foreignFinalize W r p).2.db.nextChild ≤ _
      omega
  | receive s v f =>
    simp only [Purse.step, stepOp, applyOp]
    cases h : receive c.commit s v f p.db with
    | ok db' =>
      obtain ⟨h1, h2, h3, h4, h5⟩ := receive_outputs hk hr h
      exact ⟨_, h1, by intro o ho; rw [List.mem_singleton.1 ho]; rfl, h3, h4, h5, Nat.le_of_eq h2⟩
    | throw => exact ⟨[], by simp, by simp, rfl, rfl, hk, Nat.le_succ _⟩
    | ub => exact ⟨[], by simp, by simp, rfl, rfl, hk, Nat.le_succ _⟩
  | send => exact he.elim
  | finalize => exact he.elim
  | repost => exact he.elim
  | cancel => exact he.elim
  | refresh => exact he.elim
  | coinbase => exact he.elim

private theorem strangers_run {parse : Bytes → Option Bytes} {c : Fixed} : ∀ (es : List PurseEvent) (p : Purse), (∀ e ∈ es, FromStranger e) →
    NewKeysFresh c.commit p.db → p.db.nextChild + es.length < 2 ^ 32 →
    ∃ new, (p.run parse c es).db.outputs = p.db.outputs ++ new ∧ (∀ o ∈ new, o.status = NO_CONFIRMATIONS) ∧
      (p.run parse c es).db.refreshHeight = p.db.refreshHeight ∧ (p.run parse c es).db.contexts = p.db.contexts
  | [], p, _, _, _ => ⟨[], by simp [Purse.run], by simp, rfl, rfl⟩
  | e :: es, p, he, hk, hr => by
    rw [List.length_cons] at hr
    obtain ⟨n1, a1, a2, a3, a4, a5, a6⟩ := stranger_step (parse := parse) (he e (by simp)) hk (by omega)
    obtain ⟨n2, b1, b2, b3, b4⟩ := strangers_run es (p.step parse c e) (fun x hx => he x (by simp [hx])) a5 (by omega)
    refine ⟨n1 ++ n2, ?_, ?_, ?_, ?_⟩
    · show ((p.step parse c e).run parse c es).db.outputs = _
      rw [b1, a1, List.append_assoc]
    · intro o ho
      rcases List.mem_append.1 ho with ho | ho
      · exact a2 o ho
      · exact b2 o ho
    · exact b3.trans a3
    · exact b4.trans a4

private theorem unconfirmed_only {env : Env} {conf tip : Nat} : ∀ (l : List OutputRecord) (b : Balance), (∀ o ∈ l, o.status = NO_CONFIRMATIONS) →
    (l.foldl (addBalance env conf tip) b).immature = b.immature ∧ (l.foldl (addBalance env conf tip) b).locked = b.locked ∧
      (l.foldl (addBalance env conf tip) b).spendable = b.spendable
  | [], b, _ => ⟨rfl, rfl, rfl⟩
  | o :: l, b, h => by
    have ho := h o (by simp)
    obtain ⟨h1, h2, h3⟩ := unconfirmed_only l (addBalance env conf tip b o) (fun x hx => h x (by simp [hx]))
    have : addBalance env conf tip b o = { b with unconfirmed := (b.unconfirmed + o.amount) % U64 } := by
      have n1 : ¬ NO_CONFIRMATIONS = LOCKED := by decide
      have n2 : ¬ NO_CONFIRMATIONS = SPENDABLE := by decide
      simp only [addBalance, ho, if_neg n1, if_neg n2, if_true]
    rw [List.foldl_cons, h1, h2, h3, this]
    exact ⟨rfl, rfl, rfl⟩

/-! ## Theorems -/

/-- **C131**: whatever strangers ask of the wallet and however often, all its outputs stay as they were, what is added waits for confirmation, and
what can be spent, what is too young and what is set aside are shown as before; a payment can use the same coins as before. -/
theorem strangers_keep_coins (parse : Bytes → Option Bytes) (c : Fixed) (p : Purse) (es : List PurseEvent) (he : ∀ e ∈ es, FromStranger e)
    (hk : NewKeysFresh c.commit p.db) (hr : p.db.nextChild + es.length < 2 ^ 32) :
    let q := p.run parse c es
    (∃ new, q.db.outputs = p.db.outputs ++ new ∧ ∀ o ∈ new, o.status = NO_CONFIRMATIONS) ∧
      (getBalance c.env c.conf q.db).spendable = (getBalance c.env c.conf p.db).spendable ∧
      (getBalance c.env c.conf q.db).immature = (getBalance c.env c.conf p.db).immature ∧
      (getBalance c.env c.conf q.db).locked = (getBalance c.env c.conf p.db).locked ∧
      (∀ tip, availableCoins c.env c.conf tip q.db.outputs = availableCoins c.env c.conf tip p.db.outputs) ∧
      q.db.contexts = p.db.contexts := by
  intro q
  obtain ⟨new, h1, h2, h3, h4⟩ := strangers_run (parse := parse) es p he hk hr
  have hb : getBalance c.env c.conf q.db = new.foldl (addBalance c.env c.conf p.db.refreshHeight) (getBalance c.env c.conf p.db) := by
    unfold getBalance
    rw [h1, h3, List.foldl_append]
  obtain ⟨b1, b2, b3⟩ := unconfirmed_only (env := c.env) (conf := c.conf) (tip := p.db.refreshHeight) new (getBalance c.env c.conf p.db) h2
  refine ⟨⟨new, h1, h2⟩, by rw [hb]; exact b3, by rw [hb]; exact b1, by rw [hb]; exact b2, fun tip => ?_, h4⟩
  have hn : ∀ o ∈ new, ¬ (decide (o.status = SPENDABLE) && !immature c.env c.conf o.output.features (o.height.getD 0) tip) = true := by
    intro o ho
    rw [h2 o ho]
    intro h
    rw [show decide (NO_CONFIRMATIONS = SPENDABLE) = false from rfl] at h
    cases h
  unfold availableCoins
  rw [h1, List.filter_append, List.filter_eq_nil_iff.2 hn, List.append_nil]

/-- **C131** violated: the total shown is not safe from strangers, since it counts payments not confirmed: one request, for an amount nobody
has, makes it any number the stranger likes. -/
theorem stranger_sets_total_violated (parse : Bytes → Option Bytes) (c : Fixed) (p : Purse) (slate : Bytes) (fee : Nat)
    (hs : ∀ t ∈ p.db.txs, t.slateId ≠ some slate) (hk : NewKeysFresh c.commit p.db) (hr : p.db.nextChild + 1 < 2 ^ 32) (shown : Nat)
    (hw : shown < 2 ^ 64) :
    ∃ amount < 2 ^ 64, (getBalance c.env c.conf (p.step parse c (.receive slate amount fee)).db).total = shown := by
  have hT : (getBalance c.env c.conf p.db).total < 2 ^ 64 := Nat.mod_lt _ (by decide)
  refine ⟨(shown + 2 ^ 64 - (getBalance c.env c.conf p.db).total) % 2 ^ 64, Nat.mod_lt _ (by decide), ?_⟩
  generalize hv : (shown + 2 ^ 64 - (getBalance c.env c.conf p.db).total) % 2 ^ 64 = v
  have hm : mayReceive p.db.txs slate = true := by
    unfold mayReceive
    cases ht : txBySlate p.db.txs slate with
    | none => rfl
    | some t =>
      have := List.find?_some ht
      exact absurd (by simpa using this) (hs t (List.mem_of_find?_eq_some ht))
  obtain ⟨db', h⟩ : ∃ db', receive c.commit slate v fee p.db = .ok db' := by
    unfold receive; rw [if_pos hm]; exact ⟨_, rfl⟩
  obtain ⟨h1, h2, h3, h4, h5⟩ := receive_outputs hk hr h
  have hstep : (p.step parse c (.receive slate v fee)).db = db' := by simp only [Purse.step, stepOp, applyOp, h]
  have hb : getBalance c.env c.conf db' =
      { getBalance c.env c.conf p.db with unconfirmed := ((getBalance c.env c.conf p.db).unconfirmed + v) % U64 } := by
    unfold getBalance
    rw [h1, h3, List.foldl_append, List.foldl_cons, List.foldl_nil]
    rfl
  rw [hstep, hb]
  revert hT hv
  generalize getBalance c.env c.conf p.db = b
  intro hT hv
  have hu : U64 = 2 ^ 64 := rfl
  show ((b.unconfirmed + v) % U64 + b.immature + b.spendable) % U64 = shown
  have ht : b.total = (b.unconfirmed + b.immature + b.spendable) % U64 := rfl
  rw [hu] at *
  clear h1 h2 h3 h4 h5 hb hstep h hm hr hk hs
  omega

/-! ## Examples -/

/-- A commitment function that keeps all keys apart. -/
private def longCommit (p : List Nat) (_ : Nat) : Bytes := List.replicate (p.getD 2 0 + 2) 9

private def fixedLong : Fixed := { fixed1 with commit := longCommit }

private theorem long_fresh : NewKeysFresh fixedLong.commit oneCoin := by
  constructor
  · intro i _ v h
    have : List.replicate (i + 2) (9 : UInt8) = [1] := List.mem_singleton.1 h
    have := congrArg List.length this
    simp at this
  · intro i j v w h
    have : List.replicate (i + 2) (9 : UInt8) = List.replicate (j + 2) 9 := h
    have := congrArg List.length this
    simpa using this

/-- Two payments and an answer nobody asked for: the 100 that could be spent still can. -/
example : ((getBalance fixedLong.env fixedLong.conf (purse1.run parse7 fixedLong
      [.receive [3] 5 1, .foreignFinalize (world none (some true)) (goodReply [8]), .receive [4] 6 1]).db).spendable,
    (getBalance fixedLong.env fixedLong.conf (purse1.run parse7 fixedLong
      [.receive [3] 5 1, .foreignFinalize (world none (some true)) (goodReply [8]), .receive [4] 6 1]).db).unconfirmed) = (100, 11) := by
  decide +kernel

example := strangers_keep_coins parse7 fixedLong purse1
  [.receive [3] 5 1, .foreignFinalize (world none (some true)) (goodReply [8]), .receive [4] 6 1] (by simp [FromStranger]) long_fresh (by decide)

/-- Also while a payment of one's own is on its way: the request finishes it, the coins stay set aside. -/
example : purseView (purse1.run parse7 fixedLong [.send (world none none) 20 (send10 [8]) none none, .receive [3] 5 1,
    .foreignFinalize (world none (some true)) (goodReply [8])]) =
      ([LOCKED, NO_CONFIRMATIONS, NO_CONFIRMATIONS], [SENDING_FINALIZED, RECEIVING_IN_PROGRESS], [[8]]) := by
  decide +kernel

/-- A wallet with 100 shown with nothing. -/
example : ∃ amount < 2 ^ 64, (getBalance fixedLong.env fixedLong.conf (purse1.step parse7 fixedLong (.receive [3] amount 1)).db).total = 0 :=
  stranger_sets_total_violated parse7 fixedLong purse1 [3] 1 (by simp [purse1, oneCoin]) long_fresh (by decide) 0 (by decide)

end Verif.Props
