import Verif.Wallet.Exchange
import Verif.Props.Cancel
import Mathlib.Data.List.Induction

/-!
# C114: paying over the wallet's interfaces
-/
namespace Verif.Props
open Verif Verif.Codec Verif.Wallet Verif.PoW

/-! ## The version of the slate -/

private theorem higher (n h : Nat) (h4 : h ≤ 4) : h ≤ (if n > h ∧ n ≤ MAX_SLATE_VERSION then n else h) ∧
    (if n > h ∧ n ≤ MAX_SLATE_VERSION then n else h) ≤ 4 ∧ (n = 4 → (if n > h ∧ n ≤ MAX_SLATE_VERSION then n else h) = 4) := by
  have : MAX_SLATE_VERSION = 4 := rfl
  split <;> omega

private theorem highest_bounds {vs : List Bytes} : ∀ {h v : Nat}, highestVersion h vs = .ok v → h ≤ 4 → h ≤ v ∧ v ≤ 4 := by
  induction vs with
  | nil => intro h v e h4; simp only [highestVersion, Res.ok.injEq] at e; omega
  | cons s ss ih =>
    intro h v e h4
    rw [highestVersion] at e
    split at e
    · obtain ⟨n, _, e⟩ := Res.bind_eq_ok.1 e
      have hh := higher (n % 65536) h h4
      have hc := ih e hh.2.1
      exact ⟨Nat.le_trans hh.1 hc.1, hc.2⟩
    · exact ih e h4

private theorem highest_four {vs : List Bytes} (hm : str "V4" ∈ vs) : ∀ {h v : Nat}, highestVersion h vs = .ok v → h ≤ 4 → v = 4 := by
  induction vs with
  | nil => simp at hm
  | cons s ss ih =>
    intro h v e h4
    rw [highestVersion] at e
    rcases List.mem_cons.1 hm with rfl | hm
    · rw [if_pos (by decide), show stoull ((str "V4").drop 1) = .ok 4 by decide +kernel, Res.ok_bind] at e
      have hh := higher (4 % 65536) h h4
      have hc := highest_bounds e hh.2.1
      rw [hh.2.2 (by decide)] at hc
      omega
    · split at e
      · obtain ⟨n, _, e⟩ := Res.bind_eq_ok.1 e
        exact ih hm e (higher (n % 65536) h h4).2.1
      · exact ih hm e h4

/-- **C114**: whatever a receiver answers, the slate has version 4 or the payment is refused; a receiver that lists `V4` is never refused. -/
theorem slate_version_agreed (connected : Bool) (answer : Option (Nat × List Bytes)) :
    (getSlateVersion connected answer = .ok 4 ∨ getSlateVersion connected answer = .throw) ∧
    (getSlateVersion connected answer = .throw →
      connected = true ∧ ∃ vs, answer = some (2, vs) ∧ str "V4" ∉ vs) := by
  rw [getSlateVersion]
  cases connected with
  | false => simp [MAX_SLATE_VERSION]
  | true =>
    simp only [Bool.not_true, Bool.false_eq_true, if_false, true_and]
    cases answer with
    | none => simp [checkVersion, MAX_SLATE_VERSION]
    | some x =>
      obtain ⟨api, vs⟩ := x
      simp only [checkVersion]
      by_cases ha : api = 2
      · subst ha
        simp only [ne_eq, not_true, if_false]
        cases hv : highestVersion 0 vs with
        | throw => simp [MAX_SLATE_VERSION]
        | ub => simp [MAX_SLATE_VERSION]
        | ok v =>
          simp only
          have hb := highest_bounds hv (by omega)
          by_cases h4 : v < MIN_SLATE_VERSION
          · rw [if_pos h4]
            refine ⟨Or.inr rfl, fun _ => ⟨vs, rfl, fun hm => ?_⟩⟩
            have := highest_four hm hv (by omega)
            simp only [MIN_SLATE_VERSION] at h4; omega
          · rw [if_neg h4]
            simp only [MIN_SLATE_VERSION] at h4
            refine ⟨Or.inl (by rw [show v = 4 by omega]), fun h => by cases h⟩
      · simp [ha, MAX_SLATE_VERSION]

example : getSlateVersion true (some (2, [str "V3", str "V2"])) = .throw ∧
    getSlateVersion true (some (2, [str "V5", str "V4", str "V3"])) = .ok 4 ∧
    getSlateVersion true (some (2, [str "V3", str "Vx"])) = .ok 4 := by decide +kernel

/-! ## The transaction of a finalized slate -/

/-- The commitments of stored outputs. -/
def commitsOf (os : List OutputRecord) : List Bytes := os.map (·.output.commit)

/-- The transaction takes every coin of the context (as an input, or as an output when the slate handed in claims it as one) and pays all
the change. -/
def Takes (ins change : List OutputRecord) (tx : List Bytes × List Bytes) : Prop :=
  (∀ c ∈ commitsOf ins, c ∈ tx.1 ∨ c ∈ tx.2) ∧ ∀ c ∈ commitsOf change, c ∈ tx.2

private theorem addOutput_self (c : Bytes) (l : List (Bytes × Bool)) : (c, true) ∈ addOutput c l := by
  induction l with
  | nil => simp [addOutput]
  | cons x xs ih =>
    rw [addOutput]
    split
    · simp
    · exact List.mem_cons_of_mem _ ih

private theorem addOutput_true {c d : Bytes} {l : List (Bytes × Bool)} (h : (d, true) ∈ l) : (d, true) ∈ addOutput c l := by
  induction l with
  | nil => simp at h
  | cons x xs ih =>
    rw [addOutput]
    split
    · rename_i hx
      rcases List.mem_cons.1 h with h | h
      · subst h; rw [← hx]; simp
      · exact List.mem_cons_of_mem _ h
    · rcases List.mem_cons.1 h with h | h
      · subst h; simp
      · exact List.mem_cons_of_mem _ (ih h)

private theorem addOutput_other {c d : Bytes} (hne : d ≠ c) {b : Bool} {l : List (Bytes × Bool)} :
    (d, b) ∈ addOutput c l ↔ (d, b) ∈ l := by
  induction l with
  | nil => simp [addOutput, hne]
  | cons x xs ih =>
    rw [addOutput]
    split
    · rename_i hx
      have : (d, b) ≠ x := fun h => hne (by rw [← hx, ← h])
      simp [hne, this]
    · simp [ih]

private theorem fold_out_true {os : List OutputRecord} {d : Bytes} : ∀ {l : List (Bytes × Bool)}, (d, true) ∈ l →
    (d, true) ∈ os.foldl (fun l o => addOutput o.output.commit l) l := by
  induction os with
  | nil => intro l h; exact h
  | cons o os ih => intro l h; exact ih (addOutput_true h)

private theorem fold_out_self {os : List OutputRecord} {d : Bytes} (hd : d ∈ commitsOf os) : ∀ {l : List (Bytes × Bool)},
    (d, true) ∈ os.foldl (fun l o => addOutput o.output.commit l) l := by
  induction os with
  | nil => simp [commitsOf] at hd
  | cons o os ih =>
    intro l
    rcases List.mem_cons.1 hd with h | h
    · rw [h]; exact fold_out_true (os := os) (l := addOutput o.output.commit l) (addOutput_self o.output.commit l)
    · exact ih h

private theorem fold_out_other {os : List OutputRecord} {d : Bytes} (hd : d ∉ commitsOf os) {b : Bool} : ∀ {l : List (Bytes × Bool)},
    ((d, b) ∈ os.foldl (fun l o => addOutput o.output.commit l) l ↔ (d, b) ∈ l) := by
  induction os with
  | nil => intro l; exact Iff.rfl
  | cons o os ih =>
    intro l
    simp only [commitsOf, List.map_cons, List.mem_cons, not_or] at hd
    exact (ih hd.2).trans (addOutput_other hd.1)

private theorem addInput_mem {l : List (Bytes × Bool)} {x : Bytes × Bool} (c : Bytes) (h : x ∈ l) : x ∈ addInput l c := by
  rw [addInput]; split
  · exact h
  · exact List.mem_append_left _ h

private theorem addInput_self (l : List (Bytes × Bool)) (c : Bytes) : ∃ b, (c, b) ∈ addInput l c := by
  rw [addInput]; split
  · rename_i h
    obtain ⟨x, hx, hc⟩ := List.any_eq_true.1 h
    refine ⟨x.2, ?_⟩
    rw [← of_decide_eq_true hc]; exact hx
  · exact ⟨false, by simp⟩

private theorem addInput_only {l : List (Bytes × Bool)} {c d : Bytes} (h : (d, true) ∈ addInput l c) : (d, true) ∈ l := by
  rw [addInput] at h; split at h
  · exact h
  · simpa using h

private theorem fold_in_mem {os : List OutputRecord} {x : Bytes × Bool} : ∀ {l : List (Bytes × Bool)}, x ∈ l →
    x ∈ os.foldl (fun l o => addInput l o.output.commit) l := by
  induction os with
  | nil => intro l h; exact h
  | cons o os ih => intro l h; exact ih (addInput_mem _ h)

private theorem fold_in_self {os : List OutputRecord} {d : Bytes} (hd : d ∈ commitsOf os) : ∀ {l : List (Bytes × Bool)},
    ∃ b, (d, b) ∈ os.foldl (fun l o => addInput l o.output.commit) l := by
  induction os with
  | nil => simp [commitsOf] at hd
  | cons o os ih =>
    intro l
    rcases List.mem_cons.1 hd with h | h
    · obtain ⟨b, hb⟩ := addInput_self l o.output.commit
      exact ⟨b, by rw [h]; exact fold_in_mem (os := os) (l := addInput l o.output.commit) hb⟩
    · exact ih h

private theorem fold_in_only {os : List OutputRecord} {d : Bytes} : ∀ {l : List (Bytes × Bool)},
    (d, true) ∈ os.foldl (fun l o => addInput l o.output.commit) l → (d, true) ∈ l := by
  induction os with
  | nil => intro l h; exact h
  | cons o os ih => intro l h; exact addInput_only (ih h)

private theorem finalTx_mem {ctx : Ctx} {r : Reply} {d : Bytes} {b : Bool}
    (h : (d, b) ∈ ctx.outputs.foldl (fun l o => addOutput o.output.commit l)
      (ctx.inputs.foldl (fun l o => addInput l o.output.commit) r.coms)) :
    if b then d ∈ (finalTx ctx r).2 else d ∈ (finalTx ctx r).1 := by
  cases b with
  | true => exact List.mem_map.2 ⟨(d, true), List.mem_filter.2 ⟨h, rfl⟩, rfl⟩
  | false => exact List.mem_map.2 ⟨(d, false), List.mem_filter.2 ⟨h, rfl⟩, rfl⟩

/-- **C114**: the finished transaction pays all the change; it spends every coin that was set aside for it, whatever the other side handed
back, unless the other side lists that very coin as an output; and all that is in it besides comes from the other side. -/
theorem finished_transaction (ctx : Ctx) (r : Reply) :
    (∀ c ∈ commitsOf ctx.outputs, c ∈ (finalTx ctx r).2) ∧
    (∀ c ∈ commitsOf ctx.inputs, c ∉ commitsOf ctx.outputs → (c, true) ∉ r.coms → c ∈ (finalTx ctx r).1) ∧
    (∀ c ∈ commitsOf ctx.inputs, c ∈ (finalTx ctx r).1 ∨ c ∈ (finalTx ctx r).2) ∧
    (∀ c ∈ (finalTx ctx r).2, c ∈ commitsOf ctx.outputs ∨ (c, true) ∈ r.coms) := by
  refine ⟨fun c hc => finalTx_mem (b := true) (fold_out_self hc), fun c hc hn hr => ?_, fun c hc => ?_, fun c hc => ?_⟩
  · obtain ⟨b, hb⟩ := fold_in_self hc (l := r.coms)
    cases b with
    | true => exact absurd (fold_in_only hb) hr
    | false => exact finalTx_mem (b := false) ((fold_out_other hn).2 hb)
  · by_cases hn : c ∈ commitsOf ctx.outputs
    · exact Or.inr (finalTx_mem (b := true) (fold_out_self hn))
    · obtain ⟨b, hb⟩ := fold_in_self hc (l := r.coms)
      have := finalTx_mem ((fold_out_other hn).2 hb)
      cases b with
      | true => exact Or.inr this
      | false => exact Or.inl this
  · by_cases hn : c ∈ commitsOf ctx.outputs
    · exact Or.inl hn
    · right
      obtain ⟨⟨d, b⟩, hd, rfl⟩ := List.mem_map.1 hc
      obtain ⟨hd, hb⟩ := List.mem_filter.1 hd
      simp only at hb hn ⊢
      subst hb
      exact fold_in_only ((fold_out_other hn).1 hd)

/-! ## What a payment's answer means -/

private theorem finalizeAndPost_posted (W : World) (post : Option PostMethod) (r : Reply) (p : Purse) :
    (finalizeAndPost W post r p).1 ≠ .ok () → (finalizeAndPost W post r p).2.posted = p.posted := by
  intro h
  rw [finalizeAndPost] at h ⊢
  cases hc : p.db.contexts.find? (fun e => e.1 = r.id) with
  | none => rfl
  | some e =>
    rw [hc] at h
    simp only at h ⊢
    cases hf : finalize r.id r.valid (finalTx e.2 r).1 (finalTx e.2 r).2 p.db with
    | throw => rfl
    | ub => rfl
    | ok db =>
      rw [hf] at h
      cases post with
      | none => rfl
      | some m =>
        simp only at h ⊢
        cases hp : postTransaction W m (finalTx e.2 r) with
        | none => rfl
        | some b => rw [hp] at h; simp at h

/-- **C114**: a payment that is refused leaves the wallet as it was. -/
theorem refused_changes_nothing {parse : Bytes → Option Bytes} {W : World} {build : WDB → Res WDB} {slate : Bytes}
    {address : Option Bytes} {post : Option PostMethod} {p : Purse}
    (h : (sendCall parse W build slate address post p).1 = .throw) : (sendCall parse W build slate address post p).2 = p := by
  unfold sendCall at h ⊢
  dsimp only at h ⊢
  generalize (if (address.bind parse).isSome then getSlateVersion (W.connects 0) W.version else .ok MAX_SLATE_VERSION) = v at h ⊢
  cases v with
  | throw => rfl
  | ub => rfl
  | ok n =>
    simp only at h ⊢
    cases hb : build p.db with
    | throw => rfl
    | ub => rfl
    | ok db =>
      rw [hb] at h
      simp only at h ⊢
      cases ha : address.bind parse with
      | none => rw [ha] at h; cases h
      | some a =>
        rw [ha] at h
        simp only at h ⊢
        split at h
        · cases h
        · split at h
          · cases h
          · split at h
            · cases h
            · split at h <;> cases h

/-- **C114**: the answer `SENT` names the slate of this payment, nothing has been handed to the network, the wallet has recorded the
payment (and, if the answer carries an error, perhaps the finished transaction); without an address there is no error. -/
theorem sent_not_posted {parse : Bytes → Option Bytes} {W : World} {build : WDB → Res WDB} {slate : Bytes}
    {address : Option Bytes} {post : Option PostMethod} {p : Purse} {ans : SendAnswer}
    (h : (sendCall parse W build slate address post p).1 = .ok ans) (hs : ans.status = .sent) :
    (sendCall parse W build slate address post p).2.posted = p.posted ∧ ans.slate = slate ∧
      ans.sealedFor = address.bind parse ∧ (ans.error = true ↔ address.bind parse ≠ none) ∧
      ∃ db, build p.db = .ok db ∧ ((sendCall parse W build slate address post p).2.db = db ∨
        ans.error = true ∧ ∃ r, W.reply = some r ∧ ∃ ins outs,
          finalize r.id r.valid ins outs db = .ok (sendCall parse W build slate address post p).2.db) := by
  unfold sendCall at h ⊢
  dsimp only at h ⊢
  generalize (if (address.bind parse).isSome then getSlateVersion (W.connects 0) W.version else .ok MAX_SLATE_VERSION) = v at h ⊢
  cases v with
  | throw => cases h
  | ub => cases h
  | ok n =>
    simp only at h ⊢
    cases hb : build p.db with
    | throw => rw [hb] at h; cases h
    | ub => rw [hb] at h; cases h
    | ok db =>
      rw [hb] at h
      simp only at h ⊢
      cases ha : address.bind parse with
      | none =>
        rw [ha] at h; simp only [Res.ok.injEq] at h; subst h
        exact ⟨rfl, rfl, rfl, by simp, db, rfl, Or.inl rfl⟩
      | some a =>
        rw [ha] at h
        simp only at h ⊢
        by_cases h1 : W.connects 1
        · by_cases h2 : W.connects 2
          · simp only [h1, h2, Bool.not_true, Bool.false_eq_true, if_false] at h ⊢
            cases hr : W.reply with
            | none =>
              rw [hr] at h; simp only [Res.ok.injEq] at h; subst h
              exact ⟨rfl, rfl, rfl, by simp, db, rfl, Or.inl rfl⟩
            | some r =>
              rw [hr] at h
              simp only at h ⊢
              have hpost := finalizeAndPost_posted W post r { p with db := db }
              cases hf : finalizeAndPost W post r { p with db := db } with
              | mk x p2 =>
                rw [hf] at h hpost
                cases x with
                | ok u => simp only [Res.ok.injEq] at h; subst h; cases hs
                | ub => cases h
                | throw =>
                  simp only [Res.ok.injEq] at h; subst h
                  refine ⟨hpost (by simp), rfl, rfl, by simp, db, rfl, ?_⟩
                  rw [finalizeAndPost] at hf
                  cases hc : db.contexts.find? (fun e => e.1 = r.id) with
                  | none => simp only [hc, Prod.mk.injEq, true_and] at hf; left; rw [← hf]
                  | some e =>
                    simp only [hc] at hf
                    cases hg : finalize r.id r.valid (finalTx e.2 r).1 (finalTx e.2 r).2 db with
                    | throw => rw [hg] at hf; simp only [Prod.mk.injEq, true_and] at hf; left; rw [← hf]
                    | ub => rw [hg] at hf; simp at hf
                    | ok db2 =>
                      rw [hg] at hf
                      cases post with
                      | none => simp at hf
                      | some m =>
                        simp only at hf
                        cases hp : postTransaction W m (finalTx e.2 r) with
                        | some b => rw [hp] at hf; simp at hf
                        | none =>
                          rw [hp] at hf
                          simp only [Prod.mk.injEq, true_and] at hf
                          right
                          exact ⟨rfl, r, rfl, _, _, by rw [hg, ← hf]⟩
          · simp only [h1, h2, Bool.not_true, Bool.not_false, Bool.false_eq_true, if_false, if_true] at h; cases h
        · simp only [h1, Bool.not_false, if_true] at h ⊢
          simp only [Res.ok.injEq] at h; subst h
          exact ⟨trivial, rfl, rfl, by simp, db, rfl, Or.inl rfl⟩

/-- The way of posting was asked for and the other side took the transaction: the aggregator, the node for its stem pool (`false`), or the node
for its pool (`true`). -/
def PutIn (W : World) (m : PostMethod) (tx : List Bytes × List Bytes) : Prop :=
  (m = .join ∧ W.join tx = true) ∨ (m = .stem ∧ W.node false tx = some true) ∨ (m = .fluff ∧ W.node true tx = some true)

instance (W : World) (m : PostMethod) (tx : List Bytes × List Bytes) : Decidable (PutIn W m tx) := by unfold PutIn; infer_instance

private theorem putIn_iff (W : World) (m : PostMethod) (tx : List Bytes × List Bytes) : postTransaction W m tx = some true ↔ PutIn W m tx := by
  cases m <;> simp [postTransaction, PutIn]

/-- **C114**: posting again says true exactly if the wallet has the finished transaction under this number and the way asked for took it, and
then the network has it; the wallet stays as it was. -/
theorem repost_exact (W : World) (m : PostMethod) (id : Nat) (p : Purse) :
    ((repost W m id p).1 = .ok true ↔ ∃ t tx, p.db.txs.find? (fun t => t.id = id) = some t ∧ t.tx = some tx ∧ PutIn W m tx) ∧
      (∀ t tx, p.db.txs.find? (fun t => t.id = id) = some t → t.tx = some tx →
        (repost W m id p).2.posted = if PutIn W m tx then p.posted ++ [(t.slateId.getD [], tx)] else p.posted) ∧
      ((¬ ∃ t tx, p.db.txs.find? (fun t => t.id = id) = some t ∧ t.tx = some tx) → repost W m id p = (.ok false, p)) ∧
      (repost W m id p).2.db = p.db := by
  unfold repost
  cases ht : p.db.txs.find? (fun t => t.id = id) with
  | none => exact ⟨⟨(by intro h; cases h), by rintro ⟨_, _, h, _⟩; cases h⟩, (by intro _ _ h; cases h), fun _ => rfl, rfl⟩
  | some t =>
    cases hx : t.tx with
    | none =>
      simp only [hx]
      refine ⟨⟨(by intro h; cases h), ?_⟩, ?_, fun _ => trivial, trivial⟩
      · rintro ⟨_, _, h, h', _⟩; cases h; rw [hx] at h'; cases h'
      · intro _ _ h h'; cases h; rw [hx] at h'; cases h'
    | some tx =>
      have k := putIn_iff W m tx
      have e : (∃ t' tx', some t = some t' ∧ t'.tx = some tx' ∧ PutIn W m tx') ↔ PutIn W m tx := by
        constructor
        · rintro ⟨_, _, h, h', h''⟩; cases h; rw [hx] at h'; cases h'; exact h''
        · intro h; exact ⟨t, tx, rfl, hx, h⟩
      simp only [hx]
      rw [e, ← k]
      refine ⟨?_, ?_, fun h => absurd ⟨t, tx, rfl, hx⟩ h, ?_⟩
      · cases hp : postTransaction W m tx with
        | none => simp
        | some b => cases b <;> simp
      · intro t' tx' h h'
        cases h
        rw [hx] at h'
        cases h'
        simp only [← k]
        cases hp : postTransaction W m tx with
        | none => simp
        | some b => cases b <;> simp [handOver]
      · cases hp : postTransaction W m tx with
        | none => rfl
        | some b => cases b <;> rfl

/-- **C114**, what holds of `FINALIZED`: the receiver answered with the slate named in the answer, the wallet had set coins aside for it, all
checks passed, the wallet has recorded the finished transaction, and it is with the network exactly if a way of posting was asked for
and took it.  The full statement, that it is the slate of this payment and that it is with the network, fails: `finalized_other_slate_violated`,
`finalized_not_posted_violated`. -/
theorem finalized_answer_partial {parse : Bytes → Option Bytes} {W : World} {build : WDB → Res WDB} {slate : Bytes}
    {address : Option Bytes} {post : Option PostMethod} {p : Purse} {ans : SendAnswer}
    (h : (sendCall parse W build slate address post p).1 = .ok ans) (hs : ans.status = .finalized) :
    ∃ r db ctx, W.reply = some r ∧ ans.slate = r.id ∧ ans.error = false ∧ r.valid = true ∧ build p.db = .ok db ∧
      (r.id, ctx) ∈ db.contexts ∧
      finalize r.id true (finalTx ctx r).1 (finalTx ctx r).2 db = .ok (sendCall parse W build slate address post p).2.db ∧
      (sendCall parse W build slate address post p).2.posted =
        if ∃ m, post = some m ∧ PutIn W m (finalTx ctx r) then p.posted ++ [(r.id, finalTx ctx r)]
        else p.posted := by
  unfold sendCall at h ⊢
  dsimp only at h ⊢
  generalize (if (address.bind parse).isSome then getSlateVersion (W.connects 0) W.version else .ok MAX_SLATE_VERSION) = v at h ⊢
  cases v with
  | throw => cases h
  | ub => cases h
  | ok n =>
    simp only at h ⊢
    cases hb : build p.db with
    | throw => rw [hb] at h; cases h
    | ub => rw [hb] at h; cases h
    | ok db =>
      rw [hb] at h
      simp only at h ⊢
      cases ha : address.bind parse with
      | none => rw [ha] at h; simp only [Res.ok.injEq] at h; subst h; cases hs
      | some a =>
        rw [ha] at h
        simp only at h ⊢
        by_cases h1 : W.connects 1
        · by_cases h2 : W.connects 2
          · simp only [h1, h2, Bool.not_true, Bool.false_eq_true, if_false] at h ⊢
            cases hr : W.reply with
            | none => rw [hr] at h; simp only [Res.ok.injEq] at h; subst h; cases hs
            | some r =>
              rw [hr] at h
              simp only at h ⊢
              cases hf : finalizeAndPost W post r { p with db := db } with
              | mk x p2 =>
                rw [hf] at h
                cases x with
                | throw => simp only [Res.ok.injEq] at h; subst h; cases hs
                | ub => cases h
                | ok u =>
                  simp only [Res.ok.injEq] at h; subst h
                  rw [finalizeAndPost] at hf
                  cases hc : db.contexts.find? (fun e => e.1 = r.id) with
                  | none => simp [hc] at hf
                  | some e =>
                    have hid : e.1 = r.id := by simpa using List.find?_some hc
                    simp only [hc] at hf
                    cases hg : finalize r.id r.valid (finalTx e.2 r).1 (finalTx e.2 r).2 db with
                    | throw => rw [hg] at hf; simp at hf
                    | ub => rw [hg] at hf; simp at hf
                    | ok db2 =>
                      have hval : r.valid = true := by
                        rw [finalize] at hg
                        split at hg
                        · split at hg
                          · assumption
                          · cases hg
                        · cases hg
                      rw [hg] at hf
                      refine ⟨r, db, e.2, rfl, rfl, rfl, hval, rfl, ?_, ?_, ?_⟩
                      · rw [← hid]; exact List.mem_of_find?_eq_some hc
                      · show finalize r.id true (finalTx e.2 r).1 (finalTx e.2 r).2 db = .ok p2.db
                        rw [hval] at hg
                        rw [hg]
                        cases post with
                        | none => simp only [Prod.mk.injEq, true_and] at hf; rw [← hf]
                        | some m =>
                          simp only at hf
                          cases hp : postTransaction W m (finalTx e.2 r) with
                          | none => rw [hp] at hf; simp at hf
                          | some b =>
                            rw [hp] at hf
                            simp only [Prod.mk.injEq, true_and] at hf
                            rw [← hf, handOver]; split <;> rfl
                      · show p2.posted = _
                        cases post with
                        | none => simp only [Prod.mk.injEq, true_and] at hf; rw [← hf]; simp
                        | some m =>
                          simp only at hf
                          cases hp : postTransaction W m (finalTx e.2 r) with
                          | none => rw [hp] at hf; simp at hf
                          | some b =>
                            rw [hp] at hf
                            simp only [Prod.mk.injEq, true_and] at hf
                            rw [← hf, handOver]
                            simp only [← putIn_iff]
                            cases b <;> simp [hp]
          · simp only [h1, h2, Bool.not_true, Bool.not_false, Bool.false_eq_true, if_false, if_true] at h; cases h
        · simp only [h1, Bool.not_false, if_true] at h
          simp only [Res.ok.injEq] at h; subst h; cases hs

/-! ## Histories -/

/-- Tables after an operation that finishes nothing: the contexts are the same, and a stored transaction was stored before, for the same
slate. -/
private def Keeps (d d' : WDB) : Prop :=
  d'.contexts = d.contexts ∧ ∀ t' ∈ d'.txs, t'.tx = none ∨ ∃ t ∈ d.txs, t.tx = t'.tx ∧ t.slateId = t'.slateId

private theorem Keeps.refl (d : WDB) : Keeps d d := ⟨rfl, fun t ht => Or.inr ⟨t, ht, rfl, rfl⟩⟩

private theorem Keeps.trans {a b c : WDB} (h : Keeps a b) (g : Keeps b c) : Keeps a c := by
  refine ⟨g.1.trans h.1, fun t ht => ?_⟩
  rcases g.2 t ht with e | ⟨u, hu, e1, e2⟩
  · exact Or.inl e
  · rcases h.2 u hu with e | ⟨w, hw, f1, f2⟩
    · exact Or.inl (e1 ▸ e)
    · exact Or.inr ⟨w, hw, f1.trans e1, f2.trans e2⟩

private theorem putTx_sub {txs : List WTx} {t x : WTx} (h : x ∈ putTx txs t) : x = t ∨ x ∈ txs := by
  induction txs with
  | nil => simpa [putTx] using h
  | cons y ys ih =>
    rw [putTx] at h
    by_cases h1 : y.id = t.id
    · rw [if_pos h1] at h
      rcases List.mem_cons.1 h with h | h
      · exact Or.inl h
      · exact Or.inr (List.mem_cons_of_mem _ h)
    · rw [if_neg h1] at h
      by_cases h2 : t.id < y.id
      · rw [if_pos h2] at h
        rcases List.mem_cons.1 h with h | h
        · exact Or.inl h
        · exact Or.inr h
      · rw [if_neg h2] at h
        rcases List.mem_cons.1 h with h | h
        · exact Or.inr (by simp [h])
        · rcases ih h with h | h
          · exact Or.inl h
          · exact Or.inr (List.mem_cons_of_mem _ h)

private theorem create_facts (commit : List Nat → Nat → Bytes) (i : Nat) (vs : List Nat) : ∀ db : WDB,
    (createOutputs commit i db vs).2.txs = db.txs ∧ (createOutputs commit i db vs).1.map (·.amount) = vs := by
  induction vs with
  | nil => intro db; exact ⟨rfl, rfl⟩
  | cons v vs ih =>
    intro db
    obtain ⟨h1, h2⟩ := ih (nextChildPath db).2
    exact ⟨h1, by simp only [createOutputs, List.map_cons, h2, newOutput]⟩

/-- Whether all transactions of a list are as before (or have nothing stored). -/
private def KeepsTxs (l l' : List WTx) : Prop :=
  ∀ t' ∈ l', t'.tx = none ∨ ∃ t ∈ l, t.tx = t'.tx ∧ t.slateId = t'.slateId

private theorem KeepsTxs.put {l l' : List WTx} (h : KeepsTxs l l') {t : WTx}
    (ht : t.tx = none ∨ ∃ u ∈ l, u.tx = t.tx ∧ u.slateId = t.slateId) : KeepsTxs l (putTx l' t) := by
  intro x hx
  rcases putTx_sub hx with rfl | hx
  · exact ht
  · exact h x hx

private theorem keeps_refresh (v : NodeView) (db : WDB) : Keeps db (refresh v db).2 := by
  rw [refresh]
  split
  · exact Keeps.refl db
  · dsimp only
    have h1 : ∀ (os : List OutputRecord) (d : WDB), Keeps d (os.foldl addRestored d) := by
      intro os
      induction os with
      | nil => intro d; exact Keeps.refl d
      | cons o os ih =>
        intro d
        refine Keeps.trans (b := addRestored d o) ⟨rfl, ?_⟩ (ih _)
        intro t ht
        rcases putTx_sub ht with rfl | ht
        · exact Or.inl rfl
        · exact Or.inr ⟨t, ht, rfl, rfl⟩
    refine Keeps.trans (h1 (newOutputs db.outputs v.restored) db) ?_
    generalize (newOutputs db.outputs v.restored).foldl addRestored db = d
    refine ⟨rfl, ?_⟩
    generalize d.outputs.map (refreshOutput v.loc) = outs
    show KeepsTxs d.txs (refreshTxs outs d.txs d.txs)
    have hA : ∀ (os : List OutputRecord) (l : List WTx), KeepsTxs d.txs l → KeepsTxs d.txs (os.foldl (confirmTx d.txs) l) := by
      intro os
      induction os with
      | nil => intro l h; exact h
      | cons o os ih =>
        intro l h
        refine ih _ ?_
        rw [confirmTx]
        cases hb : o.txId.bind (fun i => d.txs.find? (fun t => t.id = i)) with
        | none => exact h
        | some t =>
          have hm : t ∈ d.txs := by
            obtain ⟨i, _, hi⟩ := Option.bind_eq_some_iff.1 hb
            exact List.mem_of_find?_eq_some hi
          cases o.height with
          | none => exact h
          | some hh =>
            simp only
            split
            · exact h.put (Or.inr ⟨t, hm, rfl, rfl⟩)
            · split
              · exact h.put (Or.inr ⟨t, hm, rfl, rfl⟩)
              · exact h
    have hB : ∀ (ts : List WTx) (l : List WTx), (∀ t ∈ ts, t ∈ d.txs) → KeepsTxs d.txs l →
        KeepsTxs d.txs (ts.foldl (confirmSpent outs) l) := by
      intro ts
      induction ts with
      | nil => intro l _ h; exact h
      | cons t ts ih =>
        intro l hts h
        refine ih _ (fun x hx => hts x (List.mem_cons_of_mem _ hx)) ?_
        have hm := hts t (by simp)
        rw [confirmSpent]
        split
        · split
          · split
            · split
              · exact h.put (Or.inr ⟨t, hm, rfl, rfl⟩)
              · exact h
            · exact h
          · exact h
        · exact h
    exact hB _ _ (fun _ h => h) (hA _ _ (fun t ht => Or.inr ⟨t, ht, rfl, rfl⟩))

private theorem keeps_cancel {i : Nat} {db d : WDB} (h : cancel i db = .ok d) : Keeps db d := by
  rw [cancel] at h
  split at h
  · cases h; exact Keeps.refl db
  · rename_i t hf
    rw [cancelTx] at h
    obtain ⟨t', ht', h⟩ := Res.bind_eq_ok.1 h
    obtain ⟨u, _, h⟩ := Res.bind_eq_ok.1 h
    cases h
    refine ⟨rfl, ?_⟩
    intro x hx
    rcases putTx_sub hx with rfl | hx
    · refine Or.inr ⟨t, List.mem_of_find?_eq_some hf, ?_⟩
      rw [cancelType] at ht'
      split at ht'
      · cases ht'; exact ⟨rfl, rfl⟩
      · split at ht'
        · cases ht'; exact ⟨rfl, rfl⟩
        · cases ht'
    · exact Or.inr ⟨x, hx, rfl, rfl⟩

private theorem keeps_receive {commit : List Nat → Nat → Bytes} {s : Bytes} {v f : Nat} {db d : WDB}
    (h : receive commit s v f db = .ok d) : Keeps db d := by
  rw [receive] at h
  split at h
  · cases h
    refine ⟨rfl, ?_⟩
    intro x hx
    rcases putTx_sub hx with rfl | hx
    · exact Or.inl rfl
    · exact Or.inr ⟨x, hx, rfl, rfl⟩
  · cases h

/-- The send with this slate id is in the history, the coins `ins` are those it selected among the coins then available, and the amounts of
`change` are those it planned. -/
def StartedBy (parse : Bytes → Option Bytes) (c : Fixed) (p0 : Purse) (es : List PurseEvent) (id : Bytes)
    (ins change : List OutputRecord) : Prop :=
  ∃ pre W tip a address post rest, es = pre ++ PurseEvent.send W tip a address post :: rest ∧ a.slateId = id ∧ ∃ plan,
    sendPlan c.up c.down (availableCoins c.env c.conf tip (Purse.run parse c p0 pre).db.outputs) a.amount a.base a.maxChange a.entire
      a.strategy a.wanted = .ok plan ∧ ins = plan.inputs ∧ change.map (·.amount) = plan.change

private theorem StartedBy.mono {parse : Bytes → Option Bytes} {c : Fixed} {p0 : Purse} {es : List PurseEvent} {id : Bytes}
    {i o : List OutputRecord} (h : StartedBy parse c p0 es id i o) (e : PurseEvent) : StartedBy parse c p0 (es ++ [e]) id i o := by
  obtain ⟨pre, W, tip, a, ad, po, rest, rfl, h1, h2⟩ := h
  exact ⟨pre, W, tip, a, ad, po, rest ++ [e], by simp, h1, h2⟩

/-- What holds along a history. -/
private structure Honest (parse : Bytes → Option Bytes) (c : Fixed) (p0 : Purse) (es : List PurseEvent) (p : Purse) : Prop where
  ctxs : ∀ e ∈ p.db.contexts, StartedBy parse c p0 es e.1 e.2.inputs e.2.outputs
  txs : ∀ t ∈ p.db.txs, ∀ tx, t.tx = some tx → ∃ e ∈ p.db.contexts, t.slateId = some e.1 ∧ Takes e.2.inputs e.2.outputs tx
  posted : ∀ q ∈ p.posted, ∃ e ∈ p.db.contexts, e.1 = q.1 ∧ Takes e.2.inputs e.2.outputs q.2

private theorem Honest.mono {parse : Bytes → Option Bytes} {c : Fixed} {p0 p : Purse} {es : List PurseEvent}
    (h : Honest parse c p0 es p) (e : PurseEvent) : Honest parse c p0 (es ++ [e]) p :=
  ⟨fun x hx => (h.ctxs x hx).mono e, h.txs, h.posted⟩

private theorem Honest.keeps {parse : Bytes → Option Bytes} {c : Fixed} {p0 p : Purse} {es : List PurseEvent}
    (h : Honest parse c p0 es p) {d : WDB} (hk : Keeps p.db d) : Honest parse c p0 es { p with db := d } := by
  refine ⟨fun x hx => h.ctxs x (hk.1 ▸ hx), fun t ht tx htx => ?_, fun q hq => ?_⟩
  · rcases hk.2 t ht with e | ⟨u, hu, e1, e2⟩
    · rw [e] at htx; cases htx
    · obtain ⟨e, he, hs, hT⟩ := h.txs u hu tx (e1.trans htx)
      exact ⟨e, by show e ∈ d.contexts; rw [hk.1]; exact he, e2 ▸ hs, hT⟩
  · obtain ⟨e, he, hs, hT⟩ := h.posted q hq
    exact ⟨e, by show e ∈ d.contexts; rw [hk.1]; exact he, hs, hT⟩

private theorem Honest.hand {parse : Bytes → Option Bytes} {c : Fixed} {p0 p : Purse} {es : List PurseEvent}
    (h : Honest parse c p0 es p) {id : Bytes} {tx : List Bytes × List Bytes}
    (hq : ∃ e ∈ p.db.contexts, e.1 = id ∧ Takes e.2.inputs e.2.outputs tx) (b : Bool) : Honest parse c p0 es (handOver id tx b p) := by
  rw [handOver]
  split
  · refine ⟨h.ctxs, h.txs, fun q hm => ?_⟩
    rcases List.mem_append.1 hm with hm | hm
    · exact h.posted q hm
    · rw [List.mem_singleton.1 hm]; exact hq
  · exact h

private theorem Honest.finalize {parse : Bytes → Option Bytes} {c : Fixed} {p0 p : Purse} {es : List PurseEvent}
    (h : Honest parse c p0 es p) (W : World) (post : Option PostMethod) (r : Reply) :
    Honest parse c p0 es (finalizeAndPost W post r p).2 := by
  rw [finalizeAndPost]
  cases hc : p.db.contexts.find? (fun e => e.1 = r.id) with
  | none => exact h
  | some e =>
    have hid : e.1 = r.id := by simpa using List.find?_some hc
    have hm := List.mem_of_find?_eq_some hc
    have hT : Takes e.2.inputs e.2.outputs (finalTx e.2 r) :=
      ⟨(finished_transaction e.2 r).2.2.1, (finished_transaction e.2 r).1⟩
    dsimp only
    cases hg : Wallet.finalize r.id r.valid (finalTx e.2 r).1 (finalTx e.2 r).2 p.db with
    | throw => exact h
    | ub => exact h
    | ok db =>
      have hd : Honest parse c p0 es { p with db := db } ∧ db.contexts = p.db.contexts := by
        rw [Wallet.finalize, hc] at hg
        cases ht : txBySlate p.db.txs r.id with
        | none => rw [ht] at hg; cases hg
        | some t =>
          rw [ht] at hg
          simp only at hg
          split at hg
          · cases hg
            refine ⟨⟨h.ctxs, fun x hx tx htx => ?_, h.posted⟩, rfl⟩
            rcases putTx_sub hx with rfl | hx
            · simp only [Option.some.injEq] at htx
              subst htx
              refine ⟨e, hm, ?_, hT⟩
              have := List.find?_some ht
              rw [hid]
              simpa using this
            · exact h.txs x hx tx htx
          · cases hg
      cases post with
      | none => exact hd.1
      | some m =>
        dsimp only
        cases postTransaction W m (finalTx e.2 r) with
        | none => exact hd.1
        | some b => exact hd.1.hand ⟨e, by show e ∈ db.contexts; rw [hd.2]; exact hm, hid, hT⟩ b

private theorem Honest.build {parse : Bytes → Option Bytes} {c : Fixed} {p0 p : Purse} {es : List PurseEvent}
    (h : Honest parse c p0 es p) (hp : p = Purse.run parse c p0 es) {W : World} {tip : Nat} {a : SendArgs} {address : Option Bytes}
    {post : Option PostMethod} {db : WDB} (hb : Wallet.send c.env c.conf tip c.up c.down c.commit a p.db = .ok db) :
    Honest parse c p0 (es ++ [.send W tip a address post]) { p with db := db } := by
  rw [Wallet.send] at hb
  obtain ⟨plan, hplan, hb⟩ := Res.bind_eq_ok.1 hb
  rw [buildSend] at hb
  dsimp only at hb
  split at hb
  · cases hb
  · have hf := create_facts c.commit (nextTxId p.db).1 plan.change (nextTxId p.db).2
    generalize createOutputs c.commit (nextTxId p.db).1 (nextTxId p.db).2 plan.change = co at hb hf
    simp only [Res.ok.injEq] at hb
    subst hb
    have hm := h.mono (.send W tip a address post)
    refine ⟨fun x hx => ?_, fun t ht tx htx => ?_, fun q hq => ?_⟩
    · rcases List.mem_append.1 hx with hx | hx
      · exact hm.ctxs x hx
      · rw [List.mem_singleton.1 hx]
        exact ⟨es, W, tip, a, address, post, [], rfl, rfl, plan, by rw [← hp]; exact hplan, rfl, hf.2⟩
    · rcases putTx_sub ht with rfl | ht
      · simp only [Option.some.injEq] at htx
        subst htx
        exact ⟨_, List.mem_append_right _ (List.mem_singleton.2 rfl), rfl, fun c hc => Or.inl hc, fun c hc => hc⟩
      · rw [hf.1] at ht
        obtain ⟨e, he, h1, h2⟩ := h.txs t ht tx htx
        exact ⟨e, List.mem_append_left _ he, h1, h2⟩
    · obtain ⟨e, he, h1, h2⟩ := h.posted q hq
      exact ⟨e, List.mem_append_left _ he, h1, h2⟩

private theorem Honest.op {parse : Bytes → Option Bytes} {c : Fixed} {p0 p : Purse} {es : List PurseEvent}
    (h : Honest parse c p0 es p) {o : WOp} (hk : ∀ d, applyOp c o p.db = .ok d → Keeps p.db d) :
    Honest parse c p0 es { p with db := stepOp c p.db o } := by
  refine h.keeps ?_
  rw [stepOp]
  split
  · rename_i d hd; exact hk d hd
  · exact Keeps.refl _

private theorem honest_run {parse : Bytes → Option Bytes} {c : Fixed} {p0 : Purse} (hc : p0.db.contexts = [])
    (ht : ∀ t ∈ p0.db.txs, t.tx = none) (hq : p0.posted = []) (es : List PurseEvent) :
    Honest parse c p0 es (Purse.run parse c p0 es) := by
  induction es using List.reverseRecOn with
  | nil =>
    refine ⟨fun e he => ?_, fun t htm tx htx => ?_, fun q hqm => ?_⟩
    · rw [Purse.run, List.foldl_nil, hc] at he; cases he
    · rw [ht t htm] at htx; cases htx
    · rw [Purse.run, List.foldl_nil, hq] at hqm; cases hqm
  | append_singleton es e ih =>
    have hrun : Purse.run parse c p0 (es ++ [e]) = Purse.step parse c (Purse.run parse c p0 es) e := by
      rw [Purse.run, List.foldl_append]; rfl
    rw [hrun]
    generalize hp : Purse.run parse c p0 es = p at ih ⊢
    have ihm := ih.mono e
    cases e with
    | send W tip a address post =>
      show Honest parse c p0 _ (sendCall parse W (Wallet.send c.env c.conf tip c.up c.down c.commit a) a.slateId address post p).2
      unfold sendCall
      dsimp only
      generalize (if (address.bind parse).isSome then getSlateVersion (W.connects 0) W.version else .ok MAX_SLATE_VERSION) = v
      cases v with
      | throw => exact ihm
      | ub => exact ihm
      | ok n =>
        dsimp only
        cases hb : Wallet.send c.env c.conf tip c.up c.down c.commit a p.db with
        | throw => exact ihm
        | ub => exact ihm
        | ok db =>
          have hB := ih.build hp.symm (W := W) (address := address) (post := post) hb
          dsimp only
          cases address.bind parse with
          | none => exact hB
          | some x =>
            dsimp only
            split
            · exact hB
            · split
              · exact hB
              · cases W.reply with
                | none => exact hB
                | some r =>
                  dsimp only
                  have hF := hB.finalize W post r
                  generalize finalizeAndPost W post r { p with db := db } = y at hF ⊢
                  obtain ⟨y1, y2⟩ := y
                  cases y1 <;> exact hF
    | finalize W post r => exact ihm.finalize W post r
    | foreignFinalize W r => exact ihm.finalize W (some .stem) r
    | repost W m i =>
      show Honest parse c p0 _ (Wallet.repost W m i p).2
      rw [Wallet.repost]
      split
      · exact ihm
      · rename_i t hf
        split
        · exact ihm
        · rename_i tx htx
          split
          · exact ihm
          · obtain ⟨e, he, h1, h2⟩ := ihm.txs t (List.mem_of_find?_eq_some hf) tx htx
            exact ihm.hand ⟨e, he, by rw [h1]; rfl, h2⟩ _
    | receive s v f => exact ihm.op (fun d hd => keeps_receive hd)
    | cancel i => exact ihm.op (fun d hd => keeps_cancel hd)
    | refresh v => exact ihm.op (fun d hd => by cases hd; exact keeps_refresh v p.db)
    | coinbase => exact ihm.op (fun d hd => by cases hd; exact ⟨rfl, fun t ht => Or.inr ⟨t, ht, rfl, rfl⟩⟩)

/-- **C114**: whatever strangers send to the wallet's open interface, in whatever order with the owner's requests, the wallet hands over only
transactions of payments its owner started: each pays back the change that payment planned, and takes the coins it selected. -/
theorem posted_was_started (parse : Bytes → Option Bytes) (c : Fixed) (p0 : Purse) (es : List PurseEvent)
    (hc : p0.db.contexts = []) (ht : ∀ t ∈ p0.db.txs, t.tx = none) (hq : p0.posted = [])
    {id : Bytes} {tx : List Bytes × List Bytes} (h : (id, tx) ∈ (Purse.run parse c p0 es).posted) :
    ∃ ins change, StartedBy parse c p0 es id ins change ∧ Takes ins change tx := by
  obtain ⟨⟨i, ctx⟩, he, rfl, hT⟩ := (honest_run (parse := parse) (c := c) hc ht hq es).posted _ h
  exact ⟨_, _, (honest_run (parse := parse) (c := c) hc ht hq es).ctxs _ he, hT⟩

/-! ## A concrete wallet, and what goes wrong -/

/-- The wallet of `Cancel.lean`. -/
def fixed1 : Fixed := ⟨.mainnet, 10, sortUp, fun l => (sortUp l).reverse, tagCommit⟩

/-- Only addresses starting with 7 parse. -/
def parse7 (a : Bytes) : Option Bytes := if a.head? = some 7 then some a else none

/-- All connections succeed, the receiver offers version 4 and answers `r`, the node says `b` to every transaction. -/
def world (r : Option Reply) (b : Option Bool) : World :=
  ⟨fun _ => true, some (2, [str "V4"]), r, fun _ _ => b, fun _ => b.getD false⟩

/-- A wallet with one coin. -/
def purse1 : Purse := ⟨oneCoin, []⟩

/-- A good answer for a slate: one output. -/
def goodReply (id : Bytes) : Reply := ⟨id, true, [([200], true)]⟩

/-- Send 10 to an address. -/
def pay (W : World) (slate : Bytes) (address : Option Bytes) (p : Purse) : Res SendAnswer × Purse :=
  sendCall parse7 W (doSend (send10 slate)) slate address (some .fluff) p

/-- What is shown of a wallet: status of the outputs, type of the transactions, ids of what was posted. -/
def purseView (p : Purse) : List Nat × List Nat × List Bytes :=
  (p.db.outputs.map (·.status), p.db.txs.map (·.type), p.posted.map (·.1))

/-- A payment goes through. -/
example : pay (world (some (goodReply [8])) (some true)) [8] (some [7]) purse1 =
    (.ok ⟨.finalized, [8], none, false⟩, (pay (world (some (goodReply [8])) (some true)) [8] (some [7]) purse1).2) ∧
    (pay (world (some (goodReply [8])) (some true)) [8] (some [7]) purse1).2.posted = [([8], ([[1]], [[200], tagCommit [0, 0, 7] 44]))] := by
  decide +kernel

/-- A receiver that does not answer; one that speaks version 3 only. -/
example : (pay (world none (some true)) [8] (some [7]) purse1).1 = .ok ⟨.sent, [8], some [7], true⟩ ∧
    (pay { world none none with version := some (2, [str "V3"]) } [8] (some [7]) purse1).1 = .throw := by
  decide +kernel

/-- A history from a wallet without transactions in which a payment is posted, by a stranger's request. -/
example : ([8], ([[1]], [[200], tagCommit [0, 0, 7] 44])) ∈ (Purse.run parse7 fixed1 purse1
    [.send (world none none) 20 (send10 [8]) none none, .receive [3] 5 1, .foreignFinalize (world none (some true)) (goodReply [8])]).posted := by
  decide +kernel

/-- **C114** is violated: an address with a mistake is silently taken as none.  The coins are set aside, the answer has no error and the
slatepack is not encrypted. -/
theorem bad_address_violated :
    (pay (world (some (goodReply [8])) (some true)) [8] (some [6]) purse1).1 = .ok ⟨.sent, [8], none, false⟩ ∧
    purseView (pay (world (some (goodReply [8])) (some true)) [8] (some [6]) purse1).2 = ([LOCKED, NO_CONFIRMATIONS], [SENDING_STARTED], []) := by
  decide +kernel

/-- **C114** is violated: the answer is `FINALIZED` although the node has refused the transaction. -/
theorem finalized_not_posted_violated :
    (pay (world (some (goodReply [8])) (some false)) [8] (some [7]) purse1).1 = .ok ⟨.finalized, [8], none, false⟩ ∧
    purseView (pay (world (some (goodReply [8])) (some false)) [8] (some [7]) purse1).2 = ([LOCKED, NO_CONFIRMATIONS], [SENDING_FINALIZED], []) := by
  decide +kernel

/-- Two coins. -/
def purse2 : Purse := ⟨⟨[coinOf 100 [1], coinOf 100 [2]], [], [], 7, 0, 20⟩, []⟩

/-- **C114** is violated: the receiver of one payment answers with the slate of another one that is under way.  The other payment is finalized
and posted, the answer is `FINALIZED`, and the payment asked for stays as started. -/
theorem finalized_other_slate_violated :
    (pay (world (some (goodReply [8])) (some true)) [9] (some [7]) (pay (world none none) [8] none purse2).2).1 =
      .ok ⟨.finalized, [8], none, false⟩ ∧
    purseView (pay (world (some (goodReply [8])) (some true)) [9] (some [7]) (pay (world none none) [8] none purse2).2).2 =
      ([LOCKED, LOCKED, NO_CONFIRMATIONS, NO_CONFIRMATIONS], [SENDING_FINALIZED, SENDING_STARTED], [[8]]) := by
  decide +kernel

/-- **C114** is violated: a payment its owner has canceled is finalized and posted when the receiver calls the open `finalize_tx`; the coin
the wallet shows as spendable is spent. -/
theorem canceled_is_posted_violated :
    purseView (Purse.run parse7 fixed1 purse1 [.send (world none none) 20 (send10 [8]) none none, .cancel 0]) =
      ([SPENDABLE, CANCELED], [SENT_CANCELED], []) ∧
    purseView (Purse.run parse7 fixed1 purse1 [.send (world none none) 20 (send10 [8]) none none, .cancel 0,
      .foreignFinalize (world none (some true)) (goodReply [8])]) = ([SPENDABLE, CANCELED], [SENDING_FINALIZED], [[8]]) := by
  decide +kernel

/-- **C114** is violated: if Tor connects for the check of the receiver but not a moment later for the request itself, the handler uses a null
connection. -/
theorem lost_connection_violated :
    (pay { world (some (goodReply [8])) (some true) with connects := fun i => i < 2 } [8] (some [7]) purse1).1 = .ub := by
  decide +kernel

end Verif.Props
