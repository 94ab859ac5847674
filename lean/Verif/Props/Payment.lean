import Verif.Wallet.Payment
import Verif.Props.Finalize
import Verif.Props.PayProof

/-!
# An honest payment goes through (C124)
-/
namespace Verif.Props
open Verif.Codec Verif.Tx Verif.PoW Verif.Wallet Verif.MMR

/-! ## Slates -/

section
variable {F : Type}

/-- An input and an output of a transaction for a coin. -/
def coinInput (x : SlateCoin F) : TxInput := ⟨x.features, x.commit⟩
def coinOutput (x : SlateCoin F) : TxOutput := ⟨x.features, x.commit, x.proof⟩

private theorem patchProof_same (c p : Bytes) : ∀ l : List SlateCom, (∀ e ∈ l, e.commit = c → e.proof ≠ none) → patchProof c p l = l
  | [], _ => rfl
  | e :: l, h => by
    unfold patchProof
    by_cases hc : e.commit = c
    · rw [if_pos hc]
      have := h e List.mem_cons_self hc
      cases hp : e.proof with
      | none => exact absurd hp this
      | some q => rfl
    · rw [if_neg hc, patchProof_same c p l fun d hd => h d (List.mem_cons_of_mem _ hd)]

private theorem patchAll_same (outs : List (SlateCoin F)) : ∀ l : List SlateCom,
    (∀ o ∈ outs, ∀ e ∈ l, e.commit = o.commit → e.proof ≠ none) → patchAll outs l = l := by
  induction outs with
  | nil => intro l _; rfl
  | cons o outs ih =>
    intro l h
    have := ih l fun o' ho' => h o' (List.mem_cons_of_mem _ ho')
    unfold patchAll at this ⊢
    rw [List.foldl_cons, patchProof_same _ _ _ (h o List.mem_cons_self)]
    exact this

private theorem slate_inputs (s : Slate) (ins outs : List (SlateCoin F)) (h : s.coms = ins.map inEntry ++ outs.map outEntry) :
    s.inputs = ins.map coinInput ∧ s.outputs = outs.map coinOutput := by
  unfold Slate.inputs Slate.outputs
  rw [h, List.filterMap_append, List.filterMap_append, List.filterMap_map, List.filterMap_map, List.filterMap_map, List.filterMap_map]
  have e1 : ins.filterMap (some ∘ coinInput) ++ outs.filterMap (fun _ => none) = ins.map coinInput := by
    rw [List.filterMap_eq_map]; simp
  have e2 : ins.filterMap (fun _ => none) ++ outs.filterMap (some ∘ coinOutput) = outs.map coinOutput := by
    rw [List.filterMap_eq_map]; simp
  exact ⟨e1, e2⟩

private theorem any_false_of_nodup {l : List SlateCom} {c : Bytes} (h : c ∉ l.map (·.commit)) : l.any (fun e => e.commit = c) = false := by
  rw [List.any_eq_false]
  intro e he hc
  exact h (List.mem_map.2 ⟨e, he, by simpa using hc⟩)

private theorem any_true_of_mem {l : List SlateCom} {c : Bytes} (h : c ∈ l.map (·.commit)) : l.any (fun e => e.commit = c) = true := by
  obtain ⟨e, he, hc⟩ := List.mem_map.1 h
  exact List.any_eq_true.2 ⟨e, he, by simpa using hc⟩

private theorem entries_commits (ins outs : List (SlateCoin F)) :
    (ins.map inEntry ++ outs.map outEntry).map (·.commit) = coinCommits ins ++ coinCommits outs := by
  rw [List.map_append, List.map_map, List.map_map]; rfl

/-- Putting the sender's coins on a slate that has none yields their entries. -/
private theorem addOwn_blank (c : SendRecord F) (s : Slate) (hs : s.coms = [])
    (hn : (coinCommits c.inputs ++ coinCommits c.outputs).Nodup) :
    addOwn c s = withComs s (c.inputs.map inEntry ++ c.outputs.map outEntry) := by
  obtain ⟨h1, h2⟩ := addOwn_coms c s hn
  rw [h2, h1, hs]
  have e : patchAll c.outputs [] = [] := patchAll_same _ _ fun _ _ _ h => by cases h
  simp [e]

/-- Putting them on a slate that has them and more outputs changes nothing. -/
private theorem addOwn_again (c : SendRecord F) (s : Slate) (more : List (SlateCoin F))
    (hs : s.coms = c.inputs.map inEntry ++ (c.outputs ++ more).map outEntry)
    (hn : (coinCommits c.inputs ++ coinCommits c.outputs).Nodup) : addOwn c s = s := by
  obtain ⟨h1, h2⟩ := addOwn_coms c s hn
  obtain ⟨_, _, n3⟩ := List.nodup_append.1 hn
  rw [h2, h1]
  have hc : s.coms.map (·.commit) = coinCommits c.inputs ++ coinCommits (c.outputs ++ more) := by rw [hs, entries_commits]
  have f1 : c.inputs.filter (fun i => !s.coms.any (fun d => d.commit = i.commit)) = [] := by
    rw [List.filter_eq_nil_iff]
    intro i hi
    rw [any_true_of_mem (by rw [hc]; exact List.mem_append_left _ (List.mem_map.2 ⟨i, hi, rfl⟩))]
    simp
  have f2 : c.outputs.filter (fun i => !s.coms.any (fun d => d.commit = i.commit)) = [] := by
    rw [List.filter_eq_nil_iff]
    intro i hi
    rw [any_true_of_mem (by
      rw [hc]; exact List.mem_append_right _ (List.mem_map.2 ⟨i, List.mem_append_left _ hi, rfl⟩))]
    simp
  have f3 : patchAll c.outputs s.coms = s.coms := by
    apply patchAll_same
    intro o ho e he hec
    rw [hs] at he
    rcases List.mem_append.1 he with h | h
    · obtain ⟨i, hi, rfl⟩ := List.mem_map.1 h
      exact absurd hec (n3 i.commit (List.mem_map.2 ⟨i, hi, rfl⟩) o.commit (List.mem_map.2 ⟨o, ho, rfl⟩))
    · obtain ⟨i, hi, rfl⟩ := List.mem_map.1 h
      simp [outEntry]
  rw [f1, f2, f3]
  simp [withComs]

private theorem addOutput_new (s : Slate) (o : SlateCoin F) (h : o.commit ∉ s.coms.map (·.commit)) :
    s.addOutput o.features o.commit o.proof = withComs s (s.coms ++ [outEntry o]) := by
  unfold Slate.addOutput
  rw [addOutputTo_eq, any_false_of_nodup h]
  rfl

end

/-! ## Bodies -/

private theorem differ_of_pairwise {α : Type} {eq : α → α → Prop} {l : List α} (h : l.Pairwise fun a b => ¬ eq a b) : NeighboursDiffer eq l := by
  intro pre a b post e
  rw [e] at h
  exact (List.pairwise_cons.1 (List.pairwise_append.1 h).2.1).1 b List.mem_cons_self

private theorem sorted_pairwise {α : Type} (h : α → Nat) (l : List α) : (sortByHash h l).Pairwise fun a b => h a ≤ h b := by
  have := List.pairwise_mergeSort (le := fun a b => decide (h a ≤ h b)) (fun a b c hab hbc => by simp at *; omega)
    (fun a b => by simp; omega) l
  exact this.imp fun hab => by simpa using hab

/-! ## The payment -/

section
variable {F G X M : Type} [Field F] [AddCommGroup G] [Module F G] [DecidableEq G] [DecidableEq X]

/-- What is asked of libraries: signing and committing use the same generator, the bytes of entries and scalars read back, signatures of
addresses verify, a valid Schnorr signature passes the check of kernels, and the range proofs of the given outputs pass, in whatever
order. -/
structure HonestLib (S : Scheme F G X M) (O : SlateOps F G X M) (pl : ProofLib G) (sc : ScalarOps F) (C : Curve G)
    (kernelOk : Kernel → Bool) (proofs : List (Bytes × Bytes) → Bool) (sigs : List Kernel → Bool) (outs : List (SlateCoin F)) : Prop where
  gen : S.gen = C.genB
  point : ∀ g : G, pl.point g = C.ser g
  entries : ∀ e, O.entry (O.back e) = some e
  order : sc.order = C.order
  scalars : ∀ a : F, beVal (sc.bytes a) < C.order ∧ ((beVal (sc.bytes a) : Nat) : F) = a
  addresses : SignCorrect pl
  kernels : ∀ (f l : Nat) (fee : Fee) (P : G) (sig : X × F), SchnorrValid S sig P (O.message f fee l) →
    kernelOk ⟨f, fee, l, pl.point P, O.sig sig⟩ = true ∧ sigs [⟨f, fee, l, pl.point P, O.sig sig⟩] = true
  ranges : ∀ l : List (Bytes × Bytes), l.Perm (outs.map fun o => (o.commit, o.proof)) → proofs l = true

/-- Two parties who keep to the rules: coins that are all different and committed to, a balance, new outputs without the coinbase
feature, offsets below the order, and choices where nothing cancels. -/
structure HonestParties (S : Scheme F G X M) (C : Curve G) (c : Sending F) (x : Receiving F) : Prop where
  new : x.known = none ∨ x.known = some RECEIVED_CANCELED
  distinct : (coinCommits (c.inputs ++ (c.change ++ [x.coin c.amount]))).Nodup
  commits : ∀ k ∈ c.inputs ++ (c.change ++ [x.coin c.amount]), k.commit = C.ser (k.value • C.genV + k.blind • C.genB)
  nonzero : ∀ k ∈ c.inputs ++ (c.change ++ [x.coin c.amount]), k.value • C.genV + k.blind • C.genB ≠ 0
  plain : ∀ k ∈ c.change ++ [x.coin c.amount], k.features = 0
  made : (x.coin c.amount).value = c.amount
  balance : (c.inputs.map (·.value)).sum = (c.change.map (·.value)).sum + c.amount + c.fee
  fee : c.fee < 2 ^ 63
  senderOffset : beVal c.offset < C.order
  receiverOffset : beVal x.offset < C.order
  generic : Generic S c.key c.nonce (x.key c.amount) x.nonce
  offsets : ((beVal c.offset : Nat) : F) + ((beVal x.offset : Nat) : F) ≠ 0
  offsetPoint : (((beVal c.offset : Nat) : F) + ((beVal x.offset : Nat) : F)) • C.genB ≠ 0
  feePoint : 0 < c.fee → c.fee • C.genV ≠ 0
  blinds : ((c.change.map (·.blind)).sum + (x.coin c.amount).blind - (c.inputs.map (·.blind)).sum) • C.genB ≠ 0

/-- If a payment proof is asked for, the address is one of the receiver's. -/
structure ProofPossible (pl : ProofLib G) (kl : KeyLib) (w : PayWallet G) (p : Codec.PayProof) : Prop where
  tor : w.tor = true
  seeds : ∀ i ≤ w.current, ∃ s, addressSeed kl w.master i = .ok s
  address : ∃ i ≤ w.current, ∃ s, addressSeed kl w.master i = .ok s ∧ p.receiver = pl.edPub s

variable {S : Scheme F G X M} {O : SlateOps F G X M} {pl : ProofLib G} {kl : KeyLib} {sc : ScalarOps F} {C : Curve G}

omit [DecidableEq G] [Module F G] in
private theorem addOffsets_ok {a b : Bytes} (ho : sc.order = C.order) (ha : beVal a < C.order) (hb : beVal b < C.order)
    (h : ((beVal a : Nat) : F) + ((beVal b : Nat) : F) ≠ 0) :
    addOffsets sc [a, b] = .ok (sc.bytes (((beVal a : Nat) : F) + ((beVal b : Nat) : F))) := by
  have hz : beVal (List.replicate 32 0) = 0 := by decide
  have na : ¬ sc.order ≤ beVal a := by omega
  have nb : ¬ sc.order ≤ beVal b := by omega
  unfold addOffsets
  by_cases h1 : isNullOffset a = true
  · have ea : beVal a = 0 := by rw [isNullOffset, decide_eq_true_eq] at h1; rw [h1]; exact hz
    by_cases h2 : isNullOffset b = true
    · have eb : beVal b = 0 := by rw [isNullOffset, decide_eq_true_eq] at h2; rw [h2]; exact hz
      rw [ea, eb] at h; simp at h
    · simp [h1, h2, nb, ea]
  · by_cases h2 : isNullOffset b = true
    · have eb : beVal b = 0 := by rw [isNullOffset, decide_eq_true_eq] at h2; rw [h2]; exact hz
      simp [h1, h2, na, eb]
    · simp [h1, h2, na, nb]

omit [DecidableEq G] [AddCommGroup G] in
private theorem proof_step (hs : SignCorrect pl) (w : PayWallet G) (amount : Nat) (K : G) (p : Option Codec.PayProof)
    (hp : ∀ q ∈ p, ProofPossible pl kl w q) :
    ∃ (pr : Option Wallet.PayProof) (l : List (Bytes × Bytes)), updateProof pl kl w amount K (p.map proofOf) = .ok (pr, l) ∧
      verifyProofs pl (p.map proofOf) ((pr.map withSignature).map proofOf) amount K = true ∧
      ∀ q ∈ p, ∃ g, pr.map withSignature = some ⟨q.sender, q.receiver, some g⟩ ∧
        pl.edVerify q.receiver g (beBytes 8 amount ++ pl.point K ++ q.sender) = true := by
  cases p with
  | none => exact ⟨none, [], rfl, rfl, fun q hq => by cases hq⟩
  | some q =>
    obtain ⟨ht, hd, i, hi, sd, h1, h2⟩ := hp q rfl
    obtain ⟨i', -, s, f1, f2, f3⟩ := findAddress_total (pl := pl) (kl := kl) w.master q.receiver (List.range (w.current + 1))
      (fun a ha => hd a (by simpa [Nat.lt_succ_iff] using ha)) ⟨i, by simpa [Nat.lt_succ_iff] using hi, sd, h1, h2⟩
    have hver : pl.edVerify q.receiver (pl.edSign s (payMessage amount (pl.point K) q.sender)) (payMessage amount (pl.point K) q.sender) = true := by
      rw [f3]; exact hs _ _
    refine ⟨some ⟨q.sender, q.receiver, some (pl.edSign s (payMessage amount (pl.point K) q.sender))⟩, [(s, payMessage amount (pl.point K) q.sender)], ?_, ?_, ?_⟩
    · change updateProof pl kl w amount K (some (proofOf q)) = _
      rw [updateProof, if_pos ht]
      exact Res.bind_eq_ok.2 ⟨_, f1, Res.bind_eq_ok.2 ⟨_, f2, rfl⟩⟩
    · simp only [Option.map_some, Wallet.verifyProofs, withSignature, proofOf, ne_eq, not_true_eq_false, or_self, if_false]
      exact hver
    · intro q' hq'
      obtain rfl : q = q' := by simpa using hq'
      exact ⟨_, rfl, hver⟩

/-- **C124, an honest payment goes through.**  For every sender and receiver who keep to the rules, whatever their coins, amounts,
keys, nonces and offsets: the receiver's wallet answers the slate the sender's wallet makes, the sender's wallet finalizes the answer,
and the transaction passes the node's validation.  It spends the coins chosen and nothing else, makes the change and the receiver's output
and nothing else, and its kernel has the fee of the slate and a valid signature under the sum of both public keys.  If a payment
proof was asked for, the finalized slate has one that verifies.  The fee meets the minimum if it is what the wallet charges. -/
theorem honest_payment_completes {H : DigestNum} {env : Env} {height : Nat} {kernelOk : Kernel → Bool}
    {proofs : List (Bytes × Bytes) → Bool} {sigs : List Kernel → Bool} {c : Sending F} {x : Receiving F} {w : PayWallet G}
    (hl : HonestLib S O pl sc C kernelOk proofs sigs (c.change ++ [x.coin c.amount])) (hh : HonestParties S C c x)
    (hp : ∀ q ∈ c.proof, ProofPossible pl kl w q)
    (hv : 5 ≤ headerVersion env height)
    (hw : c.inputs.length + 21 * (c.change.length + 2) + 6 ≤ 40000)
    (hH : ∀ a ∈ c.change ++ [x.coin c.amount], ∀ b ∈ c.change ++ [x.coin c.amount],
      outputHash H (coinOutput a) = outputHash H (coinOutput b) → a.commit = b.commit) :
    ∃ (r s' : Slate) (tx : Tx) (sig : X × F) (P : G), P = c.key • C.genB + x.key c.amount • C.genB ∧
      receiveSlate S O pl kl sc w x (sendSlate S O c).1 = .ok r ∧
      finalizeSlate S O pl H kernelOk (validateTx env C H proofs sigs height) (sendSlate S O c).2 r = .ok (s', tx) ∧
      validateTx env C H proofs sigs height tx = .ok () ∧
      tx.body.inputs.Perm (c.inputs.map coinInput) ∧
      tx.body.outputs.Perm ((c.change ++ [x.coin c.amount]).map coinOutput) ∧
      tx.body.kernels = [⟨0, ⟨0, c.fee⟩, 0, C.ser P, O.sig sig⟩] ∧ SchnorrValid S sig P (O.message 0 ⟨0, c.fee⟩ 0) ∧
      (∀ q ∈ c.proof, ∃ g, s'.proof = some ⟨q.sender, q.receiver, some g⟩ ∧
        pl.edVerify q.receiver g (beBytes 8 c.amount ++ C.ser P ++ q.sender) = true) ∧
      ∀ base, calcFee base c.inputs.length (c.change.length + 1) 1 ≤ c.fee → feeMeetsMinimum env base height tx = true := by
  generalize hk : x.coin c.amount = k at *
  have hn2 : (coinCommits c.inputs ++ coinCommits (c.change ++ [k])).Nodup := by
    have := hh.distinct
    rwa [hk, coinCommits, List.map_append] at this
  have hn3 : ((coinCommits c.inputs ++ coinCommits c.change) ++ [k.commit]).Nodup := by
    rw [coinCommits, coinCommits, List.map_append, ← List.append_assoc] at hn2
    exact hn2
  have hn : (coinCommits c.inputs ++ coinCommits c.change).Nodup := (List.nodup_append.1 hn3).1
  have hnew : k.commit ∉ coinCommits c.inputs ++ coinCommits c.change := by
    intro h
    exact (List.nodup_append.1 hn3).2.2 _ h _ (List.mem_singleton.2 rfl) rfl
  -- sending
  have hsend : (sendSlate S O c).1 = withComs (c.blank S O) (c.inputs.map inEntry ++ c.change.map outEntry) :=
    addOwn_blank (sendSlate S O c).2 (c.blank S O) rfl hn
  -- signing
  set m := O.message 0 ⟨0, c.fee⟩ 0 with hm
  obtain ⟨r0, e1, ⟨sig, e2, e3⟩, -⟩ := exchange_completes hh.generic m
  rw [receiveSign_ok hh.generic m] at e1
  obtain rfl := Res.ok.inj e1
  obtain ⟨pr, lp, p1, p2, p3⟩ := proof_step hl.addresses w c.amount (c.key • S.gen + x.key c.amount • S.gen) c.proof hp
  -- receiving
  have hoff := addOffsets_ok (C := C) (F := F) hl.order hh.senderOffset hh.receiverOffset hh.offsets
  set off := sc.bytes (((beVal c.offset : Nat) : F) + ((beVal x.offset : Nat) : F)) with hoffdef
  have hread : ∀ e : Entry F G X, readEntries O.entry [O.back e] = .ok [e] := by
    intro e
    unfold readEntries
    rw [hl.entries e]
    rfl
  let r1 : Slate := { c.blank S O with
    stage := .standardReceived, offset := off, proof := pr.map withSignature, sigs := [O.back (answer S c.key c.nonce (x.key c.amount) x.nonce m)] }
  have hrecv : receiveSlate S O pl kl sc w x (sendSlate S O c).1 =
      .ok (withComs r1 (c.inputs.map inEntry ++ (c.change ++ [k]).map outEntry)) := by
    rw [hsend]
    unfold receiveSlate
    have hmay : maySlateBeReceived x.known = true := by
      rcases hh.new with h | h <;> rw [h] <;> rfl
    rw [if_pos hmay]
    refine Res.bind_eq_ok.2 ⟨off, hoff, Res.bind_eq_ok.2 ⟨[unsigned S (c.key, c.nonce)], hread (unsigned S (c.key, c.nonce)),
      Res.bind_eq_ok.2 ⟨_, receiveSign_ok hh.generic m, Res.bind_eq_ok.2 ⟨c.key • S.gen + x.key c.amount • S.gen, ?_,
        Res.bind_eq_ok.2 ⟨(pr, lp), p1, ?_⟩⟩⟩⟩⟩
    · simp only [totalExcess, addPubs, unsigned, answer, signedEntry, List.cons_append, List.nil_append, List.map_cons, List.map_nil,
        List.sum_cons, List.sum_nil, add_zero]
      rw [if_neg hh.generic.excess]
    · have hkk : x.coin c.amount = k := hk
      change Res.ok (Slate.addOutput (withComs r1 (c.inputs.map inEntry ++ c.change.map outEntry)) (x.coin c.amount).features
        (x.coin c.amount).commit (x.coin c.amount).proof) = _
      rw [hkk, addOutput_new _ k (by
        change k.commit ∉ (c.inputs.map inEntry ++ c.change.map outEntry).map (·.commit)
        rw [entries_commits]; exact hnew)]
      simp [withComs]
  -- finalizing
  have hnull : isNullOffset off = false := by
    rw [isNullOffset, decide_eq_false_iff_not]
    intro h
    have h1 := (hl.scalars (((beVal c.offset : Nat) : F) + ((beVal x.offset : Nat) : F))).2
    rw [← hoffdef, h] at h1
    have hz : beVal (List.replicate 32 0) = 0 := by decide
    rw [hz, Nat.cast_zero] at h1
    exact hh.offsets h1.symm
  let r2 : Slate := withComs { r1 with stage := .standardFinalized } (c.inputs.map inEntry ++ (c.change ++ [k]).map outEntry)
  have hmerge : mergeSlate (sendSlate S O c).2 (withComs r1 (c.inputs.map inEntry ++ (c.change ++ [k]).map outEntry)) = .ok r2 := by
    refine Res.bind_eq_ok.2 ⟨off, ?_, ?_⟩
    · unfold finalOffset
      rw [if_neg (by change ¬ isNullOffset off = true; rw [hnull]; simp)]
      rfl
    · have hs2 : (sendSlate S O c).2.sent = (sendSlate S O c).1 := rfl
      rw [hs2, hsend]
      exact congrArg Res.ok (addOwn_again (sendSlate S O c).2 r2 [k] rfl hn)
  obtain ⟨signed, g1, g⟩ := Res.bind_eq_ok.1 e2
  obtain ⟨P, g2, g⟩ := Res.bind_eq_ok.1 g
  obtain ⟨sg, g3, g⟩ := Res.bind_eq_ok.1 g
  by_cases hva : verifyAggregate S sg P m = true
  case neg => rw [if_neg hva] at g; cases g
  rw [if_pos hva] at g
  simp only [Res.pure_eq, Res.ok.injEq, Prod.mk.injEq] at g
  obtain ⟨-, rfl, rfl⟩ := g
  obtain ⟨hin, hout⟩ := slate_inputs r2 c.inputs (c.change ++ [k]) rfl
  obtain ⟨k1, k2⟩ := hl.kernels 0 0 ⟨0, c.fee⟩ _ sg e3
  set P := c.key • S.gen + x.key c.amount • S.gen with hP
  set tx := buildTransaction H r2.inputs r2.outputs ⟨0, ⟨0, c.fee⟩, 0, pl.point P, O.sig sg⟩ off with htx
  have hI : tx.body.inputs.Perm (c.inputs.map coinInput) := by rw [← hin]; exact sorted_perm_of _ _
  have hO : tx.body.outputs.Perm ((c.change ++ [k]).map coinOutput) := by rw [← hout]; exact sorted_perm_of _ _
  have hK : tx.body.kernels = [⟨0, ⟨0, c.fee⟩, 0, pl.point P, O.sig sg⟩] := List.perm_singleton.1 (sorted_perm_of _ _)
  have hPp : pl.point P = C.ser P := hl.point P
  have lI : tx.body.inputs.length = c.inputs.length := by simpa using hI.length_eq
  have lO : tx.body.outputs.length = c.change.length + 1 := by simpa using hO.length_eq
  have hcheck : validateTx env C H proofs sigs height tx = .ok () := by
    refine Res.bind_eq_ok.2 ⟨(), ?_, Res.bind_eq_ok.2 ⟨(), ?_, Res.bind_eq_ok.2 ⟨(), ?_, Res.bind_eq_ok.2 ⟨?_, ?_, rfl⟩⟩⟩⟩
    · refine (transaction_weight env height tx.body ⟨by omega, by omega, by rw [hK]; simp⟩ hv).1.2 ?_
      rw [lI, lO, hK]
      simp only [List.length_cons, List.length_nil]
      omega
    · refine (body_accepts_iff H proofs sigs tx.body).2 ⟨sorted_pairwise _ _, sorted_pairwise _ _, sorted_pairwise _ _, ?_, ?_, ?_, ?_, ?_⟩
      · apply differ_of_pairwise
        have : tx.body.inputs.Nodup := by
          refine hI.nodup_iff.2 (List.Nodup.of_map (·.commit) ?_)
          rw [List.map_map]
          exact (List.nodup_append.1 hn).1
        exact this
      · apply differ_of_pairwise
        have hp' : ((c.change ++ [k]).map coinOutput).Pairwise fun a b => ¬ outputHash H a = outputHash H b := by
          have h0 : (coinCommits (c.change ++ [k])).Nodup := (List.nodup_append.1 hn2).2.1
          rw [List.pairwise_map]
          rw [coinCommits, List.nodup_iff_pairwise_ne, List.pairwise_map] at h0
          refine List.Pairwise.imp_of_mem ?_ h0
          intro a b ha hb hab he
          exact hab (hH a ha b hb he)
        exact (hO.pairwise_iff fun {a b} hab he => hab he.symm).2 hp'
      · intro i hi o ho he
        obtain ⟨a, ha, rfl⟩ := List.mem_map.1 (hI.mem_iff.1 hi)
        obtain ⟨b, hb, rfl⟩ := List.mem_map.1 (hO.mem_iff.1 ho)
        exact (List.nodup_append.1 hn2).2.2 _ (List.mem_map.2 ⟨a, ha, rfl⟩) _ (List.mem_map.2 ⟨b, hb, rfl⟩) he
      · refine hl.ranges _ ((hO.map _).trans ?_)
        rw [List.map_map]
        exact List.Perm.refl _
      · rw [hK]; exact k2
    · unfold validateFeatures
      have f1 : tx.body.outputs.any outIsCoinbase = false := by
        rw [List.any_eq_false]
        intro o ho
        obtain ⟨a, ha, rfl⟩ := List.mem_map.1 (hO.mem_iff.1 ho)
        have : (coinOutput a).features = 0 := hh.plain a (by rw [hk]; exact ha)
        simp [outIsCoinbase, this]
      rw [f1, hK]
      simp [kerIsCoinbase]
    · exact (C.ser (((c.change.map (·.blind)).sum + k.blind - (c.inputs.map (·.blind)).sum) • C.genB), C.ser P)
    · have hcs : ∀ l : List (SlateCoin F), (∀ a ∈ l, a ∈ c.inputs ++ (c.change ++ [k])) →
          ((l.map fun a => (a.value, a.blind)).map (coinPoint C)).map C.ser = coinCommits l := by
        intro l hl'
        rw [List.map_map, List.map_map]
        refine List.map_congr_left fun a ha => ?_
        exact (hh.commits a (by rw [hk]; exact hl' a ha)).symm
      have hb2 : ∀ l : List (SlateCoin F), (l.map fun a => (a.value, a.blind)).map (·.2) = l.map (·.blind) := fun l => by
        rw [List.map_map]; rfl
      have hb1 : ∀ l : List (SlateCoin F), (l.map fun a => (a.value, a.blind)).map (·.1) = l.map (·.value) := fun l => by
        rw [List.map_map]; rfl
      have hkv : (c.change.map fun a => (a.value, a.blind)) ++ [(c.amount, k.blind)] = (c.change ++ [k]).map fun a => (a.value, a.blind) := by
        have := hh.made
        rw [hk] at this
        rw [List.map_append, List.map_cons, List.map_nil, this]
      have hPk : signingKey (c.inputs.map (·.blind)) (c.change.map (·.blind)) ((beVal c.offset : Nat) : F) • C.genB +
          signingKey [] [k.blind] ((beVal x.offset : Nat) : F) • C.genB = P := by
        rw [hP, hl.gen, Sending.key, Receiving.key, hk]
      have hP0 : P ≠ 0 := hh.generic.excess
      have hbl := hh.blinds
      rw [hk] at hbl
      have := finalized_balances C (c.inputs.map fun a => (a.value, a.blind)) (c.change.map fun a => (a.value, a.blind)) c.amount c.fee k.blind
        ((beVal c.offset : Nat) : F) ((beVal x.offset : Nat) : F) off
        (by rw [hb1, hb1]; exact hh.balance) (hl.scalars _).2 (hl.scalars _).1
        (by
          intro a ha
          obtain ⟨b, hb, rfl⟩ := List.mem_map.1 ha
          exact hh.nonzero b (List.mem_append_left _ hb))
        (by
          intro a ha
          rw [hkv] at ha
          obtain ⟨b, hb, rfl⟩ := List.mem_map.1 ha
          exact hh.nonzero b (List.mem_append_right _ (by rw [hk]; exact hb)))
        hh.feePoint (fun _ => hh.offsetPoint)
        (by rw [hb2, hb2, hPk]; exact hP0) (by rw [hb2, hb2]; exact hbl)
      rw [hb2, hb2, hPk, hkv, hcs _ (fun a ha => List.mem_append_left _ ha), hcs _ (fun a ha => List.mem_append_right _ ha)] at this
      unfold txSums
      have hfees : (tx.body.kernels.map (·.fee.fee)).sum = c.fee := by rw [hK]; simp
      simp only [hfees]
      rw [if_neg (by have := hh.fee; omega)]
      unfold bodySums
      have hex : tx.body.kernels.map (·.excess) = [C.ser P] := by rw [hK, ← hPp]; rfl
      rw [hex]
      have qI : (coinCommits c.inputs).Perm (tx.body.inputs.map (·.commit)) := by
        have := (hI.map (·.commit)).symm
        rwa [List.map_map] at this
      have qO : (coinCommits (c.change ++ [k])).Perm (tx.body.outputs.map (·.commit)) := by
        have := (hO.map (·.commit)).symm
        rwa [List.map_map] at this
      have hoffset : tx.offset = off := rfl
      rw [hoffset]
      exact kernelSums_perm C qI qO this
  have hfin : finalizeSlate S O pl H kernelOk (validateTx env C H proofs sigs height) (sendSlate S O c).2
      (withComs r1 (c.inputs.map inEntry ++ (c.change ++ [k]).map outEntry)) = .ok ({ r2 with sigs := signed.map O.back }, tx) := by
    refine Res.bind_eq_ok.2 ⟨r2, hmerge, Res.bind_eq_ok.2 ⟨_, hread _, Res.bind_eq_ok.2 ⟨signed, g1, Res.bind_eq_ok.2 ⟨P, g2, ?_⟩⟩⟩⟩
    dsimp only
    have hvp : verifyProofs pl (sendSlate S O c).2.proof (r2.proof.map proofOf) r2.amount P = true := p2
    rw [if_pos hvp]
    refine Res.bind_eq_ok.2 ⟨sg, g3, ?_⟩
    have hva' : verifyAggregate S sg P (O.message r2.features r2.fee r2.lockHeight) = true := hva
    rw [if_pos hva']
    have k1' : kernelOk ⟨r2.features, r2.fee, Slate.lockHeight { r2 with sigs := signed.map O.back }, pl.point P, O.sig sg⟩ = true := k1
    rw [if_pos k1']
    exact Res.bind_eq_ok.2 ⟨(), hcheck, rfl⟩
  refine ⟨_, _, tx, sg, P, by rw [hP, hl.gen], hrecv, hfin, hcheck, hI, hO, by rw [hK, hPp], e3, ?_, ?_⟩
  · intro q hq
    obtain ⟨g, h1, h2⟩ := p3 q hq
    exact ⟨g, h1, by rw [← hPp]; exact h2⟩
  · intro base hb
    have hw' : calcWeight env height tx.body = weightV5 c.inputs.length (c.change.length + 1) 1 := by
      unfold calcWeight
      rw [if_neg (by omega), lI, lO, hK]
      rfl
    have hsft : feeShift tx.body = 0 := by
      unfold feeShift
      rw [hK]
      rfl
    unfold feeMeetsMinimum
    rw [hw', hsft, hK]
    have := hh.fee
    simp only [List.map_cons, List.map_nil, List.sum_cons, List.sum_nil, Nat.add_zero, pow_zero, Nat.mul_one, ge_iff_le, decide_eq_true_eq]
    rw [Nat.mod_mod, Nat.mod_eq_of_lt (a := c.fee) (by omega)]
    exact hb

/-- **C124, and is taken by nodes.**  If in addition the coins spent are unspent outputs of a node's chain, mature in the next block, and
the outputs made are new to it, and the fee is at least what the wallet charges at the node's fee base, then the node's pool takes the
transaction, for either way of passing it on. -/
theorem honest_payment_admitted {H : DigestNum} {env : Env} {kernelOk : Kernel → Bool}
    {proofs : List (Bytes × Bytes) → Bool} {sigs : List Kernel → Bool} {c : Sending F} {x : Receiving F} {w : PayWallet G}
    {Hb : Bytes → Bytes} {db : DB} {t : THS} {st : State} {sum : List Bytes → Res Bytes} {txHash : Tx → Nat} {base : Nat}
    (hl : HonestLib S O pl sc C kernelOk proofs sigs (c.change ++ [x.coin c.amount])) (hh : HonestParties S C c x)
    (hp : ∀ q ∈ c.proof, ProofPossible pl kl w q)
    (hv : 5 ≤ headerVersion env (t.header.height + 1))
    (hw : c.inputs.length + 21 * (c.change.length + 2) + 6 ≤ 40000)
    (hH : ∀ a ∈ c.change ++ [x.coin c.amount], ∀ b ∈ c.change ++ [x.coin c.amount],
      outputHash H (coinOutput a) = outputHash H (coinOutput b) → a.commit = b.commit)
    (hold : Holds Hb db t st) (hbig : leafPos st.leaves.length < 2 ^ 64)
    (hspend : ∀ k ∈ c.inputs, ∃ y, coin db t k.commit = .ok (some y) ∧ (y.isCoinbase = true → Mature env y.height (t.header.height + 1)))
    (hnew : ∀ k ∈ c.change ++ [x.coin c.amount], coin db t k.commit = .ok none)
    (hfee : calcFee base c.inputs.length (c.change.length + 1) 1 ≤ c.fee) :
    ∃ (r s' : Slate) (tx : Tx),
      receiveSlate S O pl kl sc w x (sendSlate S O c).1 = .ok r ∧
      finalizeSlate S O pl H kernelOk (validateTx env C H proofs sigs (t.header.height + 1)) (sendSlate S O c).2 r = .ok (s', tx) ∧
      ∀ (p : Pools) (toMem stemIt : Bool), (∀ e ∈ p.mem, txHash e.tx ≠ txHash tx) →
        ∃ p', addTx (nodeRules env C H proofs sigs sum txHash base) p (some (db, t)) t.header.height tx toMem stemIt = .ok (p', .added) ∧
          tx ∈ (if toMem then p'.mem else p'.stem).map (·.tx) := by
  obtain ⟨r, s', tx, sig, P, -, h1, h2, h3, h4, h5, h6, -, -, h7⟩ := honest_payment_completes (env := env) hl hh hp hv hw hH
  refine ⟨r, s', tx, h1, h2, ?_⟩
  intro p toMem stemIt hnot
  have hf : feeMeetsMinimum env base (t.header.height + 1) tx = true := h7 base hfee
  have hu : isValid env db t tx.body = .ok true := by
    refine (pool_check_iff env Hb db t st tx.body hold hbig).2.2 ⟨?_, ?_⟩
    · intro i hi
      obtain ⟨k, hk, rfl⟩ := List.mem_map.1 (h4.mem_iff.1 hi)
      exact hspend k hk
    · intro o ho
      obtain ⟨k, hk, rfl⟩ := List.mem_map.1 (h5.mem_iff.1 ho)
      exact hnew k hk
  have hc : poolContains (nodeRules env C H proofs sigs sum txHash base) p.mem tx = false := by
    rw [poolContains, List.any_eq_false]
    intro e he h
    exact hnot e he (of_decide_eq_true h)
  have hlock : tx.body.kernels.any (fun k => k.lockHeight > t.header.height + 1) = false := by
    rw [h6]; simp
  have hstep : ∃ p', addTx (nodeRules env C H proofs sigs sum txHash base) p (some (db, t)) t.header.height tx toMem stemIt = .ok (p', .added) ∧
      p' = if toMem then ⟨poolAdd p.mem tx .fluffed, poolRemove (nodeRules env C H proofs sigs sum txHash base) p.stem tx⟩
        else ⟨p.mem, poolAdd p.stem tx (if stemIt then .toStem else .toFluff)⟩ := by
    refine ⟨_, ?_, rfl⟩
    unfold addTx
    have hf' : (nodeRules env C H proofs sigs sum txHash base).feeOk (t.header.height + 1) tx = true := hf
    have h3' : (nodeRules env C H proofs sigs sum txHash base).check (t.header.height + 1) tx = .ok () := h3
    have hu' : (nodeRules env C H proofs sigs sum txHash base).utxo (db, t) tx = .ok true := hu
    simp only [hc, hf', hlock, h3', hu', Bool.and_false, Bool.not_true, Bool.false_eq_true, if_false, Res.ok_bind]
    cases toMem <;> rfl
  obtain ⟨p', e1, e2⟩ := hstep
  refine ⟨p', e1, ?_⟩
  rw [e2]
  cases toMem <;> simp [poolAdd]

end

/-! ## A payment -/

section Sample

private def pairSigs : ProofLib (ZMod 11 × ZMod 11) where
  edPub s := (1 :: s ++ List.replicate 32 0).take 32
  edSign s m := (1 :: s ++ List.replicate 32 0).take 32 ++ m
  edVerify k g m := g == k ++ m
  point := pairs.ser

private def pairScalars : ScalarOps (ZMod 11) := ⟨11, fun a => [UInt8.ofNat a.val]⟩

private def pairWallet : PayWallet (ZMod 11 × ZMod 11) := ⟨⟨beBytes 32 9, List.replicate 32 8⟩, 2, true, [], []⟩

private def pairSeed : Bytes :=
  match addressSeed payKeys pairWallet.master 1 with
  | .ok s => s
  | _ => []

/-- An amount of 6 at a fee of 46 from a coin of 61, with a change of 9, and a proof for the receiver's address 1. -/
private def pairSending : Sending (ZMod 11) :=
  ⟨List.replicate 16 1, 4, 5, 6, 46, [⟨0, [8, 6, 4], [], 61, 4⟩], [⟨0, [8, 9, 8], [1], 9, 8⟩], List.replicate 31 0 ++ [2], 2,
    some ⟨[9], pairSigs.edPub pairSeed, none⟩⟩

private def pairReceiving : Receiving (ZMod 11) :=
  ⟨none, fun a => ⟨0, [8, UInt8.ofNat (a % 11), 6], [2], a, 6⟩, List.replicate 31 0 ++ [1], 4⟩

private theorem pairs_parse : ∀ g : ZMod 11 × ZMod 11, pairs.parse (pairs.ser g) = some g := by decide +kernel

private theorem pairs_part : ∀ p : ZMod 11 × ZMod 11, (((UInt8.ofNat p.1.val).toNat : ZMod 11), ((UInt8.ofNat p.2.val).toNat : ZMod 11)) = p := by
  decide +kernel

private theorem pair_lib : HonestLib pairScheme pairOps pairSigs pairScalars pairs (fun _ => true) (fun _ => true) (fun _ => true)
    (pairSending.change ++ [pairReceiving.coin pairSending.amount]) where
  gen := rfl
  point _ := rfl
  entries e := by
    obtain ⟨a, b, p⟩ := e
    cases p with
    | none => simp only [pairOps, pairs_parse, Option.map_none]
    | some q =>
      have := pairs_part q
      simp only [pairOps, pairs_parse, Option.map_some]
      rw [this]
  order := rfl
  scalars := by decide +kernel
  addresses s m := by simp [pairSigs]
  kernels _ _ _ _ _ _ := ⟨rfl, rfl⟩
  ranges _ _ := rfl

private theorem pair_parties : HonestParties pairScheme pairs pairSending pairReceiving :=
  ⟨Or.inl rfl, by decide +kernel, by decide +kernel, by decide +kernel, by decide +kernel, rfl, by decide +kernel, by decide +kernel,
    by decide +kernel, by decide +kernel,
    ⟨by decide +kernel, by decide +kernel, by decide +kernel, by decide +kernel, by decide +kernel⟩, by decide +kernel, by decide +kernel,
    by decide +kernel, by decide +kernel⟩

private theorem pair_proof : ∀ q ∈ pairSending.proof, ProofPossible pairSigs payKeys pairWallet q := by
  intro q hq
  obtain rfl : (⟨[9], pairSigs.edPub pairSeed, none⟩ : Codec.PayProof) = q := by simpa [pairSending] using hq
  exact ⟨rfl, fun i _ => ⟨_, rfl⟩, 1, by decide, pairSeed, rfl, rfl⟩

/-- An honest payment with a payment proof, checked at height 1048600. -/
example := honest_payment_completes (H := beVal) (env := .mainnet) (height := 1048600) pair_lib pair_parties pair_proof (by decide +kernel)
  (by decide +kernel) (by decide +kernel)

/-- A chain whose only output is the sender's coin. -/
private def pairHeader (height : Nat) (prev : Bytes) (outs kers : Nat) : Header :=
  { version := 5, height := height, timestamp := 0, prevHash := prev, prevRoot := [], outputRoot := [],
    rangeProofRoot := [], kernelRoot := [], offset := [], outputMMRSize := outs, kernelMMRSize := kers,
    totalDifficulty := 0, scaling := 0, nonce := 0, pow := ⟨0, [], []⟩ }

private def pairDB : DB := ⟨fun _ => none, fun _ => none, fun _ => none, fun x =>
  if x = [0] then some (pairHeader 1048599 [] 0 0) else if x = [1] then some (pairHeader 1048600 [0] 1 1) else none⟩

private def pairHash (h : Header) : Bytes := if h.height = 1048599 then [0] else [1]

private def pairBlock : Block :=
  ⟨pairHeader 1048600 [0] 1 1, ⟨[], [⟨0, [8, 6, 4], [1]⟩], [⟨0, ⟨0, 5⟩, 0, [9], [9]⟩]⟩⟩

private theorem pair_chain : ∃ (db : DB) (t : THS) (st : State), t.header.height = 1048600 ∧ Holds id db t st ∧ st.leaves.length = 1 ∧
    coin db t [8, 6, 4] = .ok (some ⟨[0, 8, 6, 4], proofSer [1], 1048600⟩) ∧ coin db t [8, 9, 8] = .ok none ∧
    coin db t [8, 6, 6] = .ok none := by
  have h : (match applyBlock .mainnet id pairHash pairDB (emptySet (pairHeader 1048599 [] 0 0)) pairBlock with
    | .ok (some _) => true | _ => false) = true := by decide +kernel
  cases e : applyBlock .mainnet id pairHash pairDB (emptySet (pairHeader 1048599 [] 0 0)) pairBlock with
  | throw => rw [e] at h; cases h
  | ub => rw [e] at h; cases h
  | ok o =>
    cases o with
    | none => rw [e] at h; cases h
    | some y =>
      obtain ⟨db, t⟩ := y
      obtain ⟨h1, h2, st, h3, h4, -⟩ := apply_effect .mainnet id pairHash pairDB (emptySet (pairHeader 1048599 [] 0 0)) ⟨[], [], ∅, []⟩ pairBlock
        ⟨stores_empty id, stores_empty id, rfl, rfl, fun c l e => by cases e⟩ (by decide +kernel) (by decide +kernel) db t e
      refine ⟨db, t, st, by rw [h2]; rfl, h3, by rw [h4]; rfl, ?_, ?_, ?_⟩
      · rw [h1]; decide +kernel
      · rw [h1]; decide +kernel
      · rw [h1]; decide +kernel

/-- The payment enters the pool of a node on that chain. -/
example : ∃ (db : DB) (t : THS) (r s' : Slate) (tx : Tx),
    receiveSlate pairScheme pairOps pairSigs payKeys pairScalars pairWallet pairReceiving (sendSlate pairScheme pairOps pairSending).1 = .ok r ∧
    finalizeSlate pairScheme pairOps pairSigs beVal (fun _ => true)
      (validateTx .mainnet pairs beVal (fun _ => true) (fun _ => true) (t.header.height + 1)) (sendSlate pairScheme pairOps pairSending).2 r =
      .ok (s', tx) ∧
    ∃ p', addTx (nodeRules .mainnet pairs beVal (fun _ => true) (fun _ => true) (fun _ => .throw) (fun _ => 0) 1) ⟨[], []⟩ (some (db, t))
      t.header.height tx false true = .ok (p', .added) := by
  obtain ⟨db, t, st, hh, hold, hlen, c1, c2, c3⟩ := pair_chain
  obtain ⟨r, s', tx, h1, h2, h3⟩ := honest_payment_admitted (H := beVal) (env := .mainnet) (base := 1) (sum := fun _ => .throw)
    (txHash := fun _ => 0) pair_lib pair_parties pair_proof (by rw [hh]; decide +kernel) (by decide +kernel) (by decide +kernel) hold
    (by rw [hlen]; decide +kernel)
    (by
      intro k hk
      obtain rfl : k = ⟨0, [8, 6, 4], [], 61, 4⟩ := by simpa [pairSending] using hk
      exact ⟨_, c1, fun h => absurd h (by decide +kernel)⟩)
    (by
      intro k hk
      have : k = ⟨0, [8, 9, 8], [1], 9, 8⟩ ∨ k = ⟨0, [8, 6, 6], [2], 6, 6⟩ := by simpa [pairSending, pairReceiving] using hk
      rcases this with rfl | rfl
      · exact c2
      · exact c3)
    (by decide +kernel)
  obtain ⟨p', h4, -⟩ := h3 ⟨[], []⟩ false true (fun e he => by cases he)
  exact ⟨db, t, r, s', tx, h1, h2, p', h4⟩

end Sample
end Verif.Props
