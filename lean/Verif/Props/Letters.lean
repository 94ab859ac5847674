import Verif.Wallet.Letters
import Verif.Props.Payment
import Verif.Props.Addresses
import Verif.Props.Slate

/-!
# C126: a payment by slatepacks
-/
namespace Verif.Props
open Verif Verif.Codec Verif.Wallet Verif.Tx Verif.PoW

/-! ## Sizes -/

private theorem serManyRes_le {α : Type} (f : α → Res Bytes) (K : Nat) : ∀ (l : List α) (y : Bytes), (∀ a ∈ l, ∀ x, f a = .ok x → x.length ≤ K) →
    serManyRes f l = .ok y → y.length ≤ K * l.length := by
  intro l
  induction l with
  | nil => intro y _ h; cases h; simp
  | cons a l ih =>
    intro y hf h
    rw [serManyRes] at h
    obtain ⟨x, h1, h⟩ := Res.bind_eq_ok.1 h
    obtain ⟨z, h2, h⟩ := Res.bind_eq_ok.1 h
    cases h
    have := hf a List.mem_cons_self x h1
    have := ih z (fun b hb => hf b (List.mem_cons_of_mem _ hb)) h2
    rw [List.length_append, List.length_cons, Nat.mul_succ]
    omega

private theorem serMany_le {α : Type} (f : α → Bytes) (K : Nat) (l : List α) (hf : ∀ a ∈ l, (f a).length ≤ K) :
    (serMany f l).length ≤ K * l.length := by
  induction l with
  | nil => simp [serMany]
  | cons a l ih =>
    have h1 := hf a List.mem_cons_self
    have h2 := ih fun b hb => hf b (List.mem_cons_of_mem _ hb)
    unfold serMany at h2 ⊢
    rw [List.map_cons, List.flatten_cons, List.length_append, List.length_cons, Nat.mul_succ]
    omega

private theorem opt_le (c : Prop) [Decidable c] (l : Bytes) (K : Nat) (h : l.length ≤ K) : (if c then l else []).length ≤ K := by
  split
  · exact h
  · simp

/-- The bytes of a slate are few. -/
private theorem slate_size (ops : SigOps) (s : Slate) (h : SlateWellFormed ops s) (bs : Bytes) (e : slateSer ops s = .ok bs) :
    bs.length < 2 ^ 32 := by
  unfold slateSer at e
  obtain ⟨sg, e1, e⟩ := Res.bind_eq_ok.1 e
  cases e
  have b1 : sg.length ≤ 131 * s.sigs.length := by
    refine serManyRes_le _ 131 _ _ (fun g hg x hx => ?_) e1
    obtain ⟨k1, k2⟩ := h.sigKeys g hg
    unfold sigSer at hx
    split at hx
    · rename_i p hp
      obtain ⟨raw, r1, r2, -⟩ := h.sigParts g hg p hp
      rw [r1] at hx
      cases hx
      simp [k1, k2, r2]
    · cases hx
      simp [k1, k2]
  have b2 : (serMany comSer s.coms).length ≤ 718 * s.coms.length := by
    refine serMany_le _ 718 _ fun c hc => ?_
    obtain ⟨-, k1, k2⟩ := h.coms c hc
    unfold comSer
    split
    · rename_i p hp
      have := k2 p hp
      simp [proofSer, k1]
      omega
    · simp [k1]
  have b3 : ∀ p, s.proof = some p → (payProofSer p).length ≤ 129 := by
    intro p hp
    obtain ⟨k1, k2, k3⟩ := h.proof p hp
    unfold payProofSer
    split
    · rename_i g hg
      simp [k1, k2, k3 g hg]
    · simp [k1, k2]
  have o1 := opt_le (s.numParts ≠ 2) (beBytes 1 s.numParts) 8 (by simp)
  have o2 := opt_le (s.amount ≠ 0) (beBytes 8 s.amount) 8 (by simp)
  have o3 := opt_le (s.fee ≠ ⟨0, 0⟩) (feeSer s.fee) 8 (by simp [feeSer])
  have o4 := opt_le (s.features ≠ 0) (beBytes 1 s.features) 8 (by simp)
  have o5 := opt_le (s.ttl ≠ 0) (beBytes 8 s.ttl) 8 (by simp)
  have o6 := opt_le (s.coms ≠ []) (beBytes 2 (s.coms.length % 65536) ++ serMany comSer s.coms) (2 + 718 * s.coms.length) (by simp; exact b2)
  have o7 := opt_le (s.features = 2) (beBytes 8 s.lockHeight) 8 (by simp)
  have := h.numSigs
  have := h.numComs
  have := h.id
  have := h.offset
  cases hp : s.proof with
  | none => simp only [List.length_append, beBytes_length, List.length_nil]; omega
  | some p => have := b3 p hp; simp only [List.length_append, beBytes_length]; omega

/-! ## One letter -/

/-- The reader has a key for every index up to the last in use; each of them opens what is encrypted for these recipients or gives an
error; one of them opens it; and nothing encrypted is too long.  A letter to nobody in particular is not encrypted. -/
structure CanOpen (L : LetterLib) (rnd : L.age.Rnd) (a : Reader L) (recipients : List Bytes) : Prop where
  keys : ∀ i ≤ a.current, ∃ k, a.secret i = .ok k ∧
    (recipients ≠ [] → CanRead L.age rnd k recipients ∨ CannotRead L.age rnd k recipients)
  one : recipients ≠ [] → ∃ i ≤ a.current, ∃ k, a.secret i = .ok k ∧ CanRead L.age rnd k recipients
  size : ∀ ks text c, convertAll L.age recipients = .ok ks → L.age.encrypt rnd ks text = .ok c → c.length < 2 ^ 63

/-- The check sum of the letter does not begin with a zero byte. -/
def GoodSum (L : LetterLib) (rnd : L.age.Rnd) (sender : Bytes) (s : Slate) (recipients : List Bytes) : Prop :=
  ∀ b bs, slateSer L.ops s = .ok b → serMessage L.age rnd ⟨1, 0, if recipients = [] then 0 else 1, sender, [], b⟩ recipients = .ok bs →
    (L.H bs).headD 0 ≠ 0

private theorem loop_opens {K : Type} (unpack : K → Res Message) (key : Nat → Res K) (m : Message) : ∀ is : List Nat,
    (∀ i ∈ is, ∃ k, key i = .ok k ∧ (unpack k = .ok m ∨ unpack k = .throw)) → (∃ i ∈ is, ∃ k, key i = .ok k ∧ unpack k = .ok m) →
    decryptLoop unpack key is = .ok m := by
  intro is
  induction is with
  | nil => rintro - ⟨i, hi, -⟩; cases hi
  | cons i is ih =>
    intro h1 h2
    obtain ⟨k, e, h⟩ := h1 i List.mem_cons_self
    rw [decryptLoop, e, Res.ok_bind]
    rcases h with h | h
    · rw [h]
    · rw [h]
      refine ih (fun j hj => h1 j (List.mem_cons_of_mem _ hj)) ?_
      obtain ⟨j, hj, k', e', h'⟩ := h2
      rcases List.mem_cons.1 hj with rfl | hj
      · rw [e] at e'; cases e'; rw [h] at h'; cases h'
      · exact ⟨j, hj, k', e', h'⟩

/-- **C126.** A slate packed as text for some recipients, or for nobody in particular, is read by a wallet that has the key of one of
them, under whichever of its addresses, as the same slate from the same sender; also if the text was wrapped anew.  Missing: check sums that begin with a
zero byte. -/
theorem letter_arrives_partial (L : LetterLib) (hH : ∀ m, 4 ≤ (L.H m).length) (rnd : L.age.Rnd) (sender : Bytes) (s : Slate)
    (recipients : List Bytes) (a : Reader L) (hs : SlateWellFormed L.ops s) (hl : sender.length = 32) (hv : L.valid sender = true)
    (ho : CanOpen L rnd a recipients) (h0 : GoodSum L rnd sender s recipients) :
    ∃ t m, packSlate L rnd sender s recipients = .ok t ∧ m.sender = sender ∧
      ∀ t', t'.filter (fun c => !isSpace c) = t.filter (fun c => !isSpace c) → openSlate L a t' = .ok (m, s) := by
  obtain ⟨b, e, hr⟩ := slate_roundtrip L.ops s hs
  have hb := slate_size L.ops s hs b e
  have rt : ∀ key, (recipients ≠ [] → CanRead L.age rnd key recipients) → ∃ t, armorPack L.H L.age rnd sender b recipients = .ok t ∧
      armorUnpack L.H L.age L.valid key t = .ok ⟨1, 0, if recipients = [] then 0 else 1, sender, [], b⟩ := fun key hk =>
    slatepack_roundtrip_partial L.H hH L.age L.valid sender b hl hv (by omega) recipients rnd key hk (fun bs hbs => h0 b bs e hbs)
  have hex : ∃ i ≤ a.current, ∃ k, a.secret i = .ok k ∧ (recipients ≠ [] → CanRead L.age rnd k recipients) := by
    by_cases hne : recipients = []
    · obtain ⟨k, h1, -⟩ := ho.keys 0 (Nat.zero_le _)
      exact ⟨0, Nat.zero_le _, k, h1, fun h => absurd hne h⟩
    · obtain ⟨i, h1, k, h2, h3⟩ := ho.one hne
      exact ⟨i, h1, k, h2, fun _ => h3⟩
  obtain ⟨i, hi, k, hk, hkr⟩ := hex
  obtain ⟨t, ht, hu⟩ := rt k hkr
  refine ⟨t, ⟨1, 0, if recipients = [] then 0 else 1, sender, [], b⟩, ?_, rfl, ?_⟩
  · unfold packSlate
    rw [e, Res.ok_bind, ht]
  · intro t' ht'
    have hun : ∀ key, armorUnpack L.H L.age L.valid key t' = armorUnpack L.H L.age L.valid key t := by
      intro key
      unfold armorUnpack
      rw [unarmor_ignores_spaces L.H t' t ht']
    unfold openSlate decryptSlatepack
    simp only [hun]
    rw [loop_opens _ _ ⟨1, 0, if recipients = [] then 0 else 1, sender, [], b⟩, Res.ok_bind]
    · have := hr [] [] (by simp [U64]; omega)
      simp only [List.nil_append, List.append_nil, List.length_nil] at this
      rw [this, Res.ok_bind]
      rfl
    · intro j hj
      obtain ⟨k', e', h'⟩ := ho.keys j (by have := List.mem_range.1 hj; omega)
      refine ⟨k', e', ?_⟩
      by_cases hne : recipients = []
      · obtain ⟨t2, ht2, hu2⟩ := rt k' fun h => absurd hne h
        rw [ht] at ht2; cases ht2
        exact Or.inl hu2
      · rcases h' hne with h | h
        · obtain ⟨t2, ht2, hu2⟩ := rt k' fun _ => h
          rw [ht] at ht2; cases ht2
          exact Or.inl hu2
        · right
          exact slatepack_unreadable_partial L.H hH L.age L.valid sender b recipients hne rnd ho.size k' h t
            (by
              intro bs hbs
              have := h0 b bs e
              rw [if_neg hne] at this
              exact this hbs) ht
    · exact ⟨i, List.mem_range.2 (by omega), k, hk, hu⟩

private theorem loop_closed {K : Type} (unpack : K → Res Message) (key : Nat → Res K) : ∀ is : List Nat,
    (∀ i ∈ is, ∃ k, key i = .ok k ∧ unpack k = .throw) → decryptLoop unpack key is = .throw := by
  intro is
  induction is with
  | nil => intro _; rfl
  | cons i is ih =>
    intro h
    obtain ⟨k, e, hk⟩ := h i List.mem_cons_self
    rw [decryptLoop, e, Res.ok_bind, hk]
    exact ih fun j hj => h j (List.mem_cons_of_mem _ hj)

/-- **C126.** A slate packed for recipients is an error to a wallet none of whose addresses, up to the last in use, can read what is
encrypted for them; also if the text was wrapped anew.  Missing: check sums that begin with a zero byte. -/
theorem letter_private_partial (L : LetterLib) (hH : ∀ m, 4 ≤ (L.H m).length) (rnd : L.age.Rnd) (sender : Bytes) (s : Slate)
    (recipients : List Bytes) (hr : recipients ≠ []) (a : Reader L)
    (hk : ∀ i ≤ a.current, ∃ k, a.secret i = .ok k ∧ CannotRead L.age rnd k recipients)
    (hsz : ∀ ks text c, convertAll L.age recipients = .ok ks → L.age.encrypt rnd ks text = .ok c → c.length < 2 ^ 63)
    (h0 : GoodSum L rnd sender s recipients) (t t' : Bytes) (ht : packSlate L rnd sender s recipients = .ok t)
    (ht' : t'.filter (fun c => !isSpace c) = t.filter (fun c => !isSpace c)) : openSlate L a t' = .throw := by
  unfold packSlate at ht
  obtain ⟨b, e, ht⟩ := Res.bind_eq_ok.1 ht
  unfold openSlate decryptSlatepack
  rw [loop_closed]
  · rfl
  · intro i hi
    obtain ⟨k, h1, h2⟩ := hk i (by have := List.mem_range.1 hi; omega)
    refine ⟨k, h1, ?_⟩
    have hun : armorUnpack L.H L.age L.valid k t' = armorUnpack L.H L.age L.valid k t := by
      unfold armorUnpack
      rw [unarmor_ignores_spaces L.H t' t ht']
    rw [hun]
    refine slatepack_unreadable_partial L.H hH L.age L.valid sender b recipients hr rnd hsz k h2 t ?_ ht
    intro bs hbs
    have := h0 b bs e
    rw [if_neg hr] at this
    exact this hbs

/-! ## The payment -/

section
variable {F G X M : Type} [Field F] [AddCommGroup G] [Module F G] [DecidableEq G] [DecidableEq X]

/-- What both parties put on the slates has the sizes of its types, and the signatures are such as secp256k1 converts both ways. -/
structure FitsSlate (ops : SigOps) (O : SlateOps F G X M) (pl : ProofLib G) (sc : ScalarOps F) (c : Sending F) (x : Receiving F) : Prop where
  id : c.id.length = 16
  version : c.version < 2 ^ 16
  blockVersion : c.blockVersion < 2 ^ 16
  amount : c.amount < 2 ^ 64
  fee : c.fee < 2 ^ 40
  offset : c.offset.length = 32
  keys : ∀ e, (O.back e).excess.length = 33 ∧ (O.back e).nonce.length = 33
  parts : ∀ e, ∀ p ∈ (O.back e).partialSig, ∃ raw, ops.parse p = some raw ∧ raw.length = 64 ∧ ops.compact raw = some p
  coins : ∀ k ∈ c.inputs ++ (c.change ++ [x.coin c.amount]), k.features < 256 ∧ k.commit.length = 33 ∧ k.proof.length ≤ 675
  proof : ∀ p ∈ c.proof, p.sender.length = 32 ∧ p.receiver.length = 32 ∧ ∀ g ∈ p.signature, g.length = 64
  scalars : ∀ a, (sc.bytes a).length = 32
  signatures : ∀ s m, (pl.edSign s m).length = 64

private theorem wf_addInput {ops : SigOps} {s : Slate} (h : SlateWellFormed ops s) (f : Nat) (c : Bytes) (hf : f < 256) (hc : c.length = 33)
    (hn : s.coms.length + 1 < 65536) : SlateWellFormed ops (s.addInput f c) ∧ (s.addInput f c).coms.length ≤ s.coms.length + 1 := by
  unfold Slate.addInput
  split
  · exact ⟨h, Nat.le_succ _⟩
  · refine ⟨{ h with numComs := ?_, coms := ?_ }, ?_⟩
    · show (s.coms ++ [(⟨f, c, none⟩ : SlateCom)]).length < _
      rw [List.length_append]; exact hn
    · intro d hd
      rcases List.mem_append.1 hd with hd | hd
      · exact h.coms d hd
      · obtain rfl := List.mem_singleton.1 hd
        exact ⟨hf, hc, fun p hp => by cases hp⟩
    · show (s.coms ++ [(⟨f, c, none⟩ : SlateCom)]).length ≤ _
      rw [List.length_append]; exact Nat.le_refl _

private theorem addOutputTo_wf (f : Nat) (c p : Bytes) (hf : f < 256) (hc : c.length = 33) (hp : p.length ≤ 675) : ∀ l : List SlateCom,
    (∀ d ∈ l, d.features < 256 ∧ d.commit.length = 33 ∧ ∀ q ∈ d.proof, q.length ≤ 675) →
    (addOutputTo f c p l).length ≤ l.length + 1 ∧
      ∀ d ∈ addOutputTo f c p l, d.features < 256 ∧ d.commit.length = 33 ∧ ∀ q ∈ d.proof, q.length ≤ 675 := by
  intro l
  induction l with
  | nil =>
    intro _
    refine ⟨by simp [addOutputTo], fun d hd => ?_⟩
    obtain rfl := List.mem_singleton.1 hd
    exact ⟨hf, hc, fun q hq => by cases hq; exact hp⟩
  | cons e l ih =>
    intro h
    obtain ⟨i1, i2⟩ := ih fun d hd => h d (List.mem_cons_of_mem _ hd)
    have he := h e List.mem_cons_self
    unfold addOutputTo
    split
    · refine ⟨by simp, fun d hd => ?_⟩
      rcases List.mem_cons.1 hd with hd | hd
      · subst hd
        split
        · exact ⟨he.1, he.2.1, fun q hq => by cases hq; exact hp⟩
        · exact he
      · exact h d (List.mem_cons_of_mem _ hd)
    · refine ⟨by simp only [List.length_cons]; omega, fun d hd => ?_⟩
      rcases List.mem_cons.1 hd with hd | hd
      · subst hd; exact he
      · exact i2 d hd

private theorem wf_addOutput {ops : SigOps} {s : Slate} (h : SlateWellFormed ops s) (f : Nat) (c p : Bytes) (hf : f < 256) (hc : c.length = 33)
    (hp : p.length ≤ 675) (hn : s.coms.length + 1 < 65536) :
    SlateWellFormed ops (s.addOutput f c p) ∧ (s.addOutput f c p).coms.length ≤ s.coms.length + 1 := by
  obtain ⟨h1, h2⟩ := addOutputTo_wf f c p hf hc hp s.coms h.coms
  exact ⟨{ h with numComs := Nat.lt_of_le_of_lt h1 hn, coms := h2 }, h1⟩

omit [Field F] in
private theorem wf_inputs {ops : SigOps} (l : List (SlateCoin F)) : ∀ s : Slate, SlateWellFormed ops s →
    (∀ k ∈ l, k.features < 256 ∧ k.commit.length = 33 ∧ k.proof.length ≤ 675) → s.coms.length + l.length < 65536 →
    SlateWellFormed ops (l.foldl (fun s i => s.addInput i.features i.commit) s) ∧
      (l.foldl (fun s i => s.addInput i.features i.commit) s).coms.length ≤ s.coms.length + l.length := by
  induction l with
  | nil => intro s h _ _; exact ⟨h, Nat.le_refl _⟩
  | cons k l ih =>
    intro s h hk hn
    rw [List.length_cons] at hn
    obtain ⟨k1, k2, -⟩ := hk k List.mem_cons_self
    obtain ⟨w1, w2⟩ := wf_addInput h k.features k.commit k1 k2 (by omega)
    obtain ⟨w3, w4⟩ := ih _ w1 (fun a ha => hk a (List.mem_cons_of_mem _ ha)) (by omega)
    rw [List.foldl_cons, List.length_cons]
    exact ⟨w3, by omega⟩

omit [Field F] in
private theorem wf_outputs {ops : SigOps} (l : List (SlateCoin F)) : ∀ s : Slate, SlateWellFormed ops s →
    (∀ k ∈ l, k.features < 256 ∧ k.commit.length = 33 ∧ k.proof.length ≤ 675) → s.coms.length + l.length < 65536 →
    SlateWellFormed ops (l.foldl (fun s o => s.addOutput o.features o.commit o.proof) s) ∧
      (l.foldl (fun s o => s.addOutput o.features o.commit o.proof) s).coms.length ≤ s.coms.length + l.length := by
  induction l with
  | nil => intro s h _ _; exact ⟨h, Nat.le_refl _⟩
  | cons k l ih =>
    intro s h hk hn
    rw [List.length_cons] at hn
    obtain ⟨k1, k2, k3⟩ := hk k List.mem_cons_self
    obtain ⟨w1, w2⟩ := wf_addOutput h k.features k.commit k.proof k1 k2 k3 (by omega)
    obtain ⟨w3, w4⟩ := ih _ w1 (fun a ha => hk a (List.mem_cons_of_mem _ ha)) (by omega)
    rw [List.foldl_cons, List.length_cons]
    exact ⟨w3, by omega⟩

variable {S : Scheme F G X M} {O : SlateOps F G X M} {pl : ProofLib G} {kl : KeyLib} {sc : ScalarOps F} {C : Curve G}

omit [DecidableEq G] [DecidableEq X] in
private theorem wf_sent {ops : SigOps} {c : Sending F} {x : Receiving F} (hf : FitsSlate ops O pl sc c x)
    (hn : c.inputs.length + c.change.length < 65535) :
    SlateWellFormed ops (sendSlate S O c).1 ∧ (sendSlate S O c).1.coms.length < 65535 ∧ (sendSlate S O c).1.amount = c.amount := by
  have hb : SlateWellFormed ops (c.blank S O) :=
    { id := hf.id, stage := (by simp [Sending.blank]), version := hf.version, blockVersion := hf.blockVersion, numParts := (show 2 < 256 by decide), ttl := (show 0 < 2 ^ 64 by decide),
      features := (show 0 < 256 by decide), offset := hf.offset, amount := hf.amount, feeShift := (show 0 < 16 by decide), feeValue := hf.fee, numSigs := (show 1 < 256 by decide),
      sigKeys := (fun g hg => by obtain rfl := List.mem_singleton.1 hg; exact hf.keys _),
      sigParts := (fun g hg => by obtain rfl := List.mem_singleton.1 hg; exact hf.parts _),
      numComs := (show 0 < 65536 by decide), coms := (fun d hd => by cases hd), proof := hf.proof, plain := (fun _ => rfl),
      locked := (fun h => by cases h), other := (fun h => absurd rfl h) }
  obtain ⟨a1, a2⟩ := wf_inputs c.inputs _ hb (fun k hk => hf.coins k (List.mem_append_left _ hk)) (by
    show 0 + _ < _; omega)
  have a2' : _ ≤ 0 + c.inputs.length := a2
  obtain ⟨b1, b2⟩ := wf_outputs c.change _ a1 (fun k hk => hf.coins k (List.mem_append_right _ (List.mem_append_left _ hk))) (by omega)
  refine ⟨b1, by show _ < _; exact Nat.lt_of_le_of_lt b2 (by omega), ?_⟩
  have e1 : ∀ (l : List (SlateCoin F)) (s : Slate), (l.foldl (fun s o => s.addOutput o.features o.commit o.proof) s).amount = s.amount := by
    intro l
    induction l with
    | nil => intro s; rfl
    | cons k l ih => intro s; rw [List.foldl_cons, ih]; rfl
  have e2 : ∀ (l : List (SlateCoin F)) (s : Slate), (l.foldl (fun s i => s.addInput i.features i.commit) s).amount = s.amount := by
    intro l
    induction l with
    | nil => intro s; rfl
    | cons k l ih => intro s; rw [List.foldl_cons, ih]; unfold Slate.addInput; split <;> rfl
  show (c.change.foldl (fun s o => s.addOutput o.features o.commit o.proof)
    (c.inputs.foldl (fun s i => s.addInput i.features i.commit) (c.blank S O))).amount = _
  rw [e1, e2]
  rfl

private theorem wf_received {ops : SigOps} {c : Sending F} {x : Receiving F} (hf : FitsSlate ops O pl sc c x) (w : PayWallet G) (s r : Slate)
    (hs : SlateWellFormed ops s) (hn : s.coms.length < 65535) (ha : s.amount = c.amount) (h : receiveSlate S O pl kl sc w x s = .ok r) :
    SlateWellFormed ops r := by
  unfold receiveSlate at h
  split at h
  · obtain ⟨off, h1, h⟩ := Res.bind_eq_ok.1 h
    obtain ⟨es, -, h⟩ := Res.bind_eq_ok.1 h
    obtain ⟨mine, -, h⟩ := Res.bind_eq_ok.1 h
    obtain ⟨ex, -, h⟩ := Res.bind_eq_ok.1 h
    obtain ⟨pr, h2, h⟩ := Res.bind_eq_ok.1 h
    cases h
    obtain ⟨k1, k2, k3⟩ := hf.coins (x.coin c.amount) (by simp)
    have ho : off.length = 32 := by
      unfold addOffsets at h1
      dsimp only at h1
      split at h1
      · cases h1; rfl
      · split at h1
        · cases h1
        · cases h1; exact hf.scalars _
    have hp : ∀ p ∈ pr.1.map withSignature, p.sender.length = 32 ∧ p.receiver.length = 32 ∧ ∀ g ∈ p.signature, g.length = 64 := by
      intro p hp
      cases hq : s.proof with
      | none =>
        rw [hq] at h2
        cases h2
        cases hp
      | some q =>
        obtain ⟨q1, q2, -⟩ := hs.proof q hq
        rw [hq] at h2
        simp only [Option.map_some, updateProof] at h2
        split at h2
        · obtain ⟨i, -, h2⟩ := Res.bind_eq_ok.1 h2
          obtain ⟨sd, -, h2⟩ := Res.bind_eq_ok.1 h2
          cases h2
          cases hp
          refine ⟨q1, q2, fun g hg => ?_⟩
          cases hg
          exact hf.signatures _ _
        · cases h2
    have hw : SlateWellFormed ops { s with stage := .standardReceived, offset := off, proof := pr.1.map withSignature, sigs := [O.back mine] } :=
      { hs with
        stage := (by simp)
        offset := ho
        numSigs := (show 1 < 256 by decide)
        sigKeys := (fun g hg => by obtain rfl := List.mem_singleton.1 hg; exact hf.keys _)
        sigParts := (fun g hg => by obtain rfl := List.mem_singleton.1 hg; exact hf.parts _)
        proof := hp }
    rw [← ha] at k1 k2 k3
    exact (wf_addOutput hw _ _ _ k1 k2 k3 (by show s.coms.length + 1 < _; omega)).1
  · cases h

/-- **C126, a payment by letters goes through.**  Two parties who keep to the rules exchange two texts: the sender's slate, encrypted for
an address of the receiver's or not, and the answer, encrypted for the sender's address.  Whatever white space is added on the way, the receiver's wallet reads the first
and answers with the second, and the sender's wallet reads that and finalizes a transaction that passes validation, spends the coins
chosen, makes the change and the receiver's output, and nothing else.  Missing: check sums that begin with a zero byte. -/
theorem payment_by_letters_partial {H : DigestNum} {env : Env} {height : Nat} {kernelOk : Kernel → Bool}
    {proofs : List (Bytes × Bytes) → Bool} {sigs : List Kernel → Bool} {c : Sending F} {x : Receiving F} {w : PayWallet G}
    (hl : HonestLib S O pl sc C kernelOk proofs sigs (c.change ++ [x.coin c.amount])) (hh : HonestParties S C c x)
    (hp : ∀ q ∈ c.proof, ProofPossible pl kl w q)
    (hv : 5 ≤ headerVersion env height)
    (hw : c.inputs.length + 21 * (c.change.length + 2) + 6 ≤ 40000)
    (hH : ∀ a ∈ c.change ++ [x.coin c.amount], ∀ b ∈ c.change ++ [x.coin c.amount],
      outputHash H (coinOutput a) = outputHash H (coinOutput b) → a.commit = b.commit)
    {L : LetterLib} (hL : ∀ m, 4 ≤ (L.H m).length) (hf : FitsSlate L.ops O pl sc c x)
    {sender receiver : Reader L} {from_ to_ : Bytes} (h1 : from_.length = 32 ∧ L.valid from_ = true ∧ from_ ≠ nullAddress)
    (h2 : to_.length = 32 ∧ L.valid to_ = true) {recipients : List Bytes} {rnd rnd' : L.age.Rnd}
    (ho : CanOpen L rnd receiver recipients) (ho' : CanOpen L rnd' sender [from_])
    (h0 : GoodSum L rnd from_ (sendSlate S O c).1 recipients)
    (h0' : ∀ r, receiveSlate S O pl kl sc w x (sendSlate S O c).1 = .ok r → GoodSum L rnd' to_ r [from_]) :
    ∃ (t t' : Bytes) (s' : Slate) (tx : Tx),
      packSlate L rnd from_ (sendSlate S O c).1 recipients = .ok t ∧
      (∀ u, u.filter (fun c => !isSpace c) = t.filter (fun c => !isSpace c) →
        receiveText S O pl kl sc L receiver rnd' to_ w x u = .ok t') ∧
      (∀ u, u.filter (fun c => !isSpace c) = t'.filter (fun c => !isSpace c) →
        finalizeText S O pl L sender H kernelOk (validateTx env C H proofs sigs height) (sendSlate S O c).2 u = .ok (s', tx)) ∧
      validateTx env C H proofs sigs height tx = .ok () ∧
      tx.body.inputs.Perm (c.inputs.map coinInput) ∧
      tx.body.outputs.Perm ((c.change ++ [x.coin c.amount]).map coinOutput) ∧
      tx.body.kernels.map (·.fee) = [⟨0, c.fee⟩] ∧
      (∀ q ∈ c.proof, ∃ g, s'.proof = some ⟨q.sender, q.receiver, some g⟩ ∧ ∃ k ∈ tx.body.kernels,
        pl.edVerify q.receiver g (beBytes 8 c.amount ++ k.excess ++ q.sender) = true) := by
  obtain ⟨r, s', tx, sig, P, -, e1, e2, e3, e4, e5, e6, -, e7, -⟩ := honest_payment_completes (env := env) hl hh hp hv hw hH
  obtain ⟨w1, w2, w3⟩ := wf_sent (S := S) hf (by omega)
  have w4 := wf_received hf w _ r w1 w2 w3 e1
  obtain ⟨t, m, p1, p2, p3⟩ := letter_arrives_partial L hL rnd from_ _ recipients receiver w1 h1.1 h1.2.1 ho h0
  obtain ⟨t', m', q1, q2, q3⟩ := letter_arrives_partial L hL rnd' to_ r [from_] sender w4 h2.1 h2.2 ho' (h0' r e1)
  refine ⟨t, t', s', tx, p1, fun u hu => ?_, fun u hu => ?_, e3, e4, e5, by rw [e6]; rfl, fun q hq => ?_⟩
  · unfold receiveText
    rw [p3 u hu, Res.ok_bind]
    dsimp only
    rw [e1, Res.ok_bind, replyTo, p2, if_neg h1.2.2, q1]
  · unfold finalizeText
    rw [q3 u hu, Res.ok_bind]
    exact e2
  · obtain ⟨g, g1, g2⟩ := e7 q hq
    exact ⟨g, g1, _, by rw [e6]; exact List.mem_singleton.2 rfl, g2⟩

end

/-! ## A payment by letters -/

section Sample

/-- Pairs of integers modulo 11 as points of 33 bytes. -/
private def widePairs : Curve (ZMod 11 × ZMod 11) where
  parse
    | 8 :: a :: b :: _ => some ((a.toNat : ZMod 11), (b.toNat : ZMod 11))
    | _ => none
  ser g := [8, UInt8.ofNat g.1.val, UInt8.ofNat g.2.val] ++ List.replicate 30 0
  genV := (1, 0)
  genB := (0, 1)
  order := 11
  parse_ser := by decide +kernel
  ser_ne := by decide +kernel

private def wideOps : SlateOps (ZMod 11) (ZMod 11 × ZMod 11) (ZMod 11) (ZMod 11) where
  entry s :=
    match widePairs.parse s.excess, widePairs.parse s.nonce, s.partialSig with
    | some e, some n, none => some ⟨e, n, none⟩
    | some e, some n, some (x :: y :: _) => some ⟨e, n, some ((x.toNat : ZMod 11), (y.toNat : ZMod 11))⟩
    | _, _, _ => none
  back e := ⟨widePairs.ser e.excess, widePairs.ser e.nonce, e.part.map fun p => [UInt8.ofNat p.1.val, UInt8.ofNat p.2.val] ++ List.replicate 62 0⟩
  sig p := [UInt8.ofNat p.1.val, UInt8.ofNat p.2.val]
  message f fee l := (f + fee.fee + l : Nat)

private def wideSigs : ProofLib (ZMod 11 × ZMod 11) where
  edPub s := (1 :: s ++ List.replicate 32 0).take 32
  edSign s m := (1 :: s ++ List.replicate 32 0).take 32 ++ (m ++ List.replicate 32 0).take 32
  edVerify k g m := g == k ++ (m ++ List.replicate 32 0).take 32
  point := widePairs.ser

private def wideScalars : ScalarOps (ZMod 11) := ⟨11, fun a => List.replicate 31 0 ++ [UInt8.ofNat a.val]⟩

private def wideWallet : PayWallet (ZMod 11 × ZMod 11) := ⟨⟨beBytes 32 9, List.replicate 32 8⟩, 2, true, [], []⟩

private def wideSeed : Bytes :=
  match addressSeed payKeys wideWallet.master 1 with
  | .ok s => s
  | _ => []

private def wideSending : Sending (ZMod 11) :=
  ⟨List.replicate 16 1, 4, 5, 6, 46, [⟨0, [8, 6, 4] ++ List.replicate 30 0, [], 61, 4⟩], [⟨0, [8, 9, 8] ++ List.replicate 30 0, [1], 9, 8⟩],
    List.replicate 31 0 ++ [2], 2, some ⟨List.replicate 32 9, wideSigs.edPub wideSeed, none⟩⟩

private def wideReceiving : Receiving (ZMod 11) :=
  ⟨none, fun a => ⟨0, [8, UInt8.ofNat (a % 11), 6] ++ List.replicate 30 0, [2], a, 6⟩, List.replicate 31 0 ++ [1], 4⟩

private theorem wide_parse : ∀ g : ZMod 11 × ZMod 11, widePairs.parse (widePairs.ser g) = some g := by decide +kernel

private theorem wide_part : ∀ p : ZMod 11 × ZMod 11, (((UInt8.ofNat p.1.val).toNat : ZMod 11), ((UInt8.ofNat p.2.val).toNat : ZMod 11)) = p := by
  decide +kernel

private theorem wide_lib : HonestLib pairScheme wideOps wideSigs wideScalars widePairs (fun _ => true) (fun _ => true) (fun _ => true)
    (wideSending.change ++ [wideReceiving.coin wideSending.amount]) where
  gen := rfl
  point _ := rfl
  entries e := by
    obtain ⟨a, b, p⟩ := e
    cases p with
    | none => simp only [wideOps, wide_parse, Option.map_none]
    | some q =>
      have := wide_part q
      simp only [wideOps, wide_parse, Option.map_some, List.cons_append]
      rw [this]
  order := rfl
  scalars := by decide +kernel
  addresses s m := by simp [wideSigs]
  kernels _ _ _ _ _ _ := ⟨rfl, rfl⟩
  ranges _ _ := rfl

private theorem wide_parties : HonestParties pairScheme widePairs wideSending wideReceiving :=
  ⟨Or.inl rfl, by decide +kernel, by decide +kernel, by decide +kernel, by decide +kernel, rfl, by decide +kernel, by decide +kernel,
    by decide +kernel, by decide +kernel,
    ⟨by decide +kernel, by decide +kernel, by decide +kernel, by decide +kernel, by decide +kernel⟩, by decide +kernel, by decide +kernel,
    by decide +kernel, by decide +kernel⟩

private theorem wide_proof : ∀ q ∈ wideSending.proof, ProofPossible wideSigs payKeys wideWallet q := by
  intro q hq
  obtain rfl : (⟨List.replicate 32 9, wideSigs.edPub wideSeed, none⟩ : Codec.PayProof) = q := Option.some.inj hq
  exact ⟨rfl, fun i _ => ⟨_, rfl⟩, 1, by decide, wideSeed, rfl, rfl⟩

private def wideLetters : LetterLib := ⟨fun _ => [1, 2, 3, 4], pickyAge, fun _ => true, ⟨some, some⟩⟩

private theorem wide_fits : FitsSlate wideLetters.ops wideOps wideSigs wideScalars wideSending wideReceiving where
  id := by decide +kernel
  version := by decide +kernel
  blockVersion := by decide +kernel
  amount := by decide +kernel
  fee := by decide +kernel
  offset := by decide +kernel
  keys e := by constructor <;> rfl
  parts e p hp := by
    refine ⟨p, rfl, ?_, rfl⟩
    obtain ⟨a, b, q⟩ := e
    cases q with
    | none => cases hp
    | some q => cases hp; rfl
  coins := by decide +kernel
  proof p hp := by
    obtain rfl : (⟨List.replicate 32 9, wideSigs.edPub wideSeed, none⟩ : Codec.PayProof) = p := Option.some.inj hp
    exact ⟨by decide +kernel, by decide +kernel, fun g hg => by cases hg⟩
  scalars _ := rfl
  signatures s m := by simp [wideSigs]

/-- The wallet of an address that is the second of three. -/
private def wideReader (a : Bytes) : Reader wideLetters := ⟨fun i => .ok (if i = 1 then a else List.replicate 32 7), 2⟩

private theorem wide_opens (a : Bytes) (ha : a.length = 32) (hn : List.replicate 32 7 ≠ a) : CanOpen wideLetters () (wideReader a) [a] where
  keys i _ := by
    by_cases h : i = 1
    · exact ⟨a, congrArg Res.ok (if_pos h), fun _ => Or.inl (picky_reads a ha)⟩
    · exact ⟨List.replicate 32 7, congrArg Res.ok (if_neg h), fun _ => Or.inr (picky_refuses a _ ha hn)⟩
  one _ := ⟨1, (show 1 ≤ 2 by decide), a, rfl, picky_reads a ha⟩
  size := picky_size a

/-- A payment with a payment proof, both letters encrypted for the second of three addresses. -/
example := payment_by_letters_partial (H := beVal) (env := .mainnet) (height := 1048600) wide_lib wide_parties wide_proof (by decide +kernel)
  (by decide +kernel) (by decide +kernel) (L := wideLetters) (fun _ => show 4 ≤ [(1 : UInt8), 2, 3, 4].length by decide) wide_fits (sender := wideReader (List.replicate 32 5))
  (receiver := wideReader (List.replicate 32 6)) (from_ := List.replicate 32 5) (to_ := List.replicate 32 6)
  (rnd := ()) (rnd' := ()) ⟨by decide, rfl, by decide⟩ ⟨by decide, rfl⟩
  (recipients := [List.replicate 32 6]) (wide_opens _ (by decide) (by decide)) (wide_opens _ (by decide) (by decide))
  (fun _ _ _ _ => show (1 : UInt8) ≠ 0 by decide) (fun _ _ _ _ _ _ => show (1 : UInt8) ≠ 0 by decide)

/-- And with the first one in plain text. -/
example := payment_by_letters_partial (H := beVal) (env := .mainnet) (height := 1048600) wide_lib wide_parties wide_proof (by decide +kernel)
  (by decide +kernel) (by decide +kernel) (L := wideLetters) (fun _ => show 4 ≤ [(1 : UInt8), 2, 3, 4].length by decide) wide_fits (sender := wideReader (List.replicate 32 5))
  (receiver := wideReader (List.replicate 32 6)) (from_ := List.replicate 32 5) (to_ := List.replicate 32 6)
  (rnd := ()) (rnd' := ()) ⟨by decide, rfl, by decide⟩ ⟨by decide, rfl⟩ (recipients := [])
  ⟨fun i _ => ⟨_, rfl, fun h => absurd rfl h⟩, fun h => absurd rfl h, fun ks text c h1 h2 => by
    cases h1
    change (if text.length < 2 ^ 62 + 2 ^ 33 then Res.ok ([] ++ text) else .throw) = _ at h2
    split at h2
    · cases h2; simp; omega
    · cases h2⟩ (wide_opens _ (by decide) (by decide))
  (fun _ _ _ _ => show (1 : UInt8) ≠ 0 by decide) (fun _ _ _ _ _ _ => show (1 : UInt8) ≠ 0 by decide)

/-- The letter for `[6, …]` cannot be read by the sender's own wallet, none of whose three addresses it was made for. -/
example (s : Slate) := letter_private_partial wideLetters (fun _ => show 4 ≤ [(1 : UInt8), 2, 3, 4].length by decide) () (List.replicate 32 5) s
  [List.replicate 32 6] (by decide) (wideReader (List.replicate 32 5))
  (fun i _ => by
    by_cases h : i = 1
    · exact ⟨_, congrArg Res.ok (if_pos h), picky_refuses _ _ (by decide) (by decide)⟩
    · exact ⟨_, congrArg Res.ok (if_neg h), picky_refuses _ _ (by decide) (by decide)⟩)
  (picky_size _) (fun _ _ _ _ => show (1 : UInt8) ≠ 0 by decide)

end Sample

end Verif.Props
