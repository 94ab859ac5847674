import Verif.Wallet.Sign
import Verif.Wallet.DB
import Verif.Props.Sums
import Mathlib.Algebra.BigOperators.Group.List.Lemmas
import Mathlib.Tactic.Module
import Mathlib.Tactic.Ring
import Mathlib.Algebra.Field.ZMod

/-!
# C47: honest parties finish a valid transaction; C75: a signing nonce is used once

The scalars are any field, the curve any module over it, the challenge any function.
-/
namespace Verif.Props
open Verif.Wallet

section
variable {F G X M : Type} [Field F] [AddCommGroup G] [Module F G] [DecidableEq G] [DecidableEq X]
variable (S : Scheme F G X M)

/-! ## Schnorr signatures -/

/-- `sig` is a Schnorr signature of `m` under the public key `P`: some nonce point has the signature's x-coordinate,
a square y-coordinate, and satisfies the equation of Schnorr. -/
def SchnorrValid (sig : X × F) (P : G) (m : M) : Prop :=
  ∃ R : G, R ≠ 0 ∧ S.quad R = true ∧ S.xof R = sig.1 ∧ sig.2 • S.gen = R + S.challenge sig.1 P m • P

theorem verifyAggregate_iff (sig : X × F) (P : G) (m : M) :
    verifyAggregate S sig P m = true ↔ SchnorrValid S sig P m := by
  simp only [verifyAggregate, SchnorrValid, Bool.and_eq_true, decide_eq_true_eq]
  constructor
  · rintro ⟨⟨h1, h2⟩, h3⟩
    exact ⟨_, h1, h2, h3, by abel⟩
  · rintro ⟨R, h1, h2, h3, h4⟩
    have : sig.2 • S.gen - S.challenge sig.1 P m • P = R := by rw [h4]; abel
    rw [this]; exact ⟨⟨h1, h2⟩, h3⟩

/-- The entry of a participant with secret key `p.1` and secret nonce `p.2`. -/
def unsigned (p : F × F) : Entry F G X := ⟨p.1 • S.gen, p.2 • S.gen, none⟩

/-- The entry of a participant who signs over the given totals. -/
def signedEntry (K N : G) (m : M) (p : F × F) : Entry F G X :=
  ⟨p.1 • S.gen, p.2 • S.gen, some (signPartial S p.1 p.2 K N m)⟩

omit [DecidableEq G] [DecidableEq X] in
theorem sum_smul_gen (xs : List F) : (xs.map (fun x => x • S.gen)).sum = xs.sum • S.gen := by
  induction xs with
  | nil => simp
  | cons x xs ih => simp [ih, add_smul]

/-- A partial signature made with the key and a nonzero nonce verifies. -/
theorem partial_verifies (key nonce : F) (K N : G) (m : M) (h : nonce • S.gen ≠ 0) :
    verifyPartial S (signPartial S key nonce K N m) (key • S.gen) K N m = true := by
  have e : ∀ c : F, ((if S.quad N = true then nonce else -nonce) + c * key) • S.gen - c • key • S.gen =
      if S.quad N = true then nonce • S.gen else -(nonce • S.gen) := by
    intro c
    split <;> module
  simp only [verifyPartial, Bool.and_eq_true, decide_eq_true_eq]
  simp only [signPartial]
  rw [e]
  split
  · exact ⟨h, rfl⟩
  · exact ⟨by simpa using h, S.xof_neg _⟩

omit [DecidableEq G] [DecidableEq X] in
private theorem sum_parts (K N : G) (m : M) (ps : List (F × F)) :
    (ps.map (fun p => (signPartial S p.1 p.2 K N m).2)).sum =
      (if S.quad N then (ps.map (·.2)).sum else -(ps.map (·.2)).sum) +
        S.challenge (S.xof N) K m * (ps.map (·.1)).sum := by
  induction ps with
  | nil => cases S.quad N <;> simp
  | cons p ps ih =>
    simp only [List.map_cons, List.sum_cons]
    rw [ih]
    simp only [signPartial]
    cases S.quad N
    · simp only [Bool.false_eq_true, if_false]; ring
    · simp only [if_true]; ring

omit [DecidableEq X] in
/-- **Any number of participants.**  When everyone signs over the totals of all public excesses and nonces, the sum of
their signatures is a Schnorr signature under the sum of their public excesses. -/
theorem aggregate_valid (ps : List (F × F)) (m : M) (K N : G)
    (hK : K = (ps.map (fun p => p.1 • S.gen)).sum) (hN : N = (ps.map (fun p => p.2 • S.gen)).sum)
    (hN0 : N ≠ 0) :
    ∃ sig, aggregateSlate S (ps.map (signedEntry S K N m)) = .ok sig ∧ SchnorrValid S sig K m := by
  have hne : ps ≠ [] := by
    rintro rfl; exact hN0 (by simpa using hN)
  have hn : totalNonce (ps.map (signedEntry S K N m)) = .ok N := by
    simp only [totalNonce, addPubs, List.map_map]
    have : (List.map ((fun e : Entry F G X => e.nonce) ∘ signedEntry S K N m) ps).sum = N := by
      rw [hN]; rfl
    rw [this, if_neg hN0]
  have hp : (ps.map (signedEntry S K N m)).filterMap (·.part) =
      ps.map (fun p => signPartial S p.1 p.2 K N m) := by
    rw [List.filterMap_map]
    simp only [Function.comp_def, signedEntry]
    rw [← List.filterMap_eq_map]; rfl
  refine ⟨(S.xof N, (ps.map (fun p => (signPartial S p.1 p.2 K N m).2)).sum), ?_, ?_⟩
  · simp only [aggregateSlate, hn, hp, aggregate]
    simp only [List.map_eq_nil_iff, hne, if_false, List.map_map, Function.comp_def]
    rfl
  · have hk : (ps.map (·.2)).sum • S.gen = N := by
      rw [← sum_smul_gen, hN, List.map_map]; rfl
    have hx : (ps.map (·.1)).sum • S.gen = K := by
      rw [← sum_smul_gen, hK, List.map_map]; rfl
    have hs := sum_parts S K N m ps
    cases hq : S.quad N with
    | true =>
      rw [hq, if_pos rfl] at hs
      refine ⟨N, hN0, hq, rfl, ?_⟩
      simp only [hs, add_smul, mul_smul, hk, hx]
    | false =>
      rw [hq, if_neg (by simp)] at hs
      refine ⟨-N, by simpa using hN0, by rw [S.quad_neg N hN0, hq]; rfl, S.xof_neg N, ?_⟩
      simp only [hs, add_smul, mul_smul, neg_smul, hk, hx]

/-! ## The exchange of slates -/

/-- Sender and receiver choose keys and nonces that do not cancel: what fails otherwise has negligible probability for
random choices. -/
structure Generic (xs ks xr kr : F) : Prop where
  sender : ks • S.gen ≠ 0
  receiver : kr • S.gen ≠ 0
  excess : xs • S.gen + xr • S.gen ≠ 0
  nonce : ks • S.gen + kr • S.gen ≠ 0
  differ : xr • S.gen ≠ xs • S.gen

variable {S} in
omit [DecidableEq X] in
private theorem totals {xs ks xr kr : F} (h : Generic S xs ks xr kr) (a b : Option (X × F)) :
    totalExcess [(⟨xs • S.gen, ks • S.gen, a⟩ : Entry F G X), ⟨xr • S.gen, kr • S.gen, b⟩] =
        .ok (xs • S.gen + xr • S.gen) ∧
      totalNonce [(⟨xs • S.gen, ks • S.gen, a⟩ : Entry F G X), ⟨xr • S.gen, kr • S.gen, b⟩] =
        .ok (ks • S.gen + kr • S.gen) := by
  simp [totalExcess, totalNonce, addPubs, h.excess, h.nonce]

variable {S} in
omit [DecidableEq X] in
private theorem totals' {xs ks xr kr : F} (h : Generic S xs ks xr kr) (a b : Option (X × F)) :
    totalExcess [(⟨xr • S.gen, kr • S.gen, a⟩ : Entry F G X), ⟨xs • S.gen, ks • S.gen, b⟩] =
        .ok (xs • S.gen + xr • S.gen) ∧
      totalNonce [(⟨xr • S.gen, kr • S.gen, a⟩ : Entry F G X), ⟨xs • S.gen, ks • S.gen, b⟩] =
        .ok (ks • S.gen + kr • S.gen) := by
  have e1 : xr • S.gen + xs • S.gen = xs • S.gen + xr • S.gen := add_comm _ _
  have e2 : kr • S.gen + ks • S.gen = ks • S.gen + kr • S.gen := add_comm _ _
  simp [totalExcess, totalNonce, addPubs, e1, e2, h.excess, h.nonce]

/-- The receiver's answer to the sender's slate. -/
def answer (xs ks xr kr : F) (m : M) : Entry F G X :=
  signedEntry S (xs • S.gen + xr • S.gen) (ks • S.gen + kr • S.gen) m (xr, kr)

/-- The sender's entry on the finalized slate. -/
def closing (xs ks xr kr : F) (m : M) : Entry F G X :=
  signedEntry S (xs • S.gen + xr • S.gen) (ks • S.gen + kr • S.gen) m (xs, ks)

variable {S} in
/-- The receiver's side of an honest exchange succeeds. -/
theorem receiveSign_ok {xs ks xr kr : F} (h : Generic S xs ks xr kr) (m : M) :
    receiveSign S xr kr [unsigned S (xs, ks)] m = .ok (answer S xs ks xr kr m) := by
  have t1 := totals h none none
  have t2 := totals h none (some (signPartial S xr kr (xs • S.gen + xr • S.gen) (ks • S.gen + kr • S.gen) m))
  simp only [receiveSign, unsigned, List.cons_append, List.nil_append, t1.1, t1.2]
  refine Res.bind_eq_ok.2 ⟨_, rfl, Res.bind_eq_ok.2 ⟨_, rfl, Res.bind_eq_ok.2 ⟨true, ?_, by rfl⟩⟩⟩
  simp only [verifyPartials, t2.1, t2.2]
  refine Res.bind_eq_ok.2 ⟨_, rfl, Res.bind_eq_ok.2 ⟨_, rfl, ?_⟩⟩
  simp only [List.all_cons, List.all_nil, Bool.and_true,
    partial_verifies S xr kr _ _ m h.receiver]
  rfl

variable {S} in
omit [DecidableEq X] in
private theorem aggregate_pair {xs ks xr kr : F} (h : Generic S xs ks xr kr) (m : M) :
    ∃ sig, aggregateSlate S [answer S xs ks xr kr m, closing S xs ks xr kr m] = .ok sig ∧
      SchnorrValid S sig (xs • S.gen + xr • S.gen) m :=
  aggregate_valid S [(xr, kr), (xs, ks)] m _ _ (by simp [add_comm]) (by simp [add_comm]) h.nonce

variable {S} in
omit [DecidableEq X] in
private theorem aggregate_pair' {xs ks xr kr : F} (h : Generic S xs ks xr kr) (m : M) :
    ∃ sig, aggregateSlate S [closing S xs ks xr kr m, answer S xs ks xr kr m] = .ok sig ∧
      SchnorrValid S sig (xs • S.gen + xr • S.gen) m :=
  aggregate_valid S [(xs, ks), (xr, kr)] m _ _ (by simp) (by simp) h.nonce

variable {S} in
/-- **An honest exchange completes.**  Whatever the keys, nonces and the message: if nothing cancels, the receiver's
side succeeds; and from the answer, sent with or without the sender's own entry, the sender finishes with the kernel
excess `xs·g + xr·g` and a valid signature under it. -/
theorem exchange_completes {xs ks xr kr : F} (h : Generic S xs ks xr kr) (m : M) :
    ∃ r, receiveSign S xr kr [unsigned S (xs, ks)] m = .ok r ∧
      (∃ sig, finalizeSign S xs ks [r] m =
          .ok ([r, closing S xs ks xr kr m], xs • S.gen + xr • S.gen, sig) ∧
        SchnorrValid S sig (xs • S.gen + xr • S.gen) m) ∧
      ∃ sig, finalizeSign S xs ks [unsigned S (xs, ks), r] m =
          .ok ([closing S xs ks xr kr m, r], xs • S.gen + xr • S.gen, sig) ∧
        SchnorrValid S sig (xs • S.gen + xr • S.gen) m := by
  refine ⟨_, receiveSign_ok h m, ?_, ?_⟩
  · obtain ⟨sig, ha, hv⟩ := aggregate_pair h m
    refine ⟨sig, ?_, hv⟩
    have hw : withSender S xs ks [answer S xs ks xr kr m] =
        [answer S xs ks xr kr m, unsigned S (xs, ks)] := by
      simp [withSender, answer, signedEntry, unsigned, h.differ]
    have hadd : addPartial S xs ks [answer S xs ks xr kr m] m =
        .ok [answer S xs ks xr kr m, closing S xs ks xr kr m] := by
      simp only [addPartial, hw]
      refine Res.bind_eq_ok.2 ⟨_, (totals' h _ _).1, Res.bind_eq_ok.2 ⟨_, (totals' h _ _).2, ?_⟩⟩
      have hp : placeSig (xs • S.gen)
          (signPartial S xs ks (xs • S.gen + xr • S.gen) (ks • S.gen + kr • S.gen) m)
          [answer S xs ks xr kr m, unsigned S (xs, ks)] =
          [answer S xs ks xr kr m, closing S xs ks xr kr m] := by
        simp [placeSig, answer, closing, signedEntry, unsigned, h.differ]
      rw [hp]
      refine Res.bind_eq_ok.2 ⟨true, ?_, by rfl⟩
      refine Res.bind_eq_ok.2 ⟨_, (totals' h _ _).1, Res.bind_eq_ok.2 ⟨_, (totals' h _ _).2, ?_⟩⟩
      simp only [List.all_cons, List.all_nil, answer, closing, signedEntry,
        partial_verifies S xr kr _ _ m h.receiver, partial_verifies S xs ks _ _ m h.sender]
      rfl
    simp only [finalizeSign, hadd]
    refine Res.bind_eq_ok.2 ⟨_, rfl, Res.bind_eq_ok.2 ⟨_, (totals' h _ _).1, Res.bind_eq_ok.2 ⟨_, ha, ?_⟩⟩⟩
    rw [(verifyAggregate_iff S sig _ m).2 hv, if_pos rfl]; rfl
  · obtain ⟨sig, ha, hv⟩ := aggregate_pair' h m
    refine ⟨sig, ?_, hv⟩
    have hw : withSender S xs ks [unsigned S (xs, ks), answer S xs ks xr kr m] =
        [unsigned S (xs, ks), answer S xs ks xr kr m] := by
      simp [withSender, unsigned]
    have hadd : addPartial S xs ks [unsigned S (xs, ks), answer S xs ks xr kr m] m =
        .ok [closing S xs ks xr kr m, answer S xs ks xr kr m] := by
      simp only [addPartial, hw]
      refine Res.bind_eq_ok.2 ⟨_, (totals h _ _).1, Res.bind_eq_ok.2 ⟨_, (totals h _ _).2, ?_⟩⟩
      have hp : placeSig (xs • S.gen)
          (signPartial S xs ks (xs • S.gen + xr • S.gen) (ks • S.gen + kr • S.gen) m)
          [unsigned S (xs, ks), answer S xs ks xr kr m] =
          [closing S xs ks xr kr m, answer S xs ks xr kr m] := by
        simp [placeSig, closing, signedEntry, unsigned]
      rw [hp]
      refine Res.bind_eq_ok.2 ⟨true, ?_, by rfl⟩
      refine Res.bind_eq_ok.2 ⟨_, (totals h _ _).1, Res.bind_eq_ok.2 ⟨_, (totals h _ _).2, ?_⟩⟩
      simp only [List.all_cons, List.all_nil, answer, closing, signedEntry,
        partial_verifies S xr kr _ _ m h.receiver, partial_verifies S xs ks _ _ m h.sender]
      rfl
    simp only [finalizeSign, hadd]
    refine Res.bind_eq_ok.2 ⟨_, rfl, Res.bind_eq_ok.2 ⟨_, (totals h _ _).1, Res.bind_eq_ok.2 ⟨_, ha, ?_⟩⟩⟩
    rw [(verifyAggregate_iff S sig _ m).2 hv, if_pos rfl]; rfl

omit [Field F] [Module F G] [AddCommGroup G] [DecidableEq X] in
private theorem placeSig_excess [Field F] (x : G) (s : X × F) : ∀ es : List (Entry F G X),
    (placeSig x s es).map (·.excess) = es.map (·.excess)
  | [] => rfl
  | e :: es => by
    unfold placeSig
    split
    · rfl
    · rw [List.map_cons, List.map_cons, placeSig_excess x s es]

omit [DecidableEq X] in
private theorem withSender_mem (xs ks : F) (es : List (Entry F G X)) :
    xs • S.gen ∈ (withSender S xs ks es).map (·.excess) := by
  unfold withSender
  split
  · rename_i h
    obtain ⟨e, he, hx⟩ := List.any_eq_true.1 h
    exact List.mem_map.2 ⟨e, he, of_decide_eq_true hx⟩
  · simp

/-- **What a sender signs.**  Whatever the response contains: if finalizing succeeds, the kernel carries a valid
signature over the message of the sender's own slate, its excess is the sum of the public excesses on the finalized
slate, the sender's own is one of them, and every partial signature on the slate is one under its entry's excess. -/
theorem finalize_sound {xs ks : F} {es out : List (Entry F G X)} {m : M} {P : G} {sig : X × F}
    (h : finalizeSign S xs ks es m = .ok (out, P, sig)) :
    SchnorrValid S sig P m ∧ P = (out.map (·.excess)).sum ∧ xs • S.gen ∈ out.map (·.excess) ∧
      ∃ N, N = (out.map (·.nonce)).sum ∧
        ∀ e ∈ out, ∀ s, e.part = some s →
          ∃ R : G, R ≠ 0 ∧ S.xof R = s.1 ∧ s.2 • S.gen = R + S.challenge (S.xof N) P m • e.excess := by
  obtain ⟨l, h1, h⟩ := Res.bind_eq_ok.1 h
  obtain ⟨P', h2, h⟩ := Res.bind_eq_ok.1 h
  obtain ⟨sig', h3, h⟩ := Res.bind_eq_ok.1 h
  by_cases hv : verifyAggregate S sig' P' m = true
  case neg => rw [if_neg hv] at h; cases h
  rw [if_pos hv] at h
  simp only [Res.pure_eq, Res.ok.injEq, Prod.mk.injEq] at h
  obtain ⟨rfl, rfl, rfl⟩ := h
  have hP : P' = (l.map (·.excess)).sum := by
    unfold totalExcess addPubs at h2
    split at h2
    · cases h2
    · exact (Res.ok.inj h2).symm
  obtain ⟨k, g1, h1⟩ := Res.bind_eq_ok.1 h1
  obtain ⟨n, g2, h1⟩ := Res.bind_eq_ok.1 h1
  obtain ⟨ok, g3, h1⟩ := Res.bind_eq_ok.1 h1
  cases ok with
  | false => cases h1
  | true =>
    simp only [if_true, Res.pure_eq, Res.ok.injEq] at h1
    subst h1
    refine ⟨(verifyAggregate_iff S sig' P' m).1 hv, hP, ?_, ?_⟩
    · rw [placeSig_excess]; exact withSender_mem S xs ks es
    · obtain ⟨k', f1, g3⟩ := Res.bind_eq_ok.1 g3
      obtain ⟨n', f2, g3⟩ := Res.bind_eq_ok.1 g3
      rw [h2] at f1
      obtain rfl := Res.ok.inj f1
      refine ⟨n', ?_, ?_⟩
      · unfold totalNonce addPubs at f2
        split at f2
        · cases f2
        · exact (Res.ok.inj f2).symm
      · intro e he s hs
        simp only [Res.pure_eq, Res.ok.injEq] at g3
        have := List.all_eq_true.1 g3 e he
        rw [hs] at this
        simp only [verifyPartial, Bool.and_eq_true, decide_eq_true_eq] at this
        exact ⟨_, this.1, this.2, by abel⟩

end

/-! ## The finished transaction balances -/

section
open Verif.Tx
variable {F G : Type} [Field F] [AddCommGroup G] [Module F G] [DecidableEq G] (C : Curve G)

omit [DecidableEq G] in
private theorem parseAll_ser : ∀ ps : List G, (∀ p ∈ ps, p ≠ 0) →
    parseAll C ((ps.map C.ser).filter (· ≠ zeroCommit)) = .ok ps
  | [], _ => rfl
  | p :: ps, h => by
    have hp : p ≠ 0 := h p List.mem_cons_self
    rw [List.map_cons, List.filter_cons_of_pos (by simpa only [decide_eq_true_eq] using (show C.ser p ≠ zeroCommit from C.ser_ne p))]
    unfold parseAll
    rw [C.parse_ser p hp]
    simp only
    rw [parseAll_ser ps fun q hq => h q (List.mem_cons_of_mem _ hq)]
    rfl

private theorem addCommitments_ser (ps ns : List G) (h1 : ∀ p ∈ ps, p ≠ 0) (h2 : ∀ p ∈ ns, p ≠ 0)
    (h : ps.sum - ns.sum ≠ 0) :
    addCommitments C (ps.map C.ser) (ns.map C.ser) = .ok (C.ser (ps.sum - ns.sum)) := by
  unfold addCommitments
  rw [parseAll_ser C ps h1, parseAll_ser C ns h2]
  simp only [Res.ok_bind, h, if_false]
  rfl

/-- A coin: its value and its blinding factor; the point of its commitment. -/
def coinPoint (c : Nat × F) : G := c.1 • C.genV + c.2 • C.genB

omit [DecidableEq G] in
private theorem coinPoint_sum : ∀ l : List (Nat × F),
    (l.map (coinPoint C)).sum = (l.map (·.1)).sum • C.genV + (l.map (·.2)).sum • C.genB
  | [] => by simp
  | c :: l => by
    simp only [List.map_cons, List.sum_cons, coinPoint_sum l, add_smul, coinPoint]
    abel

/-- **The finished transaction balances.**  Sender and receiver derive their keys as the slate builders do; if what is
spent pays for the change, the amount and the fee, the rule of `kernelSums` accepts the transaction with the sum of the
two public excesses as kernel excess and the sum of the two offsets as offset. -/
theorem finalized_balances (ins change : List (Nat × F)) (amount fee : Nat) (rb so ro : F) (offset : Bytes)
    (hvalue : (ins.map (·.1)).sum = (change.map (·.1)).sum + amount + fee)
    (hoff : ((beVal offset : Nat) : F) = so + ro) (hord : beVal offset < C.order)
    (hin : ∀ c ∈ ins, coinPoint C c ≠ (0 : G)) (hout : ∀ c ∈ change ++ [(amount, rb)], coinPoint C c ≠ (0 : G))
    (hfee : 0 < fee → fee • C.genV ≠ 0)
    (hoffset : beVal offset ≠ 0 → (so + ro) • C.genB ≠ 0)
    (hex : signingKey (ins.map (·.2)) (change.map (·.2)) so • C.genB + signingKey [] [rb] ro • C.genB ≠ 0)
    (htot : ((change.map (·.2)).sum + rb - (ins.map (·.2)).sum) • C.genB ≠ 0) :
    kernelSums C ((ins.map (coinPoint C)).map C.ser) (((change ++ [(amount, rb)]).map (coinPoint C)).map C.ser)
        [C.ser (signingKey (ins.map (·.2)) (change.map (·.2)) so • C.genB + signingKey [] [rb] ro • C.genB)]
        (fee : Int) offset none =
      .ok (C.ser (((change.map (·.2)).sum + rb - (ins.map (·.2)).sum) • C.genB),
        C.ser (signingKey (ins.map (·.2)) (change.map (·.2)) so • C.genB + signingKey [] [rb] ro • C.genB)) := by
  have hpos : 0 < C.order := by omega
  generalize hE : signingKey (ins.map (·.2)) (change.map (·.2)) so • C.genB +
    signingKey [] [rb] ro • C.genB = E at hex ⊢
  have hEo : E + (so + ro) • C.genB = ((change.map (·.2)).sum + rb - (ins.map (·.2)).sum) • C.genB := by
    rw [← hE]; simp only [signingKey, List.sum_nil, List.sum_cons, add_zero, sub_zero]; module
  have hsum : ((change ++ [(amount, rb)]).map (coinPoint C)).sum + fee • C.genV - (ins.map (coinPoint C)).sum =
      ((change.map (·.2)).sum + rb - (ins.map (·.2)).sum) • C.genB := by
    rw [coinPoint_sum, coinPoint_sum, hvalue]
    simp only [List.map_append, List.sum_append, List.map_cons, List.map_nil, List.sum_cons, List.sum_nil, add_zero,
      add_smul, sub_smul]
    abel
  have hU : ∃ ov, overageCommits C (fee : Int) = .ok ov ∧
      addCommitments C (((change ++ [(amount, rb)]).map (coinPoint C)).map C.ser ++ ov.1 ++ [])
        ((ins.map (coinPoint C)).map C.ser ++ ov.2) =
        .ok (C.ser (((change.map (·.2)).sum + rb - (ins.map (·.2)).sum) • C.genB)) := by
    have hin' : ∀ p ∈ ins.map (coinPoint C), p ≠ (0 : G) := by
      intro p hp; obtain ⟨c, hc, rfl⟩ := List.mem_map.1 hp; exact hin c hc
    have hout' : ∀ p ∈ (change ++ [(amount, rb)]).map (coinPoint C), p ≠ (0 : G) := by
      intro p hp; obtain ⟨c, hc, rfl⟩ := List.mem_map.1 hp; exact hout c hc
    by_cases hf : fee = 0
    · subst hf
      refine ⟨([], []), rfl, ?_⟩
      simp only [List.append_nil]
      rw [zero_smul, add_zero] at hsum
      rw [addCommitments_ser C _ _ hout' hin' (by rw [hsum]; exact htot), hsum]
    · have hf' : 0 < fee := by omega
      refine ⟨([C.ser (fee • C.genV)], []), ?_, ?_⟩
      · unfold overageCommits
        rw [if_pos (by omega)]
        unfold commit
        rw [if_neg (by omega), Int.toNat_natCast]
        simp only [zero_smul, add_zero, hfee hf', if_false]
        rfl
      · simp only [List.append_nil]
        rw [show (((change ++ [(amount, rb)]).map (coinPoint C)).map C.ser ++ [C.ser (fee • C.genV)]) =
          (((change ++ [(amount, rb)]).map (coinPoint C)) ++ [fee • C.genV]).map C.ser by
            rw [List.map_append (l₁ := (change ++ [(amount, rb)]).map (coinPoint C)) (l₂ := [fee • C.genV])]; rfl]
        have e : (((change ++ [(amount, rb)]).map (coinPoint C)) ++ [fee • C.genV]).sum -
            (ins.map (coinPoint C)).sum =
            ((change.map (·.2)).sum + rb - (ins.map (·.2)).sum) • C.genB := by
          rw [List.sum_append, List.sum_singleton]; exact hsum
        rw [addCommitments_ser C _ _ ?_ hin' (by rw [e]; exact htot), e]
        intro p hp
        rcases List.mem_append.1 hp with hp | hp
        · exact hout' p hp
        · rw [List.mem_singleton.1 hp]; exact hfee hf'
  have hK : addCommitments C ([C.ser E] ++ []) [] = .ok (C.ser E) := by
    have := addCommitments_ser C [E] [] (by simpa using hex) (by simp) (by simpa using hex)
    simpa using this
  have hO : addKernelOffset C (C.ser E) offset =
      .ok (C.ser (((change.map (·.2)).sum + rb - (ins.map (·.2)).sum) • C.genB)) := by
    unfold addKernelOffset
    by_cases hb : beVal offset = 0
    · rw [if_pos hb]
      rw [hb, Nat.cast_zero] at hoff
      rw [← hEo, ← hoff, zero_smul, add_zero]
    · rw [if_neg hb]
      have hs : beVal offset • C.genB = (so + ro) • C.genB := by
        rw [← hoff, Nat.cast_smul_eq_nsmul]
      have hc : commit C 0 (beVal offset) = .ok (C.ser ((so + ro) • C.genB)) := by
        unfold commit
        rw [if_neg (by omega)]
        simp only [zero_smul, zero_add, hs, hoffset hb, if_false]
      rw [hc]
      have := addCommitments_ser C [E, (so + ro) • C.genB] [] (by
        intro p hp
        rcases List.mem_cons.1 hp with rfl | hp
        · exact hex
        · rw [List.mem_singleton.1 hp]; exact hoffset hb) (by simp) (by simpa [hEo] using htot)
      simpa [hEo] using this
  obtain ⟨ov, h1, h2⟩ := hU
  unfold kernelSums
  refine Res.bind_eq_ok.2 ⟨ov, h1, Res.bind_eq_ok.2 ⟨_, h2, Res.bind_eq_ok.2 ⟨_, hK, Res.bind_eq_ok.2 ⟨_, hO, ?_⟩⟩⟩⟩
  rw [if_neg (by simp)]
  rfl

end

/-! ## C75: what becomes of the sender's secrets when a slate is finalized twice -/

section
variable {F G X M : Type} [Field F] [AddCommGroup G] [Module F G] [DecidableEq G] [DecidableEq X]
variable (S : Scheme F G X M)

/-- The totals of a finalized slate, from its public entries. -/
def pubExcess (l : List (Entry F G X)) : G := (l.map (·.excess)).sum

/-- See `pubExcess`. -/
def pubNonce (l : List (Entry F G X)) : G := (l.map (·.nonce)).sum

/-- The challenge of a finalized slate. -/
def pubChallenge (l : List (Entry F G X)) (m : M) : F := S.challenge (S.xof (pubNonce l)) (pubExcess l) m

/-- What anyone can compute from two finalized slates and the sender's two partial signatures on them. -/
def recoverKey (l₁ l₂ : List (Entry F G X)) (s₁ s₂ : F) (m : M) : F :=
  if S.quad (pubNonce l₁) = S.quad (pubNonce l₂) then
    (s₁ - s₂) / (pubChallenge S l₁ m - pubChallenge S l₂ m)
  else (s₁ + s₂) / (pubChallenge S l₁ m + pubChallenge S l₂ m)

variable {S} in
/-- **Answering twice reveals the sender's key.**  The receiver answers the sender's slate twice, with different nonces.
Finalizing succeeds both times, with the secrets of the same stored context; and the sender's secret key is a function
of the two finalized slates, which the receiver gets back. -/
theorem nonce_reused_violated {xs ks xr kr₁ kr₂ : F} {m : M} (h₁ : Generic S xs ks xr kr₁)
    (h₂ : Generic S xs ks xr kr₂) :
    ∃ r₁ r₂ l₁ l₂ P₁ P₂ sig₁ sig₂ p₁ p₂,
      receiveSign S xr kr₁ [unsigned S (xs, ks)] m = .ok r₁ ∧
      receiveSign S xr kr₂ [unsigned S (xs, ks)] m = .ok r₂ ∧
      finalizeSign S xs ks [r₁] m = .ok (l₁, P₁, sig₁) ∧
      finalizeSign S xs ks [r₂] m = .ok (l₂, P₂, sig₂) ∧
      (∃ e ∈ l₁, e.excess = xs • S.gen ∧ e.part = some p₁) ∧ (∃ e ∈ l₂, e.excess = xs • S.gen ∧ e.part = some p₂) ∧
      ((if S.quad (pubNonce l₁) = S.quad (pubNonce l₂) then pubChallenge S l₁ m - pubChallenge S l₂ m
        else pubChallenge S l₁ m + pubChallenge S l₂ m) ≠ 0 →
        recoverKey S l₁ l₂ p₁.2 p₂.2 m = xs) := by
  obtain ⟨r₁, a1, ⟨sig₁, b1, -⟩, -⟩ := exchange_completes h₁ m
  obtain ⟨r₂, a2, ⟨sig₂, b2, -⟩, -⟩ := exchange_completes h₂ m
  have e1 := Res.ok.inj (a1.symm.trans (receiveSign_ok h₁ m))
  have e2 := Res.ok.inj (a2.symm.trans (receiveSign_ok h₂ m))
  refine ⟨r₁, r₂, _, _, _, _, sig₁, sig₂, _, _, a1, a2, b1, b2,
    ⟨closing S xs ks xr kr₁ m, by simp, rfl, rfl⟩, ⟨closing S xs ks xr kr₂ m, by simp, rfl, rfl⟩, ?_⟩
  have n1 : pubNonce [r₁, closing S xs ks xr kr₁ m] = ks • S.gen + kr₁ • S.gen := by
    subst e1; simp [pubNonce, answer, closing, signedEntry, add_comm]
  have n2 : pubNonce [r₂, closing S xs ks xr kr₂ m] = ks • S.gen + kr₂ • S.gen := by
    subst e2; simp [pubNonce, answer, closing, signedEntry, add_comm]
  have x1 : pubExcess [r₁, closing S xs ks xr kr₁ m] = xs • S.gen + xr • S.gen := by
    subst e1; simp [pubExcess, answer, closing, signedEntry, add_comm]
  have x2 : pubExcess [r₂, closing S xs ks xr kr₂ m] = xs • S.gen + xr • S.gen := by
    subst e2; simp [pubExcess, answer, closing, signedEntry, add_comm]
  simp only [recoverKey, pubChallenge, n1, n2, x1, x2, signPartial]
  generalize S.challenge (S.xof (ks • S.gen + kr₁ • S.gen)) (xs • S.gen + xr • S.gen) m = c₁
  generalize S.challenge (S.xof (ks • S.gen + kr₂ • S.gen)) (xs • S.gen + xr • S.gen) m = c₂
  generalize S.quad (ks • S.gen + kr₁ • S.gen) = q₁
  generalize S.quad (ks • S.gen + kr₂ • S.gen) = q₂
  intro hne
  cases q₁ <;> cases q₂ <;> simp at hne ⊢ <;> rw [div_eq_iff hne] <;> ring

end

private theorem mem_putTx (t : WTx) : ∀ txs : List WTx, t ∈ putTx txs t
  | [] => by simp [putTx]
  | r :: rs => by
    unfold putTx
    split
    · simp
    · split
      · simp
      · exact List.mem_cons_of_mem _ (mem_putTx t rs)

/-- **Finalizing leaves the door open.**  Whenever a slate can be finalized, it can be finalized again with the same
stored secrets: the context is neither removed nor marked, and the status of the transaction is not looked at. -/
theorem finalize_again_violated {slateId : Bytes} {ins outs : List Bytes} {db db' : WDB}
    (h : finalize slateId true ins outs db = .ok db') :
    db'.contexts = db.contexts ∧ ∀ ins' outs', ∃ db'', finalize slateId true ins' outs' db' = .ok db'' := by
  unfold finalize at h
  split at h
  case h_2 => cases h
  case h_1 c t hc ht =>
    simp only [if_true, Res.ok.injEq] at h
    subst h
    refine ⟨rfl, fun ins' outs' => ?_⟩
    have hs : t.slateId = some slateId := by simpa using List.find?_some ht
    have : (txBySlate (putTx db.txs { t with type := SENDING_FINALIZED, tx := some (ins, outs) }) slateId).isSome := by
      unfold txBySlate
      rw [List.find?_isSome]
      exact ⟨_, mem_putTx _ _, by simpa using hs⟩
    obtain ⟨t', ht'⟩ := Option.isSome_iff_exists.1 this
    unfold finalize
    simp only [hc, ht', if_true]
    exact ⟨_, rfl⟩

example : ∃ db', finalize [1] true [] [] ⟨[], [⟨0, SENDING_STARTED, some [1], none, 0, 0, none, none⟩],
    [([1], ⟨2, 3, [], []⟩)], 0, 1, 0⟩ = .ok db' := ⟨_, rfl⟩

/-! ## A concrete scheme -/

instance : Fact (Nat.Prime 11) := ⟨by decide⟩

/-- The integers modulo 11 as scalars and as points; a point's "x-coordinate" is its square. -/
def scheme11 : Scheme (ZMod 11) (ZMod 11) (ZMod 11) (ZMod 11) where
  gen := 1
  quad p := decide (p.val < 6)
  xof p := p * p
  challenge x P m := x + 3 * P + m
  quad_neg := by decide
  xof_neg p := by ring

example : Generic scheme11 3 2 5 4 := ⟨by decide, by decide, by decide, by decide, by decide⟩

example : finalizeSign scheme11 3 2 [answer scheme11 3 2 5 4 7] 7 =
    .ok ([answer scheme11 3 2 5 4 7, closing scheme11 3 2 5 4 7], 8, (3, 2)) := by decide +kernel

instance : Fact (Nat.Prime 101) := ⟨by decide⟩

/-- The integers modulo 101 as points, with 7 and 1 as generators. -/
def curve101 : Tx.Curve (ZMod 101) where
  parse
    | [8, b] => some (b.toNat : ZMod 101)
    | _ => none
  ser g := [8, UInt8.ofNat g.val]
  genV := 7
  genB := 1
  order := 101
  parse_ser := by decide +kernel
  ser_ne := by decide +kernel

/-- The hypotheses of `finalized_balances` are met: a coin of 10 pays an amount of 6, a fee of 1 and a change of 3. -/
example := finalized_balances curve101 (F := ZMod 101) [(10, 20)] [(3, 8)] 6 1 5 10 8 (List.replicate 31 0 ++ [18])
  (by decide) (by decide +kernel) (by decide +kernel) (by decide +kernel) (by decide +kernel) (by decide +kernel)
  (by decide +kernel) (by decide +kernel) (by decide +kernel)

/-- Two answers with the nonces 4 and 1 give the key 3 away. -/
example : recoverKey scheme11 [answer scheme11 3 2 5 4 7, closing scheme11 3 2 5 4 7]
    [answer scheme11 3 2 5 1 7, closing scheme11 3 2 5 1 7]
    (signPartial scheme11 3 2 8 6 7).2 (signPartial scheme11 3 2 8 3 7).2 (7 : ZMod 11) = 3 := by decide +kernel

end Verif.Props
