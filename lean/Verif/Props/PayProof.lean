import Verif.Wallet.PayProof
import Verif.Props.Sign
import Verif.Props.Onion

/-!
# C103: payment proofs
-/
namespace Verif.Props
open Verif.Codec Verif.Wallet

/-- **The message says what it is about.**  Amount, excess and sender are determined by the message that is signed. -/
theorem payment_message_injective {a b : Nat} {e f s t : Bytes} (ha : a < 2 ^ 64) (hb : b < 2 ^ 64)
    (he : e.length = f.length) (h : payMessage a e s = payMessage b f t) : a = b ∧ e = f ∧ s = t := by
  unfold payMessage at h
  rw [List.append_assoc, List.append_assoc] at h
  obtain ⟨h1, h2⟩ := List.append_inj h (by simp)
  obtain ⟨h3, h4⟩ := List.append_inj h2 he
  refine ⟨?_, h3, h4⟩
  have g := congrArg beVal h1
  rwa [beVal_beBytes, beVal_beBytes, Nat.mod_eq_of_lt (by simpa using ha), Nat.mod_eq_of_lt (by simpa using hb)] at g

section
variable {F G X M : Type} [Field F] [AddCommGroup G] [Module F G] [DecidableEq G] [DecidableEq X]
variable {S : Scheme F G X M} {pl : ProofLib G} {kl : KeyLib} {ol : OnionLib}

private theorem finalizePay_parts {c : PayContext F} {s : PaySlate F G X} {m : M} {f : PayFinal F G X}
    (h : finalizePay S pl c s m = .ok f) :
    ∃ out, finalizeSign S c.key c.nonce s.sigs m = .ok (out, f.excess, f.kernelSig) ∧
      verifyProofs pl c.proof s.proof c.amount f.excess = true ∧ f.slateProof = s.proof ∧ f.txProof = c.proof := by
  obtain ⟨out, h1, h⟩ := Res.bind_eq_ok.1 h
  obtain ⟨k, h2, h⟩ := Res.bind_eq_ok.1 h
  split at h
  · rename_i hv
    obtain ⟨sig, h3, h⟩ := Res.bind_eq_ok.1 h
    split at h
    · rename_i hg
      cases h
      refine ⟨out, ?_, hv, rfl, rfl⟩
      exact Res.bind_eq_ok.2 ⟨_, h1, Res.bind_eq_ok.2 ⟨_, h2, Res.bind_eq_ok.2 ⟨_, h3, by rw [if_pos hg]; rfl⟩⟩⟩
    · cases h
  · cases h

/-- **A proof asked for is there.**  If the sender asked for a proof and finalizing succeeds, then the answer carries the
addresses asked for and a signature that verifies, under the receiver's address, the amount of the sent slate, the excess of
the kernel that was signed, and the sender's address; and the kernel's signature is valid. -/
theorem proof_required {c : PayContext F} {s : PaySlate F G X} {m : M} {f : PayFinal F G X} {p : PayProof}
    (h : finalizePay S pl c s m = .ok f) (hp : c.proof = some p) :
    SchnorrValid S f.kernelSig f.excess m ∧
      ∃ g, s.proof = some ⟨p.sender, p.receiver, some g⟩ ∧ f.slateProof = s.proof ∧
        pl.edVerify p.receiver g (beBytes 8 c.amount ++ pl.point f.excess ++ p.sender) = true := by
  obtain ⟨out, h1, h2, h3, -⟩ := finalizePay_parts h
  refine ⟨(finalize_sound S h1).1, ?_⟩
  rw [hp] at h2
  unfold verifyProofs at h2
  simp only at h2
  split at h2
  · cases h2
  · rename_i n hn
    split at h2
    · cases h2
    · rename_i hne
      obtain ⟨e1, e2⟩ := not_or.1 hne
      split at h2
      · cases h2
      · rename_i g hg
        obtain ⟨a, b, sg⟩ := n
        simp only at e1 e2 hg h2
        have e1 := Classical.not_not.1 e1
        have e2 := Classical.not_not.1 e2
        subst hg
        rw [e1, e2]
        exact ⟨g, hn, h3, h2⟩

/-- **Without a request the proof does not matter.**  The sender who asked for none finalizes exactly when the signatures
allow it. -/
theorem proof_not_asked {c : PayContext F} (s : PaySlate F G X) (m : M) (hp : c.proof = none) (f : PayFinal F G X) :
    finalizePay S pl c s m = .ok f ↔
      (∃ out, finalizeSign S c.key c.nonce s.sigs m = .ok (out, f.excess, f.kernelSig)) ∧
        f.slateProof = s.proof ∧ f.txProof = none := by
  constructor
  · intro h
    obtain ⟨out, h1, -, h3, h4⟩ := finalizePay_parts h
    exact ⟨⟨out, h1⟩, h3, h4.trans hp⟩
  · rintro ⟨⟨out, h⟩, h3, h4⟩
    obtain ⟨k, f1, h⟩ := Res.bind_eq_ok.1 h
    obtain ⟨P, f2, h⟩ := Res.bind_eq_ok.1 h
    obtain ⟨sig, f3, h⟩ := Res.bind_eq_ok.1 h
    split at h
    · rename_i hv
      simp only [Res.pure_eq, Res.ok.injEq, Prod.mk.injEq] at h
      obtain ⟨rfl, rfl, rfl⟩ := h
      refine Res.bind_eq_ok.2 ⟨_, f1, Res.bind_eq_ok.2 ⟨_, f2, ?_⟩⟩
      rw [hp, verifyProofs, if_pos rfl]
      refine Res.bind_eq_ok.2 ⟨_, f3, ?_⟩
      rw [if_pos hv]
      obtain ⟨a, b, c', d⟩ := f
      simp only at h3 h4 ⊢
      rw [h3, h4]; rfl
    · cases h

omit [AddCommGroup G] [DecidableEq G] in
private theorem findAddress_ok (master : ExtKey) (key : Bytes) : ∀ (is : List Nat) (i : Nat),
    findAddress pl kl master key is = .ok i → i ∈ is ∧ ∃ s, addressSeed kl master i = .ok s ∧ key = pl.edPub s
  | [], i, h => by cases h
  | j :: is, i, h => by
    obtain ⟨s, h1, h⟩ := Res.bind_eq_ok.1 h
    split at h
    · rename_i hk
      cases h
      exact ⟨by simp, s, h1, hk⟩
    · obtain ⟨h2, h3⟩ := findAddress_ok master key is i h
      exact ⟨by simp [h2], h3⟩

omit [DecidableEq X] [Field F] [Module F G] in
private theorem totalExcess_sum {es : List (Entry F G X)} {k : G} (h : totalExcess es = .ok k) :
    k = (es.map (·.excess)).sum := by
  unfold totalExcess addPubs at h
  split at h
  · cases h
  · exact (Res.ok.inj h).symm

/-- **What a receiver confirms.**  If a slate that asks for a proof is received, then a Tor address is set, the address
asked for is one of the wallet's own up to the current one, and the signature given out is that of this address over the
amount credited, the sum of all excesses, and the sender's address.  The payment is stored with this amount, this excess and this proof. -/
theorem receiver_confirms {w w' : PayWallet G} {key nonce : F} {s s' : PaySlate F G X} {m : M} {p : PayProof}
    (h : receivePay S pl kl w key nonce s m = .ok (s', w')) (hp : s.proof = some p) :
    w.tor = true ∧ s'.amount = s.amount ∧ ∃ i ≤ w.current, ∃ seed, addressSeed kl w.master i = .ok seed ∧
      p.receiver = pl.edPub seed ∧
      ∃ K, K = ((s.sigs ++ s'.sigs).map (·.excess)).sum ∧
        s'.proof = some ⟨p.sender, p.receiver,
          some (pl.edSign seed (beBytes 8 s.amount ++ pl.point K ++ p.sender))⟩ ∧
        w' = { w with
          received := w.received ++ [⟨s.amount, K, s'.proof⟩]
          signed := w.signed ++ [(seed, beBytes 8 s.amount ++ pl.point K ++ p.sender)] } := by
  obtain ⟨e, h1, h⟩ := Res.bind_eq_ok.1 h
  obtain ⟨k, h2, h⟩ := Res.bind_eq_ok.1 h
  obtain ⟨q, h3, h⟩ := Res.bind_eq_ok.1 h
  simp only [Res.pure_eq, Res.ok.injEq, Prod.mk.injEq] at h
  obtain ⟨rfl, rfl⟩ := h
  rw [hp, updateProof] at h3
  split at h3
  · rename_i ht
    obtain ⟨i, g1, h3⟩ := Res.bind_eq_ok.1 h3
    obtain ⟨sd, g2, h3⟩ := Res.bind_eq_ok.1 h3
    simp only [Res.pure_eq, Res.ok.injEq] at h3
    subst h3
    obtain ⟨m1, sd', m2, m3⟩ := findAddress_ok w.master p.receiver _ i g1
    rw [g2] at m2
    obtain rfl := Res.ok.inj m2
    refine ⟨ht, rfl, i, by simpa [Nat.lt_succ_iff] using m1, sd, g2, m3, k, totalExcess_sum h2, rfl, rfl⟩
  · cases h3

/-- **Refused means nothing given out.**  A slate that asks for a proof of an address that is none of the wallet's is
refused; so is every slate that asks for a proof while no Tor address is set. -/
theorem foreign_proof_refused (w : PayWallet G) (key nonce : F) (s : PaySlate F G X) (m : M) (p : PayProof)
    (hp : s.proof = some p)
    (h : w.tor = false ∨ ∀ i ≤ w.current, ∀ seed, addressSeed kl w.master i = .ok seed → p.receiver ≠ pl.edPub seed) :
    ∀ r, receivePay S pl kl w key nonce s m ≠ .ok r := by
  rintro ⟨s', w'⟩ hr
  obtain ⟨h1, -, i, hi, sd, h2, h3, -⟩ := receiver_confirms hr hp
  rcases h with h | h
  · rw [h] at h1; cases h1
  · exact h i hi sd h2 h3

/-! ## An honest exchange -/

/-- Signatures made are valid. -/
def SignCorrect (pl : ProofLib G) : Prop := ∀ s m, pl.edVerify (pl.edPub s) (pl.edSign s m) m = true

omit [AddCommGroup G] [DecidableEq G] in
theorem findAddress_total (master : ExtKey) (key : Bytes) : ∀ (is : List Nat),
    (∀ i ∈ is, ∃ s, addressSeed kl master i = .ok s) → (∃ i ∈ is, ∃ s, addressSeed kl master i = .ok s ∧ key = pl.edPub s) →
    ∃ i ∈ is, ∃ s, findAddress pl kl master key is = .ok i ∧ addressSeed kl master i = .ok s ∧ key = pl.edPub s
  | [], _, h => by obtain ⟨i, hi, -⟩ := h; cases hi
  | j :: is, ht, h => by
    obtain ⟨s, hs⟩ := ht j (by simp)
    by_cases hk : key = pl.edPub s
    · refine ⟨j, by simp, s, Res.bind_eq_ok.2 ⟨_, hs, by rw [if_pos hk]; rfl⟩, hs, hk⟩
    · obtain ⟨i, hi, t, h1, h2⟩ := h
      have : i ∈ is := by
        rcases List.mem_cons.1 hi with rfl | hi
        · rw [hs] at h1; cases h1; exact absurd h2 hk
        · exact hi
      obtain ⟨i', m1, t', m2, m3, m4⟩ := findAddress_total master key is (fun a ha => ht a (by simp [ha])) ⟨i, this, t, h1, h2⟩
      refine ⟨i', by simp [m1], t', Res.bind_eq_ok.2 ⟨_, hs, by rw [if_neg hk]; exact m2⟩, m3, m4⟩

/-- **An honest exchange completes with a proof.**  The sender gives any of the receiver's onion addresses up to the
current one; both wallets can derive their addresses, the receiver has a Tor address, the keys and nonces are generic.
Then sending, receiving and finalizing succeed, and the sender has a signature of the receiver's address over the amount, the
excess of the kernel and the sender's address. -/
theorem proof_exchange_completes (hl : SumLib ol) (hc : SignCorrect pl) {xs ks xr kr : F} (hg : Generic S xs ks xr kr)
    (m : M) (amount : Nat) (ms : ExtKey) (cur : Nat) (mySeed : Bytes) (hms : addressSeed kl ms cur = .ok mySeed)
    (w : PayWallet G) (ht : w.tor = true) (hd : ∀ i ≤ w.current, ∃ s, addressSeed kl w.master i = .ok s)
    (i : Nat) (hi : i ≤ w.current) (seed : Bytes) (hs : addressSeed kl w.master i = .ok seed)
    (hk : (pl.edPub seed).length = 32) (hv : ol.valid (pl.edPub seed) = true) :
    ∃ sent ctx ans w' fin g,
      sendPay S pl kl ol ms cur (some (onionFromKey ol (pl.edPub seed)).text) amount xs ks = .ok (sent, ctx) ∧
      receivePay S pl kl w xr kr sent m = .ok (ans, w') ∧
      finalizePay S pl ctx ans m = .ok fin ∧
      fin.slateProof = some ⟨pl.edPub mySeed, pl.edPub seed, some g⟩ ∧
      fin.excess = xs • S.gen + xr • S.gen ∧
      pl.edVerify (pl.edPub seed) g (beBytes 8 amount ++ pl.point fin.excess ++ pl.edPub mySeed) = true := by
  let p : PayProof := ⟨pl.edPub mySeed, pl.edPub seed, none⟩
  have hsend : sendPay S pl kl ol ms cur (some (onionFromKey ol (pl.edPub seed)).text) amount xs ks =
      .ok (⟨amount, [unsigned S (xs, ks)], some p⟩, ⟨xs, ks, amount, some p⟩) := by
    have hr := onion_roundtrip hl (pl.edPub seed) hk hv
    have : requestProof pl kl ol ms cur (some (onionFromKey ol (pl.edPub seed)).text) = .ok (some p) := by
      simp only [requestProof, Option.bind_some, hr]
      exact Res.bind_eq_ok.2 ⟨_, hms, rfl⟩
    exact Res.bind_eq_ok.2 ⟨_, this, rfl⟩
  obtain ⟨i', -, sd, f1, f2, f3⟩ := findAddress_total (pl := pl) (kl := kl) w.master (pl.edPub seed) (List.range (w.current + 1))
    (fun a ha => hd a (by simpa [Nat.lt_succ_iff] using ha)) ⟨i, by simpa [Nat.lt_succ_iff] using hi, seed, hs, rfl⟩
  let K := xs • S.gen + xr • S.gen
  let msg := payMessage amount (pl.point K) (pl.edPub mySeed)
  let q : PayProof := ⟨pl.edPub mySeed, pl.edPub seed, some (pl.edSign sd msg)⟩
  have hrec : receivePay S pl kl w xr kr ⟨amount, [unsigned S (xs, ks)], some p⟩ m =
      .ok (⟨amount, [answer S xs ks xr kr m], some q⟩,
        { w with
          received := w.received ++ [⟨amount, K, some q⟩]
          signed := w.signed ++ [(sd, msg)] }) := by
    refine Res.bind_eq_ok.2 ⟨_, receiveSign_ok hg m, Res.bind_eq_ok.2 ⟨K, ?_, Res.bind_eq_ok.2 ⟨(some q, [(sd, msg)]), ?_, rfl⟩⟩⟩
    · simp only [totalExcess, addPubs, unsigned, answer, signedEntry, List.cons_append, List.nil_append, List.map_cons, List.map_nil,
        List.sum_cons, List.sum_nil, add_zero, K]
      rw [if_neg hg.excess]
    · rw [updateProof, if_pos ht]
      exact Res.bind_eq_ok.2 ⟨_, f1, Res.bind_eq_ok.2 ⟨_, f2, rfl⟩⟩
  obtain ⟨r, e1, ⟨sig, e2, e3⟩, -⟩ := exchange_completes hg m
  rw [receiveSign_ok hg m] at e1
  obtain rfl := Res.ok.inj e1
  have hver : pl.edVerify (pl.edPub seed) (pl.edSign sd msg) msg = true := by rw [f3]; exact hc sd msg
  have hfin : finalizePay S pl ⟨xs, ks, amount, some p⟩ ⟨amount, [answer S xs ks xr kr m], some q⟩ m =
      .ok ⟨K, sig, some q, some p⟩ := by
    obtain ⟨o, g1, g⟩ := Res.bind_eq_ok.1 e2
    obtain ⟨P, g2, g⟩ := Res.bind_eq_ok.1 g
    obtain ⟨sg, g3, g⟩ := Res.bind_eq_ok.1 g
    split at g
    · rename_i hva
      simp only [Res.pure_eq, Res.ok.injEq, Prod.mk.injEq] at g
      obtain ⟨rfl, rfl, rfl⟩ := g
      refine Res.bind_eq_ok.2 ⟨_, g1, Res.bind_eq_ok.2 ⟨_, g2, ?_⟩⟩
      have : verifyProofs pl (some p) (some q) amount (xs • S.gen + xr • S.gen) = true := by
        simp only [verifyProofs, p, q, ne_eq, not_true_eq_false, or_self, if_false]
        exact hver
      simp only [this, if_true]
      refine Res.bind_eq_ok.2 ⟨_, g3, ?_⟩
      rw [if_pos hva]; rfl
    · cases g
  exact ⟨_, _, _, _, _, _, hsend, hrec, hfin, rfl, rfl, hver⟩

/-! ## What a proof proves -/

/-- What happens to the receiver's wallet: a slate arrives, the address is changed, the Tor address is set or removed. -/
inductive PayEvent (F G X M : Type) where
  | slate (key nonce : F) (s : PaySlate F G X) (m : M)
  | rotate
  | tor (on : Bool)

/-- Amounts have 64 bits. -/
def PayEvent.Typed : PayEvent F G X M → Prop
  | .slate _ _ s _ => s.amount < 2 ^ 64
  | _ => True

variable (S pl kl) in
/-- One step: a slate that is refused leaves the wallet as it is. -/
def payStep (w : PayWallet G) : PayEvent F G X M → PayWallet G
  | .slate key nonce s m =>
    match receivePay S pl kl w key nonce s m with
    | .ok r => r.2
    | _ => w
  | .rotate => { w with current := w.current + 1 }
  | .tor on => { w with tor := on }

/-- Everything signed is about a payment stored. -/
private def Backed (pl : ProofLib G) (w : PayWallet G) : Prop :=
  ∀ x ∈ w.signed, ∃ r ∈ w.received, ∃ q, r.proof = some q ∧ r.amount < 2 ^ 64 ∧ q.receiver = pl.edPub x.1 ∧
    x.2 = payMessage r.amount (pl.point r.excess) q.sender

omit [DecidableEq X] in
private theorem receivePay_none {w w' : PayWallet G} [DecidableEq X] {key nonce : F} {s s' : PaySlate F G X} {m : M}
    (h : receivePay S pl kl w key nonce s m = .ok (s', w')) (hp : s.proof = none) :
    ∃ r, w' = { w with received := w.received ++ [r] } := by
  obtain ⟨e, h1, h⟩ := Res.bind_eq_ok.1 h
  obtain ⟨k, h2, h⟩ := Res.bind_eq_ok.1 h
  obtain ⟨q, h3, h⟩ := Res.bind_eq_ok.1 h
  rw [hp, updateProof] at h3
  simp only [Res.pure_eq, Res.ok.injEq, Prod.mk.injEq] at h h3
  obtain ⟨rfl, rfl⟩ := h
  subst h3
  exact ⟨⟨s.amount, k, none⟩, by simp⟩

private theorem backed_step {w : PayWallet G} (hb : Backed pl w) (e : PayEvent F G X M) (he : e.Typed) :
    Backed pl (payStep S pl kl w e) := by
  cases e with
  | rotate => exact hb
  | tor on => exact hb
  | slate key nonce s m =>
    simp only [payStep]
    split
    · rename_i r hr
      obtain ⟨s', w'⟩ := r
      cases hp : s.proof with
      | none =>
        obtain ⟨r, rfl⟩ := receivePay_none hr hp
        intro x hx
        obtain ⟨r', h1, h2⟩ := hb x hx
        exact ⟨r', List.mem_append_left _ h1, h2⟩
      | some p =>
        obtain ⟨-, -, i, -, sd, -, h3, K, -, h5, h6⟩ := receiver_confirms hr hp
        simp only
        rw [h6]
        intro x hx
        rcases List.mem_append.1 hx with hx | hx
        · obtain ⟨r', h1, h2⟩ := hb x hx
          exact ⟨r', List.mem_append_left _ h1, h2⟩
        · obtain rfl := List.mem_singleton.1 hx
          exact ⟨_, List.mem_append_right _ (List.mem_singleton.2 rfl), _, h5, he, h3, rfl⟩
    · exact hb

/-- **A proof means that the payment was received.**  Whatever slates arrive at the receiver's wallet, with whatever
changes of address between: if a sender who asked for a proof finalizes, and a signature under the receiver's address verifies
only for messages that this wallet has signed with that address, then the receiver's wallet has stored a payment of exactly
the amount sent, for the very kernel of the transaction, from that sender to that address. -/
theorem proof_means_received (es : List (PayEvent F G X M)) (he : ∀ e ∈ es, e.Typed) (w0 : PayWallet G)
    (h0 : w0.signed = []) {c : PayContext F} {s : PaySlate F G X} {m : M} {f : PayFinal F G X} {p : PayProof}
    (hf : finalizePay S pl c s m = .ok f) (hp : c.proof = some p) (ha : c.amount < 2 ^ 64)
    (hlen : ∀ P Q, (pl.point P).length = (pl.point Q).length) (hinj : ∀ P Q, pl.point P = pl.point Q → P = Q)
    (huf : ∀ g msg, pl.edVerify p.receiver g msg = true →
      ∃ x ∈ (es.foldl (payStep S pl kl) w0).signed, pl.edPub x.1 = p.receiver ∧ x.2 = msg) :
    ∃ r ∈ (es.foldl (payStep S pl kl) w0).received, r.amount = c.amount ∧ r.excess = f.excess ∧
      ∃ q, r.proof = some q ∧ q.sender = p.sender ∧ q.receiver = p.receiver := by
  have hb : Backed pl (es.foldl (payStep S pl kl) w0) := by
    have : ∀ (es : List (PayEvent F G X M)) (w : PayWallet G), (∀ e ∈ es, e.Typed) → Backed pl w →
        Backed pl (es.foldl (payStep S pl kl) w) := by
      intro es
      induction es with
      | nil => intro w _ h; exact h
      | cons e es ih =>
        intro w he h
        exact ih _ (fun x hx => he x (by simp [hx])) (backed_step h e (he e (by simp)))
    exact this es w0 he (fun x hx => by rw [h0] at hx; cases hx)
  obtain ⟨-, g, -, -, hv⟩ := proof_required hf hp
  obtain ⟨x, hx, hk, hm⟩ := huf g _ hv
  obtain ⟨r, hr, q, h1, h2, h3, h4⟩ := hb x hx
  obtain ⟨e1, e2, e3⟩ := payment_message_injective h2 ha (hlen _ _) (h4.symm.trans hm)
  exact ⟨r, hr, e1, hinj _ _ e2, q, h1, e3, h3.trans hk⟩

/-! ## What does not hold -/

omit [DecidableEq G] [DecidableEq X] in
/-- **Proof or delivery, never both.**  If the `send` call delivers the slate over Tor, no proof was asked for; and if a
proof is asked for, nothing is delivered. -/
theorem proof_and_delivery_violated (hl : SumLib ol) (address : Option Bytes) (ms : ExtKey) (cur : Nat) (amount : Nat)
    (key nonce : F) {sent : PaySlate F G X} {ctx : PayContext F}
    (h : sendPay S pl kl ol ms cur address amount key nonce = .ok (sent, ctx)) :
    recipients ol address = [] ∨ (sent.proof = none ∧ ctx.proof = none) := by
  obtain ⟨p, h1, h⟩ := Res.bind_eq_ok.1 h
  simp only [Res.pure_eq, Res.ok.injEq, Prod.mk.injEq] at h
  obtain ⟨rfl, rfl⟩ := h
  cases address with
  | none => left; rfl
  | some a =>
    cases hs : slatepackKey ol a with
    | ok k =>
      right
      have : onionParse ol a = none := by
        cases ho : onionParse ol a with
        | none => rfl
        | some t => exact absurd hs (onion_not_slatepack hl ho k)
      simp only [requestProof, Option.bind_some, this] at h1
      cases h1
      exact ⟨rfl, rfl⟩
    | throw => left; simp [recipients, hs]
    | ub => left; simp [recipients, hs]

/-- **The proof is not kept with the transaction.**  The sender who got a proof stores with the transaction the one from the
beginning, without the receiver's signature. -/
theorem stored_proof_unsigned_violated {ms : ExtKey} {cur amount : Nat} {address : Option Bytes} {key nonce : F}
    {sent ans : PaySlate F G X} {ctx : PayContext F} {m : M} {f : PayFinal F G X}
    (h : sendPay S pl kl ol ms cur address amount key nonce = .ok (sent, ctx))
    (hf : finalizePay S pl ctx ans m = .ok f) : ∀ p, f.txProof = some p → p.sig = none := by
  obtain ⟨p, h1, h⟩ := Res.bind_eq_ok.1 h
  simp only [Res.pure_eq, Res.ok.injEq, Prod.mk.injEq] at h
  obtain ⟨rfl, rfl⟩ := h
  obtain ⟨-, -, -, -, h4⟩ := finalizePay_parts hf
  intro q hq
  rw [h4] at hq
  simp only at hq
  subst hq
  unfold requestProof at h1
  split at h1
  · cases h1
  · obtain ⟨s, -, h1⟩ := Res.bind_eq_ok.1 h1
    cases h1
    rfl

end

/-! ## The hypotheses can be met -/

/-- Keys that depend on the index, from a small library. -/
def payKeys : KeyLib where
  hmac k d := (k.take 1 ++ d.reverse ++ List.replicate 64 0).take 64
  pub s := s
  add a b := some ((a ++ b).take 32)
  blake s := s
  blakeKeyed k s := k ++ s
  switch s _ := s
  commit _ b := b
  prove _ _ _ _ m := m
  rewind _ _ _ := none

/-- Signatures that name key and message; points are numbers below 11 in 33 bytes. -/
private def paySigs : ProofLib (ZMod 11) where
  edPub s := (1 :: s ++ List.replicate 32 0).take 32
  edSign s m := (1 :: s ++ List.replicate 32 0).take 32 ++ m
  edVerify k g m := g == k ++ m
  point g := beBytes 33 g.val

private def payMaster : ExtKey := ⟨beBytes 32 6, List.replicate 32 7⟩
private def payReceiver : PayWallet (ZMod 11) := ⟨⟨beBytes 32 9, List.replicate 32 8⟩, 2, true, [], []⟩

private theorem paySigs_correct : SignCorrect paySigs := fun s m => by simp [paySigs]

/-- The seeds of the addresses 0, 1 and 2 and their public keys differ. -/
example : ∃ a b c, addressSeed payKeys payReceiver.master 0 = .ok a ∧ addressSeed payKeys payReceiver.master 1 = .ok b ∧
    addressSeed payKeys payReceiver.master 2 = .ok c ∧ paySigs.edPub a ≠ paySigs.edPub b ∧ paySigs.edPub b ≠ paySigs.edPub c :=
  ⟨_, _, _, rfl, rfl, rfl, by decide +kernel, by decide +kernel⟩

/-- The honest exchange with the receiver's address 1, the current one being 2. -/
example : ∃ mySeed seed, addressSeed payKeys payMaster 4 = .ok mySeed ∧ addressSeed payKeys payReceiver.master 1 = .ok seed ∧
    ∃ sent ctx ans w' fin g,
      sendPay scheme11 paySigs payKeys toyOnion payMaster 4 (some (onionFromKey toyOnion (paySigs.edPub seed)).text) 60 3 2 =
        .ok (sent, ctx) ∧
      receivePay scheme11 paySigs payKeys payReceiver 5 4 sent 7 = .ok (ans, w') ∧
      finalizePay scheme11 paySigs ctx ans 7 = .ok fin ∧
      fin.slateProof = some ⟨paySigs.edPub mySeed, paySigs.edPub seed, some g⟩ :=
  ⟨_, _, rfl, rfl,
    let ⟨a, b, c, d, e, g, h1, h2, h3, h4, _⟩ := proof_exchange_completes (S := scheme11) (pl := paySigs) (kl := payKeys)
      (ol := toyOnion) toyOnion_sum paySigs_correct (xs := 3) (ks := 2) (xr := 5) (kr := 4)
      ⟨by decide, by decide, by decide, by decide, by decide⟩ 7 60 payMaster 4 _ rfl payReceiver rfl
      (fun i _ => ⟨_, rfl⟩) 1 (by decide) _ rfl (by decide +kernel) (by decide +kernel)
    ⟨a, b, c, d, e, g, h1, h2, h3, h4⟩⟩

/-- A slatepack address: delivered, and no proof. -/
example : ∃ t, slatepackText (str "grin") toyKey = .ok t ∧ recipients toyOnion (some t) = [toyKey] := by
  obtain ⟨t, h1, h2, -⟩ := slatepack_and_onion toyOnion_sum toyKey (by decide +kernel) (by decide +kernel)
  exact ⟨t, h1, by simp [recipients, h2]⟩

/-- A signature scheme under which exactly one message verifies: that of a payment of 60 with excess 8. -/
private def onlySig : ProofLib (ZMod 11) where
  edPub s := (1 :: s ++ List.replicate 32 0).take 32
  edSign _ m := m
  edVerify _ _ m := m == payMessage 60 (beBytes 33 8) [9]
  point g := beBytes 33 g.val

/-- The hypotheses of `proof_means_received` are met by a payment of 60: the wallet has signed the only message that
verifies. -/
example : ∃ (c : PayContext (ZMod 11)) (s : PaySlate (ZMod 11) (ZMod 11) (ZMod 11)) (f : PayFinal (ZMod 11) (ZMod 11) (ZMod 11))
    (p : PayProof) (e : PayEvent (ZMod 11) (ZMod 11) (ZMod 11) (ZMod 11)),
    finalizePay scheme11 onlySig c s 7 = .ok f ∧ c.proof = some p ∧ c.amount < 2 ^ 64 ∧ e.Typed ∧
      (∀ P Q, onlySig.point P = onlySig.point Q → P = Q) ∧
      ∀ g msg, onlySig.edVerify p.receiver g msg = true →
        ∃ x ∈ ([e].foldl (payStep scheme11 onlySig payKeys) payReceiver).signed, onlySig.edPub x.1 = p.receiver ∧ x.2 = msg := by
  let seed : Bytes := match addressSeed payKeys payReceiver.master 1 with
    | .ok s => s
    | _ => []
  let p : PayProof := ⟨[9], onlySig.edPub seed, none⟩
  let sent : PaySlate (ZMod 11) (ZMod 11) (ZMod 11) := ⟨60, [unsigned scheme11 (3, 2)], some p⟩
  refine ⟨⟨3, 2, 60, some p⟩, ⟨60, [answer scheme11 3 2 5 4 7], some { p with sig := some [] }⟩, ⟨8, (3, 2), some { p with sig := some [] }, some p⟩, p,
    .slate 5 4 sent 7, by decide +kernel, rfl, by decide, by show 60 < 2 ^ 64; decide, by decide +kernel, ?_⟩
  intro g msg hm
  have hm : msg = payMessage 60 (beBytes 33 8) [9] := by simpa [onlySig] using hm
  refine ⟨(seed, payMessage 60 (beBytes 33 8) [9]), ?_, rfl, hm.symm⟩
  decide +kernel

end Verif.Props
