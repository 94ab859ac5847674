import Verif.Wallet.Coinbase
import Verif.Props.Keys
import Verif.Props.KernelSigs
import Mathlib.Data.Rat.Encodable
import Mathlib.Algebra.Order.Ring.Rat

/-!
# C113: the coinbase a wallet builds

The scalars are any field, the curve any module over it.
-/
namespace Verif.Props
open Verif.Wallet Verif.Tx

section
variable {F G X M : Type} [Field F] [AddCommGroup G] [Module F G] [DecidableEq G]

/-- How the parts of the libraries fit together: the commitment of the key library is that of the curve, its blinding generator is the
generator of signatures, a nonzero point written as a commitment is read as that point, and a signature is read as it was written.
No number of coins below `2^64` commits to the point at infinity. -/
structure CoinLaws (l : KeyLib) (C : Curve G) (L : SigLib F G X M) (serSig : X × F → Bytes) : Prop where
  commit_eq : ∀ v k, beVal k < C.order → l.commit v k = C.ser (v • C.genV + beVal k • C.genB)
  gen_eq : C.genB = L.gen
  order_pos : 0 < C.order
  key_ser : ∀ g, g ≠ 0 → L.keyOf (C.ser g) = some g
  sig_ser : ∀ s, L.sigOf (serSig s) = some s
  value_ne : ∀ n, 0 < n → n < 2 ^ 64 → n • C.genV ≠ 0

/-- The scalar that the bytes of a secret stand for. -/
def scalarOf (k : Bytes) : F := ((beVal k : Nat) : F)

omit [DecidableEq G] in
/-- A signature made alone, with one's own key and nonce, is a Schnorr signature. -/
theorem own_signature_valid (S : Scheme F G X M) (key nonce : F) (m : M) (hn : nonce • S.gen ≠ 0) :
    SchnorrValid S (signPartial S key nonce (key • S.gen) (nonce • S.gen) m) (key • S.gen) m := by
  refine ⟨if S.quad (nonce • S.gen) then nonce • S.gen else -(nonce • S.gen), ?_, ?_, ?_, ?_⟩
  · split
    · exact hn
    · simpa using hn
  · split
    · assumption
    · rename_i h
      rw [S.quad_neg _ hn]
      simpa using h
  · simp only [signPartial]
    split
    · rfl
    · exact S.xof_neg _
  · simp only [signPartial]
    split <;> module

private theorem add_one {C : Curve G} (p : G) (ns : List G) (hp : p ≠ 0) (hn : ∀ n ∈ ns, n ≠ 0) (h : p - ns.sum ≠ 0) :
    addCommitments C [C.ser p] (ns.map C.ser) = .ok (C.ser (p - ns.sum)) := by
  have e : ∀ ps : List G, (∀ p ∈ ps, p ≠ 0) → parseAll C ((ps.map C.ser).filter (· ≠ zeroCommit)) = .ok ps := by
    intro ps
    induction ps with
    | nil => intro _; rfl
    | cons q qs ih =>
      intro hq
      rw [List.map_cons, List.filter_cons_of_pos (by simpa only [decide_eq_true_eq] using (show C.ser q ≠ zeroCommit from C.ser_ne q))]
      unfold parseAll
      rw [C.parse_ser q (hq q (by simp))]
      simp only
      rw [ih fun x hx => hq x (by simp [hx])]
      rfl
  have e1 := e [p] (by simpa using hp)
  have e2 := e ns hn
  simp only [List.map_cons, List.map_nil] at e1
  unfold addCommitments
  rw [e1, e2]
  simp only [Res.ok_bind, List.sum_cons, List.sum_nil, add_zero, h, if_false]
  rfl

private theorem transparent_ok {l : KeyLib} {C : Curve G} {L : SigLib F G X M} {serSig : X × F → Bytes} (hC : CoinLaws l C L serSig)
    {v : Nat} (h0 : 0 < v) (h1 : v < 2 ^ 64) : Tx.commit C v 0 = .ok (C.ser (v • C.genV)) := by
  unfold Tx.commit
  rw [if_neg (by have := hC.order_pos; omega)]
  simp only [zero_smul, add_zero]
  rw [if_neg (hC.value_ne v h0 h1)]

private theorem made_parts {l : KeyLib} {seed : Bytes} {v : Nat} {p : List Nat} {t : Codec.ProofType} {m : Made}
    (h : makeOutput l seed v p t = .ok m) : m.commit = l.commit v m.key := by
  unfold makeOutput at h
  rw [Res.bind_eq_ok] at h; obtain ⟨c, -, h⟩ := h
  rw [Res.bind_eq_ok] at h; obtain ⟨k, -, h⟩ := h
  rw [Res.bind_eq_ok] at h; obtain ⟨pr, -, h⟩ := h
  simp only [Res.pure_eq, Res.ok.injEq] at h
  subst h; rfl

variable {l : KeyLib} {C : Curve G} {L : SigLib F G X M} {serSig : X × F → Bytes}

/-- **C113.** A wallet asked for a coinbase with fees that leave the reward below `2^64` builds one: a coinbase output with the proof made for
the reward plus the fees at the path asked for (or the next free one), and a coinbase kernel, with neither fee nor lock height, whose excess is the
output less the reward and the fees and whose signature is valid.  One key index is consumed, also when a path was given. -/
theorem coinbase_built (hC : CoinLaws l C L serSig) {seed : Bytes} {fees : Nat} {given : Option (List Nat)} {db : WDB} {nonce : F} {m : Made}
    (hf : 60000000000 + fees < 2 ^ 64) (hm : makeOutput l seed (60000000000 + fees) (given.getD [0, 0, db.nextChild]) .enhanced = .ok m)
    (hb : beVal m.key < C.order) (hx : beVal m.key • C.genB ≠ 0) (hc : (60000000000 + fees) • C.genV + beVal m.key • C.genB ≠ 0)
    (hn : nonce • L.gen ≠ 0) :
    ∃ r, buildCoinbase l C L scalarOf serSig nonce seed fees given db =
        .ok (r, { db with nextChild := (db.nextChild + 1) % 2 ^ 32 }) ∧
      r.output = ⟨1, m.commit, m.proof⟩ ∧ r.path = given.getD [0, 0, db.nextChild] ∧
      r.kernel.features = 1 ∧ r.kernel.fee = ⟨0, 0⟩ ∧ r.kernel.lockHeight = 0 ∧
      point C r.output.commit = (60000000000 + fees) • C.genV + point C r.kernel.excess ∧ KernelSigned L r.kernel := by
  have hmc : m.commit = C.ser ((60000000000 + fees) • C.genV + beVal m.key • C.genB) := by rw [made_parts hm, hC.commit_eq _ _ hb]
  have ht := transparent_ok hC (v := 60000000000 + fees) (by omega) hf
  have hsub : (60000000000 + fees) • C.genV + beVal m.key • C.genB - ([(60000000000 + fees) • C.genV] : List G).sum = beVal m.key • C.genB := by
    simp only [List.sum_cons, List.sum_nil, add_zero]; abel
  have ha := add_one (C := C) _ [(60000000000 + fees) • C.genV] hc (by simpa using hC.value_ne _ (by omega) hf) (by rw [hsub]; exact hx)
  rw [hsub] at ha
  simp only [List.map_cons, List.map_nil] at ha
  have hexc : beVal m.key • C.genB = (scalarOf m.key : F) • L.gen := by
    rw [hC.gen_eq, scalarOf, Nat.cast_smul_eq_nsmul]
  refine ⟨⟨⟨1, ⟨0, 0⟩, 0, C.ser (beVal m.key • C.genB), serSig (signPartial L.toScheme (scalarOf m.key) nonce
    ((scalarOf m.key : F) • L.gen) (nonce • L.gen) (L.msgOf [1]))⟩, ⟨1, m.commit, m.proof⟩, given.getD [0, 0, db.nextChild]⟩, ?_, rfl, rfl, rfl, rfl, rfl, ?_, ?_⟩
  · unfold buildCoinbase
    simp only [REWARD, show (60 * 1000000000 + fees) % 2 ^ 64 = 60000000000 + fees from Nat.mod_eq_of_lt hf, nextChildPath, hm, ht, Res.ok_bind]
    rw [hmc, ha]
    simp only [Res.ok_bind, buildSignature, hC.key_ser _ hx, Option.map_some, Res.pure_eq]
    rw [hexc]
  · simp only
    rw [hmc, point_ser C _ hc, point_ser C _ hx]
  · refine ⟨(scalarOf m.key : F) • L.gen, _, ?_, hC.sig_ser _, ?_⟩
    · simp only
      rw [hC.key_ser _ hx, hexc]
    · exact own_signature_valid L.toScheme (scalarOf m.key) nonce _ hn

omit [DecidableEq G] in
private theorem nsmul_inj (hC : CoinLaws l C L serSig) : ∀ {a b : Nat}, a < 2 ^ 64 → b < 2 ^ 64 → a • C.genV = b • C.genV → a = b := by
  have key : ∀ {a b : Nat}, a ≤ b → b < 2 ^ 64 → a • C.genV = b • C.genV → a = b := by
    intro a b hab hb h
    by_contra hne
    apply hC.value_ne (b - a) (by omega) (by omega)
    have : b • C.genV = (b - a) • C.genV + a • C.genV := by rw [← add_smul]; congr 1; omega
    rw [this] at h
    simpa using h
  intro a b ha hb h
  rcases Nat.le_total a b with hab | hab
  · exact key hab hb h
  · exact (key hab ha h.symm).symm

/-- **C113.** A block with this coinbase and no other passes the check of its reward exactly if its kernels pay the fees that the
wallet was told. -/
theorem coinbase_pays_exactly (hC : CoinLaws l C L serSig) {seed : Bytes} {fees : Nat} {given : Option (List Nat)} {db db' : WDB} {nonce : F}
    {m : Made} {r : Built} (hf : 60000000000 + fees < 2 ^ 64)
    (hm : makeOutput l seed (60000000000 + fees) (given.getD [0, 0, db.nextChild]) .enhanced = .ok m)
    (hb : beVal m.key < C.order) (hx : beVal m.key • C.genB ≠ 0) (hc : (60000000000 + fees) • C.genV + beVal m.key • C.genB ≠ 0)
    (hn : nonce • L.gen ≠ 0) (hr : buildCoinbase l C L scalarOf serSig nonce seed fees given db = .ok (r, db'))
    (b : Body) (ho : b.outputs.filter outIsCoinbase = [r.output]) (hk : b.kernels.filter kerIsCoinbase = [r.kernel])
    (hs : 60000000000 + (b.kernels.map (·.fee.fee)).sum < 2 ^ 64) :
    verifyCoinbase C b = .ok () ↔ (b.kernels.map (·.fee.fee)).sum = fees := by
  obtain ⟨r', hr', h1, -, -, -, -, h2, -⟩ := coinbase_built hC hf hm hb hx hc hn
  obtain rfl : r' = r := by rw [hr] at hr'; injection hr' with h; injection h with h _; exact h.symm
  have hmc : m.commit = C.ser ((60000000000 + fees) • C.genV + beVal m.key • C.genB) := by rw [made_parts hm, hC.commit_eq _ _ hb]
  constructor
  · intro h
    have := coinbase_balances C b hs h
    rw [ho, hk] at this
    simp only [List.map_cons, List.map_nil, total_cons, total_nil, add_zero] at this
    rw [h2] at this
    have e := nsmul_inj hC hf hs (by simpa [REWARD] using this)
    omega
  · intro h
    have hx2 : r'.kernel.excess = C.ser (beVal m.key • C.genB) := by
      have ht := transparent_ok hC (v := 60000000000 + fees) (by omega) hf
      have hsub : (60000000000 + fees) • C.genV + beVal m.key • C.genB - ([(60000000000 + fees) • C.genV] : List G).sum = beVal m.key • C.genB := by
        simp only [List.sum_cons, List.sum_nil, add_zero]; abel
      have ha := add_one (C := C) _ [(60000000000 + fees) • C.genV] hc (by simpa using hC.value_ne _ (by omega) hf) (by rw [hsub]; exact hx)
      rw [hsub] at ha
      simp only [List.map_cons, List.map_nil] at ha
      unfold buildCoinbase at hr
      simp only [REWARD, show (60 * 1000000000 + fees) % 2 ^ 64 = 60000000000 + fees from Nat.mod_eq_of_lt hf, nextChildPath, hm, ht, Res.ok_bind] at hr
      rw [hmc, ha] at hr
      simp only [Res.ok_bind, buildSignature, hC.key_ser _ hx, Option.map_some, Res.pure_eq, Res.ok.injEq, Prod.mk.injEq] at hr
      rw [← hr.1]
    unfold verifyCoinbase
    simp only [REWARD, h, show (60 * 1000000000 + fees) % 2 ^ 64 = 60000000000 + fees from Nat.mod_eq_of_lt hf]
    rw [transparent_ok hC (by omega) hf, ho, hk]
    simp only [Res.ok_bind, List.map_cons, List.map_nil]
    have hsub : (60000000000 + fees) • C.genV + beVal m.key • C.genB - ([(60000000000 + fees) • C.genV] : List G).sum = beVal m.key • C.genB := by
      simp only [List.sum_cons, List.sum_nil, add_zero]; abel
    have ha := add_one (C := C) _ [(60000000000 + fees) • C.genV] hc (by simpa using hC.value_ne _ (by omega) hf) (by rw [hsub]; exact hx)
    rw [hsub] at ha
    simp only [List.map_cons, List.map_nil] at ha
    have hk2 := add_one (C := C) (beVal m.key • C.genB) [] hx (by simp) (by simpa using hx)
    simp only [List.map_nil, List.sum_nil, sub_zero] at hk2
    rw [h1, hx2, hmc, ha]
    simp only [Res.ok_bind, hk2]
    simp

/-- **C113.** The wallet recognises its coinbase in the chain from the seed alone, at any height, with the path it answered to the miner and the
reward and fees as amount. -/
theorem coinbase_found (hl : KeyLaws l) (env : PoW.Env) {seed : Bytes} {c : Wallet.Chain} (hs : keyChain l seed = .ok c) {scalar : Bytes → F}
    {fees : Nat} {given : Option (List Nat)} {db db' : WDB} {nonce : F} {r : Built}
    (hr : buildCoinbase l C L scalar serSig nonce seed fees given db = .ok (r, db'))
    (hp : ∀ p, given = some p → p ≠ [] ∧ p.length ≤ 4 ∧ ∀ i ∈ p, i < 2 ^ 32) (hd : db.nextChild < 2 ^ 32)
    (hn : rewindNonce l c r.output.commit .original ≠ rewindNonce l c r.output.commit .enhanced) (height : Nat) :
    ∃ w, walletOutput l env c height r.output.commit r.output.proof = .ok (some w) ∧ w.path = r.path ∧
      w.amount = (60000000000 + fees) % 2 ^ 64 ∧ r.output.commit = l.commit w.amount w.key := by
  unfold buildCoinbase at hr
  rw [Res.bind_eq_ok] at hr; obtain ⟨m, hm, hr⟩ := hr
  rw [Res.bind_eq_ok] at hr; obtain ⟨t, -, hr⟩ := hr
  rw [Res.bind_eq_ok] at hr; obtain ⟨e, -, hr⟩ := hr
  split at hr
  · cases hr
  · simp only [Res.pure_eq, Res.ok.injEq, Prod.mk.injEq] at hr
    obtain ⟨rfl, -⟩ := hr
    have hpath : ∀ q, q = given.getD [0, 0, db.nextChild] → q ≠ [] ∧ q.length ≤ 4 ∧ ∀ i ∈ q, i < 2 ^ 32 := by
      rintro q rfl
      cases given with
      | none => simpa using hd
      | some p => exact hp p rfl
    obtain ⟨q1, q2, q3⟩ := hpath _ rfl
    obtain ⟨w1, w2, w3, w4⟩ := own_output_found l hl env seed c hs _ (Nat.mod_lt _ (by decide)) _ q1 q2 q3 m hm hn height
    exact ⟨m, w1, w3, w4, by rw [w4]; exact w2⟩

end

/-! ## A concrete library: rational numbers -/

/-- Rational numbers as points, a number written as the length of a string. -/
def curveQ : Curve ℚ where
  parse bs := Encodable.decode (bs.length - 1)
  ser g := 8 :: List.replicate (Encodable.encode g) 0
  genV := 1
  genB := 7
  order := secpN
  parse_ser g _ := by simp
  ser_ne g h := by simpa using congrArg List.head? h

/-- Signatures over the rational numbers: the points with a square y-coordinate are the positive ones. -/
def libQ : SigLib ℚ ℚ ℚ Bytes where
  gen := 7
  quad p := decide (0 < p)
  xof p := |p|
  challenge x P m := x + 3 * P + m.length
  quad_neg p hp := by
    rcases lt_or_gt_of_ne hp with h | h
    · simp [h, not_lt.2 h.le]
    · simp [h, not_lt.2 h.le]
  xof_neg p := abs_neg p
  keyOf bs := Encodable.decode (bs.length - 1)
  sigOf bs := Encodable.decode bs.length
  msgOf bs := bs
  lift x := if 0 < x then some x else none
  coef _ _ := 1
  lift_ok x R h := by
    split at h
    · rename_i hx
      injection h with h
      subst h
      exact ⟨hx.ne', by simpa using hx, abs_of_pos hx⟩
    · cases h
  lift_all R _ hq := by
    have hq : 0 < R := by simpa using hq
    simp [abs_of_pos hq, hq]
  coef_first _ := rfl

/-- A signature written as the length of a string. -/
def serQ (s : ℚ × ℚ) : Bytes := List.replicate (Encodable.encode s) 0

/-- The key library of `Props.Keys` with the commitments of `curveQ`. -/
def keysQ : KeyLib := { toyKeys with commit := fun v k => curveQ.ser (v • curveQ.genV + beVal k • curveQ.genB) }

theorem keysQ_laws : KeyLaws keysQ where
  hmac_length := toyKeys_laws.hmac_length
  pub_form := toyKeys_laws.pub_form
  add_some := toyKeys_laws.add_some
  add_valid := toyKeys_laws.add_valid
  blake_length := toyKeys_laws.blake_length
  nonce_length := toyKeys_laws.nonce_length
  switch_length := toyKeys_laws.switch_length
  rewind_own := toyKeys_laws.rewind_own
  rewind_other := toyKeys_laws.rewind_other

theorem coinQ_laws : CoinLaws keysQ curveQ libQ serQ where
  commit_eq _ _ _ := rfl
  gen_eq := rfl
  order_pos := by decide
  key_ser g _ := by simp [libQ, curveQ]
  sig_ser s := by simp only [libQ, serQ, List.length_replicate, Encodable.encodek]
  value_ne n h _ := by simp [curveQ]; omega

/-- A wallet whose next index is 5. -/
private def dbQ : WDB := ⟨[], [], [], 5, 0, 0⟩

private theorem deriveQ : ∀ (p : List Nat) (k : ExtKey), derive keysQ k p = derive toyKeys k p
  | [], _ => rfl
  | i :: p, k => by
    simp only [derive, show childKey keysQ k i = childKey toyKeys k i from rfl]
    congr 1
    funext c
    exact deriveQ p c

private theorem madeQ {p : List Nat} {v : Nat} {m : Made} (h : makeOutput toyKeys toySeed v p .enhanced = .ok m) :
    ∃ m', makeOutput keysQ toySeed v p .enhanced = .ok m' ∧ m'.key = m.key := by
  refine ⟨{ m with commit := keysQ.commit v m.key }, ?_, rfl⟩
  unfold makeOutput at h ⊢
  rw [show keyChain keysQ toySeed = keyChain toyKeys toySeed from rfl]
  rw [Res.bind_eq_ok] at h; obtain ⟨c, h1, h⟩ := h
  rw [Res.bind_eq_ok] at h; obtain ⟨k, h2, h⟩ := h
  rw [Res.bind_eq_ok] at h; obtain ⟨pr, h3, h⟩ := h
  simp only [Res.pure_eq, Res.ok.injEq] at h
  subst h
  have h2' : outputKey keysQ c p v = .ok k := by
    unfold outputKey at h2 ⊢
    rw [deriveQ]; exact h2
  have h3' : rangeProof keysQ c p v (keysQ.commit v k) k .enhanced = .ok pr := h3
  simp only [h1, h2', h3', Res.ok_bind, Res.pure_eq]

private def made23 : Made :=
  match makeOutput toyKeys toySeed (60000000000 + 23) [0, 0, 3] .enhanced with
  | .ok m => m
  | _ => ⟨[], 0, [], [], []⟩

private theorem made23_eq : makeOutput toyKeys toySeed (60000000000 + 23) [0, 0, 3] .enhanced = .ok made23 ∧ beVal made23.key = 12 := by
  decide +kernel

/-- The hypotheses of the theorems are met: fees of 23 and the path `m/0/0/3`. -/
example : ∃ r, buildCoinbase keysQ curveQ libQ scalarOf serQ 2 toySeed 23 (some [0, 0, 3]) dbQ = .ok (r, { dbQ with nextChild := 6 }) ∧
      KernelSigned libQ r.kernel ∧
      (∀ fee sig, fee < 1000 →
        (verifyCoinbase curveQ ⟨[], [r.output], [r.kernel, ⟨0, ⟨0, fee⟩, 0, [], sig⟩]⟩ = .ok () ↔ fee = 23)) ∧
      ∃ w, walletOutput keysQ .mainnet toyChain 1000 r.output.commit r.output.proof = .ok (some w) ∧ w.path = [0, 0, 3] ∧ w.amount = 60000000023 := by
  obtain ⟨m, hm, hk⟩ := madeQ made23_eq.1
  rw [show [0, 0, 3] = (some [0, 0, 3]).getD [0, 0, dbQ.nextChild] from rfl] at hm
  have hk : beVal m.key = 12 := by rw [hk]; exact made23_eq.2
  have b1 : beVal m.key < curveQ.order := by rw [hk]; decide
  have b2 : beVal m.key • curveQ.genB ≠ 0 := by rw [hk]; simp [curveQ]
  have b3 : (60000000000 + 23) • curveQ.genV + beVal m.key • curveQ.genB ≠ 0 := by
    rw [hk]
    exact ne_of_gt (add_pos (nsmul_pos (show (0 : ℚ) < 1 from one_pos) (Nat.succ_ne_zero _)) (nsmul_pos (show (0 : ℚ) < 7 by simp) (by decide)))
  have b4 : (2 : ℚ) • libQ.gen ≠ 0 := by simp [libQ]
  obtain ⟨r, h1, h2, h3, h4, h5, -, -, h6⟩ := coinbase_built coinQ_laws (fees := 23) (given := some [0, 0, 3]) (db := dbQ) (by omega) hm b1 b2 b3 b4
  refine ⟨r, h1, h6, ?_, ?_⟩
  · intro fee sig hfee
    have := coinbase_pays_exactly coinQ_laws (fees := 23) (by omega) hm b1 b2 b3 b4 h1 ⟨[], [r.output], [r.kernel, ⟨0, ⟨0, fee⟩, 0, [], sig⟩]⟩
      (by simp [outIsCoinbase, h2]) (by simp [kerIsCoinbase, h4]) (by simp [h5]; omega)
    rw [this]
    simp [h5]
  · obtain ⟨w, w1, w2, w3, -⟩ := coinbase_found keysQ_laws .mainnet (c := toyChain) (by decide +kernel) h1 (by simp) (by decide)
      (by simp only [rewindNonce, keysQ, toyKeys]; decide +kernel) 1000
    exact ⟨w, w1, by rw [w2, h3]; rfl, w3⟩

end Verif.Props
