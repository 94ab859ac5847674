import Verif.Wallet.Keys
import Verif.Props.KeyPath
import Verif.Props.Restore
import Mathlib.Data.List.Induction
import Mathlib.Data.Nat.ModEq
import Mathlib.Tactic.Ring

/-!
# C96, C97: keys from the seed, and outputs recognised again
-/
namespace Verif.Props

open Verif Verif.Codec Verif.Wallet Verif.Tx

/-- Spec: a valid secret of the group: 32 bytes, a number from 1 to n - 1. -/
def ValidSecret (s : Bytes) : Prop := s.length = 32 ∧ 0 < beVal s ∧ beVal s < secpN

/-- Spec: BIP32, master key generation, with Grin's key string: the secret as a number, and the chain code. -/
def bip32Master (hmac : Bytes → Bytes → Bytes) (seed : Bytes) : Option (Nat × Bytes) :=
  let i := hmac (str "IamVoldemort") seed
  let n := beVal (i.take 32)
  if n = 0 ∨ n ≥ secpN then none else some (n, (i.drop 32).take 32)

/-- Spec: BIP32, child key derivation from secret to secret: `serP (point (k))` is `pub`. -/
def bip32Child (hmac : Bytes → Bytes → Bytes) (pub : Bytes → Bytes) (k : Nat) (chain : Bytes) (i : Nat) : Option (Nat × Bytes) :=
  let data := if i < 2 ^ 31 then pub (beBytes 32 k) ++ beBytes 4 i else [0] ++ beBytes 32 k ++ beBytes 4 i
  let h := hmac chain data
  let left := beVal (h.take 32)
  if left ≥ secpN ∨ (left + k) % secpN = 0 then none else some ((left + k) % secpN, (h.drop 32).take 32)

/-- What is assumed of the libraries. -/
structure KeyLaws (l : KeyLib) : Prop where
  hmac_length : ∀ k d, (l.hmac k d).length = 64
  pub_form : ∀ s, (l.pub s).length = 33 ∧ ((l.pub s).head? = some 2 ∨ (l.pub s).head? = some 3)
  add_some : ∀ a b s, l.add a b = some s → ValidSecret s
  add_valid : ∀ a b, ValidSecret a → ValidSecret b →
    l.add a b = if (beVal a + beVal b) % secpN = 0 then none else some (beBytes 32 ((beVal a + beVal b) % secpN))
  blake_length : ∀ x, (l.blake x).length = 32
  nonce_length : ∀ k x, (l.blakeKeyed k x).length = 32
  switch_length : ∀ s v, (l.switch s v).length = 32
  rewind_own : ∀ v k pn rn m, v < 2 ^ 64 → k.length = 32 → pn.length = 32 → rn.length = 32 → m.length = 20 →
    ∃ b, l.rewind (l.commit v k) (l.prove v k pn rn m) rn = some (v, b, m) ∧ (pn = rn → b = k)
  rewind_other : ∀ v k pn rn m n, v < 2 ^ 64 → k.length = 32 → pn.length = 32 → rn.length = 32 → m.length = 20 → n ≠ rn →
    l.rewind (l.commit v k) (l.prove v k pn rn m) n = none

private theorem beVal_cons (a : UInt8) (as : Bytes) : beVal (a :: as) = a.toNat * 256 ^ as.length + beVal as := by
  induction as using List.reverseRecOn with
  | nil => simp [beVal]
  | append_singleton as b ih =>
    rw [← List.cons_append, beVal_append_single, ih, beVal_append_single, List.length_append, Nat.pow_add]
    simp only [List.length_cons, List.length_nil]
    ring

private theorem bigLt_iff : ∀ (a b : Bytes), a.length = b.length → (bigLt a b = true ↔ beVal a < beVal b)
  | [], [], _ => by simp [bigLt]
  | a :: as, b :: bs, h => by
    have hl : as.length = bs.length := by simpa using h
    have ih := bigLt_iff as bs hl
    have ha := beVal_lt as
    have hb := beVal_lt bs
    rw [beVal_cons, beVal_cons, hl]
    rw [hl] at ha
    unfold bigLt
    by_cases e : b = a
    · subst e
      simp [ih]
    · rw [if_pos e]
      simp only [decide_eq_true_eq, UInt8.lt_iff_toNat_lt]
      have hne : b.toNat ≠ a.toNat := fun h => e (UInt8.toNat_inj.mp h)
      constructor
      · intro hlt
        have : (a.toNat + 1) * 256 ^ bs.length ≤ b.toNat * 256 ^ bs.length := Nat.mul_le_mul_right _ hlt
        rw [Nat.add_mul, Nat.one_mul] at this
        omega
      · intro hlt
        by_contra hc
        have : (b.toNat + 1) * 256 ^ bs.length ≤ a.toNat * 256 ^ bs.length := Nat.mul_le_mul_right _ (by omega)
        rw [Nat.add_mul, Nat.one_mul] at this
        omega

private theorem beBytes_of_length {a : Bytes} {n : Nat} (h : a.length = n) : beBytes n (beVal a) = a := h ▸ beBytes_beVal a

private theorem secpN_lt : secpN < 256 ^ 32 := by decide +kernel

private theorem beVal_inj {a b : Bytes} (hl : a.length = b.length) (h : beVal a = beVal b) : a = b := by
  rw [← beBytes_beVal a, ← beBytes_beVal b, hl, h]

private theorem bigGe_iff {a : Bytes} (h : a.length = 32) : bigGe a (beBytes 32 secpN) = true ↔ secpN ≤ beVal a := by
  have hv := beVal_beBytes_of_lt secpN_lt
  unfold bigGe
  rw [Bool.or_eq_true, bigLt_iff _ _ (by rw [beBytes_length, h]), hv, beq_iff_eq]
  constructor
  · rintro (h1 | h1)
    · omega
    · rw [h1, hv]
  · intro h1
    by_cases e : secpN = beVal a
    · right
      rw [e, ← h, beBytes_beVal]
    · left; omega

/-- **C96, master key.** The master key of a seed is that of BIP32 with Grin's key string, and the seed is refused exactly when BIP32
has no key for it. -/
theorem master_key_standard (l : KeyLib) (hl : KeyLaws l) (seed : Bytes) :
    masterKey l seed = match bip32Master l.hmac seed with
      | none => .throw
      | some (n, c) => .ok ⟨beBytes 32 n, c⟩ := by
  have h32 : ((l.hmac (str "IamVoldemort") seed).take 32).length = 32 := by
    rw [List.length_take, hl.hmac_length]; decide
  have hz : (l.hmac (str "IamVoldemort") seed).take 32 = List.replicate 32 0 ↔
      beVal ((l.hmac (str "IamVoldemort") seed).take 32) = 0 := by
    constructor
    · intro h; rw [h]; decide
    · intro h; exact beVal_inj (by rw [h32]; decide) (by rw [h]; decide)
  have hb : beBytes 32 (beVal ((l.hmac (str "IamVoldemort") seed).take 32)) = (l.hmac (str "IamVoldemort") seed).take 32 :=
    beBytes_of_length h32
  simp only [masterKey, bip32Master, bigGe_iff h32, hz, ge_iff_le]
  split
  · rfl
  · simp only [hb]

/-- **C96, child keys, where the left half is a valid secret.** The key derived for an index is that of BIP32, hardened from index 2^31.

Partial: BIP32 has no key if the left half of the HMAC is n or more, and keeps the parent's if it is zero; the code leaves both to the
library. -/
theorem child_key_standard_partial (l : KeyLib) (hl : KeyLaws l) (k : ExtKey) (hk : ValidSecret k.secret) (i : Nat)
    (hv : ValidSecret ((l.hmac k.chain (childData l k.secret i)).take 32)) :
    childKey l k i = match bip32Child l.hmac l.pub (beVal k.secret) k.chain i with
      | none => .throw
      | some (n, c) => .ok ⟨beBytes 32 n, c⟩ := by
  have hb : beBytes 32 (beVal k.secret) = k.secret := beBytes_of_length hk.1
  have hd : (if i < 2 ^ 31 then l.pub (beBytes 32 (beVal k.secret)) ++ beBytes 4 i
      else [0] ++ beBytes 32 (beVal k.secret) ++ beBytes 4 i) = childData l k.secret i := by
    rw [hb]
    unfold childData
    by_cases h : i < 2 ^ 31
    · rw [if_pos h, if_neg (by omega)]
    · rw [if_neg h, if_pos (by omega)]; rfl
  simp only [childKey, bip32Child, hd]
  rw [hl.add_valid _ _ hv hk]
  have hnv : ¬ beVal ((l.hmac k.chain (childData l k.secret i)).take 32) ≥ secpN := Nat.not_le.mpr hv.2.2
  by_cases h0 : (beVal ((l.hmac k.chain (childData l k.secret i)).take 32) + beVal k.secret) % secpN = 0
  · rw [if_pos h0, if_pos (.inr h0)]
  · rw [if_neg h0, if_neg (not_or.mpr ⟨hnv, h0⟩)]

/-- **C96, validity.** Every key derived from a seed, at any depth, is a valid secret. -/
theorem derived_key_valid (l : KeyLib) (hl : KeyLaws l) (seed : Bytes) (m : ExtKey) (hm : masterKey l seed = .ok m)
    (p : List Nat) (k : ExtKey) (hd : derive l m p = .ok k) : ValidSecret k.secret ∧ k.chain.length = 32 := by
  have h0 : ValidSecret m.secret ∧ m.chain.length = 32 := by
    have h32 : ((l.hmac (str "IamVoldemort") seed).take 32).length = 32 := by
      rw [List.length_take, hl.hmac_length]; decide
    have h32' : (((l.hmac (str "IamVoldemort") seed).drop 32).take 32).length = 32 := by
      rw [List.length_take, List.length_drop, hl.hmac_length]; decide
    simp only [masterKey] at hm
    split at hm
    · exact absurd hm (by simp)
    · rename_i hc
      rw [bigGe_iff h32] at hc
      have e := Res.ok.inj hm
      subst e
      refine ⟨⟨h32, Nat.pos_of_ne_zero fun hz => hc (.inl ?_), Nat.lt_of_not_le fun h => hc (.inr h)⟩, h32'⟩
      exact beVal_inj (by rw [h32]; decide) (by rw [hz]; decide)
  induction p generalizing m with
  | nil =>
    have e : m = k := Res.ok.inj hd
    exact e ▸ h0
  | cons i p ih =>
    simp only [derive, Res.bind_eq_ok] at hd
    obtain ⟨c, hc, hd⟩ := hd
    clear hm ih
    suffices h : ∀ (q : List Nat) (c : ExtKey), (ValidSecret c.secret ∧ c.chain.length = 32) → derive l c q = .ok k →
        ValidSecret k.secret ∧ k.chain.length = 32 by
      refine h p c ?_ hd
      simp only [childKey] at hc
      split at hc
      · exact absurd hc (by simp)
      · rename_i s hs
        have e := Res.ok.inj hc
        subst e
        exact ⟨hl.add_some _ _ _ hs, by rw [List.length_take, List.length_drop, hl.hmac_length]; decide⟩
    intro q
    induction q with
    | nil => intro c h hd; exact (Res.ok.inj hd : c = k) ▸ h
    | cons j q ih =>
      intro c h hd
      simp only [derive, Res.bind_eq_ok] at hd
      obtain ⟨d, hc, hd⟩ := hd
      refine ih d ?_ hd
      simp only [childKey] at hc
      split at hc
      · exact absurd hc (by simp)
      · rename_i s hs
        have e := Res.ok.inj hc
        subst e
        exact ⟨hl.add_some _ _ _ hs, by rw [List.length_take, List.length_drop, hl.hmac_length]; decide⟩

/-- **C96, hierarchy.** The key of a path is derived from the key of any prefix with the rest of the path. -/
theorem derive_hierarchical (l : KeyLib) (m : ExtKey) (p q : List Nat) :
    derive l m (p ++ q) = derive l m p >>= fun k => derive l k q := by
  induction p generalizing m with
  | nil => rfl
  | cons i p ih =>
    simp only [List.cons_append, derive]
    cases h : childKey l m i with
    | ok c => simpa using ih c
    | throw => rfl
    | ub => rfl

/-- **C96, nothing is authenticated twice.** What two derivations authenticate is the same only for the same index and, for
hardened indices, the same secret, and, for the others, the same public key. -/
theorem child_data_injective (l : KeyLib) (hl : KeyLaws l) (s s' : Bytes) (hs : s.length = 32) (hs' : s'.length = 32) (i j : Nat)
    (hi : i < 2 ^ 32) (hj : j < 2 ^ 32) (h : childData l s i = childData l s' j) :
    i = j ∧ (2 ^ 31 ≤ i → s = s') ∧ (i < 2 ^ 31 → l.pub s = l.pub s') := by
  obtain ⟨p1, p1'⟩ := hl.pub_form s
  obtain ⟨p2, p2'⟩ := hl.pub_form s'
  unfold childData at h
  have hlen : ∀ (c : Prop) [Decidable c] (t : Bytes), t.length = 32 → (if c then 0 :: t else l.pub t).length = 33 := by
    intro c _ t ht
    split
    · simp [ht]
    · exact (hl.pub_form t).1
  obtain ⟨h1, h2⟩ := List.append_inj h (by rw [hlen _ _ hs, hlen _ _ hs'])
  have e : i = j := by
    have := congrArg beVal h2
    rwa [beVal_beBytes_of_lt (by simpa using hi), beVal_beBytes_of_lt (by simpa using hj)] at this
  subst e
  refine ⟨rfl, fun hh => ?_, fun hh => ?_⟩
  · rw [if_pos (by omega), if_pos (by omega)] at h1
    exact List.tail_eq_of_cons_eq h1
  · rw [if_neg (by omega), if_neg (by omega)] at h1
    exact h1

/-- **C96, siblings.** Two children of a key whose HMACs differ in the left half as secrets have different keys, so no two outputs of a
wallet share a key unless HMAC-SHA512 collides on the two different strings of `child_data_injective`. -/
theorem sibling_keys_differ (l : KeyLib) (hl : KeyLaws l) (k a b : ExtKey) (hk : ValidSecret k.secret) (i j : Nat)
    (hvi : ValidSecret ((l.hmac k.chain (childData l k.secret i)).take 32))
    (hvj : ValidSecret ((l.hmac k.chain (childData l k.secret j)).take 32))
    (hne : (l.hmac k.chain (childData l k.secret i)).take 32 ≠ (l.hmac k.chain (childData l k.secret j)).take 32)
    (ha : childKey l k i = .ok a) (hb : childKey l k j = .ok b) : a.secret ≠ b.secret := by
  intro he
  simp only [childKey] at ha hb
  rw [hl.add_valid _ _ hvi hk] at ha
  rw [hl.add_valid _ _ hvj hk] at hb
  generalize hA : (l.hmac k.chain (childData l k.secret i)).take 32 = A at *
  generalize hB : (l.hmac k.chain (childData l k.secret j)).take 32 = B at *
  by_cases ca : (beVal A + beVal k.secret) % secpN = 0
  · rw [if_pos ca] at ha; exact absurd ha (by simp)
  by_cases cb : (beVal B + beVal k.secret) % secpN = 0
  · rw [if_pos cb] at hb; exact absurd hb (by simp)
  rw [if_neg ca] at ha
  rw [if_neg cb] at hb
  have ea := congrArg ExtKey.secret (Res.ok.inj ha)
  have eb := congrArg ExtKey.secret (Res.ok.inj hb)
  simp only at ea eb
  rw [← ea, ← eb] at he
  have hv := congrArg beVal he
  have hpos : 0 < secpN := by decide
  rw [beVal_beBytes_of_lt (Nat.lt_trans (Nat.mod_lt _ hpos) secpN_lt),
    beVal_beBytes_of_lt (Nat.lt_trans (Nat.mod_lt _ hpos) secpN_lt)] at hv
  apply hne
  refine beVal_inj (by rw [hvi.1, hvj.1]) ?_
  have h1 := hvi.2.2
  have h2 := hvj.2.2
  have h3 : (beVal A) % secpN = (beVal B) % secpN := by
    have := Nat.ModEq.add_right_cancel' (n := secpN) (beVal k.secret) hv
    exact this
  rwa [Nat.mod_eq_of_lt h1, Nat.mod_eq_of_lt h2] at h3

/-! ## C97: own outputs -/

private theorem make_parts {l : KeyLib} {seed : Bytes} {v : Nat} {p : List Nat} {t : ProofType} {m : Made}
    (h : makeOutput l seed v p t = .ok m) : ∃ c msg, keyChain l seed = .ok c ∧ outputKey l c p v = .ok m.key ∧
      proofMessage p t = .ok msg ∧ m.path = p ∧ m.amount = v ∧ m.commit = l.commit v m.key ∧
      m.proof = l.prove v m.key (privateNonce l c m.commit t) (rewindNonce l c m.commit t) msg := by
  simp only [makeOutput, rangeProof, Res.bind_eq_ok, Res.pure_eq] at h
  obtain ⟨c, hc, key, hk, pr, ⟨msg, hm, hp⟩, h⟩ := h
  have e := Res.ok.inj h
  have e' := Res.ok.inj hp
  subst e e'
  exact ⟨c, msg, hc, hk, hm, rfl, rfl, rfl, rfl⟩

private theorem key_length {l : KeyLib} (hl : KeyLaws l) {c : Wallet.Chain} {p : List Nat} {v : Nat} {k : Bytes}
    (h : outputKey l c p v = .ok k) : k.length = 32 := by
  simp only [outputKey, Res.bind_eq_ok, Res.pure_eq] at h
  obtain ⟨x, _, h⟩ := h
  rw [← Res.ok.inj h]
  exact hl.switch_length _ _

private theorem nonce_lengths {l : KeyLib} (hl : KeyLaws l) (c : Wallet.Chain) (x : Bytes) (t : ProofType) :
    (privateNonce l c x t).length = 32 ∧ (rewindNonce l c x t).length = 32 := by
  cases t <;> exact ⟨hl.nonce_length _ _, hl.nonce_length _ _⟩

/-- **C97, finding takes the public key only.** Two wallets with the same public root key find the same in every range proof
of the present kind: the secret is not needed to see the amount and the path of an output. -/
theorem view_by_public_key (l : KeyLib) (c c' : Wallet.Chain) (h : l.pub c.master.secret = l.pub c'.master.secret)
    (commit proof : Bytes) : l.rewind commit proof (rewindNonce l c commit .enhanced) =
      l.rewind commit proof (rewindNonce l c' commit .enhanced) := by
  simp only [rewindNonce, h]

/-- **C97, own outputs.** An output the wallet made, whether in a payment or as a block reward, for any path of one to four indices, is
recognised at whatever height it is found, by a wallet that has nothing but the seed: with the path, the amount and the key that
opens the commitment. -/
theorem own_output_found (l : KeyLib) (hl : KeyLaws l) (env : PoW.Env) (seed : Bytes) (c : Wallet.Chain)
    (hc : keyChain l seed = .ok c) (v : Nat) (hv : v < 2 ^ 64) (p : List Nat) (hp : p ≠ []) (hp4 : p.length ≤ 4)
    (hi : ∀ i ∈ p, i < 2 ^ 32) (m : Made) (hm : makeOutput l seed v p .enhanced = .ok m)
    (hn : rewindNonce l c m.commit .original ≠ rewindNonce l c m.commit .enhanced) (height : Nat) :
    walletOutput l env c height m.commit m.proof = .ok (some m) ∧ m.commit = l.commit v m.key ∧ m.path = p ∧ m.amount = v := by
  obtain ⟨c', msg, hc', hk, hmsg, h1, h2, h3, h4⟩ := make_parts hm
  obtain rfl : c' = c := Res.ok.inj (hc'.symm.trans hc)
  obtain ⟨bs, hb1, hb2, hb3⟩ := proof_message_roundtrip_partial p .enhanced hp4 hi
  obtain rfl : msg = bs := Res.ok.inj (hmsg.symm.trans hb1)
  simp only [if_neg hp] at hb3
  have hkl := key_length hl hk
  obtain ⟨n1, n2⟩ := nonce_lengths hl c' m.commit .enhanced
  obtain ⟨b, r1, -⟩ := hl.rewind_own v m.key _ _ msg hv hkl n1 n2 hb2
  have r2 := hl.rewind_other v m.key _ _ msg _ hv hkl n1 n2 hb2 hn
  rw [← h3, ← h4] at r1 r2
  refine ⟨?_, h3, h1, h2⟩
  simp only [walletOutput, r1, r2, ite_self, foundOutput, hb3, Res.ok_bind, hk, Res.pure_eq]
  rw [← h1, ← h2]

/-- **C97, outputs of the first kind.** An output made with the first kind of range proof is recognised up to two weeks after the first
hard fork, for paths of three indices. -/
theorem old_output_found (l : KeyLib) (hl : KeyLaws l) (env : PoW.Env) (seed : Bytes) (c : Wallet.Chain)
    (hc : keyChain l seed = .ok c) (v : Nat) (hv : v < 2 ^ 64) (p : List Nat) (hp3 : p.length = 3)
    (hi : ∀ i ∈ p, i < 2 ^ 32) (m : Made) (hm : makeOutput l seed v p .original = .ok m) (height : Nat)
    (hh : height < (if env = .floonet then 185040 else 262080) + 20160) :
    walletOutput l env c height m.commit m.proof = .ok (some m) := by
  obtain ⟨c', msg, hc', hk, hmsg, h1, h2, h3, h4⟩ := make_parts hm
  obtain rfl : c' = c := Res.ok.inj (hc'.symm.trans hc)
  obtain ⟨bs, hb1, hb2, hb3⟩ := proof_message_roundtrip_partial p .original (by omega) hi
  obtain rfl : msg = bs := Res.ok.inj (hmsg.symm.trans hb1)
  match p, hp3 with
  | [x, y, z], _ =>
    simp only [List.getD_cons_zero, List.getD_cons_succ] at hb3
    have hkl := key_length hl hk
    obtain ⟨n1, n2⟩ := nonce_lengths hl c' m.commit .original
    obtain ⟨b, r1, r2⟩ := hl.rewind_own v m.key _ _ msg hv hkl n1 n2 hb2
    obtain rfl := r2 rfl
    rw [← h3, ← h4] at r1
    have hver : PoW.headerVersion env (height - 20160) = 1 := by
      unfold PoW.headerVersion
      by_cases e : env = .floonet
      · rw [if_pos e] at hh ⊢
        rw [if_pos (by omega)]
      · rw [if_neg e] at hh ⊢
        rw [if_pos (show height - 20160 < PoW.HARD_FORK_INTERVAL by
          have : PoW.HARD_FORK_INTERVAL = 262080 := rfl
          omega)]
    simp only [walletOutput, hver, if_true, r1, foundOutput, hb3, Res.ok_bind, Res.pure_eq]
    rw [← h1, ← h2]

/-- **C97, outputs of others.** An output whose proof does not open to the wallet's nonces is left alone. -/
theorem foreign_output_ignored (l : KeyLib) (env : PoW.Env) (c : Wallet.Chain) (height : Nat) (commit proof : Bytes)
    (h : ∀ t, l.rewind commit proof (rewindNonce l c commit t) = none) : walletOutput l env c height commit proof = .ok none := by
  simp only [walletOutput, h, ite_self]

/-- What the search keeps of an output; `own_output_found` and `foreign_output_ignored` show that rewinding does not throw. -/
def keep (l : KeyLib) (env : PoW.Env) (c : Wallet.Chain) (o : Listed) : Option Made :=
  match walletOutput l env c o.loc.height (idCommit o.id) o.proof with
  | .ok m => m
  | _ => none

/-- Spec: an output of the chain that the wallet of the seed made, with some amount and path. -/
def MadeBy (l : KeyLib) (seed : Bytes) (o : Listed) (m : Made) : Prop :=
  ∃ v p, v < 2 ^ 64 ∧ p ≠ [] ∧ p.length ≤ 4 ∧ (∀ i ∈ p, i < 2 ^ 32) ∧ makeOutput l seed v p .enhanced = .ok m ∧
    idCommit o.id = m.commit ∧ o.proof = m.proof

/-- **C97, restoring.** On a chain that stands still, whose unspent outputs were each made by the wallet of the seed or by somebody
else, a search from the beginning with nothing but the seed ends, no rewinding fails, and what is found is exactly the wallet's
unspent outputs, each with its path, amount and key. -/
theorem restore_from_seed_partial (l : KeyLib) (hl : KeyLaws l) (env : PoW.Env) (seed : Bytes) (c : Wallet.Chain)
    (hc : keyChain l seed = .ok c) (H : Bytes → Bytes) (db : DB) (t : THS) (s : State)
    (h : Holds H db t s) (hi : Indexed db s) (hb : MMR.leafPos s.leaves.length < 2 ^ 64)
    (htop : s.leaves.length - 1 ∈ s.unspent) (h2 : 2 ≤ s.leaves.length)
    (hall : ∀ o ∈ entriesFrom db s 0, (∃ m, MadeBy l seed o m) ∨
      ∀ k, l.rewind (idCommit o.id) o.proof (rewindNonce l c (idCommit o.id) k) = none)
    (hn : ∀ o ∈ entriesFrom db s 0, rewindNonce l c (idCommit o.id) .original ≠ rewindNonce l c (idCommit o.id) .enhanced)
    (fuel : Nat) (hf : s.leaves.length < fuel) (saved : Nat) :
    ∃ found, findAndRewind (askNode fun _ => (db, t)) (keep l env c) fuel saved true = .ok (found, some (s.leaves.length - 1)) ∧
      (∀ o ∈ entriesFrom db s 0, ∃ r, walletOutput l env c o.loc.height (idCommit o.id) o.proof = .ok r) ∧
      ∀ m, m ∈ found ↔ ∃ o ∈ entriesFrom db s 0, MadeBy l seed o m := by
  have hs := restore_finds_partial H (keep l env c) db t s h hi hb htop h2 saved true fuel hf
  simp only [if_true, if_pos (show 0 < s.leaves.length by omega)] at hs
  have hown : ∀ o ∈ entriesFrom db s 0, ∀ m, MadeBy l seed o m →
      walletOutput l env c o.loc.height (idCommit o.id) o.proof = .ok (some m) := by
    rintro o ho m ⟨v, p, hv, hp, hp4, hpi, hm, e1, e2⟩
    have hno := hn o ho
    rw [e1] at hno
    rw [e1, e2]
    exact (own_output_found l hl env seed c hc v hv p hp hp4 hpi m hm hno _).1
  refine ⟨_, hs, ?_, ?_⟩
  · intro o ho
    rcases hall o ho with ⟨m, hm⟩ | hno
    · exact ⟨_, hown o ho m hm⟩
    · exact ⟨_, foreign_output_ignored l env c _ _ _ hno⟩
  · intro m
    rw [List.mem_filterMap]
    constructor
    · rintro ⟨o, ho, hk⟩
      refine ⟨o, ho, ?_⟩
      rcases hall o ho with ⟨m', hm'⟩ | hno
      · have : keep l env c o = some m' := by simp only [keep, hown o ho m' hm']
        rw [hk] at this
        cases this
        exact hm'
      · have : keep l env c o = none := by simp only [keep, foreign_output_ignored l env c _ _ _ hno]
        rw [hk] at this
        exact absurd this (by simp)
    · rintro ⟨o, ho, hm⟩
      exact ⟨o, ho, by simp only [keep, hown o ho m hm]⟩

/-- **C97, violated.** A block reward may be asked for with a key identifier of no indices. The wallet makes the output with its master
key, but later recognises it with the path of three zeros and that path's key, which does not open it. -/
theorem empty_path_violated (l : KeyLib) (hl : KeyLaws l) (env : PoW.Env) (seed : Bytes) (c : Wallet.Chain)
    (hc : keyChain l seed = .ok c) (v : Nat) (hv : v < 2 ^ 64) (m : Made) (hm : makeOutput l seed v [] .enhanced = .ok m)
    (hn : rewindNonce l c m.commit .original ≠ rewindNonce l c m.commit .enhanced) (height : Nat) (k : Bytes)
    (hk : outputKey l c [0, 0, 0] v = .ok k) (hne : k ≠ m.key) :
    pathFromHex (str "00") = .ok [] ∧
    ∃ m', walletOutput l env c height m.commit m.proof = .ok (some m') ∧ m'.path = [0, 0, 0] ∧ m'.key ≠ m.key := by
  refine ⟨by decide +kernel, ?_⟩
  obtain ⟨c', msg, hc', hk', hmsg, h1, h2, h3, h4⟩ := make_parts hm
  obtain rfl : c' = c := Res.ok.inj (hc'.symm.trans hc)
  obtain ⟨bs, hb1, hb2, hb3⟩ := proof_message_roundtrip_partial [] .enhanced (by simp) (by simp)
  obtain rfl : msg = bs := Res.ok.inj (hmsg.symm.trans hb1)
  simp only [if_true] at hb3
  have hkl := key_length hl hk'
  obtain ⟨n1, n2⟩ := nonce_lengths hl c' m.commit .enhanced
  obtain ⟨b, r1, -⟩ := hl.rewind_own v m.key _ _ msg hv hkl n1 n2 hb2
  have r2 := hl.rewind_other v m.key _ _ msg _ hv hkl n1 n2 hb2 hn
  rw [← h3, ← h4] at r1 r2
  refine ⟨⟨[0, 0, 0], v, k, m.commit, m.proof⟩, ?_, rfl, hne⟩
  simp only [walletOutput, r1, r2, ite_self, foundOutput, hb3, Res.ok_bind, hk, Res.pure_eq]

/-! ### A library that satisfies the assumptions -/

/-- A library that meets `KeyLaws`: hashes and keys are numbers. -/
def toyKeys : KeyLib where
  hmac _ d := beBytes 32 (beVal (d.drop 33) % 1000 + 1) ++ List.replicate 32 7
  pub s := 2 :: beBytes 32 (beVal s)
  add a b := if (beVal a + beVal b) % secpN = 0 then none else some (beBytes 32 ((beVal a + beVal b) % secpN))
  blake x := beBytes 32 (beVal x + 1)
  blakeKeyed _ x := beBytes 32 (beVal x)
  switch s _ := beBytes 32 (beVal s)
  commit v k := beBytes 8 v ++ k
  prove v k _ rn m := rn ++ (beBytes 8 v ++ (m ++ k))
  rewind _ p n := if p.take 32 = n then some (beVal ((p.drop 32).take 8), p.drop 60, (p.drop 40).take 20) else none

theorem toyKeys_laws : KeyLaws toyKeys where
  hmac_length k d := by simp [toyKeys]
  pub_form s := by simp [toyKeys]
  add_some a b s h := by
    simp only [toyKeys] at h
    split at h
    · exact absurd h (by simp)
    · rename_i hz
      have e := Option.some.inj h
      subst e
      have hlt : (beVal a + beVal b) % secpN < secpN := Nat.mod_lt _ (by decide)
      have e := beVal_beBytes_of_lt (Nat.lt_trans hlt secpN_lt)
      refine ⟨beBytes_length _ _, ?_, ?_⟩ <;> rw [e]
      · exact Nat.pos_of_ne_zero hz
      · exact hlt
  add_valid a b _ _ := rfl
  blake_length x := beBytes_length _ _
  nonce_length k x := beBytes_length _ _
  switch_length s v := beBytes_length _ _
  rewind_own v k pn rn m hv hk hp hr hm := by
    refine ⟨k, ?_, fun _ => rfl⟩
    have e1 : (rn ++ (beBytes 8 v ++ (m ++ k))).take 32 = rn := by rw [List.take_append_of_le_length (by omega), ← hr, List.take_length]
    have e2 : (rn ++ (beBytes 8 v ++ (m ++ k))).drop 32 = beBytes 8 v ++ (m ++ k) := by rw [← hr, List.drop_left]
    have e3 : (beBytes 8 v ++ (m ++ k)).take 8 = beBytes 8 v := by
      rw [List.take_append_of_le_length (by rw [beBytes_length])]
      exact List.take_of_length_le (by rw [beBytes_length])
    have e4 : (rn ++ (beBytes 8 v ++ (m ++ k))).drop 40 = m ++ k := by
      rw [show 40 = 32 + 8 from rfl, ← List.drop_drop, e2, List.drop_append, beBytes_length, List.drop_eq_nil_of_le (by rw [beBytes_length])]
      simp
    have e5 : (rn ++ (beBytes 8 v ++ (m ++ k))).drop 60 = k := by
      rw [show 60 = 40 + 20 from rfl, ← List.drop_drop, e4, ← hm, List.drop_left]
    have e6 : (m ++ k).take 20 = m := by rw [← hm, List.take_left]
    simp only [toyKeys]
    rw [if_pos e1, e2, e3, e4, e5, e6, beVal_beBytes_of_lt (by simpa using hv)]
  rewind_other v k pn rn m n hv hk hp hr hm hn := by
    have e1 : (rn ++ (beBytes 8 v ++ (m ++ k))).take 32 = rn := by rw [List.take_append_of_le_length (by omega), ← hr, List.take_length]
    simp only [toyKeys]
    rw [if_neg (by rw [e1]; exact fun h => hn h.symm)]

/-- A seed for `toyKeys`. -/
def toySeed : Bytes := List.replicate 33 0 ++ [5]

/-- What `toyKeys` derives from `toySeed`. -/
def toyChain : Wallet.Chain := ⟨⟨beBytes 32 6, List.replicate 32 7⟩, beBytes 32 6⟩

example : keyChain toyKeys toySeed = .ok toyChain := by decide +kernel

example : rewindNonce toyKeys toyChain [] .original ≠ rewindNonce toyKeys toyChain [] .enhanced := by decide +kernel

private def toyMade (p : List Nat) : Made :=
  match makeOutput toyKeys toySeed 60000000000 p .enhanced with
  | .ok m => m
  | _ => ⟨[], 0, [], [], []⟩

example : makeOutput toyKeys toySeed 60000000000 [0, 0, 3] .enhanced = .ok (toyMade [0, 0, 3]) ∧
    (toyMade [0, 0, 3]).key = beBytes 32 12 ∧
    walletOutput toyKeys .mainnet toyChain 1000 (toyMade [0, 0, 3]).commit (toyMade [0, 0, 3]).proof = .ok (some (toyMade [0, 0, 3])) := by
  decide +kernel

example : makeOutput toyKeys toySeed 60000000000 [] .enhanced = .ok (toyMade []) ∧
    outputKey toyKeys toyChain [0, 0, 0] 60000000000 = .ok (beBytes 32 9) ∧ beBytes 32 9 ≠ (toyMade []).key := by
  decide +kernel

example : ValidSecret ((toyKeys.hmac (List.replicate 32 7) (childData toyKeys (beBytes 32 6) 3)).take 32) :=
  ⟨by decide +kernel, by decide +kernel, by decide +kernel⟩

end Verif.Props
