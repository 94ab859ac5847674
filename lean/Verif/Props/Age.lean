import Verif.Codec.AgeLemmas
import Verif.Props.Armor

/-!
# C92: encrypted slatepacks (age)
-/
namespace Verif.Props

open Verif.Codec

/-- **C92, stream.** A text is encrypted as its chunks of 64 KiB, each sealed under its own nonce, the last one
marked; no chunk is empty. -/
theorem age_stream_encrypt (E : AgeEnv) (k data : Bytes) (h : data.length < 2 ^ 64) :
    ∃ qs, streamEncrypt E k data = .ok (sealFrom E k 0 qs) ∧ qs.flatten = data ∧ Chunked qs ∧ ∀ q ∈ qs, q ≠ [] := by
  obtain ⟨qs, h1, h2⟩ := streamEncGo_ok E k data.length 0 data (Nat.le_refl _) (by omega)
  exact ⟨qs, h1, h2⟩

/-- **C92, stream.** What decrypts is exactly what was sealed chunk by chunk under that key: chunks cannot be
changed, dropped, repeated, moved, nor the end cut off. -/
theorem age_stream_authentic (E : AgeEnv) (k c p : Bytes) (h : c.length < 2 ^ 64) :
    streamDecrypt E k c = .ok p ↔ ∃ qs, c = sealFrom E k 0 qs ∧ p = qs.flatten ∧ Chunked qs := by
  have h0 : List.replicate 11 0 = beBytes 11 0 := by decide +kernel
  rw [streamDecrypt, h0]
  constructor
  · intro hd
    exact streamDecGo_ok E k c.length 0 c p (Nat.le_refl _) (by omega) hd
  · rintro ⟨qs, rfl, rfl, hch⟩
    exact streamDecGo_seal E k qs _ 0 hch (Nat.le_refl _) (by omega)

private theorem chunk_count (qs : List Bytes) (h3 : Chunked qs) (h4 : ∀ q ∈ qs, q ≠ []) :
    qs.length ≤ (qs.flatten.length + 65535) / 65536 := by
  induction qs with
  | nil => simp
  | cons q qs ih =>
    cases qs with
    | nil =>
      have := List.length_pos_iff.mpr (h4 q (List.mem_cons_self ..))
      simp only [List.flatten_cons, List.flatten_nil, List.length_append, List.length_cons, List.length_nil]
      omega
    | cons q' qs =>
      have := ih h3.2 (fun q hq => h4 q (List.mem_cons_of_mem _ hq))
      have h65 := h3.1
      rw [List.flatten_cons, List.length_append, List.length_cons]
      omega

/-- **C92, stream.** What was encrypted decrypts to itself. -/
theorem age_stream_roundtrip (E : AgeEnv) (k data : Bytes) (h : data.length < 2 ^ 63) :
    ∃ c, streamEncrypt E k data = .ok c ∧ c.length ≤ 17 * data.length ∧ streamDecrypt E k c = .ok data := by
  obtain ⟨qs, h1, h2, h3, h4⟩ := age_stream_encrypt E k data (by omega)
  have hc := chunk_count qs h3 h4
  rw [h2] at hc
  have hl : (sealFrom E k 0 qs).length = data.length + 16 * qs.length := by rw [sealFrom_length, h2]
  refine ⟨_, h1, ?_, ?_⟩
  · omega
  · exact (age_stream_authentic E k _ _ (by omega)).mpr ⟨qs, rfl, h2.symm, h3⟩

/-- What is needed of X25519: both sides compute one secret. -/
structure EcdhWorks (E : AgeEnv) : Prop where
  symm : ∀ a b, E.ecdh a (E.pub b) = E.ecdh b (E.pub a)
  ok : ∀ a b, ∃ s, E.ecdh a (E.pub b) = .ok s

/-- The box for another recipient does not open with the key of `sk`: what ChaCha20-Poly1305 promises, for the
boxes of this message. -/
def BoxesSeparate (E : AgeEnv) (rnd : AgeRnd) (recipients : List Bytes) (sk : Bytes) : Prop :=
  ∀ i r s s', recipients[i]? = some r → r ≠ E.pub sk → E.ecdh (rnd.eph i) r = .ok s →
    E.ecdh sk (E.pub (rnd.eph i)) = .ok s' →
    openBox E (lineKey E s' (E.pub (rnd.eph i)) (E.pub sk)) zeroNonce
      (sealBox E (lineKey E s (E.pub (rnd.eph i)) r) zeroNonce rnd.fileKey) = .throw

private theorem build_ok (E : AgeEnv) (he : EcdhWorks E) (rnd : AgeRnd) (hfk : rnd.fileKey.length = 16) (i : Nat)
    (rs : List Bytes) (hr : ∀ r ∈ rs, ∃ s, E.pub s = r) :
    ∃ ls, buildLines E rnd i rs = .ok ls ∧ ls.length = rs.length ∧
      (∀ l ∈ ls, l.ephemeral.length = 32 ∧ l.fileKey.length = 32) := by
  induction rs generalizing i with
  | nil => exact ⟨[], rfl, rfl, by simp⟩
  | cons r rs ih =>
    obtain ⟨ls, h1, h2, h3⟩ := ih (i + 1) (fun r h => hr r (List.mem_cons_of_mem _ h))
    obtain ⟨s, rfl⟩ := hr r (List.mem_cons_self ..)
    obtain ⟨sh, hsh⟩ := he.ok (rnd.eph i) s
    refine ⟨_, by simp only [buildLines, hsh, Res.ok_bind, h1]; rfl, by simp [h2], ?_⟩
    intro l hl
    rcases List.mem_cons.mp hl with rfl | hl
    · exact ⟨E.pub_length _, by rw [sealBox_length, hfk]⟩
    · exact h3 l hl

private theorem try_ok (E : AgeEnv) (he : EcdhWorks E) (rnd : AgeRnd) (i : Nat)
    (rs : List Bytes) (hr : ∀ r ∈ rs, ∃ s, E.pub s = r) (sk : Bytes) (hsk : E.pub sk ∈ rs)
    (hsep : ∀ j r s s', rs[j]? = some r → r ≠ E.pub sk → E.ecdh (rnd.eph (i + j)) r = .ok s →
      E.ecdh sk (E.pub (rnd.eph (i + j))) = .ok s' →
      openBox E (lineKey E s' (E.pub (rnd.eph (i + j))) (E.pub sk)) zeroNonce
        (sealBox E (lineKey E s (E.pub (rnd.eph (i + j))) r) zeroNonce rnd.fileKey) = .throw)
    (c p : Bytes) (hp : p ≠ []) (hc : streamDecrypt E (payloadKey E rnd.nonce rnd.fileKey) c = .ok p)
    (ls : List RecipientLine) (hls : buildLines E rnd i rs = .ok ls) :
    tryLines E sk rnd.nonce c ls = .ok p := by
  induction rs generalizing i ls with
  | nil => simp at hsk
  | cons r rs ih =>
    obtain ⟨s, hs⟩ := hr r (List.mem_cons_self ..)
    obtain ⟨sh, hsh⟩ := he.ok (rnd.eph i) s
    rw [hs] at hsh
    obtain ⟨sh', hsh'⟩ := he.ok sk (rnd.eph i)
    simp only [buildLines, hsh, Res.ok_bind, Res.bind_eq_ok, Res.pure_eq] at hls
    obtain ⟨ls', hls', e⟩ := hls
    injection e with e
    subst e
    by_cases hrk : r = E.pub sk
    · have hss : sh' = sh := by
        have := he.symm sk (rnd.eph i)
        rw [hsh', ← hrk, hsh] at this
        injection this
      have ht : tryLine E sk rnd.nonce c ⟨E.pub (rnd.eph i), sealBox E (lineKey E sh (E.pub (rnd.eph i)) r) zeroNonce rnd.fileKey⟩ = .ok p := by
        simp only [tryLine, hsh', Res.ok_bind, hss, hrk, openBox_seal, hc]
      rw [tryLines, ht]
      cases p with
      | nil => exact absurd rfl hp
      | cons b p => rfl
    · have ht : tryLine E sk rnd.nonce c ⟨E.pub (rnd.eph i), sealBox E (lineKey E sh (E.pub (rnd.eph i)) r) zeroNonce rnd.fileKey⟩ = .throw := by
        simp only [tryLine, hsh', Res.ok_bind]
        have h0 := hsep 0 r sh sh' rfl hrk hsh hsh'
        rw [Nat.add_zero] at h0
        rw [h0]
        rfl
      rw [tryLines, ht]
      refine ih (i + 1) (fun r h => hr r (List.mem_cons_of_mem _ h)) ?_ ?_ ls' hls'
      · rcases List.mem_cons.mp hsk with h | h
        · exact absurd h.symm hrk
        · exact h
      · intro j r' t t' hj
        have := hsep (j + 1) r' t t' (by simpa using hj)
        rw [show i + (j + 1) = i + 1 + j by omega] at this
        exact this

/-- **C92.** Every recipient of a message decrypts it to what was encrypted.  Missing: the empty text. -/
theorem age_roundtrip_partial (E : AgeEnv) (he : EcdhWorks E) (rnd : AgeRnd) (hfk : rnd.fileKey.length = 16)
    (hn : rnd.nonce.length = 16) (recipients : List Bytes) (hr : ∀ r ∈ recipients, ∃ s, E.pub s = r) (sk : Bytes)
    (hsk : E.pub sk ∈ recipients) (hsep : BoxesSeparate E rnd recipients sk) (p : Bytes) (hp : p ≠ [])
    (hl : p.length < 2 ^ 63) :
    ∃ m, ageEncrypt E rnd recipients p = .ok m ∧ ageDecrypt E sk m = .ok p := by
  obtain ⟨ls, hls, -, h32⟩ := build_ok E he rnd hfk 0 recipients hr
  obtain ⟨c, hc, -, hd⟩ := age_stream_roundtrip E (payloadKey E rnd.nonce rnd.fileKey) p hl
  refine ⟨_, by simp only [ageEncrypt, hls, hc, Res.ok_bind]; rfl, ?_⟩
  rw [List.append_assoc, ageDecrypt_message E sk _ ls rnd.nonce c ?_ h32 hn]
  · exact try_ok E he rnd 0 recipients hr sk hsk (by simpa [BoxesSeparate] using hsep) c p hp hd ls hls
  · intro h
    have := congrArg List.length h
    rw [headerMac, E.hmac_length, List.length_nil] at this
    omega

/-- The age functions of the code, as `SlatepackMessage` uses them. -/
def ageOps (E : AgeEnv) (convert : Bytes → Res Bytes) : AgeOps where
  Key := Bytes
  Rnd := AgeRnd
  convert := convert
  encrypt := ageEncrypt E
  decrypt := ageDecrypt E

private theorem header_length (mac : Bytes) (ls : List RecipientLine)
    (h : ∀ l ∈ ls, l.ephemeral.length = 32 ∧ l.fileKey.length = 32) (hm : mac.length = 32) :
    (encodeHeader mac ls).length = 98 * ls.length + 70 := by
  have e : (encodeLines ls).length = 98 * ls.length := by
    induction ls with
    | nil => rfl
    | cons l ls ih =>
      obtain ⟨h1, h2⟩ := h l (List.mem_cons_self ..)
      have a1 := (base64_text l.ephemeral).1
      have a2 := (base64_text l.fileKey).1
      have a0 : (str "-> X25519 ").length = 10 := by decide +kernel
      have ih := ih (fun l hl => h l (List.mem_cons_of_mem _ hl))
      have e : encodeLines (l :: ls) = encodeLine l ++ encodeLines ls := rfl
      rw [e]
      simp only [List.length_append, List.length_cons, List.length_nil, encodeLine]
      rw [h1] at a1
      rw [h2] at a2
      omega
  have a1 := (base64_text mac).1
  have b1 : (str "age-encryption.org/v1\n").length = 22 := by decide +kernel
  have b2 : (str "--- ").length = 4 := by decide +kernel
  rw [hm] at a1
  simp only [encodeHeader, List.length_append, List.length_cons, List.length_nil, b1, b2, e]
  omega

/-- **C92 and C09.** The encryption the slatepacks need is the one the code has. -/
theorem age_works (E : AgeEnv) (convert : Bytes → Res Bytes) (he : EcdhWorks E) (rnd : AgeRnd)
    (hfk : rnd.fileKey.length = 16) (hn : rnd.nonce.length = 16) (keys : List Bytes)
    (hr : ∀ r ∈ keys, ∃ s, E.pub s = r) (hkl : keys.length < 2 ^ 16) (sk : Bytes) (hsk : E.pub sk ∈ keys)
    (hsep : BoxesSeparate E rnd keys sk) : AgeWorks (ageOps E convert) rnd keys sk := by
  intro text hne hl
  obtain ⟨m, hm, hd⟩ := age_roundtrip_partial E he rnd hfk hn keys hr sk hsk hsep text hne (by omega)
  refine ⟨m, hm, ?_, hd⟩
  obtain ⟨ls, hls, hlen, h32⟩ := build_ok E he rnd hfk 0 keys hr
  obtain ⟨qs, hs, h2, h3, h4⟩ := age_stream_encrypt E (payloadKey E rnd.nonce rnd.fileKey) text (by omega)
  simp only [ageEncrypt, hls, hs, Res.ok_bind, Res.pure_eq] at hm
  injection hm with hm
  have hc := chunk_count qs h3 h4
  rw [← hm, List.length_append, List.length_append, header_length _ _ h32 (by rw [headerMac, E.hmac_length]), sealFrom_length, hn, hlen, h2]
  rw [h2] at hc
  omega

/-- **C92 and C09.** A slate packed with the encryption of the code for recipients among whom the reader is comes
back with its sender.  Missing: checksums that begin with a zero byte. -/
theorem slatepack_age_roundtrip_partial (H : Bytes → Bytes) (hH : ∀ m, 4 ≤ (H m).length) (E : AgeEnv)
    (he : EcdhWorks E) (convert : Bytes → Res Bytes) (valid : Bytes → Bool) (sender slate : Bytes)
    (hs : sender.length = 32) (hv : valid sender = true) (hl : slate.length < 2 ^ 62) (recipients keys : List Bytes)
    (hne : recipients ≠ []) (hconv : convertAll (ageOps E convert) recipients = .ok keys)
    (hr : ∀ r ∈ keys, ∃ s, E.pub s = r) (hkl : keys.length < 2 ^ 16) (rnd : AgeRnd) (hfk : rnd.fileKey.length = 16)
    (hn : rnd.nonce.length = 16) (sk : Bytes) (hsk : E.pub sk ∈ keys) (hsep : BoxesSeparate E rnd keys sk)
    (h0 : ∀ bs, serMessage (ageOps E convert) rnd ⟨1, 0, 1, sender, [], slate⟩ recipients = .ok bs → (H bs).headD 0 ≠ 0) :
    ∃ t, armorPack H (ageOps E convert) rnd sender slate recipients = .ok t ∧
      armorUnpack H (ageOps E convert) valid sk t = .ok ⟨1, 0, 1, sender, [], slate⟩ := by
  have := slatepack_roundtrip_partial H hH (ageOps E convert) valid sender slate hs hv hl recipients rnd sk
    (fun _ => ⟨keys, hconv, age_works E convert he rnd hfk hn keys hr hkl sk hsk hsep⟩)
    (by simpa [hne] using h0)
  simpa [hne] using this

private theorem tryLines_ok (E : AgeEnv) (sk nonce c p : Bytes) (ls : List RecipientLine)
    (h : tryLines E sk nonce c ls = .ok p) : p ≠ [] ∧ ∃ l ∈ ls, tryLine E sk nonce c l = .ok p := by
  induction ls with
  | nil => cases h
  | cons l ls ih =>
    rw [tryLines] at h
    cases ht : tryLine E sk nonce c l with
    | ok q =>
      rw [ht] at h
      cases q with
      | nil => obtain ⟨h1, l', hl, h2⟩ := ih h; exact ⟨h1, l', List.mem_cons_of_mem _ hl, h2⟩
      | cons b q => simp only at h; injection h with h; subst h; exact ⟨by simp, l, List.mem_cons_self .., ht⟩
    | throw => rw [ht] at h; obtain ⟨h1, l', hl, h2⟩ := ih h; exact ⟨h1, l', List.mem_cons_of_mem _ hl, h2⟩
    | ub => rw [ht] at h; cases h

private theorem tryLines_ub (E : AgeEnv) (sk nonce c : Bytes) (ls : List RecipientLine)
    (h : tryLines E sk nonce c ls = .ub) : ∃ l ∈ ls, tryLine E sk nonce c l = .ub := by
  induction ls with
  | nil => cases h
  | cons l ls ih =>
    rw [tryLines] at h
    cases ht : tryLine E sk nonce c l with
    | ok q =>
      rw [ht] at h
      cases q with
      | nil => obtain ⟨l', hl, h2⟩ := ih h; exact ⟨l', List.mem_cons_of_mem _ hl, h2⟩
      | cons b q => simp only at h; cases h
    | throw => rw [ht] at h; obtain ⟨l', hl, h2⟩ := ih h; exact ⟨l', List.mem_cons_of_mem _ hl, h2⟩
    | ub => exact ⟨l, List.mem_cons_self .., ht⟩

private theorem ageLines_suffix (m cur : Bytes) (r : List Bytes × Bytes) (h : ageLines m cur = .ok r) :
    ∃ pre, m = pre ++ r.2 := by
  induction m generalizing cur r with
  | nil => cases h
  | cons c s ih =>
    rw [ageLines] at h
    by_cases hc : c = 10
    · rw [if_pos hc] at h
      by_cases hd : startsWith cur (str "---") = true
      · rw [if_pos hd] at h
        injection h with h
        exact ⟨[c], by rw [← h]; rfl⟩
      · rw [if_neg hd] at h
        simp only [Res.bind_eq_ok, Res.pure_eq] at h
        obtain ⟨r', hr', e⟩ := h
        injection e with e
        obtain ⟨pre, hpre⟩ := ih [] r' hr'
        exact ⟨c :: pre, by rw [← e, List.cons_append, ← hpre]⟩
    · rw [if_neg hc] at h
      obtain ⟨pre, hpre⟩ := ih _ r h
      exact ⟨c :: pre, by rw [List.cons_append, ← hpre]⟩

private theorem decodeLines_sizes (lines : List Bytes) (ls : List RecipientLine) (h : decodeLines lines = .ok ls) :
    ∀ l ∈ ls, l.ephemeral.length = 32 ∧ l.fileKey.length = 32 := by
  fun_induction decodeLines lines generalizing ls with
  | case1 => cases h
  | case2 line rest arg ha ih1 =>
    simp only [Res.bind_eq_ok] at h
    obtain ⟨eph, he, h⟩ := h
    by_cases h32 : eph.length ≠ 32
    · rw [if_pos h32] at h; cases h
    rw [if_neg h32] at h
    cases rest with
    | nil => cases h
    | cons second ls' =>
      simp only [Res.bind_eq_ok] at h
      obtain ⟨fk, hfk, h⟩ := h
      by_cases h32' : fk.length ≠ 32
      · rw [if_pos h32'] at h; cases h
      rw [if_neg h32'] at h
      simp only [Res.bind_eq_ok, Res.pure_eq] at h
      obtain ⟨r, hr, e⟩ := h
      injection e with e
      subst e
      intro l hl
      rcases List.mem_cons.mp hl with rfl | hl
      · exact ⟨Decidable.not_not.mp h32, Decidable.not_not.mp h32'⟩
      · exact ih1 r hr l hl
  | case3 line rest ha hd m hs =>
    simp only [Res.bind_eq_ok, Res.pure_eq] at h
    obtain ⟨_, _, e⟩ := h
    injection e with e
    subst e
    simp
  | case4 => cases h
  | case5 line rest ha hd ih => exact ih ls h

/-- **C92.** What decrypts under a key is what someone sealed for that key: the message ends with a nonce and the
sealed chunks of the text, under a file key that one of its boxes holds for `sk`. -/
theorem age_decrypt_authentic (E : AgeEnv) (sk m p : Bytes) (hl : m.length < 2 ^ 64) (h : ageDecrypt E sk m = .ok p) :
    p ≠ [] ∧ ∃ pre nonce fk eph shared qs, m = pre ++ nonce ++ sealFrom E (payloadKey E nonce fk) 0 qs ∧
      nonce.length = 16 ∧ eph.length = 32 ∧ E.ecdh sk eph = .ok shared ∧ fk.length = 16 ∧ Chunked qs ∧ qs.flatten = p ∧
      ∃ lines rest, ageLines m [] = .ok (lines, rest) ∧ ∃ ls, decodeLines lines.tail = .ok ls ∧
        (⟨eph, sealBox E (lineKey E shared eph (E.pub sk)) zeroNonce fk⟩ : RecipientLine) ∈ ls := by
  simp only [ageDecrypt, Res.bind_eq_ok] at h
  obtain ⟨⟨lines, rest⟩, hr, h⟩ := h
  by_cases h16 : rest.length < 16
  · rw [if_pos h16] at h; cases h
  rw [if_neg h16] at h
  simp only [Res.bind_eq_ok] at h
  obtain ⟨ls, hls, h⟩ := h
  obtain ⟨hne, l, hl', ht⟩ := tryLines_ok _ _ _ _ _ _ h
  obtain ⟨pre, hpre⟩ := ageLines_suffix _ _ _ hr
  simp only [tryLine, Res.bind_eq_ok] at ht
  obtain ⟨shared, hsh, fk, hfk, hst⟩ := ht
  have hml : m.length = pre.length + rest.length := by rw [hpre, List.length_append]
  obtain ⟨qs, hqs, hp, hch⟩ := (age_stream_authentic E _ _ _ (by rw [List.length_drop]; omega)).mp hst
  obtain ⟨s1, s2⟩ := decodeLines_sizes _ _ hls l hl'
  have hbox := openBox_ok _ _ _ _ _ hfk
  refine ⟨hne, pre, rest.take 16, fk, l.ephemeral, shared, qs, ?_, ?_, s1, hsh, ?_, hch, hp.symm, lines, rest, hr, ls, hls, ?_⟩
  · rw [← hqs, List.append_assoc, List.take_append_drop, hpre]
  · rw [List.length_take]; omega
  · rw [hbox, sealBox_length] at s2; omega
  · rw [← hbox]; exact hl'

private theorem b64Tail_defined (idx : List Nat) : b64Tail idx ≠ .ub := by
  unfold b64Tail
  split
  · simp
  · simp only
    split <;> simp

private theorem b64Pad_defined (idx : List Nat) (n : Nat) (s : Bytes) : b64Pad idx n s ≠ .ub := by
  induction s generalizing n with
  | nil =>
    rw [b64Pad]
    split
    · exact b64Tail_defined _
    · simp
  | cons c s ih =>
    rw [b64Pad]
    split
    · split
      · exact b64Tail_defined _
      · simp
    · split
      · split
        · simp
        · exact ih _
      · simp

private theorem b64Loop_defined (req : Bool) (s : Bytes) (idx : List Nat) : b64Loop req s idx ≠ .ub := by
  have he : ∀ idx, b64End req idx ≠ .ub := by
    intro idx
    unfold b64End
    split
    · simp
    · split
      · simp
      · exact b64Tail_defined _
  induction s generalizing idx with
  | nil => exact he idx
  | cons c s ih =>
    rw [b64Loop]
    cases b64Index c with
    | some i =>
      simp only
      split
      · intro h
        rw [Res.bind_eq_ub] at h
        rcases h with h | ⟨_, _, h⟩
        · exact ih _ h
        · cases h
      · exact ih _
    | none =>
      simp only
      split
      · exact he idx
      · split
        · split
          · simp
          · exact b64Pad_defined _ _ _
        · simp

private theorem decodeLines_defined (lines : List Bytes) : decodeLines lines ≠ .ub := by
  have hb : ∀ s, b64Decode false s ≠ .ub := fun s => b64Loop_defined false s []
  fun_induction decodeLines lines with
  | case1 => simp
  | case2 line rest arg ha ih1 =>
    intro h
    rw [Res.bind_eq_ub] at h
    rcases h with h | ⟨eph, -, h⟩
    · exact hb _ h
    by_cases h32 : eph.length ≠ 32
    · rw [if_pos h32] at h; cases h
    rw [if_neg h32] at h
    cases rest with
    | nil => cases h
    | cons second ls' =>
      simp only at h
      rw [Res.bind_eq_ub] at h
      rcases h with h | ⟨fk, -, h⟩
      · exact hb _ h
      by_cases h32' : fk.length ≠ 32
      · rw [if_pos h32'] at h; cases h
      rw [if_neg h32', Res.bind_eq_ub] at h
      rcases h with h | ⟨_, -, h⟩
      · exact ih1 h
      · cases h
  | case3 line rest ha hd m hs =>
    intro h
    rw [Res.bind_eq_ub] at h
    rcases h with h | ⟨_, -, h⟩
    · exact hb _ h
    · cases h
  | case4 => simp
  | case5 line rest ha hd ih => exact ih

private theorem ageLines_defined (m cur : Bytes) : ageLines m cur ≠ .ub := by
  induction m generalizing cur with
  | nil => simp [ageLines]
  | cons c s ih =>
    rw [ageLines]
    split
    · split
      · simp
      · intro h
        rw [Res.bind_eq_ub] at h
        rcases h with h | ⟨_, -, h⟩
        · exact ih _ h
        · cases h
    · exact ih _

private theorem ageDecrypt_ub (E : AgeEnv) (sk m : Bytes) (h : ageDecrypt E sk m = .ub) :
    ∃ lines rest ls l, ageLines m [] = .ok (lines, rest) ∧ 16 ≤ rest.length ∧ decodeLines lines.tail = .ok ls ∧ l ∈ ls ∧
      tryLine E sk (rest.take 16) (rest.drop 16) l = .ub := by
  rw [ageDecrypt, Res.bind_eq_ub] at h
  rcases h with h | ⟨⟨lines, rest⟩, hr, h⟩
  · exact absurd h (ageLines_defined _ _)
  by_cases h16 : rest.length < 16
  · rw [if_pos h16] at h; cases h
  rw [if_neg h16, Res.bind_eq_ub] at h
  rcases h with h | ⟨ls, hls, h⟩
  · exact absurd h (decodeLines_defined _)
  obtain ⟨l, hl, ht⟩ := tryLines_ub _ _ _ _ _ h
  exact ⟨lines, rest, ls, l, hr, by omega, hls, hl, ht⟩

/-- **C92.** A reader for whom no box of the message opens gets an error. -/
theorem age_decrypt_other (E : AgeEnv) (sk m : Bytes) (hub : ∀ pk, E.ecdh sk pk ≠ .ub)
    (h : ∀ lines rest ls, ageLines m [] = .ok (lines, rest) → decodeLines lines.tail = .ok ls → ∀ l ∈ ls,
      ∀ shared fk, E.ecdh sk l.ephemeral = .ok shared →
        l.fileKey ≠ sealBox E (lineKey E shared l.ephemeral (E.pub sk)) zeroNonce fk) : ageDecrypt E sk m = .throw := by
  cases hd : ageDecrypt E sk m with
  | throw => rfl
  | ok p =>
    simp only [ageDecrypt, Res.bind_eq_ok] at hd
    obtain ⟨⟨lines, rest⟩, hr, hd⟩ := hd
    by_cases h16 : rest.length < 16
    · rw [if_pos h16] at hd; cases hd
    rw [if_neg h16] at hd
    simp only [Res.bind_eq_ok] at hd
    obtain ⟨ls, hls, hd⟩ := hd
    obtain ⟨hne, l, hl', ht⟩ := tryLines_ok _ _ _ _ _ _ hd
    simp only [tryLine, Res.bind_eq_ok] at ht
    obtain ⟨shared, hsh, fk, hfk, hst⟩ := ht
    exact absurd (openBox_ok _ _ _ _ _ hfk) (h lines rest ls hr hls l hl' shared fk hsh)
  | ub =>
    obtain ⟨lines, rest, ls, l, hr, -, hls, hl, ht⟩ := ageDecrypt_ub _ _ _ hd
    rw [tryLine, Res.bind_eq_ub] at ht
    rcases ht with ht | ⟨shared, hsh, ht⟩
    · exact absurd ht (hub _)
    rw [Res.bind_eq_ub] at ht
    rcases ht with ht | ⟨fk, hfk, ht⟩
    · have := openBox_ub _ _ _ _ ht
      have := (decodeLines_sizes _ _ hls l hl).2
      omega
    · exact absurd (openBox_ok _ _ _ _ _ hfk) (h lines rest ls hr hls l hl shared fk hsh)

/-- **C92.** Decryption has a defined outcome unless the last chunk of the message has fewer than 16 bytes. -/
theorem age_decrypt_defined_partial (E : AgeEnv) (sk m : Bytes) (hl : m.length < 2 ^ 64) (hub : ∀ pk, E.ecdh sk pk ≠ .ub)
    (h : ∀ pre nonce c, m = pre ++ nonce ++ c → nonce.length = 16 → ¬ (0 < c.length % 65552 ∧ c.length % 65552 < 16)) :
    ageDecrypt E sk m ≠ .ub := by
  intro hd
  obtain ⟨lines, rest, ls, l, hr, h16, hls, hlm, ht⟩ := ageDecrypt_ub _ _ _ hd
  obtain ⟨pre, hpre⟩ := ageLines_suffix _ _ _ hr
  have hml : m.length = pre.length + rest.length := by rw [hpre, List.length_append]
  rw [tryLine, Res.bind_eq_ub] at ht
  rcases ht with ht | ⟨shared, hsh, ht⟩
  · exact absurd ht (hub _)
  rw [Res.bind_eq_ub] at ht
  rcases ht with ht | ⟨fk, hfk, ht⟩
  · have := openBox_ub _ _ _ _ ht
    have := (decodeLines_sizes _ _ hls l hlm).2
    omega
  · have h0 : List.replicate 11 0 = beBytes 11 0 := by decide +kernel
    rw [streamDecrypt, h0] at ht
    have := streamDecGo_ub E _ _ 0 _ (Nat.le_refl _) (by rw [List.length_drop]; omega) ht
    exact h pre (rest.take 16) (rest.drop 16) (by rw [List.append_assoc, List.take_append_drop, hpre])
      (by rw [List.length_take]; omega) this

/-- **C92 fails**: whoever knows an address can send it a message whose decryption reads outside the buffer. -/
theorem age_decrypt_defined_violated (E : AgeEnv) (he : EcdhWorks E) (sk e fk mac nonce : Bytes) (hfk : fk.length = 16)
    (hm : mac ≠ []) (hn : nonce.length = 16) (x : UInt8) :
    ∃ shared, E.ecdh e (E.pub sk) = .ok shared ∧
      ageDecrypt E sk (encodeHeader mac [⟨E.pub e, sealBox E (lineKey E shared (E.pub e) (E.pub sk)) zeroNonce fk⟩] ++
        (nonce ++ [x])) = .ub := by
  obtain ⟨shared, hsh⟩ := he.ok e sk
  refine ⟨shared, hsh, ?_⟩
  rw [ageDecrypt_message E sk mac _ nonce [x] hm ?_ hn]
  · rw [tryLines]
    have : tryLine E sk nonce [x] ⟨E.pub e, sealBox E (lineKey E shared (E.pub e) (E.pub sk)) zeroNonce fk⟩ = .ub := by
      rw [tryLine, he.symm sk e, hsh]
      simp only [Res.ok_bind, openBox_seal]
      rfl
    rw [this]
  · intro l hl
    rw [List.mem_singleton] at hl
    subst hl
    exact ⟨E.pub_length _, by rw [sealBox_length, hfk]⟩

/-- **C92 fails**: the code over the header is not looked at; a message whose code is replaced by any other
decrypts alike. -/
theorem age_header_unchecked_violated (E : AgeEnv) (sk mac mac' : Bytes) (ls : List RecipientLine) (nonce c : Bytes)
    (hm : mac ≠ []) (hm' : mac' ≠ []) (h : ∀ l ∈ ls, l.ephemeral.length = 32 ∧ l.fileKey.length = 32)
    (hn : nonce.length = 16) :
    ageDecrypt E sk (encodeHeader mac ls ++ (nonce ++ c)) = ageDecrypt E sk (encodeHeader mac' ls ++ (nonce ++ c)) := by
  rw [ageDecrypt_message E sk mac ls nonce c hm h hn, ageDecrypt_message E sk mac' ls nonce c hm' h hn]

/-- **C92 fails** for the empty text: it is encrypted and no recipient can decrypt it. -/
theorem age_empty_violated (E : AgeEnv) (he : EcdhWorks E) (rnd : AgeRnd) (hfk : rnd.fileKey.length = 16)
    (recipients : List Bytes) (hr : ∀ r ∈ recipients, ∃ s, E.pub s = r) :
    ∃ m, ageEncrypt E rnd recipients [] = .ok m ∧ ∀ sk, ageDecrypt E sk m ≠ .ok [] := by
  obtain ⟨ls, hls, -, h32⟩ := build_ok E he rnd hfk 0 recipients hr
  refine ⟨_, by simp only [ageEncrypt, hls, Res.ok_bind]; rfl, ?_⟩
  intro sk hd
  simp only [ageDecrypt, Res.bind_eq_ok] at hd
  obtain ⟨⟨lines, rest⟩, -, hd⟩ := hd
  by_cases h16 : rest.length < 16
  · rw [if_pos h16] at hd; cases hd
  rw [if_neg h16] at hd
  simp only [Res.bind_eq_ok] at hd
  obtain ⟨ls, hls, hd⟩ := hd
  exact (tryLines_ok _ _ _ _ _ _ hd).1 rfl

/-! ## Concrete instances -/

/-- Toy primitives, only to evaluate the model. -/
def toyEnv : AgeEnv where
  stream k n i := (k.getD (i % 32) 0) + n.foldl (· + ·) 0
  tag k n c := ((n.foldl (· + ·) 7 + c.foldl (· + ·) 1) :: k.reverse ++ List.replicate 16 0).take 16
  tag_length k n c := by simp
  ecdh a b := .ok (List.zipWith (· + ·) ((a ++ List.replicate 32 0).take 32) b)
  pub s := (s ++ List.replicate 32 0).take 32
  pub_length s := by simp
  hkdf salt label input := input ++ salt.getD [] ++ label.take 1
  hmac k m := (m ++ k ++ List.replicate 32 0).take 32
  hmac_length k m := by simp; omega

private theorem toy_ecdh : EcdhWorks toyEnv where
  symm a b := by
    show Res.ok _ = Res.ok _
    congr 1
    exact List.zipWith_comm_of_comm (fun _ _ => UInt8.add_comm _ _)
  ok a b := ⟨_, rfl⟩

private theorem toy_shared (a b s : Bytes) (h : toyEnv.ecdh a b = .ok s) :
    s = List.zipWith (· + ·) ((a ++ List.replicate 32 0).take 32) b := (Res.ok.inj h).symm

/-- Two secrets and random bytes. -/
private def alice : Bytes := List.replicate 32 5
private def bob : Bytes := List.replicate 32 9
private def toyRnd : AgeRnd := ⟨List.replicate 16 3, List.replicate 16 4, fun i => List.replicate 32 (UInt8.ofNat (i + 20))⟩

private theorem toy_separate : BoxesSeparate toyEnv toyRnd [toyEnv.pub alice, toyEnv.pub bob] bob := by
  intro i r s s' hi hr hs hs'
  match i with
  | 0 =>
    simp only [List.getElem?_cons_zero, Option.some.injEq] at hi
    subst hi
    rw [toy_shared _ _ _ hs, toy_shared _ _ _ hs']
    decide +kernel
  | 1 =>
    simp only [List.getElem?_cons_succ, List.getElem?_cons_zero, Option.some.injEq] at hi
    exact absurd hi.symm hr
  | n + 2 => simp at hi

-- The second of two recipients reads the message.
example : ∃ m, ageEncrypt toyEnv toyRnd [toyEnv.pub alice, toyEnv.pub bob] [1, 2, 3] = .ok m ∧
    ageDecrypt toyEnv bob m = .ok [1, 2, 3] :=
  age_roundtrip_partial toyEnv toy_ecdh toyRnd (by decide) (by decide) _
    (by intro r hr; simp at hr; rcases hr with rfl | rfl <;> exact ⟨_, rfl⟩) bob (by simp) toy_separate _ (by simp)
    (by decide)

-- A third one does not, and cutting the end off is noticed.
example : (ageEncrypt toyEnv toyRnd [toyEnv.pub alice, toyEnv.pub bob] [1, 2, 3] >>=
    ageDecrypt toyEnv (List.replicate 32 77)) = .throw ∧
  (ageEncrypt toyEnv toyRnd [toyEnv.pub alice, toyEnv.pub bob] [1, 2, 3] >>= fun m => ageDecrypt toyEnv bob m.dropLast)
    = .throw := by decide +kernel

example : AgeWorks (ageOps toyEnv .ok) toyRnd [toyEnv.pub alice, toyEnv.pub bob] bob :=
  age_works toyEnv .ok toy_ecdh toyRnd (by decide) (by decide) _
    (by intro r hr; simp at hr; rcases hr with rfl | rfl <;> exact ⟨_, rfl⟩) (by decide) bob (by simp) toy_separate

end Verif.Props
