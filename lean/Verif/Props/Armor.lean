import Verif.Codec.Armor
import Verif.Props.Base58
import Verif.Props.Bech32

/-!
# C09: slatepack armor
-/
namespace Verif.Props
open Verif.Codec

private theorem filter_spacing (i : Nat) (s : Bytes) (h : ∀ c ∈ s, isSpace c = false) :
    (spacingGo i s).filter (fun c => !isSpace c) = s := by
  induction s generalizing i with
  | nil => rfl
  | cons c s ih =>
    rw [spacingGo, List.filter_append, List.filter_cons, h c (List.mem_cons_self ..)]
    have : List.filter (fun c => !isSpace c)
        (if i ≠ 0 ∧ i % 15 = 0 then (if i % (15 * 200) = 0 then [10] else [32]) else []) = [] := by
      split
      · split <;> rfl
      · rfl
    rw [this, ih _ (fun x hx => h x (List.mem_cons_of_mem _ hx))]
    rfl

/-- **C09, white space.** Unarmoring looks only at the characters that are not white space, so
re-wrapping or re-indenting an armored text changes nothing. -/
theorem unarmor_ignores_spaces (H : Bytes → Bytes) (s s' : Bytes)
    (h : s.filter (fun c => !isSpace c) = s'.filter (fun c => !isSpace c)) :
    unarmor H s = unarmor H s' := by
  simp only [unarmor, h]

private theorem unarmor_text (H : Bytes → Bytes) (t : Bytes) (ht0 : t ≠ [])
    (ht : ∀ c ∈ t, isSpace c = false ∧ c ≠ 46) :
    unarmor H (armorHeader ++ str ". " ++ formatSpacing t ++ str ". " ++ armorFooter ++ str ".") =
      simpleDecodeCheck H t := by
  have hf : (armorHeader ++ str ". " ++ formatSpacing t ++ str ". " ++ armorFooter ++ str ".").filter
      (fun c => !isSpace c) = armorHeader ++ 46 :: (t ++ 46 :: (armorFooter ++ [46])) := by
    simp only [List.filter_append, formatSpacing, filter_spacing 0 t (fun c hc => (ht c hc).1)]
    have e1 : armorHeader.filter (fun c => !isSpace c) = armorHeader := by decide +kernel
    have e2 : armorFooter.filter (fun c => !isSpace c) = armorFooter := by decide +kernel
    have e3 : (str ". ").filter (fun c => !isSpace c) = [46] := by decide +kernel
    have e4 : (str ".").filter (fun c => !isSpace c) = [46] := by decide +kernel
    rw [e1, e2, e3, e4]; simp
  have hs : split 46 (armorHeader ++ 46 :: (t ++ 46 :: (armorFooter ++ [46]))) =
      [armorHeader, t, armorFooter] := by
    rw [split, splitGo_token _ _ _ _ (by decide +kernel), List.nil_append, splitGo_delim _ _ _ (by decide +kernel),
      splitGo_token _ _ _ _ (fun hc => (ht _ hc).2 rfl), List.nil_append, splitGo_delim _ _ _ ht0,
      splitGo_token _ _ _ _ (by decide +kernel), List.nil_append, splitGo_delim _ _ _ (by decide +kernel), splitGo, if_pos rfl]
  simp only [unarmor, hf, hs, ne_eq, not_true_eq_false, or_self, if_false]

private theorem simple_roundtrip (H : Bytes → Bytes) (hH : ∀ m, 4 ≤ (H m).length) (bs : Bytes) :
    ∃ t, simpleEncodeCheck H bs = .ok t ∧ (∀ c ∈ t, isSpace c = false ∧ c ≠ 46) ∧
      (((H bs).headD 0 ≠ 0 → t ≠ []) ∧
      (simpleDecodeCheck H t = .ok bs ↔ (H bs).headD 0 ≠ 0)) := by
  obtain ⟨t, ht, hc, hd⟩ := base58_plain_roundtrip ((H bs).take 4 ++ bs)
  have h4 : ((H bs).take 4).length = 4 := by rw [List.length_take]; have := hH bs; omega
  refine ⟨t, ht, fun c h => ⟨(hc c h).1, (hc c h).2.2⟩, ?_, ?_⟩
  · intro hne h0
    subst h0
    have hz : b58Decode false [] = .ok [] := by decide +kernel
    rw [hz] at hd
    cases hh : H bs with
    | nil => have := hH bs; rw [hh] at this; simp at this
    | cons b r =>
      rw [hh] at hd hne
      rw [List.take_succ_cons, List.cons_append, List.dropWhile_cons, if_neg (by simpa using hne)] at hd
      cases hd
  · simp only [simpleDecodeCheck, hd, Res.ok_bind]
    cases hh : H bs with
    | nil => have := hH bs; rw [hh] at this; simp at this
    | cons b r =>
      rw [hh] at h4
      have hl : ((b :: r).take 4 ++ bs).length = 4 + bs.length := by rw [List.length_append, h4]
      simp only [List.headD_cons]
      constructor
      · intro h hb
        subst hb
        -- the decoded bytes are shorter than the encoded ones
        have hlt : (((0 :: r : Bytes).take 4 ++ bs).dropWhile (· == 0)).length < 4 + bs.length := by
          rw [List.take_succ_cons, List.cons_append, List.dropWhile_cons, if_pos (by rfl)]
          refine Nat.lt_of_le_of_lt (List.dropWhile_sublist _).length_le ?_
          rw [List.take_succ_cons, List.cons_append, List.length_cons] at hl
          omega
        split at h
        · cases h
        · split at h
          · cases h
          · have he := congrArg List.length (Res.ok.inj h)
            rw [List.length_drop] at he
            omega
      · intro hb
        have hdw : ((b :: r).take 4 ++ bs).dropWhile (· == 0) = (b :: r).take 4 ++ bs := by
          rw [List.take_succ_cons, List.cons_append, List.dropWhile_cons, if_neg (by simpa using hb)]
        rw [hdw, if_neg (by omega), List.drop_left' h4, List.take_left' h4, hh]
        rw [if_neg (by simp)]
        rfl

/-- **C09, exactly when it holds.** Armoring and unarmoring any bytes returns the same bytes if and only
if the first byte of the checksum is not zero. -/
theorem armor_roundtrip_iff (H : Bytes → Bytes) (hH : ∀ m, 4 ≤ (H m).length) (bs : Bytes) :
    ∃ t, armorText H bs = .ok t ∧ (unarmor H t = .ok bs ↔ (H bs).headD 0 ≠ 0) := by
  obtain ⟨t, ht, hc, hn, hiff⟩ := simple_roundtrip H hH bs
  refine ⟨_, by rw [armorText, ht, Res.ok_bind]; rfl, ?_⟩
  by_cases h0 : t = []
  · -- an empty text has only two parts
    subst h0
    have : unarmor H (armorHeader ++ str ". " ++ formatSpacing [] ++ str ". " ++ armorFooter ++ str ".") =
        .throw := by
      have hf : (armorHeader ++ str ". " ++ formatSpacing [] ++ str ". " ++ armorFooter ++ str ".").filter
        (fun c => !isSpace c) = armorHeader ++ 46 :: 46 :: (armorFooter ++ [46]) := by decide +kernel
      have hs : split 46 (armorHeader ++ 46 :: 46 :: (armorFooter ++ [46])) =
        [armorHeader, armorFooter] := by decide +kernel
      simp only [unarmor, hf, hs]
    rw [this]
    constructor
    · intro h; cases h
    · intro h; exact absurd rfl (hn h)
  · rw [unarmor_text H t h0 hc]; exact hiff

/-- **C09 fails** for every message whose checksum begins with a zero byte, about one in 256: the armored
text never unpacks to what was packed. -/
theorem armor_zero_checksum_violated (H : Bytes → Bytes) (hH : ∀ m, 4 ≤ (H m).length) (bs : Bytes)
    (h0 : (H bs).headD 0 = 0) : ∃ t, armorText H bs = .ok t ∧ unarmor H t ≠ .ok bs := by
  obtain ⟨t, ht, hiff⟩ := armor_roundtrip_iff H hH bs
  exact ⟨t, ht, fun h => (hiff.mp h) h0⟩

/-- **C09, armor.** Missing: checksums that begin with a zero byte (`armor_zero_checksum_violated`). -/
theorem armor_roundtrip_partial (H : Bytes → Bytes) (hH : ∀ m, 4 ≤ (H m).length) (bs : Bytes)
    (h0 : (H bs).headD 0 ≠ 0) : ∃ t, armorText H bs = .ok t ∧ unarmor H t = .ok bs := by
  obtain ⟨t, ht, hiff⟩ := armor_roundtrip_iff H hH bs
  exact ⟨t, ht, hiff.mpr h0⟩

/-- A toy checksum, only to evaluate the model. -/
def toyCheck (bs : Bytes) : Bytes := [bs.foldl (· + ·) 0, 1, 2, 3]

example : (armorText toyCheck [1, 2] >>= unarmor toyCheck) = .ok [1, 2] ∧
    (armorText toyCheck [255, 1] >>= unarmor toyCheck) ≠ .ok [255, 1] := by decide +kernel

/-- The age encryption does its job for the random bytes `rnd`, the recipient keys `keys` and the reader `key`: the
reader decrypts what was encrypted, unless that is empty.  `age_works` (Props/Age.lean) proves it of the model of
the code. -/
def AgeWorks (age : AgeOps) (rnd : age.Rnd) (keys : List Bytes) (key : age.Key) : Prop :=
  ∀ text, text ≠ [] → text.length < 2 ^ 62 + 2 ^ 33 →
    ∃ c, age.encrypt rnd keys text = .ok c ∧ c.length < 2 ^ 63 ∧ age.decrypt key c = .ok text

private theorem reads_address (valid : Bytes → Bool) (a : Bytes) (hl : a.length = 32)
    (hv : valid a = true) :
    ∃ t, serAddress a = .ok t ∧ t.length = 64 ∧ Reads (deserAddress valid) t a := by
  obtain ⟨t, ht, hlen, hp⟩ := slatepack_address_roundtrip a hl
  refine ⟨beBytes 1 63 ++ t, ?_, ?_, ?_⟩
  · rw [serAddress, ht, Res.ok_bind, hlen]; rfl
  · rw [List.length_append, beBytes_length, hlen]
  · have h3 : Reads (fun b => parseAddress valid t >>= fun a => .ok (a, b)) [] a := by
      intro pre post _
      have : parseAddress valid t = .ok a := by
        rw [parseAddress, hp, Res.ok_bind, if_neg (by simp [hl, hv])]; rfl
      simp [this]
    unfold deserAddress
    refine Reads.bind (reads_u8 (by decide)) ?_
    have := Reads.bind (f := fun t => fun b => parseAddress valid t >>= fun a => .ok (a, b))
      (reads_bytes (n := 63) hlen) h3
    rw [List.append_nil] at this
    exact this

private theorem reads_addresses (valid : Bytes → Bool) (as : List Bytes)
    (h : ∀ a ∈ as, a.length = 32 ∧ valid a = true) :
    ∃ t, serAddresses as = .ok t ∧ t.length = 64 * as.length ∧
      Reads (readMany (deserAddress valid) as.length) t as := by
  induction as with
  | nil => exact ⟨[], rfl, rfl, Reads.pure _⟩
  | cons a as ih =>
    obtain ⟨x, hx, hxl, hxr⟩ := reads_address valid a (h a (List.mem_cons_self ..)).1
      (h a (List.mem_cons_self ..)).2
    obtain ⟨xs, hxs, hxsl, hxsr⟩ := ih (fun b hb => h b (List.mem_cons_of_mem _ hb))
    refine ⟨x ++ xs, ?_, ?_, ?_⟩
    · rw [serAddresses, hx, Res.ok_bind, hxs, Res.ok_bind]; rfl
    · rw [List.length_append, List.length_cons]; omega
    · exact Reads.bind hxr (Reads.map (f := fun as => a :: as) hxsr)

private theorem on_buffer {α : Type} {p : Parser α} {bs : Bytes} {a : α} (h : Reads p bs a)
    (hl : bs.length < U64) : Reads (onBuffer p bs) [] a := by
  intro pre post _
  have := h [] [] (by simpa using hl)
  simp only [List.nil_append, List.append_nil, List.length_nil, Nat.zero_add] at this
  simp only [onBuffer, this, Res.ok_bind, List.append_nil, List.length_nil, Nat.add_zero]

/-- What a slatepack message may hold: 8-bit version numbers, 32-byte addresses that are valid curve
points, at most 65535 recipients; a plain-text message may have no sender, and lists no recipients. -/
structure WellFormed (valid : Bytes → Bool) (m : Message) : Prop where
  major : m.major < 256
  minor : m.minor < 256
  sender : m.sender.length = 32 ∧ (valid m.sender = true ∨ (m.mode = 0 ∧ m.sender = nullAddress))
  mode : (m.mode = 0 ∧ m.recipients = []) ∨ m.mode = 1
  recipients : ∀ a ∈ m.recipients, a.length = 32 ∧ valid a = true
  count : m.recipients.length < 65536
  payload : m.payload.length < 2 ^ 62

private theorem inner_roundtrip (valid : Bytes → Bool) (m : Message) (hw : WellFormed valid m)
    (hs : valid m.sender = true) :
    ∃ t, innerText m = .ok t ∧ t.length < 2 ^ 62 + 2 ^ 33 ∧
      ∃ b, deserInner valid ⟨t, 0⟩ = .ok ((m.sender, m.recipients, m.payload), b) := by
  obtain ⟨s, hs, hsl, hsr⟩ := reads_address valid m.sender hw.sender.1 hs
  obtain ⟨rs, hrs, hrsl, hrsr⟩ := reads_addresses valid m.recipients hw.recipients
  have key : ∀ inner, inner.length < 4294967296 →
      Reads (deserMetadata valid) inner (m.sender, m.recipients) →
      ∃ b, deserInner valid ⟨beBytes 4 (inner.length % 4294967296) ++ inner ++ m.payload, 0⟩ =
        .ok ((m.sender, m.recipients, m.payload), b) := by
    intro inner hil hr
    have hp := hw.payload
    have hR : Reads (readBE 4 >>= fun n => readBytes n >>= fun i => onBuffer (deserMetadata valid) i)
        (beBytes 4 inner.length ++ (inner ++ [])) (m.sender, m.recipients) :=
      Reads.bind (reads_u32 hil) (Reads.bind (reads_bytes rfl) (on_buffer hr (by simp only [U64]; omega)))
    have hlen : ([] ++ (beBytes 4 inner.length ++ (inner ++ [])) ++ m.payload).length < U64 := by
      simp only [List.nil_append, List.append_nil, List.length_append, beBytes_length, U64]; omega
    have := hR [] m.payload hlen
    simp only [List.nil_append, List.append_nil, List.length_nil, Nat.zero_add] at this
    rw [Nat.mod_eq_of_lt hil]
    have hassoc : deserInner valid = ((readBE 4 >>= fun n => readBytes n >>= fun i =>
        onBuffer (deserMetadata valid) i) >>= fun md => readRemaining >>= fun p =>
          (pure (md.1, md.2, p) : Parser _)) := by
      funext b
      simp only [deserInner, Parser.bind_run]
      cases readBE 4 b with
      | ok r =>
        simp only [Res.bind]
        cases readBytes r.1 r.2 with
        | ok q => rfl
        | throw => rfl
        | ub => rfl
      | throw => rfl
      | ub => rfl
    rw [hassoc, Parser.bind_run, this]
    simp only [Res.bind, Parser.bind_run, readRemaining, Parser.pure_run]
    rw [List.drop_left]
    exact ⟨_, rfl⟩
  by_cases h0 : m.recipients = []
  · refine ⟨_, by
      rw [innerText, hs, Res.ok_bind, hrs, Res.ok_bind, if_pos h0]; rfl, ?_, ?_⟩
    · have := hw.payload
      simp only [List.length_append, beBytes_length]; omega
    refine key (beBytes 2 1 ++ s) (by rw [List.length_append, beBytes_length]; omega) ?_
    rw [h0]
    unfold deserMetadata
    refine Reads.bind (reads_u16 (by decide)) ?_
    have := Reads.map (f := fun x => (x, ([] : List Bytes))) hsr
    exact this
  · have hc := hw.count
    refine ⟨_, by
      rw [innerText, hs, Res.ok_bind, hrs, Res.ok_bind, if_neg h0]; rfl, ?_, ?_⟩
    · have := hw.payload
      simp only [List.length_append, beBytes_length]; omega
    refine key _ (by simp only [List.length_append, beBytes_length]; omega) ?_
    unfold deserMetadata
    rw [List.append_assoc, List.append_assoc, Nat.mod_eq_of_lt hc]
    refine Reads.bind (reads_u16 (by decide)) ?_
    refine Reads.bind hsr ?_
    refine Reads.map (f := fun r => (m.sender, r)) (p := (do
      let n ← readBE 2
      readMany (deserAddress valid) n)) ?_
    exact Reads.bind (reads_u16 hc) hrsr

/-- The secret key `key` can read what is encrypted for `recipients`. -/
def CanRead (age : AgeOps) (rnd : age.Rnd) (key : age.Key) (recipients : List Bytes) : Prop :=
  ∃ ks, convertAll age recipients = .ok ks ∧ AgeWorks age rnd ks key

/-- **C09, messages.** A slatepack message, plain or encrypted for recipients among whom the reader is,
is read back unchanged. -/
theorem slatepack_message_roundtrip (age : AgeOps)
    (valid : Bytes → Bool) (m : Message) (hw : WellFormed valid m) (recipients : List Bytes) (rnd : age.Rnd)
    (key : age.Key) (hk : m.mode = 1 → CanRead age rnd key recipients) :
    ∃ bs, serMessage age rnd m recipients = .ok bs ∧
      deserMessage age valid key ⟨bs, 0⟩ = .ok (m, ⟨bs, bs.length⟩) := by
  obtain ⟨major, minor, mode, sender, rec, payload⟩ := m
  have hmaj := hw.major
  have hmin := hw.minor
  have hpay := hw.payload
  simp only at hmaj hmin hpay hk
  rcases hw.mode with ⟨hm, hr⟩ | hm
  · simp only at hm hr
    subst hm; subst hr
    by_cases hn : sender = nullAddress
    · subst hn
      refine ⟨_, rfl, ?_⟩
      have hR : Reads (deserMessage age valid key) (beBytes 1 major ++ (beBytes 1 minor ++ (beBytes 1 0 ++
          (beBytes 2 0 ++ (beBytes 4 (0 % 4294967296) ++ ([] ++ (beBytes 8 payload.length ++ payload)))))))
          ⟨major, minor, 0, nullAddress, [], payload⟩ := by
        unfold deserMessage
        refine Reads.bind (reads_u8 hmaj) (Reads.bind (reads_u8 hmin) (Reads.bind (reads_u8 (by decide))
          (Reads.bind (reads_u16 (by decide)) (Reads.bind (reads_u32 (by decide))
          (Reads.bind (reads_bytes rfl) ?_)))))
        refine Reads.congr (Reads.bind (Reads.pure nullAddress) (Reads.bind (reads_u64 (x := payload.length) (by simp only [U64]; omega))
          (Reads.map (f := fun p => (⟨major, minor, 0, nullAddress, [], p⟩ : Message)) (reads_bytes rfl)))) rfl rfl
      have := hR [] [] (by simp [U64]; omega)
      simpa using this
    · have hv : valid sender = true := by
        rcases hw.sender.2 with h | ⟨-, h⟩
        · exact h
        · exact absurd h hn
      obtain ⟨s, hs, hsl, hsr⟩ := reads_address valid sender hw.sender.1 hv
      have hser : serMessage age rnd ⟨major, minor, 0, sender, [], payload⟩ recipients =
          .ok (beBytes 1 major ++ (beBytes 1 minor ++ (beBytes 1 0 ++
          (beBytes 2 1 ++ (beBytes 4 64 ++ (s ++ (beBytes 8 payload.length ++ payload))))))) := by
        simp only [serMessage, ne_eq, hn, not_false_eq_true, and_self, decide_true, if_true, hs,
          Res.ok_bind, hsl]
        rfl
      refine ⟨_, hser, ?_⟩
      have hR : Reads (deserMessage age valid key) (beBytes 1 major ++ (beBytes 1 minor ++ (beBytes 1 0 ++
          (beBytes 2 1 ++ (beBytes 4 64 ++ (s ++ (beBytes 8 payload.length ++ payload)))))))
          ⟨major, minor, 0, sender, [], payload⟩ := by
        unfold deserMessage
        refine Reads.bind (reads_u8 hmaj) (Reads.bind (reads_u8 hmin) (Reads.bind (reads_u8 (by decide))
          (Reads.bind (reads_u16 (by decide)) (Reads.bind (reads_u32 (by decide))
          (Reads.bind (reads_bytes hsl) ?_)))))
        refine Reads.congr (Reads.bind (on_buffer hsr (by rw [hsl]; decide)) (Reads.bind (reads_u64 (x := payload.length) (by simp only [U64]; omega))
          (Reads.map (f := fun p => (⟨major, minor, 0, sender, [], p⟩ : Message)) (reads_bytes rfl)))) rfl rfl
      have := hR [] [] (by simp [U64, hsl]; omega)
      simpa using this
  · simp only at hm
    subst hm
    obtain ⟨ks, hks, hage⟩ := hk rfl
    have hv : valid sender = true := by
      rcases hw.sender.2 with h | ⟨h, -⟩
      · exact h
      · cases h
    obtain ⟨t, ht, htl, b, htr⟩ := inner_roundtrip valid _ hw hv
    have htne : t ≠ [] := by
      rintro rfl
      have h0 : deserInner valid ⟨[], 0⟩ = .throw := rfl
      rw [h0] at htr
      cases htr
    obtain ⟨c, hc, hcl, hdec⟩ := hage t htne htl
    have hser : serMessage age rnd ⟨major, minor, 1, sender, rec, payload⟩ recipients =
        .ok (beBytes 1 major ++ (beBytes 1 minor ++ (beBytes 1 1 ++
        (beBytes 2 0 ++ (beBytes 4 0 ++ ([] ++ (beBytes 8 c.length ++ c))))))) := by
      simp only [serMessage, encryptPayload, ht, Res.ok_bind, hks, hc]
      rfl
    refine ⟨_, hser, ?_⟩
    have hfin : Reads (fun b : Buf => age.decrypt key c >>= fun text =>
        deserInner valid ⟨text, 0⟩ >>= fun r =>
        .ok ((⟨major, minor, 1, r.1.1, r.1.2.1, r.1.2.2⟩ : Message), b)) []
        ⟨major, minor, 1, sender, rec, payload⟩ := by
      intro pre post _
      simp only [hdec, Res.ok_bind, htr, List.append_nil, List.length_nil, Nat.add_zero]
    have hR : Reads (deserMessage age valid key) (beBytes 1 major ++ (beBytes 1 minor ++ (beBytes 1 1 ++
        (beBytes 2 0 ++ (beBytes 4 0 ++ ([] ++ (beBytes 8 c.length ++ c)))))))
        ⟨major, minor, 1, sender, rec, payload⟩ := by
      unfold deserMessage
      refine Reads.bind (reads_u8 hmaj) (Reads.bind (reads_u8 hmin) (Reads.bind (reads_u8 (by decide))
        (Reads.bind (reads_u16 (by decide)) (Reads.bind (reads_u32 (by decide))
        (Reads.bind (reads_bytes rfl) ?_)))))
      have := Reads.bind (f := fun payload => fun b : Buf => age.decrypt key payload >>= fun text =>
        deserInner valid ⟨text, 0⟩ >>= fun r =>
        .ok ((⟨major, minor, 1, r.1.1, r.1.2.1, r.1.2.2⟩ : Message), b))
        (reads_bytes (bs := c) rfl) hfin
      rw [List.append_nil] at this
      refine Reads.congr (Reads.bind (Reads.pure nullAddress)
        (Reads.bind (reads_u64 (x := c.length) (by simp only [U64]; omega)) this)) rfl rfl
    have := hR [] [] (by simp [U64]; omega)
    simpa using this

/-- **C09.** A slate packed for some recipients, or for none, and armored is what the reader gets back,
together with its sender.  Missing: checksums that begin with a zero byte. -/
theorem slatepack_roundtrip_partial (H : Bytes → Bytes) (hH : ∀ m, 4 ≤ (H m).length) (age : AgeOps)
    (valid : Bytes → Bool)
    (sender slate : Bytes) (hs : sender.length = 32) (hv : valid sender = true)
    (hl : slate.length < 2 ^ 62) (recipients : List Bytes) (rnd : age.Rnd) (key : age.Key)
    (hk : recipients ≠ [] → CanRead age rnd key recipients)
    (h0 : ∀ bs, serMessage age rnd ⟨1, 0, if recipients = [] then 0 else 1, sender, [], slate⟩ recipients
      = .ok bs → (H bs).headD 0 ≠ 0) :
    ∃ t, armorPack H age rnd sender slate recipients = .ok t ∧
      armorUnpack H age valid key t =
        .ok ⟨1, 0, if recipients = [] then 0 else 1, sender, [], slate⟩ := by
  obtain ⟨bs, hbs, hd⟩ := slatepack_message_roundtrip age valid
    ⟨1, 0, if recipients = [] then 0 else 1, sender, [], slate⟩
    ⟨show 1 < 256 by decide, show 0 < 256 by decide, ⟨hs, Or.inl hv⟩, by
      by_cases h : recipients = []
      · simp [h]
      · simp [h], by simp, show 0 < 65536 by decide, hl⟩ recipients rnd key
    (by
      intro hm
      apply hk
      intro h
      simp [h] at hm)
  obtain ⟨t, ht, hu⟩ := armor_roundtrip_partial H hH bs (h0 bs hbs)
  refine ⟨t, ?_, ?_⟩
  · simp only [armorPack, hbs, Res.ok_bind, ht]
  · simp only [armorUnpack, hu, Res.ok_bind, hd]; rfl

/-- The secret key `key` gives an error on everything encrypted for `recipients`. -/
def CannotRead (age : AgeOps) (rnd : age.Rnd) (key : age.Key) (recipients : List Bytes) : Prop :=
  ∀ ks text c, convertAll age recipients = .ok ks → age.encrypt rnd ks text = .ok c → age.decrypt key c = .throw

/-- Wherever the bytes lie in a buffer, the parser throws. -/
private def Fails {α : Type} (p : Parser α) (bs : Bytes) : Prop :=
  ∀ pre post : Bytes, (pre ++ bs ++ post).length < U64 → p ⟨pre ++ bs ++ post, pre.length⟩ = .throw

private theorem Fails.bind {α β : Type} {p : Parser α} {f : α → Parser β} {bs cs : Bytes} {a : α}
    (hp : Reads p bs a) (hf : Fails (f a) cs) : Fails (p >>= f) (bs ++ cs) := by
  intro pre post hl
  have h1 := hp pre (cs ++ post) (by simpa [List.append_assoc] using hl)
  have h2 := hf (pre ++ bs) post (by simpa [List.append_assoc] using hl)
  simp only [List.append_assoc, List.length_append] at h1 h2 ⊢
  rw [Parser.bind_run, h1]
  simp only [Res.bind]
  rw [h2]

/-- **C09, other readers.** A slatepack packed for recipients gives an error, and no message, to a reader whose key gives
an error on everything encrypted for them.  Missing: checksums that begin with a zero byte. -/
theorem slatepack_unreadable_partial (H : Bytes → Bytes) (hH : ∀ m, 4 ≤ (H m).length) (age : AgeOps)
    (valid : Bytes → Bool) (sender slate : Bytes) (recipients : List Bytes) (hr : recipients ≠ []) (rnd : age.Rnd)
    (hsz : ∀ ks text c, convertAll age recipients = .ok ks → age.encrypt rnd ks text = .ok c → c.length < 2 ^ 63)
    (key : age.Key) (hk : CannotRead age rnd key recipients) (t : Bytes)
    (h0 : ∀ bs, serMessage age rnd ⟨1, 0, 1, sender, [], slate⟩ recipients = .ok bs → (H bs).headD 0 ≠ 0)
    (ht : armorPack H age rnd sender slate recipients = .ok t) :
    armorUnpack H age valid key t = .throw := by
  simp only [armorPack, hr, if_false, Res.bind_eq_ok] at ht
  obtain ⟨bs, hser, hT⟩ := ht
  have h0 := h0 bs hser
  simp only [serMessage, encryptPayload, Res.bind_eq_ok, one_ne_zero,
    false_and, decide_false, Bool.false_eq_true, if_false, Res.pure_eq, Res.ok.injEq] at hser
  obtain ⟨opt, ho, c, ⟨text, -, ks, hks, hc⟩, hbs⟩ := hser
  subst ho
  have hcl := hsz _ _ _ hks hc
  have hdec := hk _ _ _ hks hc
  have hR : Fails (deserMessage age valid key) bs := by
    rw [← hbs]
    unfold deserMessage
    refine Fails.bind (reads_u8 (by decide)) (Fails.bind (reads_u8 (by decide)) (Fails.bind (reads_u8 (by decide))
      (Fails.bind (reads_u16 (by decide)) (Fails.bind (reads_u32 (by decide)) (Fails.bind (reads_bytes rfl) ?_)))))
    have h1 : Fails (fun b : Buf => age.decrypt key c >>= fun text =>
        deserInner valid ⟨text, 0⟩ >>= fun r =>
        .ok ((⟨1, 0, 1, r.1.1, r.1.2.1, r.1.2.2⟩ : Message), b)) [] := by
      intro pre post _
      simp only [hdec]; rfl
    have := Fails.bind (f := fun payload => fun b : Buf => age.decrypt key payload >>= fun text =>
        deserInner valid ⟨text, 0⟩ >>= fun r =>
        .ok ((⟨1, 0, 1, r.1.1, r.1.2.1, r.1.2.2⟩ : Message), b))
        (reads_bytes (bs := c) rfl) h1
    rw [List.append_nil] at this
    exact Fails.bind (bs := []) (Reads.pure nullAddress) (Fails.bind (reads_u64 (x := c.length) (by simp only [U64]; omega)) this)
  have hbl : bs.length < U64 := by rw [← hbs]; simp [U64]; omega
  have hd := hR [] [] (by simpa using hbl)
  simp only [List.nil_append, List.append_nil, List.length_nil] at hd
  obtain ⟨t', ht', hu⟩ := armor_roundtrip_partial H hH bs h0
  have : t = t' := by rw [hT] at ht'; exact Res.ok.inj ht'
  subst this
  simp only [armorUnpack, hu, Res.ok_bind, hd]; rfl

/-- A toy age whose secret key is its public key and which does not encrypt. -/
def toyAge : AgeOps where
  Key := Bytes
  Rnd := Unit
  convert := .ok
  encrypt _ _ text := if text.length < 2 ^ 63 then .ok text else .throw
  decrypt _ c := .ok c

private theorem toy_reads : CanRead toyAge () nullAddress [nullAddress] :=
  ⟨[nullAddress], rfl, fun text _ hl => ⟨text, if_pos (by omega), by omega, rfl⟩⟩

-- The hypotheses are met by a message of three bytes for one recipient.
example : ∃ t, armorPack (fun _ => [1, 2, 3, 4]) toyAge () nullAddress [1, 2, 3] [nullAddress] = .ok t ∧
    armorUnpack (fun _ => [1, 2, 3, 4]) toyAge (fun _ => true) nullAddress t =
      .ok ⟨1, 0, 1, nullAddress, [], [1, 2, 3]⟩ :=
  slatepack_roundtrip_partial (fun _ => [1, 2, 3, 4]) (fun _ => by decide) toyAge
    (fun _ => true) nullAddress [1, 2, 3] (by decide) rfl (by decide) [nullAddress] () nullAddress
    (fun _ => toy_reads) (fun _ _ => by decide)

/-- A toy age for one recipient that writes the public key before the text; the secret key is the public key. -/
def pickyAge : AgeOps where
  Key := Bytes
  Rnd := Unit
  convert := .ok
  encrypt _ ks text := if text.length < 2 ^ 62 + 2 ^ 33 then .ok ((ks.headD []).take 32 ++ text) else .throw
  decrypt key c := if c.take 32 = key then .ok (c.drop 32) else .throw

theorem picky_reads (a : Bytes) (ha : a.length = 32) : CanRead pickyAge () a [a] := by
  refine ⟨[a], rfl, fun text _ hl => ⟨a ++ text, ?_, ?_, ?_⟩⟩
  · show (if text.length < 2 ^ 62 + 2 ^ 33 then Res.ok (a.take 32 ++ text) else .throw) = _
    rw [if_pos hl, List.take_of_length_le (by omega)]
  · rw [List.length_append]; omega
  · show (if (a ++ text).take 32 = a then Res.ok ((a ++ text).drop 32) else .throw) = _
    rw [List.take_left' ha, List.drop_left' ha, if_pos rfl]

theorem picky_refuses (a k : Bytes) (ha : a.length = 32) (hk : k ≠ a) : CannotRead pickyAge () k [a] := by
  intro ks text c h1 h2
  cases h1
  change (if text.length < 2 ^ 62 + 2 ^ 33 then Res.ok (a.take 32 ++ text) else .throw) = _ at h2
  show (if c.take 32 = k then Res.ok (c.drop 32) else .throw) = _
  split at h2
  · cases h2
    rw [List.take_of_length_le (l := a) (by omega), List.take_left' ha, if_neg (Ne.symm hk)]
  · cases h2

theorem picky_size (a : Bytes) : ∀ ks text c, convertAll pickyAge [a] = .ok ks →
    pickyAge.encrypt () ks text = .ok c → c.length < 2 ^ 63 := by
  intro ks text c h1 h2
  cases h1
  change (if text.length < 2 ^ 62 + 2 ^ 33 then Res.ok (a.take 32 ++ text) else .throw) = _ at h2
  split at h2
  · cases h2
    rw [List.length_append, List.length_take]; omega
  · cases h2

-- The hypotheses of `slatepack_unreadable_partial` are met.
example (t : Bytes)
    (ht : armorPack (fun _ => [1, 2, 3, 4]) pickyAge () nullAddress [1, 2, 3] [List.replicate 32 5] = .ok t) :
    armorUnpack (fun _ => [1, 2, 3, 4]) pickyAge (fun _ => true) nullAddress t = .throw :=
  slatepack_unreadable_partial (fun _ => [1, 2, 3, 4]) (fun _ => by decide) pickyAge (fun _ => true) nullAddress [1, 2, 3]
    [List.replicate 32 5] (by decide) () (picky_size _) nullAddress (picky_refuses _ _ (by decide) (by decide)) t
    (fun _ _ => by decide) ht

end Verif.Props
