import Verif.Codec.Messages
import Verif.Props.Core

/-!
# C07: peer-to-peer messages
-/
namespace Verif.Props

open Verif Verif.Codec

/-- Spec: an address of either family. -/
def ValidAddr (a : SockAddr) : Prop :=
  (∃ b : Bytes, (a.ip = .v4 b ∧ b.length = 4) ∨ (a.ip = .v6 b ∧ b.length = 16)) ∧ a.port < 65536

/-- Spec: fields of a message within their C++ types, lists no longer than their counts can say. -/
def ValidPayload (H : DigestNum) (HB : Bytes → Bytes) (coin : Bytes → Nat) (ver : Nat) : Payload → Prop
  | .error c t => c < 2 ^ 32 ∧ t.length < 2 ^ 64
  | .hand m => m.version < 2 ^ 32 ∧ m.capabilities < 2 ^ 32 ∧ m.nonce < 2 ^ 64 ∧ m.hash.length = 32 ∧
      m.difficulty < 2 ^ 64 ∧ ValidAddr m.sender ∧ ValidAddr m.receiver ∧ m.userAgent.length < 2 ^ 64
  | .shake m => m.version < 2 ^ 32 ∧ m.capabilities < 2 ^ 32 ∧ m.hash.length = 32 ∧ m.difficulty < 2 ^ 64 ∧
      m.userAgent.length < 2 ^ 64
  | .ping d h => d < 2 ^ 64 ∧ h < 2 ^ 64
  | .pong d h => d < 2 ^ 64 ∧ h < 2 ^ 64
  | .getPeerAddrs c => c < 2 ^ 32
  | .peerAddrs l => l.length < 2 ^ 32 ∧ ∀ a ∈ l, ValidAddr a
  | .getHeaders l => l.length < 256 ∧ ∀ h ∈ l, h.length = 32
  | .header h => ValidHeader HB h
  | .headers l => l.length < 65536 ∧ ∀ h ∈ l, ValidHeader HB h
  | .getBlock h => h.length = 32
  | .block b => ValidHeader HB b.header ∧ ValidBody H coin ver b.body ∧ b.body.inputs.length < 2 ^ 64 ∧
      b.body.outputs.length < 2 ^ 64 ∧ b.body.kernels.length < 2 ^ 64
  | .getCompactBlock h => h.length = 32
  | .compactBlock b => ValidHeader HB b.header ∧ b.nonce < 2 ^ 64 ∧ (∀ o ∈ b.outputs, ValidOutput o) ∧
      (∀ k ∈ b.kernels, ValidKernel k) ∧ (∀ s ∈ b.shortIds, s.length = 6) ∧ b.outputs.length < 2 ^ 64 ∧
      b.kernels.length < 2 ^ 64 ∧ b.shortIds.length < 2 ^ 64
  | .stemTx t => ValidBody H coin ver t.body ∧ t.offset.length = 32 ∧ t.body.inputs.length < 2 ^ 64 ∧
      t.body.outputs.length < 2 ^ 64 ∧ t.body.kernels.length < 2 ^ 64
  | .tx t => ValidBody H coin ver t.body ∧ t.offset.length = 32 ∧ t.body.inputs.length < 2 ^ 64 ∧
      t.body.outputs.length < 2 ^ 64 ∧ t.body.kernels.length < 2 ^ 64
  | .txHashSetRequest h n => h.length = 32 ∧ n < 2 ^ 64
  | .txHashSetArchive h n s => h.length = 32 ∧ n < 2 ^ 64 ∧ s < 2 ^ 64
  | .banReason r => r < 2 ^ 32
  | .getTx h => h.length = 32
  | .kernel h => h.length = 32
  | .getBitmapSegment h n i => h.length = 32 ∧ n < 256 ∧ i < 2 ^ 64
  | .getOutputSegment h n i => h.length = 32 ∧ n < 256 ∧ i < 2 ^ 64
  | .getProofSegment h n i => h.length = 32 ∧ n < 256 ∧ i < 2 ^ 64
  | .getKernelSegment h n i => h.length = 32 ∧ n < 256 ∧ i < 2 ^ 64

/-- Spec: the documented maximum size of the body of each message type, by type number. -/
def documentedMax (type : Nat) : Nat :=
  [0, 128, 88, 16, 16, 4, 4868, 641, 365, 186882, 32, 1348032, 32, 134803, 1348032, 1348032, 40, 64, 64, 32,
    32, 41, 2696064, 41, 2696064, 41, 2696064, 41, 2696064].getD type 0

private theorem maximumSize_eq (type : Nat) : maximumSize type = documentedMax type := by
  unfold maximumSize documentedMax MAX_BLOCK_SIZE
  split <;> first | rfl | skip
  rename_i h
  rw [List.getD_eq_getElem?_getD, List.getElem?_eq_none]
  · rfl
  · refine Nat.le_of_not_lt fun hlt => ?_
    simp only [List.length_cons, List.length_nil] at hlt
    simp_all
    omega

theorem reads_addr {a : SockAddr} (h : ValidAddr a) : Reads sockAddrDeser (sockAddrSer a) a := by
  obtain ⟨ip, port⟩ := a
  obtain ⟨⟨b, hb⟩, hp⟩ := h
  simp only at hb hp
  rcases hb with ⟨rfl, hl⟩ | ⟨rfl, hl⟩
  · have h1 : Reads ipDeser (beBytes 1 0 ++ b) (.v4 b) := by
      unfold ipDeser
      refine Reads.bind (reads_u8 (by decide)) ?_
      simp only [if_true]
      exact Reads.bind0 (reads_bytes hl) (Reads.pure (IpAddr.v4 b))
    unfold sockAddrDeser sockAddrSer
    simp only [← List.append_assoc]
    exact Reads.bind h1 (Reads.bind0 (reads_u16 hp) (Reads.pure _))
  · have h1 : Reads ipDeser (beBytes 1 1 ++ b) (.v6 b) := by
      unfold ipDeser
      refine Reads.bind (reads_u8 (by decide)) ?_
      simp only [if_true, Nat.one_ne_zero, if_false]
      exact Reads.bind0 (reads_bytes hl) (Reads.pure (IpAddr.v6 b))
    unfold sockAddrDeser sockAddrSer
    simp only [← List.append_assoc]
    exact Reads.bind h1 (Reads.bind0 (reads_u16 hp) (Reads.pure _))

private theorem reads_serAll {α : Type} {p : Parser α} {f : α → Res Bytes} : ∀ {l : List α},
    (∀ a ∈ l, ∃ bs, f a = .ok bs ∧ Reads p bs a) → ∃ bs, serAll f l = .ok bs ∧ Reads (readMany p l.length) bs l
  | [], _ => ⟨[], rfl, by simpa [readMany] using Reads.pure ([] : List α)⟩
  | a :: l, h => by
    obtain ⟨x, hx, rx⟩ := h a List.mem_cons_self
    obtain ⟨y, hy, ry⟩ := reads_serAll (l := l) fun b hb => h b (List.mem_cons_of_mem _ hb)
    refine ⟨x ++ y, by simp [serAll, hx, hy], ?_⟩
    simp only [List.length_cons, readMany]
    exact Reads.bind rx (Reads.bind0 ry (Reads.pure _))

private theorem reads_segment (f : Bytes → Nat → Nat → Payload) {h : Bytes} {n i : Nat}
    (hv : h.length = 32 ∧ n < 256 ∧ i < 2 ^ 64) : Reads (segmentDeser f) (segmentSer h n i) (f h n i) :=
  Reads.bind (reads_bytes hv.1) (Reads.bind (reads_u8 hv.2.1) (Reads.bind0 (reads_u64 hv.2.2) (Reads.pure _)))

/-- **C07, payloads.** Every message body deserializes, with the deserializer for the sender's type, to the
message that was serialized, at every protocol version. -/
theorem payload_roundtrip (H : DigestNum) (HB : Bytes → Bytes) (coin : Bytes → Nat) (ver : Nat) (p : Payload)
    (hv : ValidPayload H HB coin ver p) :
    ∃ bs, payloadSer ver p = .ok bs ∧ Reads (payloadDeser H HB coin ver p.type) bs p := by
  cases p with
  | error c t => exact ⟨_, rfl, Reads.bind (reads_u32 hv.1) (Reads.bind0 (reads_varStr hv.2) (Reads.pure _))⟩
  | hand m =>
    obtain ⟨h1, h2, h3, h4, h5, h6, h7, h8⟩ := hv
    refine ⟨_, rfl, Reads.bind0 (a := m) ?_ (Reads.pure _)⟩
    exact Reads.bind (reads_u32 h1) (Reads.bind (reads_u32 h2) (Reads.bind (reads_u64 h3)
      (Reads.bind (reads_u64 h5) (Reads.bind (reads_addr h6) (Reads.bind (reads_addr h7)
        (Reads.bind (reads_varStr h8) (Reads.bind0 (reads_bytes h4) (Reads.pure _))))))))
  | shake m =>
    obtain ⟨h1, h2, h3, h4, h5⟩ := hv
    refine ⟨_, rfl, Reads.bind0 (a := m) ?_ (Reads.pure _)⟩
    exact Reads.bind (reads_u32 h1) (Reads.bind (reads_u32 h2) (Reads.bind (reads_u64 h4)
      (Reads.bind (reads_varStr h5) (Reads.bind0 (reads_bytes h3) (Reads.pure _)))))
  | ping d h => exact ⟨_, rfl, Reads.bind (reads_u64 hv.1) (Reads.bind0 (reads_u64 hv.2) (Reads.pure _))⟩
  | pong d h => exact ⟨_, rfl, Reads.bind (reads_u64 hv.1) (Reads.bind0 (reads_u64 hv.2) (Reads.pure _))⟩
  | getPeerAddrs c => exact ⟨_, rfl, Reads.bind0 (reads_u32 hv) (Reads.pure _)⟩
  | peerAddrs l =>
    obtain ⟨h1, h2⟩ := hv
    refine ⟨_, rfl, ?_⟩
    rw [Nat.mod_eq_of_lt h1]
    exact Reads.bind (reads_u32 h1) (Reads.bind0 (reads_many fun a ha => reads_addr (h2 a ha)) (Reads.pure _))
  | getHeaders l =>
    obtain ⟨h1, h2⟩ := hv
    refine ⟨_, rfl, ?_⟩
    rw [Nat.mod_eq_of_lt h1]
    exact Reads.bind (reads_u8 h1) (Reads.bind0 (reads_many fun a ha => reads_bytes (h2 a ha)) (Reads.pure _))
  | header h =>
    obtain ⟨bs, e, r⟩ := header_roundtrip HB h hv
    exact ⟨bs, e, Reads.bind0 r (Reads.pure _)⟩
  | headers l =>
    obtain ⟨h1, h2⟩ := hv
    obtain ⟨bs, e, r⟩ := reads_serAll fun h hh => header_roundtrip HB h (h2 h hh)
    refine ⟨beBytes 2 l.length ++ bs, by simp [payloadSer, e, Nat.mod_eq_of_lt h1], ?_⟩
    exact Reads.bind (reads_u16 h1) (Reads.bind0 r (Reads.pure _))
  | getBlock h => exact ⟨_, rfl, Reads.bind0 (reads_bytes hv) (Reads.pure _)⟩
  | block b =>
    obtain ⟨h1, h2, h3, h4, h5⟩ := hv
    obtain ⟨bs, e, r⟩ := block_roundtrip H HB coin ver b h1 h2 h3 h4 h5
    exact ⟨bs, e, Reads.bind0 r (Reads.pure _)⟩
  | getCompactBlock h => exact ⟨_, rfl, Reads.bind0 (reads_bytes hv) (Reads.pure _)⟩
  | compactBlock b =>
    obtain ⟨h1, h2, h3, h4, h5, h6, h7, h8⟩ := hv
    obtain ⟨bs, e, r⟩ := compact_roundtrip HB ver b h1 h2 h3 h4 h5 h6 h7 h8
    exact ⟨bs, e, Reads.bind0 r (Reads.pure _)⟩
  | stemTx t =>
    obtain ⟨h1, h2, h3, h4, h5⟩ := hv
    exact ⟨_, rfl, Reads.bind0 (tx_roundtrip H coin ver t h1 h2 h3 h4 h5) (Reads.pure _)⟩
  | tx t =>
    obtain ⟨h1, h2, h3, h4, h5⟩ := hv
    exact ⟨_, rfl, Reads.bind0 (tx_roundtrip H coin ver t h1 h2 h3 h4 h5) (Reads.pure _)⟩
  | txHashSetRequest h n =>
    exact ⟨_, rfl, Reads.bind (reads_bytes hv.1) (Reads.bind0 (reads_u64 hv.2) (Reads.pure _))⟩
  | txHashSetArchive h n s =>
    exact ⟨_, rfl, Reads.bind (reads_bytes hv.1) (Reads.bind (reads_u64 hv.2.1)
      (Reads.bind0 (reads_u64 hv.2.2) (Reads.pure _)))⟩
  | banReason r => exact ⟨_, rfl, Reads.bind0 (reads_u32 hv) (Reads.pure _)⟩
  | getTx h => exact ⟨_, rfl, Reads.bind0 (reads_bytes hv) (Reads.pure _)⟩
  | kernel h => exact ⟨_, rfl, Reads.bind0 (reads_bytes hv) (Reads.pure _)⟩
  | getBitmapSegment h n i => exact ⟨_, rfl, reads_segment _ hv⟩
  | getOutputSegment h n i => exact ⟨_, rfl, reads_segment _ hv⟩
  | getProofSegment h n i => exact ⟨_, rfl, reads_segment _ hv⟩
  | getKernelSegment h n i => exact ⟨_, rfl, reads_segment _ hv⟩

/-- **C07, message headers.** Eleven bytes are accepted as a message header exactly when they start with this
network's two magic bytes and announce at most four times the documented maximum for the type in the third
byte; then the type and length returned are those bytes.  Every other eleven bytes are refused. -/
theorem message_header_accepted_iff (magic : Nat × Nat) (m1 m2 t : UInt8) (len : Bytes)
    (hlen : len.length = 8) :
    msgHeaderDeser magic ⟨m1 :: m2 :: t :: len, 0⟩ =
      if m1.toNat = magic.1 ∧ m2.toNat = magic.2 ∧ beVal len ≤ 4 * documentedMax t.toNat
      then .ok ((t.toNat, beVal len), ⟨m1 :: m2 :: t :: len, 11⟩) else .throw := by
  have hb : ∀ x : UInt8, beBytes 1 x.toNat = [x] := by
    intro x
    simp only [beBytes, List.nil_append, List.cons.injEq, and_true]
    exact UInt8.toNat_inj.mp (by simp)
  have hlen' : beBytes 8 (beVal len) = len := by
    have := beBytes_beVal len
    rw [hlen] at this
    exact this
  have hl64 : beVal len < U64 := by
    have := beVal_lt len
    rw [hlen] at this
    simpa [U64] using this
  have r1 := reads_u8 (x := m1.toNat) (UInt8.toNat_lt m1) [] (m2 :: t :: len) (by simp [hlen, U64])
  have r2 := reads_u8 (x := m2.toNat) (UInt8.toNat_lt m2) [m1] (t :: len) (by simp [hlen, U64])
  have r3 := reads_u8 (x := t.toNat) (UInt8.toNat_lt t) [m1, m2] len (by simp [hlen, U64])
  have r4 := reads_u64 (x := beVal len) hl64 [m1, m2, t] [] (by simp [hlen, U64, hlen'])
  simp only [hb, hlen', List.nil_append, List.append_nil, List.cons_append, List.length_nil,
    List.length_cons, hlen, Nat.zero_add] at r1 r2 r3 r4
  unfold msgHeaderDeser
  simp only [Parser.bind_run, r1, Res.bind, r2]
  by_cases hm : m1.toNat = magic.1 ∧ m2.toNat = magic.2
  · rw [if_neg (by omega)]
    simp only [Parser.bind_run, r3, Res.bind, r4, maximumSize_eq]
    by_cases hle : beVal len ≤ 4 * documentedMax t.toNat
    · rw [if_neg (by omega), if_pos ⟨hm.1, hm.2, hle⟩]
      rfl
    · rw [if_pos (by omega), if_neg (fun h => hle h.2.2)]
      rfl
  · rw [if_pos (by omega), if_neg (fun h => hm ⟨h.1, h.2.1⟩)]
    rfl

/-- **C07, the stream.** A message sent is received, whatever follows it on the connection, provided its body
stays within four times the documented maximum; and what follows it is left for the next message. -/
theorem message_received (H : DigestNum) (HB : Bytes → Bytes) (coin : Bytes → Nat) (magic : Nat × Nat)
    (hm : magic.1 < 256 ∧ magic.2 < 256) (ver : Nat) (p : Payload) (hv : ValidPayload H HB coin ver p)
    (body rest : Bytes) (hb : payloadSer ver p = .ok body) (hfit : body.length ≤ 4 * documentedMax p.type) :
    ∃ msg, messageSer magic ver p = .ok msg ∧ receive H HB coin magic ver (msg ++ rest) = .ok (p, rest) := by
  obtain ⟨bs, e, r⟩ := payload_roundtrip H HB coin ver p hv
  rw [hb] at e
  injection e with e
  subst e
  refine ⟨_, by simp only [messageSer, hb, Res.ok_bind]; rfl, ?_⟩
  have ht : p.type < 256 := by cases p <;> simp [Payload.type]
  have hmax : ∀ t, documentedMax t ≤ 2696064 := by
    intro t
    unfold documentedMax
    rw [List.getD_eq_getElem?_getD]
    by_cases h : t < 29
    · rw [List.getElem?_eq_getElem (by simpa using h)]
      have : ∀ x ∈ [0, 128, 88, 16, 16, 4, 4868, 641, 365, 186882, 32, 1348032, 32, 134803, 1348032, 1348032,
          40, 64, 64, 32, 32, 41, 2696064, 41, 2696064, 41, 2696064, 41, 2696064], x ≤ 2696064 := by decide
      exact this _ (List.getElem_mem _)
    · rw [List.getElem?_eq_none (by simpa using Nat.le_of_not_lt h)]
      exact Nat.zero_le _
  have hl64 : body.length < U64 := by
    have := hmax p.type
    simp only [U64]
    omega
  have hone : ∀ x, x < 256 → ∃ u : UInt8, beBytes 1 x = [u] ∧ u.toNat = x := by
    intro x hx
    refine ⟨UInt8.ofNat x, by simp [beBytes], by simp [Nat.mod_eq_of_lt hx]⟩
  obtain ⟨u1, e1, v1⟩ := hone _ hm.1
  obtain ⟨u2, e2, v2⟩ := hone _ hm.2
  obtain ⟨u3, e3, v3⟩ := hone _ ht
  have hv8 : beVal (beBytes 8 body.length) = body.length := beVal_beBytes_of_lt (by simpa [U64] using hl64)
  have hacc := message_header_accepted_iff magic u1 u2 u3 (beBytes 8 body.length) (by simp)
  rw [v1, v2, v3, hv8, if_pos ⟨rfl, rfl, hfit⟩] at hacc
  simp only [e1, e2, e3, List.cons_append, List.nil_append, List.append_assoc]
  have hsplit : u1 :: u2 :: u3 :: (beBytes 8 body.length ++ (body ++ rest))
      = (u1 :: u2 :: u3 :: beBytes 8 body.length) ++ (body ++ rest) := by simp
  have hl11 : (u1 :: u2 :: u3 :: beBytes 8 body.length).length = 11 := by simp
  rw [hsplit]
  unfold receive
  rw [if_neg (by rw [List.length_append, hl11]; omega), List.take_left' hl11, List.drop_left' hl11, hacc]
  simp only [Res.ok_bind, List.length_append]
  rw [if_neg (by omega)]
  have hr := r [] [] (by simpa using hl64)
  simp only [List.nil_append, List.append_nil, List.length_nil, Nat.zero_add] at hr
  simp [hr]

/-- Spec: the sizes the node keeps to when it builds messages: 20 locators, 256 addresses, 512 headers, block
weight 40000 (1 per input, 21 per output, 3 per kernel), user agents of a few hundred bytes. -/
def Modest : Payload → Prop
  | .error _ _ => False
  | .hand m => m.userAgent.length ≤ 410
  | .shake m => m.userAgent.length ≤ 296
  | .peerAddrs l => l.length ≤ 256
  | .getHeaders l => l.length ≤ 20
  | .headers l => l.length ≤ 512
  | .block b => b.body.inputs.length + 21 * b.body.outputs.length + 3 * b.body.kernels.length ≤ 40000
  | .compactBlock b => 21 * b.outputs.length + 3 * b.kernels.length ≤ 5000 ∧ b.shortIds.length ≤ 40000
  | .stemTx t => t.body.inputs.length + 21 * t.body.outputs.length + 3 * t.body.kernels.length ≤ 40000
  | .tx t => t.body.inputs.length + 21 * t.body.outputs.length + 3 * t.body.kernels.length ≤ 40000
  | _ => True

private theorem serMany_length_le {α : Type} (f : α → Bytes) (c : Nat) : ∀ {l : List α},
    (∀ a ∈ l, (f a).length ≤ c) → (serMany f l).length ≤ c * l.length
  | [], _ => by simp [serMany]
  | a :: l, h => by
    have h1 := h a List.mem_cons_self
    have h2 := serMany_length_le f c (l := l) fun b hb => h b (List.mem_cons_of_mem _ hb)
    simp only [serMany, List.map_cons, List.flatten_cons, List.length_append, List.length_cons] at h2 ⊢
    rw [Nat.mul_succ]
    omega

private theorem addr_length {a : SockAddr} (h : ValidAddr a) : (sockAddrSer a).length ≤ 19 := by
  obtain ⟨ip, port⟩ := a
  obtain ⟨⟨b, hb⟩, hp⟩ := h
  simp only at hb
  rcases hb with ⟨rfl, hl⟩ | ⟨rfl, hl⟩ <;> simp [sockAddrSer, hl]

private theorem header_length {HB : Bytes → Bytes} {h : Header} (hv : ValidHeader HB h) {bs : Bytes}
    (e : headerSer h = .ok bs) : bs.length ≤ 578 := by
  unfold headerSer powSer at e
  obtain ⟨p, hp, e⟩ := Res.bind_eq_ok.mp e
  obtain ⟨c, hc, hp⟩ := Res.bind_eq_ok.mp hp
  obtain ⟨bits, hb, hl, _⟩ := serCycle_ok (eb := h.pow.edgeBits) (xs := h.pow.nonces)
    (by have := hv.edgeBits.2; omega) (by have := hv.edgeBits.1; omega) (Nat.le_of_eq hv.nonces.1)
  rw [hc] at hb
  injection hb with hb
  injection e with e
  injection hp with hp
  subst e hp hb
  have := hv.edgeBits.2
  simp only [headerPre, List.length_append, beBytes_length, serI64, hv.prevHash, hv.prevRoot, hv.outputRoot,
    hv.rangeProofRoot, hv.kernelRoot, hv.offset, hl, cycleBytes, PROOFSIZE]
  omega

private theorem serAll_length {α : Type} {f : α → Res Bytes} (c : Nat) : ∀ {l : List α} {bs : Bytes},
    (∀ a ∈ l, ∀ x, f a = .ok x → x.length ≤ c) → serAll f l = .ok bs → bs.length ≤ c * l.length
  | [], bs, _, e => by
    injection e with e
    subst e
    simp
  | a :: l, bs, h, e => by
    unfold serAll at e
    obtain ⟨x, hx, e⟩ := Res.bind_eq_ok.mp e
    obtain ⟨y, hy, e⟩ := Res.bind_eq_ok.mp e
    injection e with e
    subst e
    have h1 := h a List.mem_cons_self x hx
    have h2 := serAll_length c (l := l) (fun b hb => h b (List.mem_cons_of_mem _ hb)) hy
    simp only [List.length_append, List.length_cons]
    rw [Nat.mul_succ]
    omega

private theorem input_length {coin : Bytes → Nat} {ver : Nat} {i : TxInput} (h : ValidInput coin ver i) :
    (inputSer ver i).length ≤ 34 := by
  unfold inputSer
  split <;> simp [h.1]

private theorem output_length {o : TxOutput} (h : ValidOutput o) : (outputSer o).length ≤ 717 := by
  obtain ⟨_, h1, h2⟩ := h
  simp only [outputSer, proofSer, List.length_append, beBytes_length, h1]
  omega

private theorem kernel_length {ver : Nat} {k : Kernel} (h : ValidKernel k) : (kernelSer ver k).length ≤ 114 := by
  obtain ⟨_, h1, h2, _⟩ := h
  rw [kernelSer_eq]
  unfold kernelArgsSer
  split
  · split
    · simp [feeSer, h1, h2]
    · split
      · simp [h1, h2]
      · split
        · simp [feeSer, h1, h2]
        · split <;> simp [feeSer, h1, h2]
  · simp [feeSer, h1, h2]

private theorem body_length {H : DigestNum} {coin : Bytes → Nat} {ver : Nat} {b : Body} (h : ValidBody H coin ver b) :
    (bodySer ver b).length ≤ 24 + 38 * (b.inputs.length + 21 * b.outputs.length + 3 * b.kernels.length) := by
  have h1 := serMany_length_le (inputSer ver) 34 fun i hi => input_length (h.inputs i hi)
  have h2 := serMany_length_le outputSer 717 fun o ho => output_length (h.outputs o ho)
  have h3 := serMany_length_le (kernelSer ver) 114 fun k hk => kernel_length (ver := ver) (h.kernels k hk)
  simp only [bodySer, List.length_append, beBytes_length]
  omega

/-- **C07, the limits are wide enough.** Every message the node builds within its own size limits (in
particular every block and transaction of legal weight) is within four times the documented maximum, so
`message_received` applies to it. -/
theorem modest_messages_fit (H : DigestNum) (HB : Bytes → Bytes) (coin : Bytes → Nat) (ver : Nat) (p : Payload)
    (hv : ValidPayload H HB coin ver p) (hm : Modest p) (body : Bytes) (hb : payloadSer ver p = .ok body) :
    body.length ≤ 4 * documentedMax p.type := by
  cases p with
  | error c t => exact hm.elim
  | hand m =>
    obtain ⟨h1, h2, h3, h4, h5, h6, h7, h8⟩ := hv
    injection hb with hb
    subst hb
    have := addr_length h6
    have := addr_length h7
    simp only [Modest] at hm
    simp only [handSer, serVarStr, List.length_append, beBytes_length, h4, Payload.type, documentedMax,
      List.getD_cons_succ, List.getD_cons_zero]
    omega
  | shake m =>
    obtain ⟨h1, h2, h3, h4, h5⟩ := hv
    injection hb with hb
    subst hb
    simp only [Modest] at hm
    simp only [shakeSer, serVarStr, List.length_append, beBytes_length, h3, Payload.type, documentedMax,
      List.getD_cons_succ, List.getD_cons_zero]
    omega
  | ping d h => injection hb with hb; subst hb; simp [Payload.type, documentedMax]
  | pong d h => injection hb with hb; subst hb; simp [Payload.type, documentedMax]
  | getPeerAddrs c => injection hb with hb; subst hb; simp [Payload.type, documentedMax]
  | peerAddrs l =>
    injection hb with hb
    subst hb
    have := serMany_length_le sockAddrSer 19 fun a ha => addr_length (hv.2 a ha)
    simp only [Modest] at hm
    simp only [List.length_append, beBytes_length, Payload.type, documentedMax,
      List.getD_cons_succ, List.getD_cons_zero]
    omega
  | getHeaders l =>
    injection hb with hb
    subst hb
    have := serMany_length_le id 32 fun a ha => Nat.le_of_eq (hv.2 a ha)
    simp only [Modest] at hm
    simp only [List.length_append, beBytes_length, Payload.type, documentedMax,
      List.getD_cons_succ, List.getD_cons_zero]
    omega
  | header h =>
    have := header_length (HB := HB) hv hb
    simp only [Payload.type, documentedMax, List.getD_cons_succ, List.getD_cons_zero]
    omega
  | headers l =>
    unfold payloadSer at hb
    obtain ⟨bs, e, hb⟩ := Res.bind_eq_ok.mp hb
    injection hb with hb
    subst hb
    have := serAll_length 578 (fun h hh x hx => header_length (hv.2 h hh) hx) e
    simp only [Modest] at hm
    simp only [List.length_append, beBytes_length, Payload.type, documentedMax,
      List.getD_cons_succ, List.getD_cons_zero]
    omega
  | getBlock h => injection hb with hb; subst hb; rw [show h.length = 32 from hv]; simp [Payload.type, documentedMax]
  | block b =>
    unfold payloadSer blockSer at hb
    obtain ⟨bs, e, hb⟩ := Res.bind_eq_ok.mp hb
    injection hb with hb
    subst hb
    have := header_length hv.1 e
    have := body_length hv.2.1
    simp only [Modest] at hm
    simp only [List.length_append, Payload.type, documentedMax,
      List.getD_cons_succ, List.getD_cons_zero]
    omega
  | getCompactBlock h =>
    injection hb with hb; subst hb; rw [show h.length = 32 from hv]; simp [Payload.type, documentedMax]
  | compactBlock b =>
    obtain ⟨h1, h2, h3, h4, h5, h6, h7, h8⟩ := hv
    unfold payloadSer compactSer at hb
    obtain ⟨bs, e, hb⟩ := Res.bind_eq_ok.mp hb
    injection hb with hb
    subst hb
    have := header_length h1 e
    have := serMany_length_le outputSer 717 fun o ho => output_length (h3 o ho)
    have := serMany_length_le (kernelSer ver) 114 fun k hk => kernel_length (ver := ver) (h4 k hk)
    have := serMany_length_le id 6 fun a ha => Nat.le_of_eq (h5 a ha)
    simp only [Modest] at hm
    simp only [List.length_append, beBytes_length, Payload.type, documentedMax,
      List.getD_cons_succ, List.getD_cons_zero]
    omega
  | stemTx t =>
    injection hb with hb
    subst hb
    have := body_length hv.1
    simp only [Modest] at hm
    simp only [txSer, List.length_append, hv.2.1, Payload.type, documentedMax,
      List.getD_cons_succ, List.getD_cons_zero]
    omega
  | tx t =>
    injection hb with hb
    subst hb
    have := body_length hv.1
    simp only [Modest] at hm
    simp only [txSer, List.length_append, hv.2.1, Payload.type, documentedMax,
      List.getD_cons_succ, List.getD_cons_zero]
    omega
  | txHashSetRequest h n => injection hb with hb; subst hb; simp [Payload.type, documentedMax, hv.1]
  | txHashSetArchive h n s => injection hb with hb; subst hb; simp [Payload.type, documentedMax, hv.1]
  | banReason r => injection hb with hb; subst hb; simp [Payload.type, documentedMax]
  | getTx h => injection hb with hb; subst hb; rw [show h.length = 32 from hv]; simp [Payload.type, documentedMax]
  | kernel h => injection hb with hb; subst hb; rw [show h.length = 32 from hv]; simp [Payload.type, documentedMax]
  | getBitmapSegment h n i => injection hb with hb; subst hb; simp [segmentSer, Payload.type, documentedMax, hv.1]
  | getOutputSegment h n i => injection hb with hb; subst hb; simp [segmentSer, Payload.type, documentedMax, hv.1]
  | getProofSegment h n i => injection hb with hb; subst hb; simp [segmentSer, Payload.type, documentedMax, hv.1]
  | getKernelSegment h n i => injection hb with hb; subst hb; simp [segmentSer, Payload.type, documentedMax, hv.1]

/-- **C07 fails for one message**: error messages have a documented maximum of zero, so a node refuses every
error message another node sends it. -/
theorem error_message_violated (H : DigestNum) (HB : Bytes → Bytes) (coin : Bytes → Nat) (magic : Nat × Nat)
    (hm : magic.1 < 256 ∧ magic.2 < 256) (ver c : Nat) (t rest : Bytes) (ht : t.length < 2 ^ 63) :
    ∃ msg, messageSer magic ver (.error c t) = .ok msg ∧
      receive H HB coin magic ver (msg ++ rest) = .throw := by
  refine ⟨_, by simp only [messageSer, payloadSer, Res.ok_bind]; rfl, ?_⟩
  generalize hbody : beBytes 4 c ++ serVarStr t = body
  have hbl : body.length = 12 + t.length := by
    subst hbody
    simp only [serVarStr, List.length_append, beBytes_length]
    omega
  have hone : ∀ x, x < 256 → ∃ u : UInt8, beBytes 1 x = [u] ∧ u.toNat = x := by
    intro x hx
    refine ⟨UInt8.ofNat x, by simp [beBytes], by simp [Nat.mod_eq_of_lt hx]⟩
  obtain ⟨u1, e1, v1⟩ := hone _ hm.1
  obtain ⟨u2, e2, v2⟩ := hone _ hm.2
  obtain ⟨u3, e3, v3⟩ := hone (Payload.type (.error c t)) (by simp [Payload.type])
  have hv8 : beVal (beBytes 8 body.length) = body.length :=
    beVal_beBytes_of_lt (by rw [hbl]; have : (256 : Nat) ^ 8 = 2 ^ 64 := by decide
                            omega)
  have hacc := message_header_accepted_iff magic u1 u2 u3 (beBytes 8 body.length) (by simp)
  rw [v1, v2, v3, hv8, if_neg (by
    rintro ⟨_, _, h⟩
    simp only [Payload.type, documentedMax, List.getD_cons_zero] at h
    omega)] at hacc
  simp only [e1, e2, e3, List.cons_append, List.nil_append, List.append_assoc]
  have hsplit : u1 :: u2 :: u3 :: (beBytes 8 body.length ++ (body ++ rest))
      = (u1 :: u2 :: u3 :: beBytes 8 body.length) ++ (body ++ rest) := by simp
  have hl11 : (u1 :: u2 :: u3 :: beBytes 8 body.length).length = 11 := by simp
  rw [hsplit]
  unfold receive
  rw [if_neg (by rw [List.length_append, hl11]; omega), List.take_left' hl11, List.drop_left' hl11, hacc]
  rfl

/-- **C01, from the network.** The length-prefix overflow of `readVarStr_violated` is reachable by any peer: a
hand message of 57 bytes whose user agent announces a length of `2^64 - 1` makes the receiver read outside
its buffer. -/
theorem hand_message_violated (H : DigestNum) (HB : Bytes → Bytes) (coin : Bytes → Nat) (magic : Nat × Nat)
    (hm : magic.1 < 256 ∧ magic.2 < 256) (ver : Nat) :
    ∃ stream : Bytes, stream.length = 11 + 46 ∧ receive H HB coin magic ver stream = .ub := by
  have hone : ∀ x, x < 256 → ∃ u : UInt8, beBytes 1 x = [u] ∧ u.toNat = x := by
    intro x hx
    refine ⟨UInt8.ofNat x, by simp [beBytes], by simp [Nat.mod_eq_of_lt hx]⟩
  obtain ⟨u1, _, v1⟩ := hone _ hm.1
  obtain ⟨u2, _, v2⟩ := hone _ hm.2
  refine ⟨(u1 :: u2 :: 1 :: [0, 0, 0, 0, 0, 0, 0, 46]) ++
    (List.replicate 38 0 ++ [255, 255, 255, 255, 255, 255, 255, 255]), by simp, ?_⟩
  have hacc := message_header_accepted_iff magic u1 u2 1 [0, 0, 0, 0, 0, 0, 0, 46] rfl
  rw [v1, v2, if_pos ⟨rfl, rfl, by decide⟩] at hacc
  unfold receive
  rw [if_neg (by simp), List.take_left' (by rfl), List.drop_left' (by rfl), hacc]
  have hd : handDeser ⟨List.replicate 38 0 ++ [255, 255, 255, 255, 255, 255, 255, 255], 0⟩ = .ub := by
    decide +kernel
  have hv46 : beVal [0, 0, 0, 0, 0, 0, 0, 46] = 46 := by decide
  simp only [Res.ok_bind, hv46]
  rw [if_neg (by simp), List.take_of_length_le (by simp)]
  show ((handDeser >>= fun m => pure (Payload.hand m)) _ >>= _) = _
  rw [Parser.bind_run, hd]
  rfl

/-! ## The hypotheses are met -/

/-- A node's handshake: an IPv4 and an IPv6 address, a short user agent. -/
example : ValidPayload beVal id (fun _ => 0) 1000
    (.hand ⟨1000, 15, 77, List.replicate 32 9, 123456789, ⟨.v4 [127, 0, 0, 1], 3414⟩,
      ⟨.v6 (List.replicate 16 1), 13414⟩, [77, 87, 47, 71, 114, 105, 110]⟩) := by
  simp [ValidPayload, ValidAddr]

/-- A peer list and a locator of the largest sizes the node sends. -/
example : ValidPayload beVal id (fun _ => 0) 1000 (.peerAddrs (List.replicate 256 ⟨.v4 [1, 2, 3, 4], 3414⟩)) ∧
    Modest (.peerAddrs (List.replicate 256 ⟨.v4 [1, 2, 3, 4], 3414⟩)) ∧
    ValidPayload beVal id (fun _ => 0) 1000 (.getHeaders (List.replicate 20 (List.replicate 32 7))) ∧
    Modest (.getHeaders (List.replicate 20 (List.replicate 32 7))) := by
  refine ⟨⟨by rw [List.length_replicate]; decide, ?_⟩, Nat.le_of_eq List.length_replicate,
    ⟨by rw [List.length_replicate]; decide, ?_⟩, Nat.le_of_eq List.length_replicate⟩
  · intro a ha
    rw [List.eq_of_mem_replicate ha]
    simp [ValidAddr]
  · intro a ha
    rw [List.eq_of_mem_replicate ha]
    simp

/-- A ping through the stream, byte for byte. -/
example : messageSer (97, 61) 1000 (.ping 5 258) =
      .ok [97, 61, 3, 0, 0, 0, 0, 0, 0, 0, 16, 0, 0, 0, 0, 0, 0, 0, 5, 0, 0, 0, 0, 0, 0, 1, 2] ∧
    receive beVal id (fun _ => 0) (97, 61) 1000
      [97, 61, 3, 0, 0, 0, 0, 0, 0, 0, 16, 0, 0, 0, 0, 0, 0, 0, 5, 0, 0, 0, 0, 0, 0, 1, 2, 42]
      = .ok (.ping 5 258, [42]) := by
  decide +kernel

end Verif.Props
