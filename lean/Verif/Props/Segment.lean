import Verif.Codec.Segment
import Verif.Props.Messages

/-!
# C95: segments of the chain state on the wire
-/
namespace Verif.Props

open Verif Verif.Codec

/-- Spec: a segment as its format requires: as many hashes and leaves as positions, every leaf well formed. -/
structure ValidSegment {α : Type} (leaf : α → Prop) (s : Segment α) : Prop where
  height : s.id.height < 256
  index : s.id.index < 2 ^ 64
  hashPos : ∀ p ∈ s.hashPos, p < 2 ^ 64
  hashes : s.hashes.length = s.hashPos.length ∧ ∀ h ∈ s.hashes, h.length = 32
  leafPos : ∀ p ∈ s.leafPos, p < 2 ^ 64
  leaves : s.leaves.length = s.leafPos.length ∧ ∀ l ∈ s.leaves, leaf l
  proof : ∀ h ∈ s.proof, h.length = 32
  counts : s.hashPos.length < 2 ^ 64 ∧ s.leafPos.length < 2 ^ 64 ∧ s.proof.length < 2 ^ 64

/-- Spec: a block of a bitmap: raw with 128 bytes for each chunk, or a list of fewer than 65536 positions. -/
def ValidBitmapBlock (b : BitmapBlock) : Prop :=
  b.chunks < 256 ∧
    ((b.mode = 0 ∧ b.positions = [] ∧ b.bytes.length = b.chunks * 128) ∨
     ((b.mode = 1 ∨ b.mode = 2) ∧ b.bytes = [] ∧ b.positions.length < 65536 ∧ ∀ p ∈ b.positions, p < 65536))

/-- Spec: a segment of the bitmap. -/
structure ValidBitmapSeg (s : BitmapSeg) : Prop where
  height : s.id.height < 256
  index : s.id.index < 2 ^ 64
  blocks : s.blocks.length < 65536 ∧ ∀ b ∈ s.blocks, ValidBitmapBlock b
  proof : s.proof.length < 2 ^ 64 ∧ ∀ h ∈ s.proof, h.length = 32

/-- Spec: a message with a segment. -/
def ValidSegmentMsg : SegmentMsg → Prop
  | .bitmap h s r => h.length = 32 ∧ ValidBitmapSeg s ∧ r.length = 32
  | .output h s r => h.length = 32 ∧ ValidSegment (fun o : TxInput => o.features < 256 ∧ o.commit.length = 33) s ∧ r.length = 32
  | .proof h s => h.length = 32 ∧ ValidSegment (fun p : Bytes => p.length ≤ 675) s
  | .kernel h s => h.length = 32 ∧ ValidSegment ValidKernel s

private theorem reads_segId {i : SegId} (h1 : i.height < 256) (h2 : i.index < 2 ^ 64) : Reads segIdDeser (segIdSer i) i :=
  Reads.bind (reads_u8 h1) (Reads.bind0 (reads_u64 h2) (Reads.pure _))

private theorem reads_hashes {l : List Bytes} (h : ∀ x ∈ l, x.length = 32) :
    Reads (readMany (readBytes 32) l.length) (serMany id l) l :=
  reads_many fun a ha => reads_bytes (h a ha)

private theorem reads_segProof {l : List Bytes} (hl : l.length < 2 ^ 64) (h : ∀ x ∈ l, x.length = 32) :
    Reads segProofDeser (segProofSer l) l :=
  Reads.bind (reads_u64 hl) (reads_hashes h)

private theorem reads_segmentBody {α : Type} {p : Parser α} {f : α → Bytes} {ok : α → Prop} (hr : ∀ a, ok a → Reads p (f a) a)
    {s : Segment α} (h : ValidSegment ok s) : Reads (segmentBodyDeser p) (segmentBodySer f s) s := by
  obtain ⟨h1, h2, h3, ⟨h4, h4'⟩, h5, ⟨h6, h6'⟩, h7, h8, h9, h10⟩ := h
  have hh := reads_hashes h4'
  rw [h4] at hh
  have hl : Reads (readMany p s.leaves.length) (serMany f s.leaves) s.leaves := reads_many fun a ha => hr a (h6' a ha)
  rw [h6] at hl
  exact Reads.bind (reads_segId h1 h2) (Reads.bind (reads_u64 h8) (Reads.bind (reads_many fun a ha => reads_u64 (h3 a ha))
    (Reads.bind hh (Reads.bind (reads_u64 h9) (Reads.bind (reads_many fun a ha => reads_u64 (h5 a ha))
      (Reads.bind hl (Reads.bind0 (reads_segProof h10 h7) (Reads.pure _))))))))

private theorem reads_bitmapBlock {b : BitmapBlock} (h : ValidBitmapBlock b) :
    ∃ bs, bitmapBlockSer b = .ok bs ∧ Reads bitmapBlockDeser bs b := by
  obtain ⟨c, m, ps, bytes⟩ := b
  obtain ⟨hc, h⟩ := h
  simp only at hc h
  rcases h with ⟨rfl, rfl, hb⟩ | ⟨hm, rfl, hn, hp⟩
  · refine ⟨_, rfl, ?_⟩
    refine Reads.bind (reads_u8 hc) (Reads.bind (reads_u8 (by decide)) ?_)
    simp only [gt_iff_lt, Nat.not_lt_zero, if_false, if_true]
    exact Reads.bind0 (reads_bytes hb) (Reads.pure _)
  · have e : bitmapBlockSer ⟨c, m, ps, []⟩ =
        .ok (beBytes 1 c ++ (beBytes 1 m ++ (beBytes 2 ps.length ++ serMany (beBytes 2) ps))) := by
      unfold bitmapBlockSer
      rw [if_neg (by simp only; omega), if_pos hm, Nat.mod_eq_of_lt hn]
    refine ⟨_, e, ?_⟩
    refine Reads.bind (reads_u8 hc) (Reads.bind (reads_u8 (by omega)) ?_)
    rw [if_neg (by omega), if_neg (by omega)]
    exact Reads.bind (reads_u16 hn) (Reads.bind0 (reads_many fun a ha => reads_u16 (hp a ha)) (Reads.pure _))

private theorem reads_bitmapBlocks : ∀ {l : List BitmapBlock}, (∀ b ∈ l, ValidBitmapBlock b) →
    ∃ bs, bitmapBlocksSer l = .ok bs ∧ Reads (readMany bitmapBlockDeser l.length) bs l
  | [], _ => ⟨[], rfl, by simpa [readMany] using Reads.pure ([] : List BitmapBlock)⟩
  | b :: l, h => by
    obtain ⟨x, hx, rx⟩ := reads_bitmapBlock (h b List.mem_cons_self)
    obtain ⟨y, hy, ry⟩ := reads_bitmapBlocks (l := l) fun c hc => h c (List.mem_cons_of_mem _ hc)
    refine ⟨x ++ y, by simp [bitmapBlocksSer, hx, hy], ?_⟩
    simp only [List.length_cons, readMany]
    exact Reads.bind rx (Reads.bind0 ry (Reads.pure _))

/-- **C95.** A segment message is read by its receiver, at every protocol version, as the message that was sent. -/
theorem segment_message_roundtrip (ver : Nat) (m : SegmentMsg) (hv : ValidSegmentMsg m) :
    ∃ bs, segmentMsgSer ver m = .ok bs ∧ Reads (segmentMsgDeser ver m.type) bs m := by
  cases m with
  | bitmap h s r =>
    obtain ⟨hh, ⟨h1, h2, ⟨h3, h4⟩, h5, h6⟩, hr⟩ := hv
    obtain ⟨x, hx, rx⟩ := reads_bitmapBlocks h4
    refine ⟨h ++ ((segIdSer s.id ++ (beBytes 2 s.blocks.length ++ (x ++ segProofSer s.proof))) ++ r), ?_, ?_⟩
    · simp [segmentMsgSer, bitmapSegSer, hx, Nat.mod_eq_of_lt h3]
    · refine Reads.bind (reads_bytes hh) (Reads.bind (a := s) ?_ (Reads.bind0 (reads_bytes hr) (Reads.pure _)))
      exact Reads.bind (reads_segId h1 h2) (Reads.bind (reads_u16 h3) (Reads.bind rx
        (Reads.bind0 (reads_segProof h5 h6) (Reads.pure _))))
  | output h s r =>
    obtain ⟨hh, hs, hr⟩ := hv
    exact ⟨_, rfl, Reads.bind (reads_bytes hh) (Reads.bind (reads_segmentBody (fun a ha => reads_outputId ha.1 ha.2) hs)
      (Reads.bind0 (reads_bytes hr) (Reads.pure _)))⟩
  | proof h s =>
    obtain ⟨hh, hs⟩ := hv
    exact ⟨_, rfl, Reads.bind (reads_bytes hh) (Reads.bind0 (reads_segmentBody (fun a ha => reads_proof ha) hs) (Reads.pure _))⟩
  | kernel h s =>
    obtain ⟨hh, hs⟩ := hv
    exact ⟨_, rfl, Reads.bind (reads_bytes hh) (Reads.bind0 (reads_segmentBody (fun a ha => kernel_roundtrip ver a ha) hs)
      (Reads.pure _))⟩

private def toySegment : SegmentMsg :=
  .proof (List.replicate 32 1) ⟨⟨9, 5⟩, [3], [List.replicate 32 2], [1, 2], [[7], [8, 9]], [List.replicate 32 3]⟩

example : ValidSegmentMsg toySegment := by
  refine ⟨by decide, ?_⟩
  constructor <;> decide

/-- **C95, violated.** The memory a message makes the node fill is not bounded by its length: 49 bytes from any peer, which
are then found too short, make it write zeros into any multiple of eight bytes up to 2^63. -/
theorem segment_memory_violated (n : Nat) (h0 : 0 < n) (hn : n < 2 ^ 60) (ver type : Nat)
    (ht : type = 24 ∨ type = 26 ∨ type = 28) :
    ∃ body : Bytes, body.length = 49 ∧ (∃ b, positionsMemory ⟨body, 0⟩ = .ok (8 * n, b)) ∧
      segmentMsgDeser ver type ⟨body, 0⟩ = .throw := by
  have hid : Reads segIdDeser (segIdSer ⟨0, 0⟩) ⟨0, 0⟩ := reads_segId (by decide) (by decide)
  have hn8 : n < 2 ^ 64 := Nat.lt_of_lt_of_le hn (by decide)
  have hh : (List.replicate 32 (0 : UInt8)).length = 32 := by decide
  have l8 : (beBytes 8 n).length = 8 := beBytes_length 8 n
  let body : Bytes := List.replicate 32 0 ++ (segIdSer ⟨0, 0⟩ ++ beBytes 8 n)
  have lb : body.length = 49 := by
    simp only [body, List.length_append, l8]; decide
  obtain ⟨k, rfl⟩ : ∃ k, n = k + 1 := ⟨n - 1, by omega⟩
  have hbody (α : Type) (p : Parser α) (b : Buf) (hb : b = ⟨body, 32⟩) : segmentBodyDeser p b = .throw := by
    subst hb
    have h1 := hid (List.replicate 32 0) (beBytes 8 (k + 1)) (by
      simp only [List.length_append, l8, U64]; decide)
    have h2 := (reads_u64 hn8) (List.replicate 32 0 ++ segIdSer ⟨0, 0⟩) [] (by
      simp only [List.length_append, l8, U64]; decide)
    simp only [List.append_assoc, List.append_nil] at h1 h2
    simp only [segmentBodyDeser, Parser.bind_run]
    rw [show (32 : Nat) = (List.replicate 32 (0 : UInt8)).length from hh.symm]
    rw [show body = List.replicate 32 0 ++ (segIdSer ⟨0, 0⟩ ++ beBytes 8 (k + 1)) from rfl, h1]
    simp only [Res.bind]
    rw [List.length_append] at h2
    rw [h2]
    simp only [Res.bind, readMany, Parser.bind_run, readBE, readBytes]
    rw [if_pos]
    rw [show List.replicate 32 0 ++ (segIdSer ⟨0, 0⟩ ++ beBytes 8 (k + 1)) = body from rfl, lb, l8]
    decide
  have h0 : readBytes 32 ⟨body, 0⟩ = .ok (List.replicate 32 0, ⟨body, 32⟩) := by
    have := reads_bytes hh [] (segIdSer ⟨0, 0⟩ ++ beBytes 8 (k + 1)) (by
      simp only [List.length_append, l8, U64]; decide)
    simpa [body] using this
  refine ⟨body, lb, ?_, ?_⟩
  · have h1 := hid (List.replicate 32 0) (beBytes 8 (k + 1)) (by
      simp only [List.length_append, l8, U64]; decide)
    have h2 := (reads_u64 hn8) (List.replicate 32 0 ++ segIdSer ⟨0, 0⟩) [] (by
      simp only [List.length_append, l8, U64]; decide)
    simp only [List.append_assoc, List.append_nil] at h1 h2
    rw [show List.replicate 32 0 ++ (segIdSer ⟨0, 0⟩ ++ beBytes 8 (k + 1)) = body from rfl] at h1 h2
    rw [hh] at h1
    rw [List.length_append, hh] at h2
    refine ⟨⟨body, 32 + (segIdSer ⟨0, 0⟩).length + (beBytes 8 (k + 1)).length⟩, ?_⟩
    · simp only [positionsMemory, Parser.bind_run, h0, Res.bind]
      rw [h1]
      simp only
      rw [h2]
      simp only [if_pos hn]
      rfl
  · rcases ht with rfl | rfl | rfl <;>
      simp only [segmentMsgDeser, Parser.bind_run, h0, Res.bind] <;> rw [hbody _ _ _ rfl]

example : ∃ n : Nat, 0 < n ∧ n < 2 ^ 60 ∧ 8 * n = 2 ^ 40 := ⟨2 ^ 37, by decide, by decide, by decide⟩

private theorem serMany_two_length : ∀ ps : List Nat, (serMany (beBytes 2) ps).length = 2 * ps.length
  | [] => rfl
  | p :: ps => by
    have := serMany_two_length ps
    simp only [serMany, List.map_cons, List.flatten_cons, List.length_append, beBytes_length, List.length_cons] at this ⊢
    omega

private theorem cut_positions (ps : List Nat) (h : ps.length = 65536) :
    ∃ bs, bitmapBlockSer ⟨255, 1, ps, []⟩ = .ok bs ∧ ∀ c d, bitmapBlockDeser ⟨bs, 0⟩ = .ok (c, d) → c.positions = [] := by
  have e0 : ps.length % 65536 = 0 := by omega
  have e : bitmapBlockSer ⟨255, 1, ps, []⟩ = .ok (beBytes 1 255 ++ (beBytes 1 1 ++ (beBytes 2 0 ++ serMany (beBytes 2) ps))) := by
    rw [← e0]; rfl
  refine ⟨_, e, ?_⟩
  intro c d hc
  have hr : Reads bitmapBlockDeser (beBytes 1 255 ++ (beBytes 1 1 ++ (beBytes 2 0 ++ []))) ⟨255, 1, [], []⟩ :=
    Reads.bind (reads_u8 (by decide)) (Reads.bind (reads_u8 (by decide)) (by
      rw [if_neg (by decide), if_neg (by decide)]
      exact Reads.bind (reads_u16 (by decide)) (Reads.bind0 (reads_many (f := beBytes 2) (l := []) (by simp)) (Reads.pure _))))
  have := hr [] (serMany (beBytes 2) ps) (by
    simp only [List.length_append, serMany_two_length, beBytes_length, List.length_nil, U64]; omega)
  simp only [List.append_assoc, List.nil_append, List.length_nil] at this
  have e2 := congrArg Prod.fst (Res.ok.inj (hc.symm.trans this))
  exact congrArg BitmapBlock.positions e2

/-- **C95, violated.** A block of the bitmap may have 255 chunks of 1024 positions, so it may have a list of 65536 positions or
more, and such a list comes out empty: the count keeps only its low 16 bits. -/
theorem segment_positions_violated : ∃ b : BitmapBlock, b.chunks = 255 ∧ b.mode = 1 ∧ b.positions.length = 65536 ∧
    (∀ p ∈ b.positions, p < 65536) ∧
    ∃ bs, bitmapBlockSer b = .ok bs ∧ ∀ c d, bitmapBlockDeser ⟨bs, 0⟩ = .ok (c, d) → c.positions = [] :=
  have ⟨ps, h1, h2⟩ : ∃ ps : List Nat, ps.length = 65536 ∧ ∀ p ∈ ps, p < 65536 :=
    ⟨List.range 65536, List.length_range, fun _ hp => List.mem_range.mp hp⟩
  ⟨⟨255, 1, ps, []⟩, rfl, rfl, h1, h2, cut_positions ps h1⟩

end Verif.Props
