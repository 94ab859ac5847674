import Verif.Ser.ByteBuffer

/-!
# Round-trip predicate and its composition lemmas
-/
namespace Verif

/-- `Reads p bs a`: wherever the bytes `bs` lie inside a buffer (any bytes before, any after,
total below `2^64`), running `p` with the cursor at their start returns `a` and leaves the cursor
just after them. -/
def Reads {α : Type} (p : Parser α) (bs : Bytes) (a : α) : Prop :=
  ∀ pre post : Bytes, (pre ++ bs ++ post).length < U64 →
    p ⟨pre ++ bs ++ post, pre.length⟩
      = .ok (a, ⟨pre ++ bs ++ post, pre.length + bs.length⟩)

/-- `ReadsEnd p bs a`: as `Reads`, for deserializers that look at the remaining size, so `bs` must
be the end of the buffer. -/
def ReadsEnd {α : Type} (p : Parser α) (bs : Bytes) (a : α) : Prop :=
  ∀ pre : Bytes, (pre ++ bs).length < U64 →
    p ⟨pre ++ bs, pre.length⟩ = .ok (a, ⟨pre ++ bs, pre.length + bs.length⟩)

theorem Reads.toEnd {α : Type} {p : Parser α} {bs : Bytes} {a : α} (h : Reads p bs a) :
    ReadsEnd p bs a := by
  intro pre hl
  have := h pre [] (by simpa using hl)
  simpa using this

theorem Reads.pure {α : Type} (a : α) : Reads (pure a : Parser α) [] a := by
  intro pre post _
  simp [Parser.pure_run]

theorem Reads.bind {α β : Type} {p : Parser α} {f : α → Parser β} {bs cs : Bytes} {a : α} {b : β}
    (hp : Reads p bs a) (hf : Reads (f a) cs b) : Reads (p >>= f) (bs ++ cs) b := by
  intro pre post hl
  have h1 := hp pre (cs ++ post) (by simpa [List.append_assoc] using hl)
  have h2 := hf (pre ++ bs) post (by simpa [List.append_assoc] using hl)
  simp only [List.append_assoc, List.length_append] at h1 h2 ⊢
  rw [Parser.bind_run, h1]
  simp only [Res.bind]
  rw [h2]
  simp [Nat.add_assoc]

theorem ReadsEnd.bind {α β : Type} {p : Parser α} {f : α → Parser β} {bs cs : Bytes} {a : α} {b : β}
    (hp : Reads p bs a) (hf : ReadsEnd (f a) cs b) : ReadsEnd (p >>= f) (bs ++ cs) b := by
  intro pre hl
  have h1 := hp pre cs (by simpa [List.append_assoc] using hl)
  have h2 := hf (pre ++ bs) (by simpa [List.append_assoc] using hl)
  simp only [List.append_assoc, List.length_append] at h1 h2 ⊢
  rw [Parser.bind_run, h1]
  simp only [Res.bind]
  rw [h2]
  simp [Nat.add_assoc]

theorem Reads.congr {α : Type} {p : Parser α} {bs bs' : Bytes} {a a' : α}
    (h : Reads p bs a) (hb : bs = bs') (ha : a = a') : Reads p bs' a' := by
  subst hb; subst ha; exact h

/-- The last step of a sequence of reads. -/
theorem Reads.map {α β : Type} {p : Parser α} {f : α → β} {bs : Bytes} {a : α}
    (hp : Reads p bs a) : Reads (p >>= fun x => Pure.pure (f x)) bs (f a) := by
  have := Reads.bind (f := fun x => (Pure.pure (f x) : Parser β)) hp (Reads.pure (f a))
  simpa using this

theorem reads_bytes {n : Nat} {bs : Bytes} (h : bs.length = n) : Reads (readBytes n) bs bs := by
  subst h
  intro pre post hl
  have h1 : (pre.length + bs.length) % U64 = pre.length + bs.length := by
    apply Nat.mod_eq_of_lt
    simp only [List.length_append] at hl
    omega
  have hlen : (pre ++ bs ++ post).length = pre.length + bs.length + post.length := by
    simp [Nat.add_assoc]
  unfold readBytes
  rw [if_neg, if_pos]
  · simp
  · show pre.length + bs.length ≤ (pre ++ bs ++ post).length
    omega
  · show ¬ (pre.length + bs.length) % U64 > (pre ++ bs ++ post).length
    omega

theorem reads_be {n x : Nat} (h : x < 256 ^ n) : Reads (readBE n) (beBytes n x) x := by
  have := Reads.map (f := beVal) (reads_bytes (beBytes_length n x))
  rw [beVal_beBytes_of_lt h] at this
  exact this

theorem reads_le {n x : Nat} (h : x < 256 ^ n) : Reads (readLE n) (leBytes n x) x := by
  have := Reads.map (f := fun bs : Bytes => beVal bs.reverse)
    (reads_bytes (n := n) (bs := leBytes n x) (by simp [leBytes]))
  simp only [leBytes, List.reverse_reverse, beVal_beBytes_of_lt h] at this
  exact this

theorem reads_u8 {x : Nat} (h : x < 256) : Reads (readBE 1) (beBytes 1 x) x := reads_be (by simpa)
theorem reads_u16 {x : Nat} (h : x < 65536) : Reads (readBE 2) (beBytes 2 x) x :=
  reads_be (by simpa)
theorem reads_u32 {x : Nat} (h : x < 4294967296) : Reads (readBE 4) (beBytes 4 x) x :=
  reads_be (by simpa)
theorem reads_u64 {x : Nat} (h : x < U64) : Reads (readBE 8) (beBytes 8 x) x :=
  reads_be (by simpa [U64] using h)

theorem reads_varStr {s : Bytes} (h : s.length < U64) : Reads readVarStr (serVarStr s) s := by
  unfold readVarStr serVarStr
  refine Reads.bind (reads_u64 h) ?_
  by_cases h0 : s.length = 0
  · have hs : s = [] := List.length_eq_zero_iff.mp h0
    subst hs
    simpa using Reads.pure ([] : Bytes)
  · rw [if_neg h0]
    exact reads_bytes rfl

theorem reads_many {α : Type} {p : Parser α} {f : α → Bytes} {l : List α}
    (h : ∀ a ∈ l, Reads p (f a) a) : Reads (readMany p l.length) (serMany f l) l := by
  induction l with
  | nil => simpa [serMany, readMany] using Reads.pure ([] : List α)
  | cons a l ih =>
    have ha := h a (by simp)
    have hl := ih (fun b hb => h b (by simp [hb]))
    have : Reads (readMany p (l.length + 1)) (f a ++ (serMany f l)) (a :: l) := by
      unfold readMany
      exact Reads.bind ha (Reads.map (f := fun as => a :: as) hl)
    simpa [serMany] using this

end Verif
