import Verif.Ser.CoreLemmas

/-!
# What an accepting deserializer has read
-/
namespace Verif

/-- `Takes p Q`: whenever `p` accepts, at any place of any buffer, the cursor has moved over bytes `bs` of that buffer
such that `Q bs a` holds of the object returned. -/
def Takes {α : Type} (p : Parser α) (Q : Bytes → α → Prop) : Prop :=
  ∀ b a b', p b = .ok (a, b') → ∃ bs, b'.data = b.data ∧ b'.idx = b.idx + bs.length ∧
    (b.data.drop b.idx).take bs.length = bs ∧ Q bs a

theorem Takes.pure {α : Type} {a : α} {Q : Bytes → α → Prop} (h : Q [] a) : Takes (Pure.pure a : Parser α) Q := by
  intro b x b' e
  rw [Parser.pure_run, Res.ok.injEq, Prod.mk.injEq] at e
  obtain ⟨rfl, rfl⟩ := e
  exact ⟨[], rfl, rfl, rfl, h⟩

theorem Takes.fail {α : Type} {Q : Bytes → α → Prop} : Takes (Parser.fail : Parser α) Q := by
  intro b x b' e
  cases e

theorem Takes.seq {α β : Type} {p : Parser α} {f : α → Parser β} {P : Bytes → α → Prop} {Q : Bytes → β → Prop}
    (hp : Takes p P) (hf : ∀ x a, P x a → Takes (f a) (fun y b => Q (x ++ y) b)) : Takes (p >>= f) Q := by
  intro b r b' e
  rw [Parser.bind_run] at e
  cases h1 : p b with
  | throw => rw [h1] at e; cases e
  | ub => rw [h1] at e; cases e
  | ok v =>
    obtain ⟨a, c⟩ := v
    rw [h1] at e
    obtain ⟨x, d1, i1, t1, q1⟩ := hp b a c h1
    obtain ⟨y, d2, i2, t2, q2⟩ := hf x a q1 c r b' e
    refine ⟨x ++ y, d2.trans d1, by rw [i2, i1, List.length_append, Nat.add_assoc], ?_, q2⟩
    rw [d1, i1] at t2
    rw [List.length_append, List.take_add, t1, List.drop_drop, t2]

theorem Takes.mono {α : Type} {p : Parser α} {P Q : Bytes → α → Prop} (hp : Takes p P) (h : ∀ x a, P x a → Q x a) :
    Takes p Q := by
  intro b a b' e
  obtain ⟨bs, h1, h2, h3, h4⟩ := hp b a b' e
  exact ⟨bs, h1, h2, h3, h _ _ h4⟩

theorem takes_bytes (n : Nat) : Takes (readBytes n) (fun bs a => bs = a ∧ a.length = n) := by
  intro b a b' e
  unfold readBytes at e
  split at e
  · cases e
  · split at e
    · rename_i h
      rw [Res.ok.injEq, Prod.mk.injEq] at e
      obtain ⟨rfl, rfl⟩ := e
      have hl : ((b.data.drop b.idx).take n).length = n := by
        rw [List.length_take, List.length_drop]
        omega
      exact ⟨_, rfl, by rw [hl], by rw [hl], rfl, hl⟩
    · cases e

theorem takes_be (n : Nat) : Takes (readBE n) (fun bs a => bs = beBytes n a ∧ a < 256 ^ n) := by
  refine Takes.seq (takes_bytes n) ?_
  rintro x a ⟨rfl, hl⟩
  refine Takes.pure ?_
  subst hl
  exact ⟨by rw [List.append_nil, beBytes_beVal], beVal_lt x⟩

theorem takes_i64 : Takes readI64 (fun bs x => bs = serI64 x ∧ -2 ^ 63 ≤ x ∧ x < 2 ^ 63) := by
  refine Takes.seq (takes_be 8) ?_
  rintro x n ⟨rfl, hn⟩
  refine Takes.pure ?_
  have hn' : n < 2 ^ 64 := hn
  refine ⟨?_, by split <;> omega, by split <;> omega⟩
  rw [List.append_nil, serI64]
  congr 1
  split <;> omega

theorem takes_many {α : Type} {p : Parser α} {f : α → Bytes} {ok : α → Prop} (h : Takes p (fun bs a => bs = f a ∧ ok a)) :
    ∀ n, Takes (readMany p n) (fun bs l => bs = serMany f l ∧ l.length = n ∧ ∀ a ∈ l, ok a)
  | 0 => Takes.pure ⟨rfl, rfl, by simp⟩
  | n + 1 => by
    refine Takes.seq h ?_
    rintro x a ⟨rfl, ha⟩
    refine Takes.seq (takes_many h n) ?_
    rintro y l ⟨rfl, hl, hok⟩
    refine Takes.pure ⟨by simp [serMany], by simp [hl], ?_⟩
    simpa using ⟨ha, hok⟩

theorem takes_manyOk {α : Type} {p : Parser α} {ok : α → Prop} (h : Takes p (fun _ a => ok a)) :
    ∀ n, Takes (readMany p n) (fun _ l => l.length = n ∧ ∀ a ∈ l, ok a)
  | 0 => Takes.pure ⟨rfl, by simp⟩
  | n + 1 => by
    refine Takes.seq h ?_
    intro x a ha
    refine Takes.seq (takes_manyOk h n) ?_
    rintro y l ⟨hl, hok⟩
    refine Takes.pure ⟨by simp [hl], ?_⟩
    simpa using ⟨ha, hok⟩

theorem takes_lift {α : Type} (r : Res α) : Takes (Parser.lift r) (fun bs a => bs = [] ∧ r = .ok a) := by
  intro b a b' e
  unfold Parser.lift at e
  cases r with
  | throw => cases e
  | ub => cases e
  | ok v =>
    rw [Res.ok_bind, Res.ok.injEq, Prod.mk.injEq] at e
    obtain ⟨rfl, rfl⟩ := e
    exact ⟨[], rfl, rfl, rfl, rfl, rfl⟩

theorem takes_varStr : Takes readVarStr (fun bs a => bs = serVarStr a ∧ a.length < 2 ^ 64) := by
  refine Takes.seq (takes_be 8) ?_
  rintro x n ⟨rfl, hn⟩
  by_cases h : n = 0
  · subst h
    rw [if_pos rfl]
    exact Takes.pure ⟨rfl, by decide⟩
  · rw [if_neg h]
    refine (takes_bytes n).mono ?_
    rintro x a ⟨rfl, rfl⟩
    exact ⟨rfl, hn⟩

end Verif
