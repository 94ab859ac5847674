import Verif.P2P.Dandelion
import Verif.Props.Pool

/-!
# C98: what the relay thread sends in one round
-/
namespace Verif.Props
open Verif.Tx Verif.P2P

variable {S : Type} (R : PoolRules S)

/-- The reasons for which the public pool does not take a transaction, given the transactions `mem` in it. -/
def Refused (v : RunView S) (mem : List Tx) (tx : Tx) : Prop :=
  v.tip = none ∨ (∃ x ∈ mem, R.hash x = R.hash tx) ∨
  ∃ h, v.tip = some h ∧ (R.feeOk (h + 1) tx = false ∨ (∃ k ∈ tx.body.kernels, h + 1 < k.lockHeight) ∨
    R.check (h + 1) tx ≠ .ok () ∨ ∀ s, v.poolState = some s → R.utxo s tx ≠ .ok true)

private theorem nodeAdd_ok {p p' : Pools} {v : RunView S} {tx : Tx} {b : Bool}
    (h : nodeAdd R p v tx = .ok (p', b)) :
    (b = true → p'.mem = p.mem ++ [⟨tx, .fluffed, 0⟩] ∧ p'.stem = poolRemove R p.stem tx) ∧
    (b = false → p' = p ∧ Refused R v (p.mem.map (·.tx)) tx) := by
  unfold nodeAdd at h
  cases ht : v.tip with
  | none =>
    rw [ht] at h
    simp only [Res.ok.injEq, Prod.mk.injEq] at h
    obtain ⟨rfl, rfl⟩ := h
    exact ⟨by simp, fun _ => ⟨rfl, Or.inl ht⟩⟩
  | some t =>
    rw [ht] at h
    have href : (¬ ∃ q, addTx R p v.poolState t tx true false = .ok (q, .added)) →
        Refused R v (p.mem.map (·.tx)) tx := by
      intro hn
      rw [admitted_iff] at hn
      by_cases h1 : ∃ x ∈ p.mem.map (·.tx), R.hash x = R.hash tx
      · exact Or.inr (Or.inl h1)
      · refine Or.inr (Or.inr ⟨t, ht, ?_⟩)
        by_cases h2 : R.feeOk (t + 1) tx = true
        · by_cases h3 : ∀ k ∈ tx.body.kernels, k.lockHeight ≤ t + 1
          · by_cases h4 : R.check (t + 1) tx = .ok ()
            · refine Or.inr (Or.inr (Or.inr ?_))
              intro s hs hu
              refine hn ⟨fun _ e he hh => h1 ⟨e.tx, List.mem_map_of_mem he, hh⟩, h2, h3, h4, s, hs, hu⟩
            · exact Or.inr (Or.inr (Or.inl h4))
          · refine Or.inr (Or.inl ?_)
            by_contra hc
            refine h3 fun k hk => ?_
            by_contra hl
            exact hc ⟨k, hk, by omega⟩
        · exact Or.inl (by simpa using h2)
    dsimp only at h
    cases ha : addTx R p v.poolState t tx true false with
    | ub => rw [ha] at h; cases h
    | throw =>
      rw [ha] at h
      simp only [Res.ok.injEq, Prod.mk.injEq] at h
      obtain ⟨rfl, rfl⟩ := h
      refine ⟨by simp, fun _ => ⟨rfl, href ?_⟩⟩
      rintro ⟨q, hq⟩
      rw [ha] at hq
      cases hq
    | ok r =>
      obtain ⟨q, st⟩ := r
      rw [ha] at h
      simp only [Res.ok.injEq, Prod.mk.injEq] at h
      obtain ⟨rfl, rfl⟩ := h
      have e := admitted_effect R _ _ _ _ _ _ _ _ ha
      refine ⟨fun hb => e.2.1 (by simpa using hb) rfl, fun hb => ?_⟩
      have hb' : st ≠ .added := by simpa using hb
      refine ⟨e.1 hb', href ?_⟩
      rintro ⟨q', hq⟩
      rw [ha] at hq
      simp only [Res.ok.injEq, Prod.mk.injEq] at hq
      exact hb' hq.2

private theorem expireLoop_ok {v : RunView S} : ∀ (txs : List Tx) (m m' : Monitor) (sent : List Sent),
    expireLoop R m v txs = .ok (m', sent) →
    m'.relay = m.relay ∧ m'.until_ = m.until_ ∧
    (∀ e ∈ m.pools.mem, e ∈ m'.pools.mem) ∧
    (∀ x ∈ sent, ∃ tx ∈ txs, x = .all tx ∧ tx ∈ m'.pools.mem.map (·.tx)) ∧
    (∀ tx ∈ txs, Sent.all tx ∈ sent ∨ Refused R v (m'.pools.mem.map (·.tx)) tx)
  | [], m, m', sent, h => by
    simp only [expireLoop, Res.ok.injEq, Prod.mk.injEq] at h
    obtain ⟨rfl, rfl⟩ := h
    simp
  | tx :: txs, m, m', sent, h => by
    rw [expireLoop] at h
    obtain ⟨⟨p, b⟩, h1, h⟩ := Res.bind_eq_ok.1 h
    obtain ⟨⟨m2, s2⟩, h2, h⟩ := Res.bind_eq_ok.1 h
    simp only [Res.pure_eq, Res.ok.injEq, Prod.mk.injEq] at h
    obtain ⟨rfl, rfl⟩ := h
    obtain ⟨i1, i2, i3, i4, i5⟩ := expireLoop_ok txs _ _ _ h2
    have n := nodeAdd_ok R h1
    have mono : ∀ e ∈ m.pools.mem, e ∈ p.mem := by
      intro e he
      cases b with
      | true => rw [(n.1 rfl).1]; exact List.mem_append_left _ he
      | false => rw [(n.2 rfl).1]; exact he
    refine ⟨i1, i2, fun e he => i3 e (mono e he), ?_, ?_⟩
    · intro x hx
      rcases List.mem_append.1 hx with hx | hx
      · cases b with
        | false => simp at hx
        | true =>
          simp only [if_true, List.mem_singleton] at hx
          refine ⟨tx, by simp, hx, ?_⟩
          have : (⟨tx, .fluffed, 0⟩ : Entry) ∈ p.mem := by rw [(n.1 rfl).1]; simp
          exact List.mem_map.2 ⟨_, i3 _ this, rfl⟩
      · obtain ⟨t, ht, e, hm⟩ := i4 x hx
        exact ⟨t, List.mem_cons_of_mem _ ht, e, hm⟩
    · intro t ht
      rcases List.mem_cons.1 ht with rfl | ht
      · cases b with
        | true => left; simp
        | false =>
          right
          have r := (n.2 rfl).2
          rcases r with r | ⟨x, hx, hh⟩ | r
          · exact Or.inl r
          · obtain ⟨e, he, rfl⟩ := List.mem_map.1 hx
            exact Or.inr (Or.inl ⟨e.tx, List.mem_map.2 ⟨e, i3 e (mono e he), rfl⟩, hh⟩)
          · exact Or.inr (Or.inr r)
      · rcases i5 t ht with h | h
        · left; exact List.mem_append_right _ h
        · right; exact h

private theorem chooseRelay_ok {m m1 : Monitor} {v : RunView S} (h : chooseRelay m v = some m1) :
    m1.pools = m.pools ∧
    ((m1.relay = m.relay ∧ m1.until_ = m.until_ ∧ m.relay ≠ none ∧ v.now ≤ m.until_) ∨
     ((m.relay = none ∨ m.until_ < v.now) ∧ m1.relay = v.best[v.pick]? ∧
       m1.until_ = v.now + v.relaySeconds)) := by
  unfold chooseRelay at h
  split at h
  · rename_i hc
    split at h
    · cases h
    · simp only [Option.some.injEq] at h
      subst h
      exact ⟨rfl, Or.inr ⟨hc, rfl, rfl⟩⟩
  · rename_i hc
    simp only [Option.some.injEq] at h
    subst h
    rw [not_or] at hc
    exact ⟨rfl, Or.inl ⟨rfl, rfl, hc.1, by omega⟩⟩

/-- What is known after the stem phase. -/
private structure StemDone (m m' : Monitor) (v : RunView S) (sent : List Sent) : Prop where
  relay : (m'.relay = m.relay ∧ m'.until_ = m.until_) ∨
     ((m.relay = none ∨ m.until_ < v.now) ∧ m'.relay = v.best[v.pick]? ∧
       m'.until_ = v.now + v.relaySeconds)
  mem : ∀ e ∈ m.pools.mem, e ∈ m'.pools.mem
  msgs : sent = [] ∨ ∃ tx valid s extra, v.stemState = some s ∧ valid ≠ [] ∧
    valid.Sublist (byStatus m.pools.stem .toStem) ∧ R.agg valid = .ok tx ∧
    poolAggregate R m.pools.mem = .ok extra ∧
    (∀ pre x, valid = pre ++ [x] → Joint R s (pre ++ extra.toList ++ [x])) ∧
    ((∃ q, sent = [.stem tx q] ∧ m'.relay = some q ∧ v.connected q = true ∧
       (q ∈ v.best ∨ (m.relay = some q ∧ v.now ≤ m.until_))) ∨
     (sent = [.all tx] ∧ tx ∈ m'.pools.mem.map (·.tx) ∧
       ∃ q, m'.relay = some q ∧ v.connected q = false))
  stem : ∀ e ∈ m.pools.stem, (∃ e' ∈ m'.pools.stem, e'.tx = e.tx ∧ e'.time = e.time) ∨
    ∃ t, Sent.all t ∈ sent ∧ R.hash t = R.hash e.tx
  back : ∀ e' ∈ m'.pools.stem, ∃ e ∈ m.pools.stem, e'.tx = e.tx ∧ e'.time = e.time ∧
    (e'.status = .toFluff → e.status = .toFluff)

private theorem toStem_some {p p' : Pools} {s : S} {t : Option Tx} (h : toStem R p s = .ok (p', t)) :
    p'.mem = p.mem ∧ (∀ e ∈ p.stem, ∃ e' ∈ p'.stem, e'.tx = e.tx ∧ e'.time = e.time) ∧
    (∀ e' ∈ p'.stem, ∃ e ∈ p.stem, e'.tx = e.tx ∧ e'.time = e.time ∧
      (e'.status = .toFluff → e.status = .toFluff)) := by
  unfold toStem at h
  dsimp only at h
  split at h
  · simp only [Res.ok.injEq, Prod.mk.injEq] at h
    obtain ⟨rfl, rfl⟩ := h
    exact ⟨rfl, fun e he => ⟨e, he, rfl, rfl⟩, fun e he => ⟨e, he, rfl, rfl, id⟩⟩
  · obtain ⟨extra, he, h⟩ := Res.bind_eq_ok.1 h
    obtain ⟨valid, hv, h⟩ := Res.bind_eq_ok.1 h
    split at h
    · simp only [Res.pure_eq, Res.ok.injEq, Prod.mk.injEq] at h
      obtain ⟨rfl, rfl⟩ := h
      exact ⟨rfl, fun e he => ⟨e, he, rfl, rfl⟩, fun e he => ⟨e, he, rfl, rfl, id⟩⟩
    · obtain ⟨a, ha, h⟩ := Res.bind_eq_ok.1 h
      simp only [Res.pure_eq, Res.ok.injEq, Prod.mk.injEq] at h
      obtain ⟨rfl, rfl⟩ := h
      refine ⟨rfl, fun e he => ⟨_, List.mem_map.2 ⟨e, he, rfl⟩, ?_, ?_⟩, fun e' he' => ?_⟩
      · split <;> rfl
      · split <;> rfl
      · obtain ⟨e, he, rfl⟩ := List.mem_map.1 he'
        refine ⟨e, he, ?_, ?_, ?_⟩
        · split <;> rfl
        · split <;> rfl
        · split
          · intro h; cases h
          · exact id

private theorem stemPhase_ok {m m' : Monitor} {v : RunView S} {sent : List Sent} {b : Bool}
    (h : stemPhase R m v = .ok (m', sent, b)) : StemDone R m m' v sent := by
  unfold stemPhase at h
  cases hc : chooseRelay m v with
  | none =>
    rw [hc] at h
    simp only [Res.ok.injEq, Prod.mk.injEq] at h
    obtain ⟨rfl, rfl, rfl⟩ := h
    exact ⟨Or.inl ⟨rfl, rfl⟩, fun _ h => h, Or.inl rfl, fun e he => Or.inl ⟨e, he, rfl, rfl⟩,
      fun e he => ⟨e, he, rfl, rfl, id⟩⟩
  | some m1 =>
    rw [hc] at h
    obtain ⟨hp, hr⟩ := chooseRelay_ok hc
    have hr' : (m1.relay = m.relay ∧ m1.until_ = m.until_) ∨
     ((m.relay = none ∨ m.until_ < v.now) ∧ m1.relay = v.best[v.pick]? ∧
       m1.until_ = v.now + v.relaySeconds) := by
      rcases hr with hr | hr
      · exact Or.inl ⟨hr.1, hr.2.1⟩
      · exact Or.inr hr
    have triv : StemDone R m m1 v [] :=
      ⟨hr', fun e he => by rw [hp]; exact he, Or.inl rfl,
        fun e he => Or.inl ⟨e, by rw [hp]; exact he, rfl, rfl⟩,
        fun e he => ⟨e, by rw [hp] at he; exact he, rfl, rfl, id⟩⟩
    dsimp only at h
    cases hs : v.stemState with
    | none =>
      rw [hs] at h
      simp only [Res.ok.injEq, Prod.mk.injEq] at h
      obtain ⟨rfl, rfl, rfl⟩ := h
      exact triv
    | some s =>
      rw [hs] at h
      dsimp only at h
      cases ht : toStem R m1.pools s with
      | ub => rw [ht] at h; cases h
      | throw =>
        rw [ht] at h
        simp only [Res.ok.injEq, Prod.mk.injEq] at h
        obtain ⟨rfl, rfl, rfl⟩ := h
        exact triv
      | ok r =>
        obtain ⟨p, t⟩ := r
        rw [ht] at h
        obtain ⟨k1, k2, k3⟩ := toStem_some R ht
        rw [hp] at k1 k2 k3
        cases t with
        | none =>
          simp only [Res.ok.injEq, Prod.mk.injEq] at h
          obtain ⟨rfl, rfl, rfl⟩ := h
          exact ⟨hr', fun e he => by simp only [k1]; exact he, Or.inl rfl,
            fun e he => Or.inl (k2 e he), k3⟩
        | some tx =>
          obtain ⟨⟨m2, s2⟩, h1, h⟩ := Res.bind_eq_ok.1 h
          simp only [Res.pure_eq, Res.ok.injEq, Prod.mk.injEq] at h
          obtain ⟨rfl, rfl, rfl⟩ := h
          obtain ⟨valid, extra, o1, o2, o3, o4, _, o6⟩ := stem_offer R _ _ _ _ ht
          rw [hp] at o2 o4
          unfold sendStem at h1
          dsimp only at h1
          cases hq : m1.relay with
          | none => rw [hq] at h1; cases h1
          | some q =>
            rw [hq] at h1
            dsimp only at h1
            split at h1
            · rename_i hcon
              simp only [Res.ok.injEq, Prod.mk.injEq] at h1
              obtain ⟨rfl, rfl⟩ := h1
              refine ⟨hq ▸ hr', fun e he => by simp only [k1]; exact he, Or.inr ?_,
                fun e he => Or.inl (k2 e he), k3⟩
              refine ⟨tx, valid, s, extra, hs, o1, o2, o3, o4, o6, Or.inl ⟨q, rfl, rfl, hcon, ?_⟩⟩
              rcases hr with hr | hr
              · exact Or.inr ⟨by rw [← hr.1, hq], hr.2.2.2⟩
              · exact Or.inl (List.mem_of_getElem? (hr.2.1.symm.trans hq))
            · rename_i hcon
              obtain ⟨⟨p3, b3⟩, h3, h1⟩ := Res.bind_eq_ok.1 h1
              simp only [Res.pure_eq, Res.ok.injEq, Prod.mk.injEq] at h1
              obtain ⟨rfl, rfl⟩ := h1
              have n := nodeAdd_ok R h3
              cases b3 with
              | false =>
                obtain ⟨rfl, _⟩ := n.2 rfl
                exact ⟨hq ▸ hr', fun e he => by simp only [k1]; exact he, Or.inl rfl,
                  fun e he => Or.inl (k2 e he), k3⟩
              | true =>
                obtain ⟨n1, n2⟩ := n.1 rfl
                refine ⟨hq ▸ hr', fun e he => by simp only [n1, k1]; exact List.mem_append_left _ he,
                  Or.inr ?_, ?_, ?_⟩
                · refine ⟨tx, valid, s, extra, hs, o1, o2, o3, o4, o6, Or.inr ⟨rfl, ?_, q, rfl, by simpa using hcon⟩⟩
                  simp only [n1]
                  simp
                · intro e he
                  obtain ⟨e', he', ht', htm'⟩ := k2 e he
                  by_cases hh : R.hash tx = R.hash e.tx
                  · exact Or.inr ⟨tx, by simp, hh⟩
                  · refine Or.inl ⟨e', ?_, ht', htm'⟩
                    simp only [n2]
                    unfold poolRemove
                    rw [List.mem_eraseP_of_neg (by simpa [ht'] using hh)]
                    exact he'
                · intro e' he'
                  simp only [n2] at he'
                  exact k3 e' (List.mem_of_mem_eraseP he')

private theorem foldl_remove_keep : ∀ (txs : List Tx) (l : List Entry) (e : Entry), e ∈ l →
    (∀ t ∈ txs, R.hash t ≠ R.hash e.tx) → e ∈ txs.foldl (poolRemove R) l
  | [], _, _, h, _ => h
  | t :: txs, l, e, h, hn => by
    rw [List.foldl_cons]
    refine foldl_remove_keep txs _ e ?_ fun x hx => hn x (List.mem_cons_of_mem _ hx)
    unfold poolRemove
    rw [List.mem_eraseP_of_neg (by simpa using hn t (by simp))]
    exact h

/-- What is known after the fluff phase. -/
private structure FluffDone (m m' : Monitor) (v : RunView S) (sent : List Sent) : Prop where
  relay : m'.relay = m.relay ∧ m'.until_ = m.until_
  mem : ∀ e ∈ m.pools.mem, e ∈ m'.pools.mem
  msgs : sent = [] ∨ ∃ tx valid s extra, v.fluffState = some s ∧ valid ≠ [] ∧
    valid.Sublist (byStatus m.pools.stem .toFluff) ∧ R.agg valid = .ok tx ∧
    poolAggregate R m.pools.mem = .ok extra ∧
    (∀ pre x, valid = pre ++ [x] → Joint R s (pre ++ extra.toList ++ [x])) ∧
    sent = [.all tx] ∧ tx ∈ m'.pools.mem.map (·.tx)
  stem : ∀ e ∈ m.pools.stem, e ∈ m'.pools.stem ∨
    ∃ t valid, Sent.all t ∈ sent ∧ R.agg valid = .ok t ∧ ∃ x ∈ valid, R.hash x = R.hash e.tx

private theorem fluffPhase_ok {m m' : Monitor} {v : RunView S} {sent : List Sent} {b : Bool}
    (h : fluffPhase R m v = .ok (m', sent, b)) : FluffDone R m m' v sent := by
  unfold fluffPhase at h
  have triv : FluffDone R m m v [] :=
    ⟨⟨rfl, rfl⟩, fun e he => he, Or.inl rfl, fun e he => Or.inl he⟩
  cases hs : v.fluffState with
  | none =>
    rw [hs] at h
    simp only [Res.ok.injEq, Prod.mk.injEq] at h
    obtain ⟨rfl, rfl, rfl⟩ := h
    exact triv
  | some s =>
    rw [hs] at h
    dsimp only at h
    cases ht : toFluff R m.pools s with
    | ub => rw [ht] at h; cases h
    | throw =>
      rw [ht] at h
      simp only [Res.ok.injEq, Prod.mk.injEq] at h
      obtain ⟨rfl, rfl, rfl⟩ := h
      exact triv
    | ok r =>
      obtain ⟨p, t⟩ := r
      rw [ht] at h
      cases t with
      | none =>
        simp only [Res.ok.injEq, Prod.mk.injEq] at h
        obtain ⟨rfl, rfl, rfl⟩ := h
        have : p = m.pools := by
          unfold toFluff at ht
          dsimp only at ht
          split at ht
          · simp only [Res.ok.injEq, Prod.mk.injEq] at ht
            exact ht.1.symm
          · obtain ⟨extra, he, ht⟩ := Res.bind_eq_ok.1 ht
            obtain ⟨valid, hv, ht⟩ := Res.bind_eq_ok.1 ht
            split at ht
            · simp only [Res.pure_eq, Res.ok.injEq, Prod.mk.injEq] at ht
              exact ht.1.symm
            · obtain ⟨a, ha, ht⟩ := Res.bind_eq_ok.1 ht
              simp [Res.pure_eq] at ht
        subst this
        exact triv
      | some tx =>
        simp only [Res.ok.injEq, Prod.mk.injEq] at h
        obtain ⟨rfl, rfl, rfl⟩ := h
        obtain ⟨valid, extra, o1, o2, o3, o4, o5, o6⟩ := fluff_offer R _ _ _ _ ht
        unfold toFluff at ht
        dsimp only at ht
        split at ht
        · simp at ht
        obtain ⟨extra', he, ht⟩ := Res.bind_eq_ok.1 ht
        obtain ⟨valid', hv, ht⟩ := Res.bind_eq_ok.1 ht
        split at ht
        · simp [Res.pure_eq] at ht
        obtain ⟨a, ha, ht⟩ := Res.bind_eq_ok.1 ht
        simp only [Res.pure_eq, Res.ok.injEq, Prod.mk.injEq, Option.some.injEq] at ht
        obtain ⟨rfl, rfl⟩ := ht
        refine ⟨⟨rfl, rfl⟩, fun e he => List.mem_append_left _ he, Or.inr ?_, ?_⟩
        · exact ⟨a, valid, s, extra, hs, o1, o2, o3, o4, o6, rfl, by simp [poolAdd]⟩
        · intro e he
          by_cases hx : ∃ x ∈ valid', R.hash x = R.hash e.tx
          · exact Or.inr ⟨a, valid', by simp, ha, hx⟩
          · refine Or.inl (foldl_remove_keep R valid' _ e he fun t ht hh => hx ⟨t, ht, hh⟩)

/-- The phases of one round. -/
private theorem monitorRun_ok {m m' : Monitor} {v : RunView S} {sent : List Sent}
    (h : monitorRun R m v = .ok (m', sent)) :
    ∃ m1 m2 s1 s2 s3, StemDone R m m1 v s1 ∧ FluffDone R m1 m2 v s2 ∧ sent = s1 ++ s2 ++ s3 ∧
      m'.relay = m2.relay ∧ m'.until_ = m2.until_ ∧ (∀ e ∈ m2.pools.mem, e ∈ m'.pools.mem) ∧
      (∀ x ∈ s3, ∃ tx ∈ expired m2.pools v.now v.embargo, x = .all tx ∧ tx ∈ m'.pools.mem.map (·.tx)) ∧
      (stemPhase R m v = .ok (m1, s1, true) → fluffPhase R m1 v = .ok (m2, s2, true) →
        ∀ tx ∈ expired m2.pools v.now v.embargo,
        Sent.all tx ∈ s3 ∨ Refused R v (m'.pools.mem.map (·.tx)) tx) := by
  unfold monitorRun at h
  obtain ⟨⟨m1, s1, b1⟩, h1, h⟩ := Res.bind_eq_ok.1 h
  have d1 := stemPhase_ok R h1
  have triv : ∀ m : Monitor, FluffDone R m m v [] := fun m =>
    ⟨⟨rfl, rfl⟩, fun e he => he, Or.inl rfl, fun e he => Or.inl he⟩
  cases b1 with
  | false =>
    simp only [Bool.not_false, if_true, Res.pure_eq, Res.ok.injEq, Prod.mk.injEq] at h
    obtain ⟨rfl, rfl⟩ := h
    refine ⟨m1, m1, s1, [], [], d1, triv m1, by simp, rfl, rfl, fun _ h => h, by simp, ?_⟩
    intro h1'
    rw [h1] at h1'
    simp at h1'
  | true =>
    simp only [Bool.not_true, Bool.false_eq_true, if_false] at h
    obtain ⟨⟨m2, s2, b2⟩, h2, h⟩ := Res.bind_eq_ok.1 h
    have d2 := fluffPhase_ok R h2
    cases b2 with
    | false =>
      simp only [Bool.not_false, if_true, Res.pure_eq, Res.ok.injEq, Prod.mk.injEq] at h
      obtain ⟨rfl, rfl⟩ := h
      refine ⟨m1, m2, s1, s2, [], d1, d2, by simp, rfl, rfl, fun _ h => h, by simp, ?_⟩
      intro _ h2'
      rw [h2] at h2'
      simp at h2'
    | true =>
      simp only [Bool.not_true, Bool.false_eq_true, if_false] at h
      obtain ⟨⟨m3, s3⟩, h3, h⟩ := Res.bind_eq_ok.1 h
      simp only [Res.pure_eq, Res.ok.injEq, Prod.mk.injEq] at h
      obtain ⟨rfl, rfl⟩ := h
      obtain ⟨i1, i2, i3, i4, i5⟩ := expireLoop_ok R _ _ _ _ h3
      exact ⟨m1, m2, s1, s2, s3, d1, d2, rfl, i1, i2, i3, i4, fun _ _ => i5⟩

/-- The stem messages among what is sent. -/
def stems : List Sent → List (Tx × Nat)
  | [] => []
  | .stem tx q :: l => (tx, q) :: stems l
  | .all _ :: l => stems l

private theorem stems_all : ∀ (l : List Sent), (∀ x ∈ l, ∃ tx, x = Sent.all tx) → stems l = []
  | [], _ => rfl
  | x :: l, h => by
    obtain ⟨tx, rfl⟩ := h x (by simp)
    exact stems_all l fun y hy => h y (List.mem_cons_of_mem _ hy)

private theorem stems_append : ∀ (a b : List Sent), stems (a ++ b) = stems a ++ stems b
  | [], _ => rfl
  | .stem tx q :: l, b => by rw [List.cons_append, stems, stems_append l b]; rfl
  | .all _ :: l, b => by rw [List.cons_append, stems, stems_append l b]; rfl

/-- **C98, the stem.**  One round sends at most one stem message.  It goes to a connected peer: the relay kept from before while its time is not
over, or a peer with most work.  What it carries is the aggregate of stem pool transactions waiting to be stemmed, valid together with the
public pool. -/
theorem stem_one_relay (m m' : Monitor) (v : RunView S) (sent : List Sent)
    (h : monitorRun R m v = .ok (m', sent)) :
    stems sent = [] ∨ ∃ tx q valid s extra, stems sent = [(tx, q)] ∧ m'.relay = some q ∧
      v.connected q = true ∧ (q ∈ v.best ∨ (m.relay = some q ∧ v.now ≤ m.until_)) ∧
      v.stemState = some s ∧ valid ≠ [] ∧ valid.Sublist (byStatus m.pools.stem .toStem) ∧
      R.agg valid = .ok tx ∧ poolAggregate R m.pools.mem = .ok extra ∧
      ∀ pre x, valid = pre ++ [x] → Joint R s (pre ++ extra.toList ++ [x]) := by
  obtain ⟨m1, m2, s1, s2, s3, d1, d2, rfl, hr, _, _, h3, _⟩ := monitorRun_ok R h
  have e3 : stems s3 = [] := stems_all _ fun x hx => by
    obtain ⟨tx, _, e, _⟩ := h3 x hx
    exact ⟨tx, e⟩
  have e2 : stems s2 = [] := by
    rcases d2.msgs with e | ⟨tx, _, _, _, _, _, _, _, _, _, e, _⟩ <;> rw [e] <;> rfl
  rw [stems_append, stems_append, e3, e2, List.append_nil, List.append_nil]
  rcases d1.msgs with e | ⟨tx, valid, s, extra, a1, a2, a3, a4, a5, a6, a7⟩
  · left; rw [e]; rfl
  · rcases a7 with ⟨q, e, b1, b2, b3⟩ | ⟨e, _⟩
    · right
      refine ⟨tx, q, valid, s, extra, by rw [e]; rfl, ?_, b2, b3, a1, a2, a3, a4, a5, a6⟩
      rw [hr, d2.relay.1, b1]
    · left; rw [e]; rfl

/-- **C98, the relay.**  The relay stays until its time is over; a new one is the peer drawn among those with most work. -/
theorem relay_kept (m m' : Monitor) (v : RunView S) (sent : List Sent)
    (h : monitorRun R m v = .ok (m', sent)) :
    (m'.relay = m.relay ∧ m'.until_ = m.until_) ∨
    ((m.relay = none ∨ m.until_ < v.now) ∧ m'.relay = v.best[v.pick]? ∧
      m'.until_ = v.now + v.relaySeconds) := by
  obtain ⟨m1, m2, s1, s2, s3, d1, d2, rfl, hr, hu, _⟩ := monitorRun_ok R h
  rw [hr, hu, d2.relay.1, d2.relay.2]
  exact d1.relay

/-- **C98, broadcast.**  Whatever is broadcast is in the public pool afterwards, and nothing leaves the public pool. -/
theorem broadcast_in_pool (m m' : Monitor) (v : RunView S) (sent : List Sent)
    (h : monitorRun R m v = .ok (m', sent)) :
    (∀ tx, Sent.all tx ∈ sent → tx ∈ m'.pools.mem.map (·.tx)) ∧
    ∀ e ∈ m.pools.mem, e ∈ m'.pools.mem := by
  obtain ⟨m1, m2, s1, s2, s3, d1, d2, rfl, _, _, hm, h3, _⟩ := monitorRun_ok R h
  have up : ∀ tx, tx ∈ m2.pools.mem.map (·.tx) → tx ∈ m'.pools.mem.map (·.tx) := by
    intro tx ht
    obtain ⟨e, he, rfl⟩ := List.mem_map.1 ht
    exact List.mem_map.2 ⟨e, hm e he, rfl⟩
  refine ⟨fun tx ht => ?_, fun e he => hm e (d2.mem e (d1.mem e he))⟩
  rcases List.mem_append.1 ht with ht | ht
  · rcases List.mem_append.1 ht with ht | ht
    · rcases d1.msgs with e | ⟨t, _, _, _, _, _, _, _, _, _, a7⟩
      · rw [e] at ht; cases ht
      · rcases a7 with ⟨q, e, _⟩ | ⟨e, hin, _⟩
        · rw [e] at ht; simp at ht
        · rw [e] at ht
          simp only [List.mem_singleton, Sent.all.injEq] at ht
          subst ht
          refine up _ ?_
          obtain ⟨e', he', heq⟩ := List.mem_map.1 hin
          exact List.mem_map.2 ⟨e', d2.mem e' he', heq⟩
    · rcases d2.msgs with e | ⟨t, _, _, _, _, _, _, _, _, _, e, hin⟩
      · rw [e] at ht; cases ht
      · rw [e] at ht
        simp only [List.mem_singleton, Sent.all.injEq] at ht
        subst ht
        exact up _ hin
  · obtain ⟨t, _, e, hin⟩ := h3 _ ht
    simp only [Sent.all.injEq] at e
    subst e
    exact hin

private theorem findValidLoop_no_throw (hagg : ∀ l, R.agg l ≠ .throw) (s : S) (extra : Option Tx) :
    ∀ (txs valid : List Tx), findValidLoop R s extra txs valid ≠ .throw
  | [], valid => by simp [findValidLoop]
  | t :: ts, valid => by
    rw [findValidLoop]
    cases ha : R.agg (valid ++ extra.toList ++ [t]) with
    | throw => exact absurd ha (hagg _)
    | ub => simp [Bind.bind, Res.bind]
    | ok a =>
      rw [Res.ok_bind]
      cases hv : isValidTx R s a with
      | throw =>
        exfalso
        unfold isValidTx at hv
        split at hv
        · cases hv
        · cases hv
        · split at hv <;> cases hv
      | ub => simp [Bind.bind, Res.bind]
      | ok b =>
        rw [Res.ok_bind]
        exact findValidLoop_no_throw hagg s extra ts _

private theorem poolAggregate_no_throw (hagg : ∀ l, R.agg l ≠ .throw) (l : List Entry) :
    poolAggregate R l ≠ .throw := by
  unfold poolAggregate
  split
  · simp
  · cases ha : R.agg (l.map (·.tx)) with
    | throw => exact absurd ha (hagg _)
    | ub => simp [Bind.bind, Res.bind]
    | ok a => simp [Bind.bind, Res.bind, Pure.pure]

private theorem offer_no_throw (hagg : ∀ l, R.agg l ≠ .throw) (p : Pools) (s : S) :
    toStem R p s ≠ .throw ∧ toFluff R p s ≠ .throw := by
  have key : ∀ (txs : List Tx) (f : List Tx → Tx → Pools),
      (if txs = [] then Res.ok (p, none)
       else do
        let extra ← poolAggregate R p.mem
        let valid ← findValid R s txs extra
        if valid = [] then return (p, none)
        else do
          let t ← R.agg valid
          return (f valid t, some t)) ≠ .throw := by
    intro txs f
    split
    · simp
    · cases h1 : poolAggregate R p.mem with
      | throw => exact absurd h1 (poolAggregate_no_throw R hagg _)
      | ub => simp [Bind.bind, Res.bind]
      | ok extra =>
        rw [Res.ok_bind]
        cases h2 : findValid R s txs extra with
        | throw => exact absurd h2 (findValidLoop_no_throw R hagg s extra _ _)
        | ub => simp [Bind.bind, Res.bind]
        | ok valid =>
          rw [Res.ok_bind]
          split
          · simp [Pure.pure]
          · cases h3 : R.agg valid with
            | throw => exact absurd h3 (hagg _)
            | ub => simp [Bind.bind, Res.bind]
            | ok t => simp [Bind.bind, Res.bind, Pure.pure]
  exact ⟨key _ _, key _ _⟩

private theorem phases_no_throw (hagg : ∀ l, R.agg l ≠ .throw) {m m' : Monitor} {v : RunView S}
    {sent : List Sent} {b : Bool} :
    (stemPhase R m v = .ok (m', sent, b) → b = true) ∧
    (fluffPhase R m v = .ok (m', sent, b) → b = true) := by
  constructor
  · intro h
    unfold stemPhase at h
    split at h
    · simp only [Res.ok.injEq, Prod.mk.injEq] at h; exact h.2.2.symm
    · split at h
      · simp only [Res.ok.injEq, Prod.mk.injEq] at h; exact h.2.2.symm
      · split at h
        · cases h
        · rename_i ht
          exact absurd ht (offer_no_throw R hagg _ _).1
        · simp only [Res.ok.injEq, Prod.mk.injEq] at h; exact h.2.2.symm
        · obtain ⟨r, _, h⟩ := Res.bind_eq_ok.1 h
          simp only [Res.pure_eq, Res.ok.injEq, Prod.mk.injEq] at h; exact h.2.2.symm
  · intro h
    unfold fluffPhase at h
    split at h
    · simp only [Res.ok.injEq, Prod.mk.injEq] at h; exact h.2.2.symm
    · split at h
      · cases h
      · rename_i ht
        exact absurd ht (offer_no_throw R hagg _ _).2
      · simp only [Res.ok.injEq, Prod.mk.injEq] at h; exact h.2.2.symm
      · simp only [Res.ok.injEq, Prod.mk.injEq] at h; exact h.2.2.symm

/-- **C98, the embargo (partial).**  If aggregation does not fail, then every transaction of the stem pool whose stored time is older than the
embargo is broadcast in this round, alone or as part of an aggregate, or refused by the public pool for one of its reasons.  Missing:
aggregation can fail, see `failed_aggregate_stops_embargo_violated`. -/
theorem embargo_partial (hagg : ∀ l, R.agg l ≠ .throw) (m m' : Monitor) (v : RunView S)
    (sent : List Sent) (h : monitorRun R m v = .ok (m', sent)) (he : v.embargo < 2 ^ 16)
    (e : Entry) (hin : e ∈ m.pools.stem) (hold : e.time < v.now - v.embargo) :
    (∃ t, Sent.all t ∈ sent ∧ (R.hash t = R.hash e.tx ∨
      ∃ parts, R.agg parts = .ok t ∧ ∃ x ∈ parts, R.hash x = R.hash e.tx)) ∨
    Refused R v (m'.pools.mem.map (·.tx)) e.tx := by
  have h0 := h
  unfold monitorRun at h0
  obtain ⟨⟨m1, s1, b1⟩, h1, h0⟩ := Res.bind_eq_ok.1 h0
  have hb1 := (phases_no_throw R hagg).1 h1
  subst hb1
  simp only [Bool.not_true, Bool.false_eq_true, if_false] at h0
  obtain ⟨⟨m2, s2, b2⟩, h2, h0⟩ := Res.bind_eq_ok.1 h0
  have hb2 := (phases_no_throw R hagg).2 h2
  subst hb2
  simp only [Bool.not_true, Bool.false_eq_true, if_false] at h0
  obtain ⟨⟨m3, s3⟩, h3, h0⟩ := Res.bind_eq_ok.1 h0
  simp only [Res.pure_eq, Res.ok.injEq, Prod.mk.injEq] at h0
  obtain ⟨rfl, rfl⟩ := h0
  obtain ⟨i1, i2, i3, i4, i5⟩ := expireLoop_ok R _ _ _ _ h3
  have d1 := stemPhase_ok R h1
  have d2 := fluffPhase_ok R h2
  rcases d1.stem e hin with ⟨e1, hin1, ht1, htm1⟩ | ⟨t, ht, hh⟩
  · rcases d2.stem e1 hin1 with hin2 | ⟨t, valid, ht, ha, hx⟩
    · have hex : e.tx ∈ expired m2.pools v.now v.embargo := by
        unfold expired
        refine List.mem_map.2 ⟨e1, List.mem_filter.2 ⟨hin2, ?_⟩, ht1⟩
        rw [Nat.mod_eq_of_lt he, htm1]
        simpa using hold
      rcases i5 e.tx hex with h | h
      · exact Or.inl ⟨e.tx, by simp [h], Or.inl rfl⟩
      · exact Or.inr h
    · refine Or.inl ⟨t, by simp [ht], Or.inr ⟨valid, ha, ?_⟩⟩
      rw [ht1] at hx
      exact hx
  · exact Or.inl ⟨t, by simp [ht], Or.inl hh⟩

/-- **C98 violated, privacy.**  Every transaction the node was asked to stem is broadcast or refused in the very next round, the round in which
it is sent along the stem: the stored times are zero, so the embargo is over at once. -/
theorem stem_not_private_violated (hagg : ∀ l, R.agg l ≠ .throw) (m m' : Monitor) (v : RunView S)
    (sent : List Sent) (h : monitorRun R m v = .ok (m', sent)) (he : v.embargo < 2 ^ 16)
    (hr : PoolReach R m.pools) (hnow : 2 ^ 16 ≤ v.now) (e : Entry) (hin : e ∈ m.pools.stem) :
    (∃ t, Sent.all t ∈ sent ∧ (R.hash t = R.hash e.tx ∨
      ∃ parts, R.agg parts = .ok t ∧ ∃ x ∈ parts, R.hash x = R.hash e.tx)) ∨
    Refused R v (m'.pools.mem.map (·.tx)) e.tx := by
  refine embargo_partial R hagg m m' v sent h he e hin ?_
  rw [stored_time R _ hr e (Or.inr hin)]
  omega

/-- **C98 violated, embargo.**  If the transactions of the public pool cannot be aggregated, then a round does nothing while the stem pool has a
transaction to stem: no transaction is broadcast, however old. -/
theorem failed_aggregate_stops_embargo_violated (m : Monitor) (v : RunView S) (s : S)
    (hs : v.stemState = some s) (hst : byStatus m.pools.stem .toStem ≠ [])
    (hag : poolAggregate R m.pools.mem = .throw) (hpeer : v.best ≠ []) :
    ∃ m', monitorRun R m v = .ok (m', []) ∧ m'.pools = m.pools := by
  unfold monitorRun stemPhase
  cases hc : chooseRelay m v with
  | none =>
    unfold chooseRelay at hc
    rw [if_neg hpeer] at hc
    split at hc <;> cases hc
  | some m1 =>
    obtain ⟨hp, _⟩ := chooseRelay_ok hc
    have ht : toStem R m1.pools s = .throw := by
      unfold toStem
      dsimp only
      rw [hp, if_neg hst, hag]
      rfl
    simp only [hs, ht, Res.ok_bind]
    exact ⟨m1, rfl, hp⟩

private theorem nodeAdd_admit {p : Pools} {v : RunView S} {h : Nat} {s : S} {z : Tx}
    (htip : v.tip = some h) (hs : v.poolState = some s)
    (hn : ∀ e ∈ p.mem, R.hash e.tx ≠ R.hash z)
    (hok : R.feeOk (h + 1) z = true ∧ (∀ k ∈ z.body.kernels, k.lockHeight ≤ h + 1) ∧
      R.check (h + 1) z = .ok () ∧ R.utxo s z = .ok true) :
    nodeAdd R p v z = .ok (⟨p.mem ++ [⟨z, .fluffed, 0⟩], poolRemove R p.stem z⟩, true) := by
  obtain ⟨p', hp⟩ := (admitted_iff R p v.poolState h z true false).2
    ⟨fun _ => hn, hok.1, hok.2.1, hok.2.2.1, s, hs, hok.2.2.2⟩
  have e := (admitted_effect R _ _ _ _ _ _ _ _ hp).2.1 rfl rfl
  unfold nodeAdd
  rw [htip]
  dsimp only
  rw [hp]
  have : p' = ⟨p.mem ++ [⟨z, .fluffed, 0⟩], poolRemove R p.stem z⟩ := by
    cases p'
    simp only at e
    rw [e.1, e.2]
  simp [this]

/-- **C98 violated, the failed stem.**  Two transactions wait to be stemmed and the relay has gone.  Their aggregate is put into the public pool
and broadcast, and so is each of them: the public pool then holds the aggregate and its parts, which no block can hold together. -/
theorem failed_stem_violated (m : Monitor) (v : RunView S) (q h : Nat) (s : S) (x y t : Tx)
    (hp : m.pools = ⟨[], [⟨x, .toStem, 0⟩, ⟨y, .toStem, 0⟩]⟩)
    (hq : m.relay = some q) (hu : v.now ≤ m.until_) (hc : v.connected q = false)
    (hnow : v.embargo % 2 ^ 16 < v.now) (hs1 : v.stemState = some s) (hs2 : v.fluffState = some s)
    (hs3 : v.poolState = some s) (htip : v.tip = some h)
    (hx : R.agg [x] = .ok x) (hxy : R.agg [x, y] = .ok t)
    (hvx : isValidTx R s x = .ok true) (hvt : isValidTx R s t = .ok true)
    (hd : R.hash x ≠ R.hash y ∧ R.hash t ≠ R.hash x ∧ R.hash t ≠ R.hash y)
    (hok : ∀ z, z = x ∨ z = y ∨ z = t → R.feeOk (h + 1) z = true ∧
      (∀ k ∈ z.body.kernels, k.lockHeight ≤ h + 1) ∧ R.check (h + 1) z = .ok () ∧
      R.utxo s z = .ok true) :
    ∃ m', monitorRun R m v = .ok (m', [.all t, .all x, .all y]) ∧
      m'.pools.mem.map (·.tx) = [t, x, y] ∧ m'.pools.stem = [] := by
  have h1 : chooseRelay m v = some m := by
    unfold chooseRelay
    rw [if_neg]
    rw [hq]
    simp only [reduceCtorEq, false_or]
    omega
  have h2 : toStem R m.pools s = .ok (⟨[], [⟨x, .stemmed, 0⟩, ⟨y, .stemmed, 0⟩]⟩, some t) := by
    rw [hp]
    simp [toStem, byStatus, poolAggregate, findValid, findValidLoop, hx, hxy, hvx, hvt, changeStatus,
      Bind.bind, Res.bind, Pure.pure]
  have r1 : poolRemove R [⟨x, .stemmed, 0⟩, ⟨y, .stemmed, 0⟩] t =
      [⟨x, .stemmed, 0⟩, ⟨y, .stemmed, 0⟩] := by
    simp [poolRemove, List.eraseP, hd.2.1, hd.2.2]
  have h3 : sendStem R { m with pools := ⟨[], [⟨x, .stemmed, 0⟩, ⟨y, .stemmed, 0⟩]⟩ } v t =
      .ok ({ m with pools := ⟨[⟨t, .fluffed, 0⟩], [⟨x, .stemmed, 0⟩, ⟨y, .stemmed, 0⟩]⟩ }, [.all t]) := by
    unfold sendStem
    simp only [hq, hc]
    rw [nodeAdd_admit R htip hs3 (by simp) (hok t (by simp)), r1]
    simp [Bind.bind, Res.bind, Pure.pure]
  have h4 : ∀ m : Monitor, m.pools = ⟨[⟨t, .fluffed, 0⟩], [⟨x, .stemmed, 0⟩, ⟨y, .stemmed, 0⟩]⟩ →
      fluffPhase R m v = .ok (m, [], true) := by
    intro m hm
    unfold fluffPhase
    rw [hs2]
    simp [toFluff, byStatus, hm]
    cases m
    simp_all
  have h5 : expired ⟨[⟨t, .fluffed, 0⟩], [⟨x, .stemmed, 0⟩, ⟨y, .stemmed, 0⟩]⟩ v.now v.embargo = [x, y] := by
    have : (0 : Int) < v.now - ((v.embargo % 2 ^ 16 : Nat) : Int) := by omega
    simp only [expired, List.filter, this]
    simp
  have h6 : ∀ m : Monitor, m.pools = ⟨[⟨t, .fluffed, 0⟩], [⟨x, .stemmed, 0⟩, ⟨y, .stemmed, 0⟩]⟩ →
      expireLoop R m v [x, y] = .ok ({ m with pools :=
        ⟨[⟨t, .fluffed, 0⟩, ⟨x, .fluffed, 0⟩, ⟨y, .fluffed, 0⟩], []⟩ }, [.all x, .all y]) := by
    intro m hm
    rw [expireLoop, nodeAdd_admit R htip hs3 (by simp [hm, hd.2.1]) (hok x (by simp)), Res.ok_bind,
      expireLoop, nodeAdd_admit R htip hs3 (by simp [hm, hd.1, hd.2.2]) (hok y (by simp)), Res.ok_bind]
    simp [expireLoop, hm, poolRemove, Bind.bind, Res.bind, Pure.pure]
  refine ⟨{ m with pools := ⟨[⟨t, .fluffed, 0⟩, ⟨x, .fluffed, 0⟩, ⟨y, .fluffed, 0⟩], []⟩ }, ?_, rfl, rfl⟩
  unfold monitorRun stemPhase
  simp only [h1, hs1, h2, h3, Res.ok_bind, Res.pure_eq, Bool.not_true, Bool.false_eq_true, if_false]
  rw [h4 _ rfl]
  simp only [Res.ok_bind, Bool.not_true, Bool.false_eq_true, if_false]
  rw [h5, h6 _ rfl]
  rfl

/-! ### Concrete rounds -/

/-- Transactions are told apart by their offset; aggregation joins them and fails on more than three. -/
private def dRules : PoolRules Unit :=
  ⟨fun t => beVal t.offset + 1000000 * t.offset.length, fun _ => 0,
   fun l => if l.length ≤ 3 then .ok ⟨l.flatMap (·.offset), ⟨l.flatMap (·.body.inputs), [], []⟩⟩ else .throw,
   fun _ _ => .ok (), fun _ _ => .ok true, fun _ => 0, fun _ _ => true⟩
private def dTx (n : Nat) : Tx := ⟨[UInt8.ofNat n], ⟨[⟨0, [UInt8.ofNat n]⟩], [], []⟩⟩
private def dView (up : Bool) : RunView Unit :=
  ⟨1700000000, [7, 8, 9], 1, fun _ => up, some 5, 600, 180, some (), some (), some ()⟩

/-- No relay yet: peer 8 is drawn, the waiting transaction is stemmed to it and broadcast in the same round; the one to fluff is broadcast. -/
example : (match monitorRun dRules ⟨none, 0, ⟨[], [⟨dTx 1, .toStem, 0⟩, ⟨dTx 2, .toFluff, 0⟩]⟩⟩ (dView true) with
    | .ok (m, sent) => decide (sent = [.stem (dTx 1) 8, .all (dTx 2), .all (dTx 1)]) && (m.relay == some 8) &&
        (m.until_ == 1700000600) && m.pools.stem.isEmpty && (m.pools.mem.length == 2)
    | _ => false) = true := by decide +kernel
/-- The pools of this round can be reached. -/
example : PoolReach dRules ⟨[], [⟨dTx 1, .toStem, 0⟩, ⟨dTx 2, .toFluff, 0⟩]⟩ := by
  have h1 : PoolReach dRules ⟨[], [⟨dTx 1, .toStem, 0⟩]⟩ :=
    .add (s := some ()) (tip := 5) (tx := dTx 1) (toMem := false) (stemIt := true) (st := .added) .empty rfl
  exact .add (s := some ()) (tip := 5) (tx := dTx 2) (toMem := false) (stemIt := false) (st := .added) h1 rfl
/-- The relay has gone. -/
example : (match monitorRun dRules ⟨some 3, 1700000001, ⟨[], [⟨dTx 1, .toStem, 0⟩, ⟨dTx 2, .toStem, 0⟩]⟩⟩ (dView false) with
    | .ok (m, sent) => (sent.length == 3) && (m.relay == some 3) && m.pools.stem.isEmpty && (m.pools.mem.length == 3)
    | _ => false) = true := by decide +kernel
/-- Four transactions in the public pool cannot be aggregated by these rules. -/
example : poolAggregate dRules ([3, 4, 5, 6].map fun n => ⟨dTx n, .fluffed, 0⟩) = .throw := by decide +kernel
example : (match monitorRun dRules ⟨some 3, 1700000001, ⟨[3, 4, 5, 6].map fun n => ⟨dTx n, .fluffed, 0⟩,
      [⟨dTx 1, .toStem, 0⟩, ⟨dTx 2, .stemmed, 0⟩]⟩⟩ (dView true) with
    | .ok (m, sent) => sent.isEmpty && (m.pools.stem.length == 2)
    | _ => false) = true := by decide +kernel
/-- A round that finishes where the public pool refuses: the waiting transaction is public already. -/
example : (match monitorRun dRules ⟨some 3, 1700000001, ⟨[⟨dTx 1, .fluffed, 0⟩], [⟨dTx 1, .stemmed, 0⟩]⟩⟩ (dView true) with
    | .ok (m, sent) => sent.isEmpty && (m.pools.stem.length == 1)
    | _ => false) = true := by decide +kernel

end Verif.Props
