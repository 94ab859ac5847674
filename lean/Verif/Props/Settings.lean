import Verif.Net.Settings

/-!
# C116: settings given through the API, and those in force after a restart

`update_config` reports what it sets at once; what it writes for the next start is the configuration loaded at the last start changed by this
one call.
-/
namespace Verif.Props
open Verif Verif.Codec Verif.PoW Verif.Settings

section
set_option linter.unusedSectionVars false
variable {Addr : Type} [DecidableEq Addr] (W : Names Addr)

/-! ## Reading what was written -/

private theorem lookup_put (fs : List (String × Json)) (k : String) (v : Json) (k' : String) :
    (put fs k v).lookup k' = if k' = k then some v else fs.lookup k' := by
  induction fs with
  | nil =>
    by_cases h : k' = k
    · subst h; simp [put]
    · simp [put, h, List.lookup, beq_eq_false_iff_ne.mpr h]
  | cons f fs ih =>
    obtain ⟨a, b⟩ := f
    unfold put
    by_cases h1 : a = k
    · subst h1
      by_cases h : k' = a
      · subst h; simp
      · simp [h, List.lookup, beq_eq_false_iff_ne.mpr h]
    · simp only [h1, if_false]
      by_cases h : k' = a
      · subst h; simp [List.lookup, h1]
      · simp only [List.lookup, beq_eq_false_iff_ne.mpr h, ih]

private theorem member_assign {j j' : Json} {k : String} {v : Json} (h : assign j k v = .ok j') (k' : String) :
    member j' k' = if k' = k then .ok (some v) else member j k' := by
  cases j with
  | null =>
    simp only [assign, Res.ok.injEq] at h; subst h
    by_cases e : k' = k
    · subst e; simp [member]
    · simp [member, e, List.lookup, beq_eq_false_iff_ne.mpr e]
  | obj fs =>
    simp only [assign, Res.ok.injEq] at h; subst h
    simp only [member, lookup_put]; split <;> rfl
  | _ => simp [assign] at h

private theorem sect_assign {j j' : Json} {k : String} {v : Json} (h : assign j k v = .ok j') (k' : String) :
    sect j' k' = if k' = k then .ok v else sect j k' := by
  unfold sect; rw [member_assign h]; split
  · rfl
  · rfl

private theorem setIn_spec {j j' : Json} {s k : String} {v : Json} (h : setIn j s k v = .ok j') :
    ∃ old new, sect j s = .ok old ∧ assign old k v = .ok new ∧ assign j s new = .ok j' := by
  simp only [setIn, Res.bind_eq_ok] at h
  obtain ⟨o, h1, n, h2, h3⟩ := h
  exact ⟨o, n, h1, h2, h3⟩

/-- What is loaded from `j` is `l`, apart from the JSON itself. -/
private def Agrees (env : Env) (l : Live Addr) (j : Json) : Prop := loadJson W env j = .ok { l with json := j }

private theorem agrees_iff {env : Env} {l : Live Addr} {j : Json} :
    Agrees W env l j ↔ ∃ s1 s2 s3 s4 s5 s6, loadPath j = .ok l.dataPath ∧ sect j "P2P" = .ok s1 ∧ loadP2P W s1 = .ok l.p2p ∧
      sect j "DANDELION" = .ok s2 ∧ loadDandelion s2 = .ok l.dandelion ∧ sect j "SERVER" = .ok s3 ∧ loadRest env s3 = .ok l.restPort ∧
      sect j "WALLET" = .ok s4 ∧ loadWallet s4 = .ok l.wallet ∧ sect j "TOR" = .ok s5 ∧ loadTor s5 = .ok l.tor ∧
      sect j "LOGGER" = .ok s6 ∧ loadLog s6 = .ok l.logLevel := by
  unfold Agrees loadJson
  simp only [Res.bind_eq_ok, Res.pure_eq, Res.ok.injEq, Live.mk.injEq]
  constructor
  · rintro ⟨a, h1, s1, h2, b, h3, s2, h4, c, h5, s3, h6, d, h7, s4, h8, e, h9, s5, h10, f, h11, s6, h12, g, h13, -, rfl, rfl, rfl, rfl,
      rfl, rfl, rfl⟩
    exact ⟨s1, s2, s3, s4, s5, s6, h1, h2, h3, h4, h5, h6, h7, h8, h9, h10, h11, h12, h13⟩
  · rintro ⟨s1, s2, s3, s4, s5, s6, h1, h2, h3, h4, h5, h6, h7, h8, h9, h10, h11, h12, h13⟩
    exact ⟨_, h1, s1, h2, _, h3, s2, h4, _, h5, s3, h6, _, h7, s4, h8, _, h9, s5, h10, _, h11, s6, h12, _, h13, trivial, rfl, rfl, rfl,
      rfl, rfl, rfl, rfl⟩

private theorem loadPath_congr {j j' : Json} (h : member j' "DATA_PATH" = member j "DATA_PATH") : loadPath j' = loadPath j := by
  unfold loadPath; rw [h]

/-- Setting a member of the section `P2P` changes what that section gives. -/
private theorem agrees_p2p {env : Env} {l : Live Addr} {j j' : Json} {k : String} {v : Json} {p : P2P Addr} (hA : Agrees W env l j)
    (hs : setIn j "P2P" k v = .ok j') (hp : ∀ s s', loadP2P W s = .ok l.p2p → assign s k v = .ok s' → loadP2P W s' = .ok p) :
    Agrees W env { l with p2p := p } j' := by
  obtain ⟨o, n, h1, h2, h3⟩ := setIn_spec hs
  rw [agrees_iff] at hA ⊢
  obtain ⟨s1, s2, s3, s4, s5, s6, e1, e2, e3, e4, e5, e6, e7, e8, e9, e10, e11, e12, e13⟩ := hA
  rw [h1] at e2; cases e2
  refine ⟨n, s2, s3, s4, s5, s6, ?_, ?_, hp _ _ e3 h2, ?_, e5, ?_, e7, ?_, e9, ?_, e11, ?_, e13⟩
  · have hm : member j' "DATA_PATH" = member j "DATA_PATH" := by rw [member_assign h3]; simp
    rw [loadPath_congr hm]; exact e1
  all_goals (rw [sect_assign h3]; simp [*])

/-- The same for the section `WALLET`. -/
private theorem agrees_wallet {env : Env} {l : Live Addr} {j j' : Json} {k : String} {v : Json} {w : WalletSettings}
    (hA : Agrees W env l j) (hs : setIn j "WALLET" k v = .ok j')
    (hp : ∀ s s', loadWallet s = .ok l.wallet → assign s k v = .ok s' → loadWallet s' = .ok w) :
    Agrees W env { l with wallet := w } j' := by
  obtain ⟨o, n, h1, h2, h3⟩ := setIn_spec hs
  rw [agrees_iff] at hA ⊢
  obtain ⟨s1, s2, s3, s4, s5, s6, e1, e2, e3, e4, e5, e6, e7, e8, e9, e10, e11, e12, e13⟩ := hA
  rw [h1] at e8; cases e8
  refine ⟨s1, s2, s3, n, s5, s6, ?_, ?_, e3, ?_, e5, ?_, e7, ?_, hp _ _ e9 h2, ?_, e11, ?_, e13⟩
  · have hm : member j' "DATA_PATH" = member j "DATA_PATH" := by rw [member_assign h3]; simp
    rw [loadPath_congr hm]; exact e1
  all_goals (rw [sect_assign h3]; simp [*])

private theorem intIn_assign {s s' : Json} {k k' : String} {v : Json} {d : Int} (h : assign s k v = .ok s') :
    intIn s' k' d = if k' = k then asInt v else intIn s k' d := by
  unfold intIn; rw [member_assign h]; split <;> rfl

private theorem natIn_assign {s s' : Json} {k k' : String} {v : Json} {d : Nat} (h : assign s k v = .ok s') :
    natIn s' k' d = if k' = k then asUInt v else natIn s k' d := by
  unfold natIn; rw [member_assign h]; split <;> rfl

private theorem peersIn_assign {s s' : Json} {k k' : String} {v : Json} (h : assign s k v = .ok s') :
    peersIn W s' k' = if k' = k then loadPeers W (children v) [] else peersIn W s k' := by
  unfold peersIn; rw [member_assign h]; split <;> rfl

private theorem loadP2P_iff {s : Json} {p : P2P Addr} :
    loadP2P W s = .ok p ↔ intIn s "MAX_PEERS" 60 = .ok p.maxPeers ∧ intIn s "MIN_PEERS" 10 = .ok p.minPeers ∧
      peersIn W s "PREFERRED_PEERS" = .ok p.preferred ∧ peersIn W s "ALLOWED_PEERS" = .ok p.allowed ∧
      peersIn W s "BLOCKED_PEERS" = .ok p.blocked := by
  unfold loadP2P
  simp only [Res.bind_eq_ok, Res.pure_eq, Res.ok.injEq]
  constructor
  · rintro ⟨a, h1, b, h2, c, h3, d, h4, e, h5, rfl⟩
    exact ⟨h1, h2, h3, h4, h5⟩
  · rintro ⟨h1, h2, h3, h4, h5⟩
    exact ⟨_, h1, _, h2, _, h3, _, h4, _, h5, rfl⟩

private theorem loadWallet_iff {s : Json} {w : WalletSettings} :
    loadWallet s = .ok w ↔ natIn s "MIN_CONFIRMATIONS" 10 = .ok w.minConf ∧ natIn s "REUSE_ADDRESS" 1 = .ok w.reuse := by
  unfold loadWallet
  simp only [Res.bind_eq_ok, Res.pure_eq, Res.ok.injEq]
  constructor
  · rintro ⟨a, h1, b, h2, rfl⟩
    exact ⟨h1, h2⟩
  · rintro ⟨h1, h2⟩
    exact ⟨_, h1, _, h2, rfl⟩

/-! ## Addresses -/

private theorem splitDots_ne (s : Bytes) : splitDots s ≠ [] := by
  cases s with
  | nil => simp [splitDots]
  | cons c cs =>
    unfold splitDots
    split
    · simp
    · split <;> simp

private theorem mem_splitDots {c : UInt8} : ∀ {s : Bytes}, c ∈ s → c = 46 ∨ ∃ t ∈ splitDots s, c ∈ t
  | a :: s, h => by
    unfold splitDots
    by_cases ha : a = 46
    · simp only [ha, if_true]
      rcases List.mem_cons.mp h with h | h
      · left; rw [h, ha]
      · rcases mem_splitDots h with h | ⟨t, h1, h2⟩
        · exact .inl h
        · exact .inr ⟨t, List.mem_cons_of_mem _ h1, h2⟩
    · simp only [ha, if_false]
      cases hs : splitDots s with
      | nil => exact absurd hs (splitDots_ne s)
      | cons p ps =>
        rcases List.mem_cons.mp h with h | h
        · exact .inr ⟨_, List.mem_cons_self, by simp [h]⟩
        · rcases mem_splitDots h with h | ⟨t, h1, h2⟩
          · exact .inl h
          · rw [hs] at h1
            rcases List.mem_cons.mp h1 with h1 | h1
            · subst h1; exact .inr ⟨_, List.mem_cons_self, List.mem_cons_of_mem _ h2⟩
            · exact .inr ⟨t, List.mem_cons_of_mem _ h1, h2⟩

private theorem allNumbers_mem : ∀ {ts : List Bytes}, allNumbers ts = .ok true → ∀ t ∈ ts, isNumber t = true
  | t :: ts, h, u, hu => by
    unfold allNumbers at h
    by_cases ht : isNumber t = true
    · simp only [ht, if_true, Res.bind_eq_ok] at h
      obtain ⟨⟨n, k⟩, -, h⟩ := h
      by_cases hn : n > 255 ∨ n < 0
      · simp [hn] at h
      · simp only [hn, if_false] at h
        rcases List.mem_cons.mp hu with hu | hu
        · rw [hu]; exact ht
        · exact allNumbers_mem h u hu
    · simp [ht] at h

private theorem isAddress_nonul {s : Bytes} (h : isAddress s = .ok true) : ∀ c ∈ s, c ≠ 0 := by
  intro c hc h0
  subst h0
  unfold isAddress at h
  split at h
  · simp at h
  · rcases mem_splitDots hc with h1 | ⟨t, h1, h2⟩
    · simp at h1
    · have := allNumbers_mem h t h1
      simp only [isNumber, Bool.and_eq_true, List.all_eq_true] at this
      have := this.2 0 h2
      revert this; decide

private theorem takeWhile_all {s : Bytes} (h : ∀ c ∈ s, c ≠ 0) : s.takeWhile (fun c => decide (c ≠ 0)) = s := by
  induction s with
  | nil => rfl
  | cons a s ih =>
    have h1 := h a List.mem_cons_self
    simp only [List.takeWhile_cons, h1, ne_eq, not_false_eq_true, decide_true, if_true]
    rw [ih fun c hc => h c (List.mem_cons_of_mem _ hc)]

/-- Peers written as four numbers between dots are read back as the addresses `update_config` made of them. -/
private theorem loadPeers_eq : ∀ {ps : List Json} {s as : List Addr}, (∀ p ∈ ps, ∃ t, p = .str t ∧ isAddress t = .ok true) →
    parsePeers W ps s = .ok as → loadPeers W ps s = .ok as
  | [], s, as, _, h => h
  | p :: ps, s, as, hp, h => by
    obtain ⟨t, rfl, ht⟩ := hp p List.mem_cons_self
    unfold parsePeers at h
    simp only [Json.isNull, Bool.false_eq_true, if_false, Json.asString, Res.ok_bind] at h
    cases ha : W.parse t with
    | none => simp [ha] at h
    | some a =>
      simp only [ha, Res.bind_eq_ok] at h
      obtain ⟨s', h1, h2⟩ := h
      unfold loadPeers
      simp only [asCString, takeWhile_all (isAddress_nonul ht), Res.ok_bind, validAddresses, ht, if_true, ha, Option.toList, Res.pure_eq, h1]
      exact loadPeers_eq (fun p hp' => hp p (List.mem_cons_of_mem _ hp')) h2

private theorem children_elements (ps : List Json) : children (Json.elements ps) = ps := by
  cases ps <;> rfl

/-! ## The steps -/

/-- `update_config` with numbers that fit an `int`, `reuse_address` 0 or 1, peers as four numbers between dots. -/
structure PlainUpdate (p : Json) : Prop where
  min : ∀ v, uint32Opt p "min_peers" = .ok (some v) → v < 2 ^ 31
  max : ∀ v, uint32Opt p "max_peers" = .ok (some v) → v < 2 ^ 31
  reuse : ∀ v, uint32Opt p "reuse_address" = .ok (some v) → v ≤ 1
  peers : ∀ key ∈ ["preferred_peers", "allowed_peers", "blocked_peers"], ∀ ps, getOptional p key = .ok (some (.arr ps)) →
    ∀ q ∈ ps, ∃ t, q = .str t ∧ isAddress t = .ok true

private theorem uint32_lt {p : Json} {k : String} {v : Nat} (h : uint32Opt p k = .ok (some v)) : v < 2 ^ 32 := by
  unfold uint32Opt at h
  rw [Res.bind_eq_ok] at h
  obtain ⟨o, -, h⟩ := h
  cases o with
  | none => simp at h
  | some n =>
    simp only [Res.pure_eq, Option.map_some, Res.ok.injEq, Option.some.injEq] at h
    rw [← h]; exact Nat.mod_lt _ (by decide)

/-- A step keeps agreement. -/
private def Keeps (env : Env) (st : Step Addr) : Prop :=
  ∀ l j l' j', st l j = .ok (l', j') → Agrees W env l j → Agrees W env l' j'

private theorem numStep_ok {p : Json} {param : String} {ok : Nat → Bool} {s key : String} {set : Live Addr → Nat → Live Addr}
    {l l' : Live Addr} {j j' : Json} (h : numStep p param ok s key set l j = .ok (l', j')) :
    (uint32Opt p param = .ok none ∧ l' = l ∧ j' = j) ∨
      ∃ v, uint32Opt p param = .ok (some v) ∧ ok v = true ∧ setIn j s key (.int v) = .ok j' ∧ l' = set l v := by
  unfold numStep at h
  cases hu : uint32Opt p param with
  | ok o =>
    rw [hu] at h
    cases o with
    | none => simp at h; exact .inl ⟨rfl, h.1.symm, h.2.symm⟩
    | some v =>
      simp only at h
      by_cases hv : ok v = true
      · simp only [hv, if_true] at h
        cases hs : setIn j s key (.int v) with
        | ok j1 =>
          rw [hs] at h; simp at h
          exact .inr ⟨v, rfl, hv, by rw [hs, h.2], h.1.symm⟩
        | _ => rw [hs] at h; simp at h
      · simp [hv] at h
  | _ => rw [hu] at h; simp at h

private theorem peerStep_ok {p : Json} {param key : String} {set : Live Addr → List Addr → Live Addr}
    {l l' : Live Addr} {j j' : Json} (h : peerStep W p param key set l j = .ok (l', j')) :
    (getOptional p param = .ok none ∧ l' = l ∧ j' = j) ∨
      ∃ ps as, getOptional p param = .ok (some (.arr ps)) ∧ parsePeers W ps [] = .ok as ∧
        setIn j "P2P" key (Json.elements ps) = .ok j' ∧ l' = set l as := by
  unfold peerStep at h
  cases hu : getOptional p param with
  | ok o =>
    rw [hu] at h
    cases o with
    | none => simp at h; exact .inl ⟨rfl, h.1.symm, h.2.symm⟩
    | some v =>
      cases v with
      | arr ps =>
        simp only at h
        cases ha : parsePeers W ps [] with
        | ok as =>
          rw [ha] at h; simp only at h
          cases hs : setIn j "P2P" key (Json.elements ps) with
          | ok j1 =>
            rw [hs] at h; simp at h
            exact .inr ⟨ps, as, rfl, ha, by rw [hs, h.2], h.1.symm⟩
          | _ => rw [hs] at h; simp at h
        | _ => rw [ha] at h; simp at h
      | _ => simp at h
  | _ => rw [hu] at h; simp at h

private theorem asInt_nat {v : Nat} (h : v < 2 ^ 31) : asInt (.int v) = .ok (toInt32 v) := by
  have h1 : (-2 ^ 31 : Int) ≤ (v : Int) ∧ (v : Int) < 2 ^ 31 := by omega
  simp only [asInt, h1, and_self, if_true, toInt32, h]

private theorem asUInt_nat {v : Nat} (h : v < 2 ^ 32) : asUInt (.int v) = .ok v := by
  have h1 : (0 : Int) ≤ (v : Int) ∧ (v : Int) < 2 ^ 32 := by omega
  simp only [asUInt, h1, and_self, if_true, Int.toNat_natCast]

private theorem steps_keep {env : Env} {p : Json} (hp : PlainUpdate p) : ∀ st ∈ steps W env p, Keeps W env st := by
  intro st hst
  simp only [steps, List.mem_cons, List.not_mem_nil, or_false] at hst
  rcases hst with rfl | rfl | rfl | rfl | rfl | rfl | rfl <;> intro l j l' j' h hA
  · rcases numStep_ok h with ⟨-, rfl, rfl⟩ | ⟨v, h1, -, h3, rfl⟩
    · exact hA
    · refine agrees_p2p W hA h3 fun s s' e1 e2 => ?_
      rw [loadP2P_iff] at e1 ⊢
      simp [intIn_assign e2, peersIn_assign W e2, asInt_nat (hp.min v h1), e1]
  · rcases numStep_ok h with ⟨-, rfl, rfl⟩ | ⟨v, h1, -, h3, rfl⟩
    · exact hA
    · refine agrees_p2p W hA h3 fun s s' e1 e2 => ?_
      rw [loadP2P_iff] at e1 ⊢
      simp [intIn_assign e2, peersIn_assign W e2, asInt_nat (hp.max v h1), e1]
  · rcases numStep_ok h with ⟨-, rfl, rfl⟩ | ⟨v, h1, -, h3, rfl⟩
    · exact hA
    · refine agrees_wallet W hA h3 fun s s' e1 e2 => ?_
      rw [loadWallet_iff] at e1 ⊢
      simp [natIn_assign e2, asUInt_nat (uint32_lt h1), e1]
  · rcases numStep_ok h with ⟨-, rfl, rfl⟩ | ⟨v, h1, -, h3, rfl⟩
    · exact hA
    · refine agrees_wallet W hA h3 fun s s' e1 e2 => ?_
      rw [loadWallet_iff] at e1 ⊢
      have hv := hp.reuse v h1
      have : (if v = 1 then 1 else 0) = v := by split <;> omega
      simp [natIn_assign e2, asUInt_nat (uint32_lt h1), e1, this]
  · rcases peerStep_ok W h with ⟨-, rfl, rfl⟩ | ⟨ps, as, h1, h2, h3, rfl⟩
    · exact hA
    · refine agrees_p2p W hA h3 fun s s' e1 e2 => ?_
      rw [loadP2P_iff] at e1 ⊢
      simp [intIn_assign e2, peersIn_assign W e2, children_elements, loadPeers_eq W (hp.peers _ (by simp) ps h1) h2, e1]
  · rcases peerStep_ok W h with ⟨-, rfl, rfl⟩ | ⟨ps, as, h1, h2, h3, rfl⟩
    · exact hA
    · refine agrees_p2p W hA h3 fun s s' e1 e2 => ?_
      rw [loadP2P_iff] at e1 ⊢
      simp [intIn_assign e2, peersIn_assign W e2, children_elements, loadPeers_eq W (hp.peers _ (by simp) ps h1) h2, e1]
  · rcases peerStep_ok W h with ⟨-, rfl, rfl⟩ | ⟨ps, as, h1, h2, h3, rfl⟩
    · exact hA
    · refine agrees_p2p W hA h3 fun s s' e1 e2 => ?_
      rw [loadP2P_iff] at e1 ⊢
      simp [intIn_assign e2, peersIn_assign W e2, children_elements, loadPeers_eq W (hp.peers _ (by simp) ps h1) h2, e1]

/-! ## All steps -/

private theorem runSteps_ok : ∀ {ss : List (Step Addr)} {l l' : Live Addr} {j j' : Json} {r : Reply},
    runSteps ss l j = (r, l', some j') → r = .done
  | [], _, _, _, _, _, h => by simp [runSteps] at h; exact h.1.symm
  | s :: ss, l, l', j, j', r, h => by
    unfold runSteps at h
    split at h
    · exact runSteps_ok h
    · simp at h

private theorem runSteps_induct {P : Live Addr → Json → Prop} : ∀ {ss : List (Step Addr)} {l l' : Live Addr} {j j' : Json} {r : Reply},
    (∀ st ∈ ss, ∀ l j l' j', st l j = .ok (l', j') → P l j → P l' j') → P l j → runSteps ss l j = (r, l', some j') → P l' j'
  | [], l, l', j, j', r, _, h0, h => by
    simp only [runSteps, Prod.mk.injEq, Option.some.injEq] at h
    rw [← h.2.1, ← h.2.2]; exact h0
  | s :: ss, l, l', j, j', r, hk, h0, h => by
    unfold runSteps at h
    split at h
    · next l1 j1 h1 =>
      exact runSteps_induct (fun st hst => hk st (List.mem_cons_of_mem _ hst)) (hk s List.mem_cons_self _ _ _ _ h1 h0) h
    · simp at h

/-- What a step never touches. -/
private theorem runSteps_fix {β : Type} (f : Live Addr → β) : ∀ {ss : List (Step Addr)} {l : Live Addr} {j : Json},
    (∀ st ∈ ss, ∀ l j l' j', st l j = .ok (l', j') → f l' = f l) → f (runSteps ss l j).2.1 = f l
  | [], l, j, _ => rfl
  | s :: ss, l, j, hk => by
    unfold runSteps
    split
    · next l1 j1 h1 =>
      rw [runSteps_fix f fun st hst => hk st (List.mem_cons_of_mem _ hst)]
      exact hk s List.mem_cons_self _ _ _ _ h1
    · rfl

private theorem num_fix {β : Type} (f : Live Addr → β) {p : Json} {param : String} {ok : Nat → Bool} {s key : String}
    {set : Live Addr → Nat → Live Addr} {l l' : Live Addr} {j j' : Json} (h : numStep p param ok s key set l j = .ok (l', j'))
    (hf : ∀ l v, f (set l v) = f l) : f l' = f l := by
  rcases numStep_ok h with ⟨-, rfl, -⟩ | ⟨v, -, -, -, rfl⟩
  · rfl
  · exact hf l v

private theorem peer_fix {β : Type} (f : Live Addr → β) {p : Json} {param key : String}
    {set : Live Addr → List Addr → Live Addr} {l l' : Live Addr} {j j' : Json} (h : peerStep W p param key set l j = .ok (l', j'))
    (hf : ∀ l v, f (set l v) = f l) : f l' = f l := by
  rcases peerStep_ok W h with ⟨-, rfl, -⟩ | ⟨ps, as, -, -, -, rfl⟩
  · rfl
  · exact hf l as

/-- What no step touches. -/
private theorem steps_fix {β : Type} (f : Live Addr → β) {env : Env} {p : Json} (h1 : ∀ l v, f (Live.setMin l v) = f l)
    (h2 : ∀ l v, f (Live.setMax l v) = f l) (h3 : ∀ l v, f (Live.setConf l v) = f l) (h4 : ∀ l v, f (Live.setReuse l v) = f l)
    (h5 : ∀ l v, f (Live.setPreferred l v) = f l) (h6 : ∀ l v, f (Live.setAllowed l v) = f l)
    (h7 : ∀ l v, f (Live.setBlocked l v) = f l) :
    ∀ st ∈ steps W env p, ∀ l j l' j', st l j = .ok (l', j') → f l' = f l := by
  intro st hst
  simp only [steps, List.mem_cons, List.not_mem_nil, or_false] at hst
  rcases hst with rfl | rfl | rfl | rfl | rfl | rfl | rfl
  · exact fun _ _ _ _ h => num_fix f h h1
  · exact fun _ _ _ _ h => num_fix f h h2
  · exact fun _ _ _ _ h => num_fix f h h3
  · exact fun _ _ _ _ h => num_fix f h h4
  · exact fun _ _ _ _ h => peer_fix W f h h5
  · exact fun _ _ _ _ h => peer_fix W f h h6
  · exact fun _ _ _ _ h => peer_fix W f h h7

private theorem update_obj {M : Machine} {p : Json} {w : Bool} {l l' : Live Addr} {d d' : Disk}
    (h : update W M (some p) w l d = (.done, l', d')) :
    ∃ fs j, p = .obj fs ∧ w = true ∧ runSteps (steps W M.env p) l l.json = (.done, l', some j) ∧ d' = d.write (savePath M l') j := by
  unfold update at h
  cases p with
  | obj fs =>
    simp only at h
    generalize hr : runSteps (steps W M.env (.obj fs)) l l.json = x at h
    obtain ⟨r, l1, o⟩ := x
    cases o with
    | none =>
      simp only [Prod.mk.injEq] at h
      obtain ⟨rfl, rfl, rfl⟩ := h
      exact absurd hr (by
        have : ∀ (ss : List (Step Addr)) (l : Live Addr) (j : Json) (l1 : Live Addr), (∀ st ∈ ss, ∀ l j r, st l j = .error r → r ≠ .done) →
            runSteps ss l j ≠ (.done, l1, none) := by
          intro ss
          induction ss with
          | nil => intro l j l1 _; simp [runSteps]
          | cons s ss ih =>
            intro l j l1 hs
            unfold runSteps
            split
            · exact ih _ _ _ fun st hst => hs st (List.mem_cons_of_mem _ hst)
            · next r hr => simpa using fun e => absurd e (hs s List.mem_cons_self _ _ _ hr)
        refine this _ _ _ _ fun st hst l j r hr => ?_
        simp only [steps, List.mem_cons, List.not_mem_nil, or_false] at hst
        rcases hst with rfl | rfl | rfl | rfl | rfl | rfl | rfl
        all_goals
          first
          | (unfold numStep at hr
             split at hr <;> try (split at hr <;> try split at hr)
             all_goals first | (simp at hr; done) | (simp only [Except.error.injEq] at hr; subst hr; decide))
          | (unfold peerStep at hr
             split at hr <;> try (split at hr <;> try split at hr)
             all_goals first | (simp at hr; done) | (simp only [Except.error.injEq] at hr; subst hr; decide)))
    | some j =>
      simp only at h
      have := runSteps_ok hr
      subst this
      by_cases hw : w = true
      · simp only [hw, if_true, Prod.mk.injEq] at h
        obtain ⟨-, rfl, rfl⟩ := h
        exact ⟨fs, j, rfl, hw, rfl, rfl⟩
      · simp [hw] at h
  | _ => simp at h

private theorem runSteps_cons {s : Step Addr} {ss : List (Step Addr)} {l l' : Live Addr} {j j' : Json} {r : Reply}
    (h : runSteps (s :: ss) l j = (r, l', some j')) :
    ∃ l1 j1, s l j = .ok (l1, j1) ∧ runSteps ss l1 j1 = (r, l', some j') := by
  unfold runSteps at h
  split at h
  · next l1 j1 h1 => exact ⟨l1, j1, h1, h⟩
  · simp at h

private theorem opt_some {α : Type} (f : Json → Res α) {fs : List (String × Json)} {k : String} {x : Json} {v : α}
    (h : fs.lookup k = some x) (hx : x.isNull = false) (hf : f x = .ok v) : optionally f (.obj fs) k = .ok (some v) := by
  have h0 : (Json.obj fs).isNull = false := rfl
  simp only [optionally, getOptional, h0, Bool.false_eq_true, if_false, Json.get, h, Option.getD_some, Res.ok_bind, Res.pure_eq, hx, hf]

/-- The number under a name among the parameters. -/
private theorem uint32_some {fs : List (String × Json)} {k : String} {v : Nat} (h : fs.lookup k = some (.int v)) (hv : v < 2 ^ 32) :
    uint32Opt (.obj fs) k = .ok (some v) := by
  have hj : jsonUInt64 (.int v) = .ok v := by
    have h0 : (0 : Int) ≤ (v : Int) ∧ (v : Int) < 2 ^ 64 := by omega
    simp only [jsonUInt64, if_pos h0, Int.toNat_natCast]
  have e : optionally jsonUInt64 (.obj fs) k = .ok (some v) := opt_some jsonUInt64 h rfl hj
  have hm := Nat.mod_eq_of_lt hv
  unfold uint32Opt
  rw [e]
  generalize 2 ^ 32 = b at *
  exact congrArg (fun x => Res.ok (some x)) hm

private theorem uint32_none {fs : List (String × Json)} {k : String} (h : fs.lookup k = none) : uint32Opt (.obj fs) k = .ok none := by
  simp [uint32Opt, optionally, getOptional, Json.isNull, Json.get, h]

private theorem opt_none {fs : List (String × Json)} {k : String} (h : fs.lookup k = none) : getOptional (.obj fs) k = .ok none := by
  simp [getOptional, Json.isNull, Json.get, h]

private theorem opt_arr {fs : List (String × Json)} {k : String} {ps : List Json} (h : fs.lookup k = some (.arr ps)) :
    getOptional (.obj fs) k = .ok (some (.arr ps)) := by
  simp [getOptional, Json.isNull, Json.get, h]

private theorem insertAll_one {a : Addr} {s s' : List Addr} (h : insertAll W [a] s = .ok s') : ∀ b, b ∈ s' ↔ b = a ∨ b ∈ s := by
  unfold insertAll at h
  by_cases ha : W.hashes a = true
  · simp only [ha, if_true, insertAll, Res.ok.injEq] at h
    subst h
    intro b
    by_cases hm : a ∈ s
    · simp only [hm, if_true]
      exact ⟨.inr, fun h => h.elim (fun e => e ▸ hm) id⟩
    · simp only [hm, if_false, List.mem_append, List.mem_singleton]
      exact ⟨fun h => h.symm, fun h => h.symm⟩
  · simp [ha] at h

private theorem parsePeers_mem : ∀ {ts : List Bytes} {s as : List Addr}, parsePeers W (ts.map .str) s = .ok as →
    ∀ a, a ∈ as ↔ a ∈ s ∨ ∃ t ∈ ts, W.parse t = some a
  | [], s, as, h, a => by
    simp only [List.map_nil, parsePeers, Res.ok.injEq] at h
    subst h; simp
  | t :: ts, s, as, h, a => by
    simp only [List.map_cons, parsePeers, Json.isNull, Bool.false_eq_true, if_false, Json.asString, Res.ok_bind] at h
    cases hp : W.parse t with
    | none => simp [hp] at h
    | some b =>
      simp only [hp, Res.bind_eq_ok] at h
      obtain ⟨s', h1, h2⟩ := h
      rw [parsePeers_mem h2 a, insertAll_one W h1 a]
      simp only [List.mem_cons, exists_eq_or_imp, hp, Option.some.injEq]
      constructor
      · rintro ((rfl | h) | h)
        · exact .inr (.inl rfl)
        · exact .inl h
        · exact .inr (.inr h)
      · rintro (h | rfl | h)
        · exact .inl (.inr h)
        · exact .inl (.inl rfl)
        · exact .inr h

private theorem num_val {f : Live Addr → β} {fs : List (String × Json)} {param : String} {ok : Nat → Bool} {s key : String}
    {set : Live Addr → Nat → Live Addr} {l l' : Live Addr} {j j' : Json}
    (h : numStep (.obj fs) param ok s key set l j = .ok (l', j')) :
    (fs.lookup param = none → f l' = f l) ∧ (∀ v, fs.lookup param = some (.int (v : Nat)) → v < 2 ^ 32 → ok v = true ∧ f l' = f (set l v)) := by
  rcases numStep_ok h with ⟨h1, rfl, -⟩ | ⟨v, h1, h2, -, rfl⟩
  · refine ⟨fun _ => rfl, fun v hv hlt => ?_⟩
    rw [uint32_some hv hlt] at h1; simp at h1
  · refine ⟨fun hn => ?_, fun v' hv hlt => ?_⟩
    · rw [uint32_none hn] at h1; simp at h1
    · rw [uint32_some hv hlt] at h1
      simp only [Res.ok.injEq, Option.some.injEq] at h1
      subst h1; exact ⟨h2, rfl⟩

private theorem peer_val {f : Live Addr → List Addr} {fs : List (String × Json)} {param key : String}
    {set : Live Addr → List Addr → Live Addr} {l l' : Live Addr} {j j' : Json} (hf : ∀ l as, f (set l as) = as)
    (h : peerStep W (.obj fs) param key set l j = .ok (l', j')) :
    (fs.lookup param = none → f l' = f l) ∧
      (∀ ts : List Bytes, fs.lookup param = some (.arr (ts.map .str)) → ∀ a, a ∈ f l' ↔ ∃ t ∈ ts, W.parse t = some a) := by
  rcases peerStep_ok W h with ⟨h1, rfl, -⟩ | ⟨ps, as, h1, h2, -, rfl⟩
  · refine ⟨fun _ => rfl, fun ts ht => ?_⟩
    rw [opt_arr ht] at h1; simp at h1
  · refine ⟨fun hn => ?_, fun ts ht a => ?_⟩
    · rw [opt_none hn] at h1; simp at h1
    · rw [opt_arr ht] at h1
      simp only [Res.ok.injEq, Option.some.injEq, Json.arr.injEq] at h1
      subst h1
      rw [hf, parsePeers_mem W h2]; simp

/-- What a parameter does to a value that is shown: without it the value stays, with it the value is the one that was given. -/
structure Shows (before after : ConfigView Addr) (fs : List (String × Json)) : Prop where
  min_none : fs.lookup "min_peers" = none → after.minPeers = before.minPeers
  min_some : ∀ v : Nat, v < 2 ^ 31 → fs.lookup "min_peers" = some (.int v) → after.minPeers = v
  max_none : fs.lookup "max_peers" = none → after.maxPeers = before.maxPeers
  max_some : ∀ v : Nat, v < 2 ^ 31 → fs.lookup "max_peers" = some (.int v) → after.maxPeers = v
  conf_none : fs.lookup "min_confirmations" = none → after.minConf = before.minConf
  conf_some : ∀ v : Nat, v < 2 ^ 32 → fs.lookup "min_confirmations" = some (.int v) → after.minConf = v
  reuse_none : fs.lookup "reuse_address" = none → after.reuse = before.reuse
  reuse_some : ∀ v : Nat, v < 2 ^ 32 → fs.lookup "reuse_address" = some (.int v) → after.reuse = decide (v = 1)
  preferred_none : fs.lookup "preferred_peers" = none → after.preferred = before.preferred
  preferred_some : ∀ ts : List Bytes, fs.lookup "preferred_peers" = some (.arr (ts.map .str)) →
    ∀ a, a ∈ after.preferred ↔ ∃ t ∈ ts, W.parse t = some a
  allowed_none : fs.lookup "allowed_peers" = none → after.allowed = before.allowed
  allowed_some : ∀ ts : List Bytes, fs.lookup "allowed_peers" = some (.arr (ts.map .str)) →
    ∀ a, a ∈ after.allowed ↔ ∃ t ∈ ts, W.parse t = some a
  blocked_none : fs.lookup "blocked_peers" = none → after.blocked = before.blocked
  blocked_some : ∀ ts : List Bytes, fs.lookup "blocked_peers" = some (.arr (ts.map .str)) →
    ∀ a, a ∈ after.blocked ↔ ∃ t ∈ ts, W.parse t = some a

/-- **What `update_config` accepts is in force and shown by `get_config` at once**; what it was not given stays, and so do the other
settings. -/
theorem update_in_force {M : Machine} {fs : List (String × Json)} {w : Bool} {l l' : Live Addr} {d d' : Disk}
    (h : update W M (some (.obj fs)) w l d = (.done, l', d')) :
    Shows W (configView l) (configView l') fs ∧ l'.dandelion = l.dandelion ∧ l'.restPort = l.restPort ∧ l'.tor = l.tor ∧
      l'.logLevel = l.logLevel ∧ l'.dataPath = l.dataPath := by
  obtain ⟨_, j, hfs, rfl, hr, rfl⟩ := update_obj W h
  cases hfs
  have fixd := fun {β : Type} (f : Live Addr → β) h1 h2 h3 h4 h5 h6 h7 => (by
    have := runSteps_fix f (l := l) (j := l.json) (steps_fix W f (env := M.env) (p := .obj fs) h1 h2 h3 h4 h5 h6 h7)
    rw [hr] at this
    exact this : f l' = f l)
  refine ⟨?_, fixd (·.dandelion) (fun _ _ => rfl) (fun _ _ => rfl) (fun _ _ => rfl) (fun _ _ => rfl) (fun _ _ => rfl) (fun _ _ => rfl) (fun _ _ => rfl),
    fixd (·.restPort) (fun _ _ => rfl) (fun _ _ => rfl) (fun _ _ => rfl) (fun _ _ => rfl) (fun _ _ => rfl) (fun _ _ => rfl) (fun _ _ => rfl),
    fixd (·.tor) (fun _ _ => rfl) (fun _ _ => rfl) (fun _ _ => rfl) (fun _ _ => rfl) (fun _ _ => rfl) (fun _ _ => rfl) (fun _ _ => rfl),
    fixd (·.logLevel) (fun _ _ => rfl) (fun _ _ => rfl) (fun _ _ => rfl) (fun _ _ => rfl) (fun _ _ => rfl) (fun _ _ => rfl) (fun _ _ => rfl),
    fixd (·.dataPath) (fun _ _ => rfl) (fun _ _ => rfl) (fun _ _ => rfl) (fun _ _ => rfl) (fun _ _ => rfl) (fun _ _ => rfl) (fun _ _ => rfl)⟩
  clear fixd h
  unfold steps at hr
  obtain ⟨l1, j1, e1, hr⟩ := runSteps_cons hr
  obtain ⟨l2, j2, e2, hr⟩ := runSteps_cons hr
  obtain ⟨l3, j3, e3, hr⟩ := runSteps_cons hr
  obtain ⟨l4, j4, e4, hr⟩ := runSteps_cons hr
  obtain ⟨l5, j5, e5, hr⟩ := runSteps_cons hr
  obtain ⟨l6, j6, e6, hr⟩ := runSteps_cons hr
  obtain ⟨l7, j7, e7, hr⟩ := runSteps_cons hr
  simp only [runSteps, Prod.mk.injEq] at hr
  obtain ⟨-, rfl, -⟩ := hr
  -- each value is set by one step and left alone by the others
  have a1 : l7.p2p.minPeers = l1.p2p.minPeers := by
    rw [peer_fix W (fun l : Live Addr => l.p2p.minPeers) e7 (fun _ _ => rfl),
      peer_fix W (fun l : Live Addr => l.p2p.minPeers) e6 (fun _ _ => rfl),
      peer_fix W (fun l : Live Addr => l.p2p.minPeers) e5 (fun _ _ => rfl),
      num_fix (fun l : Live Addr => l.p2p.minPeers) e4 (fun _ _ => rfl),
      num_fix (fun l : Live Addr => l.p2p.minPeers) e3 (fun _ _ => rfl),
      num_fix (fun l : Live Addr => l.p2p.minPeers) e2 (fun _ _ => rfl)]
  have a2 : l7.p2p.maxPeers = l2.p2p.maxPeers := by
    rw [peer_fix W (fun l : Live Addr => l.p2p.maxPeers) e7 (fun _ _ => rfl),
      peer_fix W (fun l : Live Addr => l.p2p.maxPeers) e6 (fun _ _ => rfl),
      peer_fix W (fun l : Live Addr => l.p2p.maxPeers) e5 (fun _ _ => rfl),
      num_fix (fun l : Live Addr => l.p2p.maxPeers) e4 (fun _ _ => rfl),
      num_fix (fun l : Live Addr => l.p2p.maxPeers) e3 (fun _ _ => rfl)]
  have b2 : l1.p2p.maxPeers = l.p2p.maxPeers := num_fix (fun l : Live Addr => l.p2p.maxPeers) e1 (fun _ _ => rfl)
  have a3 : l7.wallet.minConf = l3.wallet.minConf := by
    rw [peer_fix W (fun l : Live Addr => l.wallet.minConf) e7 (fun _ _ => rfl),
      peer_fix W (fun l : Live Addr => l.wallet.minConf) e6 (fun _ _ => rfl),
      peer_fix W (fun l : Live Addr => l.wallet.minConf) e5 (fun _ _ => rfl),
      num_fix (fun l : Live Addr => l.wallet.minConf) e4 (fun _ _ => rfl)]
  have b3 : l2.wallet.minConf = l.wallet.minConf := by
    rw [num_fix (fun l : Live Addr => l.wallet.minConf) e2 (fun _ _ => rfl),
      num_fix (fun l : Live Addr => l.wallet.minConf) e1 (fun _ _ => rfl)]
  have a4 : l7.wallet.reuse = l4.wallet.reuse := by
    rw [peer_fix W (fun l : Live Addr => l.wallet.reuse) e7 (fun _ _ => rfl),
      peer_fix W (fun l : Live Addr => l.wallet.reuse) e6 (fun _ _ => rfl),
      peer_fix W (fun l : Live Addr => l.wallet.reuse) e5 (fun _ _ => rfl)]
  have b4 : l3.wallet.reuse = l.wallet.reuse := by
    rw [num_fix (fun l : Live Addr => l.wallet.reuse) e3 (fun _ _ => rfl),
      num_fix (fun l : Live Addr => l.wallet.reuse) e2 (fun _ _ => rfl),
      num_fix (fun l : Live Addr => l.wallet.reuse) e1 (fun _ _ => rfl)]
  have a5 : l7.p2p.preferred = l5.p2p.preferred := by
    rw [peer_fix W (fun l : Live Addr => l.p2p.preferred) e7 (fun _ _ => rfl),
      peer_fix W (fun l : Live Addr => l.p2p.preferred) e6 (fun _ _ => rfl)]
  have b5 : l4.p2p.preferred = l.p2p.preferred := by
    rw [num_fix (fun l : Live Addr => l.p2p.preferred) e4 (fun _ _ => rfl),
      num_fix (fun l : Live Addr => l.p2p.preferred) e3 (fun _ _ => rfl),
      num_fix (fun l : Live Addr => l.p2p.preferred) e2 (fun _ _ => rfl),
      num_fix (fun l : Live Addr => l.p2p.preferred) e1 (fun _ _ => rfl)]
  have a6 : l7.p2p.allowed = l6.p2p.allowed := peer_fix W (fun l : Live Addr => l.p2p.allowed) e7 (fun _ _ => rfl)
  have b6 : l5.p2p.allowed = l.p2p.allowed := by
    rw [peer_fix W (fun l : Live Addr => l.p2p.allowed) e5 (fun _ _ => rfl),
      num_fix (fun l : Live Addr => l.p2p.allowed) e4 (fun _ _ => rfl),
      num_fix (fun l : Live Addr => l.p2p.allowed) e3 (fun _ _ => rfl),
      num_fix (fun l : Live Addr => l.p2p.allowed) e2 (fun _ _ => rfl),
      num_fix (fun l : Live Addr => l.p2p.allowed) e1 (fun _ _ => rfl)]
  have b7 : l6.p2p.blocked = l.p2p.blocked := by
    rw [peer_fix W (fun l : Live Addr => l.p2p.blocked) e6 (fun _ _ => rfl),
      peer_fix W (fun l : Live Addr => l.p2p.blocked) e5 (fun _ _ => rfl),
      num_fix (fun l : Live Addr => l.p2p.blocked) e4 (fun _ _ => rfl),
      num_fix (fun l : Live Addr => l.p2p.blocked) e3 (fun _ _ => rfl),
      num_fix (fun l : Live Addr => l.p2p.blocked) e2 (fun _ _ => rfl),
      num_fix (fun l : Live Addr => l.p2p.blocked) e1 (fun _ _ => rfl)]
  have lt {v : Nat} (h : v < 2 ^ 31) : v < 2 ^ 32 := by omega
  have c1 := num_val (f := fun l : Live Addr => l.p2p.minPeers) e1
  have c2 := num_val (f := fun l : Live Addr => l.p2p.maxPeers) e2
  have c3 := num_val (f := fun l : Live Addr => l.wallet.minConf) e3
  have c4 := num_val (f := fun l : Live Addr => l.wallet.reuse) e4
  have c5 := peer_val W (f := fun l : Live Addr => l.p2p.preferred) (fun _ _ => rfl) e5
  have c6 := peer_val W (f := fun l : Live Addr => l.p2p.allowed) (fun _ _ => rfl) e6
  have c7 := peer_val W (f := fun l : Live Addr => l.p2p.blocked) (fun _ _ => rfl) e7
  constructor
  · intro hn; exact a1.trans (c1.1 hn)
  · intro v hv hs
    refine (a1.trans (c1.2 v hs (lt hv)).2).trans ?_
    simp [Live.setMin, toInt32, hv]
  · intro hn; exact (a2.trans (c2.1 hn)).trans b2
  · intro v hv hs
    refine (a2.trans (c2.2 v hs (lt hv)).2).trans ?_
    simp [Live.setMax, toInt32, hv]
  · intro hn; exact (a3.trans (c3.1 hn)).trans b3
  · intro v hv hs; exact a3.trans (c3.2 v hs hv).2
  · intro hn
    show decide (l7.wallet.reuse ≠ 0) = decide (l.wallet.reuse ≠ 0)
    rw [(a4.trans (c4.1 hn)).trans b4]
  · intro v hv hs
    show decide (l7.wallet.reuse ≠ 0) = decide (v = 1)
    rw [a4.trans (c4.2 v hs hv).2]
    by_cases h1 : v = 1 <;> simp [Live.setReuse, h1]
  · intro hn; exact (a5.trans (c5.1 hn)).trans b5
  · intro ts ht a
    show a ∈ l7.p2p.preferred ↔ _
    rw [a5]; exact c5.2 ts ht a
  · intro hn; exact (a6.trans (c6.1 hn)).trans b6
  · intro ts ht a
    show a ∈ l7.p2p.allowed ↔ _
    rw [a6]; exact c6.2 ts ht a
  · intro hn; exact (c7.1 hn).trans b7
  · intro ts ht a; exact c7.2 ts ht a

/-! ## The next start -/

private theorem assign_full {j j' : Json} {k : String} {v : Json} (h : assign j k v = .ok j') : Json.isEmpty j' = false := by
  cases j with
  | null => simp only [assign, Res.ok.injEq] at h; subst h; rfl
  | obj fs =>
    simp only [assign, Res.ok.injEq] at h; subst h
    cases fs with
    | nil => rfl
    | cons f fs =>
      unfold put
      by_cases e : f.1 = k
      · simp only [e, if_true]; rfl
      · simp only [e, if_false]; rfl
  | _ => simp [assign] at h

private theorem steps_full {env : Env} {p : Json} : ∀ st ∈ steps W env p, ∀ l j l' j', st l j = .ok (l', j') →
    Json.isEmpty j = false → Json.isEmpty j' = false := by
  intro st hst l j l' j' h hj
  simp only [steps, List.mem_cons, List.not_mem_nil, or_false] at hst
  rcases hst with rfl | rfl | rfl | rfl | rfl | rfl | rfl
  · rcases numStep_ok h with ⟨-, -, rfl⟩ | ⟨v, -, -, h3, -⟩
    · exact hj
    · obtain ⟨_, _, -, -, h⟩ := setIn_spec h3; exact assign_full h
  · rcases numStep_ok h with ⟨-, -, rfl⟩ | ⟨v, -, -, h3, -⟩
    · exact hj
    · obtain ⟨_, _, -, -, h⟩ := setIn_spec h3; exact assign_full h
  · rcases numStep_ok h with ⟨-, -, rfl⟩ | ⟨v, -, -, h3, -⟩
    · exact hj
    · obtain ⟨_, _, -, -, h⟩ := setIn_spec h3; exact assign_full h
  · rcases numStep_ok h with ⟨-, -, rfl⟩ | ⟨v, -, -, h3, -⟩
    · exact hj
    · obtain ⟨_, _, -, -, h⟩ := setIn_spec h3; exact assign_full h
  · rcases peerStep_ok W h with ⟨-, -, rfl⟩ | ⟨ps, as, -, -, h3, -⟩
    · exact hj
    · obtain ⟨_, _, -, -, h⟩ := setIn_spec h3; exact assign_full h
  · rcases peerStep_ok W h with ⟨-, -, rfl⟩ | ⟨ps, as, -, -, h3, -⟩
    · exact hj
    · obtain ⟨_, _, -, -, h⟩ := setIn_spec h3; exact assign_full h
  · rcases peerStep_ok W h with ⟨-, -, rfl⟩ | ⟨ps, as, -, -, h3, -⟩
    · exact hj
    · obtain ⟨_, _, -, -, h⟩ := setIn_spec h3; exact assign_full h

/-- Whether a step goes on, and with which JSON, does not depend on the settings. -/
private theorem steps_blind {env : Env} {p : Json} : ∀ st ∈ steps W env p, ∀ l j l' j' l2, st l j = .ok (l', j') →
    ∃ l2', st l2 j = .ok (l2', j') := by
  have num : ∀ (param : String) (ok : Nat → Bool) (s key : String) (set : Live Addr → Nat → Live Addr) l j l' j' l2,
      numStep p param ok s key set l j = .ok (l', j') → ∃ l2', numStep p param ok s key set l2 j = .ok (l2', j') := by
    intro param ok s key set l j l' j' l2 h
    unfold numStep at h ⊢
    split at h
    · simp only [Except.ok.injEq, Prod.mk.injEq] at h; exact ⟨l2, by simp [h.2]⟩
    · split at h
      · split at h
        · rename_i x v e1 hk y j1 e2
          simp only [Except.ok.injEq, Prod.mk.injEq] at h; exact ⟨set l2 v, by simp [h.2, hk]⟩
        · simp at h
      · simp at h
    · simp at h
  have peer : ∀ (param key : String) (set : Live Addr → List Addr → Live Addr) l j l' j' l2,
      peerStep W p param key set l j = .ok (l', j') → ∃ l2', peerStep W p param key set l2 j = .ok (l2', j') := by
    intro param key set l j l' j' l2 h
    unfold peerStep at h ⊢
    split at h
    · simp only [Except.ok.injEq, Prod.mk.injEq] at h; exact ⟨l2, by simp [h.2]⟩
    · split at h
      · split at h
        · rename_i x ps e1 y as e2 z j1 e3
          simp only [Except.ok.injEq, Prod.mk.injEq] at h; exact ⟨set l2 as, by simp [h.2]⟩
        · simp at h
      · simp at h
    · simp at h
  intro st hst
  simp only [steps, List.mem_cons, List.not_mem_nil, or_false] at hst
  rcases hst with rfl | rfl | rfl | rfl | rfl | rfl | rfl
  · exact num _ _ _ _ _
  · exact num _ _ _ _ _
  · exact num _ _ _ _ _
  · exact num _ _ _ _ _
  · exact peer _ _ _
  · exact peer _ _ _
  · exact peer _ _ _

private theorem runSteps_blind : ∀ {ss : List (Step Addr)} {l l' l2 : Live Addr} {j j' : Json} {r : Reply},
    (∀ st ∈ ss, ∀ l j l' j' l2, st l j = .ok (l', j') → ∃ l2', st l2 j = .ok (l2', j')) →
    runSteps ss l j = (r, l', some j') → ∃ l2', runSteps ss l2 j = (.done, l2', some j')
  | [], l, l', l2, j, j', r, _, h => by
    simp only [runSteps, Prod.mk.injEq, Option.some.injEq] at h
    exact ⟨l2, by simp [runSteps, h.2.2]⟩
  | s :: ss, l, l', l2, j, j', r, hb, h => by
    obtain ⟨l1, j1, h1, h2⟩ := runSteps_cons h
    obtain ⟨l3, h3⟩ := hb s List.mem_cons_self _ _ _ _ l2 h1
    obtain ⟨l4, h4⟩ := runSteps_blind (l2 := l3) (fun st hst => hb st (List.mem_cons_of_mem _ hst)) h2
    exact ⟨l4, by simp only [runSteps, h3, h4]⟩

private theorem update_fix {β : Type} (f : Live Addr → β) {M : Machine} {p : Option Json} {w : Bool} {l : Live Addr} {d : Disk}
    (h1 : ∀ l v, f (Live.setMin l v) = f l)
    (h2 : ∀ l v, f (Live.setMax l v) = f l) (h3 : ∀ l v, f (Live.setConf l v) = f l) (h4 : ∀ l v, f (Live.setReuse l v) = f l)
    (h5 : ∀ l v, f (Live.setPreferred l v) = f l) (h6 : ∀ l v, f (Live.setAllowed l v) = f l)
    (h7 : ∀ l v, f (Live.setBlocked l v) = f l) : f (update W M p w l d).2.1 = f l := by
  unfold update
  split
  · rfl
  · next fs =>
    have := runSteps_fix f (l := l) (j := l.json) (steps_fix W f (env := M.env) (p := .obj fs) h1 h2 h3 h4 h5 h6 h7)
    generalize runSteps (steps W M.env (.obj fs)) l l.json = x at this
    obtain ⟨r, l1, o⟩ := x
    cases o with
    | none => exact this
    | some j =>
      simp only
      split <;> exact this
  · rfl

private theorem updates_json {M : Machine} : ∀ {us : List (Option Json × Bool)} {x : Live Addr × Disk},
    (updates W M us x).1.json = x.1.json ∧ (updates W M us x).1.dataPath = x.1.dataPath
  | [], x => ⟨rfl, rfl⟩
  | (p, w) :: us, x => by
    unfold updates
    have := updates_json (M := M) (us := us) (x := (update W M p w x.1 x.2).2)
    rw [this.1, this.2]
    exact ⟨update_fix W (·.json) (fun _ _ => rfl) (fun _ _ => rfl) (fun _ _ => rfl) (fun _ _ => rfl) (fun _ _ => rfl) (fun _ _ => rfl)
        (fun _ _ => rfl),
      update_fix W (·.dataPath) (fun _ _ => rfl) (fun _ _ => rfl) (fun _ _ => rfl) (fun _ _ => rfl) (fun _ _ => rfl) (fun _ _ => rfl)
        (fun _ _ => rfl)⟩

private theorem loadJson_json {env : Env} {j : Json} {l : Live Addr} (h : loadJson W env j = .ok l) : l.json = j := by
  unfold loadJson at h
  simp only [Res.bind_eq_ok, Res.pure_eq, Res.ok.injEq] at h
  obtain ⟨a, -, s1, -, b, -, s2, -, c, -, s3, -, d, -, s4, -, e, -, s5, -, f, -, s6, -, g, -, rfl⟩ := h
  rfl

private theorem start_agrees {M : Machine} {d d0 : Disk} {l : Live Addr} (h : start W M d = .ok (l, d0)) :
    Agrees W M.env l l.json ∧ Json.isEmpty l.json = false ∧ d0 = d.write M.cfgPath l.json := by
  unfold start at h
  rw [Res.bind_eq_ok] at h
  obtain ⟨l1, h1, h2⟩ := h
  simp only [Res.pure_eq, Res.ok.injEq, Prod.mk.injEq] at h2
  obtain ⟨rfl, rfl⟩ := h2
  have dflt : loadJson W M.env defaultJson = .ok l1 → Agrees W M.env l1 l1.json ∧ Json.isEmpty l1.json = false := by
    intro h
    have := loadJson_json W h
    refine ⟨?_, by rw [this]; rfl⟩
    unfold Agrees; rw [this, h, ← this]
  refine ⟨?_, ?_, rfl⟩
  all_goals
    unfold loadFile at h1
    split at h1
    · next j _ =>
      split at h1
      · next l2 hl =>
        split at h1
        · first | exact (dflt h1).1 | exact (dflt h1).2
        · next he =>
          cases h1
          have := loadJson_json W hl
          first
          | (unfold Agrees; rw [this, hl, ← this])
          | simpa using he
      · first | exact (dflt h1).1 | exact (dflt h1).2
      · simp at h1
    · first | exact (dflt h1).1 | exact (dflt h1).2

/-- **The next start takes only the last update.**  After any number of updates, whatever was answered to them, the file a further accepted
update leaves makes the next start come up with the settings of the *last start* changed by this one update.  (The update being plain, and the
program looking for its configuration where `update_config` writes it.) -/
theorem restart_takes_last_update {M : Machine} {d d0 d' : Disk} {l0 l' : Live Addr} {us : List (Option Json × Bool)} {p : Json} {w : Bool}
    (h0 : start W M d = .ok (l0, d0)) (hpath : savePath M l0 = M.cfgPath) (hp : PlainUpdate p)
    (hu : update W M (some p) w (updates W M us (l0, d0)).1 (updates W M us (l0, d0)).2 = (.done, l', d')) :
    ∃ l1 l2, update W M (some p) w l0 d0 = (.done, l1, d0.write M.cfgPath l2.json) ∧ start W M d' = .ok (l2, d') ∧
      l2 = { l1 with json := l2.json } := by
  obtain ⟨hA, hE, -⟩ := start_agrees W h0
  have hj := updates_json W (M := M) (us := us) (x := (l0, d0))
  obtain ⟨fs, j, rfl, rfl, hr, rfl⟩ := update_obj W hu
  rw [hj.1] at hr
  have hpath' : savePath M l' = M.cfgPath := by
    have := runSteps_fix (·.dataPath) (l := (updates W M us (l0, d0)).1) (j := l0.json)
      (steps_fix W (·.dataPath) (env := M.env) (p := .obj fs) (fun _ _ => rfl) (fun _ _ => rfl) (fun _ _ => rfl) (fun _ _ => rfl)
        (fun _ _ => rfl) (fun _ _ => rfl) (fun _ _ => rfl))
    rw [hr] at this
    simp only at this
    rw [← hpath]; unfold savePath; rw [this, hj.2]
  obtain ⟨l1, h1⟩ := runSteps_blind (l2 := l0) (steps_blind W) hr
  have hA1 : Agrees W M.env l1 j := runSteps_induct (P := fun l j => Agrees W M.env l j)
    (fun st hst l j l' j' h hA => steps_keep W hp st hst l j l' j' h hA) hA h1
  have hE1 : Json.isEmpty j = false := runSteps_induct (P := fun _ j => Json.isEmpty j = false)
    (fun st hst l j l' j' h hA => steps_full W st hst l j l' j' h hA) hE h1
  have hp1 : savePath M l1 = M.cfgPath := by
    have := runSteps_fix (·.dataPath) (l := l0) (j := l0.json)
      (steps_fix W (·.dataPath) (env := M.env) (p := .obj fs) (fun _ _ => rfl) (fun _ _ => rfl) (fun _ _ => rfl) (fun _ _ => rfl)
        (fun _ _ => rfl) (fun _ _ => rfl) (fun _ _ => rfl))
    rw [h1] at this
    simp only at this
    rw [← hpath]; unfold savePath; rw [this]
  refine ⟨l1, { l1 with json := j }, ?_, ?_, rfl⟩
  · simp only [update, h1, if_true, hp1]
  · rw [hpath']
    have hl : loadFile W M.env (((updates W M us (l0, d0)).2.write M.cfgPath j) M.cfgPath) = .ok { l1 with json := j } := by
      simp only [Disk.write, if_true, loadFile]
      unfold Agrees at hA1
      rw [hA1]
      simp [hE1]
    unfold start
    rw [hl]
    simp only [Res.ok_bind, Res.pure_eq, Res.ok.injEq, Prod.mk.injEq, true_and]
    funext q
    simp only [Disk.write]
    split <;> rfl

/-- **An update made right after a start survives the next one**: all settings are as they were when the program ended. -/
theorem update_survives_restart_partial {M : Machine} {d d0 d' : Disk} {l0 l' : Live Addr} {p : Json} {w : Bool}
    (h0 : start W M d = .ok (l0, d0)) (hpath : savePath M l0 = M.cfgPath) (hp : PlainUpdate p)
    (hu : update W M (some p) w l0 d0 = (.done, l', d')) :
    ∃ l2, start W M d' = .ok (l2, d') ∧ l2 = { l' with json := l2.json } ∧ configView l2 = configView l' := by
  obtain ⟨l1, l2, h1, h2, h3⟩ := restart_takes_last_update W (us := []) h0 hpath hp hu
  rw [hu] at h1
  simp only [Prod.mk.injEq, true_and] at h1
  obtain ⟨rfl, -⟩ := h1
  exact ⟨l2, h2, h3, by rw [h3]; rfl⟩

/-! ## Refusals, and peers that are let in -/

/-- `min_peers` below what synchronising needs is refused, and nothing changes. -/
theorem too_few_peers_refused {M : Machine} {fs : List (String × Json)} {w : Bool} {l : Live Addr} {d : Disk} {v : Nat}
    (h : fs.lookup "min_peers" = some (.int v)) (hv : v < minSync M.env) : update W M (some (.obj fs)) w l d = (.invalid, l, d) := by
  have hlt : v < 2 ^ 32 := by
    have : minSync M.env ≤ 3 := by unfold minSync; split <;> omega
    omega
  have hn : ¬ minSync M.env ≤ v := by omega
  have e : numStep (.obj fs) "min_peers" (fun v => decide (minSync M.env ≤ v)) "P2P" "MIN_PEERS" Live.setMin l l.json =
      .error .invalid := by
    simp only [numStep, uint32_some h hlt, hn, decide_false, Bool.false_eq_true, if_false]
  simp only [update, steps, runSteps, e]

/-- Where no list was made, every peer is let in and called; a list of preferred peers keeps nobody from being let in. -/
theorem unlisted_peers (l : Live Addr) (a : Addr) (hb : a ∉ l.p2p.blocked) (ha : l.p2p.allowed = [] ∨ a ∈ l.p2p.allowed) :
    welcomes l a = true ∧ (l.p2p.preferred = [] ∨ a ∈ l.p2p.preferred → callsOn l a = true) := by
  have h1 : isBlocked l a = false := by simp [isBlocked, hb]
  have h2 : isAllowed l a = true := by
    rcases ha with ha | ha
    · simp [isAllowed, ha]
    · simp [isAllowed, ha]
  refine ⟨by simp [welcomes, h1, h2], fun hp => ?_⟩
  have h3 : isPreferred l a = true := by
    rcases hp with hp | hp
    · simp [isPreferred, hp]
    · simp [isPreferred, hp]
  simp [callsOn, h1, h2, h3]

/-- A peer on the list of blocked ones is neither let in nor called; if peers are listed as allowed, only they are; if some are listed as
preferred, only they are called. -/
theorem listed_peers {M : Machine} {fs : List (String × Json)} {w : Bool} {l l' : Live Addr} {d d' : Disk} {ts : List Bytes}
    (h : update W M (some (.obj fs)) w l d = (.done, l', d')) :
    (fs.lookup "blocked_peers" = some (.arr (ts.map .str)) → ∀ t ∈ ts, ∀ a, W.parse t = some a →
      welcomes l' a = false ∧ callsOn l' a = false) ∧
    (fs.lookup "allowed_peers" = some (.arr (ts.map .str)) → ts ≠ [] → ∀ a, welcomes l' a = true ∨ callsOn l' a = true →
      ∃ t ∈ ts, W.parse t = some a) ∧
    (fs.lookup "preferred_peers" = some (.arr (ts.map .str)) → ts ≠ [] → ∀ a, callsOn l' a = true → ∃ t ∈ ts, W.parse t = some a) := by
  have hS := (update_in_force W h).1
  obtain ⟨_, j, hfs, -, hr, -⟩ := update_obj W h
  cases hfs
  have parsed : ∀ {k param : String} {set : Live Addr → List Addr → Live Addr} {l l' : Live Addr} {j j' : Json},
      peerStep W (.obj fs) param k set l j = .ok (l', j') → fs.lookup param = some (.arr (ts.map .str)) → ts ≠ [] →
      ∃ t ∈ ts, ∃ a, W.parse t = some a := by
    intro k param set l j l' j' hs hl hne
    rcases peerStep_ok W hs with ⟨h1, -, -⟩ | ⟨ps, as, h1, h2, -, -⟩
    · rw [opt_arr hl] at h1; simp at h1
    · rw [opt_arr hl] at h1
      simp only [Res.ok.injEq, Option.some.injEq, Json.arr.injEq] at h1
      subst h1
      cases ts with
      | nil => exact absurd rfl hne
      | cons t ts =>
        simp only [List.map_cons, parsePeers, Json.isNull, Bool.false_eq_true, if_false, Json.asString, Res.ok_bind] at h2
        cases hp : W.parse t with
        | none => simp [hp] at h2
        | some a => exact ⟨t, List.mem_cons_self, a, hp⟩
  unfold steps at hr
  obtain ⟨l1, j1, e1, hr⟩ := runSteps_cons hr
  obtain ⟨l2, j2, e2, hr⟩ := runSteps_cons hr
  obtain ⟨l3, j3, e3, hr⟩ := runSteps_cons hr
  obtain ⟨l4, j4, e4, hr⟩ := runSteps_cons hr
  obtain ⟨l5, j5, e5, hr⟩ := runSteps_cons hr
  obtain ⟨l6, j6, e6, hr⟩ := runSteps_cons hr
  clear hr
  refine ⟨fun hl t ht a ha => ?_, fun hl hne a ha => ?_, fun hl hne a ha => ?_⟩
  · have hm : a ∈ l'.p2p.blocked := (hS.blocked_some ts hl a).mpr ⟨t, ht, ha⟩
    have hlen : l'.p2p.blocked.length > 0 := List.length_pos_of_mem hm
    have : isBlocked l' a = true := by simp [isBlocked, hlen, hm]
    simp [welcomes, callsOn, this]
  · obtain ⟨t, ht, b, hb⟩ := parsed e6 hl hne
    have hlen : l'.p2p.allowed.length > 0 := List.length_pos_of_mem ((hS.allowed_some ts hl b).mpr ⟨t, ht, hb⟩)
    have : isAllowed l' a = true := by
      rcases ha with ha | ha
      · simp only [welcomes, Bool.and_eq_true] at ha; exact ha.2
      · simp only [callsOn, Bool.and_eq_true] at ha; exact ha.1.2
    simp only [isAllowed, hlen, if_true, decide_eq_true_eq] at this
    exact (hS.allowed_some ts hl a).mp this
  · obtain ⟨t, ht, b, hb⟩ := parsed e5 hl hne
    have hlen : l'.p2p.preferred.length > 0 := List.length_pos_of_mem ((hS.preferred_some ts hl b).mpr ⟨t, ht, hb⟩)
    simp only [callsOn, Bool.and_eq_true, isPreferred, hlen, if_true, decide_eq_true_eq] at ha
    exact (hS.preferred_some ts hl a).mp ha.2

/-! ## Any file -/

private theorem member_noub (j : Json) (k : String) : member j k ≠ .ub := by cases j <;> simp [member]
private theorem sect_noub (j : Json) (k : String) : sect j k ≠ .ub := by
  unfold sect; rw [ne_eq, Res.bind_eq_ub]; rintro (h | ⟨_, -, h⟩)
  · exact member_noub _ _ h
  · simp at h
private theorem asInt_noub (j : Json) : asInt j ≠ .ub := by
  unfold asInt; split <;> (try split) <;> simp
private theorem asUInt_noub (j : Json) : asUInt j ≠ .ub := by
  unfold asUInt; split <;> (try split) <;> simp
private theorem asString_noub (j : Json) : j.asString ≠ .ub := by cases j <;> simp [Json.asString]
private theorem asCString_noub (j : Json) : asCString j ≠ .ub := by cases j <;> simp [asCString]
private theorem intIn_noub (s : Json) (k : String) (d : Int) : intIn s k d ≠ .ub := by
  unfold intIn; rw [ne_eq, Res.bind_eq_ub]; rintro (h | ⟨o, -, h⟩)
  · exact member_noub _ _ h
  · cases o with
    | none => simp at h
    | some v => exact asInt_noub _ h
private theorem natIn_noub (s : Json) (k : String) (d : Nat) : natIn s k d ≠ .ub := by
  unfold natIn; rw [ne_eq, Res.bind_eq_ub]; rintro (h | ⟨o, -, h⟩)
  · exact member_noub _ _ h
  · cases o with
    | none => simp at h
    | some v => exact asUInt_noub _ h
private theorem ite_noub {α : Type} {c : Prop} [Decidable c] {a b : Res α} (ha : a ≠ .ub) (hb : b ≠ .ub) : (if c then a else b) ≠ .ub := by
  split <;> assumption
private theorem stoi_noub (s : Bytes) : stoi s ≠ .ub := by
  unfold stoi; dsimp only
  exact ite_noub (by simp) (ite_noub (by simp) (by simp))
private theorem allNumbers_noub : ∀ ts : List Bytes, allNumbers ts ≠ .ub
  | [] => by simp [allNumbers]
  | t :: ts => by
    unfold allNumbers
    split
    · rw [ne_eq, Res.bind_eq_ub]; rintro (h | ⟨⟨n, k⟩, -, h⟩)
      · exact stoi_noub _ h
      · simp only at h
        split at h
        · simp at h
        · exact allNumbers_noub ts h
    · simp
private theorem validAddresses_noub (s : Bytes) : validAddresses W s ≠ .ub := by
  unfold validAddresses; rw [ne_eq, Res.bind_eq_ub]; rintro (h | ⟨b, -, h⟩)
  · unfold isAddress at h
    split at h
    · simp at h
    · exact allNumbers_noub _ h
  · split at h <;> simp at h
private theorem insertAll_noub : ∀ as s : List Addr, insertAll W as s ≠ .ub
  | [], s => by simp [insertAll]
  | a :: as, s => by
    unfold insertAll
    split
    · exact insertAll_noub as _
    · simp
private theorem loadPeers_noub : ∀ (ps : List Json) (s : List Addr), loadPeers W ps s ≠ .ub
  | [], s => by simp [loadPeers]
  | p :: ps, s => by
    unfold loadPeers
    simp only [ne_eq, Res.bind_eq_ub]
    rintro (h | ⟨t, -, h | ⟨as, -, h | ⟨s', -, h⟩⟩⟩)
    · exact asCString_noub _ h
    · exact validAddresses_noub W _ h
    · exact insertAll_noub W _ _ h
    · exact loadPeers_noub ps s' h
private theorem peersIn_noub (s : Json) (k : String) : peersIn W s k ≠ .ub := by
  unfold peersIn; rw [ne_eq, Res.bind_eq_ub]; rintro (h | ⟨o, -, h⟩)
  · exact member_noub _ _ h
  · cases o with
    | none => simp at h
    | some v => exact loadPeers_noub W _ _ h
private theorem loadTor_noub (s : Json) : loadTor s ≠ .ub := by
  unfold loadTor
  simp only [ne_eq, Res.bind_eq_ub]
  rintro (h | ⟨_, -, h | ⟨_, -, h | ⟨o1, -, h | ⟨o2, -, h⟩⟩⟩⟩)
  · exact natIn_noub _ _ _ h
  · exact natIn_noub _ _ _ h
  · exact member_noub _ _ h
  · exact member_noub _ _ h
  · split at h
    · simp only [Res.bind_eq_ub] at h
      rcases h with h | ⟨_, -, h | ⟨_, -, h⟩⟩
      · exact asCString_noub _ h
      · exact asCString_noub _ h
      · simp at h
    · simp at h

private theorem loadJson_noub (env : Env) (j : Json) : loadJson W env j ≠ .ub := by
  unfold loadJson
  simp only [ne_eq, Res.bind_eq_ub]
  rintro (h | ⟨_, -, h | ⟨_, -, h | ⟨_, -, h | ⟨_, -, h | ⟨_, -, h | ⟨_, -, h | ⟨_, -, h | ⟨_, -, h | ⟨_, -, h | ⟨_, -, h | ⟨_, -, h |
    ⟨_, -, h⟩⟩⟩⟩⟩⟩⟩⟩⟩⟩⟩⟩)
  · unfold loadPath at h; rw [Res.bind_eq_ub] at h; rcases h with h | ⟨o, -, h⟩
    · exact member_noub _ _ h
    · cases o with
      | none => simp at h
      | some v =>
        simp only [Res.bind_eq_ub] at h; rcases h with h | ⟨_, -, h⟩
        · exact asString_noub _ h
        · simp at h
  · exact sect_noub _ _ h
  · unfold loadP2P at h; simp only [Res.bind_eq_ub] at h
    rcases h with h | ⟨_, -, h | ⟨_, -, h | ⟨_, -, h | ⟨_, -, h | ⟨_, -, h⟩⟩⟩⟩⟩
    · exact intIn_noub _ _ _ h
    · exact intIn_noub _ _ _ h
    · exact peersIn_noub W _ _ h
    · exact peersIn_noub W _ _ h
    · exact peersIn_noub W _ _ h
    · simp at h
  · exact sect_noub _ _ h
  · unfold loadDandelion at h; simp only [Res.bind_eq_ub] at h
    rcases h with h | ⟨_, -, h | ⟨_, -, h | ⟨_, -, h | ⟨_, -, h⟩⟩⟩⟩
    · exact natIn_noub _ _ _ h
    · exact natIn_noub _ _ _ h
    · exact natIn_noub _ _ _ h
    · exact natIn_noub _ _ _ h
    · simp at h
  · exact sect_noub _ _ h
  · unfold loadRest at h; simp only [Res.bind_eq_ub] at h
    rcases h with h | ⟨_, -, h⟩
    · exact intIn_noub _ _ _ h
    · simp at h
  · exact sect_noub _ _ h
  · unfold loadWallet at h; simp only [Res.bind_eq_ub] at h
    rcases h with h | ⟨_, -, h | ⟨_, -, h⟩⟩
    · exact natIn_noub _ _ _ h
    · exact natIn_noub _ _ _ h
    · simp at h
  · exact sect_noub _ _ h
  · exact loadTor_noub _ h
  · exact sect_noub _ _ h
  · simp only [loadLog, Res.bind_eq_ub] at h
    rcases h with (h | ⟨o, -, h⟩) | ⟨_, -, h⟩
    · exact member_noub _ _ h
    · cases o with
      | none => simp at h
      | some v => exact asString_noub _ h
    · simp at h

/-- The settings without a configuration file. -/
def defaultSettings (env : Env) : Live Addr :=
  ⟨defaultJson, none, ⟨60, 10, [], [], []⟩, ⟨600, 180, 10, 90⟩, if env = .mainnet then 3413 else 13413, ⟨10, 1⟩,
    ⟨3422, 3423, str "MyPassword", str "16:906248AB51F939ED605CE9937D3B1FDE65DEB4098A889B2A07AC221D8F"⟩, str "DEBUG"⟩

private theorem load_default (env : Env) : loadJson W env defaultJson = .ok (defaultSettings env) := by
  cases env <;> rfl

/-- **The program starts with any configuration file**; it takes the file, or, if anything in it cannot be used, the defaults, and what it
starts with is then in the file. -/
theorem starts_with_any_file (M : Machine) (d : Disk) :
    ∃ l, start W M d = .ok (l, d.write M.cfgPath l.json) ∧
      ((∃ j, d M.cfgPath = .value j ∧ l.json = j ∧ loadJson W M.env j = .ok l) ∨
        l = defaultSettings M.env ∧ ∀ j, d M.cfgPath = .value j → Json.isEmpty j = true ∨ loadJson W M.env j = .throw) := by
  have key : ∃ l, loadFile W M.env (d M.cfgPath) = .ok l ∧
      ((∃ j, d M.cfgPath = .value j ∧ l.json = j ∧ loadJson W M.env j = .ok l) ∨
        l = defaultSettings M.env ∧ ∀ j, d M.cfgPath = .value j → Json.isEmpty j = true ∨ loadJson W M.env j = .throw) := by
    cases hd : d M.cfgPath with
    | missing => exact ⟨defaultSettings M.env, load_default W M.env, .inr ⟨rfl, by simp⟩⟩
    | garbage raw => exact ⟨defaultSettings M.env, load_default W M.env, .inr ⟨rfl, by simp⟩⟩
    | value j =>
      simp only [loadFile]
      cases hl : loadJson W M.env j with
      | ok l =>
        simp only
        split
        · next he =>
          rw [loadJson_json W hl] at he
          exact ⟨defaultSettings M.env, load_default W M.env, .inr ⟨rfl, fun j' hj' => by cases hj'; exact .inl he⟩⟩
        · exact ⟨l, rfl, .inl ⟨j, rfl, loadJson_json W hl, hl⟩⟩
      | throw => exact ⟨defaultSettings M.env, load_default W M.env, .inr ⟨rfl, fun j' hj' => by cases hj'; exact .inr hl⟩⟩
      | ub => exact absurd hl (loadJson_noub W _ _)
  obtain ⟨l, h1, h2⟩ := key
  exact ⟨l, by simp [start, h1], h2⟩

private theorem intIn_obj {es : List (String × Json)} {k : String} {d r : Int} (h : intIn (.obj es) k d = .ok r) :
    (es.lookup k = none → r = d) ∧ ∀ v, es.lookup k = some (.int v) → r = v := by
  simp only [intIn, member, Res.ok_bind] at h
  refine ⟨fun hn => ?_, fun v hv => ?_⟩
  · rw [hn] at h; simp at h; exact h.symm
  · rw [hv] at h; simp only [asInt] at h
    split at h
    · simp only [Res.ok.injEq] at h; exact h.symm
    · simp at h

private theorem natIn_obj {es : List (String × Json)} {k : String} {d r : Nat} (h : natIn (.obj es) k d = .ok r) :
    (es.lookup k = none → r = d) ∧ ∀ v : Nat, es.lookup k = some (.int v) → r = v := by
  simp only [natIn, member, Res.ok_bind] at h
  refine ⟨fun hn => ?_, fun v hv => ?_⟩
  · rw [hn] at h; simp at h; exact h.symm
  · rw [hv] at h; simp only [asUInt] at h
    split at h
    · simp only [Res.ok.injEq, Int.toNat_natCast] at h; exact h.symm
    · simp at h

/-- A number in a section: the one in the file, or the default. -/
def NumberRead (es : List (String × Json)) (key : String) (dflt r : Int) : Prop :=
  (es.lookup key = none → r = dflt) ∧ ∀ v, es.lookup key = some (.int v) → r = v

/-- **The numbers of a file that is taken are those in force**, with the defaults where it has none; what is to fit sixteen or eight bits is
taken if it does. -/
theorem file_numbers {env : Env} {fs es : List (String × Json)} {l : Live Addr} (h : loadJson W env (.obj fs) = .ok l) :
    (fs.lookup "P2P" = some (.obj es) → NumberRead es "MAX_PEERS" 60 (configView l).maxPeers ∧ NumberRead es "MIN_PEERS" 10 (configView l).minPeers) ∧
    (fs.lookup "WALLET" = some (.obj es) → NumberRead es "MIN_CONFIRMATIONS" 10 (configView l).minConf ∧
      (es.lookup "REUSE_ADDRESS" = none → (configView l).reuse = true) ∧
      ∀ v : Nat, es.lookup "REUSE_ADDRESS" = some (.int v) → (configView l).reuse = decide (v ≠ 0)) ∧
    (fs.lookup "DANDELION" = some (.obj es) →
      (∀ v : Nat, v < 2 ^ 16 → es.lookup "RELAY_SECS" = some (.int v) → l.dandelion.relay = v) ∧
      (∀ v : Nat, v < 2 ^ 16 → es.lookup "EMBARGO_SECS" = some (.int v) → l.dandelion.embargo = v) ∧
      (∀ v : Nat, v < 2 ^ 8 → es.lookup "PATIENCE_SECS" = some (.int v) → l.dandelion.patience = v) ∧
      (∀ v : Nat, v < 2 ^ 8 → es.lookup "STEM_PROBABILITY" = some (.int v) → l.dandelion.stem = v)) ∧
    (fs.lookup "SERVER" = some (.obj es) → ∀ v : Nat, v < 2 ^ 16 → es.lookup "REST_API_PORT" = some (.int v) → l.restPort = v) ∧
    (fs.lookup "TOR" = some (.obj es) →
      (∀ v : Nat, v < 2 ^ 16 → es.lookup "SOCKS_PORT" = some (.int v) → l.tor.socks = v) ∧
      (∀ v : Nat, v < 2 ^ 16 → es.lookup "CONTROL_PORT" = some (.int v) → l.tor.control = v)) := by
  have hj := loadJson_json W h
  have hA : Agrees W env l (.obj fs) := by unfold Agrees; rw [h, ← hj]
  rw [agrees_iff] at hA
  obtain ⟨s1, s2, s3, s4, s5, s6, e1, e2, e3, e4, e5, e6, e7, e8, e9, e10, e11, e12, e13⟩ := hA
  have hs : ∀ {k : String} {s : Json}, sect (.obj fs) k = .ok s → fs.lookup k = some (.obj es) → s = .obj es := by
    intro k s h1 h2
    simp only [sect, member, h2, Res.ok_bind, Res.pure_eq, Option.getD_some, Res.ok.injEq] at h1
    exact h1.symm
  refine ⟨fun hl => ?_, fun hl => ?_, fun hl => ?_, fun hl => ?_, fun hl => ?_⟩
  · cases hs e2 hl
    rw [loadP2P_iff] at e3
    exact ⟨intIn_obj e3.1, intIn_obj e3.2.1⟩
  · cases hs e8 hl
    rw [loadWallet_iff] at e9
    have a := natIn_obj e9.1
    have b := natIn_obj e9.2
    refine ⟨⟨fun hn => congrArg Int.ofNat (a.1 hn), fun v hv => ?_⟩, fun hn => ?_, fun v hv => ?_⟩
    · have hn : 0 ≤ v := by
        apply Decidable.byContradiction
        intro hneg
        have := e9.1
        simp only [natIn, member, hv, Res.ok_bind, asUInt, hneg, false_and, if_false] at this
        simp at this
      obtain ⟨n, rfl⟩ := Int.eq_ofNat_of_zero_le hn
      exact congrArg Int.ofNat (a.2 n hv)
    · show decide (l.wallet.reuse ≠ 0) = true
      rw [b.1 hn]; rfl
    · show decide (l.wallet.reuse ≠ 0) = decide (v ≠ 0)
      rw [b.2 v hv]
  · cases hs e4 hl
    unfold loadDandelion at e5
    simp only [Res.bind_eq_ok, Res.pure_eq, Res.ok.injEq] at e5
    obtain ⟨a, h1, b, h2, c, h3, d, h4, h5⟩ := e5
    rw [← h5]
    refine ⟨fun v hv hl => ?_, fun v hv hl => ?_, fun v hv hl => ?_, fun v hv hl => ?_⟩
    · show a % 2 ^ 16 = v; rw [(natIn_obj h1).2 v hl, Nat.mod_eq_of_lt hv]
    · show b % 2 ^ 16 = v; rw [(natIn_obj h2).2 v hl, Nat.mod_eq_of_lt hv]
    · show c % 2 ^ 8 = v; rw [(natIn_obj h3).2 v hl, Nat.mod_eq_of_lt hv]
    · show d % 2 ^ 8 = v; rw [(natIn_obj h4).2 v hl, Nat.mod_eq_of_lt hv]
  · cases hs e6 hl
    intro v hv hl
    unfold loadRest at e7
    simp only [Res.bind_eq_ok, Res.pure_eq, Res.ok.injEq] at e7
    obtain ⟨a, h1, h2⟩ := e7
    have h3 := (intIn_obj h1).2 v hl
    omega
  · cases hs e10 hl
    unfold loadTor at e11
    simp only [Res.bind_eq_ok] at e11
    obtain ⟨a, h1, b, h2, o1, -, o2, -, h5⟩ := e11
    have key : l.tor.socks = a % 2 ^ 16 ∧ l.tor.control = b % 2 ^ 16 := by
      split at h5
      · simp only [Res.bind_eq_ok, Res.pure_eq, Res.ok.injEq] at h5
        obtain ⟨_, -, _, -, h5⟩ := h5
        rw [← h5]; exact ⟨rfl, rfl⟩
      · simp only [Res.pure_eq, Res.ok.injEq] at h5
        rw [← h5]; exact ⟨rfl, rfl⟩
    refine ⟨fun v hv hl => ?_, fun v hv hl => ?_⟩
    · rw [key.1, (natIn_obj h1).2 v hl, Nat.mod_eq_of_lt hv]
    · rw [key.2, (natIn_obj h2).2 v hl, Nat.mod_eq_of_lt hv]

end

/-! ## Where it goes wrong -/

/-- Addresses are their texts; names resolve to nothing; every address has a hash. -/
def plainNames : Names Bytes := ⟨fun s => if s.length ≤ 15 ∧ isAddress s = .ok true then some s else none, fun _ => none, fun _ => true⟩

/-- A program on the main net with its configuration in its data directory. -/
def homeMachine : Machine := ⟨.mainnet, str "/d", str "/d/server_config.json"⟩

/-- What is shown after a first start with this file, these updates, and after another start. -/
def shownNow (M : Machine) (f : Stored) (us : List Json) : Option (ConfigView Bytes × ConfigView Bytes) :=
  match start plainNames M (fun _ => f) with
  | .ok x =>
    let y := updates plainNames M (us.map fun p => (some p, true)) x
    match start plainNames M y.2 with
    | .ok z => some (configView y.1, configView z.1)
    | _ => none
  | _ => none

/-- The witnesses of `restart_takes_last_update`, `update_survives_restart_partial`, `update_in_force`, `listed_peers`: an update with all
parameters is accepted, and shown after a restart. -/
example : let p : Json := .obj [("min_peers", .int 5), ("max_peers", .int 50), ("min_confirmations", .int 3), ("reuse_address", .int 0),
      ("preferred_peers", .arr [.str (str "1.2.3.4")]), ("blocked_peers", .arr [.str (str "10.0.0.1"), .str (str "10.0.0.2")])]
    let v : ConfigView Bytes := ⟨5, 50, 3, false, [str "1.2.3.4"], [], [str "10.0.0.1", str "10.0.0.2"]⟩
    shownNow homeMachine .missing [p] = some (v, v) := by decide +kernel

/-- It is plain. -/
example : PlainUpdate (.obj [("min_peers", .int 5), ("reuse_address", .int 0), ("blocked_peers", .arr [.str (str "10.0.0.1")])]) := by
  refine ⟨fun v h => ?_, fun v h => ?_, fun v h => ?_, fun key hk ps h => ?_⟩
  · rw [show uint32Opt _ "min_peers" = .ok (some 5) from by decide +kernel] at h
    simp only [Res.ok.injEq, Option.some.injEq] at h; omega
  · rw [show uint32Opt _ "max_peers" = .ok none from by decide +kernel] at h
    simp at h
  · rw [show uint32Opt _ "reuse_address" = .ok (some 0) from by decide +kernel] at h
    simp only [Res.ok.injEq, Option.some.injEq] at h; omega
  · simp only [List.mem_cons, List.not_mem_nil, or_false] at hk
    rcases hk with rfl | rfl | rfl
    · simp [getOptional, Json.isNull, Json.get, List.lookup] at h
    · simp [getOptional, Json.isNull, Json.get, List.lookup] at h
    · simp only [getOptional, Json.isNull, Json.get, List.lookup] at h
      simp at h
      subst h
      intro q hq
      simp only [List.mem_singleton] at hq
      exact ⟨_, hq, by decide +kernel⟩

/-- **Settings given by an earlier update are gone after a restart**: first `max_peers` is set to 100, then `min_peers` to 20; both are in
force, but the next start has 60 and 20. -/
theorem earlier_update_lost_violated :
    ∃ v w, shownNow homeMachine .missing [.obj [("max_peers", .int 100)], .obj [("min_peers", .int 20)]] = some (v, w) ∧
      v.maxPeers = 100 ∧ v.minPeers = 20 ∧ w.maxPeers = 60 ∧ w.minPeers = 20 :=
  ⟨⟨20, 100, 10, true, [], [], []⟩, ⟨20, 60, 10, true, [], [], []⟩, by decide +kernel, rfl, rfl, rfl, rfl⟩

/-- **`reuse_address` 2 is off until the restart, on after it.** -/
theorem reuse_changes_violated :
    ∃ v w, shownNow homeMachine .missing [.obj [("reuse_address", .int 2)]] = some (v, w) ∧ v.reuse = false ∧ w.reuse = true :=
  ⟨⟨10, 60, 10, false, [], [], []⟩, ⟨10, 60, 10, true, [], [], []⟩, by decide +kernel, rfl, rfl⟩

/-- **An accepted update can make the whole configuration unusable**: with `max_peers` beyond an `int` the file cannot be loaded, the next
start replaces it by the defaults (`min_confirmations` was 50). -/
theorem accepted_update_wipes_violated :
    ∃ v w, shownNow homeMachine (.value (.obj [("WALLET", .obj [("MIN_CONFIRMATIONS", .int 50)])])) [.obj [("max_peers", .int 3000000000)]]
      = some (v, w) ∧ v.minConf = 50 ∧ v.maxPeers = -1294967296 ∧ w.minConf = 10 ∧ w.maxPeers = 60 :=
  ⟨⟨10, -1294967296, 50, true, [], [], []⟩, ⟨10, 60, 10, true, [], [], []⟩, by decide +kernel, rfl, rfl, rfl, rfl⟩

/-- **One entry that cannot be used discards all of them, and the file**: a number in quotes, or an address with a bracket. -/
theorem one_bad_entry_violated :
    (∀ bad ∈ [("MAX_PEERS", Json.str (str "40")), ("PREFERRED_PEERS", .arr [.str (str "10.0.0.[")])],
      ∃ v, shownNow homeMachine (.value (.obj [("WALLET", .obj [("MIN_CONFIRMATIONS", .int 50)]), ("P2P", .obj [bad])])) [] = some (v, v) ∧
        v.minConf = 10) ∧
    ∃ l d, start plainNames homeMachine (fun _ => .value (.obj [("WALLET", .obj [("MIN_CONFIRMATIONS", .int 50)]),
        ("P2P", .obj [("MAX_PEERS", .str (str "40"))])])) = .ok (l, d) ∧ d homeMachine.cfgPath = .value defaultJson := by
  refine ⟨fun bad hb => ⟨⟨10, 60, 10, true, [], [], []⟩, ?_, rfl⟩, ?_⟩
  · simp only [List.mem_cons, List.not_mem_nil, or_false] at hb
    rcases hb with rfl | rfl <;> decide +kernel
  · exact ⟨_, _, rfl, rfl⟩

/-- **An update that is answered with an error can have taken effect**: `max_peers` is in force, though nothing was saved. -/
theorem failed_update_in_force_violated :
    ∃ l d l' d', start plainNames homeMachine (fun _ => .missing) = .ok (l, d) ∧
      update plainNames homeMachine (some (.obj [("max_peers", .int 100), ("preferred_peers", .arr [.str (str "host")])])) true l d =
        (.failed, l', d') ∧ (configView l).maxPeers = 60 ∧ (configView l').maxPeers = 100 := by
  refine ⟨_, _, _, _, rfl, rfl, ?_, ?_⟩ <;> decide +kernel

/-- **With another data directory the update is written where no start looks for it.** -/
theorem other_directory_violated :
    ∃ v w, shownNow homeMachine (.value (.obj [("DATA_PATH", .str (str "/e"))])) [.obj [("max_peers", .int 100)]] = some (v, w) ∧
      v.maxPeers = 100 ∧ w.maxPeers = 60 :=
  ⟨⟨10, 100, 10, true, [], [], []⟩, ⟨10, 60, 10, true, [], [], []⟩, by decide +kernel, rfl, rfl⟩

/-- **At least more peers than at most are accepted.** -/
theorem min_above_max_violated :
    ∃ v, shownNow homeMachine .missing [.obj [("min_peers", .int 100), ("max_peers", .int 5)]] = some (v, v) ∧ v.minPeers > v.maxPeers :=
  ⟨⟨100, 5, 10, true, [], [], []⟩, by decide +kernel, by decide⟩

/-- **A probability of 300 is 44**: what does not fit eight bits is cut without a word. -/
theorem probability_cut_violated :
    ∃ l d, start plainNames homeMachine (fun _ => .value (.obj [("DANDELION", .obj [("STEM_PROBABILITY", .int 300)])])) = .ok (l, d) ∧
      l.dandelion.stem = 44 := ⟨_, _, rfl, rfl⟩

/-- `file_numbers` has a case with all sections. -/
example : ∃ l : Live Bytes, loadJson plainNames .mainnet (.obj [("P2P", .obj [("MAX_PEERS", .int 7)]), ("WALLET", .obj [("REUSE_ADDRESS", .int 0)]),
    ("DANDELION", .obj [("STEM_PROBABILITY", .int 50)]), ("SERVER", .obj [("REST_API_PORT", .int 1)]), ("TOR", .obj [("SOCKS_PORT", .int 2)])]) =
    .ok l := ⟨_, rfl⟩

/-- `too_few_peers_refused` has a case. -/
example : ([("min_peers", Json.int 2)] : List (String × Json)).lookup "min_peers" = some (.int (2 : Nat)) ∧ 2 < minSync homeMachine.env :=
  ⟨rfl, by decide⟩

end Verif.Props
