import Verif.Cache.Cache
import Mathlib.Data.List.Nodup

/-!
# C59: the caches
-/
namespace Verif.Props
open Verif.Cache

variable {K V : Type} [DecidableEq K]

/-- The keys in the order of their last use, the last used first, after one more call.  A put is a use, a get is one if the key
is among the `cap` used last.  Keys are never dropped from this list. -/
def useStep (cap : Nat) (r : List K) : Op K V → List K
  | .put k _ => k :: r.erase k
  | .get k => if k ∈ r.take cap then k :: r.erase k else r
  | .clear => []

/-- The keys in the order of coming in, the last first, after one more call.  A put of a key that is not among the `cap` that
came last makes it come in. -/
def comeStep (cap : Nat) (r : List K) : Op K V → List K
  | .put k _ => if k ∈ r.take cap then r else k :: r.erase k
  | .get _ => r
  | .clear => []

/-- The value last put for each key, after one more call. -/
def putStep (m : K → Option V) : Op K V → K → Option V
  | .put k v => fun k' => if k' = k then some v else m k'
  | .get _ => m
  | .clear => fun _ => none

private theorem erase_take_mem {n : Nat} {k : K} : ∀ {r : List K}, k ∈ r.take n → (r.take n).erase k = (r.erase k).take (n - 1) := by
  induction n with
  | zero => intro r h; simp at h
  | succ n ih =>
    intro r h
    cases r with
    | nil => simp at h
    | cons a t =>
      rw [List.take_succ_cons] at h ⊢
      by_cases e : a = k
      · subst e; simp
      · have h' : k ∈ t.take n := by simpa [Ne.symm e] using h
        rw [List.erase_cons_tail (by simpa using e), List.erase_cons_tail (by simpa using e), ih h']
        cases n with
        | zero => simp at h'
        | succ n => simp

private theorem erase_take_not {n : Nat} {k : K} : ∀ {r : List K}, k ∉ r.take n → (r.erase k).take (n - 1) = r.take (n - 1) := by
  induction n with
  | zero => intro r _; simp
  | succ n ih =>
    intro r h
    cases r with
    | nil => simp
    | cons a t =>
      rw [List.take_succ_cons] at h
      have ha : a ≠ k := by intro e; apply h; simp [e]
      have h' : k ∉ t.take n := by intro hm; apply h; simp [hm]
      rw [List.erase_cons_tail (by simpa using ha)]
      cases n with
      | zero => simp
      | succ n =>
        have := ih h'
        simp only [Nat.add_sub_cancel] at this ⊢
        simp [this]

private theorem lookup_none {items : List (K × V)} {k : K} : lookup items k = none ↔ k ∉ items.map (·.1) := by
  unfold lookup
  simp
  grind

private theorem lookup_filter (items : List (K × V)) (k k' : K) :
    lookup (items.filter (fun p => p.1 ≠ k)) k' = if k' = k then none else lookup items k' := by
  induction items with
  | nil => simp [lookup]
  | cons a t ih =>
    unfold lookup at ih ⊢
    by_cases h : a.1 = k
    · rw [List.filter_cons_of_neg (by simp [h]), ih]
      by_cases h2 : k' = k
      · simp [h2]
      · rw [if_neg h2, if_neg h2, List.find?_cons_of_neg (by simpa [h] using Ne.symm h2)]
    · rw [List.filter_cons_of_pos (by simp [h])]
      by_cases h2 : a.1 = k'
      · rw [List.find?_cons_of_pos (by simp [h2]), List.find?_cons_of_pos (by simp [h2])]
        rw [if_neg (by rintro rfl; exact h h2)]
      · rw [List.find?_cons_of_neg (by simpa using h2), List.find?_cons_of_neg (by simpa using h2), ih]

private theorem lookup_set (items : List (K × V)) (k : K) (v : V) (k' : K) :
    lookup (setValue items k v) k' = if k' = k ∧ k ∈ items.map (·.1) then some v else lookup items k' := by
  induction items with
  | nil => simp [lookup, setValue]
  | cons a t ih =>
    unfold lookup setValue at ih ⊢
    rw [List.map_cons]
    by_cases h : a.1 = k
    · rw [if_pos h]
      by_cases h2 : k' = k
      · subst h2
        simp [h]
      · rw [List.find?_cons_of_neg (by simpa using Ne.symm h2), ih, if_neg (by simp [h2]), if_neg (by simp [h2]),
          List.find?_cons_of_neg (by simpa [h] using Ne.symm h2)]
    · rw [if_neg h]
      by_cases h2 : a.1 = k'
      · have : k' ≠ k := by rintro rfl; exact h h2
        rw [List.find?_cons_of_pos (by simpa using h2), List.find?_cons_of_pos (by simpa using h2), if_neg (by simp [this])]
      · rw [List.find?_cons_of_neg (by simpa using h2), List.find?_cons_of_neg (by simpa using h2), ih]
        have hne : k ≠ a.1 := Ne.symm h
        simp only [List.map_cons, List.mem_cons, hne, false_or]

private theorem set_keys (items : List (K × V)) (k : K) (v : V) : (setValue items k v).map (·.1) = items.map (·.1) := by
  induction items with
  | nil => rfl
  | cons a t ih =>
    unfold setValue at ih ⊢
    rw [List.map_cons, List.map_cons, List.map_cons, ih]
    by_cases h : a.1 = k
    · rw [if_pos h, h]
    · rw [if_neg h]

/-- The cache holds the first `cap` keys of `r` with the values of `m`. -/
private structure Holds (cap : Nat) (r : List K) (m : K → Option V) (c : Cache K V) : Prop where
  nodup : r.Nodup
  max : c.max = cap
  queue : c.queue = r.take cap
  finder : c.policy = .lru → c.finder.Nodup ∧ ∀ k, k ∈ c.finder ↔ k ∈ c.queue
  keys : (c.items.map (·.1)).Perm c.queue
  val : ∀ k, lookup c.items k = if k ∈ r.take cap then m k else none

private theorem Holds.mem_iff {cap : Nat} {r : List K} {m : K → Option V} {c : Cache K V} (h : Holds cap r m c) (k : K) :
    k ∈ c.items.map (·.1) ↔ k ∈ r.take cap := by
  rw [h.keys.mem_iff, h.queue]

private theorem perm_erase_filter {items : List (K × V)} {q : List K} (hp : (items.map (·.1)).Perm q) (hn : q.Nodup) (k : K) :
    ((items.filter (fun p => p.1 ≠ k)).map (·.1)).Perm (q.erase k) := by
  have : (items.filter (fun p => p.1 ≠ k)).map (·.1) = (items.map (·.1)).filter (fun x => x ≠ k) := by
    rw [List.filter_map]; rfl
  rw [this, hn.erase_eq_filter]
  have := hp.filter (fun x => decide (x ≠ k))
  refine this.trans (List.Perm.of_eq ?_)
  congr 1
  funext x
  by_cases h : x = k <;> simp [h]

private theorem erase_getLast {q : List K} {l : K} (hn : q.Nodup) (hl : q.getLast? = some l) : q.erase l = q.dropLast := by
  obtain ⟨ys, rfl⟩ := List.getLast?_eq_some_iff.1 hl
  have : l ∉ ys := by
    intro hm
    rw [List.nodup_append] at hn
    exact hn.2.2 l hm l (by simp) rfl
  rw [List.erase_append_right _ this]
  simp

omit [DecidableEq K] in
private theorem take_nodup {n : Nat} {r : List K} (h : r.Nodup) : (r.take n).Nodup := h.sublist (List.take_sublist _ _)

/-- Evicting when full: the last of the queue goes. -/
private theorem evict {cap : Nat} (h0 : 0 < cap) {r : List K} {m : K → Option V} {c : Cache K V} (h : Holds cap r m c)
    (hf : c.items.length + 1 > c.max) : ∃ l c', c.queue.getLast? = some l ∧ eraseKey c l = .ok c' ∧ c'.policy = c.policy ∧
      c'.max = c.max ∧ c'.queue = r.take (cap - 1) ∧
      (c'.policy = .lru → c'.finder.Nodup ∧ ∀ k, k ∈ c'.finder ↔ k ∈ c'.queue) ∧
      (c'.items.map (·.1)).Perm c'.queue ∧ ∀ k, lookup c'.items k = if k ∈ r.take (cap - 1) then m k else none := by
  have hlen : c.items.length = c.queue.length := by simpa using h.keys.length_eq
  have hqn : c.queue.Nodup := by rw [h.queue]; exact take_nodup h.nodup
  have hq : c.queue.length = cap := by
    rw [h.queue, List.length_take] at hlen ⊢
    rw [h.max] at hf
    omega
  obtain ⟨l, hl⟩ : ∃ l, c.queue.getLast? = some l := by
    cases e : c.queue.getLast? with
    | none => rw [List.getLast?_eq_none_iff] at e; simp [e] at hq; omega
    | some l => exact ⟨l, rfl⟩
  have hlm : l ∈ r.take cap := by rw [← h.queue]; exact List.mem_of_getLast? hl
  have hdrop : c.queue.dropLast = r.take (cap - 1) := by
    rw [List.dropLast_eq_take, hq, h.queue, List.take_take]
    congr 1
    omega
  have hmem : ∀ k, k ∈ r.take (cap - 1) ↔ k ≠ l ∧ k ∈ r.take cap := by
    intro k
    rw [← hdrop, ← erase_getLast hqn hl, hqn.mem_erase_iff, h.queue]
  have hv : lookup c.items l ≠ none := by
    rw [Ne, lookup_none, h.mem_iff]
    exact fun hh => hh hlm
  obtain ⟨v, hv⟩ := Option.ne_none_iff_exists'.1 hv
  have hperm : ((c.items.filter (fun p => p.1 ≠ l)).map (·.1)).Perm (r.take (cap - 1)) := by
    rw [← hdrop, ← erase_getLast hqn hl]
    exact perm_erase_filter h.keys hqn l
  have hval : ∀ k, lookup (c.items.filter (fun p => p.1 ≠ l)) k = if k ∈ r.take (cap - 1) then m k else none := by
    intro k
    rw [lookup_filter, h.val]
    by_cases hk : k = l
    · simp [hk, hmem]
    · simp [hk, hmem]
  unfold eraseKey policyErase
  cases hp : c.policy with
  | fifo =>
    refine ⟨l, { c with queue := c.queue.dropLast, items := c.items.filter (fun p => p.1 ≠ l) }, hl, ?_, hp, rfl, hdrop, ?_, ?_, hval⟩
    · simp [hl, hv, hp]
    · simp [hp]
    · simpa [hdrop] using hperm
  | lru =>
    obtain ⟨f1, f2⟩ := h.finder hp
    refine ⟨l, { c with queue := c.queue.dropLast, finder := c.finder.erase l, items := c.items.filter (fun p => p.1 ≠ l) },
      hl, ?_, hp, rfl, hdrop, ?_, ?_, hval⟩
    · simp [hl, hv, hp]
    · intro _
      refine ⟨f1.erase l, fun k => ?_⟩
      show k ∈ c.finder.erase l ↔ k ∈ c.queue.dropLast
      rw [f1.mem_erase_iff, f2, ← erase_getLast hqn hl, hqn.mem_erase_iff]
    · simpa [hdrop] using hperm

private theorem erase_last_nodup (r : List K) (hn : r.Nodup) (k : K) : (k :: r.erase k).Nodup :=
  List.nodup_cons.2 ⟨by rw [hn.mem_erase_iff]; simp, hn.erase k⟩

private theorem insert_holds {cap : Nat} (h0 : 0 < cap) {r : List K} {m : K → Option V} {c : Cache K V} (hn : r.Nodup)
    (hmax : c.max = cap) (hq : c.queue = r.take (cap - 1))
    (hf : c.policy = .lru → c.finder.Nodup ∧ ∀ k, k ∈ c.finder ↔ k ∈ c.queue)
    (hk : (c.items.map (·.1)).Perm c.queue) (hval : ∀ k, lookup c.items k = if k ∈ r.take (cap - 1) then m k else none)
    (k : K) (v : V) (hnew : k ∉ r.take cap) :
    Holds cap (k :: r.erase k) (putStep m (.put k v)) (store c k v) := by
  have hnew' : k ∉ r.take (cap - 1) := fun h => hnew ((List.take_sublist_take_left (by omega)).subset h)
  have hnone : lookup c.items k = none := by rw [hval, if_neg hnew']
  have htake : (k :: r.erase k).take cap = k :: r.take (cap - 1) := by
    obtain ⟨n, rfl⟩ : ∃ n, cap = n + 1 := ⟨cap - 1, by omega⟩
    rw [List.take_succ_cons]
    have := erase_take_not hnew
    simp only [Nat.add_sub_cancel] at this ⊢
    rw [this]
  have hitems : (store c k v).items = (k, v) :: c.items := by
    unfold store policyInsert
    cases hp : c.policy <;> simp [hnone]
  have hqueue : (store c k v).queue = k :: c.queue := by
    unfold store policyInsert
    cases hp : c.policy <;> simp [hnone]
  have hmax' : (store c k v).max = cap := by
    unfold store policyInsert
    cases hp : c.policy <;> simp [hnone, hmax]
  have hpol : (store c k v).policy = c.policy := by
    unfold store policyInsert
    cases hp : c.policy <;> simp [hnone]
  refine ⟨erase_last_nodup r hn k, hmax', by rw [hqueue, htake, hq], ?_, ?_, ?_⟩
  · rw [hpol]
    intro hp
    obtain ⟨f1, f2⟩ := hf hp
    have hkf : k ∉ c.finder := by rw [f2, hq]; exact hnew'
    have : (store c k v).finder = k :: c.finder := by
      unfold store policyInsert
      simp [hp, hnone, hkf]
    rw [this, hqueue]
    refine ⟨List.nodup_cons.2 ⟨hkf, f1⟩, fun k' => by simp [f2]⟩
  · rw [hitems, hqueue]
    simpa using hk
  · intro k'
    rw [hitems, htake]
    unfold lookup
    by_cases h : k' = k
    · subst h; simp [putStep]
    · rw [List.find?_cons_of_neg (by simpa using Ne.symm h)]
      have := hval k'
      unfold lookup at this
      rw [this]
      simp [putStep, h]

private theorem put_new {cap : Nat} (h0 : 0 < cap) {r : List K} {m : K → Option V} {c : Cache K V} (h : Holds cap r m c)
    (k : K) (v : V) (hk : k ∉ r.take cap) :
    ∃ c', put c k v = .ok c' ∧ c'.policy = c.policy ∧ Holds cap (k :: r.erase k) (putStep m (.put k v)) c' := by
  have hnone : lookup c.items k = none := by rw [h.val, if_neg hk]
  have hpol : ∀ d : Cache K V, (store d k v).policy = d.policy := by
    intro d
    unfold store policyInsert
    cases hp : d.policy <;> simp <;> split <;> simp_all
  unfold put
  simp only [hnone]
  by_cases hf : c.items.length + 1 > c.max
  · obtain ⟨l, c1, e1, e2, e3, e4, e5, e6, e7, e8⟩ := evict h0 h hf
    rw [if_pos hf, e1]
    simp only [e2]
    exact ⟨_, rfl, by rw [hpol, e3], insert_holds h0 h.nodup (by rw [e4, h.max]) e5 e6 e7 e8 k v hk⟩
  · rw [if_neg hf]
    have hlen : c.items.length = c.queue.length := by simpa using h.keys.length_eq
    have hr : r.length + 1 ≤ cap := by
      rw [h.queue, List.length_take] at hlen
      rw [h.max] at hf
      omega
    have t1 : r.take cap = r := List.take_of_length_le (by omega)
    have t2 : r.take (cap - 1) = r := List.take_of_length_le (by omega)
    refine ⟨_, rfl, hpol c, insert_holds h0 h.nodup h.max (by rw [h.queue, t1, t2]) h.finder h.keys ?_ k v hk⟩
    intro k'
    rw [h.val, t1, t2]

private theorem touch_lru {cap : Nat} {r : List K} {m : K → Option V} {c : Cache K V} (h : Holds cap r m c) (hp : c.policy = .lru)
    (k : K) (hk : k ∈ r.take cap) :
    ∃ c', touch c k = .ok c' ∧ c'.policy = .lru ∧ c'.items = c.items ∧ Holds cap (k :: r.erase k) m c' := by
  obtain ⟨f1, f2⟩ := h.finder hp
  have hkf : k ∈ c.finder := by rw [f2, h.queue]; exact hk
  have hqn : c.queue.Nodup := by rw [h.queue]; exact take_nodup h.nodup
  have hcap : 0 < cap := by rcases Nat.eq_zero_or_pos cap with rfl | h; · simp at hk
                            · exact h
  have htake : (k :: r.erase k).take cap = k :: c.queue.erase k := by
    obtain ⟨n, rfl⟩ : ∃ n, cap = n + 1 := ⟨cap - 1, by omega⟩
    rw [List.take_succ_cons, h.queue, erase_take_mem hk]
    rfl
  have hmem : ∀ k', k' ∈ k :: c.queue.erase k ↔ k' ∈ c.queue := by
    intro k'
    rw [List.mem_cons, hqn.mem_erase_iff]
    have : k ∈ c.queue := by rw [h.queue]; exact hk
    grind
  refine ⟨{ c with queue := k :: c.queue.erase k }, by simp [touch, hp, hkf], hp, rfl, ?_⟩
  refine ⟨erase_last_nodup r h.nodup k, h.max, htake.symm, ?_, ?_, ?_⟩
  · intro _
    exact ⟨f1, fun k' => by rw [f2]; exact (hmem k').symm⟩
  · have : (k :: c.queue.erase k).Perm c.queue := (List.perm_cons_erase (by rw [h.queue]; exact hk)).symm
    exact h.keys.trans this.symm
  · intro k'
    rw [htake]
    show lookup c.items k' = _
    rw [h.val, ← h.queue]
    simp only [hmem]

private theorem set_holds {cap : Nat} {r : List K} {m : K → Option V} {c : Cache K V} (h : Holds cap r m c)
    (k : K) (v : V) (hk : k ∈ r.take cap) :
    Holds cap r (putStep m (.put k v)) { c with items := setValue c.items k v } := by
  refine ⟨h.nodup, h.max, h.queue, h.finder, ?_, ?_⟩
  · show ((setValue c.items k v).map (·.1)).Perm c.queue
    rw [set_keys]; exact h.keys
  · intro k'
    show lookup (setValue c.items k v) k' = _
    rw [lookup_set]
    simp only [h.mem_iff, h.val]
    by_cases e : k' = k
    · subst e; simp [hk, putStep]
    · simp [e, putStep]

private theorem clear_loop : ∀ (l : List (K × V)) (c : Cache K V), l.length = c.queue.length →
    (c.policy = .lru → c.finder.Nodup ∧ ∀ k, k ∈ c.finder ↔ k ∈ c.queue) → c.queue.Nodup →
    ∃ c', clearLoop l c = .ok c' ∧ c'.policy = c.policy ∧ c'.max = c.max ∧ c'.queue = [] ∧
      (c.policy = .lru → c'.finder = []) := by
  intro l
  induction l with
  | nil =>
    intro c hl hf _
    have hq : c.queue = [] := List.length_eq_zero_iff.1 hl.symm
    refine ⟨c, rfl, rfl, rfl, hq, fun hp => ?_⟩
    obtain ⟨-, f2⟩ := hf hp
    rw [List.eq_nil_iff_forall_not_mem]
    intro k
    rw [f2, hq]
    simp
  | cons a t ih =>
    intro c hl hf hn
    obtain ⟨x, hx⟩ : ∃ x, c.queue.getLast? = some x := by
      cases e : c.queue.getLast? with
      | none => rw [List.getLast?_eq_none_iff] at e; simp [e] at hl
      | some l => exact ⟨l, rfl⟩
    have hdl : t.length = c.queue.dropLast.length := by
      rw [List.length_dropLast, ← hl]; simp
    have hdn : c.queue.dropLast.Nodup := hn.sublist (List.dropLast_sublist _)
    unfold clearLoop policyErase
    cases hp : c.policy with
    | fifo =>
      obtain ⟨c', e1, e2, e3, e4, e5⟩ := ih { c with queue := c.queue.dropLast } hdl (by simp [hp]) hdn
      rw [hp] at e1 e2
      simp only [hx]
      exact ⟨c', e1, e2, e3, e4, by simp⟩
    | lru =>
      obtain ⟨f1, f2⟩ := hf hp
      obtain ⟨c', e1, e2, e3, e4, e5⟩ := ih { c with queue := c.queue.dropLast, finder := c.finder.erase x } hdl
        (by
          intro _
          refine ⟨f1.erase x, fun k => ?_⟩
          show k ∈ c.finder.erase x ↔ k ∈ c.queue.dropLast
          rw [f1.mem_erase_iff, f2, ← erase_getLast hn hx, hn.mem_erase_iff]) hdn
      have e6 := e5 hp
      rw [hp] at e1 e2
      simp only [hx]
      exact ⟨c', e1, e2, e3, e4, fun _ => e6⟩

private theorem clear_holds {cap : Nat} {r : List K} {m : K → Option V} {c : Cache K V} (h : Holds cap r m c) :
    ∃ c', clear c = .ok c' ∧ c'.policy = c.policy ∧ Holds cap [] (fun _ => none) c' := by
  have hlen : c.items.length = c.queue.length := by simpa using h.keys.length_eq
  obtain ⟨c', e1, e2, e3, e4, e5⟩ := clear_loop c.items c hlen h.finder (by rw [h.queue]; exact take_nodup h.nodup)
  unfold clear
  rw [e1]
  refine ⟨_, rfl, e2, ⟨by simp, by show c'.max = cap; rw [e3, h.max], by simpa using e4, ?_, by simp [e4], by simp [lookup]⟩⟩
  intro hp
  have hp' : c.policy = .lru := by rw [← e2]; exact hp
  simp [e5 hp', e4]

private theorem step_lru {cap : Nat} (h0 : 0 < cap) {r : List K} {m : K → Option V} {c : Cache K V} (h : Holds cap r m c)
    (hp : c.policy = .lru) (o : Op K V) :
    ∃ c', Op.step c o = .ok c' ∧ c'.policy = .lru ∧ Holds cap (useStep cap r o) (putStep m o) c' := by
  cases o with
  | put k v =>
    by_cases hk : k ∈ r.take cap
    · have hl : lookup c.items k ≠ none := by rw [Ne, lookup_none, h.mem_iff]; exact fun hh => hh hk
      obtain ⟨w, hw⟩ := Option.ne_none_iff_exists'.1 hl
      obtain ⟨c', e1, e2, e3, e4⟩ := touch_lru h hp k hk
      have hk' : k ∈ (k :: r.erase k).take cap := by
        obtain ⟨n, rfl⟩ : ∃ n, cap = n + 1 := ⟨cap - 1, by omega⟩
        simp
      refine ⟨{ c' with items := setValue c'.items k v }, ?_, e2, set_holds e4 k v hk'⟩
      simp only [Op.step, put, hw, update, e1]
      rfl
    · obtain ⟨c', e1, e2, e3⟩ := put_new h0 h k v hk
      exact ⟨c', e1, by rw [e2, hp], e3⟩
  | get k =>
    by_cases hk : k ∈ r.take cap
    · have hl : lookup c.items k ≠ none := by rw [Ne, lookup_none, h.mem_iff]; exact fun hh => hh hk
      obtain ⟨w, hw⟩ := Option.ne_none_iff_exists'.1 hl
      obtain ⟨c', e1, e2, e3, e4⟩ := touch_lru h hp k hk
      refine ⟨c', ?_, e2, by simpa [useStep, hk, putStep] using e4⟩
      simp only [Op.step, fetch, hw, e1]
      rfl
    · have hl : lookup c.items k = none := by rw [h.val, if_neg hk]
      refine ⟨c, ?_, hp, by simpa [useStep, hk, putStep] using h⟩
      simp only [Op.step, fetch, hl]
  | clear =>
    obtain ⟨c', e1, e2, e3⟩ := clear_holds h
    exact ⟨c', e1, by rw [e2, hp], e3⟩

private theorem step_fifo {cap : Nat} (h0 : 0 < cap) {r : List K} {m : K → Option V} {c : Cache K V} (h : Holds cap r m c)
    (hp : c.policy = .fifo) (o : Op K V) :
    ∃ c', Op.step c o = .ok c' ∧ c'.policy = .fifo ∧ Holds cap (comeStep cap r o) (putStep m o) c' := by
  have ht : ∀ k, touch c k = .ok c := by intro k; simp [touch, hp]
  cases o with
  | put k v =>
    by_cases hk : k ∈ r.take cap
    · have hl : lookup c.items k ≠ none := by rw [Ne, lookup_none, h.mem_iff]; exact fun hh => hh hk
      obtain ⟨w, hw⟩ := Option.ne_none_iff_exists'.1 hl
      refine ⟨{ c with items := setValue c.items k v }, ?_, hp, by simpa [comeStep, hk] using set_holds h k v hk⟩
      simp only [Op.step, put, hw, update, ht]
      rfl
    · obtain ⟨c', e1, e2, e3⟩ := put_new h0 h k v hk
      exact ⟨c', e1, by rw [e2, hp], by simpa [comeStep, hk] using e3⟩
  | get k =>
    refine ⟨c, ?_, hp, by simpa [comeStep, putStep] using h⟩
    simp only [Op.step, fetch, ht]
    cases lookup c.items k <;> rfl
  | clear =>
    obtain ⟨c', e1, e2, e3⟩ := clear_holds h
    exact ⟨c', e1, by rw [e2, hp], e3⟩

private theorem create_holds (p : Policy) {cap n : Nat} (hn : (create p n : Cache K V).max = cap) :
    Holds cap [] (fun _ => none) (create p n : Cache K V) :=
  ⟨by simp, hn, by simp [create], by simp [create], by simp [create], by simp [create, lookup]⟩

private theorem run_holds {cap : Nat} (p : Policy) (order : List K → Op K V → List K)
    (step : ∀ (r : List K) (m : K → Option V) (c : Cache K V), Holds cap r m c → c.policy = p → ∀ o : Op K V,
      ∃ c', Op.step c o = .ok c' ∧ c'.policy = p ∧ Holds cap (order r o) (putStep m o) c') :
    ∀ (ops : List (Op K V)) (r : List K) (m : K → Option V) (c : Cache K V), Holds cap r m c → c.policy = p →
      ∃ c', runOps c ops = .ok c' ∧ c'.policy = p ∧ Holds cap (ops.foldl order r) (ops.foldl putStep m) c' := by
  intro ops
  induction ops with
  | nil => intro r m c h hp; exact ⟨c, rfl, hp, h⟩
  | cons o l ih =>
    intro r m c h hp
    obtain ⟨c1, e1, e2, e3⟩ := step r m c h hp o
    obtain ⟨c2, f1, f2, f3⟩ := ih _ _ c1 e3 e2
    refine ⟨c2, ?_, f2, f3⟩
    unfold runOps
    rw [e1]
    exact f1

private theorem lookup_get {c : Cache K V} {k : K} {v : V} {c' : Cache K V} (h : fetch c k = .ok (c', v)) : lookup c.items k = some v := by
  unfold fetch at h
  cases e : lookup c.items k with
  | none => simp [e] at h
  | some w =>
    simp only [e] at h
    cases ht : touch c k with
    | ok d => simp [ht] at h; rw [h.2]
    | throw => simp [ht] at h
    | ub => simp [ht] at h

/-- A cache answers like the first `cap` keys of `r` with the values of `m`: it has no more than `cap` keys, `Cached` tells those
keys, `Get` returns their value and throws for every other key. -/
structure Answers (cap : Nat) (r : List K) (m : K → Option V) (c : Cache K V) : Prop where
  bound : size c ≤ cap
  size : size c = (r.take cap).length
  cached : ∀ k, cached c k = true ↔ k ∈ r.take cap
  value : ∀ k, k ∈ r.take cap → ∃ c' v, m k = some v ∧ fetch c k = .ok (c', v)
  missing : ∀ k, k ∉ r.take cap → fetch c k = .throw

private theorem holds_answers {cap : Nat} {r : List K} {m : K → Option V} {c : Cache K V} (h : Holds cap r m c) :
    Answers cap r m c := by
  have hlen : c.items.length = (r.take cap).length := by rw [← h.queue]; simpa using h.keys.length_eq
  have hs : ∀ k, k ∈ r.take cap → ∃ w, lookup c.items k = some w := by
    intro k hk
    apply Option.ne_none_iff_exists'.1
    rw [Ne, lookup_none, h.mem_iff]
    exact fun hh => hh hk
  refine ⟨?_, hlen, ?_, ?_, ?_⟩
  · unfold size; rw [hlen, List.length_take]; omega
  · intro k
    unfold cached
    constructor
    · intro hc
      by_contra hk
      rw [h.val, if_neg hk] at hc
      simp at hc
    · intro hk
      obtain ⟨w, hw⟩ := hs k hk
      simp [hw]
  · intro k hk
    obtain ⟨w, hw⟩ := hs k hk
    have hm : m k = some w := by rw [← hw, h.val, if_pos hk]
    cases hp : c.policy with
    | fifo => exact ⟨c, w, hm, by simp [fetch, hw, touch, hp]⟩
    | lru =>
      have hf : k ∈ c.finder := by rw [(h.finder hp).2, h.queue]; exact hk
      exact ⟨_, w, hm, by simp [fetch, hw, touch, hp, hf]; rfl⟩
  · intro k hk
    unfold fetch
    rw [h.val, if_neg hk]

/-- **C59, least recently used.** After any calls of put, get and clear, a cache of `cap` entries holds exactly the `cap` keys used
last, each with the value last put for it: get returns that value, and throws for all other keys; there are never more than
`cap` entries, and no call is undefined. -/
theorem lru_cache (maxSize cap : Nat) (hc : cap = if maxSize = 0 then 2 ^ 64 - 1 else maxSize) (ops : List (Op K V)) :
    ∃ c, runOps (create .lru maxSize) ops = .ok c ∧
      Answers cap (ops.foldl (useStep cap) []) (ops.foldl putStep (fun _ => none)) c := by
  have h0 : 0 < cap := by rw [hc]; split <;> omega
  obtain ⟨c, e1, -, e2⟩ := run_holds .lru (useStep cap) (fun r m c h hp o => step_lru h0 h hp o) ops [] (fun _ => none)
    (create .lru maxSize) (create_holds .lru hc.symm) rfl
  exact ⟨c, e1, holds_answers e2⟩

/-- **C59, first in first out** (the block header cache): the same with the `cap` keys that came in last. -/
theorem fifo_cache (maxSize cap : Nat) (hc : cap = if maxSize = 0 then 2 ^ 64 - 1 else maxSize) (ops : List (Op K V)) :
    ∃ c, runOps (create .fifo maxSize) ops = .ok c ∧
      Answers cap (ops.foldl (comeStep cap) []) (ops.foldl putStep (fun _ => none)) c := by
  have h0 : 0 < cap := by rw [hc]; split <;> omega
  obtain ⟨c, e1, -, e2⟩ := run_holds .fifo (comeStep cap) (fun r m c h hp o => step_fifo h0 h hp o) ops [] (fun _ => none)
    (create .fifo maxSize) (create_holds .fifo hc.symm) rfl
  exact ⟨c, e1, holds_answers e2⟩

/-- What an evicting put does to an LRU cache, said of two successive states: the keys after it are the new key and those before
but for the one used longest ago. -/
theorem lru_evicts (cap : Nat) (ops : List (Op K V)) (k : K) (v : V) (h0 : 0 < cap)
    (hk : k ∉ (ops.foldl (useStep cap) []).take cap) :
    ((ops ++ [Op.put k v]).foldl (useStep cap) []).take cap = k :: (ops.foldl (useStep cap) []).take (cap - 1) := by
  rw [List.foldl_append]
  show (k :: _).take cap = _
  obtain ⟨n, rfl⟩ : ∃ n, cap = n + 1 := ⟨cap - 1, by omega⟩
  rw [List.take_succ_cons]
  have := erase_take_not hk
  simp only [Nat.add_sub_cancel] at this ⊢
  rw [this]

example : (([.put 1 10, .put 2 20, .get 1, .put 3 30, .put 1 11] : List (Op Nat Nat)).foldl (useStep 2) []).take 2 = [1, 3] := by decide
example : (([.put 1 10, .put 2 20, .get 1, .put 3 30] : List (Op Nat Nat)).foldl (comeStep 2) []).take 2 = [3, 2] := by decide
example : (match runOps (create .lru 2 : Cache Nat Nat) [.put 1 10, .put 2 20, .get 1, .put 3 30, .put 1 11] with
  | .ok c => c.items | _ => []) = [(3, 30), (1, 11)] := by decide

end Verif.Props
