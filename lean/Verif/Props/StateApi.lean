import Verif.Api.State
import Verif.Props.Query
import Verif.Props.Restore

/-!
# C125: the chain state over REST
-/
namespace Verif.Props
open Verif Verif.Codec Verif.Tx Verif.MMR Verif.Api

/-! ## The last hashes -/

/-- The hash of the leaf of a number: of its position and its content. -/
def leafHash (H : Bytes → Bytes) (ls : List Bytes) (n : Nat) : Bytes := H (beBytes 8 (leafPos n) ++ ls.getD n [])

/-- The numbers of the last `k` leaves with a property, the newest first. -/
def newest (N : Nat) (p : Nat → Bool) (k : Nat) : List Nat := (((List.range N).reverse).filter p).take k

private theorem newest_succ (N : Nat) (p : Nat → Bool) (k : Nat) :
    newest (N + 1) p (k + 1) = if p N then N :: newest N p k else newest N p (k + 1) := by
  unfold newest
  rw [List.range_succ, List.reverse_append, List.reverse_singleton, List.singleton_append, List.filter_cons]
  cases p N <;> simp

private theorem lastLoop_eq (has : Nat → Bool) (hash : Nat → Res Bytes) (f : Nat → Bytes) :
    ∀ N k, (∀ n, n < N → has n = true → hash n = .ok (f n)) → lastLoop has hash N k = .ok ((newest N has k).map f) := by
  intro N
  induction N with
  | zero => intro k _; simp [lastLoop, newest]
  | succ N ih =>
    intro k h
    rw [lastLoop]
    cases k with
    | zero => simp [newest]
    | succ k =>
      rw [if_neg (by omega), newest_succ]
      cases hN : has N with
      | true =>
        rw [if_pos rfl, h N (by omega) hN, Res.ok_bind, Nat.add_sub_cancel, ih k (fun n hn => h n (by omega)), Res.ok_bind]
        simp
      | false =>
        rw [if_neg (by simp), ih (k + 1) (fun n hn => h n (by omega))]
        simp

private theorem full_leaf (H : Bytes → Bytes) (ls full : List Bytes) (hb : leafPos ls.length < 2 ^ 64)
    (e : appendAll H [] ls = .ok full) (n : Nat) (hn : n < ls.length) : full[leafPos n]? = some (leafHash H ls n) := by
  obtain ⟨f2, k1, -, k3, -⟩ := append_stores_hashes H ls hb
  rw [e] at k1; injection k1 with k1; subst k1
  have := k3 (leafPos n) n 0 (subtreeL_leaf n) (by simpa using Nat.succ_le_of_lt hn)
  simpa [rootPos, treeHash, leafOf, leafHash] using this

/-- **C125.** The last hashes of a range with spent and pruned leaves are those of the newest unspent leaves, the newest
first; each is the hash of the leaf at its position. -/
theorem last_hashes (H : Bytes → Bytes) (m : PMMR) (ls : List Bytes) (U : Finset Nat) (h : Stores H m ls U)
    (hb : leafPos ls.length < 2 ^ 64) (k : Nat) :
    m.lastHashes k = .ok ((newest ls.length (· ∈ U) k).map (leafHash H ls)) := by
  have hsz := h.size hb
  unfold PMMR.lastHashes
  rw [show m.hashes.length + m.pl.totalShift = m.size by unfold PMMR.size; omega, hsz, leafIndex_roundtrip _ hb, h.unspent]
  refine lastLoop_eq _ _ _ _ _ (fun n hn hu => ?_)
  have hu : n ∈ U := by simpa using hu
  obtain ⟨full, e, hh⟩ := h.hashes
  have hf := full_leaf H ls full hb e n hn
  have hlt : leafPos n < full.length := by
    by_contra hc
    rw [List.getElem?_eq_none (by omega)] at hf
    cases hf
  rw [hh, getHashAt_rep h.built (h.kept n hu) hlt]
  unfold getHashAt fileAt
  simp only [hf]

/-- **C125.** The last kernel hashes are those of the newest kernels, the newest first. -/
theorem last_kernel_hashes (H : Bytes → Bytes) (ks : List Bytes) (m : KMMR) (h : kmmrOf H ks = .ok m)
    (hb : leafPos ks.length < 2 ^ 64) (k : Nat) :
    m.lastHashes k = .ok (((List.range ks.length).reverse.take k).map (leafHash H ks)) := by
  obtain ⟨full, e, hl, -⟩ := append_stores_hashes H ks hb
  have hm : m.hashes = full := by
    unfold kmmrOf at h
    rw [applyAll_eq] at h
    dsimp only at h
    rw [e, Res.ok_bind] at h
    cases h; rfl
  unfold KMMR.lastHashes
  rw [hm, hl, rangeSize_eq, leafIndex_roundtrip _ hb, lastLoop_eq _ _ (leafHash H ks)]
  · unfold newest
    simp
  · intro n hn _
    unfold getHashAt fileAt
    simp only [full_leaf H ks full hb e n hn]

/-! ## The requests -/

private theorem sa_dec (n : Nat) (c : UInt8) (h : isDigit c = false) : c ∉ decStr n := by
  intro hm
  rw [(decStr_facts n).2.1 c hm] at h
  cases h

private theorem sa_stoull (n : Nat) (h : n < 2 ^ 64) : stoull (decStr n) = .ok n := by
  have := stoull_dec n h [] (by simp)
  rwa [List.append_nil] at this

private theorem restLast_number (last : Nat → Res (List Bytes)) (l : Nat → List Bytes) (hl : ∀ k, last k = .ok (l k)) (n : Nat)
    (h : n < 2 ^ 64) : restLast last (str "n=" ++ decStr n) = .ok (.found (l n)) := by
  have e : str "n=" = [110, 61] := by decide +kernel
  unfold restLast
  rw [e, if_neg (by simp), if_neg (by simp [startsWith])]
  show orFailed (stoull (decStr n) >>= _) = _
  rw [sa_stoull n h, Res.ok_bind, hl]
  rfl

private theorem restLast_none (last : Nat → Res (List Bytes)) (l : Nat → List Bytes) (hl : ∀ k, last k = .ok (l k)) :
    restLast last [] = .ok (.found (l 10)) := by
  unfold restLast
  rw [if_pos rfl, hl]
  rfl

/-- **C125.** Asked for the last `n` kernels, outputs or range proofs, the node answers with the hashes of the newest `n`
kernels, and of the newest `n` unspent outputs and their range proofs, the newest first, and all if there are fewer;
without a number with ten. -/
theorem last_answers (H : Bytes → Bytes) (db : DB) (t : THS) (s : State) (h : Holds H db t s)
    (hb : leafPos s.leaves.length < 2 ^ 64) (hk : leafPos s.kernels.length < 2 ^ 64) (n : Nat) (hn : n < 2 ^ 64) (query : Bytes)
    (hq : query = str "n=" ++ decStr n ∨ query = [] ∧ n = 10) :
    restLastKernels t query = .ok (.found (((List.range s.kernels.length).reverse.take n).map (leafHash H s.kernels))) ∧
    restLastOutputs t query = .ok (.found ((newest s.leaves.length (· ∈ s.unspent) n).map (leafHash H s.leaves))) ∧
    restLastProofs t query = .ok (.found ((newest s.leaves.length (· ∈ s.unspent) n).map (leafHash H s.proofs))) := by
  have h1 := last_kernel_hashes H s.kernels t.kernels h.kernels hk
  have h2 := last_hashes H t.outputs s.leaves s.unspent h.outputs hb
  have h3 := last_hashes H t.proofs s.proofs s.unspent h.proofs (by rw [h.same]; exact hb)
  rw [h.same] at h3
  rcases hq with rfl | ⟨rfl, rfl⟩
  · exact ⟨restLast_number _ _ h1 n hn, restLast_number _ _ h2 n hn, restLast_number _ _ h3 n hn⟩
  · exact ⟨restLast_none _ _ h1, restLast_none _ _ h2, restLast_none _ _ h3⟩

/-! ### The listing -/

private theorem sa_split (name : Bytes) (v : Nat) (h : name ≠ [] ∧ (61 : UInt8) ∉ name) :
    split 61 (name ++ 61 :: decStr v) = [name, decStr v] := by
  have := split_join 61 [name, decStr v] (by
    intro t ht
    simp only [List.mem_cons, List.not_mem_nil, or_false] at ht
    rcases ht with rfl | rfl
    · exact h
    · exact ⟨(decStr_facts v).1, sa_dec v 61 (by decide)⟩)
  exact this

private theorem sa_starts (p s : Bytes) : startsWith (p ++ s) p = true := by
  simp [startsWith]

private theorem start_token (a b v : Nat) (hv : v < 2 ^ 64) :
    listingArg a b (str "start_index" ++ 61 :: decStr v) = .ok (some (v, b)) := by
  have e : str "start_index=" = str "start_index" ++ [61] := by decide +kernel
  have sw : startsWith (str "start_index" ++ 61 :: decStr v) (str "start_index=") = true := by
    rw [e, show str "start_index" ++ 61 :: decStr v = (str "start_index" ++ [61]) ++ decStr v by simp]
    exact sa_starts _ _
  unfold listingArg
  rw [if_pos sw, sa_split _ _ ⟨by decide +kernel, by decide +kernel⟩]
  dsimp only
  rw [sa_stoull v hv]; rfl

private theorem max_token (a b v : Nat) (hv : v < 2 ^ 64) :
    listingArg a b (str "max" ++ 61 :: decStr v) = .ok (some (a, v)) := by
  have e : str "max=" = str "max" ++ [61] := by decide +kernel
  have sw : startsWith (str "max" ++ 61 :: decStr v) (str "max=") = true := by
    rw [e, show str "max" ++ 61 :: decStr v = (str "max" ++ [61]) ++ decStr v by simp]
    exact sa_starts _ _
  have sn : startsWith (str "max" ++ 61 :: decStr v) (str "start_index=") = false := by
    have e1 : ∃ p, str "max" = 109 :: p := ⟨(str "max").tail, by decide +kernel⟩
    have e2 : ∃ p, str "start_index=" = 115 :: p := ⟨(str "start_index=").tail, by decide +kernel⟩
    obtain ⟨p, e1⟩ := e1
    obtain ⟨q, e2⟩ := e2
    rw [e1, e2]
    simp [startsWith, List.isPrefixOf]
  unfold listingArg
  rw [sn, if_neg Bool.false_ne_true, if_pos sw, sa_split _ _ ⟨by decide +kernel, by decide +kernel⟩]
  dsimp only
  rw [sa_stoull v hv]; rfl

private theorem listing_split (p q : Bytes) (a b : Nat) (hp : (38 : UInt8) ∉ p) (hq : (38 : UInt8) ∉ q) :
    split 38 (p ++ 61 :: decStr a ++ 38 :: (q ++ 61 :: decStr b)) = [p ++ 61 :: decStr a, q ++ 61 :: decStr b] := by
  have := split_join 38 [p ++ 61 :: decStr a, q ++ 61 :: decStr b] (by
    intro t ht
    simp only [List.mem_cons, List.not_mem_nil, or_false] at ht
    rcases ht with rfl | rfl
    · refine ⟨by simp, ?_⟩
      simp only [List.mem_append, List.mem_cons, not_or]
      exact ⟨hp, by decide, sa_dec a 38 (by decide)⟩
    · refine ⟨by simp, ?_⟩
      simp only [List.mem_append, List.mem_cons, not_or]
      exact ⟨hq, by decide, sa_dec b 38 (by decide)⟩)
  exact this

private theorem entries_map {H : Bytes → Bytes} {db : DB} {t : THS} {s : State} (h : Holds H db t s) (hi : Indexed db s) (l : List Nat)
    (hl : ∀ n ∈ l, n ∈ s.unspent) :
    (l.filterMap (entryAt db s)).map (fun e => e.loc.leaf) = l ∧
      (∀ k, (l.filterMap (entryAt db s)).take k = (l.take k).filterMap (entryAt db s)) ∧
      ∀ k, (l.filterMap (entryAt db s)).drop k = (l.drop k).filterMap (entryAt db s) := by
  induction l with
  | nil => simp
  | cons n l ih =>
    obtain ⟨d, p, lo, -, -, -, e4, e5⟩ := entry_some h hi (hl n (by simp))
    obtain ⟨i1, i2, i3⟩ := ih (fun m hm => hl m (by simp [hm]))
    refine ⟨?_, fun k => ?_, fun k => ?_⟩
    · rw [List.filterMap_cons, e5]; simp [e4, i1]
    · rw [List.filterMap_cons, e5]
      cases k with
      | zero => simp
      | succ k => simp [List.take_succ_cons, e5, i2 k]
    · rw [List.filterMap_cons, e5]
      cases k with
      | zero => simp [e5]
      | succ k => simp [i3 k]

private theorem from_unspent (s : State) (a : Nat) : ∀ n ∈ unspentFrom s a, n ∈ s.unspent := by
  intro n hn
  unfold unspentFrom at hn
  exact of_decide_eq_true (List.mem_filter.1 hn).2

private theorem pages_next {H : Bytes → Bytes} {db : DB} {t : THS} {s : State} (h : Holds H db t s) (hi : Indexed db s) (a k : Nat)
    (hne : (entriesFrom db s a).take k ≠ []) :
    (entriesFrom db s a).drop k = entriesFrom db s ((((unspentFrom s a).take k).getLast?).getD 0 + 1) := by
  unfold entriesFrom at hne ⊢
  obtain ⟨-, i2, i3⟩ := entries_map h hi (unspentFrom s a) (from_unspent s a)
  rw [i2] at hne
  rw [i3]
  cases hl : ((unspentFrom s a).take k).getLast? with
  | none =>
    rw [List.getLast?_eq_none_iff] at hl
    rw [hl] at hne
    exact absurd rfl hne
  | some l =>
    rw [(drop_from s k _ a l rfl hl).1]
    rfl

/-- **C125.** The listing asked for from one leaf on holds the unspent outputs from that leaf on, in order, up to the number
asked for and a thousand; the page asked for next, from behind the last output listed, goes on where this one ends. -/
theorem listing_pages (H : Bytes → Bytes) (db : DB) (t : THS) (s : State) (h : Holds H db t s) (hi : Indexed db s)
    (hb : leafPos s.leaves.length < 2 ^ 64) (a k : Nat) (ha : a < 2 ^ 63) (hk : k < 2 ^ 64) :
    ∃ r, restListing db t (str "start_index=" ++ decStr a ++ str "&max=" ++ decStr k) = .ok (.found r) ∧
      r.highest = s.leaves.length - 1 ∧ r.outputs = (entriesFrom db s a).take (min k 1000) ∧
      (r.outputs ≠ [] → (entriesFrom db s a).drop (min k 1000) = entriesFrom db s (r.last + 1)) := by
  have ht : str "start_index=" ++ decStr a ++ str "&max=" ++ decStr k =
      str "start_index" ++ 61 :: decStr a ++ 38 :: (str "max" ++ 61 :: decStr k) := by
    have e1 : str "start_index=" = str "start_index" ++ [61] := by decide +kernel
    have e2 : str "&max=" = 38 :: (str "max" ++ [61]) := by decide +kernel
    rw [e1, e2]
    generalize str "start_index" = p
    generalize str "max" = q
    simp
  have hs := listing_split (str "start_index") (str "max") a k (by decide +kernel) (by decide +kernel)
  rw [ht]
  refine ⟨⟨s.leaves.length - 1, (((unspentFrom s a).take (min k 1000)).getLast?).getD 0,
    (entriesFrom db s a).take (min k 1000)⟩, ?_, rfl, rfl, fun hne => ?_⟩
  · unfold restListing
    rw [hs, listingArgs, start_token 1 100 a (by omega), Res.ok_bind]
    dsimp only
    rw [listingArgs, max_token a 100 k hk, Res.ok_bind]
    dsimp only
    have h0 : listingArgs a k [] = .ok (some (a, k)) := by rw [listingArgs]
    rw [h0, Res.ok_bind]
    dsimp only
    rw [show (if k > 1000 then 1000 else k) = min k 1000 by split <;> omega, outputs_listed H db t s h hi hb, Res.ok_bind]
    rfl
  · exact pages_next h hi a (min k 1000) hne

/-- **C125, violated.** The listing without parameters leaves the first output out, even if it is unspent: it begins with
leaf number 1, and leaves are counted from 0. -/
theorem listing_default_violated (H : Bytes → Bytes) (db : DB) (t : THS) (s : State) (h : Holds H db t s) (hi : Indexed db s)
    (hb : leafPos s.leaves.length < 2 ^ 64) (h0 : 0 ∈ s.unspent) :
    (∃ e ∈ entriesFrom db s 0, e.loc.leaf = 0) ∧
    ∃ r, restListing db t [] = .ok (.found r) ∧ ∀ e ∈ r.outputs, e.loc.leaf ≠ 0 := by
  constructor
  · obtain ⟨d, p, l, -, -, -, e4, e5⟩ := entry_some h hi h0
    refine ⟨⟨d, l, p⟩, ?_, e4⟩
    unfold entriesFrom
    refine List.mem_filterMap.2 ⟨0, ?_, e5⟩
    unfold unspentFrom
    have := h.outputs.inRange 0 h0
    exact List.mem_filter.2 ⟨by rw [List.mem_range'_1]; omega, by simp [h0]⟩
  · refine ⟨⟨s.leaves.length - 1, (((unspentFrom s 1).take 100).getLast?).getD 0, (entriesFrom db s 1).take 100⟩, ?_, ?_⟩
    · have h1 := outputs_listed H db t s h hi hb 1 100
      unfold restListing
      rw [show split 38 [] = [] from rfl, show listingArgs 1 100 [] = .ok (some (1, 100)) by rw [listingArgs], Res.ok_bind]
      dsimp only
      rw [if_neg (by omega), h1]
      rfl
    · intro e he
      have he := List.mem_of_mem_take he
      have hm : e.loc.leaf ∈ unspentFrom s 1 := by
        rw [← (entries_map h hi (unspentFrom s 1) (from_unspent s 1)).1]
        exact List.mem_map.2 ⟨e, he, rfl⟩
      unfold unspentFrom at hm
      have := (List.mem_range'_1.1 (List.mem_filter.1 hm).1).1
      omega

/-! ### By commitment -/

private theorem hex_chars : ∀ (s bs : Bytes), hexSpec s = some bs → ∀ c ∈ s, (digitVal c).isSome = true
  | [], _, _ => by simp
  | [_], _, h => by simp [hexSpec] at h
  | a :: b :: s, bs, h => by
    rw [hexSpec] at h
    split at h
    · rename_i h1 h2 h3
      intro c hc
      simp only [List.mem_cons] at hc
      rcases hc with rfl | rfl | hc
      · rw [h1]; rfl
      · rw [h2]; rfl
      · exact hex_chars s _ h3 c hc
    · cases h

private theorem hex_token (c : Bytes) (h : c.length = 33) : toHex c ≠ [] ∧ (44 : UInt8) ∉ toHex c ∧ (61 : UInt8) ∉ toHex c ∧
    (38 : UInt8) ∉ toHex c := by
  have hd := hex_chars _ _ (hex_encoding c).1
  have hl := (hex_encoding c).2.1
  refine ⟨fun e => ?_, fun e => ?_, fun e => ?_, fun e => ?_⟩
  · rw [e, h] at hl; simp at hl
  all_goals exact absurd (hd _ e) (by decide)

private theorem join_no (d x : UInt8) (hx : x ≠ d) : ∀ ts : List Bytes, (∀ t ∈ ts, x ∉ t) → x ∉ join d ts
  | [], _ => by simp [join]
  | [t], h => by simpa [join] using h t (by simp)
  | t :: u :: ts, h => by
    rw [join]
    · simp only [List.mem_append, List.mem_cons, not_or]
      exact ⟨h t (by simp), hx, join_no d x hx (u :: ts) (fun y hy => h y (by simp [hy]))⟩
    · simp

private theorem join_ne (d : UInt8) (ts : List Bytes) (hne : ts ≠ []) (h : ∀ t ∈ ts, t ≠ []) : join d ts ≠ [] := by
  match ts with
  | [] => exact absurd rfl hne
  | [t] => simpa [join] using h t (by simp)
  | t :: u :: ts => rw [join] <;> simp

private theorem lookIds_eq (db : DB) (cs : List Bytes) (hc : ∀ c ∈ cs, c.length = 33) :
    lookIds db (cs.map toHex) = .ok (cs.filterMap fun c => (db.pos c).map fun l => (c, l)) := by
  induction cs with
  | nil => rfl
  | cons c cs ih =>
    rw [List.map_cons, lookIds]
    have : bigFromHex 33 (toHex c) = .ok c := by
      unfold bigFromHex
      rw [hex_roundtrip, Res.ok_bind, if_pos (hc c (by simp))]
    rw [this, Res.ok_bind, ih (fun x hx => hc x (by simp [hx])), Res.ok_bind, List.filterMap_cons]
    cases db.pos c <;> rfl

/-- **C125.** Asked for outputs by commitments the node lists those that are unspent, in the order asked for, with
the height of their block. -/
theorem outputs_by_ids (H : Bytes → Bytes) (db : DB) (t : THS) (s : State) (h : Holds H db t s)
    (hb : leafPos s.leaves.length < 2 ^ 64) (cs : List Bytes) (hc : ∀ c ∈ cs, c.length = 33) (hne : cs ≠ []) :
    ∃ l, restByIds db (str "id=" ++ join 44 (cs.map toHex)) = .ok (.found l) ∧
      l.map (·.1) = cs.filter (fun c => match coin db t c with | .ok (some _) => true | _ => false) ∧
      ∀ x ∈ l, ∃ k, coin db t x.1 = .ok (some k) ∧ k.height = x.2.height ∧ (s.leaves[x.2.leaf]?).map idCommit = some x.1 := by
  have ht : ∀ t ∈ cs.map toHex, t ≠ [] ∧ (44 : UInt8) ∉ t ∧ (61 : UInt8) ∉ t ∧ (38 : UInt8) ∉ t := by
    intro t h
    obtain ⟨c, h1, rfl⟩ := List.mem_map.1 h
    exact hex_token c (hc c h1)
  have e1 : str "id=" = [105, 100, 61] := by decide +kernel
  have s1 : split 38 (str "id=" ++ join 44 (cs.map toHex)) = [str "id=" ++ join 44 (cs.map toHex)] := by
    have := split_join 38 [str "id=" ++ join 44 (cs.map toHex)] (by
      intro t h
      simp only [List.mem_cons, List.not_mem_nil, or_false] at h
      subst h
      rw [e1]
      refine ⟨by simp, ?_⟩
      simp only [List.mem_append, not_or]
      exact ⟨by decide, join_no 44 38 (by decide) _ (fun t h => (ht t h).2.2.2)⟩)
    exact this
  have s2 : split 61 (str "id=" ++ join 44 (cs.map toHex)) = [[105, 100], join 44 (cs.map toHex)] := by
    have := split_join 61 [[105, 100], join 44 (cs.map toHex)] (by
      intro t h
      simp only [List.mem_cons, List.not_mem_nil, or_false] at h
      rcases h with rfl | rfl
      · exact ⟨by simp, by decide⟩
      · exact ⟨join_ne 44 _ (by simpa using hne) (fun t h => (ht t h).1), join_no 44 61 (by decide) _ (fun t h => (ht t h).2.2.1)⟩)
    rw [e1]
    exact this
  have s3 : split 44 (join 44 (cs.map toHex)) = cs.map toHex := split_join 44 _ (fun t h => ⟨(ht t h).1, (ht t h).2.1⟩)
  have sw : startsWith (str "id=" ++ join 44 (cs.map toHex)) (str "id=") = true := sa_starts _ _
  have hi : idArgs [] (split 38 (str "id=" ++ join 44 (cs.map toHex))) = some (cs.map toHex) := by
    rw [s1, idArgs, if_pos sw, s2]
    dsimp only
    rw [s3, List.nil_append, idArgs]
  refine ⟨cs.filterMap fun c => (db.pos c).map fun l => (c, l), ?_, ?_, ?_⟩
  · unfold restByIds
    rw [hi]
    dsimp only
    rw [lookIds_eq db cs hc]
  · clear hi sw s3 s2 s1 ht hne hc
    induction cs with
    | nil => rfl
    | cons c cs ih =>
      rw [List.filterMap_cons, List.filter_cons, coin_eq h hb]
      cases hp : db.pos c with
      | none => simpa using ih
      | some l => simpa using ih
  · rintro ⟨c, l⟩ hx
    obtain ⟨c', -, e⟩ := List.mem_filterMap.1 hx
    obtain ⟨l', hl, e⟩ := Option.map_eq_some_iff.1 e
    cases e
    exact ⟨⟨s.leaves.getD l.leaf [], s.proofs.getD l.leaf [], l.height⟩, by rw [coin_eq h hb, hl]; rfl, rfl, (h.pos c l hl).2⟩

/-! ### Cases -/

/-- Three outputs, the first of them spent: the two others are the last, and one if one is asked for. -/
example : (rRun [rB1, rB2] rStart).map (fun w =>
    decide (restLastOutputs w.2 [] = .ok (.found [toyHash (beBytes 8 3 ++ [0, 10]), toyHash (beBytes 8 1 ++ [0, 8])])) &&
    decide (restLastOutputs w.2 (str "n=1") = .ok (.found [toyHash (beBytes 8 3 ++ [0, 10])])) &&
    decide (restLastOutputs w.2 (str "m=1") = .ok .badRequest) && decide (restLastKernels w.2 (str "n=x") = .ok .failed)) =
      some true := by decide +kernel

/-- **C125, violated.** Of two outputs, both unspent, the listing without parameters holds one. -/
theorem listing_default_case_violated : (rRun [rB1] rStart).map (fun w =>
    decide (restListing w.1 w.2 [] = .ok (.found ⟨1, 1, [⟨[0, 8], ⟨1, 1⟩, proofSer [2]⟩]⟩)) &&
    decide (restListing w.1 w.2 (str "start_index=0&max=100") =
      .ok (.found ⟨1, 1, [⟨[0, 7], ⟨0, 1⟩, proofSer [1]⟩, ⟨[0, 8], ⟨1, 1⟩, proofSer [2]⟩]⟩))) = some true := by decide +kernel

/-- The hypotheses of the theorems above, with the first output unspent. -/
example : ∃ db t s, Holds toyHash db t s ∧ Indexed db s ∧ leafPos s.leaves.length < 2 ^ 64 ∧ 0 ∈ s.unspent := by
  have e : ∃ db t, applyBlock .testing toyHash rHash rDB (emptySet (rHeader 0 [])) rB1 = .ok (some (db, t)) ∧
      (db.pos [7]).map (·.leaf) = some 0 := by
    have h : (match applyBlock .testing toyHash rHash rDB (emptySet (rHeader 0 [])) rB1 with
      | .ok (some r) => decide ((r.1.pos [7]).map (·.leaf) = some 0) | _ => false) = true := by decide +kernel
    split at h
    · rename_i r e; exact ⟨r.1, r.2, e, of_decide_eq_true h⟩
    · cases h
  obtain ⟨db, t, e, h0⟩ := e
  obtain ⟨s, h1, h2, h3, -⟩ := reachable_indexed .testing toyHash rHash rDB (rHeader 0 []) (fun _ => rfl) [rB1] _ t
    (.snoc .nil e rfl rfl) (by decide +kernel) (by decide +kernel) (by decide)
  obtain ⟨l, hl, hl0⟩ := Option.map_eq_some_iff.1 h0
  refine ⟨_, t, s, h1, h2, by rw [h3]; decide +kernel, ?_⟩
  have := (h1.pos [7] l hl).1
  rwa [hl0] at this

end Verif.Props
