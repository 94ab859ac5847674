import Verif.Wallet.DB
import Mathlib.Data.List.Nodup
import Mathlib.Data.List.Basic

/-! Lemmas about the wallet tables: upserts by key, and what each operation keeps. -/
namespace Verif.Wallet
open Verif.Codec Verif.PoW

/-- The key of a row of the table of outputs. -/
def oc (o : OutputRecord) : Bytes := o.output.commit

theorem putOutput_keys_mem {rows : List OutputRecord} {o : OutputRecord} (h : oc o ∈ rows.map oc) :
    (putOutput rows o).map oc = rows.map oc := by
  induction rows with
  | nil => simp at h
  | cons r rs ih =>
    rw [putOutput]
    by_cases e : r.output.commit = o.output.commit
    · rw [if_pos e]; simp [oc, e]
    · rw [if_neg e]
      simp only [List.map_cons, List.mem_cons] at h
      rcases h with h | h
      · exact absurd (by simpa [oc] using h.symm) e
      · simp [ih h]

theorem putOutput_new {rows : List OutputRecord} {o : OutputRecord} (h : oc o ∉ rows.map oc) :
    putOutput rows o = rows ++ [o] := by
  induction rows with
  | nil => rfl
  | cons r rs ih =>
    simp only [List.map_cons, List.mem_cons, not_or] at h
    rw [putOutput, if_neg (by intro e; exact h.1 (by simp [oc, e])), ih h.2, List.cons_append]

theorem putOutput_map {rows : List OutputRecord} {o : OutputRecord} (hn : (rows.map oc).Nodup) (h : oc o ∈ rows.map oc) :
    putOutput rows o = rows.map (fun r => if oc r = oc o then o else r) := by
  induction rows with
  | nil => simp at h
  | cons r rs ih =>
    rw [List.map_cons, List.nodup_cons] at hn
    rw [putOutput, List.map_cons]
    by_cases e : r.output.commit = o.output.commit
    · rw [if_pos e, if_pos (by simpa [oc] using e)]
      congr 1
      symm
      calc rs.map (fun r => if oc r = oc o then o else r) = rs.map id := by
            apply List.map_congr_left
            intro x hx
            rw [if_neg]; rfl
            intro e2
            have : oc r = oc x := by rw [e2]; simpa [oc] using e
            exact hn.1 (this ▸ List.mem_map_of_mem hx)
        _ = rs := by simp
    · rw [if_neg e, if_neg (by simpa [oc] using e)]
      simp only [List.map_cons, List.mem_cons] at h
      rcases h with h | h
      · exact absurd (by simpa [oc] using h.symm) e
      · rw [ih hn.2 h]

theorem putOutput_nodup {rows : List OutputRecord} (o : OutputRecord) (hn : (rows.map oc).Nodup) :
    ((putOutput rows o).map oc).Nodup := by
  by_cases h : oc o ∈ rows.map oc
  · rw [putOutput_keys_mem h]; exact hn
  · rw [putOutput_new h, List.map_append, List.map_cons, List.map_nil]
    exact List.Nodup.append hn (by simp) (by simpa using h)

theorem addOutputs_nodup (os : List OutputRecord) {rows : List OutputRecord} (hn : (rows.map oc).Nodup) :
    ((addOutputs rows os).map oc).Nodup := by
  induction os generalizing rows with
  | nil => exact hn
  | cons o os ih => exact ih (putOutput_nodup o hn)

/-- Adding rows with fresh, distinct keys appends them. -/
theorem addOutputs_new {os : List OutputRecord} : ∀ {rows : List OutputRecord}, (os.map oc).Nodup →
    (∀ o ∈ os, oc o ∉ rows.map oc) → addOutputs rows os = rows ++ os := by
  induction os with
  | nil => intro rows _ _; simp [addOutputs]
  | cons o os ih =>
    intro rows hn hf
    rw [List.map_cons, List.nodup_cons] at hn
    show addOutputs (putOutput rows o) os = _
    rw [putOutput_new (hf o (by simp)), ih hn.2, List.append_assoc]
    · rfl
    · intro x hx hm
      rw [List.map_append, List.mem_append] at hm
      rcases hm with hm | hm
      · exact hf x (by simp [hx]) hm
      · simp at hm
        exact hn.1 (hm ▸ List.mem_map_of_mem hx)

/-- Replacing rows: each row becomes the replacement with its key, if there is one. -/
theorem addOutputs_map {os : List OutputRecord} : ∀ {rows : List OutputRecord}, (rows.map oc).Nodup → (os.map oc).Nodup →
    (∀ o ∈ os, oc o ∈ rows.map oc) →
    addOutputs rows os = rows.map (fun r => (os.find? (fun o => oc o = oc r)).getD r) := by
  induction os with
  | nil => intro rows _ _ _; simp [addOutputs]
  | cons o os ih =>
    intro rows hr hn hf
    rw [List.map_cons, List.nodup_cons] at hn
    show addOutputs (putOutput rows o) os = _
    have hk := putOutput_keys_mem (hf o (by simp))
    rw [ih (by rw [hk]; exact hr) hn.2 (by rw [hk]; exact fun x hx => hf x (by simp [hx])),
      putOutput_map hr (hf o (by simp)), List.map_map]
    apply List.map_congr_left
    intro r _
    simp only [Function.comp_apply]
    by_cases e : oc r = oc o
    · rw [if_pos e]
      have h1 : os.find? (fun x => oc x = oc o) = none := by
        rw [List.find?_eq_none]
        intro x hx
        simp only [decide_eq_true_eq]
        exact fun e2 => hn.1 (e2 ▸ List.mem_map_of_mem hx)
      rw [h1, List.find?_cons_of_pos (by simp [e])]
      rfl
    · rw [if_neg e, List.find?_cons_of_neg (by simpa using fun h => e h.symm)]

/-! ## Transactions -/

/-- Row ids of the table of transactions. -/
def ids (txs : List WTx) : List Nat := txs.map (·.id)

theorem putTx_new {txs : List WTx} {t : WTx} (h : ∀ r ∈ txs, r.id < t.id) : putTx txs t = txs ++ [t] := by
  induction txs with
  | nil => rfl
  | cons r rs ih =>
    have hr := h r (by simp)
    rw [putTx, if_neg (by omega), if_neg (by omega), ih (fun x hx => h x (by simp [hx])), List.cons_append]

theorem putTx_mem {txs : List WTx} {t : WTx} (hs : (ids txs).Pairwise (· < ·)) (h : t.id ∈ ids txs) :
    putTx txs t = txs.map (fun r => if r.id = t.id then t else r) := by
  induction txs with
  | nil => simp [ids] at h
  | cons r rs ih =>
    rw [ids, List.map_cons, List.pairwise_cons] at hs
    rw [putTx, List.map_cons]
    by_cases e : r.id = t.id
    · rw [if_pos e, if_pos e]
      congr 1
      symm
      calc rs.map (fun r => if r.id = t.id then t else r) = rs.map id := by
            apply List.map_congr_left
            intro x hx
            have := hs.1 x.id (List.mem_map_of_mem hx)
            rw [if_neg (by omega)]; rfl
        _ = rs := by simp
    · rw [if_neg e, if_neg e]
      have hm : t.id ∈ ids rs := by
        rw [ids, List.map_cons, List.mem_cons] at h
        exact h.resolve_left (fun h => e h.symm)
      obtain ⟨x, hx, hxt⟩ := List.mem_map.1 hm
      have := hs.1 x.id (List.mem_map_of_mem hx)
      rw [if_neg (by omega), ih hs.2 hm]

theorem putTx_ids {txs : List WTx} {t : WTx} (hs : (ids txs).Pairwise (· < ·)) (h : t.id ∈ ids txs) :
    ids (putTx txs t) = ids txs := by
  rw [putTx_mem hs h, ids, ids, List.map_map]
  apply List.map_congr_left
  intro r _
  simp only [Function.comp_apply]
  split
  · rename_i e; exact e.symm
  · rfl

end Verif.Wallet
