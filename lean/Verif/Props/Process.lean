import Verif.Chain.CandidateLemmas
import Verif.Props.HeaderRules

/-!
# C38, C71, C72, C73: which blocks become the chain

`World.step` processes one event (a header, a batch of headers, a block, or the background thread looking for
a waiting block); `run` a sequence of them.
-/
namespace Verif.Props
open Verif.BC Verif.PoW

variable {S : Type}

/-- All events in order; `none` if a call ran into undefined behaviour or did not end within `fuel` rounds. -/
def run (R : Rules S) (fuel : Nat) : World S → List Event → Option (World S)
  | w, [] => some w
  | w, e :: es =>
    match w.step R fuel e with
    | none => none
    | some w' => run R fuel w' es

/-- A node that has only the genesis block. -/
def freshNode (g : Block) (s : S) : World S :=
  ⟨fun x => if x = hashOf g.header then some g.header else none, fun _ => none, [hashOf g.header],
    [hashOf g.header], [g.header], [], [], s⟩

/-- The node checks headers at least as strictly as `BlockHeaderValidator` on network `env` does, at whatever time and
with whatever graphs. -/
def ChecksHeaders (env : Env) (R : Rules S) : Prop :=
  ∀ db mmr h prev, R.validate db mmr h prev = .ok () →
    ∃ ticks now ends root, validateHeader env ticks now ends db root h prev = .ok ()

/-- The header stored for a confirmed block. -/
def At (w : World S) (i : Nat) (h : Header) : Prop := ∃ x, w.confirmed[i]? = some x ∧ w.headers x = some h

/-- The confirmed chain is a chain: a header at each height up to the tip, each naming the one below, work growing. -/
structure IsChain (w : World S) : Prop where
  dense : ∀ i, i < w.confirmed.length → ∃ h, At w i h ∧ h.height = i
  linked : ∀ i p h, At w i p → At w (i + 1) h →
    h.prevHash = p.pow.hash ∧ p.totalDifficulty < h.totalDifficulty

/-- The total difficulty of the confirmed tip. -/
def TipWork (w : World S) (n : Nat) : Prop := ∃ h, At w (w.confirmed.length - 1) h ∧ h.totalDifficulty = n

theorem rules_sound_of_checks {U : Header → Prop} (env : Env) (henv : env ≠ .testing) {R : Rules S}
    (hR : ChecksHeaders env R) (hu : ∀ h, U h → h.height + 1 < 2 ^ 64) : RulesSound U R := by
  intro db mmr h prev hp hv
  obtain ⟨ticks, now, ends, root, hv⟩ := hR _ _ _ _ hv
  unfold validateHeader at hv
  split at hv
  · cases hv
  rename_i h1
  split at hv
  · cases hv
  split at hv
  · cases hv
  split at hv
  · cases hv
  have h1 : h.height = (prev.height + 1) % U64 := by simpa using h1
  refine ⟨by rw [h1]; exact Nat.mod_eq_of_lt (hu prev hp), ?_⟩
  rw [Res.bind_eq_ok] at hv
  obtain ⟨v, hv, hr⟩ := hv
  split at hr
  · cases hr
  rename_i hvt
  unfold headerPoWValid at hv
  rw [if_neg henv] at hv
  unfold isPoWValid at hv
  split at hv
  · injection hv with hv; exact absurd hv.symm hvt
  · omega

theorem fresh_inv {U : Header → Prop} (g : Block) (s : S) (hg : U g.header) (h0 : g.header.height = 0) :
    Inv U (freshNode g s) := by
  have hh : ∀ x h, (freshNode g s).headers x = some h → x = hashOf g.header ∧ h = g.header := by
    intro x h e
    change (if x = hashOf g.header then some g.header else none) = some h at e
    split at e
    · rename_i hx
      injection e with e
      exact ⟨hx, e.symm⟩
    · cases e
  have hone : ∀ (i : Nat) x, [hashOf g.header][i]? = some x → i = 0 ∧ x = hashOf g.header := by
    intro i x e
    cases i with
    | zero => simp at e; exact ⟨rfl, e.symm⟩
    | succ i => simp at e
  refine ⟨?_, ?_, ?_, ?_, ?_, ?_, ?_, ?_, ?_, ?_⟩
  · intro x h e
    obtain ⟨rfl, rfl⟩ := hh x h e
    exact ⟨rfl, hg⟩
  · intro x h e
    obtain ⟨rfl, rfl⟩ := hh x h e
    exact Or.inl h0
  · intro x b e; cases e
  · intro i x e
    obtain ⟨rfl, rfl⟩ := hone i x e
    exact ⟨g.header, by simp [freshNode], h0⟩
  · intro i x h e
    have := (hone (i + 1) x e).1
    omega
  · simp [freshNode]
  · intro x h e _
    obtain ⟨rfl, rfl⟩ := hh x h e
    rfl
  · intro i x e
    obtain ⟨rfl, rfl⟩ := hone i x e
    exact ⟨g.header, by simp [freshNode], h0⟩
  · intro b hb; cases hb
  · intro h hb; cases hb

theorem run_step {U : Header → Prop} (hU : OneHash U) {R : Rules S} (hR : RulesSound U R) (fuel : Nat) :
    ∀ (es : List Event) (w w' : World S), Inv U w → (∀ e ∈ es, e.Proper U) → run R fuel w es = some w' →
      BlockStep U w w' := by
  intro es
  induction es with
  | nil => intro w w' hi _ he; cases he; exact .refl hi
  | cons e es ih =>
    intro w w' hi hp he
    rw [run] at he
    split at he
    · cases he
    · rename_i w1 h1
      have s1 := step_step hU hR hi fuel (hp e (by simp)) h1
      exact s1.trans (ih w1 w' s1.inv (fun x hx => hp x (by simp [hx])) he)

theorem run_append (R : Rules S) (fuel : Nat) : ∀ (es es' : List Event) (w : World S),
    run R fuel w (es ++ es') = (run R fuel w es).bind (fun w' => run R fuel w' es') := by
  intro es
  induction es with
  | nil => intro es' w; rfl
  | cons e es ih =>
    intro es' w
    rw [List.cons_append, run, run]
    split
    · rfl
    · exact ih _ _

theorem tipWork_of_inv {U : Header → Prop} {w : World S} (hi : Inv U w) : TipWork w (w.work w.confirmed) := by
  obtain ⟨x, hx⟩ : ∃ x, w.confirmed.getLast? = some x := ⟨_, List.getLast?_eq_getLast_of_ne_nil hi.ne⟩
  have hx' := hx
  rw [List.getLast?_eq_getElem?] at hx'
  obtain ⟨h, hh, _⟩ := hi.conf _ _ hx'
  exact ⟨h, ⟨x, hx', hh⟩, by unfold World.work; simp only [hx, hh]⟩

theorem isChain_of_inv {U : Header → Prop} {w : World S} (hi : Inv U w) : IsChain w := by
  refine ⟨fun i h => ?_, ?_⟩
  · have := List.getElem?_eq_getElem h
    obtain ⟨y, a, b⟩ := hi.conf _ _ this
    exact ⟨y, ⟨_, this, a⟩, b⟩
  · rintro i p h ⟨y, hy1, hy2⟩ ⟨x, hx1, hx2⟩
    have h1 := hi.connected i x h hx1 hx2
    rw [hy1] at h1
    injection h1 with h1
    subst h1
    have hp := (hi.hdr _ _ hy2).1
    obtain ⟨z, c1, c2⟩ := hi.conf _ _ hx1
    rw [hx2] at c1
    injection c1 with c1
    subst c1
    rcases hi.link _ _ hx2 with h0 | ⟨q, q1, _, q3⟩
    · omega
    · rw [hy2] at q1
      injection q1 with q1
      subst q1
      exact ⟨hp.symm, q3⟩

/-- What peers may send in the theorem below: headers from a collection `U` in which hashes are unique, batches of
headers in which each header names the one before it. -/
def Sendable (U : Header → Prop) : Event → Prop
  | .header h => U h
  | .headers hs => (∀ h ∈ hs, U h) ∧ ∀ i p h, hs[i]? = some p → hs[i + 1]? = some h → h.prevHash = p.pow.hash
  | .block b => U b.header
  | .nextOrphan => True

theorem linkedH_of_get : ∀ (hs : List Header) (h0 : Header), (∀ i p h, (h0 :: hs)[i]? = some p →
    (h0 :: hs)[i + 1]? = some h → h.prevHash = p.pow.hash) → LinkedH h0.prevHash (h0 :: hs) := by
  intro hs
  induction hs with
  | nil => intro h0 _; exact ⟨rfl, trivial⟩
  | cons h1 hs ih =>
    intro h0 h
    have e1 : h1.prevHash = hashOf h0 := h 0 h0 h1 rfl rfl
    refine ⟨rfl, ?_⟩
    rw [← e1]
    exact ih h1 (fun i p q e e' => h (i + 1) p q (by simpa using e) (by simpa using e'))

theorem sendable_proper {U : Header → Prop} {e : Event} (h : Sendable U e) : e.Proper U := by
  cases e with
  | header h' => exact h
  | block b => exact h
  | nextOrphan => trivial
  | headers hs =>
    refine ⟨h.1, ?_⟩
    cases hs with
    | nil => exact ⟨[], trivial⟩
    | cons h0 hs => exact ⟨_, linkedH_of_get hs h0 h.2⟩

/-- **C38, the tip never loses work.** Starting from the genesis block, with the header rules of one of the networks and
whatever block rules: after any events `es` and then any further events `es'`, each of which ended, the total
difficulty of the confirmed tip is at least what it was after `es`, and more if the chain is another; the confirmed chain is linked and dense; and no block
accepted so far has more work than the tip.

Partial: hashes must be unique among the headers received, header batches must be linked (see the violations below). -/
theorem work_monotone_partial (env : Env) (henv : env ≠ .testing) (R : Rules S) (hR : ChecksHeaders env R)
    (U : Header → Prop) (hU : ∀ h h', U h → U h' → h.pow.hash = h'.pow.hash → h = h')
    (hu : ∀ h, U h → h.height + 1 < 2 ^ 64) (g : Block) (hg : U g.header) (h0 : g.header.height = 0) (s : S)
    (fuel : Nat) (es es' : List Event) (hes : ∀ e ∈ es ++ es', Sendable U e) (w w' : World S)
    (h1 : run R fuel (freshNode g s) es = some w) (h2 : run R fuel (freshNode g s) (es ++ es') = some w') :
    (∃ n n', TipWork w n ∧ TipWork w' n' ∧ n ≤ n' ∧ (w'.confirmed ≠ w.confirmed → n < n')) ∧ IsChain w' ∧
      ∀ x b, w'.blocks x = some b → ∀ n', TipWork w' n' → b.header.totalDifficulty ≤ n' := by
  have hU' : OneHash U := hU
  have hRs := rules_sound_of_checks env henv hR hu
  have s1 := run_step hU' hRs fuel es _ _ (fresh_inv g s hg h0)
    (fun e he => sendable_proper (hes e (by simp [he]))) h1
  rw [run_append, h1] at h2
  have s2 := run_step hU' hRs fuel es' _ _ s1.inv (fun e he => sendable_proper (hes e (by simp [he]))) h2
  have t2 := tipWork_of_inv s2.inv
  refine ⟨⟨_, _, tipWork_of_inv s1.inv, t2, s2.work, fun hne => s2.moved.resolve_left hne⟩, isChain_of_inv s2.inv, ?_⟩
  rintro x b hb n' ⟨h, ⟨y, y1, y2⟩, y3⟩
  obtain ⟨h', ⟨y', y1', y2'⟩, y3'⟩ := t2
  rw [y1] at y1'
  injection y1' with y1'
  subst y1'
  rw [y2] at y2'
  injection y2' with y2'
  subst y2'
  rw [← y3, y3']
  exact (s2.inv.blk x b hb).2

/-! ## A block with more work becomes the tip -/

/-- The block the node finds for the parent of `b`: a waiting one, else a stored one. -/
def parentOf (w : World S) (b : Block) : Option Block :=
  (w.orphanBlock (b.header.height - 1) b.header.prevHash).or (w.blocks b.header.prevHash)

/-- A branch from the confirmed chain to `b`: no block of it is confirmed, the first one's parent is, and each block is
what the node finds as the parent of the next. -/
structure BranchTo (w : World S) (b : Block) (bs : List Block) : Prop where
  last : bs.getLast? = some b
  first : ∀ b0, bs[0]? = some b0 →
    b0.header.height ≠ 0 ∧ w.confirmed[b0.header.height - 1]? = some b0.header.prevHash
  found : ∀ i p c, bs[i]? = some p → bs[i + 1]? = some c →
    c.header.prevHash = p.header.pow.hash ∧ c.header.height = p.header.height + 1 ∧ c.header.height < 2 ^ 64 ∧
      parentOf w c = some p
  fresh : ∀ c ∈ bs, w.confirmed[c.header.height]? ≠ some c.header.pow.hash
  known : ∀ c ∈ bs, (w.headers c.header.pow.hash).isSome

theorem walk_branch {w : World S} : ∀ (pre : List Block) (c : Block) (acc : List Block) (fuel : Nat),
    pre.length + 1 ≤ fuel →
    (∀ b0, (pre ++ [c])[0]? = some b0 → b0.header.height ≠ 0 ∧
      w.confirmed[b0.header.height - 1]? = some b0.header.prevHash) →
    (∀ i p q, (pre ++ [c])[i]? = some p → (pre ++ [c])[i + 1]? = some q →
      q.header.prevHash = p.header.pow.hash ∧ q.header.height = p.header.height + 1 ∧ q.header.height < 2 ^ 64 ∧
      parentOf w q = some p) →
    (∀ q ∈ pre, w.confirmed[q.header.height]? ≠ some q.header.pow.hash) →
    w.walkBlocks fuel c acc = .ok (.reorg (pre ++ c :: acc)) := by
  intro pre
  induction pre using List.reverseRecOn with
  | nil =>
    intro c acc fuel hf h1 _ _
    obtain ⟨n, rfl⟩ : ∃ n, fuel = n + 1 := ⟨fuel - 1, by simp at hf; omega⟩
    rw [World.walkBlocks, if_pos]
    · rfl
    · have := h1 c rfl
      exact ⟨this.1, by simpa [onChain] using this.2⟩
  | append_singleton pre p ih =>
    intro c acc fuel hf h1 h2 h3
    obtain ⟨n, rfl⟩ : ∃ n, fuel = n + 1 := ⟨fuel - 1, by simp at hf; omega⟩
    have hpc := h2 pre.length p c (by simp) (by simp)
    rw [World.walkBlocks, if_neg]
    · have hm : (c.header.height + U64 - 1) % U64 = c.header.height - 1 := by
        have : U64 = 2 ^ 64 := rfl
        rw [show c.header.height + U64 - 1 = (c.header.height - 1) + U64 by omega, Nat.add_mod_right]
        exact Nat.mod_eq_of_lt (by omega)
      have hq : (w.orphanBlock ((c.header.height + U64 - 1) % U64) c.header.prevHash).or
          (w.blocks c.header.prevHash) = some p := by rw [hm]; exact hpc.2.2.2
      rw [hq]
      simp only
      rw [ih p (c :: acc) n (by simp at hf; omega)]
      · simp
      · intro b0 e
        refine h1 b0 ?_
        rw [← e]
        cases pre <;> simp
      · intro i a b e1 e2
        refine h2 i a b ?_ ?_
        · rw [List.getElem?_append_left (by
            have := (List.getElem?_eq_some_iff.mp e1).1; simpa using this)]; exact e1
        · rw [List.getElem?_append_left (by
            have := (List.getElem?_eq_some_iff.mp e2).1; simpa using this)]; exact e2
      · intro q hq; exact h3 q (by simp [hq])
    · rintro ⟨_, h⟩
      have h' : w.confirmed[c.header.height - 1]? = some c.header.prevHash := by simpa [onChain] using h
      rw [hpc.1, hpc.2.1] at h'
      exact h3 p (by simp) h'

theorem applyBlocks_ok {R : Rules S} : ∀ (bs : List Block) (w : World S) (s : S),
    (∀ b ∈ bs, (w.headers b.header.prevHash).isSome) → bs.foldlM R.apply w.ledger = .ok s →
    ∃ w', World.applyBlocks R w bs = (w', .ok ()) ∧ w'.ledger = s ∧ w'.headers = w.headers ∧
      w'.confirmed = w.confirmed := by
  intro bs
  induction bs with
  | nil =>
    intro w s _ h
    rw [List.foldlM_nil] at h
    injection h with h
    exact ⟨w, rfl, h, rfl, rfl⟩
  | cons b bs ih =>
    intro w s hk h
    rw [List.foldlM_cons, Res.bind_eq_ok] at h
    obtain ⟨s1, h1, h2⟩ := h
    obtain ⟨p, hp⟩ := Option.isSome_iff_exists.mp (hk b (by simp))
    have hb : w.applyBlock R b =
        ((({ w with ledger := s1 } : World S).addBlock b).removeOrphan b.header.height (hashOf b.header), .ok ()) := by
      unfold World.applyBlock
      simp only [hp, h1]
    obtain ⟨w', a1, a2, a3, a4⟩ := ih
      ((({ w with ledger := s1 } : World S).addBlock b).removeOrphan b.header.height (hashOf b.header)) s
      (fun c hc => hk c (by simp [hc])) h2
    refine ⟨w', ?_, a2, a3, a4⟩
    rw [World.applyBlocks, hb]
    exact a1

theorem branch_heights (bs : List Block) (b0 : Block) (h0 : bs[0]? = some b0)
    (hf : ∀ i p c, bs[i]? = some p → bs[i + 1]? = some c → c.header.height = p.header.height + 1) :
    ∀ i c, bs[i]? = some c → c.header.height = b0.header.height + i := by
  intro i
  induction i with
  | zero => intro c h; rw [h0] at h; injection h with h; subst h; rfl
  | succ i ih =>
    intro c h
    have hi : i < bs.length := by have := (List.getElem?_eq_some_iff.mp h).1; omega
    have h1 := hf i _ c (List.getElem?_eq_getElem hi) h
    have := ih _ (List.getElem?_eq_getElem hi)
    omega

/-- **C38, no deep forks.**  A block at or below the horizon of the header chain is refused, and nothing of it is kept. -/
theorem deep_block_refused (R : Rules S) (w : World S) (b : Block) (fuel : Nat)
    (hh : b.header.height ≤ R.horizon (w.candidate.length - 1)) : w.processBlock R fuel b = (w, .throw) := by
  unfold World.processBlock
  rw [if_pos hh]

theorem heavier_branch_exact (R : Rules S) (w : World S) (b b0 : Block) (bs : List Block) (fork : Header) (s s' : S)
    (fuel : Nat) (hfuel : bs.length + 1 ≤ fuel)
    (hh : b.header.height > R.horizon (w.candidate.length - 1)) (hc : R.consistent b = .ok ())
    (hb : BranchTo w b bs) (h0 : bs[0]? = some b0) (hnext : w.confirmed.getLast? ≠ some b.header.prevHash)
    (hnew : w.blocks b.header.pow.hash = none)
    (hfork : w.headers b0.header.prevHash = some fork)
    (hwork : ∀ n, TipWork w n → n < b.header.totalDifficulty) (htip : ∃ n, TipWork w n)
    (hrew : R.rewind w.ledger fork = .ok s) (happ : bs.foldlM R.apply s = .ok s') :
    ∃ w', w.processBlock R fuel b = (w', .ok .success) ∧ w'.confirmed.getLast? = some b.header.pow.hash ∧
      w'.confirmed = w.confirmed.take b0.header.height ++ bs.map (·.header.pow.hash) ∧ w'.ledger = s' ∧
      ∃ w1, World.applyBlocks R { w with ledger := s } bs = (w1, .ok ()) ∧ w' = { w1 with confirmed := w'.confirmed } := by
  have hmem : b ∈ bs := List.mem_of_getLast? hb.last
  obtain ⟨hd, hhd⟩ := Option.isSome_iff_exists.mp (hb.known b hmem)
  obtain ⟨pre, rfl⟩ : ∃ pre, bs = pre ++ [b] := by
    rcases List.eq_nil_or_concat bs with h | ⟨pre, c, h⟩
    · subst h; cases hmem
    · rw [List.concat_eq_append] at h
      have hl := hb.last
      rw [h] at hl
      simp at hl
      subst hl
      exact ⟨pre, h⟩
  have hproc : ∃ st, w.processHeader R fuel b.header = (w, .ok st) := by
    unfold World.processHeader
    split
    · exact ⟨_, rfl⟩
    · rw [if_pos (by simpa [hashOf] using hb.known b hmem)]; exact ⟨_, rfl⟩
  obtain ⟨st, hst⟩ := hproc
  have hf0 := hb.first b0 h0
  have hlen : b0.header.height ≤ w.confirmed.length := by
    have := (List.getElem?_eq_some_iff.mp hf0.2).1; omega
  have hprev : ∀ c ∈ pre ++ [b], (w.headers c.header.prevHash).isSome := by
    intro c hc
    obtain ⟨i, hi⟩ := List.mem_iff_getElem?.mp hc
    cases i with
    | zero => rw [h0] at hi; injection hi with hi; subst hi; rw [hfork]; rfl
    | succ i =>
      have hi' : i < (pre ++ [b]).length := by have := (List.getElem?_eq_some_iff.mp hi).1; omega
      have hp := List.getElem?_eq_getElem hi'
      rw [(hb.found i _ c hp hi).1]
      exact hb.known _ (List.mem_of_getElem? hp)
  obtain ⟨w1, a1, a2, a3, a4⟩ := applyBlocks_ok (R := R) (pre ++ [b]) { w with ledger := s } s' hprev happ
  have hgt : b.header.totalDifficulty > w.work w.confirmed := by
    obtain ⟨n, h, ⟨x, x1, x2⟩, x3⟩ := htip
    have := hwork n ⟨h, ⟨x, x1, x2⟩, x3⟩
    have hw : w.work w.confirmed = n := by
      unfold World.work
      rw [List.getLast?_eq_getElem?, x1]
      simp only [x2, x3]
    omega
  have hwalk : w.walkBlocks fuel b [] = .ok (.reorg (pre ++ [b])) :=
    walk_branch pre b [] fuel (by simp at hfuel; omega) hb.first hb.found
      (fun q hq => hb.fresh q (by simp [hq]))
  have hext : World.extend { w1 with confirmed := w1.confirmed.take b0.header.height } (pre ++ [b]) =
      .ok { w1 with confirmed := w1.confirmed.take b0.header.height ++
        (pre ++ [b]).map (fun b => hashOf b.header) } := by
    rw [extend_ok]
    refine ⟨rfl, fun i c hc => ?_⟩
    have hl : (w1.confirmed.take b0.header.height).length = b0.header.height := by
      rw [List.length_take, a4]; exact Nat.min_eq_left hlen
    rw [hl]
    exact branch_heights _ b0 h0 (fun i p c e1 e2 => (hb.found i p c e1 e2).2.1) i c hc
  obtain ⟨rest, hrest⟩ : ∃ rest, pre ++ [b] = b0 :: rest := by
    cases hp : pre ++ [b] with
    | nil => rw [hp] at h0; cases h0
    | cons x rest => rw [hp] at h0; injection h0 with h0; subst h0; exact ⟨rest, rfl⟩
  let w2 : World S := { w1 with
    confirmed := w1.confirmed.take b0.header.height ++ (pre ++ [b]).map (fun b => hashOf b.header) }
  have hreorg : w.handleReorg R (pre ++ [b]) = (w2, .ok ()) := by
    have hl : (pre ++ [b]).getLast? = some b := hb.last
    unfold World.handleReorg
    simp only [w2]
    rw [hrest] at a1 hl hext ⊢
    simp only [hl, hfork, hrew, a1]
    rw [if_pos hgt, if_neg (by rw [a4]; simp only; omega), hext]
  refine ⟨w2, ?_, ?_, ?_, a2, w1, a1, rfl⟩
  rotate_left
  · simp [w2, hashOf]
  · simp only [w2, a4]; rfl
  · unfold World.processBlock
    rw [if_neg (by omega), hst]
    simp only [hc]
    unfold World.processInternal
    rw [if_neg (show ¬ onChain w.confirmed b.header.height (hashOf b.header) = true from
      fun h => hb.fresh b hmem (of_decide_eq_true h)), if_neg (by simp [hashOf, hnew])]
    unfold World.status
    have hhd' : w.headers (hashOf b.header) = some hd := hhd
    simp only [hhd', if_neg hnext, hwalk, hreorg]

/-- **C38, more work is adopted.** A block `b` whose header is known, with more claimed work than the tip and not stored
yet, at the end of a branch the node finds, all of whose blocks the output set accepts after it is rewound to the fork,
becomes the tip. -/
theorem heavier_branch_adopted (R : Rules S) (w : World S) (b b0 : Block) (bs : List Block) (fork : Header) (s s' : S)
    (fuel : Nat) (hfuel : bs.length + 1 ≤ fuel)
    (hh : b.header.height > R.horizon (w.candidate.length - 1)) (hc : R.consistent b = .ok ())
    (hb : BranchTo w b bs) (h0 : bs[0]? = some b0) (hnext : w.confirmed.getLast? ≠ some b.header.prevHash)
    (hnew : w.blocks b.header.pow.hash = none)
    (hfork : w.headers b0.header.prevHash = some fork)
    (hwork : ∀ n, TipWork w n → n < b.header.totalDifficulty) (htip : ∃ n, TipWork w n)
    (hrew : R.rewind w.ledger fork = .ok s) (happ : bs.foldlM R.apply s = .ok s') :
    ∃ w', w.processBlock R fuel b = (w', .ok .success) ∧ w'.confirmed.getLast? = some b.header.pow.hash ∧
      w'.confirmed = w.confirmed.take b0.header.height ++ bs.map (·.header.pow.hash) ∧ w'.ledger = s' := by
  obtain ⟨w', h1, h2, h3, h4, _⟩ := heavier_branch_exact R w b b0 bs fork s s' fuel hfuel hh hc hb h0 hnext hnew hfork
    hwork htip hrew happ
  exact ⟨w', h1, h2, h3, h4⟩

theorem next_block_exact (R : Rules S) (w : World S) (b : Block) (s' : S) (fuel : Nat)
    (hh : b.header.height > R.horizon (w.candidate.length - 1)) (hc : R.consistent b = .ok ())
    (hknown : (w.headers b.header.pow.hash).isSome) (hprev : (w.headers b.header.prevHash).isSome)
    (hnext : w.confirmed.getLast? = some b.header.prevHash) (hheight : b.header.height = w.confirmed.length)
    (hnew : w.blocks b.header.pow.hash = none) (happ : R.apply w.ledger b = .ok s') :
    ∃ w', w.processBlock R fuel b = (w', .ok .success) ∧
      w'.confirmed = w.confirmed ++ [b.header.pow.hash] ∧ w'.ledger = s' ∧ w'.blocks b.header.pow.hash = some b ∧
      w'.headers = w.headers ∧ w' = { (({ w with ledger := s' } : World S).addBlock b).removeOrphan b.header.height
        (hashOf b.header) with confirmed := w.confirmed ++ [hashOf b.header] } := by
  obtain ⟨hd, hhd⟩ := Option.isSome_iff_exists.mp hknown
  obtain ⟨p, hp⟩ := Option.isSome_iff_exists.mp hprev
  have hproc : ∃ st, w.processHeader R fuel b.header = (w, .ok st) := by
    unfold World.processHeader
    split
    · exact ⟨_, rfl⟩
    · rw [if_pos (by simpa [hashOf] using hknown)]; exact ⟨_, rfl⟩
  obtain ⟨st, hst⟩ := hproc
  have hb : w.applyBlock R b =
      ((({ w with ledger := s' } : World S).addBlock b).removeOrphan b.header.height (hashOf b.header), .ok ()) := by
    unfold World.applyBlock
    simp only [hp, happ]
  refine ⟨{ (({ w with ledger := s' } : World S).addBlock b).removeOrphan b.header.height (hashOf b.header) with
    confirmed := w.confirmed ++ [hashOf b.header] }, ?_, rfl, rfl, ?_, rfl, rfl⟩
  rotate_left
  · simp [World.addBlock, World.removeOrphan, hashOf]
  · unfold World.processBlock
    rw [if_neg (by omega), hst]
    simp only [hc]
    unfold World.processInternal
    rw [if_neg (by simp [onChain, hheight]), if_neg (by simp [hashOf, hnew])]
    unfold World.status
    have hhd' : w.headers (hashOf b.header) = some hd := hhd
    simp only [hhd', if_pos hnext, hb]
    rw [World.extend, if_neg (by simpa [World.addBlock, World.removeOrphan] using hheight)]
    rfl

/-- **C38, the next block is adopted.** A block on top of the tip whose header is known and whose body the output set
accepts becomes the tip. -/
theorem next_block_adopted (R : Rules S) (w : World S) (b : Block) (s' : S) (fuel : Nat)
    (hh : b.header.height > R.horizon (w.candidate.length - 1)) (hc : R.consistent b = .ok ())
    (hknown : (w.headers b.header.pow.hash).isSome) (hprev : (w.headers b.header.prevHash).isSome)
    (hnext : w.confirmed.getLast? = some b.header.prevHash) (hheight : b.header.height = w.confirmed.length)
    (hnew : w.blocks b.header.pow.hash = none) (happ : R.apply w.ledger b = .ok s') :
    ∃ w', w.processBlock R fuel b = (w', .ok .success) ∧
      w'.confirmed = w.confirmed ++ [b.header.pow.hash] ∧ w'.ledger = s' ∧ w'.blocks b.header.pow.hash = some b ∧
      w'.headers = w.headers := by
  obtain ⟨w', h1, h2, h3, h4, h5, _⟩ := next_block_exact R w b s' fuel hh hc hknown hprev hnext hheight hnew happ
  exact ⟨w', h1, h2, h3, h4, h5⟩

/-! ## The case shown: three headers accepted on the main network -/

private def gen : Block :=
  ⟨⟨1, 0, 1000, [0], [7], [], [], [], [], 0, 0, 1000, 1856, 0, ⟨31, List.range 42, List.replicate 32 0⟩⟩, ⟨[], [], []⟩⟩

private def one : Block :=
  ⟨⟨1, 1, 1060, gen.header.pow.hash, [7], [], [], [], [], 0, 0, 2317, 1843, 0,
    ⟨31, List.range 42, List.replicate 31 0 ++ [1]⟩⟩, ⟨[], [], []⟩⟩

/-- The rules of the main network, with graphs in which `0 … 41` is a cycle and an output set that accepts all. -/
private def ringRules : Rules Unit :=
  ⟨fun db _ h prev => validateHeader .mainnet 1 2000 ringEnds db (fun _ => [7]) h prev, fun _ => .ok (),
    fun _ _ => .ok (), fun _ _ => .ok (), fun _ => false, fun _ => 0⟩

example : ChecksHeaders .mainnet ringRules := fun _ _ _ _ h => ⟨1, 2000, ringEnds, fun _ => [7], h⟩

example : (run ringRules 10 (freshNode gen ()) [.header one.header, .headers [one.header], .block one, .nextOrphan]).map
    (fun w => (w.confirmed, w.work w.confirmed)) = some ([gen.header.pow.hash, one.header.pow.hash], 2317) := by
  decide +kernel

/-! ## Headers and blocks for the counterexamples -/

/-- A header with the given height, total difficulty, parent and hash. -/
private def hdr (height td : Nat) (prev hash : Bytes) : Header :=
  ⟨1, height, 0, prev, [], [], [], [], [], 0, 0, td, 0, 0, ⟨31, [], hash⟩⟩

private def blk (height td : Nat) (prev hash : Bytes) : Block := ⟨hdr height td prev hash, ⟨[], [], []⟩⟩

/-- Header rules that ask for the height after the parent's and more work than the parent's. -/
def plainRules : Rules Unit :=
  ⟨fun _ _ h prev => if h.height = prev.height + 1 ∧ prev.totalDifficulty < h.totalDifficulty then .ok () else .throw,
    fun _ => .ok (), fun _ _ => .ok (), fun _ _ => .ok (), fun _ => false, fun _ => 0⟩

theorem plain_sound (U : Header → Prop) : RulesSound U plainRules := by
  intro db mmr h prev _ hv
  simp only [plainRules] at hv
  split at hv
  · assumption
  · cases hv

/-! A branch `b1`, `b2` with more work than the confirmed `a1`, `a2`. -/

private def race : List Event :=
  [.block (blk 1 10 [0] [1]), .block (blk 2 20 [1] [2]), .header (hdr 1 9 [0] [11]), .header (hdr 2 30 [11] [12])]

example : (run plainRules 10 (freshNode (blk 0 1 [9] [0]) ()) (race ++ [.block (blk 1 9 [0] [11]), .block (blk 2 30 [11] [12])])).map
    (fun w => (w.confirmed, w.work w.confirmed)) = some ([[0], [11], [12]], 30) := by decide +kernel

example : (blk 0 30 [9] [5]).header.height ≤ plainRules.horizon ((freshNode (blk 0 1 [9] [0]) ()).candidate.length - 1) := by decide

/-! ## C38 violated -/

/-- **C38 violated: a block takes over with work it does not have.** The hash of a block covers only its proof of
work.  If the header `s` of a branch block is known, a block `f` with the same proof but any other claims skips header
validation; when it claims more work than the tip and its body fits what it claims, the chain is moved to it, and the work
of the tip becomes the one of `s`. -/
theorem fake_work_violated (R : Rules S) (w : World S) (s f : Block) (fork : Header) (l l' : S) (fuel n : Nat)
    (hfuel : 2 ≤ fuel) (hh : f.header.height > R.horizon (w.candidate.length - 1)) (hc : R.consistent f = .ok ())
    (hs : w.headers s.header.pow.hash = some s.header) (hsame : f.header.pow = s.header.pow)
    (hpos : f.header.height ≠ 0) (hfork : w.confirmed[f.header.height - 1]? = some f.header.prevHash)
    (hprev : w.headers f.header.prevHash = some fork)
    (hoff : w.confirmed[f.header.height]? ≠ some s.header.pow.hash)
    (hnext : w.confirmed.getLast? ≠ some f.header.prevHash)
    (hnew : w.blocks s.header.pow.hash = none) (hn : TipWork w n) (hclaim : n < f.header.totalDifficulty)
    (hrew : R.rewind w.ledger fork = .ok l) (happ : R.apply l f = .ok l') :
    ∃ w', w.processBlock R fuel f = (w', .ok .success) ∧ TipWork w' s.header.totalDifficulty := by
  have hbr : BranchTo w f [f] := by
    refine ⟨rfl, ?_, ?_, ?_, ?_⟩
    · intro b0 e; simp at e; subst e; exact ⟨hpos, hfork⟩
    · intro i p c _ e; simp at e
    · intro c m; simp at m; subst m; rw [hsame]; exact hoff
    · intro c m; simp at m; subst m; rw [hsame, hs]; rfl
  have htw : ∀ m, TipWork w m → m = n := by
    rintro m ⟨a, ⟨x, x1, x2⟩, x3⟩
    obtain ⟨b, ⟨y, y1, y2⟩, y3⟩ := hn
    rw [x1] at y1; injection y1 with y1; subst y1
    rw [x2] at y2; injection y2 with y2; subst y2
    rw [← x3, y3]
  have hheaders : ∀ w', w.processBlock R fuel f = (w', .ok .success) → w'.headers = w.headers := by
    intro w' he
    unfold World.processBlock at he
    rw [if_neg (by omega)] at he
    have hproc : ∃ st, w.processHeader R fuel f.header = (w, .ok st) := by
      unfold World.processHeader
      split
      · exact ⟨_, rfl⟩
      · rw [if_pos (by rw [hashOf, hsame, hs]; rfl)]; exact ⟨_, rfl⟩
    obtain ⟨st, hst⟩ := hproc
    rw [hst] at he
    simp only [hc] at he
    exact (sameC_processInternal he).1
  obtain ⟨w', h1, h2, _, _⟩ := heavier_branch_adopted R w f f [f] fork l l' fuel (by simpa using hfuel) hh hc hbr rfl
    hnext (by rw [hsame]; exact hnew) hprev (fun m hm => by rw [htw m hm]; exact hclaim) ⟨n, hn⟩ hrew
    (by simp [List.foldlM, happ])
  refine ⟨w', h1, s.header, ⟨f.header.pow.hash, by rw [← List.getLast?_eq_getElem?]; exact h2, ?_⟩, rfl⟩
  rw [hheaders w' h1, hsame]
  exact hs

/-- The takeover in a small case: the tip has work 20, then 9. -/
theorem fake_work_case_violated :
    let fake : Block := ⟨{ hdr 1 9 [0] [11] with totalDifficulty := 1000 }, ⟨[], [], []⟩⟩
    (run plainRules 10 (freshNode (blk 0 1 [9] [0]) ()) race).map (fun w => w.work w.confirmed) = some 20 ∧
    (run plainRules 10 (freshNode (blk 0 1 [9] [0]) ()) (race ++ [.block fake])).map
      (fun w => (w.confirmed, w.work w.confirmed)) = some ([[0], [11]], 9) := by
  decide +kernel

/-- **C38 violated: unlinked batches.** A batch of headers need not be linked: here the second header names `[1]`, not the
header before it, and is accepted although it has less work than its parent.  A block with this header on top of `[1]` is
the next block, and the work of the tip falls from 100 to 11.  Hashes are unique here. -/
theorem unlinked_batch_violated :
    let start : List Event := [.block (blk 1 100 [0] [1]), .headers [hdr 1 10 [0] [11], hdr 2 11 [1] [12]]]
    (run plainRules 10 (freshNode (blk 0 1 [9] [0]) ()) start).map (fun w => w.work w.confirmed) = some 100 ∧
    (run plainRules 10 (freshNode (blk 0 1 [9] [0]) ()) (start ++ [.block (blk 2 11 [1] [12])])).map
      (fun w => (w.confirmed, w.work w.confirmed)) = some ([[0], [1], [12]], 11) := by
  decide +kernel

/-- **C38 violated: a waiting block is forgotten.** The block `[12]` with the most work arrives before its parent `[11]`
and waits.  Then the parent arrives; all blocks of the branch are there, but the tip stays, however often the background
thread looks for waiting blocks. -/
theorem waiting_block_violated (n : Nat) :
    (run plainRules 10 (freshNode (blk 0 1 [9] [0]) ())
      (race ++ [.block (blk 2 30 [11] [12]), .block (blk 1 9 [0] [11])] ++ List.replicate n .nextOrphan)).map
      (fun w => (w.confirmed, w.work w.confirmed, w.orphans.map (·.header.pow.hash),
        (w.blocks [11]).map (·.header.pow.hash))) = some ([[0], [1], [2]], 20, [[12]], some [11]) := by
  rw [run_append]
  have h : (run plainRules 10 (freshNode (blk 0 1 [9] [0]) ())
      (race ++ [.block (blk 2 30 [11] [12]), .block (blk 1 9 [0] [11])])).map
      (fun w => ((w.confirmed, w.candidate, w.work w.confirmed), w.orphans.map (·.header.pow.hash),
        (w.blocks [11]).map (·.header.pow.hash))) =
        some (([[0], [1], [2]], [[0], [11], [12]], 20), [[12]], some [11]) := by
    decide +kernel
  rw [Option.map_eq_some_iff] at h
  obtain ⟨w, hw, hv⟩ := h
  simp only [Prod.mk.injEq] at hv
  rw [hw]
  simp only [Option.bind_some]
  have stay : ∀ n, run plainRules 10 w (List.replicate n .nextOrphan) = some w := by
    intro n
    induction n with
    | zero => rfl
    | succ n ih =>
      rw [List.replicate_succ, run]
      have : w.step plainRules 10 .nextOrphan = some w := by
        simp only [World.step, World.processNextOrphan, hv.1.1, hv.1.2.1]
        rfl
      rw [this]
      exact ih
  rw [stay, Option.map_some, hv.1.2.2, hv.1.1, hv.2.1, hv.2.2]

/-! ## C71: processing a header ends -/

/-- **C71 violated: a header that names itself as its parent.** No proof of work is needed: the hash covers only the
nonces, so the parent can be set to it.  Received once it is kept as an orphan; received again, the search for its
ancestors finds it again and again, and no number of rounds suffices. -/
theorem header_loop_violated (R : Rules S) (w : World S) (h : Header) (hself : h.prevHash = h.pow.hash)
    (hbad : R.bad h.pow.hash = false) (hnew : w.headers h.pow.hash = none) (hon : w.orphanHeader h.pow.hash = none)
    (hc : ∀ i : Nat, w.candidate[i]? ≠ some h.pow.hash) (k : Nat) :
    ∃ w', w.processHeader R (k + 1) h = (w', .ok .orphaned) ∧
      ∀ fuel, w'.processHeader R fuel h = (w', .ub) := by
  have htip : w.candidate.getLast? ≠ some h.prevHash := by
    rw [List.getLast?_eq_getElem?, hself]; exact hc _
  have hoff : onChain w.candidate h.height (hashOf h) = false := by
    simp only [onChain, decide_eq_false_iff_not]; exact hc _
  have hnew' : (w.headers (hashOf h)).isSome = false := by rw [hashOf, hnew]; rfl
  refine ⟨w.addOrphanHeader h, ?_, ?_⟩
  · unfold World.processHeader
    rw [if_neg (by simp [hashOf, hbad]), if_neg (by simp [hnew']), if_pos htip]
    unfold World.processOrphan World.walkHeaders
    rw [if_neg (by simp [hoff]), hself, hon, hnew]
    rfl
  · intro fuel
    have hfind : (w.addOrphanHeader h).orphanHeader h.prevHash = some h := by
      simp [World.addOrphanHeader, World.orphanHeader, hashOf, hself]
    have hwalk : ∀ fuel acc, (w.addOrphanHeader h).walkHeaders fuel h acc = .ub := by
      intro fuel
      induction fuel with
      | zero => intro acc; rfl
      | succ n ih =>
        intro acc
        rw [World.walkHeaders, if_neg (show ¬ onChain (w.addOrphanHeader h).candidate h.height (hashOf h) = true by
          simp [World.addOrphanHeader, hoff]), hfind]
        exact ih _
    unfold World.processHeader
    rw [if_neg (by simp [hashOf, hbad]), if_neg (show ¬ ((w.addOrphanHeader h).headers (hashOf h)).isSome = true by
      simp [World.addOrphanHeader, hnew']), if_pos (show (w.addOrphanHeader h).candidate.getLast? ≠ some h.prevHash from htip)]
    unfold World.processOrphan
    rw [hwalk]

example : ∃ w', (freshNode (blk 0 1 [9] [0]) ()).processHeader plainRules 5 (hdr 7 50 [3] [3]) = (w', .ok .orphaned) ∧
    ∀ fuel, w'.processHeader plainRules fuel (hdr 7 50 [3] [3]) = (w', .ub) :=
  header_loop_violated plainRules _ (hdr 7 50 [3] [3]) rfl rfl rfl rfl
    (by intro i; cases i <;> simp [freshNode, hashOf, blk, hdr]) 4

/-! ## C72: a block is checked against the header that carries the work -/

/-- **C72 violated: another block under a validated header.** A block on top of the tip with the proof of work of a known
header, but other roots, sizes, offset and body, is accepted if its body fits its own claims: the header in the database
stays the genuine one, the stored block and the output set are the impostor's. -/
theorem body_swap_violated (R : Rules S) (w : World S) (s f : Block) (l : S) (fuel : Nat)
    (hh : f.header.height > R.horizon (w.candidate.length - 1)) (hc : R.consistent f = .ok ())
    (hs : w.headers s.header.pow.hash = some s.header) (hsame : f.header.pow = s.header.pow)
    (hprev : (w.headers f.header.prevHash).isSome) (hnext : w.confirmed.getLast? = some f.header.prevHash)
    (hheight : f.header.height = w.confirmed.length) (hnew : w.blocks s.header.pow.hash = none)
    (happ : R.apply w.ledger f = .ok l) :
    ∃ w', w.processBlock R fuel f = (w', .ok .success) ∧ w'.ledger = l ∧
      w'.confirmed = w.confirmed ++ [s.header.pow.hash] ∧
      w'.blocks s.header.pow.hash = some f ∧ w'.headers s.header.pow.hash = some s.header := by
  obtain ⟨w', h1, h2, h3, h4, h5⟩ := next_block_adopted R w f l fuel hh hc (by rw [hsame, hs]; rfl) hprev hnext hheight
    (by rw [hsame]; exact hnew) happ
  rw [hsame] at h2 h4
  exact ⟨w', h1, h3, h2, h4, by rw [h5]; exact hs⟩

/-- In a small case: the header is the genuine one, then a block with another output root is accepted and the genuine
block is not. -/
theorem body_swap_case_violated :
    let fake : Block := ⟨{ hdr 1 10 [0] [1] with outputRoot := [66] }, ⟨[], [], []⟩⟩
    (run plainRules 10 (freshNode (blk 0 1 [9] [0]) ())
      [.header (hdr 1 10 [0] [1]), .block fake, .block (blk 1 10 [0] [1])]).map
      (fun w => (w.confirmed, (w.blocks [1]).map (·.header.outputRoot), (w.headers [1]).map (·.outputRoot))) =
      some ([[0], [1]], some [66], some []) := by
  decide +kernel

/-- **C72, with unique hashes.** If hashes are unique among the headers received, every stored block carries the
validated header of its hash. -/
theorem stored_header_partial (env : Env) (henv : env ≠ .testing) (R : Rules S) (hR : ChecksHeaders env R)
    (U : Header → Prop) (hU : ∀ h h', U h → U h' → h.pow.hash = h'.pow.hash → h = h')
    (hu : ∀ h, U h → h.height + 1 < 2 ^ 64) (g : Block) (hg : U g.header) (h0 : g.header.height = 0) (s : S)
    (fuel : Nat) (es : List Event) (hes : ∀ e ∈ es, Sendable U e) (w : World S)
    (h1 : run R fuel (freshNode g s) es = some w) (x : Bytes) (b : Block) (hb : w.blocks x = some b) :
    w.headers x = some b.header := by
  have s1 := run_step (U := U) hU (rules_sound_of_checks env henv hR hu) fuel es _ _ (fresh_inv g s hg h0)
    (fun e he => sendable_proper (hes e he)) h1
  exact (s1.inv.blk x b hb).1

/-! ## C73: the candidate chain and the header MMR -/

theorem fresh_cinv (g : Block) (s : S) : CInv (freshNode g s) :=
  ⟨by simp [freshNode], by intro i x h e; simp [freshNode] at e, by simp [freshNode]⟩

theorem run_cstep {U : Header → Prop} (hU : OneHash U) {R : Rules S} (hR : RulesSound U R) (fuel : Nat) :
    ∀ (es : List Event) (w w' : World S), Inv U w → CInv w → (∀ e ∈ es, e.Proper U) → run R fuel w es = some w' →
      CStep w w' := by
  intro es
  induction es with
  | nil => intro w w' _ hc _ he; cases he; exact .refl hc
  | cons e es ih =>
    intro w w' hi hc hp he
    rw [run] at he
    split at he
    · cases he
    · rename_i w1 h1
      have s1 := step_step hU hR hi fuel (hp e (by simp)) h1
      have c1 := c_step hU hR hi hc fuel (hp e (by simp)) h1
      exact c1.trans (ih w1 w' s1.inv c1.inv (fun x hx => hp x (by simp [hx])) he)

/-- The header of the candidate chain at a height. -/
def CandidateAt (w : World S) (i : Nat) (h : Header) : Prop :=
  ∃ x, w.candidate[i]? = some x ∧ w.headers x = some h

/-- **C73.** Starting from the genesis block, after any events that ended, the leaves of the header MMR are the headers of
the candidate chain in order, one at each height, and each names the one below.  The work of the candidate chain never
falls, and the chain is only ever replaced by one of more work.

Partial: hashes must be unique among the headers received and header batches linked. -/
theorem candidate_chain_partial (env : Env) (henv : env ≠ .testing) (R : Rules S) (hR : ChecksHeaders env R)
    (U : Header → Prop) (hU : ∀ h h', U h → U h' → h.pow.hash = h'.pow.hash → h = h')
    (hu : ∀ h, U h → h.height + 1 < 2 ^ 64) (g : Block) (hg : U g.header) (h0 : g.header.height = 0) (s : S)
    (fuel : Nat) (es es' : List Event) (hes : ∀ e ∈ es ++ es', Sendable U e) (w w' : World S)
    (h1 : run R fuel (freshNode g s) es = some w) (h2 : run R fuel (freshNode g s) (es ++ es') = some w') :
    w'.mmr.length = w'.candidate.length ∧ (∀ i h, w'.mmr[i]? = some h ↔ CandidateAt w' i h) ∧
    (∀ i h, CandidateAt w' i h → h.height = i) ∧
    (∀ i p h, CandidateAt w' i p → CandidateAt w' (i + 1) h → h.prevHash = p.pow.hash) ∧
    ∀ t t', CandidateAt w (w.candidate.length - 1) t → CandidateAt w' (w'.candidate.length - 1) t' →
      t.totalDifficulty ≤ t'.totalDifficulty ∧
        (w'.candidate ≠ w.candidate → t.totalDifficulty < t'.totalDifficulty) := by
  have hU' : OneHash U := hU
  have hRs := rules_sound_of_checks env henv hR hu
  have p1 : ∀ e ∈ es, e.Proper U := fun e he => sendable_proper (hes e (by simp [he]))
  have p2 : ∀ e ∈ es', e.Proper U := fun e he => sendable_proper (hes e (by simp [he]))
  have s1 := run_step hU' hRs fuel es _ _ (fresh_inv g s hg h0) p1 h1
  have c1 := run_cstep hU' hRs fuel es _ _ (fresh_inv g s hg h0) (fresh_cinv g s) p1 h1
  rw [run_append, h1] at h2
  have s2 := run_step hU' hRs fuel es' _ _ s1.inv p2 h2
  have c2 := run_cstep hU' hRs fuel es' _ _ s1.inv c1.inv p2 h2
  refine ⟨by simpa using congrArg List.length c2.inv.mmr, ?_, ?_, ?_, ?_⟩
  · intro i h
    have hm := congrArg (fun l => l[i]?) c2.inv.mmr
    simp only [List.getElem?_map] at hm
    constructor
    · intro e
      rw [e] at hm
      cases hx : w'.candidate[i]? with
      | none => rw [hx] at hm; cases hm
      | some x =>
        rw [hx] at hm
        simp at hm
        exact ⟨x, hx, hm.symm⟩
    · rintro ⟨x, x1, x2⟩
      rw [x1] at hm
      cases hx : w'.mmr[i]? with
      | none => rw [hx] at hm; cases hm
      | some y =>
        rw [hx] at hm
        simp [x2] at hm
        rw [hm]
  · rintro i h ⟨x, x1, x2⟩
    obtain ⟨y, y1, y2⟩ := s2.inv.cand i x x1
    rw [x2] at y1
    injection y1 with y1
    subst y1
    exact y2
  · rintro i p h ⟨y, y1, y2⟩ ⟨x, x1, x2⟩
    have := c2.inv.linked i x h x1 x2
    rw [y1] at this
    injection this with this
    rw [← this]
    exact (s2.inv.hdr _ _ y2).1.symm
  · have key : ∀ (v : World S) t, CandidateAt v (v.candidate.length - 1) t →
        v.work v.candidate = t.totalDifficulty := by
      rintro v t ⟨x, x1, x2⟩
      unfold World.work
      rw [List.getLast?_eq_getElem?, x1]
      simp only [x2]
    intro t t' ht ht'
    rw [← key w t ht, ← key w' t' ht']
    exact ⟨c2.work, fun hne => c2.moved.resolve_left hne⟩

/-- **C73 violated: an unlinked candidate chain.** A batch with two headers, the second of which does not name the first,
becomes the candidate chain. -/
theorem candidate_unlinked_violated :
    (run plainRules 10 (freshNode (blk 0 1 [9] [0]) ()) [.headers [hdr 1 10 [0] [1], hdr 2 20 [77] [2]]]).map
      (fun w => (w.candidate, w.candidate.map (fun x => (w.headers x).map (·.prevHash)))) =
      some ([[0], [1], [2]], [some [9], some [0], some [77]]) := by
  decide +kernel

end Verif.Props
