import Verif.Net.TorControl

/-!
# C110: the control connection to Tor
-/
namespace Verif.Props
open Verif.Codec Verif.Net

/-- Spec: the characters of an onion address (base 32, lower case). -/
def onionChar (c : UInt8) : Bool := decide (97 ≤ c ∧ c ≤ 122) || decide (50 ≤ c ∧ c ≤ 55)

/-- Spec: the text of an onion address. -/
def OnionText (a : Bytes) : Prop := a ≠ [] ∧ ∀ c ∈ a, onionChar c = true

private theorem t_all {p : UInt8 → Prop} (h : ∀ n : Fin 256, p (UInt8.ofNat n.1)) (c : UInt8) : p c := by
  have := h ⟨c.toNat, c.toNat_lt⟩
  simpa using this

private theorem onion_plain : ∀ c : UInt8, onionChar c = true → isSpace c = false ∧ c ≠ 48 ∧ c ≠ 46 := by
  apply t_all; decide +kernel

private theorem trim_line {s : Bytes} (h1 : ∀ c ∈ s.head?, isSpace c = false) (h2 : ∀ c ∈ s.getLast?, isSpace c = false)
    (h : s ≠ []) : trim (torLine s) = s := by
  have hh : (s ++ [13]).head? = s.head? := by
    cases s with
    | nil => exact absurd rfl h
    | cons c s => rfl
  have hd : (s ++ [13]).dropWhile isSpace = s ++ [13] := dropWhile_head (by rw [hh]; exact h1)
  rw [trim, torLine, hd, List.reverse_append, List.reverse_singleton, List.singleton_append,
    List.dropWhile_cons_of_pos (by decide), dropWhile_head (by rw [List.head?_reverse]; exact h2), List.reverse_reverse]

private theorem trim_prefixed {p a : Bytes} (hp : p ≠ []) (h1 : ∀ c ∈ p.head?, isSpace c = false)
    (h2 : ∀ c ∈ p.getLast?, isSpace c = false) (ha : ∀ c ∈ a, onionChar c = true) : trim (torLine (p ++ a)) = p ++ a := by
  apply trim_line
  · cases p with
    | nil => exact absurd rfl hp
    | cons c p => exact h1
  · intro c hc
    cases a using List.reverseRecOn with
    | nil => rw [List.append_nil] at hc; exact h2 c hc
    | append_singleton l x =>
      rw [← List.append_assoc, List.getLast?_append] at hc
      simp at hc
      subst hc
      exact (onion_plain _ (ha _ (by simp))).1
  · simp [hp]

private theorem trim_onion {a : Bytes} (h : OnionText a) : trim (torLine a) = a := by
  apply trim_line
  · intro c hc; exact (onion_plain c (h.2 c (List.mem_of_mem_head? hc))).1
  · intro c hc; exact (onion_plain c (h.2 c (List.mem_of_mem_getLast? hc))).1
  · exact h.1

private theorem onion_not_ok {a : Bytes} (h : OnionText a) : a ≠ okLine ∧ startsWith a (str "250") = false := by
  constructor
  · rintro rfl
    have := h.2 48 (by decide)
    exact absurd this (by decide)
  · cases hs : startsWith a (str "250") with
    | false => rfl
    | true =>
      exfalso
      unfold startsWith at hs
      rw [List.isPrefixOf_iff_prefix] at hs
      obtain ⟨t, ht⟩ := hs
      have : (48 : UInt8) ∈ a := by rw [← ht]; exact List.mem_append_left _ (by decide)
      exact absurd (h.2 48 this) (by decide)

/-! ## Reading an answer -/

/-- **C110.**  An answer of lines that begin with 250, ended by `250 OK`, is returned line by line, and what follows it is left for the next
request. -/
theorem reply_in_step (ls rest : List Bytes) (e : Bytes) (he : trim e = okLine)
    (h : ∀ l ∈ ls, startsWith (trim l) (str "250") = true ∧ trim l ≠ okLine) :
    readReply (ls ++ e :: rest) = (.ok (ls.map trim), rest) := by
  induction ls with
  | nil => simp only [List.nil_append, readReply, he, if_true, List.map_nil]
  | cons l ls ih =>
    have hl := h l (by simp)
    simp only [List.cons_append, readReply, hl.1, hl.2, if_false, Bool.not_true, Bool.false_eq_true,
      ih (fun x hx => h x (by simp [hx])), Res.ok_bind, List.map_cons]

/-- **C110.**  An answer of one line that reports an error makes the request fail, and what follows it is left for the next request. -/
theorem error_in_step (l : Bytes) (rest : List Bytes) (h : startsWith (trim l) (str "250") = false) :
    readReply (l :: rest) = (.throw, rest) := by
  have h1 : trim l ≠ okLine := by
    intro e; rw [e] at h; revert h; decide
  simp only [readReply, h1, if_false, h, Bool.not_false, if_true]

/-- **C110 violated.**  An answer with a value of several lines, as the control protocol sends it, makes the request fail at the first line
of the value that does not begin with 250, and the rest of the answer is left: it is taken for the answer of the next request. -/
theorem value_lines_violated (head l : Bytes) (ls rest : List Bytes) (h1 : startsWith (trim head) (str "250+") = true)
    (h2 : startsWith (trim l) (str "250") = false) :
    readReply (head :: l :: ls ++ rest) = (.throw, ls ++ rest) := by
  have h3 : startsWith (trim head) (str "250") = true ∧ trim head ≠ okLine := by
    constructor
    · unfold startsWith at h1 ⊢
      rw [List.isPrefixOf_iff_prefix] at h1 ⊢
      exact List.IsPrefix.trans (by decide) h1
    · intro e; rw [e] at h1; revert h1; decide
  simp only [List.cons_append]
  rw [readReply]
  simp only [h3.1, h3.2, if_false, Bool.not_true, Bool.false_eq_true, error_in_step l _ h2]
  rfl

/-! ## Commands -/

private theorem trim_ok : trim (torLine okLine) = okLine := by decide +kernel

/-- **C110.**  With no answer pending: the heartbeat succeeds, and a service is removed exactly if it was running; and then no answer is
pending. -/
theorem commands_in_step (svcs : List Bytes) (a : Bytes) :
    (Control.mk svcs []).heartbeat = (true, ⟨svcs, []⟩) ∧
    (Control.mk svcs []).delOnion a = (decide (a ∈ svcs), ⟨svcs.filter (fun b => decide (b ≠ a)), []⟩) := by
  constructor
  · simp only [Control.heartbeat, Control.invoke, torAnswer, List.nil_append, readReply, trim_ok, if_true]
  · have hr : readReply [torLine okLine] = (.ok [], []) := by simp only [readReply, trim_ok, if_true]
    have he : readReply [torLine (str "552 Unknown Onion Service id")] = (.throw, []) := error_in_step _ _ (by decide +kernel)
    by_cases h : a ∈ svcs
    · simp only [Control.delOnion, Control.invoke, torAnswer, List.nil_append, h, if_true, hr, decide_true]
    · have hf : svcs.filter (fun b => decide (b ≠ a)) = svcs := by
        rw [List.filter_eq_self]; intro b hb; simp only [decide_eq_true_eq]; rintro rfl; exact h hb
      simp only [Control.delOnion, Control.invoke, torAnswer, List.nil_append, h, if_false, he, decide_false, hf]

private theorem service_line {a : Bytes} (h : ∀ c ∈ a, onionChar c = true) :
    trim (torLine (str "250-onions/detached=" ++ a)) = str "250-onions/detached=" ++ a :=
  trim_prefixed (by decide) (by decide) (by decide) h

private theorem id_line {a : Bytes} (h : ∀ c ∈ a, onionChar c = true) :
    trim (torLine (str "250-ServiceID=" ++ a)) = str "250-ServiceID=" ++ a :=
  trim_prefixed (by decide) (by decide) (by decide) h

private theorem pre_starts (p q a : Bytes) (h : startsWith p q = true) : startsWith (p ++ a) q = true := by
  unfold startsWith at *
  rw [List.isPrefixOf_iff_prefix] at *
  exact h.trans (List.prefix_append _ _)

private theorem mid_line (p a : Bytes) (hp : startsWith p (str "250-") = true) : startsWith (p ++ a) (str "250") = true ∧ p ++ a ≠ okLine ∧
    startsWith (p ++ a) (str "250+onions/detached=") = false := by
  have h0 := pre_starts p _ a hp
  generalize p ++ a = s at h0
  unfold startsWith at *
  rw [List.isPrefixOf_iff_prefix] at h0
  obtain ⟨t, rfl⟩ := h0
  refine ⟨?_, ?_, ?_⟩
  · rw [List.isPrefixOf_iff_prefix]; exact List.IsPrefix.trans (by decide) (List.prefix_append _ _)
  · intro e
    have := congrArg (fun l : Bytes => l[3]?) e
    revert this
    simp [str, okLine]
  · simp [str, List.isPrefixOf]

private theorem query_few (svcs : List Bytes) (hs : svcs.length ≤ 1) (ho : ∀ b ∈ svcs, OnionText b) :
    ∃ l, (Control.mk svcs []).invoke .services = (.ok [str "250-onions/detached=" ++ l], ⟨svcs, []⟩) ∧
      listServices false [str "250-onions/detached=" ++ l] = [] := by
  have key : ∀ l : Bytes, (∀ c ∈ l, onionChar c = true) →
      readReply ([str "250-onions/detached=" ++ l, okLine].map torLine) = (.ok [str "250-onions/detached=" ++ l], []) ∧
      listServices false [str "250-onions/detached=" ++ l] = [] := by
    intro l hl
    obtain ⟨m1, m2, m3⟩ := mid_line (str "250-onions/detached=") l (by decide)
    constructor
    · have := reply_in_step [torLine (str "250-onions/detached=" ++ l)] [] (torLine okLine) trim_ok (by
        intro x hx
        rw [List.mem_singleton] at hx
        subst hx
        rw [service_line hl]
        exact ⟨m1, m2⟩)
      simpa only [List.map_cons, List.map_nil, service_line hl, List.cons_append, List.nil_append] using this
    · simp only [listServices, m3, Bool.false_eq_true, if_false, ite_self]
  match svcs, hs, ho with
  | [], _, _ =>
    obtain ⟨k1, k2⟩ := key [] (by simp)
    refine ⟨[], ?_, k2⟩
    simp only [List.append_nil] at k1 ⊢
    simp only [Control.invoke, torAnswer, List.nil_append, k1]
  | [b], _, ho =>
    obtain ⟨k1, k2⟩ := key b (ho b (by simp)).2
    refine ⟨b, ?_, k2⟩
    simp only [Control.invoke, torAnswer, List.nil_append, k1]

/-- **C110.**  With at most one service running and no answer pending, adding another one succeeds: Tor runs it, its address is returned, and
no answer is pending.  Missing: Tor with two services or more, and a service that is running already. -/
theorem add_service_partial (svcs : List Bytes) (hs : svcs.length ≤ 1) (ho : ∀ b ∈ svcs, OnionText b) (a : Bytes) (ha : OnionText a)
    (hn : a ∉ svcs) : (Control.mk svcs []).addOnion a = (.ok a, ⟨svcs ++ [a], []⟩) := by
  obtain ⟨l, h1, h2⟩ := query_few svcs hs ho
  obtain ⟨m1, m2, m3⟩ := mid_line (str "250-ServiceID=") a (by decide)
  have hr : readReply ([str "250-ServiceID=" ++ a, okLine].map torLine) = (.ok [str "250-ServiceID=" ++ a], []) := by
    have := reply_in_step [torLine (str "250-ServiceID=" ++ a)] [] (torLine okLine) trim_ok (by
        intro x hx
        rw [List.mem_singleton] at hx
        subst hx
        rw [id_line ha.2]
        exact ⟨m1, m2⟩)
    simpa only [List.map_cons, List.map_nil, id_line ha.2, List.cons_append, List.nil_append] using this
  have hi : (Control.mk svcs []).invoke (.addOnion a) = (.ok [str "250-ServiceID=" ++ a], ⟨svcs ++ [a], []⟩) := by
    simp only [Control.invoke, torAnswer, hn, if_false, List.nil_append, hr]
  have hf : startsWith (str "250-ServiceID=" ++ a) (str "250-ServiceID=") = true := pre_starts _ _ _ (by decide)
  simp only [Control.addOnion, h1, h2, List.not_mem_nil, if_false, hi, List.find?_cons, hf, List.drop_left]

/-- **C110 violated.**  A service that is running is not recognised: the only one is reported in a form the code does not read, it is added
again, and Tor refuses that.  So it is never found to be running, and stays in the queue of services to add. -/
theorem running_service_violated (a : Bytes) (ha : OnionText a) :
    (Control.mk [a] []).addOnion a = (.throw, ⟨[a], []⟩) := by
  obtain ⟨l, h1, h2⟩ := query_few [a] (by simp) (by simpa using ha)
  have hi : (Control.mk [a] []).invoke (.addOnion a) = (.throw, ⟨[a], []⟩) := by
    simp only [Control.invoke, torAnswer, List.mem_singleton, if_true, List.nil_append,
      error_in_step (torLine (str "550 Onion address collision")) [] (by decide +kernel)]
  simp only [Control.addOnion, h1, h2, List.not_mem_nil, if_false, hi]

/-- **C110 violated.**  With two services or more, no service can be added, nor found to be running: the request for the list fails, part of
the answer stays unread, and the heartbeat that follows fails although Tor runs, so that the Tor process is ended; a service that is
removed is reported as not removed. -/
theorem third_service_violated (x y : Bytes) (svcs : List Bytes) (hx : OnionText x) (a : Bytes) :
    let c : Control := ⟨x :: y :: svcs, ((y :: svcs) ++ [str ".", okLine]).map torLine⟩
    (Control.mk (x :: y :: svcs) []).addOnion a = (.throw, c) ∧
    (OnionText y → c.heartbeat.1 = false ∧ ∀ b, (c.delOnion b).1 = false ∧ (b ∈ c.svcs → b ∉ (c.delOnion b).2.svcs)) := by
  intro c
  constructor
  · have hr : readReply ((str "250+onions/detached=" :: (x :: y :: svcs) ++ [str ".", okLine]).map torLine) =
        (.throw, ((y :: svcs) ++ [str ".", okLine]).map torLine) := by
      have := value_lines_violated (torLine (str "250+onions/detached=")) (torLine x) (((y :: svcs) ++ [str ".", okLine]).map torLine) []
        (by decide +kernel) (by rw [trim_onion hx]; exact (onion_not_ok hx).2)
      rw [List.append_nil, List.append_nil] at this
      exact this
    have hi : (Control.mk (x :: y :: svcs) []).invoke .services = (.throw, c) := by
      simp only [Control.invoke, torAnswer, List.nil_append, hr]; rfl
    simp only [Control.addOnion, hi]
  · intro hy
    have hr : ∀ rest, readReply (c.unread ++ rest) = (.throw, (svcs ++ [str ".", okLine]).map torLine ++ rest) := by
      intro rest
      have := error_in_step (torLine y) ((svcs ++ [str ".", okLine]).map torLine ++ rest) (by rw [trim_onion hy]; exact (onion_not_ok hy).2)
      exact this
    constructor
    · simp only [Control.heartbeat, Control.invoke, hr]
    · intro b
      constructor
      · simp only [Control.delOnion, Control.invoke, hr]
      · intro hb
        simp only [Control.delOnion, Control.invoke, torAnswer, hb, if_true]
        simp

/-! ## Three wallets -/

private theorem listen_ok (t : TorThread) (svcs : List Bytes) (hc : t.control = some ⟨svcs, []⟩) (hs : svcs.length ≤ 1)
    (ho : ∀ b ∈ svcs, OnionText b) (a : Bytes) (ha : OnionText a) (hn : a ∉ svcs) :
    t.listen a = { t with control := some ⟨svcs ++ [a], []⟩, active := if a ∈ t.active then t.active else t.active ++ [a] } := by
  simp only [TorThread.listen, hc, add_service_partial svcs hs ho a ha hn]

/-- **C110 violated.**  Three wallets that are open at the same time are never all reachable: of three services to add the third is never
added, however long the thread runs, and the Tor process is ended again and again, with the services of the other two. -/
theorem third_wallet_violated (a b c : Bytes) (ha : OnionText a) (hb : OnionText b) (hab : a ≠ b) (hca : c ≠ a) (hcb : c ≠ b) :
    (∀ n, ∀ ctl ∈ (TorThread.rounds ⟨none, [], [a, b, c]⟩ n).control, c ∉ ctl.svcs) ∧
    (∀ n, ∃ m, n ≤ m ∧ (TorThread.rounds ⟨none, [], [a, b, c]⟩ m).control = none) := by
  let stale : Control := ⟨[a, b], [b, str ".", okLine].map torLine⟩
  have h3 := third_service_violated a b [] ha c
  have hfail : (Control.mk [a, b] []).addOnion c = (.throw, stale) := h3.1
  have hbeat : stale.heartbeat.1 = false := (h3.2 hb).1
  have hl1 := add_service_partial [] (by simp) (by simp) a ha (by simp)
  have hl2 := add_service_partial [a] (by simp) (by simpa using ha) b hb (by simpa using Ne.symm hab)
  -- the rounds
  have r1 : (TorThread.mk none [] [a, b, c]).round = ⟨some ⟨[], []⟩, [], [a, b, c]⟩ := rfl
  have r2 : (TorThread.mk (some ⟨[], []⟩) [] [a, b, c]).round = ⟨some stale, [a, b], [c]⟩ := by
    simp only [TorThread.round, (commands_in_step [] a).1, List.foldl_cons, List.foldl_nil, TorThread.listen, hl1, List.nil_append,
      List.cons_append, hl2, hfail, List.not_mem_nil, if_false, List.mem_singleton, Ne.symm hab]
  have r3 : (TorThread.mk (some stale) [a, b] [c]).round = ⟨none, [a, b], [c]⟩ := by
    cases hh : stale.heartbeat with
    | mk x y =>
      have hx : x = false := by rw [hh] at hbeat; exact hbeat
      subst hx
      simp only [TorThread.round, hh]
  have r4 : (TorThread.mk none [a, b] [c]).round = ⟨some ⟨[a, b], []⟩, [a, b], [c]⟩ := by
    simp only [TorThread.round, List.foldl_cons, List.foldl_nil, TorThread.listen, hl1, List.nil_append,
      List.cons_append, hl2, List.mem_cons, true_or, or_true, if_true]
  have r5 : (TorThread.mk (some ⟨[a, b], []⟩) [a, b] [c]).round = ⟨some stale, [a, b], [c]⟩ := by
    simp only [TorThread.round, (commands_in_step [a, b] a).1, List.foldl_cons, List.foldl_nil, TorThread.listen, hfail, List.nil_append]
  have hsvc : c ∉ stale.svcs := by simp [stale, hca, hcb]
  -- what is met after any number of rounds
  have all : ∀ n, (TorThread.rounds ⟨none, [], [a, b, c]⟩ n) = ⟨none, [], [a, b, c]⟩ ∨
      (TorThread.rounds ⟨none, [], [a, b, c]⟩ n) = ⟨some ⟨[], []⟩, [], [a, b, c]⟩ ∨
      (TorThread.rounds ⟨none, [], [a, b, c]⟩ n) = ⟨some stale, [a, b], [c]⟩ ∨
      (TorThread.rounds ⟨none, [], [a, b, c]⟩ n) = ⟨none, [a, b], [c]⟩ ∨
      (TorThread.rounds ⟨none, [], [a, b, c]⟩ n) = ⟨some ⟨[a, b], []⟩, [a, b], [c]⟩ := by
    intro n
    induction n with
    | zero => exact .inl rfl
    | succ n ih =>
      simp only [TorThread.rounds]
      rcases ih with e | e | e | e | e <;> rw [e]
      · rw [r1]; simp
      · rw [r2]; simp
      · rw [r3]; simp
      · rw [r4]; simp
      · rw [r5]; simp
  constructor
  · intro n ctl hctl
    rcases all n with e | e | e | e | e <;> rw [e] at hctl
    · cases hctl
    · cases hctl; simp
    · cases hctl; exact hsvc
    · cases hctl
    · cases hctl; simp [hca, hcb]
  · intro n
    rcases all n with e | e | e | e | e
    · exact ⟨n, Nat.le_refl _, by rw [e]⟩
    · exact ⟨n + 2, by omega, by simp only [TorThread.rounds, e, r2, r3]⟩
    · exact ⟨n + 1, by omega, by simp only [TorThread.rounds, e, r3]⟩
    · exact ⟨n, Nat.le_refl _, by rw [e]⟩
    · exact ⟨n + 2, by omega, by simp only [TorThread.rounds, e, r5, r3]⟩

/-- **C110.**  Two wallets are served: in the second round both services are added, and from then on every heartbeat finds Tor running. -/
theorem two_wallets_served (a b : Bytes) (ha : OnionText a) (hb : OnionText b) (hab : a ≠ b) (n : Nat) :
    TorThread.rounds ⟨none, [], [a, b]⟩ (n + 2) = ⟨some ⟨[a, b], []⟩, [a, b], []⟩ := by
  have hl1 := add_service_partial [] (by simp) (by simp) a ha (by simp)
  have hl2 := add_service_partial [a] (by simp) (by simpa using ha) b hb (by simpa using Ne.symm hab)
  have r1 : (TorThread.mk none [] [a, b]).round = ⟨some ⟨[], []⟩, [], [a, b]⟩ := rfl
  have r2 : (TorThread.mk (some ⟨[], []⟩) [] [a, b]).round = ⟨some ⟨[a, b], []⟩, [a, b], []⟩ := by
    simp only [TorThread.round, (commands_in_step [] a).1, List.foldl_cons, List.foldl_nil, TorThread.listen, hl1, List.nil_append,
      List.cons_append, hl2, List.not_mem_nil, if_false, List.mem_singleton, Ne.symm hab]
  induction n with
  | zero => simp only [TorThread.rounds, r1, r2]
  | succ n ih =>
    rw [show n + 1 + 2 = (n + 2) + 1 from rfl, TorThread.rounds, ih]
    simp only [TorThread.round, (commands_in_step [a, b] a).1, List.foldl_nil]

/-! ## The hypotheses are met -/

example : OnionText (str "abc234") ∧ OnionText (str "xyz567") := ⟨⟨by decide, by decide⟩, by decide, by decide⟩

example : readReply ([torLine (str "250-version=1"), torLine okLine] ++ [str "next"]) = (.ok [str "250-version=1"], [str "next"]) := by
  decide +kernel

example : startsWith (trim (torLine (str "550 no"))) (str "250") = false := by decide +kernel

example : startsWith (trim (torLine (str "250+config-text="))) (str "250+") = true := by decide +kernel

end Verif.Props
