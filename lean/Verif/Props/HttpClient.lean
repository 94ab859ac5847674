import Verif.Net.HttpClient
import Verif.Props.KeyPath

/-!
# C119: what the wallet asks over HTTP and over Tor, and the answers it takes

The wallet reaches a node elsewhere over HTTP and other wallets over HTTP through Tor.  The other side gets the request that was made, and
the caller gets the answer to it.
-/
namespace Verif.Props
open Verif Verif.Codec Verif.Net

/-! ## Answers -/

/-- An answer of an HTTP server. -/
structure HttpAnswer where
  status : Nat
  reason : Bytes
  headers : List (Bytes × Bytes)
  body : Bytes

/-- A header on the wire (RFC 9112). -/
def headerText (h : Bytes × Bytes) : Bytes := h.1 ++ str ": " ++ h.2 ++ [13, 10]

/-- The answer on the wire (RFC 9112). -/
def HttpAnswer.text (a : HttpAnswer) : Bytes :=
  str "HTTP/1.1 " ++ decStr a.status ++ [32] ++ a.reason ++ [13, 10] ++ a.headers.flatMap headerText ++ [13, 10] ++ a.body

/-- An answer with its length, which is not zero; names of headers are words without a colon, and no text has a line feed. -/
structure HttpAnswer.Plain (a : HttpAnswer) : Prop where
  status : a.status < 2 ^ 32
  reason : 10 ∉ a.reason
  names : ∀ h ∈ a.headers, h.1 ≠ [] ∧ 58 ∉ h.1 ∧ ∀ c ∈ h.1, isSpace c = false
  values : ∀ h ∈ a.headers, 10 ∉ h.2
  body : a.body ≠ [] ∧ a.body.length < 2 ^ 64
  length : ∃ pre post name, a.headers = pre ++ (name, decStr a.body.length) :: post ∧ toLower name = str "content-length" ∧
    ∀ h ∈ post, toLower h.1 ≠ str "content-length"

/-- An answer of a node. -/
def okAnswer : HttpAnswer := ⟨200, str "OK", [(str "Server", str "grin"), (str "Content-Length", str "2")], str "{}"⟩

theorem okAnswer_plain : okAnswer.Plain := by
  refine ⟨by decide +kernel, by decide +kernel, by decide +kernel, by decide +kernel, ⟨by decide +kernel, by decide +kernel⟩, ?_⟩
  exact ⟨[(str "Server", str "grin")], [], str "Content-Length", by decide +kernel, by decide +kernel, by simp⟩

/-- The function reads these bytes, wherever the pieces they arrive in begin and end, and returns this. -/
private def Gives {α : Type} (p : Io α) (bs : Bytes) (a : α) : Prop :=
  ∀ (c : Conn) (rest : Bytes), c.buf ++ c.net.flatten = bs ++ rest →
    ∃ c', p c = (.ok a, c') ∧ c'.buf ++ c'.net.flatten = rest ∧ c'.sent = c.sent ∧ c'.past = c.past ∧ (c.net = [] → c'.net = [])

private theorem bind_run {α β : Type} (p : Io α) (f : α → Io β) (c : Conn) :
    (p >>= f) c = match p c with
      | (.ok a, c') => f a c'
      | (.error e, c') => (.error e, c') := rfl

private theorem Gives.pure {α : Type} (a : α) : Gives (pure a : Io α) [] a := fun c _ h => ⟨c, rfl, h, rfl, rfl, id⟩

private theorem Gives.bind {α β : Type} {p : Io α} {f : α → Io β} {bs cs : Bytes} {a : α} {b : β} (h1 : Gives p bs a)
    (h2 : Gives (f a) cs b) : Gives (p >>= f) (bs ++ cs) b := by
  intro c rest h
  rw [List.append_assoc] at h
  obtain ⟨c1, e1, e2, e3, e4, e5⟩ := h1 c _ h
  obtain ⟨c2, d1, d2, d3, d4, d5⟩ := h2 c1 _ e2
  exact ⟨c2, by rw [bind_run, e1]; exact d1, d2, d3.trans e3, d4.trans e4, d5 ∘ e5⟩

private theorem readLineGo_gives (l rest : Bytes) (hl : 10 ∉ l) (net : List Bytes) :
    ∀ buf, buf ++ net.flatten = l ++ 10 :: rest →
      ∃ b n, readLineGo buf net = (.ok l, b, n) ∧ b ++ n.flatten = rest := by
  induction net with
  | nil =>
    intro buf h
    rw [List.flatten_nil, List.append_nil] at h
    refine ⟨rest, [], ?_, by simp⟩
    rw [readLineGo, if_pos (by simp [h]), h]
    have t1 : (l ++ 10 :: rest).takeWhile (fun c => decide (c ≠ 10)) = l := by
      rw [List.takeWhile_append_of_pos (by intro c hc; simp; rintro rfl; exact hl hc)]; simp
    have t2 : (l ++ 10 :: rest).dropWhile (fun c => decide (c ≠ 10)) = 10 :: rest := by
      rw [List.dropWhile_append_of_pos (by intro c hc; simp; rintro rfl; exact hl hc)]; simp
    rw [t1, t2]; rfl
  | cons s net ih =>
    intro buf h
    by_cases hb : 10 ∈ buf
    · -- the line feed is in the buffer
      obtain ⟨u, v, rfl, hu⟩ : ∃ u v, buf = u ++ 10 :: v ∧ 10 ∉ u := by
        exact List.append_of_mem hb |>.elim fun _ _ => List.eq_append_cons_of_mem hb
      have key : u = l ∧ v ++ (s :: net).flatten = rest := by
        rw [List.append_assoc, List.cons_append] at h
        clear ih hb
        induction u generalizing l with
        | nil =>
          cases l with
          | nil => simpa using h
          | cons a l => simp at h; exact absurd (by simp [← h.1]) hl
        | cons x u ihu =>
          cases l with
          | nil => simp at h; exact absurd (by simp [h.1]) hu
          | cons a l =>
            simp only [List.cons_append, List.cons.injEq] at h
            obtain ⟨h1, h2⟩ := h
            obtain ⟨k1, k2⟩ := ihu l (fun m => hl (by simp [m])) (fun m => hu (by simp [m])) h2
            exact ⟨by rw [h1, k1], k2⟩
      obtain ⟨rfl, k2⟩ := key
      refine ⟨v, s :: net, ?_, k2⟩
      rw [readLineGo, if_pos (by simp)]
      have t1 : (u ++ 10 :: v).takeWhile (fun c => decide (c ≠ 10)) = u := by
        rw [List.takeWhile_append_of_pos (by intro c hc; simp; rintro rfl; exact hu hc)]; simp
      have t2 : (u ++ 10 :: v).dropWhile (fun c => decide (c ≠ 10)) = 10 :: v := by
        rw [List.dropWhile_append_of_pos (by intro c hc; simp; rintro rfl; exact hu hc)]; simp
      rw [t1, t2]; rfl
    · rw [readLineGo, if_neg (by simpa using hb)]
      exact ih (buf ++ s) (by rw [List.append_assoc]; simpa using h)

private theorem gives_line (l : Bytes) (hl : 10 ∉ l) : Gives readLine (l ++ [10]) l := by
  intro c rest h
  rw [List.append_assoc] at h
  obtain ⟨b, n, e1, e2⟩ := readLineGo_gives l rest hl c.net c.buf h
  refine ⟨{ c with buf := b, net := n }, by simp [readLine, e1], e2, rfl, rfl, fun hn => ?_⟩
  rw [hn, readLineGo] at e1
  split at e1
  · exact (congrArg (fun x => x.2.2) e1).symm
  · exact (congrArg (fun x => x.2.2) e1).symm

private theorem readGo_gives (bs rest : Bytes) (net : List Bytes) :
    ∀ buf, buf ++ net.flatten = bs ++ rest → ∃ b n, readGo bs.length buf net = (.ok bs, b, n) ∧ b ++ n.flatten = rest := by
  induction net with
  | nil =>
    intro buf h
    rw [List.flatten_nil, List.append_nil] at h
    subst h
    refine ⟨rest, [], ?_, by simp⟩
    rw [readGo, if_pos (by simp)]; simp
  | cons s net ih =>
    intro buf h
    by_cases hb : bs.length ≤ buf.length
    · obtain ⟨v, rfl⟩ : ∃ v, buf = bs ++ v := by
        refine ⟨buf.drop bs.length, ?_⟩
        have := congrArg (List.take bs.length) h
        rw [List.take_append_of_le_length hb, List.take_left'] at this
        · exact (List.take_append_drop bs.length buf).symm.trans (by rw [this])
        · rfl
      refine ⟨v, s :: net, ?_, by rw [List.append_assoc] at h; exact List.append_cancel_left h⟩
      rw [readGo, if_pos (by simp)]; simp
    · rw [readGo, if_neg hb]
      by_cases hs : s.length ≤ bs.length - buf.length
      · simp only [if_pos hs]
        exact ih (buf ++ s) (by rw [List.append_assoc]; simpa using h)
      · simp only [if_neg hs]
        have e : bs = buf ++ s.take (bs.length - buf.length) := by
          have := congrArg (List.take bs.length) h
          rw [List.take_left' rfl, List.take_append, List.take_of_length_le (by omega), List.flatten_cons, List.take_append,
            show bs.length - buf.length - s.length = 0 by omega, List.take_zero, List.append_nil] at this
          exact this.symm
        refine ⟨[], s.drop (bs.length - buf.length) :: net, by rw [← e], ?_⟩
        rw [List.nil_append, List.flatten_cons]
        have h2 := congrArg (List.drop bs.length) h
        rw [List.drop_left' rfl, List.drop_append, List.drop_of_length_le (by omega : buf.length ≤ bs.length), List.flatten_cons, List.drop_append,
          show bs.length - buf.length - s.length = 0 by omega, List.drop_zero, List.nil_append] at h2
        exact h2

private theorem gives_read (bs : Bytes) (n : Nat) (h : bs.length = n) : Gives (Net.read n) bs bs := by
  subst h
  intro c rest h
  obtain ⟨b, n, e1, e2⟩ := readGo_gives bs rest c.net c.buf h
  refine ⟨{ c with buf := b, net := n }, by unfold Net.read; rw [e1], e2, rfl, rfl, fun hn => ?_⟩
  rw [hn, readGo] at e1
  split at e1
  · exact (congrArg (fun x => x.2.2) e1).symm
  · exact (congrArg (fun x => x.2.2) e1).symm

private theorem Gives.congr {α : Type} {p : Io α} {bs bs' : Bytes} {a a' : α} (h : Gives p bs a) (hb : bs = bs') (ha : a = a') :
    Gives p bs' a' := by subst hb; subst ha; exact h

private theorem extract_dec (max n : Nat) (tail : Bytes) (ht : ∀ c ∈ tail.head?, isDigit c = false) (hn : n ≤ max) :
    extractNat max (32 :: (decStr n ++ tail)) = some n := by
  obtain ⟨f1, f2, f3⟩ := decStr_facts n
  have tw : (decStr n ++ tail).takeWhile isDigit = decStr n := by
    rw [List.takeWhile_append_of_pos f2]
    cases tail with
    | nil => simp
    | cons c t => simp [ht c rfl]
  obtain ⟨c, cs, hc⟩ : ∃ c cs, decStr n = c :: cs := by
    cases h : decStr n with
    | nil => exact absurd h f1
    | cons c cs => exact ⟨c, cs, rfl⟩
  have hd : isDigit c = true := f2 c (by simp [hc])
  have hs : isSpace c = false ∧ c ≠ 45 ∧ c ≠ 43 := by
    have : ∀ k : Fin 256, isDigit (UInt8.ofNat k) = true → isSpace (UInt8.ofNat k) = false ∧ UInt8.ofNat k ≠ 45 ∧ UInt8.ofNat k ≠ 43 := by
      decide +kernel
    have h' := this ⟨c.toNat, c.toNat_lt⟩
    simpa using h' (by simpa using hd)
  unfold extractNat
  have e1 : (32 :: (decStr n ++ tail)).dropWhile isSpace = c :: (cs ++ tail) := by
    rw [List.dropWhile_cons, if_pos (by decide), hc, List.cons_append, List.dropWhile_cons, if_neg (by simp [hs.1])]
  rw [e1]
  have e2 : (if c = 45 ∨ c = 43 then cs ++ tail else c :: (cs ++ tail)) = decStr n ++ tail := by
    rw [if_neg (by simp [hs.2.1, hs.2.2]), hc]; rfl
  simp only
  rw [e2, tw, if_neg f1, f3, if_neg (by omega), if_neg hs.2.1]

private theorem splitGo_first (d : UInt8) (s cur : Bytes) (h : cur ≠ []) :
    ∃ ts, splitGo d s cur = (cur ++ s.takeWhile (fun c => decide (c ≠ d))) :: ts := by
  induction s generalizing cur with
  | nil => exact ⟨[], by simp [splitGo, h]⟩
  | cons c s ih =>
    by_cases e : c = d
    · subst e
      exact ⟨splitGo c s [], by rw [splitGo_delim _ _ _ h]; simp⟩
    · obtain ⟨ts, ht⟩ := ih (cur ++ [c]) (by simp)
      refine ⟨ts, ?_⟩
      rw [splitGo, if_neg e, ht, List.takeWhile_cons, if_pos (by simpa using e)]
      simp

/-- A header as the client keeps it. -/
private def kept (h : Bytes × Bytes) : Bytes × Bytes := (h.1, trim ((32 :: (h.2 ++ [13])).takeWhile (fun c => decide (c ≠ 58))))

private theorem header_split (h : Bytes × Bytes) (h1 : h.1 ≠ []) (h2 : 58 ∉ h.1) :
    ∃ ts, split 58 (h.1 ++ str ": " ++ h.2 ++ [13]) = h.1 :: (32 :: (h.2 ++ [13])).takeWhile (fun c => decide (c ≠ 58)) :: ts := by
  have e : h.1 ++ str ": " ++ h.2 ++ [13] = h.1 ++ 58 :: 32 :: (h.2 ++ [13]) := by
    rw [show str ": " = [58, 32] by decide]; simp
  unfold split
  rw [e, splitGo_token _ _ _ _ h2, List.nil_append, splitGo_delim _ _ _ h1, splitGo, if_neg (by decide), List.nil_append]
  obtain ⟨ts, ht⟩ := splitGo_first 58 (h.2 ++ [13]) [32] (by simp)
  refine ⟨ts, ?_⟩
  rw [ht, List.takeWhile_cons, if_pos (by decide)]
  rfl

private theorem trim_word (s : Bytes) (h : ∀ c ∈ s, isSpace c = false) : trim s = s :=
  trim_eq (fun c hc => h c (List.mem_of_mem_head? hc)) (fun c hc => h c (List.mem_of_mem_getLast? hc))

/-- What the client makes of the length. -/
private def lenAfter (len : Nat) (h : Bytes × Bytes) : Nat :=
  if toLower h.1 = str "content-length" then
    (extractNat (2 ^ 64 - 1) ((32 :: (h.2 ++ [13])).takeWhile (fun c => decide (c ≠ 58)))).getD len
  else len

private theorem headers_give (hs : List (Bytes × Bytes)) (hn : ∀ h ∈ hs, h.1 ≠ [] ∧ 58 ∉ h.1 ∧ ∀ c ∈ h.1, isSpace c = false)
    (hv : ∀ h ∈ hs, 10 ∉ h.2) : ∀ (fuel len : Nat) (acc : List (Bytes × Bytes)), hs.length < fuel →
      Gives (readHeaders fuel len acc) (hs.flatMap headerText ++ [13, 10]) (hs.foldl lenAfter len, acc ++ hs.map kept) := by
  induction hs with
  | nil =>
    intro fuel len acc hf
    obtain ⟨fuel, rfl⟩ : ∃ f, fuel = f + 1 := ⟨fuel - 1, by simp at hf; omega⟩
    unfold readHeaders
    refine (Gives.bind (gives_line [13] (by decide)) (cs := []) (b := (len, acc)) ?_).congr (by simp) (by simp)
    rw [if_pos rfl]
    exact Gives.pure _
  | cons h hs ih =>
    intro fuel len acc hf
    obtain ⟨fuel, rfl⟩ : ∃ f, fuel = f + 1 := ⟨fuel - 1, by simp at hf; omega⟩
    obtain ⟨n1, n2, n3⟩ := hn h (by simp)
    have v1 := hv h (by simp)
    have hlf : 10 ∉ h.1 ++ str ": " ++ h.2 ++ [13] := by
      simp only [List.mem_append, not_or]
      refine ⟨⟨⟨fun m => ?_, by decide⟩, v1⟩, by decide⟩
      have := n3 10 m
      exact absurd this (by decide)
    unfold readHeaders
    refine (Gives.bind (gives_line _ hlf) (cs := hs.flatMap headerText ++ [13, 10]) (b := ((h :: hs).foldl lenAfter len, acc ++ (h :: hs).map kept)) ?_).congr
      (by simp [headerText]) rfl
    rw [if_neg (by
      intro e
      have := congrArg List.length e
      have l0 : h.1.length ≠ 0 := by simpa using n1
      simp only [List.length_append, List.length_cons, List.length_nil] at this
      omega)]
    obtain ⟨ts, ht⟩ := header_split h n1 n2
    rw [ht]
    simp only
    rw [trim_word h.1 n3]
    have := ih (fun x hx => hn x (by simp [hx])) (fun x hx => hv x (by simp [hx])) fuel (lenAfter len h) (acc ++ [kept h])
      (by simp at hf; omega)
    refine this.congr rfl ?_
    simp

private theorem len_keep (hs : List (Bytes × Bytes)) (h : ∀ x ∈ hs, toLower x.1 ≠ str "content-length") (len : Nat) :
    hs.foldl lenAfter len = len := by
  induction hs generalizing len with
  | nil => rfl
  | cons x hs ih =>
    rw [List.foldl_cons, lenAfter, if_neg (h x (by simp))]
    exact ih (fun y hy => h y (by simp [hy])) len

private theorem length_read (a : HttpAnswer) (h : a.Plain) : a.headers.foldl lenAfter 0 = a.body.length := by
  obtain ⟨pre, post, name, e, h1, h2⟩ := h.length
  rw [e, List.foldl_append, List.foldl_cons, len_keep post h2]
  unfold lenAfter
  simp only
  rw [if_pos h1]
  have hd : 58 ∉ decStr a.body.length := fun m => absurd ((decStr_facts a.body.length).2.1 58 m) (by decide)
  have tw : (32 :: (decStr a.body.length ++ [13])).takeWhile (fun c => decide (c ≠ 58)) = 32 :: (decStr a.body.length ++ [13]) := by
    have all : ∀ c ∈ 32 :: (decStr a.body.length ++ [13]), decide (c ≠ 58) = true := ?_
    · have := List.takeWhile_append_of_pos (l₂ := []) all
      simpa using this
    intro c hc
    simp only [List.mem_cons, List.mem_append, List.not_mem_nil, or_false] at hc
    rcases hc with rfl | hc | rfl
    · decide
    · simp only [decide_eq_true_eq]; rintro rfl; exact hd hc
    · decide
  rw [tw, extract_dec _ _ [13] (by simp; decide) (by have := h.body.2; omega)]
  rfl

private theorem status_read (a : HttpAnswer) (h : a.Plain) :
    statusOf (str "HTTP/1.1 " ++ decStr a.status ++ [32] ++ a.reason ++ [13]) = some a.status := by
  unfold statusOf
  have e : str "HTTP/1.1 " ++ decStr a.status ++ [32] ++ a.reason ++ [13] =
      [72, 84, 84, 80, 47, 49, 46, 49] ++ 32 :: (decStr a.status ++ 32 :: (a.reason ++ [13])) := by
    rw [show str "HTTP/1.1 " = [72, 84, 84, 80, 47, 49, 46, 49, 32] by decide +kernel]; simp
  rw [e]
  have e1 : ∀ t : Bytes, ([72, 84, 84, 80, 47, 49, 46, 49] ++ 32 :: t).dropWhile isSpace = [72, 84, 84, 80, 47, 49, 46, 49] ++ 32 :: t := by
    intro t; rw [dropWhile_head]; intro c hc; simp at hc; subst hc; decide
  have e2 : ∀ t : Bytes, ([72, 84, 84, 80, 47, 49, 46, 49] ++ 32 :: t).dropWhile (fun c => !isSpace c) = 32 :: t := by
    intro t
    rw [List.dropWhile_append_of_pos (by decide), List.dropWhile_cons, if_neg (by decide)]
  rw [e1, e2]
  exact extract_dec _ _ _ (by simp; decide) (by have := h.status; omega)

/-- The part of a call after the request has been written. -/
private def answerPart : Io HttpResponse := do
  let line ← readLine
  let r ← fun c => readHeaders (c.left + 1) 0 [] c
  if r.1 = 0 then Io.throw .other
  else do
    let body ← Net.read r.1
    return ⟨statusOf line, r.2, body⟩

private theorem invoke_eq (establish : Io Unit) (req : Bytes) (c c1 : Conn) (he : establish c = (.ok (), c1)) :
    httpInvoke establish req c = answerPart { c1 with sent := c1.sent ++ req } := by
  unfold httpInvoke
  rw [bind_run, he]
  rfl

private theorem invoke_fails (establish : Io Unit) (req : Bytes) (c c1 : Conn) (e : Fail) (he : establish c = (.error e, c1)) :
    httpInvoke establish req c = (.error e, c1) := by
  unfold httpInvoke
  rw [bind_run, he]

/-- The head of an answer. -/
private def headOk (a : HttpAnswer) : Prop :=
  10 ∉ a.reason ∧ (∀ h ∈ a.headers, h.1 ≠ [] ∧ 58 ∉ h.1 ∧ ∀ c ∈ h.1, isSpace c = false) ∧ ∀ h ∈ a.headers, 10 ∉ h.2

private def headersPart : Io (Nat × List (Bytes × Bytes)) := fun c => readHeaders (c.left + 1) 0 [] c

private theorem headers_part (a : HttpAnswer) (h : headOk a) :
    Gives headersPart (a.headers.flatMap headerText ++ [13, 10]) (a.headers.foldl lenAfter 0, a.headers.map kept) := by
  intro c rest hc
  have hfuel : a.headers.length < c.left + 1 := by
    have e := congrArg List.length hc
    have hh : a.headers.length ≤ (a.headers.flatMap headerText).length := by
      rw [List.length_flatMap]
      clear * -
      induction a.headers with
      | nil => simp
      | cons x xs ih =>
        have : 0 < (headerText x).length := by simp [headerText]; omega
        simp only [List.length_cons, List.map_cons, List.sum_cons]; omega
    simp only [List.length_append] at e
    unfold Conn.left
    omega
  have := headers_give a.headers h.2.1 h.2.2 (c.left + 1) 0 [] hfuel c rest hc
  simpa [headersPart] using this

private theorem line_part (a : HttpAnswer) (h : headOk a) :
    Gives readLine (str "HTTP/1.1 " ++ decStr a.status ++ [32] ++ a.reason ++ [13] ++ [10])
      (str "HTTP/1.1 " ++ decStr a.status ++ [32] ++ a.reason ++ [13]) := by
  refine gives_line _ ?_
  simp only [List.mem_append, not_or]
  exact ⟨⟨⟨⟨by decide +kernel, fun m => absurd ((decStr_facts a.status).2.1 10 m) (by decide)⟩, by decide⟩, h.1⟩, by decide⟩

private theorem answer_gives (a : HttpAnswer) (h : a.Plain) :
    Gives answerPart a.text ⟨some a.status, a.headers.map kept, a.body⟩ := by
  have ho : headOk a := ⟨h.reason, h.names, h.values⟩
  have g : Gives (readLine >>= fun line => headersPart >>= fun r =>
      if r.1 = 0 then Io.throw .other else Net.read r.1 >>= fun body => pure ⟨statusOf line, r.2, body⟩)
      ((str "HTTP/1.1 " ++ decStr a.status ++ [32] ++ a.reason ++ [13] ++ [10]) ++ ((a.headers.flatMap headerText ++ [13, 10]) ++ (a.body ++ [])))
      (⟨some a.status, a.headers.map kept, a.body⟩ : HttpResponse) := by
    refine Gives.bind (line_part a ho) (Gives.bind (headers_part a ho) ?_)
    simp only
    rw [length_read a h, if_neg (by have := h.body.1; simpa using this), status_read a h]
    exact Gives.bind (gives_read a.body _ rfl) (Gives.pure _)
  exact Gives.congr (p := answerPart) g (by simp [HttpAnswer.text]) rfl

/-! ## Calls over HTTP -/

private theorem trim_left (c : UInt8) (s : Bytes) (hc : isSpace c = true) : trim (c :: s) = trim s := by
  unfold trim; rw [List.dropWhile_cons, if_pos hc]

private theorem dropWhile_snoc (s : Bytes) (c : UInt8) (hc : isSpace c = true) :
    (s ++ [c]).dropWhile isSpace = [] ∧ s.dropWhile isSpace = [] ∨ (s ++ [c]).dropWhile isSpace = s.dropWhile isSpace ++ [c] := by
  induction s with
  | nil => left; simp [hc]
  | cons x s ih =>
    by_cases hx : isSpace x = true
    · simpa [hx] using ih
    · right; simp [hx]

private theorem trim_right (c : UInt8) (s : Bytes) (hc : isSpace c = true) : trim (s ++ [c]) = trim s := by
  unfold trim
  rcases dropWhile_snoc s c hc with ⟨h1, h2⟩ | h
  · rw [h1, h2]
  · rw [h, List.reverse_append, List.reverse_singleton, List.singleton_append, List.dropWhile_cons, if_pos hc]

private theorem kept_eq (h : Bytes × Bytes) : kept h = (h.1, trim (h.2.takeWhile (· ≠ 58))) := by
  unfold kept
  congr 1
  rw [List.takeWhile_cons, if_pos (by decide), trim_left _ _ (by decide), List.takeWhile_append]
  split
  · rename_i hl
    rw [List.takeWhile_cons, if_pos (by decide), List.takeWhile_nil, trim_right _ _ (by decide)]
    congr 1
    exact (List.takeWhile_prefix _).eq_of_length hl |>.symm
  · rfl

/-- The server takes the connection and answers: the caller gets the status and the body of this answer, and its headers as far as their first
colon, however the bytes are cut into pieces and whatever follows them; the server got the request and nothing else. -/
theorem http_answer (c : Conn) (hc : c.buf = []) (request : Bytes) (a : HttpAnswer) (h : a.Plain) (pieces : List Bytes) (extra : Bytes)
    (hp : pieces.flatten = a.text ++ extra) :
    ∃ c', httpCall (some pieces) request c =
        (.ok ⟨some a.status, a.headers.map fun h => (h.1, trim (h.2.takeWhile (· ≠ 58))), a.body⟩, c') ∧
      c'.sent = request ∧ c'.buf ++ c'.net.flatten = extra := by
  have hd : dial (some pieces) c = (.ok (), { c with net := pieces, sent := [], past := c.past ++ [c.sent] }) := rfl
  obtain ⟨c', e1, e2, e3, _, _⟩ := answer_gives a h ⟨c.buf, pieces, [] ++ request, c.past ++ [c.sent]⟩ extra (by rw [hc]; exact hp)
  refine ⟨c', ?_, by rw [e3]; rfl, e2⟩
  rw [httpCall, invoke_eq _ _ _ _ hd, e1]
  rw [show a.headers.map kept = a.headers.map fun h => (h.1, trim (h.2.takeWhile (· ≠ 58))) from List.map_congr_left fun h _ => kept_eq h]

/-- In two pieces, with bytes after them. -/
example : [okAnswer.text.take 20, okAnswer.text.drop 20 ++ [1]].flatten = okAnswer.text ++ [1] := by decide +kernel

/-- A call: the request, and the connection it meets. -/
structure HttpTry where
  request : Bytes
  net : Option (List Bytes)

/-- Calls one after the other with one client: what each returns. -/
def httpTries : Conn → List HttpTry → List (Except Fail HttpResponse)
  | _, [] => []
  | c, t :: ts =>
    let r := httpCall t.net t.request c
    r.1 :: httpTries r.2 ts

/-- Nothing takes the connection, or a server answers and says nothing after it. -/
inductive HttpMeets : HttpTry → Option HttpAnswer → Prop where
  | down (request : Bytes) : HttpMeets ⟨request, none⟩ none
  | answer (request : Bytes) (pieces : List Bytes) (a : HttpAnswer) (h : a.Plain) (hp : pieces.flatten = a.text) :
      HttpMeets ⟨request, some pieces⟩ (some a)

/-- Any number of calls with one client: each returns the answer to it, and those nothing answered fail. -/
theorem http_calls_partial (c : Conn) (hc : c.buf = []) (ts : List HttpTry) (as : List (Option HttpAnswer)) (h : List.Forall₂ HttpMeets ts as) :
    List.Forall₂ (fun r a => match a with
      | none => ∃ e, r = .error e
      | some a => ∃ x, r = .ok x ∧ x.status = some a.status ∧ x.body = a.body) (httpTries c ts) as := by
  induction h generalizing c with
  | nil => exact .nil
  | cons h1 h2 ih =>
    cases h1 with
    | down request =>
      refine .cons ⟨.other, ?_⟩ (ih _ ?_)
      · rw [httpCall, invoke_fails (dial none) request c _ .other rfl]
      · simp only
        rw [httpCall, invoke_fails (dial none) request c _ .other rfl]; exact hc
    | answer request pieces a ha hp =>
      obtain ⟨c', e1, e2, e3⟩ := http_answer c hc request a ha pieces [] (by simpa using hp)
      refine .cons ⟨_, by simp only; rw [e1], rfl, rfl⟩ (ih _ ?_)
      simp only
      rw [e1]
      exact (List.append_eq_nil_iff.mp e3).1

/-- The node is down at first. -/
example : List.Forall₂ HttpMeets [⟨str "GET", none⟩, ⟨str "GET", some [okAnswer.text]⟩] [none, some okAnswer] :=
  .cons (.down _) (.cons (.answer _ _ _ okAnswer_plain (by simp)) .nil)

/-- What a server sends after its answer stays with the client: if the bytes are there when the client reads the answer, the next call returns
them, whatever the server it is made to says. -/
theorem http_stale_violated (c : Conn) (hc : c.buf = []) (r1 r2 : Bytes) (a b : HttpAnswer) (ha : a.Plain) (hb : b.Plain) (pieces : List Bytes) :
    ∃ x y, httpTries c [⟨r1, some [a.text ++ b.text]⟩, ⟨r2, some pieces⟩] = [.ok x, .ok y] ∧ x.body = a.body ∧ y.body = b.body ∧
      y.status = some b.status := by
  have hd : ∀ p c, dial (some p) c = (.ok (), { c with net := p, sent := [], past := c.past ++ [c.sent] }) := fun _ _ => rfl
  obtain ⟨c1, e1, e2, _, _, e5⟩ := answer_gives a ha ⟨a.text ++ b.text, [], [] ++ r1, c.past ++ [c.sent]⟩ b.text (by simp)
  have hb1 : c1.buf = b.text := by rw [e5 rfl] at e2; simpa using e2
  have first : httpCall (some [a.text ++ b.text]) r1 c = (.ok ⟨some a.status, a.headers.map kept, a.body⟩, c1) := by
    rw [httpCall, invoke_eq _ _ _ _ (hd _ _), ← e1]
    have : readLine ⟨[], [a.text ++ b.text], [] ++ r1, c.past ++ [c.sent]⟩ = readLine ⟨a.text ++ b.text, [], [] ++ r1, c.past ++ [c.sent]⟩ := by
      unfold readLine
      simp only
      rw [show readLineGo [] [a.text ++ b.text] = readLineGo (a.text ++ b.text) [] by
        conv_lhs => rw [readLineGo]
        simp]
    unfold answerPart
    rw [bind_run, bind_run, hc, this]
  obtain ⟨c2, d1, _⟩ := answer_gives b hb ⟨c1.buf, pieces, [] ++ r2, c1.past ++ [c1.sent]⟩ pieces.flatten (by rw [hb1])
  refine ⟨⟨some a.status, a.headers.map kept, a.body⟩, ⟨some b.status, b.headers.map kept, b.body⟩, ?_, rfl, rfl, rfl⟩
  simp only [httpTries]
  rw [first]
  simp only
  rw [httpCall, invoke_eq _ _ _ _ (hd _ _), d1]

private theorem len_zero (hs : List (Bytes × Bytes)) (h : ∀ x ∈ hs, toLower x.1 ≠ str "content-length") : hs.foldl lenAfter 0 = 0 :=
  len_keep hs h 0

/-- An answer that does not give the length of its body in advance (none, `204`, or sent in chunks) is an error, whatever it says. -/
theorem http_no_length_violated (c : Conn) (hc : c.buf = []) (request : Bytes) (a : HttpAnswer) (hr : 10 ∉ a.reason)
    (hn : ∀ h ∈ a.headers, h.1 ≠ [] ∧ 58 ∉ h.1 ∧ ∀ c ∈ h.1, isSpace c = false) (hv : ∀ h ∈ a.headers, 10 ∉ h.2)
    (hl : ∀ h ∈ a.headers, toLower h.1 ≠ str "content-length") (pieces : List Bytes) (hp : pieces.flatten = a.text) :
    (httpCall (some pieces) request c).1 = .error .other := by
  have ho : headOk a := ⟨hr, hn, hv⟩
  have hd : dial (some pieces) c = (.ok (), { c with net := pieces, sent := [], past := c.past ++ [c.sent] }) := rfl
  obtain ⟨c1, e1, e2, _, _⟩ := line_part a ho ⟨c.buf, pieces, [] ++ request, c.past ++ [c.sent]⟩
    ((a.headers.flatMap headerText ++ [13, 10]) ++ a.body) (by rw [hc, List.nil_append, hp]; simp [HttpAnswer.text])
  obtain ⟨c2, d1, _⟩ := headers_part a ho c1 _ e2
  rw [httpCall, invoke_eq _ _ _ _ hd]
  show ((readLine >>= fun line => headersPart >>= fun r =>
      if r.1 = 0 then Io.throw .other else Net.read r.1 >>= fun body => pure (⟨statusOf line, r.2, body⟩ : HttpResponse)) _).1 = _
  rw [bind_run, e1]
  simp only
  rw [bind_run, d1]
  simp only
  rw [len_zero _ hl, if_pos rfl]
  rfl

example : ∀ h ∈ [(str "Transfer-Encoding", str "chunked")], h.1 ≠ [] ∧ 58 ∉ h.1 ∧ (∀ c ∈ h.1, isSpace c = false) ∧ 10 ∉ h.2 ∧
    toLower h.1 ≠ str "content-length" := by decide +kernel

/-! ## Requests -/

/-- A request on the wire (RFC 9112). -/
def requestText (method target : Bytes) (headers : List (Bytes × Bytes)) (body : Bytes) : Bytes :=
  method ++ [32] ++ target ++ str " HTTP/1.1" ++ [13, 10] ++ headers.flatMap headerText ++ [13, 10] ++ body

/-- The request is one of HTTP/1.1 with the method, the target and the body asked for, and gives the host and the length of the body. -/
theorem http_request (post : Bool) (location host body : Bytes) :
    httpText post location host body = requestText (if post then str "POST" else str "GET") location
      [(str "Host", host), (str "Content-Length", decStr body.length), (str "Content-Type", str "application/json-rpc")] body := by
  have a1 : str " HTTP/1.1\r\n" = str " HTTP/1.1" ++ [13, 10] := by decide +kernel
  have a2 : str "Host: " = str "Host" ++ str ": " := by decide +kernel
  have a3 : str "Content-Length: " = str "Content-Length" ++ str ": " := by decide +kernel
  have a4 : str "Content-Type: application/json-rpc\r\n\r\n" = str "Content-Type" ++ str ": " ++ str "application/json-rpc" ++ [13, 10] ++ [13, 10] := by
    decide +kernel
  have a5 : str "\r\n" = [13, 10] := by decide +kernel
  unfold httpText requestText
  rw [a1, a2, a3, a4, a5]
  simp [headerText]

private theorem cut_at (d : UInt8) (u v u' v' : Bytes) (h : d ∉ u) (h' : d ∉ u') (e : u ++ d :: v = u' ++ d :: v') : u = u' ∧ v = v' := by
  induction u generalizing u' with
  | nil =>
    cases u' with
    | nil => simpa using e
    | cons x u' => simp at e; exact absurd (by simp [← e.1]) h'
  | cons x u ih =>
    cases u' with
    | nil => simp at e; exact absurd (by simp [e.1]) h
    | cons y u' =>
      simp only [List.cons_append, List.cons.injEq] at e
      obtain ⟨k1, k2⟩ := ih u' (fun m => h (by simp [m])) (fun m => h' (by simp [m])) e.2
      exact ⟨by rw [e.1, k1], k2⟩

/-- No two requests are written alike, if targets have no blank and hosts no carriage return: what the server reads is what was asked. -/
theorem http_request_injective (p p' : Bool) (l l' h h' b b' : Bytes) (hl : 32 ∉ l) (hl' : 32 ∉ l') (hh : 13 ∉ h) (hh' : 13 ∉ h')
    (e : httpText p l h b = httpText p' l' h' b') : p = p' ∧ l = l' ∧ h = h' ∧ b = b' := by
  have f : ∀ p l h b, httpText p l h b = (if p then str "POST" else str "GET") ++ 32 :: (l ++ 32 :: ((str "HTTP/1.1\r\nHost: ") ++ (h ++ 13 :: (
      str "\nContent-Length: " ++ (decStr b.length ++ 13 :: (str "\nContent-Type: application/json-rpc\r\n\r\n" ++ b)))))) := by
    intro p l h b
    have a1 : str " HTTP/1.1\r\n" ++ str "Host: " = 32 :: str "HTTP/1.1\r\nHost: " := by decide +kernel
    have a2 : str "\r\n" ++ str "Content-Length: " = 13 :: str "\nContent-Length: " := by decide +kernel
    have a3 : str "\r\n" ++ str "Content-Type: application/json-rpc\r\n\r\n" = 13 :: str "\nContent-Type: application/json-rpc\r\n\r\n" := by
      decide +kernel
    unfold httpText
    calc _ = (if p then str "POST" else str "GET") ++ 32 :: (l ++ ((str " HTTP/1.1\r\n" ++ str "Host: ") ++ (h ++ ((str "\r\n" ++ str "Content-Length: ") ++
          (decStr b.length ++ ((str "\r\n" ++ str "Content-Type: application/json-rpc\r\n\r\n") ++ b)))))) := by
            simp only [List.append_assoc, List.cons_append, List.nil_append]
      _ = _ := by rw [a1, a2, a3]; simp only [List.cons_append]
  rw [f, f] at e
  have m : ∀ q : Bool, 32 ∉ (if q then str "POST" else str "GET") := by decide +kernel
  have d : ∀ n, 13 ∉ decStr n := fun n i => absurd ((decStr_facts n).2.1 13 i) (by decide)
  obtain ⟨e1, e⟩ := cut_at 32 _ _ _ _ (m p) (m p') e
  obtain ⟨e2, e⟩ := cut_at 32 _ _ _ _ hl hl' e
  obtain ⟨e3, e⟩ := cut_at 13 _ _ _ _ hh hh' (List.append_cancel_left e)
  obtain ⟨_, e⟩ := cut_at 13 _ _ _ _ (d _) (d _) (List.append_cancel_left e)
  refine ⟨?_, e2, e3, List.append_cancel_left e⟩
  revert e1
  cases p <;> cases p' <;> decide +kernel

/-! ## Calls through Tor -/

/-- A request for a connection to a host by name (RFC 1928, section 4). -/
def SocksAsks (bs host : Bytes) (port : Nat) : Prop :=
  ∃ n p q : UInt8, bs = [5, 1, 0, 3, n] ++ host ++ [p, q] ∧ n.toNat = host.length ∧ p.toNat * 256 + q.toNat = port

/-- The address in a reply (RFC 1928, section 6): four bytes, sixteen, or a name with its length; then a port. -/
inductive SocksAddress : UInt8 → Bytes → Prop where
  | ip4 (a p : Bytes) (ha : a.length = 4) (hp : p.length = 2) : SocksAddress 1 (a ++ p)
  | ip6 (a p : Bytes) (ha : a.length = 16) (hp : p.length = 2) : SocksAddress 4 (a ++ p)
  | name (n : UInt8) (a p : Bytes) (ha : a.length = n.toNat) (hp : p.length = 2) : SocksAddress 3 (n :: a ++ p)

/-- What the proxy says: no authentication, then a reply with this code. -/
def SocksSays (code : UInt8) (bs : Bytes) : Prop := ∃ type addr, SocksAddress type addr ∧ bs = [5, 0] ++ [5, code, 0, type] ++ addr

example : SocksSays 0 [5, 0, 5, 0, 0, 1, 0, 0, 0, 0, 0, 0] := ⟨1, _, .ip4 [0, 0, 0, 0] [0, 0] rfl rfl, rfl⟩

/-- The host is not there. -/
example : SocksSays 4 [5, 0, 5, 4, 0, 1, 0, 0, 0, 0, 0, 0] := ⟨1, _, .ip4 [0, 0, 0, 0] [0, 0] rfl rfl, rfl⟩

private theorem request_asks (dest : Bytes) (port : Nat) (hd : dest.length ≤ 255) (hp : port < 65536) : SocksAsks (socksRequest dest port) dest port := by
  refine ⟨UInt8.ofNat dest.length, UInt8.ofNat (port / 256 % 256), UInt8.ofNat (port % 256), rfl, ?_, ?_⟩
  · simp; omega
  · simp; omega

private theorem dest_gives (type : UInt8) (addr : Bytes) (h : SocksAddress type addr) : Gives (socksDest type) addr () := by
  cases h with
  | ip4 a p ha hp =>
    have : Gives (Net.read 4 >>= fun _ => Net.read 2 >>= fun _ => (pure () : Io Unit)) (a ++ (p ++ [])) () :=
      Gives.bind (gives_read a 4 ha) (Gives.bind (gives_read p 2 hp) (Gives.pure ()))
    exact this.congr (by simp) rfl
  | ip6 a p ha hp =>
    have : Gives (Net.read 16 >>= fun _ => Net.read 2 >>= fun _ => (pure () : Io Unit)) (a ++ (p ++ [])) () :=
      Gives.bind (gives_read a 16 ha) (Gives.bind (gives_read p 2 hp) (Gives.pure ()))
    exact this.congr (by simp) rfl
  | name n a p ha hp =>
    have : Gives (Net.read 1 >>= fun l => Net.read (l.getD 0 0).toNat >>= fun _ => Net.read 2 >>= fun _ => (pure () : Io Unit)) ([n] ++ (a ++ (p ++ []))) () :=
      Gives.bind (gives_read [n] 1 rfl) (Gives.bind (gives_read a _ ha) (Gives.bind (gives_read p 2 hp) (Gives.pure ())))
    exact this.congr (by simp) rfl

private theorem auth_gives : Gives socksAuth [5, 0] () := by
  have : Gives (Net.read 2 >>= fun r => if r.getD 0 0 ≠ 5 then Io.throw .socks else if r.getD 1 0 = 0 then pure () else Io.throw .socks) ([5, 0] ++ []) () :=
    Gives.bind (gives_read [5, 0] 2 rfl) (by rw [if_neg (by decide), if_pos (by decide)]; exact Gives.pure ())
  exact this.congr rfl rfl

private theorem reply_gives (code type : UInt8) (addr : Bytes) (h : SocksAddress type addr) :
    Gives (Net.read 4 >>= fun r => if r.getD 0 0 ≠ 5 then Io.throw .socks else if r.getD 2 0 ≠ 0 then Io.throw .socks else socksDest (r.getD 3 0))
      ([5, code, 0, type] ++ addr) () := by
  refine Gives.bind (gives_read [5, code, 0, type] 4 rfl) ?_
  rw [if_neg (by simp), if_neg (by simp)]
  exact dest_gives type addr h

private theorem attempt_ok (c : Conn) (hc : c.buf = []) (pieces : List Bytes) (dest : Bytes) (port : Nat) (code : UInt8) (reply rest : Bytes)
    (hs : SocksSays code reply) (hp : pieces.flatten = reply ++ rest) (hd : dest.length ≤ 255) :
    ∃ c', socksAttempt (some pieces) dest port c = (.ok (), c') ∧ c'.buf ++ c'.net.flatten = rest ∧
      c'.sent = [5, 1, 0] ++ socksRequest (dest ++ str ".onion") port ∧ c'.past = c.past ++ [c.sent] := by
  obtain ⟨type, addr, ha, rfl⟩ := hs
  obtain ⟨c1, e1, e2, e3, e4, _⟩ := auth_gives ⟨c.buf, pieces, [] ++ [5, 1, 0], c.past ++ [c.sent]⟩ ([5, code, 0, type] ++ addr ++ rest)
    (by rw [hc, List.nil_append, hp]; simp)
  obtain ⟨c2, d1, d2, d3, d4, _⟩ := reply_gives code type addr ha { c1 with sent := c1.sent ++ socksRequest (dest ++ str ".onion") port } rest
    (by simpa using e2)
  refine ⟨c2, ?_, d2, by rw [d3, e3]; rfl, by rw [d4, e4]⟩
  unfold socksAttempt
  rw [bind_run]
  show (if dest.length > 255 then Io.throw .socks else _ : Io Unit) _ = _
  rw [if_neg (by omega)]
  show (socksAuth >>= fun _ => socksConnect (dest ++ str ".onion") port) ⟨c.buf, pieces, [] ++ [5, 1, 0], c.past ++ [c.sent]⟩ = _
  rw [bind_run, e1]
  exact d1

private theorem attempt_down (c : Conn) (hc : c.buf = []) (net : Option (List Bytes)) (hn : net = none ∨ net = some []) (dest : Bytes) (port : Nat)
    (hd : dest.length ≤ 255) : ∃ c', socksAttempt net dest port c = (.error .other, c') ∧ c'.buf = [] := by
  rcases hn with rfl | rfl
  · exact ⟨_, rfl, hc⟩
  · refine ⟨⟨[], [], [] ++ [5, 1, 0], c.past ++ [c.sent]⟩, ?_, rfl⟩
    unfold socksAttempt
    rw [bind_run]
    show (if dest.length > 255 then Io.throw .socks else _ : Io Unit) _ = _
    rw [if_neg (by omega)]
    show (socksAuth >>= fun _ => socksConnect (dest ++ str ".onion") port) ⟨c.buf, [], [] ++ [5, 1, 0], c.past ++ [c.sent]⟩ = _
    rw [hc, bind_run]
    have : Net.read 2 ⟨[], [], [] ++ [5, 1, 0], c.past ++ [c.sent]⟩ = (.error .other, ⟨[], [], [] ++ [5, 1, 0], c.past ++ [c.sent]⟩) := by
      unfold Net.read; rw [readGo]; rfl
    unfold socksAuth
    rw [bind_run, this]

private theorem establish_succ (nets : Nat → Option (List Bytes)) (dest : Bytes) (port left : Nat) (c : Conn) :
    socksEstablish nets dest port (left + 1) c = match socksAttempt (nets (5 - (left + 1))) dest port c with
      | (.ok a, c') => (.ok a, c')
      | (.error .socks, c') => if 5 - left < 3 then socksEstablish nets dest port left c' else (.error .socks, c')
      | (.error .other, c') => if 5 - left < 5 then socksEstablish nets dest port left c' else (.error .socks, c')
      | (.error .stuck, c') => (.error .stuck, c') := rfl

private theorem establish_ok (nets : Nat → Option (List Bytes)) (dest : Bytes) (port : Nat) (code : UInt8) (reply rest : Bytes) (hd : dest.length ≤ 255)
    (hs : SocksSays code reply) (pieces : List Bytes) (hp : pieces.flatten = reply ++ rest) :
    ∀ (left : Nat) (c : Conn), c.buf = [] → left ≤ 5 → ∀ j, j < left → nets (5 - left + j) = some pieces →
      (∀ i, i < j → nets (5 - left + i) = none ∨ nets (5 - left + i) = some []) →
      ∃ c', socksEstablish nets dest port left c = (.ok (), c') ∧ c'.buf ++ c'.net.flatten = rest ∧
        c'.sent = [5, 1, 0] ++ socksRequest (dest ++ str ".onion") port := by
  intro left
  induction left with
  | zero => intro c _ _ j hj; omega
  | succ left ih =>
    intro c hc hk j hj hn hb
    rw [establish_succ]
    cases j with
    | zero =>
      rw [Nat.add_zero] at hn
      obtain ⟨c', e1, e2, e3, _⟩ := attempt_ok c hc pieces dest port code reply rest hs hp hd
      rw [hn, e1]
      exact ⟨c', rfl, e2, e3⟩
    | succ j =>
      obtain ⟨c1, e1, e2⟩ := attempt_down c hc _ (hb 0 (by omega)) dest port hd
      rw [Nat.add_zero] at e1
      rw [e1]
      simp only
      rw [if_pos (by omega)]
      have sh : ∀ i, 5 - (left + 1) + (i + 1) = 5 - left + i := by intro i; omega
      refine ih c1 e2 (by omega) j (by omega) (by rw [← sh]; exact hn) fun i hi => ?_
      rw [← sh]
      exact hb (i + 1) (by omega)

/-- A call through Tor: of the five attempts the first ones find nothing, then the proxy connects and the wallet at the address answers.  The
proxy has read a greeting, a request for the address (with `.onion`) and the port, and the wallet the request made; the caller gets the answer
to it. -/
theorem tor_call (c : Conn) (hc : c.buf = []) (nets : Nat → Option (List Bytes)) (dest : Bytes) (port : Nat) (request : Bytes) (a : HttpAnswer)
    (h : a.Plain) (hd : dest.length ≤ 249) (hport : port < 65536) (k : Nat) (hk : k < 5) (hb : ∀ i, i < k → nets i = none ∨ nets i = some [])
    (reply extra : Bytes) (hs : SocksSays 0 reply) (pieces : List Bytes) (hn : nets k = some pieces) (hp : pieces.flatten = reply ++ a.text ++ extra) :
    ∃ x c' asks, torCall nets dest port request c = (.ok x, c') ∧ x.status = some a.status ∧ x.body = a.body ∧
      c'.buf ++ c'.net.flatten = extra ∧ c'.sent = [5, 1, 0] ++ asks ++ request ∧ SocksAsks asks (dest ++ str ".onion") port := by
  obtain ⟨c1, e1, e2, e3⟩ := establish_ok nets dest port 0 reply (a.text ++ extra) (by omega) hs pieces (by rw [hp]; simp) 5 c hc (by omega)
    k hk (by simpa using hn) (by simpa using hb)
  obtain ⟨c2, d1, d2, d3, _⟩ := answer_gives a h { c1 with sent := c1.sent ++ request } extra e2
  refine ⟨⟨some a.status, a.headers.map kept, a.body⟩, c2, socksRequest (dest ++ str ".onion") port, ?_, rfl, rfl, d2, by rw [d3, e3], request_asks _ _ ?_ hport⟩
  · rw [torCall, invoke_eq _ _ _ _ e1, d1]
  · have : (str ".onion").length = 6 := by decide
    simp; omega

/-- The proxy refuses (any code but 0: no route, the host is not there, not allowed) and closes the connection: the client takes this for a
connection, writes the request to it, and does not try again, whatever the next attempt would meet. -/
theorem tor_refused_violated (c : Conn) (hc : c.buf = []) (nets : Nat → Option (List Bytes)) (dest : Bytes) (port : Nat) (request : Bytes)
    (hd : dest.length ≤ 249) (code : UInt8) (reply : Bytes) (hs : SocksSays code reply) (pieces : List Bytes) (hn : nets 0 = some pieces)
    (hp : pieces.flatten = reply) :
    ∃ c' asks, torCall nets dest port request c = (.error .other, c') ∧ c'.sent = [5, 1, 0] ++ asks ++ request ∧ c'.past = c.past ++ [c.sent] := by
  obtain ⟨c1, e1, e2, e3, e4⟩ := attempt_ok c hc pieces dest port code reply [] hs (by simpa using hp) (by omega)
  have est : socksEstablish nets dest port 5 c = (.ok (), c1) := by
    rw [establish_succ]
    simp only [Nat.reduceAdd, Nat.reduceSub]
    rw [hn, e1]
  have hb : c1.buf = [] ∧ c1.net.flatten = [] := List.append_eq_nil_iff.mp e2
  have line : ∀ (net : List Bytes), net.flatten = [] → readLineGo [] net = (.error .other, [], []) := by
    intro net
    induction net with
    | nil => intro _; rw [readLineGo]; rfl
    | cons s net ih =>
      intro hf
      rw [List.flatten_cons, List.append_eq_nil_iff] at hf
      rw [readLineGo, if_neg (by simp)]
      simp only [hf.1, List.append_nil]
      exact ih hf.2
  refine ⟨⟨[], [], c1.sent ++ request, c1.past⟩, socksRequest (dest ++ str ".onion") port, ?_, by simp only; rw [e3], e4⟩
  rw [torCall, invoke_eq _ _ _ _ est]
  unfold answerPart
  rw [bind_run]
  have : readLine { c1 with sent := c1.sent ++ request } = (.error .other, ⟨[], [], c1.sent ++ request, c1.past⟩) := by
    unfold readLine
    simp only
    rw [hb.1, line _ hb.2]
  rw [this]

end Verif.Props
