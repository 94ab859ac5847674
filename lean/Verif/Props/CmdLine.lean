import Verif.Api.CmdLine
import Verif.Props.Json
import Mathlib.Data.List.Infix

/-!
# The command line (C133)

The documented options, in any order and number, mean what the help text says.  What else may stand on the command
line: an option nobody knows is passed over in silence, and an abbreviation that fits two options never comes to an
end.
-/
namespace Verif.Props
open Verif Verif.Codec Verif.Cmd

/-! ## Specification -/

/-- An argument as the help text (opt.h:64-73) describes it, or a word that is no option.  An option with a value may
have it behind `=` or as the next argument. -/
inductive CmdArg where
  | word (w : Bytes)
  | help
  | floonet
  | headless
  | noWallet
  | sharedNode (host : Bytes) (port : Nat) (joined : Bool)
  | configPath (path : Bytes) (joined : Bool)
deriving DecidableEq

/-- How an argument is written. -/
def CmdArg.written : CmdArg → List Bytes
  | .word w => [w]
  | .help => [str "--help"]
  | .floonet => [str "--floonet"]
  | .headless => [str "--headless"]
  | .noWallet => [str "--no-wallet"]
  | .sharedNode h p true => [str "--shared-node" ++ 61 :: (h ++ 58 :: decStr p)]
  | .sharedNode h p false => [str "--shared-node", h ++ 58 :: decStr p]
  | .configPath p true => [str "--config-path" ++ 61 :: p]
  | .configPath p false => [str "--config-path", p]

/-- A word does not begin with a dash; a node has a host without colons and a port. -/
def CmdArg.Documented : CmdArg → Prop
  | .word w => w.head? ≠ some 45
  | .sharedNode h p _ => h ≠ [] ∧ 58 ∉ h ∧ p < 2 ^ 16
  | _ => True

/-- The node an argument names. -/
def CmdArg.node : CmdArg → Option (Bytes × Nat)
  | .sharedNode h p _ => some (h, p)
  | _ => none

/-- The file an argument names. -/
def CmdArg.file : CmdArg → Option Bytes
  | .configPath p _ => some p
  | _ => none

/-- What the arguments say: a switch is on if it is there, a node or a file is the last one named, and a shared node
means no console output. -/
def saidBy (l : List CmdArg) : Options where
  help := decide (CmdArg.help ∈ l)
  headless := decide (CmdArg.headless ∈ l) || l.any (·.node.isSome)
  floonet := decide (CmdArg.floonet ∈ l)
  includeWallet := !decide (CmdArg.noWallet ∈ l)
  sharedNode := (l.filterMap CmdArg.node).getLast?
  configPath := (l.filterMap CmdArg.file).getLast?

/-- The names of the options. -/
def documentedNames : List Bytes :=
  [str "help", str "floonet", str "headless", str "no-wallet", str "shared-node", str "config-path"]

/-- An argument that abbreviates two options: `--h` and `--he`, with or without a value, and a value without a
name. -/
def Ambiguous (a : Bytes) : Prop :=
  a = str "--h" ∨ a = str "--he" ∨ ∃ v, a = str "--=" ++ v ∨ a = str "--h=" ++ v ∨ a = str "--he=" ++ v

/-! ## The parser stands before the rest of the arguments -/

private def At (s : Ket) (rest : List Bytes) : Prop :=
  s.i ≤ s.argv.length ∧ s.nArgs ≤ s.i ∧ s.pos = some 0 ∧ s.argv.drop s.i = rest

private theorem permute_drop (v : List Bytes) (j n k : Nat) (hn : n ≤ j) (hj : j < v.length) (hk : j < k) :
    (permute v j n).drop k = v.drop k ∧ (permute v j n).length = v.length := by
  have hl : (v.take (j - n) ++ (v.drop j).take 1 ++ (v.drop (j - n)).take n).length = j + 1 := by
    simp only [List.length_append, List.length_take, List.length_drop]; omega
  constructor
  · unfold permute
    rw [List.drop_append, hl, List.drop_eq_nil_of_le (by omega), List.nil_append, List.drop_drop]
    congr 1; omega
  · unfold permute
    rw [List.length_append, hl, List.length_drop]; omega

private theorem permutes_drop (n k : Nat) : ∀ (js : List Nat) (v : List Bytes), (∀ j ∈ js, n ≤ j ∧ j < v.length ∧ j < k) →
    (js.foldl (fun v j => permute v j n) v).drop k = v.drop k ∧
      (js.foldl (fun v j => permute v j n) v).length = v.length := by
  intro js
  induction js with
  | nil => intro v _; exact ⟨rfl, rfl⟩
  | cons j js ih =>
    intro v h
    obtain ⟨a, b, c⟩ := h j (by simp)
    obtain ⟨p, q⟩ := permute_drop v j n k a b c
    obtain ⟨r, t⟩ := ih (permute v j n) (fun x hx => by rw [q]; exact h x (by simp [hx]))
    exact ⟨r.trans p, t.trans q⟩

private theorem finish_at (argv : List Bytes) (i0 i n : Nat) (h0 : i0 ≤ i) (hi : i < argv.length) (hn : n ≤ i0) :
    At (finish argv i0 i none n) (argv.drop (i + 1)) := by
  have hp := permutes_drop n (i + 1) (List.range' i0 (i + 1 - i0)) argv (fun j hj => by
    rw [List.mem_range'_1] at hj; omega)
  unfold finish
  simp only [if_true]
  by_cases h : n > 0
  · rw [if_pos h]
    exact ⟨hp.2.symm ▸ hi, by show n ≤ i + 1; omega, rfl, hp.1⟩
  · rw [if_neg h]
    exact ⟨hi, by show n ≤ i + 1; omega, rfl, rfl⟩

private theorem at_get {s : Ket} {a : Bytes} {rest : List Bytes} (h : s.argv.drop s.i = a :: rest) :
    s.argv[s.i]? = some a ∧ s.i < s.argv.length ∧ s.argv.drop (s.i + 1) = rest := by
  have hlt : s.i < s.argv.length := by
    by_contra hc
    rw [List.drop_eq_nil_of_le (by omega)] at h; cases h
  refine ⟨?_, hlt, ?_⟩
  · rw [← List.head?_drop, h]; rfl
  · rw [← List.drop_drop, h]; rfl

private theorem ket_word {s : Ket} {w : Bytes} {rest : List Bytes} (h : At s (w :: rest)) (hw : plain w = true) :
    At { s with i := s.i + 1, nArgs := s.nArgs + 1 } rest ∧
      ketopt s = ketopt { s with i := s.i + 1, nArgs := s.nArgs + 1 } := by
  obtain ⟨h1, h2, h3, h4⟩ := h
  obtain ⟨-, g2, g3⟩ := at_get h4
  refine ⟨⟨g2, by show s.nArgs + 1 ≤ s.i + 1; omega, h3, g3⟩, ?_⟩
  unfold ketopt
  simp only [h4, g3, List.takeWhile_cons, hw, if_true, List.length_cons]
  have e1 : s.i + ((rest.takeWhile plain).length + 1) = s.i + 1 + (rest.takeWhile plain).length := by omega
  have e2 : s.nArgs + ((rest.takeWhile plain).length + 1) = s.nArgs + 1 + (rest.takeWhile plain).length := by omega
  rw [e1, e2]

private theorem ket_option {s : Ket} {a : Bytes} {rest : List Bytes} (h : s.argv.drop s.i = a :: rest)
    (ha : plain a = false) :
    ketopt s = if chr a 1 = 45 then
      if chr a 2 = 0 then .ok (none, none, ⟨permute s.argv s.i s.nArgs, s.i + 1, s.pos, s.nArgs⟩)
      else .ok (longStep s.argv s.i s.nArgs a)
    else match s.pos with
      | none => .ub
      | some p => .ok (shortStep s.argv s.i s.nArgs a p) := by
  unfold ketopt
  simp only [h, List.takeWhile_cons, ha, Bool.false_eq_true, if_false, List.length_nil, Nat.add_zero, (at_get h).1]
  cases s.pos <;> rfl

private theorem ket_long {s : Ket} {b : Bytes} {rest : List Bytes} (h : s.argv.drop s.i = (45 :: 45 :: b) :: rest)
    (hb : chr b 0 ≠ 0) : ketopt s = .ok (longStep s.argv s.i s.nArgs (45 :: 45 :: b)) := by
  have hp : plain (45 :: 45 :: b) = false := by unfold plain chr; simp
  rw [ket_option h hp, if_pos (by rfl), if_neg (by exact hb)]

private theorem ket_end {s : Ket} (h : At s []) : ∃ s', ketopt s = .ok (none, none, s') := by
  obtain ⟨h1, -, -, h4⟩ := h
  refine ⟨⟨s.argv, s.i, s.pos, s.nArgs⟩, ?_⟩
  have e : s.i = s.argv.length := by
    have := congrArg List.length h4
    rw [List.length_drop, List.length_nil] at this; omega
  unfold ketopt
  have g : s.argv[s.i]? = none := by rw [List.getElem?_eq_none_iff]; omega
  simp only [h4, List.takeWhile_nil, List.length_nil, Nat.add_zero, g]

private theorem takeWhile_name {name tail : Bytes} (h : 61 ∉ name) (ht : tail = [] ∨ tail.head? = some 61) :
    (name ++ tail).takeWhile (· != 61) = name := by
  induction name with
  | nil =>
    rcases ht with rfl | ht
    · rfl
    · cases tail with
      | nil => rfl
      | cons c t => cases ht; rfl
  | cons c n ih =>
    rw [List.mem_cons, not_or] at h
    rw [List.cons_append, List.takeWhile_cons, if_pos (by simpa using fun e => h.1 e.symm), ih h.2]

private theorem chr_tail (name tail : Bytes) : chr (45 :: 45 :: (name ++ tail)) (name.length + 2) = chr tail 0 := by
  unfold chr
  rw [List.getD_cons_succ, List.getD_cons_succ, List.getD_append_right _ _ _ _ (Nat.le_refl _), Nat.sub_self]

private theorem exact_one {name : Bytes} {o : LongOpt}
    (h : longopts.filter (fun o => decide (o.name = name)) = [o]) : (longopts.filter (fun o => decide (o.name = name))).length = 1 := by
  rw [h]; rfl

private theorem long_flag (argv : List Bytes) (i n : Nat) {name : Bytes} {o : LongOpt} (h61 : 61 ∉ name)
    (hex : longopts.filter (fun o => decide (o.name = name)) = [o]) (ho : o.hasArg = 0) :
    longStep argv i n (45 :: 45 :: name) = (some o.val, none, finish argv i i none n) := by
  have hn := takeWhile_name (tail := []) h61 (Or.inl rfl)
  have hc := chr_tail name []
  rw [List.append_nil] at hn hc
  unfold longStep
  simp only [List.drop_succ_cons, List.drop_zero, hn, hex, List.length_singleton, hc]
  simp [chr, ho]

private theorem long_joined (argv : List Bytes) (i n : Nat) {name v : Bytes} {o : LongOpt} (h61 : 61 ∉ name)
    (hex : longopts.filter (fun o => decide (o.name = name)) = [o]) :
    longStep argv i n (45 :: 45 :: (name ++ 61 :: v)) = (some o.val, some v, finish argv i i none n) := by
  have hn := takeWhile_name (tail := 61 :: v) h61 (Or.inr rfl)
  have hc := chr_tail name (61 :: v)
  unfold longStep
  simp only [List.drop_succ_cons, List.drop_zero, hn, hex, List.length_singleton, hc]
  have hd : (name ++ 61 :: v).drop (name.length + 1) = v := by
    rw [← List.drop_drop, List.drop_left]; rfl
  simp [chr, hd]

private theorem long_next (argv : List Bytes) (i n : Nat) {name : Bytes} {o : LongOpt} (h61 : 61 ∉ name)
    (hex : longopts.filter (fun o => decide (o.name = name)) = [o]) (ho : o.hasArg = 1) (hi : i + 1 < argv.length) :
    longStep argv i n (45 :: 45 :: name) = (some o.val, some (argv.getD (i + 1) []), finish argv i (i + 1) none n) := by
  have hn := takeWhile_name (tail := []) h61 (Or.inl rfl)
  have hc := chr_tail name []
  rw [List.append_nil] at hn hc
  unfold longStep
  simp only [List.drop_succ_cons, List.drop_zero, hn, hex, List.length_singleton, hc]
  simp [chr, hi, ho]

/-! ## One argument at a time -/

private def means (o : Options) : CmdArg → Options
  | .word _ => o
  | .help => { o with help := true }
  | .floonet => { o with floonet := true }
  | .headless => { o with headless := true }
  | .noWallet => { o with includeWallet := false }
  | .sharedNode h p _ => { o with sharedNode := some (h, p), headless := true }
  | .configPath p _ => { o with configPath := some p }

/-- From `s` with `o`, the loop comes to `s'` with `o'` in `k` rounds. -/
private def Comes (s : Ket) (o : Options) (k : Nat) (s' : Ket) (o' : Options) : Prop :=
  ∀ fuel, loop (fuel + k) s o = loop fuel s' o'

private theorem comes_step {s : Ket} {o : Options} {c : Nat} {arg : Option Bytes} {s' : Ket} {o' : Options}
    (h : ketopt s = .ok (some c, arg, s')) (ha : apply o c arg = .ok o') : Comes s o 1 s' o' := by
  intro fuel; rw [loop, h]; simp only [ha]

private theorem apply_node {o : Options} {h : Bytes} {p : Nat} (h1 : h ≠ []) (h2 : 58 ∉ h) (h3 : p < 2 ^ 16) :
    apply o 305 (some (h ++ 58 :: decStr p)) = .ok { o with sharedNode := some (h, p), headless := true } := by
  have hd := decStr_facts p
  have hs : split 58 (h ++ 58 :: decStr p) = [h, decStr p] := by
    have hno : (58 : UInt8) ∉ decStr p := fun hx => absurd (hd.2.1 58 hx) (by decide)
    exact split_join 58 [h, decStr p] (by
      intro t ht
      rcases List.mem_cons.mp ht with rfl | ht
      · exact ⟨h1, h2⟩
      · rw [List.mem_singleton.mp ht]; exact ⟨hd.1, hno⟩)
  have hp := stoull_dec p (by omega) [] (by simp)
  rw [List.append_nil] at hp
  unfold apply
  simp only [hs, hp, Nat.reduceEqDiff, if_false, if_true, Res.ok_bind, Res.pure_eq, Nat.mod_eq_of_lt h3]

private theorem one_arg (a : CmdArg) (ha : a.Documented) (s : Ket) (o : Options) (rest : List Bytes)
    (hs : At s (a.written ++ rest)) : ∃ k s', k ≤ 1 ∧ At s' rest ∧ Comes s o k s' (means o a) := by
  have flag : ∀ (name : Bytes) (x : LongOpt), 61 ∉ name → chr name 0 ≠ 0 →
      longopts.filter (fun o => decide (o.name = name)) = [x] → x.hasArg = 0 → At s ((45 :: 45 :: name) :: rest) →
      ∀ o', apply o x.val none = .ok o' → ∃ k s', k ≤ 1 ∧ At s' rest ∧ Comes s o k s' o' := by
    intro name x h1 h2 h3 h4 h5 o' h6
    obtain ⟨-, g2, g3⟩ := at_get h5.2.2.2
    refine ⟨1, finish s.argv s.i s.i none s.nArgs, Nat.le_refl _, ?_, ?_⟩
    · rw [← g3]; exact finish_at _ _ _ _ (Nat.le_refl _) g2 h5.2.1
    · exact comes_step (by rw [ket_long h5.2.2.2 h2, long_flag _ _ _ h1 h3 h4]) h6
  have joined : ∀ (name v : Bytes) (x : LongOpt), 61 ∉ name → name ≠ [] → chr name 0 ≠ 0 →
      longopts.filter (fun o => decide (o.name = name)) = [x] → At s ((45 :: 45 :: (name ++ 61 :: v)) :: rest) →
      ∀ o', apply o x.val (some v) = .ok o' → ∃ k s', k ≤ 1 ∧ At s' rest ∧ Comes s o k s' o' := by
    intro name v x h1 h0 h2 h3 h5 o' h6
    obtain ⟨-, g2, g3⟩ := at_get h5.2.2.2
    refine ⟨1, finish s.argv s.i s.i none s.nArgs, Nat.le_refl _, ?_, ?_⟩
    · rw [← g3]; exact finish_at _ _ _ _ (Nat.le_refl _) g2 h5.2.1
    · have hb : chr (name ++ 61 :: v) 0 ≠ 0 := by
        cases name with
        | nil => exact absurd rfl h0
        | cons c n => exact h2
      exact comes_step (by rw [ket_long h5.2.2.2 hb, long_joined _ _ _ h1 h3]) h6
  have next : ∀ (name v : Bytes) (x : LongOpt), 61 ∉ name → chr name 0 ≠ 0 →
      longopts.filter (fun o => decide (o.name = name)) = [x] → x.hasArg = 1 → At s ((45 :: 45 :: name) :: v :: rest) →
      ∀ o', apply o x.val (some v) = .ok o' → ∃ k s', k ≤ 1 ∧ At s' rest ∧ Comes s o k s' o' := by
    intro name v x h1 h2 h3 h4 h5 o' h6
    obtain ⟨-, g2, g3⟩ := at_get h5.2.2.2
    have hlt : s.i + 1 < s.argv.length := by
      by_contra hc
      rw [List.drop_eq_nil_of_le (by omega)] at g3; cases g3
    have hv : s.argv.getD (s.i + 1) [] = v := by
      rw [List.getD_eq_getElem?_getD, ← List.head?_drop, g3]; rfl
    have hr : s.argv.drop (s.i + 1 + 1) = rest := by rw [← List.drop_drop, g3]; rfl
    refine ⟨1, finish s.argv s.i (s.i + 1) none s.nArgs, Nat.le_refl _, ?_, ?_⟩
    · rw [← hr]; exact finish_at _ _ _ _ (by omega) hlt h5.2.1
    · exact comes_step (by rw [ket_long h5.2.2.2 h2, long_next _ _ _ h1 h3 h4 hlt, hv]) h6
  cases a with
  | word w =>
    have hw : plain w = true := by
      unfold plain chr
      cases w with
      | nil => rfl
      | cons c w =>
        have : c ≠ 45 := fun e => ha (by rw [e]; rfl)
        simp [this]
    obtain ⟨g1, g2⟩ := ket_word hs hw
    refine ⟨0, _, Nat.zero_le _, g1, ?_⟩
    intro fuel
    cases fuel with
    | zero => rfl
    | succ n => rw [Nat.add_zero, loop, loop, g2]; rfl
  | help => exact flag (str "help") _ (by decide) (by decide) rfl rfl hs _ rfl
  | floonet => exact flag (str "floonet") _ (by decide) (by decide) rfl rfl hs _ rfl
  | headless => exact flag (str "headless") _ (by decide) (by decide) rfl rfl hs _ rfl
  | noWallet => exact flag (str "no-wallet") _ (by decide) (by decide) rfl rfl hs _ rfl
  | sharedNode h p j =>
    obtain ⟨d1, d2, d3⟩ := ha
    cases j with
    | true => exact joined (str "shared-node") _ _ (by decide) (by decide) (by decide) rfl hs _ (apply_node d1 d2 d3)
    | false => exact next (str "shared-node") _ _ (by decide) (by decide) rfl rfl hs _ (apply_node d1 d2 d3)
  | configPath p j =>
    cases j with
    | true => exact joined (str "config-path") _ _ (by decide) (by decide) (by decide) rfl hs _ rfl
    | false => exact next (str "config-path") _ _ (by decide) (by decide) rfl rfl hs _ rfl

private theorem all_args (l : List CmdArg) : ∀ (_ : ∀ a ∈ l, a.Documented) (s : Ket) (o : Options) (rest : List Bytes)
    (_ : At s (l.flatMap CmdArg.written ++ rest)),
    ∃ k s', k ≤ l.length ∧ At s' rest ∧ Comes s o k s' (l.foldl means o) := by
  induction l with
  | nil => intro _ s o rest hs; exact ⟨0, s, Nat.le_refl _, hs, fun _ => rfl⟩
  | cons a l ih =>
    intro h s o rest hs
    rw [List.flatMap_cons, List.append_assoc] at hs
    obtain ⟨k1, s1, b1, a1, c1⟩ := one_arg a (h a (by simp)) s o _ hs
    obtain ⟨k2, s2, b2, a2, c2⟩ := ih (fun x hx => h x (by simp [hx])) s1 (means o a) rest a1
    refine ⟨k2 + k1, s2, by rw [List.length_cons]; omega, a2, ?_⟩
    intro fuel
    rw [← Nat.add_assoc, c1, c2]; rfl

private theorem init_at (prog : Bytes) (args : List Bytes) : At (ketInit (prog :: args)) args :=
  ⟨Nat.succ_le_succ (Nat.zero_le _), Nat.zero_le _, rfl, rfl⟩

private theorem getLast_cons_or {α : Type} (x : α) (l : List α) (d : Option α) :
    ((x :: l).getLast?).or d = (l.getLast?).or (some x) := by
  cases l with
  | nil => rfl
  | cons y l =>
    rw [List.getLast?_cons_cons]
    cases h : (y :: l).getLast? with
    | none => rw [List.getLast?_eq_none_iff] at h; cases h
    | some z => rfl

private theorem fold_means (l : List CmdArg) : ∀ o : Options, l.foldl means o =
    { help := o.help || decide (CmdArg.help ∈ l)
      headless := o.headless || (decide (CmdArg.headless ∈ l) || l.any (·.node.isSome))
      floonet := o.floonet || decide (CmdArg.floonet ∈ l)
      includeWallet := o.includeWallet && !decide (CmdArg.noWallet ∈ l)
      sharedNode := ((l.filterMap CmdArg.node).getLast?).or o.sharedNode
      configPath := ((l.filterMap CmdArg.file).getLast?).or o.configPath } := by
  induction l with
  | nil => intro o; simp
  | cons a l ih =>
    intro o
    rw [List.foldl_cons, ih]
    cases a <;> simp [means, CmdArg.node, CmdArg.file, List.filterMap_cons, getLast_cons_or]

private theorem fold_said (l : List CmdArg) : l.foldl means defaults = saidBy l := by
  rw [fold_means]; simp [defaults, saidBy]

/-! ## Theorems -/

/-- The documented options, in any number and order and among any words, mean what the help text says. -/
theorem documented_options (prog : Bytes) (l : List CmdArg) (hl : ∀ a ∈ l, a.Documented) (n : Nat) (hn : l.length < n) :
    parseOptions n (prog :: l.flatMap CmdArg.written) = some (.ok (saidBy l)) := by
  obtain ⟨k, s, hk, hs, hc⟩ := all_args l hl (ketInit (prog :: l.flatMap CmdArg.written)) defaults []
    (by rw [List.append_nil]; exact init_at _ _)
  obtain ⟨s', e⟩ := ket_end hs
  obtain ⟨m, rfl⟩ : ∃ m, n = m + 1 + k := ⟨n - 1 - k, by omega⟩
  unfold parseOptions
  rw [hc, loop, e, fold_said]

example : parseOptions 9 [str "GrinPP", str "--headless", str "word", str "--config-path", str "a", str "--floonet",
    str "--shared-node=grinnode.live:80", str "--config-path=b"] =
    some (.ok ⟨false, true, true, true, some (str "grinnode.live", 80), some (str "b")⟩) := by decide +kernel

private theorem loop_more {n : Nat} : ∀ {s : Ket} {o : Options} {r : Res Options}, loop n s o = some r →
    ∀ m, loop (n + m) s o = some r := by
  induction n with
  | zero => intro s o r h; cases h
  | succ n ih =>
    intro s o r h m
    rw [show n + 1 + m = (n + m) + 1 by omega, loop]
    rw [loop] at h
    split at h
    · exact h
    · exact h
    · exact h
    · split at h
      · exact ih h m
      · exact h
      · exact h

private theorem known_prefixes (name : Bytes)
    (h : ∃ o ∈ longopts, name <+: o.name) : name ∈ longopts.flatMap (fun o => o.name.inits) := by
  obtain ⟨o, ho, hp⟩ := h
  exact List.mem_flatMap.mpr ⟨o, ho, (List.mem_inits _ _).mpr hp⟩

private theorem ambiguous_names : ∀ name ∈ longopts.flatMap (fun o => o.name.inits),
    ((longopts.filter (fun o => decide (o.name = name))).length > 1 ∨
      ((longopts.filter (fun o => decide (o.name = name))).length = 0 ∧
        (longopts.filter (fun o => name.isPrefixOf o.name && decide (o.name ≠ name))).length > 1)) ↔
    name ∈ [[], str "h", str "he"] := by decide +kernel

private theorem ambiguous_iff (name : Bytes) :
    ((longopts.filter (fun o => decide (o.name = name))).length > 1 ∨
      ((longopts.filter (fun o => decide (o.name = name))).length = 0 ∧
        (longopts.filter (fun o => name.isPrefixOf o.name && decide (o.name ≠ name))).length > 1)) ↔
    name ∈ [[], str "h", str "he"] := by
  constructor
  · intro h
    refine (ambiguous_names name (known_prefixes name ?_)).mp h
    rcases h with h | ⟨-, h⟩
    · obtain ⟨o, ho⟩ := List.exists_mem_of_length_pos (Nat.lt_of_succ_lt h)
      rw [List.mem_filter] at ho
      exact ⟨o, ho.1, by rw [of_decide_eq_true ho.2]⟩
    · obtain ⟨o, ho⟩ := List.exists_mem_of_length_pos (Nat.lt_of_succ_lt h)
      rw [List.mem_filter, Bool.and_eq_true] at ho
      exact ⟨o, ho.1, List.isPrefixOf_iff_prefix.mp ho.2.1⟩
  · intro h
    refine (ambiguous_names name ?_).mpr h
    simp only [List.mem_cons, List.not_mem_nil, or_false] at h
    rcases h with rfl | rfl | rfl <;> decide +kernel

private theorem ambiguous_cases {a : Bytes} (h : Ambiguous a) : ∃ b, a = 45 :: 45 :: b ∧ chr b 0 ≠ 0 ∧
    b.takeWhile (· != 61) ∈ [[], str "h", str "he"] := by
  rcases h with rfl | rfl | ⟨v, rfl | rfl | rfl⟩
  · exact ⟨str "h", rfl, by decide, by decide⟩
  · exact ⟨str "he", rfl, by decide, by decide⟩
  · exact ⟨61 :: v, rfl, by show (61 : UInt8) ≠ 0; decide, List.mem_cons_self ..⟩
  · exact ⟨str "h" ++ 61 :: v, rfl, by show (104 : UInt8) ≠ 0; decide,
      by rw [takeWhile_name (by decide) (Or.inr rfl)]; decide⟩
  · exact ⟨str "he" ++ 61 :: v, rfl, by show (104 : UInt8) ≠ 0; decide,
      by rw [takeWhile_name (by decide) (Or.inr rfl)]; decide⟩

private theorem ket_ambiguous {s : Ket} {a : Bytes} {rest : List Bytes} (h : s.argv.drop s.i = a :: rest)
    (ha : Ambiguous a) : ketopt s = .ok (some 63, none, ⟨s.argv, s.i, none, s.nArgs⟩) := by
  obtain ⟨b, rfl, h0, hn⟩ := ambiguous_cases ha
  rw [ket_long h h0]
  unfold longStep
  simp only [List.drop_succ_cons, List.drop_zero]
  rw [if_pos ((ambiguous_iff _).mpr hn)]

private theorem stuck (n : Nat) : ∀ (s : Ket) (o : Options) {a : Bytes} {rest : List Bytes}
    (_ : s.argv.drop s.i = a :: rest) (_ : Ambiguous a), loop n s o = none := by
  induction n with
  | zero => intros; rfl
  | succ n ih =>
    intro s o a rest h ha
    rw [loop, ket_ambiguous h ha]
    exact ih ⟨s.argv, s.i, none, s.nArgs⟩ o h ha

/-- **Violated**: started with `--h` or another abbreviation that fits two options, behind any documented arguments
and before any others, the program never gets past its command line. -/
theorem ambiguous_option_hangs_violated (prog : Bytes) (l : List CmdArg) (hl : ∀ a ∈ l, a.Documented) (a : Bytes)
    (ha : Ambiguous a) (rest : List Bytes) (n : Nat) :
    parseOptions n (prog :: (l.flatMap CmdArg.written ++ a :: rest)) = none := by
  obtain ⟨k, s, hk, hs, hc⟩ := all_args l hl (ketInit (prog :: (l.flatMap CmdArg.written ++ a :: rest))) defaults
    (a :: rest) (init_at _ _)
  cases h : parseOptions n (prog :: (l.flatMap CmdArg.written ++ a :: rest)) with
  | none => rfl
  | some r =>
    have := loop_more h k
    rw [hc n, stuck n s _ hs.2.2.2 ha] at this
    cases this

example : Ambiguous (str "--he") := Or.inr (Or.inl rfl)

/-! ### Everything else comes to an end -/

private theorem long_ends (argv : List Bytes) (i n : Nat) (b : Bytes) (hi : i < argv.length) (hn : n ≤ i)
    (hb : chr b 0 ≠ 0) (ha : ¬ Ambiguous (45 :: 45 :: b)) : ∃ c arg s' d, longStep argv i n (45 :: 45 :: b) = (some c, arg, s') ∧
      0 < d ∧ At s' (argv.drop (i + d)) := by
  have hamb : ¬ b.takeWhile (· != 61) ∈ [[], str "h", str "he"] := by
    intro hm
    apply ha
    have hs : b = b.takeWhile (· != 61) ++ b.dropWhile (· != 61) := (List.takeWhile_append_dropWhile).symm
    have ht : b.dropWhile (· != 61) = [] ∨ ∃ v, b.dropWhile (· != 61) = 61 :: v := by
      cases e : b.dropWhile (· != 61) with
      | nil => exact Or.inl rfl
      | cons c v =>
        have := List.head_dropWhile_not (l := b) (fun x : UInt8 => x != 61) (by rw [e]; simp)
        simp only [e, List.head_cons, bne_eq_false_iff_eq] at this
        exact Or.inr ⟨v, by rw [this]⟩
    simp only [List.mem_cons, List.not_mem_nil, or_false] at hm
    rcases hm with hm | hm | hm <;> rw [hm] at hs <;> rcases ht with ht | ⟨v, ht⟩ <;> rw [ht] at hs <;> rw [hs]
    · rw [hs] at hb; exact absurd rfl hb
    · exact Or.inr (Or.inr ⟨v, Or.inl rfl⟩)
    · exact Or.inl rfl
    · exact Or.inr (Or.inr ⟨v, Or.inr (Or.inl rfl)⟩)
    · exact Or.inr (Or.inl rfl)
    · exact Or.inr (Or.inr ⟨v, Or.inr (Or.inr rfl)⟩)
  have f1 : At (finish argv i i none n) (argv.drop (i + 1)) := finish_at _ _ _ _ (Nat.le_refl _) hi hn
  have f2 : i + 1 < argv.length → At (finish argv i (i + 1) none n) (argv.drop (i + 2)) :=
    fun h => finish_at _ _ _ _ (by omega) h hn
  unfold longStep
  simp only [List.drop_succ_cons, List.drop_zero]
  rw [if_neg (fun h => hamb ((ambiguous_iff _).mp h))]
  split
  · exact ⟨_, _, _, 1, rfl, by omega, f1⟩
  · split
    · split
      · rename_i h; exact ⟨_, _, _, 2, rfl, by omega, f2 h⟩
      · exact ⟨_, _, _, 1, rfl, by omega, f1⟩
    · exact ⟨_, _, _, 1, rfl, by omega, f1⟩

private def Mid (s : Ket) (a : Bytes) (rest : List Bytes) (p : Nat) : Prop :=
  s.nArgs ≤ s.i ∧ s.pos = some p ∧ s.argv.drop s.i = a :: rest ∧ 0 < p ∧ p < a.length ∧ plain a = false ∧ chr a 1 ≠ 45

private theorem finish_mid (argv : List Bytes) (i n p : Nat) (a : Bytes) (rest : List Bytes)
    (hd : argv.drop i = a :: rest) (hn : n ≤ i) (hp : plain a = false) (h1 : chr a 1 ≠ 45) (h0 : 0 < p) :
    At (finish argv i i (some p) n) rest ∨ Mid (finish argv i i (some p) n) a rest p := by
  obtain ⟨g1, g2, g3⟩ := at_get (s := ⟨argv, i, none, n⟩) hd
  have ha : argv.getD i [] = a := by rw [List.getD_eq_getElem?_getD, g1]; rfl
  by_cases h : chr a p = 0
  · left
    have e : finish argv i i (some p) n = finish argv i i none n := by
      unfold finish; simp only [ha, h, beq_self_eq_true, if_true]
    rw [e, ← g3]
    exact finish_at _ _ _ _ (Nat.le_refl _) g2 hn
  · right
    have e : finish argv i i (some p) n = ⟨argv, i, some p, n⟩ := by
      unfold finish
      simp only [ha]
      rw [if_neg (by simpa using h)]
    rw [e]
    refine ⟨hn, rfl, hd, h0, ?_, hp, h1⟩
    by_contra hc
    apply h
    unfold chr
    rw [List.getD_eq_getElem?_getD, List.getElem?_eq_none_iff.mpr (by omega)]
    rfl

private theorem short_ends (argv : List Bytes) (i n p : Nat) (a : Bytes) (rest : List Bytes)
    (hd : argv.drop i = a :: rest) (hn : n ≤ i) (hp : plain a = false) (h1 : chr a 1 ≠ 45) :
    ∃ c arg s', shortStep argv i n a p = (some c, arg, s') ∧
      (At s' rest ∨ At s' (rest.drop 1) ∨ Mid s' a rest ((if p = 0 then 1 else p) + 1)) := by
  obtain ⟨g1, g2, g3⟩ := at_get (s := ⟨argv, i, none, n⟩) hd
  have f1 : At (finish argv i i none n) rest := by
    rw [← g3]; exact finish_at _ _ _ _ (Nat.le_refl _) g2 hn
  have f2 : i + 1 < argv.length → At (finish argv i (i + 1) none n) (rest.drop 1) := fun h => by
    rw [← g3, List.drop_drop]; exact finish_at _ _ _ _ (by omega) h hn
  have f3 := finish_mid argv i n ((if p = 0 then 1 else p) + 1) a rest hd hn hp h1 (by omega)
  unfold shortStep
  simp only
  revert f3
  generalize (if p = 0 then 1 else p) = q
  intro f3
  split
  · exact ⟨_, _, _, rfl, f3.elim Or.inl (fun h => Or.inr (Or.inr h))⟩
  · split
    · split
      · split
        · rename_i h; exact ⟨_, _, _, rfl, Or.inr (Or.inl (f2 h))⟩
        · exact ⟨_, _, _, rfl, Or.inl f1⟩
      · exact ⟨_, _, _, rfl, Or.inl f1⟩
    · exact ⟨_, _, _, rfl, f3.elim Or.inl (fun h => Or.inr (Or.inr h))⟩

private def Ends (s : Ket) (o : Options) : Prop := ∃ n r, loop n s o = some r

private theorem ends_step {s : Ket} {o : Options} {c : Nat} {arg : Option Bytes} {s' : Ket}
    (h : ketopt s = .ok (some c, arg, s')) (hs : ∀ o', Ends s' o') : Ends s o := by
  cases ha : apply o c arg with
  | ok o' =>
    obtain ⟨n, r, hr⟩ := hs o'
    exact ⟨n + 1, r, by rw [loop, h]; simp only [ha]; exact hr⟩
  | throw => exact ⟨1, .throw, by rw [loop, h]; simp only [ha]⟩
  | ub => exact ⟨1, .ub, by rw [loop, h]; simp only [ha]⟩

private def weight (l : List Bytes) : Nat := (l.map (fun a => a.length + 1)).sum

private theorem weight_cons (a : Bytes) (l : List Bytes) : weight (a :: l) = a.length + 1 + weight l := by
  unfold weight; rw [List.map_cons, List.sum_cons]

private theorem weight_drop (l : List Bytes) : ∀ d, weight (l.drop d) ≤ weight l := by
  induction l with
  | nil => intro d; rw [List.drop_nil]
  | cons a l ih =>
    intro d
    cases d with
    | zero => exact Nat.le_refl _
    | succ d => rw [List.drop_succ_cons, weight_cons]; have := ih d; omega

private theorem ends_all (m : Nat) :
    (∀ s o rest, At s rest → (∀ a ∈ rest, ¬ Ambiguous a) → weight rest ≤ m → Ends s o) ∧
    (∀ s o a rest p, Mid s a rest p → (∀ a ∈ rest, ¬ Ambiguous a) → weight rest + (a.length - p) ≤ m → Ends s o) := by
  induction m using Nat.strongRecOn with
  | _ m ih =>
  constructor
  · intro s o rest hs hamb hw
    cases rest with
    | nil =>
      obtain ⟨s', e⟩ := ket_end hs
      exact ⟨1, .ok o, by rw [loop, e]⟩
    | cons a rest =>
      rw [weight_cons] at hw
      by_cases hp : plain a = true
      · obtain ⟨g1, g2⟩ := ket_word hs hp
        obtain ⟨n, r, hr⟩ := (ih (weight rest) (by omega)).1 _ o rest g1 (fun x hx => hamb x (by simp [hx])) (Nat.le_refl _)
        refine ⟨n, r, ?_⟩
        rw [← hr]
        cases n with
        | zero => rfl
        | succ n => rw [loop, loop, g2]
      · have hp : plain a = false := by simpa using hp
        have hk := ket_option hs.2.2.2 hp
        obtain ⟨-, g2, g3⟩ := at_get hs.2.2.2
        by_cases h1 : chr a 1 = 45
        · rw [if_pos h1] at hk
          by_cases h2 : chr a 2 = 0
          · rw [if_pos h2] at hk
            exact ⟨1, .ok o, by rw [loop, hk]⟩
          · rw [if_neg h2] at hk
            obtain ⟨b, rfl⟩ : ∃ b, a = 45 :: 45 :: b := by
              match a, hp, h1 with
              | [], hp, _ => exact absurd hp (by decide)
              | [c], _, h1 => exact absurd h1 (by unfold chr; simp)
              | c :: d :: b, hp, h1 =>
                have e1 : d = 45 := h1
                have e2 : c = 45 := by
                  unfold plain chr at hp
                  simp at hp
                  exact hp.1
                exact ⟨b, by rw [e1, e2]⟩
            obtain ⟨c, arg, s', d, e, hd, hat⟩ := long_ends s.argv s.i s.nArgs b g2 hs.2.1 h2 (hamb _ (by simp))
            rw [e] at hk
            have hdr : s.argv.drop (s.i + d) = rest.drop (d - 1) := by
              rw [← g3, List.drop_drop]; congr 1; omega
            rw [hdr] at hat
            have := weight_drop rest (d - 1)
            exact ends_step hk (fun o' => (ih (weight rest) (by omega)).1 s' o' _ hat
              (fun x hx => hamb x (by simp [List.mem_of_mem_drop hx])) this)
        · rw [if_neg h1, hs.2.2.1] at hk
          obtain ⟨c, arg, s', e, h⟩ := short_ends s.argv s.i s.nArgs 0 a rest hs.2.2.2 hs.2.1 hp h1
          simp only [e] at hk
          refine ends_step hk (fun o' => ?_)
          rcases h with h | h | h
          · exact (ih (weight rest) (by omega)).1 s' o' _ h (fun x hx => hamb x (by simp [hx])) (Nat.le_refl _)
          · exact (ih (weight rest) (by omega)).1 s' o' _ h (fun x hx => hamb x (by simp [List.mem_of_mem_drop hx]))
              (weight_drop rest 1)
          · refine (ih (weight rest + (a.length - 2)) (by omega)).2 s' o' a rest _ h (fun x hx => hamb x (by simp [hx])) ?_
            simp
  · intro s o a rest p hs hamb hw
    obtain ⟨hn, hpos, hd, h0, hlt, hp, h1⟩ := hs
    have hk := ket_option hd hp
    rw [if_neg h1, hpos] at hk
    obtain ⟨c, arg, s', e, h⟩ := short_ends s.argv s.i s.nArgs p a rest hd hn hp h1
    simp only [e] at hk
    refine ends_step hk (fun o' => ?_)
    rcases h with h | h | h
    · exact (ih (weight rest) (by omega)).1 s' o' _ h hamb (Nat.le_refl _)
    · exact (ih (weight rest) (by omega)).1 s' o' _ h (fun x hx => hamb x (List.mem_of_mem_drop hx))
        (weight_drop rest 1)
    · rw [if_neg (by omega)] at h
      exact (ih (weight rest + (a.length - (p + 1))) (by omega)).2 s' o' a rest _ h hamb (Nat.le_refl _)

/-- Without such an abbreviation the command line is read to its end, whatever stands on it. -/
theorem command_line_ends_partial (prog : Bytes) (args : List Bytes) (h : ∀ a ∈ args, ¬ Ambiguous a) :
    ∃ n r, ∀ m, parseOptions (n + m) (prog :: args) = some r := by
  obtain ⟨n, r, hr⟩ := (ends_all (weight args)).1 _ defaults args (init_at prog args) h (Nat.le_refl _)
  exact ⟨n, r, loop_more hr⟩

example : ¬ Ambiguous (str "--hea") := by
  rintro (h | h | ⟨v, h | h | h⟩) <;> revert h <;> simp [str]

/-! ### What is passed over, cut or read past the end -/

private theorem ket_unknown {s : Ket} {name tail : Bytes} {rest : List Bytes}
    (h : At s ((45 :: 45 :: (name ++ tail)) :: rest)) (h0 : chr name 0 ≠ 0) (h61 : 61 ∉ name)
    (ht : tail = [] ∨ tail.head? = some 61) (hd : ∀ d ∈ documentedNames, ¬ name <+: d) (o : Options) :
    ∃ s', At s' rest ∧ Comes s o 1 s' o := by
  obtain ⟨-, g2, g3⟩ := at_get h.2.2.2
  have hno : ∀ x ∈ longopts, ¬ name <+: x.name := by
    intro x hx
    refine hd x.name ?_
    have : longopts.map (·.name) = documentedNames := rfl
    rw [← this]
    exact List.mem_map_of_mem hx
  have e1 : longopts.filter (fun o => decide (o.name = name)) = [] := by
    rw [List.filter_eq_nil_iff]
    intro x hx hc
    exact hno x hx (by rw [of_decide_eq_true hc])
  have e2 : longopts.filter (fun o => name.isPrefixOf o.name && decide (o.name ≠ name)) = [] := by
    rw [List.filter_eq_nil_iff]
    intro x hx hc
    rw [Bool.and_eq_true] at hc
    exact hno x hx (List.isPrefixOf_iff_prefix.mp hc.1)
  refine ⟨finish s.argv s.i s.i none s.nArgs, ?_, ?_⟩
  · rw [← g3]; exact finish_at _ _ _ _ (Nat.le_refl _) g2 h.2.1
  · have hb : chr (name ++ tail) 0 ≠ 0 := by
      cases name with
      | nil => exact absurd rfl h0
      | cons c n => exact h0
    refine comes_step (c := 63) (arg := none) ?_ rfl
    rw [ket_long h.2.2.2 hb]
    unfold longStep
    simp only [List.drop_succ_cons, List.drop_zero, takeWhile_name h61 ht, e1, e2]
    simp

/-- **Violated**: an option nobody knows is passed over in silence, wherever it stands. -/
theorem unknown_option_ignored_violated (prog : Bytes) (l l' : List CmdArg) (hl : ∀ a ∈ l, a.Documented)
    (hl' : ∀ a ∈ l', a.Documented) (name tail : Bytes) (h0 : ∃ c n, name = c :: n ∧ c ≠ 0) (h61 : 61 ∉ name)
    (ht : tail = [] ∨ tail.head? = some 61) (hd : ∀ d ∈ documentedNames, ¬ name <+: d) :
    ∃ n, ∀ m, parseOptions (n + m) (prog :: (l.flatMap CmdArg.written ++ (str "--" ++ (name ++ tail)) ::
      l'.flatMap CmdArg.written)) = some (.ok (saidBy (l ++ l'))) := by
  obtain ⟨k, s, hk, hs, hc⟩ := all_args l hl (ketInit (prog :: (l.flatMap CmdArg.written ++
    (str "--" ++ (name ++ tail)) :: l'.flatMap CmdArg.written))) defaults _ (init_at _ _)
  have h0' : chr name 0 ≠ 0 := by obtain ⟨c, n, rfl, h⟩ := h0; exact h
  obtain ⟨s1, hs1, hc1⟩ := ket_unknown (name := name) (tail := tail) (o := l.foldl means defaults) hs h0' h61 ht hd
  obtain ⟨k2, s2, hk2, hs2, hc2⟩ := all_args l' hl' s1 (l.foldl means defaults) [] (by rw [List.append_nil]; exact hs1)
  obtain ⟨s', e⟩ := ket_end hs2
  refine ⟨1 + k2 + 1 + k, fun m => ?_⟩
  unfold parseOptions
  rw [show 1 + k2 + 1 + k + m = m + 1 + k2 + 1 + k by omega, hc, hc1, hc2, loop, e, ← List.foldl_append, fold_said]

/-- Mistyped, `--floonet` starts the program on the main network. -/
example : parseOptions 9 [str "GrinPP", str "--flonet", str "--no-wallet"] =
    some (.ok ⟨false, false, false, false, none, none⟩) := by decide +kernel

/-- **Violated**: a shared node without a port is read past the end of a vector. -/
theorem shared_node_without_port_violated (prog host : Bytes) (l : List CmdArg) (hl : ∀ a ∈ l, a.Documented)
    (hh : 58 ∉ host) (rest : List Bytes) :
    ∃ n, ∀ m, parseOptions (n + m) (prog :: (l.flatMap CmdArg.written ++ (str "--shared-node=" ++ host) :: rest)) =
      some .ub := by
  obtain ⟨k, s, hk, hs, hc⟩ := all_args l hl (ketInit (prog :: (l.flatMap CmdArg.written ++
    (str "--shared-node=" ++ host) :: rest))) defaults _ (init_at _ _)
  have e : ketopt s = .ok (some 305, some host, finish s.argv s.i s.i none s.nArgs) := by
    have := ket_long (b := str "shared-node" ++ 61 :: host) hs.2.2.2 (by show (115 : UInt8) ≠ 0; decide)
    rw [this, long_joined _ _ _ (o := ⟨str "shared-node", 1, 305⟩) (by decide) rfl]
  have hsp : split 58 host = if host = [] then [] else [host] := by
    unfold split
    have := splitGo_token 58 host [] [] hh
    rw [List.append_nil] at this
    rw [this, splitGo, List.nil_append]
  have ha : ∀ o, apply o 305 (some host) = .ub := by
    intro o
    unfold apply
    simp only [hsp, Nat.reduceEqDiff, if_false, if_true]
    by_cases hz : host = []
    · rw [if_pos hz]
    · rw [if_neg hz]
  refine ⟨1 + k, fun m => ?_⟩
  unfold parseOptions
  rw [show 1 + k + m = m + 1 + k by omega, hc, loop, e]
  simp only [ha]

/-- **Violated**: the port of a shared node is cut to 16 bits. -/
theorem shared_node_port_wraps_violated : parseOptions 3 [str "GrinPP", str "--shared-node", str "host:65616"] =
    some (.ok ⟨false, true, false, true, some (str "host", 80), none⟩) := by decide +kernel

/-- **Violated**: `--shared-node` as the last argument starts a node of its own. -/
theorem shared_node_without_value_violated : parseOptions 3 [str "GrinPP", str "--shared-node"] =
    some (.ok defaults) := by decide +kernel

end Verif.Props
