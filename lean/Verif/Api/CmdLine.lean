import Verif.Codec.Json
import Verif.Codec.Text

/-!
# The command line

How the program reads its arguments: `ParseOptions` (src/Server/opt.h) over the bundled parser `ketopt`
(src/Server/ketopt.h).
-/
namespace Verif.Cmd
open Verif Verif.Codec

/-- The character `s[k]` of a C string; behind the last one is the terminating NUL.  Arguments contain no NUL. -/
def chr (s : Bytes) (k : Nat) : UInt8 := s.getD k 0

/-- `ko_longopt_t` (ketopt.h:19-23). -/
structure LongOpt where
  name : Bytes
  hasArg : Nat
  val : Nat
deriving DecidableEq

/-- `longopts` (opt.h:21-29) without the entry that ends it. -/
def longopts : List LongOpt :=
  [⟨str "help", 0, 301⟩, ⟨str "floonet", 0, 302⟩, ⟨str "headless", 0, 303⟩, ⟨str "no-wallet", 0, 304⟩,
   ⟨str "shared-node", 1, 305⟩, ⟨str "config-path", 1, 306⟩]

/-- The option string `"xy:"` given at opt.h:44. -/
def ostr : Bytes := str "xy:"

/-- `ketopt_t` (ketopt.h:10-17) and `argv`, which the parser reorders.  `pos` is `none` for -1.  Left out: `opt`,
`longidx` and `ind`, which `ParseOptions` does not read; `arg` is returned with each option instead. -/
structure Ket where
  argv : List Bytes
  i : Nat
  pos : Option Nat
  nArgs : Nat

/-- `KETOPT_INIT` (ketopt.h:25). -/
def ketInit (argv : List Bytes) : Ket := ⟨argv, 1, some 0, 0⟩

/-- `ketopt_permute` (ketopt.h:27-34): moves `argv[j]` over `n` elements to the left. -/
def permute (argv : List Bytes) (j n : Nat) : List Bytes :=
  argv.take (j - n) ++ (argv.drop j).take 1 ++ (argv.drop (j - n)).take n ++ argv.drop (j + 1)

/-- An argument that is no option: empty, `-`, or not beginning with `-` (ketopt.h:60, 64). -/
def plain (a : Bytes) : Bool := chr a 0 != 45 || chr a 1 == 0

/-- The end of `ketopt` (ketopt.h:113-119): goes on to the next argument if this one is used up, and moves what was
used ahead of the arguments that are no options. -/
def finish (argv : List Bytes) (i0 i : Nat) (pos : Option Nat) (nArgs : Nat) : Ket :=
  let used := match pos with
    | none => true
    | some p => chr (argv.getD i []) p == 0
  if used then
    ⟨if nArgs > 0 then (List.range' i0 (i + 1 - i0)).foldl (fun v j => permute v j nArgs) argv else argv,
      i + 1, some 0, nArgs⟩
  else ⟨argv, i, pos, nArgs⟩

/-- What one call of `ketopt` returns: the code (`none` for -1), `s->arg` and the state. -/
abbrev Step := Option Nat × Option Bytes × Ket

/-- The long options of `ketopt` (ketopt.h:74-94).  `strncmp` over the length of the name given is equality with a
prefix, as neither holds a NUL. -/
def longStep (argv : List Bytes) (i nArgs : Nat) (a : Bytes) : Step :=
  let name := (a.drop 2).takeWhile (· != 61)
  let j := name.length + 2
  let exact := longopts.filter (fun o => decide (o.name = name))
  let part := longopts.filter (fun o => name.isPrefixOf o.name && decide (o.name ≠ name))
  if exact.length > 1 ∨ (exact.length = 0 ∧ part.length > 1) then (some 63, none, ⟨argv, i, none, nArgs⟩)
  else
    let o := if exact.length = 1 then exact.head? else if part.length = 1 then part.head? else none
    match o with
    | none => (some 63, none, finish argv i i none nArgs)
    | some o =>
      let arg := if chr a j = 61 then some (a.drop (j + 1)) else none
      if o.hasArg = 1 ∧ chr a j = 0 then
        if i + 1 < argv.length then (some o.val, some (argv.getD (i + 1) []), finish argv i (i + 1) none nArgs)
        else (some 58, arg, finish argv i i none nArgs)
      else (some o.val, arg, finish argv i i none nArgs)

/-- The short options of `ketopt` (ketopt.h:96-112); `pos` is where the last call left off. -/
def shortStep (argv : List Bytes) (i nArgs : Nat) (a : Bytes) (pos : Nat) : Step :=
  let pos := if pos = 0 then 1 else pos
  let c := chr a pos
  let p := ostr.dropWhile (· != c)
  if p = [] then (some 63, none, finish argv i i (some (pos + 1)) nArgs)
  else if p.getD 1 0 = 58 then
    if chr a (pos + 1) = 0 then
      if i + 1 < argv.length then (some c.toNat, some (argv.getD (i + 1) []), finish argv i (i + 1) none nArgs)
      else (some 58, none, finish argv i i none nArgs)
    else (some c.toNat, some (a.drop (pos + 1)), finish argv i i none nArgs)
  else (some c.toNat, none, finish argv i i (some (pos + 1)) nArgs)

/-- `ketopt` (ketopt.h:56-121) with `permute` set. -/
def ketopt (s : Ket) : Res Step :=
  let k := ((s.argv.drop s.i).takeWhile plain).length
  let i := s.i + k
  let nArgs := s.nArgs + k
  match s.argv[i]? with
  | none => .ok (none, none, ⟨s.argv, i, s.pos, nArgs⟩)
  | some a =>
    if chr a 1 = 45 then
      if chr a 2 = 0 then .ok (none, none, ⟨permute s.argv i nArgs, i + 1, s.pos, nArgs⟩)
      else .ok (longStep s.argv i nArgs a)
    else match s.pos with
      | none => .ub
      | some p => .ok (shortStep s.argv i nArgs a p)

/-- `Options` (opt.h:11-19); `floonet` is whether `environment` is `FLOONET`. -/
structure Options where
  help : Bool
  headless : Bool
  floonet : Bool
  includeWallet : Bool
  sharedNode : Option (Bytes × Nat)
  configPath : Option Bytes
deriving DecidableEq

/-- The options at the start of `ParseOptions` (opt.h:33-40). -/
def defaults : Options := ⟨false, false, false, true, none, none⟩

/-- The body of the loop of `ParseOptions` (opt.h:45-58).  `parts[0]` and `parts[1]` are read without a check;
`opt.arg` is null unless the option takes a value. -/
def apply (o : Options) (c : Nat) (arg : Option Bytes) : Res Options :=
  if c = 301 then .ok { o with help := true }
  else if c = 302 then .ok { o with floonet := true }
  else if c = 303 then .ok { o with headless := true }
  else if c = 304 then .ok { o with includeWallet := false }
  else if c = 305 then
    match arg with
    | none => .ub
    | some a =>
      match split 58 a with
      | host :: port :: _ => do
        let n ← stoull port
        return { o with sharedNode := some (host, n % 2 ^ 16), headless := true }
      | _ => .ub
  else if c = 306 then
    match arg with
    | none => .ub
    | some a => .ok { o with configPath := some a }
  else .ok o

/-- The loop of `ParseOptions` (opt.h:44-59), for `fuel` rounds; `none` if it has not ended by then. -/
def loop : Nat → Ket → Options → Option (Res Options)
  | 0, _, _ => none
  | fuel + 1, s, o =>
    match ketopt s with
    | .throw => some .throw
    | .ub => some .ub
    | .ok (none, _, _) => some (.ok o)
    | .ok (some c, arg, s') =>
      match apply o c arg with
      | .ok o' => loop fuel s' o'
      | .throw => some .throw
      | .ub => some .ub

/-- `ParseOptions` (opt.h:31-62), for `fuel` rounds of its loop. -/
def parseOptions (fuel : Nat) (argv : List Bytes) : Option (Res Options) := loop fuel (ketInit argv) defaults

end Verif.Cmd
