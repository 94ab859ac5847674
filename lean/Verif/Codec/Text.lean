import Verif.Base.Outcome
import Verif.Base.Bytes

/-!
# Character strings

`std::string` is a list of bytes.  Model of the parts of `include/Common/Util/StringUtil.h` the codecs
use, in the C locale.
-/
namespace Verif.Codec

/-- A string literal as bytes. -/
def str (s : String) : Bytes := s.toList.map fun c => UInt8.ofNat c.toNat

/-- `std::isspace` in the C locale; also `IsSpace` (Base58.cpp:43-45) and `IsWhitespace`
(Armor.h:8-10).  For a `char` above 127, `std::isspace` is handed a negative number, which the standard
leaves undefined; here it answers no, as glibc does. -/
def isSpace (c : UInt8) : Bool :=
  c == 32 || c == 12 || c == 10 || c == 13 || c == 9 || c == 11

/-- `StringUtil::Trim` (StringUtil.h:118-139). -/
def trim (s : Bytes) : Bytes := ((s.dropWhile isSpace).reverse.dropWhile isSpace).reverse

/-- `std::tolower` in the C locale. -/
def lowerChar (c : UInt8) : UInt8 := if 65 ≤ c ∧ c ≤ 90 then c + 32 else c

/-- `StringUtil::ToLower` (StringUtil.h:73-84). -/
def toLower (s : Bytes) : Bytes := s.map lowerChar

/-- `StringUtil::StartsWith` (StringUtil.h:29-37). -/
def startsWith (s p : Bytes) : Bool := p.isPrefixOf s

/-- The loop of `StringUtil::Split` (StringUtil.h:49-71) in one pass: `cur` is the token being read;
empty tokens are never produced. -/
def splitGo (delim : UInt8) : Bytes → Bytes → List Bytes
  | [], cur => if cur = [] then [] else [cur]
  | c :: s, cur =>
    if c = delim then (if cur = [] then splitGo delim s [] else cur :: splitGo delim s [])
    else splitGo delim s (cur ++ [c])

/-- `StringUtil::Split` with a one-character delimiter (StringUtil.h:49-71). -/
def split (delim : UInt8) (s : Bytes) : List Bytes := splitGo delim s []

/-- Tokens joined by a delimiter. -/
def join (delim : UInt8) : List Bytes → Bytes
  | [] => []
  | [t] => t
  | t :: ts => t ++ delim :: join delim ts

theorem splitGo_token (delim : UInt8) (t s cur : Bytes) (h : delim ∉ t) :
    splitGo delim (t ++ s) cur = splitGo delim s (cur ++ t) := by
  induction t generalizing cur with
  | nil => simp
  | cons c t ih =>
    rw [List.mem_cons, not_or] at h
    rw [List.cons_append, splitGo, if_neg (fun e => h.1 e.symm), ih _ h.2]
    simp

theorem splitGo_delim (delim : UInt8) (s cur : Bytes) (h : cur ≠ []) :
    splitGo delim (delim :: s) cur = cur :: splitGo delim s [] := by
  rw [splitGo, if_pos rfl, if_neg h]

theorem split_join (delim : UInt8) (ts : List Bytes) (h : ∀ t ∈ ts, t ≠ [] ∧ delim ∉ t) :
    split delim (join delim ts) = ts := by
  unfold split
  induction ts with
  | nil => rfl
  | cons t ts ih =>
    have ht := h t (List.mem_cons_self ..)
    cases ts with
    | nil =>
      have := splitGo_token delim t [] [] ht.2
      rw [List.append_nil] at this
      rw [join, this, splitGo, List.nil_append, if_neg ht.1]
    | cons u ts =>
      rw [join, splitGo_token _ _ _ _ ht.2, List.nil_append, splitGo_delim _ _ _ ht.1,
        ih (fun x hx => h x (List.mem_cons_of_mem _ hx))]
      intro e; cases e

theorem dropWhile_head {p : UInt8 → Bool} {s : Bytes} (h : ∀ c ∈ s.head?, p c = false) :
    s.dropWhile p = s := by
  cases s with
  | nil => rfl
  | cons c s => rw [List.dropWhile_cons, h c rfl]; simp

/-- A string whose first and last characters are not spaces is its own trimming. -/
theorem trim_eq {s : Bytes} (h1 : ∀ c ∈ s.head?, isSpace c = false)
    (h2 : ∀ c ∈ s.getLast?, isSpace c = false) : trim s = s := by
  rw [trim, dropWhile_head h1, dropWhile_head (by rwa [List.head?_reverse]), List.reverse_reverse]

end Verif.Codec
