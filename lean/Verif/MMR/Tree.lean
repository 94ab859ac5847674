/-!
# Specification: the infinite Merkle mountain range in post-order

A perfect binary tree of height `h` has `2^(h+1) - 1` nodes.  Laid out in post-order from position
`s` it occupies `s, …, s + 2^(h+1) - 2`: first the left subtree, then the right subtree, then the
root.  The mountain range is the growing perfect tree that starts at position 0.
-/
namespace Verif.MMR

/-- `Subtree s h`: positions `s, …, s + 2^(h+1) - 2` are a perfect subtree of height `h`. -/
inductive Subtree : Nat → Nat → Prop
  | top (h : Nat) : Subtree 0 h
  | left {s h : Nat} : Subtree s (h + 1) → Subtree s h
  | right {s h : Nat} : Subtree s (h + 1) → Subtree (s + (2 ^ (h + 1) - 1)) h

/-- Position of the root of the subtree of height `h` starting at `s`. -/
def rootPos (s h : Nat) : Nat := s + (2 ^ (h + 1) - 2)

/-- Position `p` is a node of height `h`. -/
def IsNode (p h : Nat) : Prop := ∃ s, Subtree s h ∧ p = rootPos s h

/-- `l` and `r` are the left and right child of `p`. -/
def Children (l r p : Nat) : Prop :=
  ∃ s h, Subtree s (h + 1) ∧ p = rootPos s (h + 1) ∧ l = rootPos s h ∧
    r = rootPos (s + (2 ^ (h + 1) - 1)) h

end Verif.MMR
