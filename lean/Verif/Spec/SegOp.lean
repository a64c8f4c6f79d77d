import Verif.Spec.Op

/-!
The calls that edit a single segment of the path, as data, and what they do to the list of segments.

Positions are counted from the first segment; `n` segments have the positions `0`, ..., `n`, the last of
which is `end()`.
-/

namespace Url.Spec

/-- The modifying member functions of the segments of a `url_base`. -/
inductive SegOp where
  | erase (i : Nat)
  | erase_range (i j : Nat)
  | insert (i : Nat) (s : Str)
  | insert_encoded (i : Nat) (s : Str)
  | replace (i : Nat) (s : Str)
  | replace_encoded (i : Nat) (s : Str)

namespace SegOp

/-- the range of segments that is taken away -/
def cut : SegOp → Nat × Nat
  | .erase i => (i, i + 1)
  | .erase_range i j => (i, j)
  | .insert i _ => (i, i)
  | .insert_encoded i _ => (i, i)
  | .replace i _ => (i, i + 1)
  | .replace_encoded i _ => (i, i + 1)

/-- the segment that is put in its place -/
def text : SegOp → Option Str
  | .erase _ => none
  | .erase_range _ _ => none
  | .insert _ s => some (pctEncode isPchar s)
  | .insert_encoded _ s => some s
  | .replace _ s => some (pctEncode isPchar s)
  | .replace_encoded _ s => some s

/-- The argument is acceptable. -/
def Valid : SegOp → Prop
  | .insert_encoded _ s => Escaped isUpperHex isPchar s
  | .replace_encoded _ s => Escaped isUpperHex isPchar s
  | _ => True

/-- The positions exist in a list of `n` segments. -/
def Fits (e : SegOp) (n : Nat) : Prop := e.cut.1 ≤ e.cut.2 ∧ e.cut.2 ≤ n

/-- the list of segments after the call -/
def apply (e : SegOp) (l : List Str) : List Str := l.take e.cut.1 ++ e.text.toList ++ l.drop e.cut.2

/-- the position of the iterator that is returned: after what was put in -/
def index (e : SegOp) : Nat := e.cut.1 + e.text.toList.length

/-- Neither is the first segment taken away nor anything put in front of it. -/
def KeepsFirst (e : SegOp) : Prop := 0 < e.cut.1 ∨ (e.cut.2 = 0 ∧ e.text = none)

instance (e : SegOp) : Decidable e.KeepsFirst := inferInstanceAs (Decidable (_ ∨ _))

end SegOp

/-- the path with these segments that starts with a slash -/
def absPath (l : List Str) : Str := l.flatMap (c!"/" :: ·)

/-- The path has segments and does not start with a slash. -/
def Rootless (p : Str) : Prop := p ≠ [] ∧ p.head? ≠ some c!"/"

instance (p : Str) : Decidable (Rootless p) := inferInstanceAs (Decidable (_ ∧ _))

/-- The path after the call: it has the new segments, and it starts with a slash unless its first segment is still
the first segment of a path that did not. -/
def SegOp.newPath (e : SegOp) (p : Str) : Str :=
  let l := absPath (e.apply (pathSegments p))
  if Rootless p ∧ e.KeepsFirst then l.drop 1 else l

/-- Something is put in front of a path that does not start with a slash. -/
def SegOp.Glues (e : SegOp) (p : Str) : Prop := e.cut.2 = 0 ∧ e.text ≠ none ∧ Rootless p

end Url.Spec
