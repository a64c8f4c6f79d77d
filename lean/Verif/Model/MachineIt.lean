import Verif.Model.Machine
import Verif.Model.ItOp

/-!
The edits through iterators of `Verif.Model.ItOp`, with the arithmetic of `std::size_t` as in `Verif.Model.Machine`.
-/

namespace Url.Machine

/-- `impl/url_base.ipp:1340-1499`: run a call that edits a segment where `k` is the largest `std::size_t`. -/
def runItAt (k : Nat) : ItOp → M SegIt
  | .erase pos => seg_erase k pos
  | .erase_range first last => seg_erase_range k first last
  | .insert pos s => seg_insert k pos s
  | .insert_encoded pos s => seg_insert_encoded k pos s
  | .replace pos s => seg_replace k pos s
  | .replace_encoded pos s => seg_replace_encoded k pos s

/-- Run a call that edits a segment on a machine. -/
def runIt (e : ItOp) : M SegIt := fun env st => runItAt env.sizeMax e env st

/-- the number of bytes of the string argument of an edit -/
def itArgLength : ItOp → Nat
  | .erase _ | .erase_range _ _ => 0
  | .insert _ s | .insert_encoded _ s | .replace _ s | .replace_encoded _ s => s.length

end Url.Machine
