import Verif.Model.Segments
import Verif.Spec.SegOp

/-!
The function each call that edits a segment runs.
-/

namespace Url
open Spec

/-- the iterator that `k` increments of `begin()` lead to -/
def Base.segAt (k : Nat) : M SegIt := M.ask fun o => Seg.nth id_query o k

/-- Run a call that edits a segment. Its iterators are obtained by incrementing `begin()`. -/
def runSeg : SegOp → M SegIt
  | .erase i => do Base.seg_erase (← Base.segAt i)
  | .erase_range i j => do
    let first ← Base.segAt i
    let last ← Base.segAt j
    Base.seg_erase_range first last
  | .insert i s => do Base.seg_insert (← Base.segAt i) s
  | .insert_encoded i s => do Base.seg_insert_encoded (← Base.segAt i) s
  | .replace i s => do Base.seg_replace (← Base.segAt i) s
  | .replace_encoded i s => do Base.seg_replace_encoded (← Base.segAt i) s

/-- The positions an edit refers to exist: `begin()` works, the iterators are not incremented beyond `end()` and
ranges are not inverted. (`begin()` goes wrong if the number of segments is out of date so far that it is zero for
a path that is not empty or the other way round.) The number of segments is such that an `int` can count them. -/
def Editable (env : Env) (st : St) (e : SegOp) : Prop :=
  ∃ p, encoded_path (st.obj env.dbg) = .ok p ∧ (st.pt.nseg = 0 ↔ p = []) ∧ e.Fits (pathSegments p).length ∧
    (pathSegments p).length ≤ Base.intMax

end Url
