import Verif.Model.Storage

/-!
What an allocator expects of its user.
-/

namespace Url.Spec

/-- The blocks that are allocated after `events`, when `l` were before: number and size of each. `none` if a block was
handed out twice, or was freed that is not allocated, or with another size. -/
def blocks (l : List (Nat × Nat)) : List Event → Option (List (Nat × Nat))
  | [] => some l
  | .alloc id n :: t => if id ∈ l.map (·.1) then none else blocks ((id, n) :: l) t
  | .free id n :: t => if (id, n) ∈ l then blocks (l.erase (id, n)) t else none

/-- The state owns its buffer and nothing else. -/
def Owned (st : St) : Prop :=
  blocks [] st.log = some (match st.buf with
    | none => []
    | some _ => [(st.addr, st.cap + 1)]) ∧ (st.buf ≠ none → st.addr < st.tick)

end Url.Spec
