import Verif.Model.Params

/-!
What a caller can keep of a `url` while the `url` is modified: the ranges and iterators of a `const` `url`, which are
those of `url_view`, and the strings that the accessors return. All of them hold the pointer to the buffer (`s_`) they
were given; the ranges and iterators also hold a pointer to the parts table, which stays.
-/

namespace Url

/-- `s_` of a `url_base`: null, or the allocation it points to -/
def St.base (st : St) : Option Nat := st.buf.map fun _ => st.addr

/-- `impl/url_base.hpp:16-23`, `impl/url_base.hpp:59-66`, `url_view.hpp:593-640`, `url_view.hpp:762-800`: the members `s_`
and `pt_` of `segments_type` and `params_type`, or of their iterators. The table is that of the `url`. -/
structure Held where
  s : Option Nat
  deriving DecidableEq, Repr

/-- obtained from this `url` -/
def St.hold (st : St) : Held := ⟨st.base⟩

/-- What it sees when the state of the `url` is `st`: there is nothing to read through a null pointer or one to a block
that was freed. -/
def Held.obj (h : Held) (st : St) (dbg : Bool) : Obj :=
  { dbg := dbg, pt := st.pt, mem := if h.s = st.base then st.buf.getD [] else [] }

end Url
