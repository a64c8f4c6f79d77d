import Verif.Props.SegEdit
import Verif.Model.BasicUrl

/-!
Assignment: C44.
-/

set_option autoImplicit false

namespace Url.Props
open Url

/-- C44 is false: assigning a url whose text is different leaves them different. -/
theorem C44_false {env : Env} {a b : St} (dbg : Bool) (hne : encoded_url (a.obj dbg) ≠ encoded_url (b.obj dbg)) :
    ∃ a', Base.assign b env a = .ret () a' ∧ encoded_url (a'.obj dbg) ≠ encoded_url (b.obj dbg) :=
  ⟨a, rfl, hne⟩

/-- C44 is false for an empty url to which `http://h/` is assigned. -/
theorem C44_case_false : (match Base.assign (made env0 b!"http://h/") env0 Base.empty with
    | .ret () a => encoded_url (a.obj true)
    | _ => .error .ub) = .ok [] ∧
    encoded_url ((made env0 b!"http://h/").obj true) = .ok b!"http://h/" := by
  constructor <;> decide +kernel

/-- C44 holds if the texts were equal before: all that is left of the claim. -/
theorem C44_partial {env : Env} {a b a' : St} (dbg : Bool) (h : Base.assign b env a = .ret () a')
    (he : encoded_url (a.obj dbg) = encoded_url (b.obj dbg)) : encoded_url (a'.obj dbg) = encoded_url (b.obj dbg) := by
  cases h
  exact he

end Url.Props
