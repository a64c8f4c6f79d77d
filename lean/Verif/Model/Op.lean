import Verif.Model.UrlBase
import Verif.Spec.Op
import Verif.Model.SegOp

/-!
The function each modifying call runs.
-/

namespace Url
open Spec

/-- Run a modifying call. -/
def run : Op → M Unit
  | .set_encoded_url s => Base.set_encoded_url s
  | .set_encoded_origin s => Base.set_encoded_origin s
  | .set_scheme s => Base.set_scheme s
  | .set_encoded_authority s => Base.set_encoded_authority s
  | .set_encoded_userinfo s => Base.set_encoded_userinfo s
  | .set_userinfo_part s => Base.set_userinfo_part s
  | .set_user s => Base.set_user s
  | .set_encoded_user s => Base.set_encoded_user s
  | .set_password s => Base.set_password s
  | .set_encoded_password s => Base.set_encoded_password s
  | .set_password_part s => Base.set_password_part s
  | .set_host s => Base.set_host s
  | .set_encoded_host s => Base.set_encoded_host s
  | .set_port s => Base.set_port s
  | .set_port_number n => Base.set_port_number n
  | .set_port_part s => Base.set_port_part s
  | .set_encoded_path s => Base.set_encoded_path s
  | .set_query s => Base.set_query s
  | .set_encoded_query s => Base.set_encoded_query s
  | .set_query_part s => Base.set_query_part s
  | .set_fragment s => Base.set_fragment s
  | .set_encoded_fragment s => Base.set_encoded_fragment s
  | .set_fragment_part s => Base.set_fragment_part s
  | .normalize_scheme => Base.normalize_scheme
  | .normalize => Base.normalize

/-- Run modifying calls one after the other; an exception ends the sequence. -/
def runAll : List Op → M Unit
  | [] => pure ()
  | op :: ops => do run op; runAll ops

/-- The states of a `url` object: default constructed, then modified by calls of its own and of its segments. A
call that is defective in the state it is made in is left out, as are edits of segments that do not exist; a call
that throws is included. (The constructor from a string is
`set_encoded_url` on a default constructed object.) -/
inductive Reach (env : Env) : St → Prop
  | empty : Reach env Base.empty
  | call {st st' : St} (op : Op) : Reach env st →
      (∀ info, Base.has_userinfo (st.obj env.dbg) = .ok info → ¬ op.Defective (has_authority (st.obj env.dbg)) info) →
      (run op env st = .ret () st' ∨ ∃ e, run op env st = .throw e st') → Reach env st'
  | edit {st st' : St} (e : SegOp) : Reach env st → Editable env st e →
      ((∃ it, runSeg e env st = .ret it st') ∨ ∃ x, runSeg e env st = .throw x st') → Reach env st'

end Url
