import Verif.Spec.Op

/-!
Which component a call sets. These notions only say which calls a statement is about.
-/

namespace Url.Spec

/-- The top-level components. -/
inductive Field where
  | scheme | auth | path | query | fragment
  deriving DecidableEq

/-- the field a call sets; `none` for the two calls that set more than one -/
def Op.field : Op → Option Field
  | .set_encoded_url _ | .set_encoded_origin _ => none
  | .set_scheme _ | .normalize_scheme | .normalize => some .scheme
  | .set_encoded_path _ => some .path
  | .set_query _ | .set_encoded_query _ | .set_query_part _ => some .query
  | .set_fragment _ | .set_encoded_fragment _ | .set_fragment_part _ => some .fragment
  | _ => some .auth

/-- The parts of an authority. -/
inductive AuthPart where
  | user | password | host | port
  deriving DecidableEq

/-- the part of the authority a call edits -/
def Op.authPart : Op → Option AuthPart
  | .set_user _ | .set_encoded_user _ => some .user
  | .set_password _ | .set_encoded_password _ | .set_password_part _ => some .password
  | .set_host _ | .set_encoded_host _ => some .host
  | .set_port _ | .set_port_number _ | .set_port_part _ => some .port
  | _ => none

/-- the call clears the part -/
def Op.clears : Op → Bool
  | .set_user s | .set_encoded_user s | .set_password s | .set_encoded_password s | .set_password_part s | .set_host s
  | .set_encoded_host s | .set_port s | .set_port_part s => s.isEmpty
  | _ => false

/-- a part of the userinfo -/
def AuthPart.info : AuthPart → Bool
  | .user | .password => true
  | _ => false

/-- the calls that set a field regardless of what it was -/
def Op.absolute : Op → Bool
  | .set_scheme _ | .set_encoded_path _ | .set_query _ | .set_encoded_query _ | .set_query_part _
  | .set_fragment _ | .set_encoded_fragment _ | .set_fragment_part _ | .set_encoded_authority _ => true
  | _ => false

end Url.Spec
