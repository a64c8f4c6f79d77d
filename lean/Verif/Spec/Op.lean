import Verif.Spec.Edit

/-!
The modifying calls of a `url` as data, and their effect on the components.

`Op.Effect op c c'` says that the call is acceptable for a URL with the components `c` and turns them
into `c'`. It is stated with the grammar and the edits of `Verif/Spec/Edit.lean` only.
-/

namespace Url.Spec

/-- The modifying member functions of `url_base` with their argument. -/
inductive Op where
  | set_encoded_url (s : Str)
  | set_encoded_origin (s : Str)
  | set_scheme (s : Str)
  | set_encoded_authority (s : Str)
  | set_encoded_userinfo (s : Str)
  | set_userinfo_part (s : Str)
  | set_user (s : Str)
  | set_encoded_user (s : Str)
  | set_password (s : Str)
  | set_encoded_password (s : Str)
  | set_password_part (s : Str)
  | set_host (s : Str)
  | set_encoded_host (s : Str)
  | set_port (s : Str)
  | set_port_number (n : UInt32)
  | set_port_part (s : Str)
  | set_encoded_path (s : Str)
  | set_query (s : Str)
  | set_encoded_query (s : Str)
  | set_query_part (s : Str)
  | set_fragment (s : Str)
  | set_encoded_fragment (s : Str)
  | set_fragment_part (s : Str)
  | normalize_scheme
  | normalize

/-- `a` is an authority written `s`. -/
def Auth.Text (a : Auth) (s : Str) : Prop := a.Valid lib ∧ a.render = s

/-- `s` is an origin `scheme "://" authority`. -/
def OriginText (sch : Str) (a : Auth) (s : Str) : Prop :=
  Scheme lib sch ∧ a.Valid lib ∧ s = sch ++ b!":" ++ (b!"//" ++ a.render)

/-- `u` is a userinfo written `s`: the user extends to the first colon. -/
def UserinfoText (u : Str × Option Str) (s : Str) : Prop :=
  Escaped isUpperHex isRegName u.1 ∧ (∀ p, u.2 = some p → Escaped isUpperHex isUserinfo p) ∧
    userinfoText (some u) = s

namespace Op

/-- The effect of a call on the components. -/
def Effect : Op → Components → Components → Prop
  | .set_encoded_url s, _, c' => (s = [] ∧ c' = Components.empty) ∨ (s ≠ [] ∧ c'.Valid lib ∧ c'.render = s)
  | .set_encoded_origin s, c, c' =>
      (s = [] ∧ c' = { c with scheme := none, auth := none }) ∨
      ∃ sch a, OriginText sch a s ∧ c' = { c with scheme := some sch, auth := some a }
  | .set_scheme s, c, c' => (s = [] ∨ Scheme lib s) ∧ c' = c.withScheme s
  | .set_encoded_authority s, c, c' =>
      (s = [] ∧ c' = c.withAuth none) ∨ (s ≠ [] ∧ ∃ a : Auth, a.Text s ∧ c' = c.withAuth (some a))
  | .set_encoded_userinfo s, c, c' =>
      (s = [] ∧ c' = c.clearUserinfo) ∨ (s ≠ [] ∧ ∃ u, UserinfoText u s ∧ c' = c.withUserinfo u)
  | .set_userinfo_part s, c, c' =>
      ((s = [] ∨ s = b!"@") ∧ c' = c.clearUserinfo) ∨
      ∃ x u, x ≠ [] ∧ s = x ++ b!"@" ∧ UserinfoText u x ∧ c' = c.withUserinfo u
  | .set_user s, c, c' => c' = if s = [] then c.clearUser else c.withUser (pctEncode isRegName s)
  | .set_encoded_user s, c, c' =>
      Escaped isUpperHex isRegName s ∧ c' = if s = [] then c.clearUser else c.withUser s
  | .set_password s, c, c' => c' = if s = [] then c.clearPassword else c.withPassword (pctEncode isUserinfo s)
  | .set_encoded_password s, c, c' =>
      s.head? ≠ some c!":" ∧ Escaped isUpperHex isUserinfo s ∧
        c' = if s = [] then c.clearPassword else c.withPassword s
  | .set_password_part s, c, c' =>
      (s = [] ∧ c' = c.clearPassword) ∨ (s = b!":" ∧ c' = c.withPassword []) ∨
      ∃ d p, s = d :: p ∧ p ≠ [] ∧ p.head? ≠ some c!":" ∧ Escaped isUpperHex isUserinfo p ∧ c' = c.withPassword p
  | .set_host s, c, c' =>
      (s = [] ∧ c' = c.clearHost) ∨ (s ≠ [] ∧ ∃ txt k, PlainHost s txt k ∧ c' = c.withHost txt)
  | .set_encoded_host s, c, c' => Host lib s ∧ c' = if s = [] then c.clearHost else c.withHost s
  | .set_port s, c, c' => s.all isDigit = true ∧ c' = if s = [] then c.clearPort else c.withPort s
  | .set_port_number n, c, c' => ∃ s, Decimal n.toNat s ∧ c' = c.withPort s
  | .set_port_part s, c, c' =>
      (s = [] ∧ c' = c.clearPort) ∨ ∃ p, s = c!":" :: p ∧ p.all isDigit = true ∧ c' = c.withPort p
  | .set_encoded_path s, c, c' => PathOk lib c.scheme.isSome c.auth.isSome false s ∧ c' = c.withPath s
  | .set_query s, c, c' => c' = c.withQuery (pctEncode isQueryFrag s)
  | .set_encoded_query s, c, c' => Escaped isUpperHex isQueryFrag s ∧ c' = c.withQuery s
  | .set_query_part s, c, c' =>
      (s = [] ∧ c' = { c with query := none }) ∨
      ∃ q, s = c!"?" :: q ∧ Escaped isUpperHex isQueryFrag q ∧ c' = { c with query := some q }
  | .set_fragment s, c, c' => c' = c.withFragment (pctEncode isQueryFrag s)
  | .set_encoded_fragment s, c, c' => Escaped isUpperHex isQueryFrag s ∧ c' = c.withFragment s
  | .set_fragment_part s, c, c' =>
      (s = [] ∧ c' = { c with fragment := none }) ∨
      ∃ q, s = c!"#" :: q ∧ Escaped isUpperHex isQueryFrag q ∧ c' = { c with fragment := some q }
  | .normalize_scheme, c, c' => c' = c.lowerScheme
  | .normalize, c, c' => c' = c.lowerScheme

/-- The calls that do not do what `Effect` says, depending on whether the URL has an authority (`auth`)
and a userinfo (`info`): each one is shown to go wrong in `Verif/Props`. -/
def Defective (op : Op) (auth info : Bool) : Prop :=
  match op with
  -- the user and password are split two characters too early
  | .set_encoded_userinfo s => s ≠ [] ∧ Escaped isUpperHex isUserinfo s
  | .set_userinfo_part s => ∃ x, s = x ++ b!"@" ∧ x ≠ [] ∧ Escaped isUpperHex isUserinfo x
  -- anything is accepted that starts like a URL
  | .set_encoded_origin s => s ≠ [] ∧ ¬ ∃ sch a, OriginText sch a s
  -- an assertion reads before the start of the URL when there is an authority without a user
  | .set_user s => s = [] ∧ auth = true ∧ info = false
  | .set_encoded_user s => s = [] ∧ auth = true ∧ info = false
  -- a lone colon where there is no authority
  | .set_password_part s => s = b!":" ∧ auth = false
  | .set_port_part s => s = b!":" ∧ auth = false
  | _ => False

end Op

end Url.Spec
