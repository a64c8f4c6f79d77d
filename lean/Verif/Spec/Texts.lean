import Verif.Spec.Op

/-!
What the modifying calls do to the eight texts a URL consists of, also where these are not the parts of a valid URL.

`Op.Takes op x` says that the call accepts its argument when the texts are `x`, `Op.Turns op x y` that it makes `y` of them.
This describes what the code does, including what is wrong with it: see the properties C23, C30, C32, C46 and C47.
-/

namespace Url.Spec

/-- The texts of the parts of a URL with their delimiters: `scheme:`, `//user`, `:password@`, `host`, `:port`, `path`,
`?query` and `#fragment`. -/
structure Texts where
  scheme : Str
  user : Str
  password : Str
  host : Str
  port : Str
  path : Str
  query : Str
  fragment : Str
  deriving DecidableEq

namespace Texts

def empty : Texts := ⟨[], [], [], [], [], [], [], []⟩

/-- the texts of components -/
def of (c : Components) : Texts where
  scheme := match c.scheme with
    | none => []
    | some s => s ++ b!":"
  user := match c.auth with
    | none => []
    | some a => match a.userinfo with
      | none => b!"//"
      | some (u, _) => b!"//" ++ u
  password := match c.auth with
    | none => []
    | some a => match a.userinfo with
      | none => []
      | some (_, none) => b!"@"
      | some (_, some p) => b!":" ++ p ++ b!"@"
  host := match c.auth with
    | none => []
    | some a => a.host
  port := match c.auth with
    | none => []
    | some a => match a.port with
      | none => []
      | some p => b!":" ++ p
  path := c.path
  query := match c.query with
    | none => []
    | some q => b!"?" ++ q
  fragment := match c.fragment with
    | none => []
    | some f => b!"#" ++ f

/-- the texts of the authority -/
def authority (x : Texts) : Str := x.user ++ (x.password ++ (x.host ++ x.port))

/-- everything behind the scheme -/
def behind (x : Texts) : Str := x.user ++ (x.password ++ (x.host ++ (x.port ++ (x.path ++ (x.query ++ x.fragment)))))

/-- `d` is two characters: the first two behind the scheme. (If there is only one, the second can be any.) -/
def Opens (x : Texts) (d : Str) : Prop := d.length = 2 ∧ x.behind.take 2 <+: d

/-- the text is put where it is, or behind a new `//` if there is no authority -/
def begun (x : Texts) : Str := if x.authority = [] then b!"//" else x.user

def noAuthority (x : Texts) : Texts := { x with user := [], password := [], host := [], port := [] }

def UserOff (x y : Texts) : Prop :=
  (x.user = [] ∧ y = x) ∨
  (x.user ≠ [] ∧ ∃ d, x.Opens d ∧ y = { x with user := d, password := if x.password.length = 1 then [] else x.password })

def UserTo (x : Texts) (s : Str) (y : Texts) : Prop :=
  (x.password ≠ [] ∧ ∃ d, x.Opens d ∧ y = { x with user := d ++ s }) ∨
  (x.password = [] ∧ y = { x with user := b!"//" ++ s, password := b!"@" })

def UserinfoOff (x y : Texts) : Prop :=
  (x.host ++ x.port = [] ∧ y = { x with user := [], password := [] }) ∨
  (x.host ++ x.port ≠ [] ∧ ∃ d, x.Opens d ∧ y = { x with user := d, password := [] })

/-- the end of the user is counted from the start of the `//` -/
def UserinfoTo (x : Texts) (s : Str) (y : Texts) : Prop :=
  ∃ u, UserinfoText u s ∧ y = { x with user := (b!"//" ++ s).take u.1.length, password := (b!"//" ++ s).drop u.1.length ++ b!"@" }

def passwordOff (x : Texts) : Texts := { x with password := if x.password = [] ∨ x.user.length = 2 then [] else b!"@" }

def passwordTo (x : Texts) (s : Str) : Texts :=
  { x with user := if x.user = [] then b!"//" else x.user, password := b!":" ++ s ++ b!"@" }

def hostOff (x : Texts) : Texts :=
  if (x.user ++ x.password).length = 2 ∧ x.port = [] then x.noAuthority else { x with host := [] }

def hostTo (x : Texts) (s : Str) : Texts := { x with user := x.begun, host := s }

def portOff (x : Texts) : Texts :=
  if (x.user ++ (x.password ++ x.host)).length = 2 then x.noAuthority else { x with port := [] }

def portTo (x : Texts) (s : Str) : Texts := { x with user := x.begun, port := b!":" ++ s }

end Texts

namespace Op

/-- The call accepts its argument. What `set_encoded_origin` accepts is not the language of a grammar of RFC 3986: this only
says that it begins with a scheme. -/
def Takes : Op → Texts → Prop
  | .set_encoded_url s, _ => s = [] ∨ UriReference lib s
  | .set_encoded_origin s, _ => s = [] ∨ ∃ sch r, Scheme lib sch ∧ s = sch ++ b!":" ++ r
  | .set_scheme s, _ => s = [] ∨ Scheme lib s
  | .set_encoded_authority s, _ => s = [] ∨ ∃ a : Auth, a.Text s
  | .set_encoded_userinfo s, _ => Escaped isUpperHex isUserinfo s
  | .set_userinfo_part s, _ => s = [] ∨ ∃ z, s = z ++ b!"@" ∧ Escaped isUpperHex isUserinfo z
  | .set_encoded_user s, _ => Escaped isUpperHex isRegName s
  | .set_encoded_password s, _ => s.head? ≠ some c!":" ∧ Escaped isUpperHex isUserinfo s
  | .set_password_part s, _ =>
      s = [] ∨ s = b!":" ∨ ∃ d p, s = d :: p ∧ p ≠ [] ∧ p.head? ≠ some c!":" ∧ Escaped isUpperHex isUserinfo p
  | .set_encoded_host s, _ => Host lib s
  | .set_port s, _ => s.all isDigit = true
  | .set_port_part s, _ => s = [] ∨ ∃ p, s = c!":" :: p ∧ p.all isDigit = true
  | .set_encoded_path s, x => PathOk lib (decide (x.scheme ≠ [])) (decide (x.authority ≠ [])) false s
  | .set_encoded_query s, _ => Escaped isUpperHex isQueryFrag s
  | .set_query_part s, _ => s = [] ∨ ∃ x, s = c!"?" :: x ∧ Escaped isUpperHex isQueryFrag x
  | .set_encoded_fragment s, _ => Escaped isUpperHex isQueryFrag s
  | .set_fragment_part s, _ => s = [] ∨ ∃ x, s = c!"#" :: x ∧ Escaped isUpperHex isQueryFrag x
  | _, _ => True

/-- The call makes the texts `y` of the texts `x`. -/
def Turns : Op → Texts → Texts → Prop
  | .set_encoded_url s, _, y => (s = [] ∧ y = Texts.empty) ∨ (s ≠ [] ∧ ∃ c : Components, c.Valid lib ∧ c.render = s ∧ y = Texts.of c)
  | .set_encoded_origin s, x, y =>
      (s = [] ∧ y = { x.noAuthority with scheme := [] }) ∨
      (s ≠ [] ∧ ∃ sch a r, Scheme lib sch ∧ (∀ a', a = some a' → a'.Valid lib) ∧
        s = Components.render ⟨some sch, a, r, none, none⟩ ∧
        y = { Texts.of ⟨some sch, a, [], none, none⟩ with path := r ++ x.path, query := x.query, fragment := x.fragment })
  | .set_scheme s, x, y => y = { x with scheme := if s = [] then [] else s ++ b!":" }
  | .set_encoded_authority s, x, y =>
      (s = [] ∧ y = x.noAuthority) ∨
      (s ≠ [] ∧ ∃ a : Auth, a.Text s ∧
        y = { Texts.of ⟨none, some a, [], none, none⟩ with scheme := x.scheme, path := x.path, query := x.query, fragment := x.fragment })
  | .set_encoded_userinfo s, x, y => if s = [] then x.UserinfoOff y else x.UserinfoTo s y
  | .set_userinfo_part s, x, y => if s = [] ∨ s = b!"@" then x.UserinfoOff y else x.UserinfoTo s.dropLast y
  | .set_user s, x, y => if s = [] then x.UserOff y else x.UserTo (pctEncode isRegName s) y
  | .set_encoded_user s, x, y => if s = [] then x.UserOff y else x.UserTo s y
  | .set_password s, x, y => y = if s = [] then x.passwordOff else x.passwordTo (pctEncode isUserinfo s)
  | .set_encoded_password s, x, y => y = if s = [] then x.passwordOff else x.passwordTo s
  | .set_password_part s, x, y =>
      y = if s = [] then x.passwordOff
        else if s.length = 1 then (if x.user = [] then { x with user := b!"//", password := [] } else { x with password := b!":@" })
        else x.passwordTo (s.drop 1)
  | .set_host s, x, y => (s = [] ∧ y = x.hostOff) ∨ (s ≠ [] ∧ ∃ txt k, PlainHost s txt k ∧ y = x.hostTo txt)
  | .set_encoded_host s, x, y => y = if s = [] then x.hostOff else x.hostTo s
  | .set_port s, x, y => y = if s = [] then x.portOff else x.portTo s
  | .set_port_number n, x, y => ∃ s, Decimal n.toNat s ∧ y = x.portTo s
  | .set_port_part s, x, y =>
      y = if s = [] then x.portOff else if s.length = 1 then { x with port := b!":" } else x.portTo (s.drop 1)
  | .set_encoded_path s, x, y => y = { x with path := s }
  | .set_query s, x, y => y = { x with query := if s = [] then [] else b!"?" ++ pctEncode isQueryFrag s }
  | .set_encoded_query s, x, y => y = { x with query := if s = [] then [] else b!"?" ++ s }
  | .set_query_part s, x, y => y = { x with query := s }
  | .set_fragment s, x, y => y = { x with fragment := if s = [] then [] else b!"#" ++ pctEncode isQueryFrag s }
  | .set_encoded_fragment s, x, y => y = { x with fragment := if s = [] then [] else b!"#" ++ s }
  | .set_fragment_part s, x, y => y = { x with fragment := s }
  | .normalize_scheme, x, y => y = { x with scheme := x.scheme.map lower }
  | .normalize, x, y => y = { x with scheme := x.scheme.map lower }

end Op

end Url.Spec
