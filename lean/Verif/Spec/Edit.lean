import Verif.Spec.Accessors
import Verif.Spec.LibDialect
import Verif.Spec.Percent

/-!
The effect of the modifying functions on the components of a URL. An empty argument removes a
component; adding a part of the authority adds an authority; removing the only part of an authority
removes the authority.
-/

namespace Url.Spec

/-- an optional component given as a string: the empty string means absent -/
def present (s : Str) : Option Str := if s = [] then none else some s

namespace Components

/-- the authority, or the empty authority that an edit starts from -/
def authD (c : Components) : Auth := c.auth.getD ⟨none, [], none⟩

def withScheme (c : Components) (s : Str) : Components := { c with scheme := present s }
def withPath (c : Components) (s : Str) : Components := { c with path := s }
def withQuery (c : Components) (s : Str) : Components := { c with query := present s }
def withFragment (c : Components) (s : Str) : Components := { c with fragment := present s }
def withAuth (c : Components) (a : Option Auth) : Components := { c with auth := a }

/-- set a non-empty user name -/
def withUser (c : Components) (s : Str) : Components :=
  c.withAuth (some { c.authD with userinfo := some (s, (c.userinfo.bind (·.2))) })

/-- `//user@` becomes `//`, `//user:pw@` becomes `//:pw@` -/
def clearUser (c : Components) : Components :=
  c.withAuth (c.auth.map fun a => { a with userinfo :=
    match a.userinfo with
    | some (_, some p) => some ([], some p)
    | _ => none })

/-- set a password (which may be empty) -/
def withPassword (c : Components) (s : Str) : Components :=
  c.withAuth (some { c.authD with userinfo := some (c.user, some s) })

/-- `//user:pw@` becomes `//user@`, `//:pw@` becomes `//` -/
def clearPassword (c : Components) : Components :=
  c.withAuth (c.auth.map fun a => { a with userinfo :=
    match a.userinfo with
    | none => none
    | some (u, _) => if u = [] then none else some (u, none) })

/-- set a non-empty host -/
def withHost (c : Components) (s : Str) : Components := c.withAuth (some { c.authD with host := s })

/-- an authority that consists of the host disappears -/
def clearHost (c : Components) : Components :=
  c.withAuth (match c.auth with
    | none => none
    | some a => if a.userinfo = none ∧ a.port = none then none else some { a with host := [] })

/-- set a port (which may be empty) -/
def withPort (c : Components) (s : Str) : Components := c.withAuth (some { c.authD with port := some s })

/-- an authority that consists of the port disappears -/
def clearPort (c : Components) : Components :=
  c.withAuth (match c.auth with
    | none => none
    | some a => if a.userinfo = none ∧ a.host = [] then none else some { a with port := none })

/-- set a userinfo -/
def withUserinfo (c : Components) (u : Str × Option Str) : Components :=
  c.withAuth (some { c.authD with userinfo := some u })

/-- an authority that consists of the userinfo disappears -/
def clearUserinfo (c : Components) : Components :=
  c.withAuth (match c.auth with
    | none => none
    | some a => if a.host = [] ∧ a.port = none then none else some { a with userinfo := none })

/-- everything removed -/
def empty : Components := ⟨none, none, [], none, none⟩

end Components

/-- What becomes of a plain text given as a host: addresses are stored as they are, any other text is
a name and is escaped. -/
inductive PlainHost : Str → Str → HostType → Prop
  | ipv4 {s : Str} : IPv4 s → PlainHost s s .ipv4
  | literal {x : Str} : lib.ipLiteral x → PlainHost (b!"[" ++ x ++ b!"]") (b!"[" ++ x ++ b!"]") .ipv6
  | name {s : Str} : ¬ IPv4 s → (¬ ∃ x, lib.ipLiteral x ∧ s = b!"[" ++ x ++ b!"]") →
      PlainHost s (pctEncode isRegName s) .name

/-- ASCII lower case -/
def lower (c : Byte) : Byte := if 65 ≤ c && c ≤ 90 then c + 32 else c

def Components.lowerScheme (c : Components) : Components := { c with scheme := c.scheme.map (·.map lower) }

end Url.Spec
