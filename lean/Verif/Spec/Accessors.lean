import Verif.Spec.RFC3986

/-!
What the accessors of a URL are expected to return, in terms of its components. An absent component
reads as the empty string.
-/

namespace Url.Spec

def Components.userinfo (c : Components) : Option (Str × Option Str) := c.auth.bind (·.userinfo)

def Components.user (c : Components) : Str :=
  match c.userinfo with
  | some (u, _) => u
  | none => []

def Components.password (c : Components) : Str :=
  match c.userinfo with
  | some (_, some p) => p
  | _ => []

/-- `user [ ":" password ]` -/
def userinfoText : Option (Str × Option Str) → Str
  | none => []
  | some (u, none) => u
  | some (u, some p) => u ++ b!":" ++ p

def Components.host (c : Components) : Str :=
  match c.auth with
  | some a => a.host
  | none => []

def Components.port (c : Components) : Option Str := c.auth.bind (·.port)

/-- a component with its leading delimiter, or nothing when it is absent -/
def withPrefix (d : Str) : Option Str → Str
  | none => []
  | some s => d ++ s

/-- a component with its trailing delimiter, or nothing when it is absent -/
def withSuffix (d : Str) : Option Str → Str
  | none => []
  | some s => s ++ d

/-- the text of the authority, without `//` -/
def Components.authority (c : Components) : Str :=
  match c.auth with
  | some a => a.render
  | none => []

/-- everything before the path -/
def Components.origin (c : Components) : Str :=
  withSuffix b!":" c.scheme ++ withPrefix b!"//" (c.auth.map (·.render))

end Url.Spec
