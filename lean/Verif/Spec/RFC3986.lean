import Verif.Model.Bytes

/-!
RFC 3986, appendix A, transcribed. This file does not refer to the model; it only uses the types
`Byte` and `Str`.

The grammar is stated relative to a `Dialect`, a record of the lexical choices in which the library
differs from the RFC. `rfc` is the dialect of the RFC itself; the dialect of the library is in
`Verif/Spec/LibDialect.lean`.
-/

namespace Url.Spec

/-! ### Characters -/

/-- `ALPHA` -/
def isAlpha (c : Byte) : Bool := (65 ≤ c && c ≤ 90) || (97 ≤ c && c ≤ 122)
/-- `DIGIT` -/
def isDigit (c : Byte) : Bool := 48 ≤ c && c ≤ 57
/-- `0-9A-F` -/
def isUpperHex (c : Byte) : Bool := isDigit c || (65 ≤ c && c ≤ 70)
/-- `HEXDIG`; ABNF strings are case-insensitive -/
def isHex (c : Byte) : Bool := isDigit c || (65 ≤ c && c ≤ 70) || (97 ≤ c && c ≤ 102)
/-- `unreserved  = ALPHA / DIGIT / "-" / "." / "_" / "~"` -/
def isUnreserved (c : Byte) : Bool := isAlpha c || isDigit c || b!"-._~".contains c
/-- `sub-delims  = "!" / "$" / "&" / "'" / "(" / ")" / "*" / "+" / "," / ";" / "="` -/
def isSubDelim (c : Byte) : Bool := b!"!$&'()*+,;=".contains c
/-- the unescaped characters of `reg-name` -/
def isRegName (c : Byte) : Bool := isUnreserved c || isSubDelim c
/-- the unescaped characters of `userinfo` -/
def isUserinfo (c : Byte) : Bool := isUnreserved c || isSubDelim c || c == c!":"
/-- the unescaped characters of `pchar` -/
def isPchar (c : Byte) : Bool := isUnreserved c || isSubDelim c || c == c!":" || c == c!"@"
/-- the unescaped characters of `segment-nz-nc` -/
def isPcharNc (c : Byte) : Bool := isUnreserved c || isSubDelim c || c == c!"@"
/-- the unescaped characters of `query` and `fragment` -/
def isQueryFrag (c : Byte) : Bool := isPchar c || c == c!"/" || c == c!"?"

/-- Strings over an alphabet `ok` and `pct-encoded = "%" HEXDIG HEXDIG`. -/
inductive Escaped (hex ok : Byte → Bool) : Str → Prop
  | nil : Escaped hex ok []
  | char {c : Byte} {s : Str} : ok c = true → Escaped hex ok s → Escaped hex ok (c :: s)
  | pct {a b : Byte} {s : Str} : hex a = true → hex b = true → Escaped hex ok s →
      Escaped hex ok (c!"%" :: a :: b :: s)

/-! ### IP addresses -/

/-- `dec-octet = DIGIT / %x31-39 DIGIT / "1" 2DIGIT / "2" %x30-34 DIGIT / "25" %x30-35` -/
def DecOctet (s : Str) : Prop :=
  (∃ a, isDigit a ∧ s = [a]) ∨
  (∃ a b, (49 ≤ a ∧ a ≤ 57) ∧ isDigit b ∧ s = [a, b]) ∨
  (∃ b c, isDigit b ∧ isDigit c ∧ s = [49, b, c]) ∨
  (∃ b c, (48 ≤ b ∧ b ≤ 52) ∧ isDigit c ∧ s = [50, b, c]) ∨
  (∃ c, (48 ≤ c ∧ c ≤ 53) ∧ s = [50, 53, c])

/-- `IPv4address = dec-octet "." dec-octet "." dec-octet "." dec-octet` -/
def IPv4 (s : Str) : Prop :=
  ∃ a b c d, DecOctet a ∧ DecOctet b ∧ DecOctet c ∧ DecOctet d ∧
    s = a ++ b!"." ++ b ++ b!"." ++ c ++ b!"." ++ d

/-- `h16 = 1*4HEXDIG` -/
def H16 (hex : Byte → Bool) (s : Str) : Prop := 1 ≤ s.length ∧ s.length ≤ 4 ∧ s.all hex

/-- `k( h16 ":" )` -/
def H16s (hex : Byte → Bool) : Nat → Str → Prop
  | 0, s => s = []
  | k + 1, s => ∃ h t, H16 hex h ∧ H16s hex k t ∧ s = h ++ b!":" ++ t

/-- `[ *(j-1)( h16 ":" ) h16 ]`, an optional sequence of at most `j` groups -/
def OptGroups (hex : Byte → Bool) (j : Nat) (s : Str) : Prop :=
  s = [] ∨ ∃ k x y, k < j ∧ H16s hex k x ∧ H16 hex y ∧ s = x ++ y

/-- `ls32 = ( h16 ":" h16 ) / IPv4address` with a parameter for the second alternative -/
def Ls32 (hex : Byte → Bool) (v4 : Str → Prop) (s : Str) : Prop :=
  (∃ a b, H16 hex a ∧ H16 hex b ∧ s = a ++ b!":" ++ b) ∨ v4 s

/--
```
IPv6address =                            6( h16 ":" ) ls32
            /                       "::" 5( h16 ":" ) ls32
            / [               h16 ] "::" 4( h16 ":" ) ls32
            / [ *1( h16 ":" ) h16 ] "::" 3( h16 ":" ) ls32
            / [ *2( h16 ":" ) h16 ] "::" 2( h16 ":" ) ls32
            / [ *3( h16 ":" ) h16 ] "::"    h16 ":"   ls32
            / [ *4( h16 ":" ) h16 ] "::"              ls32
            / [ *5( h16 ":" ) h16 ] "::"              h16
            / [ *6( h16 ":" ) h16 ] "::"
```
The alternatives 2 to 7 have at most `j` groups before `::` and `5 - j` groups after it, `j = 0..5`.
-/
def IPv6 (hex : Byte → Bool) (v4 : Str → Prop) (s : Str) : Prop :=
  (∃ x y, H16s hex 6 x ∧ Ls32 hex v4 y ∧ s = x ++ y) ∨
  (∃ j p x y, j ≤ 5 ∧ OptGroups hex j p ∧ H16s hex (5 - j) x ∧ Ls32 hex v4 y ∧
    s = p ++ b!"::" ++ x ++ y) ∨
  (∃ p y, OptGroups hex 6 p ∧ H16 hex y ∧ s = p ++ b!"::" ++ y) ∨
  (∃ p, OptGroups hex 7 p ∧ s = p ++ b!"::")

/-- `IPvFuture = "v" 1*HEXDIG "." 1*( unreserved / sub-delims / ":" )` -/
def IPvFuture (s : Str) : Prop :=
  ∃ v h t, (v = c!"v" ∨ v = c!"V") ∧ h ≠ [] ∧ h.all isHex ∧ t ≠ [] ∧ t.all isUserinfo ∧
    s = v :: h ++ b!"." ++ t

/-! ### Dialects -/

/-- The lexical choices in which the library differs from the RFC. -/
structure Dialect where
  /-- the characters of a scheme after the first -/
  schemeChar : Byte → Bool
  /-- the digits accepted after `%` -/
  hex : Byte → Bool
  /-- the text between the brackets of an `IP-literal` -/
  ipLiteral : Str → Prop
  /-- `path-absolute`; the second argument tells whether a query or fragment follows -/
  pathAbsolute : Str → Bool → Prop

/-- `*( "/" segment )` -/
def Slashed (hex : Byte → Bool) (p : Str) : Prop :=
  ∃ segs : List Str, (∀ s ∈ segs, Escaped hex isPchar s) ∧ p = segs.flatMap (c!"/" :: ·)

/-- `path-absolute = "/" [ segment-nz *( "/" segment ) ]` -/
def PathAbsolute (hex : Byte → Bool) (p : Str) : Prop :=
  p = b!"/" ∨ ∃ s t, s ≠ [] ∧ Escaped hex isPchar s ∧ Slashed hex t ∧ p = c!"/" :: s ++ t

/-- `path-noscheme = segment-nz-nc *( "/" segment )` -/
def PathNoscheme (hex : Byte → Bool) (p : Str) : Prop :=
  ∃ s t, s ≠ [] ∧ Escaped hex isPcharNc s ∧ Slashed hex t ∧ p = s ++ t

/-- `path-rootless = segment-nz *( "/" segment )` -/
def PathRootless (hex : Byte → Bool) (p : Str) : Prop :=
  ∃ s t, s ≠ [] ∧ Escaped hex isPchar s ∧ Slashed hex t ∧ p = s ++ t

/-- The dialect of RFC 3986. -/
def rfc : Dialect where
  schemeChar c := isAlpha c || isDigit c || b!"+-.".contains c
  hex := isHex
  ipLiteral s := IPv6 isHex IPv4 s ∨ IPvFuture s
  pathAbsolute p _ := PathAbsolute isHex p

/-! ### Components and recomposition (RFC 3986, sections 3 and 5.3) -/

/-- `authority = [ userinfo "@" ] host [ ":" port ]`; a userinfo is a user name and, after the first
colon, an optional password (section 3.2.1). -/
structure Auth where
  userinfo : Option (Str × Option Str)
  host : Str
  port : Option Str
  deriving DecidableEq

/-- The five components of a URI-reference. -/
structure Components where
  scheme : Option Str
  auth : Option Auth
  path : Str
  query : Option Str
  fragment : Option Str
  deriving DecidableEq

/-- the text of an authority, without the leading `//` -/
def Auth.render (a : Auth) : Str :=
  (match a.userinfo with
    | none => []
    | some (u, none) => u ++ b!"@"
    | some (u, some p) => u ++ b!":" ++ p ++ b!"@") ++
  a.host ++
  (match a.port with
    | none => []
    | some p => b!":" ++ p)

/-- Component recomposition, RFC 3986 section 5.3. -/
def Components.render (c : Components) : Str :=
  (match c.scheme with | none => [] | some s => s ++ b!":") ++
  (match c.auth with | none => [] | some a => b!"//" ++ a.render) ++
  c.path ++
  (match c.query with | none => [] | some q => b!"?" ++ q) ++
  (match c.fragment with | none => [] | some f => b!"#" ++ f)

/-- `scheme = ALPHA *( ALPHA / DIGIT / "+" / "-" / "." )` -/
def Scheme (D : Dialect) (s : Str) : Prop :=
  ∃ a t, s = a :: t ∧ isAlpha a ∧ t.all D.schemeChar

/-- `host = IP-literal / IPv4address / reg-name`; every IPv4address is a reg-name. -/
def Host (D : Dialect) (h : Str) : Prop :=
  (∃ x, D.ipLiteral x ∧ h = b!"[" ++ x ++ b!"]") ∨ Escaped D.hex isRegName h

/-- the authority grammar -/
def Auth.Valid (D : Dialect) (a : Auth) : Prop :=
  (∀ u pw, a.userinfo = some (u, pw) →
    Escaped D.hex isRegName u ∧ ∀ p, pw = some p → Escaped D.hex isUserinfo p) ∧
  Host D a.host ∧
  (∀ p, a.port = some p → p.all isDigit)

/-- the path grammar, depending on what precedes (and, in the library's dialect, follows) -/
def PathOk (D : Dialect) (hasScheme hasAuth follows : Bool) (p : Str) : Prop :=
  if hasAuth then Slashed D.hex p
  else if hasScheme then p = [] ∨ D.pathAbsolute p follows ∨ PathRootless D.hex p
  else p = [] ∨ D.pathAbsolute p follows ∨ PathNoscheme D.hex p

/-- `URI-reference = URI / relative-ref` -/
def Components.Valid (D : Dialect) (c : Components) : Prop :=
  (∀ s, c.scheme = some s → Scheme D s) ∧
  (∀ a, c.auth = some a → a.Valid D) ∧
  PathOk D c.scheme.isSome c.auth.isSome (c.query.isSome || c.fragment.isSome) c.path ∧
  (∀ q, c.query = some q → Escaped D.hex isQueryFrag q) ∧
  (∀ f, c.fragment = some f → Escaped D.hex isQueryFrag f)

/-- the language of URI-references of a dialect -/
def UriReference (D : Dialect) (s : Str) : Prop := ∃ c : Components, c.Valid D ∧ c.render = s

/-! ### Derived notions -/

/-- The kind of a host text. -/
inductive HostKind : Str → HostType → Prop
  | none : HostKind [] .none
  | ipv4 {h} : IPv4 h → HostKind h .ipv4
  | ipv6 {t} : HostKind (c!"[" :: t) .ipv6
  | name {h} : h ≠ [] → ¬ IPv4 h → h.head? ≠ some c!"[" → HostKind h .name

/-- Split a string at every occurrence of a separator. -/
def splitAt (sep : Byte) : Str → List Str
  | [] => [[]]
  | c :: t =>
    if c = sep then [] :: splitAt sep t
    else
      match splitAt sep t with
      | [] => [[c]]
      | h :: r => (c :: h) :: r

/-- The segments of a path. A leading slash starts the first segment; the empty path has none. -/
def pathSegments (p : Str) : List Str :=
  match p with
  | [] => []
  | c :: t => if c = c!"/" then splitAt c!"/" t else splitAt c!"/" (c :: t)

/-- The key/value pairs of a query: split at `&`, each piece at its first `=`. -/
def queryPairs (q : Str) : List (Str × Option Str) :=
  (splitAt c!"&" q).map fun piece =>
    (piece.takeWhile (· != c!"="),
     if piece.contains c!"=" then some ((piece.dropWhile (· != c!"=")).drop 1) else none)

end Url.Spec
