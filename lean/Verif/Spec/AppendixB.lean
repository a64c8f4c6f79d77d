import Verif.Spec.RFC3986

/-!
RFC 3986, appendix B: "The following line is the regular expression for breaking-down a well-formed URI reference into its
components"

```
^(([^:/?#]+):)?(//([^/?#]*))?([^?#]*)(\?([^#]*))?(#(.*))?
```

transcribed as a function, one step for each group. It does not refer to the grammar.
-/

namespace Url.Spec

/-- the longest prefix without the characters `stop`, and the rest: `([^stop]*)` -/
def upTo (stop : Str) (s : Str) : Str × Str := (s.takeWhile (!stop.contains ·), s.dropWhile (!stop.contains ·))

/-- `(([^:/?#]+):)?` -/
def reScheme (s : Str) : Option Str × Str :=
  match upTo b!":/?#" s with
  | (a :: x, d :: r) => if d = c!":" then (some (a :: x), r) else (none, s)
  | _ => (none, s)

/-- `(//([^/?#]*))?` -/
def reAuthority : Str → Option Str × Str
  | a :: b :: s =>
    if a = c!"/" ∧ b = c!"/" then (some (upTo b!"/?#" s).1, (upTo b!"/?#" s).2) else (none, a :: b :: s)
  | s => (none, s)

/-- `(\?([^#]*))?` -/
def reQuery : Str → Option Str × Str
  | d :: s => if d = c!"?" then (some (upTo b!"#" s).1, (upTo b!"#" s).2) else (none, d :: s)
  | [] => (none, [])

/-- `(#(.*))?` -/
def reFragment : Str → Option Str
  | d :: s => if d = c!"#" then some s else none
  | [] => none

/-- The groups 2, 4, 5, 7 and 9: scheme, authority, path, query, fragment. -/
structure Groups9 where
  scheme : Option Str
  authority : Option Str
  path : Str
  query : Option Str
  fragment : Option Str
  deriving DecidableEq, Repr

/-- the regular expression of appendix B -/
def appendixB (s : Str) : Groups9 :=
  let (scheme, s) := reScheme s
  let (authority, s) := reAuthority s
  let (path, s) := upTo b!"?#" s
  let (query, s) := reQuery s
  ⟨scheme, authority, path, query, reFragment s⟩

example : appendixB b!"http://www.ics.uci.edu/pub/ietf/uri/#Related" =
    ⟨some b!"http", some b!"www.ics.uci.edu", b!"/pub/ietf/uri/", none, some b!"Related"⟩ := by decide +kernel

end Url.Spec
