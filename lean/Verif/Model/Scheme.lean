import Verif.Model.Memory

/-!
Model of `scheme.hpp` and `impl/scheme.ipp`.

The functions call `::tolower` of the C library: the `using detail::to_lower` beside them does not name it. Its
behaviour is that of the "C" locale here. Its argument is an `int`; a `char` that is negative as an `int`, other than
`EOF`, is outside its domain. `signedChar` tells whether bytes from 128 on are negative.
-/

namespace Url

/-- `scheme.hpp:20-30` -/
inductive Scheme where
  | unknown | ftp | file | http | https | ws | wss
  deriving DecidableEq, Repr

/-- `tolower(c)` in the "C" locale. The byte 255 is `EOF` if `char` is signed; it is returned unchanged. -/
def tolower (signedChar : Bool) (c : Byte) : R Byte :=
  if signedChar && 128 ≤ c.toNat && c.toNat ≠ 255 then .error .ub
  else if 65 ≤ c.toNat && c.toNat ≤ 90 then .ok (c + 32)
  else .ok c

namespace Scheme

/-- `tolower(s[i]) == c && ...`: evaluated from the left, until one is false -/
def matches_ (sg : Bool) : Str → Str → R Bool
  | a :: s, c :: t => do
    if (← tolower sg a) == c then matches_ sg s t else return false
  | _, _ => .ok true

/-- one `case` of an inner `switch` -/
def pick (sg : Bool) (s t : Str) (r : Scheme) : R Scheme := do
  if ← matches_ sg s t then return r else return unknown

/-- `impl/scheme.ipp:19-88` `string_to_scheme` -/
def ofString (sg : Bool) (s : Str) : R Scheme := do
  match s with
  | [_, _] => pick sg s b!"ws" ws
  | [a, b, c] =>
    let k ← tolower sg a
    if k == c!"w" then pick sg [b, c] b!"ss" wss
    else if k == c!"f" then pick sg [b, c] b!"tp" ftp
    else return unknown
  | [a, b, c, d] =>
    let k ← tolower sg a
    if k == c!"f" then pick sg [b, c, d] b!"ile" file
    else if k == c!"h" then pick sg [b, c, d] b!"ttp" http
    else return unknown
  | [_, _, _, _, _] => pick sg s b!"https" https
  | _ => return unknown

/-- `impl/scheme.ipp:90-106` `to_string` -/
def toStr : Scheme → Str
  | ftp => b!"ftp"
  | file => b!"file"
  | http => b!"http"
  | https => b!"https"
  | ws => b!"ws"
  | wss => b!"wss"
  | unknown => b!"<unknown>"

/-- `scheme.hpp:53-58` `is_special` -/
def is_special (sg : Bool) (s : Str) : R Bool := do return (← ofString sg s) != unknown

end Scheme

end Url
