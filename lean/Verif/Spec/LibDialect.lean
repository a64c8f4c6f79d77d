import Verif.Spec.RFC3986

/-!
The dialect of RFC 3986 that the library implements. The deviations from the RFC are:

1. schemes may not contain digits;
2. hex digits are upper case only, in escapes and in IPv6 addresses;
3. `IPvFuture` is not accepted;
4. in an IPv6 address with a dotted tail the first octet may have leading zeros (at most four digits);
5. in an IPv6 address with `::`, a dotted tail may follow `::` directly without its first octet;
6. in an absolute path without authority the first character after the slash may be any byte other
   than `/` - even `?`, `#`, `%` or a space. As a consequence a lone `/` is a path only at the end of
   the URL.
-/

namespace Url.Spec

/-- Decimal value of a digit string. -/
def decVal (s : Str) : Nat := s.foldl (fun v c => 10 * v + (c.toNat - 48)) 0

/-- Deviation 4: one to four digits with value at most 255. -/
def LooseOctet (s : Str) : Prop :=
  1 ≤ s.length ∧ s.length ≤ 4 ∧ s.all isDigit ∧ decVal s ≤ 255

/-- `.` dec-octet `.` dec-octet `.` dec-octet -/
def DottedTail (s : Str) : Prop :=
  ∃ b c d, DecOctet b ∧ DecOctet c ∧ DecOctet d ∧ s = b!"." ++ b ++ b!"." ++ c ++ b!"." ++ d

/-- A dotted quad whose first octet is loose. -/
def LooseIPv4 (s : Str) : Prop := ∃ a t, LooseOctet a ∧ DottedTail t ∧ s = a ++ t

/-- Deviation 5: `[ *5( h16 ":" ) h16 ] "::"` followed by a dotted tail; the last group before `::`,
if any, must be a loose octet. -/
def StrayTail (s : Str) : Prop :=
  (∃ t, DottedTail t ∧ s = b!"::" ++ t) ∨
  (∃ k x y t, k < 6 ∧ H16s isUpperHex k x ∧ LooseOctet y ∧ DottedTail t ∧
    s = x ++ y ++ b!"::" ++ t)

/-- Deviation 6. -/
def LoosePathAbsolute (p : Str) (follows : Bool) : Prop :=
  (p = b!"/" ∧ follows = false) ∨
  ∃ c s t, c ≠ c!"/" ∧ Escaped isUpperHex isPchar s ∧ Slashed isUpperHex t ∧
    p = c!"/" :: c :: s ++ t

/-- The dialect implemented by the library. -/
def lib : Dialect where
  schemeChar c := isAlpha c || b!"+-.".contains c
  hex := isUpperHex
  ipLiteral s := IPv6 isUpperHex LooseIPv4 s ∨ StrayTail s
  pathAbsolute := LoosePathAbsolute

mutual
/-- The key/value pairs of a query as the library delimits them: a key extends to the next `=`
(and may contain `&`), a value extends to the next `&` (and may contain `=`). -/
def libPairs : Str → List (Str × Option Str)
  | [] => [([], none)]
  | c :: t =>
    if c = c!"=" then ([], some (libValue t).1) :: (libValue t).2
    else
      match libPairs t with
      | [] => []
      | (k, v) :: r => (c :: k, v) :: r
/-- The rest of the current value and the pairs after it. -/
def libValue : Str → Str × List (Str × Option Str)
  | [] => ([], [])
  | c :: t => if c = c!"&" then ([], libPairs t) else (c :: (libValue t).1, (libValue t).2)
end

end Url.Spec
