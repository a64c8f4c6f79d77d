import Verif.Spec.LibDialect

/-!
Percent-encoding (RFC 3986, section 2.1) and decimal numbers, stated without reference to the model.
-/

namespace Url.Spec

/-- the value of a hex digit -/
def hexVal (c : Byte) : Nat :=
  if isDigit c then c.toNat - 48
  else if 65 ≤ c && c ≤ 70 then c.toNat - 55
  else c.toNat - 87

/-- `Decoded s d`: decoding `s` gives `d`. Every `%` of `s` starts an escape. -/
inductive Decoded : Str → Str → Prop
  | nil : Decoded [] []
  | char {c : Byte} {s d : Str} : c ≠ c!"%" → Decoded s d → Decoded (c :: s) (c :: d)
  | pct {a b x : Byte} {s d : Str} : isHex a = true → isHex b = true →
      x.toNat = 16 * hexVal a + hexVal b → Decoded s d → Decoded (c!"%" :: a :: b :: s) (x :: d)

/-- the upper-case hex digit with a value below 16 -/
def hexDigit (n : Nat) : Byte := if n < 10 then UInt8.ofNat (48 + n) else UInt8.ofNat (55 + n)

/-- Encoding: characters of the alphabet `ok` are kept, every other byte is escaped. -/
def pctEncode (ok : Byte → Bool) (s : Str) : Str :=
  s.flatMap fun c => if ok c then [c] else [c!"%", hexDigit (c.toNat / 16), hexDigit (c.toNat % 16)]

/-- `s` is the decimal representation of `n` without leading zeros. -/
def Decimal (n : Nat) (s : Str) : Prop :=
  s ≠ [] ∧ s.all isDigit ∧ decVal s = n ∧ (s.head? = some c!"0" → s = b!"0")

end Url.Spec
