import Verif.Model.Bytes

/-!
Model of `error.hpp` and `impl/error.ipp`: the category of the error codes.
-/

namespace Url

/-- `error.hpp:73-125`: the value of an enumerator that the library uses -/
def Err.value : Err → Nat
  | .no_match => 1
  | .syntax => 2
  | .invalid => 3
  | .bad_pct_encoding_digit => 13
  | .incomplete_pct_encoding => 14
  | .illegal_reserved_char => 15

/-- `impl/error.ipp:97-121` `message` -/
def errorMessage (ev : Int) : String :=
  if ev = 2 then "syntax"
  else if ev = 3 then "invalid"
  else if ev = 4 then "missing scheme"
  else if ev = 5 then "bad scheme start char"
  else if ev = 6 then "bad scheme char"
  else if ev = 7 then "bad user char"
  else if ev = 8 then "bad userinfo char"
  else if ev = 9 then "bad port char"
  else if ev = 10 then "port overflow"
  else if ev = 11 then "missing hostname"
  else if ev = 12 then "missing port"
  else if ev = 13 then "bad pct-encoding digit"
  else if ev = 14 then "incomplete pct-encoding"
  else if ev = 15 then "illegal reserved char"
  else "no match for element"

/-- A condition: `condition::parse_error`, or the error itself. -/
inductive Condition where
  | parse_error
  | same (ev : Int)
  deriving DecidableEq, Repr

/-- `impl/error.ipp:123-151` `default_error_condition` -/
def errorCondition (ev : Int) : Condition := if 1 ≤ ev ∧ ev ≤ 15 then .parse_error else .same ev

end Url
