/-!
Bytes, strings and notation shared by the model and the specification.
-/

namespace Url

/-- A C++ `char`, identified with its value as `unsigned char`. -/
abbrev Byte := UInt8

/-- The contents of a `string_view` / `std::string`. -/
abbrev Str := List Byte

open Lean in
/-- `b!"text"` is the list of the bytes of an ASCII string literal. -/
macro:max "b!" s:str : term => do
  let elems : Array (TSyntax `term) :=
    (s.getString.toUTF8.toList.map fun n => (quote n.toNat : TSyntax `term)).toArray
  `(([$elems,*] : List UInt8))

open Lean in
/-- `c!"x"` is the byte of a one-character ASCII string literal. -/
macro:max "c!" s:str : term => do
  `(($(quote (s.getString.toUTF8.toList.headD 0).toNat) : UInt8))

/-- Outcomes that are neither a normal return nor an exception. -/
inductive Flt where
  /-- undefined behaviour: access outside an object, use of an indeterminate value,
  `front()` of an empty view, ... -/
  | ub
  /-- a `BOOST_ASSERT` whose condition is false (only in builds with assertions) -/
  | assert
  /-- the loop ran out of fuel -/
  | diverge
  deriving DecidableEq, Repr

/-- `error.hpp`, `enum class error` (the enumerators the modelled code uses). -/
inductive Err where
  | no_match
  | syntax
  | invalid
  | incomplete_pct_encoding
  | bad_pct_encoding_digit
  | illegal_reserved_char
  deriving DecidableEq, Repr

/-- `host_type.hpp:26-47` -/
inductive HostType where
  | none | name | ipv4 | ipv6 | ipvfuture
  deriving DecidableEq, Repr

deriving instance DecidableEq for Except

end Url
