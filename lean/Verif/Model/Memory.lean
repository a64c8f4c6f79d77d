import Verif.Model.CharType
import Verif.Model.Parts

/-!
The memory a read-only member function sees, and the small pieces of `string_view` it uses.
-/

namespace Url

/-- A byte of memory; `none` is an indeterminate value. -/
abbrev Cell := Option Byte

/-- The result of a function that does not throw: a value or a fault. -/
abbrev R := Except Flt

/-- The object behind a `const` member function of `url_view` or `url_base`: whether assertions are
compiled in, the offset table `pt_`, and the bytes that can be read through `s_` (none for a null
pointer). -/
structure Obj where
  dbg : Bool
  pt : Parts
  mem : List Cell

namespace Obj

/-- The bytes `[s_ + i, s_ + i + n)`. The C++ code forms a `string_view`; the bytes are needed as
soon as the view is used, so that a view that contains bytes outside the object or indeterminate
bytes is the outcome `ub` here. An empty view is always fine. -/
def read (o : Obj) (i n : Nat) : R Str :=
  if n = 0 then .ok []
  else if i + n ≤ o.mem.length then
    match ((o.mem.drop i).take n).mapM id with
    | some s => .ok s
    | none => .error .ub
  else .error .ub

/-- `s_[i]` -/
def byte (o : Obj) (i : Nat) : R Byte :=
  match o.mem[i]? with
  | some (some c) => .ok c
  | _ => .error .ub

/-- `detail/parts.hpp:81-89` `get(begin, end, s)`. Decreasing offsets would give a huge size. -/
def get2 (o : Obj) (b e : Nat) : R Str :=
  if o.pt.off b ≤ o.pt.off e then o.read (o.pt.off b) (o.pt.off e - o.pt.off b) else .error .ub

/-- `detail/parts.hpp:70-78` `get(id, s)` -/
def get (o : Obj) (id : Nat) : R Str := o.get2 id (id + 1)

/-- `BOOST_ASSERT`, where evaluating the condition may itself fault -/
def assert (o : Obj) (c : R Bool) : R Unit :=
  if o.dbg then
    match c with
    | .ok true => .ok ()
    | .ok false => .error .assert
    | .error f => .error f
  else .ok ()

end Obj

/-- `s.front() == c`; undefined for an empty view -/
def frontIs (s : Str) (c : Byte) : R Bool :=
  match s with
  | [] => .error .ub
  | d :: _ => .ok (d == c)

/-- `s.back() == c`; undefined for an empty view -/
def backIs (s : Str) (c : Byte) : R Bool :=
  match s.getLast? with
  | none => .error .ub
  | some d => .ok (d == c)

/-- `s[i] == c`; undefined outside the view -/
def atIs (s : Str) (i : Nat) (c : Byte) : R Bool :=
  match s[i]? with
  | none => .error .ub
  | some d => .ok (d == c)

/-- `s.remove_prefix(n)`; undefined when `n > s.size()` -/
def removePrefix (s : Str) (n : Nat) : R Str :=
  if n ≤ s.length then .ok (s.drop n) else .error .ub

/-- `s.remove_suffix(n)`; undefined when `n > s.size()` -/
def removeSuffix (s : Str) (n : Nat) : R Str :=
  if n ≤ s.length then .ok (s.take (s.length - n)) else .error .ub

/-- `detail::decode` as a read-only operation -/
def decodeR (s : Str) : R Str :=
  match decode s with
  | some d => .ok d
  | none => .error .ub

end Url
