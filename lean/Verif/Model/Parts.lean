import Verif.Model.Bytes

/-!
Model of `detail/parts.hpp`.
-/

namespace Url

/-! `detail/parts.hpp:21-32`, the part identifiers. -/
abbrev id_scheme : Nat := 0
abbrev id_user : Nat := 1
abbrev id_password : Nat := 2
abbrev id_host : Nat := 3
abbrev id_port : Nat := 4
abbrev id_path : Nat := 5
abbrev id_query : Nat := 6
abbrev id_frag : Nat := 7
abbrev id_end : Nat := 8

/-- `detail/parts.hpp:36-49` `struct parts`. The array `offset[id_end + 1]` is a function; only the
arguments `0..8` are meaningful. -/
structure Parts where
  off : Nat → Nat := fun _ => 0
  nseg : Nat := 0
  nparam : Nat := 0
  host : HostType := .none

namespace Parts

/-- `detail/parts.hpp:51-57` `length(id)` -/
def length (pt : Parts) (id : Nat) : Nat := pt.off (id + 1) - pt.off id

/-- `detail/parts.hpp:59-68` `length(begin, end)`; all callers pass constants that satisfy the two
assertions. -/
def length2 (pt : Parts) (b e : Nat) : Nat := pt.off e - pt.off b

/-- `detail/parts.hpp:92-101` `resize`. `offset[i] += n - n0` in modular arithmetic is
`offset[i] + n - n0`. -/
def resize (pt : Parts) (id n : Nat) : Parts :=
  { pt with off := fun i => if id < i then pt.off i + n - pt.length id else pt.off i }

/-- `detail/parts.hpp:104-113` `split`, without the assertions (see `UrlBase.split`). -/
def split (pt : Parts) (id n : Nat) : Parts :=
  { pt with off := fun i => if i = id + 1 then pt.off id + n else pt.off i }

end Parts

end Url
