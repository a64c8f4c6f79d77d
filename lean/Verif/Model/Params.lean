import Verif.Model.Segments

/-!
Model of `params_type` of `url_view` and `url_base`.

The code of the two classes is the same, except that one reaches the text through `s_` and `pt_` and the other
through `v_->s_` and `v_->pt_`; each definition cites both places. Iterators of other objects, and null
iterators, are in `Verif.Model.Foreign`.
-/

namespace Url

/-- `url_view.hpp:914-922`, `url_base.hpp:2095-2102`: the members `off_`, `nk_` and `nv_` -/
structure ParamIt where
  off : Nat
  nk : Nat
  nv : Nat
  deriving DecidableEq, Repr

/-- `url_view.hpp:842-910`, `url_base.hpp:1993-2085`: the members `k_` and `v_` -/
structure Param where
  key : Str
  value : Str
  deriving DecidableEq, Repr

namespace Params

/-- `e.parse(s_ + p, end, ec)`: the final `p` and `ec`. Forming a pointer beyond the end of the storage is
undefined. -/
def skip (e : PctSet) (o : Obj) (p : Nat) (ec : Option Err) : R (Nat × Option Err) := do
  if o.mem.length < p then .error .ub
  else if p < o.pt.off id_end then
    let s ← o.read p (o.pt.off id_end - p)
    let r := e.parse s ec
    return (o.pt.off id_end - r.1.length, r.2)
  else return (p, ec)

/-- `impl/url_view.ipp:643-684`, `impl/url_base.ipp:1634-1675` `parse` -/
def parse (o : Obj) (it : ParamIt) : R ParamIt := do
  o.assert (.ok (o.pt.nparam > 0))
  o.assert (do return (← o.byte it.off) == if it.off = o.pt.off id_query then c!"?" else c!"&")
  let (p, ec) ← skip qkey_pct_set o (it.off + 1) none
  o.assert (.ok ec.isNone)
  let nk := p - it.off
  if p = o.pt.off id_end then return ⟨it.off, nk, 0⟩
  else
    o.assert (do return (← o.byte p) == c!"=")
    let (q, ec) ← skip qval_pct_set o (p + 1) ec
    o.assert (.ok ec.isNone)
    return ⟨it.off, nk, q - p⟩

/-- `impl/url_view.ipp:526-557`, `impl/url_base.ipp:1518-1546`, for `end = true` -/
def last (o : Obj) : ParamIt := ⟨o.pt.off id_frag, 0, 0⟩

/-- the same for `end = false` -/
def first (o : Obj) : R ParamIt :=
  if o.pt.nparam = 0 then .ok (last o) else parse o ⟨o.pt.off id_query, 0, 0⟩

/-- `impl/url_view.ipp:558-585`, `impl/url_base.ipp:1549-1576` `operator*`. Without assertions the size of the key
of `end()` wraps around. -/
def deref (o : Obj) (it : ParamIt) : R Param := do
  o.assert (.ok (o.pt.nparam > 0))
  o.assert (.ok (it.nk > 0))
  o.assert (do return (← o.byte it.off) == if it.off = o.pt.off id_query then c!"?" else c!"&")
  if it.nk = 0 then .error .ub
  else
    let k ← o.read (it.off + 1) (it.nk - 1)
    if it.nv = 0 then return ⟨k, []⟩
    else
      o.assert (do return (← o.byte (it.off + it.nk)) == c!"=")
      let v ← o.read (it.off + it.nk + 1) (it.nv - 1)
      return ⟨k, v⟩

/-- `impl/url_view.ipp:586-610`, `impl/url_base.ipp:1577-1601` `operator++` -/
def next (o : Obj) (it : ParamIt) : R ParamIt := do
  o.assert (.ok (o.pt.nparam > 0))
  o.assert (.ok (it.off ≠ o.pt.off id_frag))
  let off := it.off + it.nv + it.nk
  if off = o.pt.off id_frag then return ⟨off, 0, 0⟩
  else parse o { it with off := off }

/-- `impl/url_view.ipp:613-640`, `impl/url_base.ipp:1604-1631` `operator--`. Decrementing `begin()` leaves the
query. -/
def prev (o : Obj) (it : ParamIt) : R ParamIt := do
  o.assert (.ok (o.pt.nparam > 0))
  let begin := o.pt.off id_query
  o.assert (.ok (it.off ≠ begin))
  if it.off ≤ begin then .error .ub
  else
    match ← Seg.back o c!"&" begin (it.off - begin - 1) with
    | some p => parse o { it with off := p }
    | none =>
      o.assert (do return (← o.byte begin) == c!"?")
      return { it with off := begin }

/-- `impl/url_view.hpp:49-64`, `impl/url_base.hpp:81-96` `operator==`, for iterators of the same object -/
def eq (o : Obj) (a b : ParamIt) : R Bool := do
  o.assert (.ok (a.off ≠ b.off ∨ a.nk = b.nk ∧ a.nv = b.nv))
  return a.off == b.off

/-- `url_view.hpp:800-806`, `url_base.hpp:1938-1943` -/
def size (o : Obj) : Nat := o.pt.nparam

/-- `for(; it != end(); ++it)`, collecting `*it`; `fuel` bounds the number of steps. -/
def collect (o : Obj) : Nat → ParamIt → R (List Param)
  | 0, _ => .error .diverge
  | fuel + 1, it => do
    if ← eq o it (last o) then return []
    else
      let s ← deref o it
      let it ← next o it
      return s :: (← collect o fuel it)

/-- `for(auto e : params())`, collecting the elements -/
def walk (o : Obj) (fuel : Nat) : R (List Param) := do collect o fuel (← first o)

/-- the iterator that `k` increments lead to -/
def nth (o : Obj) : Nat → R ParamIt
  | 0 => first o
  | k + 1 => do next o (← nth o k)

/-- the loop of `contains` -/
def containsLoop (o : Obj) (key : Str) : Nat → ParamIt → R Bool
  | 0, _ => .error .diverge
  | fuel + 1, it => do
    if ← eq o it (last o) then return false
    else
      let e ← deref o it
      if ← key_equal e.key key then return true
      else containsLoop o key fuel (← next o it)

/-- `impl/url_view.ipp:702-713`, `impl/url_base.ipp:1693-1704` -/
def contains (o : Obj) (key : Str) (fuel : Nat) : R Bool := do containsLoop o key fuel (← first o)

/-- the loop of `count` -/
def countLoop (o : Obj) (key : Str) : Nat → ParamIt → Nat → R Nat
  | 0, _, _ => .error .diverge
  | fuel + 1, it, n => do
    if ← eq o it (last o) then return n
    else
      let e ← deref o it
      let n := if ← key_equal e.key key then n + 1 else n
      countLoop o key fuel (← next o it) n

/-- `impl/url_view.ipp:715-727`, `impl/url_base.ipp:1706-1718` -/
def count (o : Obj) (key : Str) (fuel : Nat) : R Nat := do countLoop o key fuel (← first o) 0

/-- the loop of `find` -/
def findLoop (o : Obj) (key : Str) : Nat → ParamIt → R ParamIt
  | 0, _ => .error .diverge
  | fuel + 1, it => do
    if ← eq o it (last o) then return it
    else
      let e ← deref o it
      if ← key_equal e.key key then return it
      else findLoop o key fuel (← next o it)

/-- `impl/url_view.ipp:729-743`, `impl/url_base.ipp:1720-1734` -/
def find (o : Obj) (key : Str) (fuel : Nat) : R ParamIt := do findLoop o key fuel (← first o)

/-- `impl/url_view.ipp:745-754`, `impl/url_base.ipp:1736-1745` `operator[]` -/
def index (o : Obj) (key : Str) (fuel : Nat) : R Str := do
  let it ← find o key fuel
  if ← eq o it (last o) then return []
  else decodeR (← deref o it).value

/-- `impl/url_view.hpp:34-45`, `impl/url_base.hpp:68-79` `at`; `none` is `out_of_range::raise()` -/
def atKey (o : Obj) (key : Str) (fuel : Nat) : R (Option Str) := do
  let it ← find o key fuel
  if ← eq o it (last o) then return none
  else return some (← decodeR (← deref o it).value)

end Params

end Url
