import Verif.Model.Cost
import Verif.Model.Params

/-!
The iteration over segments and parameters, and the search for a key, once more with a count of the characters read.

Each function has the name of the function in `Verif/Model/Segments.lean`, `Verif/Model/Params.lean` or
`Verif/Model/CharType.lean` it repeats, with the prefix `n_`; `Verif/Proofs/CostWalk.lean` shows that the results are the
same. Counted is every evaluation of an expression that reads a character of the url or of the key that is searched
for; in a debug build also those in assertions. Making a `string_view` reads nothing. An execution that faults has
the count of the reads until then, the one that faults included.
-/

namespace Url

/-- The outcome of a function that does not throw, and the number of characters read. -/
structure Walked (α : Type) where
  val : R α
  reads : Nat

namespace Walked

instance : Monad Walked where
  pure a := ⟨.ok a, 0⟩
  bind m f :=
    match m.val with
    | .ok a => ⟨(f a).val, m.reads + (f a).reads⟩
    | .error e => ⟨.error e, m.reads⟩

/-- a step that reads nothing -/
def free {α : Type} (r : R α) : Walked α := ⟨r, 0⟩

/-- reading `n` characters -/
def look (n : Nat := 1) : Walked Unit := ⟨.ok (), n⟩

end Walked

open Walked

/-- `s_[i]` -/
def Obj.n_byte (o : Obj) (i : Nat) : Walked Byte := ⟨o.byte i, 1⟩

/-- `BOOST_ASSERT(s_[i] == c)` -/
def Obj.n_assert (o : Obj) (i : Nat) (c : Byte) : Walked Unit :=
  ⟨o.assert (do return (← o.byte i) == c), if o.dbg then 1 else 0⟩

/-- The loop of `key_equal`, `detail/char_type.hpp:485-507`. A character that is not `%` is read twice. -/
def n_keyEqualLoop : Str → Str → Walked Bool
  | [], m => return m.isEmpty
  | _ :: _, [] => return false
  | c :: t, m :: ms =>
    if c != c!"%" then do
      look 3
      if c != m then return false else n_keyEqualLoop t ms
    else
      match t with
      | a :: b :: u => do
        look 4
        if unescape a b != m then return false else n_keyEqualLoop u ms
      | _ => do
        look 3
        free (.error .ub)

/-- `detail/char_type.hpp:472-508` `key_equal` -/
def n_key_equal (encoded mtch : Str) : Walked Bool :=
  if encoded.length < mtch.length then return false else n_keyEqualLoop encoded mtch

namespace Params

/-- `e.parse(s_ + p, end, ec)` -/
def n_skip (e : PctSet) (o : Obj) (p : Nat) (ec : Option Err) : Walked (Nat × Option Err) := do
  if o.mem.length < p then free (.error .ub)
  else if p < o.pt.off id_end then
    let s ← free (o.read p (o.pt.off id_end - p))
    let r := e.n_parse s ec
    look r.reads
    return (o.pt.off id_end - r.val.1.length, r.val.2)
  else return (p, ec)

/-- `impl/url_view.ipp:643-684`, `impl/url_base.ipp:1634-1675` `parse` -/
def n_parse (o : Obj) (it : ParamIt) : Walked ParamIt := do
  free (o.assert (.ok (o.pt.nparam > 0)))
  o.n_assert it.off (if it.off = o.pt.off id_query then c!"?" else c!"&")
  let (p, ec) ← n_skip qkey_pct_set o (it.off + 1) none
  free (o.assert (.ok ec.isNone))
  let nk := p - it.off
  if p = o.pt.off id_end then return ⟨it.off, nk, 0⟩
  else
    o.n_assert p c!"="
    let (q, ec) ← n_skip qval_pct_set o (p + 1) ec
    free (o.assert (.ok ec.isNone))
    return ⟨it.off, nk, q - p⟩

/-- `impl/url_view.ipp:526-557`, `impl/url_base.ipp:1518-1546`, for `end = false` -/
def n_first (o : Obj) : Walked ParamIt :=
  if o.pt.nparam = 0 then return last o else n_parse o ⟨o.pt.off id_query, 0, 0⟩

/-- `impl/url_view.ipp:558-585`, `impl/url_base.ipp:1549-1576` `operator*` -/
def n_deref (o : Obj) (it : ParamIt) : Walked Param := do
  free (o.assert (.ok (o.pt.nparam > 0)))
  free (o.assert (.ok (it.nk > 0)))
  o.n_assert it.off (if it.off = o.pt.off id_query then c!"?" else c!"&")
  if it.nk = 0 then free (.error .ub)
  else
    let k ← free (o.read (it.off + 1) (it.nk - 1))
    if it.nv = 0 then return ⟨k, []⟩
    else
      o.n_assert (it.off + it.nk) c!"="
      let v ← free (o.read (it.off + it.nk + 1) (it.nv - 1))
      return ⟨k, v⟩

/-- `impl/url_view.ipp:586-610`, `impl/url_base.ipp:1577-1601` `operator++` -/
def n_next (o : Obj) (it : ParamIt) : Walked ParamIt := do
  free (o.assert (.ok (o.pt.nparam > 0)))
  free (o.assert (.ok (it.off ≠ o.pt.off id_frag)))
  let off := it.off + it.nv + it.nk
  if off = o.pt.off id_frag then return ⟨off, 0, 0⟩
  else n_parse o { it with off := off }

/-- `for(; it != end(); ++it)`, collecting `*it` -/
def n_collect (o : Obj) : Nat → ParamIt → Walked (List Param)
  | 0, _ => free (.error .diverge)
  | fuel + 1, it => do
    if ← free (eq o it (last o)) then return []
    else
      let s ← n_deref o it
      let it ← n_next o it
      return s :: (← n_collect o fuel it)

/-- `for(auto e : params())`, collecting the elements -/
def n_walk (o : Obj) (fuel : Nat) : Walked (List Param) := do n_collect o fuel (← n_first o)

/-- the loop of `contains` -/
def n_containsLoop (o : Obj) (key : Str) : Nat → ParamIt → Walked Bool
  | 0, _ => free (.error .diverge)
  | fuel + 1, it => do
    if ← free (eq o it (last o)) then return false
    else
      let e ← n_deref o it
      if ← n_key_equal e.key key then return true
      else n_containsLoop o key fuel (← n_next o it)

/-- `impl/url_view.ipp:702-713`, `impl/url_base.ipp:1693-1704` -/
def n_contains (o : Obj) (key : Str) (fuel : Nat) : Walked Bool := do n_containsLoop o key fuel (← n_first o)

/-- the loop of `count` -/
def n_countLoop (o : Obj) (key : Str) : Nat → ParamIt → Nat → Walked Nat
  | 0, _, _ => free (.error .diverge)
  | fuel + 1, it, n => do
    if ← free (eq o it (last o)) then return n
    else
      let e ← n_deref o it
      let n := if ← n_key_equal e.key key then n + 1 else n
      n_countLoop o key fuel (← n_next o it) n

/-- `impl/url_view.ipp:715-727`, `impl/url_base.ipp:1706-1718` -/
def n_count (o : Obj) (key : Str) (fuel : Nat) : Walked Nat := do n_countLoop o key fuel (← n_first o) 0

/-- the loop of `find` -/
def n_findLoop (o : Obj) (key : Str) : Nat → ParamIt → Walked ParamIt
  | 0, _ => free (.error .diverge)
  | fuel + 1, it => do
    if ← free (eq o it (last o)) then return it
    else
      let e ← n_deref o it
      if ← n_key_equal e.key key then return it
      else n_findLoop o key fuel (← n_next o it)

/-- `impl/url_view.ipp:729-743`, `impl/url_base.ipp:1720-1734` -/
def n_find (o : Obj) (key : Str) (fuel : Nat) : Walked ParamIt := do n_findLoop o key fuel (← n_first o)

end Params

namespace Seg

/-- The loop of `parse` over `[p, end)`. -/
def n_scan (o : Obj) : Nat → Nat → Walked Nat
  | 0, p => return p
  | k + 1, p => do
    if (← o.n_byte p) == c!"/" then return p
    else n_scan o k (p + 1)

/-- `impl/url_view.ipp:463-488`, `impl/url_base.ipp:1294-1320` `parse` -/
def n_parse (lim : Nat) (o : Obj) (it : SegIt) : Walked SegIt := do
  free (o.assert (.ok (it.off ≠ o.pt.off id_frag)))
  let p := if (← o.n_byte it.off) == c!"/" then it.off + 1 else it.off
  let p ← n_scan o (o.pt.off lim - p) p
  return { it with n := p - it.off }

/-- `impl/url_view.ipp:364-391`, `impl/url_base.ipp:1196-1222`, for `end = false` -/
def n_first (lim : Nat) (o : Obj) : Walked SegIt :=
  if o.pt.nseg = 0 then return last o else n_parse lim o { off := o.pt.off id_path, n := 0 }

/-- `impl/url_view.ipp:393-406`, `impl/url_base.ipp:1224-1237` `operator*` -/
def n_deref (o : Obj) (it : SegIt) : Walked Str := do
  let s ← free (o.read it.off it.n)
  match s with
  | c :: t => do
    look
    return if c = c!"/" then t else c :: t
  | [] => return []

/-- `impl/url_view.ipp:408-430`, `impl/url_base.ipp:1239-1261` `operator++` -/
def n_next (lim : Nat) (o : Obj) (it : SegIt) : Walked SegIt := do
  free (o.assert (.ok (it.off ≠ o.pt.off id_frag)))
  let off := it.off + it.n
  if off = o.pt.off id_frag then return { off := off, n := 0 }
  else n_parse lim o { it with off := off }

/-- `for(; it != end(); ++it)`, collecting `*it` -/
def n_collect (lim : Nat) (o : Obj) : Nat → SegIt → Walked (List Str)
  | 0, _ => free (.error .diverge)
  | fuel + 1, it => do
    if ← free (eq o it (last o)) then return []
    else
      let s ← n_deref o it
      let it ← n_next lim o it
      return s :: (← n_collect lim o fuel it)

/-- `for(auto e : segments())`, collecting the encoded strings -/
def n_walk (lim : Nat) (o : Obj) (fuel : Nat) : Walked (List Str) := do n_collect lim o fuel (← n_first lim o)

end Seg

end Url
