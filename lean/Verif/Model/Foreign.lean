import Verif.Model.ItOp
import Verif.Model.Params

/-!
Ranges and iterators that belong to no `url` (default constructed) or to another one.

A range holds a pointer to its object, an iterator holds the pointer of the range it came from. The objects are told
apart by numbers here.
-/

namespace Url

/-- The objects that exist. -/
abbrev World := Nat → Obj

/-- An iterator with the object it belongs to; `none` is a null pointer. -/
structure Handle (α : Type) where
  own : Option Nat
  it : α
  deriving DecidableEq, Repr

namespace Range

/-- `url_view.hpp:633-638`, `url_base.hpp:1660-1665` `segments_type::size` -/
def seg_size (w : World) : Option Nat → Nat
  | none => 0
  | some i => (w i).pt.nseg

/-- `impl/url_view.ipp:353-391`, `impl/url_view.ipp:499-506`, `impl/url_base.ipp:1186-1222`, `impl/url_base.ipp:1331-1338` `segments_type::end` -/
def seg_end (w : World) : Option Nat → Handle SegIt
  | none => ⟨none, ⟨0, 0⟩⟩
  | some i => ⟨some i, Seg.last (w i)⟩

/-- `impl/url_view.ipp:353-391`, `impl/url_view.ipp:490-497`, `impl/url_base.ipp:1186-1222`, `impl/url_base.ipp:1322-1329` `segments_type::begin` -/
def seg_begin (lim : Nat) (w : World) : Option Nat → R (Handle SegIt)
  | none => .ok ⟨none, ⟨0, 0⟩⟩
  | some i => do return ⟨some i, ← Seg.first lim (w i)⟩

/-- `impl/url_view.hpp:16-29`, `impl/url_base.hpp:25-38` `operator==` -/
def seg_eq (w : World) (a b : Handle SegIt) : R Bool :=
  match a.own, b.own with
  | none, none => .ok (a.it.off == b.it.off)
  | some i, some j => if i = j then Seg.eq (w i) a.it b.it else .ok false
  | _, _ => .ok false

/-- `impl/url_view.ipp:408-430`, `impl/url_base.ipp:1239-1261` `operator++` -/
def seg_next (lim : Nat) (w : World) (h : Handle SegIt) : R (Handle SegIt) :=
  match h.own with
  | none => .error .ub
  | some i => do return { h with it := ← Seg.next lim (w i) h.it }

/-- `impl/url_view.ipp:393-406`, `impl/url_base.ipp:1224-1237` `operator*`. A null iterator of a `url_view` is an empty
string, that of a `url_base` would use the null pointer. -/
def seg_deref (lim : Nat) (w : World) (h : Handle SegIt) : R Str :=
  match h.own with
  | none => if lim = id_frag then .ok [] else .error .ub
  | some i => Seg.deref (w i) h.it

/-- `for(; it != e; ++it)`, collecting `*it` -/
def seg_walk (lim : Nat) (w : World) : Nat → Handle SegIt → Handle SegIt → R (List Str)
  | 0, _, _ => .error .diverge
  | fuel + 1, it, e => do
    if ← seg_eq w it e then return []
    else
      let s ← seg_deref lim w it
      let it ← seg_next lim w it
      return s :: (← seg_walk lim w fuel it e)

/-- `url_view.hpp:800-806`, `url_base.hpp:1938-1943` `params_type::size` -/
def param_size (w : World) : Option Nat → Nat
  | none => 0
  | some i => (w i).pt.nparam

/-- `impl/url_view.ipp:514-557`, `impl/url_view.ipp:693-700`, `impl/url_base.ipp:1507-1546`, `impl/url_base.ipp:1684-1691` `params_type::end` -/
def param_end (w : World) : Option Nat → Handle ParamIt
  | none => ⟨none, ⟨0, 0, 0⟩⟩
  | some i => ⟨some i, Params.last (w i)⟩

/-- `impl/url_view.ipp:514-557`, `impl/url_view.ipp:684-691`, `impl/url_base.ipp:1507-1546`, `impl/url_base.ipp:1675-1682` `params_type::begin` -/
def param_begin (w : World) : Option Nat → R (Handle ParamIt)
  | none => .ok ⟨none, ⟨0, 0, 0⟩⟩
  | some i => do return ⟨some i, ← Params.first (w i)⟩

/-- `impl/url_view.hpp:49-64`, `impl/url_base.hpp:81-96` `operator==` -/
def param_eq (w : World) (a b : Handle ParamIt) : R Bool :=
  match a.own, b.own with
  | none, none => .ok (a.it.off == b.it.off)
  | some i, some j => if i = j then Params.eq (w i) a.it b.it else .ok false
  | _, _ => .ok false

/-- `impl/url_view.ipp:586-610`, `impl/url_base.ipp:1577-1601` `operator++` -/
def param_next (dbg : Bool) (w : World) (h : Handle ParamIt) : R (Handle ParamIt) :=
  match h.own with
  | none => .error (if dbg then .assert else .ub)
  | some i => do return { h with it := ← Params.next (w i) h.it }

/-- `impl/url_view.ipp:558-585`, `impl/url_base.ipp:1549-1576` `operator*` -/
def param_deref (dbg : Bool) (w : World) (h : Handle ParamIt) : R Param :=
  match h.own with
  | none => .error (if dbg then .assert else .ub)
  | some i => Params.deref (w i) h.it

/-- `for(; it != e; ++it)`, collecting `*it` -/
def param_walk (dbg : Bool) (w : World) : Nat → Handle ParamIt → Handle ParamIt → R (List Param)
  | 0, _, _ => .error .diverge
  | fuel + 1, it, e => do
    if ← param_eq w it e then return []
    else
      let s ← param_deref dbg w it
      let it ← param_next dbg w it
      return s :: (← param_walk dbg w fuel it e)

/-- the loop of `find` -/
def findLoop (dbg : Bool) (w : World) (key : Str) (last : Handle ParamIt) : Nat → Handle ParamIt → R (Handle ParamIt)
  | 0, _ => .error .diverge
  | fuel + 1, it => do
    if ← param_eq w it last then return it
    else
      let e ← param_deref dbg w it
      if ← key_equal e.key key then return it
      else findLoop dbg w key last fuel (← param_next dbg w it)

/-- `impl/url_view.ipp:729-743`, `impl/url_base.ipp:1720-1734` -/
def find (dbg : Bool) (w : World) (r : Option Nat) (key : Str) (fuel : Nat) : R (Handle ParamIt) := do
  findLoop dbg w key (param_end w r) fuel (← param_begin w r)

/-- the loop of `contains` (which stops at the `first` element with this key) and of `count` -/
def countLoop (dbg : Bool) (w : World) (key : Str) (last : Handle ParamIt) (first : Bool) : Nat → Handle ParamIt → Nat → R Nat
  | 0, _, _ => .error .diverge
  | fuel + 1, it, n => do
    if ← param_eq w it last then return n
    else
      let e ← param_deref dbg w it
      if ← key_equal e.key key then
        if first then return n + 1
        else countLoop dbg w key last first fuel (← param_next dbg w it) (n + 1)
      else countLoop dbg w key last first fuel (← param_next dbg w it) n

/-- `impl/url_view.ipp:702-713`, `impl/url_base.ipp:1693-1704` -/
def contains (dbg : Bool) (w : World) (r : Option Nat) (key : Str) (fuel : Nat) : R Bool := do
  return (← countLoop dbg w key (param_end w r) true fuel (← param_begin w r) 0) != 0

/-- `impl/url_view.ipp:715-727`, `impl/url_base.ipp:1706-1718` -/
def count (dbg : Bool) (w : World) (r : Option Nat) (key : Str) (fuel : Nat) : R Nat := do
  countLoop dbg w key (param_end w r) false fuel (← param_begin w r) 0

/-- `impl/url_view.ipp:745-754`, `impl/url_base.ipp:1736-1745` `operator[]` -/
def index (dbg : Bool) (w : World) (r : Option Nat) (key : Str) (fuel : Nat) : R Str := do
  let it ← find dbg w r key fuel
  if ← param_eq w it (param_end w r) then return []
  else decodeR (← param_deref dbg w it).value

/-- `impl/url_view.hpp:34-45`, `impl/url_base.hpp:68-79` `at`; `none` is `out_of_range::raise()` -/
def atKey (dbg : Bool) (w : World) (r : Option Nat) (key : Str) (fuel : Nat) : R (Option Str) := do
  let it ← find dbg w r key fuel
  if ← param_eq w it (param_end w r) then return none
  else return some (← decodeR (← param_deref dbg w it).value)

end Range

/-- Where an iterator given to an edit of a `url` comes from: this `url`, another one, or none. -/
inductive Owner where
  | self
  | other (o : Obj)
  | null

namespace Foreign
open M

/-- use the pointer in an iterator -/
def via {α : Type} (w : Owner) (f : Obj → R α) : M α :=
  match w with
  | .self => ask f
  | .other o => ask fun me => f { o with dbg := me.dbg }
  | .null => undefined

/-- `BOOST_ASSERT(it.v_ == &v)` -/
def own (w : Owner) : M Unit := assert fun _ => .ok (match w with | .self => true | _ => false)

/-- `impl/url_base.ipp:1350-1383` `erase(first, last)`, as `Base.seg_erase_range` -/
def seg_erase_range (wf wl : Owner) (first last : SegIt) : M SegIt := do
  let n ← stored
  assert fun o => .ok (Url.size o = n)
  own wf
  own wl
  assert fun o => .ok (first.off ≥ o.pt.off id_path)
  assert fun o => .ok (last.off ≥ o.pt.off id_path)
  assert fun o => .ok (first.off ≤ o.pt.off id_query)
  assert fun o => .ok (last.off ≤ o.pt.off id_query)
  if last.off < first.off then undefined
  else
    let d := last.off - first.off
    if d = 0 then return first
    else
      let c := (← ask fun o => o.read first.off d).count c!"/"
      if c > Base.intMax then undefined
      else
        assert fun _ => .ok (c > 0)
        assert fun o => .ok (o.pt.nseg ≥ c)
        let m ← sizeMax
        setPt fun pt => { pt with nseg := Base.modSub m pt.nseg c }
        let pt ← M.pt
        move first.off last.off (pt.off id_end - last.off + 1)
        setPt fun pt => pt.resize id_path (pt.length2 id_path id_query - d)
        let pt ← M.pt
        let n ← stored
        assert fun _ => .ok (pt.off id_end + d = n)
        Storage.resize (pt.off id_end)
        assert fun o => do return (← o.byte (o.pt.off id_end)) == 0
        via wf fun o => Seg.parse id_query o first

/-- `impl/url_base.ipp:1340-1348` `erase(pos)` -/
def seg_erase (w : Owner) (pos : SegIt) : M SegIt := do
  let last ← via w fun o => Seg.next id_query o pos
  seg_erase_range w w pos last

/-- as `Base.seg_put` -/
def seg_put (w : Owner) (pos : SegIt) (ns : Nat) (enc : Str) : M SegIt := do
  let n ← stored
  assert fun o => .ok (Url.size o = n)
  own w
  assert fun o => .ok (pos.off ≥ o.pt.off id_path)
  assert fun o => .ok (pos.off ≤ o.pt.off id_query)
  let pt ← M.pt
  let n0 := pt.off id_end
  let n := ns + 1
  Storage.resize (n0 + n)
  setPt fun pt => pt.resize id_path (pt.length2 id_path id_query + n)
  let pt ← M.pt
  move (pt.off id_end + pos.off - n0) pos.off (n0 - pos.off + 1)
  assert fun o => do return (← o.byte (o.pt.off id_end)) == 0
  put pos.off b!"/"
  put (pos.off + 1) enc
  let m ← sizeMax
  setPt fun pt => { pt with nseg := Base.modAdd m pt.nseg 1 }
  via w fun o => Seg.parse id_query o { pos with off := pos.off + n }

/-- `impl/url_base.ipp:1385-1410` `insert_encoded_impl` -/
def seg_insert_encoded_impl (w : Owner) (pos : SegIt) (s : Str) : M SegIt := do
  assert fun _ => .ok (pchar_pct_set.check s)
  seg_put w pos s.length s

/-- `impl/url_base.ipp:1412-1438` `insert_impl` -/
def seg_insert_impl (w : Owner) (pos : SegIt) (s : Str) (ns : Nat) : M SegIt := do
  assert fun _ => .ok (pchar_pct_set.encoded_size s = ns)
  seg_put w pos ns (pchar_pct_set.encode s)

/-- as `Base.seg_swap`; what `erase` returns belongs to the same `url` as `pos` -/
def seg_swap (w : Owner) (pos : SegIt) (ns : Nat) (ins : SegIt → M SegIt) : M SegIt := do
  let n ← stored
  assert fun o => .ok (Url.size o = n)
  let n0 := pos.n
  let n := ns + 1
  if n0 < n then Storage.reserve ((← stored) + n - n0)
  let cap ← capacity
  let r ← ins (← seg_erase w pos)
  let cap' ← capacity
  assert fun _ => .ok (cap' = cap)
  return r

/-- Run a call that edits a segment with iterators that come from `wf` and `wl` (the second one is that of the end of a
range): `impl/url_base.ipp:1340-1499`. -/
def runIt (wf wl : Owner) : ItOp → M SegIt
  | .erase pos => seg_erase wf pos
  | .erase_range first last => seg_erase_range wf wl first last
  | .insert pos s => seg_insert_impl wf pos s (pchar_pct_set.encoded_size s)
  | .insert_encoded pos s => do
    Base.validate pchar_pct_set s
    seg_insert_encoded_impl wf pos s
  | .replace pos s =>
    seg_swap wf pos (pchar_pct_set.encoded_size s) fun it => seg_insert_impl wf it s (pchar_pct_set.encoded_size s)
  | .replace_encoded pos s => do
    Base.validate pchar_pct_set s
    seg_swap wf pos s.length fun it => seg_insert_encoded_impl wf it s

end Foreign

end Url
