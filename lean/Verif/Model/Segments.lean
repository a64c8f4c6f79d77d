import Verif.Model.UrlBase

/-!
Model of `segments_type` of `url_view` and `url_base`.

The iterators of the two classes are the same code except for one constant: where `parse` stops. It is
the argument `lim` here: `id_frag` in `url_view`, `id_query` in `url_base`. (`segments()` of a `const`
`url_base` gives the iterators of `url_view`.) Iterators of other objects, and null iterators,
are in `Verif.Model.Foreign`.
-/

namespace Url

/-- `url_view.hpp:691-760`, `url_base.hpp:1823-1905`: the members `off_` and `n_` -/
structure SegIt where
  off : Nat
  n : Nat
  deriving DecidableEq, Repr

namespace Seg

/-- The loop of `parse` over `[p, end)`, where `k` is `end - p`; the result is the final `p`. -/
def scan (o : Obj) : Nat → Nat → R Nat
  | 0, p => .ok p
  | k + 1, p => do
    if (← o.byte p) == c!"/" then return p
    else scan o k (p + 1)

/-- `impl/url_view.ipp:463-488`, `impl/url_base.ipp:1294-1320` `parse` -/
def parse (lim : Nat) (o : Obj) (it : SegIt) : R SegIt := do
  o.assert (.ok (it.off ≠ o.pt.off id_frag))
  let p := if (← o.byte it.off) == c!"/" then it.off + 1 else it.off
  let p ← scan o (o.pt.off lim - p) p
  return { it with n := p - it.off }

/-- `impl/url_view.ipp:364-391`, `impl/url_base.ipp:1196-1222`, for `end = true` -/
def last (o : Obj) : SegIt := { off := o.pt.off id_query, n := 0 }

/-- the same for `end = false` -/
def first (lim : Nat) (o : Obj) : R SegIt :=
  if o.pt.nseg = 0 then .ok (last o) else parse lim o { off := o.pt.off id_path, n := 0 }

/-- `impl/url_view.ipp:393-406`, `impl/url_base.ipp:1224-1237` `operator*`, as `encoded_string()` -/
def deref (o : Obj) (it : SegIt) : R Str := do
  let s ← o.read it.off it.n
  match s with
  | c :: t => return if c = c!"/" then t else s
  | [] => return []

/-- `impl/url_view.ipp:408-430`, `impl/url_base.ipp:1239-1261` `operator++` -/
def next (lim : Nat) (o : Obj) (it : SegIt) : R SegIt := do
  o.assert (.ok (it.off ≠ o.pt.off id_frag))
  let off := it.off + it.n
  if off = o.pt.off id_frag then return { off := off, n := 0 }
  else parse lim o { it with off := off }

/-- The loop `while(--p > begin) if(*p == c)`: the candidates for `p` are `begin + k`, ..., `begin + 1`. -/
def back (o : Obj) (c : Byte) (begin : Nat) : Nat → R (Option Nat)
  | 0 => .ok none
  | k + 1 => do
    if (← o.byte (begin + (k + 1))) == c then return some (begin + (k + 1))
    else back o c begin k

/-- `impl/url_view.ipp:432-461`, `impl/url_base.ipp:1263-1292` `operator--`. Decrementing `begin()` leaves
the path. -/
def prev (lim : Nat) (o : Obj) (it : SegIt) : R SegIt := do
  let begin := o.pt.off id_path
  o.assert (.ok (it.off ≠ begin))
  if it.off ≤ begin then .error .ub
  else
    match ← back o c!"/" begin (it.off - begin - 1) with
    | some p => parse lim o { it with off := p }
    | none => return { off := begin, n := it.off - begin }

/-- `impl/url_view.hpp:16-29`, `impl/url_base.hpp:25-38` `operator==`, for iterators of the same object -/
def eq (o : Obj) (a b : SegIt) : R Bool := do
  o.assert (.ok (a.off ≠ b.off ∨ a.n = b.n))
  return a.off == b.off

/-- `for(; it != end(); ++it)`, collecting `*it`; `fuel` bounds the number of steps. -/
def collect (lim : Nat) (o : Obj) : Nat → SegIt → R (List Str)
  | 0, _ => .error .diverge
  | fuel + 1, it => do
    if ← eq o it (last o) then return []
    else
      let s ← deref o it
      let it ← next lim o it
      return s :: (← collect lim o fuel it)

/-- `for(auto e : segments())`, collecting the encoded strings -/
def walk (lim : Nat) (o : Obj) (fuel : Nat) : R (List Str) := do collect lim o fuel (← first lim o)

/-- the iterator that `k` increments lead to -/
def nth (lim : Nat) (o : Obj) : Nat → R SegIt
  | 0 => first lim o
  | k + 1 => do next lim o (← nth lim o k)

end Seg

/-- `url_view.hpp:682-687`, `url_base.hpp:1803-1812` `string()` of a segment -/
def Seg.string (encoded : Str) : R Str := decodeR encoded

namespace View

/-- `segments()` of a `url_view` or a `const` `url_base` -/
def segments (o : Obj) (fuel : Nat) : R (List Str) := Seg.walk id_frag o fuel

end View

namespace M

/-- `a_.size()` -/
def stored : M Nat := fun _ st => .ret st.size st

/-- `a_.capacity()` -/
def capacity : M Nat := fun _ st => .ret st.cap st

/-- undefined behaviour -/
def undefined {α : Type} : M α := fun _ _ => .fault .ub

end M

namespace Base
open M

/-- `segments()` of a `url_base` -/
def segments (o : Obj) (fuel : Nat) : R (List Str) := Seg.walk id_query o fuel

/-- the largest `int` -/
def intMax : Nat := 2147483647

/-- `x -= n` in `std::size_t` -/
def modSub (max x n : Nat) : Nat := if n ≤ x then x - n else x + (max + 1) - n

/-- `x += n` in `std::size_t` -/
def modAdd (max x n : Nat) : Nat := if x + n ≤ max then x + n else x + n - (max + 1)

/-- `impl/url_base.ipp:1350-1383` `erase(first, last)`. An inverted range would let the counting loop run
away; more slashes than an `int` can count overflow it. -/
def seg_erase_range (first last : SegIt) : M SegIt := do
  let n ← stored
  assert fun o => .ok (Url.size o = n)
  assert fun o => .ok (first.off ≥ o.pt.off id_path)
  assert fun o => .ok (last.off ≥ o.pt.off id_path)
  assert fun o => .ok (first.off ≤ o.pt.off id_query)
  assert fun o => .ok (last.off ≤ o.pt.off id_query)
  if last.off < first.off then undefined
  else
    let d := last.off - first.off
    if d = 0 then return first
    else
      let c := (← ask fun o => o.read first.off d).count c!"/"
      if c > intMax then undefined
      else
        assert fun _ => .ok (c > 0)
        assert fun o => .ok (o.pt.nseg ≥ c)
        let m ← sizeMax
        setPt fun pt => { pt with nseg := modSub m pt.nseg c }
        let pt ← M.pt
        move first.off last.off (pt.off id_end - last.off + 1)
        setPt fun pt => pt.resize id_path (pt.length2 id_path id_query - d)
        let pt ← M.pt
        let n ← stored
        assert fun _ => .ok (pt.off id_end + d = n)
        Storage.resize (pt.off id_end)
        assert fun o => do return (← o.byte (o.pt.off id_end)) == 0
        ask fun o => Seg.parse id_query o first

/-- `impl/url_base.ipp:1340-1348` `erase(pos)` -/
def seg_erase (pos : SegIt) : M SegIt := do
  let last ← ask fun o => Seg.next id_query o pos
  seg_erase_range pos last

/-- The common part of `insert_encoded_impl` and `insert_impl`: `ns` is the size of the segment, `enc` are the
bytes that are written after the slash. The computations of sizes do not wrap here (see `Verif.Model.Machine`). -/
def seg_put (pos : SegIt) (ns : Nat) (enc : Str) : M SegIt := do
  let n ← stored
  assert fun o => .ok (Url.size o = n)
  assert fun o => .ok (pos.off ≥ o.pt.off id_path)
  assert fun o => .ok (pos.off ≤ o.pt.off id_query)
  let pt ← M.pt
  let n0 := pt.off id_end
  let n := ns + 1
  Storage.resize (n0 + n)
  setPt fun pt => pt.resize id_path (pt.length2 id_path id_query + n)
  let pt ← M.pt
  move (pt.off id_end + pos.off - n0) pos.off (n0 - pos.off + 1)
  assert fun o => do return (← o.byte (o.pt.off id_end)) == 0
  put pos.off b!"/"
  put (pos.off + 1) enc
  let m ← sizeMax
  setPt fun pt => { pt with nseg := modAdd m pt.nseg 1 }
  ask fun o => Seg.parse id_query o { pos with off := pos.off + n }

/-- `impl/url_base.ipp:1385-1410` `insert_encoded_impl` -/
def seg_insert_encoded_impl (pos : SegIt) (s : Str) : M SegIt := do
  assert fun _ => .ok (pchar_pct_set.check s)
  seg_put pos s.length s

/-- `impl/url_base.ipp:1412-1438` `insert_impl` -/
def seg_insert_impl (pos : SegIt) (s : Str) (ns : Nat) : M SegIt := do
  assert fun _ => .ok (pchar_pct_set.encoded_size s = ns)
  seg_put pos ns (pchar_pct_set.encode s)

/-- `impl/url_base.ipp:1440-1447` -/
def seg_insert_encoded (pos : SegIt) (s : Str) : M SegIt := do
  validate pchar_pct_set s
  seg_insert_encoded_impl pos s

/-- `impl/url_base.ipp:1449-1456` -/
def seg_insert (pos : SegIt) (s : Str) : M SegIt := seg_insert_impl pos s (pchar_pct_set.encoded_size s)

/-- The common part of `replace_encoded` and `replace`: `ns` is the size of the new segment, `ins` inserts
it. -/
def seg_swap (pos : SegIt) (ns : Nat) (ins : SegIt → M SegIt) : M SegIt := do
  let n ← stored
  assert fun o => .ok (Url.size o = n)
  let n0 := pos.n
  let n := ns + 1
  if n0 < n then Storage.reserve ((← stored) + n - n0)
  let cap ← capacity
  let r ← ins (← seg_erase pos)
  let cap' ← capacity
  assert fun _ => .ok (cap' = cap)
  return r

/-- `impl/url_base.ipp:1458-1478` -/
def seg_replace_encoded (pos : SegIt) (s : Str) : M SegIt := do
  validate pchar_pct_set s
  seg_swap pos s.length fun it => seg_insert_encoded_impl it s

/-- `impl/url_base.ipp:1480-1499` -/
def seg_replace (pos : SegIt) (s : Str) : M SegIt :=
  seg_swap pos (pchar_pct_set.encoded_size s) fun it => seg_insert_impl it s (pchar_pct_set.encoded_size s)

end Base

end Url
