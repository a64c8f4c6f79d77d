import Verif.Model.ItOp
import Verif.Model.Op

/-!
The modifying calls with a count of the characters they write.

Each definition is the one of the same name in `Verif.Model.UrlBase` or `Verif.Model.Segments`, from the lines cited there. Counted is
every byte that is stored into a buffer of the URL: by an assignment, `std::memcpy`, `std::memmove`, `string_view::copy` or
`encode`. The first write of a block is not counted when it is allocated, since it is left uninitialised.
-/

namespace Url

/-- A call that is counted: the number of characters written, and its outcome. -/
def CM (α : Type) : Type := Env → St → Nat × Out α

namespace CM

instance : Monad CM where
  pure a := fun _ st => (0, .ret a st)
  bind m f := fun env st =>
    match m env st with
    | (n, .ret a st) => (n + (f a env st).1, (f a env st).2)
    | (n, .throw e st) => (n, .throw e st)
    | (n, .fault x) => (n, .fault x)

/-- something that writes nothing -/
def lift {α : Type} (m : M α) : CM α := fun env st => (0, m env st)

instance : MonadLift M CM := ⟨lift⟩

/-- write the bytes `s` at `s_ + i` -/
def put (i : Nat) (s : Str) : CM Unit := fun env st => (s.length, M.put i s env st)

/-- `std::memmove(s_ + dst, s_ + src, n)` -/
def move (dst src n : Nat) : CM Unit := fun env st => (n, M.move dst src n env st)

/-- What `reserve(n)` writes: if it needs a new block and there is an old one, `size_ + 1` bytes and the terminator,
`detail/storage.hpp:82-88`. -/
def reserved (n : Nat) (st : St) : Out Unit → Nat
  | .ret _ _ => if n ≤ st.cap then 0 else if st.buf.isSome then st.size + 2 else 0
  | _ => 0

/-- `detail/storage.hpp:65-92` `reserve` -/
def reserve (n : Nat) : CM Unit := fun env st => (reserved n st (Storage.reserve n env st), Storage.reserve n env st)

/-- What `resize(n)` writes after that: the terminator, if there is a buffer, `detail/storage.hpp:104-108`. -/
def terminated : Out Unit → Nat
  | .ret _ st => if st.buf.isSome then 1 else 0
  | _ => 0

/-- `detail/storage.hpp:100-112` `resize` -/
def storage (n : Nat) : CM Unit := fun env st =>
  (reserved n st (Storage.reserve n env st) + terminated (Storage.reserve n env st), Storage.resize n env st)

end CM

namespace Counted
open M hiding put move
open Base
open CM (put move storage reserve)

/-- `impl/url_base.ipp:1749-1795` `resize(id, new_size)`; the result is the offset of the part. -/
def resize (id new : Nat) : CM Nat := do
  let pt ← M.pt
  let len := pt.length id
  if len = new then
    return pt.off id
  else if new ≤ len then
    let n := len - new
    let pos := pt.off (id + 1)
    move (pos - n) pos (pt.off id_end - pos + 1)
    setPt fun pt => pt.shift id (· - n)
    return pt.off id
  else if new - len > (← sizeMax) - pt.off id_end then
    raise .too_large
  else
    storage (pt.off id_end - len + new)
    let n := new - len
    let pos := pt.off (id + 1)
    move (pos + n) pos (pt.off id_end - pos + 1)
    setPt fun pt => pt.shift id (· + n)
    return pt.off id

/-- `impl/url_base.ipp:1797-1853` `resize(first, last, new_size)` -/
def resize2 (first last new : Nat) : CM Nat := do
  let pt ← M.pt
  let len := pt.length2 first last
  if new = 0 ∧ len = 0 then
    return pt.off first
  else if new ≤ len then
    let n := len - new
    let pos := pt.off last
    move (pos - n) pos (pt.off id_end - pos + 1)
    setPt fun pt => pt.shift2 first last (· - n)
    return pt.off first
  else if new - len > (← sizeMax) - pt.off id_end then
    raise .too_large
  else
    storage (pt.off id_end - len + new)
    let n := new - len
    let pos := pt.off last
    move (pos + n) pos (pt.off id_end - pos + 1)
    setPt fun pt => pt.shift2 first last (· + n)
    return pt.off first

/-- `impl/url_base.ipp:61-86` -/
def set_encoded_url (s : Str) : CM Unit := do
  if s.isEmpty then
    if !(← isNull) then let _ ← Counted.resize2 id_scheme id_end 0
  else
    let pt ← parsed (parse_url s)
    storage s.length
    setPt fun _ => pt
    put 0 s

/-- `impl/url_base.ipp:88-127` -/
def set_encoded_origin (s : Str) : CM Unit := do
  if s.isEmpty then
    let _ ← Counted.resize2 id_scheme id_path 0
  else
    let pt ← parsed (parse_origin s)
    let dest ← Counted.resize2 id_scheme id_path s.length
    put dest s
    split id_scheme (pt.length id_scheme)
    split id_user (pt.length id_user)
    split id_password (pt.length id_password)
    split id_host (pt.length id_host)
    split id_port (pt.length id_port)

/-- `impl/url_base.ipp:149-168`, with `detail/parse.hpp:910-922` `parse_scheme` -/
def set_scheme (s : Str) : CM Unit := do
  if s.isEmpty then
    let _ ← Counted.resize id_scheme 0
  else
    require (match_scheme s).1
    require (match_scheme s).2.isEmpty
    let dest ← Counted.resize id_scheme (s.length + 1)
    put dest s
    put (dest + s.length) b!":"

/-- `impl/url_base.ipp:203-239` -/
def set_encoded_authority (s : Str) : CM Unit := do
  if s.isEmpty then
    let _ ← Counted.resize2 id_user id_path 0
  else
    let pt ← parsedAll (parse_authority (PS.init s))
    let dest ← Counted.resize2 id_user id_path (2 + s.length)
    put dest b!"/"
    put (dest + 1) b!"/"
    put (dest + 2) s
    split id_user (2 + pt.length id_user)
    split id_password (pt.length id_password)
    split id_host (pt.length id_host)
    assert fun o => .ok (o.pt.length id_port = pt.length id_port)

/-- `impl/url_base.ipp:314-353` -/
def set_encoded_userinfo (s : Str) : CM Unit := do
  if s.isEmpty then
    if (← M.pt).length2 id_host id_path = 0 then
      let _ ← Counted.resize2 id_user id_host 0
    else
      let _ ← Counted.resize2 id_user id_host 2
  else
    let pt ← parsedAll (parse_userinfo (PS.init s))
    let dest ← Counted.resize2 id_user id_host (2 + s.length + 1)
    put dest b!"/"
    put (dest + 1) b!"/"
    put (dest + 2) s
    split id_user (pt.length id_user)
    put (dest + 2 + s.length) b!"@"

/-- `impl/url_base.ipp:355-367` -/
def set_userinfo_part (s : Str) : CM Unit := do
  if s.isEmpty then Counted.set_encoded_userinfo s
  else
    require (s.getLast? == some c!"@")
    Counted.set_encoded_userinfo (s.take (s.length - 1))

/-- `impl/url_base.ipp:386-444` -/
def set_user (s : Str) : CM Unit := do
  if s.isEmpty then
    if (← M.pt).length id_user = 0 then return ()
    else
      assertUserinfo
      if (← M.pt).length id_password = 1 then
        let _ ← Counted.resize2 id_user id_host 2
      else
        let _ ← Counted.resize id_user 2
  else
    let e := userinfo_nc_pct_set
    if (← M.pt).length id_password ≠ 0 then
      assert fun o => do backIs (← o.get id_password) c!"@"
      let dest ← Counted.resize id_user (2 + e.encoded_size s)
      put (dest + 2) (e.encode s)
    else
      let n := e.encoded_size s
      let dest ← Counted.resize id_user (2 + n + 1)
      put dest b!"/"
      put (dest + 1) b!"/"
      put (dest + (2 + n)) b!"@"
      split id_user (2 + n)
      put (dest + 2) (e.encode s)

/-- `impl/url_base.ipp:446-482` -/
def set_encoded_user (s : Str) : CM Unit := do
  if s.isEmpty then Counted.set_user s
  else
    validate userinfo_nc_pct_set s
    let n := s.length
    if (← M.pt).length id_password ≠ 0 then
      assert fun o => do backIs (← o.get id_password) c!"@"
      let dest ← Counted.resize id_user (2 + n)
      put (dest + 2) s
    else
      let dest ← Counted.resize id_user (2 + n + 1)
      put dest b!"/"
      put (dest + 1) b!"/"
      put (dest + (2 + n)) b!"@"
      split id_user (2 + n)
      put (dest + 2) s

/-- `impl/url_base.ipp:518-572` -/
def set_password (s : Str) : CM Unit := do
  if s.isEmpty then
    if (← M.pt).length id_password = 0 then return ()
    else
      assertUserinfo
      if (← M.pt).length id_user = 2 then
        let _ ← Counted.resize id_password 0
      else
        let dest ← Counted.resize id_password 1
        put dest b!"@"
  else
    let e := userinfo_pct_set
    let n := e.encoded_size s
    if (← M.pt).length id_user ≠ 0 then
      let dest ← Counted.resize id_password (1 + n + 1)
      put dest b!":"
      put (dest + (n + 1)) b!"@"
      put (dest + 1) (e.encode s)
    else
      let dest ← Counted.resize2 id_user id_host (2 + 1 + n + 1)
      put dest b!"/"
      put (dest + 1) b!"/"
      put (dest + 2) b!":"
      put (dest + (2 + n + 1)) b!"@"
      put (dest + 3) (e.encode s)
      split id_user 2

/-- `impl/url_base.ipp:574-609` -/
def set_encoded_password (s : Str) : CM Unit := do
  if s.isEmpty then Counted.set_password s
  else
    require (s.head? != some c!":")
    validate userinfo_pct_set s
    let n := s.length
    if (← M.pt).length id_user ≠ 0 then
      let dest ← Counted.resize id_password (1 + n + 1)
      put dest b!":"
      put (dest + (n + 1)) b!"@"
      put (dest + 1) s
    else
      let dest ← Counted.resize2 id_user id_host (2 + 1 + n + 1)
      put dest b!"/"
      put (dest + 1) b!"/"
      put (dest + 2) b!":"
      put (dest + (2 + n + 1)) b!"@"
      put (dest + 3) s
      split id_user 2

/-- `impl/url_base.ipp:611-644`. After the branch without a user the function falls through to
`set_encoded_password("")`. -/
def set_password_part (s : Str) : CM Unit := do
  if s.isEmpty then Counted.set_password s
  else if s.length = 1 then
    require (s.head? == some c!":")
    if (← M.pt).length id_user ≠ 0 then
      let dest ← Counted.resize id_password 2
      put dest b!":"
      put (dest + 1) b!"@"
    else
      let dest ← Counted.resize2 id_user id_host 4
      put dest b!"/"
      put (dest + 1) b!"/"
      put (dest + 2) b!":"
      put (dest + 3) b!"@"
      split id_user 2
      Counted.set_encoded_password (s.drop 1)
  else Counted.set_encoded_password (s.drop 1)

/-- `impl/url_base.ipp:706-716`, `767-777`: add an authority with the host text `t`. -/
def addHost (t : Str) : CM Unit := do
  let dest ← Counted.resize id_user (2 + t.length)
  put dest b!"/"
  put (dest + 1) b!"/"
  split id_user 2
  split id_password 0
  put (dest + 2) t

/-- `impl/url_base.ipp:671-754`. `encoded_size(s)` and the number of bytes `encode` writes are kept
apart. -/
def set_host (s : Str) : CM Unit := do
  if s.isEmpty then
    if (← M.pt).length2 id_user id_host = 2 ∧ (← M.pt).length id_port = 0 then
      assert fun o => do return (← o.get id_user) = b!"//"
      let _ ← Counted.resize2 id_user id_path 0
    else
      let _ ← Counted.resize id_host 0
  else
    let k ← (match (parse_ip_literal (PS.init s)).flt with
      | some f => fun _ _ => .fault f
      | none => pure (parse_plain_hostname s) : M HostType)
    assert fun _ => .ok (k ≠ .none)
    if k ≠ .name then
      if !(← ask fun o => .ok (has_authority o)) then Counted.addHost s
      else
        let dest ← Counted.resize id_host s.length
        put dest s
    else
      let e := reg_name_pct_set
      if !(← ask fun o => .ok (has_authority o)) then
        let dest ← Counted.resize id_user (2 + e.encoded_size s)
        put dest b!"/"
        put (dest + 1) b!"/"
        split id_user 2
        split id_password 0
        put (dest + 2) (e.encode s)
      else
        let dest ← Counted.resize id_host (e.encoded_size s)
        put dest (e.encode s)
    setPt fun pt => { pt with host := k }

/-- `impl/url_base.ipp:756-788` -/
def set_encoded_host (s : Str) : CM Unit := do
  if s.isEmpty then Counted.set_host s
  else
    let pt ← parsedAll (parse_hostname (PS.init s))
    if !(← ask fun o => .ok (has_authority o)) then Counted.addHost s
    else
      let dest ← Counted.resize id_host s.length
      put dest s
    setPt fun p => { p with host := pt.host }

/-- `impl/url_base.ipp:824-876` -/
def set_port (s : Str) : CM Unit := do
  if s.isEmpty then
    if (← M.pt).length2 id_user id_port = 2 then
      assert fun o => do return (← o.get id_user).take 2 = b!"//"
      let _ ← Counted.resize2 id_user id_path 0
    else
      let _ ← Counted.resize id_port 0
  else
    require (match_port s)
    if !(← ask fun o => .ok (has_authority o)) then
      let dest ← Counted.resize id_user (3 + s.length)
      put dest b!"/"
      put (dest + 1) b!"/"
      put (dest + 2) b!":"
      split id_user 2
      split id_password 0
      split id_host 0
      put (dest + 3) s
    else
      let dest ← Counted.resize id_port (1 + s.length)
      put dest b!":"
      put (dest + 1) s

/-- `impl/url_base.ipp:816-822` `set_port(unsigned)` -/
def set_port_number (n : UInt32) : CM Unit := do
  let s ← ask fun _ => port_string n
  Counted.set_port s

/-- `impl/url_base.ipp:878-894` -/
def set_port_part (s : Str) : CM Unit := do
  if s.isEmpty then Counted.set_port s
  else
    require (s.head? == some c!":")
    if s.length > 1 then Counted.set_port (s.drop 1)
    else
      let dest ← Counted.resize id_port 1
      put dest b!":"

/-- `impl/url_base.ipp:911-948` -/
def set_encoded_path (s : Str) : CM Unit := do
  if s.isEmpty then
    let _ ← Counted.resize id_path 0
  else
    if ← ask fun o => .ok (has_authority o) then
      let _ ← parsedAll (parse_path_abempty (PS.init s))
    else if s.head? == some c!"/" then
      let _ ← parsedAll (parse_path_absolute (PS.init s))
    else if (← M.pt).length id_scheme = 0 then
      let _ ← parsedAll (parse_path_noscheme (PS.init s))
    else
      let _ ← parsedAll (parse_path_rootless (PS.init s))
    let dest ← Counted.resize id_path s.length
    put dest s

/-- The common body of `set_query` and `set_fragment`: part `id` becomes the delimiter `d` and the
encoding of `s`. -/
def setPlain (id : Nat) (d : Byte) (e : PctSet) (s : Str) : CM Unit := do
  if s.isEmpty then
    let _ ← Counted.resize id 0
  else
    let dest ← Counted.resize id (1 + e.encoded_size s)
    put dest [d]
    put (dest + 1) (e.encode s)

/-- The common body of `set_encoded_query` and `set_encoded_fragment`. -/
def setEncoded (id : Nat) (d : Byte) (e : PctSet) (s : Str) : CM Unit := do
  if s.isEmpty then
    let _ ← Counted.resize id 0
  else
    validate e s
    let dest ← Counted.resize id (1 + s.length)
    put dest [d]
    put (dest + 1) s

/-- The common body of `set_query_part` and `set_fragment_part`. -/
def setPart (id : Nat) (d : Byte) (e : PctSet) (s : Str) : CM Unit := do
  if s.isEmpty then
    let _ ← Counted.resize id 0
  else
    require (s.head? == some d)
    validate e (s.drop 1)
    let dest ← Counted.resize id (1 + (s.drop 1).length)
    put dest [d]
    put (dest + 1) (s.drop 1)

/-- `impl/url_base.ipp:982-1002` -/
def set_query : Str → CM Unit := Counted.setPlain id_query c!"?" query_pct_set
/-- `impl/url_base.ipp:1004-1023` -/
def set_encoded_query : Str → CM Unit := Counted.setEncoded id_query c!"?" query_pct_set
/-- `impl/url_base.ipp:1025-1047` -/
def set_query_part : Str → CM Unit := Counted.setPart id_query c!"?" query_pct_set
/-- `impl/url_base.ipp:1081-1100` -/
def set_fragment : Str → CM Unit := Counted.setPlain id_frag c!"#" frag_pct_set
/-- `impl/url_base.ipp:1102-1121` -/
def set_encoded_fragment : Str → CM Unit := Counted.setEncoded id_frag c!"#" frag_pct_set
/-- `impl/url_base.ipp:1123-1145` -/
def set_fragment_part : Str → CM Unit := Counted.setPart id_frag c!"#" frag_pct_set

/-- the loop of `normalize_scheme`, `impl/url_base.ipp:1170-1176`: `n` iterations from offset `i` -/
def lowerLoop (i : Nat) : Nat → CM Unit
  | 0 => pure ()
  | n + 1 => do
    let c ← ask fun o => o.byte i
    if (c - 65).toNat < 26 then put i [c + 32]
    Counted.lowerLoop (i + 1) n

/-- `impl/url_base.ipp:1157-1178` -/
def normalize_scheme : CM Unit := do
  let n := (← M.pt).length id_scheme
  if n = 0 then return ()
  else
    assert fun o => do return (← o.byte (o.pt.off id_scheme + (n - 1))) == c!":"
    Counted.lowerLoop ((← M.pt).off id_scheme) (n - 1)

/-- `impl/url_base.ipp:1149-1155` -/
def normalize : CM Unit := Counted.normalize_scheme

/-- `impl/url_base.ipp:1350-1383` `erase(first, last)`. An inverted range would let the counting loop run
away; more slashes than an `int` can count overflow it. -/
def seg_erase_range (first last : SegIt) : CM SegIt := do
  let n ← stored
  assert fun o => .ok (Url.size o = n)
  assert fun o => .ok (first.off ≥ o.pt.off id_path)
  assert fun o => .ok (last.off ≥ o.pt.off id_path)
  assert fun o => .ok (first.off ≤ o.pt.off id_query)
  assert fun o => .ok (last.off ≤ o.pt.off id_query)
  if last.off < first.off then undefined
  else
    let d := last.off - first.off
    if d = 0 then return first
    else
      let c := (← ask fun o => o.read first.off d).count c!"/"
      if c > intMax then undefined
      else
        assert fun _ => .ok (c > 0)
        assert fun o => .ok (o.pt.nseg ≥ c)
        let m ← sizeMax
        setPt fun pt => { pt with nseg := modSub m pt.nseg c }
        let pt ← M.pt
        move first.off last.off (pt.off id_end - last.off + 1)
        setPt fun pt => pt.resize id_path (pt.length2 id_path id_query - d)
        let pt ← M.pt
        let n ← stored
        assert fun _ => .ok (pt.off id_end + d = n)
        storage (pt.off id_end)
        assert fun o => do return (← o.byte (o.pt.off id_end)) == 0
        ask fun o => Seg.parse id_query o first

/-- `impl/url_base.ipp:1340-1348` `erase(pos)` -/
def seg_erase (pos : SegIt) : CM SegIt := do
  let last ← ask fun o => Seg.next id_query o pos
  Counted.seg_erase_range pos last

/-- The common part of `insert_encoded_impl` and `insert_impl`: `ns` is the size of the segment, `enc` are the
bytes that are written after the slash. The computations of sizes do not wrap here (see `Verif.Model.Machine`). -/
def seg_put (pos : SegIt) (ns : Nat) (enc : Str) : CM SegIt := do
  let n ← stored
  assert fun o => .ok (Url.size o = n)
  assert fun o => .ok (pos.off ≥ o.pt.off id_path)
  assert fun o => .ok (pos.off ≤ o.pt.off id_query)
  let pt ← M.pt
  let n0 := pt.off id_end
  let n := ns + 1
  storage (n0 + n)
  setPt fun pt => pt.resize id_path (pt.length2 id_path id_query + n)
  let pt ← M.pt
  move (pt.off id_end + pos.off - n0) pos.off (n0 - pos.off + 1)
  assert fun o => do return (← o.byte (o.pt.off id_end)) == 0
  put pos.off b!"/"
  put (pos.off + 1) enc
  let m ← sizeMax
  setPt fun pt => { pt with nseg := modAdd m pt.nseg 1 }
  ask fun o => Seg.parse id_query o { pos with off := pos.off + n }

/-- `impl/url_base.ipp:1385-1410` `insert_encoded_impl` -/
def seg_insert_encoded_impl (pos : SegIt) (s : Str) : CM SegIt := do
  assert fun _ => .ok (pchar_pct_set.check s)
  Counted.seg_put pos s.length s

/-- `impl/url_base.ipp:1412-1438` `insert_impl` -/
def seg_insert_impl (pos : SegIt) (s : Str) (ns : Nat) : CM SegIt := do
  assert fun _ => .ok (pchar_pct_set.encoded_size s = ns)
  Counted.seg_put pos ns (pchar_pct_set.encode s)

/-- `impl/url_base.ipp:1440-1447` -/
def seg_insert_encoded (pos : SegIt) (s : Str) : CM SegIt := do
  validate pchar_pct_set s
  Counted.seg_insert_encoded_impl pos s

/-- `impl/url_base.ipp:1449-1456` -/
def seg_insert (pos : SegIt) (s : Str) : CM SegIt := Counted.seg_insert_impl pos s (pchar_pct_set.encoded_size s)

/-- The common part of `replace_encoded` and `replace`: `ns` is the size of the new segment, `ins` inserts
it. -/
def seg_swap (pos : SegIt) (ns : Nat) (ins : SegIt → CM SegIt) : CM SegIt := do
  let n ← stored
  assert fun o => .ok (Url.size o = n)
  let n0 := pos.n
  let n := ns + 1
  if n0 < n then reserve ((← stored) + n - n0)
  let cap ← capacity
  let r ← ins (← Counted.seg_erase pos)
  let cap' ← capacity
  assert fun _ => .ok (cap' = cap)
  return r

/-- `impl/url_base.ipp:1458-1478` -/
def seg_replace_encoded (pos : SegIt) (s : Str) : CM SegIt := do
  validate pchar_pct_set s
  Counted.seg_swap pos s.length fun it => Counted.seg_insert_encoded_impl it s

/-- `impl/url_base.ipp:1480-1499` -/
def seg_replace (pos : SegIt) (s : Str) : CM SegIt :=
  Counted.seg_swap pos (pchar_pct_set.encoded_size s) fun it => Counted.seg_insert_impl it s (pchar_pct_set.encoded_size s)

end Counted

open Spec in
/-- Run a modifying call, counted. -/
def runCounted : Op → CM Unit
  | .set_encoded_url s => Counted.set_encoded_url s
  | .set_encoded_origin s => Counted.set_encoded_origin s
  | .set_scheme s => Counted.set_scheme s
  | .set_encoded_authority s => Counted.set_encoded_authority s
  | .set_encoded_userinfo s => Counted.set_encoded_userinfo s
  | .set_userinfo_part s => Counted.set_userinfo_part s
  | .set_user s => Counted.set_user s
  | .set_encoded_user s => Counted.set_encoded_user s
  | .set_password s => Counted.set_password s
  | .set_encoded_password s => Counted.set_encoded_password s
  | .set_password_part s => Counted.set_password_part s
  | .set_host s => Counted.set_host s
  | .set_encoded_host s => Counted.set_encoded_host s
  | .set_port s => Counted.set_port s
  | .set_port_number n => Counted.set_port_number n
  | .set_port_part s => Counted.set_port_part s
  | .set_encoded_path s => Counted.set_encoded_path s
  | .set_query s => Counted.set_query s
  | .set_encoded_query s => Counted.set_encoded_query s
  | .set_query_part s => Counted.set_query_part s
  | .set_fragment s => Counted.set_fragment s
  | .set_encoded_fragment s => Counted.set_encoded_fragment s
  | .set_fragment_part s => Counted.set_fragment_part s
  | .normalize_scheme => Counted.normalize_scheme
  | .normalize => Counted.normalize

/-- Run a call that edits a segment, counted. -/
def runItCounted : ItOp → CM SegIt
  | .erase pos => Counted.seg_erase pos
  | .erase_range first last => Counted.seg_erase_range first last
  | .insert pos s => Counted.seg_insert pos s
  | .insert_encoded pos s => Counted.seg_insert_encoded pos s
  | .replace pos s => Counted.seg_replace pos s
  | .replace_encoded pos s => Counted.seg_replace_encoded pos s

end Url
