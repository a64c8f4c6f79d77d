import Verif.Model.Storage

/-!
Model of the modifying members of `url_base` (`impl/url_base.ipp`). The members that work on
segments are in `Verif.Model.Segments`. The members return `*this`; here `Unit`.
-/

namespace Url

/-- The loops of `resize(id, n)` over the offsets after `id`, `impl/url_base.ipp:1770-1772` and
`1791-1793`. -/
def Parts.shift (pt : Parts) (id : Nat) (f : Nat → Nat) : Parts :=
  { pt with off := fun i => if id + 1 ≤ i then f (pt.off i) else pt.off i }

/-- The loops of `resize(first, last, n)`, `impl/url_base.ipp:1820-1826` and `1845-1851`. -/
def Parts.shift2 (pt : Parts) (first last : Nat) (f : Nat → Nat) : Parts :=
  { pt with off := fun i =>
      if last ≤ i then f (pt.off i) else if first + 1 ≤ i then f (pt.off last) else pt.off i }

end Url

namespace Url.Base
open M

/-- `impl/url_base.ipp:1749-1795` `resize(id, new_size)`; the result is the offset of the part. -/
def resize (id new : Nat) : M Nat := do
  let pt ← M.pt
  let len := pt.length id
  if len = new then
    return pt.off id
  else if new ≤ len then
    let n := len - new
    let pos := pt.off (id + 1)
    move (pos - n) pos (pt.off id_end - pos + 1)
    setPt fun pt => pt.shift id (· - n)
    return pt.off id
  else if new - len > (← sizeMax) - pt.off id_end then
    raise .too_large
  else
    Storage.resize (pt.off id_end - len + new)
    let n := new - len
    let pos := pt.off (id + 1)
    move (pos + n) pos (pt.off id_end - pos + 1)
    setPt fun pt => pt.shift id (· + n)
    return pt.off id

/-- `impl/url_base.ipp:1797-1853` `resize(first, last, new_size)` -/
def resize2 (first last new : Nat) : M Nat := do
  let pt ← M.pt
  let len := pt.length2 first last
  if new = 0 ∧ len = 0 then
    return pt.off first
  else if new ≤ len then
    let n := len - new
    let pos := pt.off last
    move (pos - n) pos (pt.off id_end - pos + 1)
    setPt fun pt => pt.shift2 first last (· - n)
    return pt.off first
  else if new - len > (← sizeMax) - pt.off id_end then
    raise .too_large
  else
    Storage.resize (pt.off id_end - len + new)
    let n := new - len
    let pos := pt.off last
    move (pos + n) pos (pt.off id_end - pos + 1)
    setPt fun pt => pt.shift2 first last (· + n)
    return pt.off first

/-- `detail/parts.hpp:104-113` `pt_.split(id, n)` with its assertions -/
def split (id n : Nat) : M Unit := do
  assert fun _ => .ok (id < id_end - 1)
  assert fun o => .ok (n ≤ o.pt.length id)
  setPt fun pt => pt.split id n

/-- `if(ec) invalid_part::raise();` after a parser function that was given a fresh `parts` -/
def parsed (ps : PS) : M Parts :=
  match ps.flt with
  | some f => fun _ _ => .fault f
  | none => if ps.ec.isSome then raise .invalid_part else pure ps.pt

/-- the same, followed by `if(! pr.done()) invalid_part::raise();` (`detail/parse.hpp:924-1069`) -/
def parsedAll (ps : PS) : M Parts := do
  let pt ← parsed ps
  if ps.done then return pt else raise .invalid_part

/-- `if(! cond) invalid_part::raise();` -/
def require (cond : Bool) : M Unit := if cond then pure () else raise .invalid_part

/-- `detail/char_type.hpp:196-202` `validate` -/
def validate (e : PctSet) (s : Str) : M Unit := require (e.check s)

/-- `impl/url_base.ipp:61-86` -/
def set_encoded_url (s : Str) : M Unit := do
  if s.isEmpty then
    if !(← isNull) then let _ ← resize2 id_scheme id_end 0
  else
    let pt ← parsed (parse_url s)
    Storage.resize s.length
    setPt fun _ => pt
    put 0 s

/-- `impl/url_base.ipp:88-127` -/
def set_encoded_origin (s : Str) : M Unit := do
  if s.isEmpty then
    let _ ← resize2 id_scheme id_path 0
  else
    let pt ← parsed (parse_origin s)
    let dest ← resize2 id_scheme id_path s.length
    put dest s
    split id_scheme (pt.length id_scheme)
    split id_user (pt.length id_user)
    split id_password (pt.length id_password)
    split id_host (pt.length id_host)
    split id_port (pt.length id_port)

/-- `impl/url_base.ipp:149-168`, with `detail/parse.hpp:910-922` `parse_scheme` -/
def set_scheme (s : Str) : M Unit := do
  if s.isEmpty then
    let _ ← resize id_scheme 0
  else
    require (match_scheme s).1
    require (match_scheme s).2.isEmpty
    let dest ← resize id_scheme (s.length + 1)
    put dest s
    put (dest + s.length) b!":"

/-- `impl/url_base.ipp:203-239` -/
def set_encoded_authority (s : Str) : M Unit := do
  if s.isEmpty then
    let _ ← resize2 id_user id_path 0
  else
    let pt ← parsedAll (parse_authority (PS.init s))
    let dest ← resize2 id_user id_path (2 + s.length)
    put dest b!"/"
    put (dest + 1) b!"/"
    put (dest + 2) s
    split id_user (2 + pt.length id_user)
    split id_password (pt.length id_password)
    split id_host (pt.length id_host)
    assert fun o => .ok (o.pt.length id_port = pt.length id_port)

/-- `impl/url_base.ipp:314-353` -/
def set_encoded_userinfo (s : Str) : M Unit := do
  if s.isEmpty then
    if (← M.pt).length2 id_host id_path = 0 then
      let _ ← resize2 id_user id_host 0
    else
      let _ ← resize2 id_user id_host 2
  else
    let pt ← parsedAll (parse_userinfo (PS.init s))
    let dest ← resize2 id_user id_host (2 + s.length + 1)
    put dest b!"/"
    put (dest + 1) b!"/"
    put (dest + 2) s
    split id_user (pt.length id_user)
    put (dest + 2 + s.length) b!"@"

/-- `impl/url_base.ipp:355-367` -/
def set_userinfo_part (s : Str) : M Unit := do
  if s.isEmpty then set_encoded_userinfo s
  else
    require (s.getLast? == some c!"@")
    set_encoded_userinfo (s.take (s.length - 1))

/-- the four assertions at `impl/url_base.ipp:396-403` and `529-536` -/
def assertUserinfo : M Unit := do
  assert fun o => do backIs (← o.get id_password) c!"@"
  assert fun o => do return (← o.get id_user).length ≥ 2
  assert fun o => do atIs (← o.get id_user) 0 c!"/"
  assert fun o => do atIs (← o.get id_user) 1 c!"/"

/-- `impl/url_base.ipp:386-444` -/
def set_user (s : Str) : M Unit := do
  if s.isEmpty then
    if (← M.pt).length id_user = 0 then return ()
    else
      assertUserinfo
      if (← M.pt).length id_password = 1 then
        let _ ← resize2 id_user id_host 2
      else
        let _ ← resize id_user 2
  else
    let e := userinfo_nc_pct_set
    if (← M.pt).length id_password ≠ 0 then
      assert fun o => do backIs (← o.get id_password) c!"@"
      let dest ← resize id_user (2 + e.encoded_size s)
      put (dest + 2) (e.encode s)
    else
      let n := e.encoded_size s
      let dest ← resize id_user (2 + n + 1)
      put dest b!"/"
      put (dest + 1) b!"/"
      put (dest + (2 + n)) b!"@"
      split id_user (2 + n)
      put (dest + 2) (e.encode s)

/-- `impl/url_base.ipp:446-482` -/
def set_encoded_user (s : Str) : M Unit := do
  if s.isEmpty then set_user s
  else
    validate userinfo_nc_pct_set s
    let n := s.length
    if (← M.pt).length id_password ≠ 0 then
      assert fun o => do backIs (← o.get id_password) c!"@"
      let dest ← resize id_user (2 + n)
      put (dest + 2) s
    else
      let dest ← resize id_user (2 + n + 1)
      put dest b!"/"
      put (dest + 1) b!"/"
      put (dest + (2 + n)) b!"@"
      split id_user (2 + n)
      put (dest + 2) s

/-- `impl/url_base.ipp:518-572` -/
def set_password (s : Str) : M Unit := do
  if s.isEmpty then
    if (← M.pt).length id_password = 0 then return ()
    else
      assertUserinfo
      if (← M.pt).length id_user = 2 then
        let _ ← resize id_password 0
      else
        let dest ← resize id_password 1
        put dest b!"@"
  else
    let e := userinfo_pct_set
    let n := e.encoded_size s
    if (← M.pt).length id_user ≠ 0 then
      let dest ← resize id_password (1 + n + 1)
      put dest b!":"
      put (dest + (n + 1)) b!"@"
      put (dest + 1) (e.encode s)
    else
      let dest ← resize2 id_user id_host (2 + 1 + n + 1)
      put dest b!"/"
      put (dest + 1) b!"/"
      put (dest + 2) b!":"
      put (dest + (2 + n + 1)) b!"@"
      put (dest + 3) (e.encode s)
      split id_user 2

/-- `impl/url_base.ipp:574-609` -/
def set_encoded_password (s : Str) : M Unit := do
  if s.isEmpty then set_password s
  else
    require (s.head? != some c!":")
    validate userinfo_pct_set s
    let n := s.length
    if (← M.pt).length id_user ≠ 0 then
      let dest ← resize id_password (1 + n + 1)
      put dest b!":"
      put (dest + (n + 1)) b!"@"
      put (dest + 1) s
    else
      let dest ← resize2 id_user id_host (2 + 1 + n + 1)
      put dest b!"/"
      put (dest + 1) b!"/"
      put (dest + 2) b!":"
      put (dest + (2 + n + 1)) b!"@"
      put (dest + 3) s
      split id_user 2

/-- `impl/url_base.ipp:611-644`. After the branch without a user the function falls through to
`set_encoded_password("")`. -/
def set_password_part (s : Str) : M Unit := do
  if s.isEmpty then set_password s
  else if s.length = 1 then
    require (s.head? == some c!":")
    if (← M.pt).length id_user ≠ 0 then
      let dest ← resize id_password 2
      put dest b!":"
      put (dest + 1) b!"@"
    else
      let dest ← resize2 id_user id_host 4
      put dest b!"/"
      put (dest + 1) b!"/"
      put (dest + 2) b!":"
      put (dest + 3) b!"@"
      split id_user 2
      set_encoded_password (s.drop 1)
  else set_encoded_password (s.drop 1)

/-- `impl/url_base.ipp:706-716`, `767-777`: add an authority with the host text `t`. -/
def addHost (t : Str) : M Unit := do
  let dest ← resize id_user (2 + t.length)
  put dest b!"/"
  put (dest + 1) b!"/"
  split id_user 2
  split id_password 0
  put (dest + 2) t

/-- `impl/url_base.ipp:671-754`. `encoded_size(s)` and the number of bytes `encode` writes are kept
apart. -/
def set_host (s : Str) : M Unit := do
  if s.isEmpty then
    if (← M.pt).length2 id_user id_host = 2 ∧ (← M.pt).length id_port = 0 then
      assert fun o => do return (← o.get id_user) = b!"//"
      let _ ← resize2 id_user id_path 0
    else
      let _ ← resize id_host 0
  else
    let k ← (match (parse_ip_literal (PS.init s)).flt with
      | some f => fun _ _ => .fault f
      | none => pure (parse_plain_hostname s) : M HostType)
    assert fun _ => .ok (k ≠ .none)
    if k ≠ .name then
      if !(← ask fun o => .ok (has_authority o)) then addHost s
      else
        let dest ← resize id_host s.length
        put dest s
    else
      let e := reg_name_pct_set
      if !(← ask fun o => .ok (has_authority o)) then
        let dest ← resize id_user (2 + e.encoded_size s)
        put dest b!"/"
        put (dest + 1) b!"/"
        split id_user 2
        split id_password 0
        put (dest + 2) (e.encode s)
      else
        let dest ← resize id_host (e.encoded_size s)
        put dest (e.encode s)
    setPt fun pt => { pt with host := k }

/-- `impl/url_base.ipp:756-788` -/
def set_encoded_host (s : Str) : M Unit := do
  if s.isEmpty then set_host s
  else
    let pt ← parsedAll (parse_hostname (PS.init s))
    if !(← ask fun o => .ok (has_authority o)) then addHost s
    else
      let dest ← resize id_host s.length
      put dest s
    setPt fun p => { p with host := pt.host }

/-- `impl/url_base.ipp:824-876` -/
def set_port (s : Str) : M Unit := do
  if s.isEmpty then
    if (← M.pt).length2 id_user id_port = 2 then
      assert fun o => do return (← o.get id_user).take 2 = b!"//"
      let _ ← resize2 id_user id_path 0
    else
      let _ ← resize id_port 0
  else
    require (match_port s)
    if !(← ask fun o => .ok (has_authority o)) then
      let dest ← resize id_user (3 + s.length)
      put dest b!"/"
      put (dest + 1) b!"/"
      put (dest + 2) b!":"
      split id_user 2
      split id_password 0
      split id_host 0
      put (dest + 3) s
    else
      let dest ← resize id_port (1 + s.length)
      put dest b!":"
      put (dest + 1) s

/-- `impl/url_base.ipp:816-822` `set_port(unsigned)` -/
def set_port_number (n : UInt32) : M Unit := do
  let s ← ask fun _ => port_string n
  set_port s

/-- `impl/url_base.ipp:878-894` -/
def set_port_part (s : Str) : M Unit := do
  if s.isEmpty then set_port s
  else
    require (s.head? == some c!":")
    if s.length > 1 then set_port (s.drop 1)
    else
      let dest ← resize id_port 1
      put dest b!":"

/-- `impl/url_base.ipp:911-948` -/
def set_encoded_path (s : Str) : M Unit := do
  if s.isEmpty then
    let _ ← resize id_path 0
  else
    if ← ask fun o => .ok (has_authority o) then
      let _ ← parsedAll (parse_path_abempty (PS.init s))
    else if s.head? == some c!"/" then
      let _ ← parsedAll (parse_path_absolute (PS.init s))
    else if (← M.pt).length id_scheme = 0 then
      let _ ← parsedAll (parse_path_noscheme (PS.init s))
    else
      let _ ← parsedAll (parse_path_rootless (PS.init s))
    let dest ← resize id_path s.length
    put dest s

/-- The common body of `set_query` and `set_fragment`: part `id` becomes the delimiter `d` and the
encoding of `s`. -/
def setPlain (id : Nat) (d : Byte) (e : PctSet) (s : Str) : M Unit := do
  if s.isEmpty then
    let _ ← resize id 0
  else
    let dest ← resize id (1 + e.encoded_size s)
    put dest [d]
    put (dest + 1) (e.encode s)

/-- The common body of `set_encoded_query` and `set_encoded_fragment`. -/
def setEncoded (id : Nat) (d : Byte) (e : PctSet) (s : Str) : M Unit := do
  if s.isEmpty then
    let _ ← resize id 0
  else
    validate e s
    let dest ← resize id (1 + s.length)
    put dest [d]
    put (dest + 1) s

/-- The common body of `set_query_part` and `set_fragment_part`. -/
def setPart (id : Nat) (d : Byte) (e : PctSet) (s : Str) : M Unit := do
  if s.isEmpty then
    let _ ← resize id 0
  else
    require (s.head? == some d)
    validate e (s.drop 1)
    let dest ← resize id (1 + (s.drop 1).length)
    put dest [d]
    put (dest + 1) (s.drop 1)

/-- `impl/url_base.ipp:982-1002` -/
def set_query : Str → M Unit := setPlain id_query c!"?" query_pct_set
/-- `impl/url_base.ipp:1004-1023` -/
def set_encoded_query : Str → M Unit := setEncoded id_query c!"?" query_pct_set
/-- `impl/url_base.ipp:1025-1047` -/
def set_query_part : Str → M Unit := setPart id_query c!"?" query_pct_set
/-- `impl/url_base.ipp:1081-1100` -/
def set_fragment : Str → M Unit := setPlain id_frag c!"#" frag_pct_set
/-- `impl/url_base.ipp:1102-1121` -/
def set_encoded_fragment : Str → M Unit := setEncoded id_frag c!"#" frag_pct_set
/-- `impl/url_base.ipp:1123-1145` -/
def set_fragment_part : Str → M Unit := setPart id_frag c!"#" frag_pct_set

/-- the loop of `normalize_scheme`, `impl/url_base.ipp:1170-1176`: `n` iterations from offset `i` -/
def lowerLoop (i : Nat) : Nat → M Unit
  | 0 => pure ()
  | n + 1 => do
    let c ← ask fun o => o.byte i
    if (c - 65).toNat < 26 then put i [c + 32]
    lowerLoop (i + 1) n

/-- `impl/url_base.ipp:1157-1178` -/
def normalize_scheme : M Unit := do
  let n := (← M.pt).length id_scheme
  if n = 0 then return ()
  else
    assert fun o => do return (← o.byte (o.pt.off id_scheme + (n - 1))) == c!":"
    lowerLoop ((← M.pt).off id_scheme) (n - 1)

/-- `impl/url_base.ipp:1149-1155` -/
def normalize : M Unit := normalize_scheme

/-- `basic_url.hpp:29-35`, a default constructed `url` -/
def empty : St := {}

/-- `basic_url.hpp:37-45`, `impl/url_base.ipp:32-39`: construction from a string. A throwing
constructor leaves no object. -/
def make (s : Str) : M Unit := fun env _ => set_encoded_url s env empty

end Url.Base
