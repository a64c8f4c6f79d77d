import Verif.Model.Op

/-!
The modifying calls with the sizes computed as a machine does.

In `Verif.Model.UrlBase` and `Verif.Model.Segments` a `std::size_t` is a natural number. Here every addition and
subtraction of sizes in `detail/char_type.hpp`, `detail/parts.hpp`, `detail/storage.hpp` and `impl/url_base.ipp`
is done modulo `k + 1`, where `k` is the largest `std::size_t`. Each definition is otherwise the one of the same
name there, from the lines cited there. Differences that remain: positions of iterators and pointers into the
buffer (`s_ + pos - n`) are natural numbers.
-/

namespace Url.Machine
open M Spec

/-- `a + b` in `std::size_t` -/
def add (k a b : Nat) : Nat := (a + b) % (k + 1)

/-- `a - b` in `std::size_t` -/
def sub (k a b : Nat) : Nat := (a + (k + 1 - b)) % (k + 1)

/-- `detail/char_type.hpp:279-289` `encoded_size`, from the count `n` -/
def encodedFrom (k : Nat) (e : PctSet) (n : Nat) : Str → Nat
  | [] => n
  | c :: t => encodedFrom k e (add k n (e.needed c)) t

/-- `detail/char_type.hpp:279-289` `encoded_size` -/
def encoded_size (k : Nat) (e : PctSet) (s : Str) : Nat := encodedFrom k e 0 s

/-- `detail/parts.hpp:51-57` `length(id)` -/
def length (k : Nat) (pt : Parts) (id : Nat) : Nat := sub k (pt.off (id + 1)) (pt.off id)

/-- `detail/parts.hpp:59-68` `length(begin, end)` -/
def length2 (k : Nat) (pt : Parts) (b e : Nat) : Nat := sub k (pt.off e) (pt.off b)

/-- `detail/parts.hpp:92-101` `resize` -/
def Parts.resize (k : Nat) (pt : Parts) (id n : Nat) : Parts :=
  { pt with off := fun i => if id < i then add k (pt.off i) (sub k n (length k pt id)) else pt.off i }

/-- `detail/storage.hpp:65-92` `reserve`. A request for no bytes is granted like any other. -/
def reserve (k n : Nat) : M Unit := fun env st =>
  if n ≤ st.cap then .ret () st
  else
    let cap := if st.cap < sub k env.maxSize st.cap then
        (if add k st.cap st.cap < n then n else add k st.cap st.cap) else env.maxSize
    match Storage.allocate (add k cap 1) env st with
    | .throw e st => .throw e st
    | .fault f => .fault f
    | .ret id st =>
      match st.buf with
      | none => .ret () { st with buf := some (List.replicate (add k cap 1) none), cap := cap, addr := id }
      | some b =>
        let m := add k st.size 1
        if m ≤ b.length ∧ m ≤ add k cap 1 ∧ st.size < add k cap 1 then
          let p := b.take m ++ List.replicate (add k cap 1 - m) none
          .ret () { st with buf := some (p.set st.size (some 0)), cap := cap, addr := id,
                            log := st.log ++ [.free st.addr (add k st.cap 1)] }
        else .fault .ub

/-- `detail/storage.hpp:100-112` `resize` -/
def storage (k n : Nat) : M Unit := fun env st =>
  match reserve k n env st with
  | .throw e st => .throw e st
  | .fault f => .fault f
  | .ret () st =>
    match st.buf with
    | none => .ret () st
    | some b =>
      if n < b.length then .ret () { st with size := n, buf := some (b.set n (some 0)) }
      else .fault .ub

/-- `impl/url_base.ipp:1749-1795` `resize(id, new_size)` -/
def resize (k id new : Nat) : M Nat := do
  let pt ← M.pt
  let len := length k pt id
  if len = new then
    return pt.off id
  else if new ≤ len then
    let n := sub k len new
    let pos := pt.off (id + 1)
    move (pos - n) pos (add k (sub k (pt.off id_end) pos) 1)
    setPt fun pt => pt.shift id (sub k · n)
    return pt.off id
  else if sub k new len > sub k k (pt.off id_end) then
    raise .too_large
  else
    storage k (add k (sub k (pt.off id_end) len) new)
    let n := sub k new len
    let pos := pt.off (id + 1)
    move (pos + n) pos (add k (sub k (pt.off id_end) pos) 1)
    setPt fun pt => pt.shift id (add k · n)
    return pt.off id

/-- `impl/url_base.ipp:1797-1853` `resize(first, last, new_size)` -/
def resize2 (k first last new : Nat) : M Nat := do
  let pt ← M.pt
  let len := length2 k pt first last
  if new = 0 ∧ len = 0 then
    return pt.off first
  else if new ≤ len then
    let n := sub k len new
    let pos := pt.off last
    move (pos - n) pos (add k (sub k (pt.off id_end) pos) 1)
    setPt fun pt => pt.shift2 first last (sub k · n)
    return pt.off first
  else if sub k new len > sub k k (pt.off id_end) then
    raise .too_large
  else
    storage k (add k (sub k (pt.off id_end) len) new)
    let n := sub k new len
    let pos := pt.off last
    move (pos + n) pos (add k (sub k (pt.off id_end) pos) 1)
    setPt fun pt => pt.shift2 first last (add k · n)
    return pt.off first

/-- `detail/parts.hpp:104-113` `pt_.split(id, n)` -/
def split (k id n : Nat) : M Unit := do
  assert fun _ => .ok (id < id_end - 1)
  assert fun o => .ok (n ≤ length k o.pt id)
  setPt fun pt => { pt with off := fun i => if i = id + 1 then add k (pt.off id) n else pt.off i }

/-- `impl/url_base.ipp:176-183` -/
def has_authority (k : Nat) : M Bool := ask fun o => .ok (length2 k o.pt id_user id_path != 0)

/-- `impl/url_base.ipp:61-86` -/
def set_encoded_url (k : Nat) (s : Str) : M Unit := do
  if s.isEmpty then
    if !(← isNull) then let _ ← resize2 k id_scheme id_end 0
  else
    let pt ← Base.parsed (parse_url s)
    storage k s.length
    setPt fun _ => pt
    put 0 s

/-- `impl/url_base.ipp:88-127` -/
def set_encoded_origin (k : Nat) (s : Str) : M Unit := do
  if s.isEmpty then
    let _ ← resize2 k id_scheme id_path 0
  else
    let pt ← Base.parsed (parse_origin s)
    let dest ← resize2 k id_scheme id_path s.length
    put dest s
    split k id_scheme (length k pt id_scheme)
    split k id_user (length k pt id_user)
    split k id_password (length k pt id_password)
    split k id_host (length k pt id_host)
    split k id_port (length k pt id_port)

/-- `impl/url_base.ipp:149-168` -/
def set_scheme (k : Nat) (s : Str) : M Unit := do
  if s.isEmpty then
    let _ ← resize k id_scheme 0
  else
    Base.require (match_scheme s).1
    Base.require (match_scheme s).2.isEmpty
    let dest ← resize k id_scheme (add k s.length 1)
    put dest s
    put (dest + s.length) b!":"

/-- `impl/url_base.ipp:203-239` -/
def set_encoded_authority (k : Nat) (s : Str) : M Unit := do
  if s.isEmpty then
    let _ ← resize2 k id_user id_path 0
  else
    let pt ← Base.parsedAll (parse_authority (PS.init s))
    let dest ← resize2 k id_user id_path (add k 2 s.length)
    put dest b!"/"
    put (dest + 1) b!"/"
    put (dest + 2) s
    split k id_user (add k 2 (length k pt id_user))
    split k id_password (length k pt id_password)
    split k id_host (length k pt id_host)
    assert fun o => .ok (length k o.pt id_port = length k pt id_port)

/-- `impl/url_base.ipp:314-353` -/
def set_encoded_userinfo (k : Nat) (s : Str) : M Unit := do
  if s.isEmpty then
    if length2 k (← M.pt) id_host id_path = 0 then
      let _ ← resize2 k id_user id_host 0
    else
      let _ ← resize2 k id_user id_host 2
  else
    let pt ← Base.parsedAll (parse_userinfo (PS.init s))
    let dest ← resize2 k id_user id_host (add k (add k 2 s.length) 1)
    put dest b!"/"
    put (dest + 1) b!"/"
    put (dest + 2) s
    split k id_user (length k pt id_user)
    put (dest + 2 + s.length) b!"@"

/-- `impl/url_base.ipp:355-367` -/
def set_userinfo_part (k : Nat) (s : Str) : M Unit := do
  if s.isEmpty then set_encoded_userinfo k s
  else
    Base.require (s.getLast? == some c!"@")
    set_encoded_userinfo k (s.take (s.length - 1))

/-- The part of `set_user` and `set_encoded_user` for an argument that is not empty: `n` is the size of the new
user, `txt` are the bytes written. -/
def storeUser (k n : Nat) (txt : Str) : M Unit := do
  if length k (← M.pt) id_password ≠ 0 then
    assert fun o => do backIs (← o.get id_password) c!"@"
    let dest ← resize k id_user (add k 2 n)
    put (dest + 2) txt
  else
    let dest ← resize k id_user (add k (add k 2 n) 1)
    put dest b!"/"
    put (dest + 1) b!"/"
    put (dest + add k 2 n) b!"@"
    split k id_user (add k 2 n)
    put (dest + 2) txt

/-- `impl/url_base.ipp:386-444` -/
def set_user (k : Nat) (s : Str) : M Unit := do
  if s.isEmpty then
    if length k (← M.pt) id_user = 0 then return ()
    else
      Base.assertUserinfo
      if length k (← M.pt) id_password = 1 then
        let _ ← resize2 k id_user id_host 2
      else
        let _ ← resize k id_user 2
  else storeUser k (encoded_size k userinfo_nc_pct_set s) (userinfo_nc_pct_set.encode s)

/-- `impl/url_base.ipp:446-482` -/
def set_encoded_user (k : Nat) (s : Str) : M Unit := do
  if s.isEmpty then set_user k s
  else
    Base.validate userinfo_nc_pct_set s
    storeUser k s.length s

/-- The part of `set_password` and `set_encoded_password` for an argument that is not empty. -/
def storePassword (k n : Nat) (txt : Str) : M Unit := do
  if length k (← M.pt) id_user ≠ 0 then
    let dest ← resize k id_password (add k (add k 1 n) 1)
    put dest b!":"
    put (dest + add k n 1) b!"@"
    put (dest + 1) txt
  else
    let dest ← resize2 k id_user id_host (add k (add k 3 n) 1)
    put dest b!"/"
    put (dest + 1) b!"/"
    put (dest + 2) b!":"
    put (dest + add k (add k 2 n) 1) b!"@"
    put (dest + 3) txt
    split k id_user 2

/-- `impl/url_base.ipp:518-572` -/
def set_password (k : Nat) (s : Str) : M Unit := do
  if s.isEmpty then
    if length k (← M.pt) id_password = 0 then return ()
    else
      Base.assertUserinfo
      if length k (← M.pt) id_user = 2 then
        let _ ← resize k id_password 0
      else
        let dest ← resize k id_password 1
        put dest b!"@"
  else storePassword k (encoded_size k userinfo_pct_set s) (userinfo_pct_set.encode s)

/-- `impl/url_base.ipp:574-609` -/
def set_encoded_password (k : Nat) (s : Str) : M Unit := do
  if s.isEmpty then set_password k s
  else
    Base.require (s.head? != some c!":")
    Base.validate userinfo_pct_set s
    storePassword k s.length s

/-- `impl/url_base.ipp:611-644` -/
def set_password_part (k : Nat) (s : Str) : M Unit := do
  if s.isEmpty then set_password k s
  else if s.length = 1 then
    Base.require (s.head? == some c!":")
    if length k (← M.pt) id_user ≠ 0 then
      let dest ← resize k id_password 2
      put dest b!":"
      put (dest + 1) b!"@"
    else
      let dest ← resize2 k id_user id_host 4
      put dest b!"/"
      put (dest + 1) b!"/"
      put (dest + 2) b!":"
      put (dest + 3) b!"@"
      split k id_user 2
      set_encoded_password k (s.drop 1)
  else set_encoded_password k (s.drop 1)

/-- The part of `set_host` and `set_encoded_host` for an argument that is not empty. -/
def storeHost (k n : Nat) (txt : Str) : M Unit := do
  if !(← has_authority k) then
    let dest ← resize k id_user (add k 2 n)
    put dest b!"/"
    put (dest + 1) b!"/"
    split k id_user 2
    split k id_password 0
    put (dest + 2) txt
  else
    let dest ← resize k id_host n
    put dest txt

/-- `impl/url_base.ipp:671-754` -/
def set_host (k : Nat) (s : Str) : M Unit := do
  if s.isEmpty then
    if length2 k (← M.pt) id_user id_host = 2 ∧ length k (← M.pt) id_port = 0 then
      assert fun o => do return (← o.get id_user) = b!"//"
      let _ ← resize2 k id_user id_path 0
    else
      let _ ← resize k id_host 0
  else
    let t ← (match (parse_ip_literal (PS.init s)).flt with
      | some f => fun _ _ => .fault f
      | none => pure (parse_plain_hostname s) : M HostType)
    assert fun _ => .ok (t ≠ .none)
    if t ≠ .name then storeHost k s.length s
    else storeHost k (encoded_size k reg_name_pct_set s) (reg_name_pct_set.encode s)
    setPt fun pt => { pt with host := t }

/-- `impl/url_base.ipp:756-788` -/
def set_encoded_host (k : Nat) (s : Str) : M Unit := do
  if s.isEmpty then set_host k s
  else
    let pt ← Base.parsedAll (parse_hostname (PS.init s))
    storeHost k s.length s
    setPt fun p => { p with host := pt.host }

/-- `impl/url_base.ipp:824-876` -/
def set_port (k : Nat) (s : Str) : M Unit := do
  if s.isEmpty then
    if length2 k (← M.pt) id_user id_port = 2 then
      assert fun o => do return (← o.get id_user).take 2 = b!"//"
      let _ ← resize2 k id_user id_path 0
    else
      let _ ← resize k id_port 0
  else
    Base.require (match_port s)
    if !(← has_authority k) then
      let dest ← resize k id_user (add k 3 s.length)
      put dest b!"/"
      put (dest + 1) b!"/"
      put (dest + 2) b!":"
      split k id_user 2
      split k id_password 0
      split k id_host 0
      put (dest + 3) s
    else
      let dest ← resize k id_port (add k 1 s.length)
      put dest b!":"
      put (dest + 1) s

/-- `impl/url_base.ipp:816-822` -/
def set_port_number (k : Nat) (n : UInt32) : M Unit := do
  let s ← ask fun _ => port_string n
  set_port k s

/-- `impl/url_base.ipp:878-894` -/
def set_port_part (k : Nat) (s : Str) : M Unit := do
  if s.isEmpty then set_port k s
  else
    Base.require (s.head? == some c!":")
    if s.length > 1 then set_port k (s.drop 1)
    else
      let dest ← resize k id_port 1
      put dest b!":"

/-- `impl/url_base.ipp:911-948` -/
def set_encoded_path (k : Nat) (s : Str) : M Unit := do
  if s.isEmpty then
    let _ ← resize k id_path 0
  else
    if ← has_authority k then
      let _ ← Base.parsedAll (parse_path_abempty (PS.init s))
    else if s.head? == some c!"/" then
      let _ ← Base.parsedAll (parse_path_absolute (PS.init s))
    else if length k (← M.pt) id_scheme = 0 then
      let _ ← Base.parsedAll (parse_path_noscheme (PS.init s))
    else
      let _ ← Base.parsedAll (parse_path_rootless (PS.init s))
    let dest ← resize k id_path s.length
    put dest s

/-- The part of the setters of the query and the fragment for an argument that is not empty:
`impl/url_base.ipp:982-1047`, `1081-1145` -/
def storeTail (k id : Nat) (d : Byte) (n : Nat) (txt : Str) : M Unit := do
  let dest ← resize k id (add k 1 n)
  put dest [d]
  put (dest + 1) txt

/-- `impl/url_base.ipp:982-1002`, `1081-1100` -/
def setPlain (k id : Nat) (d : Byte) (e : PctSet) (s : Str) : M Unit := do
  if s.isEmpty then
    let _ ← resize k id 0
  else storeTail k id d (encoded_size k e s) (e.encode s)

/-- `impl/url_base.ipp:1004-1023`, `1102-1121` -/
def setEncoded (k id : Nat) (d : Byte) (e : PctSet) (s : Str) : M Unit := do
  if s.isEmpty then
    let _ ← resize k id 0
  else
    Base.validate e s
    storeTail k id d s.length s

/-- `impl/url_base.ipp:1025-1047`, `1123-1145` -/
def setPart (k id : Nat) (d : Byte) (e : PctSet) (s : Str) : M Unit := do
  if s.isEmpty then
    let _ ← resize k id 0
  else
    Base.require (s.head? == some d)
    Base.validate e (s.drop 1)
    storeTail k id d (s.drop 1).length (s.drop 1)

/-- `impl/url_base.ipp:1157-1178` -/
def normalize_scheme (k : Nat) : M Unit := do
  let n := length k (← M.pt) id_scheme
  if n = 0 then return ()
  else
    assert fun o => do return (← o.byte (o.pt.off id_scheme + (n - 1))) == c!":"
    Base.lowerLoop ((← M.pt).off id_scheme) (n - 1)

/-- Run a modifying call where `k` is the largest `std::size_t`. -/
def runAt (k : Nat) : Op → M Unit
  | .set_encoded_url s => set_encoded_url k s
  | .set_encoded_origin s => set_encoded_origin k s
  | .set_scheme s => set_scheme k s
  | .set_encoded_authority s => set_encoded_authority k s
  | .set_encoded_userinfo s => set_encoded_userinfo k s
  | .set_userinfo_part s => set_userinfo_part k s
  | .set_user s => set_user k s
  | .set_encoded_user s => set_encoded_user k s
  | .set_password s => set_password k s
  | .set_encoded_password s => set_encoded_password k s
  | .set_password_part s => set_password_part k s
  | .set_host s => set_host k s
  | .set_encoded_host s => set_encoded_host k s
  | .set_port s => set_port k s
  | .set_port_number n => set_port_number k n
  | .set_port_part s => set_port_part k s
  | .set_encoded_path s => set_encoded_path k s
  | .set_query s => setPlain k id_query c!"?" query_pct_set s
  | .set_encoded_query s => setEncoded k id_query c!"?" query_pct_set s
  | .set_query_part s => setPart k id_query c!"?" query_pct_set s
  | .set_fragment s => setPlain k id_frag c!"#" frag_pct_set s
  | .set_encoded_fragment s => setEncoded k id_frag c!"#" frag_pct_set s
  | .set_fragment_part s => setPart k id_frag c!"#" frag_pct_set s
  | .normalize_scheme => normalize_scheme k
  | .normalize => normalize_scheme k

/-- Run a modifying call on a machine. -/
def run (op : Op) : M Unit := fun env st => runAt env.sizeMax op env st

/-- `impl/url_base.ipp:1350-1383` `erase(first, last)` -/
def seg_erase_range (k : Nat) (first last : SegIt) : M SegIt := do
  let n ← stored
  assert fun o => .ok (Url.size o = n)
  assert fun o => .ok (first.off ≥ o.pt.off id_path)
  assert fun o => .ok (last.off ≥ o.pt.off id_path)
  assert fun o => .ok (first.off ≤ o.pt.off id_query)
  assert fun o => .ok (last.off ≤ o.pt.off id_query)
  if last.off < first.off then undefined
  else
    let d := sub k last.off first.off
    if d = 0 then return first
    else
      let c := (← ask fun o => o.read first.off (last.off - first.off)).count c!"/"
      if c > Base.intMax then undefined
      else
        assert fun _ => .ok (c > 0)
        assert fun o => .ok (o.pt.nseg ≥ c)
        let m ← sizeMax
        setPt fun pt => { pt with nseg := Base.modSub m pt.nseg c }
        let pt ← M.pt
        move first.off last.off (add k (sub k (pt.off id_end) last.off) 1)
        setPt fun pt => Parts.resize k pt id_path (sub k (length2 k pt id_path id_query) d)
        let pt ← M.pt
        let n ← stored
        assert fun _ => .ok (add k (pt.off id_end) d = n)
        storage k (pt.off id_end)
        assert fun o => do return (← o.byte (o.pt.off id_end)) == 0
        ask fun o => Seg.parse id_query o first

/-- `impl/url_base.ipp:1340-1348` `erase(pos)` -/
def seg_erase (k : Nat) (pos : SegIt) : M SegIt := do
  let last ← ask fun o => Seg.next id_query o pos
  seg_erase_range k pos last

/-- The common part of `insert_encoded_impl` and `insert_impl`, `impl/url_base.ipp:1385-1438` -/
def seg_put (k : Nat) (pos : SegIt) (ns : Nat) (enc : Str) : M SegIt := do
  let n ← stored
  assert fun o => .ok (Url.size o = n)
  assert fun o => .ok (pos.off ≥ o.pt.off id_path)
  assert fun o => .ok (pos.off ≤ o.pt.off id_query)
  let pt ← M.pt
  let n0 := pt.off id_end
  let n := add k ns 1
  storage k (add k n0 n)
  setPt fun pt => Parts.resize k pt id_path (add k (length2 k pt id_path id_query) n)
  let pt ← M.pt
  move (pt.off id_end + pos.off - n0) pos.off (add k (sub k n0 pos.off) 1)
  assert fun o => do return (← o.byte (o.pt.off id_end)) == 0
  put pos.off b!"/"
  put (pos.off + 1) enc
  let m ← sizeMax
  setPt fun pt => { pt with nseg := Base.modAdd m pt.nseg 1 }
  ask fun o => Seg.parse id_query o { pos with off := add k pos.off n }

/-- `impl/url_base.ipp:1385-1410` `insert_encoded_impl` -/
def seg_insert_encoded_impl (k : Nat) (pos : SegIt) (s : Str) : M SegIt := do
  assert fun _ => .ok (pchar_pct_set.check s)
  seg_put k pos s.length s

/-- `impl/url_base.ipp:1412-1438` `insert_impl` -/
def seg_insert_impl (k : Nat) (pos : SegIt) (s : Str) (ns : Nat) : M SegIt := do
  assert fun _ => .ok (encoded_size k pchar_pct_set s = ns)
  seg_put k pos ns (pchar_pct_set.encode s)

/-- `impl/url_base.ipp:1440-1447` -/
def seg_insert_encoded (k : Nat) (pos : SegIt) (s : Str) : M SegIt := do
  Base.validate pchar_pct_set s
  seg_insert_encoded_impl k pos s

/-- `impl/url_base.ipp:1449-1456` -/
def seg_insert (k : Nat) (pos : SegIt) (s : Str) : M SegIt :=
  seg_insert_impl k pos s (encoded_size k pchar_pct_set s)

/-- The common part of `replace_encoded` and `replace`, `impl/url_base.ipp:1458-1499` -/
def seg_swap (k : Nat) (pos : SegIt) (ns : Nat) (ins : SegIt → M SegIt) : M SegIt := do
  let n ← stored
  assert fun o => .ok (Url.size o = n)
  let n0 := pos.n
  let n := add k ns 1
  if n0 < n then reserve k (sub k (add k (← stored) n) n0)
  let cap ← capacity
  let r ← ins (← seg_erase k pos)
  let cap' ← capacity
  assert fun _ => .ok (cap' = cap)
  return r

/-- `impl/url_base.ipp:1458-1478` -/
def seg_replace_encoded (k : Nat) (pos : SegIt) (s : Str) : M SegIt := do
  Base.validate pchar_pct_set s
  seg_swap k pos s.length fun it => seg_insert_encoded_impl k it s

/-- `impl/url_base.ipp:1480-1499` -/
def seg_replace (k : Nat) (pos : SegIt) (s : Str) : M SegIt :=
  seg_swap k pos (encoded_size k pchar_pct_set s) fun it =>
    seg_insert_impl k it s (encoded_size k pchar_pct_set s)

/-- Run a call that edits a segment where `k` is the largest `std::size_t`. -/
def runSegAt (k : Nat) : SegOp → M SegIt
  | .erase i => do seg_erase k (← Base.segAt i)
  | .erase_range i j => do
    let first ← Base.segAt i
    let last ← Base.segAt j
    seg_erase_range k first last
  | .insert i s => do seg_insert k (← Base.segAt i) s
  | .insert_encoded i s => do seg_insert_encoded k (← Base.segAt i) s
  | .replace i s => do seg_replace k (← Base.segAt i) s
  | .replace_encoded i s => do seg_replace_encoded k (← Base.segAt i) s

/-- Run a call that edits a segment on a machine. -/
def runSeg (e : SegOp) : M SegIt := fun env st => runSegAt env.sizeMax e env st

/-- `b` bytes are the most that is ever allocated. If the allocator claims to provide as many as a size can count,
as `std::allocator_traits` does for an allocator without a `max_size`, it provides at most half of that. -/
structure Bound (env : Env) (b : Nat) : Prop where
  granted : ∀ t m, m ≤ env.maxSize → env.alloc t m = true → m ≤ b
  half : 2 * b ≤ env.maxSize ∨ env.maxSize < env.sizeMax

/-- the number of bytes of the string argument of a call -/
def argLength : Op → Nat
  | .set_encoded_url s | .set_encoded_origin s | .set_scheme s | .set_encoded_authority s | .set_encoded_userinfo s
  | .set_userinfo_part s | .set_user s | .set_encoded_user s | .set_password s | .set_encoded_password s
  | .set_password_part s | .set_host s | .set_encoded_host s | .set_port s | .set_port_part s | .set_encoded_path s
  | .set_query s | .set_encoded_query s | .set_query_part s | .set_fragment s | .set_encoded_fragment s
  | .set_fragment_part s => s.length
  | .set_port_number _ | .normalize_scheme | .normalize => 0

/-- the number of bytes of the string argument of an edit -/
def segArgLength : SegOp → Nat
  | .erase _ | .erase_range _ _ => 0
  | .insert _ s | .insert_encoded _ s | .replace _ s | .replace_encoded _ s => s.length

/-- The states of a `url` object on a machine, when no argument has more than `n` bytes; otherwise as `Url.Reach`. -/
inductive Reach (env : Env) (n : Nat) : St → Prop
  | empty : Reach env n Base.empty
  | call {st st' : St} (op : Op) : Reach env n st → argLength op ≤ n →
      (∀ info, Base.has_userinfo (st.obj env.dbg) = .ok info → ¬ op.Defective (Url.has_authority (st.obj env.dbg)) info) →
      (run op env st = .ret () st' ∨ ∃ e, run op env st = .throw e st') → Reach env n st'
  | edit {st st' : St} (e : SegOp) : Reach env n st → segArgLength e ≤ n → Editable env st e →
      ((∃ it, runSeg e env st = .ret it st') ∨ ∃ x, runSeg e env st = .throw x st') → Reach env n st'

/-- The states of a `url` object on a machine after any calls, when no argument has more than `n` bytes. -/
inductive Used (env : Env) (n : Nat) : St → Prop
  | empty : Used env n Base.empty
  | call {st st' : St} (op : Op) : Used env n st → argLength op ≤ n →
      (run op env st = .ret () st' ∨ ∃ e, run op env st = .throw e st') → Used env n st'

end Url.Machine
