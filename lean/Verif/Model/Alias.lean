import Verif.Model.Op
import Verif.Model.SegOp

/-!
The modifying calls with an argument that may point into the url's own buffer.

Every setter first examines its argument and then changes the url; the only access to the characters of
the argument after the first change is the copy into the buffer. So each definition here is the one of
`Verif.Model.UrlBase` with that copy (`s.copy`, `std::memcpy` or `e.encode`) replaced by one that reads
the source where it is (`copyArg`, `encodeArg`). `Alias.run op none` is `run op` by definition.
-/

namespace Url.Alias
open M Base Spec

/-- A `string_view` argument: its characters when the call is made, and if it points into the url's
buffer, which allocation that is and at which offset. -/
structure Arg where
  s : Str
  own : Option (Nat × Nat)

/-- `s.substr(k)` -/
def Arg.drop (a : Arg) (k : Nat) : Arg := ⟨a.s.drop k, a.own.map fun p => (p.1, p.2 + k)⟩

/-- `s.substr(0, k)` -/
def Arg.take (a : Arg) (k : Nat) : Arg := ⟨a.s.take k, a.own⟩

/-- `s.copy(s_ + i, s.size())`, `std::memcpy(s_ + i, s.data(), s.size())`. Undefined if the allocation
`s` points into was released, and if the two ranges overlap. -/
def copyArg (i : Nat) (a : Arg) : M Unit :=
  match a.own with
  | none => put i a.s
  | some (gen, off) => fun _ st =>
    let n := a.s.length
    if n = 0 then .ret () st
    else if st.tick ≠ gen then .fault .ub
    else
      match st.buf with
      | none => .fault .ub
      | some b =>
        if off + n ≤ b.length ∧ i + n ≤ b.length ∧ (off + n ≤ i ∨ i + n ≤ off) then
          .ret () { st with buf := some (b.take i ++ (b.drop off).take n ++ b.drop (i + n)) }
        else .fault .ub

/-- the loop of `pct_encoding::encode`, `detail/char_type.hpp:291-312`, over `n` bytes from `off`, writing
to `i` -/
def encodeLoop (e : PctSet) (off i : Nat) : Nat → M Unit
  | 0 => pure ()
  | n + 1 => do
    let c ← ask fun o => o.byte off
    put i (e.encode [c])
    encodeLoop e (off + 1) (i + (e.encode [c]).length) n

/-- `e.encode(s_ + i, s)` -/
def encodeArg (e : PctSet) (i : Nat) (a : Arg) : M Unit :=
  match a.own with
  | none => put i (e.encode a.s)
  | some (gen, off) => fun env st =>
    if a.s.length = 0 then .ret () st
    else if st.tick ≠ gen then .fault .ub
    else encodeLoop e off i a.s.length env st

/-- `impl/url_base.ipp:61-86` -/
def set_encoded_url (a : Arg) : M Unit := do
  if a.s.isEmpty then
    if !(← isNull) then let _ ← resize2 id_scheme id_end 0
  else
    let pt ← parsed (parse_url a.s)
    Storage.resize a.s.length
    setPt fun _ => pt
    copyArg 0 a

/-- `impl/url_base.ipp:88-127` -/
def set_encoded_origin (a : Arg) : M Unit := do
  if a.s.isEmpty then
    let _ ← resize2 id_scheme id_path 0
  else
    let pt ← parsed (parse_origin a.s)
    let dest ← resize2 id_scheme id_path a.s.length
    copyArg dest a
    split id_scheme (pt.length id_scheme)
    split id_user (pt.length id_user)
    split id_password (pt.length id_password)
    split id_host (pt.length id_host)
    split id_port (pt.length id_port)

/-- `impl/url_base.ipp:149-168` -/
def set_scheme (a : Arg) : M Unit := do
  if a.s.isEmpty then
    let _ ← resize id_scheme 0
  else
    require (match_scheme a.s).1
    require (match_scheme a.s).2.isEmpty
    let dest ← resize id_scheme (a.s.length + 1)
    copyArg dest a
    put (dest + a.s.length) b!":"

/-- `impl/url_base.ipp:203-239` -/
def set_encoded_authority (a : Arg) : M Unit := do
  if a.s.isEmpty then
    let _ ← resize2 id_user id_path 0
  else
    let pt ← parsedAll (parse_authority (PS.init a.s))
    let dest ← resize2 id_user id_path (2 + a.s.length)
    put dest b!"/"
    put (dest + 1) b!"/"
    copyArg (dest + 2) a
    split id_user (2 + pt.length id_user)
    split id_password (pt.length id_password)
    split id_host (pt.length id_host)
    assert fun o => .ok (o.pt.length id_port = pt.length id_port)

/-- `impl/url_base.ipp:314-353` -/
def set_encoded_userinfo (a : Arg) : M Unit := do
  if a.s.isEmpty then
    if (← M.pt).length2 id_host id_path = 0 then
      let _ ← resize2 id_user id_host 0
    else
      let _ ← resize2 id_user id_host 2
  else
    let pt ← parsedAll (parse_userinfo (PS.init a.s))
    let dest ← resize2 id_user id_host (2 + a.s.length + 1)
    put dest b!"/"
    put (dest + 1) b!"/"
    copyArg (dest + 2) a
    split id_user (pt.length id_user)
    put (dest + 2 + a.s.length) b!"@"

/-- `impl/url_base.ipp:355-367` -/
def set_userinfo_part (a : Arg) : M Unit := do
  if a.s.isEmpty then set_encoded_userinfo a
  else
    require (a.s.getLast? == some c!"@")
    set_encoded_userinfo (a.take (a.s.length - 1))

/-- `impl/url_base.ipp:386-444` -/
def set_user (a : Arg) : M Unit := do
  if a.s.isEmpty then
    if (← M.pt).length id_user = 0 then return ()
    else
      assertUserinfo
      if (← M.pt).length id_password = 1 then
        let _ ← resize2 id_user id_host 2
      else
        let _ ← resize id_user 2
  else
    let e := userinfo_nc_pct_set
    if (← M.pt).length id_password ≠ 0 then
      assert fun o => do backIs (← o.get id_password) c!"@"
      let dest ← resize id_user (2 + e.encoded_size a.s)
      encodeArg e (dest + 2) a
    else
      let n := e.encoded_size a.s
      let dest ← resize id_user (2 + n + 1)
      put dest b!"/"
      put (dest + 1) b!"/"
      put (dest + (2 + n)) b!"@"
      split id_user (2 + n)
      encodeArg e (dest + 2) a

/-- `impl/url_base.ipp:446-482` -/
def set_encoded_user (a : Arg) : M Unit := do
  if a.s.isEmpty then set_user a
  else
    validate userinfo_nc_pct_set a.s
    let n := a.s.length
    if (← M.pt).length id_password ≠ 0 then
      assert fun o => do backIs (← o.get id_password) c!"@"
      let dest ← resize id_user (2 + n)
      copyArg (dest + 2) a
    else
      let dest ← resize id_user (2 + n + 1)
      put dest b!"/"
      put (dest + 1) b!"/"
      put (dest + (2 + n)) b!"@"
      split id_user (2 + n)
      copyArg (dest + 2) a

/-- `impl/url_base.ipp:518-572` -/
def set_password (a : Arg) : M Unit := do
  if a.s.isEmpty then
    if (← M.pt).length id_password = 0 then return ()
    else
      assertUserinfo
      if (← M.pt).length id_user = 2 then
        let _ ← resize id_password 0
      else
        let dest ← resize id_password 1
        put dest b!"@"
  else
    let e := userinfo_pct_set
    let n := e.encoded_size a.s
    if (← M.pt).length id_user ≠ 0 then
      let dest ← resize id_password (1 + n + 1)
      put dest b!":"
      put (dest + (n + 1)) b!"@"
      encodeArg e (dest + 1) a
    else
      let dest ← resize2 id_user id_host (2 + 1 + n + 1)
      put dest b!"/"
      put (dest + 1) b!"/"
      put (dest + 2) b!":"
      put (dest + (2 + n + 1)) b!"@"
      encodeArg e (dest + 3) a
      split id_user 2

/-- `impl/url_base.ipp:574-609` -/
def set_encoded_password (a : Arg) : M Unit := do
  if a.s.isEmpty then set_password a
  else
    require (a.s.head? != some c!":")
    validate userinfo_pct_set a.s
    let n := a.s.length
    if (← M.pt).length id_user ≠ 0 then
      let dest ← resize id_password (1 + n + 1)
      put dest b!":"
      put (dest + (n + 1)) b!"@"
      copyArg (dest + 1) a
    else
      let dest ← resize2 id_user id_host (2 + 1 + n + 1)
      put dest b!"/"
      put (dest + 1) b!"/"
      put (dest + 2) b!":"
      put (dest + (2 + n + 1)) b!"@"
      copyArg (dest + 3) a
      split id_user 2

/-- `impl/url_base.ipp:611-644` -/
def set_password_part (a : Arg) : M Unit := do
  if a.s.isEmpty then set_password a
  else if a.s.length = 1 then
    require (a.s.head? == some c!":")
    if (← M.pt).length id_user ≠ 0 then
      let dest ← resize id_password 2
      put dest b!":"
      put (dest + 1) b!"@"
    else
      let dest ← resize2 id_user id_host 4
      put dest b!"/"
      put (dest + 1) b!"/"
      put (dest + 2) b!":"
      put (dest + 3) b!"@"
      split id_user 2
      set_encoded_password (a.drop 1)
  else set_encoded_password (a.drop 1)

/-- `impl/url_base.ipp:706-716`, `767-777` -/
def addHost (a : Arg) : M Unit := do
  let dest ← resize id_user (2 + a.s.length)
  put dest b!"/"
  put (dest + 1) b!"/"
  split id_user 2
  split id_password 0
  copyArg (dest + 2) a

/-- `impl/url_base.ipp:671-754` -/
def set_host (a : Arg) : M Unit := do
  if a.s.isEmpty then
    if (← M.pt).length2 id_user id_host = 2 ∧ (← M.pt).length id_port = 0 then
      assert fun o => do return (← o.get id_user) = b!"//"
      let _ ← resize2 id_user id_path 0
    else
      let _ ← resize id_host 0
  else
    let k ← (match (parse_ip_literal (PS.init a.s)).flt with
      | some f => fun _ _ => .fault f
      | none => pure (parse_plain_hostname a.s) : M HostType)
    assert fun _ => .ok (k ≠ .none)
    if k ≠ .name then
      if !(← ask fun o => .ok (has_authority o)) then addHost a
      else
        let dest ← resize id_host a.s.length
        copyArg dest a
    else
      let e := reg_name_pct_set
      if !(← ask fun o => .ok (has_authority o)) then
        let dest ← resize id_user (2 + e.encoded_size a.s)
        put dest b!"/"
        put (dest + 1) b!"/"
        split id_user 2
        split id_password 0
        encodeArg e (dest + 2) a
      else
        let dest ← resize id_host (e.encoded_size a.s)
        encodeArg e dest a
    setPt fun pt => { pt with host := k }

/-- `impl/url_base.ipp:756-788` -/
def set_encoded_host (a : Arg) : M Unit := do
  if a.s.isEmpty then set_host a
  else
    let pt ← parsedAll (parse_hostname (PS.init a.s))
    if !(← ask fun o => .ok (has_authority o)) then addHost a
    else
      let dest ← resize id_host a.s.length
      copyArg dest a
    setPt fun p => { p with host := pt.host }

/-- `impl/url_base.ipp:824-876` -/
def set_port (a : Arg) : M Unit := do
  if a.s.isEmpty then
    if (← M.pt).length2 id_user id_port = 2 then
      assert fun o => do return (← o.get id_user).take 2 = b!"//"
      let _ ← resize2 id_user id_path 0
    else
      let _ ← resize id_port 0
  else
    require (match_port a.s)
    if !(← ask fun o => .ok (has_authority o)) then
      let dest ← resize id_user (3 + a.s.length)
      put dest b!"/"
      put (dest + 1) b!"/"
      put (dest + 2) b!":"
      split id_user 2
      split id_password 0
      split id_host 0
      copyArg (dest + 3) a
    else
      let dest ← resize id_port (1 + a.s.length)
      put dest b!":"
      copyArg (dest + 1) a

/-- `impl/url_base.ipp:878-894` -/
def set_port_part (a : Arg) : M Unit := do
  if a.s.isEmpty then set_port a
  else
    require (a.s.head? == some c!":")
    if a.s.length > 1 then set_port (a.drop 1)
    else
      let dest ← resize id_port 1
      put dest b!":"

/-- `impl/url_base.ipp:911-948` -/
def set_encoded_path (a : Arg) : M Unit := do
  if a.s.isEmpty then
    let _ ← resize id_path 0
  else
    if ← ask fun o => .ok (has_authority o) then
      let _ ← parsedAll (parse_path_abempty (PS.init a.s))
    else if a.s.head? == some c!"/" then
      let _ ← parsedAll (parse_path_absolute (PS.init a.s))
    else if (← M.pt).length id_scheme = 0 then
      let _ ← parsedAll (parse_path_noscheme (PS.init a.s))
    else
      let _ ← parsedAll (parse_path_rootless (PS.init a.s))
    let dest ← resize id_path a.s.length
    copyArg dest a

/-- `impl/url_base.ipp:982-1002`, `1081-1100` -/
def setPlain (id : Nat) (d : Byte) (e : PctSet) (a : Arg) : M Unit := do
  if a.s.isEmpty then
    let _ ← resize id 0
  else
    let dest ← resize id (1 + e.encoded_size a.s)
    put dest [d]
    encodeArg e (dest + 1) a

/-- `impl/url_base.ipp:1004-1023`, `1102-1121` -/
def setEncoded (id : Nat) (d : Byte) (e : PctSet) (a : Arg) : M Unit := do
  if a.s.isEmpty then
    let _ ← resize id 0
  else
    validate e a.s
    let dest ← resize id (1 + a.s.length)
    put dest [d]
    copyArg (dest + 1) a

/-- `impl/url_base.ipp:1025-1047`, `1123-1145` -/
def setPart (id : Nat) (d : Byte) (e : PctSet) (a : Arg) : M Unit := do
  if a.s.isEmpty then
    let _ ← resize id 0
  else
    require (a.s.head? == some d)
    validate e (a.s.drop 1)
    let dest ← resize id (1 + (a.s.drop 1).length)
    put dest [d]
    copyArg (dest + 1) (a.drop 1)

/-- A call whose argument is the part of the url's own buffer at `own` (allocation and offset), or
elsewhere. Calls without a string argument ignore it. -/
def run (op : Op) (own : Option (Nat × Nat)) : M Unit :=
  match op with
  | .set_encoded_url s => set_encoded_url ⟨s, own⟩
  | .set_encoded_origin s => set_encoded_origin ⟨s, own⟩
  | .set_scheme s => set_scheme ⟨s, own⟩
  | .set_encoded_authority s => set_encoded_authority ⟨s, own⟩
  | .set_encoded_userinfo s => set_encoded_userinfo ⟨s, own⟩
  | .set_userinfo_part s => set_userinfo_part ⟨s, own⟩
  | .set_user s => set_user ⟨s, own⟩
  | .set_encoded_user s => set_encoded_user ⟨s, own⟩
  | .set_password s => set_password ⟨s, own⟩
  | .set_encoded_password s => set_encoded_password ⟨s, own⟩
  | .set_password_part s => set_password_part ⟨s, own⟩
  | .set_host s => set_host ⟨s, own⟩
  | .set_encoded_host s => set_encoded_host ⟨s, own⟩
  | .set_port s => set_port ⟨s, own⟩
  | .set_port_number n => Base.set_port_number n
  | .set_port_part s => set_port_part ⟨s, own⟩
  | .set_encoded_path s => set_encoded_path ⟨s, own⟩
  | .set_query s => setPlain id_query c!"?" query_pct_set ⟨s, own⟩
  | .set_encoded_query s => setEncoded id_query c!"?" query_pct_set ⟨s, own⟩
  | .set_query_part s => setPart id_query c!"?" query_pct_set ⟨s, own⟩
  | .set_fragment s => setPlain id_frag c!"#" frag_pct_set ⟨s, own⟩
  | .set_encoded_fragment s => setEncoded id_frag c!"#" frag_pct_set ⟨s, own⟩
  | .set_fragment_part s => setPart id_frag c!"#" frag_pct_set ⟨s, own⟩
  | .normalize_scheme => Base.normalize_scheme
  | .normalize => Base.normalize

/-- With an argument elsewhere this is the model of the other files. -/
theorem run_none (op : Op) : run op none = Url.run op := by cases op <;> rfl

/-! ### edits of segments

`replace` and `replace_encoded` erase the old segment before they insert the new one, so that in a debug build the
assertions of the latter read the argument after the first change. -/

/-- An assertion `p` about the characters of the argument, which it reads where they are. (A release build reads
nothing.) -/
def examine (a : Arg) (p : Str → Bool) : M Unit :=
  match a.own with
  | none => assert fun _ => .ok (p a.s)
  | some (gen, off) => fun env st =>
    if a.s.length = 0 then assert (fun _ => .ok (p a.s)) env st
    else if st.tick ≠ gen then if env.dbg then .fault .ub else .ret () st
    else assert (fun o => do return p (← o.read off a.s.length)) env st

/-- The common part of `insert_encoded_impl` and `insert_impl`, `impl/url_base.ipp:1385-1438`, with a copy `w` -/
def seg_put (pos : SegIt) (ns : Nat) (w : Nat → M Unit) : M SegIt := do
  let n ← stored
  assert fun o => .ok (Url.size o = n)
  assert fun o => .ok (pos.off ≥ o.pt.off id_path)
  assert fun o => .ok (pos.off ≤ o.pt.off id_query)
  let pt ← M.pt
  let n0 := pt.off id_end
  let n := ns + 1
  Storage.resize (n0 + n)
  setPt fun pt => pt.resize id_path (pt.length2 id_path id_query + n)
  let pt ← M.pt
  move (pt.off id_end + pos.off - n0) pos.off (n0 - pos.off + 1)
  assert fun o => do return (← o.byte (o.pt.off id_end)) == 0
  put pos.off b!"/"
  w (pos.off + 1)
  let m ← sizeMax
  setPt fun pt => { pt with nseg := modAdd m pt.nseg 1 }
  ask fun o => Seg.parse id_query o { pos with off := pos.off + n }

/-- `impl/url_base.ipp:1385-1410` `insert_encoded_impl` -/
def seg_insert_encoded_impl (pos : SegIt) (a : Arg) : M SegIt := do
  examine a fun s => pchar_pct_set.check s
  seg_put pos a.s.length fun i => copyArg i a

/-- `impl/url_base.ipp:1412-1438` `insert_impl` -/
def seg_insert_impl (pos : SegIt) (a : Arg) (ns : Nat) : M SegIt := do
  examine a fun s => pchar_pct_set.encoded_size s = ns
  seg_put pos ns fun i => encodeArg pchar_pct_set i a

/-- `impl/url_base.ipp:1440-1447` -/
def seg_insert_encoded (pos : SegIt) (a : Arg) : M SegIt := do
  validate pchar_pct_set a.s
  seg_insert_encoded_impl pos a

/-- `impl/url_base.ipp:1449-1456` -/
def seg_insert (pos : SegIt) (a : Arg) : M SegIt := seg_insert_impl pos a (pchar_pct_set.encoded_size a.s)

/-- `impl/url_base.ipp:1458-1478` -/
def seg_replace_encoded (pos : SegIt) (a : Arg) : M SegIt := do
  validate pchar_pct_set a.s
  seg_swap pos a.s.length fun it => seg_insert_encoded_impl it a

/-- `impl/url_base.ipp:1480-1499` -/
def seg_replace (pos : SegIt) (a : Arg) : M SegIt :=
  seg_swap pos (pchar_pct_set.encoded_size a.s) fun it => seg_insert_impl it a (pchar_pct_set.encoded_size a.s)

/-- An edit whose argument is the part of the url's own buffer at `own`, or elsewhere. -/
def runSeg (e : SegOp) (own : Option (Nat × Nat)) : M SegIt :=
  match e with
  | .erase i => do seg_erase (← segAt i)
  | .erase_range i j => do
    let first ← segAt i
    let last ← segAt j
    seg_erase_range first last
  | .insert i s => do seg_insert (← segAt i) ⟨s, own⟩
  | .insert_encoded i s => do seg_insert_encoded (← segAt i) ⟨s, own⟩
  | .replace i s => do seg_replace (← segAt i) ⟨s, own⟩
  | .replace_encoded i s => do seg_replace_encoded (← segAt i) ⟨s, own⟩

/-- With an argument elsewhere this is the model of the other files. -/
theorem runSeg_none (e : SegOp) : runSeg e none = Url.runSeg e := by cases e <;> rfl

end Url.Alias
