import Verif.Model.CharType
import Verif.Model.Parts

/-!
Model of `detail/parse.hpp`.

The parser object together with the `parts&` and `error_code&` arguments is one record. A pointer
into the input is represented by the rest of the input that starts there.
-/

namespace Url

/-- `detail/parse.hpp:30-52` `struct parser`, with the by-reference arguments `pt` and `ec` and the
fault flag of the model. -/
structure PS where
  /-- `[begin_, end_)` -/
  inp : Str
  /-- `[p_, end_)` -/
  p : Str
  pt : Parts := {}
  ec : Option Err := none
  flt : Option Flt := none

namespace PS

/-- `detail/parse.hpp:36-43`, the constructor -/
def init (s : Str) : PS := { inp := s, p := s }

/-- `p_ - begin_` -/
def pos (ps : PS) : Nat := ps.inp.length - ps.p.length

/-- `detail/parse.hpp:54-58` `done` -/
def done (ps : PS) : Bool := ps.p.isEmpty

/-- `detail/parse.hpp:78-91` `mark` -/
def mark (ps : PS) (id : Nat) : PS :=
  if id = id_scheme then { ps with pt := ps.pt.resize id_scheme ps.pos }
  else { ps with pt := ps.pt.resize id (ps.pos - ps.pt.off id) }

/-- `p_ = e.parse(q, end_, ec)` where `q` is given as the rest of the input -/
def pct (ps : PS) (e : PctSet) (q : Str) : PS :=
  let r := e.parse q ps.ec
  { ps with p := r.1, ec := r.2 }

end PS

/-- `while(++p_ < end_) if(! is_scheme_char(*p_)) break;`, on the rest of the input -/
def skipSchemeChars : Str → Str
  | [] => []
  | c :: t => if is_scheme_char c then skipSchemeChars t else c :: t

/-- `detail/parse.hpp:96-107` `match_scheme`: the result and the new `[p_, end_)`. -/
def match_scheme (p : Str) : Bool × Str :=
  match p with
  | [] => (false, p)
  | c :: t => if is_alpha c then (true, skipSchemeChars t) else (false, p)

/-- `detail/parse.hpp:817-829` `match_literal`: `none` is `false`, otherwise the new `[p_, end_)`. -/
def match_literal (lit p : Str) : Option Str :=
  if p.length < lit.length then none
  else if p.take lit.length = lit then some (p.drop lit.length) else none

/-- `static_cast<unsigned char>(c - '0')` -/
def digitOf (c : Byte) : Nat := (c - 48).toNat

/-- The `while` loop of `match_octet`, `detail/parse.hpp:346-356`. `none` is the result `-1`. -/
def octetLoop : Str → Nat → Option Nat × Str
  | [], v => (some v, [])
  | c :: t, v =>
    if digitOf c ≥ 10 then (some v, c :: t)
    else
      if 10 * v + digitOf c > 255 then (none, t)
      else octetLoop t (10 * v + digitOf c)

/-- `detail/parse.hpp:328-358` `match_octet`: the result (`none` is `-1`) and the new `[p_, end_)`. -/
def match_octet (p : Str) : Option Nat × Str :=
  match p with
  | [] => (none, p)
  | c :: t =>
    if digitOf c ≥ 10 then (none, p)
    else if digitOf c = 0 then (some 0, t)
    else octetLoop t (digitOf c)

/-- `detail/parse.hpp:360-385` `match_ip_v4`: the result and the new `[p_, end_)`; on failure the
pointer stays where the scan stopped. -/
def match_ip_v4 (p : Str) : Bool × Str :=
  match match_octet p with
  | (none, p) => (false, p)
  | (some _, []) => (false, [])
  | (some _, c :: t) =>
    if c != c!"." then (false, c :: t) else
    match match_octet t with
    | (none, p) => (false, p)
    | (some _, []) => (false, [])
    | (some _, c :: t) =>
      if c != c!"." then (false, c :: t) else
      match match_octet t with
      | (none, p) => (false, p)
      | (some _, []) => (false, [])
      | (some _, c :: t) =>
        if c != c!"." then (false, c :: t) else
        match match_octet t with
        | (none, p) => (false, p)
        | (some _, p) => (true, p)

/-- The repeated step of `parse_word`: read up to `k` further hex digits
(`detail/parse.hpp:402-427`, unrolled three times in the source). -/
def wordLoop : Nat → Str → Nat → Nat × Str
  | 0, p, v => (v, p)
  | _ + 1, [], v => (v, [])
  | k + 1, c :: t, v =>
    if notHex c then (v, c :: t) else wordLoop k t (16 * v + hex_digit c)

/-- `detail/parse.hpp:387-430` `parse_word`; `none` is the result `-1` with `ec = error::syntax`.
The assertion `p_ != end_` is built into the type: the caller passes the non-empty rest `c :: t`. -/
def parse_word (c : Byte) (t : Str) : Option Nat × Str :=
  if notHex c then (none, c :: t)
  else
    let r := wordLoop 3 t (hex_digit c)
    (some r.1, r.2)

/-- `detail/parse.hpp:435-445` `maybe_octet` -/
def maybe_octet (word : Nat) : Bool :=
  if word > 0x255 then false
  else if (word / 16) % 16 > 9 then false
  else if word % 16 > 9 then false
  else true

/-- The result of `parse_ip_v6`: `[p_, end_)`, whether `ec` was set (always to `error::syntax`), and
the fault flag. -/
structure V6 where
  p : Str
  err : Bool := false
  flt : Option Flt := none
  deriving DecidableEq

/-- The dotted tail of `parse_ip_v6` after the first `.`, `detail/parse.hpp:525-565`. -/
def v6Tail (p : Str) : V6 :=
  match match_octet p with
  | (none, p) => { p := p, err := true }
  | (some _, []) => { p := [], err := true }
  | (some _, c :: t) =>
    if c != c!"." then { p := c :: t, err := true } else
    match match_octet t with
    | (none, p) => { p := p, err := true }
    | (some _, []) => { p := [], err := true }
    | (some _, c :: t) =>
      if c != c!"." then { p := c :: t, err := true } else
      match match_octet t with
      | (none, p) => { p := p, err := true }
      | (some _, p) => { p := p }

/-- The loop of `parse_ip_v6`, `detail/parse.hpp:460-588`. `n` words are still needed, `b` is "got
`::`", `c` is "need colon", `word` is the last word read. -/
def v6Loop : Nat → Str → Nat → Bool → Bool → Nat → V6
  | 0, p, _, _, _, _ => { p := p, flt := some .diverge }
  | fuel + 1, p, n, b, c, word =>
    match p with
    | [] =>
      if b then { p := [] }
      else if n = 0 then { p := [], flt := some .assert }
      else { p := [], err := true }
    | x :: t =>
      if x = c!":" then
        match t with
        | [] => { p := [], err := true }
        | y :: u =>
          if y = c!":" then
            if b then { p := y :: u, err := true }
            else if n - 1 = 0 then { p := u }
            else v6Loop fuel u (n - 1) true false word
          else if c then
            match parse_word y u with
            | (none, q) => { p := q, err := true }
            | (some w, q) =>
              if n - 1 = 0 then { p := q }
              else v6Loop fuel q (n - 1) b c w
          else { p := y :: u, err := true }
      else if x = c!"." then
        if !b && decide (n > 1) then { p := x :: t, err := true }
        else if !maybe_octet word then { p := x :: t, err := true }
        else v6Tail t
      else if b && notHex x then { p := x :: t }
      else if !c then
        match parse_word x t with
        | (none, q) => { p := q, err := true }
        | (some w, q) =>
          if n - 1 = 0 then { p := q }
          else v6Loop fuel q (n - 1) b true w
      else { p := x :: t, err := true }

/-- `detail/parse.hpp:447-589` `parse_ip_v6`. The fuel is one more than the length of the input. -/
def parse_ip_v6 (p : Str) : V6 :=
  match p with
  | [] => { p := [], err := true }
  | _ :: _ => v6Loop (p.length + 1) p 8 false false 0

/-- `detail/parse.hpp:267-298` `parse_ip_literal` -/
def parse_ip_literal (ps : PS) : PS :=
  match ps.p with
  | [] => { ps with ec := some .no_match }
  | c :: t =>
    if c != c!"[" then { ps with ec := some .no_match }
    else
      let r := parse_ip_v6 t
      let ps := { ps with p := r.p, flt := ps.flt <|> r.flt,
                          ec := if r.err then some .syntax else ps.ec }
      if ps.ec.isSome then ps
      else
        match ps.p with
        | [] => { ps with ec := some .syntax }
        | d :: u =>
          if d != c!"]" then { ps with ec := some .syntax }
          else { ps with p := u, pt := { ps.pt with host := .ipv6 } }

/-- `detail/parse.hpp:300-326` `parse_ipv4_or_domain`. Comparison of pointers into the same input is
comparison of the lengths of the rests. -/
def parse_ipv4_or_domain (ps : PS) : PS :=
  let p0 := ps.p
  match match_ip_v4 ps.p with
  | (true, p1) =>
    let ps := { ps with p := p1, pt := { ps.pt with host := .ipv4 } }
    let ps := ps.pct reg_name_pct_set ps.p
    if ps.ec.isSome then ps
    else if ps.p.length ≠ p1.length then { ps with pt := { ps.pt with host := .name } }
    else ps
  | (false, p1) =>
    let ps := { ps with p := p1 }
    let ps := ps.pct reg_name_pct_set ps.p
    if ps.ec.isSome then ps
    else if ps.p.length ≠ p0.length then { ps with pt := { ps.pt with host := .name } }
    else ps

/-- `detail/parse.hpp:249-265` `parse_hostname` -/
def parse_hostname (ps : PS) : PS :=
  let ps := parse_ip_literal ps
  if ps.ec.isSome then
    if ps.ec ≠ some .no_match then ps
    else
      let ps := parse_ipv4_or_domain { ps with ec := none }
      if ps.ec.isSome then ps else ps.mark id_host
  else ps.mark id_host

/-- `detail/parse.hpp:592-603` `match_port` (member): the new `[p_, end_)` -/
def skipDigits : Str → Str
  | [] => []
  | c :: t => if digitOf c > 9 then c :: t else skipDigits t

/-- `detail/parse.hpp:231-247` `parse_host` -/
def parse_host (ps : PS) : PS :=
  let ps := parse_hostname ps
  if ps.ec.isSome then ps
  else
    match ps.p with
    | [] => ps
    | c :: t =>
      if c != c!":" then ps
      else ({ ps with p := skipDigits t } : PS).mark id_port

/-- `detail/parse.hpp:212-229` `parse_userinfo` (member) -/
def parse_userinfo (ps : PS) : PS :=
  let ps := ps.pct userinfo_nc_pct_set ps.p
  if ps.ec.isSome then ps
  else
    let ps := ps.mark id_user
    let ps := ps.pct userinfo_pct_set ps.p
    if ps.ec.isSome then ps else ps.mark id_password

/-- `detail/parse.hpp:181-210` `parse_authority` (member) -/
def parse_authority (ps : PS) : PS :=
  let p0 := ps.p
  let ps := parse_userinfo ps
  if ps.ec = some .no_match then parse_host { ps with ec := none }
  else if ps.ec.isSome then ps
  else
    match match_literal b!"@" ps.p with
    | some q => parse_host (({ ps with p := q } : PS).mark id_password)
    | none =>
      let ps := ({ ps with p := p0 } : PS)
      parse_host ((ps.mark id_user).mark id_password)

/-- The loop `while(p_ < end_) { if(*p_ != '/') break; p_ = e.parse(p_ + 1, end_, ec); if(ec)
return; ++pt.nseg; }` shared by the four path functions (`detail/parse.hpp:616-625`, `663-672`,
`697-706`, `729-738`). -/
def pathLoop (e : PctSet) : Nat → PS → PS
  | 0, ps => { ps with flt := some .diverge }
  | fuel + 1, ps =>
    match ps.p with
    | [] => ps
    | c :: t =>
      if c != c!"/" then ps
      else
        let ps := ps.pct e t
        if ps.ec.isSome then ps
        else pathLoop e fuel { ps with pt := { ps.pt with nseg := ps.pt.nseg + 1 } }

/-- The path loop followed by `mark(pt, id_path)` unless an error was returned. -/
def pathLoopMark (ps : PS) : PS :=
  let ps := pathLoop pchar_pct_set (ps.p.length + 1) ps
  if ps.ec.isSome then ps else ps.mark id_path

/-- `detail/parse.hpp:607-627` `parse_path_abempty` -/
def parse_path_abempty (ps : PS) : PS := pathLoopMark ps

/-- `detail/parse.hpp:629-675` `parse_path_absolute`. `e.parse(p_ + 1, end_, ec)` starts after the
first character of the segment. -/
def parse_path_absolute (ps : PS) : PS :=
  match ps.p with
  | [] => { ps with ec := some .no_match }
  | c :: t =>
    if c != c!"/" then { ps with ec := some .no_match }
    else
      let ps := { ps with pt := { ps.pt with nseg := ps.pt.nseg + 1 }, p := t }
      match t with
      | [] => ps.mark id_path
      | d :: u =>
        if d = c!"/" then { ps with ec := some .invalid }
        else
          let ps := ps.pct pchar_pct_set u
          if ps.ec.isSome then ps else pathLoopMark ps

/-- `detail/parse.hpp:677-708` `parse_path_noscheme` -/
def parse_path_noscheme (ps : PS) : PS :=
  let p0 := ps.p
  let ps := ps.pct pchar_nc_pct_set p0
  if ps.ec.isSome then ps
  else if ps.p.length = p0.length then { ps with ec := some .no_match }
  else pathLoopMark { ps with pt := { ps.pt with nseg := ps.pt.nseg + 1 } }

/-- `detail/parse.hpp:710-740` `parse_path_rootless` -/
def parse_path_rootless (ps : PS) : PS :=
  let p0 := ps.p
  let ps := ps.pct pchar_pct_set p0
  if ps.ec.isSome then ps
  else if ps.p.length = p0.length then { ps with ec := some .no_match }
  else pathLoopMark { ps with pt := { ps.pt with nseg := ps.pt.nseg + 1 } }

/-- `detail/parse.hpp:111-143` `parse_hier_part` -/
def parse_hier_part (ps : PS) : PS :=
  match match_literal b!"//" ps.p with
  | some q =>
    let ps := parse_authority { ps with p := q }
    if ps.ec.isSome then ps else parse_path_abempty ps
  | none =>
    let ps := parse_path_absolute ps
    if ps.ec ≠ some .no_match then ps
    else
      let ps := parse_path_rootless { ps with ec := none }
      if ps.ec ≠ some .no_match then ps else { ps with ec := none }

/-- `detail/parse.hpp:145-177` `parse_relative_part` -/
def parse_relative_part (ps : PS) : PS :=
  match match_literal b!"//" ps.p with
  | some q =>
    let ps := parse_authority { ps with p := q }
    if ps.ec.isSome then ps else parse_path_abempty ps
  | none =>
    let ps := parse_path_absolute ps
    if ps.ec ≠ some .no_match then ps
    else
      let ps := parse_path_noscheme { ps with ec := none }
      if ps.ec ≠ some .no_match then ps else { ps with ec := none }

/-- The loop of `parse_query`, `detail/parse.hpp:761-787`; `n` is the count before the iteration. -/
def queryLoop : Nat → PS → Nat → PS
  | 0, ps, _ => { ps with flt := some .diverge }
  | fuel + 1, ps, n =>
    let finish (ps : PS) : PS :=
      let ps := ps.mark id_query
      { ps with pt := { ps.pt with nparam := n + 1 } }
    let ps := ps.pct qkey_pct_set ps.p
    if ps.ec.isSome then ps
    else
      match ps.p with
      | [] => finish ps
      | c :: t =>
        if c != c!"=" then finish ps
        else
          let ps := { ps with p := t }
          match t with
          | [] => finish ps
          | _ :: _ =>
            let ps := ps.pct qval_pct_set t
            if ps.ec.isSome then ps
            else
              match ps.p with
              | [] => finish ps
              | d :: u =>
                if d != c!"&" then finish ps
                else queryLoop fuel { ps with p := u } (n + 1)

/-- `detail/parse.hpp:748-788` `parse_query` -/
def parse_query (ps : PS) : PS :=
  match ps.p with
  | [] => ps
  | c :: _ => if c != c!"?" then ps else queryLoop (ps.p.length + 1) ps 0

/-- `detail/parse.hpp:796-813` `parse_fragment` -/
def parse_fragment (ps : PS) : PS :=
  match ps.p with
  | [] => ps
  | c :: t =>
    if c != c!"#" then ps
    else
      let ps := ps.pct frag_pct_set t
      if ps.ec.isSome then ps else ps.mark id_frag

/-- The tail of `parse_url`, `detail/parse.hpp:860-869`. -/
def parse_url_tail (ps : PS) : PS :=
  let ps := parse_query ps
  if ps.ec.isSome then ps
  else
    let ps := parse_fragment ps
    if ps.ec.isSome then ps
    else if ps.done then ps else { ps with ec := some .syntax }

/-- `detail/parse.hpp:832-870` `parse_url(pt, s, ec)` with a default constructed `pt` and clear
`ec`, as all callers pass them. -/
def parse_url (s : Str) : PS :=
  let ps := PS.init s
  match match_scheme ps.p with
  | (true, q) =>
    match match_literal b!":" q with
    | some q =>
      let ps := ({ ps with p := q } : PS).mark id_scheme
      parse_url_tail (parse_hier_part ps)
    | none =>
      let ps := parse_relative_part ps
      if ps.ec.isSome then ps else parse_url_tail ps
  | (false, _) =>
    let ps := parse_relative_part ps
    if ps.ec.isSome then ps else parse_url_tail ps

/-- `detail/parse.hpp:872-908` `parse_origin(pt, s, ec)` -/
def parse_origin (s : Str) : PS :=
  let ps := PS.init s
  match match_scheme ps.p with
  | (false, q) => { ps with p := q, ec := some .syntax }
  | (true, q) =>
    match match_literal b!":" q with
    | none => { ps with p := q, ec := some .syntax }
    | some q =>
      let ps := ({ ps with p := q } : PS).mark id_scheme
      let ps := parse_hier_part ps
      match match_literal b!"//" ps.p with
      | none => ps
      | some q =>
        let ps := parse_authority { ps with p := q }
        if ps.ec.isSome then ps
        else
          let ps := { ps with pt := ps.pt.resize id_user (ps.pt.length id_user + 1) }
          if ps.done then ps else { ps with ec := some .syntax }

/-- `detail/parse.hpp:969-1002` `parse_plain_hostname(pt, s)`: the host type stored in `pt`. -/
def parse_plain_hostname (s : Str) : HostType :=
  let ps := parse_ip_literal (PS.init s)
  if ps.ec.isSome then
    if ps.ec ≠ some .no_match then .name
    else
      match match_ip_v4 ps.p with
      | (true, q) => if q.isEmpty then .ipv4 else .name
      | (false, _) => .name
  else if ps.done then ps.pt.host
  else .name

/-- `detail/parse.hpp:1004-1013` `match_port(s)`: whether it returns normally. -/
def match_port (s : Str) : Bool := (skipDigits s).isEmpty

end Url
