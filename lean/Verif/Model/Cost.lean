import Verif.Model.Parse

/-!
The parser once more, with a count of the characters of the input that it reads.

Each function has the name of the function in `Verif/Model/Parse.lean` it repeats, with the prefix `n_`;
`Verif/Proofs/Cost.lean` shows that the results are the same. Counted is every evaluation of an expression that
reads a character through a pointer into the input (`*p_`, `*p`, `p[0]`, `p[1]`), so that a character that is
looked at three times counts three times. `match_literal` counts all characters of the literal when it compares.
Every iteration of a loop of the parser, except perhaps the last one, reads at least one character.
-/

namespace Url

/-- A result and the number of characters read. -/
structure Counted (α : Type) where
  val : α
  reads : Nat

namespace Counted

instance : Monad Counted where
  pure a := ⟨a, 0⟩
  bind m f := ⟨(f m.val).val, m.reads + (f m.val).reads⟩

/-- reading `n` characters -/
def look (n : Nat := 1) : Counted Unit := ⟨(), n⟩

end Counted

open Counted

/-- `detail/char_type.hpp:138-155` -/
def n_check_escape (p : Str) (ec : Option Err) : Counted (Option Err) :=
  match p with
  | a :: b :: _ => do
    look
    if notHex a then return some .bad_pct_encoding_digit
    look
    if notHex b then return some .bad_pct_encoding_digit
    return ec
  | _ => return some .incomplete_pct_encoding

/-- `detail/char_type.hpp:204-227` -/
def PctSet.n_parse (e : PctSet) : Str → Option Err → Counted (Str × Option Err)
  | [], ec => return ([], ec)
  | c :: t, ec =>
    if c == c!"%" then
      match t with
      | a :: b :: u => do
        look
        let r ← n_check_escape (a :: b :: u) ec
        if r.isSome then return (c :: a :: b :: u, r) else PctSet.n_parse e u none
      | [] => do
        look
        return (c :: t, some .incomplete_pct_encoding)
      | [_] => do
        look
        return (c :: t, some .incomplete_pct_encoding)
    else do
      look 2
      if e.is_special c then return (c :: t, ec)
      else PctSet.n_parse e t ec

/-- `p_ = e.parse(q, end_, ec)` -/
def PS.n_pct (ps : PS) (e : PctSet) (q : Str) : Counted PS := do
  let r ← e.n_parse q ps.ec
  return { ps with p := r.1, ec := r.2 }

/-- `detail/parse.hpp:96-107`, the loop -/
def n_skipSchemeChars : Str → Counted Str
  | [] => return []
  | c :: t => do
    look
    if is_scheme_char c then n_skipSchemeChars t else return c :: t

/-- `detail/parse.hpp:96-107` -/
def n_match_scheme (p : Str) : Counted (Bool × Str) :=
  match p with
  | [] => return (false, p)
  | c :: t => do
    look
    if is_alpha c then
      let q ← n_skipSchemeChars t
      return (true, q)
    else return (false, p)

/-- `detail/parse.hpp:817-829` -/
def n_match_literal (lit p : Str) : Counted (Option Str) :=
  if p.length < lit.length then return none
  else do
    look lit.length
    if p.take lit.length = lit then return some (p.drop lit.length) else return none

/-- `detail/parse.hpp:346-356` -/
def n_octetLoop : Str → Nat → Counted (Option Nat × Str)
  | [], v => return (some v, [])
  | c :: t, v => do
    look
    if digitOf c ≥ 10 then return (some v, c :: t)
    else
      if 10 * v + digitOf c > 255 then return (none, t)
      else n_octetLoop t (10 * v + digitOf c)

/-- `detail/parse.hpp:328-358` -/
def n_match_octet (p : Str) : Counted (Option Nat × Str) :=
  match p with
  | [] => return (none, p)
  | c :: t => do
    look
    if digitOf c ≥ 10 then return (none, p)
    else if digitOf c = 0 then return (some 0, t)
    else n_octetLoop t (digitOf c)

/-- an octet and the dot after it, `detail/parse.hpp:363-368`: the rest behind the dot, or where the scan stopped -/
def n_octet_dot (p : Str) : Counted (Bool × Str) := do
  let r ← n_match_octet p
  match r with
  | (none, p) => return (false, p)
  | (some _, []) => return (false, [])
  | (some _, c :: t) =>
    look
    if c != c!"." then return (false, c :: t) else return (true, t)

/-- `detail/parse.hpp:360-385` -/
def n_match_ip_v4 (p : Str) : Counted (Bool × Str) := do
  let a ← n_octet_dot p
  if !a.1 then return a
  let b ← n_octet_dot a.2
  if !b.1 then return b
  let c ← n_octet_dot b.2
  if !c.1 then return c
  let d ← n_match_octet c.2
  match d with
  | (none, p) => return (false, p)
  | (some _, p) => return (true, p)

/-- `detail/parse.hpp:402-427` -/
def n_wordLoop : Nat → Str → Nat → Counted (Nat × Str)
  | 0, p, v => return (v, p)
  | _ + 1, [], v => return (v, [])
  | k + 1, c :: t, v => do
    look
    if notHex c then return (v, c :: t) else n_wordLoop k t (16 * v + hex_digit c)

/-- `detail/parse.hpp:387-430` -/
def n_parse_word (c : Byte) (t : Str) : Counted (Option Nat × Str) := do
  look
  if notHex c then return (none, c :: t)
  else
    let r ← n_wordLoop 3 t (hex_digit c)
    return (some r.1, r.2)

/-- `detail/parse.hpp:525-565` -/
def n_v6Tail (p : Str) : Counted V6 := do
  let a ← n_octet_dot p
  if !a.1 then return { p := a.2, err := true }
  let b ← n_octet_dot a.2
  if !b.1 then return { p := b.2, err := true }
  let c ← n_match_octet b.2
  match c with
  | (none, p) => return { p := p, err := true }
  | (some _, p) => return { p := p }

/-- `detail/parse.hpp:460-588` -/
def n_v6Loop : Nat → Str → Nat → Bool → Bool → Nat → Counted V6
  | 0, p, _, _, _, _ => return { p := p, flt := some .diverge }
  | fuel + 1, p, n, b, c, word =>
    match p with
    | [] =>
      if b then return { p := [] }
      else if n = 0 then return { p := [], flt := some .assert }
      else return { p := [], err := true }
    | x :: t => do
      look
      if x = c!":" then
        match t with
        | [] => return { p := [], err := true }
        | y :: u =>
          look
          if y = c!":" then
            if b then return { p := y :: u, err := true }
            else if n - 1 = 0 then return { p := u }
            else n_v6Loop fuel u (n - 1) true false word
          else if c then
            let w ← n_parse_word y u
            match w with
            | (none, q) => return { p := q, err := true }
            | (some w, q) =>
              if n - 1 = 0 then return { p := q }
              else n_v6Loop fuel q (n - 1) b c w
          else return { p := y :: u, err := true }
      else
        look
        if x = c!"." then
          if !b && decide (n > 1) then return { p := x :: t, err := true }
          else if !maybe_octet word then return { p := x :: t, err := true }
          else n_v6Tail t
        else
          look (if b then 1 else 0)
          if b && notHex x then return { p := x :: t }
          else if !c then
            let w ← n_parse_word x t
            match w with
            | (none, q) => return { p := q, err := true }
            | (some w, q) =>
              if n - 1 = 0 then return { p := q }
              else n_v6Loop fuel q (n - 1) b true w
          else return { p := x :: t, err := true }

/-- `detail/parse.hpp:447-589` -/
def n_parse_ip_v6 (p : Str) : Counted V6 :=
  match p with
  | [] => return { p := [], err := true }
  | _ :: _ => n_v6Loop (p.length + 1) p 8 false false 0

/-- `detail/parse.hpp:267-298` -/
def n_parse_ip_literal (ps : PS) : Counted PS :=
  match ps.p with
  | [] => return { ps with ec := some .no_match }
  | c :: t => do
    look
    if c != c!"[" then return { ps with ec := some .no_match }
    else
      let r ← n_parse_ip_v6 t
      let ps := { ps with p := r.p, flt := ps.flt <|> r.flt,
                          ec := if r.err then some .syntax else ps.ec }
      if ps.ec.isSome then return ps
      else
        match ps.p with
        | [] => return { ps with ec := some .syntax }
        | d :: u =>
          look
          if d != c!"]" then return { ps with ec := some .syntax }
          else return { ps with p := u, pt := { ps.pt with host := .ipv6 } }

/-- `detail/parse.hpp:300-326` -/
def n_parse_ipv4_or_domain (ps : PS) : Counted PS := do
  let p0 := ps.p
  let r ← n_match_ip_v4 ps.p
  match r with
  | (true, p1) =>
    let ps := { ps with p := p1, pt := { ps.pt with host := .ipv4 } }
    let ps ← ps.n_pct reg_name_pct_set ps.p
    if ps.ec.isSome then return ps
    else if ps.p.length ≠ p1.length then return { ps with pt := { ps.pt with host := .name } }
    else return ps
  | (false, p1) =>
    let ps := { ps with p := p1 }
    let ps ← ps.n_pct reg_name_pct_set ps.p
    if ps.ec.isSome then return ps
    else if ps.p.length ≠ p0.length then return { ps with pt := { ps.pt with host := .name } }
    else return ps

/-- `detail/parse.hpp:249-265` -/
def n_parse_hostname (ps : PS) : Counted PS := do
  let ps ← n_parse_ip_literal ps
  if ps.ec.isSome then
    if ps.ec ≠ some .no_match then return ps
    else
      let ps ← n_parse_ipv4_or_domain { ps with ec := none }
      if ps.ec.isSome then return ps else return ps.mark id_host
  else return ps.mark id_host

/-- `detail/parse.hpp:592-603` -/
def n_skipDigits : Str → Counted Str
  | [] => return []
  | c :: t => do
    look
    if digitOf c > 9 then return c :: t else n_skipDigits t

/-- `detail/parse.hpp:231-247` -/
def n_parse_host (ps : PS) : Counted PS := do
  let ps ← n_parse_hostname ps
  if ps.ec.isSome then return ps
  else
    match ps.p with
    | [] => return ps
    | c :: t =>
      look
      if c != c!":" then return ps
      else
        let q ← n_skipDigits t
        return ({ ps with p := q } : PS).mark id_port

/-- `detail/parse.hpp:212-229` -/
def n_parse_userinfo (ps : PS) : Counted PS := do
  let ps ← ps.n_pct userinfo_nc_pct_set ps.p
  if ps.ec.isSome then return ps
  else
    let ps := ps.mark id_user
    let ps ← ps.n_pct userinfo_pct_set ps.p
    if ps.ec.isSome then return ps else return ps.mark id_password

/-- `detail/parse.hpp:181-210` -/
def n_parse_authority (ps : PS) : Counted PS := do
  let p0 := ps.p
  let ps ← n_parse_userinfo ps
  if ps.ec = some .no_match then n_parse_host { ps with ec := none }
  else if ps.ec.isSome then return ps
  else
    let m ← n_match_literal b!"@" ps.p
    match m with
    | some q => n_parse_host (({ ps with p := q } : PS).mark id_password)
    | none =>
      let ps := ({ ps with p := p0 } : PS)
      n_parse_host ((ps.mark id_user).mark id_password)

/-- `detail/parse.hpp:616-625`, `663-672`, `697-706`, `729-738` -/
def n_pathLoop (e : PctSet) : Nat → PS → Counted PS
  | 0, ps => return { ps with flt := some .diverge }
  | fuel + 1, ps =>
    match ps.p with
    | [] => return ps
    | c :: t => do
      look
      if c != c!"/" then return ps
      else
        let ps ← ps.n_pct e t
        if ps.ec.isSome then return ps
        else n_pathLoop e fuel { ps with pt := { ps.pt with nseg := ps.pt.nseg + 1 } }

/-- the loop and `mark(pt, id_path)` -/
def n_pathLoopMark (ps : PS) : Counted PS := do
  let ps ← n_pathLoop pchar_pct_set (ps.p.length + 1) ps
  if ps.ec.isSome then return ps else return ps.mark id_path

/-- `detail/parse.hpp:629-675` -/
def n_parse_path_absolute (ps : PS) : Counted PS :=
  match ps.p with
  | [] => return { ps with ec := some .no_match }
  | c :: t => do
    look
    if c != c!"/" then return { ps with ec := some .no_match }
    else
      let ps := { ps with pt := { ps.pt with nseg := ps.pt.nseg + 1 }, p := t }
      match t with
      | [] => return ps.mark id_path
      | d :: u =>
        look
        if d = c!"/" then return { ps with ec := some .invalid }
        else
          let ps ← ps.n_pct pchar_pct_set u
          if ps.ec.isSome then return ps else n_pathLoopMark ps

/-- `detail/parse.hpp:677-708` and `detail/parse.hpp:710-740`, with the set for the first segment -/
def n_parse_path_first (e : PctSet) (ps : PS) : Counted PS := do
  let p0 := ps.p
  let ps ← ps.n_pct e p0
  if ps.ec.isSome then return ps
  else if ps.p.length = p0.length then return { ps with ec := some .no_match }
  else n_pathLoopMark { ps with pt := { ps.pt with nseg := ps.pt.nseg + 1 } }

/-- `detail/parse.hpp:111-143` and `detail/parse.hpp:145-177` -/
def n_parse_part (e : PctSet) (ps : PS) : Counted PS := do
  let m ← n_match_literal b!"//" ps.p
  match m with
  | some q =>
    let ps ← n_parse_authority { ps with p := q }
    if ps.ec.isSome then return ps else n_pathLoopMark ps
  | none =>
    let ps ← n_parse_path_absolute ps
    if ps.ec ≠ some .no_match then return ps
    else
      let ps ← n_parse_path_first e { ps with ec := none }
      if ps.ec ≠ some .no_match then return ps else return { ps with ec := none }

/-- `detail/parse.hpp:761-787` -/
def n_queryLoop : Nat → PS → Nat → Counted PS
  | 0, ps, _ => return { ps with flt := some .diverge }
  | fuel + 1, ps, n => do
    let finish (ps : PS) : PS :=
      let ps := ps.mark id_query
      { ps with pt := { ps.pt with nparam := n + 1 } }
    let ps ← ps.n_pct qkey_pct_set ps.p
    if ps.ec.isSome then return ps
    else
      match ps.p with
      | [] => return finish ps
      | c :: t =>
        look
        if c != c!"=" then return finish ps
        else
          let ps := { ps with p := t }
          match t with
          | [] => return finish ps
          | _ :: _ =>
            let ps ← ps.n_pct qval_pct_set t
            if ps.ec.isSome then return ps
            else
              match ps.p with
              | [] => return finish ps
              | d :: u =>
                look
                if d != c!"&" then return finish ps
                else n_queryLoop fuel { ps with p := u } (n + 1)

/-- `detail/parse.hpp:748-788` -/
def n_parse_query (ps : PS) : Counted PS :=
  match ps.p with
  | [] => return ps
  | c :: _ => do
    look
    if c != c!"?" then return ps else n_queryLoop (ps.p.length + 1) ps 0

/-- `detail/parse.hpp:796-813` -/
def n_parse_fragment (ps : PS) : Counted PS :=
  match ps.p with
  | [] => return ps
  | c :: t => do
    look
    if c != c!"#" then return ps
    else
      let ps ← ps.n_pct frag_pct_set t
      if ps.ec.isSome then return ps else return ps.mark id_frag

/-- `detail/parse.hpp:860-869` -/
def n_parse_url_tail (ps : PS) : Counted PS := do
  let ps ← n_parse_query ps
  if ps.ec.isSome then return ps
  else
    let ps ← n_parse_fragment ps
    if ps.ec.isSome then return ps
    else if ps.done then return ps else return { ps with ec := some .syntax }

/-- `detail/parse.hpp:832-870` `parse_url` -/
def n_parse_url (s : Str) : Counted PS := do
  let ps := PS.init s
  let m ← n_match_scheme ps.p
  match m with
  | (true, q) =>
    let l ← n_match_literal b!":" q
    match l with
    | some q =>
      let ps := ({ ps with p := q } : PS).mark id_scheme
      let ps ← n_parse_part pchar_pct_set ps
      n_parse_url_tail ps
    | none =>
      let ps ← n_parse_part pchar_nc_pct_set ps
      if ps.ec.isSome then return ps else n_parse_url_tail ps
  | (false, _) =>
    let ps ← n_parse_part pchar_nc_pct_set ps
    if ps.ec.isSome then return ps else n_parse_url_tail ps

end Url
