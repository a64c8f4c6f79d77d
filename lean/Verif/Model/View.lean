import Verif.Model.Memory
import Verif.Model.Parse

/-!
Model of the accessors of `url_view` and `url_base`. Both classes have the members `s_` and `pt_`,
and most accessors are textually the same function; those are one definition here that cites both
places. Accessors that differ have the prefix `View.` or `Base.`.
-/

namespace Url

/-- The exceptions the library throws, and `std::bad_alloc`. -/
inductive Exc where
  | invalid_part | out_of_range | too_large | bad_alloc
  deriving DecidableEq, Repr

/-- The outcome of a call that returns a value, throws, or faults. -/
inductive Res (α : Type) where
  | ret (a : α)
  | throw (e : Exc)
  | fault (f : Flt)
  deriving DecidableEq, Repr

/-- A `url_view`: the text it was constructed from and the offset table. -/
structure View where
  s : Str
  pt : Parts

/-- `impl/url_view.ipp:20-29`, `url_view(string_view)`; `none` is `invalid_part::raise()`. -/
def View.make (s : Str) : Res View :=
  let ps := parse_url s
  match ps.flt with
  | some f => .fault f
  | none => if ps.ec.isSome then .throw .invalid_part else .ret { s := s, pt := ps.pt }

/-- what the accessors of a `url_view` see -/
def View.obj (dbg : Bool) (v : View) : Obj := { dbg := dbg, pt := v.pt, mem := v.s.map some }

/-- `url_view.hpp:48-53`, `url_base.hpp:100-105` -/
def size (o : Obj) : Nat := o.pt.off id_end

/-- `impl/url_view.ipp:31-39`, `impl/url_base.ipp:41-49` -/
def encoded_url (o : Obj) : R Str := o.get2 id_scheme id_end

/-- `impl/url_view.ipp:41-49`, `impl/url_base.ipp:51-59` -/
def encoded_origin (o : Obj) : R Str := o.get2 id_scheme id_path

/-- `impl/url_view.ipp:57-69`, `impl/url_base.ipp:135-147` -/
def scheme (o : Obj) : R Str := do
  let s ← o.get id_scheme
  if s.isEmpty then return s
  o.assert (backIs s c!":")
  removeSuffix s 1

/-- `impl/url_view.ipp:77-84`, `impl/url_base.ipp:176-183` -/
def has_authority (o : Obj) : Bool := o.pt.length2 id_user id_path != 0

/-- `impl/url_view.ipp:86-102`, `impl/url_base.ipp:185-201` -/
def encoded_authority (o : Obj) : R Str := do
  let s ← o.get2 id_user id_path
  if !s.isEmpty then
    o.assert (.ok (s.length ≥ 2))
    o.assert (.ok (s.take 2 = b!"//"))
    removePrefix s 2
  else return s

/-- The common body of the two `has_userinfo`; `e` is the end of the range in the first assertion. -/
def hasUserinfoTo (e : Nat) (o : Obj) : R Bool := do
  if o.pt.length id_user = 0 then
    o.assert (.ok (o.pt.length2 id_user e = 0))
    return false
  else
    o.assert (do let s ← o.get id_user; return s.take 2 = b!"//")
    if o.pt.length id_user > 2 then return true
    else if o.pt.length id_password > 0 then
      o.assert (do backIs (← o.get id_password) c!"@")
      return true
    else return false

/-- `impl/url_view.ipp:110-137` -/
def View.has_userinfo (o : Obj) : R Bool := hasUserinfoTo id_host o

/-- `impl/url_base.ipp:247-279` -/
def Base.has_userinfo (o : Obj) : R Bool := hasUserinfoTo id_path o

/-- `impl/url_view.ipp:140-158` -/
def View.encoded_userinfo (o : Obj) : R Str := do
  let s ← o.get2 id_user id_host
  if s.isEmpty then return s
  o.assert (.ok (s.length ≥ 2))
  o.assert (.ok (s.take 2 = b!"//"))
  let s ← removePrefix s 2
  if s.isEmpty then return s
  o.assert (backIs s c!"@")
  removeSuffix s 1

/-- `impl/url_view.ipp:160-178`, `impl/url_base.ipp:295-312` -/
def userinfo_part (o : Obj) : R Str := do
  let s ← o.get2 id_user id_host
  if s.isEmpty then return s
  o.assert (.ok (s.length ≥ 2))
  o.assert (.ok (s.take 2 = b!"//"))
  let s ← removePrefix s 2
  if s.isEmpty then return s
  o.assert (backIs s c!"@")
  return s

/-- `impl/url_base.ipp:281-292` -/
def Base.encoded_userinfo (o : Obj) : R Str := do
  let s ← userinfo_part o
  if !s.isEmpty then
    o.assert (backIs s c!"@")
    removeSuffix s 1
  else return s

/-- `impl/url_view.ipp:180-195`, `impl/url_base.ipp:369-384` -/
def encoded_user (o : Obj) : R Str := do
  let s ← o.get id_user
  if !s.isEmpty then
    o.assert (.ok (s.length ≥ 2))
    o.assert (.ok (s.take 2 = b!"//"))
    removePrefix s 2
  else return s

/-- `url_view.hpp:186-195`, `url_base.hpp:453-462` -/
def user (o : Obj) : R Str := do decodeR (← encoded_user o)

/-- `impl/url_view.ipp:197-217` -/
def View.encoded_password (o : Obj) : R Str := do
  let s ← o.get id_password
  match s.length with
  | 1 =>
    o.assert (frontIs s c!"@")
    return []
  | 0 => return []
  | _ =>
    o.assert (backIs s c!"@")
    let s ← removeSuffix s 1
    if ← frontIs s c!":" then removePrefix s 1 else return s

/-- `impl/url_base.ipp:484-502` -/
def Base.encoded_password (o : Obj) : R Str := do
  let s ← o.get id_password
  if !s.isEmpty then
    let s ← (if ← frontIs s c!":" then do
        o.assert (.ok (s.length ≥ 2))
        removePrefix s 1
      else pure s)
    o.assert (backIs s c!"@")
    removeSuffix s 1
  else return s

/-- `url_view.hpp:216-225` -/
def View.password (o : Obj) : R Str := do decodeR (← View.encoded_password o)
/-- `url_base.hpp:558-567` -/
def Base.password (o : Obj) : R Str := do decodeR (← Base.encoded_password o)

/-- `impl/url_base.ipp:504-516` -/
def password_part (o : Obj) : R Str := do
  let s ← o.get id_password
  if !s.isEmpty then
    o.assert (frontIs s c!"@")
    removeSuffix s 1
  else return s

/-- `url_view.hpp:245-249`, `url_base.hpp:715-719` -/
def host_type (o : Obj) : HostType := o.pt.host

/-- `impl/url_view.ipp:225-233`, `impl/url_base.ipp:652-660` -/
def encoded_host_and_port (o : Obj) : R Str := o.get2 id_host id_path

/-- `impl/url_view.ipp:235-242`, `impl/url_base.ipp:662-669` -/
def encoded_host (o : Obj) : R Str := o.get id_host

/-- `url_view.hpp:286-302`, `url_base.hpp:756-772` -/
def host (o : Obj) : R Str :=
  if o.pt.host ≠ .name then o.get id_host
  else do decodeR (← encoded_host o)

/-- `impl/url_view.ipp:244-255`, `impl/url_base.ipp:790-802` -/
def port (o : Obj) : R Str := do
  let s ← o.get id_port
  o.assert (if s.isEmpty then .ok true else frontIs s c!":")
  if !s.isEmpty then removePrefix s 1 else return s

/-- `impl/url_view.ipp:257-266`, `impl/url_base.ipp:804-814` -/
def port_part (o : Obj) : R Str := do
  let s ← o.get id_port
  o.assert (if s.isEmpty then .ok true else frontIs s c!":")
  return s

/-- `impl/url_view.ipp:274-281`, `impl/url_base.ipp:902-909` -/
def encoded_path (o : Obj) : R Str := o.get id_path

/-- The common body of the query and fragment accessors. -/
def delimited (o : Obj) (id : Nat) (c : Byte) : R Str := do
  let s ← o.get id
  if s.isEmpty then return s
  o.assert (frontIs s c)
  return s

/-- `impl/url_view.ipp:289-300`, `impl/url_base.ipp:956-967` -/
def encoded_query (o : Obj) : R Str := do return (← delimited o id_query c!"?").drop 1
/-- `impl/url_view.ipp:302-313`, `impl/url_base.ipp:969-980` -/
def query_part (o : Obj) : R Str := delimited o id_query c!"?"
/-- `url_view.hpp:404-413`, `url_base.hpp:1181-1190` -/
def query (o : Obj) : R Str := do decodeR (← encoded_query o)

/-- `impl/url_view.ipp:321-332`, `impl/url_base.ipp:1055-1066` -/
def encoded_fragment (o : Obj) : R Str := do return (← delimited o id_frag c!"#").drop 1
/-- `impl/url_view.ipp:334-345`, `impl/url_base.ipp:1068-1079` -/
def fragment_part (o : Obj) : R Str := delimited o id_frag c!"#"
/-- `url_view.hpp:519-528`, `url_base.hpp:1421-1430` -/
def fragment (o : Obj) : R Str := do decodeR (← encoded_fragment o)

end Url
