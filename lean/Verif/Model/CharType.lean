import Verif.Model.Bytes
import Verif.Model.Tables

/-!
Model of `detail/char_type.hpp`.
-/

namespace Url

/-- Reading an element of a 256-entry `char` table at `static_cast<unsigned char>(c)`. -/
def tabAt (t : List Nat) (c : Byte) : Nat := t.getD c.toNat 0

/-- `detail/char_type.hpp:21-30` `to_lower`. The result of `'a' + c` is converted to `char`
(mod 256). The function is not called by the library. -/
def to_lower (c : Byte) : Byte :=
  if (c - 65).toNat > 25 then c else c!"a" + c

/-- `detail/char_type.hpp:32-49` `is_alpha` -/
def is_alpha (c : Byte) : Bool :=
  if c.toNat > 122 then false
  else if c.toNat ≥ 97 then true
  else if c.toNat > 90 then false
  else if c.toNat ≥ 65 then true
  else false

/-- `detail/char_type.hpp:51-74` `hex_digit`. The C++ result is a `char`; `-1` is the table
value `0xff` because `char` is signed on the modelled platform. Here the unsigned table value. -/
def hex_digit (c : Byte) : Nat := tabAt Tables.hexDigitTab c

/-- the comparison `hex_digit(c) == -1` (signed `char`) -/
def notHex (c : Byte) : Bool := hex_digit c == 255

/-- `detail/char_type.hpp:76-93` `is_scheme_char` -/
def is_scheme_char (c : Byte) : Bool := tabAt Tables.schemeCharTab c != 0

/-- `detail/char_type.hpp:97-129` `class pct_encoding`: a pointer to a table. -/
structure PctSet where
  tab : List Nat

namespace PctSet

/-- `detail/char_type.hpp:101-106` `needed` -/
def needed (e : PctSet) (c : Byte) : Nat := tabAt e.tab c

/-- `detail/char_type.hpp:131-136` `is_special` -/
def is_special (e : PctSet) (c : Byte) : Bool := tabAt e.tab c == 3

end PctSet

/-- `detail/char_type.hpp:111-112`, `hex[]` -/
def hexChars : List Byte := b!"0123456789ABCDEF"

/-- `detail/char_type.hpp:108-118`, the three bytes written by `encode(dest, c)` -/
def encodeChar (c : Byte) : Str :=
  [c!"%", hexChars.getD (c.toNat / 16) 0, hexChars.getD (c.toNat % 16) 0]

/-- `detail/char_type.hpp:138-155` `check_escape(p, end, ec)`; the argument is `[p, end)`,
`ec` is passed through when nothing is wrong. -/
def check_escape (p : Str) (ec : Option Err) : Option Err :=
  match p with
  | a :: b :: _ =>
    if notHex a || notHex b then some .bad_pct_encoding_digit else ec
  | _ => some .incomplete_pct_encoding

namespace PctSet

/-- `detail/char_type.hpp:157-186` `decoded_size`: the pair of the returned count and `ec`.
The last arm of the inner match cannot be reached (`check_escape` fails on short input). -/
def decoded_size (e : PctSet) : Str → Option Err → Nat × Option Err
  | [], ec => (0, ec)
  | c :: t, ec =>
    if c != c!"%" then
      if e.is_special c then (0, some .illegal_reserved_char)
      else
        let r := decoded_size e t ec
        (r.1 + 1, r.2)
    else
      match check_escape t ec, t with
      | some er, _ => (0, some er)
      | none, _ :: _ :: u =>
        let r := decoded_size e u none
        (r.1 + 1, r.2)
      | none, _ => (0, none)

/-- `detail/char_type.hpp:188-194` `check` -/
def check (e : PctSet) (s : Str) : Bool := (e.decoded_size s none).2.isNone

/-- `detail/char_type.hpp:204-227` `parse(begin, end, ec)`: the argument is `[begin, end)`, the
result the pair of `[p, end)` for the returned `p`, and `ec`. The last arm of the inner match
cannot be reached (`check_escape` fails on short input). -/
def parse (e : PctSet) : Str → Option Err → Str × Option Err
  | [], ec => ([], ec)
  | c :: t, ec =>
    if c == c!"%" then
      match check_escape t ec, t with
      | some er, _ => (c :: t, some er)
      | none, _ :: _ :: u => parse e u none
      | none, _ => (c :: t, none)
    else if e.is_special c then (c :: t, ec)
    else parse e t ec

/-- `detail/char_type.hpp:279-289` `encoded_size` -/
def encoded_size (e : PctSet) : Str → Nat
  | [] => 0
  | c :: t => e.needed c + encoded_size e t

/-- `detail/char_type.hpp:291-312` `encode(dest, s)`: the bytes written to `dest`. -/
def encode (e : PctSet) : Str → Str
  | [] => []
  | c :: t => if e.is_special c then encodeChar c ++ encode e t else c :: encode e t

end PctSet

/-- `detail/char_type.hpp:229-251` `raw_decoded_size`. Advancing `p` by 3 past the end of the
string is undefined; `none` is that outcome. -/
def raw_decoded_size : Str → Option Nat
  | [] => some 0
  | c :: t =>
    if c != c!"%" then (raw_decoded_size t).map (· + 1)
    else
      match t with
      | _ :: _ :: u => (raw_decoded_size u).map (· + 1)
      | _ => none

/-- The value `(hex_digit(a) << 4) + hex_digit(b)` converted to `char`. -/
def unescape (a b : Byte) : Byte := UInt8.ofNat (hex_digit a * 16 + hex_digit b)

/-- `detail/char_type.hpp:253-277` `decode(dest, s)`: the bytes written to `dest`. Reading
`p[1]` or `p[2]` beyond the end of `s` is undefined; `none` is that outcome. -/
def decodeRaw : Str → Option Str
  | [] => some []
  | c :: t =>
    if c != c!"%" then (decodeRaw t).map (c :: ·)
    else
      match t with
      | a :: b :: u => (decodeRaw u).map (unescape a b :: ·)
      | _ => none

/-- `detail/char_type.hpp:458-470` `decode(sv, a)`: the string is resized to
`raw_decoded_size(sv)` and `pct_encoding::decode` writes into it. `none` is undefined
behaviour: an out-of-range read, or writing a number of bytes different from the size. -/
def decode (sv : Str) : Option Str :=
  match raw_decoded_size sv, decodeRaw sv with
  | some n, some d => if d.length ≤ n then some (d ++ List.replicate (n - d.length) 0) else none
  | _, _ => none

/-- The loop of `key_equal`, `detail/char_type.hpp:485-507`. -/
def keyEqualLoop : Str → Str → Except Flt Bool
  | [], m => .ok m.isEmpty
  | _ :: _, [] => .ok false
  | c :: t, m :: ms =>
    if c != c!"%" then
      if c != m then .ok false else keyEqualLoop t ms
    else
      match t with
      | a :: b :: u => if unescape a b != m then .ok false else keyEqualLoop u ms
      | _ => .error .ub

/-- `detail/char_type.hpp:472-508` `key_equal`. A truncated escape is a failed assertion or an
out-of-range read depending on the build; both are the outcome `ub` here. -/
def key_equal (encoded mtch : Str) : Except Flt Bool :=
  if encoded.length < mtch.length then .ok false else keyEqualLoop encoded mtch

/-- `detail/char_type.hpp:317-333` -/
def reg_name_pct_set : PctSet := ⟨Tables.regNameTab⟩
/-- `detail/char_type.hpp:335-351` -/
def userinfo_pct_set : PctSet := ⟨Tables.userinfoTab⟩
/-- `detail/char_type.hpp:353-359` -/
def userinfo_nc_pct_set : PctSet := reg_name_pct_set
/-- `detail/char_type.hpp:361-377` -/
def pchar_pct_set : PctSet := ⟨Tables.pcharTab⟩
/-- `detail/char_type.hpp:379-395` -/
def pchar_nc_pct_set : PctSet := ⟨Tables.pcharNcTab⟩
/-- `detail/char_type.hpp:397-413` -/
def frag_pct_set : PctSet := ⟨Tables.fragTab⟩
/-- `detail/char_type.hpp:414-430` -/
def qkey_pct_set : PctSet := ⟨Tables.qkeyTab⟩
/-- `detail/char_type.hpp:432-448` -/
def qval_pct_set : PctSet := ⟨Tables.qvalTab⟩
/-- `detail/char_type.hpp:450-456` -/
def query_pct_set : PctSet := frag_pct_set

/-- The loop of `port_string::port_string(unsigned)`, `detail/char_type.hpp:519-535`. `buf` is the
array `buf_` (10 cells, `none` is an unwritten cell), `len` is `len_`, `fuel` bounds the loop.
The write to `buf_[N - len_]` is out of range when `len_ > N`: outcome `ub`. -/
def portStringLoop : Nat → List (Option Byte) → Nat → Nat → Except Flt (List (Option Byte) × Nat)
  | 0, _, _, _ => .error .diverge
  | fuel + 1, buf, len, n =>
    if 10 < len then .error .ub
    else
      let buf := buf.set (10 - len) (some (UInt8.ofNat (48 + n % 10)))
      if n / 10 = 0 then .ok (buf, len)
      else portStringLoop fuel buf (len + 1) (n / 10)

/-- `detail/char_type.hpp:512-552` `port_string(n).get()` for an `unsigned` (32-bit) `n`. Reading an
unwritten cell is `ub`. -/
def port_string (n : UInt32) : Except Flt Str :=
  match portStringLoop 33 (List.replicate 10 none) 1 n.toNat with
  | .error f => .error f
  | .ok (buf, len) =>
    match (buf.drop (10 - len)).mapM id with
    | some s => .ok s
    | none => .error .ub

end Url
