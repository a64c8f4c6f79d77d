import Verif.Proofs.Percent
import Verif.Proofs.Port

/-!
Properties of the escaping layer: C09 - C13, and the formatter of C29.

`LibSet e ok` lists the character sets of the library (`e`, a table) with the alphabets they are meant
to describe (`ok`, from the RFC grammar).
-/

namespace Url.Props
open Url Spec

/-- The characters of a query key: `query` without `=`. -/
def keyChar (c : Byte) : Bool := isQueryFrag c && c != c!"="
/-- The characters of a query value: `query` without `&`. -/
def valueChar (c : Byte) : Bool := isQueryFrag c && c != c!"&"

/-- The character sets of the library. -/
inductive LibSet : PctSet → (Byte → Bool) → Prop
  | reg_name : LibSet reg_name_pct_set isRegName
  | userinfo : LibSet userinfo_pct_set isUserinfo
  | userinfo_nc : LibSet userinfo_nc_pct_set isRegName
  | pchar : LibSet pchar_pct_set isPchar
  | pchar_nc : LibSet pchar_nc_pct_set isPcharNc
  | frag : LibSet frag_pct_set isQueryFrag
  | query : LibSet query_pct_set isQueryFrag
  | qkey : LibSet qkey_pct_set keyChar
  | qval : LibSet qval_pct_set valueChar

theorem LibSet.setOf {e ok} (h : LibSet e ok) : SetOf e ok := by
  cases h
  · exact setOf_regName
  · exact setOf_userinfo
  · exact setOf_userinfo_nc
  · exact setOf_pchar
  · exact setOf_pchar_nc
  · exact setOf_frag
  · exact setOf_query
  · exact setOf_qkey
  · exact setOf_qval

/-! ### C09 -/

/-- C09: decoding the encoding of any plain string returns it. -/
theorem C09_decode_encode {e ok} (h : LibSet e ok) (s : Str) : decode (e.encode s) = some s := by
  rw [decode_eq]; exact decodeRaw_encode h.setOf s

/-- C09, against the specification of decoding. -/
theorem C09_decoded_encode {e ok} (h : LibSet e ok) (s : Str) : Decoded (e.encode s) s :=
  (decode_iff h.setOf.pct (encode_escaped h.setOf s)).1 (C09_decode_encode h s)

/-- C09: encoding is injective. -/
theorem C09_encode_injective {e ok} (h : LibSet e ok) (s t : Str) (hst : e.encode s = e.encode t) : s = t := by
  have h1 := C09_decode_encode h s
  rw [hst, C09_decode_encode h t] at h1
  exact (Option.some.inj h1).symm

example : reg_name_pct_set.encode b!"a b/%" = b!"a%20b%2F%25" := by decide +kernel

/-! ### C10 -/

/-- C10: the encoder keeps permitted characters and writes every other byte as one upper-case escape;
the result passes the validator of the set. -/
theorem C10_encode {e ok} (h : LibSet e ok) (s : Str) :
    e.encode s = pctEncode ok s ∧ Escaped isUpperHex ok (e.encode s) ∧ e.check (e.encode s) = true :=
  ⟨encode_eq h.setOf s, encode_escaped h.setOf s, (check_iff h.setOf _).2 (encode_escaped h.setOf s)⟩

/-- C10: text that needs no escape is left alone. -/
theorem C10_encode_id {e ok} (h : LibSet e ok) {s : Str} (hs : s.all ok) : e.encode s = s := by
  rw [(C10_encode h s).1]
  unfold pctEncode
  induction s with
  | nil => rfl
  | cons c t ih =>
    simp only [List.all_cons, Bool.and_eq_true] at hs
    rw [List.flatMap_cons, ih hs.2, if_pos hs.1]; rfl

example : LibSet qkey_pct_set keyChar ∧ b!"a/b?c&d".all keyChar ∧ qkey_pct_set.encode b!"a=b" = b!"a%3Db" :=
  ⟨.qkey, by decide, by decide +kernel⟩

/-! ### C11 -/

/-- C11: `encoded_size` is the number of bytes `encode` writes. -/
theorem C11_encoded_size {e ok} (h : LibSet e ok) (s : Str) : e.encoded_size s = (e.encode s).length :=
  encoded_size_eq h.setOf s

/-- C11: on every string that passes a validator, `decoded_size`, `raw_decoded_size` and the number of
bytes `decode` writes agree, and `decode` stays inside its source and destination. -/
theorem C11_decoded_size {e ok} (h : LibSet e ok) (s : Str) (hs : e.check s = true) :
    ∃ n d, e.decoded_size s none = (n, none) ∧ raw_decoded_size s = some n ∧ decode s = some d ∧
      decodeRaw s = some d ∧ d.length = n := by
  obtain ⟨d, hd⟩ := decodeRaw_escaped h.setOf.pct ((check_iff h.setOf s).1 hs)
  have hc : (e.decoded_size s none).2 = none := by
    unfold PctSet.check at hs
    simpa using hs
  have h1 := decoded_size_eq hc
  have h2 := raw_decoded_size_eq s
  rw [hd] at h2
  refine ⟨(e.decoded_size s none).1, d, Prod.ext rfl hc, h1, by rw [decode_eq, hd], hd, ?_⟩
  rw [h1] at h2
  simpa using h2.symm

example : userinfo_pct_set.check b!"a%20:%FF" = true ∧ decode b!"a%20:%FF" = some [97, 32, 58, 255] := by
  decide +kernel

/-- C11, C29: the port formatter writes inside its 10-byte buffer for every `unsigned` value, and its
result is the decimal representation. -/
theorem C29_port_string (n : UInt32) : ∃ s, port_string n = .ok s ∧ Decimal n.toNat s ∧ s.length ≤ 10 :=
  port_string_of n

example : port_string 4294967295 = .ok b!"4294967295" ∧ port_string 0 = .ok b!"0" := by decide +kernel

/-! ### C12 -/

/-- C12: the validator accepts exactly the strings over the alphabet and well formed escapes. -/
theorem C12_check_iff {e ok} (h : LibSet e ok) (s : Str) : e.check s = true ↔ Escaped isUpperHex ok s :=
  check_iff h.setOf s

/-- `t` starts with two hex digits -/
def TwoHex (t : Str) : Prop := ∃ a b u, t = a :: b :: u ∧ isUpperHex a ∧ isUpperHex b

theorem pct_parse_full {e ok} (he : SetOf e ok) (s : Str) :
    ∃ x r er, e.parse s none = (r, er) ∧ s = x ++ r ∧ Escaped isUpperHex ok x ∧
      ((er = none ∧ ∀ c t, r = c :: t → c ≠ c!"%" ∧ ok c = false) ∨
       (er ≠ none ∧ ∃ t, r = c!"%" :: t ∧ ¬ TwoHex t)) := by
  match s with
  | [] => exact ⟨[], [], none, rfl, rfl, .nil, .inl ⟨rfl, by simp⟩⟩
  | c :: t =>
    unfold PctSet.parse
    by_cases hc : c = c!"%"
    · subst hc
      simp only [beq_self_eq_true, if_true]
      cases hce : check_escape t none with
      | some er =>
        refine ⟨[], c!"%" :: t, some er, rfl, rfl, .nil, .inr ⟨by simp, t, rfl, ?_⟩⟩
        intro h2
        have := check_escape_none.2 h2
        rw [hce] at this
        simp at this
      | none =>
        obtain ⟨a, b, u, rfl, ha, hb⟩ := check_escape_none.1 hce
        obtain ⟨x, r, er, h1, h2, h3, h4⟩ := pct_parse_full he u
        exact ⟨c!"%" :: a :: b :: x, r, er, h1, by simp [h2], .pct ha hb h3, h4⟩
    · simp only [beq_iff_eq, hc, if_false]
      cases ho : ok c with
      | false =>
        simp only [he.special, ho, Bool.not_false, if_true]
        refine ⟨[], c :: t, none, rfl, rfl, .nil, .inl ⟨rfl, ?_⟩⟩
        rintro c' t' e'
        cases e'
        exact ⟨hc, ho⟩
      | true =>
        simp only [he.special, ho, Bool.not_true]
        obtain ⟨x, r, er, h1, h2, h3, h4⟩ := pct_parse_full he t
        exact ⟨c :: x, r, er, by simpa using h1, by simp [h2], .char ho h3, h4⟩
termination_by s.length

/-- C12: the scanner consumes escaped text and stops, without error at the first byte that is neither
permitted nor `%`, or with an error at the first `%` that does not start an escape. -/
theorem C12_parse {e ok} (h : LibSet e ok) (s : Str) :
    ∃ x r er, e.parse s none = (r, er) ∧ s = x ++ r ∧ Escaped isUpperHex ok x ∧
      ((er = none ∧ ∀ c t, r = c :: t → c ≠ c!"%" ∧ ok c = false) ∨
       (er ≠ none ∧ ∃ t, r = c!"%" :: t ∧ ¬ TwoHex t)) :=
  pct_parse_full h.setOf s

example : pchar_pct_set.parse b!"a%20/b" none = (b!"/b", none) ∧
    (pchar_pct_set.parse b!"ab%2" none).1 = b!"%2" ∧ (pchar_pct_set.parse b!"ab%2" none).2 ≠ none ∧
    pchar_pct_set.check b!"%2f" = false := by decide +kernel

/-! ### C13 -/

/-- C13: comparing an escaped key with a plain string decides whether the key decodes to it, without a
fault. -/
theorem C13_key_equal {e ok} (h : LibSet e ok) {s : Str} (hs : e.check s = true) (m : Str) :
    ∃ b, key_equal s m = .ok b ∧ (b = true ↔ Decoded s m) := by
  have hx := (check_iff h.setOf s).1 hs
  refine ⟨_, key_equal_eq h.setOf.pct hx m, ?_⟩
  rw [decide_eq_true_iff, ← decode_eq]
  exact decode_iff h.setOf.pct hx

example : qkey_pct_set.check b!"a%20b" = true ∧ key_equal b!"a%20b" b!"a b" = .ok true ∧
    key_equal b!"a%20b" b!"a b " = .ok false := by decide +kernel

end Url.Props
