import Verif.Proofs.Pct
import Verif.Spec.Percent

/-!
The encoder and the decoder against the specification of percent-encoding.
-/

namespace Url
open Spec

theorem upper_isHex (c : Byte) (h : isUpperHex c = true) : isHex c = true := by
  unfold isUpperHex at h
  unfold isHex
  rw [h]; rfl

theorem hex_digit_eq (c : Byte) : isUpperHex c = true → hex_digit c = hexVal c ∧ hexVal c < 16 := by
  revert c; exact forall_byte (by decide +kernel)

theorem unescape_toNat {a b : Byte} (ha : isUpperHex a = true) (hb : isUpperHex b = true) :
    (unescape a b).toNat = 16 * hexVal a + hexVal b := by
  obtain ⟨h1, h2⟩ := hex_digit_eq a ha
  obtain ⟨h3, h4⟩ := hex_digit_eq b hb
  unfold unescape
  rw [h1, h3, UInt8.toNat_ofNat']
  omega

/-- A decoding is unique. -/
theorem Spec.Decoded.unique {s d d' : Str} (h : Decoded s d) (h' : Decoded s d') : d = d' := by
  induction h generalizing d' with
  | nil => cases h'; rfl
  | char hc _ ih =>
    cases h' with
    | char _ h => rw [ih h]
    | pct _ _ _ _ => exact absurd rfl hc
  | pct _ _ hx _ ih =>
    cases h' with
    | char hc _ => exact absurd rfl hc
    | pct _ _ hy h => rw [ih h, UInt8.toNat_inj.1 (hx.trans hy.symm)]

theorem decodeRaw_decoded {ok} (hok : ok c!"%" = false) {s : Str} (h : Escaped isUpperHex ok s) :
    ∃ d, decodeRaw s = some d ∧ Decoded s d := by
  induction h with
  | nil => exact ⟨[], rfl, .nil⟩
  | @char c s hc _ ih =>
    obtain ⟨d, h1, h2⟩ := ih
    have hne : c ≠ c!"%" := by rintro rfl; rw [hok] at hc; simp at hc
    refine ⟨c :: d, ?_, .char hne h2⟩
    unfold decodeRaw
    simp [hne, h1]
  | @pct a b s ha hb _ ih =>
    obtain ⟨d, h1, h2⟩ := ih
    refine ⟨unescape a b :: d, ?_, .pct (upper_isHex a ha) (upper_isHex b hb) (unescape_toNat ha hb) h2⟩
    unfold decodeRaw
    simp [h1]

/-- On escaped text the decoder computes the specified decoding. -/
theorem decode_iff {ok} (hok : ok c!"%" = false) {s d : Str} (h : Escaped isUpperHex ok s) :
    decode s = some d ↔ Decoded s d := by
  obtain ⟨d', h1, h2⟩ := decodeRaw_decoded hok h
  rw [decode_eq, h1]
  constructor
  · intro e; cases e; exact h2
  · intro e; rw [e.unique h2]

theorem encodeChar_eq (c : Byte) :
    encodeChar c = [c!"%", hexDigit (c.toNat / 16), hexDigit (c.toNat % 16)] := by
  revert c; exact forall_byte (by decide +kernel)

theorem encode_eq {e : PctSet} {ok : Byte → Bool} (he : SetOf e ok) (s : Str) : e.encode s = pctEncode ok s := by
  induction s with
  | nil => rfl
  | cons c t ih =>
    unfold PctSet.encode
    rw [he.special, ih]
    unfold pctEncode
    rw [List.flatMap_cons]
    cases h : ok c <;> simp [encodeChar_eq]

end Url
