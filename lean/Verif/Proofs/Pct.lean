import Verif.Proofs.Bytes

/-!
Scanning, validating, encoding and decoding of escaped strings.
-/

namespace Url
open Spec

/-- The text `r` does not continue an escaped string over `ok`. -/
def Stop (ok : Byte → Bool) : Str → Prop
  | [] => True
  | c :: _ => c ≠ c!"%" ∧ ok c = false

theorem check_escape_none {t : Str} :
    check_escape t none = none ↔
      ∃ a b u, t = a :: b :: u ∧ isUpperHex a = true ∧ isUpperHex b = true := by
  match t with
  | [] => simp [check_escape]
  | [_] => simp [check_escape]
  | a :: b :: u =>
    simp only [check_escape, notHex_eq]
    constructor
    · intro h
      refine ⟨a, b, u, rfl, ?_⟩
      cases ha : isUpperHex a <;> cases hb : isUpperHex b <;> simp_all
    · rintro ⟨a', b', u', h, ha, hb⟩
      simp only [List.cons.injEq] at h
      obtain ⟨rfl, rfl, rfl⟩ := h
      simp [ha, hb]

theorem check_escape_ne_noMatch {t : Str} {ec} (h : ec ≠ some .no_match) :
    check_escape t ec ≠ some .no_match := by
  match t with
  | [] => simp [check_escape]
  | [_] => simp [check_escape]
  | a :: b :: u =>
    simp only [check_escape]
    split <;> simp_all

section
variable {e : PctSet} {ok : Byte → Bool} (he : SetOf e ok)
include he

theorem pct_parse_of {x r : Str} (hx : Escaped isUpperHex ok x) (hr : Stop ok r) :
    e.parse (x ++ r) none = (r, none) := by
  induction hx with
  | nil =>
    match r, hr with
    | [], _ => rfl
    | c :: t, h =>
      have h1 : c ≠ c!"%" := h.1
      simp only [List.nil_append]
      unfold PctSet.parse
      simp [h1, he.special, h.2]
  | @char c s hc _ ih =>
    have h1 : c ≠ c!"%" := by
      intro h; subst h; simp [he.pct] at hc
    simp only [List.cons_append]
    unfold PctSet.parse
    simp [h1, he.special, hc, ih]
  | @pct a b s ha hb _ ih =>
    simp only [List.cons_append]
    unfold PctSet.parse
    have : check_escape (a :: b :: (s ++ r)) none = none :=
      check_escape_none.2 ⟨a, b, _, rfl, ha, hb⟩
    simp [this, ih]

theorem pct_parse_inv {s r : Str} (h : e.parse s none = (r, none)) :
    ∃ x, s = x ++ r ∧ Escaped isUpperHex ok x ∧ Stop ok r := by
  match s with
  | [] =>
    simp only [PctSet.parse, Prod.mk.injEq] at h
    exact ⟨[], by simp [h.1], .nil, by rw [← h.1]; trivial⟩
  | c :: t =>
    unfold PctSet.parse at h
    by_cases hc : c = c!"%"
    · subst hc
      simp only [beq_self_eq_true, if_true] at h
      cases hce : check_escape t none with
      | some er => simp [hce] at h
      | none =>
        obtain ⟨a, b, u, rfl, ha, hb⟩ := check_escape_none.1 hce
        simp only [hce] at h
        obtain ⟨x, rfl, hx, hr⟩ := pct_parse_inv h
        exact ⟨_, by simp, .pct ha hb hx, hr⟩
    · simp only [beq_iff_eq, hc, if_false] at h
      cases ho : ok c with
      | false =>
        simp only [he.special, ho, Bool.not_false, if_true, Prod.mk.injEq] at h
        exact ⟨[], by simp [h.1], .nil, by rw [← h.1]; exact ⟨hc, ho⟩⟩
      | true =>
        simp only [he.special, ho, Bool.not_true] at h
        obtain ⟨x, rfl, hx, hr⟩ := pct_parse_inv (s := t) (by simpa using h)
        exact ⟨c :: x, by simp, .char ho hx, hr⟩
termination_by s.length

omit he in
/-- The scanner returns a suffix of its input and an error other than `no_match`. -/
theorem pct_parse_suffix (s : Str) (ec : Option Err) (hec : ec ≠ some .no_match) :
    (∃ x, s = x ++ (e.parse s ec).1) ∧ (e.parse s ec).2 ≠ some .no_match := by
  match s with
  | [] => exact ⟨⟨[], rfl⟩, hec⟩
  | c :: t =>
    unfold PctSet.parse
    by_cases hc : c = c!"%"
    · simp only [hc, beq_self_eq_true, if_true]
      have hne := check_escape_ne_noMatch (t := t) hec
      split
      · exact ⟨⟨[], rfl⟩, by simp_all⟩
      · rename_i a b u _
        obtain ⟨⟨x, hx⟩, h2⟩ := pct_parse_suffix u none (by simp)
        exact ⟨⟨c!"%" :: a :: b :: x, by simp [← hx]⟩, h2⟩
      · exact ⟨⟨[], rfl⟩, by simp⟩
    · simp only [beq_iff_eq, hc, if_false]
      split
      · exact ⟨⟨[], rfl⟩, hec⟩
      · obtain ⟨⟨x, hx⟩, h2⟩ := pct_parse_suffix t ec hec
        exact ⟨⟨c :: x, by simp [← hx]⟩, h2⟩
termination_by s.length

theorem check_iff (s : Str) : e.check s = true ↔ Escaped isUpperHex ok s := by
  unfold PctSet.check
  match s with
  | [] => simp [PctSet.decoded_size, Escaped.nil]
  | c :: t =>
    unfold PctSet.decoded_size
    by_cases hc : c = c!"%"
    · subst hc
      simp only [bne_self_eq_false, Bool.false_eq_true, if_false]
      cases hce : check_escape t none with
      | some er =>
        simp only [Option.isNone_some, Bool.false_eq_true, false_iff]
        intro h
        cases h with
        | char h1 _ => simp [he.pct] at h1
        | pct ha hb _ => simp [check_escape_none.2 ⟨_, _, _, rfl, ha, hb⟩] at hce
      | none =>
        obtain ⟨a, b, u, rfl, ha, hb⟩ := check_escape_none.1 hce
        have ih := check_iff u
        unfold PctSet.check at ih
        simp only [ih]
        constructor
        · exact fun h => .pct ha hb h
        · intro h
          cases h with
          | char h1 _ => simp [he.pct] at h1
          | pct _ _ h => exact h
    · have hb : (c != c!"%") = true := by simp [hc]
      simp only [hb, if_true]
      cases ho : ok c with
      | false =>
        simp only [he.special, ho]
        simp only [Bool.not_false, if_true, Option.isNone_some, Bool.false_eq_true, false_iff]
        intro h
        cases h with
        | char h1 _ => simp [ho] at h1
        | pct _ _ _ => exact hc rfl
      | true =>
        have ih := check_iff t
        unfold PctSet.check at ih
        simp only [he.special, ho, Bool.not_true, Bool.false_eq_true, if_false, ih]
        constructor
        · exact fun h => .char ho h
        · intro h
          cases h with
          | char _ h => exact h
          | pct _ _ _ => exact absurd rfl hc
termination_by s.length

theorem encode_escaped (s : Str) : Escaped isUpperHex ok (e.encode s) := by
  induction s with
  | nil => exact .nil
  | cons c t ih =>
    unfold PctSet.encode
    rw [he.special]
    cases ho : ok c with
    | true => exact .char ho ih
    | false =>
      obtain ⟨a, b, h, ha, hb, _⟩ := encodeChar_shape c
      simp only [Bool.not_false, if_true, h]
      exact .pct ha hb ih

theorem encoded_size_eq (s : Str) : e.encoded_size s = (e.encode s).length := by
  induction s with
  | nil => rfl
  | cons c t ih =>
    unfold PctSet.encode PctSet.encoded_size
    rw [he.special, he.needed, ih]
    cases ho : ok c
    · simp [encodeChar]; omega
    · simp; omega

theorem decodeRaw_encode (s : Str) : decodeRaw (e.encode s) = some s := by
  induction s with
  | nil => rfl
  | cons c t ih =>
    unfold PctSet.encode
    rw [he.special]
    cases ho : ok c with
    | true =>
      have hc : c ≠ c!"%" := by intro h; subst h; simp [he.pct] at ho
      simp only [Bool.not_true, Bool.false_eq_true, if_false]
      unfold decodeRaw
      simp [hc, ih]
    | false =>
      obtain ⟨a, b, h, _, _, hu⟩ := encodeChar_shape c
      simp only [Bool.not_false, if_true, h]
      simp only [List.cons_append, List.nil_append]
      unfold decodeRaw
      simp [ih, hu]

end

/-- Every escape of the string is complete: `%` is followed by two further bytes. -/
theorem decodeRaw_escaped {hex ok} (hok : ok c!"%" = false) {s : Str} (h : Escaped hex ok s) :
    ∃ d, decodeRaw s = some d := by
  induction h with
  | nil => exact ⟨_, rfl⟩
  | @char c s hc _ ih =>
    have h1 : c ≠ c!"%" := by intro h; subst h; simp [hok] at hc
    obtain ⟨d, hd⟩ := ih
    unfold decodeRaw
    simp [h1, hd]
  | pct _ _ _ ih =>
    obtain ⟨d, hd⟩ := ih
    unfold decodeRaw
    simp [hd]

theorem raw_decoded_size_eq (s : Str) : raw_decoded_size s = (decodeRaw s).map List.length := by
  match s with
  | [] => rfl
  | c :: t =>
    unfold raw_decoded_size decodeRaw
    by_cases hc : c = c!"%"
    · simp only [hc, bne_self_eq_false, Bool.false_eq_true, if_false]
      split
      · rename_i a b u
        rw [raw_decoded_size_eq u]
        cases decodeRaw u <;> simp
      · rfl
    · have hb : (c != c!"%") = true := by simp [hc]
      simp only [hb, if_true]
      rw [raw_decoded_size_eq t]
      cases decodeRaw t <;> simp
termination_by s.length

theorem decode_eq (s : Str) : decode s = decodeRaw s := by
  unfold decode
  rw [raw_decoded_size_eq]
  cases h : decodeRaw s <;> simp

theorem decoded_size_eq {e : PctSet} {s : Str} (h : (e.decoded_size s none).2 = none) :
    raw_decoded_size s = some (e.decoded_size s none).1 := by
  match s with
  | [] => rfl
  | c :: t =>
    unfold PctSet.decoded_size at h ⊢
    unfold raw_decoded_size
    by_cases hc : c = c!"%"
    · subst hc
      simp only [bne_self_eq_false, Bool.false_eq_true, if_false] at h ⊢
      cases hce : check_escape t none with
      | some er => simp [hce] at h
      | none =>
        obtain ⟨a, b, u, rfl, _, _⟩ := check_escape_none.1 hce
        simp only [hce] at h ⊢
        simp [decoded_size_eq h]
    · have hb : (c != c!"%") = true := by simp [hc]
      simp only [hb, if_true] at h ⊢
      split at h
      · simp at h
      · rename_i hs
        simp only [hs]
        simp [decoded_size_eq h]
termination_by s.length

theorem keyEqualLoop_eq {hex ok} (hok : ok c!"%" = false) {s : Str} (h : Escaped hex ok s)
    (m : Str) : keyEqualLoop s m = .ok (decide (decodeRaw s = some m)) := by
  induction h generalizing m with
  | nil => unfold keyEqualLoop decodeRaw; cases m <;> simp
  | @char c s hc hs ih =>
    have h1 : c ≠ c!"%" := by intro h; subst h; simp [hok] at hc
    obtain ⟨d, hd⟩ := decodeRaw_escaped hok hs
    cases m with
    | nil => unfold decodeRaw; simp [keyEqualLoop, h1, hd]
    | cons m ms =>
      unfold keyEqualLoop decodeRaw
      simp only [bne_iff_ne, ne_eq, h1, not_false_eq_true, if_true, ih, hd]
      by_cases hcm : c = m <;> simp [hcm]
  | @pct a b s _ _ hs ih =>
    obtain ⟨d, hd⟩ := decodeRaw_escaped hok hs
    cases m with
    | nil => unfold decodeRaw; simp [keyEqualLoop, hd]
    | cons m ms =>
      unfold keyEqualLoop decodeRaw
      simp only [bne_self_eq_false, Bool.false_eq_true, if_false, ih, hd]
      by_cases hcm : unescape a b = m <;> simp [hcm]

theorem decodeRaw_length {s d : Str} (h : decodeRaw s = some d) : d.length ≤ s.length := by
  match s with
  | [] => simp [decodeRaw] at h; simp [h]
  | c :: t =>
    unfold decodeRaw at h
    by_cases hc : c = c!"%"
    · simp only [hc, bne_self_eq_false, Bool.false_eq_true, if_false] at h
      split at h
      · rename_i a b u
        cases hu : decodeRaw u with
        | none => simp [hu] at h
        | some d' =>
          have := decodeRaw_length hu
          simp [hu] at h
          subst h
          simp; omega
      · simp at h
    · have hb : (c != c!"%") = true := by simp [hc]
      simp only [hb, if_true] at h
      cases hu : decodeRaw t with
      | none => simp [hu] at h
      | some d' =>
        have := decodeRaw_length hu
        simp [hu] at h
        subst h
        simp; omega
termination_by s.length

theorem key_equal_eq {hex ok} (hok : ok c!"%" = false) {s : Str} (h : Escaped hex ok s)
    (m : Str) : key_equal s m = .ok (decide (decodeRaw s = some m)) := by
  unfold key_equal
  split
  · rename_i hl
    congr 1
    symm
    rw [decide_eq_false_iff_not]
    intro h'
    have := decodeRaw_length h'
    omega
  · exact keyEqualLoop_eq hok h m

/-- The concatenation of escaped strings is escaped. -/
theorem Spec.Escaped.append {hex ok} {s t : Str} (hs : Escaped hex ok s) (ht : Escaped hex ok t) :
    Escaped hex ok (s ++ t) := by
  induction hs with
  | nil => exact ht
  | char h _ ih => exact .char h ih
  | pct h1 h2 _ ih => exact .pct h1 h2 ih

/-- A larger alphabet. -/
theorem Spec.Escaped.mono {hex hex' ok ok' : Byte → Bool} (h1 : ∀ c, hex c = true → hex' c = true)
    (h2 : ∀ c, ok c = true → ok' c = true) {s : Str} (hs : Escaped hex ok s) : Escaped hex' ok' s := by
  induction hs with
  | nil => exact .nil
  | char h _ ih => exact .char (h2 _ h) ih
  | pct ha hb _ ih => exact .pct (h1 _ ha) (h1 _ hb) ih

end Url
