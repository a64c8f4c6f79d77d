import Verif.Proofs.Pct
import Verif.Proofs.Parts

/-!
Scheme, digits, octets and IPv4 addresses.
-/

set_option linter.unusedSimpArgs false

namespace Url
open Spec

/-! ### runs of characters -/

/-- `r` does not start with a character of class `P`. -/
def NotHead (P : Byte → Bool) : Str → Prop
  | [] => True
  | c :: _ => P c = false

theorem dropWhile_of {P : Byte → Bool} {x r : Str} (hx : x.all P) (hr : NotHead P r) :
    (x ++ r).dropWhile P = r := by
  induction x with
  | nil =>
    cases r with
    | nil => rfl
    | cons c t => simp [List.dropWhile_cons, show P c = false from hr]
  | cons c t ih =>
    simp only [List.all_cons, Bool.and_eq_true] at hx
    simp [List.dropWhile_cons, hx.1]
    exact ih hx.2

theorem dropWhile_inv (P : Byte → Bool) (s : Str) :
    ∃ x, s = x ++ s.dropWhile P ∧ x.all P ∧ NotHead P (s.dropWhile P) := by
  induction s with
  | nil => exact ⟨[], rfl, rfl, trivial⟩
  | cons c t ih =>
    cases hc : P c with
    | false => exact ⟨[], by simp [List.dropWhile_cons, hc], rfl, by simp [List.dropWhile_cons, hc, NotHead]⟩
    | true =>
      obtain ⟨x, h1, h2, h3⟩ := ih
      refine ⟨c :: x, ?_, by simp [hc] at h2 ⊢; exact h2, ?_⟩
      · simp only [List.dropWhile_cons, hc, if_true, List.cons_append]
        rw [← h1]
      · simpa [List.dropWhile_cons, hc] using h3

theorem skipSchemeChars_eq (s : Str) : skipSchemeChars s = s.dropWhile lib.schemeChar := by
  induction s with
  | nil => rfl
  | cons c t ih =>
    unfold skipSchemeChars
    rw [is_scheme_char_eq, List.dropWhile_cons, ih]

theorem digitOf_gt (c : Byte) : decide (digitOf c > 9) = !isDigit c := by
  have := digitOf_lt c
  cases h : isDigit c <;> simp_all <;> omega

theorem skipDigits_eq (s : Str) : skipDigits s = s.dropWhile isDigit := by
  induction s with
  | nil => rfl
  | cons c t ih =>
    unfold skipDigits
    have := digitOf_gt c
    rw [List.dropWhile_cons, ih]
    cases h : isDigit c <;> simp [h] at this ⊢
    · omega
    · omega

theorem isDigit_iff {c : Byte} : isDigit c = true ↔ 48 ≤ c.toNat ∧ c.toNat ≤ 57 := by
  simp [isDigit, UInt8.le_iff_toNat_le]

theorem digitOf_eq {c : Byte} (h : isDigit c = true) : digitOf c = c.toNat - 48 := by
  have := isDigit_iff.1 h
  unfold digitOf
  rw [UInt8.toNat_sub_of_le _ _ (UInt8.le_iff_toNat_le.2 (by simpa using this.1))]
  rfl

theorem digitOf_ge {c : Byte} : digitOf c ≥ 10 ↔ isDigit c = false := by
  have := digitOf_lt c
  cases h : isDigit c <;> simp_all <;> omega

/-! ### octets -/

theorem octetLoop_stop {r : Str} (hr : NotHead isDigit r) (v : Nat) : octetLoop r v = (some v, r) := by
  cases r with
  | nil => rfl
  | cons c t =>
    unfold octetLoop
    simp [digitOf_ge.2 (show isDigit c = false from hr)]

theorem octetLoop_digit {c : Byte} (hc : isDigit c = true) (t : Str) (v : Nat) :
    octetLoop (c :: t) v =
      if 10 * v + (c.toNat - 48) > 255 then (none, t) else octetLoop t (10 * v + (c.toNat - 48)) := by
  have h1 : ¬ digitOf c ≥ 10 := by rw [digitOf_ge]; simp [hc]
  conv => lhs; unfold octetLoop
  rw [if_neg h1, digitOf_eq hc]

theorem DecOctet.iff {s : Str} : DecOctet s ↔
    s.all isDigit ∧ decVal s ≤ 255 ∧
      (s.length = 1 ∨ (2 ≤ s.length ∧ s.length ≤ 3 ∧ s.head? ≠ some 48)) := by
  constructor
  · rintro (⟨a, ha, rfl⟩ | ⟨a, b, ⟨h1, h2⟩, hb, rfl⟩ | ⟨b, c, hb, hc, rfl⟩ |
      ⟨b, c, ⟨h1, h2⟩, hc, rfl⟩ | ⟨c, ⟨h1, h2⟩, rfl⟩)
    all_goals
      simp [UInt8.le_iff_toNat_le, isDigit_iff, decVal, ← UInt8.toNat_inj] at *
      omega
  · rintro ⟨hd, hv, h⟩
    match s, h with
    | [], h => simp at h
    | [a], _ => exact .inl ⟨a, by simpa using hd, rfl⟩
    | [a, b], h =>
      refine .inr (.inl ⟨a, b, ?_, ?_, rfl⟩) <;>
      simp [UInt8.le_iff_toNat_le, isDigit_iff, decVal, ← UInt8.toNat_inj] at * <;> omega
    | [a, b, c], h =>
      simp [UInt8.le_iff_toNat_le, isDigit_iff, decVal, ← UInt8.toNat_inj] at hd hv h
      have hac : a.toNat = 49 ∨ a.toNat = 50 := by omega
      rcases hac with ha | ha
      · have : a = 49 := UInt8.toNat_inj.1 ha
        subst this
        exact .inr (.inr (.inl ⟨b, c, isDigit_iff.2 (by omega), isDigit_iff.2 (by omega), rfl⟩))
      · have : a = 50 := UInt8.toNat_inj.1 ha
        subst this
        by_cases hb : b.toNat = 53
        · have : b = 53 := UInt8.toNat_inj.1 hb
          subst this
          refine .inr (.inr (.inr (.inr ⟨c, ?_, rfl⟩)))
          simp [UInt8.le_iff_toNat_le] at *; omega
        · refine .inr (.inr (.inr (.inl ⟨b, c, ?_, isDigit_iff.2 (by omega), rfl⟩)))
          simp [UInt8.le_iff_toNat_le] at *; omega
    | _ :: _ :: _ :: _ :: _, h => simp at h

theorem match_octet_cons (c : Byte) (t : Str) : match_octet (c :: t) =
    if digitOf c ≥ 10 then (none, c :: t) else if digitOf c = 0 then (some 0, t)
    else octetLoop t (digitOf c) := rfl

theorem octet_of {x r : Str} (hx : DecOctet x) (hr : NotHead isDigit r) :
    match_octet (x ++ r) = (some (decVal x), r) := by
  obtain ⟨hd, hv, h⟩ := DecOctet.iff.1 hx
  match x, h with
  | [], h => simp at h
  | [a], _ =>
    simp only [List.all_cons, List.all_nil, Bool.and_true] at hd
    have h1 : ¬ digitOf a ≥ 10 := by rw [digitOf_ge]; simp [hd]
    simp only [match_octet, List.cons_append, List.nil_append, if_neg h1, digitOf_eq hd,
      octetLoop_stop hr, decVal, List.foldl]
    have := isDigit_iff.1 hd
    rw [if_neg (by omega)]
    split <;> simp_all
  | [a, b], h =>
    simp only [List.all_cons, List.all_nil, Bool.and_true, Bool.and_eq_true] at hd
    have h1 : ¬ digitOf a ≥ 10 := by rw [digitOf_ge]; simp [hd]
    have h0 : a.toNat ≠ 48 := by
      simp [← UInt8.toNat_inj] at h; exact h
    have := isDigit_iff.1 hd.1
    simp only [decVal, List.foldl] at hv
    simp only [match_octet, List.cons_append, List.nil_append, if_neg h1, digitOf_eq hd.1,
      octetLoop_digit hd.2, octetLoop_stop hr, decVal, List.foldl]
    rw [if_neg (by omega), if_neg (by omega), if_neg (by omega)]
    simp
  | [a, b, c], h =>
    simp only [List.all_cons, List.all_nil, Bool.and_true, Bool.and_eq_true] at hd
    have h1 : ¬ digitOf a ≥ 10 := by rw [digitOf_ge]; simp [hd]
    have h0 : a.toNat ≠ 48 := by
      simp [← UInt8.toNat_inj] at h; exact h
    have := isDigit_iff.1 hd.1
    simp only [decVal, List.foldl] at hv
    simp only [match_octet, List.cons_append, List.nil_append, if_neg h1, digitOf_eq hd.1,
      octetLoop_digit hd.2.1, octetLoop_digit hd.2.2, octetLoop_stop hr, decVal, List.foldl]
    rw [if_neg (by omega), if_neg (by omega), if_neg (by omega), if_neg (by omega)]
    simp
  | _ :: _ :: _ :: _ :: _, h => simp at h

theorem octetLoop_inv {t r : Str} {v w : Nat} (h : octetLoop t v = (some w, r)) (hv : v ≤ 255) :
    ∃ y, t = y ++ r ∧ y.all isDigit ∧ w = y.foldl (fun v c => 10 * v + (c.toNat - 48)) v ∧ w ≤ 255 ∧
      NotHead isDigit r := by
  induction t generalizing v with
  | nil =>
    simp only [octetLoop, Prod.mk.injEq, Option.some.injEq] at h
    obtain ⟨rfl, rfl⟩ := h
    exact ⟨[], rfl, rfl, rfl, hv, trivial⟩
  | cons c t ih =>
    cases hc : isDigit c with
    | false =>
      rw [octetLoop_stop (by exact hc)] at h
      simp only [Prod.mk.injEq, Option.some.injEq] at h
      obtain ⟨rfl, rfl⟩ := h
      exact ⟨[], rfl, rfl, rfl, hv, hc⟩
    | true =>
      rw [octetLoop_digit hc] at h
      split at h
      · simp at h
      · obtain ⟨y, rfl, h2, h3, h4, h5⟩ := ih h (by omega)
        exact ⟨c :: y, rfl, by simp [hc] at h2 ⊢; exact h2, h3, h4, h5⟩

theorem octet_inv {p r : Str} {v : Nat} (h : match_octet p = (some v, r)) :
    ∃ x, p = x ++ r ∧ DecOctet x ∧ (x = b!"0" ∨ NotHead isDigit r) := by
  match p with
  | [] => simp [match_octet] at h
  | c :: t =>
    rw [match_octet_cons] at h
    split at h
    · simp at h
    · rename_i hc
      have hc : isDigit c = true := by
        rw [digitOf_ge] at hc; simpa using hc
      have hb := isDigit_iff.1 hc
      simp only [digitOf_eq hc] at h
      split at h
      · rename_i h0
        have : c = 48 := UInt8.toNat_inj.1 (by simp; omega)
        simp only [Prod.mk.injEq, Option.some.injEq] at h
        obtain ⟨rfl, rfl⟩ := h
        subst this
        exact ⟨b!"0", rfl, .inl ⟨_, hc, rfl⟩, .inl rfl⟩
      · rename_i h0
        obtain ⟨y, rfl, h2, h3, h4, h5⟩ := octetLoop_inv h (by omega)
        refine ⟨c :: y, rfl, DecOctet.iff.2 ⟨by simp [hc] at h2 ⊢; exact h2, ?_, ?_⟩, .inr h5⟩
        · simp only [decVal, List.foldl_cons, Nat.mul_zero, Nat.zero_add]; omega
        · match y with
          | [] => simp
          | [_] => right; simp [← UInt8.toNat_inj]; omega
          | [_, _] => right; simp [← UInt8.toNat_inj]; omega
          | a :: b :: d :: y =>
            exfalso
            have : ∀ (y : Str) (v : Nat), v ≤ y.foldl (fun v c => 10 * v + (c.toNat - 48)) v := by
              intro y
              induction y with
              | nil => intro v; exact Nat.le_refl v
              | cons c t ih => intro v; simp only [List.foldl_cons]; have := ih (10 * v + (c.toNat - 48)); omega
            have := this y (10 * (10 * (10 * (c.toNat - 48) + (a.toNat - 48)) + (b.toNat - 48)) + (d.toNat - 48))
            simp only [List.foldl_cons] at h3
            omega

/-! ### IPv4 -/

theorem dot_notDigit (t : Str) : NotHead isDigit (c!"." :: t) := by
  show isDigit 46 = false; decide

theorem v4_of {x r : Str} (hx : IPv4 x) (hr : NotHead isDigit r) : match_ip_v4 (x ++ r) = (true, r) := by
  obtain ⟨a, b, c, d, ha, hb, hc, hd, rfl⟩ := hx
  unfold match_ip_v4
  simp only [List.append_assoc, List.cons_append, List.nil_append,
    octet_of ha (dot_notDigit _), octet_of hb (dot_notDigit _), octet_of hc (dot_notDigit _),
    octet_of hd hr]
  simp

theorem v4_inv {p r : Str} (h : match_ip_v4 p = (true, r)) :
    ∃ x, p = x ++ r ∧ IPv4 x := by
  unfold match_ip_v4 at h
  split at h
  · simp at h
  · simp at h
  · rename_i h1
    obtain ⟨x1, rfl, hx1, -⟩ := octet_inv h1
    split at h
    · simp at h
    · rename_i hd1
      simp only [bne_iff_ne, ne_eq, Decidable.not_not] at hd1
      split at h
      · simp at h
      · simp at h
      · rename_i h2
        obtain ⟨x2, rfl, hx2, -⟩ := octet_inv h2
        split at h
        · simp at h
        · rename_i hd2
          simp only [bne_iff_ne, ne_eq, Decidable.not_not] at hd2
          split at h
          · simp at h
          · simp at h
          · rename_i h3
            obtain ⟨x3, rfl, hx3, -⟩ := octet_inv h3
            split at h
            · simp at h
            · rename_i hd3
              simp only [bne_iff_ne, ne_eq, Decidable.not_not] at hd3
              split at h
              · simp at h
              · rename_i h4
                obtain ⟨x4, rfl, hx4, -⟩ := octet_inv h4
                simp only [Prod.mk.injEq, true_and] at h
                subst h hd1 hd2 hd3
                exact ⟨_, by simp, x1, x2, x3, x4, hx1, hx2, hx3, hx4, rfl⟩

/-- Whatever `match_octet` consumes are digits. -/
theorem octetLoop_suffix (t : Str) (v : Nat) :
    ∃ x, t = x ++ (octetLoop t v).2 ∧ x.all isDigit := by
  induction t generalizing v with
  | nil => exact ⟨[], rfl, rfl⟩
  | cons c t ih =>
    cases hc : isDigit c with
    | false => rw [octetLoop_stop (by exact hc)]; exact ⟨[], rfl, rfl⟩
    | true =>
      rw [octetLoop_digit hc]
      split
      · exact ⟨[c], rfl, by simp [hc]⟩
      · obtain ⟨x, h1, h2⟩ := ih (10 * v + (c.toNat - 48))
        exact ⟨c :: x, by rw [List.cons_append, ← h1], by simp [hc] at h2 ⊢; exact h2⟩

theorem octet_suffix (p : Str) : ∃ x, p = x ++ (match_octet p).2 ∧ x.all isDigit := by
  match p with
  | [] => exact ⟨[], rfl, rfl⟩
  | c :: t =>
    rw [match_octet_cons]
    split
    · exact ⟨[], rfl, rfl⟩
    · rename_i hc
      have hc : isDigit c = true := by
        rw [digitOf_ge] at hc; simpa using hc
      split
      · exact ⟨[c], rfl, by simp [hc]⟩
      · obtain ⟨x, h1, h2⟩ := octetLoop_suffix t (digitOf c)
        exact ⟨c :: x, by rw [List.cons_append, ← h1], by simp [hc] at h2 ⊢; exact h2⟩

/-- a digit or a dot -/
def isDigitDot (c : Byte) : Bool := isDigit c || c == c!"."

theorem all_digitDot {x : Str} (h : x.all isDigit) : x.all isDigitDot := by
  simp only [List.all_eq_true] at h ⊢
  intro c hc; simp [isDigitDot, h c hc]

/-- Whatever `match_ip_v4` consumes are digits and dots. -/
theorem v4_suffix (p : Str) : ∃ x, p = x ++ (match_ip_v4 p).2 ∧ x.all isDigitDot := by
  unfold match_ip_v4
  obtain ⟨x1, h1, d1⟩ := octet_suffix p
  split
  · rename_i e1; rw [e1] at h1; exact ⟨x1, h1, all_digitDot d1⟩
  · rename_i e1; rw [e1] at h1; exact ⟨x1, h1, all_digitDot d1⟩
  · rename_i c1 t1 e1
    rw [e1] at h1
    split
    · exact ⟨x1, h1, all_digitDot d1⟩
    · rename_i hc1
      have hc1 : c1 = c!"." := by simpa using hc1
      obtain ⟨x2, h2, d2⟩ := octet_suffix t1
      have key1 : ∀ {y q : Str}, t1 = y ++ q → y.all isDigitDot →
          ∃ x, p = x ++ q ∧ x.all isDigitDot := by
        intro y q hy ha
        refine ⟨x1 ++ c1 :: y, by rw [h1, hy]; simp, ?_⟩
        simp [hc1] at ha d1 ⊢
        exact ⟨by simpa using all_digitDot (by simpa using d1), by decide, ha⟩
      split
      · rename_i e2; rw [e2] at h2; exact key1 h2 (all_digitDot d2)
      · rename_i e2; rw [e2] at h2; exact key1 h2 (all_digitDot d2)
      · rename_i c2 t2 e2
        rw [e2] at h2
        split
        · exact key1 h2 (all_digitDot d2)
        · rename_i hc2
          have hc2 : c2 = c!"." := by simpa using hc2
          obtain ⟨x3, h3, d3⟩ := octet_suffix t2
          have key2 : ∀ {y q : Str}, t2 = y ++ q → y.all isDigitDot →
              ∃ x, p = x ++ q ∧ x.all isDigitDot := by
            intro y q hy ha
            refine key1 (y := x2 ++ c2 :: y) (by rw [h2, hy]; simp) ?_
            simp [hc2] at ha d2 ⊢
            exact ⟨by simpa using all_digitDot (by simpa using d2), by decide, ha⟩
          split
          · rename_i e3; rw [e3] at h3; exact key2 h3 (all_digitDot d3)
          · rename_i e3; rw [e3] at h3; exact key2 h3 (all_digitDot d3)
          · rename_i c3 t3 e3
            rw [e3] at h3
            split
            · exact key2 h3 (all_digitDot d3)
            · rename_i hc3
              have hc3 : c3 = c!"." := by simpa using hc3
              obtain ⟨x4, h4, d4⟩ := octet_suffix t3
              have key3 : ∀ {y q : Str}, t3 = y ++ q → y.all isDigitDot →
                  ∃ x, p = x ++ q ∧ x.all isDigitDot := by
                intro y q hy ha
                refine key2 (y := x3 ++ c3 :: y) (by rw [h3, hy]; simp) ?_
                simp [hc3] at ha d3 ⊢
                exact ⟨by simpa using all_digitDot (by simpa using d3), by decide, ha⟩
              split
              · rename_i e4; rw [e4] at h4; exact key3 h4 (all_digitDot d4)
              · rename_i e4; rw [e4] at h4; exact key3 h4 (all_digitDot d4)

end Url
