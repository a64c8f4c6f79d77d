import Verif.Proofs.Lex

/-!
The IPv6 scanner accepts exactly the language described in `Verif/Spec/LibDialect.lean`.
-/

set_option linter.unusedSimpArgs false

namespace Url
open Spec

/-! ### words -/

/-- value of a string of hex digits -/
def hexValFrom (v : Nat) (s : Str) : Nat := s.foldl (fun v c => 16 * v + hex_digit c) v

abbrev H (s : Str) : Prop := H16 isUpperHex s

theorem wordLoop_of (k : Nat) {y q : Str} (hy : y.all isUpperHex) (hk : y.length ≤ k)
    (hq : NotHead isUpperHex q) (v : Nat) : wordLoop k (y ++ q) v = (hexValFrom v y, q) := by
  induction y generalizing k v with
  | nil =>
    cases k with
    | zero => rfl
    | succ k =>
      cases q with
      | nil => rfl
      | cons c t =>
        have : isUpperHex c = false := hq
        simp [wordLoop, notHex_eq, this, hexValFrom]
  | cons c t ih =>
    cases k with
    | zero => simp at hk
    | succ k =>
      simp only [List.all_cons, Bool.and_eq_true] at hy
      simp only [List.cons_append, wordLoop, notHex_eq, hy.1]
      simp only [Bool.not_true, Bool.false_eq_true, if_false]
      rw [ih k hy.2 (by simpa using hk)]
      rfl

theorem wordLoop_inv (k : Nat) (p : Str) (v : Nat) :
    ∃ y, p = y ++ (wordLoop k p v).2 ∧ y.all isUpperHex ∧ y.length ≤ k ∧
      (wordLoop k p v).1 = hexValFrom v y := by
  induction k generalizing p v with
  | zero => exact ⟨[], rfl, rfl, Nat.le_refl _, rfl⟩
  | succ k ih =>
    cases p with
    | nil => exact ⟨[], rfl, rfl, by simp, rfl⟩
    | cons c t =>
      unfold wordLoop
      rw [notHex_eq]
      cases hc : isUpperHex c with
      | false => exact ⟨[], rfl, rfl, by simp, rfl⟩
      | true =>
        obtain ⟨y, h1, h2, h3, h4⟩ := ih t (16 * v + hex_digit c)
        simp only [Bool.not_true, Bool.false_eq_true, if_false]
        refine ⟨c :: y, by rw [List.cons_append, ← h1], by simp [hc] at h2 ⊢; exact h2, by simpa using h3, ?_⟩
        rw [h4]; rfl

theorem parse_word_of {c : Byte} {t q : Str} {y : Str} (hy : H y) (hq : NotHead isUpperHex q)
    (h : c :: t = y ++ q) : parse_word c t = (some (hexValFrom 0 y), q) := by
  obtain ⟨h1, h2, h3⟩ := hy
  match y with
  | [] => simp at h1
  | d :: y =>
    simp only [List.cons_append, List.cons.injEq] at h
    obtain ⟨rfl, rfl⟩ := h
    simp only [List.all_cons, Bool.and_eq_true] at h3
    simp only [parse_word, notHex_eq, h3.1]
    rw [wordLoop_of 3 h3.2 (by simpa using h2) hq]
    simp [hexValFrom]

theorem parse_word_inv {c : Byte} {t q : Str} {w : Nat} (h : parse_word c t = (some w, q)) :
    ∃ y, c :: t = y ++ q ∧ H y ∧ w = hexValFrom 0 y := by
  unfold parse_word at h
  rw [notHex_eq] at h
  cases hc : isUpperHex c with
  | false => simp [hc] at h
  | true =>
    simp only [hc, Bool.not_true, Bool.false_eq_true, if_false, Prod.mk.injEq, Option.some.injEq] at h
    obtain ⟨y, h1, h2, h3, h4⟩ := wordLoop_inv 3 t (hex_digit c)
    rw [h.2] at h1
    rw [h.1] at h4
    refine ⟨c :: y, by rw [h1]; rfl, ⟨by simp, by simpa using h3, by simp [hc] at h2 ⊢; exact h2⟩, ?_⟩
    rw [h4]; simp [hexValFrom]

theorem hex_digit_facts (c : Byte) : isUpperHex c = true →
    hex_digit c < 16 ∧ (isDigit c = true → hex_digit c = c.toNat - 48 ∧ hex_digit c ≤ 9) ∧
    (isDigit c = false → 9 < hex_digit c) := by
  revert c; exact forall_byte (by decide +kernel)

theorem isUpperHex_of_digit {c : Byte} (h : isDigit c = true) : isUpperHex c = true := by
  simp [isUpperHex, h]

theorem looseH16 {y : Str} (h : LooseOctet y) : H y := by
  obtain ⟨h1, h2, h3, _⟩ := h
  refine ⟨h1, h2, ?_⟩
  simp only [List.all_eq_true] at h3 ⊢
  exact fun c hc => isUpperHex_of_digit (h3 c hc)

theorem maybe_octet_iff {y : Str} (hy : H y) : maybe_octet (hexValFrom 0 y) = true ↔ LooseOctet y := by
  obtain ⟨h1, h2, h3⟩ := hy
  have hm : ∀ w, maybe_octet w = true ↔ w ≤ 0x255 ∧ (w / 16) % 16 ≤ 9 ∧ w % 16 ≤ 9 := by
    intro w; unfold maybe_octet
    by_cases a : w > 0x255
    · simp [a]; omega
    · by_cases b : (w / 16) % 16 > 9
      · simp [a, b]; omega
      · by_cases c : w % 16 > 9
        · simp [a, b, c]
        · simp [a, b, c]; omega
  rw [hm]
  have key : ∀ c, c ∈ y → ∃ d, hex_digit c = d ∧ d < 16 ∧ (isDigit c = true → d = c.toNat - 48 ∧ d ≤ 9) ∧
      (isDigit c = false → 9 < d) := by
    intro c hc
    simp only [List.all_eq_true] at h3
    exact ⟨_, rfl, hex_digit_facts c (h3 c hc)⟩
  have dd : ∀ c : Byte, isDigit c = true ∨ isDigit c = false := fun c => by cases isDigit c <;> simp
  match y with
  | [] => simp at h1
  | [a] =>
    obtain ⟨da, ea, ba, ta, fa⟩ := key a (by simp)
    simp only [LooseOctet, hexValFrom, decVal, List.foldl, ea, List.all_cons, List.all_nil, List.length_cons,
      List.length_nil, Bool.and_true]
    rcases dd a with ha | ha
    · have := ta ha; simp only [ha]; simp; omega
    · have := fa ha; simp only [ha]; simp; omega
  | [a, b] =>
    obtain ⟨da, ea, ba, ta, fa⟩ := key a (by simp)
    obtain ⟨db, eb, bb, tb, fb⟩ := key b (by simp)
    simp only [LooseOctet, hexValFrom, decVal, List.foldl, ea, eb, List.all_cons, List.all_nil, List.length_cons,
      List.length_nil, Bool.and_true]
    rcases dd a with ha | ha <;> rcases dd b with hb | hb <;>
      first
      | (have := ta ha; have := tb hb; simp only [ha, hb]; simp; omega)
      | (have := ta ha; have := fb hb; simp only [ha, hb]; simp; omega)
      | (have := fa ha; have := tb hb; simp only [ha, hb]; simp; omega)
      | (have := fa ha; have := fb hb; simp only [ha, hb]; simp; omega)
  | [a, b, c] =>
    obtain ⟨da, ea, ba, ta, fa⟩ := key a (by simp)
    obtain ⟨db, eb, bb, tb, fb⟩ := key b (by simp)
    obtain ⟨dc, ec, bc, tc, fc⟩ := key c (by simp)
    simp only [LooseOctet, hexValFrom, decVal, List.foldl, ea, eb, ec, List.all_cons, List.all_nil, List.length_cons,
      List.length_nil, Bool.and_true]
    rcases dd a with ha | ha
    · have := ta ha
      rcases dd b with hb | hb
      · have := tb hb
        rcases dd c with hc | hc
        · have := tc hc; simp only [ha, hb, hc]; simp; omega
        · have := fc hc; simp only [ha, hb, hc]; simp; omega
      · have := fb hb; simp only [ha, hb]; simp; omega
    · have := fa ha; simp only [ha]; simp; omega
  | [a, b, c, d] =>
    obtain ⟨da, ea, ba, ta, fa⟩ := key a (by simp)
    obtain ⟨db, eb, bb, tb, fb⟩ := key b (by simp)
    obtain ⟨dc, ec, bc, tc, fc⟩ := key c (by simp)
    obtain ⟨de, ee, be, te, fe⟩ := key d (by simp)
    simp only [LooseOctet, hexValFrom, decVal, List.foldl, ea, eb, ec, ee, List.all_cons, List.all_nil, List.length_cons,
      List.length_nil, Bool.and_true]
    rcases dd a with ha | ha
    · have := ta ha
      rcases dd b with hb | hb
      · have := tb hb
        rcases dd c with hc | hc
        · have := tc hc
          rcases dd d with hd | hd
          · have := te hd; simp only [ha, hb, hc, hd]; simp; omega
          · have := fe hd; simp only [ha, hb, hc, hd]; simp; omega
        · have := fc hc; simp only [ha, hb, hc]; simp; omega
      · have := fb hb; simp only [ha, hb]; simp; omega
    · have := fa ha; simp only [ha]; simp; omega
  | _ :: _ :: _ :: _ :: _ :: _ => simp at h2

/-! ### the dotted tail -/

theorem v6Tail_of {t q : Str} (ht : DottedTail (c!"." :: t)) (hq : NotHead isDigit q) :
    v6Tail (t ++ q) = { p := q } := by
  obtain ⟨b, c, d, hb, hc, hd, h⟩ := ht
  simp only [List.cons_append, List.nil_append, List.cons.injEq, true_and] at h
  subst h
  unfold v6Tail
  simp only [List.append_assoc, List.cons_append, List.nil_append,
    octet_of hb (dot_notDigit _), octet_of hc (dot_notDigit _), octet_of hd hq]
  simp

theorem v6Tail_inv {p q : Str} (h : v6Tail p = { p := q }) :
    ∃ t, p = t ++ q ∧ DottedTail (c!"." :: t) := by
  unfold v6Tail at h
  split at h
  · simp at h
  · simp at h
  · rename_i h1
    obtain ⟨x1, rfl, hx1, -⟩ := octet_inv h1
    split at h
    · simp at h
    · rename_i hd1
      simp only [bne_iff_ne, ne_eq, Decidable.not_not] at hd1
      split at h
      · simp at h
      · simp at h
      · rename_i h2
        obtain ⟨x2, rfl, hx2, -⟩ := octet_inv h2
        split at h
        · simp at h
        · rename_i hd2
          simp only [bne_iff_ne, ne_eq, Decidable.not_not] at hd2
          split at h
          · simp at h
          · rename_i h3
            obtain ⟨x3, rfl, hx3, -⟩ := octet_inv h3
            simp only [V6.mk.injEq, and_true] at h
            subst h hd1 hd2
            exact ⟨x1 ++ c!"." :: x2 ++ c!"." :: x3, by simp, x1, x2, x3, hx1, hx2, hx3, by simp⟩

theorem v6Tail_flt (p : Str) : (v6Tail p).flt = none := by
  unfold v6Tail
  repeat' split
  all_goals rfl

/-! ### groups -/

/-- `:` before every group -/
def colons (ws : List Str) : Str := ws.flatMap (c!":" :: ·)

@[simp] theorem colons_nil : colons [] = [] := rfl
@[simp] theorem colons_cons (w : Str) (ws : List Str) : colons (w :: ws) = c!":" :: (w ++ colons ws) := by
  simp [colons]

/-- groups separated by `:` -/
def joinC : List Str → Str
  | [] => []
  | w :: ws => w ++ colons ws

/-- the value of the last group, or `w` -/
def lastVal (w : Nat) (ws : List Str) : Nat :=
  match ws.getLast? with
  | none => w
  | some y => hexValFrom 0 y

@[simp] theorem lastVal_nil (w : Nat) : lastVal w [] = w := rfl
@[simp] theorem lastVal_cons (w : Nat) (y : Str) (ws : List Str) :
    lastVal w (y :: ws) = lastVal (hexValFrom 0 y) ws := by
  unfold lastVal
  cases ws with
  | nil => rfl
  | cons z zs => simp [List.getLast?_cons_cons]; rfl

/-- optional dotted tail after words with last value `w`, when `n` further words fit -/
def TailOk (n w : Nat) (tail : Str) : Prop :=
  tail = [] ∨ (0 < n ∧ DottedTail tail ∧ maybe_octet w = true)

/-- the text read after `::` (and a group) when `n` further words fit; `w` is the last word -/
def AfterT (n w : Nat) (x : Str) : Prop :=
  ∃ ws tail, (∀ y ∈ ws, H y) ∧ ws.length ≤ n ∧ TailOk (n - ws.length) (lastVal w ws) tail ∧
    x = colons ws ++ tail

/-- the text read directly after `::` when `n` further words fit -/
def AfterF (n w : Nat) (x : Str) : Prop :=
  TailOk n w x ∨ ∃ h z, 0 < n ∧ H h ∧ AfterT (n - 1) (hexValFrom 0 h) z ∧ x = h ++ z

/-- the text read after a group when no `::` has been read yet -/
def BeforeT (n w : Nat) (x : Str) : Prop :=
  ∃ ws z, (∀ y ∈ ws, H y) ∧ ws.length ≤ n ∧ x = colons ws ++ z ∧
    ((ws.length = n ∧ z = []) ∨
     (∃ z', 0 < n - ws.length ∧ z = b!"::" ++ z' ∧ AfterF (n - ws.length - 1) (lastVal w ws) z') ∨
     (n - ws.length = 1 ∧ DottedTail z ∧ maybe_octet (lastVal w ws) = true))

/-- the whole text -/
def Start (x : Str) : Prop :=
  (∃ z, x = b!"::" ++ z ∧ AfterF 7 0 z) ∨ (∃ h z, H h ∧ x = h ++ z ∧ BeforeT 7 (hexValFrom 0 h) z)

theorem dottedTail_cons {t : Str} (h : DottedTail t) : ∃ t', t = c!"." :: t' := by
  obtain ⟨b, c, d, _, _, _, rfl⟩ := h
  exact ⟨_, by simp; rfl⟩

theorem AfterT.zero {w x} (h : AfterT 0 w x) : x = [] := by
  obtain ⟨ws, tail, _, h2, h3, rfl⟩ := h
  have : ws = [] := by simpa using h2
  subst this
  rcases h3 with rfl | ⟨h, _⟩
  · rfl
  · simp at h

theorem AfterF.zero {w x} (h : AfterF 0 w x) : x = [] := by
  rcases h with (rfl | ⟨h, _⟩) | ⟨_, _, h, _⟩
  · rfl
  · omega
  · omega

theorem AfterT.cons {n w x y} (hy : H y) (h : AfterT n (hexValFrom 0 y) x) :
    AfterT (n + 1) w (c!":" :: (y ++ x)) := by
  obtain ⟨ws, tail, h1, h2, h3, rfl⟩ := h
  refine ⟨y :: ws, tail, ?_, by simpa using h2, ?_, by simp⟩
  · intro z hz; simp at hz; rcases hz with rfl | hz
    · exact hy
    · exact h1 z hz
  · simpa using h3

theorem BeforeT.cons {n w x y} (hy : H y) (h : BeforeT n (hexValFrom 0 y) x) :
    BeforeT (n + 1) w (c!":" :: (y ++ x)) := by
  obtain ⟨ws, z, h1, h2, rfl, h4⟩ := h
  refine ⟨y :: ws, z, ?_, by simpa using h2, by simp, ?_⟩
  · intro z hz; simp at hz; rcases hz with rfl | hz
    · exact hy
    · exact h1 z hz
  · simpa using h4

theorem AfterT.of_nil {n w} : AfterT n w [] :=
  ⟨[], [], by simp, by simp, .inl rfl, rfl⟩

theorem BeforeT.of_nil {w} : BeforeT 0 w [] :=
  ⟨[], [], by simp, by simp, rfl, .inl ⟨rfl, rfl⟩⟩

/-! ### soundness of the loop -/

theorem loopBT_inv (f : Nat) {p q : Str} {n w : Nat} (hn : 0 < n)
    (h : v6Loop f p n true true w = { p := q }) : ∃ x, p = x ++ q ∧ AfterT n w x := by
  induction f generalizing p n w with
  | zero => simp [v6Loop] at h
  | succ f ih =>
    unfold v6Loop at h
    split at h
    · simp at h; subst h; exact ⟨[], rfl, .of_nil⟩
    · rename_i x t
      split at h
      · rename_i hx; subst hx
        split at h
        · simp at h
        · rename_i y u
          split at h
          · simp at h
          · simp only [if_true] at h
            split at h
            · simp at h
            · rename_i w' q' hw
              obtain ⟨y', h1, hy', rfl⟩ := parse_word_inv hw
              rw [h1]
              split at h
              · rename_i h0
                simp only [V6.mk.injEq, and_true] at h; subst h
                refine ⟨c!":" :: (y' ++ []), by simp, ?_⟩
                obtain ⟨m, rfl⟩ : ∃ m, n = m + 1 := ⟨n - 1, by omega⟩
                exact AfterT.cons hy' .of_nil
              · obtain ⟨z, rfl, hz⟩ := ih (by omega) h
                obtain ⟨m, rfl⟩ : ∃ m, n = m + 1 := ⟨n - 1, by omega⟩
                exact ⟨c!":" :: (y' ++ z), by simp, AfterT.cons hy' hz⟩
      · split at h
        · rename_i hx; subst hx
          simp only [Bool.not_true, Bool.false_and, Bool.false_eq_true, if_false] at h
          split at h
          · simp at h
          · rename_i ho
            simp only [Bool.not_eq_true', Bool.not_eq_false] at ho
            obtain ⟨t', rfl, ht⟩ := v6Tail_inv h
            exact ⟨c!"." :: t', rfl, [], _, by simp, by simp, .inr ⟨by simpa using hn, ht, ho⟩, by simp⟩
        · split at h
          · simp only [V6.mk.injEq, and_true] at h; subst h; exact ⟨[], rfl, .of_nil⟩
          · simp at h

theorem loopBF_inv (f : Nat) {p q : Str} {n w : Nat} (hn : 0 < n)
    (h : v6Loop f p n true false w = { p := q }) : ∃ x, p = x ++ q ∧ AfterF n w x := by
  cases f with
  | zero => simp [v6Loop] at h
  | succ f =>
    unfold v6Loop at h
    split at h
    · simp at h; subst h; exact ⟨[], rfl, .inl (.inl rfl)⟩
    · rename_i x t
      split at h
      · rename_i hx; subst hx
        split at h
        · simp at h
        · split at h
          · simp at h
          · simp at h
      · split at h
        · rename_i hx; subst hx
          simp only [Bool.not_true, Bool.false_and, Bool.false_eq_true, if_false] at h
          split at h
          · simp at h
          · rename_i ho
            simp only [Bool.not_eq_true', Bool.not_eq_false] at ho
            obtain ⟨t', rfl, ht⟩ := v6Tail_inv h
            exact ⟨c!"." :: t', rfl, .inl (.inr ⟨hn, ht, ho⟩)⟩
        · split at h
          · simp only [V6.mk.injEq, and_true] at h; subst h; exact ⟨[], rfl, .inl (.inl rfl)⟩
          · simp only [Bool.not_false, if_true] at h
            split at h
            · simp at h
            · rename_i w' q' hw
              obtain ⟨y', h1, hy', rfl⟩ := parse_word_inv hw
              rw [h1]
              split at h
              · simp only [V6.mk.injEq, and_true] at h; subst h
                exact ⟨y', rfl, .inr ⟨y', [], hn, hy', .of_nil, by simp⟩⟩
              · obtain ⟨z, rfl, hz⟩ := loopBT_inv f (by omega) h
                exact ⟨y' ++ z, by simp, .inr ⟨y', z, hn, hy', hz, rfl⟩⟩

theorem loopFT_inv (f : Nat) {p q : Str} {n w : Nat} (hn : 0 < n)
    (h : v6Loop f p n false true w = { p := q }) : ∃ x, p = x ++ q ∧ BeforeT n w x := by
  induction f generalizing p n w with
  | zero => simp [v6Loop] at h
  | succ f ih =>
    unfold v6Loop at h
    split at h
    · simp only [Bool.false_eq_true, if_false] at h
      by_cases h0 : n = 0
      · omega
      · simp [h0] at h
    · rename_i x t
      split at h
      · rename_i hx; subst hx
        split at h
        · simp at h
        · rename_i y u
          split at h
          · rename_i hy; subst hy
            simp only [Bool.false_eq_true, if_false] at h
            split at h
            · rename_i h0
              simp only [V6.mk.injEq, and_true] at h; subst h
              exact ⟨b!"::", rfl, [], b!"::", by simp, by simp, rfl,
                .inr (.inl ⟨[], by simpa using hn, rfl, .inl (.inl rfl)⟩)⟩
            · obtain ⟨z, rfl, hz⟩ := loopBF_inv f (by omega) h
              exact ⟨b!"::" ++ z, rfl, [], b!"::" ++ z, by simp, by simp, rfl,
                .inr (.inl ⟨z, by simpa using hn, rfl, by simpa using hz⟩)⟩
          · simp only [if_true] at h
            split at h
            · simp at h
            · rename_i w' q' hw
              obtain ⟨y', h1, hy', rfl⟩ := parse_word_inv hw
              rw [h1]
              obtain ⟨m, rfl⟩ : ∃ m, n = m + 1 := ⟨n - 1, by omega⟩
              split at h
              · rename_i h0
                simp only [V6.mk.injEq, and_true] at h; subst h
                have : m = 0 := by simpa using h0
                subst this
                exact ⟨c!":" :: (y' ++ []), by simp, BeforeT.cons hy' .of_nil⟩
              · obtain ⟨z, rfl, hz⟩ := ih (by omega) h
                exact ⟨c!":" :: (y' ++ z), by simp, BeforeT.cons hy' hz⟩
      · split at h
        · rename_i hx; subst hx
          split at h
          · simp at h
          · rename_i h1
            simp at h1
            split at h
            · simp at h
            · rename_i ho
              simp only [Bool.not_eq_true', Bool.not_eq_false] at ho
              obtain ⟨t', rfl, ht⟩ := v6Tail_inv h
              exact ⟨c!"." :: t', rfl, [], _, by simp, by simp, rfl,
                .inr (.inr ⟨by simp; omega, ht, ho⟩)⟩
        · split at h
          · simp at *
          · simp at h

theorem v6_inv {p q : Str} (h : parse_ip_v6 p = { p := q }) : ∃ x, p = x ++ q ∧ Start x := by
  unfold parse_ip_v6 at h
  split at h
  · simp at h
  · rename_i x t
    generalize (x :: t).length = f at h
    unfold v6Loop at h
    simp only at h
    split at h
    · rename_i hx; subst hx
      split at h
      · simp at h
      · rename_i y u
        split at h
        · rename_i hy; subst hy
          simp only [Bool.false_eq_true, if_false] at h
          simp at h
          obtain ⟨z, rfl, hz⟩ := loopBF_inv _ (by omega) h
          exact ⟨b!"::" ++ z, rfl, .inl ⟨z, rfl, hz⟩⟩
        · simp at h
    · split at h
      · simp at h
      · simp only [Bool.false_and, Bool.false_eq_true, if_false, Bool.not_false, if_true] at h
        split at h
        · simp at h
        · rename_i w' q' hw
          obtain ⟨y', h1, hy', rfl⟩ := parse_word_inv hw
          rw [h1]
          simp at h
          obtain ⟨z, rfl, hz⟩ := loopFT_inv _ (by omega) h
          exact ⟨y' ++ z, by simp, .inr ⟨y', z, hy', rfl, hz⟩⟩

/-! ### completeness of the loop -/

theorem br_notHex (q : Str) : NotHead isUpperHex (c!"]" :: q) := by
  show isUpperHex 93 = false; decide
theorem br_notDigit (q : Str) : NotHead isDigit (c!"]" :: q) := by
  show isDigit 93 = false; decide
theorem colon_notHex (q : Str) : NotHead isUpperHex (c!":" :: q) := by
  show isUpperHex 58 = false; decide
theorem dot_notHex (q : Str) : NotHead isUpperHex (c!"." :: q) := by
  show isUpperHex 46 = false; decide

theorem H.cons {y : Str} (h : H y) : ∃ c t, y = c :: t ∧ isUpperHex c = true := by
  obtain ⟨h1, _, h3⟩ := h
  match y with
  | [] => simp at h1
  | c :: t => simp at h3; exact ⟨c, t, rfl, h3.1⟩

theorem TailOk.notHex {n w tail} (h : TailOk n w tail) (q : Str) :
    NotHead isUpperHex (tail ++ c!"]" :: q) := by
  rcases h with rfl | ⟨_, h, _⟩
  · exact br_notHex q
  · obtain ⟨t, rfl⟩ := dottedTail_cons h
    exact dot_notHex _

theorem AfterT.notHex {n w x} (h : AfterT n w x) (q : Str) :
    NotHead isUpperHex (x ++ c!"]" :: q) := by
  obtain ⟨ws, tail, _, _, h3, rfl⟩ := h
  cases ws with
  | nil => exact h3.notHex q
  | cons y ws => exact colon_notHex _

theorem BeforeT.notHex {n w x} (h : BeforeT n w x) (q : Str) :
    NotHead isUpperHex (x ++ c!"]" :: q) := by
  obtain ⟨ws, z, _, _, rfl, h4⟩ := h
  cases ws with
  | cons y ws => exact colon_notHex _
  | nil =>
    rcases h4 with ⟨_, rfl⟩ | ⟨z', _, rfl, _⟩ | ⟨_, h, _⟩
    · exact br_notHex q
    · exact colon_notHex _
    · obtain ⟨t, rfl⟩ := dottedTail_cons h
      exact dot_notHex _

theorem hex_ne {c : Byte} (h : isUpperHex c = true) : c ≠ c!":" ∧ c ≠ c!"." := by
  constructor <;> (intro e; subst e; revert h; decide)

theorem loop_tail {f n w : Nat} {b c : Bool} {tail q : Str} (hb : b = true ∨ n ≤ 1)
    (ht : DottedTail tail) (ho : maybe_octet w = true) :
    v6Loop (f + 1) (tail ++ c!"]" :: q) n b c w = { p := c!"]" :: q } := by
  obtain ⟨t, rfl⟩ := dottedTail_cons ht
  have hn : (!b && decide (n > 1)) = false := by
    rcases hb with rfl | hb
    · rfl
    · simp; omega
  simp only [List.cons_append]
  unfold v6Loop
  simp [hn, ho, v6Tail_of ht (br_notDigit q)]

theorem loopBT_of (f : Nat) {x q : Str} {n w : Nat} (hn : 0 < n) (hx : AfterT n w x)
    (hf : x.length < f) : v6Loop f (x ++ c!"]" :: q) n true true w = { p := c!"]" :: q } := by
  induction f generalizing x n w with
  | zero => omega
  | succ f ih =>
    obtain ⟨ws, tail, h1, h2, h3, rfl⟩ := hx
    cases ws with
    | nil =>
      rcases h3 with rfl | ⟨_, h, ho⟩
      · simp only [colons_nil, List.nil_append]
        unfold v6Loop
        simp [notHex_eq, show isUpperHex 93 = false by decide]
      · exact loop_tail (.inl rfl) h ho
    | cons y ws =>
      have hy := h1 y (by simp)
      obtain ⟨c, t, hc, hcx⟩ := hy.cons
      have hat : AfterT (n - 1) (hexValFrom 0 y) (colons ws ++ tail) := by
        refine ⟨ws, tail, fun z hz => h1 z (by simp [hz]), by simp at h2; omega, ?_, rfl⟩
        simp only [List.length_cons, lastVal_cons] at h3
        rw [show n - 1 - ws.length = n - (ws.length + 1) by omega]
        exact h3
      have hw := parse_word_of (c := c) (t := t ++ (colons ws ++ tail ++ c!"]" :: q)) hy
        (hat.notHex q) (by rw [hc]; simp)
      simp only [colons_cons, List.cons_append, List.append_assoc, hc]
      unfold v6Loop
      simp only [List.append_assoc] at hw
      simp only [if_true, if_neg (hex_ne hcx).1, hw]
      split
      · rename_i h0
        rw [h0] at hat
        have := hat.zero
        rw [← List.append_assoc, this, List.nil_append]
      · have := ih (x := colons ws ++ tail) (n := n - 1) (w := hexValFrom 0 y) (by omega) hat
          (by simp at hf ⊢; omega)
        rw [List.append_assoc] at this
        exact this

theorem loopBF_of (f : Nat) {x q : Str} {n w : Nat} (hn : 0 < n) (hx : AfterF n w x)
    (hf : x.length < f) : v6Loop f (x ++ c!"]" :: q) n true false w = { p := c!"]" :: q } := by
  cases f with
  | zero => omega
  | succ f =>
    rcases hx with (rfl | ⟨_, h, ho⟩) | ⟨y, z, _, hy, hz, rfl⟩
    · simp only [List.nil_append]
      unfold v6Loop
      simp [notHex_eq, show isUpperHex 93 = false by decide]
    · exact loop_tail (.inl rfl) h ho
    · obtain ⟨c, t, hc, hcx⟩ := hy.cons
      have hw := parse_word_of (c := c) (t := t ++ (z ++ c!"]" :: q)) hy
        (hz.notHex q) (by rw [hc]; simp)
      simp only [List.cons_append, List.append_assoc, hc]
      unfold v6Loop
      simp only [if_neg (hex_ne hcx).1, if_neg (hex_ne hcx).2, hw, notHex_eq, hcx]
      simp only [Bool.not_true, Bool.and_false, Bool.false_eq_true, if_false, Bool.not_false, if_true]
      split
      · rename_i h0
        rw [h0] at hz
        rw [hz.zero, List.nil_append]
      · exact loopBT_of f (by omega) hz (by simp [hc] at hf ⊢; omega)

theorem loopFT_of (f : Nat) {x q : Str} {n w : Nat} (hn : 0 < n) (hx : BeforeT n w x)
    (hf : x.length < f) : v6Loop f (x ++ c!"]" :: q) n false true w = { p := c!"]" :: q } := by
  induction f generalizing x n w with
  | zero => omega
  | succ f ih =>
    obtain ⟨ws, z, h1, h2, rfl, h4⟩ := hx
    cases ws with
    | nil =>
      simp only [colons_nil, List.nil_append, List.length_nil, Nat.sub_zero, lastVal_nil] at h4 hf ⊢
      rcases h4 with ⟨h, rfl⟩ | ⟨z', _, rfl, hz⟩ | ⟨h, ht, ho⟩
      · omega
      · simp only [List.cons_append, List.nil_append]
        unfold v6Loop
        simp only [if_true, Bool.false_eq_true, if_false]
        split
        · rename_i h0
          rw [h0] at hz
          rw [hz.zero, List.nil_append]
        · exact loopBF_of f (by omega) hz (by simp at hf; omega)
      · exact loop_tail (.inr (by omega)) ht ho
    | cons y ws =>
      have hy := h1 y (by simp)
      obtain ⟨c, t, hc, hcx⟩ := hy.cons
      have hat : BeforeT (n - 1) (hexValFrom 0 y) (colons ws ++ z) := by
        refine ⟨ws, z, fun z hz => h1 z (by simp [hz]), by simp at h2; omega, rfl, ?_⟩
        simp only [List.length_cons, lastVal_cons] at h4
        rw [show n - 1 - ws.length = n - (ws.length + 1) by omega]
        rcases h4 with ⟨h, rfl⟩ | h
        · exact .inl ⟨by omega, rfl⟩
        · exact .inr h
      have hw := parse_word_of (c := c) (t := t ++ (colons ws ++ z ++ c!"]" :: q)) hy
        (hat.notHex q) (by rw [hc]; simp)
      simp only [colons_cons, List.cons_append, List.append_assoc, hc]
      unfold v6Loop
      simp only [List.append_assoc] at hw
      simp only [if_true, if_neg (hex_ne hcx).1, hw]
      split
      · rename_i h0
        rw [h0] at hat
        have hz : colons ws ++ z = [] := by
          obtain ⟨ws', z', _, h2, h3, h4⟩ := hat
          have : ws' = [] := by simpa using h2
          subst this
          rw [h3]
          simp at h4 ⊢
          exact h4
        rw [← List.append_assoc, hz, List.nil_append]
      · have := ih (x := colons ws ++ z) (n := n - 1) (w := hexValFrom 0 y) (by omega) hat
          (by simp at hf ⊢; omega)
        rw [List.append_assoc] at this
        exact this

theorem v6_of {x : Str} (hx : Start x) (q : Str) :
    parse_ip_v6 (x ++ c!"]" :: q) = { p := c!"]" :: q } := by
  rcases hx with ⟨z, rfl, hz⟩ | ⟨y, z, hy, rfl, hz⟩
  · simp only [List.cons_append, List.nil_append, parse_ip_v6]
    unfold v6Loop
    simp only [if_true, Bool.false_eq_true, if_false]
    simp only [show (8 - 1 : Nat) = 7 from rfl, show ¬ (7 : Nat) = 0 by omega, if_false]
    exact loopBF_of _ (by omega) hz (by simp; omega)
  · obtain ⟨c, t, hc, hcx⟩ := hy.cons
    have hw := parse_word_of (c := c) (t := t ++ (z ++ c!"]" :: q)) hy
      (hz.notHex q) (by rw [hc]; simp)
    simp only [hc, List.cons_append, List.append_assoc, parse_ip_v6]
    unfold v6Loop
    simp only [if_neg (hex_ne hcx).1, if_neg (hex_ne hcx).2, hw, notHex_eq, hcx]
    simp only [Bool.not_true, Bool.and_false, Bool.false_eq_true, if_false, Bool.not_false, if_true]
    simp only [show (8 - 1 : Nat) = 7 from rfl, show ¬ (7 : Nat) = 0 by omega, if_false]
    exact loopFT_of _ (by omega) hz (by simp; omega)

/-! ### no faults -/

theorem parse_word_len {c : Byte} {t q : Str} {w : Nat} (h : parse_word c t = (some w, q)) :
    q.length < t.length + 1 := by
  obtain ⟨y, h1, ⟨h2, _⟩, _⟩ := parse_word_inv h
  have := congrArg List.length h1
  simp at this
  omega

theorem v6Loop_flt (f : Nat) {p : Str} {n w : Nat} {b c : Bool} (hn : 0 < n) (hf : p.length < f) :
    (v6Loop f p n b c w).flt = none := by
  induction f generalizing p n b c w with
  | zero => omega
  | succ f ih =>
    unfold v6Loop
    split
    · split
      · rfl
      · rw [if_neg (by omega)]
    · rename_i x t
      simp only [List.length_cons] at hf
      split
      · split
        · rfl
        · rename_i y u
          simp only [List.length_cons] at hf
          split
          · split
            · rfl
            · split
              · rfl
              · exact ih (by omega) (by omega)
          · split
            · split
              · rfl
              · rename_i hw
                have := parse_word_len hw
                split
                · rfl
                · exact ih (by omega) (by omega)
            · rfl
      · split
        · split
          · rfl
          · split
            · rfl
            · exact v6Tail_flt t
        · split
          · rfl
          · split
            · split
              · rfl
              · rename_i hw
                have := parse_word_len hw
                split
                · rfl
                · exact ih (by omega) (by omega)
            · rfl

theorem v6_flt (p : Str) : (parse_ip_v6 p).flt = none := by
  unfold parse_ip_v6
  split
  · rfl
  · exact v6Loop_flt _ (by omega) (by simp)

end Url
