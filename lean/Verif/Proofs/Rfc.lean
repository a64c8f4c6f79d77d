import Verif.Proofs.Make
import Verif.Spec.Percent
import Verif.Proofs.Percent

/-!
Relations between the dialects, and facts about the RFC grammar.
-/

set_option linter.unusedSimpArgs false

namespace Url
open Spec

/-! ### monotonicity -/

theorem Slashed.mono {hex hex' : Byte → Bool} (h : ∀ c, hex c = true → hex' c = true) {p : Str}
    (hp : Slashed hex p) : Slashed hex' p := by
  obtain ⟨segs, h1, h2⟩ := hp
  exact ⟨segs, fun s hs => (h1 s hs).mono h (fun _ x => x), h2⟩

theorem PathFirst.mono {hex hex' ok : Byte → Bool} (h : ∀ c, hex c = true → hex' c = true) {p : Str}
    (hp : ∃ s t, s ≠ [] ∧ Escaped hex ok s ∧ Slashed hex t ∧ p = s ++ t) :
    ∃ s t, s ≠ [] ∧ Escaped hex' ok s ∧ Slashed hex' t ∧ p = s ++ t := by
  obtain ⟨s, t, h1, h2, h3, h4⟩ := hp
  exact ⟨s, t, h1, h2.mono h (fun _ x => x), Slashed.mono h h3, h4⟩

/-- Validity is monotone in the dialect. -/
theorem Valid.mono {D D' : Dialect} {c : Components} (hc : c.Valid D)
    (h1 : ∀ b, D.schemeChar b = true → D'.schemeChar b = true)
    (h2 : ∀ b, D.hex b = true → D'.hex b = true)
    (h3 : ∀ x, (∃ a, c.auth = some a ∧ a.host = b!"[" ++ x ++ b!"]") → D.ipLiteral x → D'.ipLiteral x)
    (h4 : c.auth = none → D.pathAbsolute c.path (c.query.isSome || c.fragment.isSome) →
      D'.pathAbsolute c.path (c.query.isSome || c.fragment.isSome)) :
    c.Valid D' := by
  obtain ⟨v1, v2, v3, v4, v5⟩ := hc
  refine ⟨?_, ?_, ?_, ?_, ?_⟩
  · intro s hs
    obtain ⟨a, t, e1, e2, e3⟩ := v1 s hs
    exact ⟨a, t, e1, e2, all_mono h1 e3⟩
  · intro a ha
    obtain ⟨u1, u2, u3⟩ := v2 a ha
    refine ⟨fun u pw hu => ?_, ?_, u3⟩
    · obtain ⟨w1, w2⟩ := u1 u pw hu
      exact ⟨w1.mono h2 (fun _ x => x), fun p hp => (w2 p hp).mono h2 (fun _ x => x)⟩
    · rcases u2 with ⟨x, hx, e⟩ | hx
      · exact .inl ⟨x, h3 x ⟨a, ha, e⟩ hx, e⟩
      · exact .inr (hx.mono h2 (fun _ x => x))
  · revert v3
    unfold PathOk
    cases hau : c.auth with
    | some a =>
      simp only [Option.isSome_some, if_true]
      exact Slashed.mono h2
    | none =>
      simp only [Option.isSome_none, Bool.false_eq_true, if_false]
      split
      · rintro (h | h | h)
        · exact .inl h
        · exact .inr (.inl (h4 hau h))
        · exact .inr (.inr (PathFirst.mono h2 h))
      · rintro (h | h | h)
        · exact .inl h
        · exact .inr (.inl (h4 hau h))
        · exact .inr (.inr (PathFirst.mono h2 h))
  · exact fun q hq => (v4 q hq).mono h2 (fun _ x => x)
  · exact fun q hq => (v5 q hq).mono h2 (fun _ x => x)

theorem lib_schemeChar_rfc (b : Byte) : lib.schemeChar b = true → rfc.schemeChar b = true := by
  revert b; exact forall_byte (by decide +kernel)

/-! ### IPv6 -/

theorem H16.mono {hex hex' : Byte → Bool} (h : ∀ c, hex c = true → hex' c = true) {x : Str} (hx : H16 hex x) :
    H16 hex' x := ⟨hx.1, hx.2.1, all_mono h hx.2.2⟩

theorem H16s.mono {hex hex' : Byte → Bool} (h : ∀ c, hex c = true → hex' c = true) {k : Nat} {x : Str}
    (hx : H16s hex k x) : H16s hex' k x := by
  induction k generalizing x with
  | zero => exact hx
  | succ k ih =>
    obtain ⟨a, t, h1, h2, h3⟩ := hx
    exact ⟨a, t, H16.mono h h1, ih h2, h3⟩

theorem OptGroups.mono {hex hex' : Byte → Bool} (h : ∀ c, hex c = true → hex' c = true) {k : Nat} {x : Str}
    (hx : OptGroups hex k x) : OptGroups hex' k x := by
  rcases hx with rfl | ⟨j, x, y, h1, h2, h3, h4⟩
  · exact .inl rfl
  · exact .inr ⟨j, x, y, h1, H16s.mono h h2, H16.mono h h3, h4⟩

theorem IPv6.mono {hex hex' : Byte → Bool} {v4 v4' : Str → Prop} (h : ∀ c, hex c = true → hex' c = true)
    {x : Str} (h4 : ∀ a y, x = a ++ y → v4 y → v4' y) (hx : IPv6 hex v4 x) : IPv6 hex' v4' x := by
  have hls : ∀ {a y}, x = a ++ y → Ls32 hex v4 y → Ls32 hex' v4' y := by
    rintro a y e (⟨b, d, h1, h2, h3⟩ | h1)
    · exact .inl ⟨b, d, H16.mono h h1, H16.mono h h2, h3⟩
    · exact .inr (h4 a y e h1)
  rcases hx with ⟨a, y, h1, h2, h3⟩ | ⟨j, p, a, y, h0, h1, h2, h3, h5⟩ | ⟨p, y, h1, h2, h3⟩ | ⟨p, h1, h2⟩
  · exact .inl ⟨a, y, H16s.mono h h1, hls h3 h2, h3⟩
  · exact .inr (.inl ⟨j, p, a, y, h0, OptGroups.mono h h1, H16s.mono h h2, hls h5 h3, h5⟩)
  · exact .inr (.inr (.inl ⟨p, y, OptGroups.mono h h1, H16.mono h h2, h3⟩))
  · exact .inr (.inr (.inr ⟨p, OptGroups.mono h h1, h2⟩))

theorem DecOctet.digits {s : Str} (h : DecOctet s) : s.all isDigit ∧ 1 ≤ s.length ∧ s.length ≤ 4 ∧ decVal s ≤ 255 := by
  obtain ⟨h1, h2, h3⟩ := DecOctet.iff.1 h
  exact ⟨h1, by omega, by omega, h2⟩

theorem IPv4.loose {s : Str} (h : IPv4 s) : LooseIPv4 s := by
  obtain ⟨a, b, c, d, ha, hb, hc, hd, rfl⟩ := h
  obtain ⟨h1, h2, h3, h4⟩ := DecOctet.digits ha
  exact ⟨a, _, ⟨h2, h3, h1, h4⟩, ⟨b, c, d, hb, hc, hd, rfl⟩, by simp⟩

theorem IPv4.digitDot {s : Str} (h : IPv4 s) : s.all isDigitDot := by
  obtain ⟨a, b, c, d, ha, hb, hc, hd, rfl⟩ := h
  simp only [List.all_append, Bool.and_eq_true]
  refine ⟨⟨⟨⟨⟨⟨?_, by decide⟩, ?_⟩, by decide⟩, ?_⟩, by decide⟩, ?_⟩ <;>
    exact all_digitDot (DecOctet.digits ‹_›).1

theorem IPv4.head {s : Str} (h : IPv4 s) : s.head? ≠ some c!"." := by
  obtain ⟨a, b, c, d, ha, hb, hc, hd, rfl⟩ := h
  obtain ⟨h1, h2, _⟩ := DecOctet.digits ha
  cases a with
  | nil => simp at h2
  | cons x a =>
    simp only [List.all_cons, Bool.and_eq_true] at h1
    intro h
    simp at h
    subst h
    exact absurd h1.1 (by decide)

theorem DottedTail.dot {s : Str} (h : DottedTail s) : c!"." ∈ s := by
  obtain ⟨b, c, d, _, _, _, rfl⟩ := h
  simp

/-- the two characters `:.` in a row -/
def colonDot : Str → Bool
  | [] => false
  | c :: t => (c == c!":" && t.head? == some c!".") || colonDot t

theorem colonDot_append {u w : Str} (hu : u.all (· != c!".")) (hw : w.all (· != c!":")) (hh : w.head? ≠ some c!".") :
    colonDot (u ++ w) = false := by
  induction u with
  | nil =>
    clear hu hh
    induction w with
    | nil => rfl
    | cons c t ih =>
      simp only [List.all_cons, Bool.and_eq_true, bne_iff_ne] at hw
      simp [colonDot, hw.1] 
      exact ih hw.2
  | cons c u ih =>
    simp only [List.all_cons, Bool.and_eq_true] at hu
    simp only [List.cons_append, colonDot, ih hu.2, Bool.or_false, Bool.and_eq_false_iff]
    right
    cases u with
    | nil => simpa using hh
    | cons d u =>
      simp only [List.all_cons, Bool.and_eq_true, bne_iff_ne] at hu
      simpa using hu.2.1

theorem isHex_facts (c : Byte) : isHex c = true → (c != c!".") = true ∧ (c != c!":") = true ∧ (c != c!"%") = true := by
  revert c; exact forall_byte (by decide +kernel)

theorem digitDot_noColon (c : Byte) : isDigitDot c = true → (c != c!":") = true := by
  revert c; exact forall_byte (by decide +kernel)

/-- The characters of groups. -/
def isGroup (c : Byte) : Bool := isHex c || c == c!":"

theorem isGroup_noDot (c : Byte) : isGroup c = true → (c != c!".") = true := by
  revert c; exact forall_byte (by decide +kernel)

theorem H16s.group {k : Nat} {x : Str} (h : H16s isHex k x) : x.all isGroup := by
  induction k generalizing x with
  | zero => have : x = [] := h
            subst this; rfl
  | succ k ih =>
    obtain ⟨a, t, h1, h2, rfl⟩ := h
    simp only [List.all_append, Bool.and_eq_true]
    refine ⟨⟨all_mono (fun c hc => by simp [isGroup, hc]) h1.2.2, by decide⟩, ih h2⟩

theorem H16.group {x : Str} (h : H16 isHex x) : x.all isGroup :=
  all_mono (fun c hc => by simp [isGroup, hc]) h.2.2

theorem OptGroups.group {k : Nat} {x : Str} (h : OptGroups isHex k x) : x.all isGroup := by
  rcases h with rfl | ⟨j, a, y, _, h2, h3, rfl⟩
  · rfl
  · rw [List.all_append, H16s.group h2, H16.group h3]; rfl

/-- An IPv6 address is text of groups followed by nothing or an IPv4 address. -/
theorem IPv6.shape {v4 : Str → Prop} {x : Str} (h : IPv6 isHex v4 x) :
    ∃ u w, x = u ++ w ∧ u.all isGroup ∧ (w = [] ∨ v4 w) := by
  have hls : ∀ {a y}, a.all isGroup = true → Ls32 isHex v4 y → x = a ++ y →
      ∃ u w, x = u ++ w ∧ u.all isGroup ∧ (w = [] ∨ v4 w) := by
    rintro a y ha (⟨b, d, h1, h2, rfl⟩ | hy) e
    · exact ⟨x, [], by simp, by rw [e]; simp [List.all_append, ha, H16.group h1, H16.group h2]; decide, .inl rfl⟩
    · exact ⟨a, y, e, ha, .inr hy⟩
  rcases h with ⟨a, y, h1, h2, h3⟩ | ⟨j, p, a, y, h0, h1, h2, h3, h5⟩ | ⟨p, y, h1, h2, h3⟩ | ⟨p, h1, h2⟩
  · exact hls (H16s.group h1) h2 h3
  · exact hls (by simp [List.all_append, OptGroups.group h1, H16s.group h2]; decide) h3 h5
  · exact ⟨x, [], by simp, by rw [h3]; simp [List.all_append, OptGroups.group h1, H16.group h2]; decide, .inl rfl⟩
  · exact ⟨x, [], by simp, by rw [h2]; simp [List.all_append, OptGroups.group h1]; decide, .inl rfl⟩

/-- In an IPv6 address of the RFC no dot follows a colon. -/
theorem IPv6.noColonDot {x : Str} (h : IPv6 isHex IPv4 x) : colonDot x = false := by
  obtain ⟨u, w, rfl, hu, hw⟩ := IPv6.shape h
  refine colonDot_append (all_mono isGroup_noDot hu) ?_ ?_
  · rcases hw with rfl | hw
    · rfl
    · exact all_mono digitDot_noColon (IPv4.digitDot hw)
  · rcases hw with rfl | hw
    · simp
    · exact IPv4.head hw

theorem ipLiteral_noDot {x : Str} (h : lib.ipLiteral x) (hd : c!"." ∉ x) : IPv6 isUpperHex IPv4 x := by
  rcases h with h | h
  · refine IPv6.mono (fun _ h => h) ?_ h
    rintro a y rfl ⟨b, t, _, ht, rfl⟩
    exact absurd (by simp [DottedTail.dot ht]) hd
  · rcases h with ⟨t, ht, rfl⟩ | ⟨_, b, y, t, _, _, _, ht, rfl⟩ <;>
      exact absurd (by simp [DottedTail.dot ht]) hd

/-! ### escapes in RFC text -/

/-- every `%` is followed by two hex digits -/
abbrev PctOk (s : Str) : Prop := Escaped isHex (· != c!"%") s

theorem PctOk.of_all {s : Str} (h : s.all (· != c!"%")) : PctOk s := Escaped.of_all h

theorem PctOk.of {ok : Byte → Bool} (h : ok c!"%" = false) {s : Str} (hs : Escaped isHex ok s) : PctOk s :=
  hs.mono (fun _ h => h) (fun c hc => by
    rw [bne_iff_ne]; rintro rfl; rw [h] at hc; simp at hc)

theorem Slashed.pctOk {p : Str} (h : Slashed isHex p) : PctOk p := by
  obtain ⟨segs, h1, rfl⟩ := h
  induction segs with
  | nil => exact .nil
  | cons s segs ih =>
    rw [List.flatMap_cons]
    exact (Escaped.char (by decide) (PctOk.of (by decide) (h1 s (by simp)))).append
      (ih fun s hs => h1 s (by simp [hs]))

theorem isGroup_noPct (c : Byte) : isGroup c = true → (c != c!"%") = true := by
  revert c; exact forall_byte (by decide +kernel)

theorem userinfo_noPct (c : Byte) : isUserinfo c = true → (c != c!"%") = true := by
  revert c; exact forall_byte (by decide +kernel)

theorem rfc_ipLiteral_pctOk {x : Str} (h : rfc.ipLiteral x) : x.all (· != c!"%") := by
  rcases h with h | ⟨v, a, t, hv, _, ha, _, ht, rfl⟩
  · obtain ⟨u, w, rfl, hu, hw⟩ := IPv6.shape h
    rw [List.all_append, Bool.and_eq_true]
    refine ⟨all_mono isGroup_noPct hu, ?_⟩
    rcases hw with rfl | hw
    · rfl
    · exact all_mono (fun c h => (digitDot_facts c h).1) (IPv4.digitDot hw)
  · rw [List.all_append, List.all_append, List.all_cons]
    rw [all_mono (fun c h => (isHex_facts c h).2.2) ha, all_mono userinfo_noPct ht]
    rcases hv with rfl | rfl <;> decide

theorem alpha_noPct (c : Byte) : isAlpha c = true → (c != c!"%") = true := by
  revert c; exact forall_byte (by decide +kernel)

theorem opt_pctOk (o : Option Str) (d : Byte) (hd : (d != c!"%") = true)
    (h : ∀ s, o = some s → Escaped isHex isQueryFrag s) :
    PctOk (withPrefix [d] o) := by
  unfold withPrefix
  cases o with
  | none => exact .nil
  | some q => exact .char hd (PctOk.of (by decide) (h q rfl))

/-- In a URI-reference of the RFC every `%` starts an escape. -/
theorem rfc_pctOk {s : Str} (h : UriReference rfc s) : PctOk s := by
  obtain ⟨⟨sch, au, p, q, f⟩, ⟨v1, v2, v3, v4, v5⟩, rfl⟩ := h
  simp only at v1 v2 v3 v4 v5
  unfold Components.render
  refine Escaped.append (Escaped.append (Escaped.append (Escaped.append ?_ ?_) ?_) (opt_pctOk q c!"?" (by decide) v4))
    (opt_pctOk f c!"#" (by decide) v5)
  · cases sch with
    | none => exact .nil
    | some s =>
      obtain ⟨a, t, rfl, ha, ht⟩ := v1 _ rfl
      refine Escaped.append (PctOk.of_all ?_) (.char (by decide) .nil)
      rw [List.all_cons, Bool.and_eq_true]
      refine ⟨?_, all_mono (Q := (· != c!"%")) ?_ ht⟩
      · exact alpha_noPct a ha
      · exact forall_byte (by decide +kernel)
  · cases au with
    | none => exact .nil
    | some a =>
      obtain ⟨w1, w2, w3⟩ := v2 _ rfl
      obtain ⟨ui, hh, pp⟩ := a
      refine Escaped.append (.char (by decide) (.char (by decide) .nil)) ?_
      unfold Auth.render
      refine Escaped.append (Escaped.append ?_ ?_) ?_
      · rcases ui with _ | ⟨u, _ | pw⟩
        · exact .nil
        · exact Escaped.append (PctOk.of (by decide) (w1 _ _ rfl).1) (.char (by decide) .nil)
        · refine Escaped.append (Escaped.append (Escaped.append ?_ (.char (by decide) .nil)) ?_) (.char (by decide) .nil)
          · exact PctOk.of (by decide) (w1 _ _ rfl).1
          · exact PctOk.of (by decide) ((w1 _ _ rfl).2 _ rfl)
      · rcases w2 with ⟨x, hx, e⟩ | hx
        · simp only at e
          rw [e]
          exact Escaped.append (Escaped.append (.char (by decide) .nil) (PctOk.of_all (rfc_ipLiteral_pctOk hx)))
            (.char (by decide) .nil)
        · exact PctOk.of (by decide) hx
      · cases pp with
        | none => exact .nil
        | some n =>
          refine .char (by decide) (PctOk.of_all (all_mono (fun c hc => ?_) (w3 n rfl)))
          revert hc; revert c; exact forall_byte (by decide +kernel)
  · revert v3
    unfold PathOk
    split
    · exact Slashed.pctOk
    · split
      · rintro (rfl | (rfl | ⟨s, t, _, hs, ht, rfl⟩) | ⟨s, t, _, hs, ht, rfl⟩)
        · exact .nil
        · exact .char (by decide) .nil
        · exact .char (by decide) (Escaped.append (PctOk.of (by decide) hs) (Slashed.pctOk ht))
        · exact Escaped.append (PctOk.of (by decide) hs) (Slashed.pctOk ht)
      · rintro (rfl | (rfl | ⟨s, t, _, hs, ht, rfl⟩) | ⟨s, t, _, hs, ht, rfl⟩)
        · exact .nil
        · exact .char (by decide) .nil
        · exact .char (by decide) (Escaped.append (PctOk.of (by decide) hs) (Slashed.pctOk ht))
        · exact Escaped.append (PctOk.of (by decide) hs) (Slashed.pctOk ht)

end Url
