import Verif.Proofs.Bytes
import Verif.Model.Scheme

/-!
Properties of the table of known schemes: C42.
-/

set_option linter.unusedSimpArgs false
set_option autoImplicit false

namespace Url.Props
open Url

/-- The same letter in upper or in lower case, or the same byte. -/
def SameLetter (a b : Byte) : Prop :=
  a = b ∨ (97 ≤ b.toNat ∧ b.toNat ≤ 122 ∧ a.toNat + 32 = b.toNat) ∨ (97 ≤ a.toNat ∧ a.toNat ≤ 122 ∧ b.toNat + 32 = a.toNat)

instance : DecidableRel SameLetter := fun a b => by unfold SameLetter; infer_instance

/-- Equal ignoring ASCII case. -/
def EqualIgnoringCase : Str → Str → Prop
  | [], [] => True
  | a :: s, b :: t => SameLetter a b ∧ EqualIgnoringCase s t
  | _, _ => False

instance decEqualIgnoringCase : (s t : Str) → Decidable (EqualIgnoringCase s t)
  | [], [] => .isTrue trivial
  | a :: s, b :: t => by
    unfold EqualIgnoringCase
    have := decEqualIgnoringCase s t
    infer_instance
  | [], _ :: _ => .isFalse (fun h => h)
  | _ :: _, [] => .isFalse (fun h => h)

/-- The six known schemes. -/
def knownSchemes : List (Str × Scheme) :=
  [(b!"ftp", .ftp), (b!"file", .file), (b!"http", .http), (b!"https", .https), (b!"ws", .ws), (b!"wss", .wss)]

/-- `char` is unsigned, or all bytes are ASCII. -/
def Plain (sg : Bool) (s : Str) : Prop := sg = true → ∀ c ∈ s, c.toNat < 128

def Lower (c : Byte) : Prop := 97 ≤ c.toNat ∧ c.toNat ≤ 122

instance : DecidablePred Lower := fun c => by unfold Lower; infer_instance

theorem tolower_ok {sg : Bool} {a : Byte} (h : sg = true → a.toNat < 128) : ∃ b, tolower sg a = .ok b ∧
    ∀ c : Byte, Lower c → (b == c) = decide (SameLetter a c) := by
  have h1 : (sg && 128 ≤ a.toNat && a.toNat ≠ 255) = false := by
    cases sg with
    | false => rfl
    | true => have := h rfl; simp; omega
  rw [tolower, h1]
  simp only [Bool.false_eq_true, if_false]
  have hlt := a.toNat_lt
  by_cases hu : 65 ≤ a.toNat ∧ a.toNat ≤ 90
  · rw [if_pos (by simpa using hu)]
    refine ⟨_, rfl, fun c ⟨c1, c2⟩ => ?_⟩
    rw [Bool.eq_iff_iff, beq_iff_eq, decide_eq_true_eq, SameLetter, ← UInt8.toNat_inj, ← UInt8.toNat_inj, UInt8.toNat_add]
    show (a.toNat + 32) % 256 = _ ↔ _
    omega
  · rw [if_neg (by simpa using hu)]
    refine ⟨_, rfl, fun c ⟨c1, c2⟩ => ?_⟩
    rw [Bool.eq_iff_iff, beq_iff_eq, decide_eq_true_eq, SameLetter, ← UInt8.toNat_inj]
    omega

theorem matches_ok {sg : Bool} {s t : Str} (h : Plain sg s) (ht : ∀ c ∈ t, Lower c) (hl : s.length = t.length) :
    Scheme.matches_ sg s t = .ok (decide (EqualIgnoringCase s t)) := by
  induction t generalizing s with
  | nil =>
    obtain rfl := List.length_eq_zero_iff.1 hl
    rfl
  | cons c t ih =>
    cases s with
    | nil => cases hl
    | cons a s =>
      obtain ⟨b, h1, h2⟩ := tolower_ok (sg := sg) (a := a) fun hs => h hs a (List.mem_cons_self ..)
      have hi := ih (s := s) (fun hs x hx => h hs x (List.mem_cons_of_mem _ hx)) (fun x hx => ht x (List.mem_cons_of_mem _ hx))
        (by simpa using hl)
      rw [Scheme.matches_, h1]
      simp only [bind, Except.bind, h2 c (ht c (List.mem_cons_self ..)), hi]
      by_cases hs : SameLetter a c
      · simp [hs, EqualIgnoringCase]
      · simp [hs, EqualIgnoringCase, pure, Except.pure]

theorem pick_ok {sg : Bool} {s t : Str} {r : Scheme} (h : Plain sg s) (ht : ∀ c ∈ t, Lower c) (hl : s.length = t.length) :
    Scheme.pick sg s t r = .ok (if EqualIgnoringCase s t then r else .unknown) := by
  rw [Scheme.pick, matches_ok h ht hl]
  by_cases hs : EqualIgnoringCase s t <;> simp [hs, bind, Except.bind, pure, Except.pure]

theorem SameLetter.unique {a b c : Byte} (h1 : SameLetter a b) (h2 : SameLetter a c) (hb : Lower b) (hc : Lower c) : b = c := by
  unfold SameLetter at h1 h2
  unfold Lower at hb hc
  rw [← UInt8.toNat_inj] at h1 h2 ⊢
  omega

theorem EqualIgnoringCase.unique {s t u : Str} (h1 : EqualIgnoringCase s t) (h2 : EqualIgnoringCase s u) (ht : ∀ c ∈ t, Lower c)
    (hu : ∀ c ∈ u, Lower c) : t = u := by
  induction s generalizing t u with
  | nil => cases t <;> cases u <;> first | rfl | exact h2.elim | exact h1.elim
  | cons a s ih =>
    cases t with
    | nil => cases h1
    | cons b t =>
      cases u with
      | nil => cases h2
      | cons c u =>
        rw [h1.1.unique h2.1 (ht b (List.mem_cons_self ..)) (hu c (List.mem_cons_self ..)),
          ih h1.2 h2.2 (fun x hx => ht x (List.mem_cons_of_mem _ hx)) (fun x hx => hu x (List.mem_cons_of_mem _ hx))]

theorem Plain.sub {sg : Bool} {s u : Str} (h : Plain sg s) (hu : ∀ c ∈ u, c ∈ s) : Plain sg u := fun hs c hc => h hs c (hu c hc)

/-- what `string_to_scheme` should return -/
def Names (s : Str) (k : Scheme) : Prop :=
  if k = .unknown then ∀ p ∈ knownSchemes, ¬ EqualIgnoringCase s p.1 else ∃ t, (t, k) ∈ knownSchemes ∧ EqualIgnoringCase s t

theorem names_known {s t : Str} {k : Scheme} (hm : (t, k) ∈ knownSchemes) (he : EqualIgnoringCase s t) : Names s k := by
  rw [Names, if_neg]
  · exact ⟨t, hm, he⟩
  · rintro rfl
    revert hm
    simp [knownSchemes]

theorem names_unknown {s : Str} (h : ∀ p ∈ knownSchemes, ¬ EqualIgnoringCase s p.1) : Names s .unknown := by
  rw [Names, if_pos rfl]
  exact h

theorem ofString_names {sg : Bool} {s : Str} (h : Plain sg s) : ∃ k, Scheme.ofString sg s = .ok k ∧ Names s k := by
  match s, h with
  | [], _ => exact ⟨.unknown, rfl, names_unknown (by simp [knownSchemes, EqualIgnoringCase])⟩
  | [a], _ => exact ⟨.unknown, rfl, names_unknown (by simp [knownSchemes, EqualIgnoringCase])⟩
  | [a, b], h =>
    rw [Scheme.ofString, pick_ok (t := b!"ws") h (by decide) rfl]
    split <;> rename_i hm <;> refine ⟨_, rfl, ?_⟩
    · exact names_known (by simp [knownSchemes]) hm
    · exact names_unknown (by simpa [knownSchemes, EqualIgnoringCase] using hm)
  | [a, b, c], h =>
    obtain ⟨k, h1, h2⟩ := tolower_ok (sg := sg) (a := a) fun hs => h hs a (List.mem_cons_self ..)
    rw [Scheme.ofString, h1]
    have p := h.sub (u := [b, c]) (by simp)
    simp only [bind, Except.bind, h2 c!"w" (by decide), h2 c!"f" (by decide), pick_ok p (t := b!"ss") (by decide) rfl, pick_ok p (t := b!"tp") (by decide) rfl,
      decide_eq_true_eq]
    split
    · rename_i hw
      have hf : ¬ SameLetter a c!"f" := fun hf => by cases hw.unique hf (by decide) (by decide)
      split <;> rename_i hm <;> refine ⟨_, rfl, ?_⟩
      · exact names_known (t := b!"wss") (by simp [knownSchemes]) ⟨hw, hm⟩
      · exact names_unknown (by simpa [knownSchemes, EqualIgnoringCase, hw, hf] using hm)
    · rename_i hw
      split
      · rename_i hf
        split <;> rename_i hm <;> refine ⟨_, rfl, ?_⟩
        · exact names_known (t := b!"ftp") (by simp [knownSchemes]) ⟨hf, hm⟩
        · exact names_unknown (by simpa [knownSchemes, EqualIgnoringCase, hw, hf] using hm)
      · rename_i hf
        exact ⟨_, rfl, names_unknown (by simp [knownSchemes, EqualIgnoringCase, hw, hf])⟩
  | [a, b, c, d], h =>
    obtain ⟨k, h1, h2⟩ := tolower_ok (sg := sg) (a := a) fun hs => h hs a (List.mem_cons_self ..)
    rw [Scheme.ofString, h1]
    have p := h.sub (u := [b, c, d]) (by simp)
    simp only [bind, Except.bind, h2 c!"h" (by decide), h2 c!"f" (by decide), pick_ok p (t := b!"ile") (by decide) rfl, pick_ok p (t := b!"ttp") (by decide) rfl,
      decide_eq_true_eq]
    split
    · rename_i hw
      have hf : ¬ SameLetter a c!"h" := fun hf => by cases hw.unique hf (by decide) (by decide)
      split <;> rename_i hm <;> refine ⟨_, rfl, ?_⟩
      · exact names_known (t := b!"file") (by simp [knownSchemes]) ⟨hw, hm⟩
      · exact names_unknown (by simpa [knownSchemes, EqualIgnoringCase, hw, hf] using hm)
    · rename_i hw
      split
      · rename_i hf
        split <;> rename_i hm <;> refine ⟨_, rfl, ?_⟩
        · exact names_known (t := b!"http") (by simp [knownSchemes]) ⟨hf, hm⟩
        · exact names_unknown (by simpa [knownSchemes, EqualIgnoringCase, hw, hf] using hm)
      · rename_i hf
        exact ⟨_, rfl, names_unknown (by simp [knownSchemes, EqualIgnoringCase, hw, hf])⟩
  | [a, b, c, d, e], h =>
    rw [Scheme.ofString, pick_ok (t := b!"https") h (by decide) rfl]
    split <;> rename_i hm <;> refine ⟨_, rfl, ?_⟩
    · exact names_known (by simp [knownSchemes]) hm
    · exact names_unknown (by simpa [knownSchemes, EqualIgnoringCase] using hm)
  | a :: b :: c :: d :: e :: f :: s, _ =>
    exact ⟨.unknown, rfl, names_unknown (by simp [knownSchemes, EqualIgnoringCase])⟩

theorem known_lower {p : Str × Scheme} (h : p ∈ knownSchemes) : ∀ c ∈ p.1, Lower c := by
  revert p
  decide

theorem known_once {p q : Str × Scheme} (h : p ∈ knownSchemes) (h' : q ∈ knownSchemes) (he : p.1 = q.1) : p = q :=
  (show ∀ p ∈ knownSchemes, ∀ q ∈ knownSchemes, p.1 = q.1 → p = q by decide) p h q h' he

theorem known_once' {p q : Str × Scheme} (h : p ∈ knownSchemes) (h' : q ∈ knownSchemes) (he : p.2 = q.2) : p = q :=
  (show ∀ p ∈ knownSchemes, ∀ q ∈ knownSchemes, p.2 = q.2 → p = q by decide) p h q h' he

/-! ### C42 -/

/-- C42: a string is mapped to a known scheme exactly if it is its name, ignoring case, and to `unknown` if there is
none. The full claim is for all strings; missing are those with bytes from 128 on if `char` is signed. -/
theorem C42_partial {sg : Bool} {s : Str} (h : Plain sg s) :
    (∀ p ∈ knownSchemes, Scheme.ofString sg s = .ok p.2 ↔ EqualIgnoringCase s p.1) ∧
    (Scheme.ofString sg s = .ok .unknown ↔ ∀ p ∈ knownSchemes, ¬ EqualIgnoringCase s p.1) := by
  obtain ⟨k, hk, hn⟩ := ofString_names h
  have hne : ∀ p ∈ knownSchemes, p.2 ≠ .unknown := by decide
  rw [hk]
  by_cases hu : k = .unknown
  · subst hu
    rw [Names, if_pos rfl] at hn
    refine ⟨fun p hp => ⟨fun e => ?_, fun e => absurd e (hn p hp)⟩, fun _ => hn, fun _ => rfl⟩
    exact absurd (Except.ok.inj e).symm (hne p hp)
  · rw [Names, if_neg hu] at hn
    obtain ⟨t, ht, he⟩ := hn
    refine ⟨fun p hp => ⟨fun e => ?_, fun e => ?_⟩, fun e => ?_, fun e => absurd he (e _ ht)⟩
    · have e := Except.ok.inj e
      have : p = (t, k) := known_once' hp ht e.symm
      rw [this]
      exact he
    · rw [known_once hp ht (e.unique he (known_lower hp) (known_lower ht))]
    · exact absurd (Except.ok.inj e) hu

/-- C42 where `char` is unsigned: no condition is left. -/
theorem C42_unsigned (s : Str) :
    (∀ p ∈ knownSchemes, Scheme.ofString false s = .ok p.2 ↔ EqualIgnoringCase s p.1) ∧
    (Scheme.ofString false s = .ok .unknown ↔ ∀ p ∈ knownSchemes, ¬ EqualIgnoringCase s p.1) :=
  C42_partial (fun h => by cases h)

/-- C42: the name of a known scheme is mapped back to it. -/
theorem C42_to_string (sg : Bool) {k : Scheme} (h : k ≠ .unknown) : Scheme.ofString sg k.toStr = .ok k ∧ (k.toStr, k) ∈ knownSchemes := by
  cases k <;> first | exact absurd rfl h | (cases sg <;> decide)

/-- C42: exactly the six known schemes are special. -/
theorem C42_is_special_partial {sg : Bool} {s : Str} (h : Plain sg s) :
    ∃ b, Scheme.is_special sg s = .ok b ∧ (b = true ↔ ∃ t ∈ [b!"ftp", b!"file", b!"http", b!"https", b!"ws", b!"wss"], EqualIgnoringCase s t) := by
  obtain ⟨k, hk, hn⟩ := ofString_names h
  refine ⟨_, by rw [Scheme.is_special, hk]; rfl, ?_⟩
  rw [bne_iff_ne]
  by_cases hu : k = .unknown
  · subst hu
    rw [Names, if_pos rfl] at hn
    simpa [knownSchemes] using hn
  · rw [Names, if_neg hu] at hn
    obtain ⟨t, ht, he⟩ := hn
    refine ⟨fun _ => ⟨t, ?_, he⟩, fun _ => hu⟩
    have := List.mem_map_of_mem (f := Prod.fst) ht
    exact this

/-- The cases of C42. -/
example : Scheme.ofString true b!"hTtPs" = .ok .https ∧ Scheme.ofString true b!"WSS" = .ok .wss ∧ Scheme.ofString true b!"fil" = .ok .unknown ∧
    Scheme.ofString true b!"mailto" = .ok .unknown ∧ Scheme.is_special true b!"File" = .ok true := by decide

/-- C42 is false where `char` is signed: a byte from 128 to 254 that is reached is passed to `tolower` as a negative
number, which is undefined. -/
theorem C42_false {s : Str} {a : Byte} (ha : 128 ≤ a.toNat ∧ a.toNat ≠ 255) (hl : 1 ≤ s.length ∧ s.length ≤ 4) :
    Scheme.ofString true (a :: s) = .error .ub ∧ Scheme.is_special true (a :: s) = .error .ub := by
  have ht : tolower true a = .error .ub := by rw [tolower, if_pos (by simpa using ha)]
  have : Scheme.ofString true (a :: s) = .error .ub := by
    match s, hl with
    | [b], _ => rw [Scheme.ofString, Scheme.pick, Scheme.matches_, ht]; rfl
    | [b, c], _ => rw [Scheme.ofString, ht]; rfl
    | [b, c, d], _ => rw [Scheme.ofString, ht]; rfl
    | [b, c, d, e], _ => rw [Scheme.ofString, Scheme.pick, Scheme.matches_, ht]; rfl
    | b :: c :: d :: e :: f :: s, h => simp at h
  exact ⟨this, by rw [Scheme.is_special, this]; rfl⟩

example : Scheme.ofString true [0xc3, 0xa4] = .error .ub ∧ Scheme.ofString false [0xc3, 0xa4] = .ok .unknown := by decide

end Url.Props
