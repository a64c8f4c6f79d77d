import Verif.Proofs.V6

/-!
The grammar of IPv6 addresses in terms of lists of groups, and its agreement with the language of
the scanner.
-/

set_option linter.unusedSimpArgs false

namespace Url
open Spec

theorem H16s_iff {hex : Byte → Bool} {k : Nat} {x : Str} :
    H16s hex k x ↔ ∃ gs : List Str, gs.length = k ∧ (∀ g ∈ gs, H16 hex g) ∧ x = gs.flatMap (· ++ b!":") := by
  induction k generalizing x with
  | zero =>
    constructor
    · intro h; exact ⟨[], rfl, by simp, by simpa [H16s] using h⟩
    · rintro ⟨gs, h1, _, h3⟩
      have : gs = [] := by simpa using h1
      subst this; simpa [H16s] using h3
  | succ k ih =>
    constructor
    · rintro ⟨h, t, hh, ht, rfl⟩
      obtain ⟨gs, rfl, h2, rfl⟩ := ih.1 ht
      refine ⟨h :: gs, rfl, ?_, by simp⟩
      intro g hg; simp at hg; rcases hg with rfl | hg
      · exact hh
      · exact h2 g hg
    · rintro ⟨gs, h1, h2, rfl⟩
      match gs with
      | [] => simp at h1
      | h :: gs =>
        exact ⟨h, _, h2 h (by simp), ih.2 ⟨gs, by simpa using h1, fun g hg => h2 g (by simp [hg]), rfl⟩, by simp⟩

theorem flatMap_join (gs : List Str) (a : Str) :
    gs.flatMap (· ++ b!":") ++ a = joinC (gs ++ [a]) := by
  induction gs with
  | nil => simp [joinC]
  | cons g gs ih =>
    simp only [List.flatMap_cons, List.append_assoc, ih]
    cases gs <;> simp [joinC]

theorem exists_snoc {α} {l : List α} (h : l ≠ []) : ∃ a b, l = a ++ [b] :=
  ⟨l.dropLast, l.getLast h, (List.dropLast_concat_getLast h).symm⟩

/-- `m` groups; a dotted tail together with the group before it counts as two. -/
def Groups (hex : Byte → Bool) (O : Str → Prop) (m : Nat) (s : Str) : Prop :=
  (∃ gs, gs ≠ [] ∧ (∀ g ∈ gs, H16 hex g) ∧ gs.length = m ∧ s = joinC gs) ∨
  (∃ gs a t, (∀ g ∈ gs, H16 hex g) ∧ O a ∧ DottedTail t ∧ gs.length + 2 = m ∧ s = joinC (gs ++ [a]) ++ t)

/-- `a` followed by a dotted tail -/
def Quad (O : Str → Prop) (s : Str) : Prop := ∃ a t, O a ∧ DottedTail t ∧ s = a ++ t

theorem groups_iff {hex O k s} :
    (∃ x y, H16s hex k x ∧ Ls32 hex (Quad O) y ∧ s = x ++ y) ↔ Groups hex O (k + 2) s := by
  constructor
  · rintro ⟨x, y, hx, hy, rfl⟩
    obtain ⟨gs, rfl, h2, rfl⟩ := H16s_iff.1 hx
    rcases hy with ⟨a, b, ha, hb, rfl⟩ | ⟨a, t, ha, ht, rfl⟩
    · refine .inl ⟨gs ++ [a] ++ [b], by simp, ?_, by simp, ?_⟩
      · intro g hg; simp at hg; rcases hg with hg | rfl | rfl
        · exact h2 g hg
        · exact ha
        · exact hb
      · rw [← flatMap_join]; simp
    · exact .inr ⟨gs, a, t, h2, ha, ht, by simp, by rw [← flatMap_join]; simp⟩
  · rintro (⟨gs, h1, h2, h3, rfl⟩ | ⟨gs, a, t, h2, ha, ht, h3, rfl⟩)
    · obtain ⟨gs, b, rfl⟩ := exists_snoc h1
      have : gs ≠ [] := by intro h; subst h; simp at h3
      obtain ⟨gs, a, rfl⟩ := exists_snoc this
      refine ⟨gs.flatMap (· ++ b!":"), a ++ b!":" ++ b, H16s_iff.2 ⟨gs, by simpa using h3, ?_, rfl⟩,
        .inl ⟨a, b, h2 a (by simp), h2 b (by simp), rfl⟩, ?_⟩
      · exact fun g hg => h2 g (by simp [hg])
      · rw [← flatMap_join]; simp
    · refine ⟨gs.flatMap (· ++ b!":"), a ++ t, H16s_iff.2 ⟨gs, by omega, h2, rfl⟩,
        .inr ⟨a, t, ha, ht, rfl⟩, ?_⟩
      rw [← flatMap_join]; simp

theorem optGroups_iff {hex j p} :
    OptGroups hex j p ↔ ∃ gs : List Str, gs.length ≤ j ∧ (∀ g ∈ gs, H16 hex g) ∧ p = joinC gs := by
  constructor
  · rintro (rfl | ⟨k, x, y, hk, hx, hy, rfl⟩)
    · exact ⟨[], by simp, by simp, rfl⟩
    · obtain ⟨gs, rfl, h2, rfl⟩ := H16s_iff.1 hx
      refine ⟨gs ++ [y], by simp; omega, ?_, flatMap_join _ _⟩
      intro g hg; simp at hg; rcases hg with hg | rfl
      · exact h2 g hg
      · exact hy
  · rintro ⟨gs, h1, h2, rfl⟩
    by_cases h : gs = []
    · subst h; exact .inl rfl
    · obtain ⟨gs, a, rfl⟩ := exists_snoc h
      exact .inr ⟨gs.length, gs.flatMap (· ++ b!":"), a, by simp at h1; omega,
        H16s_iff.2 ⟨gs, rfl, fun g hg => h2 g (by simp [hg]), rfl⟩, h2 a (by simp), (flatMap_join _ _).symm⟩

/-- The IPv6 grammar by numbers of groups. -/
theorem ipv6_iff {hex O s} :
    IPv6 hex (Quad O) s ↔ Groups hex O 8 s ∨
      ∃ l r, (∀ g ∈ l, H16 hex g) ∧ s = joinC l ++ b!"::" ++ r ∧
        ((r = [] ∧ l.length ≤ 7) ∨ ∃ m, Groups hex O m r ∧ l.length + m ≤ 7) := by
  constructor
  · rintro (h | ⟨j, p, x, y, hj, hp, hx, hy, rfl⟩ | ⟨p, y, hp, hy, rfl⟩ | ⟨p, hp, rfl⟩)
    · exact .inl (groups_iff.1 h)
    · obtain ⟨l, h1, h2, rfl⟩ := optGroups_iff.1 hp
      exact .inr ⟨l, x ++ y, h2, by simp, .inr ⟨5 - j + 2, groups_iff.1 ⟨x, y, hx, hy, rfl⟩, by omega⟩⟩
    · obtain ⟨l, h1, h2, rfl⟩ := optGroups_iff.1 hp
      refine .inr ⟨l, y, h2, by simp, .inr ⟨1, .inl ⟨[y], by simp, by simpa using hy, rfl, by simp [joinC]⟩, by omega⟩⟩
    · obtain ⟨l, h1, h2, rfl⟩ := optGroups_iff.1 hp
      exact .inr ⟨l, [], h2, by simp, .inl ⟨rfl, h1⟩⟩
  · rintro (h | ⟨l, r, hl, rfl, ⟨rfl, h⟩ | ⟨m, hm, h⟩⟩)
    · exact .inl (groups_iff.2 h)
    · exact .inr (.inr (.inr ⟨joinC l, optGroups_iff.2 ⟨l, h, hl, rfl⟩, by simp⟩))
    · match m, hm, h with
      | 0, hm, h =>
        rcases hm with ⟨gs, h1, _, h3, _⟩ | ⟨gs, a, t, _, _, _, h3, _⟩
        · exact absurd (by simpa using h3) h1
        · omega
      | 1, hm, h =>
        rcases hm with ⟨gs, h1, h2, h3, rfl⟩ | ⟨gs, a, t, _, _, _, h3, _⟩
        · match gs, h3 with
          | [y], _ =>
            exact .inr (.inr (.inl ⟨joinC l, y, optGroups_iff.2 ⟨l, by omega, hl, rfl⟩, h2 y (by simp),
              by simp [joinC]⟩))
        · omega
      | k + 2, hm, h =>
        obtain ⟨x, y, hx, hy, rfl⟩ := groups_iff.2 hm
        exact .inr (.inl ⟨5 - k, joinC l, x, y, by omega, optGroups_iff.2 ⟨l, by omega, hl, rfl⟩,
          by rw [show 5 - (5 - k) = k by omega]; exact hx, hy, by simp⟩)

/-! ### agreement with the scanner -/

theorem lastVal_snoc (w : Nat) (gs : List Str) (y : Str) : lastVal w (gs ++ [y]) = hexValFrom 0 y := by
  simp [lastVal]

/-- a nonempty list of groups read by the scanner, with an optional tail -/
theorem groups_of_after {n : Nat} {h z : Str} (hh : H h) (hz : AfterT (n - 1) (hexValFrom 0 h) z)
    (hn : 0 < n) : ∃ m, Groups isUpperHex LooseOctet m (h ++ z) ∧ m ≤ n := by
  obtain ⟨ws, tail, h1, h2, h3, rfl⟩ := hz
  have hall : ∀ g ∈ h :: ws, H g := by
    intro g hg; simp at hg; rcases hg with rfl | hg
    · exact hh
    · exact h1 g hg
  rcases h3 with rfl | ⟨h3, ht, ho⟩
  · exact ⟨ws.length + 1, .inl ⟨h :: ws, by simp, hall, by simp, by simp [joinC]⟩, by omega⟩
  · obtain ⟨gs, a, e⟩ := exists_snoc (l := h :: ws) (by simp)
    have hl : lastVal (hexValFrom 0 h) ws = hexValFrom 0 a := by
      rw [← lastVal_cons 0, e, lastVal_snoc]
    rw [hl] at ho
    have ha : H a := hall a (by rw [e]; simp)
    refine ⟨gs.length + 2, .inr ⟨gs, a, tail, fun g hg => hall g (by rw [e]; simp [hg]),
      (maybe_octet_iff ha).1 ho, ht, rfl, ?_⟩, ?_⟩
    · rw [← e]; simp [joinC]
    · have := congrArg List.length e
      simp at this; omega

theorem after_of_groups {n m : Nat} {r : Str} (hr : Groups isUpperHex LooseOctet m r) (hm : m ≤ n) :
    ∃ h z, H h ∧ AfterT (n - 1) (hexValFrom 0 h) z ∧ r = h ++ z ∧ 0 < n := by
  rcases hr with ⟨gs, h1, h2, h3, rfl⟩ | ⟨gs, a, t, h2, ha, ht, h3, rfl⟩
  · match gs with
    | [] => exact absurd rfl h1
    | h :: ws =>
      refine ⟨h, colons ws, h2 h (by simp), ⟨ws, [], fun g hg => h2 g (by simp [hg]), ?_, .inl rfl, by simp⟩,
        rfl, by simp at h3; omega⟩
      simp at h3; omega
  · cases hws : gs ++ [a] with
    | nil => simp at hws
    | cons h ws =>
      have hall : ∀ g ∈ h :: ws, H g := by
        rw [← hws]; intro g hg; simp at hg; rcases hg with hg | rfl
        · exact h2 g hg
        · exact (looseH16 ha)
      have hl : lastVal (hexValFrom 0 h) ws = hexValFrom 0 a := by
        rw [← lastVal_cons 0, ← hws, lastVal_snoc]
      have hlen := congrArg List.length hws
      simp at hlen
      refine ⟨h, colons ws ++ t, hall h (by simp), ⟨ws, t, fun g hg => hall g (by simp [hg]), by omega,
        .inr ⟨by omega, ht, ?_⟩, rfl⟩, by simp [joinC], by omega⟩
      rw [hl]; exact (maybe_octet_iff (looseH16 ha)).2 ha

/-- The tail directly after `::`. -/
def Stray (l : List Str) (r : Str) : Prop :=
  DottedTail r ∧ l.length ≤ 6 ∧ (l = [] ∨ ∃ gs a, l = gs ++ [a] ∧ LooseOctet a)

theorem stray_iff {s : Str} : StrayTail s ↔
    ∃ l r, (∀ g ∈ l, H g) ∧ Stray l r ∧ s = joinC l ++ b!"::" ++ r := by
  constructor
  · rintro (⟨t, ht, rfl⟩ | ⟨k, x, y, t, hk, hx, hy, ht, rfl⟩)
    · exact ⟨[], t, by simp, ⟨ht, by simp, .inl rfl⟩, rfl⟩
    · obtain ⟨gs, rfl, h2, rfl⟩ := H16s_iff.1 hx
      refine ⟨gs ++ [y], t, ?_, ⟨ht, by simp; omega, .inr ⟨gs, y, rfl, hy⟩⟩, by rw [flatMap_join]⟩
      intro g hg; simp at hg; rcases hg with hg | rfl
      · exact h2 g hg
      · exact (looseH16 hy)
  · rintro ⟨l, r, h1, ⟨ht, hl, rfl | ⟨gs, a, rfl, ha⟩⟩, rfl⟩
    · exact .inl ⟨r, ht, by simp [joinC]⟩
    · exact .inr ⟨gs.length, _, a, r, by simp at hl; omega,
        H16s_iff.2 ⟨gs, rfl, fun g hg => h1 g (by simp [hg]), rfl⟩, ha, ht, by rw [flatMap_join]⟩

theorem after_iff {n : Nat} {w : Nat} {r : Str} :
    AfterF n w r ↔ r = [] ∨ (0 < n ∧ DottedTail r ∧ maybe_octet w = true) ∨
      ∃ m, Groups isUpperHex LooseOctet m r ∧ m ≤ n := by
  constructor
  · rintro ((rfl | h) | ⟨h, z, hn, hh, hz, rfl⟩)
    · exact .inl rfl
    · exact .inr (.inl h)
    · exact .inr (.inr (groups_of_after hh hz hn))
  · rintro (rfl | h | ⟨m, hm, h⟩)
    · exact .inl (.inl rfl)
    · exact .inl (.inr h)
    · obtain ⟨h, z, hh, hz, rfl, hn⟩ := after_of_groups hm h
      exact .inr ⟨h, z, hn, hh, hz, rfl⟩

theorem start_iff (x : Str) : Start x ↔ lib.ipLiteral x := by
  show _ ↔ IPv6 isUpperHex (Quad LooseOctet) x ∨ StrayTail x
  rw [ipv6_iff, stray_iff]
  constructor
  · rintro (⟨z, rfl, hz⟩ | ⟨h, z, hh, rfl, ws, z, h1, h2, rfl, hz⟩)
    · rcases after_iff.1 hz with rfl | ⟨_, ht, _⟩ | ⟨m, hm, h⟩
      · exact .inl (.inr ⟨[], [], by simp, rfl, .inl ⟨rfl, by simp⟩⟩)
      · exact .inr ⟨[], z, by simp, ⟨ht, by simp, .inl rfl⟩, rfl⟩
      · exact .inl (.inr ⟨[], z, by simp, rfl, .inr ⟨m, hm, by simpa using h⟩⟩)
    · have hall : ∀ g ∈ h :: ws, H g := by
        intro g hg; simp at hg; rcases hg with rfl | hg
        · exact hh
        · exact h1 g hg
      have hlast : ∃ gs a, h :: ws = gs ++ [a] ∧ H a ∧ lastVal (hexValFrom 0 h) ws = hexValFrom 0 a := by
        obtain ⟨gs, a, e⟩ := exists_snoc (l := h :: ws) (by simp)
        exact ⟨gs, a, e, hall a (by rw [e]; simp), by rw [← lastVal_cons 0, e, lastVal_snoc]⟩
      rcases hz with ⟨h7, rfl⟩ | ⟨z', hlt, rfl, hz⟩ | ⟨h7, ht, ho⟩
      · exact .inl (.inl (.inl ⟨h :: ws, by simp, hall, by simp [h7], by simp [joinC]⟩))
      · rcases after_iff.1 hz with rfl | ⟨h0, ht, ho⟩ | ⟨m, hm, h⟩
        · exact .inl (.inr ⟨h :: ws, [], hall, by simp [joinC], .inl ⟨rfl, by simp; omega⟩⟩)
        · obtain ⟨gs, a, e, ha, hl⟩ := hlast
          rw [hl] at ho
          exact .inr ⟨h :: ws, z', hall, ⟨ht, by simp; omega, .inr ⟨gs, a, e, (maybe_octet_iff ha).1 ho⟩⟩,
            by simp [joinC]⟩
        · exact .inl (.inr ⟨_ :: ws, z', hall, by simp [joinC], .inr ⟨m, hm, by simp; omega⟩⟩)
      · obtain ⟨gs, a, e, ha, hl⟩ := hlast
        rw [hl] at ho
        refine .inl (.inl (.inr ⟨gs, a, z, fun g hg => hall g (by rw [e]; simp [hg]),
          (maybe_octet_iff ha).1 ho, ht, ?_, ?_⟩))
        · have := congrArg List.length e
          simp at this; omega
        · rw [← e]; simp [joinC]
  · rintro ((h8 | ⟨l, r, hl, rfl, hr⟩) | ⟨l, r, hl, ⟨ht, hlen, hlast⟩, rfl⟩)
    · rcases h8 with ⟨gs, h1, h2, h3, rfl⟩ | ⟨gs, a, t, h2, ha, ht, h3, rfl⟩
      · match gs with
        | [] => exact absurd rfl h1
        | h :: ws =>
          exact .inr ⟨h, colons ws, h2 h (by simp), rfl, ws, [], fun g hg => h2 g (by simp [hg]),
            by simp at h3; omega, by simp, .inl ⟨by simpa using h3, rfl⟩⟩
      · cases hws : gs ++ [a] with
        | nil => simp at hws
        | cons h ws =>
          have hall : ∀ g ∈ h :: ws, H g := by
            rw [← hws]; intro g hg; simp at hg; rcases hg with hg | rfl
            · exact h2 g hg
            · exact (looseH16 ha)
          have hl : lastVal (hexValFrom 0 h) ws = hexValFrom 0 a := by
            rw [← lastVal_cons 0, ← hws, lastVal_snoc]
          have hlen := congrArg List.length hws
          simp at hlen
          refine .inr ⟨h, colons ws ++ t, hall h (by simp), by simp [joinC], ws, t,
            fun g hg => hall g (by simp [hg]), by omega, rfl, .inr (.inr ⟨by omega, ht, ?_⟩)⟩
          rw [hl]; exact (maybe_octet_iff (looseH16 ha)).2 ha
    · match l with
      | [] =>
        refine .inl ⟨r, by simp [joinC], after_iff.2 ?_⟩
        rcases hr with ⟨rfl, _⟩ | ⟨m, hm, h⟩
        · exact .inl rfl
        · exact .inr (.inr ⟨m, hm, by simpa using h⟩)
      | h :: ws =>
        simp only [List.length_cons] at hr
        have hlen : ws.length ≤ 6 := by rcases hr with ⟨_, h⟩ | ⟨m, _, h⟩ <;> omega
        refine .inr ⟨h, colons ws ++ (b!"::" ++ r), hl h (by simp), by simp [joinC], ws, b!"::" ++ r,
          fun g hg => hl g (by simp [hg]), by omega, rfl,
          .inr (.inl ⟨r, by omega, rfl, after_iff.2 ?_⟩)⟩
        rcases hr with ⟨rfl, _⟩ | ⟨m, hm, h⟩
        · exact .inl rfl
        · exact .inr (.inr ⟨m, hm, by omega⟩)
    · match l with
      | [] => exact .inl ⟨r, by simp [joinC], after_iff.2 (.inr (.inl ⟨by omega, ht, by decide⟩))⟩
      | h :: ws =>
        simp only [List.length_cons] at hlen
        refine .inr ⟨h, colons ws ++ (b!"::" ++ r), hl h (by simp), by simp [joinC], ws, b!"::" ++ r,
          fun g hg => hl g (by simp [hg]), by omega, rfl,
          .inr (.inl ⟨r, by omega, rfl, after_iff.2 (.inr (.inl ⟨by omega, ht, ?_⟩))⟩)⟩
        rcases hlast with hlast | ⟨gs, a, e, ha⟩
        · simp at hlast
        · have : lastVal (hexValFrom 0 h) ws = hexValFrom 0 a := by
            rw [← lastVal_cons 0, e, lastVal_snoc]
          rw [this]; exact (maybe_octet_iff (looseH16 ha)).2 ha

end Url
