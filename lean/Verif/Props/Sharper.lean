import Verif.Props.Chars
import Verif.Props.Params
import Verif.Props.Pool
import Verif.Props.Scheme

/-!
Exact conditions for further properties that hold only in part: C14, C38, C40, C42 and C43.
-/

set_option linter.unusedSimpArgs false
set_option autoImplicit false

namespace Url.Props
open Url Spec

/-! ### C14 -/

theorem Tame.mem {b : Bool} {l : List Str} (h : Tame b l) {s : Str} (hs : s ∈ l) :
    Escaped isUpperHex isPchar s ∨ ∃ w t, s = w :: t ∧ Escaped isUpperHex isPchar t := by
  induction h with
  | nil => cases hs
  | well h _ ih =>
    rcases List.mem_cons.1 hs with rfl | hs
    · exact .inl h
    · exact ih hs
  | wild h _ ih =>
    rcases List.mem_cons.1 hs with rfl | hs
    · exact .inr ⟨_, _, rfl, h⟩
    · exact ih hs

theorem decodeRaw_char {c : Byte} {s : Str} (h : c ≠ c!"%") : decodeRaw (c :: s) = (decodeRaw s).map (c :: ·) := by
  conv => lhs; unfold decodeRaw
  rw [if_pos (by simpa using h)]

theorem hex_not_pct {c : Byte} (h : isUpperHex c = true) : c ≠ c!"%" := by
  rintro rfl
  exact absurd h (by decide)

theorem decodeRaw_hex {a : Byte} {s d : Str} (ha : isUpperHex a = true) (h : decodeRaw s = some d) : decodeRaw (a :: s) = some (a :: d) := by
  rw [decodeRaw_char (hex_not_pct ha), h]; rfl

/-- without its first two characters -/
theorem decode_cut {a b : Byte} {u : Str} (h : Escaped isUpperHex isPchar (a :: b :: u)) : ∃ d, decodeRaw u = some d := by
  have key : ∀ {b : Byte} {u : Str}, Escaped isUpperHex isPchar (b :: u) → ∃ d, decodeRaw u = some d := by
    intro b u h
    cases h with
    | char _ h => exact decodeRaw_escaped (by decide) h
    | pct h1 h2 h3 =>
      obtain ⟨d, hd⟩ := decodeRaw_escaped (by decide) h3
      exact ⟨_, decodeRaw_hex h1 (decodeRaw_hex h2 hd)⟩
  cases h with
  | char _ h => exact key h
  | pct h1 h2 h3 =>
    obtain ⟨d, hd⟩ := decodeRaw_escaped (by decide) h3
    exact ⟨_, decodeRaw_hex h2 hd⟩

/-- the outcome of decoding -/
def outcome : Option Str → R Str
  | some d => .ok d
  | none => .error .ub

theorem string_eq (s : Str) : Seg.string s = outcome (decodeRaw s) := by
  rw [Seg.string, decodeR, decode_eq]
  cases decodeRaw s <;> rfl

theorem hex_value (c : Byte) : isHex c = true →
    (isUpperHex c = true ∧ hex_digit c = hexVal c ∧ hexVal c < 16) ∨ (isUpperHex c = false ∧ hex_digit c = 255 ∧ hexVal c < 16 ∧ (hexVal c = 15 → c = c!"f") ∧ (hexVal c = 14 → c = c!"e")) :=
  forall_byte (P := fun c => isHex c = true →
    (isUpperHex c = true ∧ hex_digit c = hexVal c ∧ hexVal c < 16) ∨ (isUpperHex c = false ∧ hex_digit c = 255 ∧ hexVal c < 16 ∧ (hexVal c = 15 → c = c!"f") ∧ (hexVal c = 14 → c = c!"e")))
    (by decide +kernel) c

/-- C14 for a segment of any url: decoding it is undefined exactly if it is `%` or `%` and one more character, and it is
right exactly if a `%` at its start is followed by two hex digits, the first of them `f` or in upper case and the second
in upper case, or by `ef` (wrong digits count as 255, which happens to be right for these). -/
theorem C14_exact {env : Env} {st : St} (hr : Reach env st) (dbg : Bool) {p : Str} (hp : encoded_path (st.obj dbg) = .ok p) {s : Str}
    (hs : s ∈ pathSegments p) :
    (Seg.string s = .error .ub ↔ ∃ t, s = c!"%" :: t ∧ t.length < 2) ∧
    ((∃ d, Seg.string s = .ok d ∧ Decoded s d) ↔
      ∀ t, s = c!"%" :: t → ∃ a b u, t = a :: b :: u ∧ ((isUpperHex a = true ∨ a = c!"f") ∧ isUpperHex b = true ∨ a = c!"e" ∧ b = c!"f")) := by
  obtain ⟨c, hrep, -, ht⟩ := Reach.tame hr
  rw [(hrep.reports dbg).path] at hp
  cases hp
  rw [string_eq]
  have good : ∀ {s}, Escaped isUpperHex isPchar s → ∃ d, decodeRaw s = some d ∧ Decoded s d := fun h => decodeRaw_decoded (by decide) h
  rcases ht.tame.mem hs with h | ⟨w, t, rfl, h⟩
  · obtain ⟨d, h1, h2⟩ := good h
    rw [h1]
    refine ⟨⟨nofun, ?_⟩, ⟨fun _ => ?_, fun _ => ⟨d, rfl, h2⟩⟩⟩
    · rintro ⟨t, rfl, hl⟩
      cases h with
      | char hc => exact absurd hc (by decide)
      | pct => simp only [List.length_cons] at hl; omega
    · rintro t rfl
      cases h with
      | char hc => exact absurd hc (by decide)
      | pct ha hb _ => exact ⟨_, _, _, rfl, .inl ⟨.inl ha, hb⟩⟩
  · by_cases hw : w = c!"%"
    · subst hw
      match t, h with
      | [], _ =>
        refine ⟨⟨fun _ => ⟨_, rfl, by simp⟩, fun _ => rfl⟩, ⟨?_, fun h => ?_⟩⟩
        · rintro ⟨d, h1, -⟩; cases h1
        · obtain ⟨a, b, u, e, -⟩ := h _ rfl; cases e
      | [a], _ =>
        refine ⟨⟨fun _ => ⟨_, rfl, by simp⟩, fun _ => rfl⟩, ⟨?_, fun h => ?_⟩⟩
        · rintro ⟨d, h1, -⟩; cases h1
        · obtain ⟨a, b, u, e, -⟩ := h _ rfl; cases e
      | a :: b :: u, h =>
        obtain ⟨d, hd⟩ := decode_cut h
        have e : decodeRaw (c!"%" :: a :: b :: u) = some (unescape a b :: d) := by
          rw [decodeRaw, if_neg (by decide)]; simp only [hd, Option.map_some]
        rw [e]
        have hval : (unescape a b).toNat = (hex_digit a * 16 + hex_digit b) % 256 := by
          unfold unescape; exact UInt8.toNat_ofNat'
        refine ⟨⟨nofun, ?_⟩, ⟨?_, fun hh => ?_⟩⟩
        · rintro ⟨t, e, hl⟩
          cases e
          simp only [List.length_cons] at hl; omega
        · rintro ⟨_, e', hD⟩ t e
          simp only [outcome, Except.ok.injEq] at e'
          cases e
          generalize unescape a b = x at hval e'
          subst e'
          refine ⟨a, b, u, rfl, ?_⟩
          cases hD with
          | char hc => exact absurd rfl hc
          | pct ha hb hx _ =>
            rw [hval] at hx
            rcases hex_value a ha with ⟨a1, a2, a3⟩ | ⟨a1, a2, a3, a4, a5⟩ <;> rcases hex_value b hb with ⟨b1, b2, b3⟩ | ⟨b1, b2, b3, b4, b5⟩
            · exact .inl ⟨.inl a1, b1⟩
            · rw [a2, b2] at hx; omega
            · rw [a2, b2] at hx; exact .inl ⟨.inr (a4 (by omega)), b1⟩
            · rw [a2, b2] at hx; exact .inr ⟨a5 (by omega), b4 (by omega)⟩
        · obtain ⟨a', b', u', e', h1⟩ := hh _ rfl
          cases e'
          have hha : isHex a = true ∧ a ≠ c!"%" := by
            rcases h1 with ⟨h1 | rfl, -⟩ | ⟨rfl, -⟩
            · exact ⟨upper_isHex _ h1, hex_not_pct h1⟩
            · decide
            · decide
          have hhb : isHex b = true ∧ b ≠ c!"%" := by
            rcases h1 with ⟨-, h1⟩ | ⟨-, rfl⟩
            · exact ⟨upper_isHex _ h1, hex_not_pct h1⟩
            · decide
          have hu : Escaped isUpperHex isPchar u := by
            cases h with
            | char _ h => cases h with
              | char _ h => exact h
              | pct => exact absurd rfl hhb.2
            | pct => exact absurd rfl hha.2
          obtain ⟨d', h3, h4⟩ := good hu
          rw [hd] at h3
          cases h3
          refine ⟨_, rfl, .pct hha.1 hhb.1 ?_ h4⟩
          rw [hval]
          rcases h1 with ⟨h1, h2⟩ | ⟨rfl, rfl⟩
          · rcases hex_value b hhb.1 with ⟨b1, b2, b3⟩ | ⟨b1, b2, b3, b4, b5⟩
            · rcases h1 with h1 | rfl
              · rcases hex_value a hha.1 with ⟨a1, a2, a3⟩ | ⟨a1, a2, a3, a4, a5⟩
                · rw [a2, b2]; omega
                · rw [h1] at a1; cases a1
              · rw [b2, show hex_digit c!"f" = 255 by decide +kernel, show hexVal c!"f" = 15 by decide +kernel]; omega
            · rw [h2] at b1; cases b1
          · decide +kernel
    · obtain ⟨d, h1, h2⟩ := good h
      rw [decodeRaw_char hw, h1]
      refine ⟨⟨nofun, ?_⟩, ⟨fun _ => ?_, fun _ => ⟨_, rfl, .char hw h2⟩⟩⟩
      · rintro ⟨t, e, -⟩; cases e; exact absurd rfl hw
      · rintro t e; cases e; exact absurd rfl hw

-- decoded wrongly, decoded well by accident, and undefined
example : Seg.string b!"%ab" = .ok [239] ∧ Seg.string b!"%fA" = .ok [250] ∧ Seg.string b!"%ef" = .ok [239] ∧ Seg.string b!"%A" = .error .ub := by decide +kernel

-- `C14_moved_false` has a url with the segment `%`

/-! ### C38 and C40 -/

variable {o : Obj}

/-- C38: with enough steps the loop over the parameters gives the pairs of the query exactly if each `&`-piece has a `=`,
except possibly the last one if no fragment follows. -/
theorem C38_exact (h : Readable o) {q fr : Str} (hq : query_part o = .ok (c!"?" :: q)) (hfr : fragment_part o = .ok fr) {fuel : Nat}
    (hfu : (queryPairs q).length < fuel) :
    Params.walk o fuel = .ok (shown (queryPairs q)) ↔
      Regular q ∧ (fr = [] ∨ ∀ p, (queryPairs q).getLast? = some p → p.2 ≠ none) := by
  rcases h.cases with ⟨h1, -⟩ | ⟨q', A, F, h1, h1', h2, hqc, ctx⟩
  · rw [hq] at h1; cases h1
  rw [hq] at h1
  cases h1
  rw [hfr] at h2
  cases h2
  constructor
  · intro hw
    have hr : Regular q := by
      refine Classical.byContradiction fun hr => ?_
      have := C38_irregular_false h hq hr hw
      simp [shown, queryPairs] at this
    refine ⟨hr, ?_⟩
    refine Classical.byContradiction fun hn => ?_
    obtain ⟨h3, h4⟩ := not_or.1 hn
    simp only [ne_eq, Classical.not_forall, Classical.not_not] at h4
    obtain ⟨⟨k, v⟩, h5, h6⟩ := h4
    cases h6
    rw [← libPairs_regular hqc hr] at h5
    exact ctx.walk_bad h5 rfl h3 fuel _ hw
  · rintro ⟨hr, hf⟩
    refine C38_partial h hq hr ?_ hfu
    rcases hf with rfl | hf
    · exact .inl hfr
    · exact .inr hf

/-- C40: after an increment a decrement leads back exactly if there is no `&` in the key and either the parameter is not
the first one, or the next one has the same sizes. -/
theorem C40_exact (h : Readable o) {fuel : Nat} {ps : List Param} (hw : Params.walk o fuel = .ok ps) {k : Nat} {p : Param}
    (hp : ps[k]? = some p) : ∃ a b, Params.nth o k = .ok a ∧ Params.next o a = .ok b ∧
      (Params.prev o b = .ok a ↔ c!"&" ∉ p.key ∧ (0 < k ∨ (a.nk = b.nk ∧ a.nv = b.nv))) := by
  by_cases ha : c!"&" ∈ p.key
  · obtain ⟨a, b, h1, h2, h3, h4⟩ := C40_amp_false h hw hp ha
    exact ⟨a, b, h1, h3, ⟨fun e => absurd rfl (h4 _ e), fun e => absurd ha e.1⟩⟩
  · rcases Nat.eq_zero_or_pos k with rfl | hk
    · obtain ⟨a, b, h1, h2, h3⟩ := C40_first_false h hw hp ha
      refine ⟨a, b, h1, ?_, ?_⟩
      · rw [Params.nth, h1] at h2; exact h2
      · rw [h3]
        rcases a with ⟨a1, a2, a3⟩
        simp only [Except.ok.injEq, ParamIt.mk.injEq, true_and, ha, not_false_eq_true, Nat.lt_irrefl, false_or]
        exact ⟨fun h => ⟨h.1.symm, h.2.symm⟩, fun h => ⟨h.1.symm, h.2.symm⟩⟩
    · obtain ⟨a, b, h1, h2, h3, h4⟩ := C40_partial h hw hk hp ha
      exact ⟨a, b, h1, h3, ⟨fun _ => ⟨ha, .inl hk⟩, fun _ => h4⟩⟩

theorem made_readable {env : Env} {s : Str} (h : returns (Base.make s env Base.empty) = true) (dbg : Bool) : Readable ((made env s).obj dbg) := by
  refine readable_make (env := env) (st := Base.empty) (s := s) ?_ dbg
  unfold made
  revert h
  cases Base.make s env Base.empty <;> simp [returns]

-- with a last piece without `=`: not if a fragment follows
example : Readable ((made env0 b!"?a=1&k#f").obj true) ∧ query_part ((made env0 b!"?a=1&k#f").obj true) = .ok b!"?a=1&k" ∧
    fragment_part ((made env0 b!"?a=1&k#f").obj true) = .ok b!"#f" ∧ Regular b!"a=1&k" ∧ (queryPairs b!"a=1&k").getLast? = some (b!"k", none) :=
  ⟨made_readable (by decide +kernel) _, by decide +kernel, by decide +kernel, by decide +kernel, by decide +kernel⟩

-- two parameters of the same sizes, so that going back to the first one works
example : Readable ((made env0 b!"?a=1&b=2").obj true) ∧ Params.walk ((made env0 b!"?a=1&b=2").obj true) 3 = .ok [⟨b!"a", b!"1"⟩, ⟨b!"b", b!"2"⟩] ∧
    (do Params.prev ((made env0 b!"?a=1&b=2").obj true) (← Params.nth ((made env0 b!"?a=1&b=2").obj true) 1)) = .ok ⟨0, 2, 2⟩ ∧
    Params.nth ((made env0 b!"?a=1&b=2").obj true) 0 = .ok ⟨0, 2, 2⟩ :=
  ⟨made_readable (by decide +kernel) _, by decide +kernel, by decide +kernel, by decide +kernel⟩

/-! ### C42 -/

/-- a byte outside the domain of `tolower` if `char` is signed -/
def Outside (c : Byte) : Prop := 128 ≤ c.toNat ∧ c.toNat ≠ 255

instance : DecidablePred Outside := fun c => by unfold Outside; infer_instance

/-- Comparing `s` with `t` meets such a byte before a difference. -/
def Stops (sg : Bool) (s t : Str) : Prop := sg = true ∧ ∃ x c y, s = x ++ c :: y ∧ Outside c ∧ EqualIgnoringCase x (t.take x.length)

theorem stops_nil (sg : Bool) (t : Str) : ¬ Stops sg [] t := by
  rintro ⟨-, x, c, y, e, -⟩
  cases x <;> cases e

theorem stops_cons {sg : Bool} {a c : Byte} {s t : Str} :
    Stops sg (a :: s) (c :: t) ↔ (sg = true ∧ Outside a) ∨ (SameLetter a c ∧ Stops sg s t) := by
  constructor
  · rintro ⟨h, x, d, y, e, h1, h2⟩
    cases x with
    | nil => cases e; exact .inl ⟨h, h1⟩
    | cons x0 x =>
      cases e
      exact .inr ⟨h2.1, h, x, d, y, rfl, h1, h2.2⟩
  · rintro (⟨h, h1⟩ | ⟨h0, h, x, d, y, rfl, h1, h2⟩)
    · exact ⟨h, [], a, s, rfl, h1, trivial⟩
    · exact ⟨h, a :: x, d, y, rfl, h1, h0, h2⟩

theorem tolower_exact (sg : Bool) (a : Byte) : (sg = true ∧ Outside a ∧ tolower sg a = .error .ub) ∨
    (¬ (sg = true ∧ Outside a) ∧ ∃ b, tolower sg a = .ok b ∧ ∀ c : Byte, Lower c → (b == c) = decide (SameLetter a c)) := by
  by_cases h : sg = true ∧ Outside a
  · refine .inl ⟨h.1, h.2, ?_⟩
    obtain ⟨rfl, h1, h2⟩ := h
    rw [tolower, if_pos (by simp [h1, h2])]
  · refine .inr ⟨h, ?_⟩
    by_cases h5 : a.toNat = 255
    · refine ⟨a, ?_, ?_⟩
      · rw [tolower, if_neg (by simp [h5]), if_neg (by simp [h5])]
      · intro c ⟨c1, c2⟩
        rw [Bool.eq_iff_iff, beq_iff_eq, decide_eq_true_eq, SameLetter, ← UInt8.toNat_inj]
        omega
    · refine tolower_ok fun hs => ?_
      by_cases h6 : 128 ≤ a.toNat
      · exact absurd ⟨hs, h6, h5⟩ h
      · omega

theorem matches_exact (sg : Bool) {s t : Str} (ht : ∀ c ∈ t, Lower c) (hl : s.length = t.length) :
    (Stops sg s t ∧ Scheme.matches_ sg s t = .error .ub) ∨
    (¬ Stops sg s t ∧ Scheme.matches_ sg s t = .ok (decide (EqualIgnoringCase s t))) := by
  induction t generalizing s with
  | nil =>
    obtain rfl := List.length_eq_zero_iff.1 hl
    exact .inr ⟨stops_nil _ _, rfl⟩
  | cons c t ih =>
    cases s with
    | nil => cases hl
    | cons a s =>
      have hi := ih (s := s) (fun x hx => ht x (List.mem_cons_of_mem _ hx)) (by simpa using hl)
      rw [stops_cons]
      rcases tolower_exact sg a with ⟨h1, h2, h3⟩ | ⟨h1, b, h3, h4⟩
      · refine .inl ⟨.inl ⟨h1, h2⟩, ?_⟩
        rw [Scheme.matches_, h3]; rfl
      · rw [Scheme.matches_, h3]
        simp only [bind, Except.bind, h4 c (ht c (List.mem_cons_self ..)), decide_eq_true_eq]
        by_cases hs : SameLetter a c
        · rw [if_pos hs]
          rcases hi with ⟨i1, i2⟩ | ⟨i1, i2⟩
          · exact .inl ⟨.inr ⟨hs, i1⟩, i2⟩
          · refine .inr ⟨?_, ?_⟩
            · rintro (h | h)
              · exact h1 h
              · exact i1 h.2
            · rw [i2]; simp [EqualIgnoringCase, hs]
        · rw [if_neg hs]
          refine .inr ⟨?_, ?_⟩
          · rintro (h | h)
            · exact h1 h
            · exact hs h.1
          · simp [EqualIgnoringCase, hs, pure, Except.pure]

theorem pick_exact (sg : Bool) {s t : Str} {r : Scheme} (ht : ∀ c ∈ t, Lower c) (hl : s.length = t.length) :
    (Stops sg s t ∧ Scheme.pick sg s t r = .error .ub) ∨
    (¬ Stops sg s t ∧ Scheme.pick sg s t r = .ok (if EqualIgnoringCase s t then r else .unknown)) := by
  rw [Scheme.pick]
  rcases matches_exact sg ht hl with ⟨h1, h2⟩ | ⟨h1, h2⟩ <;> rw [h2]
  · exact .inl ⟨h1, rfl⟩
  · refine .inr ⟨h1, ?_⟩
    by_cases hs : EqualIgnoringCase s t <;> simp [hs, bind, Except.bind, pure, Except.pure]

/-- Reading the text as a scheme meets a byte outside the domain of `tolower`. -/
def Meets (sg : Bool) (s : Str) : Prop := ∃ p ∈ knownSchemes, p.1.length = s.length ∧ Stops sg s p.1

theorem ofString_exact (sg : Bool) (s : Str) :
    (Meets sg s ∧ Scheme.ofString sg s = .error .ub) ∨ (¬ Meets sg s ∧ ∃ k, Scheme.ofString sg s = .ok k ∧ Names s k) := by
  have short : ∀ {s : Str}, (∀ p ∈ knownSchemes, p.1.length ≠ s.length) → ¬ Meets sg s ∧ Names s .unknown := by
    intro s h
    refine ⟨fun ⟨p, h1, h2, _⟩ => h p h1 h2, names_unknown fun p hp he => h p hp ?_⟩
    clear h hp
    generalize p.1 = t at he
    induction s generalizing t with
    | nil => cases t <;> first | rfl | exact he.elim
    | cons a s ih =>
      cases t with
      | nil => exact he.elim
      | cons b t => simp [ih t he.2]
  match s with
  | [] => exact .inr ⟨(short (by decide)).1, _, rfl, (short (by decide)).2⟩
  | [a] => exact .inr ⟨(short (s := [a]) (by simp [knownSchemes])).1, _, rfl, (short (s := [a]) (by simp [knownSchemes])).2⟩
  | [a, b] =>
    have hm : Meets sg [a, b] ↔ Stops sg [a, b] b!"ws" := by simp [Meets, knownSchemes]
    rw [hm, Scheme.ofString]
    rcases pick_exact sg (s := [a, b]) (t := b!"ws") (r := .ws) (by decide) rfl with ⟨h1, h2⟩ | ⟨h1, h2⟩ <;> rw [h2]
    · exact .inl ⟨h1, rfl⟩
    · refine .inr ⟨h1, _, rfl, ?_⟩
      split <;> rename_i hm
      · exact names_known (by simp [knownSchemes]) hm
      · exact names_unknown (by simpa [knownSchemes, EqualIgnoringCase] using hm)
  | [a, b, c] =>
    have hm : Meets sg [a, b, c] ↔ Stops sg [a, b, c] b!"ftp" ∨ Stops sg [a, b, c] b!"wss" := by simp [Meets, knownSchemes]
    have e1 := stops_cons (sg := sg) (a := a) (c := c!"f") (s := [b, c]) (t := b!"tp")
    have e2 := stops_cons (sg := sg) (a := a) (c := c!"w") (s := [b, c]) (t := b!"ss")
    rw [hm, show b!"ftp" = c!"f" :: b!"tp" from rfl, show b!"wss" = c!"w" :: b!"ss" from rfl, e1, e2, Scheme.ofString]
    rcases tolower_exact sg a with ⟨h1, h2, h3⟩ | ⟨h1, k, h3, h4⟩ <;> rw [h3]
    · exact .inl ⟨.inl (.inl ⟨h1, h2⟩), rfl⟩
    · simp only [bind, Except.bind, h4 c!"w" (by decide), h4 c!"f" (by decide), decide_eq_true_eq, h1, false_or]
      by_cases hw : SameLetter a c!"w"
      · have hf : ¬ SameLetter a c!"f" := fun hf => by cases hw.unique hf (by decide) (by decide)
        simp only [if_pos hw, hf, hw, false_and, true_and, false_or]
        rcases pick_exact sg (s := [b, c]) (t := b!"ss") (r := .wss) (by decide) rfl with ⟨h1, h2⟩ | ⟨h1, h2⟩ <;> rw [h2]
        · exact .inl ⟨h1, rfl⟩
        · refine .inr ⟨h1, _, rfl, ?_⟩
          split <;> rename_i hm
          · exact names_known (t := b!"wss") (by simp [knownSchemes]) ⟨hw, hm⟩
          · exact names_unknown (by simpa [knownSchemes, EqualIgnoringCase, hw, hf] using hm)
      · by_cases hf : SameLetter a c!"f"
        · simp only [if_neg hw, if_pos hf, hf, hw, false_and, true_and, or_false]
          rcases pick_exact sg (s := [b, c]) (t := b!"tp") (r := .ftp) (by decide) rfl with ⟨h1, h2⟩ | ⟨h1, h2⟩ <;> rw [h2]
          · exact .inl ⟨h1, rfl⟩
          · refine .inr ⟨h1, _, rfl, ?_⟩
            split <;> rename_i hm
            · exact names_known (t := b!"ftp") (by simp [knownSchemes]) ⟨hf, hm⟩
            · exact names_unknown (by simpa [knownSchemes, EqualIgnoringCase, hw, hf] using hm)
        · simp only [if_neg hw, if_neg hf, hf, hw, false_and, or_false]
          exact .inr ⟨id, _, rfl, names_unknown (by simp [knownSchemes, EqualIgnoringCase, hw, hf])⟩
  | [a, b, c, d] =>
    have hm : Meets sg [a, b, c, d] ↔ Stops sg [a, b, c, d] b!"file" ∨ Stops sg [a, b, c, d] b!"http" := by simp [Meets, knownSchemes]
    have e1 := stops_cons (sg := sg) (a := a) (c := c!"f") (s := [b, c, d]) (t := b!"ile")
    have e2 := stops_cons (sg := sg) (a := a) (c := c!"h") (s := [b, c, d]) (t := b!"ttp")
    rw [hm, show b!"file" = c!"f" :: b!"ile" from rfl, show b!"http" = c!"h" :: b!"ttp" from rfl, e1, e2, Scheme.ofString]
    rcases tolower_exact sg a with ⟨h1, h2, h3⟩ | ⟨h1, k, h3, h4⟩ <;> rw [h3]
    · exact .inl ⟨.inl (.inl ⟨h1, h2⟩), rfl⟩
    · simp only [bind, Except.bind, h4 c!"h" (by decide), h4 c!"f" (by decide), decide_eq_true_eq, h1, false_or]
      by_cases hf : SameLetter a c!"f"
      · have hw : ¬ SameLetter a c!"h" := fun hw => by cases hw.unique hf (by decide) (by decide)
        simp only [if_pos hf, hf, hw, false_and, true_and, or_false]
        rcases pick_exact sg (s := [b, c, d]) (t := b!"ile") (r := .file) (by decide) rfl with ⟨h1, h2⟩ | ⟨h1, h2⟩ <;> rw [h2]
        · exact .inl ⟨h1, rfl⟩
        · refine .inr ⟨h1, _, rfl, ?_⟩
          split <;> rename_i hm
          · exact names_known (t := b!"file") (by simp [knownSchemes]) ⟨hf, hm⟩
          · exact names_unknown (by simpa [knownSchemes, EqualIgnoringCase, hw, hf] using hm)
      · by_cases hw : SameLetter a c!"h"
        · simp only [if_neg hf, if_pos hw, hf, hw, false_and, true_and, false_or]
          rcases pick_exact sg (s := [b, c, d]) (t := b!"ttp") (r := .http) (by decide) rfl with ⟨h1, h2⟩ | ⟨h1, h2⟩ <;> rw [h2]
          · exact .inl ⟨h1, rfl⟩
          · refine .inr ⟨h1, _, rfl, ?_⟩
            split <;> rename_i hm
            · exact names_known (t := b!"http") (by simp [knownSchemes]) ⟨hw, hm⟩
            · exact names_unknown (by simpa [knownSchemes, EqualIgnoringCase, hw, hf] using hm)
        · simp only [if_neg hw, if_neg hf, hf, hw, false_and, or_false]
          exact .inr ⟨id, _, rfl, names_unknown (by simp [knownSchemes, EqualIgnoringCase, hw, hf])⟩
  | [a, b, c, d, e] =>
    have hm : Meets sg [a, b, c, d, e] ↔ Stops sg [a, b, c, d, e] b!"https" := by simp [Meets, knownSchemes]
    rw [hm, Scheme.ofString]
    rcases pick_exact sg (s := [a, b, c, d, e]) (t := b!"https") (r := .https) (by decide) rfl with ⟨h1, h2⟩ | ⟨h1, h2⟩ <;> rw [h2]
    · exact .inl ⟨h1, rfl⟩
    · refine .inr ⟨h1, _, rfl, ?_⟩
      split <;> rename_i hm
      · exact names_known (by simp [knownSchemes]) hm
      · exact names_unknown (by simpa [knownSchemes, EqualIgnoringCase] using hm)
  | a :: b :: c :: d :: e :: f :: s =>
    have h : ∀ p ∈ knownSchemes, p.1.length ≠ (a :: b :: c :: d :: e :: f :: s).length := by
      intro p hp
      have : p.1.length ≤ 5 := (show ∀ p ∈ knownSchemes, p.1.length ≤ 5 by decide) p hp
      simp only [List.length_cons]; omega
    exact .inr ⟨(short h).1, _, rfl, (short h).2⟩

/-- C42 for all strings: reading a scheme is undefined exactly if `char` is signed and a byte that is negative and not
`EOF` comes before the first difference from a known scheme of the same length; otherwise the result is right. -/
theorem C42_exact (sg : Bool) (s : Str) :
    (Scheme.ofString sg s = .error .ub ↔
      sg = true ∧ ∃ p ∈ knownSchemes, p.1.length = s.length ∧ ∃ x c y, s = x ++ c :: y ∧ (128 ≤ c.toNat ∧ c.toNat ≠ 255) ∧
        EqualIgnoringCase x (p.1.take x.length)) ∧
    (Scheme.ofString sg s ≠ .error .ub →
      (∀ p ∈ knownSchemes, Scheme.ofString sg s = .ok p.2 ↔ EqualIgnoringCase s p.1) ∧
      (Scheme.ofString sg s = .ok .unknown ↔ ∀ p ∈ knownSchemes, ¬ EqualIgnoringCase s p.1)) := by
  have hm : (sg = true ∧ ∃ p ∈ knownSchemes, p.1.length = s.length ∧ ∃ x c y, s = x ++ c :: y ∧ (128 ≤ c.toNat ∧ c.toNat ≠ 255) ∧
        EqualIgnoringCase x (p.1.take x.length)) ↔ Meets sg s :=
    ⟨fun ⟨h, p, h1, h2, h3⟩ => ⟨p, h1, h2, h, h3⟩, fun ⟨p, h1, h2, h, h3⟩ => ⟨h, p, h1, h2, h3⟩⟩
  rw [hm]
  rcases ofString_exact sg s with ⟨h1, h2⟩ | ⟨h1, k, h2, h3⟩ <;> rw [h2]
  · exact ⟨⟨fun _ => h1, fun _ => rfl⟩, fun h => absurd rfl h⟩
  · refine ⟨⟨nofun, fun h => absurd h h1⟩, fun _ => ?_⟩
    simp only [Except.ok.injEq]
    unfold Names at h3
    by_cases hk : k = .unknown
    · rw [if_pos hk] at h3
      refine ⟨fun p hp => ⟨?_, fun h => absurd h (h3 p hp)⟩, ⟨fun _ => h3, fun _ => hk⟩⟩
      rintro rfl
      exact absurd hk ((show ∀ p ∈ knownSchemes, p.2 ≠ .unknown by decide) p hp)
    · rw [if_neg hk] at h3
      obtain ⟨t, ht, he⟩ := h3
      refine ⟨fun p hp => ⟨?_, fun h => ?_⟩, ⟨fun h => absurd h hk, fun h => absurd he (h _ ht)⟩⟩
      · rintro rfl
        rw [← known_once' ht hp rfl]; exact he
      · have := he.unique h (known_lower ht) (known_lower hp)
        rw [← known_once ht hp this]

example : Scheme.ofString true [c!"W", 200] = .error .ub ∧ Scheme.ofString true [c!"x", 200] = .ok .unknown ∧
    Scheme.ofString true [c!"w", 255] = .ok .unknown ∧ Scheme.ofString false [c!"w", 200] = .ok .unknown := by decide +kernel

/-! ### C43 -/

/-- C43: a request is granted exactly if it fits behind the aligned address, or that address is beyond the buffer and
what is missing there does not exceed what wraps around; a granted block starts at this address, so it is inside of the
buffer in the first case only. -/
theorem C43_exact {p : Pool} (h : PoolOk p) {bytes align u : Nat} (ha : IsAlign align) (hu : IsUp p.top align u) :
    ((p.allocate bytes align).isSome = true ↔
      u + bytes ≤ p.base + p.capacity ∨ (p.base + p.capacity < u ∧ u < wordSize ∧ bytes + (u - (p.base + p.capacity)) ≤ wordSize)) ∧
    ∀ a p', p.allocate bytes align = some (a, p') → a = u := by
  have hf := h.fits
  have hl := h.low
  have hh := h.high
  have htop := hu.2.1
  by_cases hin : u ≤ p.base + p.capacity
  · rw [C43_request_partial h ha hu hin]
    split
    · rename_i hfit
      refine ⟨⟨fun _ => .inl hfit, fun _ => rfl⟩, ?_⟩
      rintro a p' e
      cases e
      rfl
    · rename_i hfit
      refine ⟨⟨nofun, ?_⟩, nofun⟩
      rintro (h | h)
      · exact absurd h hfit
      · omega
  · by_cases hw : u < wordSize
    · have hroom := ha.room hu.1 hw
      obtain ⟨e, -⟩ := up_eq hu ha.pos (by omega)
      rw [Pool.allocate, e, wsub_eq (show p.base ≤ u by omega) (by omega), wsub_wrap (show p.capacity < u - p.base by omega) (by omega)]
      by_cases hb : bytes + (u - (p.base + p.capacity)) ≤ wordSize
      · rw [if_neg (by omega)]
        refine ⟨⟨fun _ => .inr ⟨by omega, hw, hb⟩, fun _ => rfl⟩, ?_⟩
        rintro a p' e
        cases e
        rfl
      · rw [if_pos (by omega)]
        exact ⟨⟨nofun, by omega⟩, nofun⟩
    · rw [C43_wrap h ha hu (by omega)]
      exact ⟨⟨nofun, by omega⟩, nofun⟩

-- nine of ten bytes in use, and the next multiple of eight is behind the end
example : PoolOk ⟨4096, 10, 4105⟩ ∧ IsAlign 8 ∧ IsUp 4105 8 4112 ∧ (Pool.allocate ⟨4096, 10, 4105⟩ 100 8).isSome = true ∧
    (Pool.allocate ⟨4096, 10, 4105⟩ 100 1).isSome = false :=
  ⟨⟨by decide +kernel, by decide, by decide⟩, ⟨3, by decide, rfl⟩, ⟨by decide, by decide, by rintro v ⟨k, rfl⟩ h; omega⟩, by decide +kernel,
    by decide +kernel⟩

end Url.Props
