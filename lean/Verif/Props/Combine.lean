import Verif.Props.Chars

/-!
C64: how the parts of accepted texts can be recombined.
-/

set_option linter.unusedSimpArgs false
set_option autoImplicit false

namespace Url.Props
open Url Spec

/-- The text of the authority part of a view, with the leading `//`. -/
def rawAuth (v : View) : Str := rawPart v 1 ++ rawPart v 2 ++ rawPart v 3 ++ rawPart v 4

/-- When a path `p`, taken from an accepted text, can stand between `before` (a scheme with its colon, or
nothing), an authority and what follows it. -/
structure PathFits (before authority p follows : Str) : Prop where
  /-- after an authority: a sequence of segments, each with a slash before it -/
  auth : authority ≠ [] → Slashed isUpperHex p
  /-- without one, the path must not look like one -/
  noAuth : authority = [] → ¬ b!"//" <+: p
  /-- and a lone slash must be at the end -/
  lone : authority = [] → p = b!"/" → follows = []
  /-- without a scheme, the path must not look as if it had one -/
  noScheme : authority = [] → before = [] → c!":" ∉ p.takeWhile (· ≠ c!"/")

/-! ### the shape of a path, wherever it comes from -/

theorem nc_of {s : Str} (h : Escaped isUpperHex isPchar s) (hc : c!":" ∉ s) : Escaped isUpperHex isPcharNc s := by
  have key : ∀ c, isPchar c = true → c ≠ c!":" → isPcharNc c = true := forall_byte (by decide +kernel)
  induction h with
  | nil => exact .nil
  | char h1 _ ih =>
    simp only [List.mem_cons, not_or] at hc
    exact .char (key _ h1 (Ne.symm hc.1)) (ih hc.2)
  | pct h1 h2 _ ih =>
    simp only [List.mem_cons, not_or] at hc
    exact .pct h1 h2 (ih hc.2.2.2)

theorem take_noslash {s t : Str} (hs : s.all (· != c!"/") = true) (ht : t = [] ∨ ∃ u, t = c!"/" :: u) :
    (s ++ t).takeWhile (· ≠ c!"/") = s := by
  induction s with
  | nil => rcases ht with rfl | ⟨u, rfl⟩ <;> simp
  | cons a s ih =>
    simp only [List.all_cons, Bool.and_eq_true, bne_iff_ne, ne_eq] at hs
    rw [List.cons_append, List.takeWhile_cons, if_pos (by simpa using hs.1), ih hs.2]

theorem loose_of_slashed {p : Str} {f : Bool} (h : Slashed isUpperHex p) (h1 : ¬ b!"//" <+: p) (h2 : p = b!"/" → f = false) :
    p = [] ∨ LoosePathAbsolute p f := by
  obtain ⟨segs, hs, rfl⟩ := h
  rcases segs with _ | ⟨s, segs⟩
  · exact .inl rfl
  · refine .inr ?_
    rcases s with _ | ⟨c, s⟩
    · rcases segs with _ | ⟨s', segs⟩
      · exact .inl ⟨rfl, h2 rfl⟩
      · exact absurd ⟨s' ++ segs.flatMap (c!"/" :: ·), by simp [List.flatMap_cons]⟩ h1
    · refine .inr ⟨c, s, segs.flatMap (c!"/" :: ·), ?_, ?_, ⟨segs, fun x hx => hs x (by simp [hx]), rfl⟩, by simp [List.flatMap_cons]⟩
      · have := pchars_noslash (hs (c :: s) (by simp))
        simp only [List.all_cons, Bool.and_eq_true, bne_iff_ne, ne_eq] at this
        exact this.1
      · have key : ∀ c, isUpperHex c = true → isPchar c = true := forall_byte (by decide +kernel)
        cases hs (c :: s) (by simp) with
        | char _ h => exact h
        | pct ha hb h => exact .char (key _ ha) (.char (key _ hb) h)

theorem fits_iff {a b f a' b' f' : Bool} {p : Str} (h : PathOk lib a' b' f' p) :
    PathOk lib a b f p ↔ (b = true → Slashed isUpperHex p) ∧
      (b = false → ¬ b!"//" <+: p ∧ (p = b!"/" → f = false) ∧ (a = false → c!":" ∉ p.takeWhile (· ≠ c!"/"))) := by
  have loose : ∀ {g : Bool}, LoosePathAbsolute p g → ¬ b!"//" <+: p ∧ c!":" ∉ p.takeWhile (· ≠ c!"/") := by
    rintro g (⟨rfl, -⟩ | ⟨w, s, t, hw, -, -, rfl⟩)
    · exact ⟨by decide, by decide⟩
    · refine ⟨?_, by simp⟩
      rintro ⟨z, hz⟩
      simp only [List.cons_append, List.nil_append, List.cons.injEq] at hz
      exact hw hz.2.1.symm
  have rootless : PathRootless isUpperHex p → ¬ b!"//" <+: p ∧ p ≠ b!"/" := by
    intro hr
    have := (rootless_head hr).2
    refine ⟨?_, fun e => this (by rw [e]; rfl)⟩
    rintro ⟨z, rfl⟩
    exact this rfl
  cases b
  · constructor
    · intro hok
      refine ⟨nofun, fun _ => ?_⟩
      unfold PathOk at hok
      rw [if_neg (by simp)] at hok
      split at hok
      · rename_i ha
        rcases hok with rfl | hl | hr
        · exact ⟨by decide, by simp, fun _ => by simp⟩
        · refine ⟨(loose hl).1, ?_, fun _ => (loose hl).2⟩
          rintro rfl
          rcases hl with ⟨-, h⟩ | ⟨w, s, t, -, -, -, e⟩
          · exact h
          · simp at e
        · exact ⟨(rootless hr).1, fun e => absurd e (rootless hr).2, fun h => by simp [h] at ha⟩
      · rcases hok with rfl | hl | hr
        · exact ⟨by decide, by simp, fun _ => by simp⟩
        · refine ⟨(loose hl).1, ?_, fun _ => (loose hl).2⟩
          rintro rfl
          rcases hl with ⟨-, h⟩ | ⟨w, s, t, -, -, -, e⟩
          · exact h
          · simp at e
        · refine ⟨(rootless (PathNoscheme.rootless hr)).1, fun e => absurd e (rootless (PathNoscheme.rootless hr)).2, fun _ => ?_⟩
          obtain ⟨s, t, -, hs, ht, rfl⟩ := hr
          rw [take_noslash (nc_noslash hs) (Slashed.head ht)]
          have := esc_free (stop := b!":") hs (by decide +kernel) (by decide +kernel) (by decide)
          exact this _ (by simp)
    · rintro ⟨-, hf⟩
      obtain ⟨h1, h2, h3⟩ := hf rfl
      unfold PathOk
      rw [if_neg (by simp)]
      have shape : p = [] ∨ LoosePathAbsolute p f ∨ PathRootless isUpperHex p := by
        rcases pathOk_shape h with hs | ⟨g, hl⟩ | hr
        · rcases loose_of_slashed hs h1 h2 with h | h
          · exact .inl h
          · exact .inr (.inl h)
        · rcases hl with ⟨e, -⟩ | hl
          · exact .inr (.inl (.inl ⟨e, h2 e⟩))
          · exact .inr (.inl (.inr hl))
        · exact .inr (.inr hr)
      split
      · exact shape
      · rename_i ha
        rcases shape with h | h | h
        · exact .inl h
        · exact .inr (.inl h)
        · refine .inr (.inr ?_)
          have h3 := h3 (by simpa using ha)
          obtain ⟨s, t, h0, hs, ht, rfl⟩ := h
          rw [take_noslash (pchars_noslash hs) (Slashed.head ht)] at h3
          exact ⟨s, t, h0, nc_of hs h3, ht, rfl⟩
  · unfold PathOk
    rw [if_pos rfl]
    exact ⟨fun h => ⟨fun _ => h, nofun⟩, fun h => h.1 rfl⟩

/-! ### C64: recombination -/

theorem raw_parts {v : View} {c : Components} (r : ViewRep v c) (i : Nat) : rawPart v i = (compParts c).getD i [] :=
  (get_raw rfl ((r.obj true).get i)).symm

theorem raw0 {v : View} {c : Components} (r : ViewRep v c) : rawPart v 0 = schemeText c.scheme := by rw [raw_parts r]; rfl
theorem rawA {v : View} {c : Components} (r : ViewRep v c) : [rawPart v 1, rawPart v 2, rawPart v 3, rawPart v 4] = authTexts c.auth := by
  simp only [raw_parts r, compParts, List.cons_append, List.getD_cons_succ]
  have := authTexts_length c.auth
  generalize authTexts c.auth = l at this
  match l, this with
  | [a, b, c, d], _ => simp
theorem raw5 {v : View} {c : Components} (r : ViewRep v c) : rawPart v 5 = c.path := by
  simp only [raw_parts r, compParts, List.cons_append, List.getD_cons_succ]
  have := authTexts_length c.auth
  generalize authTexts c.auth = l at this
  match l, this with
  | [a, b, c, d], _ => simp
theorem raw6 {v : View} {c : Components} (r : ViewRep v c) : rawPart v 6 = queryText c.query := by
  simp only [raw_parts r, compParts, List.cons_append, List.getD_cons_succ]
  have := authTexts_length c.auth
  generalize authTexts c.auth = l at this
  match l, this with
  | [a, b, c, d], _ => simp
theorem raw7 {v : View} {c : Components} (r : ViewRep v c) : rawPart v 7 = fragText c.fragment := by
  simp only [raw_parts r, compParts, List.cons_append, List.getD_cons_succ]
  have := authTexts_length c.auth
  generalize authTexts c.auth = l at this
  match l, this with
  | [a, b, c, d], _ => simp

theorem rawAuth_eq {v : View} {c : Components} (r : ViewRep v c) : rawAuth v = (authTexts c.auth).flatten := by
  rw [← rawA r]; simp [rawAuth]

theorem rawAuth_nil {v : View} {c : Components} (r : ViewRep v c) : rawAuth v = [] ↔ c.auth = none := by
  rw [rawAuth_eq r]
  rcases c.auth with _ | ⟨_ | ⟨u, _ | p⟩, hh, pp⟩ <;> simp [authTexts, authParts, userParts]

theorem schemeText_nil {o : Option Str} : schemeText o = [] ↔ o = none := by cases o <;> simp [schemeText]
theorem queryText_nil {o : Option Str} : queryText o = [] ↔ o = none := by cases o <;> simp [queryText]
theorem fragText_nil {o : Option Str} : fragText o = [] ↔ o = none := by cases o <;> simp [fragText]

/-- A view whose scheme, authority, path, query and fragment are those of five other views. -/
structure Mixed (w v₁ v₂ v₃ v₄ v₅ : View) : Prop where
  scheme : rawPart w 0 = rawPart v₁ 0
  auth : ∀ i, 1 ≤ i → i ≤ 4 → rawPart w i = rawPart v₂ i
  path : rawPart w 5 = rawPart v₃ 5
  query : rawPart w 6 = rawPart v₄ 6
  fragment : rawPart w 7 = rawPart v₅ 7
  host : w.pt.host = v₂.pt.host
  nseg : w.pt.nseg = v₃.pt.nseg
  nparam : w.pt.nparam = v₄.pt.nparam

/-- C64: take five accepted texts, and put together the scheme of the first, the authority of the second, the
path of the third, the query of the fourth and the fragment of the fifth. The result is accepted with exactly
these parts if and only if the path fits where it now stands. The number of segments, the number of
parameters and the kind of the host are then those of the texts they come from. -/
theorem C64_combine {s₁ s₂ s₃ s₄ s₅ : Str} {v₁ v₂ v₃ v₄ v₅ : View} (h₁ : View.make s₁ = .ret v₁) (h₂ : View.make s₂ = .ret v₂)
    (h₃ : View.make s₃ = .ret v₃) (h₄ : View.make s₄ = .ret v₄) (h₅ : View.make s₅ = .ret v₅) :
    (∃ w, View.make (rawPart v₁ 0 ++ rawAuth v₂ ++ rawPart v₃ 5 ++ rawPart v₄ 6 ++ rawPart v₅ 7) = .ret w ∧ Mixed w v₁ v₂ v₃ v₄ v₅) ↔
    PathFits (rawPart v₁ 0) (rawAuth v₂) (rawPart v₃ 5) (rawPart v₄ 6 ++ rawPart v₅ 7) := by
  obtain ⟨c₁, hc₁, -, r₁⟩ := make_inv h₁
  obtain ⟨c₂, hc₂, -, r₂⟩ := make_inv h₂
  obtain ⟨c₃, hc₃, -, r₃⟩ := make_inv h₃
  obtain ⟨c₄, hc₄, -, r₄⟩ := make_inv h₄
  obtain ⟨c₅, hc₅, -, r₅⟩ := make_inv h₅
  have hp : PartsOk ⟨c₁.scheme, c₂.auth, c₃.path, c₄.query, c₅.fragment⟩ := ⟨hc₁.1, hc₂.2.1, hc₄.2.2.2.1, hc₅.2.2.2.2⟩
  have hfit : PathFits (rawPart v₁ 0) (rawAuth v₂) (rawPart v₃ 5) (rawPart v₄ 6 ++ rawPart v₅ 7) ↔
      Components.Valid lib ⟨c₁.scheme, c₂.auth, c₃.path, c₄.query, c₅.fragment⟩ := by
    rw [hp.valid_iff, fits_iff hc₃.2.2.1]
    have e2 := rawAuth_nil r₂
    have e1 : rawPart v₁ 0 = [] ↔ c₁.scheme = none := by rw [raw0 r₁]; exact schemeText_nil
    have e3 : rawPart v₄ 6 ++ rawPart v₅ 7 = [] ↔ (c₄.query.isSome || c₅.fragment.isSome) = false := by
      rw [raw6 r₄, raw7 r₅, List.append_eq_nil_iff, queryText_nil, fragText_nil]
      cases c₄.query <;> cases c₅.fragment <;> simp
    rw [raw5 r₃]
    constructor
    · rintro ⟨f1, f2, f3, f4⟩
      simp only [ne_eq, e2, e1, e3] at f1 f2 f3 f4
      refine ⟨fun h => f1 (by intro hn; simp [hn] at h), fun h => ?_⟩
      have h : c₂.auth = none := by simpa using h
      exact ⟨f2 h, f3 h, fun h' => f4 h (by simpa using h')⟩
    · rintro ⟨g1, g2⟩
      refine ⟨fun h => g1 ?_, fun h => (g2 ?_).1, fun h => ?_, fun h h' => (g2 ?_).2.2 ?_⟩
      · rw [ne_eq, e2] at h
        cases hh : c₂.auth with
        | none => exact absurd hh h
        | some => rfl
      · rw [e2.1 h]; rfl
      · rw [e3]; exact (g2 (by rw [e2.1 h]; rfl)).2.1
      · rw [e2.1 h]; rfl
      · rw [e1.1 h']; rfl
  have htext : rawPart v₁ 0 ++ rawAuth v₂ ++ rawPart v₃ 5 ++ rawPart v₄ 6 ++ rawPart v₅ 7 =
      Components.render ⟨c₁.scheme, c₂.auth, c₃.path, c₄.query, c₅.fragment⟩ := by
    rw [← compParts_flatten, raw0 r₁, rawAuth_eq r₂, raw5 r₃, raw6 r₄, raw7 r₅]
    simp [compParts]
  rw [hfit, htext]
  constructor
  · rintro ⟨w, hw, m⟩
    obtain ⟨c, hc, -, r⟩ := make_inv hw
    have ea : authTexts c.auth = authTexts c₂.auth := by
      rw [← rawA r, ← rawA r₂, m.auth 1 (by omega) (by omega), m.auth 2 (by omega) (by omega), m.auth 3 (by omega) (by omega),
        m.auth 4 (by omega) (by omega)]
    have : c = ⟨c₁.scheme, c₂.auth, c₃.path, c₄.query, c₅.fragment⟩ := by
      apply compParts_inj
      rw [compParts, ← raw0 r, ea, ← raw5 r, ← raw6 r, ← raw7 r, m.scheme, m.path, m.query, m.fragment, raw0 r₁, raw5 r₃, raw6 r₄, raw7 r₅]
      rfl
    rw [← this]; exact hc
  · intro hc
    obtain ⟨w, hw, r⟩ := make_of hc
    refine ⟨w, hw, ?_, ?_, ?_, ?_, ?_, ?_, ?_, ?_⟩
    · rw [raw0 r, raw0 r₁]
    · have ea : [rawPart w 1, rawPart w 2, rawPart w 3, rawPart w 4] = [rawPart v₂ 1, rawPart v₂ 2, rawPart v₂ 3, rawPart v₂ 4] := by
        rw [rawA r, rawA r₂]
      simp only [List.cons.injEq, and_true] at ea
      intro i h1 h4
      obtain rfl | rfl | rfl | rfl : i = 1 ∨ i = 2 ∨ i = 3 ∨ i = 4 := by omega
      · exact ea.1
      · exact ea.2.1
      · exact ea.2.2.1
      · exact ea.2.2.2
    · rw [raw5 r, raw5 r₃]
    · rw [raw6 r, raw6 r₄]
    · rw [raw7 r, raw7 r₅]
    · refine HostKind.unique r.host ?_
      exact r₂.host
    · rw [r.nseg, r₃.nseg]
    · rw [r.nparam, r₄.nparam]

/-! ### C64: cutting and extending -/

theorem make_empty : ∃ v, View.make [] = .ret v ∧ ViewRep v ⟨none, none, [], none, none⟩ :=
  make_of (c := ⟨none, none, [], none, none⟩) ⟨by simp, by simp, .inl rfl, by simp, by simp⟩

theorem cut_or {A B s z : Str} {d : Byte} (h : A ++ B = s ++ d :: z) : (∃ t, s = A ++ t ∧ B = t ++ d :: z) ∨ ∃ y, A = s ++ d :: y := by
  rcases List.append_eq_append_iff.1 h with ⟨t, h1, h2⟩ | ⟨t, h1, h2⟩
  · exact .inl ⟨t, h1, h2⟩
  · rcases t with _ | ⟨e, t⟩
    · exact .inl ⟨[], by simpa using h1.symm, by simpa using h2.symm⟩
    · simp only [List.cons_append, List.cons.injEq] at h2
      exact .inr ⟨t, by rw [h1, h2.1]⟩

theorem cut_at {A B s z : Str} {d : Byte} (h : A ++ B = s ++ d :: z) (hd : d ∉ A) : ∃ t, s = A ++ t ∧ B = t ++ d :: z := by
  rcases cut_or h with h | ⟨y, h⟩
  · exact h
  · exact absurd (by rw [h]; simp) hd

/-- In a path, `?` and `#` occur only as the character that the library does not check. -/
theorem stray {a b f : Bool} {p t y : Str} {d : Byte} (h : PathOk lib a b f p) (hd : d = c!"?" ∨ d = c!"#") (e : p = t ++ d :: y) :
    t = b!"/" ∧ b = false := by
  have pc : ∀ {x : Str}, Escaped isUpperHex isPchar x → d ∉ x := by
    intro x hx
    have := esc_free (stop := b!"?#") hx (by decide +kernel) (by decide +kernel) (by decide)
    exact this d (by simpa using hd)
  have hsl : d ≠ c!"/" := by rcases hd with rfl | rfl <;> decide
  have sl : ∀ {x : Str}, Slashed isUpperHex x → d ∉ x := by
    rintro x ⟨segs, hs, rfl⟩ hm
    obtain ⟨s, hs', hm⟩ := List.mem_flatMap.1 hm
    rcases List.mem_cons.1 hm with rfl | hm
    · exact hsl rfl
    · exact pc (hs s hs') hm
  have hm : d ∈ p := by rw [e]; simp
  unfold PathOk at h
  split at h
  · exact absurd hm (sl h)
  · rename_i hb
    refine ⟨?_, by simpa using hb⟩
    have loose : ∀ {g : Bool}, LoosePathAbsolute p g → t = b!"/" := by
      rintro g (⟨rfl, -⟩ | ⟨w, x, u, hw, hx, hu, rfl⟩)
      · simp only [List.mem_cons, List.not_mem_nil, or_false] at hm
        exact absurd hm hsl
      · have hn : d ∉ x ++ u := by
          intro h
          rcases List.mem_append.1 h with h | h
          · exact pc hx h
          · exact sl hu h
        rcases t with _ | ⟨a, _ | ⟨b, t⟩⟩
        · simp only [List.cons_append, List.nil_append, List.cons.injEq] at e
          exact absurd e.1.symm hsl
        · simp only [List.cons_append, List.nil_append, List.cons.injEq] at e
          rw [e.1]
        · simp only [List.cons_append, List.cons.injEq] at e
          exact absurd (by rw [e.2.2]; simp) hn
    have rootless : PathRootless isUpperHex p → t = b!"/" := by
      rintro ⟨x, u, -, hx, hu, rfl⟩
      rcases List.mem_append.1 hm with h | h
      · exact absurd h (pc hx)
      · exact absurd h (sl hu)
    split at h
    · rcases h with rfl | h | h
      · simp at hm
      · exact loose h
      · exact rootless h
    · rcases h with rfl | h | h
      · simp at hm
      · exact loose h
      · exact rootless (PathNoscheme.rootless h)

theorem origin_free {c : Components} (hp : PartsOk c) {d : Byte} (hd : d = c!"?" ∨ d = c!"#") : d ∉ c.origin := by
  have dl := delimited hp
  have hsch : d ∉ c.scheme.getD [] := by
    intro h
    have := List.all_eq_true.1 dl.scheme d h
    rcases hd with rfl | rfl <;> exact absurd this (by decide)
  have hu := dl.user d (by rcases hd with rfl | rfl <;> decide)
  have hpw := dl.password d (by rcases hd with rfl | rfl <;> decide)
  have hh : d ∉ c.host := by
    rcases dl.host with h | ⟨x, e, hx⟩
    · exact h d (by rcases hd with rfl | rfl <;> decide)
    · rw [e]
      simp only [List.cons_append, List.nil_append, List.mem_cons, List.mem_append, List.not_mem_nil, or_false, not_or]
      refine ⟨by rcases hd with rfl | rfl <;> decide, fun h => ?_, by rcases hd with rfl | rfl <;> decide⟩
      have := List.all_eq_true.1 hx d h
      rcases hd with rfl | rfl <;> exact absurd this (by decide)
  have hpt : d ∉ c.port.getD [] := by
    intro h
    have := List.all_eq_true.1 dl.port d h
    rcases hd with rfl | rfl <;> exact absurd this (by decide)
  have n : d ≠ c!":" ∧ d ≠ c!"/" ∧ d ≠ c!"@" := by rcases hd with rfl | rfl <;> decide
  clear dl hp hd
  rcases c with ⟨_ | sc, _ | ⟨_ | ⟨u, _ | pw⟩, ho, _ | pt⟩, pa, q, f⟩ <;>
    simp_all [Components.origin, withPrefix, withSuffix, Auth.render, userinfoText, Components.user, Components.password, Components.host,
      Components.port, Components.userinfo]

/-- the text of the components, cut up -/
theorem render_texts (c : Components) : c.render = c.origin ++ (c.path ++ (queryText c.query ++ fragText c.fragment)) := by
  rw [render_split, List.append_assoc, Components.rest]
  cases c.query <;> cases c.fragment <;> rfl

theorem origin_none {c : Components} (h : c.auth = none) : c.origin = schemeText c.scheme := by
  rcases c with ⟨_ | sc, a, pa, q, f⟩ <;> simp only at h <;> subst h <;> simp [Components.origin, withPrefix, withSuffix, schemeText]

theorem query_free {c : Components} (hp : PartsOk c) : c!"#" ∉ queryText c.query := by
  have := (delimited hp).query c!"#" (by decide)
  cases h : c.query with
  | none => simp [queryText]
  | some q =>
    rw [h] at this
    simp only [queryText, List.mem_cons, not_or]
    exact ⟨by decide, this⟩

/-- The text before the unchecked character. -/
theorem lone_unique {c c' : Components} (hc : c.Valid lib) (hc' : c'.Valid lib) (ha : c'.auth = none) (e : c.render = c'.origin ++ b!"/") :
    c.auth = none ∧ c.path = b!"/" ∧ c.query = none ∧ c.fragment = none := by
  have hv : Components.Valid lib ⟨c'.scheme, none, b!"/", none, none⟩ := by
    refine ⟨hc'.1, by simp, ?_, by simp, by simp⟩
    show PathOk lib _ false false _
    unfold PathOk
    rw [if_neg (by simp)]
    split
    · exact .inr (.inl (.inl ⟨rfl, rfl⟩))
    · exact .inr (.inl (.inl ⟨rfl, rfl⟩))
  have := decomposition_unique hc hv (by
    rw [e, origin_none ha, render_texts, origin_none rfl]; simp [queryText, fragText])
  subst this
  exact ⟨rfl, rfl, rfl, rfl⟩

theorem fragment_cut {c c' : Components} {f : Str} (hc : c.Valid lib) (hc' : c'.Valid lib) (hf : c.fragment = none)
    (hl : ¬ (c.auth = none ∧ c.path = b!"/" ∧ c.query = none)) (e : c'.render = c.render ++ c!"#" :: f) :
    c' = { c with fragment := some f } := by
  have hp' := PartsOk.of_valid hc'
  have e0 := e
  rw [render_texts c'] at e
  obtain ⟨t, e1, e2⟩ := cut_at e (origin_free hp' (.inr rfl))
  rcases cut_or e2 with ⟨u, e3, e4⟩ | ⟨y, e3⟩
  · obtain ⟨u', e5, e6⟩ := cut_at e4 (query_free hp')
    have hu : u' = [] := by
      rcases u' with _ | ⟨x, u'⟩
      · rfl
      · have := (delimited hp').fragment c!"#" (by decide)
        cases hf' : c'.fragment with
        | none => rw [hf'] at e6; simp [fragText] at e6
        | some f' =>
          rw [hf'] at e6 this
          simp only [fragText, List.cons_append, List.cons.injEq] at e6
          exact absurd (by show _ ∈ f'; rw [e6.2]; simp) this
    subst hu
    have hfr : c'.fragment = some f := by
      cases hf' : c'.fragment with
      | none => rw [hf'] at e6; simp [fragText] at e6
      | some f' =>
        rw [hf'] at e6
        simp only [fragText, List.nil_append, List.cons.injEq, true_and] at e6
        rw [e6]
    have hv : Components.Valid lib { c' with fragment := none } := by
      refine ⟨hc'.1, hc'.2.1, ?_, hc'.2.2.2.1, by simp⟩
      have := hc'.2.2.1
      show PathOk lib c'.scheme.isSome c'.auth.isSome (c'.query.isSome || false) c'.path
      rw [hfr] at this
      cases hq : c'.query with
      | none => exact pathOk_follows this
      | some q => rw [hq] at this; exact this
    have := decomposition_unique hc hv (by
      rw [e1, e3, e5, render_texts]
      simp only [fragText, List.append_nil]
      rfl)
    subst this
    rcases c' with ⟨sc, a, pa, q, fr⟩
    simp only at hfr
    subst hfr
    rfl
  · obtain ⟨rfl, ha⟩ := stray hc'.2.2.1 (.inr rfl) e3
    have ha : c'.auth = none := by simpa using ha
    obtain ⟨h1, h2, h3, -⟩ := lone_unique hc hc' ha e1
    exact absurd ⟨h1, h2, h3⟩ hl

theorem escaped_cut {x y : Str} {d : Byte} (h : Escaped isUpperHex isQueryFrag (x ++ d :: y)) (hd : isUpperHex d = false) :
    Escaped isUpperHex isQueryFrag x := by
  generalize e : x ++ d :: y = z at h
  induction h generalizing x with
  | nil => simp at e
  | @char c s hc _ ih =>
    rcases x with _ | ⟨a, x⟩
    · exact .nil
    · simp only [List.cons_append, List.cons.injEq] at e
      rw [e.1]; exact .char hc (ih e.2)
  | @pct a b s ha hb _ ih =>
    rcases x with _ | ⟨a', _ | ⟨b', _ | ⟨c', x⟩⟩⟩
    · exact .nil
    · simp only [List.cons_append, List.nil_append, List.cons.injEq] at e
      rw [← e.2.1, hd] at ha; cases ha
    · simp only [List.cons_append, List.nil_append, List.cons.injEq] at e
      rw [← e.2.2.1, hd] at hb; cases hb
    · simp only [List.cons_append, List.cons.injEq] at e
      rw [e.1, e.2.1, e.2.2.1]; exact .pct ha hb (ih e.2.2.2)

theorem query_cut {c c' : Components} {q : Str} (hc : c.Valid lib) (hc' : c'.Valid lib) (hq : c.query = none) (hf : c.fragment = none)
    (hl : ¬ (c.auth = none ∧ c.path = b!"/")) (hn : c!"#" ∉ q) (e : c'.render = c.render ++ c!"?" :: q) :
    c' = { c with query := some q } := by
  have hp' := PartsOk.of_valid hc'
  have e0 := e
  rw [render_texts c'] at e
  obtain ⟨t, e1, e2⟩ := cut_at e (origin_free hp' (.inl rfl))
  rcases cut_or e2 with ⟨u, e3, e4⟩ | ⟨y, e3⟩
  · -- the query starts here, or has started, or the fragment has
    have bad : ∀ qu fr : Option Str, (qu ≠ none ∨ fr ≠ none) → u = queryText qu ++ fragText fr →
        (∀ q, qu = some q → Escaped isUpperHex isQueryFrag q) → (∀ q, fr = some q → Escaped isUpperHex isQueryFrag q) →
        ((qu.isSome || fr.isSome) = true → (c'.query.isSome || c'.fragment.isSome) = true) → False := by
      intro qu fr hsome hu h1 h2 h3
      have hv : Components.Valid lib { c' with query := qu, fragment := fr } := by
        refine ⟨hc'.1, hc'.2.1, ?_, h1, h2⟩
        have := hc'.2.2.1
        show PathOk lib c'.scheme.isSome c'.auth.isSome (qu.isSome || fr.isSome) c'.path
        cases hb : (qu.isSome || fr.isSome) with
        | true => rw [h3 hb] at this; exact this
        | false => exact pathOk_follows this
      have := decomposition_unique hc hv (by
        rw [e1, e3, hu, render_texts]
        rfl)
      subst this
      rcases hsome with h | h
      · exact h hq
      · exact h hf
    rcases cut_or e4 with ⟨u', e5, e6⟩ | ⟨y, e5⟩
    · cases hf' : c'.fragment with
      | none => rw [hf'] at e6; simp [fragText] at e6
      | some f' =>
        rw [hf'] at e6
        rcases u' with _ | ⟨x, u'⟩
        · simp [fragText] at e6
        · simp only [fragText, List.cons_append, List.cons.injEq] at e6
          exact (bad c'.query (some u') (.inr (by simp)) (by rw [e5, fragText, e6.1]) hc'.2.2.2.1
            (fun x hx => by
              cases hx
              exact escaped_cut (by rw [← e6.2]; exact hc'.2.2.2.2 f' hf') (by decide)) (by simp [hf'])).elim
    · cases hq' : c'.query with
      | none => rw [hq'] at e5; simp [queryText] at e5
      | some q' =>
        rw [hq'] at e5 e4
        rcases u with _ | ⟨x, u⟩
        · have hfr : c'.fragment = none := by
            cases hf' : c'.fragment with
            | none => rfl
            | some f' =>
              rw [hf'] at e4
              simp only [queryText, fragText, List.cons_append, List.nil_append, List.cons.injEq, true_and] at e4
              exact absurd (by rw [← e4]; simp) hn
          rw [hfr] at e4
          simp only [queryText, fragText, List.cons_append, List.nil_append, List.append_nil, List.cons.injEq, true_and] at e4
          have hv : Components.Valid lib { c' with query := none } := by
            refine ⟨hc'.1, hc'.2.1, ?_, by simp, hc'.2.2.2.2⟩
            have := hc'.2.2.1
            show PathOk lib c'.scheme.isSome c'.auth.isSome (false || c'.fragment.isSome) c'.path
            rw [hfr]
            exact pathOk_follows this
          have := decomposition_unique hc hv (by
            rw [e1, e3, render_texts]
            simp only [queryText, hfr, fragText, List.append_nil]
            rfl)
          subst this
          rcases c' with ⟨sc, a, pa, qq, fr⟩
          simp only at hfr hq'
          subst hfr hq' e4
          rfl
        · simp only [queryText, List.cons_append, List.cons.injEq] at e5
          exact (bad (some u) none (.inl (by simp)) (by simp [queryText, fragText, e5.1])
            (fun x hx => by
              cases hx
              exact escaped_cut (by rw [← e5.2]; exact hc'.2.2.2.1 q' hq') (by decide)) (by simp) (by simp [hq'])).elim
  · obtain ⟨rfl, ha⟩ := stray hc'.2.2.1 (.inl rfl) e3
    have ha : c'.auth = none := by simpa using ha
    obtain ⟨h1, h2, h3, -⟩ := lone_unique hc hc' ha e1
    exact absurd ⟨h1, h2⟩ hl

theorem not_accepted {s : Str} (h : ∀ w, View.make s ≠ .ret w) : View.make s = .throw .invalid_part := by
  rw [make_eq] at h ⊢
  split
  · rfl
  · rename_i hn
    rw [if_neg hn] at h
    exact absurd rfl (h _)

/-- The path is a lone slash that nothing precedes but a scheme, and that nothing follows. -/
structure LoneSlash (v : View) : Prop where
  auth : rawAuth v = []
  path : rawPart v 5 = b!"/"
  query : rawPart v 6 = []

theorem lone_iff {v : View} {c : Components} (r : ViewRep v c) : LoneSlash v ↔ c.auth = none ∧ c.path = b!"/" ∧ c.query = none := by
  constructor
  · rintro ⟨h1, h2, h3⟩
    rw [raw5 r] at h2
    rw [raw6 r, queryText_nil] at h3
    exact ⟨(rawAuth_nil r).1 h1, h2, h3⟩
  · rintro ⟨h1, h2, h3⟩
    exact ⟨(rawAuth_nil r).2 h1, by rw [raw5 r, h2], by rw [raw6 r, h3]; rfl⟩

theorem parts_below {v w : View} {c d : Components} (r : ViewRep v c) (r' : ViewRep w d) (h1 : d.scheme = c.scheme) (h2 : d.auth = c.auth)
    (h3 : d.path = c.path) : ∀ i, i < 6 → rawPart w i = rawPart v i := by
  have ea : [rawPart w 1, rawPart w 2, rawPart w 3, rawPart w 4] = [rawPart v 1, rawPart v 2, rawPart v 3, rawPart v 4] := by
    rw [rawA r, rawA r', h2]
  simp only [List.cons.injEq, and_true] at ea
  intro i hi
  obtain rfl | rfl | rfl | rfl | rfl | rfl : i = 0 ∨ i = 1 ∨ i = 2 ∨ i = 3 ∨ i = 4 ∨ i = 5 := by omega
  · rw [raw0 r, raw0 r', h1]
  · exact ea.1
  · exact ea.2.1
  · exact ea.2.2.1
  · exact ea.2.2.2
  · rw [raw5 r, raw5 r', h3]

theorem host_same {v w : View} {c d : Components} (r : ViewRep v c) (r' : ViewRep w d) (h : d.auth = c.auth) : w.pt.host = v.pt.host := by
  refine HostKind.unique r'.host ?_
  have : d.host = c.host := by unfold Components.host; rw [h]
  rw [this]; exact r.host

theorem valid_follows {c : Components} (hc : c.Valid lib) (hl : ¬ (c.auth = none ∧ c.path = b!"/" ∧ c.query = none ∧ c.fragment = none)) (g : Bool) :
    PathOk lib c.scheme.isSome c.auth.isSome g c.path := by
  rw [fits_iff hc.2.2.1]
  obtain ⟨h1, h2⟩ := (fits_iff hc.2.2.1).1 hc.2.2.1
  refine ⟨h1, fun h => ⟨(h2 h).1, fun hp => ?_, (h2 h).2.2⟩⟩
  have := (h2 h).2.1 hp
  refine absurd ⟨by simpa using h, hp, ?_⟩ hl
  cases hq : c.query <;> cases hf : c.fragment <;> simp_all

/-- C64: an accepted text without a fragment can be followed by `#` and exactly those texts that are
fragments; nothing else about the url changes. The exception is a text that ends in a lone slash. -/
theorem C64_fragment {s : Str} {v : View} (h : View.make s = .ret v) (h7 : rawPart v 7 = []) (hl : ¬ LoneSlash v) (f : Str) :
    (Escaped isUpperHex isQueryFrag f → ∃ w, View.make (s ++ b!"#" ++ f) = .ret w ∧ (∀ i, i < 7 → rawPart w i = rawPart v i) ∧
      rawPart w 7 = b!"#" ++ f ∧ w.pt.host = v.pt.host ∧ w.pt.nseg = v.pt.nseg ∧ w.pt.nparam = v.pt.nparam) ∧
    (¬ Escaped isUpperHex isQueryFrag f → View.make (s ++ b!"#" ++ f) = .throw .invalid_part) := by
  obtain ⟨c, hc, rfl, r⟩ := make_inv h
  rw [lone_iff r] at hl
  rw [raw7 r, fragText_nil] at h7
  have etext : c.render ++ b!"#" ++ f = c.render ++ c!"#" :: f := by simp
  rw [etext]
  constructor
  · intro hf
    have hv : Components.Valid lib { c with fragment := some f } := by
      refine ⟨hc.1, hc.2.1, valid_follows hc (fun h => hl ⟨h.1, h.2.1, h.2.2.1⟩) _, hc.2.2.2.1, ?_⟩
      intro x hx
      cases hx
      exact hf
    obtain ⟨w, hw, r'⟩ := make_of hv
    refine ⟨w, ?_, fun i hi => ?_, ?_, host_same r r' rfl, by rw [r'.nseg, r.nseg], by rw [r'.nparam, r.nparam]⟩
    · rw [← hw, render_texts c, h7, render_texts]
      simp only [fragText, List.append_assoc, List.append_nil]
      rfl
    · by_cases h6 : i < 6
      · exact parts_below r r' rfl rfl rfl i h6
      · obtain rfl : i = 6 := by omega
        rw [raw6 r, raw6 r']
    · rw [raw7 r']; rfl
  · intro hf
    refine not_accepted fun w hw => hf ?_
    obtain ⟨c', hc', e, -⟩ := make_inv hw
    have := fragment_cut hc hc' h7 hl e
    exact hc'.2.2.2.2 f (by rw [this])

/-- C64: an accepted text without query and fragment can be followed by `?` and exactly those texts (without
`#`) that are queries; only the query and the number of parameters change. -/
theorem C64_query {s : Str} {v : View} (h : View.make s = .ret v) (h6 : rawPart v 6 = []) (h7 : rawPart v 7 = []) (hl : ¬ LoneSlash v) (q : Str)
    (hn : c!"#" ∉ q) :
    (Escaped isUpperHex isQueryFrag q → ∃ w, View.make (s ++ b!"?" ++ q) = .ret w ∧ (∀ i, i < 6 → rawPart w i = rawPart v i) ∧
      rawPart w 6 = b!"?" ++ q ∧ rawPart w 7 = [] ∧ w.pt.host = v.pt.host ∧ w.pt.nseg = v.pt.nseg ∧ v.pt.nparam = 0 ∧
      w.pt.nparam = (libPairs q).length) ∧
    (¬ Escaped isUpperHex isQueryFrag q → View.make (s ++ b!"?" ++ q) = .throw .invalid_part) := by
  obtain ⟨c, hc, rfl, r⟩ := make_inv h
  rw [lone_iff r] at hl
  rw [raw7 r, fragText_nil] at h7
  rw [raw6 r, queryText_nil] at h6
  have hl : ¬ (c.auth = none ∧ c.path = b!"/") := fun h => hl ⟨h.1, h.2, h6⟩
  have etext : c.render ++ b!"?" ++ q = c.render ++ c!"?" :: q := by simp
  rw [etext]
  constructor
  · intro hf
    have hv : Components.Valid lib { c with query := some q } := by
      refine ⟨hc.1, hc.2.1, valid_follows hc (fun h => hl ⟨h.1, h.2.1⟩) _, ?_, hc.2.2.2.2⟩
      intro x hx
      cases hx
      exact hf
    obtain ⟨w, hw, r'⟩ := make_of hv
    refine ⟨w, ?_, parts_below r r' rfl rfl rfl, ?_, ?_, host_same r r' rfl, by rw [r'.nseg, r.nseg], by rw [r.nparam, h6]; rfl,
      by rw [r'.nparam]; rfl⟩
    · rw [← hw, render_texts c, h7, h6, render_texts]
      simp only [fragText, queryText, List.append_assoc, List.append_nil]
      rfl
    · rw [raw6 r']; rfl
    · rw [raw7 r', h7]; rfl
  · intro hf
    refine not_accepted fun w hw => hf ?_
    obtain ⟨c', hc', e, -⟩ := make_inv hw
    have := query_cut hc hc' h6 h7 hl hn e
    exact hc'.2.2.2.1 q (by rw [this])

/-- The exception is needed: a lone slash takes the `#` or `?` after it as the first character of a segment. -/
theorem C64_fragment_false : ∃ v w w', View.make b!"x:/" = .ret v ∧ rawPart v 7 = [] ∧ View.make b!"x:/#f" = .ret w ∧
    rawPart w 5 = b!"/#f" ∧ rawPart w 7 = [] ∧ View.make b!"x:/##" = .ret w' ∧ rawPart w' 5 = b!"/#" ∧ rawPart w' 7 = b!"#" ∧
    ¬ Escaped isUpperHex isQueryFrag b!"#" :=
  ⟨_, _, _, rfl, by decide +kernel, rfl, by decide +kernel, by decide +kernel, rfl, by decide +kernel, by decide +kernel, fun h => by
    cases h with
    | char h _ => exact absurd h (by decide)⟩

/-! ### C64: the scheme -/

/-- Nothing is in front of the scheme. -/
theorem scheme_cut {c' : Components} {x s : Str} (hc' : c'.Valid lib) (hx : ∀ d ∈ b!":/?#", d ∉ x) (e : c'.render = x ++ c!":" :: s) :
    c'.scheme = some x := by
  have head : ∀ {r : Str} {d : Byte}, d ∈ b!"/?#" → d :: r ≠ x ++ c!":" :: s := by
    intro r d hd he
    rcases x with _ | ⟨a, x⟩
    · simp only [List.nil_append, List.cons.injEq] at he
      rw [he.1] at hd; exact absurd hd (by decide)
    · simp only [List.cons_append, List.cons.injEq] at he
      exact hx d (List.mem_cons_of_mem _ hd) (by rw [he.1]; simp)
  rw [render_texts] at e
  cases hs : c'.scheme with
  | some x' =>
    have hsch := hc'.1 x' hs
    obtain ⟨r, hr⟩ : ∃ r, c'.origin = x' ++ c!":" :: r := by
      rcases c' with ⟨sc, au, pa, q, f⟩
      simp only at hs; subst hs
      exact ⟨withPrefix b!"//" (au.map (·.render)), by simp [Components.origin, withSuffix]⟩
    rw [hr, List.append_assoc, List.cons_append] at e
    obtain ⟨t, h1, h2⟩ := cut_at e (scheme_noColon hsch)
    rcases t with _ | ⟨a, t⟩
    · rw [h1, List.append_nil]
    · simp only [List.cons_append, List.cons.injEq] at h2
      exact absurd (by rw [h1, ← h2.1]; simp) (hx c!":" (by decide))
  | none =>
    exfalso
    cases ha : c'.auth with
    | some a =>
      have : c'.origin = c!"/" :: c!"/" :: a.render := by
        rcases c' with ⟨sc, au, pa, q, f⟩
        simp only at hs ha; subst hs ha
        simp [Components.origin, withSuffix, withPrefix]
      rw [this] at e
      exact head (by decide) e
    | none =>
      rw [origin_none ha, hs] at e
      have e : c'.path ++ (queryText c'.query ++ fragText c'.fragment) = x ++ c!":" :: s := e
      have rest : ∀ {x' : Str}, (∀ d ∈ b!":/?#", d ∉ x') → queryText c'.query ++ fragText c'.fragment ≠ x' ++ c!":" :: s := by
        intro x' hx' he
        rcases hq : c'.query with _ | q
        · rcases hf : c'.fragment with _ | f
          · rw [hq, hf] at he; simp [queryText, fragText] at he
          · rw [hq, hf] at he
            rcases x' with _ | ⟨a, x'⟩
            · simp [queryText, fragText] at he
            · simp only [queryText, fragText, List.nil_append, List.cons_append, List.cons.injEq] at he
              exact hx' a (by rw [← he.1]; decide) (by simp)
        · rw [hq] at he
          rcases x' with _ | ⟨a, x'⟩
          · simp [queryText, fragText] at he
          · simp only [queryText, fragText, List.nil_append, List.cons_append, List.cons.injEq] at he
            exact hx' a (by rw [← he.1]; decide) (by simp)
      have hok := hc'.2.2.1
      rw [hs, ha] at hok
      rcases hok with h | h | h
      · rw [h] at e
        exact rest hx e
      · obtain ⟨t, ht⟩ : ∃ t, c'.path = c!"/" :: t := by
          have := loose_head h
          cases hp : c'.path with
          | nil => rw [hp] at this; cases this
          | cons a t => rw [hp] at this; simp only [List.head?_cons, Option.some.injEq] at this; exact ⟨t, by rw [this]⟩
        rw [ht] at e
        exact head (by decide) e
      · obtain ⟨n, t, -, hn, ht, hp⟩ := h
        rw [hp, List.append_assoc] at e
        have hnc := esc_free (stop := b!":") hn (by decide +kernel) (by decide +kernel) (by decide)
        obtain ⟨u, h1, h2⟩ := cut_at e (hnc _ (by simp))
        have hu : ∀ d ∈ b!":/?#", d ∉ u := fun d hd hm => hx d hd (by rw [h1]; simp [hm])
        rcases Slashed.head ht with rfl | ⟨t', rfl⟩
        · exact rest hu h2
        · rcases u with _ | ⟨a, u⟩
          · simp at h2
          · simp only [List.cons_append, List.cons.injEq] at h2
            exact hu a (by rw [← h2.1]; decide) (by simp)

/-- C64: before an accepted text without a scheme exactly the schemes can be put, with a colon (among the
texts in which there is no delimiter); nothing else about the url changes. -/
theorem C64_scheme {s : Str} {v : View} (h : View.make s = .ret v) (h0 : rawPart v 0 = []) (x : Str) (hx : ∀ d ∈ b!":/?#", d ∉ x) :
    (Scheme lib x → ∃ w, View.make (x ++ b!":" ++ s) = .ret w ∧ rawPart w 0 = x ++ b!":" ∧ (∀ i, 1 ≤ i → i ≤ 7 → rawPart w i = rawPart v i) ∧
      w.pt.host = v.pt.host ∧ w.pt.nseg = v.pt.nseg ∧ w.pt.nparam = v.pt.nparam) ∧
    (¬ Scheme lib x → View.make (x ++ b!":" ++ s) = .throw .invalid_part) := by
  obtain ⟨c, hc, rfl, r⟩ := make_inv h
  rw [raw0 r, schemeText_nil] at h0
  have etext : x ++ b!":" ++ c.render = x ++ c!":" :: c.render := by simp
  constructor
  · intro hsc
    have hv : Components.Valid lib { c with scheme := some x } := by
      refine ⟨?_, hc.2.1, ?_, hc.2.2.2.1, hc.2.2.2.2⟩
      · intro y hy
        cases hy
        exact hsc
      · have h1 := (fits_iff hc.2.2.1).1 hc.2.2.1
        exact (fits_iff hc.2.2.1).2 ⟨h1.1, fun h => ⟨(h1.2 h).1, (h1.2 h).2.1, nofun⟩⟩
    obtain ⟨w, hw, r'⟩ := make_of hv
    refine ⟨w, ?_, by rw [raw0 r']; rfl, ?_, host_same r r' rfl, by rw [r'.nseg, r.nseg], by rw [r'.nparam, r.nparam]⟩
    · rw [etext, ← hw]
      congr 1
      rcases c with ⟨sc, au, pa, q, f⟩
      simp only at h0
      subst h0
      simp [Components.render]
    · have ea : [rawPart w 1, rawPart w 2, rawPart w 3, rawPart w 4] = [rawPart v 1, rawPart v 2, rawPart v 3, rawPart v 4] := by
        rw [rawA r, rawA r']
      simp only [List.cons.injEq, and_true] at ea
      intro i h1 h7
      obtain rfl | rfl | rfl | rfl | rfl | rfl | rfl : i = 1 ∨ i = 2 ∨ i = 3 ∨ i = 4 ∨ i = 5 ∨ i = 6 ∨ i = 7 := by omega
      · exact ea.1
      · exact ea.2.1
      · exact ea.2.2.1
      · exact ea.2.2.2
      · rw [raw5 r, raw5 r']
      · rw [raw6 r, raw6 r']
      · rw [raw7 r, raw7 r']
  · intro hsc
    refine not_accepted fun w hw => hsc ?_
    rw [etext] at hw
    obtain ⟨c', hc', e, -⟩ := make_inv hw
    exact hc'.1 x (scheme_cut hc' hx e)

/-- C64: without its scheme an accepted text is accepted, with the same parts, exactly if there is an
authority or the first segment of a rootless path has no colon. -/
theorem C64_unscheme {s : Str} {v : View} (h : View.make s = .ret v) :
    (∃ w, View.make (rawAuth v ++ rawPart v 5 ++ rawPart v 6 ++ rawPart v 7) = .ret w ∧ rawPart w 0 = [] ∧
      (∀ i, 1 ≤ i → i ≤ 7 → rawPart w i = rawPart v i) ∧ w.pt.host = v.pt.host ∧ w.pt.nseg = v.pt.nseg ∧ w.pt.nparam = v.pt.nparam) ↔
    (rawAuth v ≠ [] ∨ c!":" ∉ (rawPart v 5).takeWhile (· ≠ c!"/")) := by
  obtain ⟨v₀, h₀, r₀⟩ := make_empty
  have key := C64_combine h₀ h h h h
  have e0 : rawPart v₀ 0 = [] := by rw [raw0 r₀]; rfl
  have self := (C64_combine h h h h h).1 (by
    obtain ⟨c, hc, rfl, r⟩ := make_inv h
    refine ⟨v, ?_, rfl, fun _ _ _ => rfl, rfl, rfl, rfl, rfl, rfl, rfl⟩
    rw [raw0 r, rawAuth_eq r, raw5 r, raw6 r, raw7 r, ← h, ← compParts_flatten c]
    simp [compParts])
  rw [e0, List.nil_append] at key
  constructor
  · rintro ⟨w, hw, h0, hi, hh, hn, hp⟩
    have fits := key.1 ⟨w, hw, by rw [h0, e0], fun i h1 h2 => hi i h1 (by omega), hi 5 (by omega) (by omega), hi 6 (by omega) (by omega),
      hi 7 (by omega) (by omega), hh, hn, hp⟩
    rcases Classical.em (rawAuth v = []) with ha | ha
    · exact .inr (fits.noScheme ha rfl)
    · exact .inl ha
  · intro hor
    obtain ⟨w, hw, m⟩ := key.2 ⟨self.auth, self.noAuth, self.lone, fun ha _ => by
      rcases hor with h | h
      · exact absurd ha h
      · exact h⟩
    refine ⟨w, hw, by rw [m.scheme, e0], fun i h1 h7 => ?_, m.host, m.nseg, m.nparam⟩
    by_cases h4 : i ≤ 4
    · exact m.auth i h1 h4
    · obtain rfl | rfl | rfl : i = 5 ∨ i = 6 ∨ i = 7 := by omega
      · exact m.path
      · exact m.query
      · exact m.fragment

/-- C64: what remains of an accepted text when its fragment, its query, or both are cut out is accepted with
the remaining parts - unless the path is a lone slash, and the part behind it remains. -/
theorem C64_cut {s : Str} {v : View} (h : View.make s = .ret v) :
    (∃ w, View.make (rawPart v 0 ++ rawAuth v ++ rawPart v 5 ++ rawPart v 6) = .ret w ∧ (∀ i, i < 7 → rawPart w i = rawPart v i) ∧
      rawPart w 7 = []) ∧
    (∃ w, View.make (rawPart v 0 ++ rawAuth v ++ rawPart v 5 ++ rawPart v 7) = .ret w ∧ (∀ i, i < 6 → rawPart w i = rawPart v i) ∧
      rawPart w 6 = [] ∧ rawPart w 7 = rawPart v 7) ∧
    (∃ w, View.make (rawPart v 0 ++ rawAuth v ++ rawPart v 5) = .ret w ∧ (∀ i, i < 6 → rawPart w i = rawPart v i) ∧
      rawPart w 6 = [] ∧ rawPart w 7 = []) := by
  obtain ⟨v₀, h₀, r₀⟩ := make_empty
  have e6 : rawPart v₀ 6 = [] := by rw [raw6 r₀]; rfl
  have e7 : rawPart v₀ 7 = [] := by rw [raw7 r₀]; rfl
  have self := (C64_combine h h h h h).1 (by
    obtain ⟨c, hc, rfl, r⟩ := make_inv h
    refine ⟨v, ?_, rfl, fun _ _ _ => rfl, rfl, rfl, rfl, rfl, rfl, rfl⟩
    rw [raw0 r, rawAuth_eq r, raw5 r, raw6 r, raw7 r, ← h, ← compParts_flatten c]
    simp [compParts])
  have small : ∀ {w q f : View}, Mixed w v v v q f → ∀ i, i < 6 → rawPart w i = rawPart v i := by
    intro w q f m i hi
    by_cases h0 : i = 0
    · rw [h0]; exact m.scheme
    · by_cases h4 : i ≤ 4
      · exact m.auth i (by omega) h4
      · obtain rfl : i = 5 := by omega
        exact m.path
  refine ⟨?_, ?_, ?_⟩
  · obtain ⟨w, hw, m⟩ := (C64_combine h h h h h₀).2 ⟨self.auth, self.noAuth, fun ha hp => by
      rw [e7, (List.append_eq_nil_iff.1 (self.lone ha hp)).1]; rfl, self.noScheme⟩
    rw [e7, List.append_nil] at hw
    refine ⟨w, hw, fun i hi => ?_, by rw [m.fragment, e7]⟩
    by_cases h6 : i < 6
    · exact small m i h6
    · obtain rfl : i = 6 := by omega
      exact m.query
  · obtain ⟨w, hw, m⟩ := (C64_combine h h h h₀ h).2 ⟨self.auth, self.noAuth, fun ha hp => by
      rw [e6, (List.append_eq_nil_iff.1 (self.lone ha hp)).2]; rfl, self.noScheme⟩
    rw [e6, List.append_nil] at hw
    exact ⟨w, hw, small m, by rw [m.query, e6], m.fragment⟩
  · obtain ⟨w, hw, m⟩ := (C64_combine h h h h₀ h₀).2 ⟨self.auth, self.noAuth, fun ha hp => by
      rw [e6, e7]; rfl, self.noScheme⟩
    rw [e6, e7, List.append_nil, List.append_nil] at hw
    exact ⟨w, hw, small m, by rw [m.query, e6], by rw [m.fragment, e7]⟩

/-! ### non-vacuity -/

/-- The parts of five texts fit together. -/
example : ∃ v₁ v₂ v₃ v₄ v₅ w, View.make b!"http:a" = .ret v₁ ∧ View.make b!"//u:p@[::1]:80/" = .ret v₂ ∧ View.make b!"ftp://h/a%2F/b" = .ret v₃ ∧
    View.make b!"?k=v&l" = .ret v₄ ∧ View.make b!"#f" = .ret v₅ ∧
    PathFits (rawPart v₁ 0) (rawAuth v₂) (rawPart v₃ 5) (rawPart v₄ 6 ++ rawPart v₅ 7) ∧
    View.make b!"http://u:p@[::1]:80/a%2F/b?k=v&l#f" = .ret w ∧ Mixed w v₁ v₂ v₃ v₄ v₅ := by
  refine ⟨_, _, _, _, _, _, rfl, rfl, rfl, rfl, rfl, ?_, rfl, ?_⟩
  · refine ⟨fun _ => ⟨[b!"a%2F", b!"b"], ?_, by decide +kernel⟩, ?_, ?_, ?_⟩
    · intro s hs
      simp only [List.mem_cons, List.not_mem_nil, or_false] at hs
      rcases hs with rfl | rfl
      · exact .char (by decide) (.pct (by decide) (by decide) .nil)
      · exact .char (by decide) .nil
    · intro h; exact absurd h (by decide +kernel)
    · intro h; exact absurd h (by decide +kernel)
    · intro h; exact absurd h (by decide +kernel)
  · refine ⟨by decide +kernel, fun i h1 h2 => ?_, by decide +kernel, by decide +kernel, by decide +kernel, by decide +kernel, by decide +kernel,
      by decide +kernel⟩
    obtain rfl | rfl | rfl | rfl : i = 1 ∨ i = 2 ∨ i = 3 ∨ i = 4 := by omega
    all_goals decide +kernel

/-- Each condition on the path is needed. -/
example : ∃ a v w, View.make b!"a" = .ret a ∧ View.make b!"//h" = .ret v ∧ View.make b!"//h//p" = .ret w ∧
    ¬ PathFits (rawPart a 0) (rawAuth v) (rawPart a 5) [] ∧ ¬ PathFits (rawPart a 0) (rawAuth a) (rawPart w 5) [] := by
  refine ⟨_, _, _, rfl, rfl, rfl, fun h => ?_, fun h => h.noAuth (by decide +kernel) (by decide +kernel)⟩
  rcases Slashed.head (h.auth (by decide +kernel)) with e | ⟨t, e⟩
  · exact absurd e (by decide +kernel)
  · have := congrArg List.head? e
    exact absurd this (by simp [rawPart]; decide +kernel)

/-- A text that changes its meaning when its scheme is dropped: `a:b:c` becomes `b:c`. -/
example : ∃ v w, View.make b!"a:b:c" = .ret v ∧ rawAuth v ++ rawPart v 5 ++ rawPart v 6 ++ rawPart v 7 = b!"b:c" ∧
    View.make b!"b:c" = .ret w ∧ rawPart w 0 = b!"b:" :=
  ⟨_, _, rfl, by decide +kernel, rfl, by decide +kernel⟩

example : ∃ v, View.make b!"//h/p?q" = .ret v ∧ rawPart v 7 = [] ∧ rawPart v 0 = [] ∧ ¬ LoneSlash v :=
  ⟨_, rfl, by decide +kernel, by decide +kernel, fun h => absurd h.path (by decide +kernel)⟩
example : View.make b!"//h/p?q##" = .throw .invalid_part := rfl
example : View.make b!"1://h/p?q" = .throw .invalid_part := rfl

end Url.Props
