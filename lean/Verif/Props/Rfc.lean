import Verif.Proofs.AppendixB
import Verif.Props.Parsing

/-!
C59: the components are those of the regular expression of RFC 3986, appendix B; and C04, C05 sharpened to equivalences.
-/

set_option autoImplicit false
set_option linter.unusedSimpArgs false

namespace Url.Props
open Spec

/-! ### C59 -/

/-- The accessors of a view return the groups of the regular expression. -/
structure Matches (o : Obj) (g : Groups9) : Prop where
  scheme : scheme o = .ok (g.scheme.getD [])
  has_authority : has_authority o = g.authority.isSome
  authority : encoded_authority o = .ok (g.authority.getD [])
  path : encoded_path o = .ok g.path
  query_part : query_part o = .ok (withPrefix b!"?" g.query)
  query : encoded_query o = .ok (g.query.getD [])
  fragment_part : fragment_part o = .ok (withPrefix b!"#" g.fragment)
  fragment : encoded_fragment o = .ok (g.fragment.getD [])

/-- C59: the regular expression splits every URI-reference of the RFC into its components. -/
theorem C59_rfc {c : Components} (hc : c.Valid rfc) :
    appendixB c.render = ⟨c.scheme, c.auth.map (·.render), c.path, c.query, c.fragment⟩ :=
  appendixB_render plain_rfc hc (rfc_path_free hc)

/-- C59: the grammar of the RFC is unambiguous, down to user, password, host and port. -/
theorem C59_unique {c c' : Components} (hc : c.Valid rfc) (hc' : c'.Valid rfc) (h : c.render = c'.render) : c = c' :=
  split_unique plain_rfc plain_rfc hc hc' (rfc_path_free hc) (rfc_path_free hc') h

theorem takeWhile_all (P : Byte → Bool) (s : Str) : (s.takeWhile P).all P = true := by
  induction s with
  | nil => rfl
  | cons c t ih =>
    rw [List.takeWhile_cons]
    split
    · rename_i h; rw [List.all_cons, h, ih]; rfl
    · rfl

theorem appendixB_path (s : Str) : Free b!"?#" (appendixB s).path := takeWhile_all _ _

/-- C59, exactly: on an accepted string the accessors return the groups of the regular expression if and only if the path
has neither a `?` nor a `#`. -/
theorem C59_partial {s : Str} {v : View} (hv : View.make s = .ret v) {dbg : Bool} {p : Str} (hp : encoded_path (v.obj dbg) = .ok p) :
    Matches (v.obj dbg) (appendixB s) ↔ c!"?" ∉ p ∧ c!"#" ∉ p := by
  have hfree : Free b!"?#" p ↔ c!"?" ∉ p ∧ c!"#" ∉ p := by
    unfold Free
    rw [List.all_eq_true]
    constructor
    · exact fun h => ⟨fun hm => absurd (h _ hm) (by decide), fun hm => absurd (h _ hm) (by decide)⟩
    · rintro ⟨h1, h2⟩ c hc
      have h1 : c ≠ c!"?" := fun e => h1 (e ▸ hc)
      have h2 : c ≠ c!"#" := fun e => h2 (e ▸ hc)
      simp [h1, h2]
  rw [← hfree]
  obtain ⟨c, hc, rfl, r⟩ := make_inv hv
  have R := viewReports (r.obj dbg)
  rw [R.path, Except.ok.injEq] at hp
  subst hp
  constructor
  · intro h
    have := h.path
    rw [R.path, Except.ok.injEq] at this
    rw [this]
    exact appendixB_path _
  · intro h
    rw [appendixB_render plain_lib hc h]
    refine ⟨R.scheme, ?_, ?_, R.path, R.query_part, R.query, R.fragment_part, R.fragment⟩
    · rw [R.has_authority]; cases c.auth <;> rfl
    · rw [R.authority]
      unfold Components.authority
      cases c.auth <;> rfl

example : ∃ v, View.make sample = .ret v ∧ encoded_path (v.obj true) = .ok b!"/a//b;c" := ⟨_, rfl, by decide +kernel⟩

/-- C59 is false for `/?q`: the regular expression finds a query, the library does not. -/
theorem C59_false : ∃ v, View.make b!"/?q" = .ret v ∧ (appendixB b!"/?q").query = some b!"q" ∧
    ∀ dbg, encoded_query (v.obj dbg) = .ok [] := by
  refine ⟨_, rfl, by decide +kernel, fun dbg => ?_⟩
  cases dbg <;> decide +kernel

/-! ### C04 and C05 -/

/-- what is skipped: the first character after the slash of an absolute path without authority -/
def lenient (c : Components) : Str :=
  if c.auth = none ∧ c.path.head? = some c!"/" then c.path.drop 2 else c.path

/-- every `%` is followed by two digits or upper-case letters `A` to `F` -/
def UpperEscapes (s : Str) : Prop := Escaped isUpperHex (· != c!"%") s

theorem UpperEscapes.of {ok : Byte → Bool} (h : ok c!"%" = false) {s : Str} (hs : Escaped isUpperHex ok s) : UpperEscapes s :=
  hs.mono (fun _ h => h) (fun c hc => by rw [bne_iff_ne]; rintro rfl; rw [h] at hc; simp at hc)

theorem UpperEscapes.of_all {s : Str} (h : s.all (· != c!"%") = true) : UpperEscapes s := Escaped.of_all h

theorem UpperEscapes.tail {d : Byte} {s : Str} (h : UpperEscapes (d :: s)) (hd : d ≠ c!"%") : UpperEscapes s := by
  unfold UpperEscapes at h
  generalize he : d :: s = x at h
  cases h with
  | nil => simp at he
  | char _ h => simp at he; rw [he.2]; exact h
  | pct _ _ _ => simp at he; exact absurd he.1 hd

/-- the part of an escaped text in front is upper case as well -/
theorem UpperEscapes.left {hex ok : Byte → Bool} {x y : Str} (hx : Escaped hex ok x) (h0 : ok c!"%" = false) (h : UpperEscapes (x ++ y)) :
    Escaped isUpperHex ok x ∧ UpperEscapes y := by
  induction hx with
  | nil => exact ⟨.nil, h⟩
  | @char c s hc _ ih =>
    have hne : c ≠ c!"%" := by rintro rfl; rw [h0] at hc; simp at hc
    obtain ⟨h1, h2⟩ := ih (h.tail hne)
    exact ⟨.char hc h1, h2⟩
  | @pct a b s _ _ _ ih =>
    unfold UpperEscapes at h
    generalize he : c!"%" :: a :: b :: s ++ y = z at h
    cases h with
    | nil => simp at he
    | char hc _ => simp at he; rw [← he.1] at hc; exact absurd hc (by decide)
    | pct ha hb h =>
      simp at he
      obtain ⟨rfl, rfl, rfl⟩ := he
      obtain ⟨h1, h2⟩ := ih h
      exact ⟨.pct ha hb h1, h2⟩

theorem UpperEscapes.all {x y : Str} (hx : x.all (· != c!"%") = true) (h : UpperEscapes (x ++ y)) : UpperEscapes y :=
  (UpperEscapes.left (hex := isUpperHex) (Escaped.of_all hx) (by decide) h).2

theorem UpperEscapes.whole {hex ok : Byte → Bool} {x : Str} (hx : Escaped hex ok x) (h0 : ok c!"%" = false) (h : UpperEscapes x) :
    Escaped isUpperHex ok x := by
  rw [← List.append_nil x] at h
  exact (UpperEscapes.left hx h0 h).1

theorem UpperEscapes.slashed {hex : Byte → Bool} {x : Str} (hx : Slashed hex x) (h : UpperEscapes x) : Slashed isUpperHex x := by
  obtain ⟨segs, h1, rfl⟩ := hx
  refine ⟨segs, ?_, rfl⟩
  induction segs with
  | nil => simp
  | cons s segs ih =>
    rw [List.flatMap_cons, List.cons_append] at h
    obtain ⟨h2, h3⟩ := UpperEscapes.left (h1 s (by simp)) (by decide) (h.tail (by decide))
    intro x hx
    rcases List.mem_cons.1 hx with rfl | hx
    · exact h2
    · exact ih (fun s hs => h1 s (by simp [hs])) h3 x hx

/-! the absolute path whose first character is a delimiter -/

/-- The library's path `/?..` or `/#..` is not one. -/
theorem lib_path {c : Components} (hc : c.Valid lib) (h : ¬ Free b!"?#" c.path) :
    c.auth = none ∧ ∃ d s t, (d = c!"?" ∨ d = c!"#") ∧ Escaped isUpperHex isPchar s ∧ Slashed isUpperHex t ∧ c.path = c!"/" :: d :: (s ++ t) := by
  have hs : ∀ {ok : Byte → Bool} {s : Str}, (∀ n : Fin 256, ok (UInt8.ofNat n.val) = true → (!(b!"?#").contains (UInt8.ofNat n.val)) = true) →
      Escaped isUpperHex ok s → Free b!"?#" s := fun h1 h => Escaped.free' upper_isHex h (by decide +kernel) h1 (by decide)
  have hsl : ∀ {p : Str}, Slashed isUpperHex p → Free b!"?#" p := by
    rintro p ⟨segs, h, rfl⟩
    induction segs with
    | nil => rfl
    | cons s segs ih =>
      rw [List.flatMap_cons]
      exact Free.append (Free.append (x := b!"/") (by decide) (hs (by decide +kernel) (h s (by simp)))) (ih fun s hm => h s (by simp [hm]))
  have habs : LoosePathAbsolute c.path (c.query.isSome || c.fragment.isSome) → ∃ d s t, (d = c!"?" ∨ d = c!"#") ∧
      Escaped isUpperHex isPchar s ∧ Slashed isUpperHex t ∧ c.path = c!"/" :: d :: (s ++ t) := by
    rintro (⟨e, _⟩ | ⟨d, s, t, _, h1, h2, e⟩)
    · rw [e] at h; exact absurd (by decide) h
    · refine ⟨d, s, t, ?_, h1, h2, e⟩
      refine Classical.byContradiction fun hd => ?_
      rw [not_or] at hd
      refine h ?_
      rw [e]
      refine Free.append (x := [c!"/", d] ++ s) (Free.append ?_ (hs (by decide +kernel) h1)) (hsl h2)
      show (_ && (_ && true)) = true
      simp [hd.1, hd.2]
  obtain ⟨_, _, v3, _, _⟩ := hc
  cases ha : c.auth with
  | some a =>
    rw [ha] at v3
    have v3 : Slashed lib.hex c.path := by simpa [PathOk] using v3
    exact absurd (hsl v3) h
  | none =>
    refine ⟨rfl, ?_⟩
    rw [ha] at v3
    unfold PathOk at v3
    simp only [Option.isSome_none, Bool.false_eq_true, if_false] at v3
    split at v3
    · rcases v3 with e | v3 | ⟨s, t, _, h1, h2, e⟩
      · rw [e] at h; exact absurd (by decide) h
      · exact habs v3
      · rw [e] at h; exact absurd (Free.append (hs (by decide +kernel) h1) (hsl h2)) h
    · rcases v3 with e | v3 | ⟨s, t, _, h1, h2, e⟩
      · rw [e] at h; exact absurd (by decide) h
      · exact habs v3
      · rw [e] at h; exact absurd (Free.append (hs (by decide +kernel) h1) (hsl h2)) h

theorem Slashed.escaped {hex : Byte → Bool} {t : Str} (h : Slashed hex t) : Escaped hex isQueryFrag t := by
  obtain ⟨segs, h, rfl⟩ := h
  induction segs with
  | nil => exact .nil
  | cons s segs ih =>
    rw [List.flatMap_cons]
    exact (Escaped.char (by decide) ((h s (by simp)).mono (fun _ h => h) (fun c hc => by simp [isQueryFrag, hc]))).append
      (ih fun s hs => h s (by simp [hs]))

/-- The components of the RFC for text whose path starts with `/?` or `/#` according to the library. -/
def regroup (c : Components) : Components :=
  match c.path with
  | _ :: d :: x =>
    if d = c!"?" then { c with path := b!"/", query := some (x ++ withPrefix b!"?" c.query) }
    else { c with path := b!"/", query := none, fragment := some (x ++ withPrefix b!"?" c.query) }
  | _ => c

/-- The dialect of the library with strict paths. -/
def strict : Dialect := { lib with pathAbsolute := fun p _ => PathAbsolute isUpperHex p }

theorem plain_strict : Plain strict where
  scheme := lib_schemeChar_rfc
  hex := upper_isHex
  literal _ := free_lib_literal
  absolute p _ h := plain_rfc.absolute p true (by
    rcases h with h | ⟨s, t, h1, h2, h3, h4⟩
    · exact .inl h
    · exact .inr ⟨s, t, h1, h2.mono upper_isHex (fun _ h => h), Slashed.mono upper_isHex h3, h4⟩)

theorem regroup_render {c : Components} {d : Byte} {x : Str} (ha : c.auth = none) (hp : c.path = c!"/" :: d :: x)
    (hd : d = c!"?" ∨ d = c!"#" ∧ c.fragment = none) : (regroup c).render = c.render := by
  obtain ⟨sch, au, p, q, f⟩ := c
  simp only at ha hp hd
  subst ha hp
  rcases hd with rfl | ⟨rfl, rfl⟩
  · cases sch <;> cases q <;> cases f <;> simp [regroup, Components.render, withPrefix]
  · cases sch <;> cases q <;> simp [regroup, Components.render, withPrefix]

theorem regroup_valid {c : Components} (hc : c.Valid lib) {d : Byte} {s t : Str} (ha : c.auth = none)
    (hp : c.path = c!"/" :: d :: (s ++ t)) (hs : Escaped isUpperHex isPchar s) (ht : Slashed isUpperHex t)
    (hd : d = c!"?" ∨ d = c!"#" ∧ c.fragment = none) : (regroup c).Valid strict := by
  obtain ⟨sch, au, p, q, f⟩ := c
  obtain ⟨v1, v2, _, v4, v5⟩ := hc
  simp only at ha hp hd v1 v2 v4 v5
  subst ha hp
  have hst : Escaped isUpperHex isQueryFrag (s ++ t) :=
    Escaped.append (hs.mono (fun _ h => h) (fun c hc => by simp [isQueryFrag, hc])) (Slashed.escaped ht)
  have hx : Escaped isUpperHex isQueryFrag (s ++ t ++ withPrefix b!"?" q) := by
    refine Escaped.append hst ?_
    cases q with
    | none => exact .nil
    | some q => exact .char (by decide) (v4 q rfl)
  have hpo : ∀ b f, PathOk strict b false f b!"/" := fun b f => by cases b <;> exact .inr (.inl (.inl rfl))
  rcases hd with rfl | ⟨rfl, rfl⟩
  · rw [show regroup ⟨sch, none, c!"/" :: c!"?" :: (s ++ t), q, f⟩ = ⟨sch, none, b!"/", some (s ++ t ++ withPrefix b!"?" q), f⟩ from by simp [regroup]]
    refine ⟨v1, v2, hpo _ _, fun x e => ?_, v5⟩
    rw [← Option.some.inj e]; exact hx
  · rw [show regroup ⟨sch, none, c!"/" :: c!"#" :: (s ++ t), q, none⟩ = ⟨sch, none, b!"/", none, some (s ++ t ++ withPrefix b!"?" q)⟩
      from by simp [regroup]]
    refine ⟨v1, v2, hpo _ _, fun x e => absurd e (by simp), fun x e => ?_⟩
    rw [← Option.some.inj e]; exact hx

theorem strict_path_free {c : Components} (hc : c.Valid strict) : Free b!"?#" c.path := by
  -- replace the literals, which do not matter for the path
  have : ({ c with auth := c.auth.map fun _ => ⟨none, [], none⟩ } : Components).Valid rfc := by
    obtain ⟨v1, v2, v3, v4, v5⟩ := hc
    have hv : ({ c with auth := c.auth.map fun _ => ⟨none, [], none⟩ } : Components).Valid strict := by
      refine ⟨v1, ?_, ?_, v4, v5⟩
      · intro a ha
        cases h : c.auth with
        | none => rw [h] at ha; simp at ha
        | some b =>
          rw [h] at ha
          simp at ha
          subst ha
          exact ⟨by simp, .inr .nil, by simp⟩
      · cases h : c.auth <;> rw [h] at v3 <;> exact v3
    refine Valid.mono hv lib_schemeChar_rfc upper_isHex ?_ ?_
    · rintro x ⟨a, ha, e⟩ _
      cases h : c.auth with
      | none => rw [h] at ha; simp at ha
      | some b =>
        rw [h] at ha
        simp at ha
        subst ha
        simp at e
    · rintro _ (h | ⟨s, t, h1, h2, h3, h4⟩)
      · exact .inl h
      · exact .inr ⟨s, t, h1, h2.mono upper_isHex (fun _ h => h), Slashed.mono upper_isHex h3, h4⟩
  have := rfc_path_free this
  exact this

theorem render_eq (c : Components) : c.render =
    withSuffix b!":" c.scheme ++ withPrefix b!"//" (c.auth.map (·.render)) ++ c.path ++ withPrefix b!"?" c.query ++ withPrefix b!"#" c.fragment := by
  obtain ⟨sch, au, p, q, f⟩ := c
  unfold Components.render
  cases sch <;> cases au <;> cases q <;> cases f <;> rfl

theorem count_hash {c : Components} (hc : c.Valid rfc) : c.render.count c!"#" ≤ 1 := by
  have h0 : ∀ {s : Str}, Free b!"#" s → s.count c!"#" = 0 := fun h =>
    List.count_eq_zero.2 fun hm => absurd (List.all_eq_true.1 h _ hm) (by decide)
  have hp := rfc_path_free hc
  obtain ⟨v1, v2, _, v4, v5⟩ := hc
  rw [render_eq]
  rw [List.count_append, List.count_append, List.count_append, List.count_append]
  have e1 : (withSuffix b!":" c.scheme).count c!"#" = 0 := by
    cases h : c.scheme with
    | none => rfl
    | some s =>
      obtain ⟨x, t, rfl, hx, ht⟩ := v1 s h
      refine h0 (Free.append ?_ (by decide))
      unfold Free
      rw [List.all_cons, (forall_byte (P := fun c => isAlpha c = true → (!(b!"#").contains c) = true) (by decide +kernel)) x hx]
      exact all_mono (Q := fun c => !(b!"#").contains c)
        (forall_byte (P := fun c => rfc.schemeChar c = true → (!(b!"#").contains c) = true) (by decide +kernel)) ht
  have e2 : (withPrefix b!"//" (c.auth.map (·.render))).count c!"#" = 0 := by
    cases h : c.auth with
    | none => rfl
    | some a =>
      refine h0 (Free.append (by decide) ((auth_free plain_rfc (v2 a h)).mono ?_))
      exact forall_byte (by decide +kernel)
  have e3 : c.path.count c!"#" = 0 := h0 (hp.mono (forall_byte (by decide +kernel)))
  have e4 : (withPrefix b!"?" c.query).count c!"#" = 0 := by
    cases h : c.query with
    | none => rfl
    | some q => exact h0 (Free.append (by decide) (Escaped.free' (fun _ h => h) (v4 q h) (by decide +kernel) (by decide +kernel) (by decide)))
  rw [e1, e2, e3, e4]
  cases h : c.fragment with
  | none => simp [withPrefix]
  | some f =>
    have : f.count c!"#" = 0 := h0 (Escaped.free' (fun _ h => h) (v5 f h) (by decide +kernel) (by decide +kernel) (by decide))
    show 0 + 0 + 0 + 0 + (c!"#" :: f).count c!"#" ≤ 1
    rw [List.count_cons_self, this]
    omega

/-- If the text is also one of the RFC, then the components are either the same or regrouped. -/
theorem lib_rfc {c k : Components} (hk : k.Valid lib) (hc : c.Valid rfc) (h : c.render = k.render) :
    (Free b!"?#" k.path ∧ c = k) ∨
    (k.auth = none ∧ c = regroup k ∧ ∃ d s t, (d = c!"?" ∨ d = c!"#" ∧ k.fragment = none) ∧ Escaped isUpperHex isPchar s ∧
      Slashed isUpperHex t ∧ k.path = c!"/" :: d :: (s ++ t)) := by
  by_cases hf : Free b!"?#" k.path
  · exact .inl ⟨hf, split_unique plain_rfc plain_lib hc hk (rfc_path_free hc) hf h⟩
  · obtain ⟨ha, d, s, t, hd, hs, ht, hp⟩ := lib_path hk hf
    have hd' : d = c!"?" ∨ d = c!"#" ∧ k.fragment = none := by
      rcases hd with rfl | rfl
      · exact .inl rfl
      · refine .inr ⟨rfl, ?_⟩
        cases hfr : k.fragment with
        | none => rfl
        | some f =>
          have h1 := count_hash hc
          rw [h] at h1
          rw [render_eq, hp, hfr, List.count_append, List.count_append, List.count_append, List.count_append] at h1
          simp only [List.count_cons, List.count_append, List.cons_append, List.nil_append] at h1
          simp [withPrefix] at h1
          omega
    have hv := regroup_valid hk ha hp hs ht hd'
    exact .inr ⟨ha, split_unique plain_rfc plain_strict hc hv (rfc_path_free hc) (strict_path_free hv)
      (h.trans (regroup_render ha hp hd').symm), d, s, t, hd', hs, ht, hp⟩

theorem noV {t : Str} (h : DottedTail t) : t.all (fun c => c != c!"v" && c != c!"V") = true := by
  obtain ⟨b, c, d, hb, hc, hd, rfl⟩ := h
  have : ∀ {s}, DecOctet s → s.all (fun c => c != c!"v" && c != c!"V") = true :=
    fun h => all_mono (forall_byte (by decide +kernel)) (DecOctet.digits h).1
  simp only [List.all_append, this hb, this hc, this hd]
  rfl

/-- C04, exactly: an accepted string is a URI-reference of RFC 3986 if and only if its host, when it is bracketed, is an
IPv6 address of the RFC, and its path, when it starts with a slash and there is no authority, is a `path-absolute` of
the RFC or starts with the `?` or the only `#` of the text. -/
theorem C04_exact {s : Str} {v : View} (hv : View.make s = .ret v) {dbg : Bool} {h p f : Str}
    (hh : encoded_host (v.obj dbg) = .ok h) (hp : encoded_path (v.obj dbg) = .ok p) (hf : fragment_part (v.obj dbg) = .ok f) :
    UriReference rfc s ↔
      (∀ x, h = b!"[" ++ x ++ b!"]" → IPv6 isHex IPv4 x) ∧
      (has_authority (v.obj dbg) = false → p.head? = some c!"/" →
        PathAbsolute isHex p ∨ (∃ x, p = b!"/?" ++ x) ∨ ∃ x, p = b!"/#" ++ x ∧ f = []) := by
  constructor
  · rintro ⟨c, hc, e⟩
    obtain ⟨k, hk, rfl, r⟩ := make_inv hv
    have R := viewReports (r.obj dbg)
    rw [R.host, Except.ok.injEq] at hh
    rw [R.path, Except.ok.injEq] at hp
    rw [R.fragment_part, Except.ok.injEq] at hf
    rw [R.has_authority]
    subst hh hp hf
    rcases lib_rfc hk hc e with ⟨hfr, rfl⟩ | ⟨ha, _, d, s, t, hd, _, _, hp⟩
    · constructor
      · intro x hx
        unfold Components.host at hx
        cases ha : c.auth with
        | none => rw [ha] at hx; simp at hx
        | some a =>
          rw [ha] at hx
          simp only at hx
          have hnb : ∀ {hex : Byte → Bool} {s : Str}, (∀ c, hex c = true → isHex c = true) → Escaped hex isRegName s → s ≠ b!"[" ++ x ++ b!"]" := by
            intro hex s h1 h2 e
            have : Free b!"[" s := Escaped.free' h1 h2 (by decide +kernel) (by decide +kernel) (by decide)
            rw [e] at this
            exact absurd (List.all_eq_true.1 this c!"[" (by simp)) (by decide)
          have hbr : ∀ {y : Str}, a.host = b!"[" ++ y ++ b!"]" → y = x := fun e => by
            rw [hx] at e
            simpa using e.symm
          have h1 : rfc.ipLiteral x := by
            rcases (hc.2.1 a ha).2.1 with ⟨y, hy, e⟩ | hr
            · rw [← hbr e]; exact hy
            · exact absurd hx (hnb (fun _ h => h) hr)
          have h2 : lib.ipLiteral x := by
            rcases (hk.2.1 a ha).2.1 with ⟨y, hy, e⟩ | hr
            · rw [← hbr e]; exact hy
            · exact absurd hx (hnb upper_isHex hr)
          rcases h1 with h1 | ⟨w, y, t, hw, _, _, _, _, rfl⟩
          · exact h1
          · exfalso
            have hnv : ∀ {z : Str}, lib.ipLiteral z → z.all (fun c => c != c!"v" && c != c!"V") = true := by
              rintro z (h | ⟨t, ht, rfl⟩ | ⟨k, y, z, t, _, hy, hz, ht, rfl⟩)
              · obtain ⟨u, w, rfl, hu, hw⟩ := IPv6.shape (IPv6.mono upper_isHex (fun _ _ _ h => h) h)
                rw [List.all_append, all_mono (forall_byte (by decide +kernel)) hu]
                rcases hw with rfl | ⟨a, t, ha, ht, rfl⟩
                · rfl
                · rw [List.all_append, all_mono (forall_byte (by decide +kernel)) ha.2.2.1, noV ht]; rfl
              · rw [List.all_append, noV ht]; rfl
              · rw [List.all_append, List.all_append, List.all_append, noV ht, all_mono (forall_byte (by decide +kernel)) hz.2.2.1,
                  all_mono (forall_byte (by decide +kernel)) (H16s.group (H16s.mono upper_isHex hy))]
                rfl
            have := hnv h2
            rw [List.append_assoc, List.cons_append, List.all_cons, Bool.and_eq_true] at this
            rcases hw with rfl | rfl
            · exact absurd this.1 (by decide)
            · exact absurd this.1 (by decide)
      · intro hau hs
        left
        have hau : c.auth = none := by simpa using hau
        obtain ⟨_, _, v3, _, _⟩ := hc
        rw [hau] at v3
        unfold PathOk at v3
        simp only [Option.isSome_none, Bool.false_eq_true, if_false] at v3
        have hno : ∀ {ok : Byte → Bool} {s t : Str}, ok c!"/" = false → s ≠ [] → Escaped isHex ok s → (s ++ t).head? = some c!"/" → False := by
          intro ok s t hk h1 h2 e
          cases h2 with
          | nil => exact h1 rfl
          | char hc _ => simp at e; rw [e] at hc; simp [hk] at hc
          | pct _ _ _ => simp at e
        split at v3
        · rcases v3 with e | v3 | ⟨s, t, h1, h2, _, e⟩
          · rw [e] at hs; simp at hs
          · exact v3
          · rw [e] at hs; exact absurd hs (hno (by decide) h1 h2)
        · rcases v3 with e | v3 | ⟨s, t, h1, h2, _, e⟩
          · rw [e] at hs; simp at hs
          · exact v3
          · rw [e] at hs; exact absurd hs (hno (by decide) h1 h2)
    · constructor
      · intro x hx
        unfold Components.host at hx
        rw [ha] at hx
        simp at hx
      · intro _ _
        right
        rcases hd with rfl | ⟨rfl, hfr⟩
        · exact .inl ⟨s ++ t, hp⟩
        · exact .inr ⟨s ++ t, hp, by rw [hfr]; rfl⟩
  · rintro ⟨h1, h2⟩
    by_cases hbad : has_authority (v.obj dbg) = false ∧ p.head? = some c!"/" ∧ ¬ PathAbsolute isHex p
    · obtain ⟨h3, h4, h5⟩ := hbad
      have h6 := (h2 h3 h4).resolve_left h5
      obtain ⟨k, hk, rfl, r⟩ := make_inv hv
      have R := viewReports (r.obj dbg)
      rw [R.path, Except.ok.injEq] at hp
      rw [R.fragment_part, Except.ok.injEq] at hf
      rw [R.has_authority] at h3
      subst hp hf
      have ha : k.auth = none := by simpa using h3
      have hnf : ¬ Free b!"?#" k.path := by
        intro hfr
        rcases h6 with ⟨x, e⟩ | ⟨x, e, _⟩
        · rw [e] at hfr; exact absurd (List.all_eq_true.1 hfr c!"?" (by simp)) (by decide)
        · rw [e] at hfr; exact absurd (List.all_eq_true.1 hfr c!"#" (by simp)) (by decide)
      obtain ⟨_, d, s, t, hd, hs, ht, hp⟩ := lib_path hk hnf
      have hd' : d = c!"?" ∨ d = c!"#" ∧ k.fragment = none := by
        rcases h6 with ⟨x, e⟩ | ⟨x, e, hfr⟩
        · rw [hp] at e; simp at e; exact .inl e.1
        · rw [hp] at e; simp at e
          refine .inr ⟨e.1, ?_⟩
          cases hk : k.fragment with
          | none => rfl
          | some g => rw [hk] at hfr; simp [withPrefix] at hfr
      have hv' := regroup_valid hk ha hp hs ht hd'
      refine ⟨regroup k, Valid.mono hv' lib_schemeChar_rfc upper_isHex ?_ ?_, regroup_render ha hp hd'⟩
      · rintro x ⟨a, hau, _⟩ _
        have : (regroup k).auth = k.auth := by
          unfold regroup
          split
          · split <;> rfl
          · rfl
        rw [this, ha] at hau
        simp at hau
      · rintro _ (h | ⟨s, t, h1, h2, h3, h4⟩)
        · exact .inl h
        · exact .inr ⟨s, t, h1, h2.mono upper_isHex (fun _ h => h), Slashed.mono upper_isHex h3, h4⟩
    · refine C04_partial hv hh hp h1 fun h3 h4 => ?_
      refine Classical.byContradiction fun h5 => ?_
      exact hbad ⟨h3, h4, h5⟩

/-! the condition of C05 -/

/-- accepted, and a URI-reference of the RFC by the third way: the only `#` is read as part of the path -/
example : ∃ v, View.make b!"/#f" = .ret v ∧ encoded_host (v.obj true) = .ok [] ∧ encoded_path (v.obj true) = .ok b!"/#f" ∧
    fragment_part (v.obj true) = .ok [] ∧ has_authority (v.obj true) = false :=
  ⟨_, rfl, by decide +kernel, by decide +kernel, by decide +kernel, by decide +kernel⟩

/-- accepted, and not a URI-reference: with a second `#` -/
example : ∃ v, View.make b!"/#f#g" = .ret v ∧ encoded_host (v.obj true) = .ok [] ∧ encoded_path (v.obj true) = .ok b!"/#f" ∧
    fragment_part (v.obj true) = .ok b!"#g" ∧ has_authority (v.obj true) = false :=
  ⟨_, rfl, by decide +kernel, by decide +kernel, by decide +kernel, by decide +kernel⟩

/-- A query or fragment after `/?` or `/#`, as the library reads it: up to the next `?` it belongs to the path. -/
theorem query_split {hex : Byte → Bool} {q : Str} (h : Escaped hex isQueryFrag q) :
    ∃ s t o, q = s ++ t ++ withPrefix b!"?" o ∧ Escaped hex isPchar s ∧ Slashed hex t ∧ ∀ x, o = some x → Escaped hex isQueryFrag x := by
  induction h with
  | nil => exact ⟨[], [], none, rfl, .nil, ⟨[], by simp, rfl⟩, by simp⟩
  | @char c q hc hq ih =>
    obtain ⟨s, t, o, rfl, h1, ⟨segs, h2, rfl⟩, h3⟩ := ih
    by_cases hp : isPchar c = true
    · exact ⟨c :: s, _, o, by simp, .char hp h1, ⟨segs, h2, rfl⟩, h3⟩
    · by_cases hsl : c = c!"/"
      · subst hsl
        refine ⟨[], _, o, ?_, .nil, ⟨s :: segs, ?_, rfl⟩, h3⟩
        · rw [List.flatMap_cons]; simp
        · intro x hx
          rcases List.mem_cons.1 hx with rfl | hx
          · exact h1
          · exact h2 x hx
      · have : c = c!"?" := by
          unfold isQueryFrag at hc
          simp only [Bool.or_eq_true, beq_iff_eq] at hc
          exact (hc.resolve_left (not_or.2 ⟨hp, hsl⟩))
        subst this
        exact ⟨[], [], some _, rfl, .nil, ⟨[], by simp, rfl⟩, fun x e => by rw [← Option.some.inj e]; exact hq⟩
  | @pct a b q ha hb _ ih =>
    obtain ⟨s, t, o, rfl, h1, h2, h3⟩ := ih
    exact ⟨c!"%" :: a :: b :: s, t, o, by simp, .pct ha hb h1, h2, h3⟩

/-- without lower-case digits -/
def noLower (s : Str) : Prop := s.all (fun c => !(97 ≤ c && c ≤ 102)) = true

theorem hex_noLower (c : Byte) : isHex c = true → (!(97 ≤ c && c ≤ 102)) = true → isUpperHex c = true := by
  revert c; exact forall_byte (by decide +kernel)

theorem H16.upper {x : Str} (h : H16 isHex x) (hl : noLower x) : H16 isUpperHex x := by
  refine ⟨h.1, h.2.1, ?_⟩
  rw [List.all_eq_true]
  exact fun c hc => hex_noLower c (List.all_eq_true.1 h.2.2 c hc) (List.all_eq_true.1 hl c hc)

theorem noLower_append {x y : Str} : noLower (x ++ y) ↔ noLower x ∧ noLower y := by
  unfold noLower
  rw [List.all_append, Bool.and_eq_true]

theorem H16s.upper {k : Nat} {x : Str} (h : H16s isHex k x) (hl : noLower x) : H16s isUpperHex k x := by
  induction k generalizing x with
  | zero => exact h
  | succ k ih =>
    obtain ⟨a, t, h1, h2, rfl⟩ := h
    rw [noLower_append, noLower_append] at hl
    exact ⟨a, t, H16.upper h1 hl.1.1, ih h2 hl.2, rfl⟩

theorem OptGroups.upper {k : Nat} {x : Str} (h : OptGroups isHex k x) (hl : noLower x) : OptGroups isUpperHex k x := by
  rcases h with rfl | ⟨j, a, y, h1, h2, h3, rfl⟩
  · exact .inl rfl
  · rw [noLower_append] at hl
    exact .inr ⟨j, a, y, h1, H16s.upper h2 hl.1, H16.upper h3 hl.2, rfl⟩

theorem IPv6.upper {x : Str} (h : IPv6 isHex IPv4 x) (hl : noLower x) : IPv6 isUpperHex IPv4 x := by
  have hls : ∀ {y}, noLower y → Ls32 isHex IPv4 y → Ls32 isUpperHex IPv4 y := by
    rintro y hl (⟨b, d, h1, h2, rfl⟩ | hy)
    · rw [noLower_append, noLower_append] at hl
      exact .inl ⟨b, d, H16.upper h1 hl.1.1, H16.upper h2 hl.2, rfl⟩
    · exact .inr hy
  rcases h with ⟨a, y, h1, h2, rfl⟩ | ⟨j, p, a, y, h0, h1, h2, h3, rfl⟩ | ⟨p, y, h1, h2, rfl⟩ | ⟨p, h1, rfl⟩
  · rw [noLower_append] at hl
    exact .inl ⟨a, y, H16s.upper h1 hl.1, hls hl.2 h2, rfl⟩
  · rw [noLower_append, noLower_append, noLower_append] at hl
    exact .inr (.inl ⟨j, p, a, y, h0, OptGroups.upper h1 hl.1.1.1, H16s.upper h2 hl.1.2, hls hl.2 h3, rfl⟩)
  · rw [noLower_append, noLower_append] at hl
    exact .inr (.inr (.inl ⟨p, y, OptGroups.upper h1 hl.1.1, H16.upper h2 hl.2, rfl⟩))
  · rw [noLower_append] at hl
    exact .inr (.inr (.inr ⟨p, OptGroups.upper h1 hl.1, rfl⟩))

/-- the characters of the library's literals -/
def litChar (c : Byte) : Bool := isUpperHex c || c == c!":" || c == c!"."

theorem litChar_facts (c : Byte) : litChar c = true → (!(97 ≤ c && c ≤ 102)) = true ∧ c ≠ c!"v" ∧ c ≠ c!"V" ∧ c ≠ c!"%" := by
  revert c; exact forall_byte (by decide +kernel)

theorem lib_literal_chars {x : Str} (h : lib.ipLiteral x) : x.all litChar = true := by
  have hd : ∀ {s : Str}, s.all isDigit = true → s.all litChar = true := fun h => all_mono (forall_byte (by decide +kernel)) h
  have hu : ∀ {s : Str}, s.all isUpperHex = true → s.all litChar = true := fun h => all_mono (forall_byte (by decide +kernel)) h
  have ht : ∀ {t : Str}, DottedTail t → t.all litChar = true := by
    rintro t ⟨b, c, d, hb, hc, hd', rfl⟩
    simp only [List.all_append, hd (DecOctet.digits hb).1, hd (DecOctet.digits hc).1, hd (DecOctet.digits hd').1]
    decide
  have h6 : ∀ {k : Nat} {x : Str}, H16s isUpperHex k x → x.all litChar = true := by
    intro k
    induction k with
    | zero => intro x h; rw [show x = [] from h]; rfl
    | succ k ih =>
      rintro x ⟨a, t, h1, h2, rfl⟩
      simp only [List.all_append, hu h1.2.2, ih h2]
      decide
  have ho : ∀ {k : Nat} {x : Str}, OptGroups isUpperHex k x → x.all litChar = true := by
    rintro k x (rfl | ⟨j, a, y, _, h2, h3, rfl⟩)
    · rfl
    · rw [List.all_append, h6 h2, hu h3.2.2]; rfl
  have hl : ∀ {y : Str}, Ls32 isUpperHex LooseIPv4 y → y.all litChar = true := by
    rintro y (⟨b, d, h1, h2, rfl⟩ | ⟨a, t, ha, h2, rfl⟩)
    · simp only [List.all_append, hu h1.2.2, hu h2.2.2]; decide
    · rw [List.all_append, hd ha.2.2.1, ht h2]; rfl
  rcases h with (⟨a, y, h1, h2, rfl⟩ | ⟨j, p, a, y, h0, h1, h2, h3, rfl⟩ | ⟨p, y, h1, h2, rfl⟩ | ⟨p, h1, rfl⟩) | ⟨t, h, rfl⟩ | ⟨k, y, z, t, _, hy, hz, h, rfl⟩
  · rw [List.all_append, h6 h1, hl h2]; rfl
  · simp only [List.all_append, ho h1, h6 h2, hl h3]; decide
  · simp only [List.all_append, ho h1, hu h2.2.2]; decide
  · simp only [List.all_append, ho h1]; decide
  · simp only [List.all_append, ht h]; decide
  · simp only [List.all_append, ht h, h6 hy, hd hz.2.2.1]; decide

/-- The literals of the RFC the library knows: those without lower-case digits that are not IPvFuture. -/
theorem literal_iff {x : Str} (h : rfc.ipLiteral x) : lib.ipLiteral x ↔ noLower x ∧ x.head? ≠ some c!"v" ∧ x.head? ≠ some c!"V" := by
  constructor
  · intro hl
    have hc := lib_literal_chars hl
    refine ⟨all_mono (fun c h => (litChar_facts c h).1) hc, ?_, ?_⟩
    · cases x with
      | nil => simp
      | cons d t =>
        rw [List.all_cons, Bool.and_eq_true] at hc
        simpa using (litChar_facts d hc.1).2.1
    · cases x with
      | nil => simp
      | cons d t =>
        rw [List.all_cons, Bool.and_eq_true] at hc
        simpa using (litChar_facts d hc.1).2.2.1
  · rintro ⟨h1, h2, h3⟩
    rcases h with h | ⟨v, a, t, hv, _, _, _, _, rfl⟩
    · exact .inl (IPv6.mono (fun _ h => h) (fun _ _ _ h => IPv4.loose h) (IPv6.upper h h1))
    · rcases hv with rfl | rfl
      · simp at h2
      · simp at h3

/-- What the library does not support of a URI-reference of the RFC with these components. -/
structure Supported (c : Components) : Prop where
  /-- no digits in the scheme -/
  scheme : ∀ s, c.scheme = some s → s.all (fun d => !isDigit d) = true
  /-- no escapes with lower-case digits in the authority ... -/
  authority : UpperEscapes c.authority
  /-- ... and the path, except at its start ... -/
  path : UpperEscapes (lenient c)
  query : UpperEscapes (c.query.getD [])
  fragment : UpperEscapes (c.fragment.getD [])
  /-- no lower-case digits in an IPv6 address, and no IPvFuture -/
  literal : ∀ x, c.host = b!"[" ++ x ++ b!"]" → noLower x ∧ x.head? ≠ some c!"v" ∧ x.head? ≠ some c!"V"

theorem UpperEscapes.append {x y : Str} (hx : UpperEscapes x) (hy : UpperEscapes y) : UpperEscapes (x ++ y) := Escaped.append hx hy

theorem Slashed.upper {t : Str} (h : Slashed isUpperHex t) : UpperEscapes t := UpperEscapes.of (by decide) (Slashed.escaped h)

theorem first_slash {hex ok : Byte → Bool} {s t : Str} (hk : ok c!"/" = false) (h1 : s ≠ []) (h2 : Escaped hex ok s) :
    (s ++ t).head? ≠ some c!"/" := by
  intro e
  cases h2 with
  | nil => exact h1 rfl
  | char hc _ => simp at e; rw [e] at hc; simp [hk] at hc
  | pct _ _ _ => simp at e

theorem supported_of {D : Dialect} {c : Components} (hc : c.Valid D) (hr : c.Valid rfc)
    (hs : ∀ b, D.schemeChar b = true → lib.schemeChar b = true) (hx : D.hex = isUpperHex)
    (hl : ∀ x, D.ipLiteral x → lib.ipLiteral x) (hp : ∀ p f, D.pathAbsolute p f → p.head? = some c!"/" ∧ UpperEscapes (p.drop 2)) : Supported c := by
  obtain ⟨v1, v2, v3, v4, v5⟩ := hc
  rw [hx] at v4 v5
  refine ⟨?_, ?_, ?_, ?_, ?_, ?_⟩
  · intro s e
    obtain ⟨a, t, rfl, ha, ht⟩ := v1 s e
    rw [List.all_cons, all_mono (Q := fun d => !isDigit d)
      (fun b hb => (forall_byte (P := fun b => lib.schemeChar b = true → (!isDigit b) = true) (by decide +kernel)) b (hs b hb)) ht,
      (forall_byte (P := fun b => isAlpha b = true → (!isDigit b) = true) (by decide +kernel)) a ha]
    rfl
  · unfold Components.authority
    cases hau : c.auth with
    | none => exact .nil
    | some a =>
      obtain ⟨w1, w2, w3⟩ := v2 a hau
      obtain ⟨ui, h, p⟩ := a
      rw [hx] at w1
      simp only at w1 w2 w3
      unfold Auth.render
      refine UpperEscapes.append (UpperEscapes.append ?_ ?_) ?_
      · rcases ui with _ | ⟨u, _ | w⟩
        · exact .nil
        · exact UpperEscapes.append (.of (by decide) (w1 _ _ rfl).1) (.of_all (by decide))
        · exact UpperEscapes.append (UpperEscapes.append (UpperEscapes.append (.of (by decide) (w1 _ _ rfl).1) (.of_all (by decide)))
            (.of (by decide) ((w1 _ _ rfl).2 _ rfl))) (.of_all (by decide))
      · rcases w2 with ⟨x, hy, e⟩ | hy
        · rw [e]
          exact UpperEscapes.append (UpperEscapes.append (.of_all (by decide))
            (.of_all (all_mono (fun c h => by simpa using (litChar_facts c h).2.2.2) (lib_literal_chars (hl x hy))))) (.of_all (by decide))
        · rw [hx] at hy; exact .of (by decide) hy
      · cases p with
        | none => exact .nil
        | some n => exact UpperEscapes.append (.of_all (by decide)) (.of_all (all_mono (forall_byte (by decide +kernel)) (w3 n rfl)))
  · unfold lenient
    cases hau : c.auth with
    | some a =>
      rw [hau] at v3
      have v3 : Slashed D.hex c.path := by simpa [PathOk] using v3
      rw [hx] at v3
      simp only [reduceCtorEq, false_and, if_false]
      exact Slashed.upper v3
    | none =>
      rw [hau] at v3
      unfold PathOk at v3
      simp only [Option.isSome_none, Bool.false_eq_true, if_false, hx] at v3
      have hfirst : ∀ {ok : Byte → Bool} {s t : Str}, ok c!"/" = false → ok c!"%" = false → s ≠ [] → Escaped isUpperHex ok s →
          Slashed isUpperHex t → c.path = s ++ t → UpperEscapes (if (none : Option Auth) = none ∧ c.path.head? = some c!"/" then c.path.drop 2 else c.path) := by
        intro ok s t k1 k2 h1 h2 h3 e
        rw [e, if_neg (fun h => first_slash k1 h1 h2 h.2)]
        exact UpperEscapes.append (.of k2 h2) (Slashed.upper h3)
      have hab : D.pathAbsolute c.path (c.query.isSome || c.fragment.isSome) →
          UpperEscapes (if (none : Option Auth) = none ∧ c.path.head? = some c!"/" then c.path.drop 2 else c.path) := by
        intro h
        rw [if_pos ⟨rfl, (hp _ _ h).1⟩]
        exact (hp _ _ h).2
      split at v3
      · rcases v3 with e | v3 | ⟨s, t, h1, h2, h3, e⟩
        · rw [e]; exact .nil
        · exact hab v3
        · exact hfirst (by decide) (by decide) h1 h2 h3 e
      · rcases v3 with e | v3 | ⟨s, t, h1, h2, h3, e⟩
        · rw [e]; exact .nil
        · exact hab v3
        · exact hfirst (by decide) (by decide) h1 h2 h3 e
  · cases h : c.query with
    | none => exact .nil
    | some q => exact .of (by decide) (v4 q h)
  · cases h : c.fragment with
    | none => exact .nil
    | some q => exact .of (by decide) (v5 q h)
  · intro x e
    unfold Components.host at e
    cases hau : c.auth with
    | none => rw [hau] at e; simp at e
    | some a =>
      rw [hau] at e
      simp only at e
      have hb : ∀ {y : Str}, a.host = b!"[" ++ y ++ b!"]" → y = x := fun e' => by rw [e] at e'; simpa using e'.symm
      have hno : ∀ {hex : Byte → Bool}, (∀ c, hex c = true → isHex c = true) → Escaped hex isRegName a.host → False := by
        intro hex h1 h2
        have : Free b!"[" a.host := Escaped.free' h1 h2 (by decide +kernel) (by decide +kernel) (by decide)
        rw [e] at this
        exact absurd (List.all_eq_true.1 this c!"[" (by simp)) (by decide)
      have h1 : lib.ipLiteral x := by
        rcases (v2 a hau).2.1 with ⟨y, hy, e'⟩ | hy
        · rw [← hb e']; exact hl y hy
        · exact (hno (by rw [hx]; exact upper_isHex) hy).elim
      have h2 : rfc.ipLiteral x := by
        rcases (hr.2.1 a hau).2.1 with ⟨y, hy, e'⟩ | hy
        · rw [← hb e']; exact hy
        · exact (hno (fun _ h => h) hy).elim
      exact (literal_iff h2).1 h1

theorem supported_lib {c : Components} (hc : c.Valid lib) (hr : c.Valid rfc) : Supported c := by
  refine supported_of hc hr (fun _ h => h) rfl (fun _ h => h) ?_
  rintro p f (⟨rfl, _⟩ | ⟨d, s, t, _, h1, h2, rfl⟩)
  · exact ⟨rfl, .nil⟩
  · exact ⟨rfl, UpperEscapes.append (.of (by decide) h1) (Slashed.upper h2)⟩

theorem hex_noPct (c : Byte) : isUpperHex c = true → (c != c!"%") = true := by
  revert c; exact forall_byte (by decide +kernel)

theorem supported_strict {c : Components} (hc : c.Valid strict) (hr : c.Valid rfc) : Supported c := by
  refine supported_of hc hr (fun _ h => h) rfl (fun _ h => h) ?_
  rintro p f (rfl | ⟨s, t, h0, h1, h2, rfl⟩)
  · exact ⟨rfl, .nil⟩
  · refine ⟨rfl, ?_⟩
    cases h1 with
    | nil => exact absurd rfl h0
    | char _ h => exact UpperEscapes.append (.of (by decide) h) (Slashed.upper h2)
    | pct ha hb h =>
      exact UpperEscapes.append (.char (hex_noPct _ ha) (.char (hex_noPct _ hb) (UpperEscapes.of (by decide) h))) (Slashed.upper h2)

theorem hex_pchar (c : Byte) : isHex c = true → isPchar c = true ∧ c ≠ c!"%" := by
  revert c; exact forall_byte (by decide +kernel)

/-- the lone slash in front of a query or a fragment -/
def Lone (c : Components) : Prop := c.auth = none ∧ c.path = b!"/" ∧ (c.query.isSome || c.fragment.isSome) = true

theorem Supported.valid {c : Components} (h : Supported c) (hr : c.Valid rfc) (hl : ¬ Lone c) : c.Valid lib := by
  have hh := h
  obtain ⟨s1, s2, s3, s4, s5, s6⟩ := h
  obtain ⟨v1, v2, v3, v4, v5⟩ := hr
  refine ⟨?_, ?_, ?_, ?_, ?_⟩
  · intro s e
    obtain ⟨a, t, rfl, ha, ht⟩ := v1 s e
    have := s1 _ e
    rw [List.all_cons, Bool.and_eq_true] at this
    refine ⟨a, t, rfl, ha, ?_⟩
    rw [List.all_eq_true]
    exact fun c hc => (forall_byte (P := fun c => rfc.schemeChar c = true → (!isDigit c) = true → lib.schemeChar c = true) (by decide +kernel)) c
      (List.all_eq_true.1 ht c hc) (List.all_eq_true.1 this.2 c hc)
  · intro a e
    obtain ⟨w1, w2, w3⟩ := v2 a e
    unfold Components.authority at s2
    unfold Components.host at s6
    rw [e] at s2 s6
    simp only at s2 s6
    obtain ⟨ui, h, p⟩ := a
    simp only at w1 w2 w3 s6
    unfold Auth.render at s2
    simp only at s2
    have hhost : ∀ {y : Str}, UpperEscapes (h ++ y) → Host lib h := by
      intro y hy
      rcases w2 with ⟨x, hx, rfl⟩ | hx
      · exact .inl ⟨x, (literal_iff hx).2 (s6 x rfl), rfl⟩
      · exact .inr (UpperEscapes.left hx (by decide) hy).1
    rcases ui with _ | ⟨u, _ | w⟩
    · exact ⟨by simp, hhost s2, w3⟩
    · simp only [List.append_assoc] at s2
      obtain ⟨h1, h2⟩ := UpperEscapes.left (w1 _ _ rfl).1 (by decide) s2
      refine ⟨?_, hhost (UpperEscapes.all (x := b!"@") (by decide) h2), w3⟩
      intro u' pw e
      simp only [Option.some.injEq, Prod.mk.injEq] at e
      obtain ⟨rfl, rfl⟩ := e
      exact ⟨h1, by simp⟩
    · simp only [List.append_assoc] at s2
      obtain ⟨h1, h2⟩ := UpperEscapes.left (w1 _ _ rfl).1 (by decide) s2
      obtain ⟨h3, h4⟩ := UpperEscapes.left ((w1 _ _ rfl).2 _ rfl) (by decide) (UpperEscapes.all (x := b!":") (by decide) h2)
      refine ⟨?_, hhost (UpperEscapes.all (x := b!"@") (by decide) h4), w3⟩
      intro u' pw e
      simp only [Option.some.injEq, Prod.mk.injEq] at e
      obtain ⟨rfl, rfl⟩ := e
      refine ⟨h1, fun p e => ?_⟩
      rw [← Option.some.inj e]; exact h3
  · unfold lenient at s3
    cases hau : c.auth with
    | some a =>
      rw [hau] at v3 s3
      have v3 : Slashed rfc.hex c.path := by simpa [PathOk] using v3
      simp only [reduceCtorEq, false_and, if_false] at s3
      exact UpperEscapes.slashed v3 s3
    | none =>
      rw [hau] at v3 s3
      have hfirst : ∀ {ok : Byte → Bool} {s t : Str}, ok c!"/" = false → ok c!"%" = false → s ≠ [] → Escaped isHex ok s →
          Slashed isHex t → c.path = s ++ t → ∃ s t, s ≠ [] ∧ Escaped isUpperHex ok s ∧ Slashed isUpperHex t ∧ c.path = s ++ t := by
        intro ok s t k1 k2 h1 h2 h3 e
        rw [e, if_neg (fun h => first_slash k1 h1 h2 h.2)] at s3
        obtain ⟨h4, h5⟩ := UpperEscapes.left h2 k2 s3
        exact ⟨s, t, h1, h4, UpperEscapes.slashed h3 h5, e⟩
      have habs : PathAbsolute isHex c.path → LoosePathAbsolute c.path (c.query.isSome || c.fragment.isSome) := by
        rintro (e | ⟨s, t, h1, h2, h3, e⟩)
        · refine .inl ⟨e, ?_⟩
          rw [Bool.eq_false_iff]
          exact fun h => hl ⟨hau, e, h⟩
        · right
          rw [e, if_pos ⟨rfl, rfl⟩] at s3
          rw [e]
          cases h2 with
          | nil => exact absurd rfl h1
          | @char d s hd hs =>
            obtain ⟨h4, h5⟩ := UpperEscapes.left hs (by decide) s3
            exact ⟨d, s, t, by rintro rfl; exact absurd hd (by decide), h4, UpperEscapes.slashed h3 h5, rfl⟩
          | @pct a b s ha hb hs =>
            have h6 := (UpperEscapes.tail s3 (hex_pchar a ha).2).tail (hex_pchar b hb).2
            obtain ⟨h4, h5⟩ := UpperEscapes.left hs (by decide) h6
            exact ⟨c!"%", a :: b :: s, t, by decide, .char (hex_pchar a ha).1 (.char (hex_pchar b hb).1 h4), UpperEscapes.slashed h3 h5, rfl⟩
      unfold PathOk at v3 ⊢
      simp only [Option.isSome_none, Bool.false_eq_true, if_false] at v3 ⊢
      split at v3
      · rename_i hsc
        rw [if_pos hsc]
        rcases v3 with e | v3 | ⟨s, t, h1, h2, h3, e⟩
        · exact .inl e
        · exact .inr (.inl (habs v3))
        · exact .inr (.inr (hfirst (by decide) (by decide) h1 h2 h3 e))
      · rename_i hsc
        rw [if_neg hsc]
        rcases v3 with e | v3 | ⟨s, t, h1, h2, h3, e⟩
        · exact .inl e
        · exact .inr (.inl (habs v3))
        · exact .inr (.inr (hfirst (by decide) (by decide) h1 h2 h3 e))
  · intro q e
    rw [e] at s4
    exact UpperEscapes.whole (v4 q e) (by decide) s4
  · intro q e
    rw [e] at s5
    exact UpperEscapes.whole (v5 q e) (by decide) s5

/-- C05, exactly: a URI-reference of the RFC is accepted if and only if there is no digit in its scheme, no lower-case digit
in an escape (other than right after the slash an absolute path starts with), no lower-case digit in its IPv6 address, and
its host is no IPvFuture. -/
theorem C05_exact {c : Components} (hr : c.Valid rfc) : (∃ v, View.make c.render = .ret v) ↔ Supported c := by
  rw [C01_accepts_iff]
  constructor
  · rintro ⟨k, hk, e⟩
    rcases lib_rfc hk hr e.symm with ⟨_, rfl⟩ | ⟨ha, rfl, d, s, t, hd, hs, ht, hp⟩
    · exact supported_lib hk hr
    · exact supported_strict (regroup_valid hk ha hp hs ht hd) hr
  · intro h
    by_cases hl : Lone c
    · obtain ⟨ha, hp, hf⟩ := hl
      obtain ⟨sch, au, p, q, f⟩ := c
      simp only at ha hp hf
      subst ha hp
      have hs : ∀ s, sch = some s → Scheme lib s := by
        intro s e
        have hv : ((⟨sch, none, [], none, none⟩ : Components)).Valid lib := by
          refine Supported.valid ⟨h.scheme, .nil, ?_, .nil, .nil, by intro x e; simp [Components.host] at e⟩
            ⟨hr.1, by simp, ?_, by simp, by simp⟩ ?_
          · exact .nil
          · cases sch <;> exact .inl rfl
          · rintro ⟨_, h, _⟩; simp at h
        exact hv.1 s e
      have hpo : ∀ b g x y z, x ≠ c!"/" → Escaped isUpperHex isPchar y → Slashed isUpperHex z → PathOk lib b false g (c!"/" :: x :: (y ++ z)) :=
        fun b g x y z h1 h2 h3 => by cases b <;> exact .inr (.inl (.inr ⟨x, y, z, h1, h2, h3, rfl⟩))
      cases q with
      | some q =>
        obtain ⟨s, t, o, e, h1, h2, h3⟩ := query_split (UpperEscapes.whole (hr.2.2.2.1 q rfl) (by decide) h.query)
        refine ⟨⟨sch, none, c!"/" :: c!"?" :: (s ++ t), o, f⟩, ⟨hs, by simp, hpo _ _ _ _ _ (by decide) h1 h2, h3, ?_⟩, ?_⟩
        · intro x e'
          have := h.fragment
          simp only at e'
          rw [e'] at this
          exact UpperEscapes.whole (hr.2.2.2.2 x e') (by decide) this
        · rw [render_eq, render_eq, e]
          simp [withPrefix]
      | none =>
        cases f with
        | none => simp at hf
        | some f =>
          obtain ⟨s, t, o, e, h1, h2, h3⟩ := query_split (UpperEscapes.whole (hr.2.2.2.2 f rfl) (by decide) h.fragment)
          refine ⟨⟨sch, none, c!"/" :: c!"#" :: (s ++ t), o, none⟩, ⟨hs, by simp, hpo _ _ _ _ _ (by decide) h1 h2, h3, by simp⟩, ?_⟩
          rw [render_eq, render_eq, e]
          simp [withPrefix]
    · exact ⟨c, h.valid hr hl, rfl⟩

/-- a URI-reference of the RFC which is accepted ... -/
example : (⟨none, none, b!"/%2f", none, some b!"f"⟩ : Components).Valid rfc ∧ ∃ v, View.make b!"/%2f#f" = .ret v := by
  refine ⟨⟨by simp, by simp, ?_, by simp, ?_⟩, _, rfl⟩
  · exact .inr (.inl (.inr ⟨b!"%2f", [], by simp, .pct (by decide) (by decide) .nil, ⟨[], by simp, rfl⟩, rfl⟩))
  · intro q hq; simp at hq; subst hq; exact .char (by decide) .nil

/-- ... and one which is not -/
example : (⟨none, none, b!"/a%2f", none, none⟩ : Components).Valid rfc ∧ View.make b!"/a%2f" = .throw .invalid_part := by
  refine ⟨⟨by simp, by simp, ?_, by simp, by simp⟩, rfl⟩
  exact .inr (.inl (.inr ⟨b!"a%2f", [], by simp, .char (by decide) (.pct (by decide) (by decide) .nil), ⟨[], by simp, rfl⟩, rfl⟩))

/-- C05, exactly: the accessors of an accepted URI-reference of the RFC return its components if and only if it has an
authority, or its path is not a lone slash, or nothing follows. -/
theorem C05_components {c : Components} (hr : c.Valid rfc) {v : View} (hv : View.make c.render = .ret v) (dbg : Bool) :
    ViewReports (v.obj dbg) c ↔ ¬ (c.auth = none ∧ c.path = b!"/" ∧ (c.query ≠ none ∨ c.fragment ≠ none)) := by
  have hlone : (c.auth = none ∧ c.path = b!"/" ∧ (c.query ≠ none ∨ c.fragment ≠ none)) ↔ Lone c := by
    unfold Lone
    cases c.query <;> cases c.fragment <;> simp
  rw [hlone]
  constructor
  · intro R hl
    obtain ⟨k, hk, e, r⟩ := make_inv hv
    have R' := viewReports (r.obj dbg)
    have h1 : k.path = c.path := by
      have := R'.path
      rw [R.path, Except.ok.injEq] at this
      exact this.symm
    rcases lib_rfc hk hr e.symm with ⟨_, rfl⟩ | ⟨_, _, d, s, t, _, _, _, hp⟩
    · obtain ⟨_, _, v3, _, _⟩ := hk
      rw [hl.1, hl.2.1, hl.2.2] at v3
      have hno : ¬ LoosePathAbsolute b!"/" true := by
        rintro (⟨_, h⟩ | ⟨_, _, _, _, _, _, h⟩) <;> simp at h
      have hns : ∀ {ok : Byte → Bool}, ok c!"/" = false → ¬ ∃ s t, s ≠ [] ∧ Escaped isUpperHex ok s ∧ Slashed isUpperHex t ∧ b!"/" = s ++ t := by
        rintro ok h0 ⟨s, t, h1, h2, _, h4⟩
        exact first_slash h0 h1 h2 (t := t) (by rw [← h4]; rfl)
      unfold PathOk at v3
      simp only [Option.isSome_none, Bool.false_eq_true, if_false] at v3
      split at v3
      · rcases v3 with e | v3 | v3
        · simp at e
        · exact hno v3
        · exact hns (by decide) v3
      · rcases v3 with e | v3 | v3
        · simp at e
        · exact hno v3
        · exact hns (by decide) v3
    · rw [hp, hl.2.1] at h1
      simp at h1
  · intro hl
    obtain ⟨v', h1, R, _⟩ := C03_components (((C05_exact hr).1 ⟨v, hv⟩).valid hr hl) dbg
    rw [hv] at h1
    cases h1
    exact R

/-- accepted with other components: `C05_false`; and with its own: -/
example : (⟨none, none, b!"/a", some b!"q", none⟩ : Components).Valid rfc ∧ ∃ v, View.make b!"/a?q" = .ret v ∧
    encoded_query (v.obj true) = .ok b!"q" := by
  refine ⟨⟨by simp, by simp, ?_, ?_, by simp⟩, _, rfl, by decide +kernel⟩
  · exact .inr (.inl (.inr ⟨b!"a", [], by simp, .char (by decide) .nil, ⟨[], by simp, rfl⟩, rfl⟩))
  · intro q hq; simp at hq; subst hq; exact .char (by decide) .nil

end Url.Props
