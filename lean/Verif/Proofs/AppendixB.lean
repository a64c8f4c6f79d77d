import Verif.Spec.AppendixB
import Verif.Proofs.Rfc

/-!
The grammar of RFC 3986 is unambiguous: the regular expression of appendix B gives back the components, and the authority
determines its parts.
-/

set_option autoImplicit false
set_option linter.unusedSimpArgs false

namespace Url
open Spec

/-- no character of `stop` -/
abbrev Free (stop s : Str) : Prop := s.all (!stop.contains ·) = true

theorem upTo_of {stop x r : Str} (hx : Free stop x) (hr : NotHead (!stop.contains ·) r) : upTo stop (x ++ r) = (x, r) := by
  unfold upTo
  rw [dropWhile_of hx hr]
  refine Prod.ext ?_ rfl
  show (x ++ r).takeWhile _ = x
  induction x with
  | nil =>
    cases r with
    | nil => rfl
    | cons c t =>
      have : (!stop.contains c) = false := hr
      simp only [List.nil_append, List.takeWhile_cons, this]
      rfl
  | cons c x ih =>
    unfold Free at hx
    rw [List.all_cons, Bool.and_eq_true] at hx
    rw [List.cons_append, List.takeWhile_cons, hx.1]
    simp only [if_true]
    rw [ih hx.2]

theorem Free.mono {a b s : Str} (h : ∀ c, a.contains c = true → b.contains c = true) (hs : Free b s) : Free a s :=
  all_mono (fun c hc => by
    cases ha : a.contains c with
    | false => rfl
    | true => rw [h c ha] at hc; exact absurd hc (by decide)) hs

theorem Free.append {stop x y : Str} (hx : Free stop x) (hy : Free stop y) : Free stop (x ++ y) := by
  unfold Free at *
  rw [List.all_append, hx, hy]
  rfl

/-- Escaped text has only the characters of its alphabet, `%`, and hex digits. -/
theorem Escaped.free {hex ok : Byte → Bool} {stop s : Str} (h : Escaped hex ok s)
    (h1 : ∀ c, hex c = true → (!stop.contains c) = true) (h2 : ∀ c, ok c = true → (!stop.contains c) = true)
    (h3 : (!stop.contains c!"%") = true) : Free stop s := by
  unfold Free
  induction h with
  | nil => rfl
  | char hc _ ih => rw [List.all_cons, h2 _ hc, ih]; rfl
  | pct ha hb _ ih => rw [List.all_cons, List.all_cons, List.all_cons, h3, h1 _ ha, h1 _ hb, ih]; rfl

/-- What is common to the dialects. -/
structure Plain (D : Dialect) : Prop where
  scheme : ∀ c, D.schemeChar c = true → rfc.schemeChar c = true
  hex : ∀ c, D.hex c = true → isHex c = true
  literal : ∀ x, D.ipLiteral x → Free b!"/?#@[]" x
  absolute : ∀ p f, D.pathAbsolute p f → p = b!"/" ∨ ∃ d t, d ≠ c!"/" ∧ p = c!"/" :: d :: t

theorem free_rfc_literal {x : Str} (h : rfc.ipLiteral x) : Free b!"/?#@[]" x := by
  rcases h with h | ⟨v, a, t, hv, _, ha, _, ht, rfl⟩
  · obtain ⟨u, w, rfl, hu, hw⟩ := IPv6.shape h
    refine Free.append (all_mono (forall_byte (by decide +kernel)) hu) ?_
    rcases hw with rfl | hw
    · rfl
    · exact all_mono (forall_byte (by decide +kernel)) (IPv4.digitDot hw)
  · refine Free.append (Free.append ?_ (by decide)) (all_mono (forall_byte (by decide +kernel)) ht)
    unfold Free
    rw [List.all_cons]
    rw [all_mono (forall_byte (by decide +kernel)) ha]
    rcases hv with rfl | rfl <;> decide

theorem DottedTail.free {t : Str} (h : DottedTail t) : Free b!"/?#@[]" t := by
  obtain ⟨b, c, d, hb, hc, hd, rfl⟩ := h
  have : ∀ {s}, DecOctet s → Free b!"/?#@[]" s := fun h => all_mono (forall_byte (by decide +kernel)) (DecOctet.digits h).1
  exact ((((Free.append (by decide) (this hb)).append (by decide)).append (this hc)).append (by decide)).append (this hd)

theorem LooseOctet.free {t : Str} (h : LooseOctet t) : Free b!"/?#@[]" t :=
  all_mono (forall_byte (by decide +kernel)) h.2.2.1

theorem free_lib_literal {x : Str} (h : lib.ipLiteral x) : Free b!"/?#@[]" x := by
  rcases h with h | h
  · obtain ⟨u, w, rfl, hu, hw⟩ := IPv6.shape (IPv6.mono upper_isHex (fun _ _ _ h => h) h)
    refine Free.append (all_mono (forall_byte (by decide +kernel)) hu) ?_
    rcases hw with rfl | ⟨a, t, ha, ht, rfl⟩
    · rfl
    · exact (LooseOctet.free ha).append (DottedTail.free ht)
  · rcases h with ⟨t, ht, rfl⟩ | ⟨k, y, z, t, _, hy, hz, ht, rfl⟩
    · exact Free.append (by decide) (DottedTail.free ht)
    · refine Free.append (Free.append (Free.append ?_ (LooseOctet.free hz)) (by decide)) (DottedTail.free ht)
      exact all_mono (forall_byte (by decide +kernel)) (H16s.group (H16s.mono upper_isHex hy))

theorem plain_rfc : Plain rfc where
  scheme _ h := h
  hex _ h := h
  literal _ := free_rfc_literal
  absolute p _ h := by
    rcases h with h | ⟨s, t, h1, h2, _, rfl⟩
    · exact .inl h
    · refine .inr ?_
      cases h2 with
      | nil => exact absurd rfl h1
      | @char d s hd _ => exact ⟨d, s ++ t, by rintro rfl; exact absurd hd (by decide), rfl⟩
      | @pct a b s _ _ _ => exact ⟨c!"%", a :: b :: s ++ t, by decide, rfl⟩

theorem plain_lib : Plain lib where
  scheme := lib_schemeChar_rfc
  hex := upper_isHex
  literal _ := free_lib_literal
  absolute p f h := by
    rcases h with ⟨h, _⟩ | ⟨d, s, t, h1, _, _, h4⟩
    · exact .inl h
    · exact .inr ⟨d, s ++ t, h1, h4⟩

variable {D : Dialect} {c : Components} {a : Auth}

theorem Escaped.free' {hex ok : Byte → Bool} {stop s : Str} (hD : ∀ c, hex c = true → isHex c = true) (h : Escaped hex ok s)
    (h1 : ∀ n : Fin 256, isHex (UInt8.ofNat n.val) = true → (!stop.contains (UInt8.ofNat n.val)) = true)
    (h2 : ∀ n : Fin 256, ok (UInt8.ofNat n.val) = true → (!stop.contains (UInt8.ofNat n.val)) = true)
    (h3 : (!stop.contains c!"%") = true) : Free stop s :=
  Escaped.free h (fun c hc => forall_byte (P := fun c => isHex c = true → (!stop.contains c) = true) h1 c (hD c hc))
    (fun c => forall_byte (P := fun c => ok c = true → (!stop.contains c) = true) h2 c) h3

/-! ### the authority -/

/-- the host in front of a port -/
def hostOf (r : Str) : Str :=
  match r with
  | d :: t => if d = c!"[" then c!"[" :: (upTo b!"]" t).1 ++ b!"]" else (upTo b!":" r).1
  | [] => []

/-- a port with its colon -/
def portOf : Str → Option Str
  | [] => none
  | _ :: p => some p

/-- The parts of an authority, by the delimiters only. -/
def authOf (s : Str) : Auth :=
  let r := if s.contains c!"@" then (upTo b!"@" s).2.tail else s
  { userinfo :=
      if s.contains c!"@" then
        some (match upTo b!":" (upTo b!"@" s).1 with
          | (u, []) => (u, none)
          | (u, _ :: p) => (u, some p))
      else none
    host := hostOf r
    port := portOf (r.drop (hostOf r).length) }

theorem Free.not_contains {d : Byte} {s : Str} (h : Free [d] s) : s.contains d = false := by
  rw [Bool.eq_false_iff]
  intro hc
  have := List.all_eq_true.1 h d (List.contains_iff_mem.1 hc)
  simp at this

theorem authOf_host {h : Str} {p : Option Str} (hD : Plain D) (hh : Host D h) (hp : ∀ x, p = some x → x.all isDigit = true) :
    hostOf (h ++ withPrefix b!":" p) = h := by
  have hpn : NotHead (!(b!":").contains ·) (withPrefix b!":" p) := by cases p <;> first | trivial | exact (by decide)
  rcases hh with ⟨x, hx, rfl⟩ | hh
  · have hfx : Free b!"]" x := (hD.literal x hx).mono (by intro c hc; revert hc; revert c; exact forall_byte (by decide +kernel))
    rw [show hostOf (b!"[" ++ x ++ b!"]" ++ withPrefix b!":" p) = c!"[" :: (upTo b!"]" (x ++ b!"]" ++ withPrefix b!":" p)).1 ++ b!"]"
      from by simp [hostOf], List.append_assoc, upTo_of hfx (by exact (by decide : (!(b!"]").contains c!"]") = false))]
    rfl
  · have hf : Free b!":[" h := Escaped.free' hD.hex hh (by decide +kernel) (by decide +kernel) (by decide)
    have hf' : Free b!":" h := hf.mono (by intro c hc; revert hc; revert c; exact forall_byte (by decide +kernel))
    have hup := upTo_of hf' hpn
    cases h with
    | nil =>
      cases p with
      | none => rfl
      | some q => rfl
    | cons d t =>
      show (if d = c!"[" then _ else (upTo b!":" (d :: t ++ withPrefix b!":" p)).1) = _
      rw [hup, if_neg]
      rintro rfl
      unfold Free at hf
      rw [List.all_cons] at hf
      exact absurd hf (by simp)

theorem authOf_render (hD : Plain D) (ha : a.Valid D) : authOf a.render = a := by
  obtain ⟨ui, h, p⟩ := a
  obtain ⟨h1, h2, h3⟩ := ha
  simp only at h1 h2 h3
  have hport : portOf ((h ++ withPrefix b!":" p).drop h.length) = p := by
    rw [List.drop_left]
    cases p <;> rfl
  have hfree : Free b!"@" (h ++ withPrefix b!":" p) := by
    refine Free.append ?_ ?_
    · rcases h2 with ⟨x, hx, rfl⟩ | hh
      · refine Free.append (Free.append (by decide) ?_) (by decide)
        exact (hD.literal x hx).mono (by intro c hc; revert hc; revert c; exact forall_byte (by decide +kernel))
      · exact Escaped.free' hD.hex hh (by decide +kernel) (by decide +kernel) (by decide)
    · cases p with
      | none => rfl
      | some q => exact Free.append (by decide) (all_mono (forall_byte (by decide +kernel)) (h3 q rfl))
  have hr : (Auth.mk ui h p).render = withSuffix b!"@" (ui.map fun u => userinfoText (some u)) ++ (h ++ withPrefix b!":" p) := by
    unfold Auth.render
    rcases ui with _ | ⟨u, _ | w⟩ <;> cases p <;> simp [withSuffix, withPrefix, userinfoText]
  rw [hr]
  have hh := authOf_host hD h2 h3
  cases ui with
  | none =>
    show authOf (h ++ withPrefix b!":" p) = _
    unfold authOf
    rw [Free.not_contains hfree]
    simp only [Bool.false_eq_true, if_false]
    rw [hh, hport]
  | some u =>
    obtain ⟨u, w⟩ := u
    obtain ⟨hu, hw⟩ := h1 u w rfl
    have hfu : Free b!"@" (userinfoText (some (u, w))) := by
      cases w with
      | none => exact Escaped.free' hD.hex hu (by decide +kernel) (by decide +kernel) (by decide)
      | some q =>
        refine Free.append (Free.append (Escaped.free' hD.hex hu (by decide +kernel) (by decide +kernel) (by decide)) (by decide)) ?_
        exact Escaped.free' hD.hex (hw q rfl) (by decide +kernel) (by decide +kernel) (by decide)
    have e : withSuffix b!"@" ((some (u, w)).map fun u => userinfoText (some u)) ++ (h ++ withPrefix b!":" p) =
        userinfoText (some (u, w)) ++ c!"@" :: (h ++ withPrefix b!":" p) := by simp [withSuffix]
    rw [e]
    have hc : (userinfoText (some (u, w)) ++ c!"@" :: (h ++ withPrefix b!":" p)).contains c!"@" = true := by
      rw [List.contains_iff_mem]; simp
    have hup := upTo_of (r := c!"@" :: (h ++ withPrefix b!":" p)) hfu (by exact (by decide : (!(b!"@").contains c!"@") = false))
    unfold authOf
    rw [hc, hup]
    simp only [if_true, List.tail_cons]
    rw [hh, hport]
    have hcu : Free b!":" u := Escaped.free' hD.hex hu (by decide +kernel) (by decide +kernel) (by decide)
    cases w with
    | none =>
      have := upTo_of (r := []) hcu trivial
      rw [List.append_nil] at this
      simp only [userinfoText, this]
    | some q =>
      have := upTo_of (r := c!":" :: q) hcu (by exact (by decide : (!(b!":").contains c!":") = false))
      simp only [userinfoText, List.append_assoc, List.cons_append, List.nil_append, this]

theorem auth_free (hD : Plain D) (ha : a.Valid D) : Free b!"/?#" a.render := by
  obtain ⟨ui, h, p⟩ := a
  obtain ⟨h1, h2, h3⟩ := ha
  simp only at h1 h2 h3
  unfold Auth.render
  refine Free.append (Free.append ?_ ?_) ?_
  · rcases ui with _ | ⟨u, _ | w⟩
    · rfl
    · exact Free.append (Escaped.free' hD.hex (h1 _ _ rfl).1 (by decide +kernel) (by decide +kernel) (by decide)) (by decide)
    · refine Free.append (Free.append (Free.append ?_ (by decide)) ?_) (by decide)
      · exact Escaped.free' hD.hex (h1 _ _ rfl).1 (by decide +kernel) (by decide +kernel) (by decide)
      · exact Escaped.free' hD.hex ((h1 _ _ rfl).2 _ rfl) (by decide +kernel) (by decide +kernel) (by decide)
  · rcases h2 with ⟨x, hx, rfl⟩ | hh
    · refine Free.append (Free.append (by decide) ?_) (by decide)
      exact (hD.literal x hx).mono (by intro c hc; revert hc; revert c; exact forall_byte (by decide +kernel))
    · exact Escaped.free' hD.hex hh (by decide +kernel) (by decide +kernel) (by decide)
  · cases p with
    | none => rfl
    | some q => exact Free.append (by decide) (all_mono (forall_byte (by decide +kernel)) (h3 q rfl))

/-! ### the whole -/

theorem Slashed.head {hex : Byte → Bool} {p : Str} (h : Slashed hex p) : p = [] ∨ ∃ t, p = c!"/" :: t := by
  obtain ⟨segs, _, rfl⟩ := h
  cases segs with
  | nil => exact .inl rfl
  | cons s segs => exact .inr ⟨s ++ segs.flatMap (c!"/" :: ·), by rw [List.flatMap_cons]; rfl⟩

/-- what a path may start with -/
theorem PathOk.start {b1 f : Bool} {p : Str} (hD : Plain D) (h : PathOk D b1 false f p) :
    (∀ t, p ≠ c!"/" :: c!"/" :: t) ∧ (b1 = false → ∃ x y, p = x ++ y ∧ Free b!":/?#" x ∧ (y = [] ∨ ∃ t, y = c!"/" :: t)) := by
  have habs : ∀ {p}, D.pathAbsolute p f → (∀ t, p ≠ c!"/" :: c!"/" :: t) ∧ ∃ x y, p = x ++ y ∧ Free b!":/?#" x ∧ (y = [] ∨ ∃ t, y = c!"/" :: t) := by
    intro p h
    rcases hD.absolute p f h with rfl | ⟨d, t, h1, rfl⟩
    · exact ⟨by simp, [], _, rfl, rfl, .inr ⟨_, rfl⟩⟩
    · exact ⟨by rintro t' e; simp at e; exact h1 e.1, [], _, rfl, rfl, .inr ⟨_, rfl⟩⟩
  have hfirst : ∀ {ok : Byte → Bool} {s t : Str}, ok c!"/" = false → s ≠ [] → Escaped D.hex ok s → ∀ t', s ++ t ≠ c!"/" :: c!"/" :: t' := by
    intro ok s t hk h1 h2 t' e
    cases h2 with
    | nil => exact h1 rfl
    | char hc _ => simp at e; rw [e.1] at hc; simp [hk] at hc
    | pct _ _ _ => simp at e
  unfold PathOk at h
  simp only [Bool.false_eq_true, if_false] at h
  cases b1 with
  | true =>
    simp only [if_true] at h
    refine ⟨?_, by simp⟩
    rcases h with rfl | h | ⟨s, t, h1, h2, _, rfl⟩
    · simp
    · exact (habs h).1
    · exact hfirst (by decide) h1 h2
  | false =>
    simp only [Bool.false_eq_true, if_false] at h
    rcases h with rfl | h | ⟨s, t, h1, h2, h3, rfl⟩
    · exact ⟨by simp, fun _ => ⟨[], [], rfl, rfl, .inl rfl⟩⟩
    · exact ⟨(habs h).1, fun _ => (habs h).2⟩
    · exact ⟨hfirst (by decide) h1 h2,
        fun _ => ⟨s, t, rfl, Escaped.free' hD.hex h2 (by decide +kernel) (by decide +kernel) (by decide), Slashed.head h3⟩⟩

/-- The groups of the regular expression are the components, if the path has no delimiters of others. -/
theorem appendixB_render (hD : Plain D) (hc : c.Valid D) (hp : Free b!"?#" c.path) :
    appendixB c.render = ⟨c.scheme, c.auth.map (·.render), c.path, c.query, c.fragment⟩ := by
  obtain ⟨sch, au, p, q, f⟩ := c
  obtain ⟨v1, v2, v3, v4, v5⟩ := hc
  simp only at v1 v2 v3 v4 v5 hp
  -- the rest after the path
  have hfn : NotHead (!(b!"#").contains ·) (withPrefix b!"#" f) := by cases f <;> first | trivial | exact (by decide)
  have hqn : NotHead (!(b!"?#").contains ·) (withPrefix b!"?" q ++ withPrefix b!"#" f) := by
    cases q <;> cases f <;> first | trivial | exact (by decide)
  have hfrag : reFragment (withPrefix b!"#" f) = f := by cases f <;> rfl
  have hquery : reQuery (withPrefix b!"?" q ++ withPrefix b!"#" f) = (q, withPrefix b!"#" f) := by
    cases q with
    | none => cases f <;> rfl
    | some q =>
      have : Free b!"#" q := Escaped.free' hD.hex (v4 q rfl) (by decide +kernel) (by decide +kernel) (by decide)
      show reQuery (c!"?" :: (q ++ withPrefix b!"#" f)) = _
      rw [reQuery, if_pos rfl, upTo_of this hfn]
  generalize hR : withPrefix b!"?" q ++ withPrefix b!"#" f = R at *
  have hRs : R = [] ∨ ∃ d t, (d = c!"?" ∨ d = c!"#") ∧ R = d :: t := by
    rw [← hR]
    cases q with
    | some q => exact .inr ⟨_, _, .inl rfl, rfl⟩
    | none => cases f with
      | none => exact .inl rfl
      | some f => exact .inr ⟨_, _, .inr rfl, rfl⟩
  have hpath := upTo_of hp hqn
  -- the authority
  have hauth : reAuthority (withPrefix b!"//" (au.map (·.render)) ++ (p ++ R)) = (au.map (·.render), p ++ R) := by
    cases au with
    | some a =>
      have hs : Slashed D.hex p := by simpa [PathOk] using v3
      have hn : NotHead (!(b!"/?#").contains ·) (p ++ R) := by
        rcases Slashed.head hs with rfl | ⟨t, rfl⟩
        · rcases hRs with rfl | ⟨d, t, rfl | rfl, rfl⟩
          · trivial
          · exact (by decide : (!(b!"/?#").contains c!"?") = false)
          · exact (by decide : (!(b!"/?#").contains c!"#") = false)
        · exact (by decide : (!(b!"/?#").contains c!"/") = false)
      have := upTo_of (auth_free hD (v2 a rfl)) hn
      show reAuthority (c!"/" :: c!"/" :: (a.render ++ (p ++ R))) = _
      rw [reAuthority, if_pos ⟨rfl, rfl⟩, this]
      rfl
    | none =>
      have hs := (PathOk.start hD v3).1
      show reAuthority (p ++ R) = (none, p ++ R)
      unfold reAuthority
      split
      · rename_i x y s e
        refine (if_neg ?_).trans (by rw [e])
        rintro ⟨rfl, rfl⟩
        rcases p with _ | ⟨x, _ | ⟨y, p⟩⟩
        · rcases hRs with rfl | ⟨d, t, rfl | rfl, rfl⟩ <;> simp at e
        · rcases hRs with rfl | ⟨d, t, rfl | rfl, rfl⟩ <;> simp at e
        · simp at e
          obtain ⟨rfl, rfl, _⟩ := e
          exact hs p rfl
      · rfl
  -- the scheme
  have hsch : reScheme (withSuffix b!":" sch ++ (withPrefix b!"//" (au.map (·.render)) ++ (p ++ R))) =
      (sch, withPrefix b!"//" (au.map (·.render)) ++ (p ++ R)) := by
    cases sch with
    | some s =>
      obtain ⟨x, t, rfl, hx, ht⟩ := v1 s rfl
      have hf : Free b!":/?#" (x :: t) := by
        unfold Free
        rw [List.all_cons, (forall_byte (P := fun c => isAlpha c = true → (!(b!":/?#").contains c) = true) (by decide +kernel)) x hx]
        exact all_mono (Q := fun c => !(b!":/?#").contains c)
          (fun c hc => (forall_byte (P := fun c => rfc.schemeChar c = true → (!(b!":/?#").contains c) = true) (by decide +kernel)) c (hD.scheme c hc)) ht
      unfold reScheme
      show (match upTo b!":/?#" ((x :: t) ++ b!":" ++ _) with | (a :: x, d :: r) => _ | _ => _) = _
      rw [List.append_assoc, upTo_of hf (by exact (by decide : (!(b!":/?#").contains c!":") = false))]
      rfl
    | none =>
      show reScheme (withPrefix b!"//" (au.map (·.render)) ++ (p ++ R)) = _
      unfold reScheme
      cases au with
      | some a => rfl
      | none =>
        obtain ⟨x, y, rfl, hx, hy⟩ := (PathOk.start hD v3).2 rfl
        show (match upTo b!":/?#" (x ++ y ++ R) with | (a :: x, d :: r) => _ | _ => _) = _
        rw [List.append_assoc]
        have hn : NotHead (!(b!":/?#").contains ·) (y ++ R) := by
          rcases hy with rfl | ⟨t, rfl⟩
          · rcases hRs with rfl | ⟨d, t, rfl | rfl, rfl⟩
            · trivial
            · exact (by decide : (!(b!":/?#").contains c!"?") = false)
            · exact (by decide : (!(b!":/?#").contains c!"#") = false)
          · exact (by decide : (!(b!":/?#").contains c!"/") = false)
        rw [upTo_of hx hn]
        split
        · rename_i d r e
          refine if_neg ?_
          rintro rfl
          simp only [Prod.mk.injEq] at e
          have e := e.2
          rcases hy with rfl | ⟨t, rfl⟩
          · rcases hRs with rfl | ⟨d, t, rfl | rfl, rfl⟩ <;> simp at e
          · simp at e
        · rfl
  have hr : (Components.mk sch au p q f).render =
      withSuffix b!":" sch ++ (withPrefix b!"//" (au.map (·.render)) ++ (p ++ R)) := by
    rw [← hR]
    unfold Components.render
    cases sch <;> cases au <;> cases q <;> cases f <;> simp [withSuffix, withPrefix]
  rw [hr]
  unfold appendixB
  simp only [hsch, hauth, hpath, hquery, hfrag]

/-- a path of the RFC has no delimiters of other components -/
theorem rfc_path_free (hc : c.Valid rfc) : Free b!"?#" c.path := by
  have hs : ∀ {ok : Byte → Bool} {s : Str}, (∀ n : Fin 256, ok (UInt8.ofNat n.val) = true → (!(b!"?#").contains (UInt8.ofNat n.val)) = true) →
      Escaped isHex ok s → Free b!"?#" s := fun h1 h => Escaped.free' (fun _ h => h) h (by decide +kernel) h1 (by decide)
  have hsl : ∀ {p : Str}, Slashed isHex p → Free b!"?#" p := by
    rintro p ⟨segs, h, rfl⟩
    induction segs with
    | nil => rfl
    | cons s segs ih =>
      rw [List.flatMap_cons]
      exact Free.append (Free.append (x := b!"/") (by decide) (hs (by decide +kernel) (h s (by simp)))) (ih fun s hm => h s (by simp [hm]))
  obtain ⟨_, _, v3, _, _⟩ := hc
  revert v3
  unfold PathOk
  split
  · exact hsl
  · split
    · rintro (h | (h | ⟨s, t, _, h, ht, e⟩) | ⟨s, t, _, h, ht, e⟩)
      · rw [h]; rfl
      · rw [h]; decide
      · rw [e]; exact Free.append (Free.append (x := b!"/") (by decide) (hs (by decide +kernel) h)) (hsl ht)
      · rw [e]; exact Free.append (hs (by decide +kernel) h) (hsl ht)
    · rintro (h | (h | ⟨s, t, _, h, ht, e⟩) | ⟨s, t, _, h, ht, e⟩)
      · rw [h]; rfl
      · rw [h]; decide
      · rw [e]; exact Free.append (Free.append (x := b!"/") (by decide) (hs (by decide +kernel) h)) (hsl ht)
      · rw [e]; exact Free.append (hs (by decide +kernel) h) (hsl ht)

/-- Two decompositions, in one dialect or two, are the same. -/
theorem split_unique {D' : Dialect} {c' : Components} (hD : Plain D) (hD' : Plain D') (hc : c.Valid D) (hc' : c'.Valid D')
    (hp : Free b!"?#" c.path) (hp' : Free b!"?#" c'.path) (h : c.render = c'.render) : c = c' := by
  have h1 := appendixB_render hD hc hp
  rw [h, appendixB_render hD' hc' hp', Groups9.mk.injEq] at h1
  obtain ⟨e1, e2, e3, e4, e5⟩ := h1
  have e2 : c'.auth = c.auth := by
    cases ha : c.auth with
    | none => rw [ha] at e2; simpa using e2
    | some a =>
      cases ha' : c'.auth with
      | none => rw [ha, ha'] at e2; simp at e2
      | some a' =>
        rw [ha, ha'] at e2
        have e2 : a'.render = a.render := by simpa using e2
        rw [← authOf_render hD (hc.2.1 a ha), ← authOf_render hD' (hc'.2.1 a' ha'), e2]
  cases c
  cases c'
  simp_all

end Url
