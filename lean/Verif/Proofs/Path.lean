import Verif.Proofs.Host

/-!
The path functions recognise the path grammar and count its segments.
-/

set_option linter.unusedSimpArgs false

namespace Url
open Spec

/-- text of segments, each after a slash -/
def slashed (segs : List Str) : Str := segs.flatMap (c!"/" :: ·)

@[simp] theorem slashed_nil : slashed [] = [] := rfl
@[simp] theorem slashed_cons (s : Str) (t : List Str) : slashed (s :: t) = c!"/" :: (s ++ slashed t) := by
  simp [slashed]

abbrev PChars (s : Str) : Prop := Escaped isUpperHex isPchar s

/-- a path scan ends here -/
def PathEnd (r : Str) : Prop := Stop isPchar r ∧ ∀ t, r ≠ c!"/" :: t

theorem slash_stop (t : Str) : Stop isPchar (c!"/" :: t) := ⟨by decide, by decide⟩

theorem slashed_stop {segs : List Str} {r : Str} (hr : Stop isPchar r) : Stop isPchar (slashed segs ++ r) := by
  cases segs with
  | nil => exact hr
  | cons s t => simp only [slashed_cons, List.cons_append]; exact slash_stop _

theorem pathLoop_of (segs : List Str) {ps : PS} {r : Str} {fuel : Nat} (hs : ∀ s ∈ segs, PChars s)
    (hr : segs ≠ [] → Stop isPchar r) (hr2 : ∀ t, r ≠ c!"/" :: t) (hp : ps.p = slashed segs ++ r)
    (hec : ps.ec = none) (hf : segs.length < fuel) :
    pathLoop pchar_pct_set fuel ps =
      { ps with p := r, pt := { ps.pt with nseg := ps.pt.nseg + segs.length } } := by
  induction segs generalizing ps fuel with
  | nil =>
    obtain ⟨f, rfl⟩ : ∃ f, fuel = f + 1 := ⟨fuel - 1, by simp at hf; omega⟩
    obtain ⟨inp, p, pt, ec, flt⟩ := ps
    simp only [slashed_nil, List.nil_append] at hp
    subst hp
    unfold pathLoop
    simp only
    split
    · rfl
    · rename_i c t
      have : c ≠ c!"/" := by rintro rfl; exact hr2 t rfl
      simp [this]
  | cons s t ih =>
    obtain ⟨f, rfl⟩ : ∃ f, fuel = f + 1 := ⟨fuel - 1, by simp at hf; omega⟩
    obtain ⟨inp, p, pt, ec, flt⟩ := ps
    simp only [slashed_cons, List.cons_append] at hp
    subst hp
    simp only at hec
    subst hec
    unfold pathLoop
    have hpct : PS.pct { inp := inp, p := c!"/" :: (s ++ slashed t ++ r), pt := pt, flt := flt } pchar_pct_set
        (s ++ slashed t ++ r) = { inp := inp, p := slashed t ++ r, pt := pt, flt := flt } := by
      unfold PS.pct
      simp only [List.append_assoc, pct_parse_of setOf_pchar (hs s (by simp)) (slashed_stop (hr (by simp)))]
    simp only [bne_self_eq_false, Bool.false_eq_true, if_false, hpct, Option.isSome_none]
    rw [ih (fun s hs' => hs s (by simp [hs'])) (fun _ => hr (by simp)) rfl rfl (by simp at hf; omega)]
    simp
    omega

theorem pathLoop_inv (fuel : Nat) {ps : PS} (hec : ps.ec = none) (hl : ps.p.length < fuel)
    (h : (pathLoop pchar_pct_set fuel ps).ec = none) :
    ∃ segs r, (∀ s ∈ segs, PChars s) ∧ ps.p = slashed segs ++ r ∧ (∀ t, r ≠ c!"/" :: t) ∧
      (segs ≠ [] → Stop isPchar r) := by
  induction fuel generalizing ps with
  | zero => omega
  | succ f ih =>
    unfold pathLoop at h
    split at h
    · rename_i hp
      exact ⟨[], [], by simp, by simp [hp], by simp, by simp⟩
    · rename_i c t hp
      split at h
      · rename_i hc
        simp only [bne_iff_ne, ne_eq] at hc
        refine ⟨[], c :: t, by simp, by simp [hp], ?_, by simp⟩
        intro t' e; simp at e; exact hc e.1
      · rename_i hc
        simp only [bne_iff_ne, ne_eq, Decidable.not_not] at hc
        subst hc
        simp only at h
        split at h
        · rename_i h'; rw [h] at h'; simp at h'
        · rename_i h1
          have h1 := Option.not_isSome_iff_eq_none.1 h1
          obtain ⟨x, e, hx, hst⟩ := pct_inv setOf_pchar hec h1
          have hlen := pct_length ps pchar_pct_set t
          obtain ⟨segs, r, i1, i2, i3, i4⟩ := ih (by exact h1) (by
            rw [hp] at hl; simp only [List.length_cons] at hl ⊢; omega) h
          simp only at i2
          refine ⟨x :: segs, r, ?_, ?_, i3, ?_⟩
          · intro s hs; simp at hs; rcases hs with rfl | hs
            · exact hx
            · exact i1 s hs
          · rw [hp, e, i2]; simp
          · intro _
            cases segs with
            | nil => rw [i2] at hst; exact hst
            | cons s t => exact i4 (by simp)

theorem pathLoop_flt (e : PctSet) (fuel : Nat) {ps : PS} (hf : ps.flt = none) (hl : ps.p.length < fuel) :
    (pathLoop e fuel ps).flt = none := by
  induction fuel generalizing ps with
  | zero => omega
  | succ f ih =>
    unfold pathLoop
    split
    · exact hf
    · rename_i c t hp
      split
      · exact hf
      · simp only
        split
        · simpa [pct_rest] using hf
        · apply ih
          · simpa [pct_rest] using hf
          · have := pct_length ps e t
            rw [hp] at hl
            simp only [List.length_cons] at hl ⊢
            omega

theorem slashed_length (segs : List Str) : segs.length ≤ (slashed segs).length := by
  induction segs with
  | nil => simp
  | cons s t ih => simp; omega

/-- The loop and the mark, on a path whose beginning has been read already. -/
theorem loopMark_of {ps L pend segs r ns np h} (hs : ∀ s ∈ segs, PChars s)
    (hr : segs ≠ [] → Stop isPchar r) (hr2 : ∀ t, r ≠ c!"/" :: t)
    (hL : L.length = 5) (a : At ps L pend (slashed segs ++ r) ns np h) :
    At (pathLoopMark ps) (L ++ [pend ++ slashed segs]) [] r (ns + segs.length) np h := by
  have hl := slashed_length segs
  have e := pathLoop_of segs (fuel := ps.p.length + 1) hs hr hr2 a.p a.ec (by rw [a.p]; simp; omega)
  unfold pathLoopMark
  rw [e]
  simp only [a.ec, Option.isSome_none, Bool.false_eq_true, if_false]
  have b := a.advance
  have c : At { ps with p := r, pt := { ps.pt with nseg := ps.pt.nseg + segs.length } } L (pend ++ slashed segs) r
      (ns + segs.length) np h :=
    ⟨b.rep, b.inp, rfl, b.ec, b.flt, by simp [a.nseg], b.nparam, b.host⟩
  have d := c.mark (id := id_path) hL.symm
  simpa [a.ec] using d

theorem loopMark_inv {ps : PS} (hec : ps.ec = none)
    (h : (pathLoopMark ps).ec = none) :
    ∃ segs r, (∀ s ∈ segs, PChars s) ∧ ps.p = slashed segs ++ r ∧ (∀ t, r ≠ c!"/" :: t) ∧
      (segs ≠ [] → Stop isPchar r) := by
  unfold pathLoopMark at h
  simp only at h
  split at h
  · rename_i h'; rw [h] at h'; simp at h'
  · rename_i h1
    exact pathLoop_inv _ hec (by omega) (Option.not_isSome_iff_eq_none.1 h1)

theorem pathLoop_ne_noMatch (fuel : Nat) {e : PctSet} {ps : PS} (hec : ps.ec = none) :
    (pathLoop e fuel ps).ec ≠ some .no_match := by
  induction fuel generalizing ps with
  | zero => simp [pathLoop, hec]
  | succ f ih =>
    unfold pathLoop
    split
    · simp [hec]
    · split
      · simp [hec]
      · simp only
        split
        · exact pct_ne_noMatch hec
        · rename_i h1
          exact ih (by exact Option.not_isSome_iff_eq_none.1 h1)

theorem loopMark_ne_noMatch {ps : PS} (hec : ps.ec = none) : (pathLoopMark ps).ec ≠ some .no_match := by
  unfold pathLoopMark
  simp only
  split
  · exact pathLoop_ne_noMatch _ hec
  · rw [(mark_rest _ _).2.2.1]; exact pathLoop_ne_noMatch _ hec

/-! ### the number of segments -/

theorem splitAt_of {sep : Byte} {s r : Str} (hs : s.all (· != sep)) :
    splitAt sep (s ++ sep :: r) = s :: splitAt sep r := by
  induction s with
  | nil => simp [splitAt]
  | cons c s ih =>
    simp only [List.all_cons, Bool.and_eq_true, bne_iff_ne] at hs
    simp only [List.cons_append, splitAt, hs.1, if_false, ih hs.2]

theorem splitAt_none {sep : Byte} {s : Str} (hs : s.all (· != sep)) : splitAt sep s = [s] := by
  induction s with
  | nil => rfl
  | cons c s ih =>
    simp only [List.all_cons, Bool.and_eq_true, bne_iff_ne] at hs
    simp only [splitAt, hs.1, if_false, ih hs.2]

theorem splitAt_slashed {s : Str} {segs : List Str} (hs : s.all (· != c!"/"))
    (h : ∀ t ∈ segs, t.all (· != c!"/")) : splitAt c!"/" (s ++ slashed segs) = s :: segs := by
  induction segs generalizing s with
  | nil => simp [splitAt_none hs]
  | cons t ts ih =>
    rw [slashed_cons, splitAt_of hs, ih (h t (by simp)) (fun u hu => h u (by simp [hu]))]

theorem escaped_all {hex ok : Byte → Bool} {P : Byte → Bool} (h1 : ∀ c, hex c = true → P c = true)
    (h2 : ∀ c, ok c = true → P c = true) (h3 : P c!"%" = true) {s : Str} (h : Escaped hex ok s) : s.all P := by
  induction h with
  | nil => rfl
  | char hc _ ih => simp only [List.all_cons, Bool.and_eq_true]; exact ⟨h2 _ hc, ih⟩
  | pct ha hb _ ih => simp only [List.all_cons, Bool.and_eq_true]; exact ⟨h3, h1 _ ha, h1 _ hb, ih⟩

theorem pchars_noslash {s : Str} (h : PChars s) : s.all (· != c!"/") :=
  escaped_all (P := (· != c!"/")) (forall_byte (by decide +kernel)) (forall_byte (by decide +kernel)) (by decide) h

theorem segments_slashed {segs : List Str} (h : ∀ s ∈ segs, PChars s) :
    pathSegments (slashed segs) = segs := by
  cases segs with
  | nil => rfl
  | cons s t =>
    simp only [slashed_cons, pathSegments, if_true]
    exact splitAt_slashed (pchars_noslash (h s (by simp))) (fun u hu => pchars_noslash (h u (by simp [hu])))

theorem segments_rootless {s : Str} {segs : List Str} (h0 : s ≠ []) (hs : s.all (· != c!"/"))
    (h : ∀ s ∈ segs, PChars s) : pathSegments (s ++ slashed segs) = s :: segs := by
  cases s with
  | nil => exact absurd rfl h0
  | cons c s =>
    have hc : c ≠ c!"/" := by simp at hs; exact hs.1
    simp only [List.cons_append, pathSegments, hc, if_false]
    exact splitAt_slashed (s := c :: s) hs (fun u hu => pchars_noslash (h u hu))

theorem segments_absolute {s : Str} {segs : List Str} (hs : s.all (· != c!"/"))
    (h : ∀ s ∈ segs, PChars s) : pathSegments (c!"/" :: s ++ slashed segs) = s :: segs := by
  simp only [List.cons_append, pathSegments, if_true]
  exact splitAt_slashed hs (fun u hu => pchars_noslash (h u hu))

/-! ### the four kinds of path -/

theorem abempty_of {ps L p r ns np h} (hp : Slashed isUpperHex p) (hr : p ≠ [] → Stop isPchar r)
    (hr2 : ∀ t, r ≠ c!"/" :: t) (hL : L.length = 5)
    (a : At ps L [] (p ++ r) ns np h) :
    At (parse_path_abempty ps) (L ++ [p]) [] r (ns + (pathSegments p).length) np h := by
  obtain ⟨segs, hs, rfl⟩ := hp
  have e : pathSegments (segs.flatMap (c!"/" :: ·)) = segs := segments_slashed hs
  rw [e]
  refine loopMark_of (pend := []) hs (fun h => hr ?_) hr2 hL a
  cases segs with
  | nil => exact absurd rfl h
  | cons s t => simp

theorem abempty_inv {ps : PS} (hec : ps.ec = none) (h : (parse_path_abempty ps).ec = none) :
    ∃ p r, Slashed isUpperHex p ∧ ps.p = p ++ r ∧ (∀ t, r ≠ c!"/" :: t) ∧ (p ≠ [] → Stop isPchar r) := by
  obtain ⟨segs, r, h1, h2, h3, h4⟩ := loopMark_inv hec h
  refine ⟨slashed segs, r, ⟨segs, h1, rfl⟩, h2, h3, fun hp => h4 ?_⟩
  rintro rfl; exact hp rfl

theorem absolute_of {ps L p r np h} (hp : LoosePathAbsolute p (!r.isEmpty)) (hr : PathEnd r) (hL : L.length = 5)
    (a : At ps L [] (p ++ r) 0 np h) :
    At (parse_path_absolute ps) (L ++ [p]) [] r (pathSegments p).length np h := by
  obtain ⟨inp, q, pt, ec, flt⟩ := ps
  obtain rfl : ec = none := a.ec
  obtain rfl : flt = none := a.flt
  obtain rfl : q = p ++ r := a.p
  have hns : pt.nseg = 0 := a.nseg
  rcases hp with ⟨rfl, hr0⟩ | ⟨c, s, t, hc, hs, ⟨segs, hsegs, rfl⟩, rfl⟩
  · have : r = [] := by simpa using hr0
    subst this
    have b : At { inp := inp, p := [], pt := { pt with nseg := pt.nseg + 1 } } L b!"/" [] 1 np h :=
      ⟨a.rep, by simpa using a.inp, rfl, rfl, rfl, by simp [hns], a.nparam, a.host⟩
    have c := b.mark (id := id_path) hL.symm
    exact c.congr (by simp [parse_path_absolute])
  · have hpct : ∀ pt' : Parts, PS.pct { inp := inp, p := c :: (s ++ (slashed segs ++ r)), pt := pt' } pchar_pct_set
        (s ++ (slashed segs ++ r)) = { inp := inp, p := slashed segs ++ r, pt := pt' } := by
      intro pt'
      unfold PS.pct
      simp only [pct_parse_of setOf_pchar hs (slashed_stop hr.1)]
    have b : At { inp := inp, p := slashed segs ++ r, pt := { pt with nseg := pt.nseg + 1 } } L
        (c!"/" :: c :: s) (slashed segs ++ r) 1 np h :=
      ⟨a.rep, by have := a.inp; simpa [slashed] using this, rfl, rfl, rfl, by simp [hns], a.nparam, a.host⟩
    have d := loopMark_of hsegs (fun _ => hr.1) hr.2 hL b
    have hseg : pathSegments (c!"/" :: c :: s ++ slashed segs) = (c :: s) :: segs :=
      segments_absolute (s := c :: s) (by
        simp only [List.all_cons, Bool.and_eq_true, bne_iff_ne]
        exact ⟨hc, by simpa using pchars_noslash hs⟩) hsegs
    have hlen : (pathSegments (c!"/" :: c :: s ++ segs.flatMap (c!"/" :: ·))).length = 1 + segs.length := by
      rw [show segs.flatMap (c!"/" :: ·) = slashed segs from rfl, hseg]; simp; omega
    rw [hlen]
    refine At.congr d ?_
    unfold parse_path_absolute
    simp only [List.cons_append, List.append_assoc]
    simp only [bne_self_eq_false, Bool.false_eq_true, if_false, hc]
    have := hpct { pt with nseg := pt.nseg + 1 }
    simp only [slashed] at this
    simp only [this, Option.isSome_none, Bool.false_eq_true, if_false, slashed]

/-- a successful `parse_path_absolute` -/
theorem absolute_inv {ps : PS} (hec : ps.ec = none) (h : (parse_path_absolute ps).ec = none) :
    ∃ p r, LoosePathAbsolute p (!r.isEmpty) ∧ ps.p = p ++ r ∧ PathEnd r := by
  unfold parse_path_absolute at h
  split at h
  · simp at h
  · rename_i c t hp
    split at h
    · simp at h
    · rename_i hc
      simp only [bne_iff_ne, ne_eq, Decidable.not_not] at hc
      subst hc
      simp only at h
      split at h
      · exact ⟨b!"/", [], .inl ⟨rfl, rfl⟩, by simp [hp], trivial, by simp⟩
      · rename_i d u
        split at h
        · simp at h
        · rename_i hd
          split at h
          · rename_i h'; rw [h] at h'; simp at h'
          · rename_i h1
            have h1 := Option.not_isSome_iff_eq_none.1 h1
            obtain ⟨x, e, hx, hst⟩ := pct_inv setOf_pchar (by exact hec) h1
            obtain ⟨segs, r, i1, i2, i3, i4⟩ := loopMark_inv h1 h
            refine ⟨c!"/" :: d :: x ++ slashed segs, r, .inr ⟨d, x, slashed segs, hd, hx, ⟨segs, i1, rfl⟩, rfl⟩,
              ?_, ?_, i3⟩
            · rw [hp, e, i2]; simp
            · cases segs with
              | nil => rw [i2] at hst; exact hst
              | cons s t => exact i4 (by simp)

/-- `parse_path_absolute` gives up only when there is no slash -/
theorem absolute_noMatch {ps : PS} (hec : ps.ec = none) :
    (parse_path_absolute ps).ec = some .no_match ↔ ∀ t, ps.p ≠ c!"/" :: t := by
  constructor
  · intro h t hp
    unfold parse_path_absolute at h
    rw [hp] at h
    simp only [bne_self_eq_false, Bool.false_eq_true, if_false] at h
    split at h
    · rw [(mark_rest _ _).2.2.1] at h; simp [hec] at h
    · split at h
      · simp at h
      · split at h
        · exact pct_ne_noMatch (by exact hec) h
        · rename_i h1
          exact loopMark_ne_noMatch (Option.not_isSome_iff_eq_none.1 h1) h
  · intro h
    unfold parse_path_absolute
    split
    · rfl
    · rename_i c t hp
      have : c ≠ c!"/" := by rintro rfl; exact h t hp
      simp [this]

theorem absolute_noMatch_eq {ps : PS} (h : ∀ t, ps.p ≠ c!"/" :: t) :
    parse_path_absolute ps = { ps with ec := some .no_match } := by
  unfold parse_path_absolute
  split
  · rfl
  · rename_i c t hp
    have : c ≠ c!"/" := by rintro rfl; exact h t hp
    simp [this]

section
variable {e : PctSet} {ok : Byte → Bool} (he : SetOf e ok)

/-- `parse_path_noscheme` and `parse_path_rootless` differ only in the character set. -/
def parse_path_first (e : PctSet) (ps : PS) : PS :=
  let p0 := ps.p
  let ps := ps.pct e p0
  if ps.ec.isSome then ps
  else if ps.p.length = p0.length then { ps with ec := some .no_match }
  else pathLoopMark { ps with pt := { ps.pt with nseg := ps.pt.nseg + 1 } }

theorem noscheme_eq : parse_path_noscheme = parse_path_first pchar_nc_pct_set := rfl
theorem rootless_eq : parse_path_rootless = parse_path_first pchar_pct_set := rfl

include he

theorem first_of {ps L s t r np h} (h0 : s ≠ []) (hs : Escaped isUpperHex ok s)
    (hns : s.all (· != c!"/")) (hsl : ok c!"/" = false)
    (ht : Slashed isUpperHex t) (hr : t ≠ [] → Stop isPchar r) (hr2 : ∀ t, r ≠ c!"/" :: t)
    (hr' : t = [] → Stop ok r) (hL : L.length = 5)
    (a : At ps L [] (s ++ t ++ r) 0 np h) :
    At (parse_path_first e ps) (L ++ [s ++ t]) [] r (pathSegments (s ++ t)).length np h := by
  obtain ⟨segs, hsegs, rfl⟩ := ht
  have hseg : pathSegments (s ++ segs.flatMap (c!"/" :: ·)) = s :: segs := segments_rootless h0 hns hsegs
  rw [hseg]
  have hstop : Stop ok (slashed segs ++ r) := by
    cases segs with
    | nil => exact hr' rfl
    | cons s t => simp only [slashed_cons, List.cons_append]; exact ⟨by decide, hsl⟩
  rw [List.append_assoc] at a
  have b := a.pct_of he hs hstop
  have c : At { ps.pct e ps.p with pt := { (ps.pct e ps.p).pt with nseg := (ps.pct e ps.p).pt.nseg + 1 } } L s
      (slashed segs ++ r) 1 np h := by
    have := b.nseg
    exact ⟨b.rep, by simpa [slashed] using b.inp, b.p, b.ec, b.flt, by simp [this], b.nparam, b.host⟩
  have hr1 : segs ≠ [] → Stop isPchar r := by
    intro h; apply hr
    cases segs with
    | nil => exact absurd rfl h
    | cons s t => simp
  have d := loopMark_of hsegs hr1 hr2 hL c
  have hlen : (s :: segs).length = 1 + segs.length := by simp; omega
  rw [hlen]
  refine At.congr d ?_
  unfold parse_path_first
  have hne : ¬ (ps.pct e ps.p).p.length = ps.p.length := by
    rw [b.p, a.p]
    have : s.length ≠ 0 := by simpa using h0
    simp [slashed]
    intro h; exact h0 (by simpa using h)
  simp only [b.ec, Option.isSome_none, Bool.false_eq_true, if_false, hne]

theorem first_inv {ps : PS} (hec : ps.ec = none) (h : (parse_path_first e ps).ec = none) :
    ∃ s t r, s ≠ [] ∧ Escaped isUpperHex ok s ∧ Slashed isUpperHex t ∧ ps.p = s ++ t ++ r ∧
      (∀ u, r ≠ c!"/" :: u) ∧ (t ≠ [] → Stop isPchar r) ∧ (t = [] → Stop ok r) := by
  unfold parse_path_first at h
  simp only at h
  split at h
  · rename_i h'; rw [h] at h'; simp at h'
  · rename_i h1
    have h1 := Option.not_isSome_iff_eq_none.1 h1
    split at h
    · simp at h
    · rename_i hne
      obtain ⟨s, e1, hs, hst⟩ := pct_inv he hec h1
      obtain ⟨segs, r, i1, i2, i3, i4⟩ := loopMark_inv (by exact h1) h
      simp only at i2
      refine ⟨s, slashed segs, r, ?_, hs, ⟨segs, i1, rfl⟩, ?_, i3, ?_, ?_⟩
      · rintro rfl
        exact hne (by simpa using (congrArg List.length e1).symm)
      · rw [i2] at e1; rw [e1]; simp
      · intro ht; apply i4; rintro rfl; exact ht rfl
      · intro ht
        rw [i2] at hst
        rw [ht] at hst
        exact hst

theorem first_noMatch_eq {ps : PS} (hec : ps.ec = none) (hst : Stop ok ps.p) :
    parse_path_first e ps = { ps with ec := some .no_match } := by
  have hp : ps.pct e ps.p = ps := by
    unfold PS.pct
    have := pct_parse_of he (x := []) .nil hst
    simp only [List.nil_append] at this
    rw [hec, this]
    cases ps; simp_all
  unfold parse_path_first
  simp [hp, hec]

theorem first_noMatch {ps : PS} (hec : ps.ec = none) (h : (parse_path_first e ps).ec = some .no_match) :
    Stop ok ps.p := by
  unfold parse_path_first at h
  simp only at h
  split at h
  · exact absurd h (pct_ne_noMatch hec)
  · rename_i h1
    have h1 := Option.not_isSome_iff_eq_none.1 h1
    split at h
    · rename_i hlen
      obtain ⟨s, e1, hs, hst⟩ := pct_inv he hec h1
      have : s = [] := by
        have := congrArg List.length e1
        simp at this
        apply List.length_eq_zero_iff.1; omega
      rw [this] at e1
      rw [e1]; exact hst
    · exact absurd h (loopMark_ne_noMatch (by exact h1))

end

end Url
