import Verif.Proofs.Segments
import Verif.Proofs.PathText
import Verif.Props.Authority

/-!
Properties of iterating over the segments of a path: C34 - C36, and C14 for segments.

`Base.segments o fuel` runs a loop from `begin()` to `end()` over `segments()` of a `url` and collects the
encoded strings, `View.segments o fuel` the same for a `url_view` or a `const` `url`. `fuel` bounds the number
of steps; when it is used up the outcome is `diverge`.
-/

set_option linter.unusedSimpArgs false
set_option autoImplicit false

namespace Url.Props
open Url Spec

variable {env : Env} {st st' : St}

/-- every segment with a slash before it -/
def joined (segs : List Str) : Str := segs.flatMap (c!"/" :: ·)

theorem splitAt_flatMap (t : Str) : (splitAt c!"/" t).flatMap (c!"/" :: ·) = c!"/" :: t := by
  induction t with
  | nil => rfl
  | cons a t ih =>
    rw [splitAt_cons]
    split
    · rename_i ha
      subst ha
      simp [ih]
    · cases hs : splitAt c!"/" t with
      | nil => exact absurd hs (splitAt_ne _ _)
      | cons x xs =>
        rw [hs] at ih
        simp at ih ⊢
        exact ih

/-- The loop over the segments does what it should: it ends, after `segs.length` steps, having seen `segs`; there
are `size()` of them, none contains a slash, and they make up the path. -/
structure Enumerates (o : Obj) (walk : Nat → R (List Str)) : Prop where
  seen : ∃ p segs, encoded_path o = .ok p ∧ (∀ fuel, segs.length < fuel → walk fuel = .ok segs) ∧
    o.pt.nseg = segs.length ∧ (∀ s ∈ segs, c!"/" ∉ s) ∧
    ((p.head? = some c!"/" ∨ p = []) ∧ p = joined segs ∨ p.head? ≠ some c!"/" ∧ p ≠ [] ∧ c!"/" :: p = joined segs)

theorem joined_cases (p : Str) : (p.head? = some c!"/" ∨ p = []) ∧ p = joined (pathSegments p) ∨
    p.head? ≠ some c!"/" ∧ p ≠ [] ∧ c!"/" :: p = joined (pathSegments p) := by
  cases p with
  | nil => exact .inl ⟨.inr rfl, rfl⟩
  | cons a t =>
    unfold joined pathSegments
    by_cases ha : a = c!"/"
    · subst ha
      left
      simp only [if_true]
      exact ⟨.inl rfl, (splitAt_flatMap t).symm⟩
    · right
      simp only [if_neg ha]
      exact ⟨by simpa using ha, by simp, (splitAt_flatMap (a :: t)).symm⟩

theorem base_segments {o : Obj} {c : Components} (h : ObjRep o (compParts c)) (hn : o.pt.nseg = 0 ↔ c.path = [])
    {fuel : Nat} (hf : (pathSegments c.path).length < fuel) : Base.segments o fuel = .ok (pathSegments c.path) :=
  (base_ctx h).walk_good (by rw [h.rep, (plen_parts c).2.1]) hn hf

theorem pathSegments_length_zero {p : Str} : (pathSegments p).length = 0 ↔ p = [] := by
  rw [← pieces_length, List.length_eq_zero_iff, pieces_eq_nil]

/-- A `url` with the right number of segments enumerates them. -/
theorem enumerates_base {o : Obj} {c : Components} (h : ObjRep o (compParts c)) (hn : o.pt.nseg = (pathSegments c.path).length) :
    Enumerates o (Base.segments o) := by
  refine ⟨c.path, pathSegments c.path, (baseReports h).path, fun fuel hf => base_segments h ?_ hf, hn, fun s => pathSegments_noslash,
    joined_cases _⟩
  rw [hn, pathSegments_length_zero]

/-- what construction from a string gives -/
theorem make_url {s : Str} (h : Base.make s env st = .ret () st') : ∃ c : Components, c.Valid lib ∧ c.render = s ∧ Rep env st' c ∧
    st'.pt.nseg = (pathSegments c.path).length ∧ st'.pt.nparam = paramCount c.query := by
  obtain ⟨c, c', -, -, he, hok⟩ := returned (op := .set_encoded_url s) .empty (fun _ _ hd => hd) h
  have hc := hok.counts
  rw [CountsAfter] at hc
  rcases he with ⟨h1, rfl⟩ | ⟨h1, h2, h3⟩
  · rw [if_pos h1] at hc
    exact ⟨_, PartsOk.empty.valid_iff.2 (.inl rfl), by rw [h1]; rfl, hok.rep, hc⟩
  · rw [if_neg h1] at hc
    exact ⟨_, h2, h3, hok.rep, hc⟩

/-! ### C34 -/

/-- C34: the segments of a `url` constructed from a string. -/
theorem C34_segments {s : Str} (h : Base.make s env st = .ret () st') (dbg : Bool) :
    Enumerates (st'.obj dbg) (Base.segments (st'.obj dbg)) := by
  obtain ⟨c, -, -, hrep, hn, -⟩ := make_url h
  exact enumerates_base (hrep.obj dbg) hn

/-- C34: the segments of any reachable `url` in step with its text. -/
theorem C34_inStep (hr : Reach env st) (hv : Reparses st) (hs : InStep st) (dbg : Bool) :
    Enumerates (st.obj dbg) (Base.segments (st.obj dbg)) := by
  obtain ⟨c, hrep, -⟩ := hr.rep
  exact enumerates_base (hrep.obj dbg) ((inStep_iff hrep hv).1 hs).nseg

/-- C34: even with a stale count, the loop visits the segments of the path as long as the count is zero exactly
for the empty path. -/
theorem C34_stale (hr : Reach env st) (dbg : Bool) {p : Str} (hp : encoded_path (st.obj dbg) = .ok p) (hn : st.pt.nseg = 0 ↔ p = [])
    {fuel : Nat} (hf : (pathSegments p).length < fuel) : Base.segments (st.obj dbg) fuel = .ok (pathSegments p) := by
  obtain ⟨c, hrep, -⟩ := hr.rep
  rw [(hrep.reports dbg).path] at hp
  cases hp
  exact base_segments (hrep.obj dbg) hn hf

def segmentsAfter (dbg : Bool) (ops : List Op) (fuel : Nat) : R (List Str) := Base.segments ((after ops).obj dbg) fuel

example : segmentsAfter true [.set_encoded_url b!"http://us%20er:p:w@h%41.x:80/a//b;c?k=v&l#f%2F"] 4 = .ok [b!"a", b!"", b!"b;c"] ∧
    segmentsAfter true [.set_encoded_url b!"a/b/?/c"] 4 = .ok [b!"a", b!"b", b!""] ∧
    segmentsAfter true [.set_encoded_url b!"/"] 2 = .ok [b!""] ∧
    segmentsAfter true [.set_encoded_url b!"?q"] 1 = .ok [] := by decide +kernel

/-- Not only parsed ones: after `set_encoded_path` the count is stale, and if it is zero nothing is visited; if
the path is gone, `begin()` fails an assertion. -/
theorem C34_stale_false :
    segmentsAfter true [.set_encoded_path b!"/a/b"] 9 = .ok [] ∧
    segmentsAfter true [.set_encoded_url b!"/a/b", .set_encoded_path []] 9 = .error .assert := by decide +kernel

/-! ### C35 -/

theorem view_walk {o : Obj} {c : Components} (h : ObjRep o (compParts c)) (hn : o.pt.nseg = 0 ↔ c.path = [])
    (hq : c.query = none ∨ c.path = []) {fuel : Nat} (hf : (pathSegments c.path).length < fuel) :
    View.segments o fuel = .ok (pathSegments c.path) := by
  by_cases hp : c.path = []
  · unfold View.segments Seg.walk
    have h0 : o.pt.nseg = 0 := hn.2 hp
    cases fuel with
    | zero => omega
    | succ fuel =>
      rw [first_empty h0]
      simp only [bind, Except.bind, Seg.collect, eq_self, if_true]
      rw [hp]
      rfl
  · have hq : c.query = none := hq.resolve_right hp
    have ctx := view_ctx h
    rw [hq] at ctx
    simp only [queryText, List.append_nil] at ctx
    exact ctx.walk_good (by rw [h.rep, (plen_parts c).2.1]) hn hf

theorem view_segments {o : Obj} {c : Components} (h : ObjRep o (compParts c)) (hn : o.pt.nseg = (pathSegments c.path).length)
    (hq : c.query = none ∨ c.path = []) : Enumerates o (View.segments o) := by
  refine ⟨c.path, pathSegments c.path, (baseReports h).path, fun fuel hf => view_walk h ?_ hq hf, hn, fun s => pathSegments_noslash,
    joined_cases _⟩
  rw [hn, pathSegments_length_zero]

/-- C35: the segments of a `url_view` without a query, or with an empty path. -/
theorem C35_partial {s : Str} {v : View} (hv : View.make s = .ret v) (dbg : Bool)
    (hq : query_part (v.obj dbg) = .ok [] ∨ encoded_path (v.obj dbg) = .ok []) :
    Enumerates (v.obj dbg) (View.segments (v.obj dbg)) := by
  obtain ⟨c, hc, rfl, r⟩ := make_inv hv
  have R := viewReports (r.obj dbg)
  refine view_segments (r.obj dbg) r.nseg ?_
  rw [R.query_part, R.path] at hq
  rcases hq with h | h
  · left
    cases hq : c.query with
    | none => rfl
    | some q => rw [hq] at h; cases h
  · right
    simpa using h

/-- the number of steps until the end of the text to be scanned is reached -/
theorem view_walk_bad {o : Obj} {c : Components} (h : ObjRep o (compParts c)) (hn : o.pt.nseg ≠ 0)
    (hp : c.path ≠ []) (hq : c.query ≠ none) (fuel : Nat) :
    View.segments o fuel = .error (if o.dbg = true ∧ (pathSegments (c.path ++ queryText c.query)).length < fuel then .assert else .diverge) := by
  have ctx := view_ctx h
  unfold View.segments Seg.walk
  rw [ctx.first_pos hn (by simp [hp])]
  simp only [bind, Except.bind]
  rw [ctx.collect_bad (by rw [h.rep, (plen_parts c).2.2]; simp; omega) (view_never h hp hq) (by omega), pieces_length]
  rfl

/-- C35 is false for every view with a query and a path that is not empty: the loop never gets to `end()`. In
a build with assertions it fails one, otherwise it goes on for ever. -/
theorem C35_false {s : Str} {v : View} (hv : View.make s = .ret v) (dbg : Bool) (hq : query_part (v.obj dbg) ≠ .ok [])
    (hp : encoded_path (v.obj dbg) ≠ .ok []) :
    (∀ fuel segs, View.segments (v.obj dbg) fuel ≠ .ok segs) ∧
    (dbg = false → ∀ fuel, View.segments (v.obj dbg) fuel = .error .diverge) ∧
    (dbg = true → ∃ n, ∀ fuel, n < fuel → View.segments (v.obj dbg) fuel = .error .assert) := by
  obtain ⟨c, hc, rfl, r⟩ := make_inv hv
  have R := viewReports (r.obj dbg)
  rw [R.query_part] at hq
  rw [R.path] at hp
  have hp : c.path ≠ [] := fun h => hp (by rw [h])
  have hq : c.query ≠ none := by intro h; rw [h] at hq; exact hq rfl
  have hn : (v.obj dbg).pt.nseg ≠ 0 := by
    show v.pt.nseg ≠ 0
    rw [r.nseg, Ne, pathSegments_length_zero]
    exact hp
  have key := view_walk_bad (r.obj dbg) hn hp hq
  have hd : (v.obj dbg).dbg = dbg := rfl
  refine ⟨fun fuel segs h => ?_, ?_, ?_⟩
  · rw [key] at h; cases h
  · rintro rfl fuel
    rw [key, hd]; simp
  · rintro rfl
    exact ⟨_, fun fuel hf => by rw [key, hd, if_pos ⟨rfl, hf⟩]⟩

/-- C35 for a `const` `url` after any calls: without a query, or with an empty path, and with a count that is zero
exactly for the empty path, the loop sees the segments of the path. -/
theorem C35_const_partial (hr : Reach env st) (dbg : Bool) {p : Str} (hp : encoded_path (st.obj dbg) = .ok p)
    (hn : st.pt.nseg = 0 ↔ p = []) (hq : query_part (st.obj dbg) = .ok [] ∨ p = []) {fuel : Nat} (hf : (pathSegments p).length < fuel) :
    View.segments (st.obj dbg) fuel = .ok (pathSegments p) := by
  obtain ⟨c, hrep, -⟩ := hr.rep
  have R := baseReports (hrep.obj dbg)
  rw [R.path] at hp
  cases hp
  refine view_walk (hrep.obj dbg) hn ?_ hf
  rw [R.query_part] at hq
  rcases hq with h | h
  · left
    cases hq : c.query with
    | none => rfl
    | some q => rw [hq] at h; cases h
  · exact .inr h

/-- C35 is false for every `const` `url` with a query and a path that is not empty, whatever the calls before: the
loop ends at once if the count is zero, and never otherwise. -/
theorem C35_const_false (hr : Reach env st) (dbg : Bool) (hq : query_part (st.obj dbg) ≠ .ok []) {p : Str}
    (hp : encoded_path (st.obj dbg) = .ok p) (h0 : p ≠ []) {fuel : Nat} {segs : List Str}
    (h : View.segments (st.obj dbg) fuel = .ok segs) : st.pt.nseg = 0 ∧ segs = [] := by
  obtain ⟨c, hrep, -⟩ := hr.rep
  have R := baseReports (hrep.obj dbg)
  rw [R.path] at hp
  cases hp
  rw [R.query_part] at hq
  have hq : c.query ≠ none := by intro h; rw [h] at hq; exact hq rfl
  by_cases hn : st.pt.nseg = 0
  · refine ⟨hn, ?_⟩
    unfold View.segments Seg.walk at h
    rw [first_empty (show (st.obj dbg).pt.nseg = 0 from hn)] at h
    cases fuel with
    | zero => simp [bind, Except.bind, Seg.collect] at h
    | succ fuel =>
      simp only [bind, Except.bind, Seg.collect, eq_self, if_true] at h
      cases h
      rfl
  · rw [view_walk_bad (hrep.obj dbg) hn h0 hq] at h
    cases h

def viewSegments (dbg : Bool) (s : Str) (fuel : Nat) : Option (R (List Str)) :=
  match View.make s with
  | .ret v => some (View.segments (v.obj dbg) fuel)
  | _ => none

example : viewSegments true b!"http://h/a//b;c#f%2F" 4 = some (.ok [b!"a", b!"", b!"b;c"]) ∧
    viewSegments true b!"?q" 1 = some (.ok []) ∧
    viewSegments true b!"/a/b?q" 9 = some (.error .assert) ∧ viewSegments false b!"/a/b?q" 9 = some (.error .diverge) := by
  decide +kernel

/-- the same loop over a `const` `url` after some calls -/
def constSegments (dbg : Bool) (ops : List Op) (fuel : Nat) : R (List Str) := View.segments ((after ops).obj dbg) fuel

example : constSegments true [.set_encoded_url b!"http://h/a//b;c#f%2F", .set_encoded_fragment b!"g"] 4 = .ok [b!"a", b!"", b!"b;c"] ∧
    constSegments true [.set_encoded_url b!"/a/b", .set_encoded_query b!"q"] 9 = .error .assert ∧
    constSegments false [.set_encoded_url b!"/a/b", .set_encoded_query b!"q"] 9 = .error .diverge ∧
    constSegments true [.set_encoded_path b!"/a/b", .set_encoded_query b!"q"] 9 = .ok [] := by decide +kernel

/-! ### C36 -/

/-- C36: from every position, incrementing and decrementing are inverse to each other. `Seg.nth id_query o k` is
the iterator of a `url` reached from `begin()` by `k` increments. -/
theorem C36_bidirectional (hr : Reach env st) (dbg : Bool) {p : Str} (hp : encoded_path (st.obj dbg) = .ok p) (hn : st.pt.nseg ≠ 0)
    {k : Nat} (hk : k < (pathSegments p).length) :
    ∃ it it', Seg.nth id_query (st.obj dbg) k = .ok it ∧ Seg.nth id_query (st.obj dbg) (k + 1) = .ok it' ∧
      Seg.next id_query (st.obj dbg) it = .ok it' ∧ Seg.prev id_query (st.obj dbg) it' = .ok it ∧
      Seg.deref (st.obj dbg) it = .ok (pathSegments p)[k] := by
  obtain ⟨c, hrep, -⟩ := hr.rep
  rw [(hrep.reports dbg).path] at hp
  cases hp
  have ctx := base_ctx (hrep.obj dbg)
  have hp : c.path ≠ [] := by
    intro h
    rw [h] at hk
    simp [pathSegments] at hk
  have hk' : k < (pieces c.path).length := by rw [pieces_length]; exact hk
  have hn' : (st.obj dbg).pt.nseg ≠ 0 := hn
  refine ⟨_, _, ctx.nth_pos hn' hp (Nat.le_of_lt hk'), ctx.nth_pos hn' hp hk', ctx.next_pos hk', ctx.prev_pos hk', ?_⟩
  rw [ctx.deref_pos hk']
  congr 1
  have e := pieces_strip c.path
  have : strip (pieces c.path)[k] = ((pieces c.path).map strip)[k]'(by simpa using hk') := by simp
  rw [this]
  congr 1

/-- C36: the last of these iterators is `end()`. -/
theorem C36_end (hr : Reach env st) (dbg : Bool) {p : Str} (hp : encoded_path (st.obj dbg) = .ok p) (hn : st.pt.nseg ≠ 0) (h0 : p ≠ []) :
    Seg.nth id_query (st.obj dbg) (pathSegments p).length = .ok (Seg.last (st.obj dbg)) := by
  obtain ⟨c, hrep, -⟩ := hr.rep
  rw [(hrep.reports dbg).path] at hp
  cases hp
  have ctx := base_ctx (hrep.obj dbg)
  have hn' : (st.obj dbg).pt.nseg ≠ 0 := hn
  rw [← pieces_length, ctx.nth_pos hn' h0 (Nat.le_refl _), posIt_last]
  rw [(hrep.obj dbg).rep, (plen_parts c).2.1]

/-- C36 for the iterators of a `url_view` or of a `const` `url`: they walk over the path with the query attached to
it, and from every position incrementing and decrementing are inverse to each other. -/
theorem C36_const (hr : Reach env st) (dbg : Bool) {p q : Str} (hp : encoded_path (st.obj dbg) = .ok p)
    (hq : query_part (st.obj dbg) = .ok q) (hn : st.pt.nseg ≠ 0) {k : Nat} (hk : k < (pathSegments (p ++ q)).length) :
    ∃ it it', Seg.nth id_frag (st.obj dbg) k = .ok it ∧ Seg.nth id_frag (st.obj dbg) (k + 1) = .ok it' ∧
      Seg.next id_frag (st.obj dbg) it = .ok it' ∧ Seg.prev id_frag (st.obj dbg) it' = .ok it ∧
      Seg.deref (st.obj dbg) it = .ok (pathSegments (p ++ q))[k] := by
  obtain ⟨c, hrep, -⟩ := hr.rep
  have R := baseReports (hrep.obj dbg)
  rw [R.path] at hp
  rw [R.query_part] at hq
  cases hp
  have hq : queryText c.query = q := by
    cases hc : c.query <;> rw [hc] at hq <;> cases hq <;> rfl
  subst hq
  have ctx := view_ctx (hrep.obj dbg)
  have hp : c.path ++ queryText c.query ≠ [] := by
    intro h
    simp only [h] at hk
    simp [pathSegments] at hk
  have hk' : k < (pieces (c.path ++ queryText c.query)).length := by rw [pieces_length]; exact hk
  have hn' : (st.obj dbg).pt.nseg ≠ 0 := hn
  refine ⟨_, _, ctx.nth_pos hn' hp (Nat.le_of_lt hk'), ctx.nth_pos hn' hp hk', ctx.next_pos hk', ctx.prev_pos hk', ?_⟩
  rw [ctx.deref_pos hk']
  congr 1
  have e := pieces_strip (c.path ++ queryText c.query)
  have : strip (pieces (c.path ++ queryText c.query))[k] = ((pieces (c.path ++ queryText c.query)).map strip)[k]'(by simpa using hk') := by simp
  rw [this]
  congr 1

example : pathSegments (b!"/a//b;c" ++ b!"?k=v&l") = [b!"a", b!"", b!"b;c?k=v&l"] ∧
    (Seg.nth id_frag (sampleSt.obj true) 2).bind (Seg.deref (sampleSt.obj true)) = .ok b!"b;c?k=v&l" ∧
    (Seg.nth id_frag (sampleSt.obj true) 3).bind (Seg.prev id_frag (sampleSt.obj true)) = Seg.nth id_frag (sampleSt.obj true) 2 := by
  decide +kernel

example : (Seg.nth id_query (sampleSt.obj true) 2).bind (Seg.prev id_query (sampleSt.obj true)) = .ok { off := 30, n := 1 } ∧
    Seg.nth id_query (sampleSt.obj true) 1 = .ok { off := 30, n := 1 } ∧
    Seg.deref (sampleSt.obj true) { off := 30, n := 1 } = .ok b!"" := by decide +kernel

/-! ### C14 -/

theorem escaped_while {hex ok : Byte → Bool} (hh : ∀ c, hex c = true → notSlash c = true) {s : Str} (h : Escaped hex ok s) :
    Escaped hex ok (s.takeWhile notSlash) ∧ Escaped hex ok (s.dropWhile notSlash) := by
  induction h with
  | nil => exact ⟨.nil, .nil⟩
  | @char c s hc hs ih =>
    by_cases h : notSlash c = true
    · rw [List.takeWhile_cons_of_pos h, List.dropWhile_cons_of_pos h]
      exact ⟨.char hc ih.1, ih.2⟩
    · rw [List.takeWhile_cons_of_neg h, List.dropWhile_cons_of_neg h]
      exact ⟨.nil, .char hc hs⟩
  | @pct a b s ha hb hs ih =>
    have h1 : notSlash c!"%" = true := by decide
    rw [List.takeWhile_cons_of_pos h1, List.takeWhile_cons_of_pos (hh a ha), List.takeWhile_cons_of_pos (hh b hb),
      List.dropWhile_cons_of_pos h1, List.dropWhile_cons_of_pos (hh a ha), List.dropWhile_cons_of_pos (hh b hb)]
    exact ⟨.pct ha hb ih.1, ih.2⟩

theorem escaped_segment {hex ok : Byte → Bool} (hh : ∀ c, hex c = true → notSlash c = true) {p : Str} (h : Escaped hex ok p) :
    ∀ s ∈ pathSegments p, Escaped hex ok s := by
  have key : ∀ n, ∀ t : Str, t.length ≤ n → Escaped hex ok t → ∀ s ∈ splitAt c!"/" t, Escaped hex ok s := by
    intro n
    induction n with
    | zero =>
      intro t ht _ s hs
      obtain rfl : t = [] := by simpa using ht
      simp [splitAt] at hs
      subst hs
      exact .nil
    | succ n ih =>
      intro t ht h s hs
      rw [splitAt_first] at hs
      obtain ⟨h1, h2⟩ := escaped_while hh h
      rcases List.mem_cons.1 hs with rfl | hs
      · exact h1
      · cases hd : t.dropWhile notSlash with
        | nil => rw [hd] at hs; simp [pieces] at hs
        | cons d u =>
          have hd' : d = c!"/" := by
            have := List.head_dropWhile_not (l := t) notSlash (by rw [hd]; simp)
            simp only [hd, List.head_cons] at this
            simpa [notSlash] using this
          subst hd'
          rw [hd] at hs h2
          have hl := (List.dropWhile_sublist notSlash (l := t)).length_le
          rw [hd, List.length_cons] at hl
          have hu : Escaped hex ok u := by
            cases h2 with
            | char _ h => exact h
          rw [pieces_strip, pathSegments, if_pos rfl] at hs
          exact ih u (by omega) hu s hs
  intro s hs
  cases p with
  | nil => simp [pathSegments] at hs
  | cons a t =>
    by_cases ha : a = c!"/"
    · subst ha
      have hu : Escaped hex ok t := by
        cases h with
        | char _ h => exact h
      exact key _ t (Nat.le_refl _) hu s hs
    · simp only [pathSegments, if_neg ha] at hs
      exact key _ _ (Nat.le_refl _) h s hs

theorem slashed_escaped {p : Str} (h : Slashed isUpperHex p) : Escaped isUpperHex notPct p := by
  obtain ⟨segs, hs, rfl⟩ := h
  induction segs with
  | nil => exact .nil
  | cons a segs ih =>
    rw [List.flatMap_cons]
    refine .char (by decide) (Escaped.append ?_ (ih fun s h => hs s (by simp [h])))
    exact Escaped.mono (fun _ h => h) (forall_byte (by decide +kernel)) (hs a (by simp))

/-- The path is in order: if it starts with `/%`, this is the start of an escape. -/
def FirstOk (p : Str) : Prop := ∀ t, p = b!"/%" ++ t → ∃ a b u, isUpperHex a = true ∧ isUpperHex b = true ∧ t = a :: b :: u

theorem path_escaped {c : Components} (hv : c.Valid lib) (hf : FirstOk c.path) : Escaped isUpperHex notPct c.path := by
  have hpc : ∀ s, Escaped isUpperHex isPchar s → Escaped isUpperHex notPct s :=
    fun s h => Escaped.mono (fun _ h => h) (forall_byte (by decide +kernel)) h
  rcases pathOk_shape hv.2.2.1 with h | ⟨f, h | ⟨a, s, t, ha, hs, ht, h⟩⟩ | ⟨s, t, -, hs, ht, h⟩
  · exact slashed_escaped h
  · rw [h.1]; exact .char (by decide) .nil
  · rw [h]
    refine .char (by decide) ?_
    have hst : Escaped isUpperHex notPct (s ++ t) := (hpc s hs).append (slashed_escaped ht)
    by_cases hpct : a = c!"%"
    · subst hpct
      obtain ⟨x, y, u, hx, hy, hu⟩ := hf (s ++ t) (by rw [h]; rfl)
      rw [hu] at hst
      show Escaped isUpperHex notPct (c!"%" :: (s ++ t))
      rw [hu]
      refine .pct hx hy ?_
      have hnx : notPct x = true := by
        revert hx; exact forall_byte (P := fun x => isUpperHex x = true → notPct x = true) (by decide +kernel) x
      have hny : notPct y = true := by
        revert hy; exact forall_byte (P := fun x => isUpperHex x = true → notPct x = true) (by decide +kernel) y
      cases hst with
      | pct => cases hnx
      | char _ h =>
        cases h with
        | pct => cases hny
        | char _ h => exact h
    · exact .char (by simp [notPct, hpct]) hst
  · rw [h]
    exact (hpc s hs).append (slashed_escaped ht)

theorem segment_decodes {c : Components} (hv : c.Valid lib) (hf : FirstOk c.path) {s : Str} (hs : s ∈ pathSegments c.path) :
    ∃ d, Seg.string s = .ok d ∧ Decoded s d :=
  decodeR_of (ok := notPct) (by decide)
    (escaped_segment (forall_byte (P := fun c => isUpperHex c = true → notSlash c = true) (by decide +kernel)) (path_escaped hv hf) s hs)

/-- C14 for segments: the plain value of every segment of an accepted path is its percent-decoding, unless the
path is absolute and its first character is a `%` that does not start an escape. -/
theorem C14_segments_partial {s : Str} (h : Base.make s env st = .ret () st') (dbg : Bool) {p : Str}
    (hp : encoded_path (st'.obj dbg) = .ok p) (hf : FirstOk p) :
    ∃ segs, (∀ fuel, segs.length < fuel → Base.segments (st'.obj dbg) fuel = .ok segs) ∧
      ∀ x ∈ segs, ∃ d, Seg.string x = .ok d ∧ Decoded x d := by
  obtain ⟨c, hv, -, hrep, hn, -⟩ := make_url h
  rw [(hrep.reports dbg).path] at hp
  cases hp
  have hn' : (st'.obj dbg).pt.nseg = 0 ↔ c.path = [] := by
    show st'.pt.nseg = 0 ↔ c.path = []
    rw [hn, pathSegments_length_zero]
  exact ⟨_, fun fuel hf => base_segments (hrep.obj dbg) hn' hf, fun x hx => segment_decodes hv hf hx⟩

/-- C14 for segments after any calls and edits: the plain value of every segment is its percent-decoding, unless the
segment starts with a `%` that does not start an escape. -/
theorem C14_reach_partial (hr : Reach env st) (dbg : Bool) {p : Str} (hp : encoded_path (st.obj dbg) = .ok p) {s : Str}
    (hs : s ∈ pathSegments p) (hf : ∀ t, s = c!"%" :: t → ∃ a b u, isUpperHex a = true ∧ isUpperHex b = true ∧ t = a :: b :: u) :
    ∃ d, Seg.string s = .ok d ∧ Decoded s d := by
  obtain ⟨c, hrep, -, hl⟩ := hr.path
  rw [(hrep.reports dbg).path] at hp
  cases hp
  refine decodeR_of (ok := notPct) (by decide) ?_
  rcases hl.segment hs with h | ⟨t, rfl, h⟩
  · exact h
  · obtain ⟨x, y, u, hx, hy, rfl⟩ := hf t rfl
    refine .pct hx hy ?_
    have hnx : notPct x = true := by
      revert hx; exact forall_byte (P := fun x => isUpperHex x = true → notPct x = true) (by decide +kernel) x
    have hny : notPct y = true := by
      revert hy; exact forall_byte (P := fun x => isUpperHex x = true → notPct x = true) (by decide +kernel) y
    cases h with
    | pct => cases hnx
    | char _ h =>
      cases h with
      | pct => cases hny
      | char _ h => exact h

example : FirstOk b!"/a%20/b" ∧ (∀ x ∈ [b!"a%20", b!"b"], ∃ d, Seg.string x = .ok d) := by
  refine ⟨fun t h => (by cases h), ?_⟩
  simp only [List.mem_cons, List.not_mem_nil, or_false, forall_eq_or_imp, forall_eq]
  exact ⟨⟨b!"a ", by decide +kernel⟩, ⟨b!"b", by decide +kernel⟩⟩

/-- C14 is false for the segment of `/%`: decoding it reads beyond the URL. -/
theorem C14_false : (∃ v, View.make b!"/%" = .ret v) ∧ viewSegments true b!"/%" 2 = some (.ok [b!"%"]) ∧ Seg.string b!"%" = .error .ub :=
  ⟨⟨_, rfl⟩, by decide +kernel, by decide +kernel⟩

end Url.Props
