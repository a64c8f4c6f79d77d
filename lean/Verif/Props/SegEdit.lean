import Verif.Props.Segments

/-!
Properties of the calls that edit the segments of a `url`: C37.
-/

set_option linter.unusedSimpArgs false
set_option autoImplicit false

namespace Url.Props
open Url Spec

variable {env : Env} {st st' : St} {e : SegOp} {it : SegIt}

/-- What is known when an edit returned. -/
theorem edited (hr : Reach env st) (he : Editable env st e) (h : runSeg e env st = .ret it st') :
    ∃ c, Rep env st c ∧ PartsOk c ∧ e.Valid ∧ e.Fits (pathSegments c.path).length ∧ SegOk env e st c it st' := by
  obtain ⟨c, hrep, hp⟩ := hr.rep
  have ho := edit_outcome hrep he
  rw [h] at ho
  obtain ⟨p, h1, -, h3, -⟩ := he
  rw [(hrep.reports env.dbg).path] at h1
  cases h1
  cases ho with
  | ret _ _ hv hok => exact ⟨c, hrep, hp, hv, h3, hok⟩

theorem not_glues {n : Nat} {p : Str} (hf : e.Fits n) (hk : e.KeepsFirst ∨ ¬ Rootless p) : ¬ e.Glues p := by
  rintro ⟨h1, h2, h3⟩
  rcases hk with (hk | ⟨-, hk⟩) | hk
  · have := hf.1; omega
  · exact h2 hk
  · exact hk h3

/-- C37: an edit that returns changes the list of segments the way the list operation of the same name does, and
no other component, unless something is put in front of a path that does not start with a slash. (`newPath`
is the path with these segments; it starts with a slash except where the first segment of a path that did not is
kept.) See `C37_outcome_partial` for the edits that return. -/
theorem C37_partial (hr : Reach env st) (he : Editable env st e) (h : runSeg e env st = .ret it st') (dbg : Bool) {p : Str}
    (hp : encoded_path (st.obj dbg) = .ok p) (hg : ¬ e.Glues p) :
    (encoded_path (st'.obj dbg) = .ok (e.newPath p) ∧ pathSegments (e.newPath p) = e.apply (pathSegments p)) ∧
    (∀ q : Part, q ≠ .path → q.text (st'.obj dbg) = q.text (st.obj dbg)) ∧
    host_type (st'.obj dbg) = host_type (st.obj dbg) ∧ st'.pt.nparam = st.pt.nparam := by
  obtain ⟨c, hrep, -, hv, hf, hok⟩ := edited hr he h
  rw [(hrep.reports dbg).path] at hp
  cases hp
  have ht := editText_eq hf hg
  refine ⟨⟨?_, ?_⟩, ?_, hok.host, hok.nparam⟩
  · rw [(hok.rep.reports dbg).path, ht]
  · rw [← ht, segments_editText hv hf hg]
  · intro q hq
    rw [Part.text_eq hok.rep, Part.text_eq hrep]
    cases q <;> first | rfl | exact absurd rfl hq

/-- C37, exactly: the recorded number of segments changes by the number of slashes that are taken away and put in,
modulo the range of `std::size_t`. A segment that is taken away takes one slash with it, except for the first one of a
path that does not start with a slash: there a correct count becomes too large by one. -/
theorem C37_count (hr : Reach env st) (he : Editable env st e) (h : runSeg e env st = .ret it st') (dbg : Bool) {p : Str}
    (hp : encoded_path (st.obj dbg) = .ok p) :
    (st'.pt.nseg + ((e.cut.2 - e.cut.1) - if e.cut.1 = 0 ∧ e.cut.2 ≠ 0 ∧ Rootless p then 1 else 0)) % (env.sizeMax + 1) =
      (st.pt.nseg + e.text.toList.length) % (env.sizeMax + 1) := by
  obtain ⟨c, hrep, -, hv, hf, hok⟩ := edited hr he h
  rw [(hrep.reports dbg).path] at hp
  cases hp
  have hsm := hrep.small
  have h3 := path_le_render c
  have h4 := pieces_length_le c.path
  rw [pieces_length] at h4
  have h5 := hf.1
  have h6 := hf.2
  have hs : (e.cut.2 - e.cut.1) - (if e.cut.1 = 0 ∧ e.cut.2 ≠ 0 ∧ Rootless c.path then 1 else 0) = if e.cut.1 = e.cut.2 then 0 else e.slashes c.path := by
    unfold SegOp.slashes
    by_cases hr : Rootless c.path <;> by_cases h0 : e.cut.1 = 0 <;> by_cases h1 : e.cut.2 = 0 <;> by_cases h2 : e.cut.1 = e.cut.2 <;> simp [*] <;> omega
  have hle : e.slashes c.path ≤ e.cut.2 := by unfold SegOp.slashes; split <;> omega
  have sub : ∀ n k m : Nat, k ≤ m + 1 → (Base.modSub m n k + k) % (m + 1) = n % (m + 1) := by
    intro n k m hk
    unfold Base.modSub
    split
    · rw [Nat.sub_add_cancel (by omega)]
    · rw [Nat.sub_add_cancel (by omega), Nat.add_mod_right]
  have add : ∀ n m : Nat, Base.modAdd m n 1 % (m + 1) = (n + 1) % (m + 1) := by
    intro n m
    unfold Base.modAdd
    split
    · rfl
    · rw [← Nat.mod_eq_sub_mod (by omega)]
  have key : ((if e.cut.1 = e.cut.2 then st.pt.nseg else Base.modSub env.sizeMax st.pt.nseg (e.slashes c.path)) +
      (if e.cut.1 = e.cut.2 then 0 else e.slashes c.path)) % (env.sizeMax + 1) = st.pt.nseg % (env.sizeMax + 1) := by
    split
    · rfl
    · exact sub _ _ _ (by omega)
  rw [hok.count, hs]
  unfold SegOp.recorded
  cases ht : e.text with
  | none => simpa using key
  | some s =>
    simp only [reduceCtorEq, if_false, Option.toList_some, List.length_singleton]
    rw [Nat.add_mod, add, ← Nat.add_mod, Nat.add_right_comm, Nat.add_mod, key, ← Nat.add_mod]

/-- C37: if the number of segments was right, it is right afterwards and the loop over the segments visits the new
ones, unless the first segment of a path that does not start with a slash goes. -/
theorem C37_size_partial (hr : Reach env st) (he : Editable env st e) (h : runSeg e env st = .ret it st') (dbg : Bool) {p : Str}
    (hp : encoded_path (st.obj dbg) = .ok p) (hn : st.pt.nseg = (pathSegments p).length) (hk : e.KeepsFirst ∨ ¬ Rootless p) :
    st'.pt.nseg = (e.apply (pathSegments p)).length ∧
    ∀ fuel, (e.apply (pathSegments p)).length < fuel → Base.segments (st'.obj dbg) fuel = .ok (e.apply (pathSegments p)) := by
  obtain ⟨c, hrep, -, hv, hf, hok⟩ := edited hr he h
  rw [(hrep.reports dbg).path] at hp
  cases hp
  have hg : ¬ e.Glues c.path := not_glues hf hk
  have hs := segments_editText hv hf hg
  have hn' := hok.nseg hn hk
  refine ⟨hn', fun fuel hfu => ?_⟩
  rw [← hs] at hn' hfu ⊢
  refine base_segments (c := { c with path := editText e c.path }) (hok.rep.obj dbg) ?_ hfu
  show st'.pt.nseg = 0 ↔ _
  rw [hn', pathSegments_length_zero]

/-- The object is in order: the stored text ends in a zero byte and has the length `size()` says, and the number of
segments is right. -/
def Tidy (st : St) : Prop :=
  Nul st ∧ st.size = Url.size (st.obj false) ∧ ∀ p, encoded_path (st.obj false) = .ok p → st.pt.nseg = (pathSegments p).length

theorem tidy_iff {c : Components} (h : Rep env st c) : Tidy st ↔ Nul st ∧ st.size = c.render.length ∧ st.pt.nseg = (pathSegments c.path).length := by
  unfold Tidy
  rw [(h.reports false).size, (h.reports false).path]
  simp

/-- C37: the edit returns the iterator that `index` increments of the new `begin()` lead to: the one to the element
after those inserted, or to the element after those erased. -/
theorem C37_position_partial (hr : Reach env st) (he : Editable env st e) (h : runSeg e env st = .ret it st') (dbg : Bool) {p : Str}
    (hp : encoded_path (st.obj dbg) = .ok p) (hn : Tidy st) (hk : e.KeepsFirst ∨ ¬ Rootless p) :
    Seg.nth id_query (st'.obj dbg) e.index = .ok it := by
  obtain ⟨c, hrep, -, hv, hf, hok⟩ := edited hr he h
  rw [(hrep.reports dbg).path] at hp
  cases hp
  rw [tidy_iff hrep] at hn
  have hg : ¬ e.Glues c.path := not_glues hf hk
  have hs := segments_editText hv hf hg
  rw [hok.it hg (.inl hn.1)]
  refine segAt_eq (c := { c with path := editText e c.path }) hok.rep ?_ dbg ?_
  · rw [hok.nseg hn.2.2 hk, ← hs, pathSegments_length_zero]
  · show e.index ≤ (pathSegments (editText e c.path)).length
    rw [hs]
    have := apply_length hf
    unfold SegOp.index
    have := hf.1; have := hf.2
    omega

/-- C37: a `url` constructed from a string is in order. -/
theorem C37_tidy_make {s : Str} (hs : s ≠ []) (h : Base.make s env st = .ret () st') : Tidy st' := by
  by_cases hv : UriReference lib s
  · obtain ⟨c, hv, rfl⟩ := hv
    have hh : Base.set_encoded_url c.render env Base.empty = .ret () st' := h
    rcases base_set_url_of (env := env) Rep.empty hv hs with ⟨-, st1, h1, hok⟩ | ⟨-, st1, h1, -⟩
    · rw [hh] at h1
      cases h1
      exact (tidy_iff hok.rep).2 ⟨hok.nul, hok.size, hok.nseg⟩
    · rw [hh] at h1
      cases h1
  · have hh : Base.set_encoded_url s env Base.empty = .ret () st' := h
    rw [base_set_url_bad s hs hv] at hh
    cases hh

/-- C37: edits keep it in order. -/
theorem C37_tidy_partial (hr : Reach env st) (he : Editable env st e) (h : runSeg e env st = .ret it st') (hn : Tidy st)
    (hk : e.KeepsFirst ∨ ∀ p, encoded_path (st.obj false) = .ok p → ¬ Rootless p) : Tidy st' := by
  obtain ⟨c, hrep, -, hv, hf, hok⟩ := edited hr he h
  have hk : e.KeepsFirst ∨ ¬ Rootless c.path := hk.imp_right fun h => h _ (hrep.reports false).path
  have hg : ¬ e.Glues c.path := not_glues hf hk
  rw [tidy_iff hrep] at hn
  rw [tidy_iff hok.rep]
  refine ⟨hok.nul hn.1, (hok.grow hn.2.1).1, ?_⟩
  show st'.pt.nseg = (pathSegments (editText e c.path)).length
  rw [hok.nseg hn.2.2 hk, segments_editText hv hf hg]

theorem render_path_length (c : Components) (p : Str) :
    (Components.render { c with path := p }).length + c.path.length = c.render.length + p.length := by
  simp only [Components.render, List.length_append]
  omega

/-- C37: what comes of an edit with an acceptable argument of an object in order. It returns if there is memory for
the new text and otherwise throws `bad_alloc` and changes nothing. In a build with assertions there must be a segment
after those edited, or a query. -/
theorem C37_outcome_partial (hr : Reach env st) (he : Editable env st e) {p : Str} (hp : encoded_path (st.obj env.dbg) = .ok p)
    (hn : Tidy st) (hk : e.KeepsFirst ∨ ¬ Rootless p) (hv : e.Valid)
    (hd : env.dbg = true → e.index < (e.apply (pathSegments p)).length ∨ query_part (st.obj env.dbg) ≠ .ok []) {n : Nat}
    (hm : n + p.length = Url.size (st.obj env.dbg) + (e.newPath p).length) :
    (∃ it st', runSeg e env st = .ret it st' ∧ Grow env n st st') ∨
    ¬ Stores env st n ∧ ∃ st', runSeg e env st = .throw .bad_alloc st' ∧ Same st st' := by
  obtain ⟨c, hrep, -⟩ := hr.rep
  have ho := edit_outcome hrep he
  obtain ⟨_, h1, -, hf, -⟩ := he
  rw [(hrep.reports env.dbg).path] at hp h1
  cases hp
  cases h1
  rw [tidy_iff hrep] at hn
  have hfine : Fine env st c e := by
    refine ⟨hn.2.2, hk, fun _ _ => hn.1, fun h => ⟨hn.2.1, (hd h).imp_right fun hq hq' => hq ?_⟩⟩
    rw [(hrep.reports env.dbg).query_part, hq']; rfl
  have hg : ¬ e.Glues c.path := not_glues hf hk
  have hlen := render_path_length c (editText e c.path)
  rw [(hrep.reports env.dbg).size, ← editText_eq hf hg] at hm
  have hm : n = (Components.render { c with path := editText e c.path }).length := by omega
  revert ho
  generalize runSeg e env st = out
  intro ho
  cases ho with
  | fault f _ hno => exact absurd hfine hno
  | invalid hno => exact absurd hv hno
  | full m _ h1 h2 => rw [h2 hn.2.1, ← hm] at h1; exact .inr ⟨h1, _, rfl, rfl⟩
  | ret it st' _ hok => exact .inl ⟨it, st', rfl, hm ▸ (hok.grow hn.2.1).2⟩

/-- C37: an edit throws `invalid_part` exactly if its argument is not a segment. -/
theorem C37_invalid (hr : Reach env st) (he : Editable env st e) :
    (∃ st', runSeg e env st = .throw .invalid_part st') ↔ ¬ e.Valid := by
  obtain ⟨c, hrep, -⟩ := hr.rep
  have ho := edit_outcome hrep he
  revert ho
  generalize runSeg e env st = out
  intro ho
  cases ho with
  | fault _ h | full _ h | ret _ _ h => simp [h]
  | invalid h => simp [h]

/-- C37, C18: an edit that throws changes nothing. -/
theorem C37_throw (hr : Reach env st) (he : Editable env st e) {x : Exc} (h : runSeg e env st = .throw x st') :
    Same st st' ∧ (x = .invalid_part ∨ x = .bad_alloc) := by
  obtain ⟨c, hrep, -⟩ := hr.rep
  have ho := edit_outcome hrep he
  rw [h] at ho
  cases ho with
  | invalid => exact ⟨rfl, .inl rfl⟩
  | full => exact ⟨rfl, .inr rfl⟩

/-! ### edits that go wrong -/

/-- C37 is false: whatever is put in front of a path that does not start with a slash gets merged with its first
segment. -/
theorem C37_front_false (hr : Reach env st) (he : Editable env st e) (h : runSeg e env st = .ret it st') (dbg : Bool) {p : Str}
    (hp : encoded_path (st.obj dbg) = .ok p) (hg : e.Glues p) :
    ∃ s, e.text = some s ∧ encoded_path (st'.obj dbg) = .ok (c!"/" :: (s ++ p)) ∧
      pathSegments (c!"/" :: (s ++ p)) ≠ e.apply (pathSegments p) := by
  obtain ⟨c, hrep, -, hv, hf, hok⟩ := edited hr he h
  rw [(hrep.reports dbg).path] at hp
  cases hp
  obtain ⟨h2, ht, hrl⟩ := hg
  have h1 : e.cut.1 = 0 := by have := hf.1; omega
  obtain ⟨s, hs⟩ := Option.ne_none_iff_exists'.1 ht
  refine ⟨s, hs, ?_, ?_⟩
  · rw [(hok.rep.reports dbg).path, editText, h1, h2, hs]
    simp [pieces_flatten]
  · intro hbad
    have hl := congrArg List.length hbad
    have := apply_length hf
    rw [hs] at this
    simp only [Option.toList_some, List.length_singleton, h1, h2] at this
    obtain ⟨hne, hh⟩ := hrl
    rcases hc : c.path with _ | ⟨a, t⟩
    · exact hne hc
    rw [hc] at hl this hh
    have ha : notSlash a = true := by
      rw [List.head?_cons, ne_eq, Option.some.injEq] at hh
      simp [notSlash, hh]
    have hdrop : (s ++ a :: t).dropWhile notSlash = t.dropWhile notSlash := by
      rw [List.dropWhile_append_of_pos (fun x hx => List.all_eq_true.1 (text_noslash hv hs) x hx), List.dropWhile_cons_of_pos ha]
    rw [← pieces_length, pieces_cons, hdrop, List.length_cons] at hl
    rw [← pieces_length, pieces_cons, List.length_cons] at this
    omega

/-- C37 is false: in a build with assertions no edit at the end of the path returns unless there is a query. -/
theorem C37_end_false (hr : Reach env st) (he : Editable env st e) (hd : env.dbg = true) {p : Str}
    (hp : encoded_path (st.obj env.dbg) = .ok p) (hq : query_part (st.obj env.dbg) = .ok [])
    (hi : e.index = (e.apply (pathSegments p)).length) (hne : e.cut.1 ≠ e.cut.2 ∨ e.text ≠ none) :
    runSeg e env st ≠ .ret it st' := by
  intro h
  obtain ⟨c, hrep, -, hv, hf, hok⟩ := edited hr he h
  rw [(hrep.reports env.dbg).path] at hp
  cases hp
  rw [(hrep.reports env.dbg).query_part] at hq
  rcases (hok.dbg hd).2 with ⟨h1, h2⟩ | h | h
  · rcases hne with h | h
    · exact h h1
    · exact h h2
  · omega
  · cases hc : c.query with
    | none => exact h hc
    | some q => rw [hc] at hq; cases hq

/-- `env0` without assertions -/
def env1 : Env := { env0 with dbg := false }

/-- The `url` constructed from `s`. -/
def made (env : Env) (s : Str) : St :=
  match Base.make s env Base.empty with
  | .ret () st => st
  | _ => Base.empty

/-- The text after an edit, and the number of segments. -/
def editOf (env : Env) (s : Str) (e : SegOp) : Option (Except Flt (Str × Nat)) :=
  match runSeg e env (made env s) with
  | .ret _ st => some ((encoded_url (st.obj false)).map fun t => (t, st.pt.nseg))
  | .throw _ _ => none
  | .fault f => some (.error f)

instance (e : SegOp) (n : Nat) : Decidable (e.Fits n) := inferInstanceAs (Decidable (_ ∧ _))
instance (e : SegOp) (p : Str) : Decidable (e.Glues p) := inferInstanceAs (Decidable (_ ∧ _))

/-- the object of the examples, in both builds -/
theorem made_ok {s : Str} (hs : s ≠ []) (h : Base.make s env Base.empty = .ret () (made env s)) : Reach env (made env s) ∧ Tidy (made env s) :=
  ⟨.call (.set_encoded_url s) .empty (fun _ _ h => h) (.inl h), C37_tidy_make hs h⟩

/-- the path `/%/b` with a segment inserted in front -/
def moved : St :=
  match runSeg (.insert 0 b!"a") env0 (made env0 b!"/%/b?q") with
  | .ret _ st => st
  | _ => Base.empty

/-- C14: a segment that starts with a `%` on its own need not stay in front. -/
theorem C14_moved_false : Reach env0 moved ∧ encoded_path (moved.obj true) = .ok b!"/a/%/b" ∧
    b!"%" ∈ pathSegments b!"/a/%/b" ∧ Seg.string b!"%" = .error .ub := by
  have h1 : Reach env0 (made env0 b!"/%/b?q") := (made_ok (by decide) rfl).1
  refine ⟨.edit (.insert 0 b!"a") h1 ⟨b!"/%/b", by decide +kernel⟩ (.inl ⟨_, rfl⟩), ?_⟩
  decide +kernel

example : Reach env0 (made env0 b!"s://h/a/b%20/c?q#f") ∧ Tidy (made env0 b!"s://h/a/b%20/c?q#f") ∧
    Editable env0 (made env0 b!"s://h/a/b%20/c?q#f") (.replace 1 b!"x/y") ∧
    encoded_path ((made env0 b!"s://h/a/b%20/c?q#f").obj true) = .ok b!"/a/b%20/c" ∧
    query_part ((made env0 b!"s://h/a/b%20/c?q#f").obj true) ≠ .ok [] ∧
    (SegOp.replace 1 b!"x/y").newPath b!"/a/b%20/c" = b!"/a/x%2Fy/c" ∧
    ¬ Rootless b!"/a/b%20/c" ∧ ¬ (SegOp.replace 1 b!"x/y").Glues b!"/a/b%20/c" ∧ (SegOp.replace 1 b!"x/y").Valid ∧
    editOf env0 b!"s://h/a/b%20/c?q#f" (.replace 1 b!"x/y") = some (.ok (b!"s://h/a/x%2Fy/c?q#f", 3)) ∧
    editOf env0 b!"s://h/a/b%20/c?q#f" (.insert 0 b!"x") = some (.ok (b!"s://h/x/a/b%20/c?q#f", 4)) ∧
    editOf env0 b!"s://h/a/b%20/c?q#f" (.insert_encoded 3 b!"x") = some (.ok (b!"s://h/a/b%20/c/x?q#f", 4)) ∧
    editOf env0 b!"s://h/a/b%20/c?q#f" (.insert_encoded 3 b!"/") = none ∧
    editOf env0 b!"s://h/a/b%20/c?q#f" (.erase_range 0 3) = some (.ok (b!"s://h?q#f", 0)) ∧
    editOf env1 b!"s://h/a/b%20/c" (.erase 2) = some (.ok (b!"s://h/a/b%20", 2)) ∧
    editOf env1 b!"a/b" (.insert 1 b!"x") = some (.ok (b!"a/x/b", 3)) := by
  have h := made_ok (env := env0) (s := b!"s://h/a/b%20/c?q#f") (by decide) rfl
  refine ⟨h.1, h.2, ⟨b!"/a/b%20/c", ?_, ?_, ?_, ?_⟩, ?_, ?_, ?_, ?_, ?_, trivial, ?_, ?_, ?_, ?_, ?_, ?_, ?_⟩ <;> decide +kernel

/-- C37 is false: the case of `C37_front_false`. -/
theorem C37_front_case_false : Reach env0 (made env0 b!"a/b") ∧ Editable env0 (made env0 b!"a/b") (.insert 0 b!"x") ∧
    encoded_path ((made env0 b!"a/b").obj true) = .ok b!"a/b" ∧ (SegOp.insert 0 b!"x").Glues b!"a/b" ∧
    editOf env0 b!"a/b" (.insert 0 b!"x") = some (.ok (b!"/xa/b", 3)) := by
  have h := made_ok (env := env0) (s := b!"a/b") (by decide) rfl
  refine ⟨h.1, ⟨b!"a/b", ?_, ?_, ?_, ?_⟩, ?_, ?_, ?_⟩ <;> decide +kernel

/-- C37 is false: the cases of `C37_end_false`, erasing the last segment and inserting at the end. -/
theorem C37_end_case_false : Reach env0 (made env0 b!"/a/b") ∧ Editable env0 (made env0 b!"/a/b") (.erase 1) ∧
    Editable env0 (made env0 b!"/a/b") (.insert 2 b!"x") ∧
    encoded_path ((made env0 b!"/a/b").obj true) = .ok b!"/a/b" ∧ query_part ((made env0 b!"/a/b").obj true) = .ok [] ∧
    (SegOp.erase 1).index = ((SegOp.erase 1).apply (pathSegments b!"/a/b")).length ∧
    (SegOp.insert 2 b!"x").index = ((SegOp.insert 2 b!"x").apply (pathSegments b!"/a/b")).length ∧
    editOf env0 b!"/a/b" (.erase 1) = some (.error .assert) ∧ editOf env0 b!"/a/b" (.insert 2 b!"x") = some (.error .assert) := by
  have h := made_ok (env := env0) (s := b!"/a/b") (by decide) rfl
  refine ⟨h.1, ⟨b!"/a/b", ?_, ?_, ?_, ?_⟩, ⟨b!"/a/b", ?_, ?_, ?_, ?_⟩, ?_, ?_, ?_, ?_, ?_, ?_⟩ <;> decide +kernel

/-- C37 is false: erasing the first segment of a path that does not start with a slash leaves a wrong count, or
fails an assertion. -/
theorem C37_rootless_false :
    editOf env1 b!"a/b" (.erase 0) = some (.ok (b!"/b", 2)) ∧ pathSegments b!"/b" = [b!"b"] ∧
    editOf env0 b!"a/b" (.erase 0) = some (.error .assert) := by
  refine ⟨?_, ?_, ?_⟩ <;> decide +kernel

/-- C37 is false: inserting into a default constructed `url` is undefined. -/
theorem C37_empty_false : runSeg (.insert 0 b!"x") env0 Base.empty = .fault .ub ∧ runSeg (.insert 0 b!"x") env1 Base.empty = .fault .ub := by
  constructor <;> rfl

/-- C21 is false: erasing a segment can turn the path into an authority. -/
theorem C21_erase_false : editOf env0 b!"/a//b" (.erase 0) = some (.ok (b!"//b", 2)) ∧
    (∃ v, View.make b!"//b" = .ret v ∧ has_authority (v.obj true) = true ∧ encoded_path (v.obj true) = .ok []) := by
  refine ⟨by decide +kernel, _, rfl, by decide +kernel, by decide +kernel⟩

end Url.Props
