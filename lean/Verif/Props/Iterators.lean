import Verif.Props.SegEdit
import Verif.Props.Algebra
import Verif.Props.Params
import Verif.Props.Alike

/-!
What happens to iterators when their `url` is modified: C55.
-/

set_option linter.unusedSimpArgs false
set_option autoImplicit false
attribute [-simp] List.length_flatten

namespace Url.Props
open Url Spec

variable {env : Env} {st st' : St}

/-- The iterator points to number `k` of the segments `segs` of the `url`: the loop from it to `end()` visits the
segments from there on, and decrementing it leads to the segment before. -/
structure PointsTo (o : Obj) (segs : List Str) (k : Nat) (it : SegIt) : Prop where
  forth : ∀ fuel, segs.length < fuel → Seg.collect id_query o fuel it = .ok (segs.drop k)
  back : 0 < k → ∃ it', Seg.prev id_query o it = .ok it' ∧ Seg.deref o it' = .ok (segs.getD (k - 1) [])

theorem pos_points {o : Obj} {c : Components} (h : ObjRep o (compParts c)) {k : Nat} (hk : k ≤ (pathSegments c.path).length) :
    PointsTo o (pathSegments c.path) k (posIt (preText c) c.path k) := by
  have ctx := base_ctx h
  have hl := pieces_length c.path
  refine ⟨fun fuel hf => ?_, fun h0 => ?_⟩
  · rw [ctx.collect_good (by rw [h.rep, (plen_parts c).2.1]) (by omega) (by omega), ← pieces_strip, List.map_drop]
  · obtain ⟨j, rfl⟩ : ∃ j, k = j + 1 := ⟨k - 1, by omega⟩
    refine ⟨_, ctx.prev_pos (k := j) (by omega), ?_⟩
    rw [ctx.deref_pos (by omega), ← pieces_strip]
    simp [show j < (pieces c.path).length by omega]

/-- the iterator that `k` increments of `begin()` lead to points to number `k` -/
theorem nth_points {c : Components} (h : Rep env st c) (hn : st.pt.nseg = 0 ↔ c.path = []) (dbg : Bool) {k : Nat}
    (hk : k ≤ (pathSegments c.path).length) {it : SegIt} (hi : Seg.nth id_query (st.obj dbg) k = .ok it) :
    it = posIt (preText c) c.path k := by
  rw [segAt_eq h hn dbg hk] at hi
  exact (Except.ok.inj hi).symm

/-- an iterator of the same text at another place is a different one -/
theorem posIt_moved {A A' R : Str} {k : Nat} : posIt A R k = posIt A' R k ↔ A.length = A'.length := by
  constructor
  · intro h
    have := congrArg SegIt.off h
    simp only [posIt] at this
    omega
  · intro h
    simp only [posIt, h]

theorem path_off {o : Obj} {c : Components} (h : ObjRep o (compParts c)) : o.pt.off id_path = (preText c).length := (base_ctx h).path

/-! ### segments

The full claim is that an iterator points to the same segment until that segment is taken away. It is false whenever
the text before the segment changes its length, see `C55_segments` and `C55_behind`. -/

/-- C55: after a call that does not set the path, every iterator to a segment is still the one that `begin()` leads to,
and points to the same segment, exactly if the path is still in the same place. -/
theorem C55_segments {op : Op} {f : Field} (hr : Reach env st) (hc : Callable env st op) (hf : op.field = some f) (hp : f ≠ .path)
    (h : run op env st = .ret () st') (dbg : Bool) {p : Str} (hx : encoded_path (st.obj dbg) = .ok p) (hn : st.pt.nseg = 0 ↔ p = []) {k : Nat}
    (hk : k ≤ (pathSegments p).length) {it : SegIt} (hi : Seg.nth id_query (st.obj dbg) k = .ok it) :
    PointsTo (st.obj dbg) (pathSegments p) k it ∧
    (Seg.nth id_query (st'.obj dbg) k = .ok it ↔ st'.pt.off id_path = st.pt.off id_path) ∧
    (st'.pt.off id_path = st.pt.off id_path → PointsTo (st'.obj dbg) (pathSegments p) k it) := by
  obtain ⟨c, c', hrep, -, he, hok⟩ := returned hr hc h
  rw [(hrep.reports dbg).path] at hx
  cases hx
  obtain rfl := nth_points hrep hn dbg hk hi
  have e3 : c'.path = c.path := effect_other (g := .path) he hf (Ne.symm hp)
  have hn' : st'.pt.nseg = st.pt.nseg := by
    have := hok.counts
    cases op <;> first | (cases hf; done) | exact this.1
  have o1 : st.pt.off id_path = (preText c).length := path_off (hrep.obj dbg)
  have o2 : st'.pt.off id_path = (preText c').length := path_off (hok.rep.obj dbg)
  have hn2 : st'.pt.nseg = 0 ↔ c'.path = [] := by rw [hn', e3]; exact hn
  have hk' : k ≤ (pathSegments c'.path).length := by rw [e3]; exact hk
  refine ⟨pos_points (hrep.obj dbg) hk, ?_, fun hs => ?_⟩
  · rw [segAt_eq hok.rep hn2 dbg hk', e3, Except.ok.injEq, posIt_moved, o1, o2]
  · have := pos_points (hok.rep.obj dbg) hk'
    rw [e3, posIt_moved.2 (show (preText c').length = (preText c).length by rw [← o1, ← o2, hs])] at this
    exact this

/-- C55: calls that set the query or the fragment keep all iterators to segments. -/
theorem C55_later {op : Op} {f : Field} (hr : Reach env st) (hc : Callable env st op) (hf : op.field = some f) (hp : f = .query ∨ f = .fragment)
    (h : run op env st = .ret () st') (dbg : Bool) {p : Str} (hx : encoded_path (st.obj dbg) = .ok p) (hn : st.pt.nseg = 0 ↔ p = []) {k : Nat}
    (hk : k ≤ (pathSegments p).length) {it : SegIt} (hi : Seg.nth id_query (st.obj dbg) k = .ok it) :
    Seg.nth id_query (st'.obj dbg) k = .ok it ∧ PointsTo (st'.obj dbg) (pathSegments p) k it := by
  have hne : f ≠ .path := by rcases hp with rfl | rfl <;> decide
  obtain ⟨-, h1, h2⟩ := C55_segments hr hc hf hne h dbg hx hn hk hi
  have hs : st'.pt.off id_path = st.pt.off id_path := by
    obtain ⟨c, c', hrep, -, he, hok⟩ := returned hr hc h
    have e1 : c'.scheme = c.scheme := effect_other (g := .scheme) he hf (by rcases hp with rfl | rfl <;> decide)
    have e2 : c'.auth = c.auth := effect_other (g := .auth) he hf (by rcases hp with rfl | rfl <;> decide)
    rw [show st.pt.off id_path = _ from path_off (hrep.obj dbg), show st'.pt.off id_path = _ from path_off (hok.rep.obj dbg)]
    unfold preText
    rw [e1, e2]
  exact ⟨h1.2 hs, h2 hs⟩

/-- C55: an edit keeps the iterators to the segments before it. -/
theorem C55_before {e : SegOp} {new : SegIt} (hr : Reach env st) (he : Editable env st e) (h : runSeg e env st = .ret new st') (dbg : Bool) {p : Str}
    (hx : encoded_path (st.obj dbg) = .ok p) {k : Nat} (hk : k < e.cut.1) {it : SegIt} (hi : Seg.nth id_query (st.obj dbg) k = .ok it) :
    PointsTo (st.obj dbg) (pathSegments p) k it ∧ PointsTo (st'.obj dbg) (e.apply (pathSegments p)) k it := by
  obtain ⟨c, hrep, -, hv, hf, hok⟩ := edited hr he h
  have hn : st.pt.nseg = 0 ↔ c.path = [] := by
    obtain ⟨_, h1, h2, -⟩ := he
    rw [(hrep.reports _).path] at h1
    cases h1
    exact h2
  rw [(hrep.reports dbg).path] at hx
  cases hx
  have h1 := hf.1
  have h2 := hf.2
  have hkl : k ≤ (pathSegments c.path).length := by omega
  have hg : ¬ e.Glues c.path := fun hg => by have := hg.1; omega
  obtain rfl := nth_points hrep hn dbg hkl hi
  refine ⟨pos_points (hrep.obj dbg) hkl, ?_⟩
  have hs := segments_editText hv hf hg
  have hpc := pieces_editText hv hf hg
  have hl := pieces_length c.path
  have hpos : posIt (preText c) (editText e c.path) k = posIt (preText c) c.path k := by
    unfold posIt
    rw [hpc, List.append_assoc, List.take_append_of_le_length (by simp; omega), List.take_take, Nat.min_eq_left (by omega)]
    congr 3
    rw [List.head?_drop, List.head?_drop, List.getElem?_append_left (by simp; omega), List.getElem?_take, if_pos hk]
  have := pos_points (hok.rep.obj dbg) (k := k) (by
    show k ≤ (pathSegments (editText e c.path)).length
    rw [hs]
    simp only [SegOp.apply, List.length_append, List.length_take]
    omega)
  change PointsTo (st'.obj dbg) (pathSegments (editText e c.path)) k (posIt (preText c) (editText e c.path) k) at this
  rw [hs, hpos] at this
  exact this

/-- C55: an edit keeps the iterators to the segments behind it, and `end()`, exactly if it does not change the length of the path. -/
theorem C55_behind {e : SegOp} {new : SegIt} (hr : Reach env st) (he : Editable env st e) (h : runSeg e env st = .ret new st') (dbg : Bool) {p p' : Str}
    (hx : encoded_path (st.obj dbg) = .ok p) (hx' : encoded_path (st'.obj dbg) = .ok p') (hg : ¬ e.Glues p) (hn' : st'.pt.nseg = 0 ↔ p' = []) {k : Nat}
    (hk : e.cut.2 ≤ k) (hk2 : k ≤ (pathSegments p).length) {it : SegIt} (hi : Seg.nth id_query (st.obj dbg) k = .ok it) :
    (Seg.nth id_query (st'.obj dbg) (e.index + (k - e.cut.2)) = .ok it ↔ p'.length = p.length) ∧
    (p'.length = p.length → PointsTo (st'.obj dbg) (e.apply (pathSegments p)) (e.index + (k - e.cut.2)) it) := by
  obtain ⟨c, hrep, -, hv, hf, hok⟩ := edited hr he h
  have hn : st.pt.nseg = 0 ↔ c.path = [] := by
    obtain ⟨_, h1, h2, -⟩ := he
    rw [(hrep.reports _).path] at h1
    cases h1
    exact h2
  rw [(hrep.reports dbg).path] at hx
  cases hx
  rw [(hok.rep.reports dbg).path] at hx'
  cases hx'
  obtain rfl := nth_points hrep hn dbg hk2 hi
  have h1 := hf.1
  have hs := segments_editText hv hf hg
  have hpc := pieces_editText hv hf hg
  have hl := pieces_length c.path
  have hl2 : ((pieces c.path).take e.cut.1 ++ (e.text.map (c!"/" :: ·)).toList).length = e.index := by
    unfold SegOp.index
    cases e.text <;> simp <;> omega
  have hd : (pieces (editText e c.path)).drop (e.index + (k - e.cut.2)) = (pieces c.path).drop k := by
    rw [hpc, ← hl2, ← List.drop_drop, List.drop_left, List.drop_drop]
    congr 1
    omega
  have hkn : e.index + (k - e.cut.2) ≤ (pathSegments (editText e c.path)).length := by
    rw [hs]
    have := apply_length hf
    unfold SegOp.index
    omega
  have hlen1 := congrArg List.length (flatten_take_drop (pieces c.path) k)
  have hlen2 := congrArg List.length (flatten_take_drop (pieces (editText e c.path)) (e.index + (k - e.cut.2)))
  rw [pieces_flatten, List.length_append] at hlen1 hlen2
  rw [hd] at hlen2
  have hpos : posIt (preText c) (editText e c.path) (e.index + (k - e.cut.2)) = posIt (preText c) c.path k ↔
      (editText e c.path).length = c.path.length := by
    constructor
    · intro hh
      have := congrArg SegIt.off hh
      simp only [posIt] at this
      omega
    · intro hh
      simp only [posIt, hd, SegIt.mk.injEq, and_true]
      omega
  refine ⟨?_, fun hh => ?_⟩
  · rw [segAt_eq (c := { c with path := editText e c.path }) hok.rep hn' dbg hkn, Except.ok.injEq]
    exact hpos
  · have := pos_points (hok.rep.obj dbg) hkn
    change PointsTo (st'.obj dbg) (pathSegments (editText e c.path)) _ (posIt (preText c) (editText e c.path) _) at this
    rw [hs, hpos.2 hh] at this
    exact this

/-! ### parameters -/

/-- C55: after a call that does not set the query, every iterator to a parameter is still the one that `begin()` leads
to, and points to the same parameter, exactly if the query is still in the same place. The loops over the parameters
before and after the call have to end, see `C38_fragment_false`. -/
theorem C55_params_partial {op : Op} {f : Field} (hr : Reach env st) (hc : Callable env st op) (hf : op.field = some f) (hq : f ≠ .query)
    (h : run op env st = .ret () st') (dbg : Bool) (hn : st.pt.nparam = 0 ↔ query_part (st.obj dbg) = .ok []) {fuel fuel' : Nat} {ps ps' : List Param}
    (hw : Params.walk (st.obj dbg) fuel = .ok ps) (hw' : Params.walk (st'.obj dbg) fuel' = .ok ps') {k : Nat} (hk : k ≤ ps.length)
    {it : ParamIt} (hi : Params.nth (st.obj dbg) k = .ok it) (hne : ps ≠ []) :
    ps' = ps ∧ Params.collect (st.obj dbg) fuel it = .ok (ps.drop k) ∧
    (Params.nth (st'.obj dbg) k = .ok it ↔ st'.pt.off id_query = st.pt.off id_query) ∧
    (st'.pt.off id_query = st.pt.off id_query → Params.collect (st'.obj dbg) fuel' it = .ok (ps.drop k)) := by
  obtain ⟨c, c', hrep, hp, he, hok⟩ := returned hr hc h
  have e3 : c'.query = c.query := effect_other (g := .query) he hf (Ne.symm hq)
  have hn' : st'.pt.nparam = st.pt.nparam := by
    have := hok.counts
    cases op <;> first | (cases hf; done) | exact this.2
  rw [(hrep.reports dbg).query_part, Except.ok.injEq, withPrefix_nil] at hn
  cases hcq : c.query with
  | none =>
    exfalso
    have h0 := hn.2 hcq
    cases fuel with
    | zero =>
      rw [Params.walk, Params.first, if_pos (show (st.obj dbg).pt.nparam = 0 from h0)] at hw
      cases hw
    | succ n =>
      rw [walk_none (show (st.obj dbg).pt.nparam = 0 from h0) (Nat.succ_pos _)] at hw
      cases hw
      exact hne rfl
  | some q =>
    have hn0 : st.pt.nparam ≠ 0 := fun h0 => by rw [hn.1 h0] at hcq; cases hcq
    have ctx := params_ctx (hrep.obj dbg) hcq (hp.query q hcq) hn0
    have ctx' := params_ctx (hok.rep.obj dbg) (e3.trans hcq) (hp.query q hcq) (show st'.pt.nparam ≠ 0 by rw [hn']; exact hn0)
    have hL := libPairs_ne q
    obtain ⟨rfl, hfu, hv⟩ := ctx.walk_inv hL hw
    obtain ⟨rfl, hfu', hv'⟩ := ctx'.walk_inv hL hw'
    rw [List.length_map] at hk
    rw [ctx.nth_pos hL hk fun j _ p hp => hv p (List.mem_of_getElem? hp)] at hi
    cases hi
    have o1 : st.pt.off id_query = (preText c ++ c.path).length := ctx.query
    have o2 : st'.pt.off id_query = (preText c' ++ c'.path).length := ctx'.query
    have hpos : posP (preText c' ++ c'.path) (libPairs q) k = posP (preText c ++ c.path) (libPairs q) k ↔
        (preText c' ++ c'.path).length = (preText c ++ c.path).length := by
      constructor
      · intro hh
        have := congrArg ParamIt.off hh
        simp only [posP, before, List.length_append] at this ⊢
        omega
      · intro hh
        simp only [posP, before, List.length_append, ParamIt.mk.injEq, and_true] at hh ⊢
        omega
    refine ⟨rfl, ?_, ?_, fun hh => ?_⟩
    · rw [ctx.collect_good hv hk (by omega), List.map_drop]
    · rw [ctx'.nth_pos hL hk fun j _ p hp => hv' p (List.mem_of_getElem? hp), Except.ok.injEq, hpos, o1, o2]
    · rw [← hpos.2 (by rw [← o1, ← o2, hh]), ctx'.collect_good hv' hk (by omega), List.map_drop]

/-! ### cases -/

/-- the object after a call or an edit -/
def left {α : Type} (out : Out α) : St :=
  match out with
  | .ret _ st => st
  | _ => Base.empty

example : Reach env0 (made env0 b!"/a/b?q") ∧ Callable env0 (made env0 b!"/a/b?q") (.set_query b!"r=s") ∧
    Op.field (.set_query b!"r=s") = some .query ∧
    textOf (run (.set_query b!"r=s") env0 (made env0 b!"/a/b?q")) = some b!"/a/b?r=s" ∧
    encoded_path ((made env0 b!"/a/b?q").obj true) = .ok b!"/a/b" ∧ (made env0 b!"/a/b?q").pt.nseg = 2 ∧
    Seg.nth id_query ((made env0 b!"/a/b?q").obj true) 1 = .ok ⟨2, 2⟩ ∧
    Seg.collect id_query ((left (run (.set_query b!"r=s") env0 (made env0 b!"/a/b?q"))).obj true) 9 ⟨2, 2⟩ = .ok [b!"b"] := by
  refine ⟨(made_ok (by decide) rfl).1, fun _ _ h => h, rfl, ?_⟩
  decide +kernel

/-- replacing a segment by one of the same length -/
example : Reach env0 (made env0 b!"/a/b/c?q") ∧ Editable env0 (made env0 b!"/a/b/c?q") (.replace 1 b!"x") ∧
    editEnd (runSeg (.replace 1 b!"x") env0 (made env0 b!"/a/b/c?q")) = some (.inl b!"/a/x/c?q") ∧
    ¬ (SegOp.replace 1 b!"x").Glues b!"/a/b/c" ∧
    Seg.nth id_query ((made env0 b!"/a/b/c?q").obj true) 0 = .ok ⟨0, 2⟩ ∧ Seg.nth id_query ((made env0 b!"/a/b/c?q").obj true) 2 = .ok ⟨4, 2⟩ ∧
    (left (runSeg (.replace 1 b!"x") env0 (made env0 b!"/a/b/c?q"))).pt.nseg = 3 ∧
    Seg.collect id_query ((left (runSeg (.replace 1 b!"x") env0 (made env0 b!"/a/b/c?q"))).obj true) 9 ⟨0, 2⟩ = .ok [b!"a", b!"x", b!"c"] ∧
    Seg.collect id_query ((left (runSeg (.replace 1 b!"x") env0 (made env0 b!"/a/b/c?q"))).obj true) 9 ⟨4, 2⟩ = .ok [b!"c"] := by
  refine ⟨(made_ok (by decide) rfl).1, ⟨b!"/a/b/c", ?_, ?_, ?_, ?_⟩, ?_⟩ <;> decide +kernel

example : Reach env0 (made env0 b!"/a?k=1&l=2") ∧ Callable env0 (made env0 b!"/a?k=1&l=2") (.set_fragment b!"f") ∧
    Op.field (.set_fragment b!"f") = some .fragment ∧
    textOf (run (.set_fragment b!"f") env0 (made env0 b!"/a?k=1&l=2")) = some b!"/a?k=1&l=2#f" ∧
    (made env0 b!"/a?k=1&l=2").pt.nparam = 2 ∧
    Params.walk ((made env0 b!"/a?k=1&l=2").obj true) 9 = .ok [⟨b!"k", b!"1"⟩, ⟨b!"l", b!"2"⟩] ∧
    Params.walk ((left (run (.set_fragment b!"f") env0 (made env0 b!"/a?k=1&l=2"))).obj true) 9 = .ok [⟨b!"k", b!"1"⟩, ⟨b!"l", b!"2"⟩] ∧
    Params.nth ((made env0 b!"/a?k=1&l=2").obj true) 1 = .ok ⟨6, 2, 2⟩ ∧
    Params.collect ((left (run (.set_fragment b!"f") env0 (made env0 b!"/a?k=1&l=2"))).obj true) 9 ⟨6, 2, 2⟩ = .ok [⟨b!"l", b!"2"⟩] := by
  refine ⟨(made_ok (by decide) rfl).1, fun _ _ h => h, rfl, ?_⟩
  decide +kernel

/-- C55 is false: after `set_scheme` what was `begin()` points to the scheme. -/
theorem C55_scheme_false : Reach env0 (made env0 b!"/a/b") ∧ Callable env0 (made env0 b!"/a/b") (.set_scheme b!"x") ∧
    textOf (run (.set_scheme b!"x") env0 (made env0 b!"/a/b")) = some b!"x:/a/b" ∧
    Seg.nth id_query ((made env0 b!"/a/b").obj true) 0 = .ok ⟨0, 2⟩ ∧
    Seg.collect id_query ((left (run (.set_scheme b!"x") env0 (made env0 b!"/a/b"))).obj true) 9 ⟨0, 2⟩ = .ok [b!"x:", b!"a", b!"b"] := by
  refine ⟨(made_ok (by decide) rfl).1, fun _ _ h => h, ?_⟩
  decide +kernel

/-- C55 is false: after the first segment is erased or one is put in front, an iterator to a later segment points to the
query or into another segment. -/
theorem C55_behind_false : Reach env0 (made env0 b!"/a/b/c?q") ∧ Editable env0 (made env0 b!"/a/b/c?q") (.erase 0) ∧
    Editable env0 (made env0 b!"/a/b/c?q") (.insert 0 b!"x1") ∧
    Seg.nth id_query ((made env0 b!"/a/b/c?q").obj true) 2 = .ok ⟨4, 2⟩ ∧
    editEnd (runSeg (.erase 0) env0 (made env0 b!"/a/b/c?q")) = some (.inl b!"/b/c?q") ∧
    Seg.deref ((left (runSeg (.erase 0) env0 (made env0 b!"/a/b/c?q"))).obj true) ⟨4, 2⟩ = .ok b!"?q" ∧
    editEnd (runSeg (.insert 0 b!"x1") env0 (made env0 b!"/a/b/c?q")) = some (.inl b!"/x1/a/b/c?q") ∧
    Seg.deref ((left (runSeg (.insert 0 b!"x1") env0 (made env0 b!"/a/b/c?q"))).obj true) ⟨4, 2⟩ = .ok b!"a/" := by
  refine ⟨(made_ok (by decide) rfl).1, ⟨b!"/a/b/c", ?_, ?_, ?_, ?_⟩, ⟨b!"/a/b/c", ?_, ?_, ?_, ?_⟩, ?_⟩ <;> decide +kernel

/-- C55 is false: after the path gets longer what was the first parameter aborts in debug builds and is something else in release builds. -/
theorem C55_params_false : Reach env0 (made env0 b!"/a?k=1&l=2") ∧ Reach env1 (made env1 b!"/a?k=1&l=2") ∧
    (∀ env, Callable env (made env b!"/a?k=1&l=2") (.set_encoded_path b!"/aa")) ∧
    Params.nth ((made env0 b!"/a?k=1&l=2").obj true) 0 = .ok ⟨2, 2, 2⟩ ∧
    textOf (run (.set_encoded_path b!"/aa") env0 (made env0 b!"/a?k=1&l=2")) = some b!"/aa?k=1&l=2" ∧
    Params.deref ((left (run (.set_encoded_path b!"/aa") env0 (made env0 b!"/a?k=1&l=2"))).obj true) ⟨2, 2, 2⟩ = .error .assert ∧
    Params.deref ((left (run (.set_encoded_path b!"/aa") env1 (made env1 b!"/a?k=1&l=2"))).obj false) ⟨2, 2, 2⟩ = .ok ⟨b!"?", b!"="⟩ := by
  refine ⟨(made_ok (by decide) rfl).1, (made_ok (by decide) rfl).1, fun _ _ _ h => h, ?_⟩
  decide +kernel

end Url.Props
