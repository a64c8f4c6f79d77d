import Verif.Model.Held
import Verif.Props.Iterators
import Verif.Props.Heap

/-!
What becomes of ranges, iterators and strings of a `const` `url` when the `url` is modified: C56.
-/

set_option linter.unusedSimpArgs false
set_option autoImplicit false
attribute [-simp] List.length_flatten

namespace Url.Props
open Url Spec

variable {env : Env} {st st' : St}

theorem base_moves (ho : Owned st) (hc : st.cap ≤ st'.cap) (hm : Alias.Moves st st') : st'.base = st.base ↔ st'.cap = st.cap := by
  constructor
  · intro hb
    apply Classical.byContradiction
    intro hne
    obtain ⟨h1, h2⟩ := hm.2 (by omega)
    unfold St.base at hb
    obtain ⟨b', hb'⟩ := Option.isSome_iff_exists.1 h2
    rw [hb'] at hb
    cases hbuf : st.buf with
    | none => rw [hbuf] at hb; cases hb
    | some b =>
      rw [hbuf] at hb
      have h3 : st'.addr = st.addr := Option.some.inj hb
      have := ho.2 (by rw [hbuf]; simp)
      omega
  · intro he
    obtain ⟨h1, -, h3⟩ := hm.1 he
    unfold St.base
    rw [h1]
    cases hb : st.buf <;> cases hb' : st'.buf <;> rw [hb, hb'] at h3 <;> first | rfl | cases h3

/-! ### when the buffer stays -/

/-- C56: after a call, whatever it does, the buffer is the same exactly if its capacity is. -/
theorem C56_buffer {op : Op} (hr : Reach env st ∨ Used env st) (h : run op env st = .ret () st' ∨ ∃ e, run op env st = .throw e st') :
    st'.base = st.base ↔ st'.cap = st.cap := by
  have hg := Alias.grows_run op env st st' (h.imp_left fun h => ⟨(), h⟩)
  exact base_moves (owned_reach hr) hg.1 hg.2.2.2.2

/-- C56: the same for edits. -/
theorem C56_buffer_edit {e : SegOp} (hr : Reach env st ∨ Used env st) (h : (∃ it, runSeg e env st = .ret it st') ∨ ∃ x, runSeg e env st = .throw x st') :
    st'.base = st.base ↔ st'.cap = st.cap := by
  have hg := Capacity.grows_seg e env st st' h
  exact base_moves (owned_reach hr) hg.1 hg.2.2.2.2

/-- C56: the buffer stays exactly if the new text fits. -/
theorem C56_fits {op : Op} (hr : Reach env st) (hc : Callable env st op) (h : run op env st = .ret () st') (dbg : Bool) :
    st'.base = st.base ↔ Url.size (st'.obj dbg) ≤ st.cap := by
  rw [C56_buffer (.inl hr) (.inl h)]
  obtain ⟨c, c', hrep, -, -, hok⟩ := returned hr hc h
  have hs : Url.size (st'.obj dbg) = c'.render.length := (hok.rep.reports dbg).size
  rw [hs]
  rcases hok.grow with ⟨h1, h2, -⟩ | ⟨h1, h2, -⟩
  · exact ⟨fun _ => h1, fun _ => h2⟩
  · have := hok.rep.fits
    exact ⟨fun h => by omega, fun h => by omega⟩

/-! ### what is held then -/

/-- C56: as long as the buffer stays, what is held sees what the `url` itself sees. -/
theorem C56_stays (hb : st'.base = st.base) (dbg : Bool) : st.hold.obj st' dbg = st'.obj dbg := by
  unfold Held.obj St.hold St.obj
  rw [if_pos hb.symm]

theorem byte_lost {o : Obj} (hm : o.mem = []) (i : Nat) : o.byte i = .error .ub := by
  unfold Obj.byte
  rw [hm]
  rfl

/-- C56: once the buffer was replaced, a range of segments that was obtained before is undefined to loop over. -/
theorem C56_segments_false {op : Op} (hr : Reach env st) (hc : Callable env st op) (h : run op env st = .ret () st') (dbg : Bool)
    (hb : st.cap < Url.size (st'.obj dbg)) (hp : encoded_path (st'.obj dbg) ≠ .ok []) (hn : st'.pt.nseg ≠ 0) (fuel : Nat) :
    View.segments (st.hold.obj st' dbg) fuel = .error .ub := by
  have hne : ¬ st'.base = st.base := by rw [C56_fits hr hc h dbg]; omega
  obtain ⟨c, c', hrep, -, -, hok⟩ := returned hr hc h
  have hm : (st.hold.obj st' dbg).mem = [] := by
    unfold Held.obj St.hold
    exact if_neg (fun h => hne h.symm)
  rw [(hok.rep.reports dbg).path] at hp
  have hp : c'.path ≠ [] := fun h => hp (by rw [h])
  have o1 : st'.pt.off id_path = (preText c').length := path_off (hok.rep.obj dbg)
  have o2 : (preText c').length + c'.path.length ≤ st'.pt.off id_frag := (base_ctx (hok.rep.obj dbg)).frag
  have hlt := List.length_pos_iff.2 hp
  unfold View.segments Seg.walk Seg.first
  rw [if_neg (show (st.hold.obj st' dbg).pt.nseg ≠ 0 from hn)]
  unfold Seg.parse
  rw [assert_not (show (st.hold.obj st' dbg).pt.off id_path ≠ (st.hold.obj st' dbg).pt.off id_frag by
    show st'.pt.off id_path ≠ st'.pt.off id_frag; omega), byte_lost hm]
  rfl

/-- C56: the same for parameters. -/
theorem C56_params_false {op : Op} (hr : Reach env st) (hc : Callable env st op) (h : run op env st = .ret () st') (dbg : Bool)
    (hb : st.cap < Url.size (st'.obj dbg)) (hn : st'.pt.nparam ≠ 0) (fuel : Nat) :
    Params.walk (st.hold.obj st' dbg) fuel = .error .ub := by
  have hne : ¬ st'.base = st.base := by rw [C56_fits hr hc h dbg]; omega
  have hm : (st.hold.obj st' dbg).mem = [] := by
    unfold Held.obj St.hold
    exact if_neg (fun h => hne h.symm)
  unfold Params.walk Params.first
  rw [if_neg (show (st.hold.obj st' dbg).pt.nparam ≠ 0 from hn)]
  unfold Params.parse
  rw [byte_lost hm]
  have h0 : 0 < st'.pt.nparam := Nat.pos_of_ne_zero hn
  have hs : ∀ e p ec, Params.skip e (st.hold.obj st' dbg) (p + 1) ec = .error .ub := by
    intro e p ec
    unfold Params.skip
    rw [hm, if_pos (by simp)]
  cases dbg with
  | true => simp [Obj.assert, Held.obj, bind, Except.bind, h0]
  | false => simp only [Obj.assert, show (st.hold.obj st' false).dbg = false from rfl, hs]; rfl

/-- where the text of a component starts -/
def Field.start (st : St) : Field → Nat
  | .scheme => 0
  | .auth => st.pt.off id_user
  | .path => st.pt.off id_path
  | .query => st.pt.off id_query
  | .fragment => st.pt.off id_frag

theorem read_prefix {o o' : Obj} {A : Str} {r r' : List Cell} (h : o.mem = A.map some ++ r) (h' : o'.mem = A.map some ++ r') {a n : Nat}
    (hn : a + n ≤ A.length) : o'.read a n = o.read a n := by
  have key : ∀ x : Obj, (∃ r, x.mem = A.map some ++ r) → x.read a n = .ok ((A.drop a).take n) := by
    rintro x ⟨r, hx⟩
    have e : A = A.take a ++ ((A.drop a).take n ++ (A.drop a).drop n) := by rw [List.take_append_drop, List.take_append_drop]
    have hl1 : (A.take a).length = a := by simp; omega
    have hl2 : ((A.drop a).take n).length = n := by simp; omega
    have := read_of (o := x) (A := A.take a) (B := (A.drop a).take n) (rest := ((A.drop a).drop n).map some ++ r) (by
      rw [hx, ← List.append_assoc, ← List.append_assoc, ← List.map_append, ← List.map_append, List.append_assoc, ← e])
    rwa [hl1, hl2] at this
  rw [key o ⟨r, h⟩, key o' ⟨r', h'⟩]

/-- the text in front of a component -/
def prior (c : Components) : Field → Str
  | .scheme => []
  | .auth => schemeText c.scheme
  | .path => preText c
  | .query => preText c ++ c.path
  | .fragment => preText c ++ c.path ++ queryText c.query

theorem prior_flatten (c : Components) (f : Field) : ∃ r, (compParts c).flatten = prior c f ++ r := by
  unfold compParts
  cases f <;> simp only [prior, preText, List.cons_append, List.flatten_cons, List.flatten_append, List.flatten_nil, List.append_assoc,
    List.append_cancel_left_eq, List.nil_append, List.append_nil, exists_eq', exists_eq_left']

theorem prior_length {c : Components} (h : Rep env st c) (f : Field) : Field.start st f = (prior c f).length := by
  have hr : ∀ i, st.pt.off i = plen (compParts c) i := (h.obj false).rep
  obtain ⟨h1, h2, h3⟩ := plen_parts c
  cases f <;> simp only [Field.start, prior, hr, h1, h2, h3, List.length_append, List.length_nil]
  simp [plen, compParts, id_user]

theorem prior_same {op : Op} {c c' : Components} {f : Field} (he : op.Effect c c') (hf : op.field = some f) : prior c' f = prior c f := by
  have h1 : f ≠ .scheme → c'.scheme = c.scheme := fun h => effect_other (g := .scheme) he hf (Ne.symm h)
  have h2 : f ≠ .auth → c'.auth = c.auth := fun h => effect_other (g := .auth) he hf (Ne.symm h)
  have h3 : f ≠ .path → c'.path = c.path := fun h => effect_other (g := .path) he hf (Ne.symm h)
  have h4 : f ≠ .query → c'.query = c.query := fun h => effect_other (g := .query) he hf (Ne.symm h)
  cases f <;> simp_all [prior, preText]

/-- C56: as long as the buffer stays, a string that an accessor returned keeps its characters, if it lies in front of the
component that is set. -/
theorem C56_strings {op : Op} {f : Field} (hr : Reach env st) (hc : Callable env st op) (hf : op.field = some f) (h : run op env st = .ret () st')
    (dbg : Bool) (hb : st'.base = st.base) {a n : Nat} (hn : a + n ≤ Field.start st f) :
    (st.hold.obj st' dbg).read a n = (st.obj dbg).read a n := by
  rw [C56_stays hb]
  obtain ⟨c, c', hrep, -, he, hok⟩ := returned hr hc h
  obtain ⟨r, hm⟩ := (hrep.obj dbg).mem
  obtain ⟨r', hm'⟩ := (hok.rep.obj dbg).mem
  obtain ⟨x, hx⟩ := prior_flatten c f
  obtain ⟨x', hx'⟩ := prior_flatten c' f
  rw [hx, List.map_append, List.append_assoc] at hm
  rw [hx', List.map_append, List.append_assoc, prior_same he hf] at hm'
  rw [prior_length hrep] at hn
  exact read_prefix hm hm' hn

/-- C56: once the buffer was replaced, reading a string that was returned before is undefined. -/
theorem C56_strings_false {op : Op} (hr : Reach env st) (hc : Callable env st op) (h : run op env st = .ret () st') (dbg : Bool)
    (hb : st.cap < Url.size (st'.obj dbg)) {a n : Nat} (hn : n ≠ 0) : (st.hold.obj st' dbg).read a n = .error .ub := by
  have hne : ¬ st'.base = st.base := by rw [C56_fits hr hc h dbg]; omega
  have hm : (st.hold.obj st' dbg).mem = [] := by
    unfold Held.obj St.hold
    exact if_neg (fun h => hne h.symm)
  unfold Obj.read
  rw [if_neg hn, hm, if_neg (by simp only [List.length_nil]; omega)]

/-! ### cases -/

/-- the segments of a `const` `url` are kept while a fragment that fits is set -/
example : Reach env0 (made env0 b!"/a/b#cde") ∧ Callable env0 (made env0 b!"/a/b#cde") (.set_fragment b!"f") ∧
    textOf (run (.set_fragment b!"f") env0 (made env0 b!"/a/b#cde")) = some b!"/a/b#f" ∧
    (left (run (.set_fragment b!"f") env0 (made env0 b!"/a/b#cde"))).base = (made env0 b!"/a/b#cde").base ∧
    (made env0 b!"/a/b#cde").base = some 0 ∧ Field.start (made env0 b!"/a/b#cde") .fragment = 4 ∧
    ((made env0 b!"/a/b#cde").hold.obj (left (run (.set_fragment b!"f") env0 (made env0 b!"/a/b#cde"))) true).read 0 4 = .ok b!"/a/b" ∧
    View.segments ((made env0 b!"/a/b#cde").hold.obj (left (run (.set_fragment b!"f") env0 (made env0 b!"/a/b#cde"))) true) 9 = .ok [b!"a", b!"b"] := by
  refine ⟨(made_ok (by decide) rfl).1, fun _ _ h => h, ?_⟩
  decide +kernel

/-- C56 is false: what was obtained from an empty `url` is a null pointer; what was obtained before a longer fragment is
set points to freed memory. -/
theorem C56_case_false : Reach env0 Base.empty ∧ Callable env0 Base.empty (.set_encoded_url b!"/a") ∧
    textOf (run (.set_encoded_url b!"/a") env0 Base.empty) = some b!"/a" ∧ Base.empty.hold = ⟨none⟩ ∧ Base.empty.cap = 0 ∧
    (left (run (.set_encoded_url b!"/a") env0 Base.empty)).pt.nseg = 1 ∧
    View.segments (Base.empty.hold.obj (left (run (.set_encoded_url b!"/a") env0 Base.empty)) true) 9 = .error .ub ∧
    Reach env1 (made env1 b!"/a?k=1") ∧ Callable env1 (made env1 b!"/a?k=1") (.set_fragment b!"f") ∧
    textOf (run (.set_fragment b!"f") env1 (made env1 b!"/a?k=1")) = some b!"/a?k=1#f" ∧ (made env1 b!"/a?k=1").cap = 6 ∧
    (made env1 b!"/a?k=1").hold = ⟨some 0⟩ ∧ (left (run (.set_fragment b!"f") env1 (made env1 b!"/a?k=1"))).base = some 1 ∧
    Params.walk ((made env1 b!"/a?k=1").hold.obj (left (run (.set_fragment b!"f") env1 (made env1 b!"/a?k=1"))) false) 9 = .error .ub ∧
    Params.walk ((left (run (.set_fragment b!"f") env1 (made env1 b!"/a?k=1"))).obj false) 9 = .ok [⟨b!"k", b!"1"⟩] ∧
    ((made env1 b!"/a?k=1").hold.obj (left (run (.set_fragment b!"f") env1 (made env1 b!"/a?k=1"))) false).read 0 2 = .error .ub := by
  refine ⟨.empty, fun _ _ h => h, ?_, ?_, ?_, ?_, ?_, (made_ok (by decide) rfl).1, fun _ _ h => h, ?_⟩ <;> decide +kernel

end Url.Props
