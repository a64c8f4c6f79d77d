import Verif.Proofs.SegEdit
import Verif.Proofs.Percent
import Verif.Model.SegOp

/-!
What the calls that edit a segment do, in every state.
-/

set_option linter.unusedSimpArgs false
attribute [-simp] List.length_flatten

namespace Url
open Spec

variable {env : Env} {st : St}

/-! ### the text -/

/-- the path after an edit, in terms of its pieces -/
def editText (e : SegOp) (p : Str) : Str :=
  ((pieces p).take e.cut.1).flatten ++ (e.text.map (c!"/" :: ·)).getD [] ++ ((pieces p).drop e.cut.2).flatten

theorem rooted_iff {p : Str} : Rooted p ↔ ¬ Rootless p := by
  unfold Rooted Rootless
  cases p with
  | nil => simp
  | cons a t =>
    simp only [List.cons_ne_nil, false_or, ne_eq, not_false_eq_true, true_and, List.head?_cons, Option.some.injEq, Decidable.not_not]
    constructor
    · rintro ⟨w, h⟩; cases h; rfl
    · rintro rfl; exact ⟨t, rfl⟩

theorem absPath_append (a b : List Str) : absPath (a ++ b) = absPath a ++ absPath b := by simp [absPath]

theorem absPath_strip {P : List Str} (h : ∀ x ∈ P, ∃ s, x = c!"/" :: s) : absPath (P.map strip) = P.flatten := by
  induction P with
  | nil => rfl
  | cons x P ih =>
    obtain ⟨s, rfl⟩ := h x (by simp)
    rw [List.map_cons, absPath, List.flatMap_cons, strip_slash, List.flatten_cons]
    congr 1
    exact ih fun x hx => h x (by simp [hx])

theorem tail_slash {p x : Str} {k : Nat} (hk : 0 < k) (h : x ∈ (pieces p).drop k) : ∃ s, x = c!"/" :: s := by
  obtain ⟨s, h, -⟩ := pieces_tail_slash (p := p) (x := x) (by
    obtain ⟨m, rfl⟩ : ∃ m, k = 1 + m := ⟨k - 1, by omega⟩
    rw [← List.drop_drop] at h
    exact List.mem_of_mem_drop h)
  exact ⟨s, h⟩

theorem rooted_slash {p x : Str} (hr : Rooted p) (h : x ∈ pieces p) : ∃ s, x = c!"/" :: s := by
  rcases hr with rfl | ⟨w, rfl⟩
  · simp [pieces] at h
  · rw [pieces_cons] at h
    rcases List.mem_cons.1 h with rfl | h
    · exact ⟨_, rfl⟩
    · exact tail_slash (p := c!"/" :: w) (k := 1) (by omega) (by rw [pieces_cons]; simpa using h)

theorem apply_strip (e : SegOp) (p : Str) : absPath (e.apply (pathSegments p)) =
    absPath (((pieces p).take e.cut.1).map strip) ++ (e.text.map (c!"/" :: ·)).getD [] ++ absPath (((pieces p).drop e.cut.2).map strip) := by
  unfold SegOp.apply
  rw [← pieces_strip, absPath_append, absPath_append, List.map_take, List.map_drop]
  congr 2
  cases e.text <;> simp [absPath]

/-- The path after an edit is the one specified. -/
theorem editText_eq {e : SegOp} {p : Str} (hf : e.Fits (pathSegments p).length) (hg : ¬ e.Glues p) : editText e p = e.newPath p := by
  unfold SegOp.newPath editText
  simp only
  rw [apply_strip]
  by_cases hr : Rooted p
  · rw [if_neg (fun h => rooted_iff.1 hr h.1), absPath_strip fun x hx => rooted_slash hr (List.mem_of_mem_take hx),
      absPath_strip fun x hx => rooted_slash hr (List.mem_of_mem_drop hx)]
  · have hrl : Rootless p := Classical.not_not.1 fun h => hr (rooted_iff.2 h)
    by_cases hk : e.KeepsFirst
    · rw [if_pos ⟨hrl, hk⟩]
      rcases p with _ | ⟨a, t⟩
      · exact absurd (.inl rfl) hr
      have ha : a ≠ c!"/" := fun h => hr (.inr ⟨t, by rw [h]⟩)
      have hstrip : strip (a :: List.takeWhile notSlash t) = a :: List.takeWhile notSlash t := by simp [strip, ha]
      have h0 : ∀ k, (∀ x ∈ (pieces (t.dropWhile notSlash)).take k, ∃ s, x = c!"/" :: s) := fun k x hx =>
        tail_slash (p := a :: t) (k := 1) (by omega) (by rw [pieces_cons]; simpa using List.mem_of_mem_take hx)
      rcases hk with hk | ⟨hk, hn⟩
      · obtain ⟨k, hk'⟩ : ∃ k, e.cut.1 = k + 1 := ⟨e.cut.1 - 1, by omega⟩
        have hj : 0 < e.cut.2 := by have := hf.1; omega
        rw [absPath_strip (P := (pieces (a :: t)).drop e.cut.2) fun x hx => tail_slash hj hx, hk', pieces_cons, List.take_succ_cons, List.map_cons,
          List.flatten_cons, hstrip]
        have : absPath ((a :: List.takeWhile notSlash t) :: ((pieces (t.dropWhile notSlash)).take k).map strip) =
            c!"/" :: ((a :: List.takeWhile notSlash t) ++ ((pieces (t.dropWhile notSlash)).take k).flatten) := by
          rw [← absPath_strip (h0 k)]; simp [absPath]
        rw [this]
        simp
      · have hi : e.cut.1 = 0 := by have := hf.1; omega
        rw [hi, hk, hn, pieces_cons]
        have := absPath_strip (h0 (pieces (t.dropWhile notSlash)).length)
        rw [List.take_length] at this
        simp only [List.take_zero, List.drop_zero, List.flatten_nil, List.flatten_cons, List.map_nil, List.map_cons, hstrip, absPath] at this ⊢
        simp [this]
    · rw [if_neg (fun h => hk h.2)]
      have hi : e.cut.1 = 0 := by
        apply Classical.byContradiction
        intro h
        exact hk (.inl (by omega))
      have hj : 0 < e.cut.2 := by
        apply Classical.byContradiction
        intro h
        have h2 : e.cut.2 = 0 := by omega
        by_cases ht : e.text = none
        · exact hk (.inr ⟨h2, ht⟩)
        · exact hg ⟨h2, ht, hrl⟩
      rw [absPath_strip fun x hx => tail_slash hj hx, hi]
      simp [absPath]

theorem segment_noslash {s : Str} (h : Escaped isUpperHex isPchar s) : s.all notSlash = true := by
  induction h with
  | nil => rfl
  | char hc _ ih =>
    rw [List.all_cons, ih, Bool.and_true]
    revert hc
    exact forall_byte (P := fun c => isPchar c = true → notSlash c = true) (by decide +kernel) _
  | pct ha hb _ ih =>
    have h1 : ∀ c, isUpperHex c = true → notSlash c = true := fun c =>
      forall_byte (P := fun c => isUpperHex c = true → notSlash c = true) (by decide +kernel) c
    simp only [List.all_cons, ih, h1 _ ha, h1 _ hb]
    decide

theorem text_noslash {e : SegOp} (hv : e.Valid) {s : Str} (h : e.text = some s) : s.all notSlash = true := by
  cases e <;> simp only [SegOp.text, Option.some.injEq, reduceCtorEq] at h
  all_goals subst h
  · exact segment_noslash (encode_eq setOf_pchar _ ▸ encode_escaped setOf_pchar _)
  · exact segment_noslash hv
  · exact segment_noslash (encode_eq setOf_pchar _ ▸ encode_escaped setOf_pchar _)
  · exact segment_noslash hv

/-- the pieces of the path after an edit -/
theorem pieces_editText {e : SegOp} {p : Str} (hv : e.Valid) (hf : e.Fits (pathSegments p).length) (hg : ¬ e.Glues p) :
    pieces (editText e p) = (pieces p).take e.cut.1 ++ (e.text.map (c!"/" :: ·)).toList ++ (pieces p).drop e.cut.2 := by
  unfold editText
  by_cases hj : 0 < e.cut.2
  · cases ht : e.text with
    | none => simpa using pieces_erase p e.cut.1 hj
    | some s =>
      simp only [Option.map_some, Option.getD_some, Option.toList_some]
      have h1 : Rooted ((c!"/" :: s) ++ ((pieces p).drop e.cut.2).flatten) := .inr ⟨_, rfl⟩
      rw [List.append_assoc, pieces_append _ h1, pieces_append _ (rooted_drop p e.cut.2 hj), pieces_take, pieces_drop,
        pieces_single (text_noslash hv ht)]
      simp
  · have h2 : e.cut.2 = 0 := by omega
    have h1 : e.cut.1 = 0 := by have := hf.1; omega
    rw [h1, h2]
    cases ht : e.text with
    | none => simp [pieces_flatten]
    | some s =>
      have hr : Rooted p := rooted_iff.2 fun h => hg ⟨h2, by rw [ht]; simp, h⟩
      simp only [Option.map_some, Option.getD_some, Option.toList_some, List.take_zero, List.drop_zero, List.flatten_nil, List.nil_append,
        pieces_flatten]
      rw [pieces_append _ hr, pieces_single (text_noslash hv ht)]

theorem segments_editText {e : SegOp} {p : Str} (hv : e.Valid) (hf : e.Fits (pathSegments p).length) (hg : ¬ e.Glues p) :
    pathSegments (editText e p) = e.apply (pathSegments p) := by
  rw [← pieces_strip, pieces_editText hv hf hg, ← pieces_strip]
  unfold SegOp.apply
  cases e.text <;> simp [strip_slash]

/-! ### the calls -/

theorem segAt_eq {c : Components} (h : Rep env st c) (hn : st.pt.nseg = 0 ↔ c.path = []) (dbg : Bool) {k : Nat}
    (hk : k ≤ (pathSegments c.path).length) : Seg.nth id_query (st.obj dbg) k = .ok (posIt (preText c) c.path k) := by
  have ctx := base_ctx (h.obj dbg)
  rw [← pieces_length] at hk
  by_cases hp : c.path = []
  · have hk0 : k = 0 := by rw [hp] at hk; simpa [pieces] using hk
    subst hk0
    have hn' : (st.obj dbg).pt.nseg = 0 := hn.2 hp
    rw [Seg.nth, first_empty hn']
    have := posIt_last (o := st.obj dbg) (A := preText c) (R := c.path) (by rw [(h.obj dbg).rep, (plen_parts c).2.1])
    rw [hp] at this ⊢
    rw [← this]
    rfl
  · exact ctx.nth_pos (fun h => hp (hn.1 h)) hp hk

/-- When nothing is wrong with an edit. -/
structure Fine (env : Env) (st : St) (c : Components) (e : SegOp) : Prop where
  nseg : st.pt.nseg = (pathSegments c.path).length
  root : e.KeepsFirst ∨ ¬ Rootless c.path
  nul : e.cut.1 = e.cut.2 → e.text ≠ none → Nul st
  dbg : env.dbg = true → st.size = c.render.length ∧ (e.index < (e.apply (pathSegments c.path)).length ∨ c.query ≠ none)

/-- the number of slashes an edit takes away: one for each segment, except for the first one of a path that does not
start with a slash -/
def Spec.SegOp.slashes (e : SegOp) (p : Str) : Nat :=
  if 0 < e.cut.1 ∨ ¬ Rootless p then e.cut.2 - e.cut.1 else e.cut.2 - 1

/-- the recorded number of segments after an edit -/
def Spec.SegOp.recorded (m : Nat) (e : SegOp) (p : Str) (n : Nat) : Nat :=
  let n := if e.cut.1 = e.cut.2 then n else Base.modSub m n (e.slashes p)
  if e.text = none then n else Base.modAdd m n 1

/-- the state after an edit -/
structure SegOk (env : Env) (e : SegOp) (st : St) (c : Components) (it : SegIt) (st' : St) : Prop where
  rep : Rep env st' { c with path := editText e c.path }
  off : it.off = (preText c).length + (((pieces c.path).take e.cut.1).flatten ++ (e.text.map (c!"/" :: ·)).getD []).length
  nparam : st'.pt.nparam = st.pt.nparam
  host : st'.pt.host = st.pt.host
  nul : Nul st → Nul st'
  dbg : env.dbg = true → st.size = c.render.length ∧
    (e.cut.1 = e.cut.2 ∧ e.text = none ∨ e.index < (e.apply (pathSegments c.path)).length ∨ c.query ≠ none)
  grow : st.size = c.render.length →
    st'.size = (Components.render { c with path := editText e c.path }).length ∧
      Grow env (Components.render { c with path := editText e c.path }).length st st'
  nseg : st.pt.nseg = (pathSegments c.path).length → e.KeepsFirst ∨ ¬ Rootless c.path →
    st'.pt.nseg = (e.apply (pathSegments c.path)).length
  count : st'.pt.nseg = e.recorded env.sizeMax c.path st.pt.nseg
  it : ¬ e.Glues c.path → Nul st ∨ e.cut.1 ≠ e.cut.2 ∨ e.text = none → it = posIt (preText c) (editText e c.path) e.index

/-- all that can come of an edit -/
inductive SegOutcome (env : Env) (e : SegOp) (st : St) (c : Components) : Out SegIt → Prop
  | fault (f : Flt) : e.Valid → ¬ Fine env st c e → SegOutcome env e st c (.fault f)
  | invalid : ¬ e.Valid → SegOutcome env e st c (.throw .invalid_part st)
  | full (m : Nat) : e.Valid → ¬ Stores env st m →
      (st.size = c.render.length → m = (Components.render { c with path := editText e c.path }).length) →
      SegOutcome env e st c (.throw .bad_alloc { st with tick := st.tick + 1 })
  | ret (it : SegIt) (st' : St) : e.Valid → SegOk env e st c it st' → SegOutcome env e st c (.ret it st')

theorem apply_length {e : SegOp} {l : List Str} (hf : e.Fits l.length) :
    (e.apply l).length + e.cut.2 = l.length + e.cut.1 + e.text.toList.length := by
  obtain ⟨h1, h2⟩ := hf
  unfold SegOp.apply
  simp only [List.length_append, List.length_take, List.length_drop]
  omega

theorem cut_path (p : Str) {i j : Nat} (hij : i ≤ j) : p = ((pieces p).take i).flatten ++ (((pieces p).take j).drop i).flatten ++ ((pieces p).drop j).flatten := by
  have h1 : ((pieces p).take j).take i = (pieces p).take i := by rw [List.take_take, Nat.min_eq_left hij]
  have h2 := flatten_take_drop ((pieces p).take j) i
  rw [h1] at h2
  rw [h2, flatten_take_drop, pieces_flatten]

theorem posIt_off_cut (c : Components) {i j : Nat} (hij : i ≤ j) : (posIt (preText c) c.path j).off =
    (preText c).length + ((pieces c.path).take i).flatten.length + (((pieces c.path).take j).drop i).flatten.length := by
  have h1 : ((pieces c.path).take j).take i = (pieces c.path).take i := by rw [List.take_take, Nat.min_eq_left hij]
  have h2 := congrArg List.length (flatten_take_drop ((pieces c.path).take j) i)
  rw [h1, List.length_append] at h2
  simp only [posIt]
  omega

theorem mid_posIt (c : Components) (e : SegOp) (hv : e.Valid) (hf : e.Fits (pathSegments c.path).length) (hg : ¬ e.Glues c.path) :
    midIt c (((pieces c.path).take e.cut.1).flatten ++ (e.text.map (c!"/" :: ·)).getD []) ((pieces c.path).drop e.cut.2).flatten =
      posIt (preText c) (editText e c.path) e.index := by
  have hle : e.cut.1 ≤ (pieces c.path).length := by rw [pieces_length]; exact Nat.le_trans hf.1 hf.2
  rw [posIt_eq (c := c) (P := (pieces c.path).take e.cut.1 ++ (e.text.map (c!"/" :: ·)).toList) (pieces_editText hv hf hg)]
  · unfold midIt
    rw [pieces_drop]
    congr 1
    cases e.text <;> simp
  · unfold SegOp.index
    cases e.text <;> simp [Nat.min_eq_left hle]

/-- counting the slashes that are taken away -/
theorem cut_count {p : Str} {i j : Nat} (hij : i < j) (hj : j ≤ (pieces p).length) :
    (((pieces p).take j).drop i).flatten.count c!"/" = if 0 < i ∨ ¬ Rootless p then j - i else j - 1 := by
  split
  · rename_i h; exact count_pieces (Nat.le_of_lt hij) hj (h.imp_right rooted_iff.2)
  · rename_i h
    have hi : i = 0 := by
      apply Classical.byContradiction
      intro h0
      exact h (.inl (by omega))
    subst hi
    rw [List.drop_zero]
    exact count_rootless (by omega) hj fun hr => h (.inr (rooted_iff.1 hr))

theorem cut_ne {p : Str} {i j : Nat} (hij : i < j) (hj : j ≤ (pieces p).length) : (((pieces p).take j).drop i).flatten ≠ [] := by
  have : ((pieces p).take j).drop i ≠ [] := by
    rw [← List.length_pos_iff]; simp; omega
  obtain ⟨y, ys, hy⟩ := List.exists_cons_of_ne_nil this
  rw [hy]
  have hm : y ∈ pieces p := by
    have : y ∈ ((pieces p).take j).drop i := by rw [hy]; simp
    exact List.mem_of_mem_take (List.mem_of_mem_drop this)
  have := pieces_ne hm
  simp [this]

theorem rest_ne {p : Str} {j : Nat} : ((pieces p).drop j).flatten ≠ [] ↔ j < (pieces p).length := by
  constructor
  · intro h
    apply Classical.byContradiction
    intro hj
    rw [List.drop_eq_nil_of_le (by omega)] at h
    exact h rfl
  · intro h
    have := cut_ne (p := p) h (Nat.le_refl _)
    rwa [List.take_length] at this

theorem modSub_eq (m : Nat) {x n : Nat} (h : n ≤ x) : Base.modSub m x n = x - n := by
  unfold Base.modSub
  rw [if_pos h]

theorem notKeeps {e : SegOp} (h : ¬ 0 < e.cut.1) (hj : 0 < e.cut.2) : ¬ e.KeepsFirst := by
  rintro (h1 | ⟨h1, -⟩)
  · exact h h1
  · omega

theorem glues_cut {e : SegOp} {p : Str} (h : 0 < e.cut.2) : ¬ e.Glues p := fun hg => by have := hg.1; omega

/-- what `erase` asserts, for an edit in order -/
theorem Fine.erase {c : Components} {e : SegOp} (h : Fine env st c e) (hf : e.Fits (pathSegments c.path).length) (hij : e.cut.1 < e.cut.2)
    (hdbg : env.dbg = true) :
    EraseDbg st c (((pieces c.path).take e.cut.2).drop e.cut.1).flatten ((pieces c.path).drop e.cut.2).flatten := by
  have hj : e.cut.2 ≤ (pieces c.path).length := by rw [pieces_length]; exact hf.2
  have hroot : 0 < e.cut.1 ∨ ¬ Rootless c.path := by
    by_cases h0 : 0 < e.cut.1
    · exact .inl h0
    · exact .inr (h.root.resolve_left (notKeeps h0 (by omega)))
  obtain ⟨h1, h2⟩ := h.dbg hdbg
  have hl := apply_length hf
  have hns := h.nseg
  rw [← pieces_length] at hl hns
  unfold EraseDbg
  rw [cut_count hij hj, if_pos hroot, hns, rest_ne]
  refine ⟨h1, by omega, by omega, h2.imp_left fun h2 => ?_⟩
  unfold SegOp.index at h2
  omega

theorem erase_outcome {c : Components} (h : Rep env st c) {e : SegOp} (hv : e.Valid) (hf : e.Fits (pathSegments c.path).length)
    (hmax : (pathSegments c.path).length ≤ Base.intMax) (ht : e.text = none) :
    SegOutcome env e st c (Base.seg_erase_range (posIt (preText c) c.path e.cut.1) (posIt (preText c) c.path e.cut.2) env st) := by
  have hj : e.cut.2 ≤ (pieces c.path).length := by rw [pieces_length]; exact hf.2
  have hg : ¬ e.Glues c.path := fun hg => hg.2.1 ht
  have hl := apply_length hf
  rw [ht, ← pieces_length] at hl
  by_cases hij : e.cut.1 < e.cut.2
  · have h1 : posIt (preText c) c.path e.cut.1 = ⟨(preText c).length + ((pieces c.path).take e.cut.1).flatten.length, (posIt (preText c) c.path e.cut.1).n⟩ := rfl
    have h2 : posIt (preText c) c.path e.cut.2 = ⟨(preText c).length + ((pieces c.path).take e.cut.1).flatten.length +
        (((pieces c.path).take e.cut.2).drop e.cut.1).flatten.length, (posIt (preText c) c.path e.cut.2).n⟩ := by
      rw [← posIt_off_cut c hf.1]
    have hcnt := cut_count hij hj
    rw [h1, h2]
    rcases erase_total (k := (posIt (preText c) c.path e.cut.1).n) (k' := (posIt (preText c) c.path e.cut.2).n) h (cut_path c.path hf.1)
        (cut_ne hij hj) (by rw [hcnt, ← pieces_length] at *; split <;> omega) with ⟨f, hr, hdbg, hno⟩ | ⟨st', hr, hdbg, hed, hcap, htick⟩
    · rw [hr]
      exact .fault f hv fun hfine => hno (hfine.erase hf hij hdbg)
    · rw [hr]
      have hte : editText e c.path = ((pieces c.path).take e.cut.1).flatten ++ ((pieces c.path).drop e.cut.2).flatten := by
        simp [editText, ht]
      have hlen : (Components.render { c with path := editText e c.path }).length ≤ st.cap := by
        have := hed.tight.size
        rw [hte, ← this]
        obtain ⟨t, hh⟩ := hed.tight.rep
        rcases hh.buf with ⟨h1, -⟩ | ⟨junk, -, -, -, h3⟩
        · have := hed.tight.buf; rw [h1] at this; cases this
        · omega
      refine .ret _ _ hv ⟨hte ▸ hed.tight.rep, ?_, hed.nparam, hed.host, fun _ => hed.tight.nul, fun hd => ⟨(hdbg hd).1, .inr ((hdbg hd).2.2.2.imp_left fun h => ?_)⟩, fun _ => ⟨?_, ?_⟩, ?_, ?_, fun _ _ => ?_⟩
      · simp [midIt, ht]
      · have := rest_ne.1 h
        unfold SegOp.index
        rw [ht]
        simp at hl ⊢
        omega
      · rw [hed.tight.size, hte]
      · exact .inl ⟨hlen, hcap, htick⟩
      · intro hns hroot
        have hroot : 0 < e.cut.1 ∨ ¬ Rootless c.path := by
          by_cases h0 : 0 < e.cut.1
          · exact .inl h0
          · exact .inr (hroot.resolve_left (notKeeps h0 (by omega)))
        rw [← pieces_length] at hns
        rw [hed.nseg, hcnt, if_pos hroot, hns, modSub_eq _ (by omega)]
        simp at hl
        omega
      · rw [hed.nseg, hcnt]
        simp only [SegOp.recorded, SegOp.slashes, ht, if_true, if_neg (Nat.ne_of_lt hij)]
      · rw [← mid_posIt c e hv hf hg, ht]; simp
  · have he : e.cut.1 = e.cut.2 := by have := hf.1; omega
    have hte : editText e c.path = c.path := by
      unfold editText
      rw [ht, he]
      simp [flatten_take_drop, pieces_flatten]
    have hce : { c with path := editText e c.path } = c := by rw [hte]
    have hr : ∀ dbg, PtRep (st.obj dbg).pt (compParts c) := fun dbg => (h.obj dbg).rep
    obtain ⟨e1, e2, e3⟩ := plen_parts c
    have hle := posIt_off_le (A := preText c) (R := c.path) e.cut.2
    have hge : (preText c).length ≤ (posIt (preText c) c.path e.cut.2).off := by simp [posIt]
    have hend : st.pt.off id_end = c.render.length := by
      obtain ⟨t, hh⟩ := h
      rw [hh.off_end, cells_length]
    have hrun : (env.dbg = true ∧ ¬ st.size = c.render.length ∧ ∃ f, Base.seg_erase_range (posIt (preText c) c.path e.cut.2) (posIt (preText c) c.path e.cut.2) env st = .fault f) ∨
        ((env.dbg = true → st.size = c.render.length) ∧ Base.seg_erase_range (posIt (preText c) c.path e.cut.2) (posIt (preText c) c.path e.cut.2) env st =
          .ret (posIt (preText c) c.path e.cut.2) st) := by
      by_cases hs : env.dbg = true → st.size = c.render.length
      · right
        refine ⟨hs, ?_⟩
        unfold Base.seg_erase_range
        rw [run_bind_ret run_stored, run_bind_ret (run_assert_dbg fun hdbg => by simp [Url.size, St.obj, hend, hs hdbg]),
          run_bind_ret (run_assert_dbg fun _ => by rw [hr, e1]; simpa using hge),
          run_bind_ret (run_assert_dbg fun _ => by rw [hr, e1]; simpa using hge),
          run_bind_ret (run_assert_dbg fun _ => by rw [hr, e2]; simpa using hle),
          run_bind_ret (run_assert_dbg fun _ => by rw [hr, e2]; simpa using hle), run_ite, if_neg (by omega)]
        simp only [Nat.sub_self, run_ite, if_true]
        rfl
      · obtain ⟨hdbg, hs⟩ := Classical.not_imp.1 hs
        left
        refine ⟨hdbg, hs, ?_⟩
        unfold Base.seg_erase_range
        rw [run_bind_ret run_stored]
        exact bind_fault (assert_fault hdbg (by simp [Url.size, St.obj, hend]; omega))
    rw [he]
    rcases hrun with ⟨hdbg, hs, f, hrun⟩ | ⟨hs, hrun⟩
    · rw [hrun]
      exact .fault f hv fun hfine => hs (hfine.dbg hdbg).1
    · rw [hrun]
      refine .ret _ _ hv ⟨hce.symm ▸ h, ?_, rfl, rfl, id, fun hd => ⟨hs hd, .inl ⟨he, ht⟩⟩, ?_, ?_, ?_, fun _ _ => ?_⟩
      · rw [ht, he]; simp [posIt]
      · intro hsz
        rw [hce]
        refine ⟨hsz, .inl ⟨?_, rfl, rfl⟩⟩
        obtain ⟨t, hh⟩ := h
        have := hh.cap
        rcases hh.buf with ⟨-, h2, h3⟩ | ⟨junk, -, -, -, h3⟩
        · have := congrArg List.length h2
          rw [cells_length] at this
          simp only [List.length_nil] at this; omega
        · omega
      · intro hns _
        rw [hns, ← pieces_length]
        simp at hl; omega
      · simp only [SegOp.recorded, ht, he, if_true]
      · unfold SegOp.index
        rw [hte, ht, he]
        rfl

theorem edit_length (c : Components) {e : SegOp} {s : Str} (hf : e.cut.1 ≤ e.cut.2) (ht : e.text = some s) :
    (Components.render { c with path := editText e c.path }).length + (((pieces c.path).take e.cut.2).drop e.cut.1).flatten.length =
      c.render.length + (s.length + 1) := by
  have h1 : c.render = preText c ++ c.path ++ postText c := by rw [← render_eq c c.path]
  have h2 := congrArg List.length (cut_path c.path hf)
  rw [h1, render_eq]
  simp only [editText, ht, Option.map_some, Option.getD_some, List.length_append, List.length_cons] at h2 ⊢
  omega

theorem pieces_length_le (p : Str) : (pieces p).length ≤ p.length := by
  induction p with
  | nil => exact Nat.le_refl _
  | cons c t ih =>
    rw [pieces]
    cases ht : pieces t with
    | nil => simp
    | cons x xs =>
      rw [ht] at ih
      simp only
      split
      · simp at ih ⊢; omega
      · simp at ih ⊢; omega

/-- a text that is stored has a size that an index can count -/
theorem Rep.small {c : Components} (h : Rep env st c) : c.render.length = 0 ∨ c.render.length + 1 ≤ env.sizeMax := by
  obtain ⟨t, hh⟩ := h
  have hl := cells_length c
  have hm := env.max_le
  rcases hh.buf with ⟨-, h2, -⟩ | ⟨junk, -, -, h2, h3⟩
  · rw [h2] at hl; exact .inl hl.symm
  · rcases hh.cap with h4 | h4 <;> omega

theorem path_le_render (c : Components) : c.path.length ≤ c.render.length := by
  have h1 : c.render = preText c ++ c.path ++ postText c := by rw [← render_eq c c.path]
  rw [h1]; simp; omega

theorem put_outcome {c : Components} (h : Rep env st c) {e : SegOp} (hv : e.Valid) (hf : e.Fits (pathSegments c.path).length)
    (he : e.cut.1 = e.cut.2) {s : Str} (ht : e.text = some s) :
    SegOutcome env e st c (Base.seg_put (posIt (preText c) c.path e.cut.1) s.length s env st) := by
  have hl := apply_length hf
  rw [ht, ← pieces_length] at hl
  have hte : editText e c.path = ((pieces c.path).take e.cut.1).flatten ++ (c!"/" :: s) ++ ((pieces c.path).drop e.cut.2).flatten := by
    simp [editText, ht]
  have hlen := edit_length c hf.1 ht
  rw [he, List.drop_eq_nil_of_le (by simp only [List.length_take]; omega)] at hlen
  simp only [List.flatten_nil, List.length_nil, Nat.add_zero] at hlen
  have h1 : posIt (preText c) c.path e.cut.1 = ⟨(preText c).length + ((pieces c.path).take e.cut.1).flatten.length, (posIt (preText c) c.path e.cut.1).n⟩ := rfl
  have hp : c.path = ((pieces c.path).take e.cut.1).flatten ++ ((pieces c.path).drop e.cut.2).flatten := by
    rw [he, flatten_take_drop, pieces_flatten]
  rw [h1]
  rcases insert_total (enc := s) (k := (posIt (preText c) c.path e.cut.1).n) h hp with ⟨f, hr, hno⟩ | ⟨hno, hr⟩ |
      ⟨hs, it, st', hr, hdbg, hoff, hnul, hrep, hbuf, hsize, hns, hnp, hho, hgr⟩
  · rw [hr]
    refine .fault f hv fun hfine => hno ⟨hfine.nul he (by rw [ht]; simp), fun hdbg => ?_⟩
    obtain ⟨g1, g2⟩ := hfine.dbg hdbg
    refine ⟨g1, g2.imp_left fun g2 => rest_ne.2 ?_⟩
    unfold SegOp.index at g2
    rw [ht] at g2
    simp at hl g2
    omega
  · rw [hr]
    exact .full _ hv hno fun _ => hlen.symm
  · rw [hr]
    refine .ret _ _ hv ⟨hte ▸ hrep, ?_, hnp, hho, fun hn => (hnul hn).2, fun hd => ⟨(hdbg hd).1, .inr ((hdbg hd).2.imp_left fun h => ?_)⟩, fun _ => ⟨?_, hlen.symm ▸ hgr⟩, ?_, ?_, fun hg hn => ?_⟩
    · rw [hoff, ht]; rfl
    · have := rest_ne.1 h
      unfold SegOp.index
      rw [ht]
      simp at hl ⊢
      omega
    · rw [hsize, hte]
    · intro hn _
      have hsm := hrep.small
      have h3 := path_le_render c
      have h4 := pieces_length_le c.path
      rw [← hte] at hsm
      rw [hns, hn, ← pieces_length, Base.modAdd, if_pos (by omega)]
      simp at hl
      omega
    · rw [hns]
      simp only [SegOp.recorded, ht, he, if_true, reduceCtorEq, if_false]
    · have hn : Nul st := by
        rcases hn with hn | hn | hn
        · exact hn
        · exact absurd he hn
        · rw [ht] at hn; cases hn
      rw [(hnul hn).1, ← mid_posIt c e hv hf hg, ht]
      rfl

theorem swap_outcome {c : Components} (h : Rep env st c) {e : SegOp} (hv : e.Valid) (hf : e.Fits (pathSegments c.path).length)
    (hmax : (pathSegments c.path).length ≤ Base.intMax)
    (he : e.cut.2 = e.cut.1 + 1) {s : Str} (ht : e.text = some s) {ins : SegIt → M SegIt}
    (hins : ∀ it st, ins it env st = Base.seg_put it s.length s env st) :
    SegOutcome env e st c (Base.seg_swap (posIt (preText c) c.path e.cut.1) s.length ins env st) := by
  have hj : e.cut.2 ≤ (pieces c.path).length := by rw [pieces_length]; exact hf.2
  have hij : e.cut.1 < e.cut.2 := by omega
  have hi : e.cut.1 < (pieces c.path).length := by omega
  have hl := apply_length hf
  rw [ht, ← pieces_length] at hl
  have hte : editText e c.path = ((pieces c.path).take e.cut.1).flatten ++ (c!"/" :: s) ++ ((pieces c.path).drop e.cut.2).flatten := by
    simp [editText, ht]
  have hlen := edit_length c hf.1 ht
  have hcnt := cut_count hij hj
  have hx1 : (posIt (preText c) c.path e.cut.1).n = (((pieces c.path).take e.cut.2).drop e.cut.1).flatten.length := by
    have h1 := posIt_off_succ (A := preText c) hi
    rw [← he, posIt_off_cut c hf.1] at h1
    have h2 : (posIt (preText c) c.path e.cut.1).off = (preText c).length + ((pieces c.path).take e.cut.1).flatten.length := rfl
    omega
  have h1 : posIt (preText c) c.path e.cut.1 = ⟨(preText c).length + ((pieces c.path).take e.cut.1).flatten.length,
      (((pieces c.path).take e.cut.2).drop e.cut.1).flatten.length⟩ := by rw [← hx1]; rfl
  have hnext : ∀ st, Rep env st c → Seg.next id_query (st.obj env.dbg) ⟨(preText c).length + ((pieces c.path).take e.cut.1).flatten.length,
      (((pieces c.path).take e.cut.2).drop e.cut.1).flatten.length⟩ =
      .ok ⟨(preText c).length + ((pieces c.path).take e.cut.1).flatten.length + (((pieces c.path).take e.cut.2).drop e.cut.1).flatten.length,
        ((pieces ((pieces c.path).drop e.cut.2).flatten).head?.getD []).length⟩ := by
    intro st h
    have := (base_ctx (h.obj env.dbg)).next_pos hi
    rw [h1, ← he] at this
    rw [this, ← posIt_off_cut c hf.1, pieces_drop]
    rfl
  rw [h1]
  rcases replace_total (enc := s) h (cut_path c.path hf.1) (cut_ne hij hj) (by rw [hcnt, ← pieces_length] at *; split <;> omega) hnext hins with
    ⟨f, hr, hdbg, hno⟩ | ⟨hlt, hno, hr⟩ | ⟨hs, st', hr, hdbg, hed, hgr⟩
  · rw [hr]
    exact .fault f hv fun hfine => hno (hfine.erase hf hij hdbg)
  · rw [hr]
    exact .full _ hv hno fun hsz => by rw [hsz]; omega
  · rw [hr]
    refine .ret _ _ hv ⟨hte ▸ hed.tight.rep, ?_, hed.nparam, hed.host, fun _ => hed.tight.nul, fun hd => ⟨(hdbg hd).1, .inr ((hdbg hd).2.2.2.imp_left fun h => ?_)⟩, fun hsz => ⟨?_, ?_⟩, ?_, ?_, fun hg _ => ?_⟩
    · rw [ht]; rfl
    · have := rest_ne.1 h
      unfold SegOp.index
      rw [ht]
      simp at hl ⊢
      omega
    · rw [hed.tight.size, hte]
    · split at hgr
      · rw [hsz] at hgr
        have : (Components.render { c with path := editText e c.path }).length = c.render.length + (s.length + 1) -
          (((pieces c.path).take e.cut.2).drop e.cut.1).flatten.length := by omega
        rw [this]; exact hgr
      · rcases hgr with ⟨-, g1, g2⟩ | ⟨g0, -⟩
        · refine .inl ⟨?_, g1, g2⟩
          have : c.render.length ≤ st.cap := by
            obtain ⟨t, hh⟩ := h
            rcases hh.buf with ⟨-, h2, -⟩ | ⟨junk, -, -, -, h3⟩
            · have := congrArg List.length h2
              rw [cells_length] at this
              simp only [List.length_nil] at this; omega
            · omega
          omega
        · omega
    · intro hns hroot
      have hroot : 0 < e.cut.1 ∨ ¬ Rootless c.path := by
        by_cases h0 : 0 < e.cut.1
        · exact .inl h0
        · exact .inr (hroot.resolve_left (notKeeps h0 (by omega)))
      rw [← pieces_length] at hns
      have hsm := h.small
      have h3 := path_le_render c
      have h4 := pieces_length_le c.path
      rw [hed.nseg, hcnt, if_pos hroot, hns, modSub_eq _ (by omega), Base.modAdd, if_pos (by omega)]
      simp at hl
      omega
    · rw [hed.nseg, hcnt]
      simp only [SegOp.recorded, SegOp.slashes, ht, reduceCtorEq, if_false, if_neg (Nat.ne_of_lt hij)]
    · rw [← mid_posIt c e hv hf hg, ht]
      rfl

/-- Every edit whose positions exist has one of the outcomes listed, provided that `begin()` works. -/
theorem seg_correct {c : Components} (h : Rep env st c) (hn : st.pt.nseg = 0 ↔ c.path = []) (e : SegOp)
    (hf : e.Fits (pathSegments c.path).length) (hmax : (pathSegments c.path).length ≤ Base.intMax) :
    SegOutcome env e st c (runSeg e env st) := by
  have hat : ∀ k, k ≤ (pathSegments c.path).length → Base.segAt k env st = .ret (posIt (preText c) c.path k) st :=
    fun k hk => run_ask (segAt_eq h hn env.dbg hk)
  have h1 : e.cut.1 ≤ (pathSegments c.path).length := Nat.le_trans hf.1 hf.2
  have hsz : ∀ s, pchar_pct_set.encoded_size s = (pctEncode isPchar s).length := fun s => by
    rw [encoded_size_eq setOf_pchar, encode_eq setOf_pchar]
  have henc : ∀ s, pchar_pct_set.encode s = pctEncode isPchar s := encode_eq setOf_pchar
  have hchk : ∀ s, pchar_pct_set.check s = true ↔ Escaped isUpperHex isPchar s := check_iff setOf_pchar
  have himpl : ∀ s it st, Base.seg_insert_impl it s (pctEncode isPchar s).length env st =
      Base.seg_put it (pctEncode isPchar s).length (pctEncode isPchar s) env st := by
    intro s it st
    unfold Base.seg_insert_impl
    rw [run_bind_ret (run_assert_dbg fun _ => by simp [hsz]), henc]
  have hiimpl : ∀ s it st, Escaped isUpperHex isPchar s → Base.seg_insert_encoded_impl it s env st = Base.seg_put it s.length s env st := by
    intro s it st hv
    unfold Base.seg_insert_encoded_impl
    rw [run_bind_ret (run_assert_dbg fun _ => by rw [(hchk s).2 hv])]
  cases e with
  | erase i =>
    have := erase_outcome h (e := .erase i) trivial hf hmax rfl
    rw [runSeg, run_bind_ret (hat i h1)]
    unfold Base.seg_erase
    have hi : i < (pieces c.path).length := by rw [pieces_length]; exact hf.2
    rw [run_bind_ret (run_ask ((base_ctx (h.obj env.dbg)).next_pos hi))]
    exact this
  | erase_range i j =>
    rw [runSeg, run_bind_ret (hat i h1), run_bind_ret (hat j hf.2)]
    exact erase_outcome h (e := .erase_range i j) trivial hf hmax rfl
  | insert i s =>
    rw [runSeg, run_bind_ret (hat i h1)]
    unfold Base.seg_insert
    rw [hsz, himpl]
    exact put_outcome h (e := .insert i s) trivial hf rfl rfl
  | insert_encoded i s =>
    rw [runSeg, run_bind_ret (hat i h1)]
    unfold Base.seg_insert_encoded Base.validate
    by_cases hv : Escaped isUpperHex isPchar s
    · rw [run_bind_ret (run_require ((hchk s).2 hv)), hiimpl _ _ _ hv]
      exact put_outcome h (e := .insert_encoded i s) hv hf rfl rfl
    · have : pchar_pct_set.check s = false := by
        rw [← Bool.not_eq_true, hchk]; exact hv
      rw [run_bind_throw (run_require_false this)]
      exact .invalid hv
  | replace i s =>
    rw [runSeg, run_bind_ret (hat i h1)]
    unfold Base.seg_replace
    rw [hsz]
    exact swap_outcome h (e := .replace i s) trivial hf hmax rfl rfl (himpl s)
  | replace_encoded i s =>
    rw [runSeg, run_bind_ret (hat i h1)]
    unfold Base.seg_replace_encoded Base.validate
    by_cases hv : Escaped isUpperHex isPchar s
    · rw [run_bind_ret (run_require ((hchk s).2 hv))]
      exact swap_outcome h (e := .replace_encoded i s) hv hf hmax rfl rfl (fun it st => hiimpl s it st hv)
    · have : pchar_pct_set.check s = false := by
        rw [← Bool.not_eq_true, hchk]; exact hv
      rw [run_bind_throw (run_require_false this)]
      exact .invalid hv

end Url
