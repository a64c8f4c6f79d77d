import Verif.Props.Release
import Verif.Props.History
import Verif.Proofs.WeakSeg

/-!
Edits of segments through any iterators into the path, after any calls: C57.
-/

set_option linter.unusedSimpArgs false
set_option autoImplicit false

namespace Url.Props
open Url Spec
variable {env : Env} {st st' : St}

/-! ### What an edit is there to do -/

/-- The first iterator given to an edit. -/
def _root_.Url.ItOp.first : ItOp → SegIt
  | .erase p | .erase_range p _ | .insert p _ | .insert_encoded p _ | .replace p _ | .replace_encoded p _ => p

/-- The offsets between which an edit replaces the text: `insert` puts something at an offset, `erase` and `replace`
remove what the iterator is at. -/
def _root_.Url.ItOp.range : ItOp → Nat × Nat
  | .erase p | .replace p _ | .replace_encoded p _ => (p.off, p.off + p.n)
  | .erase_range a b => (a.off, b.off)
  | .insert p _ | .insert_encoded p _ => (p.off, p.off)

/-- What an edit puts there. -/
def _root_.Url.ItOp.text : ItOp → Str
  | .erase _ | .erase_range _ _ => []
  | .insert _ s | .replace _ s => c!"/" :: pctEncode isPchar s
  | .insert_encoded _ s | .replace_encoded _ s => c!"/" :: s

/-- An encoded argument is what it should be. -/
def _root_.Url.ItOp.Valid : ItOp → Prop
  | .insert_encoded _ s | .replace_encoded _ s => Escaped isUpperHex isPchar s
  | _ => True

/-- The iterators of an edit are into the path, wherever they come from; they need not be at a segment. -/
def _root_.Url.ItOp.InPath (st : St) (e : ItOp) : Prop :=
  st.pt.off id_path ≤ e.range.1 ∧ e.range.1 ≤ e.range.2 ∧ e.range.2 ≤ st.pt.off id_query

instance (st : St) (e : ItOp) : Decidable (e.InPath st) := by unfold ItOp.InPath; infer_instance

/-- The part of the path `p` (at the offset `base`) that an edit removes. -/
def _root_.Url.ItOp.removed (base : Nat) (p : Str) (e : ItOp) : Str := (p.take (e.range.2 - base)).drop (e.range.1 - base)

/-- The part of the path behind an edit. -/
def _root_.Url.ItOp.rest (base : Nat) (p : Str) (e : ItOp) : Str := p.drop (e.range.2 - base)

/-- The path after an edit. -/
def _root_.Url.ItOp.path (base : Nat) (p : Str) (e : ItOp) : Str := p.take (e.range.1 - base) ++ e.text ++ e.rest base p

theorem runIt_sim (e : ItOp) : Sim (runIt e) := by
  cases e with
  | erase p => exact sim_erase p
  | erase_range a b => exact sim_erase_range a b
  | insert p s => exact sim_insert_impl p s _
  | insert_encoded p s => exact .bind (.validate _ _) fun _ => sim_insert_encoded_impl p s
  | replace p s => exact sim_swap _ _ fun it => sim_insert_impl it s _
  | replace_encoded p s => exact .bind (.validate _ _) fun _ => sim_swap _ _ fun it => sim_insert_encoded_impl it s

/-- C49 for edits through iterators of any origin. -/
theorem C49_iterators (e : ItOp) : AgreesM (runIt e) := by
  rintro env env' st - rfl
  exact runIt_sim e env st

theorem modSub_zero (m k : Nat) : Base.modSub m k 0 = k := by simp [Base.modSub]

section
variable {A : List (List Cell)} {pa : Str} {q f : List Cell} {t : Cell}

/-- Every edit through iterators into the path. -/
theorem runIt_out (hd : env.dbg = false) (h : Holds env st (A ++ pa.map some :: [q, f]) t) (hA : A.length = 5)
    (hq : Lead c!"?" q) (hf : Lead c!"#" f) (e : ItOp) (hin : e.InPath st) :
    (¬ e.Valid ∧ runIt e env st = .throw .invalid_part st) ∨
    (e.Valid ∧ ItOut env st A (e.path (st.pt.off id_path) pa) (e.rest (st.pt.off id_path) pa) q f
      (if e.text = [] then Base.modSub env.sizeMax st.pt.nseg ((e.removed (st.pt.off id_path) pa).count c!"/")
        else Base.modAdd env.sizeMax (Base.modSub env.sizeMax st.pt.nseg ((e.removed (st.pt.off id_path) pa).count c!"/")) 1)
      e.first (Base.intMax < (e.removed (st.pt.off id_path) pa).count c!"/")
      (e.text = [] ∧ e.removed (st.pt.off id_path) pa = []) (e.text ≠ [] ∧ e.removed (st.pt.off id_path) pa = []) (runIt e env st)) := by
  obtain ⟨o1, o2, -⟩ := h.offs hA
  rw [List.length_map] at o2
  have hsz : ∀ s, pchar_pct_set.encoded_size s = (pctEncode isPchar s).length := fun s => by
    rw [encoded_size_eq setOf_pchar, encode_eq setOf_pchar]
  have henc : ∀ s, pchar_pct_set.encode s = pctEncode isPchar s := encode_eq setOf_pchar
  have hchk : ∀ s, pchar_pct_set.check s = true ↔ Escaped isUpperHex isPchar s := check_iff setOf_pchar
  have himpl : ∀ s it st, Base.seg_insert_impl it s (pctEncode isPchar s).length env st =
      Base.seg_put it (pctEncode isPchar s).length (pctEncode isPchar s) env st := by
    intro s it st
    unfold Base.seg_insert_impl
    rw [assert_bind hd, henc]
  have hiimpl : ∀ s it st, Base.seg_insert_encoded_impl it s env st = Base.seg_put it s.length s env st := by
    intro s it st
    unfold Base.seg_insert_encoded_impl
    rw [assert_bind hd]
  -- the three parts of the path
  obtain ⟨i, j, hi, hj, h1, h2⟩ : ∃ i j, i ≤ j ∧ j ≤ pa.length ∧ e.range = (A.flatten.length + i, A.flatten.length + j) ∧
      pa = pa.take i ++ (pa.take j).drop i ++ pa.drop j := by
    obtain ⟨a, b, c⟩ := hin
    rw [o1] at a
    rw [o2] at c
    refine ⟨e.range.1 - A.flatten.length, e.range.2 - A.flatten.length, by omega, by omega, ?_, ?_⟩
    · ext
      · show _ = A.flatten.length + _; omega
      · show _ = A.flatten.length + _; omega
    · conv => lhs; rw [← List.take_append_drop (e.range.2 - A.flatten.length) pa]
      congr 1
      conv => lhs; rw [← List.take_append_drop (e.range.1 - A.flatten.length) (pa.take _)]
      rw [List.take_take, Nat.min_eq_left (by omega)]
  have hl1 : (pa.take i).length = i := by rw [List.length_take]; omega
  have hl2 : ((pa.take j).drop i).length = j - i := by rw [List.length_drop, List.length_take]; omega
  rw [h2] at h
  have er1 : e.removed (st.pt.off id_path) pa = (pa.take j).drop i := by
    unfold ItOp.removed; rw [o1, h1]; simp
  have er2 : e.rest (st.pt.off id_path) pa = pa.drop j := by
    unfold ItOp.rest; rw [o1, h1]; simp
  have er3 : e.path (st.pt.off id_path) pa = pa.take i ++ e.text ++ pa.drop j := by
    unfold ItOp.path; rw [er2, o1, h1]; simp
  rw [er1, er2, er3]
  generalize pa.take i = u at *
  generalize (pa.take j).drop i = x at *
  generalize pa.drop j = v at *
  subst hl1
  have hput : ∀ (k : Nat) (enc : Str) (it0 : SegIt), x = [] →
      ItOut env st A (u ++ (c!"/" :: enc) ++ v) v q f (Base.modAdd env.sizeMax (Base.modSub env.sizeMax st.pt.nseg (x.count c!"/")) 1) it0
        (Base.intMax < x.count c!"/") (c!"/" :: enc = [] ∧ x = []) (c!"/" :: enc ≠ [] ∧ x = [])
        (Base.seg_put { off := A.flatten.length + u.length, n := k } enc.length enc env st) := by
    intro k enc it0 hx
    subst hx
    have := (put_out (enc := enc) hd (by simpa using h) hA hq hf k it0).1
    simpa [modSub_zero] using this
  have hswap : ∀ (enc : Str) (it0 : SegIt) (ins : SegIt → M SegIt), (∀ it st, ins it env st = Base.seg_put it enc.length enc env st) →
      ItOut env st A (u ++ (c!"/" :: enc) ++ v) v q f (Base.modAdd env.sizeMax (Base.modSub env.sizeMax st.pt.nseg (x.count c!"/")) 1) it0
        (Base.intMax < x.count c!"/") (c!"/" :: enc = [] ∧ x = []) (c!"/" :: enc ≠ [] ∧ x = [])
        (Base.seg_swap { off := A.flatten.length + u.length, n := x.length } enc.length ins env st) := by
    intro enc it0 ins hins
    simpa using swap_out (enc := enc) hd h hA hq hf it0 hins
  cases e with
  | erase p =>
    obtain ⟨off, n⟩ := p
    simp only [ItOp.range, Prod.mk.injEq] at h1
    obtain ⟨rfl, h1⟩ := h1
    obtain rfl : n = x.length := by omega
    exact .inr ⟨trivial, by simpa [ItOp.text, ItOp.first, runIt] using erase_out hd h hA hq hf⟩
  | erase_range a b =>
    obtain ⟨off, k⟩ := a
    obtain ⟨off', k'⟩ := b
    simp only [ItOp.range, Prod.mk.injEq] at h1
    obtain ⟨rfl, h1⟩ := h1
    obtain rfl : off' = A.flatten.length + u.length + x.length := by omega
    exact .inr ⟨trivial, by simpa [ItOp.text, ItOp.first, runIt] using erase_range_out hd h hA hq hf k k'⟩
  | insert p s =>
    obtain ⟨off, n⟩ := p
    simp only [ItOp.range, Prod.mk.injEq] at h1
    obtain ⟨rfl, h1⟩ := h1
    refine .inr ⟨trivial, ?_⟩
    have := hput n (pctEncode isPchar s) ⟨A.flatten.length + u.length, n⟩ (List.length_eq_zero_iff.1 (by omega))
    rw [← himpl, ← hsz] at this
    exact this
  | insert_encoded p s =>
    obtain ⟨off, n⟩ := p
    simp only [ItOp.range, Prod.mk.injEq] at h1
    obtain ⟨rfl, h1⟩ := h1
    rw [runIt]
    unfold Base.seg_insert_encoded Base.validate
    by_cases hv : Escaped isUpperHex isPchar s
    · refine .inr ⟨hv, ?_⟩
      rw [run_bind_ret (run_require ((hchk s).2 hv)), hiimpl]
      exact hput n s _ (List.length_eq_zero_iff.1 (by omega))
    · refine .inl ⟨hv, ?_⟩
      rw [run_bind_throw (run_require_false (by rw [← Bool.not_eq_true, hchk]; exact hv))]
  | replace p s =>
    obtain ⟨off, n⟩ := p
    simp only [ItOp.range, Prod.mk.injEq] at h1
    obtain ⟨rfl, h1⟩ := h1
    obtain rfl : n = x.length := by omega
    refine .inr ⟨trivial, ?_⟩
    have := hswap (pctEncode isPchar s) ⟨A.flatten.length + u.length, x.length⟩ _ (himpl s)
    rw [runIt]
    unfold Base.seg_replace
    rw [hsz]
    exact this
  | replace_encoded p s =>
    obtain ⟨off, n⟩ := p
    simp only [ItOp.range, Prod.mk.injEq] at h1
    obtain ⟨rfl, h1⟩ := h1
    obtain rfl : n = x.length := by omega
    rw [runIt]
    unfold Base.seg_replace_encoded Base.validate
    by_cases hv : Escaped isUpperHex isPchar s
    · refine .inr ⟨hv, ?_⟩
      rw [run_bind_ret (run_require ((hchk s).2 hv))]
      exact hswap s _ _ (hiimpl s)
    · refine .inl ⟨hv, ?_⟩
      rw [run_bind_throw (run_require_false (by rw [← Bool.not_eq_true, hchk]; exact hv))]

end

/-! ### All calls and all edits -/

/-- The states of a `url` object that was modified by calls of its own, whatever they were, and by edits of segments
through iterators that were then into the path, wherever they came from. A call that throws is included. -/
inductive Worked (env : Env) : St → Prop
  | empty : Worked env Base.empty
  | call {st st' : St} (op : Op) : Worked env st → (run op env st = .ret () st' ∨ ∃ e, run op env st = .throw e st') → Worked env st'
  | edit {st st' : St} (e : ItOp) : Worked env st → e.InPath st →
      ((∃ it, runIt e env st = .ret it st') ∨ ∃ x, runIt e env st = .throw x st') → Worked env st'

theorem Used.worked (h : Used env st) : Worked env st := by
  induction h with
  | empty => exact .empty
  | call op _ hrun ih => exact .call op ih hrun

theorem Worked.release (h : Worked env st) : Worked env.release st := by
  induction h with
  | empty => exact .empty
  | @call st st' op _ hrun ih =>
    refine .call op ih ?_
    rcases run_sim op env st with ⟨f, h⟩ | h
    · rw [h] at hrun
      rcases hrun with h | ⟨_, h⟩ <;> cases h
    · rwa [← h]
  | @edit st st' e _ hin hrun ih =>
    refine .edit e ih hin ?_
    rcases runIt_sim e env st with ⟨f, h⟩ | h
    · rw [h] at hrun
      rcases hrun with ⟨_, h⟩ | ⟨_, h⟩ <;> cases h
    · rwa [← h]

theorem _root_.Url.Part8.thrown {S U W H P pa q f : List Cell} {t : Cell} (h : Part8 env st S U W H P pa q f t)
    (h1 : st'.pt = st.pt) (h2 : st'.buf = st.buf) (h3 : st'.size = st.size) (h4 : st'.cap = st.cap) : Part8 env st' S U W H P pa q f t := by
  refine ⟨⟨?_, rfl, ?_, ?_, h.holds.term⟩, h.S, h.W, h.H, h.P, h.pa, h.q, h.f⟩
  · rw [h1]; exact h.holds.rep
  · have := h.holds.buf
    unfold BufHolds at this ⊢
    rwa [h2, h3, h4]
  · have := h.holds.cap
    unfold CapOk at this ⊢
    rwa [h4]

/-- what an edit does to the parts -/
theorem _root_.Url.Part8.edit {S U W H P q f : List Cell} {pa : Str} {t : Cell} (h : Part8 env st S U W H P (pa.map some) q f t)
    (hd : env.dbg = false) {e : ItOp} (hin : e.InPath st) :
    (¬ e.Valid ∧ runIt e env st = .throw .invalid_part st) ∨
    (e.Valid ∧ ItOut env st [S, U, W, H, P] (e.path (st.pt.off id_path) pa) (e.rest (st.pt.off id_path) pa) q f
      (if e.text = [] then Base.modSub env.sizeMax st.pt.nseg ((e.removed (st.pt.off id_path) pa).count c!"/")
        else Base.modAdd env.sizeMax (Base.modSub env.sizeMax st.pt.nseg ((e.removed (st.pt.off id_path) pa).count c!"/")) 1)
      e.first (Base.intMax < (e.removed (st.pt.off id_path) pa).count c!"/")
      (e.text = [] ∧ e.removed (st.pt.off id_path) pa = []) (e.text ≠ [] ∧ e.removed (st.pt.off id_path) pa = []) (runIt e env st)) :=
  runIt_out hd h.holds rfl h.q h.f e hin

theorem Worked.parts (h : Worked env st) (hd : env.dbg = false) :
    ∃ S U W H P q f t, ∃ pa : Str, Part8 env st S U W H P (pa.map some) q f t := by
  induction h with
  | empty =>
    obtain ⟨S, U, W, H, P, pa, q, f, t, h⟩ := Used.empty.parts hd
    obtain ⟨pa, rfl⟩ := init_iff.1 h.pa
    exact ⟨S, U, W, H, P, q, f, t, pa, h⟩
  | @call st st' op _ hrun ih =>
    obtain ⟨S, U, W, H, P, q, f, t, pa, ih⟩ := ih
    rcases hrun with hrun | ⟨e, hrun⟩
    · obtain ⟨S', U', W', H', P', pa', q', f', t', h1, -⟩ := w_next ih hd hrun
      obtain ⟨pa', rfl⟩ := init_iff.1 h1.pa
      exact ⟨_, _, _, _, _, _, _, _, _, h1⟩
    · obtain ⟨h1, h2, h3, h4⟩ := C18_strong hrun
      exact ⟨S, U, W, H, P, q, f, t, pa, ih.thrown h1 h2 h3 h4⟩
  | @edit st st' e _ hin hrun ih =>
    obtain ⟨S, U, W, H, P, q, f, t, pa, ih⟩ := ih
    rcases ih.edit hd hin with ⟨-, h⟩ | ⟨-, h⟩
    · rw [h] at hrun
      rcases hrun with ⟨_, h⟩ | ⟨_, h⟩
      · cases h
      · cases h
        exact ⟨S, U, W, H, P, q, f, t, pa, ih⟩
    · rcases hrun with ⟨it, hrun⟩ | ⟨x, hrun⟩
      · rw [hrun] at h
        obtain ⟨-, -, -, ⟨t', h⟩, -⟩ := h
        exact ⟨S, U, W, H, P, q, f, t', _, h, ih.S, ih.W, ih.H, ih.P, init_iff.2 ⟨_, rfl⟩, ih.q, ih.f⟩
      · rw [hrun] at h
        obtain ⟨-, rfl⟩ := h
        exact ⟨S, U, W, H, P, q, f, t, pa, ih.thrown rfl rfl rfl rfl⟩

/-! ### C57 -/

/-- The length of the segment at the start of a rest of a path, with its slash. -/
def segLen : Str → Nat
  | [] => 0
  | _ :: t => (t.takeWhile (· ≠ c!"/")).length + 1

theorem pieceLen_eq (v : Str) : pieceLen v = segLen v := by
  unfold pieceLen segLen
  cases v with
  | nil => rfl
  | cons c t =>
    rw [pieces_cons]
    have : notSlash = fun x => decide (x ≠ c!"/") := by
      funext x
      by_cases h : x = c!"/" <;> simp [notSlash, h]
    simp [this]

theorem _root_.Url.Part8.path {S U W H P q f : List Cell} {pa : Str} {t : Cell} (h : Part8 env st S U W H P (pa.map some) q f t)
    (dbg : Bool) : encoded_path (st.obj dbg) = .ok pa := (h.holds.get 5 dbg).trans (readCells_some pa)

/-- `x - b + a`, modulo the number of sizes -/
theorem modulo {m k b : Nat} (hb : b ≤ m) (a : Prop) [Decidable a] :
    ((if a then Base.modSub m k b else Base.modAdd m (Base.modSub m k b) 1) + b) % (m + 1) =
      (k + if a then 0 else 1) % (m + 1) := by
  have h1 : (Base.modSub m k b + b) % (m + 1) = k % (m + 1) := by
    unfold Base.modSub
    split
    · rw [Nat.sub_add_cancel (by assumption)]
    · rw [Nat.sub_add_cancel (by omega), Nat.add_mod_right]
  have h2 : ∀ x, (Base.modAdd m x 1) % (m + 1) = (x + 1) % (m + 1) := by
    intro x
    unfold Base.modAdd
    split
    · rfl
    · conv => rhs; rw [show x + 1 = (x + 1 - (m + 1)) + (m + 1) by omega, Nat.add_mod_right]
  split
  · exact h1
  · rw [Nat.add_mod, h2, ← Nat.add_mod, Nat.add_right_comm, Nat.add_mod, h1, ← Nat.add_mod]

/-- the path and the iterator after an edit -/
def pathOf (out : Out SegIt) : Option (Str × SegIt) :=
  match out with
  | .ret it st =>
    match encoded_path (st.obj false) with
    | .ok p => some (p, it)
    | _ => none
  | _ => none

/-- the query with its delimiter after an edit -/
def queryOf (out : Out SegIt) : Option Str :=
  match out with
  | .ret _ st => (query_part (st.obj false)).toOption
  | _ => none

/-- the fault of an edit -/
def itFault (out : Out SegIt) : Option Flt :=
  match out with
  | .fault f => some f
  | _ => none

/-- C57: whatever calls and edits came before, an edit through iterators that are into the path, wherever they come
from, replaces the text between them and nothing else if it returns; the new iterator is behind what was inserted;
the number of segments loses the slashes removed and gains the segment inserted. -/
theorem C57_effect {e : ItOp} {it : SegIt} (hw : Worked env st) (hin : e.InPath st) (h : runIt e env st = .ret it st') :
    ∃ p, encoded_path (st.obj false) = .ok p ∧
      encoded_path (st'.obj false) = .ok (e.path (st.pt.off id_path) p) ∧
      (∀ part : Part, part ≠ .path → part.text (st'.obj false) = part.text (st.obj false)) ∧
      st'.pt.off id_path = st.pt.off id_path ∧
      it.off = e.range.1 + e.text.length ∧
      (e.text = [] ∧ e.range.1 = e.range.2 → it = e.first ∧ st' = st) ∧
      (¬ (e.text = [] ∧ e.range.1 = e.range.2) → it.n = segLen (e.rest (st.pt.off id_path) p)) ∧
      st'.pt.nparam = st.pt.nparam ∧ st'.pt.host = st.pt.host ∧
      (st'.pt.nseg + (e.removed (st.pt.off id_path) p).count c!"/") % (env.sizeMax + 1) =
        (st.pt.nseg + if e.text = [] then 0 else 1) % (env.sizeMax + 1) ∧
      (e.text = [] ∧ e.range.1 = e.range.2 ∨ st'.size = size (st'.obj false)) ∧ (Terminated st → Terminated st') := by
  have h1 : runIt e env.release st = .ret it st' := by
    rcases runIt_sim e env st with ⟨f, h'⟩ | h'
    · rw [h] at h'; cases h'
    · rw [← h', h]
  obtain ⟨S, U, W, H, P, q, f, t, pa, hp⟩ := hw.release.parts rfl
  rcases hp.edit rfl hin with ⟨-, ho⟩ | ⟨hv, ho⟩
  · rw [h1] at ho; cases ho
  rw [h1] at ho
  obtain ⟨g1, g2, g3, ⟨t', g4⟩, g5, g6, g7, g8, g9, -⟩ := ho
  obtain ⟨o1, o2, o3⟩ := hp.holds.offs (A := [S, U, W, H, P]) rfl
  obtain ⟨o1', -, -⟩ := g4.offs rfl
  obtain ⟨i1, i2, i3⟩ := hin
  rw [List.length_map] at o2
  have hidle : e.removed (st.pt.off id_path) pa = [] ↔ e.range.1 = e.range.2 := by
    unfold ItOp.removed
    rw [List.drop_eq_nil_iff, List.length_take]
    omega
  refine ⟨pa, hp.path false, ?_, ?_, o1'.trans o1.symm, ?_, ?_, ?_, g5, g6, ?_, ?_, g9⟩
  · exact (g4.get 5 false).trans (readCells_some _)
  · intro part hpart
    refine Part.text_congr part rfl ?_
    rw [g4.get, hp.holds.get]
    cases part <;> first | rfl | exact absurd rfl hpart
  · unfold ItOp.path ItOp.rest at g1
    simp only [List.length_append, List.length_take, List.length_drop] at g1
    omega
  · rw [← hidle]; exact g3
  · rw [← hidle, ← pieceLen_eq]; exact g2
  · rw [g7]
    refine modulo ?_ _
    have h2 : (e.removed (st.pt.off id_path) pa).count c!"/" ≤ pa.length := by
      refine Nat.le_trans List.count_le_length ?_
      unfold ItOp.removed
      rw [List.length_drop, List.length_take]; omega
    have h3 : pa.length ≤ st.cap := by
      rcases hp.holds.buf with ⟨-, h2, -⟩ | ⟨junk, -, -, h3, h4⟩
      · have := congrArg List.length h2
        simp only [List.flatten_cons, List.length_append, List.length_map, List.length_nil] at this; omega
      · simp only [List.flatten_cons, List.length_append, List.length_map] at h3; omega
    have := hp.holds.cap
    unfold CapOk at this
    have := env.max_le
    show _ ≤ env.sizeMax
    have h5 : env.release.maxSize = env.maxSize := rfl
    omega
  · rw [← hidle]
    exact (Decidable.em _).imp id fun hn => (g8 hn).trans g4.off_end.symm

/-- Erase part of a segment, with an indeterminate byte in the user. -/
example : Worked env1 (afterRelease (staleCalls ++ [.set_encoded_path b!"/abc/d"])) ∧
    ItOp.InPath (afterRelease (staleCalls ++ [.set_encoded_path b!"/abc/d"])) (.erase ⟨6, 3⟩) ∧
    ItOp.path 4 b!"/abc/d" (.erase ⟨6, 3⟩) = b!"/ad" ∧
    ItOp.path 4 b!"/abc/d" (.insert ⟨6, 3⟩ b!"/") = b!"/a/%2Fbc/d" ∧
    pathOf (runIt (.erase ⟨6, 3⟩) env1 (afterRelease (staleCalls ++ [.set_encoded_path b!"/abc/d"]))) = some (b!"/ad", ⟨6, 1⟩) ∧
    pathOf (runIt (.insert ⟨6, 3⟩ b!"/") env1 (afterRelease (staleCalls ++ [.set_encoded_path b!"/abc/d"]))) =
      some (b!"/a/%2Fbc/d", ⟨10, 2⟩) :=
  ⟨(afterRelease_used (by decide +kernel)).worked, by decide +kernel, by decide +kernel, by decide +kernel, by decide +kernel, by decide +kernel⟩

/-- C57: no edit through iterators into the path does anything undefined in a build without assertions, unless it removes
more slashes than an `int` can count, or inserts at the end of a text that ends with the path and is not followed by
a null character. -/
theorem C57_release {e : ItOp} {x : Flt} (hd : env.dbg = false) (hw : Worked env st) (hin : e.InPath st)
    (h : runIt e env st = .fault x) :
    x = .ub ∧ ∃ p, encoded_path (st.obj false) = .ok p ∧
      (2147483647 < (e.removed (st.pt.off id_path) p).count c!"/" ∨
        (e.text ≠ [] ∧ e.range.1 = e.range.2 ∧ e.range.2 = st.pt.off id_query ∧ query_part (st.obj false) = .ok [] ∧
          fragment_part (st.obj false) = .ok [] ∧ ¬ Terminated st)) := by
  obtain ⟨S, U, W, H, P, q, f, t, pa, hp⟩ := hw.parts hd
  rcases hp.edit hd hin with ⟨-, ho⟩ | ⟨hv, ho⟩
  · rw [h] at ho; cases ho
  rw [h] at ho
  obtain ⟨rfl, ho⟩ := ho
  refine ⟨rfl, pa, hp.path false, ?_⟩
  rcases ho with ho | ⟨⟨h1, h2⟩, h3, rfl, rfl, h6⟩
  · exact .inl ho
  obtain ⟨o1, o2, o3⟩ := hp.holds.offs (A := [S, U, W, H, P]) rfl
  rw [List.length_map] at o2
  obtain ⟨i1, i2, i3⟩ := hin
  unfold ItOp.removed at h2
  unfold ItOp.rest at h3
  rw [List.drop_eq_nil_iff, List.length_take] at h2
  rw [List.drop_eq_nil_iff] at h3
  have e6 : (st.obj false).get id_query = .ok [] := hp.holds.get 6 false
  have e7 : (st.obj false).get id_frag = .ok [] := hp.holds.get 7 false
  have ha : ∀ c, (st.obj false).assert c = .ok () := fun c => rfl
  refine .inr ⟨h1, by omega, by omega, ?_, ?_, h6⟩
  · unfold query_part delimited; simp only [e6, bind_ok, ha]; rfl
  · unfold fragment_part delimited; simp only [e7, bind_ok, ha]; rfl

/-- The hypotheses hold in a state that no calls left out of `Reach` are needed for, and in one where they are. -/
example : Worked env1 (afterRelease (staleCalls ++ [.set_encoded_path b!"/a", .set_query b!"x"])) ∧
    ItOp.InPath (afterRelease (staleCalls ++ [.set_encoded_path b!"/a", .set_query b!"x"])) (.insert ⟨6, 0⟩ b!"b") ∧
    pathOf (runIt (.insert ⟨6, 0⟩ b!"b") env1 (afterRelease (staleCalls ++ [.set_encoded_path b!"/a", .set_query b!"x"]))) =
      some (b!"/a/b", ⟨8, 0⟩) :=
  ⟨(afterRelease_used (by decide +kernel)).worked, by decide +kernel, by decide +kernel⟩

/-- C57 is false without the exception: this insertion at the end of the text uses an indeterminate byte. -/
theorem C57_release_false : ItOp.InPath (afterRelease [.set_encoded_path b!"/abcd", .set_encoded_path b!"/a"]) (.insert ⟨2, 0⟩ b!"b") ∧
    itFault (runIt (.insert ⟨2, 0⟩ b!"b") env1 (afterRelease [.set_encoded_path b!"/abcd", .set_encoded_path b!"/a"])) = some .ub := by decide +kernel

/-- The calls of the next theorem: the iterator of the second segment is `⟨5, 3⟩` after the first of them. -/
def leaveCalls : List Op := [.set_encoded_url b!"/abcd/ef?xyz", .set_encoded_path b!"/abc"]

/-- C57 is false for iterators that have left the path, in a build without assertions: an edit through the iterator of a
segment of an earlier, longer path makes part of the path the query. A build with assertions stops there. -/
theorem C57_outside_false :
    (Seg.nth id_query ((afterRelease (leaveCalls.take 1)).obj false) 1 = .ok ⟨5, 3⟩ ∧
      ¬ ItOp.InPath (afterRelease leaveCalls) (.erase ⟨5, 3⟩) ∧
      query_part ((afterRelease leaveCalls).obj false) = .ok b!"?xyz") ∧
    (pathOf (runIt (.erase ⟨5, 3⟩) env1 (afterRelease leaveCalls)) = some (b!"/", ⟨5, 0⟩) ∧
      queryOf (runIt (.erase ⟨5, 3⟩) env1 (afterRelease leaveCalls)) = some b!"abc?" ∧
      itFault (runIt (.erase ⟨5, 3⟩) env0 (afterRelease leaveCalls)) = some .assert) := by decide +kernel

/-- C57: if an edit through iterators into the path throws, the object is as before; it throws `invalid_part` exactly if
an encoded argument is not a segment. -/
theorem C57_throw {e : ItOp} {x : Exc} (hw : Worked env st) (hin : e.InPath st) (h : runIt e env st = .throw x st') :
    st'.pt = st.pt ∧ st'.buf = st.buf ∧ st'.size = st.size ∧ st'.cap = st.cap ∧
      ((x = .invalid_part ∧ ¬ e.Valid) ∨ (x = .bad_alloc ∧ e.Valid)) := by
  have h1 : runIt e env.release st = .throw x st' := by
    rcases runIt_sim e env st with ⟨f, h'⟩ | h'
    · rw [h] at h'; cases h'
    · rw [← h', h]
  obtain ⟨S, U, W, H, P, q, f, t, pa, hp⟩ := hw.release.parts rfl
  rcases hp.edit rfl hin with ⟨hv, ho⟩ | ⟨hv, ho⟩
  · rw [h1] at ho
    cases ho
    exact ⟨rfl, rfl, rfl, rfl, .inl ⟨rfl, hv⟩⟩
  · rw [h1] at ho
    obtain ⟨rfl, rfl⟩ := ho
    exact ⟨rfl, rfl, rfl, rfl, .inr ⟨rfl, hv⟩⟩

/-- the exception of an edit -/
def itThrown (out : Out SegIt) : Option Exc :=
  match out with
  | .throw e _ => some e
  | _ => none

example : Worked env1 (afterRelease (staleCalls ++ [.set_encoded_path b!"/abc/d"])) ∧
    ItOp.InPath (afterRelease (staleCalls ++ [.set_encoded_path b!"/abc/d"])) (.replace_encoded ⟨6, 3⟩ b!"%") ∧
    itThrown (runIt (.replace_encoded ⟨6, 3⟩ b!"%") env1 (afterRelease (staleCalls ++ [.set_encoded_path b!"/abc/d"]))) =
      some .invalid_part :=
  ⟨(afterRelease_used (by decide +kernel)).worked, by decide +kernel, by decide +kernel⟩

/-- C57: calls and edits in any order leave a state in which, in a build without assertions, no call faults. -/
theorem C57_calls (hd : env.dbg = false) (hw : Worked env st) (op : Op) (f : Flt) : run op env st ≠ .fault f := by
  obtain ⟨S, U, W, H, P, q, g, t, pa, h⟩ := hw.parts hd
  have ho := w_run h hd op
  intro he
  rw [he] at ho
  exact ho

/-- C57: then the text of everything but the user can be read. -/
theorem C57_accessors (hw : Worked env st) (f : Flt) :
    scheme (st.obj false) ≠ .error f ∧ Base.has_userinfo (st.obj false) ≠ .error f ∧ password_part (st.obj false) ≠ .error f ∧
    encoded_host (st.obj false) ≠ .error f ∧ encoded_host_and_port (st.obj false) ≠ .error f ∧ port (st.obj false) ≠ .error f ∧
    port_part (st.obj false) ≠ .error f ∧ encoded_path (st.obj false) ≠ .error f ∧ encoded_query (st.obj false) ≠ .error f ∧
    query_part (st.obj false) ≠ .error f ∧ encoded_fragment (st.obj false) ≠ .error f ∧ fragment_part (st.obj false) ≠ .error f := by
  obtain ⟨S, U, W, H, P, q, g, t, pa, h⟩ := hw.release.parts rfl
  exact h.accessors f

/-- C57: and a call that returns keeps what it should keep, as far as `C17_used_partial` says. -/
theorem C57_kept_partial {op : Op} (hw : Worked env st) (h : run op env st = .ret () st') (p : Part) (hp : p ∉ disturbs op) :
    p.text (st'.obj false) = p.text (st.obj false) := by
  obtain ⟨S, U, W, H, P, q, g, t, pa, hw⟩ := hw.release.parts rfl
  exact hw.kept h p hp

/-- The state after an edit. -/
def redone (e : ItOp) (st : St) : St :=
  match runIt e env1 st with
  | .ret _ st' => st'
  | _ => Base.empty

theorem redone_worked {e : ItOp} (hw : Worked env1 st) (hin : e.InPath st) (h : returns (runIt e env1 st) = true) :
    Worked env1 (redone e st) := by
  refine .edit e hw hin (.inl ?_)
  unfold redone
  revert h
  cases runIt e env1 st <;> simp [returns]

/-- An edit that leaves half a segment, and a call after it. -/
example : Worked env1 (redone (.erase ⟨6, 3⟩) (afterRelease (staleCalls ++ [.set_encoded_path b!"/abc/d"]))) ∧
    textOf (run (.set_query b!"q") env1 (redone (.erase ⟨2, 3⟩) (afterRelease [.set_encoded_path b!"/abc/d"]))) = some b!"/ad?q" ∧
    Part.path ∉ disturbs (.set_query b!"q") :=
  ⟨redone_worked (afterRelease_used (by decide +kernel)).worked (by decide +kernel) (by decide +kernel), by decide +kernel, by decide⟩

/-! ### iterators -/

/-- The iterator is into the path, wherever it comes from. -/
def _root_.Url.SegIt.InPath (st : St) (it : SegIt) : Prop := st.pt.off id_path ≤ it.off ∧ it.off + it.n ≤ st.pt.off id_query

instance (st : St) (it : SegIt) : Decidable (it.InPath st) := by unfold SegIt.InPath; infer_instance

section
variable {S U W H P q f : List Cell} {pa : Str} {t : Cell}

/-- the parts of the path around an iterator -/
theorem _root_.Url.Part8.around {it : SegIt} (h : Part8 env st S U W H P (pa.map some) q f t) (hin : it.InPath st) :
    ∃ u x v, pa = u ++ x ++ v ∧ it = ⟨[S, U, W, H, P].flatten.length + u.length, x.length⟩ ∧
      u = pa.take (it.off - st.pt.off id_path) ∧ x = (pa.drop (it.off - st.pt.off id_path)).take it.n ∧
      v = pa.drop (it.off + it.n - st.pt.off id_path) := by
  obtain ⟨o1, o2, -⟩ := h.holds.offs (A := [S, U, W, H, P]) rfl
  rw [List.length_map] at o2
  obtain ⟨i1, i2⟩ := hin
  obtain ⟨off, n⟩ := it
  simp only at i1 i2 ⊢
  refine ⟨_, _, _, ?_, ?_, rfl, rfl, rfl⟩
  · rw [show off + n - st.pt.off id_path = (off - st.pt.off id_path) + n by omega, ← List.drop_drop, List.append_assoc,
      List.take_append_drop, List.take_append_drop]
  · rw [SegIt.mk.injEq, List.length_take, List.length_take, List.length_drop]
    omega

end

/-- C57: incrementing an iterator into the path, wherever it comes from, gives one into the path: the segment that
starts where the iterator ended. -/
theorem C57_next {it : SegIt} (hw : Worked env st) (hin : it.InPath st) :
    ∃ p it', encoded_path (st.obj false) = .ok p ∧ Seg.next id_query (st.obj false) it = .ok it' ∧ it'.InPath st ∧
      it'.off = it.off + it.n ∧ it'.n = segLen (p.drop (it'.off - st.pt.off id_path)) := by
  obtain ⟨S, U, W, H, P, q, g, t, pa, h⟩ := hw.release.parts rfl
  obtain ⟨u, x, v, rfl, e, -, -, hv⟩ := h.around hin
  obtain ⟨o1, o2, -⟩ := h.holds.offs (A := [S, U, W, H, P]) rfl
  have := h.holds.next_at (A := [S, U, W, H, P]) rfl rfl h.q h.f
  rw [← e] at this
  refine ⟨_, _, h.path false, this, ⟨?_, ?_⟩, ?_, ?_⟩
  · show _ ≤ _ + _ + _; omega
  · have := pieceLen_le v
    rw [List.length_map, List.length_append, List.length_append] at o2
    dsimp only; omega
  · rw [e]
  · rw [pieceLen_eq]
    rw [e] at hv
    exact congrArg segLen hv

/-- C57: reading through an iterator into the path gives what it spans, without a slash at its start. -/
theorem C57_deref {it : SegIt} (hw : Worked env st) (hin : it.InPath st) :
    ∃ p, encoded_path (st.obj false) = .ok p ∧
      Seg.deref (st.obj false) it = .ok (match (p.drop (it.off - st.pt.off id_path)).take it.n with
        | c :: s => if c = c!"/" then s else c :: s
        | [] => []) := by
  obtain ⟨S, U, W, H, P, q, g, t, pa, h⟩ := hw.release.parts rfl
  obtain ⟨u, x, v, rfl, e, -, hx, -⟩ := h.around hin
  refine ⟨_, h.path false, ?_⟩
  rw [← hx]
  have hr : (st.obj false).read it.off it.n = .ok x := by
    rw [e]
    cases x with
    | nil => simp [Obj.read]
    | cons c s =>
      obtain ⟨junk, hm⟩ := h.holds.mem (by
        rcases h.holds.buf with ⟨-, h2, -⟩ | ⟨junk, h1, -⟩
        · have := congrArg List.length h2
          simp at this
        · rw [h1]; rfl) false
      have := read_cells (o := st.obj false) (A := [S, U, W, H, P].flatten ++ u.map some) (s := c :: s) (rest := v.map some ++ (q ++ (g ++ t :: junk)))
        (by rw [hm]; simp)
      rw [List.length_append, List.length_map] at this
      exact this
  unfold Seg.deref
  rw [hr]
  cases x <;> rfl

/-- C57: decrementing an iterator into the path that is not at its start gives the closest slash before it, or the start. -/
theorem C57_prev {it : SegIt} (hw : Worked env st) (hin : it.InPath st) (hpos : st.pt.off id_path < it.off) :
    ∃ p it', encoded_path (st.obj false) = .ok p ∧ Seg.prev id_query (st.obj false) it = .ok it' ∧ it'.InPath st ∧ it'.off < it.off ∧
      (it'.off = st.pt.off id_path ∨ p[it'.off - st.pt.off id_path]? = some c!"/") ∧
      (∀ k, it'.off < k → k < it.off → p[k - st.pt.off id_path]? ≠ some c!"/") ∧
      (it'.n = segLen (p.drop (it'.off - st.pt.off id_path)) ∨ it'.off = st.pt.off id_path ∧ it'.off + it'.n = it.off) := by
  obtain ⟨S, U, W, H, P, q, g, t, pa, h⟩ := hw.release.parts rfl
  obtain ⟨o1, o2, -⟩ := h.holds.offs (A := [S, U, W, H, P]) rfl
  rw [List.length_map] at o2
  obtain ⟨i1, i2⟩ := hin
  obtain ⟨junk, hm⟩ := h.holds.mem (by
    rcases h.holds.buf with ⟨-, h2, -⟩ | ⟨junk, h1, -⟩
    · have := congrArg List.length h2
      simp only [List.flatten_cons, List.length_append, List.length_map, List.length_nil] at this
      omega
    · rw [h1]; rfl) false
  obtain ⟨r, h1, h2, h3⟩ := back_cells (o := st.obj false) (P := [S, U, W, H, P].flatten) (s := pa) (rest := q ++ (g ++ t :: junk))
    (by rw [hm]; simp) c!"/" (it.off - st.pt.off id_path - 1) (by omega)
  have hprev : Seg.prev id_query (st.obj false) it = ((r.map fun p => Seg.parse id_query (st.obj false) { it with off := p }).getD
      (.ok { off := st.pt.off id_path, n := it.off - st.pt.off id_path })) := by
    unfold Seg.prev
    rw [← o1] at h1
    have ha : ∀ c, (st.obj false).assert c = .ok () := fun c => rfl
    have ho : (st.obj false).pt.off id_path = st.pt.off id_path := rfl
    simp only [ha, bind, Except.bind, ho, h1]
    rw [if_neg (by omega)]
    cases r <;> rfl
  cases r with
  | none =>
    refine ⟨pa, _, h.path false, hprev, ⟨Nat.le_refl _, ?_⟩, hpos, .inl rfl, ?_, .inr ⟨rfl, ?_⟩⟩
    · dsimp only; omega
    · intro k hk1 hk2
      dsimp only at hk1
      exact h3 rfl _ (by omega) (by omega)
    · dsimp only; omega
  | some m =>
    obtain ⟨a1, a2, a3, a4⟩ := h2 m rfl
    rw [← o1] at a1 a2 a3 a4
    have hlt : m - st.pt.off id_path < pa.length := by omega
    have hh : Holds env.release st ([S, U, W, H, P] ++
        (pa.take (m - st.pt.off id_path) ++ pa.drop (m - st.pt.off id_path)).map some :: [q, g]) t := by
      rw [List.take_append_drop]; exact h.holds
    have hp := hh.parse_at rfl rfl h.q h.f (fun hb => by
        have := congrArg List.length hb.1
        simp at this; omega) it.n
    rw [List.length_take, Nat.min_eq_left (by omega), ← o1, show st.pt.off id_path + (m - st.pt.off id_path) = m by omega] at hp
    refine ⟨pa, _, h.path false, hprev.trans hp, ⟨?_, ?_⟩, ?_, .inr a3, ?_, .inl (pieceLen_eq _)⟩
    · dsimp only; omega
    · have := pieceLen_le (pa.drop (m - st.pt.off id_path))
      rw [List.length_drop] at this
      dsimp only; omega
    · dsimp only; omega
    · intro k hk1 hk2
      dsimp only at hk1
      exact a4 _ (by omega) (by omega)

/-- C57: `begin()` and `end()` give iterators into the path; only `begin()` of an empty path that is not counted as
empty, at the end of a text without a null character, faults. -/
theorem C57_begin (hw : Worked env st) :
    (Seg.last (st.obj false)).InPath st ∧
    ((∃ it, Seg.first id_query (st.obj false) = .ok it ∧ it.InPath st) ∨
      (Seg.first id_query (st.obj false) = .error .ub ∧ st.pt.nseg ≠ 0 ∧ encoded_path (st.obj false) = .ok [] ∧
        query_part (st.obj false) = .ok [] ∧ fragment_part (st.obj false) = .ok [] ∧ ¬ Terminated st)) := by
  obtain ⟨S, U, W, H, P, q, g, t, pa, h⟩ := hw.release.parts rfl
  obtain ⟨o1, o2, -⟩ := h.holds.offs (A := [S, U, W, H, P]) rfl
  rw [List.length_map] at o2
  have hl : (Seg.last (st.obj false)).InPath st := ⟨by show _ ≤ st.pt.off id_query; omega, Nat.le_refl _⟩
  refine ⟨hl, ?_⟩
  unfold Seg.first
  by_cases hn : st.pt.nseg = 0
  · rw [if_pos (by exact hn)]
    exact .inl ⟨_, rfl, hl⟩
  rw [if_neg (by exact hn)]
  by_cases hb : Bare st pa q g t
  · have := h.holds.parse_bare (A := [S, U, W, H, P]) (u := []) (v := pa) rfl hb 0
    obtain ⟨rfl, rfl, rfl, hb⟩ := hb
    have e6 : (st.obj false).get id_query = .ok [] := h.holds.get 6 false
    have e7 : (st.obj false).get id_frag = .ok [] := h.holds.get 7 false
    have ha : ∀ c, (st.obj false).assert c = .ok () := fun c => rfl
    refine .inr ⟨?_, hn, h.path false, ?_, ?_, fun ht => hb (h.holds.nul_iff.1 ht)⟩
    · rw [← this]
      show Seg.parse _ _ ⟨st.pt.off id_path, 0⟩ = _
      rw [o1]; rfl
    · unfold query_part delimited; simp only [e6, bind_ok, ha]; rfl
    · unfold fragment_part delimited; simp only [e7, bind_ok, ha]; rfl
  · have := h.holds.parse_at (A := [S, U, W, H, P]) (u := []) (v := pa) rfl rfl h.q h.f hb 0
    rw [List.length_nil, Nat.add_zero, ← o1] at this
    refine .inl ⟨_, this, Nat.le_refl _, ?_⟩
    have := pieceLen_le pa
    dsimp only; omega


/-- The state after calls from some state on. -/
def later (ops : List Op) (st : St) : St :=
  match runAll ops env1 st with
  | .ret _ st' => st'
  | _ => Base.empty

theorem Worked.all {ops : List Op} (h : Worked env st) (hr : runAll ops env st = .ret () st') : Worked env st' := by
  induction ops generalizing st with
  | nil => cases hr; exact h
  | cons op ops ih =>
    rw [runAll, run_bind] at hr
    split at hr
    · rename_i hm; exact ih (h.call op (.inl hm)) hr
    · cases hr
    · cases hr

theorem later_worked {ops : List Op} (hw : Worked env1 st) (h : returns (runAll ops env1 st) = true) : Worked env1 (later ops st) := by
  refine hw.all (ops := ops) ?_
  unfold later
  revert h
  cases runAll ops env1 st <;> simp [returns]

/-- A state whose path is empty although a segment is counted. -/
def emptied : St :=
  later [.set_encoded_path [], .set_query []] (redone (.insert ⟨0, 0⟩ b!"b") (afterRelease [.set_query b!"xxxx", .set_query b!"x"]))

/-- C57 is false without the exception: `begin()` uses an indeterminate byte. -/
theorem C57_begin_false : Worked env1 emptied ∧ emptied.pt.nseg = 1 ∧ size (emptied.obj false) = 0 ∧
    Seg.first id_query (emptied.obj false) = .error .ub :=
  ⟨later_worked (redone_worked (afterRelease_used (by decide +kernel)).worked (by decide +kernel) (by decide +kernel)) (by decide +kernel),
    by decide +kernel, by decide +kernel, by decide +kernel⟩

/-- Iterators that are not at a segment, in a state where the user cannot be read. -/
example : Worked env1 (afterRelease (staleCalls ++ [.set_encoded_path b!"/abc/d"])) ∧
    SegIt.InPath (afterRelease (staleCalls ++ [.set_encoded_path b!"/abc/d"])) ⟨6, 1⟩ ∧
    Seg.next id_query ((afterRelease (staleCalls ++ [.set_encoded_path b!"/abc/d"])).obj false) ⟨6, 1⟩ = .ok ⟨7, 1⟩ ∧
    Seg.deref ((afterRelease (staleCalls ++ [.set_encoded_path b!"/abc/d"])).obj false) ⟨6, 3⟩ = .ok b!"bc/" ∧
    Seg.prev id_query ((afterRelease (staleCalls ++ [.set_encoded_path b!"/abc/d"])).obj false) ⟨6, 3⟩ = .ok ⟨4, 2⟩ ∧
    Seg.prev id_query ((afterRelease (staleCalls ++ [.set_encoded_path b!"/abc/d"])).obj false) ⟨9, 1⟩ = .ok ⟨8, 2⟩ :=
  ⟨(afterRelease_used (by decide +kernel)).worked, by decide +kernel, by decide +kernel, by decide +kernel, by decide +kernel, by decide +kernel⟩

/-- C57: the iterator that `begin()` and any number of increments lead to, in any build, is into the path. -/
theorem C57_nth {k : Nat} {it : SegIt} {dbg : Bool} (hw : Worked env st) (h0 : Seg.nth id_query (st.obj dbg) k = .ok it) : it.InPath st := by
  have h : Seg.nth id_query (st.obj false) k = .ok it := by
    rcases rsim_nth id_query k (st.obj dbg) with ⟨f, h'⟩ | h'
    · dsimp only at h'; rw [h0] at h'; cases h'
    · exact h'.symm.trans h0
  clear h0 dbg
  induction k generalizing it with
  | zero =>
    obtain ⟨-, ⟨it', h1, h2⟩ | ⟨h1, -⟩⟩ := C57_begin hw
    · rw [Seg.nth, h1] at h
      cases h
      exact h2
    · rw [Seg.nth, h1] at h
      cases h
  | succ k ih =>
    rw [Seg.nth] at h
    cases hn : Seg.nth id_query (st.obj false) k with
    | error e => rw [hn] at h; cases h
    | ok i =>
      obtain ⟨p, it', -, h2, h3, -⟩ := C57_next hw (ih hn)
      rw [hn] at h
      have h : Seg.next id_query (st.obj false) i = .ok it := h
      rw [h2] at h
      cases h
      exact h3

theorem segAt_ret {k : Nat} {it : SegIt} (h : Base.segAt k env st = .ret it st') :
    st' = st ∧ Seg.nth id_query (st.obj env.dbg) k = .ok it := by
  unfold Base.segAt M.ask at h
  dsimp only at h
  cases hn : Seg.nth id_query (st.obj env.dbg) k with
  | error e => rw [hn] at h; cases h
  | ok i => rw [hn] at h; cases h; exact ⟨rfl, rfl⟩

theorem segAt_not_throw {k : Nat} {x : Exc} : Base.segAt k env st ≠ .throw x st' := by
  intro h
  unfold Base.segAt M.ask at h
  dsimp only at h
  cases hn : Seg.nth id_query (st.obj env.dbg) k with
  | error e => rw [hn] at h; cases h
  | ok i => rw [hn] at h; cases h

/-- C57: an edit given by positions, whatever they are, is an edit through iterators into the path, if it does not fault. -/
theorem C57_positions {e : SegOp} {out : Out SegIt} (hw : Worked env st) (h : runSeg e env st = out) (hf : ∀ f, out ≠ .fault f) :
    ∃ e' : ItOp, e'.InPath st ∧ runIt e' env st = out := by
  have one : ∀ {k : Nat} {m : SegIt → M SegIt}, (Base.segAt k >>= m) env st = out →
      ∃ it, it.InPath st ∧ m it env st = out := by
    intro k m h'
    cases hm : Base.segAt k env st with
    | ret it st1 =>
      obtain ⟨rfl, hn⟩ := segAt_ret hm
      rw [run_bind_ret hm] at h'
      exact ⟨it, C57_nth hw hn, h'⟩
    | throw x st1 => exact absurd hm segAt_not_throw
    | fault f =>
      rw [run_bind, hm] at h'
      exact absurd h'.symm (hf f)
  cases e with
  | erase i =>
    obtain ⟨it, h1, h2⟩ := one h
    exact ⟨.erase it, ⟨h1.1, Nat.le_add_right _ _, h1.2⟩, h2⟩
  | erase_range i j =>
    obtain ⟨a, h1, h2⟩ := one h
    obtain ⟨b, h3, h4⟩ := one h2
    refine ⟨.erase_range a b, ⟨h1.1, Nat.le_of_not_lt fun hlt => ?_, Nat.le_trans (Nat.le_add_right _ _) h3.2⟩, h4⟩
    rcases sim_erase_range a b env st with ⟨f, h'⟩ | h'
    · exact hf f (h4.symm.trans h')
    · refine hf .ub (h4.symm.trans (h'.trans ?_))
      have hd : env.release.dbg = false := rfl
      unfold Base.seg_erase_range
      rw [run_bind_ret run_stored, assert_bind hd, assert_bind hd, assert_bind hd, assert_bind hd, assert_bind hd, run_ite, if_pos (by exact hlt)]
      rfl
  | insert i s =>
    obtain ⟨it, h1, h2⟩ := one h
    exact ⟨.insert it s, ⟨h1.1, Nat.le_refl _, Nat.le_trans (Nat.le_add_right _ _) h1.2⟩, h2⟩
  | insert_encoded i s =>
    obtain ⟨it, h1, h2⟩ := one h
    exact ⟨.insert_encoded it s, ⟨h1.1, Nat.le_refl _, Nat.le_trans (Nat.le_add_right _ _) h1.2⟩, h2⟩
  | replace i s =>
    obtain ⟨it, h1, h2⟩ := one h
    exact ⟨.replace it s, ⟨h1.1, Nat.le_add_right _ _, h1.2⟩, h2⟩
  | replace_encoded i s =>
    obtain ⟨it, h1, h2⟩ := one h
    exact ⟨.replace_encoded it s, ⟨h1.1, Nat.le_add_right _ _, h1.2⟩, h2⟩

/-- C57 covers the histories of all other properties. -/
theorem C57_reach (hr : Reach env st) : Worked env st := by
  induction hr with
  | empty => exact .empty
  | call op _ _ hrun ih => exact .call op ih hrun
  | @edit st st' e _ _ hrun ih =>
    obtain ⟨e', h1, h2⟩ := C57_positions ih (e := e) rfl (by rcases hrun with ⟨it, h⟩ | ⟨x, h⟩ <;> rw [h] <;> simp)
    refine .edit e' ih h1 ?_
    rw [h2]
    exact hrun

theorem _root_.Url.Part8.collect {S U W H P q f : List Cell} {u v : Str} {t : Cell} (h : Part8 env.release st S U W H P ((u ++ v).map some) q f t)
    {fuel : Nat} (hfuel : v.length < fuel) :
    Seg.collect id_query (st.obj false) fuel ⟨[S, U, W, H, P].flatten.length + u.length, pieceLen v⟩ = .ok ((pieces v).map strip) := by
  induction fuel generalizing u v with
  | zero => omega
  | succ fuel ih =>
    obtain ⟨o1, o2, -⟩ := h.holds.offs (A := [S, U, W, H, P]) rfl
    rw [List.length_map, List.length_append] at o2
    have ha : ∀ c, (st.obj false).assert c = .ok () := fun c => rfl
    have hq : (st.obj false).pt.off id_query = st.pt.off id_query := rfl
    unfold Seg.collect Seg.eq Seg.last
    simp only [ha, hq, bind, Except.bind, pure, Except.pure, o2]
    cases v with
    | nil => simp [pieces]
    | cons c s =>
      have hne : ([S, U, W, H, P].flatten.length + u.length == [S, U, W, H, P].flatten.length + (u.length + (c :: s).length)) = false := by
        rw [beq_eq_false_iff_ne, List.length_cons]; omega
      rw [hne]
      simp only [Bool.false_eq_true, if_false]
      have hp : pieceLen (c :: s) = (c :: s.takeWhile notSlash).length := by unfold pieceLen; rw [pieces_cons]; rfl
      have hs : c :: s = (c :: s.takeWhile notSlash) ++ s.dropWhile notSlash := by simp [List.takeWhile_append_dropWhile]
      have hd : Seg.deref (st.obj false) ⟨[S, U, W, H, P].flatten.length + u.length, pieceLen (c :: s)⟩ = .ok (strip (c :: s.takeWhile notSlash)) := by
        obtain ⟨junk, hm⟩ := h.holds.mem (by
          rcases h.holds.buf with ⟨-, h2, -⟩ | ⟨junk, h1, -⟩
          · have := congrArg List.length h2
            simp at this
          · rw [h1]; rfl) false
        have := read_cells (o := st.obj false) (A := [S, U, W, H, P].flatten ++ u.map some) (s := c :: s.takeWhile notSlash)
          (rest := (s.dropWhile notSlash).map some ++ (q ++ (f ++ t :: junk))) (by
            rw [hm]
            conv => lhs; rw [hs]
            simp only [List.flatten_cons, List.flatten_nil, List.map_append, List.append_assoc, List.append_nil])
        rw [List.length_append, List.length_map, ← hp] at this
        unfold Seg.deref
        rw [this]
        rfl
      have hh : Part8 env.release st S U W H P ((u ++ (c :: s.takeWhile notSlash) ++ s.dropWhile notSlash).map some) q f t := by
        rw [List.append_assoc, ← hs]; exact h
      have hn := hh.holds.next_at (A := [S, U, W, H, P]) rfl rfl h.q h.f
      rw [← hp] at hn
      have hi := ih hh (by
        have := congrArg List.length hs
        rw [List.length_append, List.length_cons, List.length_cons] at this
        rw [List.length_cons] at hfuel
        omega)
      rw [List.length_append, ← Nat.add_assoc, ← hp] at hi
      have hn : Seg.next id_query (st.obj false) ⟨[S, U, W, H, P].flatten.length + u.length, pieceLen (c :: s)⟩ =
        .ok ⟨[S, U, W, H, P].flatten.length + u.length + pieceLen (c :: s), pieceLen (s.dropWhile notSlash)⟩ := hn
      rw [hd]
      simp only
      rw [hn]
      simp only
      rw [hi, pieces_cons]
      rfl

/-- C57: a loop over the segments visits every segment of the path, or none if none is counted; it faults only if
`begin()` does. -/
theorem C57_walk {fuel : Nat} (hw : Worked env st) (hfuel : size (st.obj false) < fuel) :
    ∃ p, encoded_path (st.obj false) = .ok p ∧
      (Seg.walk id_query (st.obj false) fuel = .ok (if st.pt.nseg = 0 then [] else pathSegments p) ∨
        (p = [] ∧ Seg.first id_query (st.obj false) = .error .ub ∧ Seg.walk id_query (st.obj false) fuel = .error .ub)) := by
  obtain ⟨S, U, W, H, P, q, g, t, pa, h⟩ := hw.release.parts rfl
  refine ⟨pa, h.path false, ?_⟩
  obtain ⟨o1, o2, o3⟩ := h.holds.offs (A := [S, U, W, H, P]) rfl
  rw [List.length_map] at o2 o3
  have hsz : size (st.obj false) = st.pt.off id_end := rfl
  have hc := h.collect (u := []) (v := pa) (fuel := fuel) (by omega)
  rw [List.length_nil, Nat.add_zero, ← o1] at hc
  unfold Seg.walk
  by_cases hn : st.pt.nseg = 0
  · have hf : Seg.first id_query (st.obj false) = .ok ⟨st.pt.off id_query, 0⟩ := by
      unfold Seg.first
      rw [if_pos (by exact hn)]; rfl
    have h' : Part8 env.release st S U W H P ((pa ++ []).map some) q g t := by rw [List.append_nil]; exact h
    have hc := h'.collect (fuel := fuel) (by rw [List.length_nil]; omega)
    rw [← o2] at hc
    refine .inl ?_
    rw [hf, if_pos hn]
    exact hc
  · rw [if_neg hn]
    have hff : Seg.first id_query (st.obj false) = Seg.parse id_query (st.obj false) ⟨st.pt.off id_path, 0⟩ := by
      unfold Seg.first
      rw [if_neg (by exact hn)]; rfl
    by_cases hb : Bare st pa q g t
    · have hp := h.holds.parse_bare (A := [S, U, W, H, P]) (u := []) (v := pa) rfl hb 0
      rw [List.length_nil, Nat.add_zero, ← o1] at hp
      have hp : Seg.parse id_query (st.obj false) ⟨st.pt.off id_path, 0⟩ = .error .ub := hp
      rw [hff, hp]
      exact .inr ⟨hb.1, rfl, rfl⟩
    · have hp := h.holds.parse_at (A := [S, U, W, H, P]) (u := []) (v := pa) rfl rfl h.q h.f hb 0
      rw [List.length_nil, Nat.add_zero, ← o1] at hp
      have hp : Seg.parse id_query (st.obj false) ⟨st.pt.off id_path, 0⟩ = .ok ⟨st.pt.off id_path, pieceLen pa⟩ := hp
      rw [hff, hp, ← pieces_strip]
      exact .inl hc

/-- Half a segment was erased; the path is walked nevertheless. -/
example : Worked env1 (redone (.erase ⟨6, 3⟩) (afterRelease (staleCalls ++ [.set_encoded_path b!"/abc/d"]))) ∧
    Seg.walk id_query ((redone (.erase ⟨2, 3⟩) (afterRelease [.set_encoded_url b!"/abc/d/e"])).obj false) 99 = .ok [b!"ad", b!"e"] ∧
    Seg.walk id_query ((redone (.erase ⟨6, 3⟩) (afterRelease (staleCalls ++ [.set_encoded_path b!"/abc/d"]))).obj false) 99 = .ok [b!"ad"] :=
  ⟨redone_worked (afterRelease_used (by decide +kernel)).worked (by decide +kernel) (by decide +kernel), by decide +kernel, by decide +kernel⟩

/-- C22: after any calls and edits the byte after the text, if there is a buffer, is a null character or was never
written. -/
theorem C22_history (hw : Worked env st) :
    st.buf = none ∨ Terminated st ∨ ∃ b, st.buf = some b ∧ b[size (st.obj false)]? = some none := by
  obtain ⟨S, U, W, H, P, q, g, t, pa, h⟩ := hw.release.parts rfl
  rcases h.holds.buf with ⟨h1, -⟩ | ⟨junk, h1, -⟩
  · exact .inl h1
  · right
    rcases h.holds.term with rfl | rfl
    · refine .inr ⟨_, h1, ?_⟩
      show _[st.pt.off id_end]? = _
      rw [h.holds.off_end, List.getElem?_append_right (Nat.le_refl _)]
      simp
    · exact .inl (h.holds.nul_iff.2 ⟨by rw [h1]; rfl, rfl⟩)

/-- Both happen. -/
example : Worked env1 emptied ∧ emptied.buf.map (·[0]?) = some (some none) ∧
    (afterRelease [.set_encoded_url b!"/a"]).buf.map (·[2]?) = some (some (some 0)) :=
  ⟨C57_begin_false.1, by decide +kernel, by decide +kernel⟩

end Url.Props
