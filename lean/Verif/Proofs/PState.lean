import Verif.Proofs.V6Spec
import Verif.Proofs.Parts

/-!
Parser states during a successful parse.
-/

set_option linter.unusedSimpArgs false

namespace Url
open Spec

/-- The parser has recorded the parts `L`, has consumed `pend` after them, and has `r` left. -/
structure At (ps : PS) (L : List Str) (pend r : Str) (nseg nparam : Nat) (h : HostType) : Prop where
  rep : PtRep ps.pt L
  inp : ps.inp = L.flatten ++ (pend ++ r)
  p : ps.p = r
  ec : ps.ec = none
  flt : ps.flt = none
  nseg : ps.pt.nseg = nseg
  nparam : ps.pt.nparam = nparam
  host : ps.pt.host = h

theorem At.init (s : Str) : At (PS.init s) [] [] s 0 0 .none :=
  ⟨PtRep.nil, by simp [PS.init], rfl, rfl, rfl, rfl, rfl, rfl⟩

theorem At.advance {ps L pend x r ns np h} (a : At ps L pend (x ++ r) ns np h) :
    At { ps with p := r } L (pend ++ x) r ns np h :=
  ⟨a.rep, by rw [a.inp]; simp, rfl, a.ec, a.flt, a.nseg, a.nparam, a.host⟩

theorem At.pos {ps L pend r ns np h} (a : At ps L pend r ns np h) :
    ps.pos = L.flatten.length + pend.length := by
  unfold PS.pos
  rw [a.inp, a.p]
  simp only [List.length_append]
  omega

theorem plen_length (A B : List Str) : plen (A ++ B) A.length = A.flatten.length := by
  have := plen_append_right A B 0
  simpa using this

theorem mark_rest (ps : PS) (id : Nat) :
    (ps.mark id).inp = ps.inp ∧ (ps.mark id).p = ps.p ∧ (ps.mark id).ec = ps.ec ∧
      (ps.mark id).flt = ps.flt ∧ (ps.mark id).pt.nseg = ps.pt.nseg ∧
      (ps.mark id).pt.nparam = ps.pt.nparam ∧ (ps.mark id).pt.host = ps.pt.host := by
  unfold PS.mark; split <;> simp [Parts.resize]

theorem mark_rep {ps : PS} {A B : List Str} {x : Str} (x' : Str) {id : Nat}
    (h : PtRep ps.pt (A ++ x :: B)) (hid : id = A.length)
    (hpos : ps.pos = A.flatten.length + x'.length) :
    PtRep (ps.mark id).pt (A ++ x' :: B) := by
  have hoff : ps.pt.off id = A.flatten.length := by rw [h, hid, plen_length]
  have key : (ps.mark id).pt = ps.pt.resize id x'.length := by
    unfold PS.mark
    split
    · rename_i h0
      have : A = [] := by rw [hid] at h0; simpa using h0
      subst this
      simp at hpos
      simp [hpos, h0]
    · simp only [hoff, hpos, Nat.add_sub_cancel_left]
  rw [key]
  exact h.resize x' hid rfl

/-- `mark` of a part that is not recorded yet -/
theorem At.mark {ps L pend r ns np h} (a : At ps L pend r ns np h) {id : Nat} (hid : id = L.length) :
    At (ps.mark id) (L ++ [pend]) [] r ns np h := by
  obtain ⟨h1, h2, h3, h4, h5, h6, h7⟩ := mark_rest ps id
  exact ⟨mark_rep pend a.rep.snoc_nil hid a.pos, by rw [h1, a.inp]; simp, by rw [h2, a.p],
    by rw [h3, a.ec], by rw [h4, a.flt], by rw [h5, a.nseg], by rw [h6, a.nparam], by rw [h7, a.host]⟩

/-- `mark` of the part recorded last -/
theorem At.remark {ps L x pend r ns np h} (a : At ps (L ++ [x]) pend r ns np h) {id : Nat}
    (hid : id = L.length) : At (ps.mark id) (L ++ [x ++ pend]) [] r ns np h := by
  obtain ⟨h1, h2, h3, h4, h5, h6, h7⟩ := mark_rest ps id
  refine ⟨mark_rep _ a.rep hid ?_, by rw [h1, a.inp]; simp, by rw [h2, a.p],
    by rw [h3, a.ec], by rw [h4, a.flt], by rw [h5, a.nseg], by rw [h6, a.nparam], by rw [h7, a.host]⟩
  rw [a.pos]; simp; omega

/-- The empty parts that are not recorded yet. -/
theorem At.skip {ps L r ns np h} (a : At ps L [] r ns np h) : At ps (L ++ [[]]) [] r ns np h :=
  ⟨a.rep.snoc_nil, by rw [a.inp]; simp, a.p, a.ec, a.flt, a.nseg, a.nparam, a.host⟩

theorem At.congr {ps ps' L pend r ns np h} (a : At ps L pend r ns np h) (e : ps' = ps) :
    At ps' L pend r ns np h := e ▸ a

/-! ### scanning escaped text -/

section
variable {e : PctSet} {ok : Byte → Bool} (he : SetOf e ok)
include he

theorem At.pct_of {ps L pend x r ns np h} (a : At ps L pend (x ++ r) ns np h)
    (hx : Escaped isUpperHex ok x) (hr : Stop ok r) :
    At (ps.pct e ps.p) L (pend ++ x) r ns np h := by
  have : ps.pct e ps.p = { ps with p := r } := by
    unfold PS.pct
    rw [a.p, a.ec, pct_parse_of he hx hr]
  rw [this]; exact a.advance

theorem pct_inv {ps : PS} {q : Str} (hec : ps.ec = none) (h : (ps.pct e q).ec = none) :
    ∃ x, q = x ++ (ps.pct e q).p ∧ Escaped isUpperHex ok x ∧ Stop ok (ps.pct e q).p := by
  unfold PS.pct at h ⊢
  simp only [hec] at h ⊢
  exact pct_parse_inv he (Prod.ext rfl h)

omit he in
theorem pct_rest (ps : PS) (q : Str) :
    (ps.pct e q).inp = ps.inp ∧ (ps.pct e q).pt = ps.pt ∧ (ps.pct e q).flt = ps.flt := by
  simp [PS.pct]

end

theorem check_escape_some {t : Str} {er : Err} : ∃ er', check_escape t (some er) = some er' := by
  match t with
  | [] => exact ⟨_, rfl⟩
  | [_] => exact ⟨_, rfl⟩
  | a :: b :: u =>
    simp only [check_escape]
    split <;> exact ⟨_, rfl⟩

/-- an error once set stays set -/
theorem pct_parse_some (e : PctSet) (s : Str) (er : Err) : ∃ er', (e.parse s (some er)).2 = some er' := by
  induction s with
  | nil => exact ⟨er, rfl⟩
  | cons c t ih =>
    unfold PctSet.parse
    split
    · obtain ⟨er', h⟩ := check_escape_some (t := t) (er := er)
      rw [h]
      exact ⟨_, rfl⟩
    · split
      · exact ⟨_, rfl⟩
      · exact ih

theorem pct_some {ps : PS} {e : PctSet} {q : Str} (h : ps.ec.isSome = true) : (ps.pct e q).ec.isSome = true := by
  obtain ⟨er, h⟩ := Option.isSome_iff_exists.1 h
  unfold PS.pct
  simp only [h]
  obtain ⟨er', h'⟩ := pct_parse_some e q er
  simp [h']

/-- the scanner returns a suffix of its input -/
theorem pct_suffix (e : PctSet) (s : Str) (ec : Option Err) : ∃ x, s = x ++ (e.parse s ec).1 := by
  by_cases hn : ec = some .no_match
  · subst hn
    -- with an error set the scanner stops at the first escape
    induction s with
    | nil => exact ⟨[], rfl⟩
    | cons c t ih =>
      unfold PctSet.parse
      split
      · obtain ⟨er', h⟩ := check_escape_some (t := t) (er := .no_match)
        rw [h]
        exact ⟨[], rfl⟩
      · split
        · exact ⟨[], rfl⟩
        · obtain ⟨x, hx⟩ := ih
          exact ⟨c :: x, by rw [List.cons_append, ← hx]⟩
  · exact (pct_parse_suffix s ec hn).1

theorem pct_length (ps : PS) (e : PctSet) (q : Str) : (ps.pct e q).p.length ≤ q.length := by
  obtain ⟨x, hx⟩ := pct_suffix e q ps.ec
  have := congrArg List.length hx
  simp only [List.length_append] at this
  simp only [PS.pct]
  omega

theorem pct_ne_noMatch {ps : PS} {e : PctSet} {q : Str} (h : ps.ec = none) :
    (ps.pct e q).ec ≠ some .no_match := by
  unfold PS.pct
  exact (pct_parse_suffix q ps.ec (by simp [h])).2

end Url
