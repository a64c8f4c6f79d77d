import Verif.Proofs.Query
import Verif.Proofs.Segments
import Verif.Model.Params
import Verif.Spec.Params

/-!
The iterators over the parameters of a query.
-/

set_option linter.unusedSimpArgs false
attribute [-simp] List.length_flatten

namespace Url
open Spec

abbrev Pair := Str × Option Str

/-! ### the pairs of a query -/

theorem libPairs_single {k : Str} (hk : k.all (· != c!"=")) : libPairs k = [(k, none)] := by
  induction k with
  | nil => rfl
  | cons c k ih =>
    simp only [List.all_cons, Bool.and_eq_true, bne_iff_ne] at hk
    rw [libPairs, if_neg hk.1, ih hk.2]

theorem libPairs_split {k t : Str} (hk : k.all (· != c!"=")) :
    libPairs (k ++ c!"=" :: t) = (k, some (libValue t).1) :: (libValue t).2 := by
  induction k with
  | nil => rw [List.nil_append, libPairs, if_pos rfl]
  | cons c k ih =>
    simp only [List.all_cons, Bool.and_eq_true, bne_iff_ne] at hk
    rw [List.cons_append, libPairs, if_neg hk.1, ih hk.2]

theorem libValue_single {v : Str} (hv : v.all (· != c!"&")) : libValue v = (v, []) := by
  induction v with
  | nil => rfl
  | cons c v ih =>
    simp only [List.all_cons, Bool.and_eq_true, bne_iff_ne] at hv
    rw [libValue, if_neg hv.1, ih hv.2]

theorem libValue_split {v q : Str} (hv : v.all (· != c!"&")) : libValue (v ++ c!"&" :: q) = (v, libPairs q) := by
  induction v with
  | nil => rw [List.nil_append, libValue, if_pos rfl]
  | cons c v ih =>
    simp only [List.all_cons, Bool.and_eq_true, bne_iff_ne] at hv
    rw [List.cons_append, libValue, if_neg hv.1, ih hv.2]

/-- Every query is of one of three forms. -/
inductive QueryForm : Str → Prop
  | key {k : Str} : Escaped isUpperHex isQkey k → libPairs k = [(k, none)] → QueryForm k
  | value {k v : Str} : Escaped isUpperHex isQkey k → Escaped isUpperHex isQval v →
      libPairs (k ++ c!"=" :: v) = [(k, some v)] → QueryForm (k ++ c!"=" :: v)
  | more {k v q : Str} : Escaped isUpperHex isQkey k → Escaped isUpperHex isQval v → QChars q →
      libPairs (k ++ c!"=" :: (v ++ c!"&" :: q)) = (k, some v) :: libPairs q → QueryForm (k ++ c!"=" :: (v ++ c!"&" :: q))

theorem queryForm {q : Str} (h : QChars q) : QueryForm q := by
  obtain ⟨k, r, rfl, hk, hr⟩ := escaped_split c!"=" (by decide) h
  have hk : Escaped isUpperHex isQkey k := hk
  rcases hr with rfl | ⟨r, rfl, hr⟩
  · rw [List.append_nil]
    exact .key hk (libPairs_single (qkey_noeq hk))
  · obtain ⟨v, r', rfl, hv, hr'⟩ := escaped_split c!"&" (by decide) hr
    have hv : Escaped isUpperHex isQval v := hv
    rcases hr' with rfl | ⟨r', rfl, hr'⟩
    · rw [List.append_nil]
      refine .value hk hv ?_
      rw [libPairs_split (qkey_noeq hk), libValue_single (qval_noamp hv)]
    · refine .more hk hv hr' ?_
      rw [libPairs_split (qkey_noeq hk), libValue_split (qval_noamp hv)]

/-- the text of a pair -/
def pairText (p : Pair) : Str := p.1 ++ (p.2.map (c!"=" :: ·)).getD []

/-- the text of a list of pairs, each with the character before it -/
def pairTexts (lead : Byte) : List Pair → List Str
  | [] => []
  | p :: r => (lead :: pairText p) :: pairTexts c!"&" r

theorem pairTexts_length (lead : Byte) (L : List Pair) : (pairTexts lead L).length = L.length := by
  induction L generalizing lead with
  | nil => rfl
  | cons p r ih => simp [pairTexts, ih]

theorem pairTexts_drop (lead : Byte) (L : List Pair) (k : Nat) :
    (pairTexts lead L).drop k = pairTexts (if k = 0 then lead else c!"&") (L.drop k) := by
  induction k generalizing lead L with
  | zero => simp
  | succ k ih =>
    cases L with
    | nil => simp [pairTexts]
    | cons p r => rw [pairTexts, List.drop_succ_cons, List.drop_succ_cons, ih]; simp

/-- What the pairs of a query look like. -/
structure Pairs (L : List Pair) : Prop where
  keys : ∀ p ∈ L, Escaped isUpperHex isQkey p.1
  vals : ∀ p ∈ L, ∀ v, p.2 = some v → Escaped isUpperHex isQval v
  mid : ∀ k, k + 1 < L.length → ∀ p, L[k]? = some p → p.2 ≠ none

theorem libPairs_text {q : Str} (h : QChars q) (lead : Byte) : (pairTexts lead (libPairs q)).flatten = lead :: q := by
  generalize hn : q.length = n
  induction n using Nat.strongRecOn generalizing q lead with
  | _ n ih =>
    cases queryForm h with
    | key _ he => rw [he]; simp [pairTexts, pairText]
    | value _ _ he => rw [he]; simp [pairTexts, pairText]
    | @more k v q _ _ hq he =>
      rw [he, pairTexts, List.flatten_cons, ih q.length (by rw [← hn]; simp; omega) hq _ rfl]
      simp [pairText]

theorem libPairs_pairs {q : Str} (h : QChars q) : Pairs (libPairs q) := by
  generalize hn : q.length = n
  induction n using Nat.strongRecOn generalizing q with
  | _ n ih =>
    cases queryForm h with
    | key hk he => rw [he]; exact ⟨by simpa using hk, by simp, by simp⟩
    | value hk hv he => rw [he]; exact ⟨by simpa using hk, by simpa using hv, by simp⟩
    | @more k v q hk hv hq he =>
      have := ih q.length (by rw [← hn]; simp; omega) hq rfl
      rw [he]
      refine ⟨?_, ?_, ?_⟩
      · intro p hp
        rcases List.mem_cons.1 hp with rfl | hp
        · exact hk
        · exact this.keys p hp
      · intro p hp w hw
        rcases List.mem_cons.1 hp with rfl | hp
        · cases hw; exact hv
        · exact this.vals p hp w hw
      · intro i hi p hp
        cases i with
        | zero => simp at hp; subst hp; simp
        | succ i => exact this.mid i (by simpa using hi) p (by simpa using hp)

/-! ### parsing a pair -/

variable {o : Obj}

theorem skip_of {e : PctSet} {ok : Byte → Bool} (he : SetOf e ok) {B : List Cell} {x r : Str} {rest : List Cell} (hm : o.mem = B ++ ((x ++ r).map some ++ rest))
    (hx : Escaped isUpperHex ok x) (hr : Stop ok r) (hend : o.pt.off id_end = B.length + x.length + r.length) :
    Params.skip e o B.length none = .ok (B.length + x.length, none) := by
  unfold Params.skip
  have hlen : ¬ o.mem.length < B.length := by rw [hm]; simp
  rw [if_neg hlen, hend]
  by_cases h0 : (x ++ r) = []
  · obtain ⟨rfl, rfl⟩ := List.append_eq_nil_iff.1 h0
    simp [pure, Except.pure]
  · have hpos : 0 < x.length + r.length := by
      have := List.length_pos_iff.2 h0
      rwa [List.length_append] at this
    rw [if_pos (by omega), show B.length + x.length + r.length - B.length = (x ++ r).length by rw [List.length_append]; omega, read_at hm]
    simp only [bind, Except.bind, pct_parse_of he hx hr, pure, Except.pure]
    simp

theorem assert_byte {B : List Cell} {c d : Byte} {rest : List Cell} (h : o.mem = B ++ (some c :: rest)) (hcd : c = d) :
    o.assert (do return (← o.byte B.length) == d) = .ok () := by
  rw [byte_at h]
  simp [Obj.assert, bind, Except.bind, pure, Except.pure, hcd]

/-- The object holds the query with the pairs `L` before the text `F`. Of `A`, which stands for the cells before the query,
only the length counts. -/
structure QCtx (o : Obj) (A : Str) (L : List Pair) (F : Str) : Prop where
  mem : ∃ X rest, X.length = A.length ∧ o.mem = X ++ ((pairTexts c!"?" L).flatten.map some ++ (F.map some ++ rest))
  query : o.pt.off id_query = A.length
  frag : o.pt.off id_frag = A.length + (pairTexts c!"?" L).flatten.length
  fin : o.pt.off id_end = A.length + (pairTexts c!"?" L).flatten.length + F.length
  stop : F = [] ∨ ∃ t, F = c!"#" :: t
  ok : Pairs L
  n : o.pt.nparam > 0

/-- the character before a pair -/
def lead (k : Nat) : Byte := if k = 0 then c!"?" else c!"&"

/-- the text before pair `k` -/
def before (A : Str) (L : List Pair) (k : Nat) : Str := A ++ ((pairTexts c!"?" L).take k).flatten

/-- the iterator that points to pair `k` -/
def posP (A : Str) (L : List Pair) (k : Nat) : ParamIt :=
  ⟨(before A L k).length, (L[k]?.map fun p => p.1.length + 1).getD 0, ((L[k]?.bind (·.2)).map fun v => v.length + 1).getD 0⟩

variable {A F : Str} {L : List Pair}

theorem pairs_cut {k : Nat} {p : Pair} (hp : L[k]? = some p) :
    (pairTexts c!"?" L).flatten = ((pairTexts c!"?" L).take k).flatten ++ (lead k :: (pairText p ++ (pairTexts c!"&" (L.drop (k + 1))).flatten)) := by
  obtain ⟨hk, hk'⟩ := List.getElem?_eq_some_iff.1 hp
  rw [← flatten_take_drop (pairTexts c!"?" L) k, pairTexts_drop, List.drop_eq_getElem_cons hk, hk', pairTexts]
  simp [lead]

theorem before_succ {k : Nat} {p : Pair} (hp : L[k]? = some p) :
    before A L (k + 1) = before A L k ++ (lead k :: pairText p) := by
  obtain ⟨hk, hk'⟩ := List.getElem?_eq_some_iff.1 hp
  have e : (pairTexts c!"?" L)[k]? = some (lead k :: pairText p) := by
    have := congrArg List.head? (pairTexts_drop c!"?" L k)
    rw [List.drop_eq_getElem_cons hk, hk', pairTexts, List.head?_drop] at this
    simpa [lead] using this
  unfold before
  rw [List.take_add_one, e]
  simp

theorem before_zero : before A L 0 = A := by simp [before]

theorem before_all : before A L L.length = A ++ (pairTexts c!"?" L).flatten := by
  unfold before
  rw [List.take_of_length_le (by rw [pairTexts_length]; exact Nat.le_refl _)]

theorem posP_end : posP A L L.length = ⟨(A ++ (pairTexts c!"?" L).flatten).length, 0, 0⟩ := by
  rw [posP, before_all]; simp

theorem QCtx.cells (h : QCtx o A L F) {k : Nat} {p : Pair} (hp : L[k]? = some p) : ∃ X rest, X.length = A.length ∧
    o.mem = X ++ (((pairTexts c!"?" L).take k).flatten.map some ++ (some (lead k) ::
      ((pairText p ++ ((pairTexts c!"&" (L.drop (k + 1))).flatten ++ F)).map some ++ rest))) := by
  obtain ⟨X, rest, hX, hm⟩ := h.mem
  refine ⟨X, rest, hX, ?_⟩
  rw [hm, pairs_cut hp]; simp

theorem QCtx.cut (h : QCtx o A L F) {k : Nat} {p : Pair} (hp : L[k]? = some p) :
    (∃ Y rest, Y.length = (before A L k).length ∧ o.mem = Y ++ (some (lead k) ::
      ((pairText p ++ ((pairTexts c!"&" (L.drop (k + 1))).flatten ++ F)).map some ++ rest))) ∧
    o.pt.off id_end = (before A L k).length + 1 + (pairText p).length + ((pairTexts c!"&" (L.drop (k + 1))).flatten ++ F).length ∧
    o.pt.off id_frag = (before A L k).length + 1 + (pairText p).length + (pairTexts c!"&" (L.drop (k + 1))).flatten.length := by
  obtain ⟨X, rest, hX, hm⟩ := h.cells hp
  have hc := pairs_cut hp
  refine ⟨⟨X ++ ((pairTexts c!"?" L).take k).flatten.map some, rest, ?_, ?_⟩, ?_, ?_⟩
  · simp [before, hX, -List.map_flatten]
  · rw [hm]; simp
  · rw [h.fin, hc, before]; simp only [List.length_append, List.length_cons]; omega
  · rw [h.frag, hc, before]; simp only [List.length_append, List.length_cons]; omega

theorem off_query_iff (h : QCtx o A L F) {k : Nat} (hk : k ≤ L.length) : (before A L k).length = o.pt.off id_query ↔ k = 0 := by
  rw [h.query, before, List.length_append]
  constructor
  · intro e
    apply Classical.byContradiction
    intro h0
    obtain ⟨j, rfl⟩ : ∃ j, k = j + 1 := ⟨k - 1, by omega⟩
    have hj : j < L.length := by omega
    have := congrArg List.length (before_succ (A := A) (List.getElem?_eq_getElem hj))
    rw [before, List.length_append, List.length_append, List.length_cons, before, List.length_append] at this
    omega
  · rintro rfl; simp

theorem QCtx.leadAssert (h : QCtx o A L F) {k : Nat} {p : Pair} (hp : L[k]? = some p) :
    o.assert (do return (← o.byte (before A L k).length) == if (before A L k).length = o.pt.off id_query then c!"?" else c!"&") = .ok () := by
  obtain ⟨⟨Y, rest, hY, hm⟩, -, -⟩ := h.cut hp
  have hk : k < L.length := (List.getElem?_eq_some_iff.1 hp).1
  rw [← hY]
  refine assert_byte hm ?_
  rw [hY]
  simp only [off_query_iff h (Nat.le_of_lt hk), lead]

theorem tail_stop {ok : Byte → Bool} (ha : ok c!"&" = false) (hh : ok c!"#" = false) (hF : F = [] ∨ ∃ t, F = c!"#" :: t) :
    Stop ok ((pairTexts c!"&" L).flatten ++ F) := by
  cases L with
  | nil =>
    rcases hF with rfl | ⟨t, rfl⟩
    · trivial
    · exact ⟨by decide, hh⟩
  | cons p r => exact ⟨by decide, ha⟩

/-- `parse` at the start of a pair. The text after a pair without a value must be empty. -/
theorem QCtx.parse_pos (h : QCtx o A L F) {k : Nat} {p : Pair} (hp : L[k]? = some p) (hv : p.2 = none → F = []) (nk nv : Nat) :
    Params.parse o ⟨(before A L k).length, nk, nv⟩ = .ok (posP A L k) := by
  obtain ⟨⟨Y, rest, hY, hm⟩, hend, -⟩ := h.cut hp
  have hkl : k < L.length := (List.getElem?_eq_some_iff.1 hp).1
  have hmem : p ∈ L := List.mem_of_getElem? hp
  have hkey := h.ok.keys p hmem
  unfold Params.parse
  rw [assert_not h.n, h.leadAssert hp]
  simp only [bind, Except.bind]
  cases hpv : p.2 with
  | none =>
    have hlast : L.drop (k + 1) = [] := by
      apply List.drop_eq_nil_iff.2
      apply Classical.byContradiction
      intro hlt
      exact h.ok.mid k (by omega) p hp hpv
    have htext : pairText p = p.1 := by simp [pairText, hpv]
    rw [hv hpv, hlast, htext] at hm hend
    simp only [pairTexts, List.flatten_nil, List.append_nil, List.length_nil, Nat.add_zero] at hm hend
    have := skip_of (o := o) setOf_qkey (B := Y ++ [some (lead k)]) (x := p.1) (r := []) (rest := rest) (by rw [hm]; simp) hkey trivial (by simp [hend, hY])
    rw [List.length_append, List.length_singleton, hY] at this
    rw [this]
    simp only [hend, if_true]
    have e : o.assert (.ok (Option.isNone (none : Option Err))) = .ok () := by simp [Obj.assert]
    rw [e]
    simp only [pure, Except.pure, posP, hp, hpv, Option.map_some, Option.getD_some, Option.bind_some, Option.map_none, Option.getD_none]
    congr 2; omega
  | some v =>
    have hval := h.ok.vals p hmem v hpv
    have htext : pairText p = p.1 ++ c!"=" :: v := by simp [pairText, hpv]
    rw [htext] at hm hend
    have h1 := skip_of (o := o) setOf_qkey (B := Y ++ [some (lead k)]) (x := p.1)
      (r := c!"=" :: (v ++ ((pairTexts c!"&" (L.drop (k + 1))).flatten ++ F))) (rest := rest)
      (by rw [hm]; simp) hkey ⟨by decide, by decide⟩ (by rw [hend]; simp only [List.length_append, List.length_cons, List.length_nil, List.length_map, hY]; omega)
    have h2 := skip_of (o := o) setOf_qval (B := Y ++ (some (lead k) :: (p.1 ++ [c!"="]).map some)) (x := v)
      (r := (pairTexts c!"&" (L.drop (k + 1))).flatten ++ F) (rest := rest)
      (by rw [hm]; simp) hval (tail_stop (by decide) (by decide) h.stop)
      (by rw [hend]; simp only [List.length_append, List.length_cons, List.length_nil, List.length_map, hY]; omega)
    rw [List.length_append, List.length_singleton, hY] at h1
    have e2 : (Y ++ (some (lead k) :: (p.1 ++ [c!"="]).map some)).length = (before A L k).length + 1 + p.1.length + 1 := by
      simp only [List.length_append, List.length_cons, List.length_nil, List.length_map, hY]; omega
    rw [e2] at h2
    have h3 := assert_byte (o := o) (B := Y ++ (some (lead k) :: p.1.map some)) (c := c!"=") (d := c!"=")
      (rest := (v ++ ((pairTexts c!"&" (L.drop (k + 1))).flatten ++ F)).map some ++ rest) (by rw [hm]; simp) rfl
    have e3 : (Y ++ (some (lead k) :: p.1.map some)).length = (before A L k).length + 1 + p.1.length := by
      simp only [List.length_append, List.length_cons, List.length_map, hY]; omega
    rw [e3] at h3
    have hne : (before A L k).length + 1 + p.1.length ≠ o.pt.off id_end := by
      rw [hend]; simp only [List.length_append, List.length_cons, List.length_map, hY]; omega
    have e : o.assert (.ok (Option.isNone (none : Option Err))) = .ok () := by simp [Obj.assert]
    rw [h1]
    simp only [bind, Except.bind] at h3
    simp only [if_neg hne, e, h3, h2]
    simp only [pure, Except.pure, posP, hp, hpv, Option.map_some, Option.getD_some, Option.bind_some, Option.map_none, Option.getD_none]
    congr 2 <;> omega

theorem posP_sum {k : Nat} {p : Pair} (hp : L[k]? = some p) :
    (posP A L k).off + (posP A L k).nv + (posP A L k).nk = (before A L (k + 1)).length := by
  rw [before_succ hp, posP, hp]
  simp only [Option.map_some, Option.getD_some, Option.bind_some, List.length_append, List.length_cons, pairText]
  cases p.2 <;> simp <;> omega

theorem QCtx.frag_before (h : QCtx o A L F) : o.pt.off id_frag = (before A L L.length).length := by
  rw [h.frag, before_all, List.length_append]

theorem before_lt {j k : Nat} (hjk : j < k) (hk : k ≤ L.length) : (before A L j).length < (before A L k).length := by
  induction k with
  | zero => omega
  | succ k ih =>
    have hlt : k < L.length := by omega
    rw [before_succ (List.getElem?_eq_getElem hlt), List.length_append, List.length_cons]
    by_cases he : j = k
    · subst he; omega
    · have := ih (by omega) (by omega); omega

/-- `operator++` -/
theorem QCtx.next_pos (h : QCtx o A L F) {k : Nat} (hk : k < L.length) (hv : ∀ p, L[k + 1]? = some p → p.2 = none → F = []) :
    Params.next o (posP A L k) = .ok (posP A L (k + 1)) := by
  obtain ⟨p, hp⟩ : ∃ p, L[k]? = some p := ⟨_, List.getElem?_eq_getElem hk⟩
  have hne : (posP A L k).off ≠ o.pt.off id_frag := by
    rw [h.frag_before]
    exact Nat.ne_of_lt (before_lt hk (Nat.le_refl _))
  unfold Params.next
  rw [assert_not h.n, assert_not hne]
  simp only [bind, Except.bind, posP_sum hp]
  by_cases hl : k + 1 = L.length
  · rw [hl, if_pos h.frag_before.symm, posP_end, before_all]
    rfl
  · have hk' : k + 1 < L.length := by omega
    have : (before A L (k + 1)).length ≠ o.pt.off id_frag := by
      rw [h.frag_before]
      exact Nat.ne_of_lt (before_lt hk' (Nat.le_refl _))
    rw [if_neg this]
    exact h.parse_pos (List.getElem?_eq_getElem hk') (hv _ (List.getElem?_eq_getElem hk')) _ _

/-- `operator*` -/
theorem QCtx.deref_pos (h : QCtx o A L F) {k : Nat} {p : Pair} (hp : L[k]? = some p) :
    Params.deref o (posP A L k) = .ok ⟨p.1, p.2.getD []⟩ := by
  obtain ⟨⟨Y, rest, hY, hm⟩, -, -⟩ := h.cut hp
  have hnk : (posP A L k).nk = p.1.length + 1 := by simp [posP, hp]
  have hoff : (posP A L k).off = (before A L k).length := rfl
  unfold Params.deref
  rw [assert_not h.n, assert_not (by omega : (posP A L k).nk > 0), hoff, h.leadAssert hp]
  simp only [bind, Except.bind]
  rw [if_neg (by omega), hnk]
  have hr := read_at (o := o) (A := Y ++ [some (lead k)]) (B := p.1)
    (rest := ((p.2.map (c!"=" :: ·)).getD [] ++ ((pairTexts c!"&" (L.drop (k + 1))).flatten ++ F)).map some ++ rest)
    (by rw [hm]; simp [pairText])
  rw [List.length_append, List.length_singleton, hY] at hr
  rw [show p.1.length + 1 - 1 = p.1.length by omega, hr]
  simp only
  cases hpv : p.2 with
  | none =>
    have : (posP A L k).nv = 0 := by simp [posP, hp, hpv]
    rw [if_pos this]; rfl
  | some v =>
    have hnv : (posP A L k).nv = v.length + 1 := by simp [posP, hp, hpv]
    rw [if_neg (by omega), hnv]
    have h3 := assert_byte (o := o) (B := Y ++ (some (lead k) :: p.1.map some)) (c := c!"=") (d := c!"=")
      (rest := (v ++ ((pairTexts c!"&" (L.drop (k + 1))).flatten ++ F)).map some ++ rest) (by rw [hm]; simp [pairText, hpv]) rfl
    have e3 : (Y ++ (some (lead k) :: p.1.map some)).length = (before A L k).length + (p.1.length + 1) := by
      simp only [List.length_append, List.length_cons, List.length_map, hY]
    rw [e3] at h3
    have h4 := read_at (o := o) (A := Y ++ (some (lead k) :: (p.1 ++ [c!"="]).map some)) (B := v)
      (rest := ((pairTexts c!"&" (L.drop (k + 1))).flatten ++ F).map some ++ rest) (by rw [hm]; simp [pairText, hpv])
    have e4 : (Y ++ (some (lead k) :: (p.1 ++ [c!"="]).map some)).length = (before A L k).length + (p.1.length + 1) + 1 := by
      simp only [List.length_append, List.length_cons, List.length_nil, List.length_map, hY]; omega
    rw [e4] at h4
    simp only [bind, Except.bind] at h3
    rw [h3, show v.length + 1 - 1 = v.length by omega, h4]
    rfl

/-! ### loops -/

theorem params_eq_off {a b : ParamIt} (h : a.off ≠ b.off) : Params.eq o a b = .ok false := by
  unfold Params.eq
  rw [assert_not (.inl h)]
  simp [bind, Except.bind, pure, Except.pure, h]

theorem params_eq_self (a : ParamIt) : Params.eq o a a = .ok true := by
  unfold Params.eq
  rw [assert_not (.inr ⟨rfl, rfl⟩)]
  simp [bind, Except.bind, pure, Except.pure]

theorem QCtx.last_pos (h : QCtx o A L F) : Params.last o = posP A L L.length := by
  rw [posP_end, Params.last, h.frag, List.length_append]

theorem QCtx.eq_last (h : QCtx o A L F) {k : Nat} (hk : k < L.length) : Params.eq o (posP A L k) (Params.last o) = .ok false := by
  refine params_eq_off ?_
  rw [h.last_pos]
  exact Nat.ne_of_lt (before_lt hk (Nat.le_refl _))

theorem QCtx.first_pos (h : QCtx o A L F) (hL : L ≠ []) (hv : ∀ p, L[0]? = some p → p.2 = none → F = []) :
    Params.first o = .ok (posP A L 0) := by
  have h0 : 0 < L.length := List.length_pos_iff.2 hL
  have hn := h.n
  unfold Params.first
  have := h.parse_pos (List.getElem?_eq_getElem h0) (hv _ (List.getElem?_eq_getElem h0)) 0 0
  rw [before_zero] at this
  rw [if_neg (by omega), h.query]
  exact this

theorem QCtx.nth_pos (h : QCtx o A L F) (hL : L ≠ []) {k : Nat} (hk : k ≤ L.length) (hv : ∀ j ≤ k, ∀ p, L[j]? = some p → p.2 = none → F = []) :
    Params.nth o k = .ok (posP A L k) := by
  induction k with
  | zero => exact h.first_pos hL (hv 0 (Nat.le_refl _))
  | succ k ih =>
    rw [Params.nth, ih (by omega) fun j hj => hv j (by omega)]
    exact h.next_pos (by omega) (hv (k + 1) (Nat.le_refl _))

/-- the element a pair is seen as -/
def asParam (p : Pair) : Param := ⟨p.1, p.2.getD []⟩

theorem QCtx.collect_good (h : QCtx o A L F) (hv : ∀ p ∈ L, p.2 = none → F = []) {k fuel : Nat} (hk : k ≤ L.length) (hf : L.length - k < fuel) :
    Params.collect o fuel (posP A L k) = .ok ((L.drop k).map asParam) := by
  induction fuel generalizing k with
  | zero => omega
  | succ f ih =>
    rw [Params.collect]
    by_cases hkl : k = L.length
    · subst hkl
      rw [← h.last_pos, params_eq_self]
      simp [bind, Except.bind, pure, Except.pure]
    · have hk : k < L.length := by omega
      rw [h.eq_last hk]
      simp only [bind, Except.bind, Bool.false_eq_true, if_false]
      rw [h.deref_pos (List.getElem?_eq_getElem hk)]
      simp only
      rw [h.next_pos hk fun p hp => hv p (List.mem_of_getElem? hp)]
      simp only
      rw [ih (by omega) (by omega), List.drop_eq_getElem_cons hk]
      rfl

theorem QCtx.walk_good (h : QCtx o A L F) (hL : L ≠ []) (hv : ∀ p ∈ L, p.2 = none → F = []) {fuel : Nat} (hf : L.length < fuel) :
    Params.walk o fuel = .ok (L.map asParam) := by
  rw [Params.walk, h.first_pos hL fun p hp => hv p (List.mem_of_getElem? hp)]
  simpa using h.collect_good hv (k := 0) (Nat.zero_le _) (by omega)

theorem key_equal_pair (h : Pairs L) {p : Pair} (hp : p ∈ L) (key : Str) : key_equal p.1 key = .ok (decide (decodeRaw p.1 = some key)) :=
  key_equal_eq (ok := isQkey) (by decide) (h.keys p hp) key

/-- the first pair with the key is found, no matter what comes after it -/
theorem QCtx.find_hit (h : QCtx o A L F) {key : Str} {i : Nat} {p : Pair} (hp : L[i]? = some p) (hk : decodeRaw p.1 = some key)
    {k fuel : Nat} (hki : k ≤ i) (hno : ∀ j, k ≤ j → j < i → ∀ q, L[j]? = some q → decodeRaw q.1 ≠ some key)
    (hv : ∀ j ≤ i, ∀ q, L[j]? = some q → q.2 = none → F = []) (hf : i - k < fuel) :
    Params.findLoop o key fuel (posP A L k) = .ok (posP A L i) ∧ Params.containsLoop o key fuel (posP A L k) = .ok true := by
  induction fuel generalizing k with
  | zero => omega
  | succ f ih =>
    have hi : i < L.length := (List.getElem?_eq_some_iff.1 hp).1
    have hk' : k < L.length := by omega
    obtain ⟨q, hq⟩ : ∃ q, L[k]? = some q := ⟨_, List.getElem?_eq_getElem hk'⟩
    rw [Params.findLoop, Params.containsLoop, h.eq_last hk']
    simp only [bind, Except.bind, Bool.false_eq_true, if_false]
    rw [h.deref_pos hq]
    simp only [key_equal_pair h.ok (List.mem_of_getElem? hq)]
    by_cases he : k = i
    · subst he
      rw [hp] at hq
      cases hq
      simp [hk, pure, Except.pure]
    · have := hno k (Nat.le_refl _) (by omega) q hq
      simp only [this, decide_false, Bool.false_eq_true, if_false]
      rw [h.next_pos hk' (hv (k + 1) (by omega))]
      simp only
      exact ih (by omega) (fun j hj => hno j (by omega)) (by omega)

theorem QCtx.find_miss (h : QCtx o A L F) {key : Str} (hno : ∀ q ∈ L, decodeRaw q.1 ≠ some key)
    (hv : ∀ p ∈ L, p.2 = none → F = []) {k fuel : Nat} (hk : k ≤ L.length) (hf : L.length - k < fuel) :
    Params.findLoop o key fuel (posP A L k) = .ok (Params.last o) ∧ Params.containsLoop o key fuel (posP A L k) = .ok false := by
  induction fuel generalizing k with
  | zero => omega
  | succ f ih =>
    rw [Params.findLoop, Params.containsLoop]
    by_cases hkl : k = L.length
    · subst hkl
      rw [← h.last_pos, params_eq_self]
      simp [bind, Except.bind, pure, Except.pure]
    · have hk' : k < L.length := by omega
      obtain ⟨q, hq⟩ : ∃ q, L[k]? = some q := ⟨_, List.getElem?_eq_getElem hk'⟩
      rw [h.eq_last hk']
      simp only [bind, Except.bind, Bool.false_eq_true, if_false]
      rw [h.deref_pos hq]
      simp only [key_equal_pair h.ok (List.mem_of_getElem? hq), hno q (List.mem_of_getElem? hq), decide_false, Bool.false_eq_true, if_false]
      rw [h.next_pos hk' fun p hp => hv p (List.mem_of_getElem? hp)]
      simp only
      exact ih (by omega) (by omega)

theorem QCtx.count_good (h : QCtx o A L F) {key : Str} (hv : ∀ p ∈ L, p.2 = none → F = []) {k fuel n : Nat} (hk : k ≤ L.length)
    (hf : L.length - k < fuel) :
    Params.countLoop o key fuel (posP A L k) n = .ok (n + (L.drop k).countP fun p => decodeRaw p.1 = some key) := by
  induction fuel generalizing k n with
  | zero => omega
  | succ f ih =>
    rw [Params.countLoop]
    by_cases hkl : k = L.length
    · subst hkl
      rw [← h.last_pos, params_eq_self]
      simp [bind, Except.bind, pure, Except.pure]
    · have hk' : k < L.length := by omega
      rw [h.eq_last hk']
      simp only [bind, Except.bind, Bool.false_eq_true, if_false]
      rw [h.deref_pos (List.getElem?_eq_getElem hk')]
      simp only [key_equal_pair h.ok (List.getElem_mem hk')]
      rw [h.next_pos hk' fun p hp => hv p (List.mem_of_getElem? hp)]
      simp only
      rw [ih (by omega) (by omega), List.drop_eq_getElem_cons hk', List.countP_cons]
      by_cases hd : decodeRaw L[k].1 = some key
      · simp [hd]; omega
      · simp [hd]

/-! ### decrementing -/

theorem pairText_noamp (h : Pairs L) {p : Pair} (hp : p ∈ L) (hk : c!"&" ∉ p.1) : ∀ d ∈ pairText p, d ≠ c!"&" := by
  intro d hd
  rcases List.mem_append.1 hd with hd | hd
  · rintro rfl; exact hk hd
  · cases hv : p.2 with
    | none => rw [hv] at hd; simp at hd
    | some v =>
      rw [hv] at hd
      simp only [Option.map_some, Option.getD_some, List.mem_cons] at hd
      rcases hd with rfl | hd
      · decide
      · have := List.all_eq_true.1 (qval_noamp (h.vals p hp v hv)) d hd
        simpa using this

/-- the search for the start of the previous pair -/
theorem QCtx.prev_back (h : QCtx o A L F) {k : Nat} {p : Pair} (hp : L[k]? = some p) :
    Params.prev o (posP A L (k + 1)) = (do
      match ← Seg.back o c!"&" A.length (((pairTexts c!"?" L).take k).flatten.length + (pairText p).length) with
      | some q => Params.parse o { posP A L (k + 1) with off := q }
      | none => return { posP A L (k + 1) with off := A.length }) := by
  have hk : k < L.length := (List.getElem?_eq_some_iff.1 hp).1
  have hoff : (posP A L (k + 1)).off = A.length + ((pairTexts c!"?" L).take k).flatten.length + 1 + (pairText p).length := by
    rw [posP, before_succ hp, before]
    simp only [List.length_append, List.length_cons]; omega
  unfold Params.prev
  have hne : (posP A L (k + 1)).off ≠ o.pt.off id_query := by rw [h.query]; omega
  have hb : o.assert (do return (← o.byte (o.pt.off id_query)) == c!"?") = .ok () := by
    obtain ⟨⟨Y, rest, hY, hm⟩, -, -⟩ := h.cut (List.getElem?_eq_getElem (show 0 < L.length by omega))
    rw [before_zero] at hY
    rw [h.query, ← hY]
    exact assert_byte hm rfl
  have hle : ¬ (posP A L (k + 1)).off ≤ o.pt.off id_query := by rw [h.query]; omega
  simp only [bind, Except.bind, assert_not h.n, assert_not hne]
  rw [if_neg hle, h.query, show (posP A L (k + 1)).off - A.length - 1 = ((pairTexts c!"?" L).take k).flatten.length + (pairText p).length by omega]
  rw [h.query] at hb
  simp only [bind, Except.bind] at hb
  simp only [hb]
  rfl

theorem QCtx.prev_pos (h : QCtx o A L F) {k : Nat} {p : Pair} (hp : L[k]? = some p) (hk0 : 0 < k) (hk : c!"&" ∉ p.1) (hv : p.2 = none → F = []) :
    Params.prev o (posP A L (k + 1)) = .ok (posP A L k) := by
  have hkl : k < L.length := (List.getElem?_eq_some_iff.1 hp).1
  rw [h.prev_back hp]
  obtain ⟨X, rest, hX, hm⟩ := h.cells hp
  have hu : ((pairTexts c!"?" L).take k).flatten ≠ [] := by
    intro hu
    have := before_lt (A := []) (L := L) hk0 (Nat.le_of_lt hkl)
    simp [before, hu] at this
  have := back_some (o := o) (c := c!"&") (A := X) (u := ((pairTexts c!"?" L).take k).flatten) (s := pairText p)
    (rest := ((pairTexts c!"&" (L.drop (k + 1))).flatten ++ F).map some ++ rest)
    (by rw [hm, lead, if_neg (by omega)]; simp) hu (pairText_noamp h.ok (List.mem_of_getElem? hp) hk) _ (Nat.le_refl _)
  rw [hX] at this
  rw [this]
  simp only [bind, Except.bind]
  have e : A.length + ((pairTexts c!"?" L).take k).flatten.length = (before A L k).length := by rw [before, List.length_append]
  rw [e]
  exact h.parse_pos hp hv _ _

theorem QCtx.prev_first (h : QCtx o A L F) {p : Pair} (hp : L[0]? = some p) (hk : c!"&" ∉ p.1) :
    Params.prev o (posP A L 1) = .ok { posP A L 1 with off := A.length } := by
  rw [h.prev_back hp]
  obtain ⟨X, rest, hX, hm⟩ := h.cells hp
  have := back_none (o := o) (c := c!"&") (A := X) (s := c!"?" :: pairText p)
    (rest := ((pairTexts c!"&" (L.drop 1)).flatten ++ F).map some ++ rest)
    (by rw [hm]; simp [lead]) (by simpa using pairText_noamp h.ok (List.mem_of_getElem? hp) hk) (pairText p).length (by simp)
  simp only [List.take_zero, List.flatten_nil, List.length_nil, Nat.zero_add]
  rw [hX] at this
  rw [this]
  rfl

theorem parse_off_eq {it it' : ParamIt} (h : Params.parse o it = .ok it') : it'.off = it.off := by
  unfold Params.parse at h
  simp only [bind, Except.bind, pure, Except.pure] at h
  repeat' split at h
  all_goals first | (cases h; rfl) | cases h

/-- decrementing stops inside a key that contains an ampersand -/
theorem QCtx.prev_amp (h : QCtx o A L F) {k : Nat} {p : Pair} (hp : L[k]? = some p) (hk : c!"&" ∈ p.1) {it : ParamIt}
    (hit : Params.prev o (posP A L (k + 1)) = .ok it) : it.off ≠ (posP A L k).off := by
  rw [h.prev_back hp] at hit
  obtain ⟨X, rest, hX, hm⟩ := h.cells hp
  have hmem : c!"&" ∈ pairText p := List.mem_append_left _ hk
  obtain ⟨u, s, hus, hs⟩ : ∃ u s, pairText p = u ++ c!"&" :: s ∧ ∀ d ∈ s, d ≠ c!"&" := by
    generalize pairText p = w at hmem
    induction w with
    | nil => cases hmem
    | cons a w ih =>
      by_cases hw : c!"&" ∈ w
      · obtain ⟨u, s, rfl, hs⟩ := ih hw
        exact ⟨a :: u, s, rfl, hs⟩
      · refine ⟨[], w, ?_, fun d hd hc => hw (hc ▸ hd)⟩
        rcases List.mem_cons.1 hmem with rfl | hm
        · rfl
        · exact absurd hm hw
  have := back_some (o := o) (c := c!"&") (A := X) (u := ((pairTexts c!"?" L).take k).flatten ++ lead k :: u) (s := s)
    (rest := ((pairTexts c!"&" (L.drop (k + 1))).flatten ++ F).map some ++ rest)
    (by rw [hm, hus]; simp) (by simp) hs _ (Nat.le_refl _)
  rw [hX] at this
  rw [show ((pairTexts c!"?" L).take k).flatten.length + (pairText p).length = (((pairTexts c!"?" L).take k).flatten ++ lead k :: u).length + s.length by
    rw [hus]; simp only [List.length_append, List.length_cons]; omega, this] at hit
  simp only [bind, Except.bind] at hit
  rw [parse_off_eq hit]
  show A.length + _ ≠ (before A L k).length
  rw [before]
  simp only [List.length_append, List.length_cons]; omega

/-! ### a pair without a value before a fragment -/

theorem mapM_id_some {l : List Cell} {s : Str} (h : l.mapM id = some s) : l = s.map some := by
  induction l generalizing s with
  | nil => cases h; rfl
  | cons a l ih =>
    cases a with
    | none => simp [List.mapM_cons] at h
    | some a =>
      rw [List.mapM_cons] at h
      cases hl : l.mapM id with
      | none => rw [hl] at h; simp at h
      | some t =>
        rw [hl] at h
        simp at h
        subst h
        rw [ih hl]
        rfl

theorem skip_le {e : PctSet} {p q : Nat} {ec ec' : Option Err} (h : Params.skip e o p ec = .ok (q, ec')) (hec : ec ≠ some .no_match) : p ≤ q := by
  unfold Params.skip at h
  split at h
  · cases h
  · split at h
    · rename_i hlt
      simp only [bind, Except.bind, pure, Except.pure] at h
      split at h
      · cases h
      · rename_i s hs
        cases h
        have hl : s.length = o.pt.off id_end - p := by
          unfold Obj.read at hs
          split at hs
          · omega
          · split at hs
            · split at hs
              · rename_i hmm
                cases hs
                have := congrArg List.length (mapM_id_some hmm)
                rw [List.length_take, List.length_drop, List.length_map] at this
                omega
              · cases hs
            · cases hs
        obtain ⟨⟨x, hx⟩, -⟩ := pct_parse_suffix (e := e) s ec hec
        have := congrArg List.length hx
        rw [List.length_append] at this
        omega
    · cases h; exact Nat.le_refl _

theorem collect_beyond {it : ParamIt} (h : o.pt.off id_frag < it.off) (fuel : Nat) (l : List Param) : Params.collect o fuel it ≠ .ok l := by
  induction fuel generalizing it l with
  | zero => simp [Params.collect]
  | succ f ih =>
    intro hc
    rw [Params.collect, params_eq_off (by show it.off ≠ o.pt.off id_frag; omega)] at hc
    simp only [bind, Except.bind, Bool.false_eq_true, if_false] at hc
    split at hc
    · cases hc
    · split at hc
      · cases hc
      · rename_i it' hn
        split at hc
        · cases hc
        · rename_i l' hl
          refine ih (it := it') ?_ l' hl
          unfold Params.next at hn
          simp only [bind, Except.bind, pure, Except.pure] at hn
          repeat' split at hn
          all_goals first | cases hn | skip
          · omega
          · rw [parse_off_eq hn]; show _ < it.off + it.nv + it.nk; omega

/-- `parse` of a pair without a value that is followed by a fragment -/
theorem QCtx.parse_bad (h : QCtx o A L F) {k nk nv : Nat} {p : Pair} (hp : L[k]? = some p) (hv : p.2 = none) (hF : F ≠ []) {it : ParamIt}
    (hit : Params.parse o ⟨(before A L k).length, nk, nv⟩ = .ok it) : o.dbg = false ∧ it.off = (before A L k).length ∧
      o.pt.off id_frag < it.off + it.nv + it.nk := by
  obtain ⟨⟨Y, rest, hY, hm⟩, hend, hfrag⟩ := h.cut hp
  have hkl : k < L.length := (List.getElem?_eq_some_iff.1 hp).1
  have hmem : p ∈ L := List.mem_of_getElem? hp
  have hkey := h.ok.keys p hmem
  obtain ⟨t, rfl⟩ : ∃ t, F = c!"#" :: t := h.stop.resolve_left hF
  have hlast : L.drop (k + 1) = [] := by
    apply List.drop_eq_nil_iff.2
    apply Classical.byContradiction
    intro hlt
    exact h.ok.mid k (by omega) p hp hv
  have htext : pairText p = p.1 := by simp [pairText, hv]
  rw [hlast, htext] at hm hend hfrag
  simp only [pairTexts, List.flatten_nil, List.nil_append, List.length_nil, Nat.add_zero] at hm hend hfrag
  have hoff := parse_off_eq hit
  unfold Params.parse at hit
  rw [assert_not h.n, h.leadAssert hp] at hit
  have h1 := skip_of (o := o) setOf_qkey (B := Y ++ [some (lead k)]) (x := p.1) (r := c!"#" :: t) (rest := rest) (by rw [hm]; simp) hkey
    ⟨by decide, by decide⟩ (by simp [hend, hY])
  rw [List.length_append, List.length_singleton, hY] at h1
  have hne : (before A L k).length + 1 + p.1.length ≠ o.pt.off id_end := by
    rw [hend, List.length_cons]; omega
  have e : o.assert (.ok (Option.isNone (none : Option Err))) = .ok () := by simp [Obj.assert]
  have hb := byte_at (o := o) (A := Y ++ (some (lead k) :: p.1.map some)) (c := c!"#") (rest := t.map some ++ rest) (by rw [hm]; simp)
  have e3 : (Y ++ (some (lead k) :: p.1.map some)).length = (before A L k).length + 1 + p.1.length := by
    simp only [List.length_append, List.length_cons, List.length_map, hY]; omega
  rw [e3] at hb
  simp only [bind, Except.bind, h1, if_neg hne, e, hb, pure, Except.pure] at hit
  cases hd : o.dbg with
  | true =>
    have : o.assert (.ok ((c!"#" : Byte) == c!"=")) = .error .assert := by simp [Obj.assert, hd]
    rw [this] at hit
    cases hit
  | false =>
    refine ⟨rfl, hoff, ?_⟩
    have : o.assert (.ok ((c!"#" : Byte) == c!"=")) = .ok () := by simp [Obj.assert, hd]
    rw [this] at hit
    simp only at hit
    split at hit
    · cases hit
    · rename_i q hq
      have := skip_le (q := q.1) (ec' := q.2) hq (by simp)
      split at hit
      · cases hit
      · cases hit
        simp only
        omega

/-- The loop does not end properly if the last pair has no value and there is a fragment. -/
theorem QCtx.walk_bad (h : QCtx o A L F) {p : Pair} (hp : L.getLast? = some p) (hv : p.2 = none) (hF : F ≠ []) (fuel : Nat) (l : List Param) :
    Params.walk o fuel ≠ .ok l := by
  have hL : L ≠ [] := by rintro rfl; cases hp
  have hl : 0 < L.length := List.length_pos_iff.2 hL
  have hpn : L[L.length - 1]? = some p := by rw [← List.getLast?_eq_getElem?, hp]
  have hgood : ∀ k, k + 1 < L.length → ∀ q, L[k]? = some q → q.2 = none → F = [] := fun k hk q hq hn => absurd hn (h.ok.mid k hk q hq)
  have hpos : ∀ j k, k + j + 1 = L.length → ∀ fuel l it nk nv, Params.parse o ⟨(before A L k).length, nk, nv⟩ = .ok it →
      Params.collect o fuel it ≠ .ok l := by
    intro j
    induction j with
    | zero =>
      intro k hk fuel l it nk nv hit hc
      have hk : k = L.length - 1 := by omega
      subst hk
      obtain ⟨hd, h1, h2⟩ := h.parse_bad hpn hv hF hit
      cases fuel with
      | zero => simp [Params.collect] at hc
      | succ f =>
        have hlt := before_lt (A := A) (L := L) (j := L.length - 1) (k := L.length) (by omega) (Nat.le_refl _)
        rw [← h.frag_before, ← h1] at hlt
        rw [Params.collect, params_eq_off (by show it.off ≠ o.pt.off id_frag; omega)] at hc
        simp only [bind, Except.bind, Bool.false_eq_true, if_false] at hc
        split at hc
        · cases hc
        · split at hc
          · cases hc
          · rename_i it' hn
            split at hc
            · cases hc
            · rename_i l' hl'
              refine collect_beyond (it := it') ?_ f l' hl'
              unfold Params.next at hn
              rw [assert_not h.n, assert_not (by omega)] at hn
              simp only [bind, Except.bind] at hn
              rw [if_neg (by omega)] at hn
              rw [parse_off_eq hn]
              exact h2
    | succ j ih =>
      intro k hk fuel l it nk nv hit hc
      have hkl : k < L.length := by omega
      rw [h.parse_pos (List.getElem?_eq_getElem hkl) (hgood k (by omega) _ (List.getElem?_eq_getElem hkl))] at hit
      cases hit
      cases fuel with
      | zero => simp [Params.collect] at hc
      | succ f =>
        rw [Params.collect, h.eq_last hkl] at hc
        simp only [bind, Except.bind, Bool.false_eq_true, if_false] at hc
        split at hc
        · cases hc
        · split at hc
          · cases hc
          · rename_i it' hn
            split at hc
            · cases hc
            · rename_i l' hl'
              refine ih (k + 1) (by omega) f l' it' (posP A L k).nk (posP A L k).nv ?_ hl'
              unfold Params.next at hn
              have hne : (posP A L k).off ≠ o.pt.off id_frag := by
                rw [h.frag_before]
                exact Nat.ne_of_lt (before_lt hkl (Nat.le_refl _))
              have hne' : (before A L (k + 1)).length ≠ o.pt.off id_frag := by
                rw [h.frag_before]
                exact Nat.ne_of_lt (before_lt (by omega) (Nat.le_refl _))
              rw [assert_not h.n, assert_not hne] at hn
              simp only [bind, Except.bind, posP_sum (List.getElem?_eq_getElem hkl)] at hn
              rw [if_neg hne'] at hn
              exact hn
  intro hw
  rw [Params.walk] at hw
  have hn := h.n
  unfold Params.first at hw
  rw [if_neg (by omega), h.query] at hw
  simp only [bind, Except.bind] at hw
  split at hw
  · cases hw
  · rename_i it hit
    refine hpos (L.length - 1) 0 (by omega) fuel l it 0 0 ?_ hw
    rw [before_zero]
    exact hit

/-! ### components -/

theorem collect_mono {it : ParamIt} {fuel : Nat} {l : List Param} (h : Params.collect o fuel it = .ok l) (n : Nat) :
    Params.collect o (fuel + n) it = .ok l := by
  induction fuel generalizing it l with
  | zero => cases h
  | succ f ih =>
    rw [Params.collect] at h
    rw [show f + 1 + n = (f + n) + 1 by omega, Params.collect]
    simp only [bind, Except.bind] at h ⊢
    cases h1 : Params.eq o it (Params.last o) with
    | error e => rw [h1] at h; cases h
    | ok b =>
      rw [h1] at h
      cases b with
      | true => exact h
      | false =>
        simp only [Bool.false_eq_true, if_false] at h ⊢
        cases h2 : Params.deref o it with
        | error e => rw [h2] at h; cases h
        | ok s =>
          rw [h2] at h
          simp only at h ⊢
          cases h3 : Params.next o it with
          | error e => rw [h3] at h; cases h
          | ok it' =>
            rw [h3] at h
            simp only at h ⊢
            cases h4 : Params.collect o f it' with
            | error e => rw [h4] at h; cases h
            | ok l' =>
              rw [h4] at h
              rw [ih h4]
              exact h

theorem collect_fuel {it : ParamIt} {fuel : Nat} {l : List Param} (h : Params.collect o fuel it = .ok l) : l.length < fuel := by
  induction fuel generalizing it l with
  | zero => cases h
  | succ f ih =>
    rw [Params.collect] at h
    simp only [bind, Except.bind, pure, Except.pure] at h
    split at h
    · cases h
    · split at h
      · cases h; simp
      · split at h
        · cases h
        · split at h
          · cases h
          · split at h
            · cases h
            · rename_i hl
              cases h
              have := ih hl
              simp; omega

/-- If the loop ends, it has visited all pairs. -/
theorem QCtx.walk_inv (h : QCtx o A L F) (hL : L ≠ []) {fuel : Nat} {l : List Param} (hw : Params.walk o fuel = .ok l) :
    l = L.map asParam ∧ L.length < fuel ∧ ∀ p ∈ L, p.2 = none → F = [] := by
  have hv : ∀ p ∈ L, p.2 = none → F = [] := by
    intro p hp hn
    apply Classical.byContradiction
    intro hF
    obtain ⟨k, hk, rfl⟩ := List.mem_iff_getElem.1 hp
    by_cases hlt : k + 1 < L.length
    · exact h.ok.mid k hlt _ (List.getElem?_eq_getElem hk) hn
    · refine h.walk_bad ?_ hn hF fuel l hw
      rw [List.getLast?_eq_getElem?, show L.length - 1 = k by omega, List.getElem?_eq_getElem hk]
  have hg := h.walk_good hL hv (fuel := fuel + (L.length + 1)) (by omega)
  have hm : l = L.map asParam := by
    rw [Params.walk] at hw hg
    cases h1 : Params.first o with
    | error e => rw [h1] at hw; cases hw
    | ok it =>
      rw [h1] at hw hg
      have := collect_mono hw (L.length + 1)
      exact Except.ok.inj (this.symm.trans hg)
  refine ⟨hm, ?_, hv⟩
  rw [Params.walk] at hw
  cases h1 : Params.first o with
  | error e => rw [h1] at hw; cases hw
  | ok it =>
    rw [h1] at hw
    have := collect_fuel hw
    rw [hm, List.length_map] at this
    exact this

theorem params_ctx {c : Components} (h : ObjRep o (compParts c)) {q : Str} (hc : c.query = some q) (hq : QChars q) (hn : o.pt.nparam ≠ 0) :
    QCtx o (preText c ++ c.path) (libPairs q) (fragText c.fragment) := by
  obtain ⟨e1, e2, e3⟩ := plen_parts c
  obtain ⟨rest, hm⟩ := h.mem
  have hqt : queryText c.query = c!"?" :: q := by rw [hc]; rfl
  refine ⟨⟨(preText c ++ c.path).map some, rest, by simp, ?_⟩, ?_, ?_, ?_, ?_, libPairs_pairs hq, by omega⟩
  · rw [hm, libPairs_text hq]; simp [compParts, preText, hqt]
  · rw [h.rep, e2, List.length_append]
  · rw [h.rep, e3, libPairs_text hq, hqt, List.length_append]
  · have : plen (compParts c) id_end = (compParts c).flatten.length := plen_of_le (by rw [compParts_length]; decide)
    rw [h.rep, this, libPairs_text hq]
    simp only [compParts, preText, hqt, List.flatten_cons, List.flatten_append, List.length_append, List.flatten_nil, List.length_nil]
    omega
  · cases c.fragment with
    | none => exact .inl rfl
    | some f => exact .inr ⟨f, rfl⟩

/-! ### pairs and pieces -/

theorem splitAt_length (d : Byte) (s : Str) : (splitAt d s).length = s.count d + 1 := by
  induction s with
  | nil => rfl
  | cons c s ih =>
    rw [splitAt_cons]
    split
    · rename_i hc
      subst hc
      rw [List.length_cons, ih, List.count_cons_self]
    · rename_i hc
      rw [List.count_cons_of_ne hc]
      split
      · rename_i h; exact absurd h (splitAt_ne _ _)
      · rename_i h; rw [h] at ih; simpa using ih

theorem splitAt_single {d : Byte} {s : Str} (h : d ∉ s) : splitAt d s = [s] := by
  induction s with
  | nil => rfl
  | cons c s ih =>
    simp only [List.mem_cons, not_or] at h
    rw [splitAt_cons, if_neg (fun hc => h.1 hc.symm), ih h.2]

theorem splitAt_append {d : Byte} {s t : Str} (h : d ∉ s) : splitAt d (s ++ d :: t) = s :: splitAt d t := by
  induction s with
  | nil => rw [List.nil_append, splitAt_cons, if_pos rfl]
  | cons c s ih =>
    simp only [List.mem_cons, not_or] at h
    rw [List.cons_append, splitAt_cons, if_neg (fun hc => h.1 hc.symm), ih h.2]

theorem mem_cut {d : Byte} {s : Str} (h : d ∈ s) : ∃ u t, s = u ++ d :: t ∧ d ∉ u := by
  induction s with
  | nil => cases h
  | cons c s ih =>
    by_cases hc : c = d
    · subst hc; exact ⟨[], s, rfl, by simp⟩
    · obtain ⟨u, t, rfl, hu⟩ := ih ((List.mem_cons.1 h).resolve_left fun h => hc h.symm)
      exact ⟨c :: u, t, rfl, by simp only [List.mem_cons, not_or]; exact ⟨fun h => hc h.symm, hu⟩⟩

theorem not_mem_of_all {d : Byte} {s : Str} (h : s.all (· != d)) : d ∉ s := fun hm => by
  have := List.all_eq_true.1 h d hm
  simp at this

theorem not_regular {k t : Str} (hk : c!"=" ∉ k) (ha : c!"&" ∈ k) : ¬ Regular (k ++ t) := by
  obtain ⟨u, w, rfl, hu⟩ := mem_cut ha
  intro h
  rw [Regular, List.append_assoc, List.cons_append, splitAt_append hu, List.dropLast_cons_of_ne_nil (splitAt_ne _ _)] at h
  exact hk (List.mem_append_left _ (h u (by simp)))

theorem takeWhile_eq {k v : Str} (hk : c!"=" ∉ k) : (k ++ c!"=" :: v).takeWhile (· != c!"=") = k ∧
    (k ++ c!"=" :: v).dropWhile (· != c!"=") = c!"=" :: v := by
  induction k with
  | nil => simp
  | cons a k ih =>
    simp only [List.mem_cons, not_or] at hk
    obtain ⟨h1, h2⟩ := ih hk.2
    have : a ≠ c!"=" := fun h => hk.1 h.symm
    simp only [List.cons_append, List.takeWhile_cons, List.dropWhile_cons, bne_iff_ne, ne_eq, this, not_false_eq_true, if_true, h1, h2, and_self]

theorem piece_pair {k v : Str} (hk : c!"=" ∉ k) :
    ((k ++ c!"=" :: v).takeWhile (· != c!"="), if (k ++ c!"=" :: v).contains c!"=" then some (((k ++ c!"=" :: v).dropWhile (· != c!"=")).drop 1) else none) =
      (k, some v) := by
  rw [(takeWhile_eq hk).1, (takeWhile_eq hk).2]
  simp

theorem piece_key {k : Str} (hk : c!"=" ∉ k) :
    (k.takeWhile (· != c!"="), if k.contains c!"=" then some ((k.dropWhile (· != c!"=")).drop 1) else none) = (k, (none : Option Str)) := by
  have h1 : k.takeWhile (· != c!"=") = k := by
    induction k with
    | nil => rfl
    | cons a k ih =>
      simp only [List.mem_cons, not_or] at hk
      rw [List.takeWhile_cons_of_pos (by simpa using fun h => hk.1 (Eq.symm h)), ih hk.2]
  rw [h1]
  simp [hk]

theorem eq_mem_regular {k v : Str} (hk : c!"=" ∉ k) (hv : c!"&" ∉ v) (hr : Regular (k ++ c!"=" :: v)) : c!"&" ∉ k ++ c!"=" :: v := by
  intro hm
  rcases List.mem_append.1 hm with h | h
  · exact not_regular hk h hr
  · rcases List.mem_cons.1 h with h | h
    · exact absurd h (by decide)
    · exact hv h

/-- The library finds the pairs of a regular query. -/
theorem libPairs_regular {q : Str} (h : QChars q) (hr : Regular q) : libPairs q = queryPairs q := by
  generalize hn : q.length = n
  induction n using Nat.strongRecOn generalizing q with
  | _ n ih =>
    cases queryForm h with
    | key hk he =>
      have hk' := not_mem_of_all (qkey_noeq hk)
      have ha : c!"&" ∉ q := fun ha => not_regular (t := []) hk' ha (by rwa [List.append_nil])
      rw [he, queryPairs, splitAt_single ha, List.map_singleton, piece_key hk']
    | @value k v hk hv he =>
      have hk' := not_mem_of_all (qkey_noeq hk)
      have hv' := not_mem_of_all (qval_noamp hv)
      rw [he, queryPairs, splitAt_single (eq_mem_regular hk' hv' hr), List.map_singleton, piece_pair hk']
    | @more k v q hk hv hq he =>
      have hk' := not_mem_of_all (qkey_noeq hk)
      have hv' := not_mem_of_all (qval_noamp hv)
      have ha : c!"&" ∉ k ++ c!"=" :: v := by
        intro hm
        rcases List.mem_append.1 hm with h | h
        · exact not_regular hk' h hr
        · rcases List.mem_cons.1 h with h | h
          · exact absurd h (by decide)
          · exact hv' h
      have e : k ++ c!"=" :: (v ++ c!"&" :: q) = (k ++ c!"=" :: v) ++ c!"&" :: q := by simp
      have hr' : Regular q := by
        intro x hx
        refine hr x ?_
        rw [e, splitAt_append ha, List.dropLast_cons_of_ne_nil (splitAt_ne _ _)]
        exact List.mem_cons_of_mem _ hx
      rw [he, ih q.length (by rw [← hn]; simp; omega) hq hr' rfl, queryPairs, queryPairs, e, splitAt_append ha, List.map_cons, piece_pair hk']

/-- Otherwise it finds fewer. -/
theorem libPairs_irregular {q : Str} (h : QChars q) : (libPairs q).length ≤ (splitAt c!"&" q).length ∧
    ((libPairs q).length = (splitAt c!"&" q).length → Regular q) := by
  generalize hn : q.length = n
  induction n using Nat.strongRecOn generalizing q with
  | _ n ih =>
    have hone : ∀ s : Str, (splitAt c!"&" s).length = 1 → Regular s := by
      intro s hs x hx
      obtain ⟨y, hy⟩ := List.length_eq_one_iff.1 hs
      rw [hy] at hx
      simp at hx
    have hpos : ∀ s : Str, 1 ≤ (splitAt c!"&" s).length := fun s => by rw [splitAt_length]; omega
    cases queryForm h with
    | key hk he =>
      rw [he]
      exact ⟨hpos _, fun h => hone _ h.symm⟩
    | @value k v hk hv he =>
      rw [he]
      exact ⟨hpos _, fun h => hone _ h.symm⟩
    | @more k v q hk hv hq he =>
      obtain ⟨h1, h2⟩ := ih q.length (by rw [← hn]; simp; omega) hq rfl
      rw [he]
      have hlen : (splitAt c!"&" (k ++ c!"=" :: (v ++ c!"&" :: q))).length = k.count c!"&" + v.count c!"&" + 1 + (splitAt c!"&" q).length := by
        simp only [splitAt_length, List.count_append, List.count_cons_self, List.count_cons_of_ne (show c!"=" ≠ c!"&" by decide)]; omega
      rw [hlen, List.length_cons]
      refine ⟨by omega, fun heq => ?_⟩
      have hk0 : k.count c!"&" = 0 := by omega
      have hv0 : v.count c!"&" = 0 := by omega
      have hr := h2 (by omega)
      have e : k ++ c!"=" :: (v ++ c!"&" :: q) = (k ++ c!"=" :: v) ++ c!"&" :: q := by simp
      have ha : c!"&" ∉ k ++ c!"=" :: v := by
        simp only [List.mem_append, List.mem_cons, not_or]
        exact ⟨List.count_eq_zero.1 hk0, by decide, List.count_eq_zero.1 hv0⟩
      intro x hx
      rw [e, splitAt_append ha, List.dropLast_cons_of_ne_nil (splitAt_ne _ _)] at hx
      rcases List.mem_cons.1 hx with rfl | hx
      · simp
      · exact hr x hx

end Url
