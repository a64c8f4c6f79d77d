import Verif.Model.Segments
import Verif.Proofs.View

/-!
The segment iterators: the positions they take and the strings they yield.
-/

set_option linter.unusedSimpArgs false
attribute [-simp] List.length_flatten

namespace Url
open Spec

/-! ### the pieces of a path -/

/-- A path cut before every slash. -/
def pieces : Str → List Str
  | [] => []
  | c :: t =>
    match pieces t with
    | [] => [[c]]
    | p :: ps => if p.head? = some c!"/" then [c] :: p :: ps else (c :: p) :: ps

/-- a piece without its slash -/
def strip : Str → Str
  | [] => []
  | c :: t => if c = c!"/" then t else c :: t

def notSlash (c : Byte) : Bool := c != c!"/"

theorem pieces_cons (c : Byte) (t : Str) :
    pieces (c :: t) = (c :: t.takeWhile notSlash) :: pieces (t.dropWhile notSlash) := by
  induction t generalizing c with
  | nil => rfl
  | cons d t ih =>
    rw [pieces, ih d]
    by_cases hd : d = c!"/"
    · subst hd
      simp only [List.head?_cons, if_pos]
      rw [List.takeWhile_cons_of_neg (by decide), List.dropWhile_cons_of_neg (by decide), ih]
    · have : notSlash d = true := by simp [notSlash, hd]
      simp only [List.head?_cons, Option.some.injEq, hd, if_neg, not_false_eq_true]
      rw [List.takeWhile_cons_of_pos this, List.dropWhile_cons_of_pos this]

theorem pieces_flatten (p : Str) : (pieces p).flatten = p := by
  match p with
  | [] => rfl
  | c :: t =>
    rw [pieces_cons, List.flatten_cons, pieces_flatten (t.dropWhile notSlash)]
    simp [List.takeWhile_append_dropWhile]
termination_by p.length
decreasing_by
  have := (List.dropWhile_sublist notSlash (l := t)).length_le
  simp; omega

theorem pieces_drop (p : Str) (k : Nat) : pieces ((pieces p).drop k).flatten = (pieces p).drop k := by
  induction k generalizing p with
  | zero => rw [List.drop_zero, pieces_flatten]
  | succ k ih =>
    cases p with
    | nil => rfl
    | cons c t =>
      rw [pieces_cons, List.drop_succ_cons]
      exact ih _

theorem pieces_eq_nil {p : Str} : pieces p = [] ↔ p = [] := by
  constructor
  · intro h
    rw [← pieces_flatten p, h]; rfl
  · rintro rfl; rfl

theorem pieces_ne {p q : Str} (h : q ∈ pieces p) : q ≠ [] := by
  match p with
  | [] => simp [pieces] at h
  | c :: t =>
    rw [pieces_cons, List.mem_cons] at h
    rcases h with rfl | h
    · simp
    · exact pieces_ne h
termination_by p.length
decreasing_by
  have := (List.dropWhile_sublist notSlash (l := t)).length_le
  simp; omega

theorem splitAt_cons (c d : Byte) (t : Str) :
    splitAt d (c :: t) = if c = d then [] :: splitAt d t else
      match splitAt d t with | [] => [[c]] | h :: r => (c :: h) :: r := rfl

theorem splitAt_ne (d : Byte) (t : Str) : splitAt d t ≠ [] := by
  induction t with
  | nil => simp [splitAt]
  | cons c t ih =>
    rw [splitAt_cons]
    split
    · simp
    · split <;> simp

/-- the first segment and the others -/
theorem splitAt_first (t : Str) :
    splitAt c!"/" t = t.takeWhile notSlash :: (pieces (t.dropWhile notSlash)).map strip := by
  match t with
  | [] => rfl
  | c :: t =>
    have ih := splitAt_first t
    rw [splitAt_cons]
    split
    · rename_i hc
      subst hc
      rw [List.takeWhile_cons_of_neg (by decide), List.dropWhile_cons_of_neg (by decide), pieces_cons, ih]
      simp [strip]
    · rename_i hc
      have hc : notSlash c = true := by simp [notSlash, hc]
      rw [ih, List.takeWhile_cons_of_pos hc, List.dropWhile_cons_of_pos hc]

/-- The segments are the pieces without slashes. -/
theorem pieces_strip (p : Str) : (pieces p).map strip = pathSegments p := by
  cases p with
  | nil => rfl
  | cons c t =>
    rw [pieces_cons, pathSegments]
    by_cases hc : c = c!"/"
    · subst hc
      rw [if_pos rfl, splitAt_first]
      simp [strip]
    · rw [if_neg hc, splitAt_cons, if_neg hc, splitAt_first]
      simp [strip, hc]

theorem pieces_length (p : Str) : (pieces p).length = (pathSegments p).length := by
  rw [← pieces_strip, List.length_map]

/-- every piece but the first starts with a slash -/
theorem pieces_tail_slash {p x : Str} (h : x ∈ (pieces p).drop 1) : ∃ s, x = c!"/" :: s ∧ s.all notSlash = true := by
  match p with
  | [] => simp [pieces] at h
  | c :: t =>
    rw [pieces_cons, List.drop_succ_cons, List.drop_zero] at h
    match ht : t.dropWhile notSlash with
    | [] => rw [ht] at h; simp [pieces] at h
    | d :: u =>
      have hd : d = c!"/" := by
        have := List.head_dropWhile_not (l := t) notSlash (by rw [ht]; simp)
        simp only [ht, List.head_cons] at this
        simpa [notSlash] using this
      subst hd
      rw [ht, pieces_cons, List.mem_cons] at h
      rcases h with rfl | h
      · exact ⟨_, rfl, List.all_takeWhile⟩
      · refine pieces_tail_slash (p := c!"/" :: u) ?_
        rw [pieces_cons]
        exact h
termination_by p.length
decreasing_by
  have := (List.dropWhile_sublist notSlash (l := t)).length_le
  rw [ht] at this
  simp at this ⊢; omega

theorem pieces_head_tail {c : Byte} {t x : Str} (h : (pieces (c :: t)).head? = some x) : ∃ s, x = c :: s ∧ s.all notSlash = true := by
  rw [pieces_cons] at h
  cases h
  exact ⟨_, rfl, List.all_takeWhile⟩

/-! ### reading -/

variable {o : Obj} {lim : Nat}

theorem byte_at {A : List Cell} {c : Byte} {rest : List Cell} (h : o.mem = A ++ (some c :: rest)) : o.byte A.length = .ok c := by
  have : o.mem[A.length]? = some (some c) := by
    rw [h, List.getElem?_append_right (by simp)]; simp
  simp [Obj.byte, this]

theorem byte_of {A : Str} {c : Byte} {rest : List Cell} (h : o.mem = A.map some ++ (some c :: rest)) : o.byte A.length = .ok c := by
  simpa using byte_at h

theorem read_at {A : List Cell} {B : Str} {rest : List Cell} (h : o.mem = A ++ (B.map some ++ rest)) : o.read A.length B.length = .ok B := by
  unfold Obj.read
  split
  · rename_i h0
    rw [List.length_eq_zero_iff.1 h0]
  · rw [if_pos (by rw [h]; simp), h, List.drop_left, List.take_left' (by simp), mapM_some]

theorem scan_of {A : List Cell} {s : Str} {rest : List Cell} (h : o.mem = A ++ (s.map some ++ rest)) :
    Seg.scan o s.length A.length = .ok (A.length + (s.takeWhile notSlash).length) := by
  induction s generalizing A with
  | nil => rfl
  | cons c t ih =>
    rw [List.length_cons, Seg.scan, byte_at (c := c) (rest := t.map some ++ rest) (by simpa using h)]
    simp only [bind, Except.bind]
    by_cases hc : c = c!"/"
    · subst hc
      rw [List.takeWhile_cons_of_neg (by decide)]
      rfl
    · have hn : notSlash c = true := by simp [notSlash, hc]
      have := ih (A := A ++ [some c]) (by simp [h])
      rw [List.length_append, List.length_singleton] at this
      rw [if_neg (by simpa using hc), this, List.takeWhile_cons_of_pos hn, List.length_cons, Nat.add_assoc, Nat.add_comm 1]

theorem assert_not {o : Obj} {p : Prop} [Decidable p] (h : p) : o.assert (.ok (decide p)) = .ok () := by
  simp [Obj.assert, h]

/-- `parse` at the start of a piece -/
theorem parse_at {A : List Cell} {t : Str} {c : Byte} {rest : List Cell} {n : Nat} (h : o.mem = A ++ ((c :: t).map some ++ rest))
    (hlim : o.pt.off lim = A.length + (t.length + 1)) (hf : A.length ≠ o.pt.off id_frag) :
    Seg.parse lim o { off := A.length, n := n } = .ok { off := A.length, n := (t.takeWhile notSlash).length + 1 } := by
  unfold Seg.parse
  rw [assert_not hf, byte_at (c := c) (rest := t.map some ++ rest) (by simpa using h), hlim]
  simp only [bind, Except.bind]
  by_cases hc : c = c!"/"
  · subst hc
    have := scan_of (o := o) (A := A ++ [some c!"/"]) (s := t) (rest := rest) (by simp [h])
    rw [List.length_append, List.length_singleton] at this
    simp only [beq_self_eq_true, if_true]
    rw [show A.length + (t.length + 1) - (A.length + 1) = t.length by omega, this]
    simp only [pure, Except.pure, Except.ok.injEq, SegIt.mk.injEq, true_and]
    omega
  · have hn : notSlash c = true := by simp [notSlash, hc]
    have := scan_of (s := c :: t) h
    rw [List.takeWhile_cons_of_pos hn] at this
    have hb : (c == c!"/") = false := by simpa using hc
    simp only [hb, Bool.false_eq_true, if_false]
    rw [show A.length + (t.length + 1) - A.length = (c :: t).length by simp, this]
    simp only [pure, Except.pure, Except.ok.injEq, SegIt.mk.injEq, true_and, List.length_cons]
    omega

theorem parse_of {A t : Str} {c : Byte} {rest : List Cell} {n : Nat} (h : o.mem = A.map some ++ ((c :: t).map some ++ rest))
    (hlim : o.pt.off lim = A.length + (t.length + 1)) (hf : A.length ≠ o.pt.off id_frag) :
    Seg.parse lim o { off := A.length, n := n } = .ok { off := A.length, n := (t.takeWhile notSlash).length + 1 } := by
  simpa using parse_at (lim := lim) (n := n) h (by simpa using hlim) (by simpa using hf)

/-- `parse` at the end, where something other than a slash follows -/
theorem parse_end {A : List Cell} {c : Byte} {rest : List Cell} {n : Nat} (h : o.mem = A ++ (some c :: rest)) (hc : c ≠ c!"/")
    (hlim : o.pt.off lim = A.length) (hf : A.length ≠ o.pt.off id_frag) :
    Seg.parse lim o { off := A.length, n := n } = .ok { off := A.length, n := 0 } := by
  unfold Seg.parse
  have hb : (c == c!"/") = false := by simpa using hc
  rw [assert_not hf, byte_at h, hlim]
  simp [bind, Except.bind, hb, Seg.scan, pure, Except.pure]

/-! ### positions -/

/-- The iterator walks over the text `R`, which starts at the path and ends where `parse` stops. Of `A`, which stands for
the cells before the path, only the length counts. -/
structure SegCtx (o : Obj) (lim : Nat) (A R : Str) : Prop where
  mem : ∃ X rest, X.length = A.length ∧ o.mem = X ++ (R.map some ++ rest) ∧
    (o.pt.off id_frag ≠ A.length + R.length → ∃ c r, rest = some c :: r ∧ c ≠ c!"/")
  path : o.pt.off id_path = A.length
  lim : o.pt.off lim = A.length + R.length
  frag : A.length + R.length ≤ o.pt.off id_frag

/-- the iterator that points to piece `k` -/
def posIt (A R : Str) (k : Nat) : SegIt where
  off := A.length + ((pieces R).take k).flatten.length
  n := (((pieces R).drop k).head?.getD []).length

variable {A R : Str}

theorem flatten_take_drop (P : List Str) (k : Nat) : (P.take k).flatten ++ (P.drop k).flatten = P.flatten := by
  rw [← List.flatten_append, List.take_append_drop]

theorem piece_at {k : Nat} (hk : k < (pieces R).length) :
    ∃ c s v, (pieces R).drop k = (c :: s) :: (pieces R).drop (k + 1) ∧ s.all notSlash = true ∧
      v = ((pieces R).drop (k + 1)).flatten ∧ (v = [] ∨ ∃ w, v = c!"/" :: w) ∧
      R = ((pieces R).take k).flatten ++ (c :: s ++ v) ∧ (k ≠ 0 → c = c!"/") := by
  have hd : (pieces R).drop k = (pieces R)[k] :: (pieces R).drop (k + 1) := List.drop_eq_getElem_cons hk
  have hne : (pieces R)[k] ≠ [] := pieces_ne (List.getElem_mem hk)
  obtain ⟨c, s, hcs⟩ := List.exists_cons_of_ne_nil hne
  rw [hcs] at hd
  refine ⟨c, s, _, hd, ?_, rfl, ?_, ?_, ?_⟩
  · have := pieces_drop R k
    rw [hd, List.flatten_cons, List.cons_append] at this
    obtain ⟨s', h1, h2⟩ := pieces_head_tail (c := c) (t := s ++ ((pieces R).drop (k + 1)).flatten) (x := c :: s) (by rw [this]; rfl)
    cases h1
    exact h2
  · cases hq : (pieces R).drop (k + 1) with
    | nil => exact .inl rfl
    | cons x xs =>
      right
      obtain ⟨s', rfl, -⟩ := pieces_tail_slash (p := R) (x := x) (by
        have : x ∈ (pieces R).drop (k + 1) := by rw [hq]; simp
        rw [show k + 1 = 1 + k by omega, ← List.drop_drop] at this
        exact List.mem_of_mem_drop this)
      exact ⟨s' ++ xs.flatten, by simp⟩
  · have h1 := flatten_take_drop (pieces R) k
    rw [hd, pieces_flatten] at h1
    exact h1.symm
  · intro h0
    obtain ⟨s', h1, -⟩ := pieces_tail_slash (p := R) (x := c :: s) (by
      have : (c :: s) ∈ (pieces R).drop k := by rw [hd]; simp
      rw [show k = 1 + (k - 1) by omega, ← List.drop_drop] at this
      exact List.mem_of_mem_drop this)
    cases h1; rfl

theorem takeWhile_stop {s v : Str} (hs : s.all notSlash = true) (hv : v = [] ∨ ∃ w, v = c!"/" :: w) :
    (s ++ v).takeWhile notSlash = s := by
  have hs' : ∀ a ∈ s, notSlash a = true := by simpa using hs
  rw [List.takeWhile_append_of_pos hs']
  rcases hv with rfl | ⟨w, rfl⟩
  · simp
  · rw [List.takeWhile_cons_of_neg (by decide)]; simp

theorem SegCtx.parse_pos (h : SegCtx o lim A R) {k n : Nat} (hk : k < (pieces R).length) :
    Seg.parse lim o { off := (posIt A R k).off, n := n } = .ok (posIt A R k) := by
  obtain ⟨X, rest, hX, hm, -⟩ := h.mem
  obtain ⟨c, s, v, hd, hs, -, hv, hR, -⟩ := piece_at hk
  have hlen : (X ++ ((pieces R).take k).flatten.map some).length = (posIt A R k).off := by simp [posIt, hX, -List.map_flatten]
  have hRl := congrArg List.length hR
  simp only [List.length_append, List.length_cons] at hRl
  have := parse_at (o := o) (lim := lim) (A := X ++ ((pieces R).take k).flatten.map some) (t := s ++ v) (c := c) (rest := rest) (n := n)
    (by rw [hm]; conv => lhs; rw [hR]
        simp [-List.map_flatten])
    (by rw [h.lim]; simp only [List.length_append, List.length_map, hX]; omega)
    (by have := h.frag; simp only [List.length_append, List.length_map, hX]; omega)
  rw [hlen, takeWhile_stop hs hv] at this
  rw [this]
  simp [posIt, hd]

theorem posIt_end_off (A R : Str) : (posIt A R (pieces R).length).off = A.length + R.length := by
  simp [posIt, pieces_flatten]

theorem posIt_end (A R : Str) : posIt A R (pieces R).length = { off := A.length + R.length, n := 0 } := by
  simp [posIt, pieces_flatten]

theorem posIt_off_succ {k : Nat} (hk : k < (pieces R).length) : (posIt A R (k + 1)).off = (posIt A R k).off + (posIt A R k).n := by
  have hd : (pieces R).drop k = (pieces R)[k] :: (pieces R).drop (k + 1) := List.drop_eq_getElem_cons hk
  simp only [posIt, hd, List.head?_cons, Option.getD_some]
  rw [List.take_succ_eq_append_getElem hk]
  simp only [List.flatten_append, List.length_append, List.flatten_cons, List.flatten_nil, List.length_nil]
  omega

theorem posIt_n_pos {k : Nat} (hk : k < (pieces R).length) : 0 < (posIt A R k).n := by
  obtain ⟨c, s, v, hd, -⟩ := piece_at hk
  simp [posIt, hd]

theorem posIt_off_le (k : Nat) : (posIt A R k).off ≤ A.length + R.length := by
  have h1 := flatten_take_drop (pieces R) k
  rw [pieces_flatten] at h1
  have h2 := congrArg List.length h1
  simp only [List.length_append] at h2
  simp only [posIt]; omega

theorem posIt_off_lt {k : Nat} (hk : k < (pieces R).length) : (posIt A R k).off < A.length + R.length := by
  have := posIt_off_le (A := A) (R := R) (k + 1)
  rw [posIt_off_succ hk] at this
  have := posIt_n_pos (A := A) hk
  omega

theorem SegCtx.next_pos (h : SegCtx o lim A R) {k : Nat} (hk : k < (pieces R).length) :
    Seg.next lim o (posIt A R k) = .ok (posIt A R (k + 1)) := by
  have hlt := posIt_off_lt (A := A) hk
  have hfr := h.frag
  unfold Seg.next
  rw [assert_not (by omega), ← posIt_off_succ hk]
  simp only [bind, Except.bind]
  by_cases hk' : k + 1 < (pieces R).length
  · have := posIt_off_lt (A := A) hk'
    rw [if_neg (by omega), h.parse_pos hk']
  · have hk1 : (pieces R).length = k + 1 := by omega
    have e := posIt_end A R
    rw [hk1] at e
    rw [e]
    split
    · rfl
    · rename_i hne
      obtain ⟨X, rest, hX, hm, hr⟩ := h.mem
      obtain ⟨c, r, rfl, hc⟩ := hr (fun h => hne h.symm)
      have := parse_end (o := o) (lim := lim) (A := X ++ R.map some) (c := c) (rest := r) (n := (posIt A R k).n) (by simp [hm]) hc
        (by rw [h.lim]; simp [hX]) (by simpa [hX] using hne)
      simpa [hX] using this

theorem SegCtx.deref_pos (h : SegCtx o lim A R) {k : Nat} (hk : k < (pieces R).length) :
    Seg.deref o (posIt A R k) = .ok (strip (pieces R)[k]) := by
  obtain ⟨X, rest, hX, hm, -⟩ := h.mem
  obtain ⟨c, s, v, hd, hs, -, hv, hR, -⟩ := piece_at hk
  have hx : (pieces R)[k] = c :: s := by
    have : (pieces R).drop k = (pieces R)[k] :: (pieces R).drop (k + 1) := List.drop_eq_getElem_cons hk
    rw [this] at hd
    exact (List.cons.inj hd).1
  have := read_at (o := o) (A := X ++ ((pieces R).take k).flatten.map some) (B := c :: s) (rest := v.map some ++ rest)
    (by rw [hm]; conv => lhs; rw [hR]
        simp [-List.map_flatten])
  unfold Seg.deref
  have e : o.read (posIt A R k).off (posIt A R k).n = .ok (c :: s) := by
    simpa [posIt, hd, hX, -List.map_flatten] using this
  rw [e, hx]
  simp only [bind, Except.bind, strip, pure, Except.pure]

/-! ### decrementing -/

theorem map_cut {s : Str} {k : Nat} (h : k < s.length) :
    s.map some = (s.take k).map some ++ some s[k] :: (s.drop (k + 1)).map some := by
  rw [← List.map_cons, ← List.drop_eq_getElem_cons h, ← List.map_append, List.take_append_drop]

theorem back_none {c : Byte} {A : List Cell} {s : Str} {rest : List Cell} (h : o.mem = A ++ (s.map some ++ rest))
    (hs : ∀ d ∈ s.drop 1, d ≠ c) (k : Nat) (hk : k + 1 ≤ s.length) : Seg.back o c A.length k = .ok none := by
  induction k with
  | zero => rfl
  | succ k ih =>
    have hlt : k + 1 < s.length := by omega
    have hb : o.byte (A.length + (k + 1)) = .ok s[k + 1] := by
      have := byte_at (o := o) (A := A ++ (s.take (k + 1)).map some) (c := s[k + 1]) (rest := (s.drop (k + 2)).map some ++ rest) (by
        rw [h, map_cut hlt]
        simp only [List.append_assoc, List.cons_append])
      simpa [Nat.min_eq_left (Nat.le_of_lt hlt)] using this
    have hne : s[k + 1] ≠ c := hs _ (by
      rw [List.mem_iff_getElem]
      exact ⟨k, by simp; omega, by simp [Nat.add_comm]⟩)
    rw [Seg.back, hb]
    simp only [bind, Except.bind]
    rw [if_neg (by simpa using hne)]
    exact ih (by omega)

theorem back_some {c : Byte} {A : List Cell} {u s : Str} {rest : List Cell} (h : o.mem = A ++ ((u ++ c :: s).map some ++ rest))
    (hu : u ≠ []) (hs : ∀ d ∈ s, d ≠ c) (k : Nat) (hk : k ≤ s.length) :
    Seg.back o c A.length (u.length + k) = .ok (some (A.length + u.length)) := by
  have hul : 0 < u.length := List.length_pos_iff.2 hu
  induction k with
  | zero =>
    obtain ⟨j, hj⟩ : ∃ j, u.length = j + 1 := ⟨u.length - 1, by omega⟩
    have hb := byte_at (o := o) (A := A ++ u.map some) (c := c) (rest := s.map some ++ rest) (by rw [h]; simp)
    rw [List.length_append, List.length_map] at hb
    rw [Nat.add_zero, hj, Seg.back, ← hj, hb]
    simp [bind, Except.bind, pure, Except.pure]
  | succ k ih =>
    have hlt : k < s.length := by omega
    have hb := byte_at (o := o) (A := A ++ u.map some ++ some c :: (s.take k).map some) (c := s[k]) (rest := (s.drop (k + 1)).map some ++ rest) (by
        rw [h, List.map_append, List.map_cons, map_cut hlt]
        simp only [List.append_assoc, List.cons_append, List.map_append, List.map_cons])
    have hl : (A ++ u.map some ++ some c :: (s.take k).map some).length = A.length + (u.length + k + 1) := by
      simp [Nat.min_eq_left (Nat.le_of_lt hlt)]; omega
    rw [hl] at hb
    rw [← Nat.add_assoc, Seg.back, hb]
    simp only [bind, Except.bind]
    rw [if_neg (by simpa using hs _ (List.getElem_mem hlt))]
    exact ih (by omega)

theorem SegCtx.prev_pos (h : SegCtx o lim A R) {k : Nat} (hk : k < (pieces R).length) :
    Seg.prev lim o (posIt A R (k + 1)) = .ok (posIt A R k) := by
  obtain ⟨X, rest, hX, hm, -⟩ := h.mem
  obtain ⟨c, s, v, hd, hs, -, hv, hR, hc⟩ := piece_at hk
  have hoff : (posIt A R k).off = A.length + ((pieces R).take k).flatten.length := rfl
  have hn : (posIt A R k).n = s.length + 1 := by simp [posIt, hd]
  have hs' : ∀ d ∈ s, d ≠ c!"/" := by
    intro d hd'
    have := List.all_eq_true.1 hs d hd'
    simpa [notSlash] using this
  unfold Seg.prev
  simp only [h.path]
  rw [assert_not (by rw [posIt_off_succ hk]; omega), posIt_off_succ hk]
  simp only [bind, Except.bind]
  rw [if_neg (by omega)]
  by_cases h0 : k = 0
  · subst h0
    have h00 : (posIt A R 0).off = A.length := by simp [posIt]
    have := back_none (o := o) (c := c!"/") (A := X) (s := c :: s) (rest := v.map some ++ rest)
      (by rw [hm]; conv => lhs; rw [hR]
          simp [-List.map_flatten]) (by simpa using hs') s.length (by simp)
    rw [hX] at this
    rw [h00, hn, show A.length + (s.length + 1) - A.length - 1 = s.length by omega, this]
    simp only [pure, Except.pure, Except.ok.injEq]
    calc _ = SegIt.mk (posIt A R 0).off (posIt A R 0).n := by rw [h00, hn]; simp
      _ = posIt A R 0 := rfl
  · obtain rfl := hc h0
    have hu : ((pieces R).take k).flatten ≠ [] := by
      have h1 : (pieces R).take k ≠ [] := by
        intro h1
        rw [List.take_eq_nil_iff] at h1
        rcases h1 with h1 | h1
        · exact h0 h1
        · rw [h1] at hk; simp at hk
      obtain ⟨x, xs, hx⟩ := List.exists_cons_of_ne_nil h1
      have hxm : x ∈ pieces R := List.mem_of_mem_take (by rw [hx]; simp)
      have := pieces_ne hxm
      rw [hx]; simp [this]
    have := back_some (o := o) (c := c!"/") (A := X) (u := ((pieces R).take k).flatten) (s := s) (rest := v.map some ++ rest)
      (by rw [hm]; conv => lhs; rw [hR]
          simp [-List.map_flatten]) hu hs' s.length (by simp)
    rw [hX] at this
    rw [hn, hoff, show A.length + ((pieces R).take k).flatten.length + (s.length + 1) - A.length - 1 =
      ((pieces R).take k).flatten.length + s.length by omega, this]
    simp only
    rw [← hoff, h.parse_pos hk]

/-! ### walking -/

theorem eq_off (o : Obj) {a b : SegIt} (h : a.off ≠ b.off) : Seg.eq o a b = .ok false := by
  unfold Seg.eq
  rw [assert_not (.inl h)]
  simp [bind, Except.bind, pure, Except.pure, h]

theorem eq_self (o : Obj) (a : SegIt) : Seg.eq o a a = .ok true := by
  unfold Seg.eq
  rw [assert_not (.inr rfl)]
  simp [bind, Except.bind, pure, Except.pure]

theorem posIt_last (ho : o.pt.off id_query = A.length + R.length) : posIt A R (pieces R).length = Seg.last o := by
  rw [posIt_end, Seg.last, ho]

theorem SegCtx.collect_good (h : SegCtx o lim A R) (ho : o.pt.off id_query = A.length + R.length) {k fuel : Nat}
    (hk : k ≤ (pieces R).length) (hf : (pieces R).length - k < fuel) :
    Seg.collect lim o fuel (posIt A R k) = .ok (((pieces R).drop k).map strip) := by
  induction fuel generalizing k with
  | zero => omega
  | succ fuel ih =>
    rw [Seg.collect]
    by_cases he : k = (pieces R).length
    · subst he
      rw [posIt_last ho, eq_self]
      simp [bind, Except.bind, pure, Except.pure]
    · have hk' : k < (pieces R).length := by omega
      rw [eq_off o (by have := posIt_off_lt (A := A) hk'; simp only [Seg.last, ho]; omega), h.deref_pos hk', h.next_pos hk']
      simp only [bind, Except.bind, Bool.false_eq_true, if_false]
      rw [ih (by omega) (by omega), List.drop_eq_getElem_cons hk']
      rfl

theorem SegCtx.first_pos (h : SegCtx o lim A R) (hn : o.pt.nseg ≠ 0) (hR : R ≠ []) : Seg.first lim o = .ok (posIt A R 0) := by
  have : 0 < (pieces R).length := List.length_pos_iff.2 fun h => hR (pieces_eq_nil.1 h)
  have h0 := h.parse_pos (n := 0) this
  rw [Seg.first, if_neg hn, h.path]
  simpa [posIt] using h0

theorem first_empty (hn : o.pt.nseg = 0) : Seg.first lim o = .ok (Seg.last o) := by rw [Seg.first, if_pos hn]

theorem SegCtx.walk_good (h : SegCtx o lim A R) (ho : o.pt.off id_query = A.length + R.length)
    (hn : o.pt.nseg = 0 ↔ R = []) {fuel : Nat} (hf : (pathSegments R).length < fuel) :
    Seg.walk lim o fuel = .ok (pathSegments R) := by
  unfold Seg.walk
  rw [← pieces_length] at hf
  by_cases hR : R = []
  · have hl := posIt_last ho
    rw [first_empty (hn.2 hR)]
    have := h.collect_good ho (k := (pieces R).length) (fuel := fuel) (by omega) (by omega)
    rw [hl] at this
    simp only [bind, Except.bind]
    rw [this, hR]
    rfl
  · rw [h.first_pos (fun h => hR (hn.1 h)) hR]
    have := h.collect_good ho (k := 0) (fuel := fuel) (by omega) (by omega)
    simp only [bind, Except.bind]
    rw [this, List.drop_zero, pieces_strip]

/-- the iterators that incrementing `begin()` leads to -/
theorem SegCtx.nth_pos (h : SegCtx o lim A R) (hn : o.pt.nseg ≠ 0) (hR : R ≠ []) {k : Nat} (hk : k ≤ (pieces R).length) :
    Seg.nth lim o k = .ok (posIt A R k) := by
  induction k with
  | zero => exact h.first_pos hn hR
  | succ k ih =>
    rw [Seg.nth, ih (by omega)]
    simp only [bind, Except.bind]
    exact h.next_pos hk

/-- Walking over more than the path: the end is never found. -/
theorem SegCtx.collect_bad (h : SegCtx o lim A R) (hfr : o.pt.off id_frag = A.length + R.length)
    (hne : ∀ k, k ≤ (pieces R).length → (posIt A R k).off ≠ o.pt.off id_query) {k fuel : Nat} (hk : k ≤ (pieces R).length) :
    Seg.collect lim o fuel (posIt A R k) = .error (if o.dbg = true ∧ (pieces R).length - k < fuel then .assert else .diverge) := by
  induction fuel generalizing k with
  | zero => simp [Seg.collect]
  | succ fuel ih =>
    rw [Seg.collect, eq_off o (by simpa [Seg.last] using hne k hk)]
    simp only [bind, Except.bind, Bool.false_eq_true, if_false]
    by_cases he : k = (pieces R).length
    · subst he
      rw [posIt_end]
      have hd : Seg.deref o { off := A.length + R.length, n := 0 } = .ok [] := by
        simp [Seg.deref, Obj.read, bind, Except.bind, pure, Except.pure]
      rw [hd]
      simp only [Seg.next, Obj.assert, hfr]
      cases hdbg : o.dbg
      · simp only [bind, Except.bind]
        have := ih (k := (pieces R).length) (by omega)
        rw [posIt_end, hdbg] at this
        simp [this, pure, Except.pure]
      · simp [bind, Except.bind]
    · have hk' : k < (pieces R).length := by omega
      rw [h.deref_pos hk', h.next_pos hk']
      simp only [bind, Except.bind]
      rw [ih (k := k + 1) (by omega)]
      have : ((pieces R).length - (k + 1) < fuel) ↔ ((pieces R).length - k < fuel + 1) := by omega
      simp only [this]

/-! ### components -/

/-- the text before the path -/
def preText (c : Components) : Str := schemeText c.scheme ++ (authTexts c.auth).flatten

theorem plen_parts (c : Components) :
    plen (compParts c) id_path = (preText c).length ∧ plen (compParts c) id_query = (preText c).length + c.path.length ∧
    plen (compParts c) id_frag = (preText c).length + c.path.length + (queryText c.query).length := by
  have hl : (schemeText c.scheme :: authTexts c.auth).length = 5 := by simp [authTexts_length]
  have e : ∀ i, plen (compParts c) (5 + i) = (preText c).length + plen [c.path, queryText c.query, fragText c.fragment] i := by
    intro i
    unfold compParts
    rw [← hl, plen_append_right]
    simp [preText, List.flatten_cons]
  refine ⟨?_, ?_, ?_⟩
  · simpa using e 0
  · simpa [plen] using e 1
  · simpa [plen, Nat.add_assoc] using e 2

theorem queryText_cons {q : Option Str} (h : queryText q ≠ []) : ∃ s, queryText q = c!"?" :: s := by
  cases q with
  | none => simp [queryText] at h
  | some q => exact ⟨q, rfl⟩

theorem base_ctx {c : Components} (h : ObjRep o (compParts c)) : SegCtx o id_query (preText c) c.path := by
  obtain ⟨e1, e2, e3⟩ := plen_parts c
  obtain ⟨rest, hm⟩ := h.mem
  refine ⟨⟨(preText c).map some, (queryText c.query).map some ++ ((fragText c.fragment).map some ++ rest), by simp, ?_, ?_⟩, ?_, ?_, ?_⟩
  · rw [hm]; simp [compParts, preText]
  · rw [h.rep, e3]
    intro hne
    obtain ⟨s, hs⟩ := queryText_cons (q := c.query) (fun h => hne (by rw [h]; simp))
    exact ⟨c!"?", s.map some ++ ((fragText c.fragment).map some ++ rest), by rw [hs]; rfl, by decide⟩
  · rw [h.rep, e1]
  · rw [h.rep, e2]
  · rw [h.rep, e3]; omega

theorem view_ctx {c : Components} (h : ObjRep o (compParts c)) : SegCtx o id_frag (preText c) (c.path ++ queryText c.query) := by
  obtain ⟨e1, e2, e3⟩ := plen_parts c
  obtain ⟨rest, hm⟩ := h.mem
  refine ⟨⟨(preText c).map some, (fragText c.fragment).map some ++ rest, by simp, ?_, ?_⟩, ?_, ?_, ?_⟩
  · rw [hm]; simp [compParts, preText]
  · rw [h.rep, e3]
    intro hne
    exact absurd (by rw [List.length_append]; omega) hne
  · rw [h.rep, e1]
  · rw [h.rep, e3, List.length_append]; omega
  · rw [h.rep, e3, List.length_append]; omega

theorem view_never {c : Components} (h : ObjRep o (compParts c)) (hp : c.path ≠ []) (hq : c.query ≠ none) (k : Nat)
    (hk : k ≤ (pieces (c.path ++ queryText c.query)).length) :
    (posIt (preText c) (c.path ++ queryText c.query) k).off ≠ o.pt.off id_query := by
  obtain ⟨e1, e2, e3⟩ := plen_parts c
  obtain ⟨q, hq⟩ := Option.ne_none_iff_exists'.1 hq
  have hqt : queryText c.query = c!"?" :: q := by rw [hq]; rfl
  have hpl : 0 < c.path.length := List.length_pos_iff.2 hp
  rw [h.rep, e2]
  intro heq
  by_cases hk' : k < (pieces (c.path ++ queryText c.query)).length
  · obtain ⟨d, s, v, hd, -, -, -, hR, hc⟩ := piece_at hk'
    by_cases h0 : k = 0
    · subst h0
      have : (posIt (preText c) (c.path ++ queryText c.query) 0).off = (preText c).length := by simp [posIt]
      omega
    · have hlen : ((pieces (c.path ++ queryText c.query)).take k).flatten.length = c.path.length := by
        simp only [posIt] at heq; omega
      have := (List.append_inj hR hlen.symm).2
      rw [hqt, hc h0] at this
      exact absurd (List.cons.inj this).1 (by decide)
  · obtain rfl : k = (pieces (c.path ++ queryText c.query)).length := by omega
    rw [posIt_end, hqt] at heq
    simp at heq

end Url
