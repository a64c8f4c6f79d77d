import Verif.Model.CostWalk
import Verif.Proofs.CostBound

/-!
The counting iterators of `Verif/Model/CostWalk.lean`: their results are those of the iterators, and the counts are
bounded.
-/

set_option autoImplicit false

namespace Url

open Walked

/-! ### the results are the same -/

section Erase

variable {α β : Type}

@[simp] theorem Walked.val_bind (m : Walked α) (f : α → Walked β) : (m >>= f).val = m.val >>= fun a => (f a).val := by
  show (match m.val with | .ok a => (⟨(f a).val, m.reads + (f a).reads⟩ : Walked β) | .error e => ⟨.error e, m.reads⟩).val = _
  cases m.val <;> rfl
@[simp] theorem Walked.val_pure (a : α) : (pure a : Walked α).val = pure a := rfl
@[simp] theorem Walked.val_free (r : R α) : (free r).val = r := rfl
@[simp] theorem Walked.val_look (n : Nat) : (Walked.look n).val = pure () := rfl
@[simp] theorem Walked.val_ite (p : Prop) [Decidable p] (a b : Walked α) :
    (if p then a else b).val = if p then a.val else b.val := by split <;> rfl
@[simp] theorem Obj.val_byte (o : Obj) (i : Nat) : (o.n_byte i).val = o.byte i := rfl
@[simp] theorem Obj.val_assert (o : Obj) (i : Nat) (c : Byte) :
    (o.n_assert i c).val = o.assert (do return (← o.byte i) == c) := rfl

end Erase

@[simp] theorem keyEqualLoop_erase (a b : Str) : (n_keyEqualLoop a b).val = keyEqualLoop a b := by
  fun_induction keyEqualLoop a b <;> unfold n_keyEqualLoop <;> simp_all <;> rfl

@[simp] theorem key_equal_erase (a b : Str) : (n_key_equal a b).val = key_equal a b := by
  simp only [n_key_equal, key_equal, Walked.val_ite, Walked.val_pure, keyEqualLoop_erase]
  rfl

namespace Params

@[simp] theorem skip_erase (e : PctSet) (o : Obj) (p : Nat) (ec : Option Err) : (n_skip e o p ec).val = skip e o p ec := by
  simp [n_skip, skip]

@[simp] theorem parse_erase (o : Obj) (it : ParamIt) : (n_parse o it).val = parse o it := by
  simp [n_parse, parse]

@[simp] theorem first_erase (o : Obj) : (n_first o).val = first o := by
  simp only [n_first, first, Walked.val_ite, Walked.val_pure, parse_erase]
  rfl

@[simp] theorem deref_erase (o : Obj) (it : ParamIt) : (n_deref o it).val = deref o it := by
  simp [n_deref, deref]

@[simp] theorem next_erase (o : Obj) (it : ParamIt) : (n_next o it).val = next o it := by
  simp [n_next, next]

@[simp] theorem collect_erase (o : Obj) (fuel : Nat) (it : ParamIt) : (n_collect o fuel it).val = collect o fuel it := by
  induction fuel generalizing it with
  | zero => rfl
  | succ n ih => simp [n_collect, collect, ih]

@[simp] theorem walk_erase (o : Obj) (fuel : Nat) : (n_walk o fuel).val = walk o fuel := by simp [n_walk, walk]

@[simp] theorem containsLoop_erase (o : Obj) (key : Str) (fuel : Nat) (it : ParamIt) :
    (n_containsLoop o key fuel it).val = containsLoop o key fuel it := by
  induction fuel generalizing it with
  | zero => rfl
  | succ n ih => simp [n_containsLoop, containsLoop, ih]

@[simp] theorem contains_erase (o : Obj) (key : Str) (fuel : Nat) : (n_contains o key fuel).val = contains o key fuel := by
  simp [n_contains, contains]

@[simp] theorem countLoop_erase (o : Obj) (key : Str) (fuel : Nat) (it : ParamIt) (n : Nat) :
    (n_countLoop o key fuel it n).val = countLoop o key fuel it n := by
  induction fuel generalizing it n with
  | zero => rfl
  | succ k ih => simp [n_countLoop, countLoop, ih]

@[simp] theorem count_erase (o : Obj) (key : Str) (fuel : Nat) : (n_count o key fuel).val = count o key fuel := by
  simp [n_count, count]

@[simp] theorem findLoop_erase (o : Obj) (key : Str) (fuel : Nat) (it : ParamIt) :
    (n_findLoop o key fuel it).val = findLoop o key fuel it := by
  induction fuel generalizing it with
  | zero => rfl
  | succ n ih => simp [n_findLoop, findLoop, ih]

@[simp] theorem find_erase (o : Obj) (key : Str) (fuel : Nat) : (n_find o key fuel).val = find o key fuel := by
  simp [n_find, find]

end Params

namespace Seg

@[simp] theorem scan_erase (o : Obj) (k p : Nat) : (n_scan o k p).val = scan o k p := by
  induction k generalizing p with
  | zero => rfl
  | succ n ih => simp [n_scan, scan, ih]

@[simp] theorem parse_erase (lim : Nat) (o : Obj) (it : SegIt) : (n_parse lim o it).val = parse lim o it := by
  simp [n_parse, parse]

@[simp] theorem first_erase (lim : Nat) (o : Obj) : (n_first lim o).val = first lim o := by
  simp only [n_first, first, Walked.val_ite, Walked.val_pure, parse_erase]
  rfl

@[simp] theorem deref_erase (o : Obj) (it : SegIt) : (n_deref o it).val = deref o it := by
  simp only [n_deref, deref, Walked.val_bind, Walked.val_free]
  congr 1
  funext s
  cases s <;> simp

@[simp] theorem next_erase (lim : Nat) (o : Obj) (it : SegIt) : (n_next lim o it).val = next lim o it := by
  simp [n_next, next]

@[simp] theorem collect_erase (lim : Nat) (o : Obj) (fuel : Nat) (it : SegIt) :
    (n_collect lim o fuel it).val = collect lim o fuel it := by
  induction fuel generalizing it with
  | zero => rfl
  | succ n ih => simp [n_collect, collect, ih]

@[simp] theorem walk_erase (lim : Nat) (o : Obj) (fuel : Nat) : (n_walk lim o fuel).val = walk lim o fuel := by
  simp [n_walk, walk]

end Seg

/-! ### the counts -/

/-- After `k` reads, `m` either returns `a` with `Q a` of the reads until then, or it faults after at most `E`
reads. -/
def Walked.Bd {α : Type} (m : Walked α) (k E : Nat) (Q : α → Nat → Prop) : Prop :=
  match m.val with
  | .ok a => Q a (k + m.reads)
  | .error _ => k + m.reads ≤ E

section Rules

variable {α β : Type} {k E : Nat}

theorem Walked.Bd.bind {m : Walked α} {f : α → Walked β} {Q : β → Nat → Prop}
    (h : m.Bd k E fun a j => (f a).Bd j E Q) : (m >>= f).Bd k E Q := by
  rcases m with ⟨r, n⟩
  cases r with
  | error e => exact h
  | ok a =>
    simp only [Walked.Bd] at h ⊢
    show (match (f a).val with | .ok b => Q b (k + (n + (f a).reads)) | .error _ => k + (n + (f a).reads) ≤ E)
    rw [← Nat.add_assoc]
    exact h

theorem Walked.Bd.pure {a : α} {Q : α → Nat → Prop} (h : Q a k) : (Pure.pure a : Walked α).Bd k E Q := h

theorem Walked.Bd.free {r : R α} {Q : α → Nat → Prop} (h : ∀ a, r = .ok a → Q a k) (he : k ≤ E) :
    (Walked.free r).Bd k E Q := by
  cases r with
  | error e => exact he
  | ok a => exact h a rfl

theorem Walked.Bd.look {n : Nat} {Q : Unit → Nat → Prop} (h : Q () (k + n)) : (Walked.look n).Bd k E Q := h

theorem Walked.Bd.byte {o : Obj} {i : Nat} {Q : Byte → Nat → Prop} (h : ∀ c, Q c (k + 1)) (he : k + 1 ≤ E) :
    (o.n_byte i).Bd k E Q := by
  unfold Obj.n_byte Walked.Bd
  split
  · exact h _
  · exact he

/-- What reading a character in an assertion costs. -/
def Obj.one (o : Obj) : Nat := if o.dbg then 1 else 0

theorem Obj.one_le (o : Obj) : o.one ≤ 1 := by unfold Obj.one; split <;> omega

theorem Walked.Bd.assert {o : Obj} {i : Nat} {c : Byte} {Q : Unit → Nat → Prop} (h : Q () (k + o.one))
    (he : k + 1 ≤ E) : (o.n_assert i c).Bd k E Q := by
  have := o.one_le
  unfold Obj.n_assert Walked.Bd
  split
  · exact h
  · show k + o.one ≤ E
    omega

/-- With assertions, a failing one does not return. -/
theorem Obj.assert_ok {o : Obj} {b : Bool} {u : Unit} (h : o.assert (.ok b) = .ok u) : o.one = 0 ∨ b = true := by
  unfold Obj.assert at h
  unfold Obj.one
  split at h
  · cases b
    · cases h
    · exact .inr rfl
  · next hd => exact .inl (by rw [if_neg hd])

theorem Walked.Bd.mono {m : Walked α} {Q Q' : α → Nat → Prop} (h : m.Bd k E Q) (hq : ∀ a j, Q a j → Q' a j) :
    m.Bd k E Q' := by
  unfold Walked.Bd at h ⊢
  split
  · next e => rw [e] at h; exact hq _ _ h
  · next e => rw [e] at h; exact h

theorem Walked.Bd.result {m : Walked α} {Q : α → Nat → Prop} (h : m.Bd 0 E Q) {a : α} (e : m.val = .ok a) :
    Q a m.reads := by
  unfold Walked.Bd at h
  rw [e] at h
  simpa using h

end Rules

theorem keyEqualLoop_reads (a b : Str) : (n_keyEqualLoop a b).reads ≤ 3 * a.length := by
  fun_induction n_keyEqualLoop a b with
  | case1 => exact Nat.le_refl _
  | case2 => exact Nat.zero_le _
  | case3 c t m ms h ih =>
    show (3 + (if c != m then (Pure.pure false : Walked Bool) else n_keyEqualLoop t ms).reads) ≤ _
    split
    · simp only [List.length_cons]; show 3 + 0 ≤ _; omega
    · simp only [List.length_cons]; omega
  | case4 c m ms h a b u ih =>
    show (4 + (if unescape a b != m then (Pure.pure false : Walked Bool) else n_keyEqualLoop u ms).reads) ≤ _
    split
    · simp only [List.length_cons]; show 4 + 0 ≤ _; omega
    · simp only [List.length_cons]; omega
  | case5 c t m ms h ih => show 3 + 0 ≤ _; simp only [List.length_cons]; omega

theorem key_equal_bd (a b : Str) (k E : Nat) (Q : Bool → Nat → Prop) (h : ∀ r j, j ≤ k + 3 * a.length → Q r j)
    (he : k + 3 * a.length ≤ E) : (n_key_equal a b).Bd k E Q := by
  have := keyEqualLoop_reads a b
  unfold n_key_equal
  split
  · exact .pure (h _ _ (by omega))
  · unfold Walked.Bd
    split
    · exact h _ _ (by omega)
    · omega

theorem cells_size : ∀ {l : List Cell} {s : Str}, l.mapM id = some s → s.length = l.length
  | [], s, h => by
    simp at h
    subst h
    rfl
  | c :: l, s, h => by
    simp only [List.mapM_cons, id] at h
    cases c with
    | none => cases h
    | some c =>
      cases e : l.mapM id with
      | none => rw [e] at h; cases h
      | some t =>
        rw [e] at h
        cases h
        simp [cells_size e]

theorem Obj.read_size {o : Obj} {i n : Nat} {s : Str} (h : o.read i n = .ok s) : s.length = n := by
  unfold Obj.read at h
  split at h
  · cases h; simp_all
  · split at h
    · split at h
      · next e =>
        cases h
        have := cells_size e
        simp only [List.length_take, List.length_drop] at this
        omega
      · cases h
    · cases h

theorem Obj.read_room {o : Obj} {i n : Nat} {s : Str} (h : o.read i n = .ok s) (hn : n ≠ 0) : i + n ≤ o.mem.length := by
  unfold Obj.read at h
  rw [if_neg hn] at h
  split at h
  · assumption
  · cases h

theorem pct_rest_le (e : PctSet) (p : Str) (ec : Option Err) : (e.parse p ec).1.length ≤ p.length := by
  fun_induction PctSet.parse e p ec <;> simp_all <;> omega

/-- A string that is passed as a whole is read at most twice. -/
theorem pct_reads_all (e : PctSet) (p : Str) (ec : Option Err) (h : (e.parse p ec).1 = []) :
    (e.n_parse p ec).reads ≤ 2 * p.length := by
  rw [← pct_erase] at h
  fun_induction PctSet.n_parse e p ec with
  | case1 => simp
  | case2 c ec hc a b u ih =>
    have hr := check_reads (a :: b :: u) ec
    simp only [reads_bind, reads_look, Url.val_bind, Url.val_ite, reads_ite, Url.val_pure, reads_pure] at ih h ⊢
    split at h
    · cases h
    · next hn =>
      rw [if_neg hn]
      have := ih h
      simp only [List.length_cons]
      omega
  | case3 => simp at h
  | case4 => simp at h
  | case5 c t ec hc ih =>
    simp only [reads_bind, reads_look, Url.val_bind, Url.val_ite, reads_ite, Url.val_pure, reads_pure] at ih h ⊢
    split at h
    · cases h
    · next hn =>
      rw [if_neg hn]
      have := ih h
      simp only [List.length_cons]
      omega

namespace Params

theorem skip_bd (e : PctSet) (o : Obj) (p : Nat) (ec : Option Err) (k E : Nat) (Q : Nat × Option Err → Nat → Prop)
    (h : ∀ q ec' j, p ≤ q → q ≤ o.mem.length → j ≤ k + 2 * (q - p) + 3 → (ec'.isNone → j ≤ k + 2 * (q - p) + 2) →
      (q = o.pt.off id_end → j ≤ k + 2 * (q - p)) → Q (q, ec') j)
    (he : k ≤ E) : (n_skip e o p ec).Bd k E Q := by
  unfold n_skip
  split
  · exact .free (by intro a h; cases h) he
  · split
    · refine .bind (.free ?_ he)
      intro s hs
      refine .bind (.look ?_)
      refine .pure ?_
      have h1 := Obj.read_size hs
      have h2 := Obj.read_room hs (by omega)
      have h3 := pct_reads e s ec
      have h4 := pct_rest_le e s ec
      rw [pct_erase]
      refine h _ _ _ (by omega) (by omega) ?_ ?_ ?_
      · split at h3 <;> omega
      · intro hn
        have : ¬ (e.parse s ec).2.isSome = true := by
          cases hx : (e.parse s ec).2
          · simp
          · rw [hx] at hn; cases hn
        rw [if_neg this] at h3
        omega
      · intro hq
        have := pct_reads_all e s ec (List.eq_nil_of_length_eq_zero (by omega))
        omega
    · exact .pure (h _ _ _ (by omega) (by omega) (by omega) (fun _ => by omega) (fun _ => by omega))

/-- What `parse` cost, from the sizes it found. -/
def spent (r : ParamIt) : Nat := if r.nv = 0 then 2 * r.nk - 1 else 2 * (r.nk + r.nv) + 2

theorem parse_bd (o : Obj) (it : ParamIt) (k E : Nat) (Q : ParamIt → Nat → Prop)
    (h : ∀ r j, r.off = it.off → 1 ≤ r.nk → r.off + r.nk + r.nv ≤ o.mem.length →
      j ≤ k + spent r → Q r j)
    (he : k + 2 * (o.mem.length - it.off) + 4 ≤ E) : (n_parse o it).Bd k E Q := by
  have h1 := o.one_le
  unfold n_parse
  refine .bind (.free (fun _ _ => ?_) (by omega))
  refine .bind (.assert ?_ (by omega))
  refine .bind (skip_bd _ _ _ _ _ _ _ ?_ (by omega))
  intro p ec j2 h1 h2 h3 h4 h5
  refine .bind (.free (fun _ ha => ?_) (by omega))
  have ha := Obj.assert_ok ha
  split
  · next hp =>
    have := h5 hp
    exact .pure (h _ _ rfl (by simp only; omega) (by simp only; omega)
      (by unfold spent; simp only [if_true]; omega))
  · refine .bind (.assert ?_ (by omega))
    refine .bind (skip_bd _ _ _ _ _ _ _ ?_ (by omega))
    intro q ec j4 h6 h7 h8 h9 _
    refine .bind (.free (fun _ hb => ?_) (by omega))
    have hb := Obj.assert_ok hb
    refine .pure (h _ _ rfl (by simp only; omega) (by simp only; omega) ?_)
    unfold spent
    simp only
    rw [if_neg (by omega)]
    rcases ha with ha | ha
    · omega
    · have := h4 ha
      rcases hb with hb | hb
      · omega
      · have := h9 hb
        omega

/-- What `operator*` costs at most. -/
def shownCost (it : ParamIt) : Nat := if it.nv = 0 then 1 else 2

theorem deref_bd (o : Obj) (it : ParamIt) (k E : Nat) (Q : Param → Nat → Prop)
    (h : ∀ e j, 1 ≤ it.nk → e.key.length = it.nk - 1 → j ≤ k + shownCost it → Q e j) (he : k + 2 ≤ E) :
    (n_deref o it).Bd k E Q := by
  have h1 := o.one_le
  unfold shownCost at h
  unfold n_deref
  refine .bind (.free (fun _ _ => ?_) (by omega))
  refine .bind (.free (fun _ _ => ?_) (by omega))
  refine .bind (.assert ?_ (by omega))
  split
  · exact .free (by intro a h; cases h) (by omega)
  · refine .bind (.free (fun s hs => ?_) (by omega))
    have hl := Obj.read_size hs
    split
    · next hv =>
      rw [if_pos hv] at h
      exact .pure (h _ _ (by omega) hl (by omega))
    · next hv =>
      rw [if_neg hv] at h
      refine .bind (.assert ?_ (by omega))
      refine .bind (.free (fun _ _ => ?_) (by omega))
      exact .pure (h _ _ (by omega) hl (by omega))

theorem eq_last {o : Obj} {it : ParamIt} {b : Bool} (h : eq o it (last o) = .ok b) :
    b = (it.off == o.pt.off id_frag) := by
  unfold eq at h
  cases e : o.assert (.ok (it.off ≠ (last o).off ∨ it.nk = (last o).nk ∧ it.nv = (last o).nv)) with
  | error f => rw [e] at h; cases h
  | ok u => rw [e] at h; cases h; rfl

theorem next_bd (o : Obj) (it : ParamIt) (k E : Nat) (Q : ParamIt → Nat → Prop)
    (hend : it.off + it.nk + it.nv = o.pt.off id_frag → Q ⟨o.pt.off id_frag, 0, 0⟩ k)
    (h : it.off + it.nk + it.nv ≠ o.pt.off id_frag → ∀ r j, r.off = it.off + it.nk + it.nv → 1 ≤ r.nk →
      r.off + r.nk + r.nv ≤ o.mem.length → j ≤ k + spent r → Q r j)
    (he : k + 2 * (o.mem.length - (it.off + it.nk + it.nv)) + 4 ≤ E) : (n_next o it).Bd k E Q := by
  unfold n_next
  refine .bind (.free (fun _ _ => ?_) (by omega))
  refine .bind (.free (fun _ _ => ?_) (by omega))
  have e : it.off + it.nv + it.nk = it.off + it.nk + it.nv := by omega
  simp only [e]
  split
  · next hf => rw [hf]; exact .pure (hend hf)
  · next hf => exact parse_bd _ _ _ _ _ (fun r j h1 h2 h3 h4 => h hf r j h1 h2 h3 h4) he

/-- What the reads until an iterator was reached cost: the parameters before it are paid for, the parameter
itself was parsed. -/
structure Paid (F : Nat) (o : Obj) (it : ParamIt) (k : Nat) : Prop where
  param : it.off ≠ o.pt.off id_frag → 1 ≤ it.nk ∧ it.off + it.nk + it.nv ≤ o.mem.length ∧ o.pt.off id_query ≤ it.off ∧
    k + F * o.pt.off id_query ≤ F * it.off + spent it
  done : it.off = o.pt.off id_frag → k + F * o.pt.off id_query ≤ F * max o.mem.length (o.pt.off id_query) ∧
    ((o.pt.nparam ≠ 0 → o.pt.off id_query ≠ o.pt.off id_frag) →
      k + F * o.pt.off id_query ≤ F * max (o.pt.off id_frag) (o.pt.off id_query))

/-- The bounds of a loop. -/
def Fits (F : Nat) (o : Obj) (fuel : Nat) (it : ParamIt) (k : Nat) : Prop :=
  k + F * o.pt.off id_query ≤ F * max o.mem.length (o.pt.off id_query) ∧
  ((o.pt.nparam ≠ 0 → o.pt.off id_query ≠ o.pt.off id_frag) → (∃ l, collect o fuel it = .ok l) →
    k + F * o.pt.off id_query ≤ F * max (o.pt.off id_frag) (o.pt.off id_query))

/-- The most reads of an execution that faults. -/
def most (F : Nat) (o : Obj) : Nat := F * (o.mem.length - o.pt.off id_query) + 4

theorem first_paid {F : Nat} (hF : F = 4 ∨ F = 5) (o : Obj) : (n_first o).Bd 0 (most F o) (Paid F o) := by
  unfold n_first
  split
  · next h =>
    refine .pure ⟨fun h => absurd rfl h, fun _ => ?_⟩
    rcases hF with rfl | rfl
    · exact ⟨by omega, fun _ => by omega⟩
    · exact ⟨by omega, fun _ => by omega⟩
  · next h =>
    refine parse_bd _ _ _ _ _ (fun r j h1 h2 h3 h4 => ?_) ?_
    · simp only at h1
      refine ⟨fun hf => ⟨h2, h3, by omega, ?_⟩, fun hf => ⟨?_, fun hq => ?_⟩⟩
      · rw [h1]; omega
      · unfold spent at h4
        rcases hF with rfl | rfl <;> split at h4 <;> omega
      · exact absurd (h1.symm.trans hf) (hq h)
    · unfold most
      rcases hF with rfl | rfl <;> simp only <;> omega

/-- A step of a loop that reads at most `3 * (F - 4) * (nk - 1)` characters besides those of `operator*`. -/
theorem next_paid {F : Nat} (hF : F = 4 ∨ F = 5) {o : Obj} {it : ParamIt} {k j : Nat} (hp : Paid F o it k)
    (hf : it.off ≠ o.pt.off id_frag) (hj : j ≤ k + shownCost it + 3 * (F - 4) * (it.nk - 1)) :
    (n_next o it).Bd j (most F o) (Paid F o) := by
  obtain ⟨h1, h2, h3, h4⟩ := hp.param hf
  have hs : j + F * o.pt.off id_query ≤ F * (it.off + it.nk + it.nv) := by
    unfold spent at h4
    unfold shownCost at hj
    rcases hF with rfl | rfl <;> split at h4 <;> simp_all <;> omega
  refine next_bd _ _ _ _ _ (fun he => ?_) (fun he r i r1 r2 r3 r4 => ?_) ?_
  · refine ⟨fun h => absurd rfl h, fun _ => ?_⟩
    rw [he] at hs h2
    rcases hF with rfl | rfl
    · exact ⟨by omega, fun _ => by omega⟩
    · exact ⟨by omega, fun _ => by omega⟩
  · refine ⟨fun _ => ⟨r2, r3, by omega, ?_⟩, fun h => absurd (r1.symm.trans h) he⟩
    rw [r1]
    omega
  · unfold most
    rcases hF with rfl | rfl <;> omega

theorem bind_ok {α β : Type} {x : R α} {f : α → R β} {b : β} (h : (x >>= f) = .ok b) : ∃ a, x = .ok a ∧ f a = .ok b := by
  cases x with
  | error e => cases h
  | ok a => exact ⟨a, rfl, h⟩

/-- When the loop over the rest of the parameters returns, the parameter lies before the end of the query. -/
theorem collect_inside (o : Obj) (fuel : Nat) (it : ParamIt) (l : List Param) (h : collect o fuel it = .ok l) :
    it.off ≤ o.pt.off id_frag ∧ (it.off ≠ o.pt.off id_frag → it.off + it.nk + it.nv ≤ o.pt.off id_frag) := by
  induction fuel generalizing it l with
  | zero => cases h
  | succ n ih =>
    unfold collect at h
    obtain ⟨b, hb, h⟩ := bind_ok h
    have hb := eq_last hb
    by_cases hf : it.off = o.pt.off id_frag
    · exact ⟨by omega, fun h => absurd hf h⟩
    · rw [if_neg (by simp [hb, hf])] at h
      obtain ⟨e, he, h⟩ := bind_ok h
      obtain ⟨it', hn, h⟩ := bind_ok h
      obtain ⟨l', hl, h⟩ := bind_ok h
      obtain ⟨h1, -⟩ := ih it' l' hl
      have : it'.off = it.off + it.nk + it.nv := by
        unfold next at hn
        obtain ⟨_, -, hn⟩ := bind_ok hn
        obtain ⟨_, -, hn⟩ := bind_ok hn
        simp only at hn
        split at hn
        · cases hn; simp only; omega
        · have hb := parse_bd o { it with off := it.off + it.nv + it.nk } 0 _ (fun r _ => r.off = it.off + it.nv + it.nk)
            (fun r _ h _ _ _ => h) (Nat.le_refl _)
          have := hb.result (by rw [parse_erase]; exact hn)
          omega
      exact ⟨by omega, fun _ => by omega⟩

theorem collect_next {o : Obj} {fuel : Nat} {it it' : ParamIt} (hf : it.off ≠ o.pt.off id_frag) (hn : next o it = .ok it')
    (h : ∃ l, collect o (fuel + 1) it = .ok l) : ∃ l, collect o fuel it' = .ok l := by
  obtain ⟨l, h⟩ := h
  unfold collect at h
  obtain ⟨b, hb, h⟩ := bind_ok h
  have hb := eq_last hb
  rw [if_neg (by simp [hb, hf])] at h
  obtain ⟨e, he, h⟩ := bind_ok h
  obtain ⟨it2, hn2, h⟩ := bind_ok h
  obtain ⟨l', hl, h⟩ := bind_ok h
  rw [hn] at hn2
  cases hn2
  exact ⟨l', hl⟩

theorem fits_done {F : Nat} {o : Obj} {fuel : Nat} {it : ParamIt} {k : Nat} (hp : Paid F o it k)
    (hf : it.off = o.pt.off id_frag) : Fits F o fuel it k := ⟨(hp.done hf).1, fun hq _ => (hp.done hf).2 hq⟩

theorem fits_found {o : Obj} {fuel : Nat} {it : ParamIt} {k j : Nat} (hp : Paid 5 o it k) (hf : it.off ≠ o.pt.off id_frag)
    (hj : j ≤ k + shownCost it + 3 * (it.nk - 1)) : Fits 5 o fuel it j := by
  obtain ⟨h1, h2, h3, h4⟩ := hp.param hf
  have hs : j + 5 * o.pt.off id_query ≤ 5 * (it.off + it.nk + it.nv) := by
    unfold spent at h4
    unfold shownCost at hj
    split at h4 <;> simp_all <;> omega
  refine ⟨by omega, fun _ ⟨l, hl⟩ => ?_⟩
  have := (collect_inside o fuel it l hl).2 hf
  omega

theorem fits_next {F : Nat} {o : Obj} {fuel : Nat} {it it' : ParamIt} {k : Nat} (hf : it.off ≠ o.pt.off id_frag)
    (hn : next o it = .ok it') (h : Fits F o fuel it' k) : Fits F o (fuel + 1) it k :=
  ⟨h.1, fun hq hl => h.2 hq (collect_next hf hn hl)⟩

/-- The reads until an iterator is shown, and its key compared. -/
theorem Paid.shown {F : Nat} (hF : F = 4 ∨ F = 5) {o : Obj} {it : ParamIt} {k : Nat} (h : Paid F o it k)
    (hf : it.off ≠ o.pt.off id_frag) : k + 2 + 3 * (F - 4) * (it.nk - 1) ≤ most F o := by
  unfold most
  obtain ⟨h1, h2, h3, h4⟩ := h.param hf
  unfold spent at h4
  rcases hF with rfl | rfl <;> split at h4 <;> simp_all <;> omega

theorem Paid.le {F : Nat} (hF : F = 4 ∨ F = 5) {o : Obj} {it : ParamIt} {k : Nat} (h : Paid F o it k) : k ≤ most F o := by
  by_cases hf : it.off = o.pt.off id_frag
  · unfold most
    have := h.done hf
    rcases hF with rfl | rfl <;> omega
  · have := h.shown hF hf
    omega

theorem _root_.Url.Walked.Bd.val {α : Type} {m : Walked α} {k E : Nat} {Q : α → Nat → Prop}
    (h : m.Bd k E fun a j => m.val = .ok a → Q a j) : m.Bd k E Q := by
  unfold Walked.Bd at h ⊢
  split
  · next e => rw [e] at h; exact h rfl
  · next e => rw [e] at h; exact h

theorem collect_bd (o : Obj) (fuel : Nat) (it : ParamIt) (k : Nat) (hp : Paid 4 o it k) :
    (n_collect o fuel it).Bd k (most 4 o) fun _ j => Fits 4 o fuel it j := by
  induction fuel generalizing it k with
  | zero => exact hp.le (.inl rfl)
  | succ n ih =>
    unfold n_collect
    refine .bind (.free (fun b hb => ?_) (hp.le (.inl rfl)))
    have hb := eq_last hb
    by_cases hf : it.off = o.pt.off id_frag
    · rw [if_pos (by simp [hb, hf])]
      exact .pure (fits_done hp hf)
    · rw [if_neg (by simp [hb, hf])]
      have hr := hp.shown (.inl rfl) hf
      refine .bind (deref_bd _ _ _ _ _ (fun e j h1 h2 h3 => ?_) (by omega))
      refine .bind (.val ((next_paid (.inl rfl) hp hf (by omega)).mono fun it' i hp' hn => ?_))
      rw [next_erase] at hn
      refine .bind ((ih it' i hp').mono fun l' j' h => ?_)
      exact .pure (fits_next hf hn h)

theorem walk_bd (o : Obj) (fuel : Nat) : (n_walk o fuel).Bd 0 (most 4 o) fun _ j =>
    ∃ it, first o = .ok it ∧ Fits 4 o fuel it j := by
  unfold n_walk
  refine .bind (.val ((first_paid (.inl rfl) o).mono fun it i hp hn => ?_))
  rw [first_erase] at hn
  exact (collect_bd o fuel it i hp).mono fun _ _ h => ⟨it, hn, h⟩

theorem containsLoop_bd (o : Obj) (key : Str) (fuel : Nat) (it : ParamIt) (k : Nat) (hp : Paid 5 o it k) :
    (n_containsLoop o key fuel it).Bd k (most 5 o) fun _ j => Fits 5 o fuel it j := by
  induction fuel generalizing it k with
  | zero => exact hp.le (.inr rfl)
  | succ n ih =>
    unfold n_containsLoop
    refine .bind (.free (fun b hb => ?_) (hp.le (.inr rfl)))
    have hb := eq_last hb
    by_cases hf : it.off = o.pt.off id_frag
    · rw [if_pos (by simp [hb, hf])]
      exact .pure (fits_done hp hf)
    · rw [if_neg (by simp [hb, hf])]
      have hr := hp.shown (.inr rfl) hf
      have hd : shownCost it ≤ 2 := by unfold shownCost; split <;> omega
      refine .bind (deref_bd _ _ _ _ _ (fun e j h1 h2 h3 => ?_) (by omega))
      refine .bind (key_equal_bd _ _ _ _ _ (fun r i h4 => ?_) (by omega))
      split
      · exact .pure (fits_found hp hf (by omega))
      · refine .bind (.val ((next_paid (.inr rfl) hp hf (by omega)).mono fun it' i' hp' hn => ?_))
        rw [next_erase] at hn
        exact (ih it' i' hp').mono fun _ _ h => fits_next hf hn h

theorem contains_bd (o : Obj) (key : Str) (fuel : Nat) : (n_contains o key fuel).Bd 0 (most 5 o) fun _ j =>
    ∃ it, first o = .ok it ∧ Fits 5 o fuel it j := by
  unfold n_contains
  refine .bind (.val ((first_paid (.inr rfl) o).mono fun it i hp hn => ?_))
  rw [first_erase] at hn
  exact (containsLoop_bd o key fuel it i hp).mono fun _ _ h => ⟨it, hn, h⟩

theorem countLoop_bd (o : Obj) (key : Str) (fuel : Nat) (it : ParamIt) (k : Nat) (c : Nat) (hp : Paid 5 o it k) :
    (n_countLoop o key fuel it c).Bd k (most 5 o) fun _ j => Fits 5 o fuel it j := by
  induction fuel generalizing it k c with
  | zero => exact hp.le (.inr rfl)
  | succ n ih =>
    unfold n_countLoop
    refine .bind (.free (fun b hb => ?_) (hp.le (.inr rfl)))
    have hb := eq_last hb
    by_cases hf : it.off = o.pt.off id_frag
    · rw [if_pos (by simp [hb, hf])]
      exact .pure (fits_done hp hf)
    · rw [if_neg (by simp [hb, hf])]
      have hr := hp.shown (.inr rfl) hf
      have hd : shownCost it ≤ 2 := by unfold shownCost; split <;> omega
      refine .bind (deref_bd _ _ _ _ _ (fun e j h1 h2 h3 => ?_) (by omega))
      refine .bind (key_equal_bd _ _ _ _ _ (fun r i h4 => ?_) (by omega))
      refine .bind (.val ((next_paid (.inr rfl) hp hf (by omega)).mono fun it' i' hp' hn => ?_))
      rw [next_erase] at hn
      exact (ih it' i' _ hp').mono fun _ _ h => fits_next hf hn h

theorem count_bd (o : Obj) (key : Str) (fuel : Nat) : (n_count o key fuel).Bd 0 (most 5 o) fun _ j =>
    ∃ it, first o = .ok it ∧ Fits 5 o fuel it j := by
  unfold n_count
  refine .bind (.val ((first_paid (.inr rfl) o).mono fun it i hp hn => ?_))
  rw [first_erase] at hn
  exact (countLoop_bd o key fuel it i 0 hp).mono fun _ _ h => ⟨it, hn, h⟩

theorem findLoop_bd (o : Obj) (key : Str) (fuel : Nat) (it : ParamIt) (k : Nat) (hp : Paid 5 o it k) :
    (n_findLoop o key fuel it).Bd k (most 5 o) fun _ j => Fits 5 o fuel it j := by
  induction fuel generalizing it k with
  | zero => exact hp.le (.inr rfl)
  | succ n ih =>
    unfold n_findLoop
    refine .bind (.free (fun b hb => ?_) (hp.le (.inr rfl)))
    have hb := eq_last hb
    by_cases hf : it.off = o.pt.off id_frag
    · rw [if_pos (by simp [hb, hf])]
      exact .pure (fits_done hp hf)
    · rw [if_neg (by simp [hb, hf])]
      have hr := hp.shown (.inr rfl) hf
      have hd : shownCost it ≤ 2 := by unfold shownCost; split <;> omega
      refine .bind (deref_bd _ _ _ _ _ (fun e j h1 h2 h3 => ?_) (by omega))
      refine .bind (key_equal_bd _ _ _ _ _ (fun r i h4 => ?_) (by omega))
      split
      · exact .pure (fits_found hp hf (by omega))
      · refine .bind (.val ((next_paid (.inr rfl) hp hf (by omega)).mono fun it' i' hp' hn => ?_))
        rw [next_erase] at hn
        exact (ih it' i' hp').mono fun _ _ h => fits_next hf hn h

theorem find_bd (o : Obj) (key : Str) (fuel : Nat) : (n_find o key fuel).Bd 0 (most 5 o) fun _ j =>
    ∃ it, first o = .ok it ∧ Fits 5 o fuel it j := by
  unfold n_find
  refine .bind (.val ((first_paid (.inr rfl) o).mono fun it i hp hn => ?_))
  rw [first_erase] at hn
  exact (findLoop_bd o key fuel it i hp).mono fun _ _ h => ⟨it, hn, h⟩

/-- The reads of a loop over the parameters, whatever its outcome. -/
theorem reads_all {α : Type} {m : Walked α} {F : Nat} (hF : F = 4 ∨ F = 5) {o : Obj} {fuel : Nat}
    (h : m.Bd 0 (most F o) fun _ j => ∃ it, first o = .ok it ∧ Fits F o fuel it j) :
    m.reads ≤ F * (o.mem.length - o.pt.off id_query) + 4 := by
  unfold Walked.Bd at h
  split at h
  · obtain ⟨it, -, h, -⟩ := h
    rcases hF with rfl | rfl <;> omega
  · unfold most at h; omega

/-- The reads of a loop over parameters all of which lie in the query. -/
theorem reads_query {α : Type} {m : Walked α} {F : Nat} (hF : F = 4 ∨ F = 5) {o : Obj} {fuel : Nat} {a : α} {l : List Param}
    (h : m.Bd 0 (most F o) fun _ j => ∃ it, first o = .ok it ∧ Fits F o fuel it j) (hv : m.val = .ok a)
    (hq : o.pt.nparam ≠ 0 → o.pt.off id_query ≠ o.pt.off id_frag) (hl : walk o fuel = .ok l) :
    m.reads ≤ F * (o.pt.off id_frag - o.pt.off id_query) := by
  obtain ⟨it, hf, -, h⟩ := h.result hv
  have hc : collect o fuel it = .ok l := by
    unfold walk at hl
    rw [hf] at hl
    exact hl
  have := h hq ⟨l, hc⟩
  rcases hF with rfl | rfl <;> omega

end Params

namespace Seg

/-- What a segment that begins without a slash costs more. -/
def credit (o : Obj) (p : Nat) : Nat := if o.byte p = .ok c!"/" then 0 else 1

theorem _root_.Url.Walked.reads_bind {α β : Type} {m : Walked α} {f : α → Walked β} {a : α} (h : m.val = .ok a) :
    (m >>= f).reads = m.reads + (f a).reads := by
  show (match m.val with
    | .ok a => (⟨(f a).val, m.reads + (f a).reads⟩ : Walked β) | .error e => ⟨.error e, m.reads⟩).reads = _
  rw [h]

theorem _root_.Url.Walked.reads_free {α β : Type} {r : R α} {f : α → Walked β} {a : α} (h : r = .ok a) :
    (free r >>= f).reads = (f a).reads := by
  subst h
  exact Nat.zero_add _

theorem scan_reads (o : Obj) (n p q : Nat) (h : scan o n p = .ok q) :
    p ≤ q ∧ (n_scan o n p).reads + credit o q ≤ q - p + 1 := by
  induction n generalizing p with
  | zero =>
    cases h
    refine ⟨Nat.le_refl _, ?_⟩
    show 0 + _ ≤ _
    unfold credit
    split <;> omega
  | succ n ih =>
    unfold scan at h
    unfold n_scan
    obtain ⟨c, hc, h⟩ := Params.bind_ok h
    rw [Walked.reads_bind (m := o.n_byte p) hc]
    show p ≤ q ∧ 1 + _ + _ ≤ _
    split at h
    · next hs =>
      cases h
      rw [if_pos hs]
      refine ⟨Nat.le_refl _, ?_⟩
      show 1 + 0 + _ ≤ _
      unfold credit
      rw [hc, if_pos (by rw [eq_of_beq hs])]
      omega
    · next hs =>
      rw [if_neg hs]
      obtain ⟨h1, h2⟩ := ih _ h
      exact ⟨by omega, by omega⟩

theorem parse_reads {lim : Nat} {o : Obj} {it r : SegIt} (h : parse lim o it = .ok r) :
    r.off = it.off ∧ (n_parse lim o it).reads + credit o (r.off + r.n) ≤ r.n + 1 + credit o it.off := by
  unfold parse at h
  unfold n_parse
  obtain ⟨u, hu, h⟩ := Params.bind_ok h
  obtain ⟨c, hc, h⟩ := Params.bind_ok h
  obtain ⟨q, hq, h⟩ := Params.bind_ok h
  cases h
  rw [Walked.reads_free hu, Walked.reads_bind (m := o.n_byte it.off) hc]
  simp only at hq ⊢
  rw [Walked.reads_bind ((scan_erase ..).trans hq)]
  obtain ⟨h1, h2⟩ := scan_reads _ _ _ _ hq
  refine ⟨trivial, ?_⟩
  show 1 + (_ + 0) + _ ≤ _
  have h3 : credit o it.off = if (c == c!"/") = true then 0 else 1 := by
    unfold credit
    rw [hc]
    by_cases e : c = c!"/"
    · subst e; rfl
    · rw [if_neg (by intro h; injection h with h; exact e h), if_neg (by simpa using e)]
  rw [h3]
  have h4 : it.off + (q - it.off) = q := by split at h1 <;> omega
  rw [h4]
  split at h1 <;> simp_all <;> omega

theorem deref_reads (o : Obj) (it : SegIt) : (n_deref o it).reads ≤ 1 := by
  unfold n_deref
  cases e : o.read it.off it.n with
  | error f => exact Nat.zero_le _
  | ok s =>
    rw [Walked.reads_free rfl]
    cases s with
    | nil => exact Nat.zero_le _
    | cons c t => exact Nat.le_refl _

theorem next_reads {lim : Nat} {o : Obj} {it r : SegIt} (h : next lim o it = .ok r) :
    r.off = it.off + it.n ∧ (n_next lim o it).reads + credit o (r.off + r.n) ≤ r.n + 1 + credit o (it.off + it.n) := by
  unfold next at h
  unfold n_next
  obtain ⟨u, hu, h⟩ := Params.bind_ok h
  rw [Walked.reads_free hu]
  simp only at h ⊢
  split at h
  · next hf =>
    cases h
    rw [if_pos hf]
    refine ⟨rfl, ?_⟩
    show 0 + credit o (it.off + it.n) ≤ _
    omega
  · next hf =>
    rw [if_neg hf]
    obtain ⟨h1, h2⟩ := parse_reads h
    exact ⟨h1, by omega⟩

theorem eq_last {o : Obj} {it : SegIt} {b : Bool} (h : eq o it (last o) = .ok b) :
    b = (it.off == o.pt.off id_query) := by
  unfold eq at h
  obtain ⟨u, -, h⟩ := Params.bind_ok h
  cases h
  rfl

theorem parse_end {lim : Nat} {o : Obj} {it : SegIt} (h : o.pt.off lim ≤ it.off) : (n_parse lim o it).reads ≤ 1 := by
  unfold n_parse
  cases hu : o.assert (.ok (it.off ≠ o.pt.off id_frag)) with
  | error f => exact Nat.zero_le _
  | ok u =>
    rw [Walked.reads_free rfl]
    cases hc : o.byte it.off with
    | error f =>
      have : o.n_byte it.off = ⟨.error f, 1⟩ := by unfold Obj.n_byte; rw [hc]
      rw [this]
      exact Nat.le_refl _
    | ok c =>
      rw [Walked.reads_bind (m := o.n_byte it.off) hc]
      have : o.pt.off lim - (if (c == c!"/") = true then it.off + 1 else it.off) = 0 := by split <;> omega
      simp only [this]
      exact Nat.le_refl _

theorem next_end {lim : Nat} {o : Obj} {it : SegIt} (h : o.pt.off lim ≤ it.off + it.n) : (n_next lim o it).reads ≤ 1 := by
  unfold n_next
  cases hu : o.assert (.ok (it.off ≠ o.pt.off id_frag)) with
  | error f => exact Nat.zero_le _
  | ok u =>
    rw [Walked.reads_free rfl]
    simp only
    split
    · exact Nat.zero_le _
    · exact parse_end h

theorem collect_reads {lim : Nat} {o : Obj} (hl : o.pt.off lim = o.pt.off id_query) {fuel : Nat} {it : SegIt} {ss : List Str}
    (h : collect lim o fuel it = .ok ss) :
    it.off ≤ o.pt.off id_query ∧ (it.off = o.pt.off id_query → (n_collect lim o fuel it).reads = 0) ∧
    (it.off ≠ o.pt.off id_query → it.off + it.n ≤ o.pt.off id_query ∧
      (n_collect lim o fuel it).reads + (it.off + it.n) ≤ o.pt.off id_query + 2 * ss.length + credit o (it.off + it.n)) := by
  induction fuel generalizing it ss with
  | zero => cases h
  | succ n ih =>
    unfold collect at h
    unfold n_collect
    obtain ⟨b, hb, h⟩ := Params.bind_ok h
    rw [Walked.reads_free hb]
    have hb := eq_last hb
    by_cases hf : it.off = o.pt.off id_query
    · rw [if_pos (by simp [hb, hf])]
      exact ⟨by omega, fun _ => rfl, fun h => absurd hf h⟩
    · rw [if_neg (by simp [hb, hf])] at h ⊢
      obtain ⟨e, he, h⟩ := Params.bind_ok h
      obtain ⟨it', hn, h⟩ := Params.bind_ok h
      obtain ⟨l', hl', h⟩ := Params.bind_ok h
      cases h
      rw [Walked.reads_bind ((deref_erase ..).trans he), Walked.reads_bind ((next_erase ..).trans hn),
        Walked.reads_bind ((collect_erase ..).trans hl')]
      obtain ⟨h1, h2, h3⟩ := ih hl'
      obtain ⟨h4, h5⟩ := next_reads hn
      have h6 := deref_reads o it
      refine ⟨by omega, fun h => absurd h hf, fun _ => ⟨by omega, ?_⟩⟩
      show _ + (_ + (_ + 0)) + _ ≤ _
      simp only [List.length_cons]
      by_cases hf' : it'.off = o.pt.off id_query
      · have := h2 hf'
        have := next_end (lim := lim) (o := o) (it := it) (by omega)
        omega
      · have := h3 hf'
        omega

theorem walk_reads {lim : Nat} {o : Obj} (hl : o.pt.off lim = o.pt.off id_query) {fuel : Nat} {ss : List Str}
    (h : walk lim o fuel = .ok ss) :
    (n_walk lim o fuel).reads ≤ (o.pt.off id_query - o.pt.off id_path) + 2 * ss.length + 2 := by
  unfold walk at h
  unfold n_walk
  obtain ⟨it, hf, h⟩ := Params.bind_ok h
  rw [Walked.reads_bind ((first_erase ..).trans hf)]
  obtain ⟨h1, h2, h3⟩ := collect_reads hl h
  unfold first at hf
  unfold n_first
  split at hf
  · next hs =>
    cases hf
    rw [if_pos hs]
    have := h2 rfl
    show 0 + _ ≤ _
    omega
  · next hs =>
    rw [if_neg hs]
    obtain ⟨h4, h5⟩ := parse_reads hf
    have hc : credit o (o.pt.off id_path) ≤ 1 := by unfold credit; split <;> omega
    simp only at h4 h5
    by_cases he : it.off = o.pt.off id_query
    · have := h2 he
      have := parse_end (lim := lim) (o := o) (it := ⟨o.pt.off id_path, 0⟩) (by simp only; omega)
      omega
    · have := h3 he
      omega

end Seg

end Url
