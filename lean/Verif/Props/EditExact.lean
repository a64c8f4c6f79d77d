import Verif.Proofs.ExactSeg
import Verif.Props.Thrown

/-!
Exactly when an edit faults, in both builds: C57.
-/

set_option linter.unusedSimpArgs false
set_option autoImplicit false

namespace Url.Props
open Url Spec
variable {env : Env} {st st' : St}

section
variable {A : List (List Cell)} {pa : Str} {q f : List Cell} {t : Cell}

/-- Every edit through iterators into the path, in both builds. -/
theorem runIt_faults (h : Holds env st (A ++ pa.map some :: [q, f]) t) (hA : A.length = 5)
    (hq : Lead c!"?" q) (hf : Lead c!"#" f) (e : ItOp) (hin : e.InPath st) {x v : Str}
    (hx : e.removed (st.pt.off id_path) pa = x) (hv : e.rest (st.pt.off id_path) pa = v) {T : Nat} (hT : size (st.obj false) = T) :
    Faults (runIt e env st) ↔ e.Valid ∧ ((env.dbg = true ∧ st.size ≠ T) ∨
      (Stores env st (room st e) ∧ (BadErase env st x v q ∨
        (x = [] ∧ ((e.text ≠ [] ∧ BadPut env st T (room st e) v q f) ∨ (e.text = [] ∧ (∀ a b, e ≠ .erase_range a b) ∧ env.dbg = true ∧ AtEnd v q)))))) := by
  obtain ⟨o1, o2, -⟩ := h.offs hA
  rw [List.length_map] at o2
  have hend : size (st.obj false) = (A ++ pa.map some :: [q, f]).flatten.length := h.off_end
  have hsz : ∀ s, pchar_pct_set.encoded_size s = (pctEncode isPchar s).length := fun s => by
    rw [encoded_size_eq setOf_pchar, encode_eq setOf_pchar]
  have henc : ∀ s, pchar_pct_set.encode s = pctEncode isPchar s := encode_eq setOf_pchar
  have hchk : ∀ s, pchar_pct_set.check s = true ↔ Escaped isUpperHex isPchar s := check_iff setOf_pchar
  have himpl : ∀ s it st, Base.seg_insert_impl it s (pctEncode isPchar s).length env st =
      Base.seg_put it (pctEncode isPchar s).length (pctEncode isPchar s) env st := by
    intro s it st
    unfold Base.seg_insert_impl
    rw [pass_bind fun _ => by simp [hsz], henc]
  have hiimpl : ∀ s, Escaped isUpperHex isPchar s → ∀ it st, Base.seg_insert_encoded_impl it s env st = Base.seg_put it s.length s env st := by
    intro s hs it st
    unfold Base.seg_insert_encoded_impl
    rw [pass_bind fun _ => by rw [(hchk s).2 hs]]
  -- the three parts of the path
  obtain ⟨i, j, hi, hj, h1, h2⟩ : ∃ i j, i ≤ j ∧ j ≤ pa.length ∧ e.range = (A.flatten.length + i, A.flatten.length + j) ∧
      pa = pa.take i ++ (pa.take j).drop i ++ pa.drop j := by
    obtain ⟨a, b, c⟩ := hin
    rw [o1] at a
    rw [o2] at c
    refine ⟨e.range.1 - A.flatten.length, e.range.2 - A.flatten.length, by omega, by omega, ?_, ?_⟩
    · ext
      · show _ = A.flatten.length + _; omega
      · show _ = A.flatten.length + _; omega
    · conv => lhs; rw [← List.take_append_drop (e.range.2 - A.flatten.length) pa]
      congr 1
      conv => lhs; rw [← List.take_append_drop (e.range.1 - A.flatten.length) (pa.take _)]
      rw [List.take_take, Nat.min_eq_left (by omega)]
  have hl1 : (pa.take i).length = i := by rw [List.length_take]; omega
  have hl2 : ((pa.take j).drop i).length = j - i := by rw [List.length_drop, List.length_take]; omega
  rw [h2] at h hend
  have er1 : (pa.take j).drop i = x := by
    rw [← hx]; unfold ItOp.removed; rw [o1, h1]; simp
  have er2 : pa.drop j = v := by
    rw [← hv]; unfold ItOp.rest; rw [o1, h1]; simp
  clear hx hv h2
  rw [er1, er2] at h hend
  rw [er1] at hl2
  clear er1 er2
  generalize pa.take i = u at *
  subst hl1
  rw [hT] at hend
  have hend := hend.symm
  have zero : Stores env st 0 := .inl (Nat.zero_le _)
  have hput : ∀ (k : Nat) (enc : Str), x = [] →
      (Faults (Base.seg_put { off := A.flatten.length + u.length, n := k } enc.length enc env st) ↔
        ((env.dbg = true ∧ st.size ≠ T) ∨ (Stores env st (T + (enc.length + 1)) ∧ BadPut env st T (T + (enc.length + 1)) v q f))) := by
    intro k enc hx
    subst hx
    simp only [List.append_nil] at h hend
    rcases put_exact (enc := enc) h hA hq hf k hend rfl with ⟨p1, p2⟩ | ⟨p1, ⟨p2, p3⟩ | ⟨p2, p3, p4⟩ | ⟨p2, p3, it, s, p4, -⟩⟩
    · exact ⟨fun _ => .inl p1, fun _ => p2⟩
    · rw [p3]
      exact ⟨fun h => absurd h not_faults_throw, fun h => absurd (h.resolve_left p1).1 p2⟩
    · exact ⟨fun _ => .inr ⟨p2, p3⟩, fun _ => p4⟩
    · rw [p4]
      exact ⟨fun h => absurd h not_faults_ret, fun h => absurd (h.resolve_left p1).2 p3⟩
  have nbe : x = [] → ¬ BadErase env st x v q := fun h1 h2 => h2.1 h1
  have hswap : ∀ (enc : Str) (ins : SegIt → M SegIt), (∀ it st, ins it env st = Base.seg_put it enc.length enc env st) →
      (Faults (Base.seg_swap { off := A.flatten.length + u.length, n := x.length } enc.length ins env st) ↔
        ((env.dbg = true ∧ st.size ≠ T) ∨ (Stores env st (st.size + (enc.length + 1) - x.length) ∧
          (BadErase env st x v q ∨ (x = [] ∧ BadPut env st T (st.size + (enc.length + 1) - x.length) v q f))))) :=
    fun enc ins hins => swap_exact h hA hq hf hins hend rfl
  cases e with
  | erase p =>
    obtain ⟨off, n⟩ := p
    simp only [ItOp.range, Prod.mk.injEq] at h1
    obtain ⟨rfl, h1⟩ := h1
    obtain rfl : n = x.length := by omega
    simp only [ItOp.Valid, true_and, room, zero, ItOp.text, ne_eq, not_true, false_and, false_or, runIt]
    have hk := erase_exact h hA hq hf
    rw [hend] at hk
    have e1 : (x = [] ∧ (∀ a b, ItOp.erase ⟨A.flatten.length + u.length, x.length⟩ ≠ .erase_range a b) ∧ env.dbg = true ∧ AtEnd v q) ↔
        (env.dbg = true ∧ x = [] ∧ AtEnd v q) := by
      constructor
      · rintro ⟨a, -, b, c⟩; exact ⟨b, a, c⟩
      · rintro ⟨a, b, c⟩; exact ⟨b, nofun, a, c⟩
    rw [show (x = [] ∧ (∀ a b, ¬ ItOp.erase ⟨A.flatten.length + u.length, x.length⟩ = .erase_range a b) ∧ env.dbg = true ∧ AtEnd v q) ↔
        (env.dbg = true ∧ x = [] ∧ AtEnd v q) from e1]
    rcases hk with ⟨k1, k2⟩ | ⟨k1, n, s, k2, -⟩
    · exact ⟨fun _ => k1, fun _ => k2⟩
    · rw [k2]
      exact ⟨fun h => absurd h not_faults_ret, fun h => absurd h k1⟩
  | erase_range a b =>
    obtain ⟨off, k⟩ := a
    obtain ⟨off', k'⟩ := b
    simp only [ItOp.range, Prod.mk.injEq] at h1
    obtain ⟨rfl, h1⟩ := h1
    obtain rfl : off' = A.flatten.length + u.length + x.length := by omega
    simp only [ItOp.Valid, true_and, room, zero, ItOp.text, ne_eq, not_true, false_and, false_or, runIt]
    have e1 : (x = [] ∧ (∀ a b, ¬ ItOp.erase_range ⟨A.flatten.length + u.length, k⟩ ⟨A.flatten.length + u.length + x.length, k'⟩ = .erase_range a b) ∧ env.dbg = true ∧ AtEnd v q) ↔
        False := ⟨fun h => h.2.1 _ _ rfl, False.elim⟩
    rw [e1, or_false]
    have hk := erase_range_exact h hA hq hf k k'
    rw [hend] at hk
    rcases hk with ⟨k1, k2⟩ | ⟨k1, n, s, k2, -⟩
    · exact ⟨fun _ => k1, fun _ => k2⟩
    · rw [k2]
      exact ⟨fun h => absurd h not_faults_ret, fun h => absurd h k1⟩
  | insert p s =>
    obtain ⟨off, n⟩ := p
    simp only [ItOp.range, Prod.mk.injEq] at h1
    obtain ⟨rfl, h1⟩ := h1
    have hx : x = [] := List.length_eq_zero_iff.1 (by omega)
    have hr : room st (.insert ⟨A.flatten.length + u.length, n⟩ s) = T + ((pctEncode isPchar s).length + 1) := by
      rw [← hT]; rfl
    have := hput n (pctEncode isPchar s) hx
    rw [← himpl] at this
    rw [← hsz] at this hr
    simp only [ItOp.Valid, true_and, hr, ItOp.text, hx, ne_eq, reduceCtorEq, not_false_eq_true, false_and, or_false, runIt]
    rw [hx] at nbe
    simp only [nbe rfl, false_or]
    exact this
  | insert_encoded p s =>
    obtain ⟨off, n⟩ := p
    simp only [ItOp.range, Prod.mk.injEq] at h1
    obtain ⟨rfl, h1⟩ := h1
    have hx : x = [] := List.length_eq_zero_iff.1 (by omega)
    have hr : room st (.insert_encoded ⟨A.flatten.length + u.length, n⟩ s) = T + (s.length + 1) := by
      rw [← hT]; rfl
    rw [runIt]
    unfold Base.seg_insert_encoded Base.validate
    by_cases hv : Escaped isUpperHex isPchar s
    · rw [run_bind_ret (run_require ((hchk s).2 hv)), hiimpl s hv]
      have := hput n s hx
      simp only [ItOp.Valid, hv, true_and, hr, ItOp.text, hx, ne_eq, reduceCtorEq, not_false_eq_true, false_and, or_false]
      rw [hx] at nbe
      simp only [nbe rfl, false_or]
      exact this
    · rw [run_bind_throw (run_require_false (by rw [← Bool.not_eq_true, hchk]; exact hv))]
      exact ⟨fun h => absurd h not_faults_throw, fun h => absurd h.1 hv⟩
  | replace p s =>
    obtain ⟨off, n⟩ := p
    simp only [ItOp.range, Prod.mk.injEq] at h1
    obtain ⟨rfl, h1⟩ := h1
    obtain rfl : n = x.length := by omega
    have := hswap (pctEncode isPchar s) _ (himpl s)
    rw [runIt]
    unfold Base.seg_replace
    rw [hsz]
    simp only [ItOp.Valid, true_and, room, ItOp.text, ne_eq, reduceCtorEq, not_false_eq_true, false_and, or_false, List.length_cons]
    exact this
  | replace_encoded p s =>
    obtain ⟨off, n⟩ := p
    simp only [ItOp.range, Prod.mk.injEq] at h1
    obtain ⟨rfl, h1⟩ := h1
    obtain rfl : n = x.length := by omega
    rw [runIt]
    unfold Base.seg_replace_encoded Base.validate
    by_cases hv : Escaped isUpperHex isPchar s
    · rw [run_bind_ret (run_require ((hchk s).2 hv))]
      have := hswap s _ (hiimpl s hv)
      simp only [ItOp.Valid, hv, true_and, room, ItOp.text, ne_eq, reduceCtorEq, not_false_eq_true, false_and, or_false, List.length_cons]
      exact this
    · rw [run_bind_throw (run_require_false (by rw [← Bool.not_eq_true, hchk]; exact hv))]
      exact ⟨fun h => absurd h not_faults_throw, fun h => absurd h.1 hv⟩

end

theorem query_none {S U W H P pa q f : List Cell} {t : Cell} (h : Part8 env st S U W H P pa q f t) :
    (query_part (st.obj false) = .ok [] ↔ q = []) ∧ (fragment_part (st.obj false) = .ok [] ↔ f = []) := by
  have e6 : (st.obj false).get id_query = _ := h.holds.get 6 false
  have e7 : (st.obj false).get id_frag = _ := h.holds.get 7 false
  have ha : ∀ c, (st.obj false).assert c = .ok () := fun c => rfl
  constructor
  · unfold query_part delimited
    rcases h.q with hq | ⟨s, hq⟩
    · subst hq
      have e6 : (st.obj false).get id_query = .ok [] := e6
      simp only [e6, bind_ok, ha]
      simp
    · subst hq
      have e6 : (st.obj false).get id_query = .ok (c!"?" :: s) := e6.trans (readCells_some (c!"?" :: s))
      simp only [e6, bind_ok, ha]
      simp
  · unfold fragment_part delimited
    rcases h.f with hq | ⟨s, hq⟩
    · subst hq
      have e7 : (st.obj false).get id_frag = .ok [] := e7
      simp only [e7, bind_ok, ha]
      simp
    · subst hq
      have e7 : (st.obj false).get id_frag = .ok (c!"#" :: s) := e7.trans (readCells_some (c!"#" :: s))
      simp only [e7, bind_ok, ha]
      simp

/-- C57: exactly when an edit through iterators into the path does anything undefined in a build without assertions: it
is given what it should be given, the storage provides for the result, and it removes more slashes than an `int` can
count, or inserts at the end of a text that ends with the path and is not followed by a null character, and that a larger
buffer does not give one. This is after any calls and edits, for any behaviour of the allocator. -/
theorem C57_exact {e : ItOp} {x : Flt} (hd : env.dbg = false) (hw : Worked env st) (hin : e.InPath st) :
    runIt e env st = .fault x ↔ x = .ub ∧ e.Valid ∧ Supplies env st (room st e) ∧ ∃ p, encoded_path (st.obj false) = .ok p ∧
      (2147483647 < (e.removed (st.pt.off id_path) p).count c!"/" ∨
        (e.text ≠ [] ∧ e.range.1 = e.range.2 ∧ e.range.2 = st.pt.off id_query ∧ query_part (st.obj false) = .ok [] ∧
          fragment_part (st.obj false) = .ok [] ∧ ¬ Terminated st ∧
          ¬ (st.buf.isSome = true ∧ st.size = size (st.obj false) ∧ st.cap < room st e))) := by
  obtain ⟨S, U, W, H, P, q, f, t, pa, hp⟩ := hw.parts hd
  have hF := runIt_faults (A := [S, U, W, H, P]) hp.holds rfl hp.q hp.f e hin rfl rfl rfl
  have hub : Faults (runIt e env st) → runIt e env st = .fault .ub := fun ⟨y, hy⟩ => by
    rw [hy, (C57_release hd hw hin hy).1]
  have hx : runIt e env st = .fault x ↔ x = .ub ∧ Faults (runIt e env st) := by
    constructor
    · intro h
      refine ⟨?_, x, h⟩
      have := hub ⟨x, h⟩
      rw [h] at this
      cases this; rfl
    · rintro ⟨rfl, h⟩; exact hub h
  rw [hx, hF, stores_iff, hd]
  obtain ⟨hqn, hfn⟩ := query_none hp
  have hpath := hp.path false
  rw [hpath]
  obtain ⟨o1, o2, o3⟩ := hp.holds.offs (A := [S, U, W, H, P]) rfl
  rw [List.length_map] at o2
  obtain ⟨i1, i2, i3⟩ := hin
  have r1 : e.removed (st.pt.off id_path) pa = [] ↔ e.range.1 = e.range.2 := by
    unfold ItOp.removed
    rw [List.drop_eq_nil_iff, List.length_take]
    omega
  have r2 : e.rest (st.pt.off id_path) pa = [] ↔ e.range.2 = st.pt.off id_query := by
    unfold ItOp.rest
    rw [List.drop_eq_nil_iff]
    omega
  have hc : 2147483647 < (e.removed (st.pt.off id_path) pa).count c!"/" → e.removed (st.pt.off id_path) pa ≠ [] := by
    intro h h0; rw [h0] at h; simp at h
  have hterm : Nul st ↔ Terminated st := Iff.rfl
  unfold BadErase BadPut AtEnd Fed
  rw [hd, hqn, hfn, r2, ← hterm]
  simp only [Bool.false_eq_true, false_and, and_false, or_false, false_or, Base.intMax, Except.ok.injEq, exists_eq_left']
  refine and_congr Iff.rfl (and_congr Iff.rfl (and_congr Iff.rfl ?_))
  rw [r1]
  constructor
  · rintro (⟨-, h⟩ | ⟨h1, h2, ⟨h3, h4⟩, h5, h6⟩)
    · exact .inl h
    · exact .inr ⟨h2, h1, h3, h4, h5, fun h => h6 (.inl h), fun h => h6 (.inr h)⟩
  · rintro (h | ⟨h2, h1, h3, h4, h5, h6, h7⟩)
    · exact .inl ⟨hc h, h⟩
    · exact .inr ⟨h1, h2, ⟨h3, h4⟩, h5, fun h => h.elim h6 h7⟩

/-- A text that ends with the path and is not followed by a null character: an insertion at its end that makes the buffer
grow (and so writes one), for the same calls but one more where it does not, and there an insertion elsewhere and a replacement. -/
example : Worked env1 (afterRelease [.set_encoded_path b!"/a"]) ∧ ItOp.InPath (afterRelease [.set_encoded_path b!"/a"]) (.insert ⟨2, 0⟩ b!"") ∧
    pathOf (runIt (.insert ⟨2, 0⟩ b!"") env1 (afterRelease [.set_encoded_path b!"/a"])) = some (b!"/a/", ⟨3, 0⟩) ∧
    Worked env1 (afterRelease [.set_encoded_path b!"/abcd", .set_encoded_path b!"/a"]) ∧
    itFault (runIt (.insert ⟨2, 0⟩ b!"bcdefghij") env1 (afterRelease [.set_encoded_path b!"/abcd", .set_encoded_path b!"/a"])) = some .ub ∧
    itFault (runIt (.replace ⟨2, 0⟩ b!"") env1 (afterRelease [.set_encoded_path b!"/abcd", .set_encoded_path b!"/a"])) = some .ub ∧
    itFault (runIt (.insert ⟨0, 0⟩ b!"bcdefghij") env1 (afterRelease [.set_encoded_path b!"/abcd", .set_encoded_path b!"/a"])) = none ∧
    itFault (runIt (.replace ⟨0, 2⟩ b!"bcdefghij") env1 (afterRelease [.set_encoded_path b!"/abcd", .set_encoded_path b!"/a"])) = none :=
  ⟨(afterRelease_used (by decide +kernel)).worked, by decide +kernel, by decide +kernel, (afterRelease_used (by decide +kernel)).worked,
    by decide +kernel, by decide +kernel, by decide +kernel, by decide +kernel⟩

/-- C57: exactly when an edit through iterators into the path stops at an assertion or does anything undefined in a build
with assertions. It is given what it should be given, and the size of the text is not the one that the storage has; or
the storage provides for the result, and it removes something with no slash, or with more slashes than segments are
counted or an `int` can count; or it is not an `erase` of an empty range, and ends at the end of a text without a query; or
it inserts where nothing was, and there is no null character behind the text, and a larger buffer does not give one. This
is after any calls and edits, for any behaviour of the allocator. -/
theorem C57_debug {e : ItOp} (hd : env.dbg = true) (hw : Worked env st) (hin : e.InPath st) :
    (∃ x, runIt e env st = .fault x) ↔ e.Valid ∧ (st.size ≠ size (st.obj false) ∨
      Supplies env st (room st e) ∧ ∃ p, encoded_path (st.obj false) = .ok p ∧
        ((e.range.1 ≠ e.range.2 ∧ ((e.removed (st.pt.off id_path) p).count c!"/" = 0 ∨
            st.pt.nseg < (e.removed (st.pt.off id_path) p).count c!"/" ∨
            2147483647 < (e.removed (st.pt.off id_path) p).count c!"/")) ∨
          ((∀ a b, e = .erase_range a b → a.off ≠ b.off) ∧ e.range.2 = st.pt.off id_query ∧ query_part (st.obj false) = .ok []) ∨
          (e.text ≠ [] ∧ e.range.1 = e.range.2 ∧ ¬ Terminated st ∧ ¬ (st.buf.isSome = true ∧ st.cap < room st e)))) := by
  obtain ⟨S, U, W, H, P, q, f, t, pa, hp⟩ := hw.release.parts rfl
  have hH : Holds env st ([S, U, W, H, P] ++ pa.map some :: [q, f]) t :=
    ⟨hp.holds.rep, hp.holds.len, hp.holds.buf, hp.holds.cap, hp.holds.term⟩
  have hF := runIt_faults hH rfl hp.q hp.f e hin rfl rfl rfl
  unfold Faults at hF
  rw [hF, stores_iff, hd]
  obtain ⟨hqn, -⟩ := query_none hp
  have hpath := hp.path false
  rw [hpath]
  obtain ⟨o1, o2, o3⟩ := hH.offs (A := [S, U, W, H, P]) rfl
  rw [List.length_map] at o2
  obtain ⟨i1, i2, i3⟩ := hin
  have r1 : e.removed (st.pt.off id_path) pa = [] ↔ e.range.1 = e.range.2 := by
    unfold ItOp.removed
    rw [List.drop_eq_nil_iff, List.length_take]
    omega
  have r2 : e.rest (st.pt.off id_path) pa = [] ↔ e.range.2 = st.pt.off id_query := by
    unfold ItOp.rest
    rw [List.drop_eq_nil_iff]
    omega
  have hterm : Nul st ↔ Terminated st := Iff.rfl
  unfold BadErase BadPut AtEnd Fed
  rw [hd, hqn, r2, ← hterm]
  simp only [true_and, Base.intMax, Except.ok.injEq, exists_eq_left', true_or, and_true]
  refine and_congr Iff.rfl ?_
  simp only [ne_eq, r1]
  by_cases hs : st.size = size (st.obj false)
  · simp only [hs, not_true, false_or, true_and]
    refine and_congr Iff.rfl ?_
    have hidle : e.text ≠ [] ∨ e.range.1 ≠ e.range.2 → ∀ a b, e = .erase_range a b → a.off ≠ b.off := by
      rintro h a b rfl h2
      exact h.elim (fun h => h rfl) (fun h => h h2)
    have hidle' : e.text = [] → e.range.1 = e.range.2 → ((∀ a b, e = .erase_range a b → a.off ≠ b.off) ↔ ∀ a b, e ≠ .erase_range a b) := by
      intro h1 h2
      constructor
      · rintro h a b rfl; exact h a b rfl h2
      · exact fun h a b h3 => absurd h3 (h a b)
    by_cases hr : e.range.1 = e.range.2
    · simp only [hr, not_true, false_and, false_or, true_and]
      by_cases ht : e.text = []
      · have := hidle' ht hr
        simp only [ht, not_true, false_and, false_or, true_and, or_false, ne_eq] at this ⊢
        rw [this]
      · have := hidle (.inl ht)
        simp only [ht, not_false_eq_true, false_and, or_false, true_and]
        constructor
        · rintro (h | h)
          · exact .inr ⟨fun h' => h (.inl h'), fun h' => h (.inr h')⟩
          · exact .inl ⟨this, h⟩
        · rintro (h | h)
          · exact .inr h.2
          · exact .inl fun h' => h'.elim h.1 h.2
    · have := hidle (.inr hr)
      simp only [hr, not_false_eq_true, false_and, or_false, true_and, and_false]
      constructor
      · rintro (h | h | h | h)
        · exact .inl (.inr (.inr h))
        · exact .inl (.inl h)
        · exact .inl (.inr (.inl h))
        · exact .inr ⟨this, h⟩
      · rintro ((h | h | h) | h)
        · exact .inr (.inl h)
        · exact .inr (.inr (.inl h))
        · exact .inl h
        · exact .inr (.inr (.inr h.2))
  · simp only [hs, not_false_eq_true, true_or, true_and]

theorem after_worked {ops : List Op} (h : returns (runAll ops env0 Base.empty) = true) : Worked env0 (after ops) :=
  Worked.empty.all (after_eq h)

/-- With assertions. With a query, an erase is fine (also of parts of two segments), unless it takes no slash. Without, it
is fine before the end, and an erase of an empty range is fine there, but no other edit. After a call that makes the text shorter
no edit is fine. -/
example : Worked env0 (after [.set_encoded_url b!"/a/b?x"]) ∧ ItOp.InPath (after [.set_encoded_url b!"/a/b?x"]) (.erase ⟨2, 2⟩) ∧
    itFault (runIt (.erase ⟨2, 2⟩) env0 (after [.set_encoded_url b!"/a/b?x"])) = none ∧
    itFault (runIt (.erase ⟨1, 2⟩) env0 (after [.set_encoded_url b!"/a/b?x"])) = none ∧
    itFault (runIt (.erase ⟨1, 1⟩) env0 (after [.set_encoded_url b!"/a/b?x"])) = some .assert ∧
    Worked env0 (after [.set_encoded_url b!"/a/b#f"]) ∧
    itFault (runIt (.erase ⟨0, 2⟩) env0 (after [.set_encoded_url b!"/a/b#f"])) = none ∧
    itFault (runIt (.erase ⟨2, 2⟩) env0 (after [.set_encoded_url b!"/a/b#f"])) = some .assert ∧
    itFault (runIt (.erase_range ⟨4, 0⟩ ⟨4, 0⟩) env0 (after [.set_encoded_url b!"/a/b#f"])) = none ∧
    itFault (runIt (.erase ⟨4, 0⟩) env0 (after [.set_encoded_url b!"/a/b#f"])) = some .assert ∧
    itFault (runIt (.insert ⟨4, 0⟩ b!"") env0 (after [.set_encoded_url b!"/a/b#f"])) = some .assert ∧
    Worked env0 (after [.set_encoded_url b!"/ab?xyz", .set_query b!"x"]) ∧
    itFault (runIt (.insert ⟨0, 0⟩ b!"c") env0 (after [.set_encoded_url b!"/ab?xyz", .set_query b!"x"])) = some .assert :=
  ⟨after_worked (by decide +kernel), by decide +kernel, by decide +kernel, by decide +kernel, by decide +kernel,
    after_worked (by decide +kernel), by decide +kernel, by decide +kernel, by decide +kernel, by decide +kernel, by decide +kernel,
    after_worked (by decide +kernel), by decide +kernel⟩

end Url.Props
