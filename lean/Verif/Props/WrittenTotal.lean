import Verif.Props.Written
import Verif.Proofs.CountedAmort

/-!
C73: how many characters a history of modifications writes.
-/

set_option autoImplicit false

namespace Url.Props
open Url Spec

variable {env : Env} {st st' : St}

/-- The part that begins where what a call replaces ends. -/
def endOf : Op → Nat
  | .set_encoded_url _ | .set_fragment _ | .set_encoded_fragment _ | .set_fragment_part _ => id_end
  | .set_query _ | .set_encoded_query _ | .set_query_part _ => id_frag
  | .set_encoded_path _ => id_query
  | .set_encoded_origin _ | .set_encoded_authority _ | .set_port _ | .set_port_number _ | .set_port_part _ => id_path
  | .set_host _ | .set_encoded_host _ => id_port
  | .set_encoded_userinfo _ | .set_userinfo_part _ | .set_password _ | .set_encoded_password _ | .set_password_part _ => id_host
  | .set_user _ | .set_encoded_user _ => id_password
  | .set_scheme _ | .normalize_scheme | .normalize => id_user

/-- What C73 allows a call, apart from the growth of the capacity: what is behind the part it replaces, what it stores for its
argument, and eight. One call moves what is behind twice. Changing the case of the scheme does not move anything. -/
def allowed (st : St) (op : Op) : Nat :=
  match op with
  | .normalize_scheme | .normalize => st.pt.length id_scheme
  | .set_password_part s => (if s = b!":" then 2 else 1) * (size (st.obj false) - st.pt.off id_host) + stores op + (if s = b!":" then 12 else 8)
  | _ => (size (st.obj false) - st.pt.off (endOf op)) + stores op + 8

/-- C73: apart from as many characters as the capacity grows by, a call writes no more than it is allowed, also when it throws. -/
theorem C73_calls {op : Op} (h : Worked env st) (hrun : run op env st = .ret () st' ∨ ∃ x, run op env st = .throw x st') :
    (runCounted op env st).1 + st.cap ≤ allowed st op + st'.cap := by
  have e : (runCounted op env st).2.left = some st' := by
    rw [C72_counts]
    rcases hrun with h | ⟨x, h⟩ <;> rw [h] <;> rfl
  have use : ∀ {c : CM Unit} {f b : Nat}, Amort.Tail c f b → b ≤ stores op + 8 → (c env st).2.left = some st' →
      (c env st).1 + st.cap ≤ (size (st.obj false) - st.pt.off f) + stores op + 8 + st'.cap := fun hc hb e => by
    have := (hc env st st' (worked_fits h).1 (worked_proper h).ord e).1
    have e8 : size (st.obj false) = st.pt.off 8 := rfl
    omega
  cases op <;> simp only [stores, runCounted, Machine.argLength, endOf, allowed] at e use ⊢
  case set_encoded_url s => exact use (Amort.t_set_encoded_url s) (by omega) e
  case set_encoded_origin s => exact use (Amort.t_set_encoded_origin s) (by omega) e
  case set_scheme s => exact use (Amort.t_set_scheme s) (by omega) e
  case set_encoded_authority s => exact use (Amort.t_set_encoded_authority s) (by omega) e
  case set_encoded_userinfo s => exact use (Amort.t_set_encoded_userinfo s) (by omega) e
  case set_userinfo_part s => exact use (Amort.t_set_userinfo_part s) (by omega) e
  case set_user s => exact use (Amort.t_set_user s) (by rw [encodedLength setOf_userinfo_nc]; omega) e
  case set_encoded_user s => exact use (Amort.t_set_encoded_user s) (by omega) e
  case set_password s => exact use (Amort.t_set_password s) (by rw [encodedLength setOf_userinfo]; omega) e
  case set_encoded_password s => exact use (Amort.t_set_encoded_password s) (by omega) e
  case set_password_part s =>
    by_cases hc : s = b!":"
    · subst hc
      have := Amort.t_password_colon (worked_fits h).1 (worked_proper h).ord e
      exact this
    · rw [if_neg hc, if_neg hc]
      have := use (Amort.t_password_part_other hc) (by omega) e
      rw [Nat.one_mul]
      exact this
  case set_host s => exact use (Amort.t_set_host s) (by rw [encodedLength setOf_regName]; omega) e
  case set_encoded_host s => exact use (Amort.t_set_encoded_host s) (by omega) e
  case set_port s => exact use (Amort.t_set_port s) (by omega) e
  case set_port_number n => exact use (Amort.t_set_port_number n) (by omega) e
  case set_port_part s => exact use (Amort.t_set_port_part s) (by omega) e
  case set_encoded_path s => exact use (Amort.t_set_encoded_path s) (by omega) e
  case set_query s => exact use (Amort.t_setPlain (by decide) _ setOf_query s) (by rw [encodedLength setOf_query]; omega) e
  case set_encoded_query s => exact use (Amort.t_setEncoded (by decide) _ _ s) (by omega) e
  case set_query_part s => exact use (Amort.t_setPart (by decide) _ _ s) (by omega) e
  case set_fragment s => exact use (Amort.t_setPlain (by decide) _ setOf_frag s) (by rw [encodedLength setOf_frag]; omega) e
  case set_encoded_fragment s => exact use (Amort.t_setEncoded (by decide) _ _ s) (by omega) e
  case set_fragment_part s => exact use (Amort.t_setPart (by decide) _ _ s) (by omega) e
  case normalize_scheme =>
    have h1 := C24_monotone _ hrun
    have h2 := w_normalize_scheme env st
    omega
  case normalize =>
    have h1 := C24_monotone _ hrun
    have h2 : (Counted.normalize env st).1 ≤ _ := w_normalize_scheme env st
    omega

/-- What C73 allows an edit, apart from the growth of the capacity: what is behind the characters it removes, or for a replacement
twice what is behind its position, and what it inserts. -/
def allowedEdit (st : St) (e : ItOp) : Nat :=
  match e with
  | .replace p _ | .replace_encoded p _ => 2 * (size (st.obj false) - p.off) + e.text.length + 10
  | _ => (size (st.obj false) - e.range.2) + e.text.length + 4

/-- C73 for an edit, through any iterators. -/
theorem C73_edits {e : ItOp} (h : Worked env st) (hrun : (∃ it, runIt e env st = .ret it st') ∨ ∃ x, runIt e env st = .throw x st') :
    (runItCounted e env st).1 + st.cap ≤ allowedEdit st e + st'.cap := by
  have hl : (runItCounted e env st).2.left = some st' := by
    rw [C72_counts_edit]
    rcases hrun with ⟨it, h⟩ | ⟨x, h⟩ <;> rw [h] <;> rfl
  obtain ⟨hs, -, -, hc⟩ := worked_fits h
  have e8 : size (st.obj false) = st.pt.off 8 := rfl
  have he := encodedLength setOf_pchar
  cases e <;> simp only [allowedEdit, runItCounted, ItOp.text, ItOp.range, List.length_cons, List.length_nil, ← he] at hl ⊢
  case erase p => have := (Amort.b_erase p env st st' hs hl).1; omega
  case erase_range a b => have := (Amort.b_erase_range a b env st st' hs hl).1; omega
  case insert p s => have := (Amort.b_insert_impl p s env st st' hs hl).1; unfold Counted.seg_insert; omega
  case insert_encoded p s => have := (Amort.b_insert_encoded p s env st st' hs hl).1; omega
  case replace p s => have := (Amort.b_replace hs hc hl).1; omega
  case replace_encoded p s => have := (Amort.b_replace_encoded hs hc hl).1; omega

/-- `Spent env st w b st'`: from `st` to `st'` by calls and edits, returning or throwing, that wrote `w` characters and were allowed
`b`. -/
inductive Spent (env : Env) (st : St) : Nat → Nat → St → Prop
  | nothing : Spent env st 0 0 st
  | call {w b : Nat} {s s' : St} (op : Op) : Spent env st w b s → (run op env s = .ret () s' ∨ ∃ x, run op env s = .throw x s') →
      Spent env st (w + (runCounted op env s).1) (b + allowed s op) s'
  | edit {w b : Nat} {s s' : St} (e : ItOp) : Spent env st w b s → e.InPath s →
      ((∃ it, runIt e env s = .ret it s') ∨ ∃ x, runIt e env s = .throw x s') →
      Spent env st (w + (runItCounted e env s).1) (b + allowedEdit s e) s'

/-- C73: any history of calls and edits has written at most what they are allowed and what the capacity has grown by, however often
the text was copied to a new block. -/
theorem C73_history {w b : Nat} (h : Worked env st) (hs : Spent env st w b st') : Worked env st' ∧ w + st.cap ≤ b + st'.cap := by
  induction hs with
  | nothing => exact ⟨h, Nat.le_refl _⟩
  | @call w b s s' op _ hrun ih =>
    obtain ⟨hw, ih⟩ := ih
    refine ⟨.call op hw hrun, ?_⟩
    have key := C73_calls hw hrun
    omega
  | @edit w b s s' e _ hin hrun ih =>
    obtain ⟨hw, ih⟩ := ih
    refine ⟨.edit e hw hin hrun, ?_⟩
    have h1 : (runItCounted e env s).1 + s.cap ≤ allowedEdit s e + s'.cap := C73_edits hw hrun
    omega

/-- An insertion leaves the query and the fragment as they are, and the text is longer by what is inserted. -/
theorem insert_tail {e : ItOp} {it : SegIt} (hw : Worked env st) (hin : e.InPath st) (he : e.range.1 = e.range.2) (h : runIt e env st = .ret it st') :
    size (st'.obj false) = size (st.obj false) + e.text.length ∧ st'.pt.off id_path = st.pt.off id_path ∧
    st'.pt.off id_query = st.pt.off id_query + e.text.length := by
  have h' : runIt e env.release st = .ret it st' := by
    rcases runIt_sim e env st with ⟨f, h1⟩ | h1
    · rw [h1] at h; cases h
    · rwa [← h1]
  obtain ⟨S, U, W, H, P, q, f, t, pa, hp⟩ := hw.release.parts rfl
  rcases hp.edit rfl hin with ⟨-, hv⟩ | ⟨-, ho⟩
  · rw [h'] at hv; cases hv
  · rw [h'] at ho
    obtain ⟨-, -, -, ⟨t', g⟩, -⟩ := ho
    obtain ⟨g1, g2, g3⟩ := Holds.offs (A := [S, U, W, H, P]) (B := [q, f]) g rfl
    obtain ⟨q1, q2, q3⟩ := Holds.offs (A := [S, U, W, H, P]) (X := pa.map some) (B := [q, f]) hp.holds rfl
    rw [List.length_map] at q2 q3 g2 g3
    have := path_length hin (pa := pa) (by omega)
    refine ⟨?_, by omega, by omega⟩
    show st'.pt.off id_end = st.pt.off id_end + _
    omega

/-- `Appended env st k w st'`: from `st` to `st'` by `k` insertions at the end of the path, which wrote `w` characters. -/
inductive Appended (env : Env) (st : St) : Nat → Nat → St → Prop
  | nothing : Appended env st 0 0 st
  | more {k w : Nat} {s s' : St} {it : SegIt} (e : ItOp) : Appended env st k w s →
      (∃ t, e = .insert (Seg.last (s.obj false)) t ∨ e = .insert_encoded (Seg.last (s.obj false)) t) → runIt e env s = .ret it s' →
      Appended env st (k + 1) (w + (runItCounted e env s).1) s'

theorem last_in (hw : Worked env st) {e : ItOp} (he : ∃ t, e = .insert (Seg.last (st.obj false)) t ∨ e = .insert_encoded (Seg.last (st.obj false)) t) :
    e.InPath st ∧ e.range.1 = e.range.2 ∧ allowedEdit st e = (size (st.obj false) - st.pt.off id_query) + e.text.length + 4 ∧
    0 < e.text.length ∧ ∀ st', needs st st' e = size (st'.obj false) := by
  have h5 : st.pt.off id_path ≤ st.pt.off id_query := (worked_proper hw).ord 5 (by omega)
  obtain ⟨t, rfl | rfl⟩ := he
  · exact ⟨⟨h5, Nat.le_refl _, Nat.le_refl _⟩, rfl, rfl, Nat.succ_pos _, fun _ => rfl⟩
  · exact ⟨⟨h5, Nat.le_refl _, Nat.le_refl _⟩, rfl, rfl, Nat.succ_pos _, fun _ => rfl⟩

/-- C73: segments that are appended to the path one after the other cost linear time. If there is no query and no fragment, they
write at most seven times as many characters as there are in the text at the end; otherwise each of them also moves the query and
the fragment. -/
theorem C73_append {k w : Nat} (h : Worked env st) (ha : Appended env st k w st') :
    w ≤ k * (size (st.obj false) - st.pt.off id_query) + 5 * (size (st'.obj false) - size (st.obj false)) + 2 * size (st'.obj false) := by
  have key : Worked env st' ∧ st.pt.off id_query ≤ size (st.obj false) ∧
      size (st'.obj false) - st'.pt.off id_query = size (st.obj false) - st.pt.off id_query ∧ size (st.obj false) + k ≤ size (st'.obj false) ∧
      st'.cap ≤ max st.cap (2 * size (st'.obj false)) ∧
      w + st.cap ≤ k * (size (st.obj false) - st.pt.off id_query) + (size (st'.obj false) - size (st.obj false)) + 4 * k + st'.cap := by
    induction ha with
    | nothing =>
      have o6 : st.pt.off 6 ≤ st.pt.off 7 := (worked_proper h).ord 6 (by omega)
      have o7 : st.pt.off 7 ≤ st.pt.off 8 := (worked_proper h).ord 7 (by omega)
      exact ⟨h, Nat.le_trans o6 o7, rfl, Nat.le_refl _, Nat.le_max_left _ _, by omega⟩
    | @more k w s s' it e _ he hrun ih =>
      obtain ⟨hw, h0, h1, h2, h3, h4⟩ := ih
      obtain ⟨i1, i2, i3, i4, i5⟩ := last_in hw he
      obtain ⟨j1, -, j3⟩ := insert_tail hw i1 i2 hrun
      have hc : (runItCounted e env s).1 + s.cap ≤ allowedEdit s e + s'.cap := C73_edits hw (.inl ⟨it, hrun⟩)
      obtain ⟨g1, g2⟩ := C24_growth_edit hw i1 hrun
      rw [i5] at g1 g2
      rw [i3, h1] at hc
      refine ⟨.edit e hw i1 (.inl ⟨it, hrun⟩), h0, by omega, by omega, ?_, ?_⟩
      · rcases Nat.lt_or_ge s.cap (size (s'.obj false)) with hl | hl
        · have := (g2 hl).2.2.1
          omega
        · have := (g1 hl).1
          omega
      · rw [Nat.add_mul, Nat.one_mul]
        omega
  obtain ⟨-, -, -, h2, h3, h4⟩ := key
  omega

/-- C73 from below: an insertion that returns has written at least what is behind its position, what is inserted, and the
terminator. -/
theorem C73_least {e : ItOp} {it : SegIt} {p : SegIt} {t : Str} (he : e = .insert p t ∨ e = .insert_encoded p t) (hrun : runIt e env st = .ret it st') :
    (size (st.obj false) - p.off) + e.text.length + 1 ≤ (runItCounted e env st).1 := by
  rw [← C72_counts_edit] at hrun
  rcases he with rfl | rfl <;> simp only [runItCounted, ItOp.text, List.length_cons, ← encodedLength setOf_pchar] at hrun ⊢
  · have := Amort.least_insert p t env st it st' hrun
    exact this
  · have := Amort.least_insert_encoded p t env st it st' hrun
    exact this

/-- `Prepended env st k w st'`: the same with insertions at the start of the path. -/
inductive Prepended (env : Env) (st : St) : Nat → Nat → St → Prop
  | nothing : Prepended env st 0 0 st
  | more {k w : Nat} {s s' : St} {it : SegIt} (e : ItOp) : Prepended env st k w s →
      (∃ n t, e = .insert ⟨s.pt.off id_path, n⟩ t ∨ e = .insert_encoded ⟨s.pt.off id_path, n⟩ t) → runIt e env s = .ret it s' →
      Prepended env st (k + 1) (w + (runItCounted e env s).1) s'

/-- C73: so segments that are put in front of the path one after the other cost quadratic time. -/
theorem C73_prepend {k w : Nat} (h : Worked env st) (hp : Prepended env st k w st') : k * (k + 3) ≤ 2 * w := by
  have key : Worked env st' ∧ k ≤ size (st'.obj false) - st'.pt.off id_path ∧ k * (k + 3) ≤ 2 * w := by
    induction hp with
    | nothing => exact ⟨h, by omega, by omega⟩
    | @more k w s s' it e _ he hrun ih =>
      obtain ⟨hw, h1, h2⟩ := ih
      obtain ⟨n, t, he⟩ := he
      have h3 := C73_least he hrun
      have h5 : s.pt.off id_path ≤ s.pt.off id_query := (worked_proper hw).ord 5 (by omega)
      have hi : e.InPath s ∧ e.range.1 = e.range.2 ∧ 0 < e.text.length := by
        rcases he with rfl | rfl
        · exact ⟨⟨Nat.le_refl _, Nat.le_refl _, h5⟩, rfl, Nat.succ_pos _⟩
        · exact ⟨⟨Nat.le_refl _, Nat.le_refl _, h5⟩, rfl, Nat.succ_pos _⟩
      obtain ⟨i1, i2, i3⟩ := hi
      obtain ⟨j1, j2, -⟩ := insert_tail hw i1 i2 hrun
      simp only at h3
      have o6 : s.pt.off 6 ≤ s.pt.off 7 := (worked_proper hw).ord 6 (by omega)
      have o7 : s.pt.off 7 ≤ s.pt.off 8 := (worked_proper hw).ord 7 (by omega)
      have e6 : s.pt.off id_query = s.pt.off 6 := rfl
      have e8 : size (s.obj false) = s.pt.off 8 := rfl
      refine ⟨.edit e hw i1 (.inl ⟨it, hrun⟩), by omega, ?_⟩
      have e1 : (k + 1) * (k + 1 + 3) = k * (k + 3) + 2 * k + 4 := by grind
      omega
  exact key.2.2

/-- what `k` insertions of the segment `s` at an offset write, and the state they leave -/
def inserting (at_ : St → Nat) (s : Str) (st : St) : Nat → Option (Nat × St)
  | 0 => some (0, st)
  | k + 1 => (inserting at_ s st k).bind fun r =>
    match runItCounted (.insert_encoded ⟨at_ r.2, 0⟩ s) env1 r.2 with
    | (n, .ret _ st') => some (r.1 + n, st')
    | _ => none

theorem inserting_step {at_ : St → Nat} {s : Str} {k w : Nat} (h : inserting at_ s st (k + 1) = some (w, st')) :
    ∃ w1 s1 it, inserting at_ s st k = some (w1, s1) ∧ runIt (.insert_encoded ⟨at_ s1, 0⟩ s) env1 s1 = .ret it st' ∧
      w = w1 + (runItCounted (.insert_encoded ⟨at_ s1, 0⟩ s) env1 s1).1 := by
  obtain ⟨⟨w1, s1⟩, h1, h2⟩ := Option.bind_eq_some_iff.mp h
  simp only at h2
  split at h2
  · rename_i it _ hx
    cases h2
    refine ⟨w1, s1, it, h1, ?_, by rw [hx]⟩
    rw [← C72_counts_edit, hx]
  · cases h2

theorem inserting_appended {s : Str} : ∀ {k w : Nat} {st' : St}, inserting (·.pt.off id_query) s st k = some (w, st') → Appended env1 st k w st'
  | 0, _, _, h => by cases h; exact .nothing
  | k + 1, w, st', h => by
    obtain ⟨w1, s1, it, h1, h2, rfl⟩ := inserting_step h
    exact .more _ (inserting_appended h1) ⟨s, .inr rfl⟩ h2

theorem inserting_prepended {s : Str} : ∀ {k w : Nat} {st' : St}, inserting (·.pt.off id_path) s st k = some (w, st') → Prepended env1 st k w st'
  | 0, _, _, h => by cases h; exact .nothing
  | k + 1, w, st', h => by
    obtain ⟨w1, s1, it, h1, h2, rfl⟩ := inserting_step h
    exact .more _ (inserting_prepended h1) ⟨0, s, .inr rfl⟩ h2

theorem given_pair {o : Option (Nat × St)} {n m : Nat} (h : o.map (fun r => (r.1, size (r.2.obj false))) = some (n, m)) :
    ∃ st', o = some (n, st') ∧ size (st'.obj false) = m := by
  obtain ⟨⟨w, s⟩, h1, h2⟩ := Option.map_eq_some_iff.mp h
  cases h2
  exact ⟨s, h1, rfl⟩

/-- Four segments appended to `/x`, and put in front of it. -/
example : Worked env1 (afterRelease [.set_encoded_url b!"/x"]) ∧
    (∃ st', Appended env1 (afterRelease [.set_encoded_url b!"/x"]) 4 36 st' ∧ size (st'.obj false) = 10) ∧
    ∃ st', Prepended env1 (afterRelease [.set_encoded_url b!"/x"]) 4 56 st' ∧ size (st'.obj false) = 10 := by
  refine ⟨(afterRelease_used (by decide +kernel)).worked, ?_, ?_⟩
  · obtain ⟨st', h1, h2⟩ := given_pair (o := inserting (·.pt.off id_query) b!"a" (afterRelease [.set_encoded_url b!"/x"]) 4) (n := 36) (m := 10) (by decide +kernel)
    exact ⟨st', inserting_appended h1, h2⟩
  · obtain ⟨st', h1, h2⟩ := given_pair (o := inserting (·.pt.off id_path) b!"a" (afterRelease [.set_encoded_url b!"/x"]) 4) (n := 56) (m := 10) (by decide +kernel)
    exact ⟨st', inserting_prepended h1, h2⟩

/-- the capacity after a call -/
def capAfter (op : Op) (st : St) : Option Nat := (run op env0 st).left.map (·.cap)

/-- A call that copies the text to a new block writes 60 characters, of which the growth of the capacity pays 27; the same call where
there is room writes 29. A fragment can be set without moving anything. -/
example : Worked env0 (after [.set_encoded_path b!"/abcdefghijklmnopqrstuvwxyz"]) ∧
    (after [.set_encoded_path b!"/abcdefghijklmnopqrstuvwxyz"]).cap = 27 ∧
    (runCounted (.set_scheme b!"x") env0 (after [.set_encoded_path b!"/abcdefghijklmnopqrstuvwxyz"])).1 = 60 ∧
    capAfter (.set_scheme b!"x") (after [.set_encoded_path b!"/abcdefghijklmnopqrstuvwxyz"]) = some 54 ∧
    (runCounted (.set_fragment b!"x") env0 (after [.set_encoded_path b!"/abcdefghijklmnopqrstuvwxyz", .set_encoded_path b!"/abcdefghijklmnopqrstuvwx"])).1 = 4 :=
  ⟨(after_used (by decide +kernel)).worked, by decide +kernel, by decide +kernel, by decide +kernel, by decide +kernel⟩

/-- what calls write and are allowed, and the state they leave -/
def spending (st : St) : List Op → Option (Nat × Nat × St)
  | [] => some (0, 0, st)
  | op :: ops => (spending st ops).bind fun r => (run op env0 r.2.2).left.map fun st' => (r.1 + (runCounted op env0 r.2.2).1, r.2.1 + allowed r.2.2 op, st')

theorem spending_spent : ∀ {ops : List Op} {w b : Nat} {st' : St}, spending st ops = some (w, b, st') → Spent env0 st w b st'
  | [], _, _, _, h => by cases h; exact .nothing
  | op :: ops, w, b, st', h => by
    obtain ⟨⟨w1, b1, s1⟩, h1, h2⟩ := Option.bind_eq_some_iff.mp h
    obtain ⟨s2, h3, h4⟩ := Option.map_eq_some_iff.mp h2
    cases h4
    refine .call op (spending_spent h1) ?_
    revert h3
    rcases run op env0 s1 with ⟨a, s⟩ | ⟨x, s⟩ | f
    · intro h; cases h; exact .inl rfl
    · intro h; cases h; exact .inr ⟨x, rfl⟩
    · intro h; cases h

/-- A history that throws in between: the last call comes first. -/
example : ∃ st', Spent env0 Base.empty 33 50 st' ∧ st'.cap = 14 := by
  have h : (spending Base.empty [.set_fragment b!"ef", .set_scheme b!"1", .set_host b!"cd", .set_encoded_path b!"/ab"]).map (fun r => (r.1, r.2.1, r.2.2.cap)) =
    some (33, 50, 14) := by decide +kernel
  obtain ⟨⟨w, b, s⟩, h1, h2⟩ := Option.map_eq_some_iff.mp h
  injection h2 with h2 h3
  injection h3 with h3 h4
  subst h2 h3
  exact ⟨s, spending_spent h1, h4⟩

end Url.Props
