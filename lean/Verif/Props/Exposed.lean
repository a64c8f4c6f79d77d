import Verif.Props.UsedFrame
import Verif.Proofs.Shape

/-!
C23 for all histories: which calls can make bytes part of the text that were never written, and which calls fail an assertion.
-/

set_option linter.unusedSimpArgs false
set_option autoImplicit false

namespace Url.Props
open Url Spec
variable {env : Env} {st st' : St}

/-- The calls that may make room in front of the host without writing to all of it. -/
def Op.Unwritten : Op → Prop
  | .set_user _ | .set_encoded_user _ => True
  | .set_encoded_userinfo s => s = []
  | .set_userinfo_part s => s = [] ∨ s = b!"@"
  | _ => False

theorem readCells_init {X : List Cell} : (∃ s, readCells X = .ok s) ↔ Init X := by
  constructor
  · rintro ⟨s, h⟩
    unfold readCells at h
    split at h
    · rename_i s' hs
      intro hm
      have : ∀ (X : List Cell) (s : Str), X.mapM id = some s → none ∉ X := by
        intro X
        induction X with
        | nil => simp
        | cons a X ih =>
          intro s h
          cases a with
          | none => simp at h
          | some a =>
            simp only [List.mapM_cons, id_eq, Option.bind_eq_bind, Option.bind_some, Option.pure_def, Option.bind_eq_some_iff] at h
            obtain ⟨r, h1, -⟩ := h
            simpa using ih r h1
      exact this X s' hs hm
    · cases h
  · intro h
    obtain ⟨s, rfl⟩ := init_iff.1 h
    exact ⟨s, readCells_some s⟩

/-- the whole text can be read if the user can -/
theorem _root_.Url.Part8.url_iff {S U W H P pa q g : List Cell} {t : Cell} {dbg : Bool} (h : Part8 env st S U W H P pa q g t) :
    (∃ s, encoded_url (st.obj dbg) = .ok s) ↔ Init U := by
  have e : encoded_url (st.obj dbg) = readCells [S, U, W, H, P, pa, q, g].flatten := by
    show (st.obj dbg).get2 id_scheme id_end = _
    rw [h.holds.get2 (by decide)]
    rfl
  rw [e, readCells_init]
  simp [h.S, h.W, h.H, h.P, h.pa, h.q.init, h.f.init]

/-- C23: after any calls and edits, in any build: if the text consists of written bytes and a call that returns leaves one that does
not, then the text had exactly one character behind the scheme, and the call sets the user or removes the userinfo. -/
theorem C23_exposes {op : Op} (hu : Worked env st) (h : run op env st = .ret () st') {s : Str} (hs : encoded_url (st.obj env.dbg) = .ok s)
    {f : Flt} (he : encoded_url (st'.obj env.dbg) = .error f) : Op.Unwritten op ∧ st.pt.length2 id_user id_end = 1 := by
  have h1 : run op env.release st = .ret () st' := by
    rcases run_sim op env st with ⟨f, h'⟩ | h'
    · rw [h] at h'; cases h'
    · rw [← h', h]
  obtain ⟨S, U, W, H, P, q, g, t, pa, hw⟩ := hu.release.parts rfl
  generalize pa.map some = pa at hw
  obtain ⟨S', U', W', H', P', pa', q', g', t', hw', ht⟩ := w_next hw rfl h1
  have hU : Init U := hw.url_iff.1 ⟨s, hs⟩
  have hU' : ¬ Init U' := by
    rw [← hw'.url_iff (dbg := env.dbg)]
    rintro ⟨x, hx⟩
    rw [hx] at he; cases he
  have hl : st.pt.length2 id_user id_end = (U ++ (W ++ (H ++ (P ++ (pa ++ (q ++ g)))))).length := by
    unfold Parts.length2
    rw [hw.holds.rep, hw.holds.rep]
    simp [plen, id_user, id_end]
  have get : ∀ {Q : List Cell → List Cell → List Cell → List Cell → Prop}, AOut env.release S pa q g Q (run op env.release st) →
      (∀ U W H P, Q U W H P → Init U) → False := by
    intro Q ho hq
    rw [h1] at ho
    obtain ⟨U2, W2, H2, P2, t2, hh, hQ⟩ := ho
    have e := (hh.get id_user false).symm.trans (hw'.holds.get id_user false)
    obtain ⟨x, hx⟩ := readCells_init.2 (hq _ _ _ _ hQ)
    exact hU' (readCells_init.1 ⟨x, e.symm.trans hx⟩)
  have hsl : Init slashes := by simp [slashes, Init]
  rw [hl]
  cases op with
  | set_user s =>
    refine ⟨trivial, Classical.byContradiction fun hr => ?_⟩
    exact get (e_set_user hw hU hr rfl s) fun _ _ _ _ h => h
  | set_encoded_user s =>
    refine ⟨trivial, Classical.byContradiction fun hr => ?_⟩
    exact get (e_set_encoded_user hw hU hr rfl s) fun _ _ _ _ h => h
  | set_encoded_userinfo s =>
    refine Classical.byContradiction fun hr => ?_
    exact get (e_set_encoded_userinfo hw hU s fun e e2 => hr ⟨e, e2⟩) fun _ _ _ _ h => h
  | set_userinfo_part s =>
    refine Classical.byContradiction fun hr => ?_
    exact get (e_userinfo_part hw hU s fun e e2 => hr ⟨e, e2⟩) fun _ _ _ _ h => h
  | set_password s =>
    exact (get (a_set_password hw rfl s) (by rintro _ _ _ _ ⟨rfl | ⟨-, rfl⟩, -⟩ <;> assumption)).elim
  | set_encoded_password s =>
    exact (get (a_set_encoded_password hw rfl s) (by rintro _ _ _ _ ⟨rfl | ⟨-, rfl⟩, -⟩ <;> assumption)).elim
  | set_password_part s =>
    exact (get (a_set_password_part hw rfl s) (by rintro _ _ _ _ ⟨rfl | ⟨-, rfl⟩, -⟩ <;> assumption)).elim
  | set_host s =>
    exact (get (a_set_host hw rfl s) (by rintro _ _ _ _ (⟨rfl, -⟩ | ⟨-, -, -, -, rfl, -⟩ | ⟨-, -, -, rfl, -⟩) <;> first | assumption | exact init_nil)).elim
  | set_encoded_host s =>
    exact (get (a_set_encoded_host hw rfl s) (by rintro _ _ _ _ (⟨rfl, -⟩ | ⟨-, -, -, -, rfl, -⟩ | ⟨-, -, -, rfl, -⟩) <;> first | assumption | exact init_nil)).elim
  | set_port s =>
    exact (get (a_set_port hw rfl s) (by rintro _ _ _ _ (⟨rfl, -⟩ | ⟨-, -, -, -, rfl, -⟩ | ⟨-, -, rfl, -⟩) <;> first | assumption | exact init_nil)).elim
  | set_port_part s =>
    exact (get (a_set_port_part hw rfl s) (by rintro _ _ _ _ (⟨rfl, -⟩ | ⟨-, -, -, -, rfl, -⟩ | ⟨-, -, rfl, -⟩) <;> first | assumption | exact init_nil)).elim
  | set_port_number n =>
    exact (get (a_port_number hw rfl n) (by rintro _ _ _ _ (⟨rfl, -⟩ | ⟨-, -, -, -, rfl, -⟩ | ⟨-, -, rfl, -⟩) <;> first | assumption | exact init_nil)).elim
  | _ =>
    simp only [Op.touch, Touched] at ht
    refine absurd ?_ hU'
    first
      | exact ht.2.1
      | (rw [ht.2.1]; exact hU)

/-! ### which calls fail in a build with assertions -/

theorem readCells_inj {X Y : List Cell} (h : readCells X = readCells Y) (hy : Init Y) : X = Y := by
  obtain ⟨y, rfl⟩ := init_iff.1 hy
  rw [readCells_some] at h
  obtain ⟨x, rfl⟩ := init_iff.1 (readCells_init.1 ⟨_, h⟩)
  rw [readCells_some] at h
  cases h
  rfl

/-- Before the host is nothing or a `@`, before the authority is nothing or a `:`. -/
theorem Worked.ends (hu : Worked env st) (hd : env.dbg = false) : ∃ S U W H P pa q g t, Part8 env st S U W H P pa q g t ∧
    EndsIn c!":" S ∧ EndsIn c!"@" W := by
  induction hu with
  | empty =>
    obtain ⟨S, U, W, H, P, pa, q, g, t, hw⟩ := (Used.empty (env := env)).parts hd
    have e := hw.holds.rep
    have hl : ∀ id, ([S, U, W, H, P, pa, q, g].getD id []).length = 0 := by
      intro id
      rw [← w_len hw id]
      simp [Parts.length, Base.empty]
    obtain rfl := List.length_eq_zero_iff.1 (show S.length = 0 from hl 0)
    obtain rfl := List.length_eq_zero_iff.1 (show W.length = 0 from hl 2)
    exact ⟨_, _, _, _, _, _, _, _, _, hw, by simp, by simp⟩
  | @call st st' op hu' hrun ih =>
    obtain ⟨S, U, W, H, P, pa, q, g, t, hw, hS, hW⟩ := ih
    rcases hrun with hrun | ⟨e, hrun⟩
    · obtain ⟨S', U', W', H', P', pa', q', g', t', hw', ht⟩ := w_next hw hd hrun
      have get : TOut env (run op env st) → EndsIn c!":" S' ∧ EndsIn c!"@" W' := by
        intro h
        rw [hrun] at h
        obtain ⟨L, t2, h1, h2, h3⟩ := h
        have e1 := readCells_inj ((h1.get id_scheme false).symm.trans (hw'.holds.get id_scheme false)) hw'.S
        have e2 := readCells_inj ((h1.get id_password false).symm.trans (hw'.holds.get id_password false)) hw'.W
        exact ⟨by rwa [show L.getD 0 [] = S' from e1] at h2, by rwa [show L.getD 2 [] = W' from e2] at h3⟩
      refine ⟨_, _, _, _, _, _, _, _, _, hw', ?_⟩
      have kept : ∀ {W2 : List Cell}, PasswordKept W W2 → EndsIn c!"@" W2 := by
        rintro W2 (rfl | ⟨-, rfl | rfl⟩) <;> simp [hW]
      cases op with
      | set_encoded_url s => exact get (t_url hw hS hW s)
      | set_encoded_origin s => exact get (t_origin hw hS hW s)
      | set_scheme s => exact get (t_scheme hw hS hW s)
      | set_encoded_authority s => exact get (t_authority hw hS hW s)
      | set_encoded_userinfo s => exact get (t_set_encoded_userinfo hw hS hW s)
      | set_userinfo_part s => exact get (t_userinfo_part hw hS hW s)
      | set_user s => exact get ((a_set_user hw hd s).tl hS fun _ _ _ _ h => kept h.1)
      | set_encoded_user s => exact get ((a_set_encoded_user hw hd s).tl hS fun _ _ _ _ h => kept h.1)
      | set_password s => exact get (t_set_password hw hS hW hd s)
      | set_encoded_password s => exact get (t_set_encoded_password hw hS hW hd s)
      | set_password_part s => exact get (t_set_password_part hw hS hW hd s)
      | set_host s =>
        exact get ((a_set_host hw hd s).tl hS (by
          rintro _ _ _ _ (⟨-, rfl, -⟩ | ⟨-, -, -, -, -, rfl, -⟩ | ⟨-, -, -, -, rfl, -⟩) <;> simp [hW]))
      | set_encoded_host s =>
        exact get ((a_set_encoded_host hw hd s).tl hS (by
          rintro _ _ _ _ (⟨-, rfl, -⟩ | ⟨-, -, -, -, -, rfl, -⟩ | ⟨-, -, -, -, rfl, -⟩) <;> simp [hW]))
      | set_port s =>
        exact get ((a_set_port hw hd s).tl hS (by
          rintro _ _ _ _ (⟨-, rfl, -⟩ | ⟨-, -, -, -, -, rfl, -⟩ | ⟨-, -, -, rfl, -⟩) <;> simp [hW]))
      | set_port_part s =>
        exact get ((a_set_port_part hw hd s).tl hS (by
          rintro _ _ _ _ (⟨-, rfl, -⟩ | ⟨-, -, -, -, -, rfl, -⟩ | ⟨-, -, -, rfl, -⟩) <;> simp [hW]))
      | set_port_number n =>
        exact get ((a_port_number hw hd n).tl hS (by
          rintro _ _ _ _ (⟨-, rfl, -⟩ | ⟨-, -, -, -, -, rfl, -⟩ | ⟨-, -, -, rfl, -⟩) <;> simp [hW]))
      | normalize_scheme => exact get (t_normalize hw hS hW)
      | normalize => exact get (t_normalize hw hS hW)
      | _ =>
        simp only [Op.touch, Touched] at ht
        rw [ht.1, ht.2.2.1]
        exact ⟨hS, hW⟩
    · obtain ⟨h1, h2, h3, h4⟩ := C18_strong hrun
      exact ⟨S, U, W, H, P, pa, q, g, t, hw.thrown h1 h2 h3 h4, hS, hW⟩
  | @edit st st' e _ hin hrun ih =>
    obtain ⟨S, U, W, H, P, pa, q, g, t, hw, hS, hW⟩ := ih
    obtain ⟨pa, rfl⟩ := init_iff.1 hw.pa
    rcases hw.edit hd hin with ⟨-, h⟩ | ⟨-, h⟩
    · rw [h] at hrun
      rcases hrun with ⟨_, h⟩ | ⟨_, h⟩
      · cases h
      · cases h
        exact ⟨_, _, _, _, _, _, _, _, _, hw, hS, hW⟩
    · rcases hrun with ⟨it, hrun⟩ | ⟨x, hrun⟩
      · rw [hrun] at h
        obtain ⟨-, -, -, ⟨t', h⟩, -⟩ := h
        exact ⟨S, U, W, H, P, _, q, g, t', ⟨h, hw.S, hw.W, hw.H, hw.P, init_iff.2 ⟨_, rfl⟩, hw.q, hw.f⟩, hS, hW⟩
      · rw [hrun] at h
        obtain ⟨-, rfl⟩ := h
        exact ⟨_, _, _, _, _, _, _, _, _, hw.thrown rfl rfl rfl rfl, hS, hW⟩

/-- The text where the authority starts is not known to be `//`: it was not written, or is something else. -/
def NoSlashes (st : St) (f : Flt) : Prop :=
  match (st.obj true).get id_user with
  | .error _ => f = .ub
  | .ok u => f = .assert ∧ ¬ b!"//" <+: u

/-- The calls that fail in a build with assertions: those that remove the user, the password, the host or the port. -/
def Op.Fails (st : St) (f : Flt) : Op → Prop
  | .set_user s | .set_encoded_user s =>
    s = [] ∧ st.pt.length id_user ≠ 0 ∧ if st.pt.length id_password = 0 then f = .ub else NoSlashes st f
  | .set_password s | .set_encoded_password s | .set_password_part s => s = [] ∧ st.pt.length id_password ≠ 0 ∧ NoSlashes st f
  | .set_host s | .set_encoded_host s =>
    s = [] ∧ st.pt.length2 id_user id_host = 2 ∧ st.pt.length id_port = 0 ∧ NoSlashes st f
  | .set_port s | .set_port_part s => s = [] ∧ st.pt.length2 id_user id_port = 2 ∧ NoSlashes st f
  | _ => False

theorem NoSlashes.unique {f f' : Flt} (h : NoSlashes st f) (h' : NoSlashes st f') : f = f' := by
  unfold NoSlashes at h h'
  split at h <;> simp_all

theorem Op.Fails.unique {op : Op} {f f' : Flt} (h : Op.Fails st f op) (h' : Op.Fails st f' op) : f = f' := by
  cases op <;> simp only [Op.Fails] at h h'
  case set_user | set_encoded_user =>
    have h := h.2.2
    have h' := h'.2.2
    split at h
    · rename_i e
      rw [if_pos e] at h'
      rw [h, h']
    · rename_i e
      rw [if_neg e] at h'
      exact h.unique h'
  case set_password | set_encoded_password | set_password_part | set_port | set_port_part => exact h.2.2.unique h'.2.2
  case set_host | set_encoded_host => exact h.2.2.2.unique h'.2.2.2

/-- a call that fails with `f` exactly if `p f` -/
def Exactly (p : Flt → Prop) (o : Out Unit) : Prop := (∃ f, p f ∧ o = .fault f) ∨ ((∀ f, ¬ p f) ∧ ∀ f, o ≠ .fault f)

theorem _root_.Url.WOut.exactly {L : List (List Cell)} {m : List Touch} {o : Out Unit} (h : WOut env L m o) {p : Flt → Prop} (hp : ∀ f, ¬ p f) :
    Exactly p o := .inr ⟨hp, by rintro f rfl; exact h⟩

theorem _root_.Url.TOut.exactly {o : Out Unit} (h : TOut env o) {p : Flt → Prop} (hp : ∀ f, ¬ p f) :
    Exactly p o := .inr ⟨hp, by rintro f rfl; exact h⟩

theorem bind_fault {α β : Type} {m : M α} {k : α → M β} {f : Flt} (h : m env st = .fault f) : (m >>= k) env st = .fault f := by
  rw [run_bind, h]

theorem assert_fault {c : Obj → R Bool} {f : Flt} (hd : env.dbg = true) (h : c (st.obj true) = .error f) : M.assert c env st = .fault f := by
  unfold M.assert M.ask Obj.assert
  simp only [St.obj, hd] at h ⊢
  rw [h]
  rfl

theorem assert_fails {c : Obj → R Bool} (hd : env.dbg = true) (h : c (st.obj true) = .ok false) : M.assert c env st = .fault .assert := by
  unfold M.assert M.ask Obj.assert
  simp only [St.obj, hd] at h ⊢
  rw [h]
  rfl

theorem assert_passes {c : Obj → R Bool} (hd : env.dbg = true) (h : c (st.obj true) = .ok true) : M.assert c env st = .ret () st :=
  run_assert (by rw [hd]; exact h)

section
variable {S U W H P pa q g : List Cell} {t : Cell}

theorem user_error (h : Part8 env st S U W H P pa q g t) {dbg : Bool} {f : Flt} (e : (st.obj dbg).get id_user = .error f) : f = .ub := by
  rw [h.holds.get] at e
  unfold readCells at e
  split at e
  · cases e
  · cases e; rfl

/-- one assertion about the `//` -/
theorem exactly_slashes (h : Part8 env st S U W H P pa q g t) (hd : env.dbg = true) {c : Str → Bool} {k : Unit → M Unit} {p : Flt → Prop}
    (hc : ∀ u, (st.obj true).get id_user = .ok u → (c u = true ↔ b!"//" <+: u)) (hp : ∀ f, p f ↔ NoSlashes st f)
    (hk : ∀ f, k () env st ≠ .fault f) : Exactly p ((M.assert (fun o => do return c (← o.get id_user)) >>= k) env st) := by
  unfold Exactly
  simp only [hp]
  unfold NoSlashes
  cases hu : (st.obj true).get id_user with
  | error f =>
    obtain rfl := user_error h hu
    exact .inl ⟨.ub, rfl, bind_fault (assert_fault hd (by rw [hu]; rfl))⟩
  | ok u =>
    by_cases hs : b!"//" <+: u
    · refine .inr ⟨fun f hf => hf.2 hs, ?_⟩
      rw [run_bind_ret (assert_passes hd (by rw [hu]; exact congrArg Except.ok ((hc u hu).2 hs)))]
      exact hk
    · refine .inl ⟨.assert, ⟨rfl, hs⟩, bind_fault (assert_fails hd ?_)⟩
      rw [hu]
      have : c u = false := by
        cases e : c u with
        | false => rfl
        | true => exact absurd ((hc u hu).1 e) hs
      exact congrArg Except.ok this

theorem slashes_iff (u : Str) : b!"//" <+: u ↔ 2 ≤ u.length ∧ u[0]? = some c!"/" ∧ u[1]? = some c!"/" := by
  match u with
  | [] => simp
  | [a] => simp [List.cons_prefix_cons]
  | a :: b :: u => simp [List.cons_prefix_cons, eq_comm]

/-- the assertions before the user or the password is removed -/
theorem assertUserinfo_out (h : Part8 env st S U W H P pa q g t) (hd : env.dbg = true) (hW : EndsIn c!"@" W) {p : Flt → Prop}
    (hp : ∀ f, p f ↔ if st.pt.length id_password = 0 then f = .ub else NoSlashes st f) :
    (∃ f, p f ∧ Base.assertUserinfo env st = .fault f) ∨ (∀ f, ¬ p f) ∧ Base.assertUserinfo env st = .ret () st := by
  have hl : st.pt.length id_password = W.length := by rw [w_len h]; rfl
  obtain ⟨w, rfl⟩ := init_iff.1 h.W
  have hg : (st.obj true).get id_password = .ok w := by
    rw [h.holds.get]
    exact readCells_some w
  unfold Base.assertUserinfo
  rcases hW with e | ⟨Y, e⟩
  · obtain rfl : w = [] := by simpa using e
    refine .inl ⟨.ub, (hp _).2 (by rw [if_pos (by simpa using hl)]), bind_fault (assert_fault hd ?_)⟩
    rw [hg]; rfl
  · obtain ⟨y, z, rfl, -, hz⟩ := List.map_eq_append_iff.1 e
    obtain rfl : z = b!"@" := by
      match z, hz with
      | [a], hz => simpa using hz
    rw [run_bind_ret (assert_passes hd (by rw [hg]; simp [bind, Except.bind, backIs]))]
    have hp : ∀ f, p f ↔ NoSlashes st f := by
      intro f
      rw [hp, if_neg (by rw [hl]; simp)]
    simp only [hp]
    unfold NoSlashes
    cases hu : (st.obj true).get id_user with
    | error f =>
      obtain rfl := user_error h hu
      exact .inl ⟨.ub, rfl, bind_fault (assert_fault hd (by rw [hu]; rfl))⟩
    | ok u =>
      simp only [slashes_iff]
      match u with
      | [] | [_] => exact .inl ⟨.assert, ⟨rfl, fun e => absurd e.1 (by simp)⟩, bind_fault (assert_fails hd (by rw [hu]; rfl))⟩
      | a :: b :: u =>
        rw [run_bind_ret (assert_passes hd (by rw [hu]; simp [bind, Except.bind, pure, Except.pure]))]
        by_cases ha : a = c!"/"
        · rw [run_bind_ret (assert_passes hd (by rw [hu]; simp [bind, Except.bind, atIs, ha]))]
          by_cases hb : b = c!"/"
          · refine .inr ⟨fun f e => e.2 ⟨by simp, by simp [ha], by simp [hb]⟩, assert_passes hd ?_⟩
            rw [hu]; simp [bind, Except.bind, atIs, hb]
          · refine .inl ⟨.assert, ⟨rfl, fun e => hb (by simpa using e.2.2)⟩, assert_fails hd ?_⟩
            rw [hu]; simp [bind, Except.bind, atIs, hb]
        · refine .inl ⟨.assert, ⟨rfl, fun e => ha (by simpa using e.2.1)⟩, bind_fault (assert_fails hd ?_)⟩
          rw [hu]; simp [bind, Except.bind, atIs, ha]

theorem exactly_userinfo (h : Part8 env st S U W H P pa q g t) (hd : env.dbg = true) (hW : EndsIn c!"@" W) {k : Unit → M Unit} {p : Flt → Prop}
    (hp : ∀ f, p f ↔ if st.pt.length id_password = 0 then f = .ub else NoSlashes st f)
    (hk : ∀ f, k () env st ≠ .fault f) : Exactly p ((Base.assertUserinfo >>= k) env st) := by
  rcases assertUserinfo_out h hd hW hp with ⟨f, h1, h2⟩ | ⟨h1, h2⟩
  · exact .inl ⟨f, h1, bind_fault h2⟩
  · rw [Exactly, run_bind_ret h2]
    exact .inr ⟨h1, hk⟩

variable (h : Part8 env st S U W H P pa q g t)
include h

theorem exactly_set_user (hd : env.dbg = true) (hS : EndsIn c!":" S) (hW : EndsIn c!"@" W) (s : Str) :
    Exactly (fun f => Op.Fails st f (.set_user s)) (Base.set_user s env st) := by
  unfold Base.set_user
  split
  · rename_i e
    have e : s = [] := by simpa using e
    rw [run_bind_ret run_pt]
    split
    · rename_i h0
      exact .inr ⟨fun f hf => hf.2.1 h0, fun f => by simp [run_pure]⟩
    · rename_i h0
      refine exactly_userinfo h hd hW (fun f => ?_) ?_
      · simp only [Op.Fails]
        exact ⟨fun h => h.2.2, fun h => ⟨e, h0, h⟩⟩
      · intro f hf
        rw [run_bind_ret run_pt] at hf
        split at hf
        · have : WOut env [S, U, W, H, P, pa, q, g] (Op.touch (.set_user [])) (.fault f) := by
            rw [← hf]
            exact w_cut (A := [S]) (Xs := [U, W]) (B := [H, P, pa, q, g]) (k := 1) (by simpa using h.holds) rfl rfl rfl
              fun X' hl => by simp [Touched, Op.touch]
          exact this
        · have : WOut env [S, U, W, H, P, pa, q, g] (Op.touch (.set_user [])) (.fault f) := by
            rw [← hf]
            refine resize_step (A := [S]) h.holds rfl rfl ?_ w_thrown
            intro hs X' st' t' hl htake hp
            exact hp.w (by simp [Touched, Op.touch, h.W])
          exact this
  · rename_i e
    refine (d_store_user h hS hW (encoded_size_eq setOf_userinfo_nc _)).exactly fun f hf => ?_
    exact e (by simpa using hf.1)

theorem exactly_set_encoded_user (hd : env.dbg = true) (hS : EndsIn c!":" S) (hW : EndsIn c!"@" W) (s : Str) :
    Exactly (fun f => Op.Fails st f (.set_encoded_user s)) (Base.set_encoded_user s env st) := by
  unfold Base.set_encoded_user
  split
  · exact exactly_set_user h hd hS hW s
  · rename_i e
    refine WOut.exactly (w_validate (d_store_user h hS hW rfl)) fun f hf => ?_
    exact e (by simpa using hf.1)

theorem exactly_set_password (hd : env.dbg = true) (hW : EndsIn c!"@" W) (s : Str) :
    Exactly (fun f => Op.Fails st f (.set_password s)) (Base.set_password s env st) := by
  unfold Base.set_password
  split
  · rename_i e
    have e : s = [] := by simpa using e
    rw [run_bind_ret run_pt]
    split
    · rename_i h0
      exact .inr ⟨fun f hf => hf.2.1 h0, fun f => by simp [run_pure]⟩
    · rename_i h0
      refine exactly_userinfo h hd hW (fun f => ?_) ?_
      · simp only [Op.Fails]
        rw [if_neg h0]
        exact ⟨fun h => h.2.2, fun h => ⟨e, h0, h⟩⟩
      · intro f hf
        rw [run_bind_ret run_pt] at hf
        split at hf
        · have : WOut env [S, U, W, H, P, pa, q, g] (Op.touch (.set_user [])) (.fault f) := by
            rw [← hf]
            exact w_clear (A := [S, U]) h.holds rfl (by simp [Touched, Op.touch])
          exact this
        · have : WOut env [S, U, W, H, P, pa, q, g] (Op.touch (.set_user [])) (.fault f) := by
            rw [← hf]
            exact w_write (A := [S, U]) rfl h.holds rfl (by simp [Touched, Op.touch])
          exact this
  · rename_i e
    refine (w_store_password h (encoded_size_eq setOf_userinfo _)).exactly fun f hf => ?_
    exact e (by simpa using hf.1)

theorem exactly_set_encoded_password (hd : env.dbg = true) (hW : EndsIn c!"@" W) (s : Str) :
    Exactly (fun f => Op.Fails st f (.set_encoded_password s)) (Base.set_encoded_password s env st) := by
  unfold Base.set_encoded_password
  split
  · exact exactly_set_password h hd hW s
  · rename_i e
    refine WOut.exactly (w_require fun _ => w_validate (w_store_password h rfl)) fun f hf => ?_
    exact e (by simpa using hf.1)

theorem exactly_set_password_part (hd : env.dbg = true) (hW : EndsIn c!"@" W) (s : Str) :
    Exactly (fun f => Op.Fails st f (.set_password_part s)) (Base.set_password_part s env st) := by
  unfold Base.set_password_part
  split
  · exact exactly_set_password h hd hW s
  · rename_i e
    have e : s ≠ [] := by simpa using e
    refine .inr ⟨fun f hf => e hf.1, ?_⟩
    split
    · rename_i hl1
      obtain ⟨a₀, rfl⟩ := List.length_eq_one_iff.1 hl1
      intro f hf
      revert hf
      rw [imp_false]
      cases hreq : (List.head? [a₀] == some c!":") with
      | false => rw [run_bind_throw (run_require_false rfl)]; simp
      | true =>
      rw [run_bind_ret (run_require rfl), run_bind_ret run_pt]
      split
      · intro hf
        have : WOut env [S, U, W, H, P, pa, q, g] (Op.touch (.set_user [])) (.fault f) := by
          rw [← hf]
          refine resize_step (A := [S, U]) h.holds rfl rfl ?_ w_thrown
          intro hs X' st' t' hl _ hp
          obtain ⟨a, Y, rfl, hl1⟩ := len_succ hl
          obtain ⟨b, Y, rfl, hl2⟩ := len_succ hl1
          obtain rfl := List.length_eq_zero_iff.1 hl2
          refine put_mid (A := [S, U]) [] [a] [b] hp (by simp) rfl rfl rfl fun st1 h1 => ?_
          refine last_step (put_mid (A := [S, U]) [some c!":"] [b] [] h1 (by simp) (by simp) rfl rfl fun st2 h2 => ?_)
          exact h2.w (by simp [Touched, Op.touch])
        exact this
      · refine resize2_step (P := fun o => ¬ o = .fault f) (A := [S]) (Xs := [U, W]) (k := 1) h.holds rfl rfl rfl rfl ?_ (by simp)
        intro hs X' st' t' hl _ hp
        obtain ⟨a, Y, rfl, hl1⟩ := len_succ hl
        obtain ⟨b, Y, rfl, hl2⟩ := len_succ hl1
        obtain ⟨c, Y, rfl, hl3⟩ := len_succ hl2
        obtain ⟨d, Y, rfl, hl4⟩ := len_succ hl3
        obtain rfl := List.length_eq_zero_iff.1 hl4
        refine put_mid (G := fun o => ¬ o = .fault f) (A := [S]) [] [a] [b, c, d] hp (by simp) rfl rfl rfl fun st1 h1 => ?_
        refine put_mid (G := fun o => ¬ o = .fault f) (A := [S]) [some c!"/"] [b] [c, d] h1 (by simp) rfl rfl rfl fun st2 h2 => ?_
        refine put_mid (G := fun o => ¬ o = .fault f) (A := [S]) slashes [c] [d] h2 (by simp) rfl rfl rfl fun st3 h3 => ?_
        refine put_mid (G := fun o => ¬ o = .fault f) (A := [S]) (slashes ++ [some c!":"]) [d] [] h3 (by simp) rfl rfl rfl fun st4 h4 => ?_
        refine split_step (P := fun o => ¬ o = .fault f) (A := [S]) (x := slashes) (y := [some c!":", some c!"@"]) (z := [])
          (by simpa using h4) rfl (by decide) rfl fun st5 h5 => ?_
        have hw5 : Part8 env st5 S slashes [some c!":", some c!"@"] H P pa q g t' :=
          ⟨by simpa using h5.holds, h.S, by simp, h.H, h.P, h.pa, h.q, h.f⟩
        have := exactly_set_encoded_password hw5 hd (by simp) ([a₀].drop 1)
        rcases this with ⟨f', h1, -⟩ | ⟨-, h2⟩
        · have h1 := h1.2.2
          have hg : (st5.obj true).get id_user = .ok b!"//" := by
            rw [hw5.holds.get]
            exact readCells_some b!"//"
          unfold NoSlashes at h1
          rw [hg] at h1
          exact absurd (List.prefix_refl _) h1.2
        · exact h2 f
    · rename_i hl1
      have hne : s.drop 1 ≠ [] := by
        match s with
        | [] => exact absurd rfl e
        | [_] => exact absurd rfl hl1
        | _ :: _ :: _ => simp
      rcases exactly_set_encoded_password h hd hW (s.drop 1) with ⟨f', h1, -⟩ | ⟨-, h2⟩
      · exact absurd h1.1 hne
      · exact h2

theorem exactly_set_host (hd : env.dbg = true) (s : Str) : Exactly (fun f => Op.Fails st f (.set_host s)) (Base.set_host s env st) := by
  unfold Base.set_host
  split
  · rename_i e
    have e : s = [] := by simpa using e
    rw [run_bind_ret run_pt, run_bind_ret run_pt]
    split
    · rename_i hc
      refine exactly_slashes (c := fun u => decide (u = b!"//")) h hd ?_ (fun f => ?_) ?_
      · intro u hu
        have hl : u.length ≤ 2 := by
          have h1 : U.length ≤ 2 := by
            have := hc.1
            unfold Parts.length2 at this
            rw [h.holds.rep, h.holds.rep] at this
            simp [plen, id_user, id_host] at this
            omega
          have h2 := hu
          rw [h.holds.get] at h2
          obtain ⟨v, hv⟩ := init_iff.1 (readCells_init.1 ⟨_, h2⟩)
          rw [hv, readCells_some] at h2
          cases h2
          have hv : U = u.map some := hv
          rw [hv, List.length_map] at h1
          exact h1
        rw [decide_eq_true_iff]
        constructor
        · rintro rfl; exact List.prefix_refl _
        · intro hp
          exact (hp.eq_of_length_le (by simpa using hl)).symm
      · simp only [Op.Fails]
        exact ⟨fun h => h.2.2.2, fun h => ⟨e, hc.1, hc.2, h⟩⟩
      · intro f hf
        have : WOut env [S, U, W, H, P, pa, q, g] (Op.touch (.set_host [])) (.fault f) := by
          rw [← hf]
          refine w_cut (A := [S]) (Xs := [U, W, H, P]) (B := [pa, q, g]) (k := 3) (by simpa using h.holds) rfl rfl rfl ?_
          intro X' hl
          obtain rfl := List.length_eq_zero_iff.1 hl
          simp [Touched, Op.touch]
        exact this
    · rename_i hc
      refine (w_clear (mask := Op.touch (.set_host [])) (L := [S, U, W, H, P, pa, q, g]) (A := [S, U, W]) h.holds rfl
        (by simp [Touched, Op.touch, h.W, h.P])).exactly fun f hf => ?_
      exact hc ⟨hf.2.1, hf.2.2.1⟩
  · rename_i e
    refine WOut.exactly (L := [S, U, W, H, P, pa, q, g]) (m := Op.touch (.set_host s)) (env := env) ?_ fun f hf => e (by simpa using hf.1)
    obtain ⟨txt, hp, -, -⟩ := plain_hostname_of s
    have hn := plainHost_ne_none hp
    simp only [(good_ip_literal (Good.init s)).flt]
    generalize parse_plain_hostname s = k at *
    rw [run_bind_ret (run_pure k), run_bind_ret (run_assert (by simp [hn]))]
    split
    · exact w_store_host' (k := k) (g := fun _ => M.setPt fun pt => { pt with host := k }) h fun _ _ => rfl
    · exact w_store_host (k := k) (g := fun _ => M.setPt fun pt => { pt with host := k }) h
        (encoded_size_eq setOf_regName _) fun _ _ => rfl

theorem exactly_set_encoded_host (hd : env.dbg = true) (s : Str) :
    Exactly (fun f => Op.Fails st f (.set_encoded_host s)) (Base.set_encoded_host s env st) := by
  unfold Base.set_encoded_host
  split
  · exact exactly_set_host h hd s
  · rename_i e
    refine WOut.exactly (w_parsedAll (good_hostname (Good.init s)).flt fun _ _ => w_store_host' h fun _ _ => rfl) fun f hf => ?_
    exact e (by simpa using hf.1)

theorem exactly_set_port (hd : env.dbg = true) (hS : EndsIn c!":" S) (hW : EndsIn c!"@" W) (s : Str) :
    Exactly (fun f => Op.Fails st f (.set_port s)) (Base.set_port s env st) := by
  by_cases e : s = []
  · subst e
    unfold Base.set_port
    simp only [List.isEmpty_nil, if_true]
    rw [run_bind_ret run_pt]
    split
    · rename_i hc
      refine exactly_slashes (c := fun u => decide (u.take 2 = b!"//")) h hd ?_ (fun f => ?_) ?_
      · intro u hu
        rw [decide_eq_true_iff, List.prefix_iff_eq_take]
        exact eq_comm
      · simp only [Op.Fails]
        exact ⟨fun h => h.2.2, fun h => ⟨trivial, hc, h⟩⟩
      · intro f hf
        have : WOut env [S, U, W, H, P, pa, q, g] (Op.touch (.set_host [])) (.fault f) := by
          rw [← hf]
          refine w_cut (A := [S]) (Xs := [U, W, H, P]) (B := [pa, q, g]) (k := 3) (by simpa using h.holds) rfl rfl rfl ?_
          intro X' hl
          obtain rfl := List.length_eq_zero_iff.1 hl
          simp [Touched, Op.touch]
        exact this
    · rename_i hc
      refine (w_clear (mask := Op.touch (.set_host [])) (L := [S, U, W, H, P, pa, q, g]) (A := [S, U, W, H]) h.holds rfl
        (by simp [Touched, Op.touch, h.W, h.H])).exactly fun f hf => ?_
      exact hc hf.2.1
  · exact (d_set_port h hS hW s e).exactly fun f hf => e hf.1

theorem exactly_set_port_part (hd : env.dbg = true) (hS : EndsIn c!":" S) (hW : EndsIn c!"@" W) (s : Str) :
    Exactly (fun f => Op.Fails st f (.set_port_part s)) (Base.set_port_part s env st) := by
  unfold Base.set_port_part
  split
  · exact exactly_set_port h hd hS hW s
  · rename_i e
    refine WOut.exactly (L := [S, U, W, H, P, pa, q, g]) (m := Op.touch (.set_port_part s)) (env := env) ?_ fun f hf => e (by simpa using hf.1)
    refine w_require fun _ => ?_
    split
    · rename_i hl
      refine d_set_port h hS hW _ fun e => ?_
      have := congrArg List.length e
      simp at this
      omega
    · exact w_write (A := [S, U, W, H]) rfl h.holds rfl (by simp [Touched, Op.touch, h.W, h.H])

end

/-- C23: after any calls and edits, in a build with assertions, a call reads in front of the text, uses a byte that was never written or
fails an assertion exactly if `Op.Fails` says so: only calls that remove the user, the password, the host or the port do, and
only without a userinfo (the user) or if the text where the authority starts is not `//`. -/
theorem C23_debug_exact (hd : env.dbg = true) (hu : Worked env st) (op : Op) (f : Flt) :
    run op env st = .fault f ↔ Op.Fails st f op := by
  obtain ⟨S, U, W, H, P, pa, q, g, t, hr, hS, hW⟩ := hu.release.ends rfl
  have h : Part8 env st S U W H P pa q g t :=
    ⟨⟨hr.holds.rep, hr.holds.len, hr.holds.buf, hr.holds.cap, hr.holds.term⟩, hr.S, hr.W, hr.H, hr.P, hr.pa, hr.q, hr.f⟩
  have key : Exactly (fun f => Op.Fails st f op) (run op env st) := by
    cases op with
    | set_encoded_url s => exact (w_url h s).exactly fun _ h => h
    | set_encoded_origin s => exact (w_origin h s).exactly fun _ h => h
    | set_scheme s => exact (w_scheme h s).exactly fun _ h => h
    | set_encoded_authority s => exact (t_authority h hS hW s).exactly fun _ h => h
    | set_encoded_userinfo s => exact (w_set_encoded_userinfo h s).exactly fun _ h => h
    | set_userinfo_part s => exact (w_userinfo_part h s).exactly fun _ h => h
    | set_user s => exact exactly_set_user h hd hS hW s
    | set_encoded_user s => exact exactly_set_encoded_user h hd hS hW s
    | set_password s => exact exactly_set_password h hd hW s
    | set_encoded_password s => exact exactly_set_encoded_password h hd hW s
    | set_password_part s => exact exactly_set_password_part h hd hW s
    | set_host s => exact exactly_set_host h hd s
    | set_encoded_host s => exact exactly_set_encoded_host h hd s
    | set_port s => exact exactly_set_port h hd hS hW s
    | set_port_number n =>
      obtain ⟨s, hs, hdec⟩ := port_string_of n
      have : run (.set_port_number n) env st = Base.set_port s env st := by
        show Base.set_port_number n env st = _
        unfold Base.set_port_number
        rw [run_bind_ret (run_ask (a := s) hs)]
      rw [this]
      exact (d_set_port h hS hW s hdec.1.1).exactly fun _ h => h
    | set_port_part s => exact exactly_set_port_part h hd hS hW s
    | set_encoded_path s => exact (w_set_encoded_path h s).exactly fun _ h => h
    | set_query s => exact (w_setPlain_query h s).exactly fun _ h => h
    | set_encoded_query s => exact (w_setEncoded_query h s).exactly fun _ h => h
    | set_query_part s => exact (w_setPart_query h s).exactly fun _ h => h
    | set_fragment s => exact (w_setPlain_frag h s).exactly fun _ h => h
    | set_encoded_fragment s => exact (w_setEncoded_frag h s).exactly fun _ h => h
    | set_fragment_part s => exact (w_setPart_frag h s).exactly fun _ h => h
    | normalize_scheme => exact (t_normalize h hS hW).exactly fun _ h => h
    | normalize => exact (t_normalize h hS hW).exactly fun _ h => h
  rcases key with ⟨f', h1, h2⟩ | ⟨h1, h2⟩
  · rw [h2]
    constructor
    · intro e; cases e; exact h1
    · intro h'; rw [h1.unique h']
  · exact ⟨fun e => absurd e (h2 f), fun e => absurd e (h1 f)⟩

/-! ### examples -/

theorem after_returns {ops : List Op} (h : returns (runAll ops env0 Base.empty) = true) :
    runAll ops env0 Base.empty = .ret () (after ops) := by
  unfold after
  revert h
  cases runAll ops env0 Base.empty <;> simp [returns]

theorem after_used {ops : List Op} (h : returns (runAll ops env0 Base.empty) = true) : Used env0 (after ops) :=
  Used.empty.all (after_returns h)

/-- Calls that leave one character of text in storage for more. -/
def oneLeft : List Op := [.set_port b!"123", .set_encoded_authority [], .set_port_part b!":"]

/-- C23 is false in a build with assertions, too: these four calls return, and the second byte of the text was never
written. -/
theorem C23_debug_uninitialised_false :
    runAll (oneLeft ++ [.set_encoded_userinfo []]) env0 Base.empty = .ret () (after (oneLeft ++ [.set_encoded_userinfo []])) ∧
    (after (oneLeft ++ [.set_encoded_userinfo []])).buf.map (·.take 3) = some [some c!":", none, some c!":"] ∧
    size ((after (oneLeft ++ [.set_encoded_userinfo []])).obj true) = 3 ∧
    encoded_url ((after (oneLeft ++ [.set_encoded_userinfo []])).obj true) = .error .ub :=
  ⟨after_returns (by decide +kernel), by decide +kernel, by decide +kernel, by decide +kernel⟩

/-- the states of `C23_exposes`: the third call set one character, the fourth makes room in front of it -/
example : Worked env0 (after oneLeft) ∧ encoded_url ((after oneLeft).obj true) = .ok b!":" ∧
    (after oneLeft).pt.length2 id_user id_end = 1 ∧ Op.Unwritten (.set_encoded_userinfo []) ∧
    returns (run (.set_encoded_userinfo []) env0 (after oneLeft)) = true :=
  ⟨(after_used (by decide +kernel)).worked, by decide +kernel, by decide +kernel, rfl, by decide +kernel⟩

/-- without assertions setting the user does it, too -/
example : encoded_url ((afterRelease (staleCalls.take 2)).obj false) = .ok b!"@" ∧
    (afterRelease (staleCalls.take 2)).pt.length2 id_user id_end = 1 ∧
    encoded_url ((afterRelease staleCalls).obj false) = .error .ub :=
  ⟨by decide +kernel, by decide +kernel, by decide +kernel⟩

/-- With a longer text the same calls write all they make room for. -/
example : textOf (runAll (oneLeft ++ [.set_encoded_path b!"/p", .set_encoded_userinfo []]) env0 Base.empty) = some b!":/:/p" := by
  decide +kernel

/-- three ways to fail: the misplaced end of the user (see `C30_false`), no userinfo, bytes that were never written -/
example : faultOf (run (.set_password []) env0 (after [.set_encoded_userinfo b!"u:p"])) = some .assert ∧
    faultOf (run (.set_user []) env0 (after [.set_host b!"h"])) = some .ub ∧
    faultOf (run (.set_host []) env0 (after (oneLeft ++ [.set_encoded_userinfo [], .set_encoded_path b!"/p"]))) = none ∧
    faultOf (run (.set_port []) env0 (after (oneLeft ++ [.set_encoded_userinfo []]))) = some .ub :=
  ⟨by decide +kernel, by decide +kernel, by decide +kernel, by decide +kernel⟩

end Url.Props
