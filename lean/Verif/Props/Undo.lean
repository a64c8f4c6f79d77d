import Verif.Props.Lens

/-!
C70: what was read from a url before calls that modify one of its components restores it after them.
-/

set_option linter.unusedSimpArgs false
set_option autoImplicit false

namespace Url.Props
open Url Spec

variable {env : Env} {st st' : St}

/-- `st'` results from `st` by calls with `P` and edits of segments with `Q`, returning or throwing. -/
inductive Since (env : Env) (P : Op → Prop) (Q : SegOp → Prop) (st : St) : St → Prop
  | refl : Since env P Q st st
  | call {a b : St} (op : Op) : Since env P Q st a → P op → Callable env a op →
      (run op env a = .ret () b ∨ ∃ x, run op env a = .throw x b) → Since env P Q st b
  | edit {a b : St} (e : SegOp) : Since env P Q st a → Q e → Editable env a e →
      ((∃ it, runSeg e env a = .ret it b) ∨ ∃ x, runSeg e env a = .throw x b) → Since env P Q st b

/-- A relation of components that calls and edits keep holds at the end. -/
theorem Since.rep {P : Op → Prop} {Q : SegOp → Prop} {c : Components} (R : Components → Prop) (hs : Since env P Q st st')
    (hr : Reach env st) (hrep : Rep env st c) (h0 : R c)
    (h1 : ∀ op a b, P op → ¬ op.Defective a.auth.isSome a.userinfo.isSome → op.Effect a b → R a → R b)
    (h2 : ∀ e a, Q e → R a → R { a with path := editText e a.path }) :
    Reach env st' ∧ ∃ c', Rep env st' c' ∧ R c' := by
  induction hs with
  | refl => exact ⟨hr, c, hrep, h0⟩
  | @call a b op _ hp hc hrun ih =>
    obtain ⟨ra, d, hd, hR⟩ := ih
    refine ⟨.call op ra hc hrun, ?_⟩
    rcases hrun with hrun | ⟨x, hrun⟩
    · obtain ⟨d', he, hb⟩ := returned_one hd hc hrun
      exact ⟨d', hb, h1 op d d' hp (callable hd hc) he hR⟩
    · exact ⟨d, Same.rep hd (run_strong op env a x b hrun), hR⟩
  | @edit a b e _ hq he hrun ih =>
    obtain ⟨ra, d, hd, hR⟩ := ih
    refine ⟨.edit e ra he hrun, ?_⟩
    rcases hrun with ⟨it, hrun⟩ | ⟨x, hrun⟩
    · obtain ⟨d', hd', -, -, -, hok⟩ := edited ra he hrun
      obtain rfl := Rep.unique hd hd'
      exact ⟨_, hok.rep, h2 e d hq hR⟩
    · exact ⟨d, Same.rep hd (C37_throw ra he hrun).1, hR⟩

theorem not_defective {op : Op} (h : op.absolute = true) (a i : Bool) : ¬ op.Defective a i := by
  cases op <;> first | exact id | cases h

/-- Whether such a call is accepted depends on the other fields only. -/
theorem absolute_accepts {op : Op} {f : Field} {c d : Components} (h1 : op.field = some f) (h2 : op.absolute = true)
    (h : ∀ x, x ≠ f → x.Agree d c) : (∃ c', op.Effect d c') → ∃ c', op.Effect c c' := by
  rintro ⟨d', he⟩
  cases op <;> simp only [Op.absolute, Bool.false_eq_true] at h2 <;> simp only [Op.field, Option.some.injEq] at h1 <;> subst h1 <;>
    simp only [Op.Effect] at he ⊢
  case set_scheme => exact ⟨_, he.1, rfl⟩
  case set_encoded_authority =>
    rcases he with ⟨h, -⟩ | ⟨h, a, ha, -⟩
    · exact ⟨_, .inl ⟨h, rfl⟩⟩
    · exact ⟨_, .inr ⟨h, a, ha, rfl⟩⟩
  case set_encoded_path =>
    have e1 : d.scheme = c.scheme := h .scheme nofun
    have e2 : d.auth = c.auth := h .auth nofun
    rw [e1, e2] at he
    exact ⟨_, he.1, rfl⟩
  case set_query => exact ⟨_, rfl⟩
  case set_encoded_query => exact ⟨_, he.1, rfl⟩
  case set_query_part =>
    rcases he with ⟨h, -⟩ | ⟨q, h, hq, -⟩
    · exact ⟨_, .inl ⟨h, rfl⟩⟩
    · exact ⟨_, .inr ⟨q, h, hq, rfl⟩⟩
  case set_fragment => exact ⟨_, rfl⟩
  case set_encoded_fragment => exact ⟨_, he.1, rfl⟩
  case set_fragment_part =>
    rcases he with ⟨h, -⟩ | ⟨q, h, hq, -⟩
    · exact ⟨_, .inl ⟨h, rfl⟩⟩
    · exact ⟨_, .inr ⟨q, h, hq, rfl⟩⟩

/-- Two urls are the same exactly if their components are. -/
theorem sameUrl_iff {a b : St} {c d : Components} (h : Rep env a c) (h' : Rep env b d) : SameUrl a b ↔ c = d :=
  ⟨fun hs => same_comps h h' hs, fun e => Rep.sameUrl (e ▸ h) h'⟩

/-- C70: after any modifications of one component (scheme, authority, path, query, fragment), giving its setter what the
getter returned before them is rejected exactly if it would have been rejected before them, and restores the url exactly
if the component was not present and empty. -/
theorem C70_field {op : Op} {f : Field} (hr : Reach env st) (hs : Since env (fun o => o.field = some f) (fun _ => f = .path) st st')
    (h1 : op.field = some f) (h2 : op.absolute = true) (ho : Own st op) :
    (Rejects op env st' ↔ Unfit st op) ∧ ∀ out, run op env st' = .ret () out → (SameUrl st out ↔ ¬ Forgets st op) := by
  obtain ⟨c, hrep, hp⟩ := hr.rep
  obtain ⟨hr', d, hd, hR⟩ := hs.rep (R := fun d => ∀ x, x ≠ f → x.Agree d c) hr hrep (fun x _ => by cases x <;> rfl)
    (fun o a b ho _ he h x hx => (effect_other he ho hx).trans (h x hx))
    (fun e a he h x hx => by
      subst he
      have := h x hx
      cases x <;> first | exact this | exact absurd rfl hx)
  have hR' : ∀ x, x ≠ f → x.Agree c d := fun x hx => (hR x hx).symm
  refine ⟨?_, fun out hout => ?_⟩
  · rw [rejects_iff hd (not_defective h2 _ _), ← C62_rejected hr (fun i _ h => not_defective h2 _ _ h) ho,
      rejects_iff hrep (not_defective h2 _ _)]
    exact ⟨fun h hn => h (absolute_accepts h1 h2 hR' hn), fun h hn => h (absolute_accepts h1 h2 hR hn)⟩
  · obtain ⟨d', he, hout⟩ := returned_one hd (fun i _ h => not_defective h2 _ _ h) hout
    obtain ⟨c', hc'⟩ := absolute_accepts h1 h2 hR ⟨_, he⟩
    have e : d' = c' := agree_all fun x => by
      by_cases hx : x = f
      · subst hx
        exact effect_absolute he hc' h1 h2
      · exact ((effect_other he h1 hx).trans (hR x hx)).trans (effect_other hc' h1 hx).symm
    subst e
    rw [sameUrl_iff hrep hout]
    have hu : ∀ s, op ≠ .set_encoded_url s := fun s h => by subst h; cases h2
    rcases own_effect hrep hp ho (not_defective h2 _ _) hu hc' with ⟨e, hf⟩ | ⟨e, hf⟩
    · exact ⟨fun _ => hf, fun _ => e.symm⟩
    · exact ⟨fun h => absurd (congrArg (fun c => c.render.length) h).symm e, fun h => absurd hf h⟩

/-- C70: after any modifications whatsoever, giving `set_encoded_url` what `encoded_url` returned before them restores the
url exactly if its text parsed to its components. -/
theorem C70_url {P : Op → Prop} {Q : SegOp → Prop} {s : Str} (hr : Reach env st) (hs : Since env P Q st st')
    (ho : encoded_url (st.obj false) = .ok s) :
    (Rejects (.set_encoded_url s) env st' ↔ ¬ ∃ v, View.make s = .ret v) ∧
    ∀ out, run (.set_encoded_url s) env st' = .ret () out → (SameUrl st out ↔ Reparses st) := by
  obtain ⟨c, hrep, hp⟩ := hr.rep
  obtain ⟨hr', d, hd, -⟩ := hs.rep (R := fun _ => True) hr hrep trivial (fun _ _ _ _ _ _ _ => trivial) (fun _ _ _ _ => trivial)
  have hex : (∃ c', (Op.set_encoded_url s).Effect d c') ↔ ∃ c', (Op.set_encoded_url s).Effect c c' := Iff.rfl
  refine ⟨?_, fun out hout => ?_⟩
  · rw [rejects_iff hd (by exact id), hex, ← rejects_iff hrep (by exact id), C62_rejected (op := .set_encoded_url s) hr (fun _ _ h => h) (.url ho)]
    rfl
  · obtain ⟨d', he, hout⟩ := returned_one (op := .set_encoded_url s) hd (fun _ _ h => h) hout
    rw [sameUrl_iff hrep hout, reparses_iff hrep]
    rw [(hrep.reports false).url, Except.ok.injEq] at ho
    subst ho
    rcases he with ⟨h, rfl⟩ | ⟨h, hv, hr⟩
    · have e : c = Components.empty := by
        rcases c with ⟨_ | sc, _ | a, pa, _ | q, _ | f⟩ <;> simp [Components.render] at h
        rw [h]; rfl
      subst e
      exact ⟨fun _ => PartsOk.empty.valid_iff.2 (.inl rfl), fun _ => rfl⟩
    · exact ⟨fun h => h ▸ hv, fun h => decomposition_unique h hv hr.symm⟩

/-! ### parts of the authority -/

theorem part_accepts {op : Op} {p : AuthPart} {c d : Components} (h1 : op.authPart = some p) : (∃ c', op.Effect d c') → ∃ c', op.Effect c c' := by
  rintro ⟨d', he⟩
  cases op <;> simp only [Op.authPart, reduceCtorEq] at h1 <;> simp only [Op.Effect] at he ⊢
  case set_user => exact ⟨_, rfl⟩
  case set_encoded_user => exact ⟨_, he.1, rfl⟩
  case set_password => exact ⟨_, rfl⟩
  case set_encoded_password => exact ⟨_, he.1, he.2.1, rfl⟩
  case set_password_part =>
    rcases he with ⟨h, -⟩ | ⟨h, -⟩ | ⟨x, y, h, hy, hh, ho, -⟩
    · exact ⟨_, .inl ⟨h, rfl⟩⟩
    · exact ⟨_, .inr (.inl ⟨h, rfl⟩)⟩
    · exact ⟨_, .inr (.inr ⟨x, y, h, hy, hh, ho, rfl⟩)⟩
  case set_host =>
    rcases he with ⟨h, -⟩ | ⟨h, t, k, ht, -⟩
    · exact ⟨_, .inl ⟨h, rfl⟩⟩
    · exact ⟨_, .inr ⟨h, t, k, ht, rfl⟩⟩
  case set_encoded_host => exact ⟨_, he.1, rfl⟩
  case set_port => exact ⟨_, he.1, rfl⟩
  case set_port_number => obtain ⟨s, hs, -⟩ := he; exact ⟨_, s, hs, rfl⟩
  case set_port_part =>
    rcases he with ⟨h, -⟩ | ⟨x, h, hx, -⟩
    · exact ⟨_, .inl ⟨h, rfl⟩⟩
    · exact ⟨_, .inr ⟨x, h, hx, rfl⟩⟩

/-- `d` differs from `c` in the part `p` of the authority, and maybe in having one. -/
structure Touched (p : AuthPart) (c d : Components) : Prop where
  back : ∀ w, (w = none → p.info = true → c.auth.isSome = true) → d.edit (p, w) = c.edit (p, w)
  stays : p.info = true → c.auth.isSome = true → d.auth.isSome = true
  same : p.info = true → c.auth.isSome = false → d.auth.isSome = false → d = c

theorem edit_stays {p : AuthPart} {c : Components} {v : Option Str} (h : p.info = true) (hc : c.auth.isSome = true) :
    (c.edit (p, v)).auth.isSome = true := by
  rcases c with ⟨sc, _ | ⟨_ | ⟨u, _ | pw⟩, hh, pt⟩, pa, qu, f⟩ <;> cases p <;> rcases v with _ | v <;>
    first | rfl | (cases hc; done) | (cases h; done) | (unfold Components.edit Components.clearUser; cases u <;> rfl) | (unfold Components.edit Components.clearPassword; cases u <;> rfl)

theorem edit_none {p : AuthPart} {c : Components} {v : Option Str} (hp : p.info = true) (hc : c.auth.isSome = false) (h : (c.edit (p, v)).auth.isSome = false) :
    c.edit (p, v) = c := by
  rcases c with ⟨sc, _ | a, pa, qu, f⟩ <;> cases p <;> rcases v with _ | v <;> first | rfl | (cases hc; done) | (cases h; done) | (cases hp; done)

theorem Touched.edit {p : AuthPart} {c d : Components} {v : Option Str} (h : Touched p c d) : Touched p c (d.edit (p, v)) where
  back w hw := by
    rw [edit_twice fun h1 h2 => h.stays h2 (hw h1 h2)]
    exact h.back w hw
  stays hp hc := edit_stays hp (h.stays hp hc)
  same hp hc hd := by
    have hd' : d.auth.isSome = false := by
      cases hx : d.auth.isSome with
      | false => rfl
      | true => rw [edit_stays hp hx] at hd; cases hd
    rw [edit_none hp hd' hd]
    exact h.same hp hc hd'

/-- what the getter of a part returns, given back -/
theorem own_part {c : Components} {op : Op} {p : AuthPart} {x : AuthPart × Option Str} (hrep : Rep env st c) (hp : PartsOk c) (ho : Own st op) (h1 : op.authPart = some p)
    (hx : op.Arg x) (he : ∃ c', op.Effect c c') : c.edit x = c ↔ ¬ Forgets st op := by
  have r := hrep.reports false
  obtain ⟨c', he⟩ := he
  have hc' : c' = c.edit x := by
    obtain ⟨y, hy, -, e⟩ := effect_edit he h1
    rw [e, arg_unique hx hy]
  subst hc'
  by_cases hd : op.Defective c.auth.isSome c.userinfo.isSome
  · cases ho with
    | user h =>
      obtain ⟨rfl, -, hi⟩ := hd
      have e : c.edit x = c := by
        rw [show x = _ from hx, if_pos rfl]
        rcases c with ⟨sc, _ | ⟨_ | ⟨u, pw⟩, hh, pt⟩, pa, qu, f⟩ <;> first | rfl | (cases hi; done)
      refine ⟨fun _ => ?_, fun _ => e⟩
      show ¬ userinfo_part (st.obj false) = .ok b!"@"
      rw [r.userinfo_part]
      rcases c with ⟨sc, _ | ⟨_ | ⟨u, pw⟩, hh, pt⟩, pa, qu, f⟩ <;> first | (cases hi; done) | (intro h; cases h; done)
    | password_part h =>
      obtain ⟨rfl, ha⟩ := hd
      rw [r.password_part rfl] at h
      rcases c with ⟨sc, _ | a, pa, qu, f⟩ <;> cases ha
      cases h
    | port_part h =>
      obtain ⟨rfl, ha⟩ := hd
      rw [r.port_part] at h
      rcases c with ⟨sc, _ | a, pa, qu, f⟩ <;> cases ha
      cases h
    | password => exact hd.elim
    | host => exact hd.elim
    | port => exact hd.elim
    | _ => cases h1
  · rcases own_effect hrep hp ho hd (fun s h => by subst h; cases h1) he with ⟨e, hf⟩ | ⟨e, hf⟩
    · exact ⟨fun _ => hf, fun _ => e⟩
    · exact ⟨fun h => absurd (congrArg (fun c => c.render.length) h) e, fun h => absurd hf h⟩

/-- the same for `Unfit` -/
theorem own_unfit {c : Components} {op : Op} {p : AuthPart} (hr : Reach env st) (hrep : Rep env st c) (ho : Own st op) (h1 : op.authPart = some p) :
    (¬ ∃ c', op.Effect c c') ↔ Unfit st op := by
  by_cases hd : op.Defective c.auth.isSome c.userinfo.isSome
  · have r := hrep.reports false
    cases ho with
    | user h =>
      obtain ⟨rfl, -, -⟩ := hd
      exact ⟨fun h => absurd ⟨_, .nil, rfl⟩ h, fun h => h.elim⟩
    | password_part h =>
      obtain ⟨rfl, ha⟩ := hd
      rw [r.password_part rfl] at h
      rcases c with ⟨sc, _ | a, pa, qu, f⟩ <;> cases ha
      cases h
    | port_part h =>
      obtain ⟨rfl, ha⟩ := hd
      rw [r.port_part] at h
      rcases c with ⟨sc, _ | a, pa, qu, f⟩ <;> cases ha
      cases h
    | password => exact hd.elim
    | host => exact hd.elim
    | port => exact hd.elim
    | _ => cases h1
  · rw [← rejects_iff hrep hd]
    refine C62_rejected hr (fun i hi => ?_) ho
    rw [(hrep.reports _).has_authority]
    rw [(hrep.reports _).has_userinfo] at hi
    cases hi
    exact hd

/-- Without an authority the getters of its parts return nothing. -/
theorem own_clears {c : Components} {op : Op} {p : AuthPart} {x : AuthPart × Option Str} (hrep : Rep env st c) (ho : Own st op) (h1 : op.authPart = some p)
    (hx : op.Arg x) (hc : c.auth.isSome = false) : x = (p, none) ∧ ¬ Forgets st op := by
  have r := hrep.reports false
  rcases c with ⟨sc, _ | a, pa, qu, f⟩ <;> cases hc
  have hu : userinfo_part (st.obj false) = .ok [] := r.userinfo_part
  have hw : password_part (st.obj false) = .ok [] := r.password_part rfl
  have hpp : port_part (st.obj false) = .ok [] := r.port_part
  have hA : ¬ EmptyAuthority st := fun h => by
    have := h.1
    rw [r.has_authority] at this
    cases this
  cases ho <;> first | (cases h1; done) | skip
  case user h => rw [r.user] at h; cases h; cases h1; exact ⟨hx, fun h => by rw [Forgets, hu] at h; cases h⟩
  case password h =>
    rw [r.password] at h; cases h; cases h1
    refine ⟨hx, fun h => ?_⟩
    rw [Forgets, hu, hw] at h
    rcases h with h | h <;> cases h
  case password_part h => rw [hw] at h; cases h; cases h1; exact ⟨hx, fun h => by rw [Forgets, hu] at h; cases h⟩
  case host h => rw [r.host] at h; cases h; cases h1; exact ⟨hx, hA⟩
  case port h =>
    rw [r.port] at h; cases h; cases h1
    refine ⟨hx, fun h => ?_⟩
    rw [Forgets, hpp] at h
    rcases h with h | h
    · exact hA h
    · cases h
  case port_part h => rw [hpp] at h; cases h; cases h1; exact ⟨hx, hA⟩

/-- C70: the same for the user, the password, the host and the port; here the url is not restored either if it had no
authority, has one now, and the part is the user or the password: clearing these does not take the slashes away. -/
theorem C70_part {op : Op} {p : AuthPart} (hr : Reach env st) (hs : Since env (fun o => o.authPart = some p) (fun _ => False) st st')
    (h1 : op.authPart = some p) (ho : Own st op) (hc : Callable env st' op) :
    (Rejects op env st' ↔ Unfit st op) ∧ ∀ out, run op env st' = .ret () out →
      (SameUrl st out ↔ ¬ Forgets st op ∧ ¬ (p.info = true ∧ has_authority (st.obj false) = false ∧ has_authority (st'.obj false) = true)) := by
  obtain ⟨c, hrep, hp⟩ := hr.rep
  obtain ⟨hr', d, hd, hR⟩ := hs.rep (R := Touched p c) hr hrep ⟨fun _ _ => rfl, fun _ h => h, fun _ _ _ => rfl⟩
    (fun o a b ho _ he h => by
      obtain ⟨x, -, hx, rfl⟩ := effect_edit he ho
      obtain ⟨p', v⟩ := x
      obtain rfl : p' = p := hx.part
      exact h.edit)
    (fun _ _ h _ => h.elim)
  refine ⟨?_, fun out hout => ?_⟩
  · rw [rejects_iff hd (callable hd hc), ← own_unfit hr hrep ho h1]
    exact ⟨fun h hn => h (part_accepts h1 hn), fun h hn => h (part_accepts h1 hn)⟩
  · obtain ⟨d', he, hout⟩ := returned_one hd hc hout
    rw [sameUrl_iff hrep hout, (hrep.reports false).has_authority, (hd.reports false).has_authority]
    obtain ⟨x, hx, hed, rfl⟩ := effect_edit he h1
    have hown := own_part hrep hp ho h1 hx (part_accepts h1 ⟨_, he⟩)
    obtain ⟨p', v⟩ := x
    obtain rfl : p' = p := hed.part
    by_cases hv : v = none → p'.info = true → c.auth.isSome = true
    · rw [hR.back v hv, eq_comm, hown]
      refine ⟨fun h => ⟨h, fun ⟨hi, ha, _⟩ => ?_⟩, fun h => h.1⟩
      obtain ⟨hn, -⟩ := own_clears hrep ho h1 hx ha
      cases hn
      rw [hv rfl hi] at ha
      cases ha
    · have ⟨rfl, hi, ha⟩ : v = none ∧ p'.info = true ∧ c.auth.isSome = false := by
        cases hc : c.auth.isSome <;> cases hi : p'.info <;> cases v <;> simp [hc, hi] at hv ⊢
      obtain ⟨-, hf⟩ := own_clears hrep ho h1 hx ha
      rw [and_iff_right hf, and_iff_right hi, and_iff_right ha]
      constructor
      · intro h hda
        have := edit_stays (v := v) hi hda
        rw [← h, ha] at this
        cases this
      · intro h
        have hda : d.auth.isSome = false := by simpa using h
        obtain rfl := hR.same hi ha hda
        exact (hown.2 hf).symm

/-- calls, one after the other -/
theorem Since.all {P : Op → Prop} {Q : SegOp → Prop} {ops : List Op} {a : St} (hs : Since env P Q st a) (hp : ∀ op ∈ ops, P op)
    (hc : CallableAll env a ops) (h : runAll ops env a = .ret () st') : Since env P Q st st' := by
  induction ops generalizing a with
  | nil => cases h; exact hs
  | cons op ops ih =>
    rw [runAll] at h
    match hr : run op env a with
    | .ret () b =>
      rw [run_bind_ret hr] at h
      exact ih (.call op hs (hp op List.mem_cons_self) hc.1 (.inl hr)) (fun o ho => hp o (List.mem_cons_of_mem _ ho)) (hc.2 b hr) h
    | .throw x b => rw [run_bind_throw hr] at h; cases h
    | .fault x => rw [run_bind, hr] at h; cases h

example : Reach env0 sampleSt ∧ CallableAll env0 sampleSt [.set_query b!"a b", .set_query b!""] ∧ Own sampleSt (.set_encoded_query b!"k=v&l") ∧
    textOf (runAll [.set_query b!"a b", .set_query b!""] env0 sampleSt) = some b!"http://us%20er:p:w@h%41.x:80/a//b;c#f%2F" ∧
    textOf (runAll [.set_query b!"a b", .set_query b!"", .set_encoded_query b!"k=v&l"] env0 sampleSt) =
      some b!"http://us%20er:p:w@h%41.x:80/a//b;c?k=v&l#f%2F" := by
  refine ⟨sampleSt_reach, .fine ?_, .query (by decide +kernel), by decide +kernel, by decide +kernel⟩
  intro op ho
  simp only [List.mem_cons, List.not_mem_nil, or_false] at ho
  rcases ho with rfl | rfl <;> exact fun _ _ h => h

example : Reach env0 sampleSt ∧ CallableAll env0 sampleSt [.set_host b!"::1", .set_encoded_authority b!"", .set_encoded_path b!"a/b"] ∧
    textOf (runAll [.set_host b!"::1", .set_encoded_authority b!"", .set_encoded_path b!"a/b",
      .set_encoded_url b!"http://us%20er:p:w@h%41.x:80/a//b;c?k=v&l#f%2F"] env0 sampleSt) =
      some b!"http://us%20er:p:w@h%41.x:80/a//b;c?k=v&l#f%2F" := by
  refine ⟨sampleSt_reach, .fine ?_, by decide +kernel⟩
  intro op ho
  simp only [List.mem_cons, List.not_mem_nil, or_false] at ho
  rcases ho with rfl | rfl | rfl <;> exact fun _ _ h => h

-- what is not restored: an empty query, an empty authority, and the absence of an authority
example : textOf (runAll [.set_query b!"q", .set_encoded_query b!""] env0 (made env0 b!"x?")) = some b!"x" ∧
    Forgets (made env0 b!"x?") (.set_encoded_query b!"") ∧
    textOf (runAll [.set_host b!"h", .set_encoded_host b!""] env0 (made env0 b!"///x")) = some b!"/x" ∧
    Forgets (made env0 b!"///x") (.set_encoded_host b!"") ∧
    textOf (runAll [.set_user b!"u", .set_encoded_user b!""] env0 (made env0 b!"/x")) = some b!"///x" ∧
    has_authority ((made env0 b!"/x").obj false) = false ∧ ¬ Forgets (made env0 b!"/x") (.set_encoded_user b!"") ∧
    textOf (runAll [.set_host b!"h", .set_encoded_host b!""] env0 (made env0 b!"/x")) = some b!"/x" := by
  refine ⟨by decide +kernel, ?_, by decide +kernel, ⟨by decide +kernel, by decide +kernel⟩, by decide +kernel, by decide +kernel, ?_, by decide +kernel⟩
  · show _ = _; decide +kernel
  · show ¬ _ = _; decide +kernel

end Url.Props
