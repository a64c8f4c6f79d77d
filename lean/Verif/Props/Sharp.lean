import Verif.Props.Alias
import Verif.Proofs.Sharp
import Verif.Proofs.Algebra
import Verif.Proofs.Throws

/-!
The calls that `Reach` leaves out are exactly the ones that go wrong: C51, and with it C23, C30, C46 and C47 for
all states instead of a witness.
-/

set_option linter.unusedSimpArgs false
set_option autoImplicit false

namespace Url.Props
open Url Spec

variable {env : Env} {st st' : St}

/-! ### C47 -/

/-- C47 is false in every state without an authority: the colon is stored, without `//` in front, and reading the
authority is undefined from then on. -/
theorem C47_colon_false (hr : Reach env st) (ha : has_authority (st.obj env.dbg) = false)
    (h : Base.set_port_part b!":" env st = .ret () st') :
    (∀ dbg, port_part (st'.obj dbg) = .ok b!":" ∧ has_authority (st'.obj dbg) = true) ∧
    (∃ x y, encoded_origin (st.obj env.dbg) = .ok x ∧ encoded_url (st.obj env.dbg) = .ok (x ++ y) ∧
      encoded_url (st'.obj env.dbg) = .ok (x ++ b!":" ++ y)) ∧
    encoded_authority (st'.obj false) = .error .ub ∧ encoded_authority (st'.obj true) = .error .assert := by
  obtain ⟨c, hrep, -⟩ := hr.rep
  have b := hrep.reports env.dbg
  rw [b.has_authority] at ha
  have hn : c.auth = none := by simpa using ha
  have hg := base_set_port_colon hrep hn
  rw [h] at hg
  cases hg with
  | ret hb =>
  have ho := fun dbg => hb.obj dbg
  have h0 : ∀ dbg, ObjRep (st.obj dbg) [schemeText c.scheme, [], [], [], [], c.path, queryText c.query, fragText c.fragment] := by
    intro dbg
    have := hrep.obj dbg
    simpa [compParts, authTexts, hn] using this
  have hau : ∀ dbg, (st'.obj dbg).get2 id_user id_path = .ok b!":" := fun dbg => (ho dbg).get2 (by decide)
  refine ⟨fun dbg => ⟨?_, ?_⟩, ⟨schemeText c.scheme, c.path ++ (queryText c.query ++ fragText c.fragment), ?_, ?_, ?_⟩, ?_, ?_⟩
  · have : (st'.obj dbg).get id_port = .ok b!":" := (ho dbg).get id_port
    unfold port_part
    rw [this]
    cases dbg <;> rfl
  · have : (st'.obj dbg).pt.length2 id_user id_path = 1 := by
      rw [(ho dbg).rep.length2 (by decide)]; rfl
    simp [has_authority, this]
  · unfold encoded_origin
    rw [(h0 env.dbg).get2 (by decide)]
    simp [id_path, id_scheme]
  · unfold encoded_url
    rw [(h0 env.dbg).get2 (by decide)]
    simp [id_end, id_scheme]
  · unfold encoded_url
    rw [(ho env.dbg).get2 (by decide)]
    simp [id_end, id_scheme, colonParts]
  · unfold encoded_authority
    rw [hau]
    rfl
  · unfold encoded_authority
    rw [hau]
    rfl

/-- a url without an authority -/
def bare : St := after [.set_encoded_url b!"s:/p?q"]

theorem bare_reach : Reach env0 bare := reach_all .empty (by simp [Op.Defective]) (after_eq (by decide +kernel))

/-- a url with an authority but without a userinfo -/
def hosted : St := after [.set_encoded_url b!"s://h/p"]

theorem hosted_reach : Reach env0 hosted := reach_all .empty (by simp [Op.Defective]) (after_eq (by decide +kernel))

example : Reach env0 bare ∧ has_authority (bare.obj true) = false ∧ returns (Base.set_port_part b!":" env0 bare) = true ∧
    textOf (Base.set_port_part b!":" env0 bare) = some b!"s::/p?q" :=
  ⟨bare_reach, by decide +kernel, by decide +kernel, by decide +kernel⟩

/-! ### C46 -/

/-- C46 is false in every state without an authority: after `set_password_part(":")` there is an authority, but it is
empty, there is no userinfo and no password. -/
theorem C46_colon_false (hr : Reach env st) (ha : has_authority (st.obj env.dbg) = false)
    (h : Base.set_password_part b!":" env st = .ret () st') (dbg : Bool) :
    has_authority (st'.obj dbg) = true ∧ encoded_authority (st'.obj dbg) = .ok [] ∧
    Base.has_userinfo (st'.obj dbg) = .ok false ∧ password_part (st'.obj dbg) = .ok [] := by
  obtain ⟨c, hrep, -⟩ := hr.rep
  have hn : c.auth = none := by
    rw [(hrep.reports _).has_authority] at ha
    simpa using ha
  have hg := base_set_password_colon hrep hn
  rw [h] at hg
  cases hg with
  | ret hrep' =>
  have b := hrep'.reports dbg
  refine ⟨b.has_authority, b.authority, b.has_userinfo, ?_⟩
  have hg := (hrep'.obj dbg).get id_password
  unfold password_part
  rw [hg]
  rfl

example : Reach env0 bare ∧ has_authority (bare.obj true) = false ∧
    textOf (Base.set_password_part b!":" env0 bare) = some b!"s:///p?q" :=
  ⟨bare_reach, by decide +kernel, by decide +kernel⟩

/-! ### C23 -/

/-- C23 is false in every state with an authority but without a userinfo: in a build with assertions removing the user
is undefined; without assertions it does nothing. -/
theorem C23_clear_user_false (hr : Reach env st) (ha : has_authority (st.obj env.dbg) = true)
    (hu : Base.has_userinfo (st.obj env.dbg) = .ok false) {op : Op} (hop : op = .set_user [] ∨ op = .set_encoded_user []) :
    run op env st = if env.dbg then .fault .ub else .ret () st := by
  obtain ⟨c, hrep, -⟩ := hr.rep
  have b := hrep.reports env.dbg
  rw [b.has_authority] at ha
  rw [b.has_userinfo] at hu
  have key := base_clear_user_missing hrep ha (by simpa using hu)
  rcases hop with rfl | rfl <;> exact key

example : Reach env0 hosted ∧ has_authority (hosted.obj true) = true ∧ Base.has_userinfo (hosted.obj true) = .ok false ∧
    faultOf (run (.set_encoded_user []) env0 hosted) = some .ub ∧
    textOf (run (.set_encoded_user []) env1 hosted) = some b!"s://h/p" :=
  ⟨hosted_reach, by decide +kernel, by decide +kernel, by decide +kernel, by decide +kernel⟩

/-! ### C30 -/

/-- `set_userinfo_part` with the `@` is `set_encoded_userinfo` without. -/
theorem C30_part (x : Str) : Base.set_userinfo_part (x ++ b!"@") env st = Base.set_encoded_userinfo x env st := by
  unfold Base.set_userinfo_part
  rw [if_neg (by simp), run_bind_ret (run_require (by simp))]
  simp

example : partsOf (Base.set_userinfo_part b!"user:pw@" env0 hosted) =
    some ([b!"s:", b!"//us", b!"er:pw@", b!"h", [], b!"/p", [], []], some [b!"s:", b!"//user", b!":pw@", b!"h", [], b!"/p", [], []]) := by
  decide +kernel

/-! ### C51 -/

/-- the calls that only a build with assertions cannot do -/
def Op.NoUser (op : Op) : Prop := op = .set_user [] ∨ op = .set_encoded_user []

theorem userinfo_wrong {s : Str} (hr : Reach env st) (hs : s ≠ []) (h : Base.set_encoded_userinfo s env st = .ret () st')
    {u : Str × Option Str} (hu : UserinfoText u s) (c : Components) (dbg : Bool) :
    ¬ BaseReports (st'.obj dbg) (c.withUserinfo u) := by
  obtain ⟨u, p⟩ := u
  obtain ⟨h2, h1, h0⟩ := C30_false hr hs hu h
  intro b
  have bu := b.user
  have bi := b.has_userinfo
  have e1 : (c.withUserinfo (u, p)).user = u := rfl
  have e2 : (c.withUserinfo (u, p)).userinfo.isSome = true := rfl
  rw [e1] at bu
  rw [e2] at bi
  rcases Nat.lt_or_ge u.length 2 with hlt | hge
  · rcases Nat.eq_zero_or_pos u.length with hz | hz
    · obtain ⟨h3, h4⟩ := h0 (List.eq_nil_of_length_eq_zero hz)
      cases dbg
      · rw [h3] at bi; cases bi
      · rw [h4] at bi; cases bi
    · obtain ⟨h3, h4⟩ := h1 (by omega)
      cases dbg
      · rw [h4] at bu; cases bu
      · rw [h3] at bu; cases bu
  · have := (h2 hge dbg).1
    rw [bu] at this
    have := congrArg List.length (Except.ok.inj this)
    rw [List.length_take] at this
    omega

/-- C51: a call that is left out of the histories does not do what it should, except that removing a user that is not
there is harmless in a build without assertions. -/
theorem C51_wrong {op : Op} (hr : Reach env st) (hd : ¬ Callable env st op) (h : run op env st = .ret () st')
    (hn : ¬ Op.NoUser op) (c c' : Components) (he : op.Effect c c') (dbg : Bool) : ¬ BaseReports (st'.obj dbg) c' := by
  intro b
  apply hd
  intro info hi hdef
  cases op <;> simp only [Op.Defective] at hdef
  case set_encoded_origin s =>
    rcases he with ⟨rfl, -⟩ | ⟨sch, a, hs, -⟩
    · exact hdef.1 rfl
    · exact hdef.2 ⟨sch, a, hs⟩
  case set_encoded_userinfo s =>
    rcases he with ⟨rfl, -⟩ | ⟨-, u, hu, rfl⟩
    · exact hdef.1 rfl
    · exact userinfo_wrong hr hdef.1 h hu c dbg b
  case set_userinfo_part s =>
    obtain ⟨x, rfl, hx, -⟩ := hdef
    rcases he with ⟨hs | hs, -⟩ | ⟨y, u, -, hs, hu, rfl⟩
    · simp at hs
    · exact hx (List.append_cancel_right (by simpa using hs : x ++ b!"@" = [] ++ b!"@"))
    · obtain rfl := List.append_cancel_right hs
      exact userinfo_wrong hr hx ((C30_part x).symm.trans h) hu c dbg b
  case set_user s => exact hn (.inl (by rw [hdef.1]))
  case set_encoded_user s => exact hn (.inr (by rw [hdef.1]))
  case set_password_part s =>
    obtain ⟨rfl, ha⟩ := hdef
    have h1 := (C46_colon_false hr ha h dbg).2.2.1
    rw [b.has_userinfo] at h1
    rcases he with ⟨he, -⟩ | ⟨-, rfl⟩ | ⟨d, p, he, hp, -⟩
    · cases he
    · cases h1
    · cases he; exact hp rfl
  case set_port_part s =>
    obtain ⟨rfl, ha⟩ := hdef
    obtain ⟨-, -, h1, h2⟩ := C47_colon_false hr ha h
    have := b.authority
    cases dbg
    · rw [h1] at this; cases this
    · rw [h2] at this; cases this

example : Reach env0 bare ∧ ¬ Callable env0 bare (.set_port_part b!":") ∧ returns (run (.set_port_part b!":") env0 bare) = true ∧
    (∃ c c', Op.Effect (.set_port_part b!":") c c') :=
  ⟨bare_reach, fun h => h false (by decide +kernel) ⟨rfl, by decide +kernel⟩, by decide +kernel,
    Components.empty, _, .inr ⟨[], rfl, rfl, rfl⟩⟩

/-- C51: when a call returns, the accessors report the components it should have made exactly if the call is not
left out of the histories, or removes a user that is not there. -/
theorem C51_exact {op : Op} (hr : Reach env st) (h : run op env st = .ret () st') :
    (∃ c c', (∀ dbg, BaseReports (st.obj dbg) c) ∧ op.Effect c c' ∧ ∀ dbg, BaseReports (st'.obj dbg) c') ↔
      Callable env st op ∨ Op.NoUser op := by
  constructor
  · rintro ⟨c, c', -, he, hb⟩
    apply Classical.byContradiction
    intro hn
    exact C51_wrong hr (fun h => hn (.inl h)) h (fun h => hn (.inr h)) c c' he true (hb true)
  · intro hc
    by_cases hd : Callable env st op
    · obtain ⟨c, c', hrep, -, he, hok⟩ := returned hr hd h
      exact ⟨c, c', hrep.reports, he, hok.rep.reports⟩
    · have hop := hc.resolve_left hd
      obtain ⟨c, hrep, -⟩ := hr.rep
      have b := hrep.reports env.dbg
      have hau : has_authority (st.obj env.dbg) = true ∧ Base.has_userinfo (st.obj env.dbg) = .ok false := by
        apply Classical.byContradiction
        intro hn
        refine hd fun info hi hdef => hn ?_
        rcases hop with rfl | rfl <;> exact ⟨hdef.2.1, hdef.2.2 ▸ hi⟩
      have hrun := C23_clear_user_false hr hau.1 hau.2 hop
      rw [h] at hrun
      cases hdbg : env.dbg with
      | true => rw [hdbg] at hrun; cases hrun
      | false =>
        rw [hdbg] at hrun
        cases hrun
        have hu : c.userinfo = none := by
          have := hau.2
          rw [b.has_userinfo] at this
          simpa using this
        have he : c = c.clearUser := by
          obtain ⟨sc, _ | ⟨_ | u, hst, pt⟩, p, q, f⟩ := c
          · rfl
          · rfl
          · cases hu
        refine ⟨c, c, hrep.reports, ?_, hrep.reports⟩
        rcases hop with rfl | rfl
        · exact he
        · exact ⟨.nil, he⟩

/-- Both sides occur. -/
example : Callable env0 hosted (.set_port_part b!":") ∧ returns (run (.set_port_part b!":") env0 hosted) = true ∧
    ¬ Callable env0 hosted (.set_userinfo_part b!"u@") ∧ returns (run (.set_userinfo_part b!"u@") env0 hosted) = true := by
  refine ⟨fun _ _ h => ?_, by decide +kernel, fun h => h false (by decide +kernel) ⟨b!"u", rfl, by simp, .char (by decide) .nil⟩, by decide +kernel⟩
  have := h.2
  revert this
  decide +kernel

/-- C51: in a reachable state a call ends in a fault in one case only: a build with assertions, an authority without a
userinfo, and the user is removed. -/
theorem C51_fault {op : Op} (hr : Reach env st) (f : Flt) : run op env st = .fault f ↔
    f = .ub ∧ env.dbg = true ∧ has_authority (st.obj env.dbg) = true ∧ Base.has_userinfo (st.obj env.dbg) = .ok false ∧ Op.NoUser op := by
  constructor
  · intro h
    by_cases hd : Callable env st op
    · exact absurd h (C23_calls_partial hr hd f)
    obtain ⟨info, hi, hdef⟩ : ∃ info, Base.has_userinfo (st.obj env.dbg) = .ok info ∧ op.Defective (has_authority (st.obj env.dbg)) info := by
      simpa only [Callable, Classical.not_forall, Classical.not_not, exists_prop] using hd
    obtain ⟨c, hrep, -⟩ := hr.rep
    have b := hrep.reports env.dbg
    have noauth : has_authority (st.obj env.dbg) = false → c.auth = none := by
      rw [b.has_authority]
      simp
    have info_ne : ∀ {s : Str}, s ≠ [] → Escaped isUpperHex isUserinfo s → Base.set_encoded_userinfo s env st ≠ .fault f := by
      intro s hs hv e
      obtain ⟨u, hu⟩ := userinfoText_exists hv
      have := base_set_userinfo_of hrep hs hu
      rw [e] at this
      cases this
    have user : ∀ {op : Op}, Op.NoUser op → run op env st = .fault f → has_authority (st.obj env.dbg) = true →
        Base.has_userinfo (st.obj env.dbg) = .ok false → f = .ub ∧ env.dbg = true := by
      intro op hop h ha hu
      have := C23_clear_user_false hr ha hu hop
      rw [h] at this
      cases hdbg : env.dbg <;> rw [hdbg] at this <;> cases this
      exact ⟨rfl, rfl⟩
    cases op <;> simp only [Op.Defective] at hdef
    case set_encoded_origin s =>
      exfalso
      have h : Base.set_encoded_origin s env st = .fault f := h
      cases he : (parse_origin s).ec with
      | none =>
        obtain ⟨_, _, _, -, -, -, hset⟩ := base_set_origin_any hrep hdef.1 he
        rw [h] at hset
        rcases hset with ⟨-, _, h, -⟩ | ⟨-, _, _, h, -⟩ <;> cases h
      | some x =>
        have hp : Base.parsed (parse_origin s) env st = .throw .invalid_part st := by
          simp [Base.parsed, (good_origin s).flt, he]
        rw [Base.set_encoded_origin, if_neg (by simpa using hdef.1), run_bind_throw hp] at h
        cases h
    case set_encoded_userinfo s => exact absurd h (info_ne hdef.1 hdef.2)
    case set_userinfo_part s =>
      obtain ⟨x, rfl, hx, hv⟩ := hdef
      exact absurd ((C30_part x).symm.trans h) (info_ne hx hv)
    case set_user s =>
      obtain ⟨rfl, ha, rfl⟩ := hdef
      obtain ⟨h1, h2⟩ := user (.inl rfl) h ha hi
      exact ⟨h1, h2, ha, hi, .inl rfl⟩
    case set_encoded_user s =>
      obtain ⟨rfl, ha, rfl⟩ := hdef
      obtain ⟨h1, h2⟩ := user (.inr rfl) h ha hi
      exact ⟨h1, h2, ha, hi, .inr rfl⟩
    case set_password_part s =>
      obtain ⟨rfl, ha⟩ := hdef
      have hg := base_set_password_colon hrep (noauth ha)
      rw [show Base.set_password_part b!":" env st = .fault f from h] at hg
      cases hg
    case set_port_part s =>
      obtain ⟨rfl, ha⟩ := hdef
      have hg := base_set_port_colon hrep (noauth ha)
      rw [show Base.set_port_part b!":" env st = .fault f from h] at hg
      cases hg
  · rintro ⟨rfl, hd, ha, hu, hop⟩
    rw [C23_clear_user_false hr ha hu hop, hd]
    rfl

example : Reach env0 hosted ∧ run (.set_user []) env0 hosted = .fault .ub :=
  ⟨hosted_reach, (C51_fault hosted_reach .ub).2 ⟨rfl, rfl, by decide +kernel, by decide +kernel, .inl rfl⟩⟩

/-! ### C16, C19 and C20 for all calls -/

/-- A call that removes the user and returns is not left out of the histories or changes nothing. -/
theorem nouser_cases {op : Op} (hr : Reach env st) (hop : Op.NoUser op) (h : run op env st = .ret () st') :
    Callable env st op ∨ (st' = st ∧ has_authority (st.obj env.dbg) = true ∧ Base.has_userinfo (st.obj env.dbg) = .ok false) := by
  by_cases hd : Callable env st op
  · exact .inl hd
  · have hau : has_authority (st.obj env.dbg) = true ∧ Base.has_userinfo (st.obj env.dbg) = .ok false := by
      apply Classical.byContradiction
      intro hn
      refine hd fun info hi hdef => hn ?_
      rcases hop with rfl | rfl <;> exact ⟨hdef.2.1, hdef.2.2 ▸ hi⟩
    have hrun := C23_clear_user_false hr hau.1 hau.2 hop
    rw [h] at hrun
    cases hdbg : env.dbg with
    | true => rw [hdbg] at hrun; cases hrun
    | false =>
      rw [hdbg] at hrun
      cases hrun
      exact .inr ⟨rfl, hdbg ▸ hau⟩

/-- C16: `set_encoded_user`, without an exception -/
theorem C16_set_encoded_user {s : Str} (hr : Reach env st) (h : Base.set_encoded_user s env st = .ret () st') (dbg : Bool) :
    encoded_user (st'.obj dbg) = .ok s := by
  by_cases hs : s = []
  · subst hs
    rcases nouser_cases (op := .set_encoded_user []) hr (.inr rfl) h with hc | ⟨rfl, -, hu⟩
    · exact C16_set_encoded_user_partial hr hc h dbg
    · obtain ⟨c, hrep, -⟩ := hr.rep
      rw [(hrep.reports _).has_userinfo] at hu
      rw [(hrep.reports dbg).user]
      have hn : c.userinfo = none := by simpa using hu
      simp [Components.user, hn]
  · exact C16_set_encoded_user_partial hr (fun _ _ hd => hs hd.1) h dbg

example : Reach env0 hosted ∧ textOf (Base.set_encoded_user b!"u%2F" env0 hosted) = some b!"s://u%2F@h/p" ∧
    textOf (Base.set_encoded_user [] env1 hosted) = some b!"s://h/p" :=
  ⟨hosted_reach, by decide +kernel, by decide +kernel⟩

/-- C19: given enough memory a call that does not reject its argument returns, except that in a build with assertions
it is undefined to remove the user of an authority that has none. -/
theorem C19_returns {op : Op} (hr : Reach env st) :
    (∃ st', run op env st = .ret () st') ∨ Rejects op env st ∨
    (∃ e st', run op env st = .throw e st' ∧ (e = .bad_alloc ∨ e = .too_large)) ∨
    (run op env st = .fault .ub ∧ env.dbg = true ∧ has_authority (st.obj env.dbg) = true ∧
      Base.has_userinfo (st.obj env.dbg) = .ok false ∧ Op.NoUser op) := by
  cases h : run op env st with
  | ret u x => exact .inl ⟨x, rfl⟩
  | throw e x =>
    cases e with
    | invalid_part => exact .inr (.inl ⟨x, h⟩)
    | out_of_range => exact absurd rfl (kinds_run op _ _ _ _ h)
    | bad_alloc => exact .inr (.inr (.inl ⟨_, x, rfl, .inl rfl⟩))
    | too_large => exact .inr (.inr (.inl ⟨_, x, rfl, .inr rfl⟩))
  | fault f =>
    obtain ⟨rfl, h1⟩ := (C51_fault hr f).1 h
    exact .inr (.inr (.inr ⟨rfl, h1⟩))

theorem nouser_accepts {op : Op} (hr : Reach env st) (hop : Op.NoUser op) : ¬ Rejects op env st := by
  by_cases hd : Callable env st op
  · obtain ⟨c, hrep, -⟩ := hr.rep
    rw [rejects_iff hrep (callable hrep hd)]
    rcases hop with rfl | rfl
    · exact fun h => h ⟨_, rfl⟩
    · exact fun h => h ⟨_, .nil, rfl⟩
  · rintro ⟨x, h⟩
    have hau : has_authority (st.obj env.dbg) = true ∧ Base.has_userinfo (st.obj env.dbg) = .ok false := by
      apply Classical.byContradiction
      intro hn
      refine hd fun info hi hdef => hn ?_
      rcases hop with rfl | rfl <;> exact ⟨hdef.2.1, hdef.2.2 ▸ hi⟩
    have hrun := C23_clear_user_false hr hau.1 hau.2 hop
    rw [h] at hrun
    cases hdbg : env.dbg <;> rw [hdbg] at hrun <;> cases hrun

/-- C19: `set_encoded_user` -/
theorem C19_set_encoded_user (hr : Reach env st) (s : Str) :
    Rejects (.set_encoded_user s) env st ↔ ¬ Escaped isUpperHex isRegName s := by
  by_cases hs : s = []
  · subst hs
    exact ⟨fun h => absurd h (nouser_accepts hr (.inr rfl)), fun h => absurd .nil h⟩
  · exact C19_set_encoded_user_partial hr s fun _ _ hd => hs hd.1

/-- C19: the plain setters accept everything. -/
theorem C19_plain (hr : Reach env st) (s : Str) :
    ¬ Rejects (.set_user s) env st ∧ ¬ Rejects (.set_password s) env st ∧ ¬ Rejects (.set_host s) env st ∧
    ¬ Rejects (.set_query s) env st ∧ ¬ Rejects (.set_fragment s) env st := by
  have h1 : ¬ Rejects (.set_user s) env st := by
    by_cases hs : s = []
    · subst hs; exact nouser_accepts hr (.inl rfl)
    · exact (C19_plain_partial hr s fun _ _ hd => hs hd.1).1
  obtain ⟨c, hrep, -⟩ := hr.rep
  refine ⟨h1, ?_⟩
  rw [rejects_iff (op := .set_password s) hrep fun h => h,
    rejects_iff (op := .set_host s) hrep fun h => h, rejects_iff (op := .set_query s) hrep fun h => h,
    rejects_iff (op := .set_fragment s) hrep fun h => h]
  refine ⟨fun h => h ⟨_, rfl⟩, fun h => h ?_, fun h => h ⟨_, rfl⟩, fun h => h ⟨_, rfl⟩⟩
  by_cases hs : s = []
  · exact ⟨_, .inl ⟨hs, rfl⟩⟩
  · obtain ⟨t, ht, -⟩ := plain_hostname_of s
    exact ⟨_, .inr ⟨hs, t, _, ht, rfl⟩⟩

/-- C19: `set_encoded_userinfo` (what it does with the argument is another matter, see C30) -/
theorem C19_set_encoded_userinfo (hr : Reach env st) (s : Str) :
    Rejects (.set_encoded_userinfo s) env st ↔ ¬ Escaped isUpperHex isUserinfo s := by
  obtain ⟨c, hrep, -⟩ := hr.rep
  by_cases hd : s ≠ [] ∧ Escaped isUpperHex isUserinfo s
  · refine ⟨?_, fun h => absurd hd.2 h⟩
    rintro ⟨x, h⟩
    obtain ⟨u, hu⟩ := userinfoText_exists hd.2
    have hg := base_set_userinfo_of hrep hd.1 hu
    rw [show Base.set_encoded_userinfo s env st = _ from h] at hg
    cases hg with
    | full he => rcases he with he | he <;> cases he
  · rw [rejects_iff (op := .set_encoded_userinfo s) hrep fun h => hd h]
    refine not_congr ⟨?_, fun h => ?_⟩
    · rintro ⟨c', ⟨rfl, -⟩ | ⟨-, u, hu, -⟩⟩
      · exact .nil
      · exact userinfoText_valid hu
    · by_cases hs : s = []
      · exact ⟨_, .inl ⟨hs, rfl⟩⟩
      · exact absurd ⟨hs, h⟩ hd

/-- C19: `set_userinfo_part` -/
theorem C19_set_userinfo_part (hr : Reach env st) (s : Str) :
    Rejects (.set_userinfo_part s) env st ↔ ¬ (s = [] ∨ ∃ x, s = x ++ b!"@" ∧ Escaped isUpperHex isUserinfo x) := by
  by_cases hx : ∃ x, s = x ++ b!"@"
  · obtain ⟨x, rfl⟩ := hx
    have e : Rejects (.set_userinfo_part (x ++ b!"@")) env st ↔ Rejects (.set_encoded_userinfo x) env st := by
      unfold Rejects
      rw [show run (.set_userinfo_part (x ++ b!"@")) env st = run (.set_encoded_userinfo x) env st from C30_part x]
    rw [e, C19_set_encoded_userinfo hr]
    refine not_congr ⟨fun h => .inr ⟨x, rfl, h⟩, ?_⟩
    rintro (h | ⟨y, h, hy⟩)
    · simp at h
    · rw [List.append_cancel_right h]; exact hy
  · obtain ⟨c, hrep, -⟩ := hr.rep
    rw [rejects_iff (op := .set_userinfo_part s) hrep fun ⟨x, h, _⟩ => hx ⟨x, h⟩]
    refine not_congr ⟨?_, fun h => ?_⟩
    · rintro ⟨c', ⟨rfl | rfl, -⟩ | ⟨x, u, -, h, -⟩⟩
      · exact .inl rfl
      · exact absurd ⟨[], rfl⟩ hx
      · exact absurd ⟨x, h⟩ hx
    · rcases h with h | ⟨x, h, -⟩
      · exact ⟨_, .inl ⟨.inl h, rfl⟩⟩
      · exact absurd ⟨x, h⟩ hx

/-- C19: `set_password_part`. The first character is not checked, except in the argument ":". -/
theorem C19_set_password_part (hr : Reach env st) (s : Str) :
    Rejects (.set_password_part s) env st ↔ ¬ (s = [] ∨ s = b!":" ∨
      ∃ d p, s = d :: p ∧ p ≠ [] ∧ p.head? ≠ some c!":" ∧ Escaped isUpperHex isUserinfo p) := by
  obtain ⟨c, hrep, -⟩ := hr.rep
  by_cases hd : s = b!":" ∧ c.auth = none
  · obtain ⟨rfl, hn⟩ := hd
    refine ⟨?_, fun h => absurd (.inr (.inl rfl)) h⟩
    rintro ⟨x, h⟩
    have hg := base_set_password_colon hrep hn
    rw [show Base.set_password_part b!":" env st = _ from h] at hg
    cases hg with
    | full he => rcases he with he | he <;> cases he
  · rw [rejects_iff (op := .set_password_part s) hrep fun h => hd ⟨h.1, by simpa using h.2⟩]
    refine not_congr ⟨?_, ?_⟩
    · rintro ⟨c', ⟨h, -⟩ | ⟨h, -⟩ | ⟨d, p, h, h1, h2, h3, -⟩⟩
      · exact .inl h
      · exact .inr (.inl h)
      · exact .inr (.inr ⟨d, p, h, h1, h2, h3⟩)
    · rintro (h | h | ⟨d, p, h, h1, h2, h3⟩)
      · exact ⟨_, .inl ⟨h, rfl⟩⟩
      · exact ⟨_, .inr (.inl ⟨h, rfl⟩)⟩
      · exact ⟨_, .inr (.inr ⟨d, p, h, h1, h2, h3, rfl⟩)⟩

/-- C19: `set_port_part` -/
theorem C19_set_port_part (hr : Reach env st) (s : Str) :
    Rejects (.set_port_part s) env st ↔ ¬ (s = [] ∨ ∃ p, s = c!":" :: p ∧ p.all isDigit = true) := by
  obtain ⟨c, hrep, -⟩ := hr.rep
  by_cases hd : s = b!":" ∧ c.auth = none
  · obtain ⟨rfl, hn⟩ := hd
    refine ⟨?_, fun h => absurd (.inr ⟨[], rfl, rfl⟩) h⟩
    rintro ⟨x, h⟩
    have hg := base_set_port_colon hrep hn
    rw [show Base.set_port_part b!":" env st = _ from h] at hg
    cases hg with
    | full he => rcases he with he | he <;> cases he
  · rw [rejects_iff (op := .set_port_part s) hrep fun h => hd ⟨h.1, by simpa using h.2⟩]
    refine not_congr ⟨?_, ?_⟩
    · rintro ⟨c', ⟨h, -⟩ | ⟨p, h, h1, -⟩⟩
      · exact .inl h
      · exact .inr ⟨p, h, h1⟩
    · rintro (h | ⟨p, h, h1⟩)
      · exact ⟨_, .inl ⟨h, rfl⟩⟩
      · exact ⟨_, .inr ⟨p, h, h1, rfl⟩⟩

example : Reach env0 bare ∧ Rejects (.set_encoded_userinfo b!"a@b") env0 bare ∧ Rejects (.set_userinfo_part b!"a") env0 bare ∧
    Rejects (.set_password_part b!"x") env0 bare ∧ Rejects (.set_password_part b!"::") env0 bare ∧ Rejects (.set_port_part b!"8") env0 bare ∧
    returns (run (.set_password_part b!"xyz") env0 bare) = true :=
  ⟨bare_reach, ⟨_, rfl⟩, ⟨_, rfl⟩, ⟨_, rfl⟩, ⟨_, rfl⟩, ⟨_, rfl⟩, by decide +kernel⟩

/-- C20: without a user only the password is left of the userinfo. -/
theorem C20_user (hr : Reach env st) (h : Base.set_user [] env st = .ret () st') (dbg : Bool) :
    encoded_user (st'.obj dbg) = .ok [] ∧
    ∃ pw, password_part (st.obj false) = .ok pw ∧ userinfo_part (st'.obj dbg) = .ok (if pw = [] then [] else pw ++ b!"@") := by
  rcases nouser_cases (op := .set_user []) hr (.inl rfl) h with hc | ⟨rfl, -, hu⟩
  · exact C20_user_partial hr hc h dbg
  · obtain ⟨c, hrep, -⟩ := hr.rep
    rw [(hrep.reports _).has_userinfo] at hu
    have hn : c.userinfo = none := by simpa using hu
    have hb := hrep.reports dbg
    rw [hb.user, hb.userinfo_part]
    refine ⟨by simp [Components.user, hn], _, (hrep.reports false).password_part rfl, ?_⟩
    rcases c with ⟨_, _ | ⟨_ | u, h, pt⟩, _, _, _⟩
    · rfl
    · rfl
    · cases hn

end Url.Props
