import Verif.Proofs.Reach

/-!
Properties of the container `url`: C15, C16 and C45 for the container.

A state `st` of an object in an environment `env` (allocator, size limits, build mode) is `Reach`able if
modifying calls lead to it from a default constructed object. `op.Defective` lists the calls that are
excluded because they corrupt the object; `Verif/Props/Authority.lean` shows that each of them does.
The const members see `st.obj dbg`.
A theorem that excludes such calls by the hypothesis `Callable` has the suffix `_partial`; what is missing is
what these calls do, which is the subject of C30, C32, C46, C47 and `C23_set_user_false`.
-/

set_option linter.unusedSimpArgs false
set_option autoImplicit false

namespace Url.Props
open Url Spec

variable {env : Env} {st st' : St}

/-- An environment for the examples: assertions on, allocations succeed up to a million bytes. -/
def env0 : Env := { dbg := true, alloc := fun _ _ => true, maxSize := 1000000, sizeMax := 2 ^ 64 - 1, max_le := by decide }

/-- The text after a call. -/
def textOf (out : Out Unit) : Option Str :=
  match out with
  | .ret () st => (encoded_url (st.obj true)).toOption
  | _ => none

/-- The call can be made in the state `st`. -/
def Callable (env : Env) (st : St) (op : Op) : Prop :=
  ∀ info, Base.has_userinfo (st.obj env.dbg) = .ok info → ¬ op.Defective (has_authority (st.obj env.dbg)) info

/-- Calls that are not defective in any state. -/
def _root_.Url.Spec.Op.Fine (op : Op) : Prop := ∀ a i, ¬ op.Defective a i

theorem _root_.Url.Spec.Op.Fine.callable {op : Op} (h : Op.Fine op) : Callable env st op := fun _ _ => h _ _

/-- The state in which the sample URL is loaded. -/
def sampleSt : St :=
  match Base.set_encoded_url b!"http://us%20er:p:w@h%41.x:80/a//b;c?k=v&l#f%2F" env0 Base.empty with
  | .ret () st => st
  | _ => Base.empty

theorem sampleSt_eq : run (.set_encoded_url b!"http://us%20er:p:w@h%41.x:80/a//b;c?k=v&l#f%2F") env0 Base.empty =
    .ret () sampleSt := rfl

theorem sampleSt_reach : Reach env0 sampleSt :=
  .call (.set_encoded_url _) .empty (fun _ _ h => h) (.inl sampleSt_eq)

/-! ### The members of a state -/

/-- Every accessor of the container returns what the components prescribe (`password_part` only in a
release build, see C46). -/
structure BaseReports (o : Obj) (c : Components) : Prop where
  url : encoded_url o = .ok c.render
  size : size o = c.render.length
  origin : encoded_origin o = .ok c.origin
  scheme : scheme o = .ok (c.scheme.getD [])
  has_authority : has_authority o = c.auth.isSome
  authority : encoded_authority o = .ok c.authority
  has_userinfo : Base.has_userinfo o = .ok c.userinfo.isSome
  userinfo : Base.encoded_userinfo o = .ok (userinfoText c.userinfo)
  userinfo_part : userinfo_part o = .ok (withSuffix b!"@" (c.userinfo.map fun u => userinfoText (some u)))
  user : encoded_user o = .ok c.user
  password : Base.encoded_password o = .ok c.password
  password_part : o.dbg = false → password_part o = .ok (withPrefix b!":" (c.userinfo.bind (·.2)))
  host : encoded_host o = .ok c.host
  host_and_port : encoded_host_and_port o = .ok (c.host ++ withPrefix b!":" c.port)
  port : port o = .ok (c.port.getD [])
  port_part : port_part o = .ok (withPrefix b!":" c.port)
  path : encoded_path o = .ok c.path
  query : encoded_query o = .ok (c.query.getD [])
  query_part : query_part o = .ok (withPrefix b!"?" c.query)
  fragment : encoded_fragment o = .ok (c.fragment.getD [])
  fragment_part : fragment_part o = .ok (withPrefix b!"#" c.fragment)

theorem acc_password_part {o : Obj} {c : Components} (h : ObjRep o (compParts c)) (hd : o.dbg = false) :
    password_part o = .ok (withPrefix b!":" (c.userinfo.bind (·.2))) := by
  have hg : o.get id_password = .ok ((compParts c).getD id_password []) := h.get id_password
  unfold password_part
  rw [hg]
  obtain ⟨sc, a, p, q, f⟩ := c
  rcases a with _ | ⟨_ | ⟨u, _ | pw⟩, hst, pt⟩ <;>
    simp [compParts, authTexts, authParts, userParts, id_password, Components.userinfo, withPrefix, Obj.assert, hd, removeSuffix,
      bind, Except.bind, pure, Except.pure]

theorem baseReports {o : Obj} {c : Components} (h : ObjRep o (compParts c)) : BaseReports o c where
  url := acc_url h
  size := acc_size h
  origin := acc_origin h
  scheme := acc_scheme h
  has_authority := acc_has_authority h
  authority := acc_authority h
  has_userinfo := acc_base_has_userinfo h
  userinfo := acc_base_userinfo h
  userinfo_part := acc_userinfo_part h
  user := acc_user h
  password := acc_base_password h
  password_part := acc_password_part h
  host := acc_host h
  host_and_port := acc_host_and_port h
  port := acc_port h
  port_part := acc_port_part h
  path := acc_path h
  query := acc_query h
  query_part := acc_query_part h
  fragment := acc_fragment h
  fragment_part := acc_fragment_part h

theorem _root_.Url.Rep.reports {c : Components} (h : Rep env st c) (dbg : Bool) : BaseReports (st.obj dbg) c := baseReports (h.obj dbg)

/-- What is known when a call returned. -/
theorem returned {op : Op} (hr : Reach env st) (hc : Callable env st op) (h : run op env st = .ret () st') :
    ∃ c c', Rep env st c ∧ PartsOk c ∧ op.Effect c c' ∧ OpOk env op st c' st' := by
  obtain ⟨c, hrep, hp⟩ := hr.rep
  have ho := op_correct hrep op (callable hrep hc)
  rw [h] at ho
  cases ho with
  | ret c' _ he _ hok => exact ⟨c, c', hrep, hp, he, hok⟩

/-- C45 for the container: in every reachable state there are components of which every accessor - single
or joined - is the prescribed part. -/
theorem C45_container (hr : Reach env st) : ∃ c : Components, ∀ dbg, BaseReports (st.obj dbg) c := by
  obtain ⟨c, h, -⟩ := hr.rep
  exact ⟨c, h.reports⟩

example : Reach env0 sampleSt ∧ userinfo_part (sampleSt.obj true) = .ok b!"us%20er:p:w@" :=
  ⟨sampleSt_reach, by decide +kernel⟩

/-! ### C15 -/

theorem decode_pctEncode {e ok} (he : SetOf e ok) (s : Str) : decodeR (pctEncode ok s) = .ok s := by
  unfold decodeR
  rw [← encode_eq he, decode_eq, decodeRaw_encode he]

theorem pctEncode_ne {e ok} (he : SetOf e ok) {s : Str} (hs : s ≠ []) : pctEncode ok s ≠ [] :=
  encode_eq he s ▸ encode_nonempty he hs

/-- C15: `set_user` -/
theorem C15_set_user {s : Str} (hr : Reach env st) (hs : s ≠ []) (h : Base.set_user s env st = .ret () st') (dbg : Bool) :
    user (st'.obj dbg) = .ok s ∧ encoded_user (st'.obj dbg) = .ok (pctEncode isRegName s) := by
  obtain ⟨c, c', -, -, he, hok⟩ := returned (op := .set_user s) hr (fun _ _ hd => hs hd.1) h
  have he : c' = if s = [] then c.clearUser else c.withUser (pctEncode isRegName s) := he
  rw [if_neg hs] at he
  subst he
  have := (hok.rep.reports dbg).user
  refine ⟨?_, this⟩
  unfold user
  rw [this]
  exact decode_pctEncode setOf_regName s

/-- C15: `set_password` -/
theorem C15_set_password {s : Str} (hr : Reach env st) (hs : s ≠ []) (h : Base.set_password s env st = .ret () st') (dbg : Bool) :
    Base.password (st'.obj dbg) = .ok s ∧ Base.encoded_password (st'.obj dbg) = .ok (pctEncode isUserinfo s) := by
  obtain ⟨c, c', -, -, he, hok⟩ := returned (op := .set_password s) hr (fun _ _ hd => hd) h
  have he : c' = if s = [] then c.clearPassword else c.withPassword (pctEncode isUserinfo s) := he
  rw [if_neg hs] at he
  subst he
  have := (hok.rep.reports dbg).password
  refine ⟨?_, this⟩
  unfold Base.password
  rw [this]
  exact decode_pctEncode setOf_userinfo s

/-- C15: `set_host`. The stored text is the percent-encoding, except that an address is stored as it is. -/
theorem C15_set_host {s : Str} (hr : Reach env st) (hs : s ≠ []) (h : Base.set_host s env st = .ret () st') (dbg : Bool) :
    host (st'.obj dbg) = .ok s ∧
    ∃ txt, encoded_host (st'.obj dbg) = .ok txt ∧ PlainHost s txt (host_type (st'.obj dbg)) := by
  obtain ⟨c, c', -, -, he, hok⟩ := returned (op := .set_host s) hr (fun _ _ hd => hd) h
  have hk : HostAfter (.set_host s) c' st.pt.host st'.pt.host := hok.host
  rw [HostAfter, if_neg hs] at hk
  have hh := (hok.rep.reports dbg).host
  refine ⟨?_, _, hh, hk⟩
  have hget : (st'.obj dbg).get id_host = .ok c'.host := hh
  generalize hkk : st'.pt.host = k at hk
  have hkk : (st'.obj dbg).pt.host = k := hkk
  unfold host
  rw [hkk, hget, hh]
  generalize c'.host = txt at hk
  cases hk with
  | ipv4 => simp
  | literal => simp
  | name => simpa [bind, Except.bind] using decode_pctEncode setOf_regName s

/-- C15: `set_query` -/
theorem C15_set_query {s : Str} (hr : Reach env st) (h : Base.set_query s env st = .ret () st') (dbg : Bool) :
    query (st'.obj dbg) = .ok s ∧ encoded_query (st'.obj dbg) = .ok (pctEncode isQueryFrag s) := by
  obtain ⟨c, c', -, -, he, hok⟩ := returned (op := .set_query s) hr (fun _ _ hd => hd) h
  obtain rfl : c' = c.withQuery (pctEncode isQueryFrag s) := he
  have hq : ((c.withQuery (pctEncode isQueryFrag s)).query).getD [] = pctEncode isQueryFrag s := by
    simp only [Components.withQuery, present]
    split <;> simp_all
  have := (hok.rep.reports dbg).query
  rw [hq] at this
  refine ⟨?_, this⟩
  unfold query
  rw [this]
  exact decode_pctEncode setOf_query s

/-- C15: `set_fragment` -/
theorem C15_set_fragment {s : Str} (hr : Reach env st) (h : Base.set_fragment s env st = .ret () st') (dbg : Bool) :
    fragment (st'.obj dbg) = .ok s ∧ encoded_fragment (st'.obj dbg) = .ok (pctEncode isQueryFrag s) := by
  obtain ⟨c, c', -, -, he, hok⟩ := returned (op := .set_fragment s) hr (fun _ _ hd => hd) h
  obtain rfl : c' = c.withFragment (pctEncode isQueryFrag s) := he
  have hq : ((c.withFragment (pctEncode isQueryFrag s)).fragment).getD [] = pctEncode isQueryFrag s := by
    simp only [Components.withFragment, present]
    split <;> simp_all
  have := (hok.rep.reports dbg).fragment
  rw [hq] at this
  refine ⟨?_, this⟩
  unfold fragment
  rw [this]
  exact decode_pctEncode setOf_query s

example : textOf (Base.set_user b!"a:b@" env0 sampleSt) = some b!"http://a%3Ab%40:p:w@h%41.x:80/a//b;c?k=v&l#f%2F" ∧
    textOf (Base.set_password b!"/" env0 sampleSt) = some b!"http://us%20er:%2F@h%41.x:80/a//b;c?k=v&l#f%2F" ∧
    textOf (Base.set_host b!"[::1]" env0 sampleSt) = some b!"http://us%20er:p:w@[::1]:80/a//b;c?k=v&l#f%2F" ∧
    textOf (Base.set_host b!"[::1" env0 sampleSt) = some b!"http://us%20er:p:w@%5B%3A%3A1:80/a//b;c?k=v&l#f%2F" ∧
    textOf (Base.set_query b!"#" env0 sampleSt) = some b!"http://us%20er:p:w@h%41.x:80/a//b;c?%23#f%2F" ∧
    textOf (Base.set_fragment b!"#" env0 sampleSt) = some b!"http://us%20er:p:w@h%41.x:80/a//b;c?k=v&l#%23" := by decide +kernel

/-! ### C16 -/

/-- C16: `set_scheme` -/
theorem C16_set_scheme {s : Str} (hr : Reach env st) (h : Base.set_scheme s env st = .ret () st') (dbg : Bool) :
    scheme (st'.obj dbg) = .ok s := by
  obtain ⟨c, c', -, -, ⟨-, rfl⟩, hok⟩ := returned (op := .set_scheme s) hr (fun _ _ hd => hd) h
  rw [(hok.rep.reports dbg).scheme]
  simp only [Components.withScheme, present]
  split <;> simp_all

/-- C16: `set_encoded_user` -/
theorem C16_set_encoded_user_partial {s : Str} (hr : Reach env st) (hc : Callable env st (.set_encoded_user s))
    (h : Base.set_encoded_user s env st = .ret () st') (dbg : Bool) : encoded_user (st'.obj dbg) = .ok s := by
  obtain ⟨c, c', -, -, ⟨-, rfl⟩, hok⟩ := returned (op := .set_encoded_user s) hr hc h
  rw [(hok.rep.reports dbg).user]
  split
  · rename_i hs
    subst hs
    rcases c with ⟨_, _ | ⟨_ | ⟨u, _ | p⟩, _, _⟩, _, _, _⟩ <;> rfl
  · rfl

/-- C16: `set_encoded_password` -/
theorem C16_set_encoded_password {s : Str} (hr : Reach env st)
    (h : Base.set_encoded_password s env st = .ret () st') (dbg : Bool) : Base.encoded_password (st'.obj dbg) = .ok s := by
  obtain ⟨c, c', -, -, ⟨-, -, rfl⟩, hok⟩ := returned (op := .set_encoded_password s) hr (fun _ _ hd => hd) h
  rw [(hok.rep.reports dbg).password]
  split
  · rename_i hs
    subst hs
    rcases c with ⟨_, _ | ⟨_ | ⟨u, p⟩, _, _⟩, _, _, _⟩
    · rfl
    · rfl
    · simp only [Components.clearPassword, Components.withAuth, Components.password, Components.userinfo, Option.map_some, Option.bind_some]
      split <;> simp_all
  · rfl

/-- C16: `set_encoded_host` -/
theorem C16_set_encoded_host {s : Str} (hr : Reach env st)
    (h : Base.set_encoded_host s env st = .ret () st') (dbg : Bool) : encoded_host (st'.obj dbg) = .ok s := by
  obtain ⟨c, c', -, -, ⟨-, rfl⟩, hok⟩ := returned (op := .set_encoded_host s) hr (fun _ _ hd => hd) h
  rw [(hok.rep.reports dbg).host]
  split
  · rename_i hs
    subst hs
    rcases c with ⟨_, _ | ⟨u, _, p⟩, _, _, _⟩
    · rfl
    · simp only [Components.clearHost, Components.withAuth, Components.host]
      split
      · rename_i h; split at h <;> simp_all
        rw [← h]
      · rfl
  · rfl

/-- C16: `set_port` -/
theorem C16_set_port {s : Str} (hr : Reach env st) (h : Base.set_port s env st = .ret () st') (dbg : Bool) :
    port (st'.obj dbg) = .ok s := by
  obtain ⟨c, c', -, -, ⟨-, rfl⟩, hok⟩ := returned (op := .set_port s) hr (fun _ _ hd => hd) h
  rw [(hok.rep.reports dbg).port]
  split
  · rename_i hs
    subst hs
    rcases c with ⟨_, _ | ⟨u, _, p⟩, _, _, _⟩
    · rfl
    · simp only [Components.clearPort, Components.withAuth, Components.port]
      split <;> rfl
  · rfl

/-- C16: `set_encoded_path` -/
theorem C16_set_encoded_path {s : Str} (hr : Reach env st) (h : Base.set_encoded_path s env st = .ret () st') (dbg : Bool) :
    encoded_path (st'.obj dbg) = .ok s := by
  obtain ⟨c, c', -, -, ⟨-, rfl⟩, hok⟩ := returned (op := .set_encoded_path s) hr (fun _ _ hd => hd) h
  exact (hok.rep.reports dbg).path

/-- C16: `set_encoded_query` -/
theorem C16_set_encoded_query {s : Str} (hr : Reach env st) (h : Base.set_encoded_query s env st = .ret () st') (dbg : Bool) :
    encoded_query (st'.obj dbg) = .ok s := by
  obtain ⟨c, c', -, -, ⟨-, rfl⟩, hok⟩ := returned (op := .set_encoded_query s) hr (fun _ _ hd => hd) h
  rw [(hok.rep.reports dbg).query]
  simp only [Components.withQuery, present]
  split <;> simp_all

/-- C16: `set_encoded_fragment` -/
theorem C16_set_encoded_fragment {s : Str} (hr : Reach env st) (h : Base.set_encoded_fragment s env st = .ret () st') (dbg : Bool) :
    encoded_fragment (st'.obj dbg) = .ok s := by
  obtain ⟨c, c', -, -, ⟨-, rfl⟩, hok⟩ := returned (op := .set_encoded_fragment s) hr (fun _ _ hd => hd) h
  rw [(hok.rep.reports dbg).fragment]
  simp only [Components.withFragment, present]
  split <;> simp_all

/-- C16: the setters that take the delimiter along with the text -/
theorem C16_set_query_part {s : Str} (hr : Reach env st) (h : Base.set_query_part s env st = .ret () st') (dbg : Bool) :
    query_part (st'.obj dbg) = .ok s := by
  obtain ⟨c, c', -, -, he, hok⟩ := returned (op := .set_query_part s) hr (fun _ _ hd => hd) h
  rw [(hok.rep.reports dbg).query_part]
  rcases he with ⟨rfl, rfl⟩ | ⟨q, rfl, -, rfl⟩ <;> rfl

theorem C16_set_fragment_part {s : Str} (hr : Reach env st) (h : Base.set_fragment_part s env st = .ret () st') (dbg : Bool) :
    fragment_part (st'.obj dbg) = .ok s := by
  obtain ⟨c, c', -, -, he, hok⟩ := returned (op := .set_fragment_part s) hr (fun _ _ hd => hd) h
  rw [(hok.rep.reports dbg).fragment_part]
  rcases he with ⟨rfl, rfl⟩ | ⟨q, rfl, -, rfl⟩ <;> rfl

/-- C16: `set_encoded_url` -/
theorem C16_set_encoded_url {s : Str} (hr : Reach env st) (h : Base.set_encoded_url s env st = .ret () st') (dbg : Bool) :
    encoded_url (st'.obj dbg) = .ok s := by
  obtain ⟨c, c', -, -, he, hok⟩ := returned (op := .set_encoded_url s) hr (fun _ _ hd => hd) h
  rw [(hok.rep.reports dbg).url]
  rcases he with ⟨rfl, rfl⟩ | ⟨-, -, rfl⟩ <;> rfl

example : textOf (Base.set_scheme b!"ws" env0 sampleSt) = some b!"ws://us%20er:p:w@h%41.x:80/a//b;c?k=v&l#f%2F" ∧
    textOf (Base.set_encoded_user [] env0 sampleSt) = some b!"http://:p:w@h%41.x:80/a//b;c?k=v&l#f%2F" ∧
    textOf (Base.set_encoded_password b!"%20" env0 sampleSt) = some b!"http://us%20er:%20@h%41.x:80/a//b;c?k=v&l#f%2F" ∧
    textOf (Base.set_encoded_host b!"1.2.3.4" env0 sampleSt) = some b!"http://us%20er:p:w@1.2.3.4:80/a//b;c?k=v&l#f%2F" ∧
    textOf (Base.set_port [] env0 sampleSt) = some b!"http://us%20er:p:w@h%41.x/a//b;c?k=v&l#f%2F" ∧
    textOf (Base.set_encoded_path b!"//" env0 sampleSt) = some b!"http://us%20er:p:w@h%41.x:80//?k=v&l#f%2F" ∧
    textOf (Base.set_encoded_query b!"x" env0 Base.empty) = some b!"?x" ∧
    textOf (Base.set_fragment_part b!"#" env0 Base.empty) = some b!"#" := by decide +kernel

end Url.Props
