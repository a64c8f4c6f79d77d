import Verif.Props.Combine

/-!
C65: copying components from one url to another.
-/

set_option linter.unusedSimpArgs false
set_option autoImplicit false

namespace Url.Props
open Url Spec

variable {env env' : Env} {src st st' : St}

/-- The argument of the call is the text of a component of `c`. -/
inductive Has (c : Components) : Op → Prop
  | url : Has c (.set_encoded_url c.render)
  | origin : Has c (.set_encoded_origin c.origin)
  | scheme : Has c (.set_scheme (c.scheme.getD []))
  | authority : Has c (.set_encoded_authority c.authority)
  | userinfo : Has c (.set_encoded_userinfo (userinfoText c.userinfo))
  | userinfo_part : Has c (.set_userinfo_part (withSuffix b!"@" (c.userinfo.map fun u => userinfoText (some u))))
  | user : Has c (.set_encoded_user c.user)
  | password : Has c (.set_encoded_password c.password)
  | password_part : Has c (.set_password_part (withPrefix b!":" (c.userinfo.bind (·.2))))
  | host : Has c (.set_encoded_host c.host)
  | port : Has c (.set_port (c.port.getD []))
  | port_part : Has c (.set_port_part (withPrefix b!":" c.port))
  | path : Has c (.set_encoded_path c.path)
  | query : Has c (.set_encoded_query (c.query.getD []))
  | query_part : Has c (.set_query_part (withPrefix b!"?" c.query))
  | fragment : Has c (.set_encoded_fragment (c.fragment.getD []))
  | fragment_part : Has c (.set_fragment_part (withPrefix b!"#" c.fragment))

/-- The argument of the call is (a copy of) what the getter of the same name returns for a view. -/
inductive Shown (v : View) : Op → Prop
  | url {s : Str} : encoded_url (v.obj false) = .ok s → Shown v (.set_encoded_url s)
  | origin {s : Str} : encoded_origin (v.obj false) = .ok s → Shown v (.set_encoded_origin s)
  | scheme {s : Str} : scheme (v.obj false) = .ok s → Shown v (.set_scheme s)
  | authority {s : Str} : encoded_authority (v.obj false) = .ok s → Shown v (.set_encoded_authority s)
  | userinfo {s : Str} : View.encoded_userinfo (v.obj false) = .ok s → Shown v (.set_encoded_userinfo s)
  | userinfo_part {s : Str} : userinfo_part (v.obj false) = .ok s → Shown v (.set_userinfo_part s)
  | user {s : Str} : encoded_user (v.obj false) = .ok s → Shown v (.set_encoded_user s)
  | password {s : Str} : View.encoded_password (v.obj false) = .ok s → Shown v (.set_encoded_password s)
  | host {s : Str} : encoded_host (v.obj false) = .ok s → Shown v (.set_encoded_host s)
  | port {s : Str} : port (v.obj false) = .ok s → Shown v (.set_port s)
  | port_part {s : Str} : port_part (v.obj false) = .ok s → Shown v (.set_port_part s)
  | path {s : Str} : encoded_path (v.obj false) = .ok s → Shown v (.set_encoded_path s)
  | query {s : Str} : encoded_query (v.obj false) = .ok s → Shown v (.set_encoded_query s)
  | query_part {s : Str} : query_part (v.obj false) = .ok s → Shown v (.set_query_part s)
  | fragment {s : Str} : encoded_fragment (v.obj false) = .ok s → Shown v (.set_encoded_fragment s)
  | fragment_part {s : Str} : fragment_part (v.obj false) = .ok s → Shown v (.set_fragment_part s)

theorem Own.has {op : Op} {c : Components} (hrep : Rep env src c) (h : Own src op) : Has c op := by
  have r := hrep.reports false
  cases h with
  | url h => rw [r.url, Except.ok.injEq] at h; subst h; exact .url
  | origin h => rw [r.origin, Except.ok.injEq] at h; subst h; exact .origin
  | scheme h => rw [r.scheme, Except.ok.injEq] at h; subst h; exact .scheme
  | authority h => rw [r.authority, Except.ok.injEq] at h; subst h; exact .authority
  | userinfo h => rw [r.userinfo, Except.ok.injEq] at h; subst h; exact .userinfo
  | userinfo_part h => rw [r.userinfo_part, Except.ok.injEq] at h; subst h; exact .userinfo_part
  | user h => rw [r.user, Except.ok.injEq] at h; subst h; exact .user
  | password h => rw [r.password, Except.ok.injEq] at h; subst h; exact .password
  | password_part h => rw [r.password_part rfl, Except.ok.injEq] at h; subst h; exact .password_part
  | host h => rw [r.host, Except.ok.injEq] at h; subst h; exact .host
  | port h => rw [r.port, Except.ok.injEq] at h; subst h; exact .port
  | port_part h => rw [r.port_part, Except.ok.injEq] at h; subst h; exact .port_part
  | path h => rw [r.path, Except.ok.injEq] at h; subst h; exact .path
  | query h => rw [r.query, Except.ok.injEq] at h; subst h; exact .query
  | query_part h => rw [r.query_part, Except.ok.injEq] at h; subst h; exact .query_part
  | fragment h => rw [r.fragment, Except.ok.injEq] at h; subst h; exact .fragment
  | fragment_part h => rw [r.fragment_part, Except.ok.injEq] at h; subst h; exact .fragment_part

theorem Shown.has {op : Op} {c : Components} {v : View} (hv : ViewRep v c) (h : Shown v op) : Has c op := by
  have r := viewReports (hv.obj false)
  cases h with
  | url h => rw [r.url, Except.ok.injEq] at h; subst h; exact .url
  | origin h => rw [r.origin, Except.ok.injEq] at h; subst h; exact .origin
  | scheme h => rw [r.scheme, Except.ok.injEq] at h; subst h; exact .scheme
  | authority h => rw [r.authority, Except.ok.injEq] at h; subst h; exact .authority
  | userinfo h => rw [r.userinfo, Except.ok.injEq] at h; subst h; exact .userinfo
  | userinfo_part h => rw [r.userinfo_part, Except.ok.injEq] at h; subst h; exact .userinfo_part
  | user h => rw [r.user, Except.ok.injEq] at h; subst h; exact .user
  | password h => rw [r.password, Except.ok.injEq] at h; subst h; exact .password
  | host h => rw [r.host, Except.ok.injEq] at h; subst h; exact .host
  | port h => rw [r.port, Except.ok.injEq] at h; subst h; exact .port
  | port_part h => rw [r.port_part, Except.ok.injEq] at h; subst h; exact .port_part
  | path h => rw [r.path, Except.ok.injEq] at h; subst h; exact .path
  | query h => rw [r.query, Except.ok.injEq] at h; subst h; exact .query
  | query_part h => rw [r.query_part, Except.ok.injEq] at h; subst h; exact .query_part
  | fragment h => rw [r.fragment, Except.ok.injEq] at h; subst h; exact .fragment
  | fragment_part h => rw [r.fragment_part, Except.ok.injEq] at h; subst h; exact .fragment_part

theorem has_rejected {op : Op} {c : Components} (hp : PartsOk c) (hr : Reach env st) (hc : Callable env st op) (ho : Has c op) :
    Rejects op env st ↔ Unfit st op := by
  obtain ⟨ct, hrep, hpt⟩ := hr.rep
  have hd := callable hrep hc
  rw [rejects_iff hrep hd]
  have rt := hrep.reports false
  have ne : ∀ {c' : Components}, op.Effect ct c' → ((¬ ∃ c', op.Effect ct c') ↔ False) := fun h => ⟨fun hn => hn ⟨_, h⟩, False.elim⟩
  cases ho with
  | url =>
    simp only [Unfit, Op.Effect]
    refine not_congr ?_
    rw [C01_accepts_iff]
    constructor
    · rintro ⟨c', ⟨h, -⟩ | ⟨-, h1, h2⟩⟩
      · rw [h]; exact ⟨⟨none, none, [], none, none⟩, ⟨by simp, by simp, by simp [PathOk], by simp, by simp⟩, rfl⟩
      · exact ⟨c', h1, h2⟩
    · rintro ⟨c', h1, h2⟩
      by_cases hs : c.render = []
      · exact ⟨_, .inl ⟨hs, rfl⟩⟩
      · exact ⟨c', .inr ⟨hs, h1, h2⟩⟩
  | origin =>
    simp only [Unfit]
    by_cases hs : c.origin = []
    · exact ne (.inl ⟨hs, rfl⟩)
    · by_cases ht : ∃ sch a, OriginText sch a c.origin
      · obtain ⟨sch, a, ht⟩ := ht
        exact ne (.inr ⟨sch, a, ht, rfl⟩)
      · exact absurd ⟨hs, ht⟩ hd
  | scheme =>
    refine ne (c' := ct.withScheme (c.scheme.getD [])) ⟨?_, rfl⟩
    rcases hsc : c.scheme with _ | s
    · exact .inl rfl
    · exact .inr (hp.scheme s hsc)
  | authority =>
    simp only [Unfit]
    by_cases hs : c.authority = []
    · exact ne (.inl ⟨hs, rfl⟩)
    · rcases ha : c.auth with _ | a
      · exact absurd (by simp [Components.authority, ha]) hs
      · exact ne (.inr ⟨hs, a, ⟨hp.auth a ha, by simp [Components.authority, ha]⟩, rfl⟩)
  | userinfo =>
    simp only [Unfit]
    by_cases hs : userinfoText c.userinfo = []
    · exact ne (.inl ⟨hs, rfl⟩)
    · rcases c with ⟨sc, _ | ⟨_ | ⟨u, w⟩, hh, pt⟩, pa, qu, f⟩
      · exact absurd rfl hs
      · exact absurd rfl hs
      · have h1 := (hp.auth _ rfl).1 u w rfl
        exact ne (.inr ⟨hs, (u, w), ⟨h1.1, h1.2, rfl⟩, rfl⟩)
  | userinfo_part =>
    simp only [Unfit]
    rcases c with ⟨sc, _ | ⟨_ | ⟨u, w⟩, hh, pt⟩, pa, qu, f⟩
    · exact ne (.inl ⟨.inl (by rfl), rfl⟩)
    · exact ne (.inl ⟨.inl (by rfl), rfl⟩)
    · by_cases hs : userinfoText (some (u, w)) = []
      · refine ne (.inl ⟨.inr ?_, rfl⟩)
        simp [Components.userinfo, withSuffix, hs]
      · have h1 := (hp.auth _ rfl).1 u w rfl
        refine ne (.inr ⟨userinfoText (some (u, w)), (u, w), hs, by rfl, ⟨h1.1, h1.2, rfl⟩, rfl⟩)
  | user =>
    refine ne ⟨?_, rfl⟩
    rcases c with ⟨sc, _ | ⟨_ | ⟨u, w⟩, hh, pt⟩, pa, qu, f⟩
    · exact .nil
    · exact .nil
    · exact ((hp.auth _ rfl).1 u w rfl).1
  | password =>
    simp only [Unfit, Op.Effect]
    have : Escaped isUpperHex isUserinfo c.password := by
      rcases c with ⟨sc, _ | ⟨_ | ⟨u, _ | w⟩, hh, pt⟩, pa, qu, f⟩
      · exact .nil
      · exact .nil
      · exact .nil
      · exact ((hp.auth _ rfl).1 u _ rfl).2 w rfl
    constructor
    · intro hn
      by_cases hh : c.password.head? = some c!":"
      · exact hh
      · exact absurd ⟨_, hh, this, rfl⟩ hn
    · rintro h ⟨_, h1, -⟩
      exact h1 h
  | password_part =>
    simp only [Unfit, Op.Effect]
    rcases c with ⟨sc, _ | ⟨_ | ⟨u, _ | _ | ⟨d, w⟩⟩, hh, pt⟩, pa, qu, f⟩
    iterate 3 exact ⟨fun hn => absurd ⟨_, .inl ⟨rfl, rfl⟩⟩ hn, by rintro ⟨p, e⟩; simp [Components.userinfo, withPrefix] at e⟩
    · exact ⟨fun hn => absurd ⟨_, .inr (.inl ⟨rfl, rfl⟩)⟩ hn, by rintro ⟨p, e⟩; simp [Components.userinfo, withPrefix] at e⟩
    · have hesc := ((hp.auth _ rfl).1 u _ rfl).2 (d :: w) rfl
      constructor
      · intro hn
        by_cases hd : d = c!":"
        · exact ⟨w, by simp [Components.userinfo, withPrefix, hd]⟩
        · exact absurd ⟨_, .inr (.inr ⟨c!":", d :: w, rfl, by simp, by simpa using hd, hesc, rfl⟩)⟩ hn
      · rintro ⟨p, e⟩ ⟨c', ⟨e', -⟩ | ⟨e', -⟩ | ⟨x, y, e', -, h2, -⟩⟩
        · simp [Components.userinfo, withPrefix] at e'
        · simp [Components.userinfo, withPrefix] at e'
        · simp [Components.userinfo, withPrefix] at e e'
          rw [← e'.2] at h2
          exact h2 (by simp [e.1])
  | host =>
    refine ne ⟨?_, rfl⟩
    rcases c with ⟨sc, _ | ⟨u, hh, pt⟩, pa, qu, f⟩
    · exact .inr .nil
    · exact (hp.auth _ rfl).2.1
  | port =>
    refine ne ⟨?_, rfl⟩
    rcases c with ⟨sc, _ | ⟨u, hh, _ | pt⟩, pa, qu, f⟩
    · rfl
    · rfl
    · exact (hp.auth _ rfl).2.2 pt rfl
  | port_part =>
    rcases c with ⟨sc, _ | ⟨u, hh, _ | pt⟩, pa, qu, f⟩
    · exact ne (.inl ⟨rfl, rfl⟩)
    · exact ne (.inl ⟨rfl, rfl⟩)
    · exact ne (.inr ⟨pt, rfl, (hp.auth _ rfl).2.2 pt rfl, rfl⟩)
  | path =>
    have e : (!(ct.scheme.getD []).isEmpty) = ct.scheme.isSome := by
      rcases hsc : ct.scheme with _ | _ | _
      · rfl
      · obtain ⟨_, _, e, _⟩ := hpt.scheme _ hsc
        cases e
      · rfl
    simp only [Unfit, Op.Effect, rt.scheme, Except.ok.injEq, forall_eq', e, rt.has_authority]
    refine not_congr ⟨?_, fun h => ⟨_, h, rfl⟩⟩
    rintro ⟨_, h, -⟩
    exact h
  | query =>
    refine ne ⟨?_, rfl⟩
    rcases hq : c.query with _ | q
    · exact .nil
    · exact hp.query q hq
  | query_part =>
    rcases c with ⟨sc, a, pa, _ | qu, f⟩
    · exact ne (.inl ⟨rfl, rfl⟩)
    · exact ne (.inr ⟨qu, rfl, hp.query qu rfl, rfl⟩)
  | fragment =>
    refine ne ⟨?_, rfl⟩
    rcases hq : c.fragment with _ | q
    · exact .nil
    · exact hp.fragment q hq
  | fragment_part =>
    rcases c with ⟨sc, a, pa, qu, _ | f⟩
    · exact ne (.inl ⟨rfl, rfl⟩)
    · exact ne (.inr ⟨f, rfl, hp.fragment f rfl, rfl⟩)

/-- C65: what a getter of one url returns is accepted by the setter of the same name of any other url, whatever the
two went through - but for a password that starts with a colon, a path that does not fit where it comes, and a text
that is not a URI-reference. -/
theorem C65_rejected {op : Op} (hs : Reach env' src) (hr : Reach env st) (hc : Callable env st op) (ho : Own src op) :
    Rejects op env st ↔ Unfit st op := by
  obtain ⟨c, hreps, hp⟩ := hs.rep
  exact has_rejected hp hr hc (ho.has hreps)

/-- C65: the same for what the getters of a view return. -/
theorem C65_view {op : Op} {s : Str} {v : View} (hv : View.make s = .ret v) (hr : Reach env st) (hc : Callable env st op) (ho : Shown v op) :
    Rejects op env st ↔ Unfit st op := by
  obtain ⟨c, hval, -, hvr⟩ := make_inv hv
  exact has_rejected (.of_valid hval) hr hc (ho.has hvr)

/-- The calls with a getter of the same name. -/
inductive Paired : Op → Prop
  | url (s : Str) : Paired (.set_encoded_url s)
  | origin (s : Str) : Paired (.set_encoded_origin s)
  | scheme (s : Str) : Paired (.set_scheme s)
  | authority (s : Str) : Paired (.set_encoded_authority s)
  | userinfo (s : Str) : Paired (.set_encoded_userinfo s)
  | userinfo_part (s : Str) : Paired (.set_userinfo_part s)
  | user (s : Str) : Paired (.set_encoded_user s)
  | password (s : Str) : Paired (.set_encoded_password s)
  | password_part {s : Str} : (s = [] ∨ ∃ p, s = c!":" :: p) → Paired (.set_password_part s)
  | host (s : Str) : Paired (.set_encoded_host s)
  | port (s : Str) : Paired (.set_port s)
  | port_part (s : Str) : Paired (.set_port_part s)
  | path (s : Str) : Paired (.set_encoded_path s)
  | query (s : Str) : Paired (.set_encoded_query s)
  | query_part (s : Str) : Paired (.set_query_part s)
  | fragment (s : Str) : Paired (.set_encoded_fragment s)
  | fragment_part (s : Str) : Paired (.set_fragment_part s)

theorem Own.paired {op : Op} (hs : Reach env src) (h : Own src op) : Paired op := by
  cases h with
  | password_part h =>
    obtain ⟨c, hrep, -⟩ := hs.rep
    rw [(hrep.reports false).password_part rfl, Except.ok.injEq] at h
    refine .password_part ?_
    rw [← h]
    rcases c.userinfo.bind (·.2) with _ | w
    · exact .inl rfl
    · exact .inr ⟨w, rfl⟩
  | url => exact .url _
  | origin => exact .origin _
  | scheme => exact .scheme _
  | authority => exact .authority _
  | userinfo => exact .userinfo _
  | userinfo_part => exact .userinfo_part _
  | user => exact .user _
  | password => exact .password _
  | host => exact .host _
  | port => exact .port _
  | port_part => exact .port_part _
  | path => exact .path _
  | query => exact .query _
  | query_part => exact .query_part _
  | fragment => exact .fragment _
  | fragment_part => exact .fragment_part _

theorem Shown.paired {op : Op} {v : View} (h : Shown v op) : Paired op := by
  cases h with
  | url => exact .url _
  | origin => exact .origin _
  | scheme => exact .scheme _
  | authority => exact .authority _
  | userinfo => exact .userinfo _
  | userinfo_part => exact .userinfo_part _
  | user => exact .user _
  | password => exact .password _
  | host => exact .host _
  | port => exact .port _
  | port_part => exact .port_part _
  | path => exact .path _
  | query => exact .query _
  | query_part => exact .query_part _
  | fragment => exact .fragment _
  | fragment_part => exact .fragment_part _

theorem paired_reads {op : Op} (hr : Reach env st) (hc : Callable env st op) (ho : Paired op) (h : run op env st = .ret () st') :
    Own st' op ↔ op ≠ .set_userinfo_part b!"@" := by
  obtain ⟨c, c', hrep, hp, he, hok⟩ := returned hr hc h
  have hd := callable hrep hc
  have r := hok.rep.reports false
  have yes : Own st' op → op ≠ .set_userinfo_part b!"@" → (Own st' op ↔ op ≠ .set_userinfo_part b!"@") := fun a b => ⟨fun _ => b, fun _ => a⟩
  cases ho with
  | url s =>
    refine yes (.url (r.url.trans ?_)) (by simp)
    rcases he with ⟨rfl, rfl⟩ | ⟨-, -, rfl⟩ <;> rfl
  | origin s =>
    refine yes (.origin (r.origin.trans ?_)) (by simp)
    rcases he with ⟨rfl, rfl⟩ | ⟨sch, a, ⟨-, -, rfl⟩, rfl⟩ <;> simp [Components.origin, withPrefix, withSuffix]
  | scheme s =>
    refine yes (.scheme (r.scheme.trans ?_)) (by simp)
    obtain ⟨-, rfl⟩ := he
    cases s <;> rfl
  | authority s =>
    refine yes (.authority (r.authority.trans ?_)) (by simp)
    rcases he with ⟨rfl, rfl⟩ | ⟨-, a, ⟨-, rfl⟩, rfl⟩ <;> simp [Components.authority, Components.withAuth]
  | userinfo s =>
    refine yes (.userinfo (r.userinfo.trans ?_)) (by simp)
    rcases he with ⟨rfl, rfl⟩ | ⟨-, u, ⟨-, -, rfl⟩, rfl⟩
    · rcases c with ⟨sc, _ | ⟨_ | ⟨u, w⟩, _ | ⟨b, hh⟩, _ | pt⟩, pa, qu, f⟩ <;> rfl
    · rcases c with ⟨sc, _ | ⟨_ | ⟨u, w⟩, hh, pt⟩, pa, qu, f⟩ <;> rfl
  | userinfo_part s =>
    rcases he with ⟨hs, rfl⟩ | ⟨x, u, h0, rfl, hu, rfl⟩
    · have e : userinfo_part (st'.obj false) = .ok [] := by
        rw [r.userinfo_part]
        rcases c with ⟨sc, _ | ⟨_ | ⟨u, w⟩, _ | ⟨b, hh⟩, _ | pt⟩, pa, qu, f⟩ <;> rfl
      rcases hs with rfl | rfl
      · exact yes (.userinfo_part e) (by simp)
      · refine ⟨fun h => ?_, fun h => absurd rfl h⟩
        cases h with
        | userinfo_part h => rw [e] at h; cases h
    · exact absurd ⟨x, rfl, h0, by rw [← hu.2.2]; exact userinfo_escaped hu.1 hu.2.1⟩ hd
  | user s =>
    refine yes (.user (r.user.trans ?_)) (by simp)
    obtain ⟨-, rfl⟩ := he
    rcases s with _ | ⟨x, s⟩
    · rcases c with ⟨sc, _ | ⟨_ | ⟨u, _ | w⟩, _ | ⟨b, hh⟩, _ | pt⟩, pa, qu, f⟩ <;> rfl
    · rcases c with ⟨sc, _ | ⟨_ | ⟨u, w⟩, hh, pt⟩, pa, qu, f⟩ <;> rfl
  | password s =>
    refine yes (.password (r.password.trans ?_)) (by simp)
    obtain ⟨-, -, rfl⟩ := he
    rcases s with _ | ⟨x, s⟩
    · rcases c with ⟨sc, _ | ⟨_ | ⟨_ | ⟨y, u⟩, _ | w⟩, _ | ⟨b, hh⟩, _ | pt⟩, pa, qu, f⟩ <;> rfl
    · rcases c with ⟨sc, _ | ⟨_ | ⟨u, w⟩, hh, pt⟩, pa, qu, f⟩ <;> rfl
  | @password_part s hpp =>
    refine yes (.password_part ((r.password_part rfl).trans ?_)) (by simp)
    have hc : ∀ d p, s = d :: p → d = c!":" := by
      intro d p e
      rcases hpp with h | ⟨q, h⟩ <;> rw [h] at e <;> cases e
      rfl
    rcases he with ⟨rfl, rfl⟩ | ⟨rfl, rfl⟩ | ⟨d, p, rfl, h0, -, -, rfl⟩
    · rcases c with ⟨sc, _ | ⟨_ | ⟨_ | ⟨y, u⟩, _ | w⟩, _ | ⟨b, hh⟩, _ | pt⟩, pa, qu, f⟩ <;> rfl
    · rcases c with ⟨sc, _ | ⟨_ | ⟨u, w⟩, hh, pt⟩, pa, qu, f⟩ <;> rfl
    · rw [hc d p rfl]
      rcases c with ⟨sc, _ | ⟨_ | ⟨u, w⟩, hh, pt⟩, pa, qu, f⟩ <;> rfl
  | host s =>
    refine yes (.host (r.host.trans ?_)) (by simp)
    obtain ⟨-, rfl⟩ := he
    rcases s with _ | ⟨x, s⟩
    · rcases c with ⟨sc, _ | ⟨_ | ⟨u, w⟩, _ | ⟨b, hh⟩, _ | pt⟩, pa, qu, f⟩ <;> rfl
    · rcases c with ⟨sc, _ | ⟨_ | ⟨u, w⟩, hh, pt⟩, pa, qu, f⟩ <;> rfl
  | port s =>
    refine yes (.port (r.port.trans ?_)) (by simp)
    obtain ⟨-, rfl⟩ := he
    rcases s with _ | ⟨x, s⟩
    · rcases c with ⟨sc, _ | ⟨_ | ⟨u, w⟩, _ | ⟨b, hh⟩, _ | pt⟩, pa, qu, f⟩ <;> rfl
    · rcases c with ⟨sc, _ | ⟨_ | ⟨u, w⟩, hh, pt⟩, pa, qu, f⟩ <;> rfl
  | port_part s =>
    refine yes (.port_part (r.port_part.trans ?_)) (by simp)
    rcases he with ⟨rfl, rfl⟩ | ⟨p, rfl, -, rfl⟩
    · rcases c with ⟨sc, _ | ⟨_ | ⟨u, w⟩, _ | ⟨b, hh⟩, _ | pt⟩, pa, qu, f⟩ <;> rfl
    · rcases c with ⟨sc, _ | ⟨_ | ⟨u, w⟩, hh, pt⟩, pa, qu, f⟩ <;> rfl
  | path s =>
    refine yes (.path (r.path.trans ?_)) (by simp)
    obtain ⟨-, rfl⟩ := he
    rfl
  | query s =>
    refine yes (.query (r.query.trans ?_)) (by simp)
    obtain ⟨-, rfl⟩ := he
    cases s <;> rfl
  | query_part s =>
    refine yes (.query_part (r.query_part.trans ?_)) (by simp)
    rcases he with ⟨rfl, rfl⟩ | ⟨q, rfl, -, rfl⟩ <;> rfl
  | fragment s =>
    refine yes (.fragment (r.fragment.trans ?_)) (by simp)
    obtain ⟨-, rfl⟩ := he
    cases s <;> rfl
  | fragment_part s =>
    refine yes (.fragment_part (r.fragment_part.trans ?_)) (by simp)
    rcases he with ⟨rfl, rfl⟩ | ⟨q, rfl, -, rfl⟩ <;> rfl

/-- C65: and then the getter of the same name returns it there, too, unless it is the userinfo part `@`. -/
theorem C65_reads {op : Op} (hs : Reach env' src) (hr : Reach env st) (hc : Callable env st op) (ho : Own src op)
    (h : run op env st = .ret () st') : Own st' op ↔ op ≠ .set_userinfo_part b!"@" :=
  paired_reads hr hc (ho.paired hs) h

/-- C65: the same for what comes from a view. -/
theorem C65_view_reads {op : Op} {v : View} (hr : Reach env st) (hc : Callable env st op) (ho : Shown v op)
    (h : run op env st = .ret () st') : Own st' op ↔ op ≠ .set_userinfo_part b!"@" :=
  paired_reads hr hc ho.paired h

/-- A password can be copied unless it starts with a colon, and a path unless it would look like an authority. -/
theorem C65_false :
    (∃ src op, Reach env0 src ∧ Own src op ∧ Callable env0 (after []) op ∧ op = .set_encoded_password b!":p" ∧ Rejects op env0 (after [])) ∧
    (∃ src op, Reach env0 src ∧ Own src op ∧ Callable env0 (after []) op ∧ op = .set_encoded_path b!"//x" ∧ Rejects op env0 (after [])) :=
  ⟨⟨after [.set_encoded_url b!"//u::p@h"], _, reach_all .empty (by simp [Op.Defective]) (after_eq (by decide +kernel)), .password (by decide +kernel), Op.Fine.callable (by simp [Op.Fine, Op.Defective]), rfl, ⟨_, rfl⟩⟩,
   ⟨after [.set_encoded_url b!"//h//x"], _, reach_all .empty (by simp [Op.Defective]) (after_eq (by decide +kernel)), .path (by decide +kernel), Op.Fine.callable (by simp [Op.Fine, Op.Defective]), rfl, ⟨_, rfl⟩⟩⟩

/-- Copying what views show into a url. -/
example : ∃ v, View.make b!"//u:p@h:1/a?q#f" = .ret v ∧ Shown v (.set_encoded_authority b!"u:p@h:1") ∧ Shown v (.set_query_part b!"?q") ∧
    Reach env0 sampleSt ∧ Callable env0 sampleSt (.set_encoded_authority b!"u:p@h:1") ∧ ¬ Unfit sampleSt (.set_encoded_authority b!"u:p@h:1") ∧
    textOf (run (.set_encoded_authority b!"u:p@h:1") env0 sampleSt) = some b!"http://u:p@h:1/a//b;c?k=v&l#f%2F" :=
  ⟨_, rfl, .authority (by decide +kernel), .query_part (by decide +kernel), sampleSt_reach, Op.Fine.callable (by simp [Op.Fine, Op.Defective]), id,
    by decide +kernel⟩

end Url.Props
