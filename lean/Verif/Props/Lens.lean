import Verif.Props.Exact
import Verif.Props.Alike

/-!
C62: setting a component to the text it has. Together with C15, C16 (what is set can be read) and C26 (the second call
counts) these are the laws of the getters and setters.
-/

set_option linter.unusedSimpArgs false
set_option autoImplicit false

namespace Url.Props
open Url Spec

variable {env : Env} {st st' : St}

/-- The argument of the call is (a copy of) what the getter of the same name returns. -/
inductive Own (st : St) : Op → Prop
  | url {s : Str} : encoded_url (st.obj false) = .ok s → Own st (.set_encoded_url s)
  | origin {s : Str} : encoded_origin (st.obj false) = .ok s → Own st (.set_encoded_origin s)
  | scheme {s : Str} : scheme (st.obj false) = .ok s → Own st (.set_scheme s)
  | authority {s : Str} : encoded_authority (st.obj false) = .ok s → Own st (.set_encoded_authority s)
  | userinfo {s : Str} : Base.encoded_userinfo (st.obj false) = .ok s → Own st (.set_encoded_userinfo s)
  | userinfo_part {s : Str} : userinfo_part (st.obj false) = .ok s → Own st (.set_userinfo_part s)
  | user {s : Str} : encoded_user (st.obj false) = .ok s → Own st (.set_encoded_user s)
  | password {s : Str} : Base.encoded_password (st.obj false) = .ok s → Own st (.set_encoded_password s)
  | password_part {s : Str} : password_part (st.obj false) = .ok s → Own st (.set_password_part s)
  | host {s : Str} : encoded_host (st.obj false) = .ok s → Own st (.set_encoded_host s)
  | port {s : Str} : port (st.obj false) = .ok s → Own st (.set_port s)
  | port_part {s : Str} : port_part (st.obj false) = .ok s → Own st (.set_port_part s)
  | path {s : Str} : encoded_path (st.obj false) = .ok s → Own st (.set_encoded_path s)
  | query {s : Str} : encoded_query (st.obj false) = .ok s → Own st (.set_encoded_query s)
  | query_part {s : Str} : query_part (st.obj false) = .ok s → Own st (.set_query_part s)
  | fragment {s : Str} : encoded_fragment (st.obj false) = .ok s → Own st (.set_encoded_fragment s)
  | fragment_part {s : Str} : fragment_part (st.obj false) = .ok s → Own st (.set_fragment_part s)

/-- There are slashes and nothing behind them. -/
def EmptyAuthority (st : St) : Prop := has_authority (st.obj false) = true ∧ encoded_authority (st.obj false) = .ok []

/-- The component is present but empty, so that the argument does not tell that it is there. -/
def Forgets (st : St) : Op → Prop
  | .set_encoded_authority _ | .set_encoded_host _ | .set_host _ | .set_port_part _ => EmptyAuthority st
  | .set_port _ => EmptyAuthority st ∨ port_part (st.obj false) = .ok b!":"
  | .set_encoded_userinfo _ | .set_userinfo_part _ => EmptyAuthority st ∨ userinfo_part (st.obj false) = .ok b!"@"
  | .set_encoded_user _ | .set_user _ | .set_password_part _ => userinfo_part (st.obj false) = .ok b!"@"
  | .set_encoded_password _ | .set_password _ => userinfo_part (st.obj false) = .ok b!"@" ∨ password_part (st.obj false) = .ok b!":"
  | .set_encoded_query _ | .set_query _ => query_part (st.obj false) = .ok b!"?"
  | .set_encoded_fragment _ | .set_fragment _ => fragment_part (st.obj false) = .ok b!"#"
  | .set_encoded_url _ => ¬ Reparses st
  | _ => False

/-- The setter does not accept what the getter returns: a password that starts with a colon, a path that does not fit. -/
def Unfit (st : St) : Op → Prop
  | .set_encoded_password s => s.head? = some c!":"
  | .set_password_part s => ∃ p, s = b!"::" ++ p
  | .set_encoded_path s => ∀ x, scheme (st.obj false) = .ok x → ¬ PathOk lib (!x.isEmpty) (has_authority (st.obj false)) false s
  | .set_encoded_url s => ¬ ∃ v, View.make s = .ret v
  | _ => False

theorem present_getD {o : Option Str} (h : o ≠ some []) : present (o.getD []) = o := by
  rcases o with _ | _ | _ <;> simp_all [present]

theorem userinfo_escaped {u : Str × Option Str} (h1 : Escaped isUpperHex isRegName u.1)
    (h2 : ∀ p, u.2 = some p → Escaped isUpperHex isUserinfo p) : Escaped isUpperHex isUserinfo (userinfoText (some u)) := by
  obtain ⟨u, w⟩ := u
  have hu := Escaped.mono (fun _ h => h) (forall_byte (P := fun c => isRegName c = true → isUserinfo c = true) (by decide +kernel)) h1
  cases w with
  | none => exact hu
  | some w => exact (hu.append (escaped_all (by decide))).append (h2 w rfl)

/-- what becomes of the components -/
theorem own_effect {c c' : Components} {op : Op} (hrep : Rep env st c) (hp : PartsOk c) (ho : Own st op)
    (hd : ¬ op.Defective c.auth.isSome c.userinfo.isSome) (hu : ∀ s, op ≠ .set_encoded_url s) (he : op.Effect c c') :
    (c' = c ∧ ¬ Forgets st op) ∨ (c'.render.length ≠ c.render.length ∧ Forgets st op) := by
  have r := hrep.reports false
  cases ho with
  | url h => exact absurd rfl (hu _)
  | scheme h =>
    rw [r.scheme, Except.ok.injEq] at h
    subst h
    obtain ⟨-, rfl⟩ := he
    refine .inl ⟨?_, id⟩
    have : c.scheme ≠ some [] := by
      intro h
      obtain ⟨_, _, e, _⟩ := hp.scheme _ h
      cases e
    show { c with scheme := present (c.scheme.getD []) } = c
    rw [present_getD this]
  | query h =>
    rw [r.query, Except.ok.injEq] at h
    subst h
    obtain ⟨-, rfl⟩ := he
    simp only [Forgets, r.query_part, Except.ok.injEq]
    by_cases hq : c.query = some []
    · refine .inr ⟨?_, by rw [hq]; rfl⟩
      rcases c with ⟨sc, a, pa, qu, f⟩
      cases hq
      simp [Components.withQuery, present, Components.render]
    · refine .inl ⟨?_, fun h => hq ?_⟩
      · show { c with query := present (c.query.getD []) } = c
        rw [present_getD hq]
      · rcases h' : c.query with _ | _ | _ <;> rw [h'] at h <;> simp_all [withPrefix]
  | fragment h =>
    rw [r.fragment, Except.ok.injEq] at h
    subst h
    obtain ⟨-, rfl⟩ := he
    simp only [Forgets, r.fragment_part, Except.ok.injEq]
    by_cases hq : c.fragment = some []
    · refine .inr ⟨?_, by rw [hq]; rfl⟩
      rcases c with ⟨sc, a, pa, qu, f⟩
      cases hq
      simp [Components.withFragment, present, Components.render]
    · refine .inl ⟨?_, fun h => hq ?_⟩
      · show { c with fragment := present (c.fragment.getD []) } = c
        rw [present_getD hq]
      · rcases h' : c.fragment with _ | _ | _ <;> rw [h'] at h <;> simp_all [withPrefix]
  | path h =>
    rw [r.path, Except.ok.injEq] at h
    subst h
    obtain ⟨-, rfl⟩ := he
    exact .inl ⟨rfl, id⟩
  | query_part h =>
    rw [r.query_part, Except.ok.injEq] at h
    subst h
    refine .inl ⟨?_, id⟩
    rcases c with ⟨sc, a, pa, _ | qu, f⟩ <;> rcases he with ⟨e, rfl⟩ | ⟨q, e, -, rfl⟩ <;> simp_all [withPrefix]
  | fragment_part h =>
    rw [r.fragment_part, Except.ok.injEq] at h
    subst h
    refine .inl ⟨?_, id⟩
    rcases c with ⟨sc, a, pa, qu, _ | f⟩ <;> rcases he with ⟨e, rfl⟩ | ⟨q, e, -, rfl⟩ <;> simp_all [withPrefix]
  | origin h =>
    rw [r.origin, Except.ok.injEq] at h
    subst h
    refine .inl ⟨?_, id⟩
    rcases c with ⟨_ | sc, _ | a, pa, qu, f⟩
    · rcases he with ⟨-, rfl⟩ | ⟨sch, a, ⟨h1, h2, e⟩, rfl⟩
      · rfl
      · simp [Components.origin, withSuffix, withPrefix] at e
    · exfalso
      rcases he with ⟨e, -⟩ | ⟨sch, a', ⟨h1, h2, e⟩, rfl⟩
      · simp [Components.origin, withSuffix, withPrefix] at e
      · obtain ⟨x, y, rfl, hx, -⟩ := h1
        simp [Components.origin, withSuffix, withPrefix] at e
        rw [← e.1] at hx
        exact absurd hx (by decide)
    · exfalso
      rcases he with ⟨e, -⟩ | ⟨sch, a', ⟨h1, h2, e⟩, rfl⟩
      · simp [Components.origin, withSuffix, withPrefix] at e
      · have h3 := hp.scheme sc rfl
        have e2 : sc ++ b!":" ++ [] = sch ++ b!":" ++ (b!"//" ++ a'.render) := by
          simpa [Components.origin, withSuffix, withPrefix] using e
        simp only [List.append_assoc] at e2
        have := (scheme_split (scheme_noColon h3) (scheme_noColon h1) e2).2
        simp at this
    · rcases he with ⟨e, -⟩ | ⟨sch, a', ht, rfl⟩
      · simp [Components.origin, withSuffix, withPrefix] at e
      · have h3 := hp.scheme sc rfl
        have h4 := hp.auth a rfl
        obtain ⟨rfl, rfl⟩ := originText_unique (sch := sc) (x := a) ⟨h3, h4, by simp [Components.origin, withSuffix, withPrefix]⟩ ht
        rfl
  | authority h =>
    rw [r.authority, Except.ok.injEq] at h
    subst h
    simp only [Forgets, EmptyAuthority, r.has_authority, r.authority, Except.ok.injEq]
    rcases he with ⟨e, rfl⟩ | ⟨hs, a, ht, rfl⟩
    · rcases c with ⟨sc, _ | a, pa, qu, f⟩
      · exact .inl ⟨rfl, by simp⟩
      · refine .inr ⟨?_, by simp, e⟩
        simp [Components.withAuth, Components.render]
        omega
    · rcases c with ⟨sc, _ | a', pa, qu, f⟩
      · exact absurd rfl hs
      · refine .inl ⟨?_, fun h => hs h.2⟩
        obtain rfl := authText_unique (a := a') ⟨hp.auth a' rfl, rfl⟩ ht
        rfl
  | userinfo h =>
    rw [r.userinfo, Except.ok.injEq] at h
    subst h
    simp only [Forgets, EmptyAuthority, r.has_authority, r.authority, r.userinfo_part, Except.ok.injEq]
    rcases he with ⟨e, rfl⟩ | ⟨hs, u, ⟨h1, h2, h3⟩, rfl⟩
    · rcases c with ⟨sc, _ | ⟨_ | ⟨_ | ⟨a, u⟩, _ | pw⟩, _ | ⟨b, hh⟩, _ | pt⟩, pa, qu, f⟩ <;>
        simp [Components.userinfo, userinfoText] at e <;>
        simp [Components.clearUserinfo, Components.withAuth, Components.render, Auth.render, Components.authority, Components.userinfo,
          withSuffix, userinfoText] <;> omega
    · refine absurd ⟨hs, ?_⟩ hd
      rw [← h3]
      exact userinfo_escaped h1 h2
  | userinfo_part h =>
    rw [r.userinfo_part, Except.ok.injEq] at h
    subst h
    simp only [Forgets, EmptyAuthority, r.has_authority, r.authority, r.userinfo_part, Except.ok.injEq]
    rcases he with ⟨e, rfl⟩ | ⟨x, u, hx, e, ⟨h1, h2, h3⟩, rfl⟩
    · rcases c with ⟨sc, _ | ⟨_ | ⟨_ | ⟨a, u⟩, _ | pw⟩, _ | ⟨b, hh⟩, _ | pt⟩, pa, qu, f⟩ <;>
        simp [Components.userinfo, userinfoText, withSuffix] at e <;>
        simp [Components.clearUserinfo, Components.withAuth, Components.render, Auth.render, Components.authority, Components.userinfo,
          withSuffix, userinfoText] <;> omega
    · refine absurd ⟨x, e, hx, ?_⟩ hd
      rw [← h3]
      exact userinfo_escaped h1 h2
  | user h =>
    rw [r.user, Except.ok.injEq] at h
    subst h
    obtain ⟨-, rfl⟩ := he
    simp only [Forgets, r.userinfo_part, Except.ok.injEq]
    simp only [Op.Defective] at hd
    rcases c with ⟨sc, _ | ⟨_ | ⟨_ | ⟨a, u⟩, _ | pw⟩, hh, pt⟩, pa, qu, f⟩ <;>
      simp [Components.userinfo, Components.user] at hd <;>
      simp [Components.clearUser, Components.withUser, Components.withAuth, Components.authD, Components.user, Components.render,
        Auth.render, Components.userinfo, withSuffix, userinfoText] <;> omega
  | password h =>
    rw [r.password, Except.ok.injEq] at h
    subst h
    obtain ⟨-, -, rfl⟩ := he
    simp only [Forgets, r.userinfo_part, r.password_part rfl, Except.ok.injEq]
    rcases c with ⟨sc, _ | ⟨_ | ⟨_ | ⟨a, u⟩, _ | _ | ⟨d, pw⟩⟩, hh, pt⟩, pa, qu, f⟩ <;>
      simp [Components.clearPassword, Components.withPassword, Components.withAuth, Components.authD, Components.user, Components.password,
        Components.render, Auth.render, Components.userinfo, withSuffix, withPrefix, userinfoText] <;> omega
  | password_part h =>
    rw [r.password_part rfl, Except.ok.injEq] at h
    subst h
    simp only [Forgets, r.userinfo_part, Except.ok.injEq]
    rcases c with ⟨sc, _ | ⟨_ | ⟨_ | ⟨a, u⟩, _ | _ | ⟨d, pw⟩⟩, hh, pt⟩, pa, qu, f⟩ <;>
      rcases he with ⟨e, rfl⟩ | ⟨e, rfl⟩ | ⟨d', p', e, h1, h2, h3, rfl⟩ <;>
      simp [Components.userinfo, withPrefix] at e <;>
      simp_all [Components.clearPassword, Components.withPassword, Components.withAuth, Components.authD, Components.user, Components.password,
        Components.render, Auth.render, Components.userinfo, withSuffix, withPrefix, userinfoText] <;> omega
  | host h =>
    rw [r.host, Except.ok.injEq] at h
    subst h
    obtain ⟨-, rfl⟩ := he
    simp only [Forgets, EmptyAuthority, r.has_authority, r.authority, Except.ok.injEq]
    rcases c with ⟨sc, _ | ⟨_ | ⟨u, _ | pw⟩, _ | ⟨b, hh⟩, _ | pt⟩, pa, qu, f⟩ <;>
      simp [Components.clearHost, Components.withHost, Components.withAuth, Components.authD, Components.host, Components.render, Auth.render,
        Components.authority] <;> omega
  | port h =>
    rw [r.port, Except.ok.injEq] at h
    subst h
    obtain ⟨-, rfl⟩ := he
    simp only [Forgets, EmptyAuthority, r.has_authority, r.authority, r.port_part, Except.ok.injEq]
    rcases c with ⟨sc, _ | ⟨_ | ⟨u, _ | pw⟩, _ | ⟨b, hh⟩, _ | _ | ⟨d, pt⟩⟩, pa, qu, f⟩ <;>
      simp [Components.clearPort, Components.withPort, Components.withAuth, Components.authD, Components.port, Components.render, Auth.render,
        Components.authority, withPrefix] <;> omega
  | port_part h =>
    rw [r.port_part, Except.ok.injEq] at h
    subst h
    simp only [Forgets, EmptyAuthority, r.has_authority, r.authority, Except.ok.injEq]
    rcases c with ⟨sc, _ | ⟨_ | ⟨u, _ | pw⟩, _ | ⟨b, hh⟩, _ | pt⟩, pa, qu, f⟩ <;>
      rcases he with ⟨e, rfl⟩ | ⟨p', e, -, rfl⟩ <;>
      simp [Components.port, withPrefix] at e <;>
      simp_all [Components.clearPort, Components.withPort, Components.withAuth, Components.authD, Components.port, Components.render, Auth.render,
        Components.authority, withPrefix] <;> omega

/-- C62: setting a component to the text it has is rejected exactly if the setter does not take what its getter returns:
a password that starts with a colon, a path that does not fit the url, a text that is not a URI-reference. -/
theorem C62_rejected {op : Op} (hr : Reach env st) (hc : Callable env st op) (ho : Own st op) : Rejects op env st ↔ Unfit st op := by
  obtain ⟨c, hrep, hp⟩ := hr.rep
  have hd := callable hrep hc
  rw [rejects_iff hrep hd]
  have r := hrep.reports false
  have ne : ∀ {c' : Components}, op.Effect c c' → ((¬ ∃ c', op.Effect c c') ↔ False) := fun h => ⟨fun hn => hn ⟨_, h⟩, False.elim⟩
  cases ho with
  | url h =>
    rw [r.url, Except.ok.injEq] at h
    subst h
    simp only [Unfit, Op.Effect]
    refine not_congr ?_
    rw [C01_accepts_iff]
    constructor
    · rintro ⟨c', ⟨h, -⟩ | ⟨-, h1, h2⟩⟩
      · rw [h]; exact ⟨⟨none, none, [], none, none⟩, ⟨by simp, by simp, by simp [PathOk], by simp, by simp⟩, rfl⟩
      · exact ⟨c', h1, h2⟩
    · rintro ⟨c', h1, h2⟩
      by_cases hs : c.render = []
      · exact ⟨_, .inl ⟨hs, rfl⟩⟩
      · exact ⟨c', .inr ⟨hs, h1, h2⟩⟩
  | @origin s h =>
    simp only [Unfit]
    by_cases hs : s = []
    · exact ne (.inl ⟨hs, rfl⟩)
    · by_cases ht : ∃ sch a, OriginText sch a s
      · obtain ⟨sch, a, ht⟩ := ht
        exact ne (.inr ⟨sch, a, ht, rfl⟩)
      · exact absurd ⟨hs, ht⟩ hd
  | scheme h =>
    rw [r.scheme, Except.ok.injEq] at h
    subst h
    refine ne (c' := c.withScheme (c.scheme.getD [])) ⟨?_, rfl⟩
    rcases hsc : c.scheme with _ | s
    · exact .inl rfl
    · exact .inr (hp.scheme s hsc)
  | authority h =>
    rw [r.authority, Except.ok.injEq] at h
    subst h
    simp only [Unfit]
    by_cases hs : c.authority = []
    · exact ne (.inl ⟨hs, rfl⟩)
    · rcases ha : c.auth with _ | a
      · exact absurd (by simp [Components.authority, ha]) hs
      · exact ne (.inr ⟨hs, a, ⟨hp.auth a ha, by simp [Components.authority, ha]⟩, rfl⟩)
  | userinfo h =>
    rw [r.userinfo, Except.ok.injEq] at h
    subst h
    simp only [Unfit]
    by_cases hs : userinfoText c.userinfo = []
    · exact ne (.inl ⟨hs, rfl⟩)
    · rcases c with ⟨sc, _ | ⟨_ | ⟨u, w⟩, hh, pt⟩, pa, qu, f⟩
      · exact absurd rfl hs
      · exact absurd rfl hs
      · have h1 := (hp.auth _ rfl).1 u w rfl
        exact ne (.inr ⟨hs, (u, w), ⟨h1.1, h1.2, rfl⟩, rfl⟩)
  | userinfo_part h =>
    rw [r.userinfo_part, Except.ok.injEq] at h
    subst h
    simp only [Unfit]
    rcases c with ⟨sc, _ | ⟨_ | ⟨u, w⟩, hh, pt⟩, pa, qu, f⟩
    · exact ne (.inl ⟨.inl (by rfl), rfl⟩)
    · exact ne (.inl ⟨.inl (by rfl), rfl⟩)
    · by_cases hs : userinfoText (some (u, w)) = []
      · refine ne (.inl ⟨.inr ?_, rfl⟩)
        simp [Components.userinfo, withSuffix, hs]
      · have h1 := (hp.auth _ rfl).1 u w rfl
        refine ne (.inr ⟨userinfoText (some (u, w)), (u, w), hs, by rfl, ⟨h1.1, h1.2, rfl⟩, rfl⟩)
  | user h =>
    rw [r.user, Except.ok.injEq] at h
    subst h
    refine ne ⟨?_, rfl⟩
    rcases c with ⟨sc, _ | ⟨_ | ⟨u, w⟩, hh, pt⟩, pa, qu, f⟩
    · exact .nil
    · exact .nil
    · exact ((hp.auth _ rfl).1 u w rfl).1
  | password h =>
    rw [r.password, Except.ok.injEq] at h
    subst h
    simp only [Unfit, Op.Effect]
    have : Escaped isUpperHex isUserinfo c.password := by
      rcases c with ⟨sc, _ | ⟨_ | ⟨u, _ | w⟩, hh, pt⟩, pa, qu, f⟩
      · exact .nil
      · exact .nil
      · exact .nil
      · exact ((hp.auth _ rfl).1 u _ rfl).2 w rfl
    constructor
    · intro hn
      by_cases hh : c.password.head? = some c!":"
      · exact hh
      · exact absurd ⟨_, hh, this, rfl⟩ hn
    · rintro h ⟨_, h1, -⟩
      exact h1 h
  | password_part h =>
    rw [r.password_part rfl, Except.ok.injEq] at h
    subst h
    simp only [Unfit, Op.Effect]
    rcases c with ⟨sc, _ | ⟨_ | ⟨u, _ | _ | ⟨d, w⟩⟩, hh, pt⟩, pa, qu, f⟩
    iterate 3 exact ⟨fun hn => absurd ⟨_, .inl ⟨rfl, rfl⟩⟩ hn, by rintro ⟨p, e⟩; simp [Components.userinfo, withPrefix] at e⟩
    · exact ⟨fun hn => absurd ⟨_, .inr (.inl ⟨rfl, rfl⟩)⟩ hn, by rintro ⟨p, e⟩; simp [Components.userinfo, withPrefix] at e⟩
    · have hesc := ((hp.auth _ rfl).1 u _ rfl).2 (d :: w) rfl
      constructor
      · intro hn
        by_cases hd : d = c!":"
        · exact ⟨w, by simp [Components.userinfo, withPrefix, hd]⟩
        · exact absurd ⟨_, .inr (.inr ⟨c!":", d :: w, rfl, by simp, by simpa using hd, hesc, rfl⟩)⟩ hn
      · rintro ⟨p, e⟩ ⟨c', ⟨e', -⟩ | ⟨e', -⟩ | ⟨x, y, e', -, h2, -⟩⟩
        · simp [Components.userinfo, withPrefix] at e'
        · simp [Components.userinfo, withPrefix] at e'
        · simp [Components.userinfo, withPrefix] at e e'
          rw [← e'.2] at h2
          exact h2 (by simp [e.1])
  | host h =>
    rw [r.host, Except.ok.injEq] at h
    subst h
    refine ne ⟨?_, rfl⟩
    rcases c with ⟨sc, _ | ⟨u, hh, pt⟩, pa, qu, f⟩
    · exact .inr .nil
    · exact (hp.auth _ rfl).2.1
  | port h =>
    rw [r.port, Except.ok.injEq] at h
    subst h
    refine ne ⟨?_, rfl⟩
    rcases c with ⟨sc, _ | ⟨u, hh, _ | pt⟩, pa, qu, f⟩
    · rfl
    · rfl
    · exact (hp.auth _ rfl).2.2 pt rfl
  | port_part h =>
    rw [r.port_part, Except.ok.injEq] at h
    subst h
    rcases c with ⟨sc, _ | ⟨u, hh, _ | pt⟩, pa, qu, f⟩
    · exact ne (.inl ⟨rfl, rfl⟩)
    · exact ne (.inl ⟨rfl, rfl⟩)
    · exact ne (.inr ⟨pt, rfl, (hp.auth _ rfl).2.2 pt rfl, rfl⟩)
  | path h =>
    rw [r.path, Except.ok.injEq] at h
    subst h
    have e : (!(c.scheme.getD []).isEmpty) = c.scheme.isSome := by
      rcases hsc : c.scheme with _ | _ | _
      · rfl
      · obtain ⟨_, _, e, _⟩ := hp.scheme _ hsc
        cases e
      · rfl
    simp only [Unfit, Op.Effect, r.scheme, Except.ok.injEq, forall_eq', e, r.has_authority]
    refine not_congr ⟨?_, fun h => ⟨_, h, rfl⟩⟩
    rintro ⟨_, h, -⟩
    exact h
  | query h =>
    rw [r.query, Except.ok.injEq] at h
    subst h
    refine ne ⟨?_, rfl⟩
    rcases hq : c.query with _ | q
    · exact .nil
    · exact hp.query q hq
  | query_part h =>
    rw [r.query_part, Except.ok.injEq] at h
    subst h
    rcases c with ⟨sc, a, pa, _ | qu, f⟩
    · exact ne (.inl ⟨rfl, rfl⟩)
    · exact ne (.inr ⟨qu, rfl, hp.query qu rfl, rfl⟩)
  | fragment h =>
    rw [r.fragment, Except.ok.injEq] at h
    subst h
    refine ne ⟨?_, rfl⟩
    rcases hq : c.fragment with _ | q
    · exact .nil
    · exact hp.fragment q hq
  | fragment_part h =>
    rw [r.fragment_part, Except.ok.injEq] at h
    subst h
    rcases c with ⟨sc, a, pa, qu, _ | f⟩
    · exact ne (.inl ⟨rfl, rfl⟩)
    · exact ne (.inr ⟨f, rfl, hp.fragment f rfl, rfl⟩)

/-- C62: if it is not rejected, and there is memory, the url is as before exactly if the component is not present and
empty. -/
theorem C62_own {op : Op} (hr : Reach env st) (hc : Callable env st op) (ho : Own st op) (h : run op env st = .ret () st') :
    SameUrl st st' ↔ ¬ Forgets st op := by
  obtain ⟨c, c', hrep, hp, he, hok⟩ := returned hr hc h
  by_cases hu : ∃ s, op = .set_encoded_url s
  · obtain ⟨s, rfl⟩ := hu
    cases ho with
    | url hs =>
    rw [(hrep.reports false).url, Except.ok.injEq] at hs
    subst hs
    simp only [Forgets, Classical.not_not]
    rw [reparses_iff hrep]
    rcases he with ⟨hs, rfl⟩ | ⟨hs, hv, hs'⟩
    · have e : c = Components.empty := by
        rcases c with ⟨_ | sc, _ | a, pa, _ | q, _ | f⟩ <;> simp [Components.render] at hs
        rw [hs]; rfl
      subst e
      exact ⟨fun _ => ⟨by simp [Components.empty], by simp [Components.empty], by simp [PathOk, Components.empty], by simp [Components.empty], by simp [Components.empty]⟩,
        fun _ => hrep.sameUrl hok.rep⟩
    · constructor
      · intro hsm
        have h2 := C21_set_encoded_url hr h
        rw [← reparses_iff hrep]
        obtain ⟨txt, v, k1, k2, k3⟩ := h2
        exact ⟨txt, v, by rw [hsm.1]; exact k1, k2, fun i hi => by rw [k3 i hi, hsm.2 i hi]⟩
      · intro hv'
        rw [decomposition_unique hv' hv hs'.symm] at hrep
        exact hrep.sameUrl hok.rep
  · rcases own_effect hrep hp ho (callable hrep hc) (fun s e => hu ⟨s, e⟩) he with ⟨rfl, hf⟩ | ⟨hl, hf⟩
    · exact ⟨fun _ => hf, fun _ => hrep.sameUrl hok.rep⟩
    · exact ⟨fun hs => absurd (sameUrl_length hrep hok.rep hs).symm hl, fun hn => absurd hf hn⟩

/-! ### calls that change nothing -/

theorem same_comps {a b : St} {c c' : Components} (h : Rep env a c) (h' : Rep env b c') (hs : SameUrl a b) : c = c' := by
  have hl : ∀ (c : Components) {i}, 8 ≤ i → plen (compParts c) i = plen (compParts c) 8 := by
    intro c i hi
    unfold plen
    rw [List.take_of_length_le (by rw [compParts_length]; omega), List.take_of_length_le (by rw [compParts_length]; omega)]
  apply compParts_inj
  apply parts_unique (by rw [compParts_length, compParts_length])
  · have := hs.1 false
    rw [(h.reports false).url, (h'.reports false).url] at this
    rw [compParts_flatten, compParts_flatten]
    exact Except.ok.inj this
  · intro i
    have key : ∀ i, i ≤ 8 → plen (compParts c) i = plen (compParts c') i := by
      intro i hi
      have e1 : a.pt.off i = plen (compParts c) i := (h.obj true).rep i
      have e2 : b.pt.off i = plen (compParts c') i := (h'.obj true).rep i
      rw [← e1, ← e2, hs.2 i hi]
    by_cases hi : i ≤ 8
    · exact key i hi
    · rw [hl c (by omega), hl c' (by omega), key 8 (by omega)]

/-- What the call sets is there already. -/
inductive Says (st : St) : Op → Prop
  | own {op : Op} : Own st op → Says st op
  | user {s : Str} : encoded_user (st.obj false) = .ok (pctEncode isRegName s) → Says st (.set_user s)
  | password {s : Str} : Base.encoded_password (st.obj false) = .ok (pctEncode isUserinfo s) → Says st (.set_password s)
  | userinfo_part : userinfo_part (st.obj false) = .ok [] → Says st (.set_userinfo_part b!"@")
  /-- the first character of the argument does not matter, see C46 -/
  | password_part {d : Byte} {p : Str} : p ≠ [] → password_part (st.obj false) = .ok (b!":" ++ p) → Says st (.set_password_part (d :: p))
  | no_host : encoded_host (st.obj false) = .ok [] → Says st (.set_host [])
  | host {s txt : Str} {k : HostType} : s ≠ [] → PlainHost s txt k → encoded_host (st.obj false) = .ok txt → Says st (.set_host s)
  | port_number {n : UInt32} {s : Str} : Decimal n.toNat s → port (st.obj false) = .ok s → Says st (.set_port_number n)
  | query {s : Str} : encoded_query (st.obj false) = .ok (pctEncode isQueryFrag s) → Says st (.set_query s)
  | fragment {s : Str} : encoded_fragment (st.obj false) = .ok (pctEncode isQueryFrag s) → Says st (.set_fragment s)
  | normalize_scheme {s : Str} : scheme (st.obj false) = .ok s → s.map lower = s → Says st .normalize_scheme
  | normalize {s : Str} : scheme (st.obj false) = .ok s → s.map lower = s → Says st .normalize

theorem pctEncode_nil {e ok} (he : SetOf e ok) {s : Str} : pctEncode ok s = [] ↔ s = [] :=
  ⟨fun h => Classical.byContradiction fun hs => pctEncode_ne he hs h, fun h => by rw [h]; rfl⟩

theorem present_eq {o : Option Str} {s : Str} (h : present s = o) : o.getD [] = s ∧ o ≠ some [] := by
  subst h
  cases s <;> simp [present]

theorem effect_says {c : Components} {op : Op} (hrep : Rep env st c) (hp : PartsOk c)
    (hd : ¬ op.Defective c.auth.isSome c.userinfo.isSome) (he : op.Effect c c) : Says st op := by
  have r := hrep.reports false
  cases op with
  | set_encoded_url s =>
    refine .own (.url (r.url.trans ?_))
    rcases he with ⟨rfl, rfl⟩ | ⟨-, -, rfl⟩ <;> rfl
  | set_encoded_origin s =>
    refine .own (.origin (r.origin.trans ?_))
    rcases he with ⟨rfl, e⟩ | ⟨sch, a, ⟨-, -, rfl⟩, e⟩ <;> rw [e] <;> simp [Components.origin, withSuffix, withPrefix]
  | set_scheme s =>
    refine .own (.scheme (r.scheme.trans ?_))
    have h2 : c = c.withScheme s := he.2
    have : present s = c.scheme := (congrArg Components.scheme h2).symm
    rw [(present_eq this).1]
  | set_encoded_authority s =>
    refine .own (.authority (r.authority.trans ?_))
    rcases he with ⟨rfl, e⟩ | ⟨-, a, ⟨-, rfl⟩, e⟩ <;> rw [e] <;> rfl
  | set_encoded_userinfo s =>
    refine .own (.userinfo (r.userinfo.trans ?_))
    rcases he with ⟨rfl, e⟩ | ⟨-, u, ⟨-, -, rfl⟩, e⟩
    · rcases c with ⟨sc, _ | ⟨_ | ⟨u, w⟩, hh, pt⟩, pa, qu, f⟩
      · rfl
      · rfl
      · have := congrArg Components.auth e
        simp only [Components.clearUserinfo, Components.withAuth] at this
        split at this <;> simp at this
    · rw [e]; rfl
  | set_userinfo_part s =>
    rcases he with ⟨hs, e⟩ | ⟨x, u, hx, hs, ⟨h1, h2, h3⟩, e⟩
    · have : c.userinfo = none := by
        rcases c with ⟨sc, _ | ⟨_ | ⟨u, w⟩, hh, pt⟩, pa, qu, f⟩
        · rfl
        · rfl
        · have := congrArg Components.auth e
          simp only [Components.clearUserinfo, Components.withAuth] at this
          split at this <;> simp at this
      have hu : userinfo_part (st.obj false) = .ok [] := by rw [r.userinfo_part, this]; rfl
      rcases hs with rfl | rfl
      · exact .own (.userinfo_part hu)
      · exact .userinfo_part hu
    · exact absurd ⟨x, hs, hx, h3 ▸ userinfo_escaped h1 h2⟩ hd
  | set_user s =>
    refine .user (r.user.trans ?_)
    have he : c = if s = [] then c.clearUser else c.withUser (pctEncode isRegName s) := he
    split at he
    · rename_i hs
      rcases c with ⟨sc, _ | ⟨_ | ⟨u, _ | w⟩, hh, pt⟩, pa, qu, f⟩ <;>
        simp [Components.clearUser, Components.withAuth] at he <;> simp [hs, pctEncode, Components.user, Components.userinfo, he]
    · rw [he]; rfl
  | set_encoded_user s =>
    refine .own (.user (r.user.trans ?_))
    have he : c = if s = [] then c.clearUser else c.withUser s := he.2
    split at he
    · rename_i hs
      rcases c with ⟨sc, _ | ⟨_ | ⟨u, _ | w⟩, hh, pt⟩, pa, qu, f⟩ <;>
        simp [Components.clearUser, Components.withAuth] at he <;> simp [hs, Components.user, Components.userinfo, he]
    · rw [he]; rfl
  | set_password s =>
    refine .password (r.password.trans ?_)
    have he : c = if s = [] then c.clearPassword else c.withPassword (pctEncode isUserinfo s) := he
    split at he
    · rename_i hs
      rcases c with ⟨sc, _ | ⟨_ | ⟨_ | ⟨d, u⟩, _ | w⟩, hh, pt⟩, pa, qu, f⟩ <;>
        simp [Components.clearPassword, Components.withAuth] at he <;> simp [hs, pctEncode, Components.password, Components.userinfo, he]
    · rw [he]; rfl
  | set_encoded_password s =>
    refine .own (.password (r.password.trans ?_))
    have he : c = if s = [] then c.clearPassword else c.withPassword s := he.2.2
    split at he
    · rename_i hs
      rcases c with ⟨sc, _ | ⟨_ | ⟨_ | ⟨d, u⟩, _ | w⟩, hh, pt⟩, pa, qu, f⟩ <;>
        simp [Components.clearPassword, Components.withAuth] at he <;> simp [hs, Components.password, Components.userinfo, he]
    · rw [he]; rfl
  | set_password_part s =>
    rcases he with ⟨rfl, he⟩ | ⟨rfl, he⟩ | ⟨d, p, rfl, hne, -, -, he⟩
    · refine .own (.password_part ((r.password_part rfl).trans ?_))
      rcases c with ⟨sc, _ | ⟨_ | ⟨_ | ⟨d, u⟩, _ | w⟩, hh, pt⟩, pa, qu, f⟩ <;>
        simp [Components.clearPassword, Components.withAuth] at he <;> simp [Components.password, Components.userinfo, withPrefix]
    · refine .own (.password_part ((r.password_part rfl).trans ?_))
      rw [he]; rfl
    · refine .password_part hne ((r.password_part rfl).trans ?_)
      rw [he]; rfl
  | set_host s =>
    rcases he with ⟨rfl, he⟩ | ⟨hs, txt, k, hk, he⟩
    · refine .no_host (r.host.trans ?_)
      rcases c with ⟨sc, _ | ⟨_ | ⟨u, w⟩, hh, _ | pt⟩, pa, qu, f⟩ <;>
        simp [Components.clearHost, Components.withAuth] at he <;> simp [Components.host, he]
    · refine .host hs hk (r.host.trans ?_)
      rw [he]; rfl
  | set_encoded_host s =>
    refine .own (.host (r.host.trans ?_))
    have he : c = if s = [] then c.clearHost else c.withHost s := he.2
    split at he
    · rename_i hs
      rcases c with ⟨sc, _ | ⟨_ | ⟨u, w⟩, hh, _ | pt⟩, pa, qu, f⟩ <;>
        simp [Components.clearHost, Components.withAuth] at he <;> simp [hs, Components.host, he]
    · rw [he]; rfl
  | set_port s =>
    refine .own (.port (r.port.trans ?_))
    have he : c = if s = [] then c.clearPort else c.withPort s := he.2
    split at he
    · rename_i hs
      rcases c with ⟨sc, _ | ⟨_ | ⟨u, w⟩, _ | ⟨d, hh⟩, _ | pt⟩, pa, qu, f⟩ <;>
        simp [Components.clearPort, Components.withAuth] at he <;> simp [hs, Components.port, he]
    · rw [he]; rfl
  | set_port_number n =>
    obtain ⟨s, hs, he⟩ := he
    refine .port_number hs (r.port.trans ?_)
    rw [he]; rfl
  | set_port_part s =>
    refine .own (.port_part (r.port_part.trans ?_))
    rcases he with ⟨rfl, he⟩ | ⟨p, rfl, -, he⟩
    · rcases c with ⟨sc, _ | ⟨_ | ⟨u, w⟩, _ | ⟨d, hh⟩, _ | pt⟩, pa, qu, f⟩ <;>
        simp [Components.clearPort, Components.withAuth] at he <;> simp [Components.port, withPrefix]
    · rw [he]; rfl
  | set_encoded_path s =>
    refine .own (.path (r.path.trans ?_))
    have he : c = c.withPath s := he.2
    rw [he]; rfl
  | set_query s =>
    refine .query (r.query.trans ?_)
    have he : c = c.withQuery (pctEncode isQueryFrag s) := he
    rw [(present_eq (congrArg Components.query he).symm).1]
  | set_encoded_query s =>
    refine .own (.query (r.query.trans ?_))
    have he : c = c.withQuery s := he.2
    rw [(present_eq (congrArg Components.query he).symm).1]
  | set_query_part s =>
    refine .own (.query_part (r.query_part.trans ?_))
    rcases he with ⟨rfl, he⟩ | ⟨q, rfl, -, he⟩ <;> rw [he] <;> rfl
  | set_fragment s =>
    refine .fragment (r.fragment.trans ?_)
    have he : c = c.withFragment (pctEncode isQueryFrag s) := he
    rw [(present_eq (congrArg Components.fragment he).symm).1]
  | set_encoded_fragment s =>
    refine .own (.fragment (r.fragment.trans ?_))
    have he : c = c.withFragment s := he.2
    rw [(present_eq (congrArg Components.fragment he).symm).1]
  | set_fragment_part s =>
    refine .own (.fragment_part (r.fragment_part.trans ?_))
    rcases he with ⟨rfl, he⟩ | ⟨q, rfl, -, he⟩ <;> rw [he] <;> rfl
  | normalize_scheme =>
    refine .normalize_scheme r.scheme ?_
    have he : c = c.lowerScheme := he
    have he := congrArg Components.scheme he
    rcases h : c.scheme with _ | s <;> simp [h, Components.lowerScheme] at he ⊢
    exact he.symm
  | normalize =>
    refine .normalize r.scheme ?_
    have he : c = c.lowerScheme := he
    have he := congrArg Components.scheme he
    rcases h : c.scheme with _ | s <;> simp [h, Components.lowerScheme] at he ⊢
    exact he.symm

/-- A call that sets plain text does what the one that sets its encoding does. -/
theorem says_effect {c c' : Components} {op : Op} (hrep : Rep env st c) (hp : PartsOk c) (hs : Says st op)
    (hd : ¬ op.Defective c.auth.isSome c.userinfo.isSome) (hu : ∀ s, op ≠ .set_encoded_url s) (he : op.Effect c c') :
    c' = c ↔ ¬ Forgets st op := by
  have r := hrep.reports false
  cases hs with
  | own ho =>
    rcases own_effect hrep hp ho hd hu he with ⟨h, hf⟩ | ⟨hl, hf⟩
    · exact ⟨fun _ => hf, fun _ => h⟩
    · exact ⟨fun h => absurd (by rw [h]) hl, fun h => absurd hf h⟩
  | @user s h =>
    rw [r.user, Except.ok.injEq] at h
    have he : c' = if s = [] then c.clearUser else c.withUser (pctEncode isRegName s) := he
    subst he
    rw [← h]
    have hn : s = [] ↔ c.user = [] := by rw [h]; exact (pctEncode_nil setOf_regName).symm
    simp only [hn]
    simp only [Forgets, r.userinfo_part, Except.ok.injEq]
    simp only [Op.Defective, hn] at hd
    rcases c with ⟨sc, _ | ⟨_ | ⟨_ | ⟨a, u⟩, _ | pw⟩, hh, pt⟩, pa, qu, f⟩ <;>
      simp [Components.userinfo, Components.user] at hd <;>
      simp [Components.clearUser, Components.withUser, Components.withAuth, Components.authD, Components.user, Components.render,
        Auth.render, Components.userinfo, withSuffix, userinfoText]
  | @password s h =>
    rw [r.password, Except.ok.injEq] at h
    have he : c' = if s = [] then c.clearPassword else c.withPassword (pctEncode isUserinfo s) := he
    subst he
    rw [← h]
    have hn : s = [] ↔ c.password = [] := by rw [h]; exact (pctEncode_nil setOf_userinfo).symm
    simp only [hn]
    simp only [Forgets, r.userinfo_part, r.password_part rfl, Except.ok.injEq]
    rcases c with ⟨sc, _ | ⟨_ | ⟨_ | ⟨a, u⟩, _ | _ | ⟨d, pw⟩⟩, hh, pt⟩, pa, qu, f⟩ <;>
      simp [Components.clearPassword, Components.withPassword, Components.withAuth, Components.authD, Components.user, Components.password,
        Components.render, Auth.render, Components.userinfo, withSuffix, withPrefix, userinfoText]
  | userinfo_part h =>
    rw [r.userinfo_part, Except.ok.injEq] at h
    simp only [Forgets, EmptyAuthority, r.has_authority, r.authority, r.userinfo_part, Except.ok.injEq]
    rcases he with ⟨-, rfl⟩ | ⟨x, u, hx, e, -⟩
    · rcases c with ⟨sc, _ | ⟨_ | ⟨u, w⟩, _ | ⟨b, hh⟩, _ | pt⟩, pa, qu, f⟩ <;>
        simp [Components.userinfo, withSuffix] at h <;>
        simp [Components.clearUserinfo, Components.withAuth, Components.render, Auth.render, Components.authority, Components.userinfo,
          withSuffix, userinfoText]
    · exact absurd (by simpa using e) hx
  | @password_part d p hne h =>
    rw [r.password_part rfl, Except.ok.injEq] at h
    simp only [Forgets, r.userinfo_part, Except.ok.injEq]
    rcases he with ⟨e, -⟩ | ⟨e, -⟩ | ⟨d', p', e, h1, h2, h3, rfl⟩
    · cases e
    · simp_all
    · cases e
      rcases c with ⟨sc, _ | ⟨_ | ⟨u, _ | w⟩, hh, pt⟩, pa, qu, f⟩ <;> simp [Components.userinfo, withPrefix] at h
      subst h
      simp [Components.withPassword, Components.withAuth, Components.authD, Components.user, Components.userinfo, withSuffix, userinfoText]
      intro e
      have := congrArg List.length e
      simp at this
      omega
  | no_host h =>
    rw [r.host, Except.ok.injEq] at h
    simp only [Forgets, EmptyAuthority, r.has_authority, r.authority, Except.ok.injEq]
    rcases he with ⟨-, rfl⟩ | ⟨e, -⟩
    · rcases c with ⟨sc, _ | ⟨_ | ⟨u, _ | pw⟩, _ | ⟨b, hh⟩, _ | pt⟩, pa, qu, f⟩ <;> simp [Components.host] at h <;>
        simp [Components.clearHost, Components.withAuth, Components.authority, Auth.render]
    · exact absurd rfl e
  | @host s txt k hne hk h =>
    rw [r.host, Except.ok.injEq] at h
    simp only [Forgets, EmptyAuthority, r.has_authority, r.authority, Except.ok.injEq]
    rcases he with ⟨e, -⟩ | ⟨-, txt', k', hk', rfl⟩
    · exact absurd e hne
    · obtain rfl := plainHost_unique hk hk'
      have := plainHost_ne hne hk
      rcases c with ⟨sc, _ | ⟨ui, hh, pt⟩, pa, qu, f⟩ <;> simp [Components.host] at h
      · exact absurd h this
      · subst h
        simp [Components.withHost, Components.withAuth, Components.authD, Components.authority, Auth.render, this]
  | @port_number n s hs h =>
    rw [r.port, Except.ok.injEq] at h
    simp only [Forgets, not_false_eq_true, iff_true]
    obtain ⟨s', hs', rfl⟩ := he
    obtain rfl := decimal_unique hs hs'
    rcases c with ⟨sc, _ | ⟨ui, hh, _ | pt⟩, pa, qu, f⟩ <;> simp [Components.port] at h
    · exact absurd h hs.1
    · exact absurd h hs.1
    · subst h; rfl
  | @query s h =>
    rw [r.query, Except.ok.injEq] at h
    have he : c' = c.withQuery (pctEncode isQueryFrag s) := he
    subst he
    rw [← h]
    simp only [Forgets, r.query_part, Except.ok.injEq]
    rcases c with ⟨sc, a, pa, _ | _ | _, f⟩ <;> simp [Components.withQuery, present, withPrefix]
  | @fragment s h =>
    rw [r.fragment, Except.ok.injEq] at h
    have he : c' = c.withFragment (pctEncode isQueryFrag s) := he
    subst he
    rw [← h]
    simp only [Forgets, r.fragment_part, Except.ok.injEq]
    rcases c with ⟨sc, a, pa, qu, _ | _ | _⟩ <;> simp [Components.withFragment, present, withPrefix]
  | normalize_scheme h hl =>
    rw [r.scheme, Except.ok.injEq] at h
    have he : c' = c.lowerScheme := he
    subst he h
    simp only [Forgets, not_false_eq_true, iff_true]
    rcases c with ⟨_ | sc, a, pa, qu, f⟩ <;> simp_all [Components.lowerScheme]
  | normalize h hl =>
    rw [r.scheme, Except.ok.injEq] at h
    have he : c' = c.lowerScheme := he
    subst he h
    simp only [Forgets, not_false_eq_true, iff_true]
    rcases c with ⟨_ | sc, a, pa, qu, f⟩ <;> simp_all [Components.lowerScheme]

/-- C62: a call changes nothing exactly if what it sets is there already, and not as an empty component which it
would remove. -/
theorem C62_same {op : Op} (hr : Reach env st) (hc : Callable env st op) (h : run op env st = .ret () st') :
    SameUrl st st' ↔ Says st op ∧ ¬ Forgets st op := by
  obtain ⟨c, c', hrep, hp, he, hok⟩ := returned hr hc h
  have hd := callable hrep hc
  constructor
  · intro hs
    have e := same_comps hrep hok.rep hs
    rw [← e] at he
    have hsay := effect_says hrep hp hd he
    refine ⟨hsay, ?_⟩
    cases hsay with
    | own ho => exact (C62_own hr hc ho h).1 hs
    | _ => exact (says_effect hrep hp (by first | exact .user ‹_› | exact .password ‹_› | exact .userinfo_part ‹_› | exact .password_part ‹_› ‹_› | exact .no_host ‹_› | exact .host ‹_› ‹_› ‹_› | exact .port_number ‹_› ‹_› | exact .query ‹_› | exact .fragment ‹_› | exact .normalize_scheme ‹_› ‹_› | exact .normalize ‹_› ‹_›) hd nofun he).1 rfl
  · rintro ⟨hsay, hf⟩
    cases hsay with
    | own ho => exact (C62_own hr hc ho h).2 hf
    | _ =>
      have := (says_effect hrep hp (by first | exact .user ‹_› | exact .password ‹_› | exact .userinfo_part ‹_› | exact .password_part ‹_› ‹_› | exact .no_host ‹_› | exact .host ‹_› ‹_› ‹_› | exact .port_number ‹_› ‹_› | exact .query ‹_› | exact .fragment ‹_› | exact .normalize_scheme ‹_› ‹_› | exact .normalize ‹_› ‹_›) hd nofun he).2 hf
      rw [this] at hok
      exact hrep.sameUrl hok.rep

/-- `sampleSt` with each component set to the text it has -/
example : (∀ op, op ∈ [.set_encoded_url b!"http://us%20er:p:w@h%41.x:80/a//b;c?k=v&l#f%2F", .set_encoded_origin b!"http://us%20er:p:w@h%41.x:80",
      .set_scheme b!"http", .set_encoded_authority b!"us%20er:p:w@h%41.x:80", .set_encoded_user b!"us%20er", .set_user b!"us er",
      .set_encoded_password b!"p:w", .set_password_part b!"xp:w", .set_encoded_host b!"h%41.x", .set_port b!"80", .set_port_number 80,
      .set_encoded_path b!"/a//b;c", .set_query b!"k=v&l", .set_query_part b!"?k=v&l", .set_encoded_fragment b!"f%2F", .normalize] →
      textOf (run op env0 sampleSt) = some b!"http://us%20er:p:w@h%41.x:80/a//b;c?k=v&l#f%2F") ∧
    textOf (run (.set_host b!"hA.x") env0 sampleSt) = some b!"http://us%20er:p:w@hA.x:80/a//b;c?k=v&l#f%2F" ∧
    textOf (run (.set_fragment b!"f/") env0 sampleSt) = some b!"http://us%20er:p:w@h%41.x:80/a//b;c?k=v&l#f/" := by
  decide +kernel

/-- C62 is false without the exceptions: `?` is lost; a password that starts with a colon, a path that starts with two
slashes where there is no authority and an origin without a scheme are not accepted back; a path in front of which the
authority was removed is read as an authority; and setting the userinfo it has changes the user. -/
theorem C62_false :
    textOf (run (.set_encoded_query b!"") env0 (after [.set_encoded_url b!"x?"])) = some b!"x" ∧
    Rejects (.set_encoded_password b!":p") env0 (after [.set_encoded_url b!"//u::p@h"]) ∧
    Rejects (.set_encoded_path b!"//x") env0 (after [.set_encoded_url b!"//h//x", .set_encoded_authority b!""]) ∧
    Rejects (.set_encoded_origin b!"//h") env0 (after [.set_encoded_url b!"//h/x"]) ∧
    (∃ st', run (.set_encoded_url b!"//x") env0 (after [.set_encoded_url b!"//h//x", .set_encoded_authority b!""]) = .ret () st' ∧
      encoded_path (st'.obj true) = .ok []) ∧
    ∃ st', run (.set_encoded_userinfo b!"user:pw") env0 (after [.set_encoded_url b!"//user:pw@h"]) = .ret () st' ∧
      encoded_user (st'.obj true) = .ok b!"us" :=
  ⟨by decide +kernel, ⟨_, rfl⟩, ⟨_, rfl⟩, ⟨_, rfl⟩, ⟨_, rfl, by decide +kernel⟩, ⟨_, rfl, by decide +kernel⟩⟩

/-- the exceptions as `Forgets` and `Unfit` name them -/
example : Forgets (after [.set_encoded_url b!"x?"]) (.set_encoded_query b!"") ∧ Unfit (after [.set_encoded_url b!"//u::p@h"]) (.set_encoded_password b!":p") ∧
    Own (after [.set_encoded_url b!"//u::p@h"]) (.set_encoded_password b!":p") :=
  ⟨by show _ = _; decide +kernel, by show _ = _; decide +kernel, .password (by decide +kernel)⟩

end Url.Props
