import Verif.Props.Combine

/-!
C69: exactly which calls and edits of segments make a text that no longer parses to its components.
-/

set_option linter.unusedSimpArgs false
set_option autoImplicit false

namespace Url.Props
open Url Spec

variable {env : Env} {st st' : St}

/-- What the accessors say about a url. -/
structure Texts where
  scheme : Str
  hasAuthority : Bool
  userinfo : Str
  host : Str
  port : Str
  path : Str
  query : Str
  fragment : Str

/-- `t` is what the accessors of `st` say; delimiters are included, except for the colon of the scheme. -/
structure Reads (st : St) (t : Texts) : Prop where
  scheme : scheme (st.obj false) = .ok t.scheme
  hasAuthority : has_authority (st.obj false) = t.hasAuthority
  userinfo : userinfo_part (st.obj false) = .ok t.userinfo
  host : encoded_host (st.obj false) = .ok t.host
  port : port_part (st.obj false) = .ok t.port
  path : encoded_path (st.obj false) = .ok t.path
  query : query_part (st.obj false) = .ok t.query
  fragment : fragment_part (st.obj false) = .ok t.fragment

namespace Texts

/-- Without the authority, the path would be taken for one, or its only slash would take the character behind it. -/
def Bare (t : Texts) : Prop := b!"//" <+: t.path ∨ (t.path = b!"/" ∧ t.query ++ t.fragment ≠ [])

/-- Without a scheme, part of the path would be taken for one. -/
def Colon (t : Texts) : Prop := c!":" ∈ t.path.takeWhile (· ≠ c!"/")

/-- The path cannot stand after an authority: it is not a sequence of segments, each with a slash before it. -/
def Unslashed (t : Texts) : Prop := ¬ Slashed isUpperHex t.path

/-- After this call the text does not parse to the components any more. -/
def Breaks (t : Texts) : Op → Prop
  | .set_encoded_url _ => False
  | .set_encoded_origin s => if s = [] then t.Bare ∨ t.Colon else t.Unslashed
  | .set_scheme s => s = [] ∧ t.hasAuthority = false ∧ t.Colon
  | .set_encoded_authority s => if s = [] then t.Bare else t.Unslashed
  | .set_encoded_userinfo s => if s = [] then t.host = [] ∧ t.port = [] ∧ t.Bare else t.Unslashed
  | .set_userinfo_part s => if s = [] ∨ s = b!"@" then t.host = [] ∧ t.port = [] ∧ t.Bare else t.Unslashed
  | .set_user s => s ≠ [] ∧ t.Unslashed
  | .set_encoded_user s => s ≠ [] ∧ t.Unslashed
  | .set_password s => s ≠ [] ∧ t.Unslashed
  | .set_encoded_password s => s ≠ [] ∧ t.Unslashed
  | .set_password_part s => s ≠ [] ∧ t.Unslashed
  | .set_host s => if s = [] then t.userinfo = [] ∧ t.port = [] ∧ t.Bare else t.Unslashed
  | .set_encoded_host s => if s = [] then t.userinfo = [] ∧ t.port = [] ∧ t.Bare else t.Unslashed
  | .set_port s => if s = [] then t.userinfo = [] ∧ t.host = [] ∧ t.Bare else t.Unslashed
  | .set_port_number _ => t.Unslashed
  | .set_port_part s => if s = [] then t.userinfo = [] ∧ t.host = [] ∧ t.Bare else t.Unslashed
  | .set_encoded_path s => s = b!"/" ∧ t.hasAuthority = false ∧ t.query ++ t.fragment ≠ []
  | .set_query s => s ≠ [] ∧ t.hasAuthority = false ∧ t.path = b!"/"
  | .set_encoded_query s => s ≠ [] ∧ t.hasAuthority = false ∧ t.path = b!"/"
  | .set_query_part s => s ≠ [] ∧ t.hasAuthority = false ∧ t.path = b!"/"
  | .set_fragment s => s ≠ [] ∧ t.hasAuthority = false ∧ t.path = b!"/"
  | .set_encoded_fragment s => s ≠ [] ∧ t.hasAuthority = false ∧ t.path = b!"/"
  | .set_fragment_part s => s ≠ [] ∧ t.hasAuthority = false ∧ t.path = b!"/"
  | .normalize_scheme => False
  | .normalize => False

end Texts

/-- what the accessors say about a url with these components -/
def textsOf (c : Components) : Texts where
  scheme := c.scheme.getD []
  hasAuthority := c.auth.isSome
  userinfo := withSuffix b!"@" (c.userinfo.map fun u => userinfoText (some u))
  host := c.host
  port := withPrefix b!":" c.port
  path := c.path
  query := withPrefix b!"?" c.query
  fragment := withPrefix b!"#" c.fragment

theorem reads_iff {c : Components} {t : Texts} (h : Rep env st c) (ht : Reads st t) : t = textsOf c := by
  have b := h.reports false
  obtain ⟨sch, a, ui, ho, po, pa, q, f⟩ := t
  obtain ⟨h1, h2, h3, h4, h5, h6, h7, h8⟩ := ht
  rw [b.scheme] at h1
  rw [b.has_authority] at h2
  rw [b.userinfo_part] at h3
  rw [b.host] at h4
  rw [b.port_part] at h5
  rw [b.path] at h6
  rw [b.query_part] at h7
  rw [b.fragment_part] at h8
  cases h1; cases h2; cases h3; cases h4; cases h5; cases h6; cases h7; cases h8
  rfl

/-- The path is acceptable where it stands. -/
def Stands (c : Components) (p : Str) : Prop :=
  (c.auth ≠ none → Slashed isUpperHex p) ∧
  (c.auth = none → ¬ b!"//" <+: p ∧ (p = b!"/" → c.query = none ∧ c.fragment = none) ∧
    (c.scheme = none → c!":" ∉ p.takeWhile (· ≠ c!"/")))

theorem stands_iff {c : Components} {a b f : Bool} (hp : PartsOk c) (h : PathOk lib a b f c.path) : c.Valid lib ↔ Stands c c.path := by
  rw [hp.valid_iff, fits_iff h]
  obtain ⟨sc, au, p, q, fr⟩ := c
  unfold Stands
  cases sc <;> cases au <;> cases q <;> cases fr <;> simp

theorem slashed_no_colon {p : Str} (h : Slashed isUpperHex p) : c!":" ∉ p.takeWhile (· ≠ c!"/") := by
  obtain ⟨segs, -, rfl⟩ := h
  cases segs <;> simp

theorem textsOf_rest (c : Components) : (textsOf c).query ++ (textsOf c).fragment ≠ [] ↔ ¬ (c.query = none ∧ c.fragment = none) := by
  obtain ⟨sc, au, p, q, fr⟩ := c
  cases q <;> cases fr <;> simp [textsOf, withPrefix]

theorem textsOf_userinfo (c : Components) : (textsOf c).userinfo = [] ↔ c.userinfo = none := by
  unfold textsOf
  cases h : c.userinfo <;> simp [withSuffix]

theorem textsOf_port (c : Components) : (textsOf c).port = [] ↔ c.port = none := by
  unfold textsOf
  cases h : c.port <;> simp [withPrefix]

theorem textsOf_auth (c : Components) : (textsOf c).hasAuthority = false ↔ c.auth = none := by
  unfold textsOf
  cases c.auth <;> simp

theorem encode_nil {ok : Byte → Bool} {s : Str} : pctEncode ok s = [] ↔ s = [] := by
  cases s with
  | nil => simp [pctEncode]
  | cons a t =>
    simp only [pctEncode, List.flatMap_cons, List.append_eq_nil_iff, List.cons_ne_nil, iff_false, not_and]
    intro h
    split at h <;> simp at h

theorem present_nil (s : Str) : present s = none ↔ s = [] := by
  unfold present
  split <;> simp [*]

/-- a call that leaves an authority -/
theorem breaks_auth {c c' : Components} (hp' : PartsOk c') (hv : c.Valid lib) (h1 : c'.path = c.path) (h2 : c'.auth ≠ none) :
    c'.Valid lib ↔ ¬ (textsOf c).Unslashed := by
  rw [stands_iff hp' (by rw [h1]; exact hv.2.2.1), h1, Texts.Unslashed, Classical.not_not]
  exact ⟨fun h => h.1 h2, fun h => ⟨fun _ => h, fun h' => absurd h' h2⟩⟩

/-- a call that leaves no authority and only removes something -/
theorem breaks_none {c c' : Components} (hp : PartsOk c) (hp' : PartsOk c') (hv : c.Valid lib) (h1 : c'.path = c.path) (h2 : c'.auth = none)
    (h3 : c'.scheme = c.scheme) (h4 : c'.query = c.query) (h5 : c'.fragment = c.fragment) :
    c'.Valid lib ↔ ¬ (textsOf c).Bare := by
  have hS := (stands_iff hp hv.2.2.1).1 hv
  rw [stands_iff hp' (by rw [h1]; exact hv.2.2.1), h1, Texts.Bare, textsOf_rest, Stands, h3, h4, h5]
  unfold Stands at hS
  show _ ↔ ¬ (b!"//" <+: c.path ∨ _)
  have := @slashed_no_colon c.path
  have e : (textsOf c).path = c.path := rfl
  rw [e]
  by_cases ha : c.auth = none <;> grind

/-- a call that changes nothing the path depends on -/
theorem kept_breaks {c c' : Components} (hp : PartsOk c) (hv : c.Valid lib) (hp' : PartsOk c') (h1 : c'.path = c.path) (h4 : c'.query = c.query)
    (h5 : c'.fragment = c.fragment) (h3 : c'.scheme = none ↔ c.scheme = none) (h2 : c'.auth = none ↔ c.auth = none) : c'.Valid lib := by
  have hS := (stands_iff hp hv.2.2.1).1 hv
  rw [stands_iff hp' (by rw [h1]; exact hv.2.2.1), h1]
  unfold Stands at hS ⊢
  rw [h4, h5, h3, ne_eq, h2]
  exact hS

theorem clearUserinfo_breaks {c : Components} (hp : PartsOk c) (hp' : PartsOk c.clearUserinfo) (hv : c.Valid lib) :
    c.clearUserinfo.Valid lib ↔ ¬ ((textsOf c).host = [] ∧ (textsOf c).port = [] ∧ (textsOf c).Bare) := by
  rw [textsOf_port]
  show _ ↔ ¬ (c.host = [] ∧ _)
  have hh : c.clearUserinfo.auth = none ↔ c.auth = none ∨ (c.host = [] ∧ c.port = none) := by
    unfold Components.clearUserinfo Components.withAuth Components.host Components.port
    cases c.auth <;> simp
  have hb := fun h => breaks_none (c' := c.clearUserinfo) hp hp' hv rfl h rfl rfl rfl
  have hk := kept_breaks (c' := c.clearUserinfo) hp hv hp' rfl rfl rfl Iff.rfl
  have hb0 : c.auth = none → ¬ (textsOf c).Bare := fun h => (breaks_none hp hp hv rfl h rfl rfl rfl).1 hv
  grind

theorem clearHost_breaks {c : Components} (hp : PartsOk c) (hp' : PartsOk c.clearHost) (hv : c.Valid lib) :
    c.clearHost.Valid lib ↔ ¬ ((textsOf c).userinfo = [] ∧ (textsOf c).port = [] ∧ (textsOf c).Bare) := by
  rw [textsOf_port, textsOf_userinfo]
  have hh : c.clearHost.auth = none ↔ c.auth = none ∨ (c.userinfo = none ∧ c.port = none) := by
    unfold Components.clearHost Components.withAuth Components.userinfo Components.port
    cases c.auth <;> simp
  have hb := fun h => breaks_none (c' := c.clearHost) hp hp' hv rfl h rfl rfl rfl
  have hk := kept_breaks (c' := c.clearHost) hp hv hp' rfl rfl rfl Iff.rfl
  have hb0 : c.auth = none → ¬ (textsOf c).Bare := fun h => (breaks_none hp hp hv rfl h rfl rfl rfl).1 hv
  grind

theorem clearPort_breaks {c : Components} (hp : PartsOk c) (hp' : PartsOk c.clearPort) (hv : c.Valid lib) :
    c.clearPort.Valid lib ↔ ¬ ((textsOf c).userinfo = [] ∧ (textsOf c).host = [] ∧ (textsOf c).Bare) := by
  rw [textsOf_userinfo]
  show _ ↔ ¬ (_ ∧ c.host = [] ∧ _)
  have hh : c.clearPort.auth = none ↔ c.auth = none ∨ (c.userinfo = none ∧ c.host = []) := by
    unfold Components.clearPort Components.withAuth Components.userinfo Components.host
    cases c.auth <;> simp
  have hb := fun h => breaks_none (c' := c.clearPort) hp hp' hv rfl h rfl rfl rfl
  have hk := kept_breaks (c' := c.clearPort) hp hv hp' rfl rfl rfl Iff.rfl
  have hb0 : c.auth = none → ¬ (textsOf c).Bare := fun h => (breaks_none hp hp hv rfl h rfl rfl rfl).1 hv
  grind

theorem query_breaks {c c' : Components} {s : Str} (hp : PartsOk c) (hv : c.Valid lib) (hp' : PartsOk c') (h1 : c'.path = c.path)
    (h2 : c'.auth = c.auth) (h3 : c'.scheme = c.scheme) (h5 : c'.fragment = c.fragment) (h4 : c'.query = none ↔ s = []) :
    c'.Valid lib ↔ ¬ (s ≠ [] ∧ (textsOf c).hasAuthority = false ∧ (textsOf c).path = b!"/") := by
  have hS := (stands_iff hp hv.2.2.1).1 hv
  rw [stands_iff hp' (by rw [h1]; exact hv.2.2.1), h1, textsOf_auth]
  show _ ↔ ¬ (_ ∧ _ ∧ c.path = b!"/")
  unfold Stands at hS ⊢
  rw [h2, h3, h5, h4]
  grind

theorem fragment_breaks {c c' : Components} {s : Str} (hp : PartsOk c) (hv : c.Valid lib) (hp' : PartsOk c') (h1 : c'.path = c.path)
    (h2 : c'.auth = c.auth) (h3 : c'.scheme = c.scheme) (h4 : c'.query = c.query) (h5 : c'.fragment = none ↔ s = []) :
    c'.Valid lib ↔ ¬ (s ≠ [] ∧ (textsOf c).hasAuthority = false ∧ (textsOf c).path = b!"/") := by
  have hS := (stands_iff hp hv.2.2.1).1 hv
  rw [stands_iff hp' (by rw [h1]; exact hv.2.2.1), h1, textsOf_auth]
  show _ ↔ ¬ (_ ∧ _ ∧ c.path = b!"/")
  unfold Stands at hS ⊢
  rw [h2, h3, h4, h5]
  grind

theorem breaks_iff {op : Op} {c c' : Components} (hp : PartsOk c) (hv : c.Valid lib) (he : op.Effect c c') :
    c'.Valid lib ↔ ¬ (textsOf c).Breaks op := by
  have hp' := effect_parts hp he
  have hS := (stands_iff hp hv.2.2.1).1 hv
  have hcol := @slashed_no_colon c.path
  have hsame : ∀ {c' : Components}, c' = c → ∀ {P : Prop}, ¬ P → (c'.Valid lib ↔ ¬ P) := fun e _ h => by rw [e]; exact ⟨fun _ => h, fun _ => hv⟩
  cases op with
  | set_encoded_url s =>
    simp only [Texts.Breaks, not_false_eq_true, iff_true]
    rcases he with ⟨-, rfl⟩ | ⟨-, h, -⟩
    · exact PartsOk.empty.valid_iff.2 (.inl rfl)
    · exact h
  | set_encoded_origin s =>
    rcases he with ⟨rfl, rfl⟩ | ⟨sch, a, ht, rfl⟩
    · rw [Texts.Breaks, if_pos rfl, stands_iff hp' hv.2.2.1, Texts.Bare, textsOf_rest, Texts.Colon]
      have e : (textsOf c).path = c.path := rfl
      rw [e]
      simp only [Stands]
      grind
    · have : s ≠ [] := by rintro rfl; have := ht.2.2; simp at this
      rw [Texts.Breaks, if_neg this]
      exact breaks_auth hp' hv rfl (by simp)
  | set_scheme s =>
    obtain ⟨-, rfl⟩ := he
    rw [stands_iff hp' hv.2.2.1, Texts.Breaks, Texts.Colon, textsOf_auth]
    have e : (textsOf c).path = c.path := rfl
    rw [e]
    simp only [Stands, Components.withScheme, present_nil] at hS ⊢
    grind
  | set_encoded_authority s =>
    rcases he with ⟨rfl, rfl⟩ | ⟨hs, a, -, rfl⟩
    · rw [Texts.Breaks, if_pos rfl]
      exact breaks_none hp hp' hv rfl rfl rfl rfl rfl
    · rw [Texts.Breaks, if_neg hs]
      exact breaks_auth hp' hv rfl (by simp [Components.withAuth])
  | set_encoded_userinfo s =>
    rcases he with ⟨rfl, rfl⟩ | ⟨hs, u, -, rfl⟩
    · rw [Texts.Breaks, if_pos rfl]
      exact clearUserinfo_breaks hp hp' hv
    · rw [Texts.Breaks, if_neg hs]
      exact breaks_auth hp' hv rfl (by simp [Components.withUserinfo, Components.withAuth])
  | set_userinfo_part s =>
    rcases he with ⟨hs, rfl⟩ | ⟨x, u, hx, rfl, -, rfl⟩
    · rw [Texts.Breaks, if_pos hs]
      exact clearUserinfo_breaks hp hp' hv
    · rw [Texts.Breaks, if_neg (by cases x <;> simp_all)]
      exact breaks_auth hp' hv rfl (by simp [Components.withUserinfo, Components.withAuth])
  | set_user s =>
    cases he
    by_cases hs : s = []
    · simp only [Texts.Breaks, hs, if_true, ne_eq, not_true_eq_false, false_and, not_false_eq_true, iff_true] at hp' ⊢
      exact kept_breaks hp hv hp' rfl rfl rfl Iff.rfl (by simp [Components.clearUser, Components.withAuth])
    · simp only [Texts.Breaks, hs, if_false, ne_eq, not_false_eq_true, true_and] at hp' ⊢
      exact breaks_auth hp' hv rfl (by simp [Components.withUser, Components.withAuth])
  | set_encoded_user s =>
    obtain ⟨-, rfl⟩ := he
    by_cases hs : s = []
    · simp only [Texts.Breaks, hs, if_true, ne_eq, not_true_eq_false, false_and, not_false_eq_true, iff_true] at hp' ⊢
      exact kept_breaks hp hv hp' rfl rfl rfl Iff.rfl (by simp [Components.clearUser, Components.withAuth])
    · simp only [Texts.Breaks, hs, if_false, ne_eq, not_false_eq_true, true_and] at hp' ⊢
      exact breaks_auth hp' hv rfl (by simp [Components.withUser, Components.withAuth])
  | set_password s =>
    cases he
    by_cases hs : s = []
    · simp only [Texts.Breaks, hs, if_true, ne_eq, not_true_eq_false, false_and, not_false_eq_true, iff_true] at hp' ⊢
      exact kept_breaks hp hv hp' rfl rfl rfl Iff.rfl (by simp [Components.clearPassword, Components.withAuth])
    · simp only [Texts.Breaks, hs, if_false, ne_eq, not_false_eq_true, true_and] at hp' ⊢
      exact breaks_auth hp' hv rfl (by simp [Components.withPassword, Components.withAuth])
  | set_encoded_password s =>
    obtain ⟨-, -, rfl⟩ := he
    by_cases hs : s = []
    · simp only [Texts.Breaks, hs, if_true, ne_eq, not_true_eq_false, false_and, not_false_eq_true, iff_true] at hp' ⊢
      exact kept_breaks hp hv hp' rfl rfl rfl Iff.rfl (by simp [Components.clearPassword, Components.withAuth])
    · simp only [Texts.Breaks, hs, if_false, ne_eq, not_false_eq_true, true_and] at hp' ⊢
      exact breaks_auth hp' hv rfl (by simp [Components.withPassword, Components.withAuth])
  | set_password_part s =>
    have hn : ∀ (p : Str), s ≠ [] → PartsOk (c.withPassword p) → ((c.withPassword p).Valid lib ↔ ¬ (textsOf c).Breaks (.set_password_part s)) := by
      intro p hs hp'
      simp only [Texts.Breaks, hs, ne_eq, not_false_eq_true, true_and]
      exact breaks_auth hp' hv rfl (by simp [Components.withPassword, Components.withAuth])
    rcases he with ⟨rfl, rfl⟩ | ⟨rfl, rfl⟩ | ⟨d, p, rfl, -, -, -, rfl⟩
    · simp only [Texts.Breaks, ne_eq, not_true_eq_false, false_and, not_false_eq_true, iff_true]
      exact kept_breaks hp hv hp' rfl rfl rfl Iff.rfl (by simp [Components.clearPassword, Components.withAuth])
    · exact hn _ (by simp) hp'
    · exact hn _ (by simp) hp'
  | set_host s =>
    rcases he with ⟨rfl, rfl⟩ | ⟨hs, txt, k, -, rfl⟩
    · rw [Texts.Breaks, if_pos rfl]
      exact clearHost_breaks hp hp' hv
    · rw [Texts.Breaks, if_neg hs]
      exact breaks_auth hp' hv rfl (by simp [Components.withHost, Components.withAuth])
  | set_encoded_host s =>
    obtain ⟨-, rfl⟩ := he
    by_cases hs : s = []
    · simp only [Texts.Breaks, hs, if_true] at hp' ⊢
      exact clearHost_breaks hp hp' hv
    · simp only [Texts.Breaks, hs, if_false] at hp' ⊢
      exact breaks_auth hp' hv rfl (by simp [Components.withHost, Components.withAuth])
  | set_port s =>
    obtain ⟨-, rfl⟩ := he
    by_cases hs : s = []
    · simp only [Texts.Breaks, hs, if_true] at hp' ⊢
      exact clearPort_breaks hp hp' hv
    · simp only [Texts.Breaks, hs, if_false] at hp' ⊢
      exact breaks_auth hp' hv rfl (by simp [Components.withPort, Components.withAuth])
  | set_port_number n =>
    obtain ⟨s, -, rfl⟩ := he
    exact breaks_auth hp' hv rfl (by simp [Components.withPort, Components.withAuth])
  | set_port_part s =>
    rcases he with ⟨rfl, rfl⟩ | ⟨p, rfl, -, rfl⟩
    · rw [Texts.Breaks, if_pos rfl]
      exact clearPort_breaks hp hp' hv
    · rw [Texts.Breaks, if_neg (by simp)]
      exact breaks_auth hp' hv rfl (by simp [Components.withPort, Components.withAuth])
  | set_encoded_path s =>
    obtain ⟨he, rfl⟩ := he
    have h0 := (fits_iff he).1 he
    rw [stands_iff hp' he, Texts.Breaks, textsOf_rest, textsOf_auth]
    unfold Stands
    simp only [Components.withPath] at h0 ⊢
    cases ha : c.auth <;> cases hs : c.scheme <;> simp only [ha, hs, Option.isSome_none, Option.isSome_some] at h0 ⊢ <;> grind
  | set_query s =>
    cases he
    exact query_breaks hp hv hp' rfl rfl rfl rfl (by simp [Components.withQuery, present_nil, encode_nil])
  | set_encoded_query s =>
    obtain ⟨-, rfl⟩ := he
    exact query_breaks hp hv hp' rfl rfl rfl rfl (by simp [Components.withQuery, present_nil])
  | set_query_part s =>
    rcases he with ⟨rfl, rfl⟩ | ⟨q, rfl, -, rfl⟩ <;> exact query_breaks hp hv hp' rfl rfl rfl rfl (by simp)
  | set_fragment s =>
    cases he
    exact fragment_breaks hp hv hp' rfl rfl rfl rfl (by simp [Components.withFragment, present_nil, encode_nil])
  | set_encoded_fragment s =>
    obtain ⟨-, rfl⟩ := he
    exact fragment_breaks hp hv hp' rfl rfl rfl rfl (by simp [Components.withFragment, present_nil])
  | set_fragment_part s =>
    rcases he with ⟨rfl, rfl⟩ | ⟨q, rfl, -, rfl⟩ <;> exact fragment_breaks hp hv hp' rfl rfl rfl rfl (by simp)
  | normalize_scheme =>
    cases he
    simp only [Texts.Breaks, not_false_eq_true, iff_true]
    exact kept_breaks hp hv hp' rfl rfl rfl (by cases h : c.scheme <;> simp [Components.lowerScheme, h]) Iff.rfl
  | normalize =>
    cases he
    simp only [Texts.Breaks, not_false_eq_true, iff_true]
    exact kept_breaks hp hv hp' rfl rfl rfl (by cases h : c.scheme <;> simp [Components.lowerScheme, h]) Iff.rfl

/-- C69: if the text of a url parses to its components, then after a call that returns it does so again, except exactly if the call is
one of those listed by `Texts.Breaks`. -/
theorem C69_calls {op : Op} {t : Texts} (hr : Reach env st) (hc : Callable env st op) (ht : Reads st t) (hv : Reparses st)
    (h : run op env st = .ret () st') : Reparses st' ↔ ¬ t.Breaks op := by
  obtain ⟨c, c', hrep, hp, he, hok⟩ := returned hr hc h
  rw [reparses_iff hrep] at hv
  rw [reparses_iff hok.rep, breaks_iff hp hv he, reads_iff hrep ht]

/-! ### edits of segments -/

/-- After this edit the text does not parse to the components any more: without an authority, the list of segments
then starts with an empty one before another, or is a single empty one with something behind it, or a segment that
need not be well formed where it is gets another one in front of it. (Something put in front of a path that does
not start with a slash is merged with its first segment, see `C37_front_false`.) -/
def Texts.BreaksEdit (t : Texts) (e : SegOp) : Prop :=
  t.hasAuthority = false ∧ ¬ e.Glues t.path ∧
    ((∃ s r, e.apply (pathSegments t.path) = [] :: s :: r) ∨
      (e.apply (pathSegments t.path) = [[]] ∧ t.query ++ t.fragment ≠ []) ∨
      (t.Unslashed ∧ e.cut.2 = 0 ∧ e.text ≠ none))

theorem seg_shape {a b f : Bool} {p : Str} (h : PathOk lib a b f p) :
    ((∀ s ∈ pathSegments p, PChars s) ∧ (p = absPath (pathSegments p) ∨
      ∃ s r, pathSegments p = s :: r ∧ s ≠ [] ∧ p = s ++ absPath r)) ∨
    ∃ w s r, w ≠ c!"/" ∧ PChars s ∧ (∀ x ∈ r, PChars x) ∧ ¬ PChars (w :: s) ∧ p = absPath ((w :: s) :: r) ∧ pathSegments p = (w :: s) :: r := by
  rcases pathOk_shape h with ⟨segs, hs, rfl⟩ | ⟨_, ⟨rfl, -⟩ | ⟨w, s, t, hw, hs, ⟨segs, ht, rfl⟩, rfl⟩⟩ | ⟨s, t, h0, hs, ⟨segs, ht, rfl⟩, rfl⟩
  · have e : pathSegments (segs.flatMap (c!"/" :: ·)) = segs := segments_slashed hs
    exact .inl ⟨by rw [e]; exact hs, .inl (by rw [e]; rfl)⟩
  · refine .inl ⟨?_, .inl (by decide)⟩
    intro s hs
    have : s = [] := by simpa [pathSegments, splitAt] using hs
    rw [this]; exact .nil
  · have e : pathSegments (c!"/" :: (w :: s) ++ slashed segs) = (w :: s) :: segs := by
      refine segments_absolute ?_ ht
      rw [List.all_cons, pchars_noslash hs, Bool.and_true]
      simpa using hw
    have e : pathSegments (c!"/" :: w :: s ++ segs.flatMap (c!"/" :: ·)) = (w :: s) :: segs := e
    by_cases hws : PChars (w :: s)
    · refine .inl ⟨?_, .inl ?_⟩
      · rw [e]
        intro x hx
        rcases List.mem_cons.1 hx with rfl | hx
        · exact hws
        · exact ht x hx
      · rw [e]; simp [absPath]
    · exact .inr ⟨w, s, segs, hw, hs, ht, hws, by simp [absPath], e⟩
  · have e : pathSegments (s ++ segs.flatMap (c!"/" :: ·)) = s :: segs := segments_rootless h0 (pchars_noslash hs) ht
    refine .inl ⟨?_, .inr ⟨s, segs, e, h0, rfl⟩⟩
    rw [e]
    intro x hx
    rcases List.mem_cons.1 hx with rfl | hx
    · exact hs
    · exact ht x hx

theorem absPath_double {l : List Str} (h : ∀ s ∈ l, c!"/" ∉ s) : b!"//" <+: absPath l ↔ ∃ s r, l = [] :: s :: r := by
  constructor
  · rintro ⟨z, hz⟩
    rcases l with _ | ⟨s, r⟩
    · simp [absPath] at hz
    · simp only [absPath, List.flatMap_cons, List.cons_append, List.nil_append, List.cons.injEq, true_and] at hz
      rcases s with _ | ⟨a, s⟩
      · rcases r with _ | ⟨x, r⟩
        · simp at hz
        · exact ⟨x, r, rfl⟩
      · simp only [List.cons_append, List.cons.injEq] at hz
        exact absurd (by rw [← hz.1]; simp) (h (a :: s) (by simp))
  · rintro ⟨s, r, rfl⟩
    exact ⟨s ++ absPath r, by simp [absPath]⟩

theorem absPath_lone {l : List Str} : absPath l = b!"/" ↔ l = [[]] := by
  rcases l with _ | ⟨s, r⟩
  · simp [absPath]
  · simp only [absPath, List.flatMap_cons, List.cons_append, List.cons.injEq, true_and, List.append_eq_nil_iff, List.nil_append]
    constructor
    · rintro ⟨rfl, hr⟩
      cases r with
      | nil => exact ⟨rfl, rfl⟩
      | cons x r => simp at hr
    · rintro ⟨rfl, rfl⟩
      exact ⟨rfl, rfl⟩

theorem apply_mem {e : SegOp} {l : List Str} {x : Str} (h : x ∈ e.apply l) : x ∈ l ∨ e.text = some x := by
  unfold SegOp.apply at h
  simp only [List.mem_append] at h
  rcases h with (h | h) | h
  · exact .inl (List.mem_of_mem_take h)
  · exact .inr (by simpa using h)
  · exact .inl (List.mem_of_mem_drop h)

theorem slashed_abs {l : List Str} (h : ∀ s ∈ l, PChars s) : Slashed isUpperHex (absPath l) := ⟨l, h, rfl⟩

theorem unslashed_of {p : Str} (h : Slashed isUpperHex p) : p = absPath (pathSegments p) ∧ ∀ s ∈ pathSegments p, PChars s := by
  obtain ⟨segs, hs, rfl⟩ := h
  have e : pathSegments (segs.flatMap (c!"/" :: ·)) = segs := segments_slashed hs
  rw [e]
  exact ⟨rfl, hs⟩

/-- the condition on the path, for a path that starts with a slash if it is not empty -/
theorem valid_abs {c : Components} {l : List Str} (hp : PartsOk { c with path := absPath l }) (ha : c.auth = none) (h : ∀ s ∈ l, PChars s) :
    ({ c with path := absPath l } : Components).Valid lib ↔
      ¬ ((∃ s r, l = [] :: s :: r) ∨ (l = [[]] ∧ (textsOf c).query ++ (textsOf c).fragment ≠ [])) := by
  have hs := slashed_abs h
  rw [stands_iff (a := false) (b := true) (f := false) hp (by unfold PathOk; rw [if_pos rfl]; exact hs), textsOf_rest]
  have hcol := slashed_no_colon hs
  have h1 := absPath_double (l := l) fun s hm hc => by have := List.all_eq_true.1 (pchars_noslash (h s hm)) _ hc; simp at this
  have h2 := @absPath_lone l
  unfold Stands
  simp only [ha]
  grind

theorem edit_breaks {e : SegOp} {c : Components} (hp : PartsOk c) (hv : c.Valid lib) (hev : e.Valid) (hf : e.Fits (pathSegments c.path).length) :
    ({ c with path := editText e c.path } : Components).Valid lib ↔ ¬ (textsOf c).BreaksEdit e := by
  have hp' : ∀ p, PartsOk { c with path := p } := fun p => ⟨hp.scheme, hp.auth, hp.query, hp.fragment⟩
  have hS := (stands_iff hp hv.2.2.1).1 hv
  have hok := hv.2.2.1
  rw [Texts.BreaksEdit, textsOf_auth]
  have e0 : (textsOf c).path = c.path := rfl
  have e1 : (textsOf c).Unslashed = ¬ Slashed isUpperHex c.path := rfl
  rw [e0, e1]
  have htext : ∀ x, e.text = some x → PChars x := fun x hx => text_well hev hx
  have happ : (∀ s ∈ pathSegments c.path, PChars s) → ∀ s ∈ e.apply (pathSegments c.path), PChars s := by
    intro h s hs
    rcases apply_mem hs with h' | h'
    · exact h s h'
    · exact htext s h'
  by_cases ha : c.auth ≠ none
  · -- with an authority
    obtain ⟨h1, h2⟩ := unslashed_of (hS.1 ha)
    have hroot : ¬ Rootless c.path := by rw [h1]; exact absPath_not_rootless _
    have hg : ¬ e.Glues c.path := fun h => hroot h.2.2
    rw [editText_eq hf hg, SegOp.newPath]
    simp only [hroot, false_and, if_false]
    simp only [ha, false_and, not_false_eq_true, iff_true]
    rw [(hp' _).valid_iff]
    unfold PathOk
    rw [if_pos (Option.isSome_iff_ne_none.2 ha)]
    exact slashed_abs (happ h2)
  have ha : c.auth = none := Classical.not_not.1 ha
  rw [and_iff_right ha]
  by_cases hg : e.Glues c.path
  · -- merged with the first segment
    simp only [hg, not_true_eq_false, false_and, not_false_eq_true, iff_true]
    obtain ⟨h2, ht, hr⟩ := hg
    have h1 : e.cut.1 = 0 := by have := hf.1; omega
    obtain ⟨x, hx⟩ := Option.ne_none_iff_exists'.1 ht
    rcases seg_shape hok with ⟨hall, hab | ⟨s, r, hl, hs, hpe⟩⟩ | ⟨w, s, r, -, -, -, -, hpe, -⟩
    · exact absurd (hab ▸ hr) (absPath_not_rootless _)
    · have e2 : editText e c.path = absPath ((x ++ s) :: r) := by
        unfold editText
        rw [h1, h2, hx, List.take_zero, List.drop_zero, pieces_flatten, hpe]
        simp [absPath]
      rw [hl] at hall
      have hall' : ∀ u ∈ (x ++ s) :: r, PChars u := by
        intro u hu
        rcases List.mem_cons.1 hu with rfl | hu
        · exact (htext x hx).append (hall s (by simp))
        · exact hall u (by simp [hu])
      rw [e2, valid_abs (hp' _) ha hall']
      simp [hs]
    · exact absurd (hpe ▸ hr) (absPath_not_rootless _)
  simp only [hg, not_false_eq_true, true_and]
  have hnew := segments_editText hev hf hg
  rw [editText_eq hf hg, SegOp.newPath] at hnew ⊢
  rcases seg_shape hok with ⟨hall, hab | ⟨s, r, hl, hs, hpe⟩⟩ | ⟨w, s, r, hw, hsp, hrp, hbad, hpe, hl⟩
  · -- a path of well formed segments that starts with a slash
    have hroot : ¬ Rootless c.path := by rw [hab]; exact absPath_not_rootless _
    simp only [hroot, false_and, if_false]
    rw [valid_abs (hp' _) ha (happ hall)]
    have : Slashed isUpperHex c.path := by rw [hab]; exact slashed_abs hall
    simp only [this, not_true_eq_false, false_and, or_false]
  · -- a path that does not start with a slash
    have hroot : Rootless c.path := by
      have hn := pchars_noslash (hall s (by simp [hl]))
      rw [hpe]
      cases s with
      | nil => exact absurd rfl hs
      | cons a s =>
        refine ⟨by simp, ?_⟩
        simp only [List.all_cons, Bool.and_eq_true, bne_iff_ne, ne_eq] at hn
        simpa using hn.1
    have h3 : ¬ (e.cut.2 = 0 ∧ e.text ≠ none) := fun h => hg ⟨h.1, h.2, hroot⟩
    have hS' := hS.2 ha
    by_cases hk : e.KeepsFirst
    · simp only [hroot, hk, true_and, if_true, and_self]
      obtain ⟨r', hr', hr2⟩ : ∃ r', e.apply (pathSegments c.path) = s :: r' ∧ ∀ x ∈ r', PChars x := by
        have hm := happ hall
        rw [hl] at hm ⊢
        have : ∃ r', e.apply (s :: r) = s :: r' := by
          unfold SegOp.apply
          rcases hk with hk | ⟨hk, ht⟩
          · obtain ⟨m, hm⟩ : ∃ m, e.cut.1 = m + 1 := ⟨e.cut.1 - 1, by omega⟩
            exact ⟨_, by rw [hm, List.take_succ_cons, List.cons_append, List.cons_append]⟩
          · have h1 : e.cut.1 = 0 := by have := hf.1; omega
            exact ⟨r, by simp [h1, hk, ht]⟩
        obtain ⟨r', h⟩ := this
        refine ⟨r', h, fun x hx => hm x (by rw [h]; simp [hx])⟩
      have hne : ¬ ((∃ s_1 r, e.apply (pathSegments c.path) = [] :: s_1 :: r) ∨
          e.apply (pathSegments c.path) = [[]] ∧ (textsOf c).query ++ (textsOf c).fragment ≠ [] ∨
            ¬Slashed isUpperHex c.path ∧ e.cut.2 = 0 ∧ e.text ≠ none) := by
        rw [hr']
        simp [hs]
        intro _ h2
        exact Classical.byContradiction fun h => h3 ⟨h2, h⟩
      refine ⟨fun _ => hne, fun _ => ?_⟩
      have e2 : (absPath (e.apply (pathSegments c.path))).drop 1 = s ++ absPath r' := by rw [hr']; simp [absPath]
      rw [e2]
      have hps : PChars s := hall s (by simp [hl])
      have hrl : PathRootless isUpperHex (s ++ absPath r') := ⟨s, _, hs, hps, slashed_abs hr2, rfl⟩
      rw [stands_iff (a := true) (b := false) (f := false) (hp' _) (by
        unfold PathOk; rw [if_neg (by simp), if_pos rfl]; exact .inr (.inr hrl))]
      refine ⟨fun h => absurd ha h, fun _ => ⟨?_, ?_, fun h => ?_⟩⟩
      · have := (rootless_head hrl).2
        rintro ⟨z, hz⟩
        dsimp only at hz
        rw [← hz] at this
        exact this rfl
      · intro h
        have := (rootless_head hrl).2
        dsimp only at h
        rw [h] at this
        exact absurd rfl this
      · have h5 := hS'.2.2 h
        rw [hpe, take_noslash (pchars_noslash hps) (Slashed.head (slashed_abs fun x hx => hall x (by simp [hl, hx])))] at h5
        show c!":" ∉ (s ++ absPath r').takeWhile _
        rw [take_noslash (pchars_noslash hps) (Slashed.head (slashed_abs hr2))]
        exact h5
    · simp only [hk, and_false, if_false]
      rw [valid_abs (hp' _) ha (happ hall)]
      grind
  · -- a first segment that is not well formed
    have hroot : ¬ Rootless c.path := by rw [hpe]; exact absPath_not_rootless _
    have hus : ¬ Slashed isUpperHex c.path := fun h => hbad ((unslashed_of h).2 _ (by simp [hl]))
    simp only [hroot, false_and, if_false, hus, not_false_eq_true, true_and] at hnew ⊢
    by_cases h0 : e.cut.2 = 0 ∧ e.text ≠ none
    · simp only [h0, and_self, or_true, not_true_eq_false, iff_false, ne_eq, not_false_eq_true]
      intro hval
      obtain ⟨x, hx⟩ := Option.ne_none_iff_exists'.1 h0.2
      have h1 : e.cut.1 = 0 := by have := hf.1; omega
      have ea : e.apply (pathSegments c.path) = x :: (w :: s) :: r := by
        unfold SegOp.apply
        rw [h1, h0.1, hx, hl]
        rfl
      rw [ea] at hnew hval
      rcases seg_shape hval.2.2.1 with ⟨hall, -⟩ | ⟨_, _, r', -, -, hr', -, -, hl'⟩
      · exact hbad (hall _ (by dsimp only; rw [hnew]; simp))
      · dsimp only at hl'
        rw [hnew] at hl'
        simp only [List.cons.injEq] at hl'
        exact hbad (hr' _ (by rw [← hl'.2]; simp))
    · simp only [h0, or_false]
      by_cases h1 : e.cut.1 = 0
      · by_cases h2 : e.cut.2 = 0
        · have ht : e.text = none := Classical.byContradiction fun h => h0 ⟨h2, h⟩
          have ea : e.apply (pathSegments c.path) = (w :: s) :: r := by
            unfold SegOp.apply
            rw [h1, h2, ht, hl]
            rfl
          rw [ea, ← hpe]
          simp only [List.cons.injEq, reduceCtorEq, false_and, exists_const, or_self, not_false_eq_true, iff_true]
          exact hv
        · refine valid_abs (hp' _) ha ?_
          intro u hu
          unfold SegOp.apply at hu
          simp only [h1, List.take_zero, List.nil_append, List.mem_append, hl] at hu
          rcases hu with hu | hu
          · exact htext u (by simpa using hu)
          · obtain ⟨m, hm⟩ : ∃ m, e.cut.2 = m + 1 := ⟨e.cut.2 - 1, by omega⟩
            rw [hm, List.drop_succ_cons] at hu
            exact hrp u (List.mem_of_mem_drop hu)
      · obtain ⟨m, hm⟩ : ∃ m, e.cut.1 = m + 1 := ⟨e.cut.1 - 1, by omega⟩
        obtain ⟨k, hk⟩ : ∃ k, e.cut.2 = k + 1 := ⟨e.cut.2 - 1, by have := hf.1; omega⟩
        have ea : e.apply (pathSegments c.path) = (w :: s) :: (r.take m ++ e.text.toList ++ r.drop k) := by
          unfold SegOp.apply
          rw [hm, hk, hl, List.take_succ_cons, List.drop_succ_cons, List.cons_append, List.cons_append]
        have hrest : ∀ u ∈ r.take m ++ e.text.toList ++ r.drop k, PChars u := by
          intro u hu
          simp only [List.mem_append] at hu
          rcases hu with (hu | hu) | hu
          · exact hrp u (List.mem_of_mem_take hu)
          · exact htext u (by simpa using hu)
          · exact hrp u (List.mem_of_mem_drop hu)
        rw [ea]
        simp only [List.cons.injEq, reduceCtorEq, false_and, exists_const, or_self, not_false_eq_true, iff_true]
        rw [(hp' _).valid_iff]
        have hl : LoosePathAbsolute (absPath ((w :: s) :: (r.take m ++ e.text.toList ++ r.drop k))) (c.query.isSome || c.fragment.isSome) :=
          .inr ⟨w, s, _, hw, hsp, slashed_abs hrest, by simp [absPath]⟩
        unfold PathOk
        rw [if_neg (by simp [ha])]
        split
        · exact .inr (.inl hl)
        · exact .inr (.inl hl)

/-- C69 for edits of segments. -/
theorem C69_edits {e : SegOp} {it : SegIt} {t : Texts} (hr : Reach env st) (he : Editable env st e) (ht : Reads st t) (hv : Reparses st)
    (h : runSeg e env st = .ret it st') : Reparses st' ↔ ¬ t.BreaksEdit e := by
  obtain ⟨c, hrep, hp, hev, hf, hok⟩ := edited hr he h
  rw [reparses_iff hrep] at hv
  rw [reparses_iff hok.rep, edit_breaks hp hv hev hf, reads_iff hrep ht]

/-! ### histories -/

/-- Every url has texts. -/
theorem reads_texts (hr : Reach env st) : ∃ t, Reads st t := by
  obtain ⟨c, hrep, -⟩ := hr.rep
  have b := hrep.reports false
  exact ⟨textsOf c, b.scheme, b.has_authority, b.userinfo_part, b.host, b.port_part, b.path, b.query_part, b.fragment_part⟩

/-- The states after calls and edits of which none is listed in `Texts.Breaks` and `Texts.BreaksEdit`. -/
inductive Intact (env : Env) : St → Prop
  | empty : Intact env Base.empty
  | call {st st' : St} {t : Texts} (op : Op) : Intact env st → Callable env st op → Reads st t → ¬ t.Breaks op →
      (run op env st = .ret () st' ∨ ∃ e, run op env st = .throw e st') → Intact env st'
  | edit {st st' : St} {t : Texts} (e : SegOp) : Intact env st → Editable env st e → Reads st t → ¬ t.BreaksEdit e →
      ((∃ it, runSeg e env st = .ret it st') ∨ ∃ x, runSeg e env st = .throw x st') → Intact env st'

theorem Reparses.of_same (h : Reparses st) (hp : st'.pt = st.pt) (ho : ∀ dbg, st'.obj dbg = st.obj dbg) : Reparses st' := by
  obtain ⟨txt, v, h1, h2, h3⟩ := h
  exact ⟨txt, v, by rw [ho]; exact h1, h2, fun i hi => by rw [hp]; exact h3 i hi⟩

/-- C69: the text parses to the components at all times if no call or edit is one of those listed. -/
theorem C69_history (h : Intact env st) : Reach env st ∧ Reparses st := by
  induction h with
  | empty => exact ⟨.empty, (reparses_iff (env := env) Rep.empty).2 (PartsOk.empty.valid_iff.2 (.inl rfl))⟩
  | call op _ hc ht hb hrun ih =>
    refine ⟨.call op ih.1 hc hrun, ?_⟩
    rcases hrun with hrun | ⟨x, hrun⟩
    · exact (C69_calls ih.1 hc ht ih.2 hrun).2 hb
    · exact ih.2.of_same (C18_strong hrun).1 (C18_observed hrun)
  | edit e _ he ht hb hrun ih =>
    refine ⟨.edit e ih.1 he hrun, ?_⟩
    rcases hrun with ⟨it, hrun⟩ | ⟨x, hrun⟩
    · exact (C69_edits ih.1 he ht ih.2 hrun).2 hb
    · have hs := (C37_throw ih.1 he hrun).1
      have h1 := congrArg St.pt hs
      have h2 := fun dbg => congrArg (fun s => St.obj s dbg) hs
      exact ih.2.of_same h1 h2

/-! ### cases -/

theorem made_reparses {s : Str} (h : Base.set_encoded_url s env Base.empty = .ret () (made env s)) : Reparses (made env s) :=
  C21_set_encoded_url .empty h

/-- what the accessors say about the url made from `s` -/
def textsMade (s : Str) : Texts :=
  let get (r : R Str) : Str := r.toOption.getD []
  let o := (made env0 s).obj false
  ⟨get (scheme o), has_authority o, get (userinfo_part o), get (encoded_host o), get (port_part o), get (encoded_path o),
    get (query_part o), get (fragment_part o)⟩

instance (t : Texts) : Decidable t.Bare := inferInstanceAs (Decidable (_ ∨ _))
instance (t : Texts) : Decidable t.Colon := inferInstanceAs (Decidable (_ ∈ _))

/-- the text after a call, and what the parser makes of it: nothing, the same offsets or other ones -/
def reparsed (s : Str) (op : Op) : Option (Str × Option Bool) :=
  match run op env0 (made env0 s) with
  | .ret () st =>
    match encoded_url (st.obj false) with
    | .ok txt => some (txt, match View.make txt with
      | .ret v => some ((List.range 9).all fun i => v.pt.off i == st.pt.off i)
      | _ => none)
    | _ => none
  | _ => none

-- removing the scheme
example : Reach env0 (made env0 b!"a:b:c/d") ∧ Reparses (made env0 b!"a:b:c/d") ∧ Reads (made env0 b!"a:b:c/d") (textsMade b!"a:b:c/d") ∧
    Callable env0 (made env0 b!"a:b:c/d") (.set_scheme []) ∧ (textsMade b!"a:b:c/d").Breaks (.set_scheme []) ∧
    reparsed b!"a:b:c/d" (.set_scheme []) = some (b!"b:c/d", some false) ∧
    ¬ (textsMade b!"a:b/c:d").Breaks (.set_scheme []) ∧ reparsed b!"a:b/c:d" (.set_scheme []) = some (b!"b/c:d", some true) := by
  refine ⟨(made_ok (by decide) rfl).1, made_reparses rfl, ⟨?_, ?_, ?_, ?_, ?_, ?_, ?_, ?_⟩, fun _ _ h => h, ⟨rfl, ?_, ?_⟩, ?_, fun h => ?_, ?_⟩
  all_goals first | decide +kernel | skip
  exact absurd h.2.2 (by decide +kernel)

-- removing the authority
example : (textsMade b!"//h//p").Breaks (.set_host []) ∧ reparsed b!"//h//p" (.set_host []) = some (b!"//p", some false) ∧
    (textsMade b!"//h/?q").Breaks (.set_encoded_authority []) ∧ reparsed b!"//h/?q" (.set_encoded_authority []) = some (b!"/?q", some false) ∧
    ¬ (textsMade b!"//u@h//p").Breaks (.set_host []) ∧ reparsed b!"//u@h//p" (.set_host []) = some (b!"//u@//p", some true) := by
  refine ⟨?_, ?_, ?_, ?_, ?_, ?_⟩
  · rw [Texts.Breaks, if_pos rfl]; decide +kernel
  · decide +kernel
  · rw [Texts.Breaks, if_pos rfl]; decide +kernel
  · decide +kernel
  · rw [Texts.Breaks, if_pos rfl]; decide +kernel
  · decide +kernel

-- adding one
example : (textsMade b!"x?q").Breaks (.set_port b!"8") ∧ reparsed b!"x?q" (.set_port b!"8") = some (b!"//:8x?q", none) ∧
    ¬ (textsMade b!"/x?q").Breaks (.set_port b!"8") ∧ reparsed b!"/x?q" (.set_port b!"8") = some (b!"//:8/x?q", some true) := by
  refine ⟨?_, by decide +kernel, ?_, by decide +kernel⟩
  · rw [Texts.Breaks, if_neg (by decide)]
    intro h
    exact absurd (unslashed_of h).1 (by decide +kernel)
  · rw [Texts.Breaks, if_neg (by decide)]
    refine fun h => h ⟨[b!"x"], ?_, by decide +kernel⟩
    intro s hs
    rw [List.mem_singleton] at hs
    exact hs ▸ .char (by decide) .nil

-- a lone slash
example : (textsMade b!"s:/").Breaks (.set_query b!"q") ∧ reparsed b!"s:/" (.set_query b!"q") = some (b!"s:/?q", some false) ∧
    (textsMade b!"s:?q").Breaks (.set_encoded_path b!"/") ∧ reparsed b!"s:?q" (.set_encoded_path b!"/") = some (b!"s:/?q", some false) ∧
    ¬ (textsMade b!"s:/").Breaks (.set_host b!"h") ∧ reparsed b!"s:/" (.set_host b!"h") = some (b!"s://h/", some true) := by
  refine ⟨⟨?_, ?_, ?_⟩, ?_, ⟨?_, ?_, ?_⟩, ?_, ?_, ?_⟩
  all_goals first | decide +kernel | skip
  rw [Texts.Breaks, if_neg (by decide)]
  refine fun h => h ⟨[[]], ?_, by decide +kernel⟩
  intro s hs
  rw [List.mem_singleton] at hs
  exact hs ▸ .nil

/-- the same for an edit -/
def reparsedEdit (s : Str) (e : SegOp) : Option (Str × Option Bool) :=
  match runSeg e env1 (made env1 s) with
  | .ret _ st =>
    match encoded_url (st.obj false) with
    | .ok txt => some (txt, match View.make txt with
      | .ret v => some ((List.range 9).all fun i => v.pt.off i == st.pt.off i)
      | _ => none)
    | _ => none
  | _ => none

example : reparsedEdit b!"/a//b" (.erase 0) = some (b!"//b", some false) ∧ (textsMade b!"/a//b").BreaksEdit (.erase 0) ∧
    reparsedEdit b!"/a?q" (.replace 0 []) = some (b!"/?q", some false) ∧ (textsMade b!"/a?q").BreaksEdit (.replace 0 []) ∧
    reparsedEdit b!"//h/a//b" (.erase 0) = some (b!"//h//b", some true) ∧ ¬ (textsMade b!"//h/a//b").BreaksEdit (.erase 0) ∧
    reparsedEdit b!"a/b" (.insert 0 []) = some (b!"/a/b", some true) ∧ ¬ (textsMade b!"a/b").BreaksEdit (.insert 0 []) := by
  refine ⟨by decide +kernel, ⟨by decide +kernel, by decide +kernel, .inl ⟨b!"b", [], by decide +kernel⟩⟩, by decide +kernel,
    ⟨by decide +kernel, by decide +kernel, .inr (.inl ⟨by decide +kernel, by decide +kernel⟩)⟩, by decide +kernel,
    fun h => absurd h.1 (by decide +kernel), by decide +kernel, fun h => h.2.1 ⟨rfl, by decide, by decide +kernel⟩⟩

example : Reach env1 (made env1 b!"/%/b") ∧ Editable env1 (made env1 b!"/%/b") (.insert 0 b!"a") ∧
    reparsedEdit b!"/%/b" (.insert 0 b!"a") = some (b!"/a/%/b", none) ∧ (textsMade b!"/%/b").BreaksEdit (.insert 0 b!"a") ∧
    reparsedEdit b!"/%/b" (.insert 1 b!"a") = some (b!"/%/a/b", some true) := by
  refine ⟨(made_ok (by decide) rfl).1, ⟨b!"/%/b", by decide +kernel⟩, by decide +kernel,
    ⟨by decide +kernel, by decide +kernel, .inr (.inr ⟨fun h => ?_, rfl, by decide⟩)⟩, by decide +kernel⟩
  have h := (unslashed_of h).2 b!"%" (by decide +kernel)
  cases h with
  | char h => exact absurd h (by decide)

/-- the state after one more call -/
def next (op : Op) (st : St) : St :=
  match run op env0 st with
  | .ret () st' => st'
  | .throw _ st' => st'
  | _ => Base.empty

theorem Intact.next {t : Texts} (op : Op) (h : Intact env0 st) (hc : Callable env0 st op) (ht : Reads st t) (hb : ¬ t.Breaks op) :
    Intact env0 (Props.next op st) := by
  unfold Props.next
  match hr : run op env0 st with
  | .ret () _ => exact .call op h hc ht hb (.inl hr)
  | .throw x _ => exact .call op h hc ht hb (.inr ⟨x, hr⟩)
  | .fault _ => exact .empty

example : Intact env0 (next (.set_query b!"q") (next (.set_encoded_path b!"//p") (next (.set_encoded_host b!"h") Base.empty))) ∧
    encoded_url ((next (.set_query b!"q") (next (.set_encoded_path b!"//p") (next (.set_encoded_host b!"h") Base.empty))).obj false) =
      .ok b!"//h//p?q" := by
  refine ⟨?_, by decide +kernel⟩
  refine .next (t := ⟨[], true, [], b!"h", [], b!"//p", [], []⟩) (.set_query b!"q") ?_ (fun _ _ h => h)
    ⟨?_, ?_, ?_, ?_, ?_, ?_, ?_, ?_⟩ (fun h => absurd h.2.1 (by decide))
  · refine .next (t := ⟨[], true, [], b!"h", [], [], [], []⟩) (.set_encoded_path b!"//p") ?_ (fun _ _ h => h)
      ⟨?_, ?_, ?_, ?_, ?_, ?_, ?_, ?_⟩ (fun h => absurd h.1 (by decide))
    · refine .next (t := ⟨[], false, [], [], [], [], [], []⟩) (.set_encoded_host b!"h") .empty (fun _ _ h => h)
        ⟨?_, ?_, ?_, ?_, ?_, ?_, ?_, ?_⟩ ?_
      · decide +kernel
      · decide +kernel
      · decide +kernel
      · decide +kernel
      · decide +kernel
      · decide +kernel
      · decide +kernel
      · decide +kernel
      · rw [Texts.Breaks, if_neg (by decide)]
        exact fun h => h ⟨[], nofun, rfl⟩
    all_goals decide +kernel
  all_goals decide +kernel

end Url.Props
