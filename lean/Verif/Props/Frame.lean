import Verif.Props.Container
import Verif.Proofs.Strong

/-!
Properties of the container `url`: C17 - C20.
-/

set_option linter.unusedSimpArgs false
set_option autoImplicit false

namespace Url.Props
open Url Spec

variable {env : Env} {st st' : St}

/-! ### C17 -/

/-- The components of a URL one can set. -/
inductive Part where
  | scheme | user | password | host | port | path | query | fragment
  deriving DecidableEq

/-- The accessor that shows a component together with its delimiter, so that absent and empty components
differ. -/
def Part.text (p : Part) (o : Obj) : R Str :=
  match p with
  | .scheme => Url.scheme o
  | .user => encoded_user o
  | .password => password_part { o with dbg := false }
  | .host => encoded_host o
  | .port => port_part o
  | .path => encoded_path o
  | .query => query_part o
  | .fragment => fragment_part o

/-- The components a call is there to set. -/
def sets : Op → List Part
  | .set_encoded_url _ => [.scheme, .user, .password, .host, .port, .path, .query, .fragment]
  | .set_encoded_origin _ => [.scheme, .user, .password, .host, .port]
  | .set_scheme _ => [.scheme]
  | .set_encoded_authority _ => [.user, .password, .host, .port]
  | .set_encoded_userinfo _ => [.user, .password]
  | .set_userinfo_part _ => [.user, .password]
  | .set_user _ => [.user]
  | .set_encoded_user _ => [.user]
  | .set_password _ => [.password]
  | .set_encoded_password _ => [.password]
  | .set_password_part _ => [.password]
  | .set_host _ => [.host]
  | .set_encoded_host _ => [.host]
  | .set_port _ => [.port]
  | .set_port_number _ => [.port]
  | .set_port_part _ => [.port]
  | .set_encoded_path _ => [.path]
  | .set_query _ => [.query]
  | .set_encoded_query _ => [.query]
  | .set_query_part _ => [.query]
  | .set_fragment _ => [.fragment]
  | .set_encoded_fragment _ => [.fragment]
  | .set_fragment_part _ => [.fragment]
  | .normalize_scheme => [.scheme]
  | .normalize => [.scheme]

/-- a call that sets a part of the authority -/
def setsAuthority (op : Op) : Bool := (sets op).any fun p => p = .user ∨ p = .password ∨ p = .host ∨ p = .port

/-- the text of a component with its delimiter -/
def Part.of (p : Part) (c : Components) : Str :=
  match p with
  | .scheme => c.scheme.getD []
  | .user => c.user
  | .password => withPrefix b!":" (c.userinfo.bind (·.2))
  | .host => c.host
  | .port => withPrefix b!":" c.port
  | .path => c.path
  | .query => withPrefix b!"?" c.query
  | .fragment => withPrefix b!"#" c.fragment

theorem Part.text_eq {c : Components} (h : Rep env st c) (dbg : Bool) (p : Part) : p.text (st.obj dbg) = .ok (p.of c) := by
  have hr := h.reports dbg
  cases p
  · exact hr.scheme
  · exact hr.user
  · exact (h.reports false).password_part rfl
  · exact hr.host
  · exact hr.port_part
  · exact hr.path
  · exact hr.query_part
  · exact hr.fragment_part

theorem effect_frame {op : Op} {c c' : Components} (he : op.Effect c c') (p : Part) (hp : p ∉ sets op) : p.of c' = p.of c := by
  cases op with
  | set_encoded_url s => cases p <;> simp [sets] at hp
  | set_encoded_origin s =>
    rcases he with ⟨-, rfl⟩ | ⟨sch, a, -, rfl⟩ <;> cases p <;> simp [sets] at hp <;> rfl
  | set_scheme s => obtain ⟨-, rfl⟩ := he; cases p <;> simp [sets] at hp <;> rfl
  | set_encoded_authority s =>
    rcases he with ⟨-, rfl⟩ | ⟨-, a, -, rfl⟩ <;> cases p <;> simp [sets] at hp <;> rfl
  | set_encoded_userinfo s =>
    rcases he with ⟨-, rfl⟩ | ⟨-, u, -, rfl⟩
    · rcases c with ⟨_, _ | ⟨u, h, pt⟩, _, _, _⟩
      · cases p <;> simp [sets] at hp <;> rfl
      · by_cases hh : h = [] ∧ pt = none
        · obtain ⟨rfl, rfl⟩ := hh
          cases p <;> simp [sets] at hp <;> rfl
        · cases p <;> simp [sets] at hp <;>
            simp [Part.of, Components.clearUserinfo, Components.withAuth, Components.host, Components.port, hh]
    · rcases c with ⟨_, _ | ⟨u, h, pt⟩, _, _, _⟩ <;> cases p <;> simp [sets] at hp <;> rfl
  | set_userinfo_part s =>
    rcases he with ⟨-, rfl⟩ | ⟨x, u, -, -, -, rfl⟩
    · rcases c with ⟨_, _ | ⟨u, h, pt⟩, _, _, _⟩
      · cases p <;> simp [sets] at hp <;> rfl
      · by_cases hh : h = [] ∧ pt = none
        · obtain ⟨rfl, rfl⟩ := hh
          cases p <;> simp [sets] at hp <;> rfl
        · cases p <;> simp [sets] at hp <;>
            simp [Part.of, Components.clearUserinfo, Components.withAuth, Components.host, Components.port, hh]
    · rcases c with ⟨_, _ | ⟨u, h, pt⟩, _, _, _⟩ <;> cases p <;> simp [sets] at hp <;> rfl
  | set_user s | set_encoded_user s =>
    first
      | obtain ⟨-, rfl⟩ := he
      | obtain rfl : c' = if s = [] then c.clearUser else c.withUser (pctEncode isRegName s) := he
    split <;> rcases c with ⟨_, _ | ⟨_ | ⟨u, _ | pw⟩, h, pt⟩, _, _, _⟩ <;> cases p <;> simp [sets] at hp <;> rfl
  | set_password s | set_encoded_password s =>
    first
      | obtain ⟨-, -, rfl⟩ := he
      | obtain rfl : c' = if s = [] then c.clearPassword else c.withPassword (pctEncode isUserinfo s) := he
    split
    · rcases c with ⟨_, _ | ⟨_ | ⟨_ | u, pw⟩, h, pt⟩, _, _, _⟩ <;> cases p <;> simp [sets] at hp <;> rfl
    · rcases c with ⟨_, _ | ⟨_ | ⟨u, pw⟩, h, pt⟩, _, _, _⟩ <;> cases p <;> simp [sets] at hp <;> rfl
  | set_password_part s =>
    rcases he with ⟨-, rfl⟩ | ⟨-, rfl⟩ | ⟨_, _, -, -, -, -, rfl⟩
    · rcases c with ⟨_, _ | ⟨_ | ⟨_ | u, pw⟩, h, pt⟩, _, _, _⟩ <;> cases p <;> simp [sets] at hp <;> rfl
    · rcases c with ⟨_, _ | ⟨_ | ⟨u, pw⟩, h, pt⟩, _, _, _⟩ <;> cases p <;> simp [sets] at hp <;> rfl
    · rcases c with ⟨_, _ | ⟨_ | ⟨u, pw⟩, h, pt⟩, _, _, _⟩ <;> cases p <;> simp [sets] at hp <;> rfl
  | set_host s | set_encoded_host s =>
    have : c' = c.clearHost ∨ ∃ t, c' = c.withHost t := by
      first
        | (rcases he with ⟨-, rfl⟩ | ⟨-, t, k, -, rfl⟩
           · exact .inl rfl
           · exact .inr ⟨_, rfl⟩)
        | (obtain ⟨-, rfl⟩ := he
           split
           · exact .inl rfl
           · exact .inr ⟨_, rfl⟩)
    rcases this with rfl | ⟨t, rfl⟩
    · rcases c with ⟨_, _ | ⟨_ | u, h, _ | pt⟩, _, _, _⟩ <;> cases p <;> simp [sets] at hp <;> rfl
    · rcases c with ⟨_, _ | ⟨u, h, pt⟩, _, _, _⟩ <;> cases p <;> simp [sets] at hp <;> rfl
  | set_port s | set_port_number s | set_port_part s =>
    have : c' = c.clearPort ∨ ∃ t, c' = c.withPort t := by
      first
        | (rcases he with ⟨-, rfl⟩ | ⟨t, -, -, rfl⟩
           · exact .inl rfl
           · exact .inr ⟨_, rfl⟩)
        | (obtain ⟨-, rfl⟩ := he
           split
           · exact .inl rfl
           · exact .inr ⟨_, rfl⟩)
        | (obtain ⟨t, -, rfl⟩ := he
           exact .inr ⟨_, rfl⟩)
    rcases this with rfl | ⟨t, rfl⟩
    · rcases c with ⟨_, _ | ⟨_ | u, _ | h, pt⟩, _, _, _⟩ <;> cases p <;> simp [sets] at hp <;> rfl
    · rcases c with ⟨_, _ | ⟨u, h, pt⟩, _, _, _⟩ <;> cases p <;> simp [sets] at hp <;> rfl
  | set_encoded_path s => obtain ⟨-, rfl⟩ := he; cases p <;> simp [sets] at hp <;> rfl
  | set_query s => cases he; cases p <;> simp [sets] at hp <;> rfl
  | set_encoded_query s => obtain ⟨-, rfl⟩ := he; cases p <;> simp [sets] at hp <;> rfl
  | set_query_part s => rcases he with ⟨-, rfl⟩ | ⟨q, -, -, rfl⟩ <;> cases p <;> simp [sets] at hp <;> rfl
  | set_fragment s => cases he; cases p <;> simp [sets] at hp <;> rfl
  | set_encoded_fragment s => obtain ⟨-, rfl⟩ := he; cases p <;> simp [sets] at hp <;> rfl
  | set_fragment_part s => rcases he with ⟨-, rfl⟩ | ⟨q, -, -, rfl⟩ <;> cases p <;> simp [sets] at hp <;> rfl
  | normalize_scheme => cases he; cases p <;> simp [sets] at hp <;> rfl
  | normalize => cases he; cases p <;> simp [sets] at hp <;> rfl

theorem effect_auth {op : Op} {c c' : Components} (he : op.Effect c c') (hp : setsAuthority op = false) : c'.auth = c.auth := by
  cases op with
  | set_scheme s => obtain ⟨-, rfl⟩ := he; rfl
  | set_encoded_path s => obtain ⟨-, rfl⟩ := he; rfl
  | set_query s => cases he; rfl
  | set_encoded_query s => obtain ⟨-, rfl⟩ := he; rfl
  | set_query_part s => rcases he with ⟨-, rfl⟩ | ⟨q, -, -, rfl⟩ <;> rfl
  | set_fragment s => cases he; rfl
  | set_encoded_fragment s => obtain ⟨-, rfl⟩ := he; rfl
  | set_fragment_part s => rcases he with ⟨-, rfl⟩ | ⟨q, -, -, rfl⟩ <;> rfl
  | normalize_scheme => cases he; rfl
  | normalize => cases he; rfl
  | _ => simp [setsAuthority, sets] at hp

/-- C17: a call that returns leaves the text of every component it does not set as it was. -/
theorem C17_frame_partial {op : Op} (hr : Reach env st) (hc : Callable env st op) (h : run op env st = .ret () st')
    (p : Part) (hp : p ∉ sets op) (dbg : Bool) : p.text (st'.obj dbg) = p.text (st.obj dbg) := by
  obtain ⟨c, c', hrep, -, he, hok⟩ := returned hr hc h
  rw [Part.text_eq hok.rep, Part.text_eq hrep, effect_frame he p hp]

/-- C17: the `//` appears or disappears only in calls that set a part of the authority. -/
theorem C17_authority_partial {op : Op} (hr : Reach env st) (hc : Callable env st op) (h : run op env st = .ret () st')
    (hp : setsAuthority op = false) (dbg : Bool) :
    has_authority (st'.obj dbg) = has_authority (st.obj dbg) ∧ encoded_authority (st'.obj dbg) = encoded_authority (st.obj dbg) := by
  obtain ⟨c, c', hrep, -, he, hok⟩ := returned hr hc h
  rw [(hok.rep.reports dbg).has_authority, (hrep.reports dbg).has_authority, (hok.rep.reports dbg).authority,
    (hrep.reports dbg).authority, Components.authority, Components.authority, effect_auth he hp]
  exact ⟨rfl, rfl⟩

example : Reach env0 sampleSt ∧ Callable env0 sampleSt (.set_encoded_user []) ∧
    (.password : Part) ∉ sets (.set_encoded_user []) ∧
    textOf (run (.set_encoded_user []) env0 sampleSt) = some b!"http://:p:w@h%41.x:80/a//b;c?k=v&l#f%2F" := by
  refine ⟨sampleSt_reach, fun i hi hd => ?_, by decide, by decide +kernel⟩
  rw [show Base.has_userinfo (sampleSt.obj env0.dbg) = .ok true by decide +kernel] at hi
  cases hi
  exact absurd hd.2.2 (by decide)

/-! ### C18 -/

/-- C18: a call that throws leaves the object as it was - the offsets, the counts, the host type, the
buffer with its contents, the size and the capacity. This holds for every call in every state and for
every allocator (a failed allocation is counted in `tick`, which belongs to the allocator). -/
theorem C18_strong {op : Op} {e : Exc} (h : run op env st = .throw e st') :
    st'.pt = st.pt ∧ st'.buf = st.buf ∧ st'.size = st.size ∧ st'.cap = st.cap := by
  have hs := run_strong op env st e st' h
  obtain ⟨b, s, c, t, p, a, l⟩ := st
  obtain ⟨b', s', c', t', p', a', l'⟩ := st'
  simp only [Same, St.mk.injEq] at hs
  obtain ⟨rfl, rfl, rfl, -, rfl, -, -⟩ := hs
  exact ⟨rfl, rfl, rfl, rfl⟩

/-- C18: the buffer is also still the same one, and nothing was allocated or freed. -/
theorem C18_allocation {op : Op} {e : Exc} (h : run op env st = .throw e st') : st'.addr = st.addr ∧ st'.log = st.log := by
  have hs := run_strong op env st e st' h
  obtain ⟨b, s, c, t, p, a, l⟩ := st
  obtain ⟨b', s', c', t', p', a', l'⟩ := st'
  simp only [Same, St.mk.injEq] at hs
  exact ⟨hs.2.2.2.2.2.1, hs.2.2.2.2.2.2⟩

/-- In particular nothing a `const` member can see changes. -/
theorem C18_observed {op : Op} {e : Exc} (h : run op env st = .throw e st') (dbg : Bool) : st'.obj dbg = st.obj dbg := by
  obtain ⟨h1, h2, -, -⟩ := C18_strong h
  simp only [St.obj, h1, h2]

example : run (.set_scheme b!"1") env0 sampleSt = .throw .invalid_part sampleSt ∧
    (∃ st', run (.set_encoded_query (List.replicate 80 97)) { env0 with alloc := fun _ _ => false } sampleSt = .throw .bad_alloc st') :=
  ⟨rfl, _, rfl⟩

/-! ### C19

Whether a call accepts its argument is whether it throws `invalid_part`: the other exceptions are
`bad_alloc` and `too_large`. -/

/-- The call rejects its argument. -/
def Rejects (op : Op) (env : Env) (st : St) : Prop := ∃ st', run op env st = .throw .invalid_part st'

theorem rejects_iff {op : Op} {c : Components} (hrep : Rep env st c) (hd : ¬ op.Defective c.auth.isSome c.userinfo.isSome) :
    Rejects op env st ↔ ¬ ∃ c', op.Effect c c' := by
  have ho := op_correct hrep op hd
  constructor
  · rintro ⟨st', h⟩
    rw [h] at ho
    cases ho with
    | full c' _ _ _ _ hx => simp at hx
    | invalid hn => exact hn
  · intro h
    generalize hout : run op env st = out at ho
    cases ho with
    | ret c' _ he => exact absurd ⟨c', he⟩ h
    | full c' _ _ he => exact absurd ⟨c', he⟩ h
    | invalid _ => exact ⟨_, hout⟩

/-- C19: given enough memory a call that does not reject its argument returns; it does not fault. -/
theorem C19_returns_partial {op : Op} (hr : Reach env st) (hc : Callable env st op) :
    (∃ st', run op env st = .ret () st') ∨ Rejects op env st ∨
    (∃ e st', run op env st = .throw e st' ∧ (e = .bad_alloc ∨ e = .too_large)) := by
  obtain ⟨c, hrep, -⟩ := hr.rep
  have ho := op_correct hrep op (callable hrep hc)
  generalize hout : run op env st = out at ho
  cases ho with
  | ret c' st' => exact .inl ⟨_, rfl⟩
  | full c' e st' _ _ he => exact .inr (.inr ⟨e, st', rfl, he⟩)
  | invalid _ => exact .inr (.inl ⟨_, hout⟩)

theorem C19_set_scheme (hr : Reach env st) (s : Str) :
    Rejects (.set_scheme s) env st ↔ ¬ (s = [] ∨ Scheme lib s) := by
  obtain ⟨c, hrep, -⟩ := hr.rep
  rw [rejects_iff (op := .set_scheme s) hrep fun h => h]
  simp [Op.Effect]

theorem C19_set_encoded_user_partial (hr : Reach env st) (s : Str) (hc : Callable env st (.set_encoded_user s)) :
    Rejects (.set_encoded_user s) env st ↔ ¬ Escaped isUpperHex isRegName s := by
  obtain ⟨c, hrep, -⟩ := hr.rep
  rw [rejects_iff hrep (callable hrep hc)]
  simp [Op.Effect]

/-- The documented grammar has no restriction on the first character, see `C19_password_false`. -/
theorem C19_set_encoded_password_partial (hr : Reach env st) (s : Str) :
    Rejects (.set_encoded_password s) env st ↔ ¬ (s.head? ≠ some c!":" ∧ Escaped isUpperHex isUserinfo s) := by
  obtain ⟨c, hrep, -⟩ := hr.rep
  rw [rejects_iff (op := .set_encoded_password s) hrep fun h => h]
  simp [Op.Effect]

theorem C19_set_encoded_host (hr : Reach env st) (s : Str) :
    Rejects (.set_encoded_host s) env st ↔ ¬ Host lib s := by
  obtain ⟨c, hrep, -⟩ := hr.rep
  rw [rejects_iff (op := .set_encoded_host s) hrep fun h => h]
  simp [Op.Effect]

theorem C19_set_port (hr : Reach env st) (s : Str) :
    Rejects (.set_port s) env st ↔ ¬ s.all isDigit = true := by
  obtain ⟨c, hrep, -⟩ := hr.rep
  rw [rejects_iff (op := .set_port s) hrep fun h => h]
  simp [Op.Effect]

/-- The grammar of the path depends on whether a scheme and an authority are present. -/
theorem C19_set_encoded_path (hr : Reach env st) (s : Str) :
    Rejects (.set_encoded_path s) env st ↔
      ¬ ∃ sch, scheme (st.obj env.dbg) = .ok sch ∧ PathOk lib (sch ≠ []) (has_authority (st.obj env.dbg)) false s := by
  obtain ⟨c, hrep, hp⟩ := hr.rep
  rw [rejects_iff (op := .set_encoded_path s) hrep fun h => h, (hrep.reports _).scheme, (hrep.reports _).has_authority]
  have : decide (c.scheme.getD [] ≠ []) = c.scheme.isSome := by
    rcases hsc : c.scheme with _ | x
    · rfl
    · obtain ⟨a, y, rfl, -⟩ := hp.scheme x hsc
      rfl
  simp [Op.Effect, ← this]

theorem C19_set_encoded_query (hr : Reach env st) (s : Str) :
    Rejects (.set_encoded_query s) env st ↔ ¬ Escaped isUpperHex isQueryFrag s := by
  obtain ⟨c, hrep, -⟩ := hr.rep
  rw [rejects_iff (op := .set_encoded_query s) hrep fun h => h]
  simp [Op.Effect]

theorem C19_set_encoded_fragment (hr : Reach env st) (s : Str) :
    Rejects (.set_encoded_fragment s) env st ↔ ¬ Escaped isUpperHex isQueryFrag s := by
  obtain ⟨c, hrep, -⟩ := hr.rep
  rw [rejects_iff (op := .set_encoded_fragment s) hrep fun h => h]
  simp [Op.Effect]

theorem C19_set_query_part (hr : Reach env st) (s : Str) :
    Rejects (.set_query_part s) env st ↔ ¬ (s = [] ∨ ∃ q, s = c!"?" :: q ∧ Escaped isUpperHex isQueryFrag q) := by
  obtain ⟨c, hrep, -⟩ := hr.rep
  rw [rejects_iff (op := .set_query_part s) hrep fun h => h]
  refine not_congr ?_
  constructor
  · rintro ⟨c', ⟨h, -⟩ | ⟨q, h, h', -⟩⟩
    · exact .inl h
    · exact .inr ⟨q, h, h'⟩
  · rintro (h | ⟨q, h, h'⟩)
    · exact ⟨_, .inl ⟨h, rfl⟩⟩
    · exact ⟨_, .inr ⟨q, h, h', rfl⟩⟩

theorem C19_set_fragment_part (hr : Reach env st) (s : Str) :
    Rejects (.set_fragment_part s) env st ↔ ¬ (s = [] ∨ ∃ q, s = c!"#" :: q ∧ Escaped isUpperHex isQueryFrag q) := by
  obtain ⟨c, hrep, -⟩ := hr.rep
  rw [rejects_iff (op := .set_fragment_part s) hrep fun h => h]
  refine not_congr ?_
  constructor
  · rintro ⟨c', ⟨h, -⟩ | ⟨q, h, h', -⟩⟩
    · exact .inl h
    · exact .inr ⟨q, h, h'⟩
  · rintro (h | ⟨q, h, h'⟩)
    · exact ⟨_, .inl ⟨h, rfl⟩⟩
    · exact ⟨_, .inr ⟨q, h, h', rfl⟩⟩

theorem C19_set_encoded_url (hr : Reach env st) (s : Str) :
    Rejects (.set_encoded_url s) env st ↔ ¬ (s = [] ∨ UriReference lib s) := by
  obtain ⟨c, hrep, -⟩ := hr.rep
  rw [rejects_iff (op := .set_encoded_url s) hrep fun h => h]
  refine not_congr ?_
  constructor
  · rintro ⟨c', ⟨h, -⟩ | ⟨-, h, h'⟩⟩
    · exact .inl h
    · exact .inr ⟨c', h, h'⟩
  · intro h
    by_cases hs : s = []
    · exact ⟨_, .inl ⟨hs, rfl⟩⟩
    · rcases h with h | ⟨c', h, h'⟩
      · exact absurd h hs
      · exact ⟨c', .inr ⟨hs, h, h'⟩⟩

/-- C31: the grammar of the authority setter -/
theorem C31_accepts (hr : Reach env st) (s : Str) :
    Rejects (.set_encoded_authority s) env st ↔ ¬ (s = [] ∨ ∃ a : Auth, a.Text s) := by
  obtain ⟨c, hrep, -⟩ := hr.rep
  rw [rejects_iff (op := .set_encoded_authority s) hrep fun h => h]
  refine not_congr ?_
  constructor
  · rintro ⟨c', ⟨h, -⟩ | ⟨-, a, h, -⟩⟩
    · exact .inl h
    · exact .inr ⟨a, h⟩
  · intro h
    by_cases hs : s = []
    · exact ⟨_, .inl ⟨hs, rfl⟩⟩
    · rcases h with h | ⟨a, h⟩
      · exact absurd h hs
      · exact ⟨_, .inr ⟨hs, a, h, rfl⟩⟩

/-- the plain setters accept everything -/
theorem C19_plain_partial (hr : Reach env st) (s : Str) (hc : Callable env st (.set_user s)) :
    ¬ Rejects (.set_user s) env st ∧ ¬ Rejects (.set_password s) env st ∧ ¬ Rejects (.set_host s) env st ∧
    ¬ Rejects (.set_query s) env st ∧ ¬ Rejects (.set_fragment s) env st := by
  obtain ⟨c, hrep, -⟩ := hr.rep
  rw [rejects_iff hrep (callable hrep hc), rejects_iff (op := .set_password s) hrep fun h => h,
    rejects_iff (op := .set_host s) hrep fun h => h, rejects_iff (op := .set_query s) hrep fun h => h,
    rejects_iff (op := .set_fragment s) hrep fun h => h]
  refine ⟨fun h => h ⟨_, rfl⟩, fun h => h ⟨_, rfl⟩, fun h => h ?_, fun h => h ⟨_, rfl⟩, fun h => h ⟨_, rfl⟩⟩
  by_cases hs : s = []
  · exact ⟨_, .inl ⟨hs, rfl⟩⟩
  · obtain ⟨t, ht, -⟩ := plain_hostname_of s
    exact ⟨_, .inr ⟨hs, t, _, ht, rfl⟩⟩

example : Rejects (.set_scheme b!"h2") env0 sampleSt ∧ Rejects (.set_encoded_user b!"a:b") env0 sampleSt ∧
    Rejects (.set_encoded_host b!"[::1") env0 sampleSt ∧ Rejects (.set_port b!"8x") env0 sampleSt ∧
    Rejects (.set_encoded_path b!"a") env0 sampleSt ∧ Rejects (.set_encoded_query b!"#") env0 sampleSt ∧
    Rejects (.set_fragment_part b!"?") env0 sampleSt ∧ Rejects (.set_encoded_url b!"1:") env0 sampleSt ∧
    Rejects (.set_encoded_authority b!"a b") env0 sampleSt :=
  ⟨⟨_, rfl⟩, ⟨_, rfl⟩, ⟨_, rfl⟩, ⟨_, rfl⟩, ⟨_, rfl⟩, ⟨_, rfl⟩, ⟨_, rfl⟩, ⟨_, rfl⟩, ⟨_, rfl⟩⟩

/-- C19 is false: the password grammar `*( unreserved / pct-encoded / sub-delims / ":" )` contains ":",
which is rejected. -/
theorem C19_password_false : Escaped isHex isUserinfo b!":" ∧ Rejects (.set_encoded_password b!":") env0 sampleSt :=
  ⟨.char (by decide) .nil, _, rfl⟩

/-- C19 is false: RFC 3986 allows digits in a scheme and lower case hexadecimal digits in an escape. -/
theorem C19_rfc_false : Scheme rfc b!"h2" ∧ Rejects (.set_scheme b!"h2") env0 sampleSt ∧
    Escaped isHex isQueryFrag b!"%2f" ∧ Rejects (.set_encoded_query b!"%2f") env0 sampleSt :=
  ⟨⟨c!"h", b!"2", rfl, by decide, by decide⟩, ⟨_, rfl⟩, .pct (by decide) (by decide) .nil, _, rfl⟩

/-- C19 is false: the character after a leading slash is not checked. -/
theorem C19_path_false : ∃ st', Base.set_encoded_path b!"/%/x" env0 Base.empty = .ret () st' := ⟨_, rfl⟩

/-! ### C20 -/

/-- `get id` is the text of a part with its delimiters. -/
theorem C20_scheme (hr : Reach env st) (h : Base.set_scheme [] env st = .ret () st') (dbg : Bool) :
    scheme (st'.obj dbg) = .ok [] ∧ (st'.obj dbg).get id_scheme = .ok [] := by
  obtain ⟨c, c', -, -, ⟨-, rfl⟩, hok⟩ := returned (op := .set_scheme []) hr (fun _ _ hd => hd) h
  exact ⟨(hok.rep.reports dbg).scheme, hok.rep.get id_scheme dbg⟩

/-- Without a user only the password is left of the userinfo. -/
theorem C20_user_partial (hr : Reach env st) (hc : Callable env st (.set_user [])) (h : Base.set_user [] env st = .ret () st') (dbg : Bool) :
    encoded_user (st'.obj dbg) = .ok [] ∧
    ∃ pw, password_part (st.obj false) = .ok pw ∧ userinfo_part (st'.obj dbg) = .ok (if pw = [] then [] else pw ++ b!"@") := by
  obtain ⟨c, c', hrep, -, he, hok⟩ := returned (op := .set_user []) hr hc h
  obtain rfl : c' = c.clearUser := he
  have hb := hok.rep.reports dbg
  rw [hb.user, hb.userinfo_part]
  refine ⟨?_, _, (hrep.reports false).password_part rfl, ?_⟩ <;>
    rcases c with ⟨_, _ | ⟨_ | ⟨u, _ | pw⟩, h, pt⟩, _, _, _⟩ <;> rfl

/-- Without a password only the user is left of the userinfo. -/
theorem C20_password (hr : Reach env st) (h : Base.set_password [] env st = .ret () st') (dbg : Bool) :
    Base.encoded_password (st'.obj dbg) = .ok [] ∧ password_part (st'.obj false) = .ok [] ∧
    ∃ u, encoded_user (st.obj dbg) = .ok u ∧ userinfo_part (st'.obj dbg) = .ok (if u = [] then [] else u ++ b!"@") := by
  obtain ⟨c, c', hrep, -, he, hok⟩ := returned (op := .set_password []) hr (fun _ _ hd => hd) h
  obtain rfl : c' = c.clearPassword := he
  have hb := hok.rep.reports dbg
  rw [hb.password, hb.userinfo_part, (hok.rep.reports false).password_part rfl]
  refine ⟨?_, ?_, _, (hrep.reports dbg).user, ?_⟩ <;>
    rcases c with ⟨_, _ | ⟨_ | ⟨_ | u, pw⟩, h, pt⟩, _, _, _⟩ <;> rfl

/-- An authority that consists of the host disappears together with its `//`. -/
theorem C20_host (hr : Reach env st) (h : Base.set_host [] env st = .ret () st') (dbg : Bool) :
    encoded_host (st'.obj dbg) = .ok [] ∧
    (userinfo_part (st.obj dbg) = .ok [] → port_part (st.obj dbg) = .ok [] → (st'.obj dbg).get2 id_user id_path = .ok []) := by
  obtain ⟨c, c', hrep, -, he, hok⟩ := returned (op := .set_host []) hr (fun _ _ hd => hd) h
  rcases he with ⟨-, rfl⟩ | ⟨h, -⟩
  · have hb := hok.rep.reports dbg
    rw [hb.host, (hrep.reports dbg).userinfo_part, (hrep.reports dbg).port_part]
    refine ⟨?_, fun h1 h2 => ?_⟩
    · rcases c with ⟨_, _ | ⟨_ | u, h, _ | pt⟩, _, _, _⟩ <;> rfl
    · have hg := (hok.rep.obj dbg).get2 (b := id_user) (e := id_path) (by decide)
      rw [hg]
      rcases c with ⟨_, _ | ⟨_ | ⟨u, _ | pw⟩, h, _ | pt⟩, _, _, _⟩ <;>
        simp [Components.userinfo, Components.port, withSuffix, withPrefix, userinfoText] at h1 h2 <;> rfl
  · exact absurd rfl h

/-- An authority that consists of the port disappears together with its `//`. -/
theorem C20_port (hr : Reach env st) (h : Base.set_port [] env st = .ret () st') (dbg : Bool) :
    port_part (st'.obj dbg) = .ok [] ∧
    (userinfo_part (st.obj dbg) = .ok [] → encoded_host (st.obj dbg) = .ok [] → (st'.obj dbg).get2 id_user id_path = .ok []) := by
  obtain ⟨c, c', hrep, -, ⟨-, rfl⟩, hok⟩ := returned (op := .set_port []) hr (fun _ _ hd => hd) h
  rw [if_pos rfl] at hok
  have hb := hok.rep.reports dbg
  rw [hb.port_part, (hrep.reports dbg).userinfo_part, (hrep.reports dbg).host]
  refine ⟨?_, fun h1 h2 => ?_⟩
  · rcases c with ⟨_, _ | ⟨_ | u, _ | h, pt⟩, _, _, _⟩ <;> rfl
  · have hg := (hok.rep.obj dbg).get2 (b := id_user) (e := id_path) (by decide)
    rw [hg]
    rcases c with ⟨_, _ | ⟨_ | ⟨u, _ | pw⟩, _ | h, pt⟩, _, _, _⟩ <;>
      simp [Components.userinfo, Components.host, withSuffix, withPrefix, userinfoText] at h1 h2 <;> rfl

/-- An authority that consists of the userinfo disappears together with its `//`. -/
theorem C20_userinfo (hr : Reach env st) (h : Base.set_encoded_userinfo [] env st = .ret () st') (dbg : Bool) :
    userinfo_part (st'.obj dbg) = .ok [] ∧ Base.has_userinfo (st'.obj dbg) = .ok false ∧
    (encoded_host_and_port (st.obj dbg) = .ok [] → (st'.obj dbg).get2 id_user id_path = .ok []) := by
  obtain ⟨c, c', hrep, -, he, hok⟩ := returned (op := .set_encoded_userinfo []) hr (fun _ _ hd => hd.1 rfl) h
  rcases he with ⟨-, rfl⟩ | ⟨h, -⟩
  · have hb := hok.rep.reports dbg
    rw [hb.userinfo_part, hb.has_userinfo, (hrep.reports dbg).host_and_port]
    refine ⟨?_, ?_, fun h1 => ?_⟩
    · rcases c with ⟨_, _ | ⟨_ | u, _ | h, _ | pt⟩, _, _, _⟩ <;> rfl
    · rcases c with ⟨_, _ | ⟨_ | u, _ | h, _ | pt⟩, _, _, _⟩ <;> rfl
    · have hg := (hok.rep.obj dbg).get2 (b := id_user) (e := id_path) (by decide)
      rw [hg]
      rcases c with ⟨_, _ | ⟨u, _ | h, _ | pt⟩, _, _, _⟩ <;>
        simp [Components.userinfo, Components.host, Components.port, withSuffix, withPrefix, userinfoText] at h1 <;> rfl
  · exact absurd rfl h

theorem C20_authority (hr : Reach env st) (h : Base.set_encoded_authority [] env st = .ret () st') (dbg : Bool) :
    has_authority (st'.obj dbg) = false ∧ (st'.obj dbg).get2 id_user id_path = .ok [] := by
  obtain ⟨c, c', -, -, he, hok⟩ := returned (op := .set_encoded_authority []) hr (fun _ _ hd => hd) h
  rcases he with ⟨-, rfl⟩ | ⟨h, -⟩
  · exact ⟨(hok.rep.reports dbg).has_authority, (hok.rep.obj dbg).get2 (b := id_user) (e := id_path) (by decide)⟩
  · exact absurd rfl h

theorem C20_origin (hr : Reach env st) (h : Base.set_encoded_origin [] env st = .ret () st') (dbg : Bool) :
    encoded_origin (st'.obj dbg) = .ok [] ∧ has_authority (st'.obj dbg) = false := by
  obtain ⟨c, c', -, -, he, hok⟩ := returned (op := .set_encoded_origin []) hr (fun _ _ hd => hd.1 rfl) h
  rcases he with ⟨-, rfl⟩ | ⟨sch, a, ⟨-, -, h⟩, -⟩
  · exact ⟨(hok.rep.reports dbg).origin, (hok.rep.reports dbg).has_authority⟩
  · simp at h

theorem C20_path (hr : Reach env st) (h : Base.set_encoded_path [] env st = .ret () st') (dbg : Bool) :
    encoded_path (st'.obj dbg) = .ok [] := C16_set_encoded_path hr h dbg

theorem C20_query (hr : Reach env st) (h : Base.set_query [] env st = .ret () st') (dbg : Bool) :
    query_part (st'.obj dbg) = .ok [] := by
  obtain ⟨c, c', -, -, he, hok⟩ := returned (op := .set_query []) hr (fun _ _ hd => hd) h
  obtain rfl : c' = c.withQuery [] := he
  exact (hok.rep.reports dbg).query_part

theorem C20_encoded_query (hr : Reach env st) (h : Base.set_encoded_query [] env st = .ret () st') (dbg : Bool) :
    query_part (st'.obj dbg) = .ok [] := C20_query hr h dbg

theorem C20_fragment (hr : Reach env st) (h : Base.set_fragment [] env st = .ret () st') (dbg : Bool) :
    fragment_part (st'.obj dbg) = .ok [] := by
  obtain ⟨c, c', -, -, he, hok⟩ := returned (op := .set_fragment []) hr (fun _ _ hd => hd) h
  obtain rfl : c' = c.withFragment [] := he
  exact (hok.rep.reports dbg).fragment_part

theorem C20_encoded_fragment (hr : Reach env st) (h : Base.set_encoded_fragment [] env st = .ret () st') (dbg : Bool) :
    fragment_part (st'.obj dbg) = .ok [] := C20_fragment hr h dbg

/-- Clearing the URL leaves nothing, whatever it was. -/
theorem C20_url (hr : Reach env st) (h : Base.set_encoded_url [] env st = .ret () st') (dbg : Bool) :
    encoded_url (st'.obj dbg) = .ok [] ∧ size (st'.obj dbg) = 0 ∧ has_authority (st'.obj dbg) = false ∧
    ∀ p : Part, p.text (st'.obj dbg) = .ok [] := by
  obtain ⟨c, c', -, -, he, hok⟩ := returned (op := .set_encoded_url []) hr (fun _ _ hd => hd) h
  rcases he with ⟨-, rfl⟩ | ⟨h, -⟩
  · have hb := hok.rep.reports dbg
    refine ⟨hb.url, hb.size, hb.has_authority, fun p => ?_⟩
    rw [Part.text_eq hok.rep]
    cases p <;> rfl
  · exact absurd rfl h

/-- The state after a sequence of calls that do not throw. -/
def after (ops : List Op) : St :=
  match runAll ops env0 Base.empty with
  | .ret () st => st
  | _ => Base.empty

example : textOf (Base.set_host [] env0 (after [.set_encoded_url b!"//h/p"])) = some b!"/p" ∧
    textOf (Base.set_host [] env0 (after [.set_encoded_url b!"//u@h/p"])) = some b!"//u@/p" ∧
    textOf (Base.set_port [] env0 (after [.set_encoded_url b!"x://:8/p"])) = some b!"x:/p" ∧
    textOf (Base.set_encoded_userinfo [] env0 (after [.set_encoded_url b!"x://u:p@"])) = some b!"x:" ∧
    textOf (Base.set_user [] env0 (after [.set_encoded_url b!"//u:p@h"])) = some b!"//:p@h" ∧
    textOf (Base.set_password [] env0 (after [.set_encoded_url b!"//u:p@h"])) = some b!"//u@h" ∧
    textOf (Base.set_encoded_authority [] env0 sampleSt) = some b!"http:/a//b;c?k=v&l#f%2F" ∧
    textOf (Base.set_encoded_origin [] env0 sampleSt) = some b!"/a//b;c?k=v&l#f%2F" ∧
    textOf (Base.set_encoded_url [] env0 sampleSt) = some [] := by decide +kernel

/-- C20 is false for the user and the password: when nothing but the user (or password) is left of the
authority, its `//` stays. -/
theorem C20_user_false :
    textOf (Base.set_user [] env0 (after [.set_user b!"u"])) = some b!"//" ∧
    textOf (Base.set_password [] env0 (after [.set_password b!"p"])) = some b!"//" := by decide +kernel

end Url.Props
