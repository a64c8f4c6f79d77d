import Verif.Props.AlikeWorked

/-!
C25 and C26 after any calls and any edits through iterators into the path.
-/

set_option linter.unusedSimpArgs false
set_option autoImplicit false

namespace Url.Props
open Url Spec

variable {env : Env} {st st1 st' a b : St}

/-! ### texts -/

/-- the texts with one of them changed -/
def putField (f : Field) (v : Str → Str) (x : Texts) : Texts :=
  match f with
  | .scheme => { x with scheme := v x.scheme }
  | .auth => x
  | .path => { x with path := v x.path }
  | .query => { x with query := v x.query }
  | .fragment => { x with fragment := v x.fragment }

theorem putField_comm {f g : Field} (h : f ≠ g) (v w : Str → Str) (x : Texts) : putField f v (putField g w x) = putField g w (putField f v x) := by
  cases f <;> cases g <;> first | exact absurd rfl h | rfl

theorem putField_authority (f : Field) (v : Str → Str) (x : Texts) : (putField f v x).authority = x.authority := by
  cases f <;> rfl

/-- a call that does not set the authority changes its own text, and nothing else has a part in that -/
theorem turns_field {op : Op} {f : Field} (hf : op.field = some f) (hn : f ≠ .auth) :
    ∃ v, (∀ x y, op.Turns x y ↔ y = putField f v x) ∧ (op.absolute = true → ∀ s t, v s = v t) := by
  cases op <;> simp only [Op.field, Option.some.injEq, reduceCtorEq] at hf <;> subst hf <;> try exact absurd rfl hn
  case set_scheme s => exact ⟨fun _ => if s = [] then [] else s ++ b!":", fun _ _ => .rfl, fun _ _ _ => rfl⟩
  case set_encoded_path s => exact ⟨fun _ => s, fun _ _ => .rfl, fun _ _ _ => rfl⟩
  case set_query s => exact ⟨fun _ => if s = [] then [] else b!"?" ++ pctEncode isQueryFrag s, fun _ _ => .rfl, fun _ _ _ => rfl⟩
  case set_encoded_query s => exact ⟨fun _ => if s = [] then [] else b!"?" ++ s, fun _ _ => .rfl, fun _ _ _ => rfl⟩
  case set_query_part s => exact ⟨fun _ => s, fun _ _ => .rfl, fun _ _ _ => rfl⟩
  case set_fragment s => exact ⟨fun _ => if s = [] then [] else b!"#" ++ pctEncode isQueryFrag s, fun _ _ => .rfl, fun _ _ _ => rfl⟩
  case set_encoded_fragment s => exact ⟨fun _ => if s = [] then [] else b!"#" ++ s, fun _ _ => .rfl, fun _ _ _ => rfl⟩
  case set_fragment_part s => exact ⟨fun _ => s, fun _ _ => .rfl, fun _ _ _ => rfl⟩
  case normalize_scheme => exact ⟨fun s => s.map lower, fun _ _ => .rfl, fun h => by simp [Op.absolute] at h⟩
  case normalize => exact ⟨fun s => s.map lower, fun _ _ => .rfl, fun h => by simp [Op.absolute] at h⟩

/-- the texts of one URL with the authority of another -/
def withAuth (x y : Texts) : Texts := { x with user := y.user, password := y.password, host := y.host, port := y.port }

theorem opens_local {x x' : Texts} {d : Str} (h2 : 2 ≤ x.authority.length) (he : x'.authority = x.authority) (h : x.Opens d) : x'.Opens d := by
  have key : ∀ x : Texts, 2 ≤ x.authority.length → x.behind.take 2 = x.authority.take 2 := by
    intro x h
    have : x.behind = x.authority ++ (x.path ++ (x.query ++ x.fragment)) := by simp [Texts.behind, Texts.authority]
    rw [this, List.take_append_of_le_length h]
  refine ⟨h.1, ?_⟩
  rw [key x' (by rw [he]; exact h2), he, ← key x h2]
  exact h.2

/-- a call that sets the authority or a part of it changes that only, and nothing else has a part in it -/
theorem turns_auth {op : Op} {x x' y : Texts} (hf : op.field = some .auth) (hl : Op.Unwritten op → x.authority.length ≠ 1)
    (hx : x' = withAuth x' x) (h : op.Turns x y) : op.Turns x' (withAuth x' y) ∧ y = withAuth x y := by
  have e1 : x'.user = x.user := by rw [hx]; rfl
  have e2 : x'.password = x.password := by rw [hx]; rfl
  have e3 : x'.host = x.host := by rw [hx]; rfl
  have e4 : x'.port = x.port := by rw [hx]; rfl
  have e5 : x'.authority = x.authority := by rw [hx]; rfl
  have two : Op.Unwritten op → x.authority ≠ [] → 2 ≤ x.authority.length := fun k k' => by
    have := hl k
    have := List.length_pos_iff.2 k'
    omega
  have uOff : Op.Unwritten op → x.UserOff y → x'.UserOff (withAuth x' y) ∧ y = withAuth x y := by
    rintro k (⟨h1, rfl⟩ | ⟨h1, d, hd, rfl⟩)
    · exact ⟨.inl ⟨e1.trans h1, hx.symm⟩, rfl⟩
    · exact ⟨.inr ⟨by rwa [e1], d, opens_local (two k (by simp [Texts.authority, h1])) e5 hd, by simp only [withAuth, e2, e3, e4]⟩, rfl⟩
  have uTo : ∀ s, Op.Unwritten op → x.UserTo s y → x'.UserTo s (withAuth x' y) ∧ y = withAuth x y := by
    rintro s k (⟨h1, d, hd, rfl⟩ | ⟨h1, rfl⟩)
    · exact ⟨.inl ⟨by rwa [e2], d, opens_local (two k (by simp [Texts.authority, h1])) e5 hd, by simp only [withAuth, e2, e3, e4]⟩, rfl⟩
    · exact ⟨.inr ⟨e2.trans h1, by simp only [withAuth, e3, e4]⟩, rfl⟩
  have iOff : Op.Unwritten op → x.UserinfoOff y → x'.UserinfoOff (withAuth x' y) ∧ y = withAuth x y := by
    rintro k (⟨h1, rfl⟩ | ⟨h1, d, hd, rfl⟩)
    · exact ⟨.inl ⟨by rwa [e3, e4], by simp only [withAuth, e3, e4]⟩, rfl⟩
    · exact ⟨.inr ⟨by rwa [e3, e4], d, opens_local (two k (by intro e; apply h1; simp [Texts.authority] at e; simp [e])) e5 hd,
        by simp only [withAuth, e3, e4]⟩, rfl⟩
  have iTo : ∀ s, x.UserinfoTo s y → x'.UserinfoTo s (withAuth x' y) ∧ y = withAuth x y := by
    rintro s ⟨u, hu, rfl⟩
    exact ⟨⟨u, hu, by simp only [withAuth, e3, e4]⟩, rfl⟩
  have pOff : x'.passwordOff = withAuth x' x.passwordOff ∧ x.passwordOff = withAuth x x.passwordOff := by
    simp only [Texts.passwordOff, withAuth, e1, e2, e3, e4, and_true]
  have pTo : ∀ s, x'.passwordTo s = withAuth x' (x.passwordTo s) ∧ x.passwordTo s = withAuth x (x.passwordTo s) := by
    intro s
    simp only [Texts.passwordTo, withAuth, e1, e2, e3, e4, and_true]
  have hOff : x'.hostOff = withAuth x' x.hostOff ∧ x.hostOff = withAuth x x.hostOff := by
    unfold Texts.hostOff
    rw [e1, e2, e4]
    split <;> exact ⟨by simp only [Texts.noAuthority, withAuth, e1, e2, e3, e4], rfl⟩
  have hTo : ∀ s, x'.hostTo s = withAuth x' (x.hostTo s) ∧ x.hostTo s = withAuth x (x.hostTo s) := by
    intro s
    simp only [Texts.hostTo, Texts.begun, withAuth, e1, e2, e3, e4, e5, and_true]
  have oOff : x'.portOff = withAuth x' x.portOff ∧ x.portOff = withAuth x x.portOff := by
    unfold Texts.portOff
    rw [e1, e2, e3]
    split <;> exact ⟨by simp only [Texts.noAuthority, withAuth, e1, e2, e3, e4], rfl⟩
  have oTo : ∀ s, x'.portTo s = withAuth x' (x.portTo s) ∧ x.portTo s = withAuth x (x.portTo s) := by
    intro s
    simp only [Texts.portTo, Texts.begun, withAuth, e1, e2, e3, e4, e5, and_true]
  cases op <;> simp only [Op.field, Option.some.injEq, reduceCtorEq] at hf
  case set_encoded_authority s =>
    rcases h with ⟨h1, rfl⟩ | ⟨h1, a, ha, rfl⟩
    · exact ⟨.inl ⟨h1, rfl⟩, rfl⟩
    · exact ⟨.inr ⟨h1, a, ha, rfl⟩, rfl⟩
  case set_encoded_userinfo s =>
    simp only [Op.Turns] at h ⊢
    by_cases hs : s = []
    · rw [if_pos hs] at h ⊢; exact iOff hs h
    · rw [if_neg hs] at h ⊢; exact iTo _ h
  case set_userinfo_part s =>
    simp only [Op.Turns] at h ⊢
    by_cases hs : s = [] ∨ s = b!"@"
    · rw [if_pos hs] at h ⊢; exact iOff hs h
    · rw [if_neg hs] at h ⊢; exact iTo _ h
  case set_user s =>
    simp only [Op.Turns] at h ⊢
    by_cases hs : s = []
    · rw [if_pos hs] at h ⊢; exact uOff trivial h
    · rw [if_neg hs] at h ⊢; exact uTo _ trivial h
  case set_encoded_user s =>
    simp only [Op.Turns] at h ⊢
    by_cases hs : s = []
    · rw [if_pos hs] at h ⊢; exact uOff trivial h
    · rw [if_neg hs] at h ⊢; exact uTo _ trivial h
  case set_password s =>
    simp only [Op.Turns] at h ⊢
    subst h
    by_cases hs : s = []
    · simp only [if_pos hs]; exact ⟨pOff.1.symm, pOff.2⟩
    · simp only [if_neg hs]; exact ⟨(pTo _).1.symm, (pTo _).2⟩
  case set_encoded_password s =>
    simp only [Op.Turns] at h ⊢
    subst h
    by_cases hs : s = []
    · simp only [if_pos hs]; exact ⟨pOff.1.symm, pOff.2⟩
    · simp only [if_neg hs]; exact ⟨(pTo _).1.symm, (pTo _).2⟩
  case set_password_part s =>
    simp only [Op.Turns] at h ⊢
    subst h
    by_cases hs : s = []
    · simp only [if_pos hs]; exact ⟨pOff.1.symm, pOff.2⟩
    · simp only [if_neg hs]
      by_cases h1 : s.length = 1
      · simp only [if_pos h1, e1]
        split <;> simp only [withAuth, e1, e2, e3, e4, and_true]
      · simp only [if_neg h1]; exact ⟨(pTo _).1.symm, (pTo _).2⟩
  case set_host s =>
    rcases h with ⟨h1, rfl⟩ | ⟨h1, t, k, ht, rfl⟩
    · exact ⟨.inl ⟨h1, hOff.1.symm⟩, hOff.2⟩
    · exact ⟨.inr ⟨h1, t, k, ht, (hTo _).1.symm⟩, (hTo _).2⟩
  case set_encoded_host s =>
    simp only [Op.Turns] at h ⊢
    subst h
    by_cases hs : s = []
    · simp only [if_pos hs]; exact ⟨hOff.1.symm, hOff.2⟩
    · simp only [if_neg hs]; exact ⟨(hTo _).1.symm, (hTo _).2⟩
  case set_port s =>
    simp only [Op.Turns] at h ⊢
    subst h
    by_cases hs : s = []
    · simp only [if_pos hs]; exact ⟨oOff.1.symm, oOff.2⟩
    · simp only [if_neg hs]; exact ⟨(oTo _).1.symm, (oTo _).2⟩
  case set_port_number n =>
    obtain ⟨s, hs, rfl⟩ := h
    exact ⟨⟨s, hs, (oTo _).1.symm⟩, (oTo _).2⟩
  case set_port_part s =>
    simp only [Op.Turns] at h ⊢
    subst h
    by_cases hs : s = []
    · simp only [if_pos hs]; exact ⟨oOff.1.symm, oOff.2⟩
    · simp only [if_neg hs]
      by_cases h1 : s.length = 1
      · simp only [if_pos h1]
        simp only [withAuth, e1, e2, e3, e4, and_true]
      · simp only [if_neg h1]; exact ⟨(oTo _).1.symm, (oTo _).2⟩

/-! ### urls -/

theorem run_two {op1 op2 : Op} (h : runAll [op1, op2] env st = .ret () a) : ∃ st1, run op1 env st = .ret () st1 ∧ run op2 env st1 = .ret () a := by
  obtain ⟨_, st1, h1, h2⟩ := Alias.bind_ret h
  obtain ⟨_, st2, h3, h4⟩ := Alias.bind_ret h2
  cases h4
  exact ⟨st1, h1, h3⟩

/-- the authority with its `//` has one character only -/
def OneLetter (st : St) : Prop := st.pt.length2 id_user id_path = 1

theorem oneLetter_iff {x : Texts} {dbg : Bool} (hw : Worked env st) (hx : texts (st.obj dbg) = .ok x) : OneLetter st ↔ x.authority.length = 1 := by
  obtain ⟨t, h⟩ := texts_holds hw hx
  unfold OneLetter Parts.length2
  rw [h.rep, h.rep]
  simp [id_path, id_user, plen, Texts.cells, Texts.authority]

theorem turns_ok {op : Op} {x : Texts} {dbg : Bool} (hw : Worked env st) (hx : texts (st.obj dbg) = .ok x)
    (hl : Op.Unwritten op → x.authority.length ≠ 1) (h : run op env st = .ret () st') :
    Worked env st' ∧ ∃ y, texts (st'.obj dbg) = .ok y ∧ op.Turns x y := by
  have hw' : Worked env st' := .call op hw (.inl h)
  refine ⟨hw', ?_⟩
  rcases (C71_texts hw hx h).2 with h1 | ⟨h1, h2, h3⟩
  · exact h1
  exfalso
  obtain ⟨s, hs⟩ := texts_url (dbg' := env.dbg) hw hx
  cases he : encoded_url (st'.obj env.dbg) with
  | ok s' =>
    obtain ⟨y, hy⟩ := texts_read hw' he
    exact h3 y hy
  | error f =>
    refine hl (C23_exposes hw h hs he).1 ?_
    have e : x.behind.length = x.authority.length + (x.path ++ (x.query ++ x.fragment)).length := by
      simp [Texts.behind, Texts.authority]; omega
    have := List.length_pos_iff.2 h2
    omega

/-- one character of authority is one character behind the scheme only if there are no others -/
theorem one_behind {x : Texts} (hl : x.authority.length ≠ 1) : x.authority ≠ [] → x.behind.length ≠ 1 := by
  intro h1 h2
  have e : x.behind.length = x.authority.length + (x.path ++ (x.query ++ x.fragment)).length := by
    simp [Texts.behind, Texts.authority]; omega
  have := List.length_pos_iff.2 h1
  omega

/-- the calls that set a field other than the authority keep what is cached -/
theorem cached_field {op : Op} {f : Field} (hf : op.field = some f) (hn : f ≠ .auth) (h : run op env st = .ret () st') :
    st'.pt.cached = st.pt.cached := by
  simp only [Parts.cached, Prod.mk.injEq]
  rcases C33_cached h with ⟨s, v, hs, rfl, -⟩ | ⟨-, h1, h2, ⟨s, hs, rfl, -⟩ | ⟨s, hs, rfl, -⟩ | ⟨-, h3⟩⟩
  · cases hf
  · cases hf; exact absurd rfl hn
  · cases hf; exact absurd rfl hn
  · exact ⟨h1, h2, h3⟩

theorem field_judged {op : Op} {f : Field} (hf : op.field = some f) : op.Judged := by
  rintro s rfl
  cases hf

theorem unwritten_auth {op : Op} {f : Field} (hf : op.field = some f) (h : Op.Unwritten op) : f = .auth := by
  cases op <;> simp only [Op.field, Option.some.injEq, reduceCtorEq] at hf <;> first | exact hf.symm | exact h.elim

/-- one of the two sets the authority -/
theorem commute_auth {op1 op2 : Op} {x : Texts} {g : Field} (hw : Worked env st) (hx : texts (st.obj false) = .ok x)
    (h1 : op1.field = some .auth) (h2 : op2.field = some g) (hg : g ≠ .auth) (hl : Op.Unwritten op1 → x.authority.length ≠ 1)
    (ha : runAll [op1, op2] env st = .ret () a) (hb : runAll [op2, op1] env st = .ret () b) : Alike a b := by
  obtain ⟨s1, r1, r12⟩ := run_two ha
  obtain ⟨s2, r2, r21⟩ := run_two hb
  have hu : Op.Unwritten op2 → False := fun h => hg (unwritten_auth h2 h)
  obtain ⟨w1, y1, k1, t1⟩ := turns_ok hw hx hl r1
  obtain ⟨w12, y12, k12, t12⟩ := turns_ok w1 k1 (fun h => (hu h).elim) r12
  obtain ⟨w2, y2, k2, t2⟩ := turns_ok hw hx (fun h => (hu h).elim) r2
  obtain ⟨v, hv, -⟩ := turns_field h2 hg
  obtain rfl := (hv _ _).1 t12
  obtain rfl := (hv _ _).1 t2
  have hl' : Op.Unwritten op1 → (putField g v x).authority.length ≠ 1 := by rw [putField_authority]; exact hl
  obtain ⟨w21, y21, k21, t21⟩ := turns_ok w2 k2 hl' r21
  have hwith : putField g v x = withAuth (putField g v x) x := by cases g <;> rfl
  obtain ⟨l1, l2⟩ := turns_auth h1 hl hwith t1
  have e := C71_determined (field_judged h1) (fun k => one_behind (hl' k)) t21 l1
  have e2 : withAuth (putField g v x) y1 = putField g v y1 := by
    rw [l2]
    cases g <;> first | rfl | exact absurd rfl hg
  rw [e, e2] at k21
  refine texts_alike w12 w21 k12 k21 ?_
  rw [cached_field h2 hg r12]
  exact cached_alike (cached_field h2 hg r2).symm r1 r21

/-- C25 after any calls and edits, in any build: two calls that set different fields can be exchanged, if they return; the objects then
have the same text, the same offsets and the same cached values. Left out is the authority of one character, where a call that sets the user
or removes the userinfo takes a character of the path into it (`C25_worked_false`). -/
theorem C25_worked {op1 op2 : Op} {f g : Field} {s : Str} (hw : Worked env st) (hs : encoded_url (st.obj env.dbg) = .ok s)
    (h1 : op1.field = some f) (h2 : op2.field = some g) (hfg : f ≠ g) (hl : Op.Unwritten op1 ∨ Op.Unwritten op2 → ¬ OneLetter st)
    (ha : runAll [op1, op2] env st = .ret () a) (hb : runAll [op2, op1] env st = .ret () b) : Alike a b := by
  obtain ⟨x, hx⟩ := texts_read (dbg := false) hw hs
  rw [oneLetter_iff hw hx] at hl
  by_cases hf : f = .auth
  · subst hf
    exact commute_auth hw hx h1 h2 (Ne.symm hfg) (fun h => hl (.inl h)) ha hb
  by_cases hg : g = .auth
  · subst hg
    exact (commute_auth hw hx h2 h1 hfg (fun h => hl (.inr h)) hb ha).symm
  obtain ⟨s1, r1, r12⟩ := run_two ha
  obtain ⟨s2, r2, r21⟩ := run_two hb
  have hu1 : Op.Unwritten op1 → False := fun h => hf (unwritten_auth h1 h)
  have hu2 : Op.Unwritten op2 → False := fun h => hg (unwritten_auth h2 h)
  obtain ⟨w1, y1, k1, t1⟩ := turns_ok hw hx (fun h => (hu1 h).elim) r1
  obtain ⟨w12, y12, k12, t12⟩ := turns_ok w1 k1 (fun h => (hu2 h).elim) r12
  obtain ⟨w2, y2, k2, t2⟩ := turns_ok hw hx (fun h => (hu2 h).elim) r2
  obtain ⟨w21, y21, k21, t21⟩ := turns_ok w2 k2 (fun h => (hu1 h).elim) r21
  obtain ⟨v, hv, -⟩ := turns_field h1 hf
  obtain ⟨w, hw', -⟩ := turns_field h2 hg
  obtain rfl := (hv _ _).1 t1
  obtain rfl := (hw' _ _).1 t12
  obtain rfl := (hw' _ _).1 t2
  obtain rfl := (hv _ _).1 t21
  rw [putField_comm hfg] at k21
  refine texts_alike w12 w21 k12 k21 ?_
  rw [cached_field h2 hg r12, cached_field h1 hf r1, cached_field h1 hf r21, cached_field h2 hg r2]

/-- the text and the offsets are the same -/
theorem sameUrl_texts {x : Texts} (ha : Worked env a) (hb : Worked env b) (hx : texts (a.obj false) = .ok x) (hy : texts (b.obj false) = .ok x) :
    SameUrl a b := by
  obtain ⟨t, h⟩ := texts_holds ha hx
  obtain ⟨t', h'⟩ := texts_holds hb hy
  exact ⟨fun dbg => by rw [Props.Holds.url h, Props.Holds.url h'], fun i _ => (h.rep i).trans (h'.rep i).symm⟩

/-- C26 after any calls and edits, in any build: a call that sets a field overwrites what another call did to it. -/
theorem C26_worked {op1 op2 : Op} {f : Field} {s : Str} (hw : Worked env st) (hs : encoded_url (st.obj env.dbg) = .ok s)
    (h1 : op1.field = some f) (h2 : op2.field = some f) (h3 : op2.absolute = true) (hl : Op.Unwritten op1 → ¬ OneLetter st)
    (ha : runAll [op1, op2] env st = .ret () a) (hb : run op2 env st = .ret () b) : SameUrl a b ∧ (¬ StoresHost op1 → Alike a b) := by
  obtain ⟨x, hx⟩ := texts_read (dbg := false) hw hs
  rw [oneLetter_iff hw hx] at hl
  obtain ⟨s1, r1, r12⟩ := run_two ha
  have hu : Op.Unwritten op2 → False := by cases op2 <;> first | exact id | simp [Op.absolute] at h3
  obtain ⟨w1, y1, k1, t1⟩ := turns_ok hw hx hl r1
  obtain ⟨w12, y12, k12, t12⟩ := turns_ok w1 k1 (fun h => (hu h).elim) r12
  obtain ⟨w2, y2, k2, t2⟩ := turns_ok hw hx (fun h => (hu h).elim) hb
  have e : y12 = y2 := by
    by_cases hf : f = .auth
    · subst hf
      have e1 := (turns_auth (x' := x) h1 hl rfl t1).2
      have e2 := (turns_auth (x' := y1) h2 (fun h => (hu h).elim) rfl t12).2
      have e3 := (turns_auth (x' := x) h2 (fun h => (hu h).elim) rfl t2).2
      cases op2 <;> simp only [Op.field, Option.some.injEq, reduceCtorEq, Op.absolute, Bool.false_eq_true] at h2 h3
      case set_encoded_authority s =>
        rw [e1] at t12
        rcases t12 with ⟨g1, rfl⟩ | ⟨g1, a, ga, rfl⟩ <;> rcases t2 with ⟨g2, rfl⟩ | ⟨g2, a', ga', rfl⟩
        · rfl
        · exact absurd g1 g2
        · exact absurd g2 g1
        · rw [authText_unique ga ga']; rfl
    · obtain ⟨v, hv, -⟩ := turns_field h1 hf
      obtain ⟨w, hw', hc⟩ := turns_field h2 hf
      obtain rfl := (hv _ _).1 t1
      obtain rfl := (hw' _ _).1 t12
      obtain rfl := (hw' _ _).1 t2
      cases f <;> simp only [putField, hc h3 (v _)] <;> rw [hc h3]
  rw [e] at k12
  refine ⟨sameUrl_texts w12 w2 k12 k2, fun hn => texts_alike w12 w2 k12 k2 (cached_alike ?_ r12 hb)⟩
  simp only [Parts.cached, Prod.mk.injEq]
  rcases C33_cached r1 with ⟨s, v, hs, rfl, -⟩ | ⟨-, g1, g2, ⟨s, hs, rfl, -⟩ | ⟨s, hs, rfl, -⟩ | ⟨-, g3⟩⟩
  · cases h1
  · exact absurd ⟨s, hs, .inl rfl⟩ hn
  · exact absurd ⟨s, hs, .inr rfl⟩ hn
  · exact ⟨g1, g2, g3⟩

/-- C26 after any histories, of any two objects in any builds, even if their texts have bytes that were never written: storing the same
url makes them alike. -/
theorem C26_url_worked {env' : Env} {a' b' : St} {s : Str} (hs : s ≠ []) (ha : Worked env a) (hb : Worked env' b)
    (h : run (.set_encoded_url s) env a = .ret () a') (h' : run (.set_encoded_url s) env' b = .ret () b') :
    Alike a' b' ∧ encoded_url (a'.obj false) = .ok s := by
  have key : ∀ {env : Env} {a a' : St}, Worked env a → run (.set_encoded_url s) env a = .ret () a' → encoded_url (a'.obj false) = .ok s := by
    intro env a a' ha h
    obtain ⟨S, U, W, H, P, q, g, t, pa, hp⟩ := ha.release.parts rfl
    have n := n_url hp s
    rw [show Base.set_encoded_url s env.release a = .ret () a' from released h] at n
    obtain ⟨-, -, L, t', hL, hq⟩ := n
    rw [if_neg hs] at hq
    obtain ⟨c, -, hr, rfl⟩ := hq
    rw [of_cells] at hL
    rw [Props.Holds.url hL, ← of_cells]
    have : (cells c).flatten = c.render.map some := by
      rw [← compParts_flatten]
      simp [cells, List.map_flatten]
    rw [this, readCells_some, hr]
  refine ⟨⟨(key ha h).trans (key hb h').symm, ?_⟩, key ha h⟩
  obtain ⟨v, h1, h2⟩ := stored_pt hs h
  obtain ⟨v', h1', h2'⟩ := stored_pt hs h'
  rw [h1] at h1'
  cases h1'
  rw [h2, h2']

/-- a lone `:` for the authority, and a fragment behind it -/
def colonFragment : List Op := oneLeft ++ [.set_encoded_fragment b!"f"]

/-- C25 is false for these calls, which set the authority and the query: the authority has one character, and removing the userinfo takes
the first character of what is behind it. -/
theorem C25_worked_false : Worked env0 (after colonFragment) ∧ OneLetter (after colonFragment) ∧
    textOf (runAll [.set_encoded_userinfo [], .set_encoded_query b!"q"] env0 (after colonFragment)) = some b!":#:?q#f" ∧
    textOf (runAll [.set_encoded_query b!"q", .set_encoded_userinfo []] env0 (after colonFragment)) = some b!":?:?q#f" :=
  ⟨(after_used (by decide +kernel)).worked, by unfold OneLetter; decide +kernel, by decide +kernel, by decide +kernel⟩

/-- Cases of `C25_worked`: the first has the authority of one character, but the call does not take another; in the second the texts are
not the parts of a URL. -/
example : textOf (runAll [.set_encoded_host b!"h", .set_encoded_query b!"q"] env0 (after colonFragment)) = some b!"h:?q#f" ∧
    textOf (runAll [.set_encoded_query b!"q", .set_encoded_host b!"h"] env0 (after colonFragment)) = some b!"h:?q#f" ∧
    ¬ OneLetter (after (colonFragment ++ [.set_encoded_host b!"h"])) ∧
    textOf (runAll [.set_encoded_userinfo [], .set_encoded_query b!"q"] env0 (after (colonFragment ++ [.set_encoded_host b!"h"]))) = some b!"h:h:?q#f" ∧
    textOf (runAll [.set_encoded_query b!"q", .set_encoded_userinfo []] env0 (after (colonFragment ++ [.set_encoded_host b!"h"]))) = some b!"h:h:?q#f" := by
  unfold OneLetter
  decide +kernel

/-- A case of `C26_worked` and one of `C26_url_worked`, from a text with a byte that was never written. -/
example : textOf (runAll [.set_encoded_userinfo b!"u:p", .set_encoded_authority b!"u@h"] env0 (after colonFragment)) = some b!"//u@h#f" ∧
    textOf (run (.set_encoded_authority b!"u@h") env0 (after colonFragment)) = some b!"//u@h#f" ∧
    textOf (.ret () (after (oneLeft ++ [.set_encoded_userinfo []]))) = none ∧
    textOf (run (.set_encoded_url b!"x:y") env0 (after (oneLeft ++ [.set_encoded_userinfo []]))) = some b!"x:y" := by decide +kernel

end Url.Props
