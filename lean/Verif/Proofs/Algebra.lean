import Verif.Proofs.Reach
import Verif.Spec.Fields

/-!
The effects of calls as functions: what a call does to the component it sets depends on that component
only, and on its argument.
-/

set_option linter.unusedSimpArgs false

namespace Url
open Spec

/-! ### Texts determine what they stand for -/

theorem isDigit_toNat {c : Byte} (h : isDigit c = true) : 48 ≤ c.toNat ∧ c.toNat ≤ 57 := by
  exact forall_byte (P := fun c => isDigit c = true → 48 ≤ c.toNat ∧ c.toNat ≤ 57) (by decide +kernel) c h

theorem decVal_pos {s : Str} (h : s.all isDigit = true) (hne : s ≠ []) (h0 : s.head? ≠ some c!"0") : 0 < decVal s := by
  induction hn : s.length using Nat.strongRecOn generalizing s with
  | _ n ih =>
    obtain ⟨x, d, rfl⟩ : ∃ x d, s = x ++ [d] := ⟨s.dropLast, s.getLast hne, (List.dropLast_concat_getLast hne).symm⟩
    rw [decVal_snoc]
    simp only [List.all_append, List.all_cons, List.all_nil, Bool.and_true, Bool.and_eq_true] at h
    cases x with
    | nil =>
      have := isDigit_toNat h.2
      have hd : d ≠ c!"0" := by simpa using h0
      have : d.toNat ≠ 48 := fun e => hd (UInt8.toNat_inj.1 e)
      simp [decVal]; omega
    | cons a x =>
      have := ih (x.length + 1) (by rw [← hn]; simp) h.1 (by simp) (by simpa using h0) rfl
      omega

theorem decimal_unique {n : Nat} {s s' : Str} (h : Decimal n s) (h' : Decimal n s') : s = s' := by
  have key : ∀ (k : Nat) (s s' : Str), s.length = k → s.all isDigit = true → s'.all isDigit = true →
      s.head? ≠ some c!"0" → s'.head? ≠ some c!"0" → decVal s = decVal s' → s = s' := by
    intro k
    induction k with
    | zero =>
      intro s s' hk _ ha' _ h0 hv
      obtain rfl := List.length_eq_zero_iff.1 hk
      cases s' with
      | nil => rfl
      | cons a s' => have := decVal_pos ha' (by simp) h0; rw [← hv] at this; simp [decVal] at this
    | succ k ih =>
      intro s s' hk ha ha' h0 h0' hv
      have hne : s ≠ [] := by rintro rfl; simp at hk
      have hne' : s' ≠ [] := by
        rintro rfl
        have := decVal_pos ha hne h0
        rw [hv] at this; simp [decVal] at this
      obtain ⟨x, d, rfl⟩ : ∃ x d, s = x ++ [d] := ⟨s.dropLast, s.getLast hne, (List.dropLast_concat_getLast hne).symm⟩
      obtain ⟨y, e, rfl⟩ : ∃ x d, s' = x ++ [d] := ⟨s'.dropLast, s'.getLast hne', (List.dropLast_concat_getLast hne').symm⟩
      rw [decVal_snoc, decVal_snoc] at hv
      simp only [List.all_append, List.all_cons, List.all_nil, Bool.and_true, Bool.and_eq_true] at ha ha'
      have hd := isDigit_toNat ha.2
      have he := isDigit_toNat ha'.2
      have hx : x.head? ≠ some c!"0" := by cases x <;> simp_all
      have hy : y.head? ≠ some c!"0" := by cases y <;> simp_all
      rw [ih x y (by simpa using hk) ha.1 ha'.1 hx hy (by omega), show d = e from UInt8.toNat_inj.1 (by omega)]
  obtain ⟨h1, h2, h3, h4⟩ := h
  obtain ⟨g1, g2, g3, g4⟩ := h'
  by_cases z : s.head? = some c!"0" <;> by_cases z' : s'.head? = some c!"0"
  · rw [h4 z, g4 z']
  · have := decVal_pos g2 g1 z'
    rw [h4 z] at h3
    simp [decVal] at h3
    omega
  · have := decVal_pos h2 h1 z
    rw [g4 z'] at g3
    simp [decVal] at g3
    omega
  · exact key _ s s' rfl h2 g2 z z' (by omega)

theorem authText_unique {a a' : Auth} {s : Str} (h : a.Text s) (h' : a'.Text s) : a = a' := by
  have hv : ∀ {a : Auth}, a.Valid lib → (⟨none, some a, [], none, none⟩ : Components).Valid lib := by
    intro a ha
    exact ⟨by simp, fun _ h => by cases h; exact ha, slashed_none, by simp, by simp⟩
  have := decomposition_unique (hv h.1) (hv h'.1) (by simp [Components.render, h.2, h'.2])
  simpa using this

theorem userinfoText_unique {u u' : Str × Option Str} {s : Str} (h : UserinfoText u s) (h' : UserinfoText u' s) : u = u' := by
  have hv : ∀ {u : Str × Option Str} {s : Str}, UserinfoText u s → (⟨some u, [], none⟩ : Auth).Text (s ++ b!"@") := by
    rintro ⟨u, p⟩ s ⟨h1, h2, rfl⟩
    refine ⟨⟨fun _ _ h => ?_, .inr .nil, by simp⟩, by cases p <;> simp [Auth.render, withSuffix, userinfoText]⟩
    cases h
    exact ⟨h1, h2⟩
  simpa using authText_unique (hv h) (hv h')

theorem plainHost_unique {s x y : Str} {k l : HostType} (h : PlainHost s x k) (h' : PlainHost s y l) : x = y := by
  cases h with
  | ipv4 h =>
    cases h' with
    | ipv4 => rfl
    | literal => rfl
    | name h' => exact absurd h h'
  | literal h =>
    generalize hz : b!"[" ++ _ ++ b!"]" = z at h'
    cases h' with
    | ipv4 => rfl
    | literal => rfl
    | name _ h' => exact absurd ⟨_, h, hz.symm⟩ h'
  | name h4 hl =>
    cases h' with
    | ipv4 h => exact absurd h h4
    | literal h => exact absurd ⟨_, h, rfl⟩ hl
    | name => rfl

/-! ### The five fields -/

/-- `c` and `d` agree on a field -/
def Spec.Field.Agree (f : Field) (c d : Components) : Prop :=
  match f with
  | .scheme => c.scheme = d.scheme
  | .auth => c.auth = d.auth
  | .path => c.path = d.path
  | .query => c.query = d.query
  | .fragment => c.fragment = d.fragment

theorem agree_all {c d : Components} (h : ∀ f : Field, f.Agree c d) : c = d := by
  rcases c with ⟨a, b, p, q, f⟩
  rcases d with ⟨a', b', p', q', f'⟩
  have h1 : a = a' := h .scheme
  have h2 : b = b' := h .auth
  have h3 : p = p' := h .path
  have h4 : q = q' := h .query
  have h5 : f = f' := h .fragment
  subst h1 h2 h3 h4 h5
  rfl

theorem Spec.Field.Agree.symm {f : Field} {c d : Components} (h : f.Agree c d) : f.Agree d c := by
  cases f <;> exact Eq.symm h
theorem Spec.Field.Agree.trans {f : Field} {c d e : Components} (h : f.Agree c d) (h' : f.Agree d e) : f.Agree c e := by
  cases f <;> exact Eq.trans h h'

/-- a call leaves the other fields alone -/
theorem effect_other {op : Op} {c c' : Components} {f g : Field} (he : op.Effect c c') (hf : op.field = some f) (hg : g ≠ f) :
    g.Agree c' c := by
  cases op <;> simp only [Op.field, Option.some.injEq, reduceCtorEq] at hf <;> subst hf <;> simp only [Op.Effect] at he
  case set_scheme => obtain ⟨-, rfl⟩ := he; cases g <;> first | rfl | exact absurd rfl hg
  case set_encoded_authority => rcases he with ⟨-, rfl⟩ | ⟨-, a, -, rfl⟩ <;> cases g <;> first | rfl | exact absurd rfl hg
  case set_encoded_userinfo => rcases he with ⟨-, rfl⟩ | ⟨-, a, -, rfl⟩ <;> cases g <;> first | rfl | exact absurd rfl hg
  case set_userinfo_part => rcases he with ⟨-, rfl⟩ | ⟨_, a, -, -, -, rfl⟩ <;> cases g <;> first | rfl | exact absurd rfl hg
  case set_user => subst he; split <;> cases g <;> first | rfl | exact absurd rfl hg
  case set_encoded_user => obtain ⟨-, rfl⟩ := he; split <;> cases g <;> first | rfl | exact absurd rfl hg
  case set_password => subst he; split <;> cases g <;> first | rfl | exact absurd rfl hg
  case set_encoded_password => obtain ⟨-, -, rfl⟩ := he; split <;> cases g <;> first | rfl | exact absurd rfl hg
  case set_password_part =>
    rcases he with ⟨-, rfl⟩ | ⟨-, rfl⟩ | ⟨_, _, -, -, -, -, rfl⟩ <;> cases g <;> first | rfl | exact absurd rfl hg
  case set_host => rcases he with ⟨-, rfl⟩ | ⟨-, _, _, -, rfl⟩ <;> cases g <;> first | rfl | exact absurd rfl hg
  case set_encoded_host => obtain ⟨-, rfl⟩ := he; split <;> cases g <;> first | rfl | exact absurd rfl hg
  case set_port => obtain ⟨-, rfl⟩ := he; split <;> cases g <;> first | rfl | exact absurd rfl hg
  case set_port_number => obtain ⟨_, -, rfl⟩ := he; cases g <;> first | rfl | exact absurd rfl hg
  case set_port_part => rcases he with ⟨-, rfl⟩ | ⟨_, -, -, rfl⟩ <;> cases g <;> first | rfl | exact absurd rfl hg
  case set_encoded_path => obtain ⟨-, rfl⟩ := he; cases g <;> first | rfl | exact absurd rfl hg
  case set_query => subst he; cases g <;> first | rfl | exact absurd rfl hg
  case set_encoded_query => obtain ⟨-, rfl⟩ := he; cases g <;> first | rfl | exact absurd rfl hg
  case set_query_part => rcases he with ⟨-, rfl⟩ | ⟨_, -, -, rfl⟩ <;> cases g <;> first | rfl | exact absurd rfl hg
  case set_fragment => subst he; cases g <;> first | rfl | exact absurd rfl hg
  case set_encoded_fragment => obtain ⟨-, rfl⟩ := he; cases g <;> first | rfl | exact absurd rfl hg
  case set_fragment_part => rcases he with ⟨-, rfl⟩ | ⟨_, -, -, rfl⟩ <;> cases g <;> first | rfl | exact absurd rfl hg
  case normalize_scheme => subst he; cases g <;> first | rfl | exact absurd rfl hg
  case normalize => subst he; cases g <;> first | rfl | exact absurd rfl hg

section
variable {c d : Components} (h : c.auth = d.auth)
include h
theorem authD_congr : c.authD = d.authD := by unfold Components.authD; rw [h]
theorem userinfo_congr : c.userinfo = d.userinfo := by unfold Components.userinfo; rw [h]
theorem user_congr : c.user = d.user := by unfold Components.user; rw [userinfo_congr h]
theorem withUser_congr (s : Str) : (c.withUser s).auth = (d.withUser s).auth := by
  simp only [Components.withUser, Components.withAuth, authD_congr h, userinfo_congr h]
theorem clearUser_congr : c.clearUser.auth = d.clearUser.auth := by
  simp only [Components.clearUser, Components.withAuth, h]
theorem withPassword_congr (s : Str) : (c.withPassword s).auth = (d.withPassword s).auth := by
  simp only [Components.withPassword, Components.withAuth, authD_congr h, user_congr h]
theorem clearPassword_congr : c.clearPassword.auth = d.clearPassword.auth := by
  simp only [Components.clearPassword, Components.withAuth, h]
theorem withHost_congr (s : Str) : (c.withHost s).auth = (d.withHost s).auth := by
  simp only [Components.withHost, Components.withAuth, authD_congr h]
theorem clearHost_congr : c.clearHost.auth = d.clearHost.auth := by
  simp only [Components.clearHost, Components.withAuth, h]
theorem withPort_congr (s : Str) : (c.withPort s).auth = (d.withPort s).auth := by
  simp only [Components.withPort, Components.withAuth, authD_congr h]
theorem clearPort_congr : c.clearPort.auth = d.clearPort.auth := by
  simp only [Components.clearPort, Components.withAuth, h]
theorem withUserinfo_congr (u : Str × Option Str) : (c.withUserinfo u).auth = (d.withUserinfo u).auth := by
  simp only [Components.withUserinfo, Components.withAuth, authD_congr h]
theorem clearUserinfo_congr : c.clearUserinfo.auth = d.clearUserinfo.auth := by
  simp only [Components.clearUserinfo, Components.withAuth, h]
end

/-- what a call does to its own field depends on that field only -/
theorem effect_own {op : Op} {c c' d d' : Components} {f : Field} (he : op.Effect c c') (he' : op.Effect d d') (hf : op.field = some f)
    (h : f.Agree c d) : f.Agree c' d' := by
  cases op <;> simp only [Op.field, Option.some.injEq, reduceCtorEq] at hf <;> subst hf <;> simp only [Op.Effect] at he he'
  case set_scheme => obtain ⟨-, rfl⟩ := he; obtain ⟨-, rfl⟩ := he'; rfl
  case set_encoded_authority =>
    rcases he with ⟨h1, rfl⟩ | ⟨h1, a, ht, rfl⟩ <;> rcases he' with ⟨h1', rfl⟩ | ⟨h1', a', ht', rfl⟩
    · rfl
    · exact absurd h1 h1'
    · exact absurd h1' h1
    · rw [authText_unique ht ht']; rfl
  case set_encoded_userinfo =>
    rcases he with ⟨h1, rfl⟩ | ⟨h1, a, ht, rfl⟩ <;> rcases he' with ⟨h1', rfl⟩ | ⟨h1', a', ht', rfl⟩
    · exact clearUserinfo_congr h
    · exact absurd h1 h1'
    · exact absurd h1' h1
    · rw [userinfoText_unique ht ht']; exact withUserinfo_congr h _
  case set_userinfo_part =>
    rcases he with ⟨h1, rfl⟩ | ⟨x, a, h1, rfl, ht, rfl⟩ <;> rcases he' with ⟨h1', rfl⟩ | ⟨x', a', h1', e, ht', rfl⟩
    · exact clearUserinfo_congr h
    · subst e
      rcases h1 with h1 | h1
      · simp at h1
      · exact absurd (by simpa using h1) h1'
    · rcases h1' with h1' | h1'
      · simp at h1'
      · exact absurd (by simpa using h1') h1
    · obtain rfl := List.append_cancel_right e
      rw [userinfoText_unique ht ht']; exact withUserinfo_congr h _
  case set_user => subst he he'; split; exact clearUser_congr h; exact withUser_congr h _
  case set_encoded_user => obtain ⟨-, rfl⟩ := he; obtain ⟨-, rfl⟩ := he'; split; exact clearUser_congr h; exact withUser_congr h _
  case set_password => subst he he'; split; exact clearPassword_congr h; exact withPassword_congr h _
  case set_encoded_password =>
    obtain ⟨-, -, rfl⟩ := he; obtain ⟨-, -, rfl⟩ := he'; split; exact clearPassword_congr h; exact withPassword_congr h _
  case set_password_part =>
    rcases he with ⟨rfl, rfl⟩ | ⟨rfl, rfl⟩ | ⟨x, y, rfl, hy, -, -, rfl⟩ <;>
      rcases he' with ⟨e, rfl⟩ | ⟨e, rfl⟩ | ⟨x', y', e, hy', -, -, rfl⟩
    · exact clearPassword_congr h
    · cases e
    · cases e
    · cases e
    · exact withPassword_congr h _
    · cases e; exact absurd rfl hy'
    · cases e
    · cases e; exact absurd rfl hy
    · cases e; exact withPassword_congr h _
  case set_host =>
    rcases he with ⟨h1, rfl⟩ | ⟨h1, t, k, ht, rfl⟩ <;> rcases he' with ⟨h1', rfl⟩ | ⟨h1', t', k', ht', rfl⟩
    · exact clearHost_congr h
    · exact absurd h1 h1'
    · exact absurd h1' h1
    · rw [plainHost_unique ht ht']; exact withHost_congr h _
  case set_encoded_host => obtain ⟨-, rfl⟩ := he; obtain ⟨-, rfl⟩ := he'; split; exact clearHost_congr h; exact withHost_congr h _
  case set_port => obtain ⟨-, rfl⟩ := he; obtain ⟨-, rfl⟩ := he'; split; exact clearPort_congr h; exact withPort_congr h _
  case set_port_number =>
    obtain ⟨s, hs, rfl⟩ := he; obtain ⟨s', hs', rfl⟩ := he'
    rw [decimal_unique hs hs']; exact withPort_congr h _
  case set_port_part =>
    rcases he with ⟨rfl, rfl⟩ | ⟨p, rfl, -, rfl⟩ <;> rcases he' with ⟨e, rfl⟩ | ⟨p', e, -, rfl⟩
    · exact clearPort_congr h
    · cases e
    · cases e
    · cases e; exact withPort_congr h _
  case set_encoded_path => obtain ⟨-, rfl⟩ := he; obtain ⟨-, rfl⟩ := he'; rfl
  case set_query => subst he he'; rfl
  case set_encoded_query => obtain ⟨-, rfl⟩ := he; obtain ⟨-, rfl⟩ := he'; rfl
  case set_query_part =>
    rcases he with ⟨rfl, rfl⟩ | ⟨p, rfl, -, rfl⟩ <;> rcases he' with ⟨e, rfl⟩ | ⟨p', e, -, rfl⟩ <;> first | rfl | (cases e; done) | (cases e; rfl)
  case set_fragment => subst he he'; rfl
  case set_encoded_fragment => obtain ⟨-, rfl⟩ := he; obtain ⟨-, rfl⟩ := he'; rfl
  case set_fragment_part =>
    rcases he with ⟨rfl, rfl⟩ | ⟨p, rfl, -, rfl⟩ <;> rcases he' with ⟨e, rfl⟩ | ⟨p', e, -, rfl⟩ <;> first | rfl | (cases e; done) | (cases e; rfl)
  case normalize_scheme => subst he he'; exact congrArg (Option.map _) h
  case normalize => subst he he'; exact congrArg (Option.map _) h

/-- calls that set different fields commute -/
theorem effect_comm {op1 op2 : Op} {f g : Field} {c c1 c2 c12 c21 : Components} (h1 : op1.field = some f) (h2 : op2.field = some g)
    (hfg : f ≠ g) (e1 : op1.Effect c c1) (e12 : op2.Effect c1 c12) (e2 : op2.Effect c c2) (e21 : op1.Effect c2 c21) : c12 = c21 := by
  refine agree_all fun x => ?_
  by_cases hx : x = f
  · subst hx
    exact (effect_other e12 h2 hfg).trans (effect_own e1 e21 h1 (effect_other e2 h2 hfg).symm)
  · have a1 := effect_other e1 h1 hx
    have a21 := effect_other e21 h1 hx
    by_cases hx' : x = g
    · subst hx'
      exact (effect_own e12 e2 h2 a1).trans a21.symm
    · exact ((effect_other e12 h2 hx').trans a1).trans ((a21.trans (effect_other e2 h2 hx')).symm)

/-! ### The parts of the authority -/

/-- set (`some`) or clear (`none`) a part of the authority -/
def Spec.Components.edit (c : Components) : AuthPart × Option Str → Components
  | (.user, none) => c.clearUser
  | (.user, some s) => c.withUser s
  | (.password, none) => c.clearPassword
  | (.password, some s) => c.withPassword s
  | (.host, none) => c.clearHost
  | (.host, some s) => c.withHost s
  | (.port, none) => c.clearPort
  | (.port, some s) => c.withPort s

/-- the edit a call stands for; only for the calls that edit a part of the authority -/
def Spec.Op.Arg : Op → AuthPart × Option Str → Prop
  | .set_user s, x => x = (.user, if s = [] then none else some (pctEncode isRegName s))
  | .set_encoded_user s, x => x = (.user, if s = [] then none else some s)
  | .set_password s, x => x = (.password, if s = [] then none else some (pctEncode isUserinfo s))
  | .set_encoded_password s, x => x = (.password, if s = [] then none else some s)
  | .set_password_part s, x => x = (.password, if s = [] then none else some s.tail)
  | .set_host s, x => (s = [] ∧ x = (.host, none)) ∨ (s ≠ [] ∧ ∃ t k, PlainHost s t k ∧ x = (.host, some t))
  | .set_encoded_host s, x => x = (.host, if s = [] then none else some s)
  | .set_port s, x => x = (.port, if s = [] then none else some s)
  | .set_port_number n, x => ∃ s, Decimal n.toNat s ∧ x = (.port, some s)
  | .set_port_part s, x => x = (.port, if s = [] then none else some s.tail)
  | _, _ => False

theorem plainHost_ne {s t : Str} {k : HostType} (hs : s ≠ []) (h : PlainHost s t k) : t ≠ [] := by
  cases h with
  | ipv4 => exact hs
  | literal => simp
  | name => exact encode_nonempty setOf_regName hs

/-- what is known of the edit of a call -/
structure Edit (op : Op) (p : AuthPart) (x : AuthPart × Option Str) : Prop where
  part : x.1 = p
  clears : x.2 = none ↔ op.clears = true
  ne : x.2 = some [] → p = .password ∨ p = .port

theorem arg_unique {op : Op} {x y : AuthPart × Option Str} (h : op.Arg x) (h' : op.Arg y) : x = y := by
  cases op <;> simp only [Op.Arg] at h h'
  case set_host =>
    rcases h with ⟨h1, rfl⟩ | ⟨h1, t, k, ht, rfl⟩ <;> rcases h' with ⟨h1', rfl⟩ | ⟨h1', t', k', ht', rfl⟩
    · rfl
    · exact absurd h1 h1'
    · exact absurd h1' h1
    · rw [plainHost_unique ht ht']
  case set_port_number =>
    obtain ⟨s, hs, rfl⟩ := h; obtain ⟨s', hs', rfl⟩ := h'
    rw [decimal_unique hs hs']
  all_goals exact h.trans h'.symm

theorem effect_edit {op : Op} {c c' : Components} {p : AuthPart} (he : op.Effect c c') (hp : op.authPart = some p) :
    ∃ x, op.Arg x ∧ Edit op p x ∧ c' = c.edit x := by
  cases op <;> simp only [Op.authPart, Option.some.injEq, reduceCtorEq] at hp <;> subst hp <;> simp only [Op.Effect] at he
  case set_user s =>
    subst he
    refine ⟨_, rfl, ⟨rfl, ?_, ?_⟩, ?_⟩
    · by_cases hs : s = [] <;> simp [hs, Op.clears]
    · by_cases hs : s = [] <;> simp [hs, encode_nonempty setOf_regName]
    · split <;> rfl
  case set_encoded_user s =>
    obtain ⟨-, rfl⟩ := he
    refine ⟨_, rfl, ⟨rfl, ?_, ?_⟩, ?_⟩
    · by_cases hs : s = [] <;> simp [hs, Op.clears]
    · by_cases hs : s = [] <;> simp [hs]
    · split <;> rfl
  case set_password s =>
    subst he
    refine ⟨_, rfl, ⟨rfl, ?_, fun _ => .inl rfl⟩, ?_⟩
    · by_cases hs : s = [] <;> simp [hs, Op.clears]
    · split <;> rfl
  case set_encoded_password s =>
    obtain ⟨-, -, rfl⟩ := he
    refine ⟨_, rfl, ⟨rfl, ?_, fun _ => .inl rfl⟩, ?_⟩
    · by_cases hs : s = [] <;> simp [hs, Op.clears]
    · split <;> rfl
  case set_password_part s =>
    refine ⟨_, rfl, ⟨rfl, ?_, fun _ => .inl rfl⟩, ?_⟩
    · by_cases hs : s = [] <;> simp [hs, Op.clears]
    · rcases he with ⟨rfl, rfl⟩ | ⟨rfl, rfl⟩ | ⟨x, y, rfl, hy, -, -, rfl⟩ <;> rfl
  case set_host s =>
    rcases he with ⟨rfl, rfl⟩ | ⟨h1, t, k, ht, rfl⟩
    · exact ⟨(.host, none), .inl ⟨rfl, rfl⟩, ⟨rfl, by simp [Op.clears], by simp⟩, rfl⟩
    · exact ⟨(.host, some t), .inr ⟨h1, t, k, ht, rfl⟩, ⟨rfl, by simp [Op.clears, h1], by simp [plainHost_ne h1 ht]⟩, rfl⟩
  case set_encoded_host s =>
    obtain ⟨-, rfl⟩ := he
    refine ⟨_, rfl, ⟨rfl, ?_, ?_⟩, ?_⟩
    · by_cases hs : s = [] <;> simp [hs, Op.clears]
    · by_cases hs : s = [] <;> simp [hs]
    · split <;> rfl
  case set_port s =>
    obtain ⟨-, rfl⟩ := he
    refine ⟨_, rfl, ⟨rfl, ?_, fun _ => .inr rfl⟩, ?_⟩
    · by_cases hs : s = [] <;> simp [hs, Op.clears]
    · split <;> rfl
  case set_port_number n =>
    obtain ⟨s, hs, rfl⟩ := he
    exact ⟨_, ⟨s, hs, rfl⟩, ⟨rfl, by simp [Op.clears], fun _ => .inr rfl⟩, rfl⟩
  case set_port_part s =>
    refine ⟨_, rfl, ⟨rfl, ?_, fun _ => .inr rfl⟩, ?_⟩
    · by_cases hs : s = [] <;> simp [hs, Op.clears]
    · rcases he with ⟨rfl, rfl⟩ | ⟨y, rfl, -, rfl⟩ <;> rfl

theorem edit_comm {c : Components} {p q : AuthPart} {v w : Option Str} (hpq : p ≠ q) (hv : v = some [] → p = .password ∨ p = .port)
    (hw : w = some [] → q = .password ∨ q = .port) (hc : v = none → w = none → p.info = q.info) :
    (c.edit (p, v)).edit (q, w) = (c.edit (q, w)).edit (p, v) := by
  have hv' : ∀ x, v = some x → p = .user ∨ p = .host → x ≠ [] := by
    rintro x rfl h rfl
    rcases hv rfl with h' | h' <;> subst h' <;> rcases h with h | h <;> cases h
  have hw' : ∀ x, w = some x → q = .user ∨ q = .host → x ≠ [] := by
    rintro x rfl h rfl
    rcases hw rfl with h' | h' <;> subst h' <;> rcases h with h | h <;> cases h
  clear hv hw
  rcases c with ⟨sc, _ | ⟨_ | ⟨_ | ⟨a, u⟩, _ | pw⟩, _ | ⟨b, hh⟩, _ | pt⟩, pa, qu, f⟩ <;> cases p <;> cases q <;>
    first
    | exact absurd rfl hpq
    | (rcases v with _ | _ | ⟨x, v⟩ <;> rcases w with _ | _ | ⟨y, w⟩ <;>
        first
        | rfl
        | exact absurd (hc rfl rfl) (by decide)
        | exact absurd rfl (hv' [] rfl (by decide))
        | exact absurd rfl (hw' [] rfl (by decide)))

theorem edit_twice {c : Components} {p : AuthPart} {v w : Option Str} (hc : v = none → p.info = true → c.auth.isSome = true) :
    (c.edit (p, w)).edit (p, v) = c.edit (p, v) := by
  rcases c with ⟨sc, _ | ⟨_ | ⟨_ | ⟨a, u⟩, _ | pw⟩, _ | ⟨b, hh⟩, _ | pt⟩, pa, qu, f⟩ <;> cases p <;>
    rcases v with _ | _ | ⟨x, v⟩ <;> rcases w with _ | _ | ⟨y, w⟩ <;>
    first
    | rfl
    | exact absurd (hc rfl rfl) (by simp)

/-- calls that edit different parts of the authority commute, unless one clears a part of the userinfo and the
other one clears the host or port -/
theorem effect_comm_auth {op1 op2 : Op} {p q : AuthPart} {c c1 c2 c12 c21 : Components} (h1 : op1.authPart = some p) (h2 : op2.authPart = some q)
    (hpq : p ≠ q) (hc : op1.clears = true → op2.clears = true → p.info = q.info)
    (e1 : op1.Effect c c1) (e12 : op2.Effect c1 c12) (e2 : op2.Effect c c2) (e21 : op1.Effect c2 c21) : c12 = c21 := by
  obtain ⟨x, ax, dx, rfl⟩ := effect_edit e1 h1
  obtain ⟨y, ay, dy, rfl⟩ := effect_edit e2 h2
  obtain ⟨y', ay', -, rfl⟩ := effect_edit e12 h2
  obtain ⟨x', ax', -, rfl⟩ := effect_edit e21 h1
  obtain rfl := arg_unique ax ax'
  obtain rfl := arg_unique ay ay'
  obtain ⟨p', v⟩ := x
  obtain ⟨q', w⟩ := y
  obtain rfl : p' = p := dx.part
  obtain rfl : q' = q := dy.part
  exact edit_comm hpq dx.ne dy.ne fun h1 h2 => hc (dx.clears.1 h1) (dy.clears.1 h2)

/-- a call overwrites what another call did to the same part of the authority -/
theorem effect_twice_auth {op1 op2 : Op} {p : AuthPart} {c c1 c2 c2' : Components} (h1 : op1.authPart = some p) (h2 : op2.authPart = some p)
    (hc : op2.clears = true → p.info = true → c.auth.isSome = true)
    (e1 : op1.Effect c c1) (e12 : op2.Effect c1 c2) (e2 : op2.Effect c c2') : c2 = c2' := by
  obtain ⟨x, ax, dx, rfl⟩ := effect_edit e1 h1
  obtain ⟨y, ay, dy, rfl⟩ := effect_edit e2 h2
  obtain ⟨y', ay', -, rfl⟩ := effect_edit e12 h2
  obtain rfl := arg_unique ay ay'
  obtain ⟨p', v⟩ := x
  obtain ⟨q', w⟩ := y
  obtain rfl : p' = p := dx.part
  obtain rfl : q' = p' := dy.part
  exact edit_twice fun h1 h2 => hc (dy.clears.1 h1) h2

theorem effect_absolute {op : Op} {c c' d d' : Components} {f : Field} (he : op.Effect c c') (he' : op.Effect d d') (hf : op.field = some f)
    (ha : op.absolute = true) : f.Agree c' d' := by
  cases op <;> simp only [Op.absolute, Bool.false_eq_true] at ha <;> simp only [Op.field, Option.some.injEq, reduceCtorEq] at hf <;>
    subst hf <;> simp only [Op.Effect] at he he'
  case set_scheme => obtain ⟨-, rfl⟩ := he; obtain ⟨-, rfl⟩ := he'; rfl
  case set_encoded_authority =>
    rcases he with ⟨h1, rfl⟩ | ⟨h1, a, ht, rfl⟩ <;> rcases he' with ⟨h1', rfl⟩ | ⟨h1', a', ht', rfl⟩
    · rfl
    · exact absurd h1 h1'
    · exact absurd h1' h1
    · rw [authText_unique ht ht']; rfl
  case set_encoded_path => obtain ⟨-, rfl⟩ := he; obtain ⟨-, rfl⟩ := he'; rfl
  case set_query => subst he he'; rfl
  case set_encoded_query => obtain ⟨-, rfl⟩ := he; obtain ⟨-, rfl⟩ := he'; rfl
  case set_query_part =>
    rcases he with ⟨rfl, rfl⟩ | ⟨p, rfl, -, rfl⟩ <;> rcases he' with ⟨e, rfl⟩ | ⟨p', e, -, rfl⟩ <;> first | rfl | (cases e; done) | (cases e; rfl)
  case set_fragment => subst he he'; rfl
  case set_encoded_fragment => obtain ⟨-, rfl⟩ := he; obtain ⟨-, rfl⟩ := he'; rfl
  case set_fragment_part =>
    rcases he with ⟨rfl, rfl⟩ | ⟨p, rfl, -, rfl⟩ <;> rcases he' with ⟨e, rfl⟩ | ⟨p', e, -, rfl⟩ <;> first | rfl | (cases e; done) | (cases e; rfl)

theorem effect_twice {op1 op2 : Op} {f : Field} {c c1 c2 c2' : Components} (h1 : op1.field = some f) (h2 : op2.field = some f)
    (ha : op2.absolute = true) (e1 : op1.Effect c c1) (e12 : op2.Effect c1 c2) (e2 : op2.Effect c c2') : c2 = c2' := by
  refine agree_all fun x => ?_
  by_cases hx : x = f
  · subst hx
    exact effect_absolute e12 e2 h2 ha
  · exact ((effect_other e12 h2 hx).trans (effect_other e1 h1 hx)).trans (effect_other e2 h2 hx).symm

theorem effect_url {s : Str} {c d c' d' : Components} (h : (Op.set_encoded_url s).Effect c c') (h' : (Op.set_encoded_url s).Effect d d') : c' = d' := by
  rcases h with ⟨h1, rfl⟩ | ⟨h1, hv, rfl⟩ <;> rcases h' with ⟨h1', rfl⟩ | ⟨h1', hv', e⟩
  · rfl
  · exact absurd h1 h1'
  · exact absurd h1' h1
  · exact decomposition_unique hv hv' e.symm

theorem effect_unique {op : Op} {f : Field} {c c' c'' : Components} (hf : op.field = some f) (h : op.Effect c c') (h' : op.Effect c c'') : c' = c'' := by
  refine agree_all fun x => ?_
  by_cases hx : x = f
  · subst hx
    exact effect_own h h' hf (by cases x <;> rfl)
  · exact (effect_other h hf hx).trans (effect_other h' hf hx).symm

/-! ### Sequences of calls -/

/-- Memory for texts of up to `n` characters is available. -/
structure Plenty (env : Env) (n : Nat) : Prop where
  max : 2 * n + 1 ≤ env.maxSize
  alloc : ∀ k m, m ≤ env.maxSize → env.alloc k m = true

theorem Plenty.stores {env : Env} {n m : Nat} (h : Plenty env n) (hm : m ≤ n) (st : St) : Stores env st m := by
  by_cases hc : m ≤ st.cap
  · exact .inl hc
  · have := h.max
    have hle : Storage.newCap env.maxSize st.cap m + 1 ≤ env.maxSize := by
      unfold Storage.newCap
      split
      · split <;> omega
      · omega
    exact .inr ⟨hle, h.alloc _ _ hle⟩

/-- `ops` leads from `c` to `c'` through texts of at most `n` characters. -/
inductive Leads (n : Nat) : Components → List Op → Components → Prop
  | nil {c} : Leads n c [] c
  | cons {c c1 c' op ops f} : op.field = some f → ¬ op.Defective c.auth.isSome c.userinfo.isSome → op.Effect c c1 → c1.render.length ≤ n →
      Leads n c1 ops c' → Leads n c (op :: ops) c'

theorem Leads.append {n : Nat} {c c1 c2 : Components} {ops ops' : List Op} (h : Leads n c ops c1) (h' : Leads n c1 ops' c2) :
    Leads n c (ops ++ ops') c2 := by
  induction h with
  | nil => exact h'
  | cons h1 h2 h3 h4 _ ih => exact .cons h1 h2 h3 h4 (ih h')

theorem Leads.run {env : Env} {n : Nat} {st : St} {c c' : Components} {ops : List Op} (hp : Plenty env n) (hrep : Rep env st c)
    (h : Leads n c ops c') : ∃ st', runAll ops env st = .ret () st' ∧ Rep env st' c' := by
  induction h generalizing st with
  | nil => exact ⟨st, rfl, hrep⟩
  | @cons c c1 c' op ops f h1 h2 h3 h4 _ ih =>
    have ho := op_correct hrep op h2
    generalize hout : Url.run op env st = out at ho
    cases ho with
    | ret c2 st1 he _ hok =>
      obtain rfl := effect_unique h1 h3 he
      obtain ⟨st', e, hr⟩ := ih hok.rep
      refine ⟨st', ?_, hr⟩
      rw [runAll, run_bind_ret hout]
      exact e
    | full c2 e st1 he hs =>
      obtain rfl := effect_unique h1 h3 he
      exact absurd (hp.stores h4 st) hs
    | invalid hn => exact absurd ⟨_, h3⟩ hn

end Url
