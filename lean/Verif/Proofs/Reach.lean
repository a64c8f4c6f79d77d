import Verif.Proofs.Op
import Verif.Proofs.SegOp
import Verif.Proofs.Rfc

/-!
What holds in every reachable state: the object holds the parts of a URL, each of which is well formed.
-/

set_option linter.unusedSimpArgs false

namespace Url
open Spec

variable {env : Env} {st : St} {c c' : Components}

/-- Each component but the path is well formed. -/
structure PartsOk (c : Components) : Prop where
  scheme : ∀ s, c.scheme = some s → Scheme lib s
  auth : ∀ a, c.auth = some a → a.Valid lib
  query : ∀ q, c.query = some q → Escaped isUpperHex isQueryFrag q
  fragment : ∀ f, c.fragment = some f → Escaped isUpperHex isQueryFrag f

theorem slashed_none {hex} : Slashed hex [] := ⟨[], by simp, rfl⟩

theorem PathNoscheme.rootless {hex p} (h : PathNoscheme hex p) : PathRootless hex p := by
  obtain ⟨s, t, h1, h2, h3, rfl⟩ := h
  exact ⟨s, t, h1, Escaped.mono (fun _ h => h) (forall_byte (by decide +kernel)) h2, h3, rfl⟩

theorem pathOk_shape {a b f : Bool} {p : Str} (h : PathOk lib a b f p) :
    Slashed isUpperHex p ∨ (∃ f, LoosePathAbsolute p f) ∨ PathRootless isUpperHex p := by
  unfold PathOk at h
  split at h
  · exact .inl h
  · split at h
    · rcases h with rfl | h | h
      · exact .inl slashed_none
      · exact .inr (.inl ⟨_, h⟩)
      · exact .inr (.inr h)
    · rcases h with rfl | h | h
      · exact .inl slashed_none
      · exact .inr (.inl ⟨_, h⟩)
      · exact .inr (.inr (PathNoscheme.rootless h))

theorem PartsOk.of_valid (h : c.Valid lib) : PartsOk c :=
  ⟨h.1, h.2.1, h.2.2.2.1, h.2.2.2.2⟩

/-- The components form a valid URL exactly if the path is acceptable where it stands. -/
theorem PartsOk.valid_iff (h : PartsOk c) :
    c.Valid lib ↔ PathOk lib c.scheme.isSome c.auth.isSome (c.query.isSome || c.fragment.isSome) c.path :=
  ⟨fun h => h.2.2.1, fun hp => ⟨h.scheme, h.auth, hp, h.query, h.fragment⟩⟩

theorem PartsOk.empty : PartsOk Components.empty :=
  ⟨by simp [Components.empty], by simp [Components.empty], by simp [Components.empty], by simp [Components.empty]⟩

theorem pctEncode_escaped {e ok} (he : SetOf e ok) (s : Str) : Escaped isUpperHex ok (pctEncode ok s) :=
  encode_eq he s ▸ encode_escaped he s

theorem auth_valid_iff {a : Auth} : a.Valid lib ↔
    (∀ u pw, a.userinfo = some (u, pw) → Escaped isUpperHex isRegName u ∧ ∀ p, pw = some p → Escaped isUpperHex isUserinfo p) ∧
    Host lib a.host ∧ (∀ p, a.port = some p → p.all isDigit = true) := Iff.rfl

theorem emptyAuth_valid : Auth.Valid lib ⟨none, [], none⟩ := ⟨by simp, .inr .nil, by simp⟩

theorem PartsOk.authD (h : PartsOk c) : c.authD.Valid lib := by
  unfold Components.authD
  cases ha : c.auth with
  | none => exact emptyAuth_valid
  | some a => exact h.auth a ha

theorem PartsOk.withAuth (h : PartsOk c) {a : Option Auth} (ha : ∀ x, a = some x → x.Valid lib) : PartsOk (c.withAuth a) :=
  ⟨h.scheme, ha, h.query, h.fragment⟩

theorem PartsOk.withAuth_some (h : PartsOk c) {a : Auth} (ha : a.Valid lib) : PartsOk (c.withAuth (some a)) :=
  h.withAuth fun x hx => by simp at hx; exact hx ▸ ha

theorem PartsOk.user (h : PartsOk c) : Escaped isUpperHex isRegName c.user := by
  unfold Components.user Components.userinfo
  cases ha : c.auth with
  | none => exact .nil
  | some a =>
    simp only [Option.bind_some]
    rcases hi : a.userinfo with _ | ⟨u, pw⟩
    · exact .nil
    · exact ((h.auth a ha).1 u pw hi).1

theorem PartsOk.password (h : PartsOk c) : Escaped isUpperHex isUserinfo c.password := by
  unfold Components.password Components.userinfo
  cases ha : c.auth with
  | none => exact .nil
  | some a =>
    simp only [Option.bind_some]
    rcases hi : a.userinfo with _ | ⟨u, _ | pw⟩
    · exact .nil
    · exact .nil
    · exact ((h.auth a ha).1 u _ hi).2 pw rfl

theorem PartsOk.host (h : PartsOk c) : Host lib c.host := by
  unfold Components.host
  cases ha : c.auth with
  | none => exact .inr .nil
  | some a => exact (h.auth a ha).2.1

theorem PartsOk.withUser (h : PartsOk c) {s : Str} (hs : Escaped isUpperHex isRegName s) : PartsOk (c.withUser s) := by
  refine h.withAuth_some ⟨?_, h.authD.2.1, h.authD.2.2⟩
  intro u pw e
  simp only [Option.some.injEq, Prod.mk.injEq] at e
  obtain ⟨rfl, rfl⟩ := e
  refine ⟨hs, fun p hp => ?_⟩
  have := h.password
  unfold Components.password at this
  rcases hu : c.userinfo with _ | ⟨u', pw'⟩ <;> simp [hu] at hp
  rw [hu] at this
  subst hp
  exact this

theorem PartsOk.withPassword (h : PartsOk c) {s : Str} (hs : Escaped isUpperHex isUserinfo s) : PartsOk (c.withPassword s) := by
  refine h.withAuth_some ⟨?_, h.authD.2.1, h.authD.2.2⟩
  intro u pw e
  simp only [Option.some.injEq, Prod.mk.injEq] at e
  obtain ⟨rfl, rfl⟩ := e
  exact ⟨h.user, fun p hp => by simp at hp; exact hp ▸ hs⟩

theorem PartsOk.withHost (h : PartsOk c) {s : Str} (hs : Host lib s) : PartsOk (c.withHost s) :=
  h.withAuth_some ⟨h.authD.1, hs, h.authD.2.2⟩

theorem PartsOk.withPort (h : PartsOk c) {s : Str} (hs : s.all isDigit = true) : PartsOk (c.withPort s) :=
  h.withAuth_some ⟨h.authD.1, h.authD.2.1, fun p hp => by simp at hp; exact hp ▸ hs⟩

theorem PartsOk.withUserinfo (h : PartsOk c) {u s} (hu : UserinfoText u s) : PartsOk (c.withUserinfo u) := by
  refine h.withAuth_some ⟨?_, h.authD.2.1, h.authD.2.2⟩
  intro u pw e
  simp only [Option.some.injEq] at e
  subst e
  exact ⟨hu.1, hu.2.1⟩

theorem PartsOk.clearUser (h : PartsOk c) : PartsOk c.clearUser := by
  refine h.withAuth ?_
  intro x hx
  cases ha : c.auth with
  | none => simp [ha] at hx
  | some a =>
    have hv := h.auth a ha
    simp only [ha, Option.map_some, Option.some.injEq] at hx
    subst hx
    refine ⟨?_, hv.2.1, hv.2.2⟩
    intro u pw e
    rcases hi : a.userinfo with _ | ⟨u', _ | p'⟩ <;> simp [hi] at e
    obtain ⟨rfl, rfl⟩ := e
    exact ⟨.nil, fun p hp => (hv.1 u' _ hi).2 p hp⟩

theorem PartsOk.clearPassword (h : PartsOk c) : PartsOk c.clearPassword := by
  refine h.withAuth ?_
  intro x hx
  cases ha : c.auth with
  | none => simp [ha] at hx
  | some a =>
    have hv := h.auth a ha
    simp only [ha, Option.map_some, Option.some.injEq] at hx
    subst hx
    refine ⟨?_, hv.2.1, hv.2.2⟩
    intro u pw e
    rcases hi : a.userinfo with _ | ⟨u', p'⟩
    · simp [hi] at e
    · simp only [hi] at e
      split at e
      · simp at e
      · simp only [Option.some.injEq, Prod.mk.injEq] at e
        obtain ⟨rfl, rfl⟩ := e
        exact ⟨(hv.1 u' _ hi).1, by simp⟩

theorem PartsOk.clearHost (h : PartsOk c) : PartsOk c.clearHost := by
  refine h.withAuth ?_
  intro x hx
  cases ha : c.auth with
  | none => simp [ha] at hx
  | some a =>
    have hv := h.auth a ha
    simp only [ha] at hx
    split at hx
    · simp at hx
    · simp only [Option.some.injEq] at hx
      subst hx
      exact ⟨hv.1, .inr .nil, hv.2.2⟩

theorem PartsOk.clearPort (h : PartsOk c) : PartsOk c.clearPort := by
  refine h.withAuth ?_
  intro x hx
  cases ha : c.auth with
  | none => simp [ha] at hx
  | some a =>
    have hv := h.auth a ha
    simp only [ha] at hx
    split at hx
    · simp at hx
    · simp only [Option.some.injEq] at hx
      subst hx
      exact ⟨hv.1, hv.2.1, by simp⟩

theorem PartsOk.clearUserinfo (h : PartsOk c) : PartsOk c.clearUserinfo := by
  refine h.withAuth ?_
  intro x hx
  cases ha : c.auth with
  | none => simp [ha] at hx
  | some a =>
    have hv := h.auth a ha
    simp only [ha] at hx
    split at hx
    · simp at hx
    · simp only [Option.some.injEq] at hx
      subst hx
      exact ⟨by simp, hv.2.1, hv.2.2⟩

theorem PartsOk.withQuery (h : PartsOk c) {q : Option Str} (hq : ∀ x, q = some x → Escaped isUpperHex isQueryFrag x) :
    PartsOk { c with query := q } := ⟨h.scheme, h.auth, hq, h.fragment⟩

theorem PartsOk.withFragment (h : PartsOk c) {q : Option Str} (hq : ∀ x, q = some x → Escaped isUpperHex isQueryFrag x) :
    PartsOk { c with fragment := q } := ⟨h.scheme, h.auth, h.query, hq⟩

theorem present_of {P : Str → Prop} {s : Str} (hs : s ≠ [] → P s) (x : Str) (hx : present s = some x) : P x := by
  unfold present at hx
  split at hx
  · simp at hx
  · rename_i h
    simp at hx; exact hx ▸ hs h

theorem plainHost_valid {s txt k} (h : PlainHost s txt k) : Host lib txt := by
  cases h with
  | ipv4 h4 =>
    refine .inr ?_
    have := IPv4.digitDot h4
    clear h4
    induction s with
    | nil => exact .nil
    | cons a s ih =>
      simp only [List.all_cons, Bool.and_eq_true] at this
      exact .char ((forall_byte (by decide +kernel) : ∀ a, isDigitDot a = true → isRegName a = true) a this.1) (ih this.2)
  | literal hx => exact .inl ⟨_, hx, rfl⟩
  | name => exact .inr (pctEncode_escaped setOf_regName _)

theorem scheme_lower {s : Str} (h : Scheme lib s) : Scheme lib (s.map lower) := by
  obtain ⟨a, t, rfl, h1, h2⟩ := h
  refine ⟨lower a, t.map lower, rfl, ?_, ?_⟩
  · exact (forall_byte (by decide +kernel) : ∀ a, isAlpha a = true → isAlpha (lower a) = true) a h1
  · rw [List.all_map]
    refine all_mono (fun c hc => ?_) h2
    exact (forall_byte (by decide +kernel) : ∀ a, lib.schemeChar a = true → (lib.schemeChar ∘ lower) a = true) c hc

theorem PartsOk.lowerScheme (h : PartsOk c) : PartsOk c.lowerScheme := by
  refine ⟨?_, h.auth, h.query, h.fragment⟩
  intro s hs
  cases hc : c.scheme with
  | none => simp [Components.lowerScheme, hc] at hs
  | some x =>
    simp only [Components.lowerScheme, hc, Option.map_some, Option.some.injEq] at hs
    subst hs
    exact scheme_lower (h.scheme x hc)

/-- Every call keeps the components well formed. -/
theorem effect_parts {op : Op} (h : PartsOk c) (he : op.Effect c c') : PartsOk c' := by
  cases op with
  | set_encoded_url s =>
    rcases he with ⟨-, rfl⟩ | ⟨-, hv, -⟩
    · exact PartsOk.empty
    · exact .of_valid hv
  | set_encoded_origin s =>
    rcases he with ⟨-, rfl⟩ | ⟨sch, a, ⟨h1, h2, -⟩, rfl⟩
    · exact ⟨by simp, by simp, h.query, h.fragment⟩
    · exact ⟨fun s hs => by simp at hs; exact hs ▸ h1, fun x hx => by simp at hx; exact hx ▸ h2, h.query, h.fragment⟩
  | set_scheme s =>
    obtain ⟨hv, rfl⟩ := he
    refine ⟨present_of fun hs => hv.resolve_left hs, h.auth, h.query, h.fragment⟩
  | set_encoded_authority s =>
    rcases he with ⟨-, rfl⟩ | ⟨-, a, ha, rfl⟩
    · exact h.withAuth (by simp)
    · exact h.withAuth_some ha.1
  | set_encoded_userinfo s =>
    rcases he with ⟨-, rfl⟩ | ⟨-, u, hu, rfl⟩
    · exact h.clearUserinfo
    · exact h.withUserinfo hu
  | set_userinfo_part s =>
    rcases he with ⟨-, rfl⟩ | ⟨x, u, -, -, hu, rfl⟩
    · exact h.clearUserinfo
    · exact h.withUserinfo hu
  | set_user s =>
    obtain rfl := he
    split
    · exact h.clearUser
    · exact h.withUser (pctEncode_escaped setOf_regName _)
  | set_encoded_user s =>
    obtain ⟨hv, rfl⟩ := he
    split
    · exact h.clearUser
    · exact h.withUser hv
  | set_password s =>
    obtain rfl := he
    split
    · exact h.clearPassword
    · exact h.withPassword (pctEncode_escaped setOf_userinfo _)
  | set_encoded_password s =>
    obtain ⟨-, hv, rfl⟩ := he
    split
    · exact h.clearPassword
    · exact h.withPassword hv
  | set_password_part s =>
    rcases he with ⟨-, rfl⟩ | ⟨-, rfl⟩ | ⟨d, p, -, -, -, hv, rfl⟩
    · exact h.clearPassword
    · exact h.withPassword .nil
    · exact h.withPassword hv
  | set_host s =>
    rcases he with ⟨-, rfl⟩ | ⟨-, txt, k, hp, rfl⟩
    · exact h.clearHost
    · exact h.withHost (plainHost_valid hp)
  | set_encoded_host s =>
    obtain ⟨hv, rfl⟩ := he
    split
    · exact h.clearHost
    · exact h.withHost hv
  | set_port s =>
    obtain ⟨hv, rfl⟩ := he
    split
    · exact h.clearPort
    · exact h.withPort hv
  | set_port_number n =>
    obtain ⟨s, hd, rfl⟩ := he
    exact h.withPort hd.2.1
  | set_port_part s =>
    rcases he with ⟨-, rfl⟩ | ⟨p, -, hv, rfl⟩
    · exact h.clearPort
    · exact h.withPort hv
  | set_encoded_path s =>
    obtain ⟨hv, rfl⟩ := he
    exact ⟨h.scheme, h.auth, h.query, h.fragment⟩
  | set_query s =>
    obtain rfl := he
    exact h.withQuery (present_of fun _ => pctEncode_escaped setOf_query _)
  | set_encoded_query s =>
    obtain ⟨hv, rfl⟩ := he
    exact h.withQuery (present_of fun _ => hv)
  | set_query_part s =>
    rcases he with ⟨-, rfl⟩ | ⟨q, -, hv, rfl⟩
    · exact h.withQuery (by simp)
    · exact h.withQuery (fun x hx => by simp at hx; exact hx ▸ hv)
  | set_fragment s =>
    obtain rfl := he
    exact h.withFragment (present_of fun _ => pctEncode_escaped setOf_query _)
  | set_encoded_fragment s =>
    obtain ⟨hv, rfl⟩ := he
    exact h.withFragment (present_of fun _ => hv)
  | set_fragment_part s =>
    rcases he with ⟨-, rfl⟩ | ⟨q, -, hv, rfl⟩
    · exact h.withFragment (by simp)
    · exact h.withFragment (fun x hx => by simp at hx; exact hx ▸ hv)
  | normalize_scheme => obtain rfl := he; exact h.lowerScheme
  | normalize => obtain rfl := he; exact h.lowerScheme

theorem Rep.empty : Rep env Base.empty Components.empty := by
  refine ⟨none, ?_, rfl, .inl ⟨rfl, rfl, rfl, rfl⟩, .inl rfl, .inl rfl⟩
  intro i
  have : plen (cells Components.empty) i = 0 := by
    unfold plen
    have h0 : (cells Components.empty).flatten = [] := rfl
    have : ((cells Components.empty).take i).flatten ++ ((cells Components.empty).drop i).flatten = [] := by
      rw [← List.flatten_append, List.take_append_drop, h0]
    rw [(List.append_eq_nil_iff.1 this).1]
    rfl
  rw [this]
  rfl

theorem Same.rep {st' : St} (h : Rep env st c) (hs : Same st st') : Rep env st' c := by
  obtain ⟨t, h⟩ := h
  obtain ⟨b, s, cp, tk, p, a, l⟩ := st
  obtain ⟨b', s', cp', tk', p', a', l'⟩ := st'
  simp only [Same, St.mk.injEq, true_and] at hs
  obtain ⟨rfl, rfl, rfl, rfl, rfl, rfl⟩ := hs
  exact ⟨t, h.rep, h.len, h.buf, h.cap, h.term⟩

/-- the calls that can be made in a state are those that are not defective for the components it holds -/
theorem callable {op : Op} (h : Rep env st c)
    (hd : ∀ info, Base.has_userinfo (st.obj env.dbg) = .ok info → ¬ op.Defective (has_authority (st.obj env.dbg)) info) :
    ¬ op.Defective c.auth.isSome c.userinfo.isSome := by
  have := hd _ (acc_base_has_userinfo (h.obj env.dbg))
  rwa [acc_has_authority (h.obj env.dbg)] at this

/-- what can come of an edit in a state that holds `c` -/
theorem edit_outcome {e : SegOp} (h : Rep env st c) (he : Editable env st e) : SegOutcome env e st c (runSeg e env st) := by
  obtain ⟨p, h1, h2, h3, h4⟩ := he
  rw [acc_path (h.obj env.dbg)] at h1
  cases h1
  exact seg_correct h h2 e h3 h4

/-- Every reachable object holds components that are well formed. -/
theorem Reach.rep (h : Reach env st) : ∃ c, Rep env st c ∧ PartsOk c := by
  induction h with
  | @edit st st' e hr he hrun ih =>
    obtain ⟨c, hc, hp⟩ := ih
    have ho := edit_outcome hc he
    revert ho
    generalize runSeg e env st = out at hrun
    intro ho
    cases ho with
    | fault f => rcases hrun with ⟨_, h⟩ | ⟨_, h⟩ <;> cases h
    | invalid =>
      rcases hrun with ⟨_, h⟩ | ⟨_, h⟩
      · cases h
      · cases h; exact ⟨c, hc, hp⟩
    | full m =>
      rcases hrun with ⟨_, h⟩ | ⟨_, h⟩
      · cases h
      · cases h; exact ⟨c, Same.rep hc rfl, hp⟩
    | ret it st1 hv hok =>
      rcases hrun with ⟨_, h⟩ | ⟨_, h⟩
      · cases h; exact ⟨_, hok.rep, ⟨hp.scheme, hp.auth, hp.query, hp.fragment⟩⟩
      · cases h
  | empty => exact ⟨_, Rep.empty, PartsOk.empty⟩
  | @call st st' op hr hd hrun ih =>
    obtain ⟨c, hc, hp⟩ := ih
    have ho := op_correct hc op (callable hc hd)
    revert ho
    generalize run op env st = out at hrun
    intro ho
    cases ho with
    | ret c' st1 he hs hok =>
      rcases hrun with e | ⟨e, h⟩
      · cases e; exact ⟨c', hok.rep, effect_parts hp he⟩
      · cases h
    | full c' e st1 he hs hx hsame =>
      rcases hrun with e | ⟨e, h⟩
      · cases e
      · cases h; exact ⟨c, hsame.rep hc, hp⟩
    | invalid =>
      rcases hrun with e | ⟨e, h⟩
      · cases e
      · cases h; exact ⟨c, hc, hp⟩

end Url
