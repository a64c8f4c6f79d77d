import Verif.Props.Algebra
import Verif.Props.SegEdit
import Verif.Props.Alias

/-!
What a `url` does depends on its text and its recorded parts only: C54.
-/

set_option linter.unusedSimpArgs false
set_option autoImplicit false

namespace Url.Props
open Url Spec

variable {env env' : Env} {a b a' b' : St}

/-- The two objects have the same text and the same parts table (`detail::parts`: the offsets, the recorded numbers
of segments and parameters and the recorded kind of host). They may differ in their buffers, in their capacity and in
everything that has happened to them. -/
structure Alike (a b : St) : Prop where
  text : encoded_url (a.obj false) = encoded_url (b.obj false)
  pt : a.pt = b.pt

theorem Alike.refl : Alike a a := ⟨rfl, rfl⟩
theorem Alike.symm (h : Alike a b) : Alike b a := ⟨h.text.symm, h.pt.symm⟩

theorem rep_alike {c : Components} (h : Rep env a c) (h' : Rep env' b c) (hs : a.pt.nseg = b.pt.nseg) (hp : a.pt.nparam = b.pt.nparam)
    (hh : a.pt.host = b.pt.host) : Alike a b := by
  refine ⟨by rw [(h.reports false).url, (h'.reports false).url], ?_⟩
  have ho : a.pt.off = b.pt.off := by
    funext i
    have e1 : a.pt.off i = plen (compParts c) i := (h.obj true).rep i
    have e2 : b.pt.off i = plen (compParts c) i := (h'.obj true).rep i
    rw [e1, e2]
  generalize a.pt = x at *
  generalize b.pt = y at *
  cases x; cases y
  simp_all

/-- Objects that are alike hold the same components. -/
theorem alike_comps {c c' : Components} (h : Rep env a c) (h' : Rep env' b c') (hs : Alike a b) : c = c' := by
  apply compParts_inj
  apply parts_unique
  · rw [compParts_length, compParts_length]
  · have := hs.text
    rw [(h.reports false).url, (h'.reports false).url] at this
    rw [compParts_flatten, compParts_flatten]
    exact Except.ok.inj this
  · intro i
    have e1 : a.pt.off i = plen (compParts c) i := (h.obj true).rep i
    have e2 : b.pt.off i = plen (compParts c') i := (h'.obj true).rep i
    rw [← e1, ← e2, hs.pt]

theorem same_alike (ha : Reach env a) (hb : Reach env' b) (hs : SameUrl a b) (hn : a.pt.nseg = b.pt.nseg) (hp : a.pt.nparam = b.pt.nparam)
    (hh : a.pt.host = b.pt.host) : Alike a b := by
  obtain ⟨c, h, -⟩ := ha.rep
  obtain ⟨c', h', -⟩ := hb.rep
  have hl : ∀ (c : Components) {i}, 8 ≤ i → plen (compParts c) i = plen (compParts c) 8 := by
    intro c i hi
    unfold plen
    rw [List.take_of_length_le (by rw [compParts_length]; omega), List.take_of_length_le (by rw [compParts_length]; omega)]
  have ho : ∀ i, plen (compParts c) i = plen (compParts c') i := by
    intro i
    have key : ∀ i, i ≤ 8 → plen (compParts c) i = plen (compParts c') i := by
      intro i hi
      have e1 : a.pt.off i = plen (compParts c) i := (h.obj true).rep i
      have e2 : b.pt.off i = plen (compParts c') i := (h'.obj true).rep i
      rw [← e1, ← e2, hs.2 i hi]
    by_cases hi : i ≤ 8
    · exact key i hi
    · rw [hl c (by omega), hl c' (by omega), key 8 (by omega)]
  have hc : c = c' := by
    apply compParts_inj
    apply parts_unique (by rw [compParts_length, compParts_length]) _ ho
    have := hs.1 false
    rw [(h.reports false).url, (h'.reports false).url] at this
    rw [compParts_flatten, compParts_flatten]
    exact Except.ok.inj this
  subst hc
  exact rep_alike h h' hn hp hh

theorem Alike.callable (hs : Alike a b) (ha : Reach env a) (hb : Reach env' b) {op : Op} (hc : Callable env a op) : Callable env' b op := by
  obtain ⟨c, hra, -⟩ := ha.rep
  obtain ⟨c', hrb, -⟩ := hb.rep
  obtain rfl := alike_comps hra hrb hs
  intro info hi
  have := Url.callable hra hc
  rw [(hrb.reports env'.dbg).has_userinfo] at hi
  rw [(hrb.reports env'.dbg).has_authority]
  cases hi
  exact this

theorem Alike.editable (hs : Alike a b) (ha : Reach env a) (hb : Reach env' b) {e : SegOp} (he : Editable env a e) : Editable env' b e := by
  obtain ⟨c, hra, -⟩ := ha.rep
  obtain ⟨c', hrb, -⟩ := hb.rep
  obtain rfl := alike_comps hra hrb hs
  obtain ⟨p, h1, h2, h3, h4⟩ := he
  rw [(hra.reports env.dbg).path] at h1
  cases h1
  exact ⟨_, (hrb.reports env'.dbg).path, hs.pt ▸ h2, h3, h4⟩

theorem originText_unique {s sch sch' : Str} {x y : Auth} (h : OriginText sch x s) (h' : OriginText sch' y s) : sch = sch' ∧ x = y := by
  have hv : ∀ {s sch : Str} {x : Auth}, OriginText sch x s → (⟨some sch, some x, [], none, none⟩ : Components).Valid lib :=
    fun h => ⟨fun _ e => by cases e; exact h.1, fun _ e => by cases e; exact h.2.1, slashed_none, by simp, by simp⟩
  have := decomposition_unique (hv h) (hv h') (by
    have := h.2.2.symm.trans h'.2.2
    simpa [Components.render, withSuffix, withPrefix] using this)
  simpa using this

/-- A call has one effect. -/
theorem effect_one {op : Op} {c c' c'' : Components} (h : op.Effect c c') (h' : op.Effect c c'') : c' = c'' := by
  cases hf : op.field with
  | some f => exact effect_unique hf h h'
  | none =>
    cases op <;> simp only [Op.field, reduceCtorEq] at hf
    · exact effect_url h h'
    · rename_i s
      have hne : ∀ {sch : Str} {x : Auth}, ¬ OriginText sch x [] := by
        rintro sch x ⟨-, -, h⟩; simp at h
      rcases h with ⟨rfl, rfl⟩ | ⟨sch, x, ht, rfl⟩ <;> rcases h' with ⟨e, rfl⟩ | ⟨sch', y, ht', rfl⟩
      · rfl
      · exact absurd ht' hne
      · subst e; exact absurd ht hne
      · obtain ⟨rfl, rfl⟩ := originText_unique ht ht'; rfl

theorem hostKind_one {s : Str} {k l : HostType} (h : HostKind s k) (h' : HostKind s l) : k = l := by
  cases h with
  | none => cases h' with
    | none => rfl
    | ipv4 h => exact absurd rfl (v4_head h).1
    | name h => exact absurd rfl h
  | ipv4 h => cases h' with
    | none => exact absurd rfl (v4_head h).1
    | ipv4 => rfl
    | ipv6 => exact absurd rfl (v4_head h).2
    | name _ h' => exact absurd h h'
  | ipv6 => cases h' with
    | ipv4 h => exact absurd rfl (v4_head h).2
    | ipv6 => rfl
    | name _ _ h => exact absurd rfl h
  | name h1 h2 h3 => cases h' with
    | none => exact absurd rfl h1
    | ipv4 h => exact absurd h h2
    | ipv6 => exact absurd rfl h3
    | name => rfl

theorem plainHost_one {s x y : Str} {k l : HostType} (h : PlainHost s x k) (h' : PlainHost s y l) : k = l := by
  cases h with
  | ipv4 h =>
    generalize hz : s = z at h'
    cases h' with
    | ipv4 => rfl
    | literal => subst hz; exact absurd rfl (v4_head h).2
    | name h' => subst hz; exact absurd h h'
  | literal h =>
    generalize hz : b!"[" ++ _ ++ b!"]" = z at h'
    cases h' with
    | ipv4 h' => subst hz; exact absurd rfl (v4_head h').2
    | literal => rfl
    | name _ h' => exact absurd ⟨_, h, hz.symm⟩ h'
  | name h4 hl =>
    cases h' with
    | ipv4 h => exact absurd h h4
    | literal h => exact absurd ⟨_, h, rfl⟩ hl
    | name => rfl

theorem hostAfter_one {op : Op} {c : Components} {k l m : HostType} (h : HostAfter op c k l) (h' : HostAfter op c k m) : l = m := by
  cases op <;> simp only [HostAfter] at h h'
  case set_encoded_url s =>
    split at h <;> rename_i e
    · rw [if_pos e] at h'; rw [h, h']
    · rw [if_neg e] at h'; exact hostKind_one h h'
  case set_host s =>
    split at h <;> rename_i e
    · rw [if_pos e] at h'; rw [h, h']
    · rw [if_neg e] at h'; exact plainHost_one h h'
  case set_encoded_host s =>
    split at h <;> rename_i e
    · rw [if_pos e] at h'; rw [h, h']
    · rw [if_neg e] at h'; exact hostKind_one h h'
  all_goals rw [h, h']

theorem opOk_alike {op : Op} {c : Components} (hs : Alike a b) (h : OpOk env op a c a') (h' : OpOk env' op b c b') : Alike a' b' := by
  have hc := h.counts
  have hc' := h'.counts
  have hh := h.host
  rw [hs.pt] at hh
  unfold CountsAfter at hc hc'
  rw [hs.pt] at hc
  refine rep_alike h.rep h'.rep ?_ ?_ (hostAfter_one hh h'.host)
  · cases op <;> simp only at hc hc' <;> (try split at hc) <;> simp_all
  · cases op <;> simp only at hc hc' <;> (try split at hc) <;> simp_all

/-- C54: no accessor distinguishes objects that are alike. For the segments the recorded number must not be zero for a
path that is not empty or the other way round. -/
theorem C54_accessors (ha : Reach env a) (hb : Reach env' b) (hs : Alike a b) (dbg : Bool) :
    (∀ q : Part, q.text (a.obj dbg) = q.text (b.obj dbg)) ∧
    encoded_url (a.obj dbg) = encoded_url (b.obj dbg) ∧ Url.size (a.obj dbg) = Url.size (b.obj dbg) ∧
    encoded_origin (a.obj dbg) = encoded_origin (b.obj dbg) ∧ has_authority (a.obj dbg) = has_authority (b.obj dbg) ∧
    encoded_authority (a.obj dbg) = encoded_authority (b.obj dbg) ∧
    Base.has_userinfo (a.obj dbg) = Base.has_userinfo (b.obj dbg) ∧
    Base.encoded_userinfo (a.obj dbg) = Base.encoded_userinfo (b.obj dbg) ∧
    userinfo_part (a.obj dbg) = userinfo_part (b.obj dbg) ∧
    encoded_host_and_port (a.obj dbg) = encoded_host_and_port (b.obj dbg) ∧ port_part (a.obj dbg) = port_part (b.obj dbg) ∧
    host_type (a.obj dbg) = host_type (b.obj dbg) ∧ query_part (a.obj dbg) = query_part (b.obj dbg) ∧
    fragment_part (a.obj dbg) = fragment_part (b.obj dbg) ∧
    ((a.pt.nseg = 0 ↔ encoded_path (a.obj dbg) = .ok []) → ∀ fuel, a.pt.off id_end < fuel →
      Base.segments (a.obj dbg) fuel = Base.segments (b.obj dbg) fuel) := by
  obtain ⟨c, hra, -⟩ := ha.rep
  obtain ⟨c', hrb, -⟩ := hb.rep
  obtain rfl := alike_comps hra hrb hs
  have r := hra.reports dbg
  have r' := hrb.reports dbg
  refine ⟨fun q => by rw [Part.text_eq hra, Part.text_eq hrb], by rw [r.url, r'.url], by rw [r.size, r'.size], by rw [r.origin, r'.origin],
    by rw [r.has_authority, r'.has_authority], by rw [r.authority, r'.authority], by rw [r.has_userinfo, r'.has_userinfo],
    by rw [r.userinfo, r'.userinfo], by rw [r.userinfo_part, r'.userinfo_part], by rw [r.host_and_port, r'.host_and_port],
    by rw [r.port_part, r'.port_part], ?_, by rw [r.query_part, r'.query_part], by rw [r.fragment_part, r'.fragment_part], ?_⟩
  · unfold host_type St.obj
    rw [hs.pt]
  · intro hn fuel hf
    rw [r.path] at hn
    have hn : a.pt.nseg = 0 ↔ c.path = [] := hn.trans ⟨Except.ok.inj, congrArg _⟩
    have hl : (pathSegments c.path).length < fuel := by
      have h1 : a.pt.off id_end = c.render.length := by
        obtain ⟨t, hh⟩ := hra
        rw [hh.off_end, cells_length]
      have h3 := path_le_render c
      have h4 := pieces_length_le c.path
      rw [pieces_length] at h4
      omega
    rw [base_segments (hra.obj dbg) hn hl, base_segments (hrb.obj dbg) (show b.pt.nseg = 0 ↔ _ from hs.pt ▸ hn) hl]

/-- There was no memory for the call. -/
def Refused (x : Exc) : Prop := x = .bad_alloc ∨ x = .too_large

/-- C54: the same call on two objects that are alike either returns for both, and leaves objects that are alike; or
it throws for both because the argument is not acceptable; or at least one of them lacks the memory, in which case
that one is alike what it was. The configurations and allocators of the two may differ. -/
theorem C54_calls (ha : Reach env a) (hb : Reach env' b) (hs : Alike a b) {op : Op} (hc : Callable env a op) :
    (∃ a' b', run op env a = .ret () a' ∧ run op env' b = .ret () b' ∧ Alike a' b') ∨
    (run op env a = .throw .invalid_part a ∧ run op env' b = .throw .invalid_part b) ∨
    (∃ x a', run op env a = .throw x a' ∧ Refused x ∧ Alike a' a ∧
      ((∃ b', run op env' b = .ret () b') ∨ ∃ y b', run op env' b = .throw y b' ∧ Refused y ∧ Alike b' b)) ∨
    (∃ y b', run op env' b = .throw y b' ∧ Refused y ∧ Alike b' b ∧ ∃ a', run op env a = .ret () a') := by
  obtain ⟨c, hra, -⟩ := ha.rep
  obtain ⟨c', hrb, -⟩ := hb.rep
  obtain rfl := alike_comps hra hrb hs
  have h1 := op_correct hra op (Url.callable hra hc)
  have h2 := op_correct hrb op (Url.callable hra hc)
  have same : ∀ {s s' : St}, Same s s' → Alike s' s := by
    intro s s' h
    rw [← h]
    exact ⟨rfl, rfl⟩
  generalize run op env a = x at h1 ⊢
  generalize run op env' b = y at h2 ⊢
  cases h1 with
  | ret c1 a' e1 _ ok1 =>
    cases h2 with
    | ret c2 b' e2 _ ok2 =>
      obtain rfl := effect_one e1 e2
      exact .inl ⟨_, _, rfl, rfl, opOk_alike hs ok1 ok2⟩
    | full c2 y b' e2 _ hy hsame => exact .inr (.inr (.inr ⟨_, _, rfl, hy, same hsame, _, rfl⟩))
    | invalid hn => exact absurd ⟨_, e1⟩ hn
  | full c1 x a' e1 _ hx hsame =>
    cases h2 with
    | ret c2 b' e2 _ ok2 => exact .inr (.inr (.inl ⟨_, _, rfl, hx, same hsame, .inl ⟨_, rfl⟩⟩))
    | full c2 y b' e2 _ hy hsame' => exact .inr (.inr (.inl ⟨_, _, rfl, hx, same hsame, .inr ⟨_, _, rfl, hy, same hsame'⟩⟩))
    | invalid hn => exact absurd ⟨_, e1⟩ hn
  | invalid hn =>
    cases h2 with
    | ret c2 b' e2 _ ok2 => exact absurd ⟨_, e2⟩ hn
    | full c2 y b' e2 _ hy hsame' => exact absurd ⟨_, e2⟩ hn
    | invalid => exact .inr (.inl ⟨rfl, rfl⟩)

/-- C54 for sequences of calls: what the objects were before does not matter beyond what is visible. -/
theorem C54_sequences (ha : Reach env a) (hb : Reach env' b) (hs : Alike a b) {ops : List Op} (hc : CallableAll env a ops)
    (h1 : runAll ops env a = .ret () a') (h2 : runAll ops env' b = .ret () b') : Alike a' b' := by
  induction ops generalizing a b with
  | nil => cases h1; cases h2; exact hs
  | cons op ops ih =>
    rw [runAll] at h1 h2
    obtain ⟨_, x, e1, h1⟩ := Alias.bind_ret h1
    obtain ⟨_, y, e2, h2⟩ := Alias.bind_ret h2
    rcases C54_calls ha hb hs hc.1 with ⟨x', y', e1', e2', hs'⟩ | ⟨e1', -⟩ | ⟨_, _, e1', -⟩ | ⟨_, _, e2', -⟩
    · rw [e1] at e1'; rw [e2] at e2'
      cases e1'; cases e2'
      exact ih (.call op ha hc.1 (.inl e1)) (.call op hb (hs.callable ha hb hc.1) (.inl e2)) hs' (hc.2 _ e1) h1 h2
    · rw [e1] at e1'; cases e1'
    · rw [e1] at e1'; cases e1'
    · rw [e2] at e2'; cases e2'

/-- C54 for edits: if an edit returns for two objects that are alike, it leaves objects that are alike and returns
iterators at the same position. -/
theorem C54_edits_partial (ha : Reach env a) (hb : Reach env' b) (hs : Alike a b) (hm : env.sizeMax = env'.sizeMax) {e : SegOp}
    (he : Editable env a e) {it it' : SegIt} (h1 : runSeg e env a = .ret it a') (h2 : runSeg e env' b = .ret it' b') :
    Alike a' b' ∧ it.off = it'.off := by
  obtain ⟨c, hra, -, -, -, ok1⟩ := edited ha he h1
  obtain ⟨c', hrb, -, -, -, ok2⟩ := edited hb (hs.editable ha hb he) h2
  obtain rfl := alike_comps hra hrb hs
  refine ⟨rep_alike ok1.rep ok2.rep ?_ ?_ ?_, by rw [ok1.off, ok2.off]⟩
  · rw [ok1.count, ok2.count, hm, hs.pt]
  · rw [ok1.nparam, ok2.nparam, hs.pt]
  · rw [ok1.host, ok2.host, hs.pt]

/-- C54 for edits: the argument is acceptable for both objects or for neither. -/
theorem C54_edits_invalid (ha : Reach env a) (hb : Reach env' b) (hs : Alike a b) {e : SegOp} (he : Editable env a e) :
    (∃ s, runSeg e env a = .throw .invalid_part s) ↔ ∃ s, runSeg e env' b = .throw .invalid_part s := by
  have key : ∀ {env : Env} {a : St}, Reach env a → Editable env a e → ((∃ s, runSeg e env a = .throw .invalid_part s) ↔ ¬ e.Valid) := by
    intro env a ha he
    obtain ⟨c, hra, -⟩ := ha.rep
    have ho := edit_outcome hra he
    generalize runSeg e env a = x at ho ⊢
    cases ho with
    | fault f hv => exact ⟨fun h => (by obtain ⟨_, h⟩ := h; cases h), fun h => absurd hv h⟩
    | invalid hv => exact ⟨fun _ => hv, fun _ => ⟨_, rfl⟩⟩
    | full _ hv => exact ⟨fun h => (by obtain ⟨_, h⟩ := h; cases h), fun h => absurd hv h⟩
    | ret _ _ hv => exact ⟨fun h => (by obtain ⟨_, h⟩ := h; cases h), fun h => absurd hv h⟩
  rw [key ha he, key hb (hs.editable ha hb he)]

/-! ### Cases -/

/-- the same URL twice: once after a longer one, once from the beginning -/
def shrunk : St := after [.set_scheme b!"xxxxxxxxxx", .set_scheme b!"x", .set_query b!"q"]
def grown : St := after [.set_scheme b!"x", .set_query b!"q"]

theorem shrunk_reach : Reach env0 shrunk := reach_all .empty (by simp [Op.Defective]) (after_eq (by decide +kernel))
theorem grown_reach : Reach env0 grown := reach_all .empty (by simp [Op.Defective]) (after_eq (by decide +kernel))

theorem sameUrl_of {a b : St} (_ : encoded_url (a.obj true) = encoded_url (b.obj true)) (_ : encoded_url (a.obj false) = encoded_url (b.obj false))
    (h3 : ∀ i, i < 9 → a.pt.off i = b.pt.off i) : SameUrl a b :=
  ⟨fun dbg => by cases dbg <;> assumption, fun i hi => h3 i (by omega)⟩

theorem terminated_iff {st : St} : Terminated st ↔ (st.buf.bind (·[size (st.obj false)]?)) = some (some 0) := by
  unfold Terminated
  cases st.buf with
  | none => simp
  | some b => simp

/-- the text after an edit, or the fault -/
def editEnd (out : Out SegIt) : Option (Str ⊕ Flt) :=
  match out with
  | .ret _ st => (encoded_url (st.obj true)).toOption.map .inl
  | .throw .. => none
  | .fault f => some (.inr f)

/-- They are alike, although one has a terminator and the other has not. -/
theorem shrunk_grown : Alike shrunk grown ∧ ¬ Terminated shrunk ∧ Terminated grown := by
  refine ⟨same_alike shrunk_reach grown_reach (sameUrl_of ?_ ?_ ?_) ?_ ?_ ?_, ?_, ?_⟩
  · decide +kernel
  · decide +kernel
  · decide +kernel
  · decide +kernel
  · decide +kernel
  · decide +kernel
  · rw [terminated_iff]; decide +kernel
  · rw [terminated_iff]; decide +kernel

/-- Cases of `C54_calls`, `C54_sequences` and `C54_edits_partial`. -/
example : textOf (run (.set_host b!"h") env0 shrunk) = some b!"x://h?q" ∧ textOf (run (.set_host b!"h") env0 grown) = some b!"x://h?q" ∧
    Editable env0 shrunk (.insert 0 b!"y") := by
  refine ⟨by decide +kernel, by decide +kernel, ?_⟩
  exact ⟨[], by decide +kernel, by decide +kernel, ⟨by decide, by decide⟩, by decide +kernel⟩

/-- C54 is false for edits in a build with assertions: inserting a segment is undefined for one of two objects that
are alike and succeeds for the other, as only one of them has a terminator. -/
theorem C54_edit_false : Reach env0 shrunk ∧ Reach env0 grown ∧ Alike shrunk grown ∧ Editable env0 shrunk (.insert 0 b!"y") ∧
    editEnd (runSeg (.insert 0 b!"y") env0 shrunk) = some (.inr .ub) ∧
    editEnd (runSeg (.insert 0 b!"y") env0 grown) = some (.inl b!"x:/y?q") := by
  refine ⟨shrunk_reach, grown_reach, shrunk_grown.1, ?_, by decide +kernel, by decide +kernel⟩
  exact ⟨[], by decide +kernel, by decide +kernel, ⟨by decide, by decide⟩, by decide +kernel⟩

/-- C54 is false if only the texts are compared: two objects with the text `b:c`, of which one has the scheme `b`
and the other has no scheme; `set_scheme` distinguishes them. -/
theorem C54_text_false :
    encoded_url ((after [.set_encoded_url b!"a:b:c", .set_scheme []]).obj true) = .ok b!"b:c" ∧
    encoded_url ((made env0 b!"b:c").obj true) = .ok b!"b:c" ∧
    textOf (run (.set_scheme []) env0 (after [.set_encoded_url b!"a:b:c", .set_scheme []])) = some b!"b:c" ∧
    textOf (run (.set_scheme []) env0 (made env0 b!"b:c")) = some b!"c" := by
  decide +kernel

end Url.Props
