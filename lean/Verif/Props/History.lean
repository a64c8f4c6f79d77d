import Verif.Props.Frame
import Verif.Props.Parsing

/-!
Properties of the container `url` over all histories: C14 and C41 for the container, C21 - C24, C28.
-/

set_option linter.unusedSimpArgs false
set_option autoImplicit false

namespace Url.Props
open Url Spec

variable {env : Env} {st st' : St}

theorem _root_.Url.Rep.unique {c c' : Components} (h : Rep env st c) (h' : Rep env st c') : c = c' := by
  refine compParts_inj (List.ext_getElem (by rw [compParts_length, compParts_length]) fun i h1 h2 => ?_)
  have e := h.get i true
  rw [h'.get i true] at e
  simpa [List.getD_eq_getElem?_getD, h1, h2] using e.symm

/-! ### C21 -/

/-- The text of the object is accepted by the parser, and parsing it finds the offsets the object has. -/
def Reparses (st : St) : Prop :=
  ∃ txt v, encoded_url (st.obj false) = .ok txt ∧ View.make txt = .ret v ∧ ∀ i, i ≤ 8 → v.pt.off i = st.pt.off i

theorem reparses_iff {c : Components} (h : Rep env st c) : Reparses st ↔ c.Valid lib := by
  have hu := (h.reports false).url
  constructor
  · rintro ⟨txt, v, h1, h2, h3⟩
    rw [hu] at h1
    cases h1
    obtain ⟨c1, hc, he, r⟩ := make_inv h2
    have hr1 := (r.obj true).rep
    have hr := (h.obj true).rep
    have : compParts c1 = compParts c := by
      refine parts_unique (by rw [compParts_length, compParts_length]) (by rw [compParts_flatten, compParts_flatten, he]) ?_
      intro i
      by_cases hi : i ≤ 8
      · have := h3 i hi
        have e1 : v.pt.off i = plen (compParts c1) i := hr1 i
        have e2 : st.pt.off i = plen (compParts c) i := hr i
        omega
      · rw [plen_of_le (by rw [compParts_length]; omega), plen_of_le (by rw [compParts_length]; omega), compParts_flatten, compParts_flatten, he]
    rw [← compParts_inj this]
    exact hc
  · intro hc
    obtain ⟨v, h1, r⟩ := make_of hc
    refine ⟨_, v, hu, h1, fun i _ => ?_⟩
    have e1 : v.pt.off i = plen (compParts c) i := (r.obj true).rep i
    have e2 : st.pt.off i = plen (compParts c) i := (h.obj true).rep i
    omega

theorem scheme_some {c : Components} (hp : PartsOk c) : decide (c.scheme.getD [] ≠ []) = c.scheme.isSome := by
  rcases hsc : c.scheme with _ | x
  · rfl
  · obtain ⟨a, y, rfl, -⟩ := hp.scheme x hsc
    rfl

theorem prefix_some (d : Byte) (q : Option Str) : decide (withPrefix [d] q ≠ []) = q.isSome := by
  cases q <;> simp [withPrefix]

/-- C21: the text parses back to the same components exactly if the path is acceptable after the scheme
and authority that are present. Everything else that could go wrong does not. -/
theorem C21_partial (hr : Reach env st) {sch path q f : Str} (h1 : scheme (st.obj false) = .ok sch)
    (h2 : encoded_path (st.obj false) = .ok path) (h3 : query_part (st.obj false) = .ok q)
    (h4 : fragment_part (st.obj false) = .ok f) :
    Reparses st ↔ PathOk lib (sch ≠ []) (has_authority (st.obj false)) (q ≠ [] || f ≠ []) path := by
  obtain ⟨c, hrep, hp⟩ := hr.rep
  have hb := hrep.reports false
  rw [hb.scheme] at h1
  rw [hb.path] at h2
  rw [hb.query_part] at h3
  rw [hb.fragment_part] at h4
  cases h1; cases h2; cases h3; cases h4
  rw [reparses_iff hrep, hp.valid_iff, hb.has_authority, scheme_some hp, prefix_some, prefix_some]

/-- C21: after `set_encoded_url` the text parses. -/
theorem C21_set_encoded_url {s : Str} (hr : Reach env st) (h : Base.set_encoded_url s env st = .ret () st') : Reparses st' := by
  obtain ⟨c, c', -, -, he, hok⟩ := returned (op := .set_encoded_url s) hr (fun _ _ hd => hd) h
  rw [reparses_iff hok.rep]
  rcases he with ⟨-, rfl⟩ | ⟨-, h, -⟩
  · exact PartsOk.empty.valid_iff.2 (.inl rfl)
  · exact h

/-- C21: after `set_encoded_path` the text parses, unless the path is a lone `/` between nothing and a query or
fragment. -/
theorem C21_set_encoded_path {s : Str} (hr : Reach env st) (h : Base.set_encoded_path s env st = .ret () st')
    (hs : s ≠ b!"/" ∨ has_authority (st.obj false) = true ∨
      (query_part (st.obj false) = .ok [] ∧ fragment_part (st.obj false) = .ok [])) : Reparses st' := by
  obtain ⟨c, c', hrep, hp, he, hok⟩ := returned (op := .set_encoded_path s) hr (fun _ _ hd => hd) h
  have hp' := effect_parts hp he
  obtain ⟨he, rfl⟩ := he
  rw [reparses_iff hok.rep, hp'.valid_iff]
  have hb := hrep.reports false
  rw [hb.has_authority, hb.query_part, hb.fragment_part] at hs
  have habs : c.auth.isSome = false → ∀ f, LoosePathAbsolute s false → LoosePathAbsolute s f ∨ (f = true ∧ s = b!"/") := by
    rintro - f (⟨h1, -⟩ | h1)
    · cases f
      · exact .inl (.inl ⟨h1, rfl⟩)
      · exact .inr ⟨rfl, h1⟩
    · exact .inl (.inr h1)
  have hno : c.auth.isSome = false → (c.query.isSome || c.fragment.isSome) = true → s ≠ b!"/" := by
    intro h1 h2 h3
    rcases hs with h | h | ⟨h, h'⟩
    · exact h h3
    · rw [h1] at h; cases h
    · simp only [Except.ok.injEq] at h h'
      rw [← prefix_some c!"?", ← prefix_some c!"#", h, h'] at h2
      simp at h2
  show PathOk lib c.scheme.isSome c.auth.isSome (c.query.isSome || c.fragment.isSome) s
  unfold PathOk at he ⊢
  by_cases ha : c.auth.isSome = true
  · rw [if_pos ha] at he ⊢; exact he
  · have ha' : c.auth.isSome = false := by simpa using ha
    rw [if_neg ha] at he ⊢
    have key : LoosePathAbsolute s false → LoosePathAbsolute s (c.query.isSome || c.fragment.isSome) := by
      intro h
      rcases habs ha' _ h with h | ⟨h, h'⟩
      · exact h
      · exact absurd h' (hno ha' h)
    split <;> rename_i hsc <;> simp only [hsc, if_true, if_false] at he <;>
    · rcases he with h | h | h
      · exact .inl h
      · exact .inr (.inl (key h))
      · exact .inr (.inr h)

/-- C21: a call that does not set the path and does not change whether a scheme, an authority and a query or
fragment are present keeps the text parsable. -/
theorem C21_kept_partial {op : Op} (hr : Reach env st) (hc : Callable env st op) (h : run op env st = .ret () st')
    (hv : Reparses st) (hp : .path ∉ sets op)
    (hs : scheme (st'.obj false) = .ok [] ↔ scheme (st.obj false) = .ok [])
    (ha : has_authority (st'.obj false) = has_authority (st.obj false))
    (hq : (query_part (st'.obj false) = .ok [] ∧ fragment_part (st'.obj false) = .ok []) ↔
      (query_part (st.obj false) = .ok [] ∧ fragment_part (st.obj false) = .ok [])) : Reparses st' := by
  obtain ⟨c, c', hrep, hpo, he, hok⟩ := returned hr hc h
  have hpo' := effect_parts hpo he
  have hpath : c'.path = c.path := effect_frame he .path hp
  rw [reparses_iff hrep, hpo.valid_iff] at hv
  rw [reparses_iff hok.rep, hpo'.valid_iff]
  have b := hrep.reports false
  have b' := hok.rep.reports false
  rw [b.scheme, b'.scheme] at hs
  rw [b.has_authority, b'.has_authority] at ha
  rw [b.query_part, b'.query_part, b.fragment_part, b'.fragment_part] at hq
  have e1 : c'.scheme.isSome = c.scheme.isSome := by
    rw [← scheme_some hpo, ← scheme_some hpo', decide_eq_decide]
    simp only [Except.ok.injEq] at hs
    exact not_congr hs
  have e2 : (c'.query.isSome || c'.fragment.isSome) = (c.query.isSome || c.fragment.isSome) := by
    rw [← prefix_some c!"?", ← prefix_some c!"#", ← prefix_some c!"?", ← prefix_some c!"#", Bool.eq_iff_iff]
    simp only [Except.ok.injEq] at hq
    simp only [Bool.or_eq_true, decide_eq_true_eq, ne_eq]
    have := not_congr hq
    rwa [Classical.not_and_iff_not_or_not, Classical.not_and_iff_not_or_not] at this
  rw [e1, ha, e2, hpath]
  exact hv

/-- what the parser makes of the text of an object -/
def partsOf (out : Out Unit) : Option (List Str × Option (List Str)) :=
  match out with
  | .ret () st =>
    match encoded_url (st.obj true) with
    | .ok txt => some ((List.range 8).map fun i => ((st.obj true).get i).toOption.getD [],
        match View.make txt with
        | .ret v => some ((List.range 8).map (rawPart v))
        | _ => none)
    | _ => none
  | _ => none

example : Reach env0 sampleSt ∧ Reparses sampleSt :=
  ⟨sampleSt_reach, C21_set_encoded_url .empty sampleSt_eq⟩

/-- C21 is false: removing the authority lets the path be taken for one. -/
theorem C21_authority_false :
    partsOf (runAll [.set_encoded_url b!"//h//x", .set_encoded_authority []] env0 Base.empty) =
      some ([[], [], [], [], [], b!"//x", [], []], some [[], b!"//", [], b!"x", [], [], [], []]) := by decide +kernel

/-- C21 is false: removing the scheme lets the path be taken for one. -/
theorem C21_scheme_false :
    partsOf (runAll [.set_encoded_url b!"a:b:c", .set_scheme []] env0 Base.empty) =
      some ([[], [], [], [], [], b!"b:c", [], []], some [b!"b:", [], [], [], [], b!"c", [], []]) := by decide +kernel

/-- C21 is false: a host before a relative path swallows it. -/
theorem C21_rootless_false :
    partsOf (runAll [.set_encoded_path b!"x", .set_host b!"h"] env0 Base.empty) =
      some ([[], b!"//", [], b!"h", [], b!"x", [], []], some [[], b!"//", [], b!"hx", [], [], [], []]) := by decide +kernel

/-- C21 is false: a query after the path `/`. -/
theorem C21_slash_false :
    partsOf (runAll [.set_encoded_path b!"/", .set_query b!"q"] env0 Base.empty) =
      some ([[], [], [], [], [], b!"/", b!"?q", []], some [[], [], [], [], [], b!"/?q", [], []]) := by decide +kernel

/-- C21 is false: a path that is accepted without an authority and rejected with one. -/
theorem C21_unchecked_false :
    partsOf (runAll [.set_encoded_path b!"/%", .set_host b!"h"] env0 Base.empty) =
      some ([[], b!"//", [], b!"h", [], b!"/%", [], []], none) := by decide +kernel

/-! ### C22 -/

/-- The byte after the text is a null character. -/
def Terminated (st : St) : Prop := ∃ b, st.buf = some b ∧ b[size (st.obj false)]? = some (some 0)

/-- C22 is false: growing a default constructed object leaves an indeterminate byte after the text. -/
theorem C22_false : ∃ st', Base.set_scheme b!"x" env0 Base.empty = .ret () st' ∧ st'.buf = some [some 120, some 58, none] :=
  ⟨_, rfl, by decide +kernel⟩

/-- C22: once the byte after the text is a null character, it stays one through all modifications. -/
theorem C22_kept_partial {op : Op} (hr : Reach env st) (hc : Callable env st op) (ht : Terminated st)
    (h : run op env st = .ret () st' ∨ ∃ e, run op env st = .throw e st') : Terminated st' := by
  rcases h with h | ⟨e, h⟩
  · obtain ⟨c, c', -, -, -, hok⟩ := returned hr hc h
    exact hok.nul.2 (.inr (.inl ht))
  · obtain ⟨h1, h2, -, -⟩ := C18_strong h
    unfold Terminated size St.obj at ht ⊢
    rw [h1, h2]
    exact ht

/-- C22, exactly: after a call the text is followed by a null character if and only if it was so before, or the call
is `set_encoded_url`, or the call had to enlarge a buffer whose recorded size was that of the text. -/
theorem C22_exact {op : Op} (hr : Reach env st) (hc : Callable env st op) (h : run op env st = .ret () st') :
    Terminated st' ↔ (∃ s, s ≠ [] ∧ op = .set_encoded_url s) ∨ Terminated st ∨
      (st.buf.isSome = true ∧ st.size = size (st.obj false) ∧ st.cap < st'.cap) := by
  obtain ⟨c, c', -, -, -, hok⟩ := returned hr hc h
  exact hok.nul

/-- C22: edits of segments keep the null character. -/
theorem C22_edit_partial {e : SegOp} (hr : Reach env st) (he : Editable env st e) (ht : Terminated st)
    (h : (∃ it, runSeg e env st = .ret it st') ∨ ∃ x, runSeg e env st = .throw x st') : Terminated st' := by
  obtain ⟨c, hrep, -⟩ := hr.rep
  have ho := edit_outcome hrep he
  revert ho
  generalize runSeg e env st = out at h
  intro ho
  cases ho with
  | fault f => rcases h with ⟨_, h⟩ | ⟨_, h⟩ <;> cases h
  | invalid =>
    rcases h with ⟨_, h⟩ | ⟨_, h⟩
    · cases h
    · cases h; exact ht
  | full m =>
    rcases h with ⟨_, h⟩ | ⟨_, h⟩
    · cases h
    · cases h; exact ht
  | ret it st1 hv hok =>
    rcases h with ⟨_, h⟩ | ⟨_, h⟩
    · cases h; exact hok.nul ht
    · cases h

/-- the terminator that was never written is put in place by the second allocation, but not by a call that fits -/
example : ∃ st1 st2 st3, Base.set_scheme b!"x" env0 Base.empty = .ret () st1 ∧ ¬ Terminated st1 ∧
    Base.set_scheme b!"y" env0 st1 = .ret () st2 ∧ ¬ Terminated st2 ∧ Base.set_scheme b!"long" env0 st1 = .ret () st3 ∧ Terminated st3 := by
  refine ⟨_, _, _, rfl, ?_, rfl, ?_, rfl, ?_⟩
  · rintro ⟨b, h1, h2⟩
    obtain rfl := Option.some.inj h1
    revert h2
    decide +kernel
  · rintro ⟨b, h1, h2⟩
    obtain rfl := Option.some.inj h1
    revert h2
    decide +kernel
  · exact ⟨_, rfl, by decide +kernel⟩

/-- C22: `set_encoded_url`, and therefore the constructor from a string, establishes it. -/
theorem C22_set_encoded_url_partial {s : Str} (hr : Reach env st) (hs : s ≠ [])
    (h : Base.set_encoded_url s env st = .ret () st') : Terminated st' := by
  obtain ⟨c, hrep, -⟩ := hr.rep
  by_cases hu : UriReference lib s
  · obtain ⟨c', hc', rfl⟩ := hu
    rcases base_set_url_of hrep hc' hs with ⟨-, st1, h1, hok⟩ | ⟨-, st1, h1, -⟩
    · rw [h] at h1
      cases h1
      exact hok.nul
    · rw [h] at h1; cases h1
  · rw [base_set_url_bad s hs hu] at h
    cases h

example : Terminated sampleSt ∧ ∃ st', Base.set_host b!"longer.example" env0 sampleSt = .ret () st' ∧ Terminated st' := by
  have h0 := C22_set_encoded_url_partial .empty (by decide) sampleSt_eq
  have h1 : ∃ st', Base.set_host b!"longer.example" env0 sampleSt = .ret () st' := ⟨_, rfl⟩
  obtain ⟨st', h1⟩ := h1
  exact ⟨h0, st', h1, C22_kept_partial (op := .set_host b!"longer.example") sampleSt_reach (fun _ _ h => h) h0 (.inl h1)⟩

/-! ### C23, C14 -/

/-- C23: no call faults: no access outside the buffer, no read of an indeterminate byte, no failed
assertion. -/
theorem C23_calls_partial {op : Op} (hr : Reach env st) (hc : Callable env st op) (f : Flt) : run op env st ≠ .fault f := by
  obtain ⟨c, hrep, -⟩ := hr.rep
  have ho := op_correct hrep op (callable hrep hc)
  intro h
  rw [h] at ho
  cases ho

/-- C23: no accessor that returns encoded text faults (in a debug build `password_part` does, see
`C46_password_part_false`). -/
theorem C23_accessors (hr : Reach env st) (dbg : Bool) (f : Flt) :
    encoded_url (st.obj dbg) ≠ .error f ∧ encoded_origin (st.obj dbg) ≠ .error f ∧ scheme (st.obj dbg) ≠ .error f ∧
    encoded_authority (st.obj dbg) ≠ .error f ∧ Base.has_userinfo (st.obj dbg) ≠ .error f ∧
    Base.encoded_userinfo (st.obj dbg) ≠ .error f ∧ userinfo_part (st.obj dbg) ≠ .error f ∧
    encoded_user (st.obj dbg) ≠ .error f ∧ Base.encoded_password (st.obj dbg) ≠ .error f ∧
    password_part (st.obj false) ≠ .error f ∧ encoded_host (st.obj dbg) ≠ .error f ∧
    encoded_host_and_port (st.obj dbg) ≠ .error f ∧ port (st.obj dbg) ≠ .error f ∧ port_part (st.obj dbg) ≠ .error f ∧
    encoded_path (st.obj dbg) ≠ .error f ∧ encoded_query (st.obj dbg) ≠ .error f ∧ query_part (st.obj dbg) ≠ .error f ∧
    encoded_fragment (st.obj dbg) ≠ .error f ∧ fragment_part (st.obj dbg) ≠ .error f := by
  obtain ⟨c, hrep, -⟩ := hr.rep
  have b := hrep.reports dbg
  rw [b.url, b.origin, b.scheme, b.authority, b.has_userinfo, b.userinfo, b.userinfo_part, b.user, b.password,
    (hrep.reports false).password_part rfl, b.host, b.host_and_port, b.port, b.port_part, b.path, b.query, b.query_part,
    b.fragment, b.fragment_part]
  simp

theorem escaped_all {hex ok : Byte → Bool} {s : Str} (h : s.all ok = true) : Escaped hex ok s := by
  induction s with
  | nil => exact .nil
  | cons a s ih =>
    simp only [List.all_cons, Bool.and_eq_true] at h
    exact .char h.1 (ih h.2)

/-- C14, C23 for the decoding accessors: they do not fault, and return the percent-decoding of the
encoded component. The host is an exception: see `C33_host_false`. -/
theorem C14_container (hr : Reach env st) (dbg : Bool) :
    ∃ eu ep eh eq ef du dp dh dq df : Str,
      encoded_user (st.obj dbg) = .ok eu ∧ user (st.obj dbg) = .ok du ∧ Decoded eu du ∧
      Base.encoded_password (st.obj dbg) = .ok ep ∧ Base.password (st.obj dbg) = .ok dp ∧ Decoded ep dp ∧
      encoded_host (st.obj dbg) = .ok eh ∧ host (st.obj dbg) = .ok dh ∧
        (HostKind eh (host_type (st.obj dbg)) ∨ host_type (st.obj dbg) = .name → Decoded eh dh) ∧
      encoded_query (st.obj dbg) = .ok eq ∧ query (st.obj dbg) = .ok dq ∧ Decoded eq dq ∧
      encoded_fragment (st.obj dbg) = .ok ef ∧ fragment (st.obj dbg) = .ok df ∧ Decoded ef df := by
  obtain ⟨c, hrep, hp⟩ := hr.rep
  have b := hrep.reports dbg
  have hq : Escaped isUpperHex isQueryFrag (c.query.getD []) := by
    cases hq : c.query with
    | none => exact .nil
    | some q => exact hp.query q hq
  have hf : Escaped isUpperHex isQueryFrag (c.fragment.getD []) := by
    cases hq : c.fragment with
    | none => exact .nil
    | some q => exact hp.fragment q hq
  obtain ⟨du, u1, u2⟩ := decodeR_of (by decide) hp.user
  obtain ⟨dp, p1, p2⟩ := decodeR_of (by decide) hp.password
  obtain ⟨dq, q1, q2⟩ := decodeR_of (by decide) hq
  obtain ⟨df, f1, f2⟩ := decodeR_of (by decide) hf
  have hlit : ∀ x, lib.ipLiteral x → (b!"[" ++ x ++ b!"]").all (· != c!"%") = true := by
    intro x hx
    simp only [List.all_append, lib_ipLiteral_noPct hx]
    decide
  have hhost := hp.host
  have hh : ∃ dh, host (st.obj dbg) = .ok dh ∧ (HostKind c.host (host_type (st.obj dbg)) ∨ host_type (st.obj dbg) = .name → Decoded c.host dh) := by
    have hget : (st.obj dbg).get id_host = .ok c.host := b.host
    unfold host
    split
    · refine ⟨c.host, hget, ?_⟩
      rename_i hk
      have hk : host_type (st.obj dbg) ≠ .name := hk
      rintro (hk' | h)
      · generalize host_type (st.obj dbg) = k at hk hk'
        rcases hhost with ⟨x, hx, e⟩ | hesc
        · rw [e]
          exact decoded_self (hlit x hx)
        · generalize c.host = h at *
          cases hk' with
          | none => exact .nil
          | ipv4 h4 => exact decoded_self (all_mono (fun c h => (digitDot_facts c h).1) (IPv4.digitDot h4))
          | ipv6 => rcases escaped_head hesc with h | h <;> exact absurd h (by decide)
          | name => exact absurd rfl hk
      · exact absurd h hk
    · rw [b.host]
      rcases hhost with ⟨x, hx, e⟩ | hesc
      · have hd : Escaped isUpperHex (fun c => c != c!"%") c.host := by
          rw [e]
          exact escaped_all (hlit x hx)
        obtain ⟨d, h1, h2⟩ := decodeR_of (by decide) hd
        exact ⟨d, h1, fun _ => h2⟩
      · obtain ⟨d, h1, h2⟩ := decodeR_of (by decide) hesc
        exact ⟨d, h1, fun _ => h2⟩
  obtain ⟨dh, h1, h2⟩ := hh
  refine ⟨_, _, _, _, _, du, dp, dh, dq, df, b.user, ?_, u2, b.password, ?_, p2, b.host, h1, h2, b.query, ?_, q2,
    b.fragment, ?_, f2⟩
  · unfold user; rw [b.user]; exact u1
  · unfold Base.password; rw [b.password]; exact p1
  · unfold query; rw [b.query]; exact q1
  · unfold fragment; rw [b.fragment]; exact f1

example : Reach env0 sampleSt ∧ user (sampleSt.obj true) = .ok b!"us er" ∧ host (sampleSt.obj true) = .ok b!"hA.x" :=
  ⟨sampleSt_reach, by decide +kernel, by decide +kernel⟩

/-- C41 for the container -/
theorem C41_container_partial (hr : Reach env st) (dbg : Bool) :
    (∃ a, encoded_authority (st.obj dbg) = .ok a ∧ (a ≠ [] → has_authority (st.obj dbg) = true)) ∧
    (∃ u, userinfo_part (st.obj dbg) = .ok u ∧ (Base.has_userinfo (st.obj dbg) = .ok true ↔ u ≠ [])) := by
  obtain ⟨c, hrep, hp⟩ := hr.rep
  have b := hrep.reports dbg
  refine ⟨⟨_, b.authority, ?_⟩, _, b.userinfo_part, ?_⟩
  · rw [b.has_authority]
    unfold Components.authority
    cases c.auth <;> simp
  · rw [b.has_userinfo]
    rcases c.userinfo with _ | ⟨u, _ | p⟩ <;> simp [withSuffix, userinfoText]

/-- C41 is false: an empty authority -/
theorem C41_container_false : has_authority ((after [.set_encoded_url b!"//"]).obj true) = true ∧
    encoded_authority ((after [.set_encoded_url b!"//"]).obj true) = .ok [] := by decide +kernel

/-! ### C24 -/

/-- C24: the text fits into the capacity. -/
theorem C24_size (hr : Reach env st) (dbg : Bool) : size (st.obj dbg) ≤ st.cap := by
  obtain ⟨c, hrep, -⟩ := hr.rep
  rw [(hrep.reports dbg).size]
  exact hrep.fits

/-- C24: a result that fits does not allocate; otherwise there is one allocation, the capacity at least
doubles, and the allocator's limit is respected. (`tick` counts the allocations.) -/
theorem C24_growth_partial {op : Op} (hr : Reach env st) (hc : Callable env st op) (h : run op env st = .ret () st') :
    (size (st'.obj false) ≤ st.cap → st'.cap = st.cap ∧ st'.tick = st.tick) ∧
    (st.cap < size (st'.obj false) → st'.tick = st.tick + 1 ∧ 2 * st.cap ≤ st'.cap ∧
      (st'.cap = size (st'.obj false) ∨ st'.cap = 2 * st.cap) ∧ st'.cap + 1 ≤ env.maxSize) := by
  obtain ⟨c, hrep, -⟩ := hr.rep
  have ho := op_correct hrep op (callable hrep hc)
  rw [h] at ho
  cases ho with
  | ret c' _ he hs hok =>
    rw [(hok.rep.reports false).size]
    rcases hok.grow with ⟨h1, h2, h3⟩ | ⟨h1, h2, h3⟩
    · exact ⟨fun _ => ⟨h2, h3⟩, fun h => by omega⟩
    · refine ⟨fun h => by omega, fun _ => ?_⟩
      have hst := (hs.resolve_left (by omega)).1
      have := newCap_ge hst
      refine ⟨h3, by omega, ?_, by omega⟩
      rw [h2]
      unfold Storage.newCap at hst ⊢
      split
      · split
        · exact .inl rfl
        · exact .inr rfl
      · rename_i hh; rw [if_neg hh] at hst; omega

/-- C24: the capacity never decreases. -/
theorem C24_monotone_partial {op : Op} (hr : Reach env st) (hc : Callable env st op)
    (h : run op env st = .ret () st' ∨ ∃ e, run op env st = .throw e st') : st.cap ≤ st'.cap := by
  rcases h with h | ⟨e, h⟩
  · have := C24_growth_partial hr hc h
    by_cases hs : size (st'.obj false) ≤ st.cap
    · rw [(this.1 hs).1]; exact Nat.le_refl _
    · have := (this.2 (by omega)).2.1; omega
  · rw [(C18_strong h).2.2.2]; exact Nat.le_refl _

example : (after [.set_encoded_url b!"//h"]).cap = 3 ∧
    ∃ st', run (.set_port b!"8") env0 (after [.set_encoded_url b!"//h"]) = .ret () st' ∧ st'.cap = 6 ∧ st'.tick = 2 :=
  ⟨by decide +kernel, _, rfl, by decide +kernel, by decide +kernel⟩

/-! ### C28 -/

/-- C28: `normalize` always returns, lowers the case of the scheme's letters, and changes nothing else. -/
theorem C28_normalize (hr : Reach env st) (dbg : Bool) :
    ∃ st' s, Base.normalize env st = .ret () st' ∧
      scheme (st.obj dbg) = .ok s ∧ scheme (st'.obj dbg) = .ok (s.map lower) ∧
      size (st'.obj dbg) = size (st.obj dbg) ∧
      has_authority (st'.obj dbg) = has_authority (st.obj dbg) ∧
      (∀ p : Part, p ≠ .scheme → p.text (st'.obj dbg) = p.text (st.obj dbg)) ∧
      (Reparses st' ↔ Reparses st) := by
  obtain ⟨c, hrep, hp⟩ := hr.rep
  have ho := op_correct hrep .normalize (fun h => h)
  have hlen : c.lowerScheme.render.length = c.render.length := by
    rcases c with ⟨_ | s, a, p, q, f⟩ <;> simp [Components.lowerScheme, Components.render]
  have hst : Stores env st c.render.length := .inl hrep.fits
  generalize hout : run .normalize env st = out at ho
  cases ho with
  | ret c' st' he _ hok =>
    cases he
    have b := hrep.reports dbg
    have b' := hok.rep.reports dbg
    refine ⟨st', _, hout, b.scheme, ?_, ?_, ?_, ?_, ?_⟩
    · rw [b'.scheme]
      rcases c with ⟨_ | s, a, p, q, f⟩ <;> rfl
    · rw [b.size, b'.size, hlen]
    · rw [b.has_authority, b'.has_authority]; rfl
    · intro p hpn
      rw [Part.text_eq hok.rep, Part.text_eq hrep]
      cases p <;> first | rfl | exact absurd rfl hpn
    · rw [reparses_iff hok.rep, reparses_iff hrep, hp.valid_iff, (PartsOk.lowerScheme hp).valid_iff]
      simp [Components.lowerScheme]
  | full c' e st' he hs => cases he; rw [hlen] at hs; exact absurd hst hs
  | invalid h => exact absurd ⟨_, rfl⟩ h

/-- C28: a second `normalize` changes nothing any more. -/
theorem C28_idempotent {st'' : St} (hr : Reach env st) (h : Base.normalize env st = .ret () st')
    (h' : Base.normalize env st' = .ret () st'') (dbg : Bool) : encoded_url (st''.obj dbg) = encoded_url (st'.obj dbg) := by
  obtain ⟨c, c', hrep, -, he, hok⟩ := returned (op := .normalize) hr (fun _ _ hd => hd) h
  obtain ⟨c1, c2, hrep', -, he', hok'⟩ := returned (op := .normalize) (.call .normalize hr (fun _ _ hd => hd) (.inl h)) (fun _ _ hd => hd) h'
  cases he; cases he'
  rw [(hok'.rep.reports dbg).url, (hok.rep.reports dbg).url, hrep'.unique hok.rep]
  have hl : ∀ a, lower (lower a) = lower a := forall_byte (by decide +kernel)
  rcases c with ⟨_ | s, a, p, q, f⟩ <;> simp [Components.lowerScheme, Function.comp_def, hl]

example : textOf (runAll [.set_encoded_url b!"HtTp+-.://HOST/P", .normalize] env0 Base.empty) = some b!"http+-.://HOST/P" := by
  decide +kernel

end Url.Props
