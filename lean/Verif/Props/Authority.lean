import Verif.Props.History
import Verif.Proofs.UserinfoSetter

/-!
Properties of the setters for the authority and its parts, and of the values the container caches:
C29 - C33, C46, C47.
-/

set_option linter.unusedSimpArgs false
set_option autoImplicit false

namespace Url.Props
open Url Spec

variable {env : Env} {st st' : St}

/-! ### C29 -/

/-- C29: the port is the decimal representation of the number, without leading zeros. -/
theorem C29_set_port_number {n : UInt32} (hr : Reach env st) (h : Base.set_port_number n env st = .ret () st') (dbg : Bool) :
    ∃ s, port (st'.obj dbg) = .ok s ∧ Decimal n.toNat s := by
  obtain ⟨c, c', -, -, ⟨s, hs, rfl⟩, hok⟩ := returned (op := .set_port_number n) hr (fun _ _ hd => hd) h
  exact ⟨s, (hok.rep.reports dbg).port, hs⟩

/-- C29: the call does not reject any number. -/
theorem C29_accepts {n : UInt32} (hr : Reach env st) : ¬ Rejects (.set_port_number n) env st := by
  obtain ⟨c, hrep, -⟩ := hr.rep
  rw [rejects_iff (op := .set_port_number n) hrep fun h => h]
  have ho := op_correct hrep (.set_port_number n) (fun h => h)
  generalize run (.set_port_number n) env st = out at ho
  cases ho with
  | ret c' _ he => exact fun h => h ⟨c', he⟩
  | full c' _ _ he => exact fun h => h ⟨c', he⟩
  | invalid hn =>
    intro _
    have := base_set_port_number hrep n
    obtain ⟨s, hd, -⟩ := this
    exact hn ⟨_, s, hd, rfl⟩

example : textOf (Base.set_port_number 8080 env0 sampleSt) = some b!"http://us%20er:p:w@h%41.x:8080/a//b;c?k=v&l#f%2F" ∧
    textOf (Base.set_port_number 0 env0 Base.empty) = some b!"//:0" ∧ Decimal 8080 b!"8080" := by
  refine ⟨by decide +kernel, by decide +kernel, by decide, by decide, by decide, by decide⟩

/-! ### C30 -/

theorem removeSuffix_one (x : Str) (d : Byte) : removeSuffix (x ++ [d]) 1 = .ok x := by simp [removeSuffix]

theorem userinfo_call {s : Str} (hr : Reach env st) (hs : s ≠ []) (h : Base.set_encoded_userinfo s env st = .ret () st') :
    ∃ c u, Rep env st c ∧ UserinfoText u s ∧ BadSplit env c s u.1.length st st' := by
  obtain ⟨c, hrep, -⟩ := hr.rep
  by_cases hd : Escaped isUpperHex isUserinfo s
  · obtain ⟨u, hu⟩ := userinfoText_exists hd
    have := base_set_userinfo_of hrep hs hu
    rw [h] at this
    cases this with
    | ret hb => exact ⟨c, u, hrep, hu, hb⟩
  · obtain ⟨c, c', -, -, he, -⟩ := returned (op := .set_encoded_userinfo s) hr (fun _ _ hd' => hd hd'.2) h
    rcases he with ⟨he, -⟩ | ⟨-, u, hu, -⟩
    · exact absurd he hs
    · exact absurd (userinfoText_valid hu) hd

/-- C30: the text of the userinfo is stored, and the other components stay as they are. What is missing is
that the user and the password are told apart: see `C30_false`. -/
theorem C30_partial {s : Str} (hr : Reach env st) (hs : s ≠ []) (h : Base.set_encoded_userinfo s env st = .ret () st') (dbg : Bool) :
    userinfo_part (st'.obj dbg) = .ok (s ++ b!"@") ∧ Base.encoded_userinfo (st'.obj dbg) = .ok s ∧
    ∀ p : Part, p ≠ .user → p ≠ .password → p.text (st'.obj dbg) = p.text (st.obj dbg) := by
  obtain ⟨c, u, hrep, hu, hb⟩ := userinfo_call hr hs h
  have ho := fun dbg => hb.obj dbg
  have hle : u.1.length ≤ (b!"//" ++ s).length := by
    rw [← hu.2.2, userinfoText_eq]; simp; omega
  have htext : (st'.obj dbg).get2 id_user id_host = .ok (b!"//" ++ (s ++ b!"@")) := by
    have := (ho dbg).get2 (b := id_user) (e := id_host) (by decide)
    rw [this]
    show Except.ok [(b!"//" ++ s).take u.1.length, (b!"//" ++ s).drop u.1.length ++ b!"@"].flatten = _
    rw [List.flatten_cons, List.flatten_cons, List.flatten_nil, List.append_nil, ← List.append_assoc, List.take_append_drop, List.append_assoc]
  have hback : backIs (s ++ b!"@") c!"@" = .ok true := by simp [backIs]
  have hpart : userinfo_part (st'.obj dbg) = .ok (s ++ b!"@") := by
    unfold userinfo_part
    rw [htext]
    simp [Obj.assert, removePrefix, bind, Except.bind, pure, Except.pure, hback]
  refine ⟨hpart, ?_, ?_⟩
  · unfold Base.encoded_userinfo
    rw [hpart]
    simp [Obj.assert, removeSuffix, bind, Except.bind, pure, Except.pure, hback]
  · have hg : ∀ i, i = 0 ∨ i = 3 ∨ i = 4 ∨ i = 5 ∨ i = 6 ∨ i = 7 → (st'.obj dbg).get i = (st.obj dbg).get i := by
      intro i hi
      rw [(ho dbg).get, (hrep.obj dbg).get]
      rcases c with ⟨sc, _ | ⟨_ | ⟨us, _ | pw⟩, hh, _ | pp⟩, pa, q, f⟩ <;>
        rcases hi with rfl | rfl | rfl | rfl | rfl | rfl <;> rfl
    intro p h1 h2
    cases p
    · show scheme _ = scheme _
      unfold scheme
      rw [hg 0 (by simp)]
      rfl
    · exact absurd rfl h1
    · exact absurd rfl h2
    · exact hg 3 (by simp)
    · show port_part _ = port_part _
      unfold port_part
      rw [hg 4 (by simp)]
      rfl
    · exact hg 5 (by simp)
    · show query_part _ = query_part _
      unfold query_part delimited
      rw [hg 6 (by simp)]
      rfl
    · show fragment_part _ = fragment_part _
      unfold fragment_part delimited
      rw [hg 7 (by simp)]
      rfl

/-- C30: the argument is rejected exactly if it is not a userinfo. -/
theorem C30_accepts (hr : Reach env st) (s : Str) :
    Rejects (.set_encoded_userinfo s) env st ↔ ¬ Escaped isUpperHex isUserinfo s := by
  obtain ⟨c, hrep, -⟩ := hr.rep
  by_cases hs : s = []
  · subst hs
    rw [rejects_iff (op := .set_encoded_userinfo []) hrep fun h => h.1 rfl]
    exact ⟨fun h => absurd ⟨_, .inl ⟨rfl, rfl⟩⟩ h, fun h => absurd .nil h⟩
  · constructor
    · rintro ⟨st', h⟩ hv
      obtain ⟨u, hu⟩ := userinfoText_exists hv
      have := base_set_userinfo_of hrep hs hu
      rw [show Base.set_encoded_userinfo s env st = _ from h] at this
      cases this with
      | full h => rcases h with h | h <;> cases h
    · exact fun hv => ⟨st, base_set_userinfo_bad s hs hv⟩

/-- C30 is false for every userinfo: a user name of two or more characters loses its last two to the
password, a user name of one character makes reading the user undefined, and an empty user name
leaves an object that has no userinfo. -/
theorem C30_false {u : Str} {p : Option Str} {s : Str} (hr : Reach env st) (hs : s ≠ []) (hu : UserinfoText (u, p) s)
    (h : Base.set_encoded_userinfo s env st = .ret () st') :
    (2 ≤ u.length → ∀ dbg, encoded_user (st'.obj dbg) = .ok (u.take (u.length - 2)) ∧
      Base.encoded_password (st'.obj dbg) = .ok (u.drop (u.length - 2) ++ withPrefix b!":" p)) ∧
    (u.length = 1 → encoded_user (st'.obj true) = .error .assert ∧ encoded_user (st'.obj false) = .error .ub) ∧
    (u = [] → Base.has_userinfo (st'.obj false) = .ok false ∧ Base.has_userinfo (st'.obj true) = .error .assert) := by
  obtain ⟨c, hrep, -⟩ := hr.rep
  have := base_set_userinfo_of hrep hs hu
  rw [h] at this
  cases this with
  | ret hb =>
  obtain ⟨hesc, -, rfl⟩ := hu
  rw [userinfoText_eq] at hb
  have g1 : ∀ dbg, (st'.obj dbg).get id_user = .ok ((b!"//" ++ (u ++ pwText p)).take u.length) := fun dbg => (hb.obj dbg).get id_user
  have g2 : ∀ dbg, (st'.obj dbg).get id_password = .ok ((b!"//" ++ (u ++ pwText p)).drop u.length ++ b!"@") := fun dbg => (hb.obj dbg).get id_password
  refine ⟨fun h2 dbg => ?_, fun h1 => ?_, ?_⟩
  · obtain ⟨n, hn⟩ : ∃ n, u.length = n + 2 := ⟨u.length - 2, by omega⟩
    have e1 : (b!"//" ++ (u ++ pwText p)).take u.length = b!"//" ++ u.take n := by
      rw [hn]
      simp [List.take_append_of_le_length, hn]
    have e2 : (b!"//" ++ (u ++ pwText p)).drop u.length = u.drop n ++ pwText p := by
      rw [hn]
      simp [List.drop_append_of_le_length, hn]
    have e1 := e1 ▸ g1 dbg
    have e2 := e2 ▸ g2 dbg
    rw [show u.length - 2 = n by omega]
    constructor
    · unfold encoded_user
      rw [e1]
      simp [Obj.assert, removePrefix, bind, Except.bind, pure, Except.pure]
    · unfold Base.encoded_password
      rw [e2]
      obtain ⟨a, w, haw⟩ : ∃ a w, u.drop n = a :: w := by
        cases hd : u.drop n with
        | nil => have := congrArg List.length hd; simp [hn] at this
        | cons a w => exact ⟨a, w, rfl⟩
      have hne : a ≠ c!":" := by
        have hm : a ∈ u := List.mem_of_mem_drop (i := n) (by rw [haw]; simp)
        rintro rfl
        exact escaped_noColon hesc hm
      have hp : withPrefix b!":" p = pwText p := by cases p <;> rfl
      have hback : backIs (a :: (w ++ (pwText p ++ b!"@"))) c!"@" = .ok true := by
        rw [show a :: (w ++ (pwText p ++ b!"@")) = (a :: (w ++ pwText p)) ++ b!"@" by simp]
        unfold backIs
        rw [List.getLast?_append]
        simp
      rw [haw, hp]
      have hrem : removeSuffix (a :: (w ++ (pwText p ++ b!"@"))) 1 = .ok (a :: (w ++ pwText p)) := by
        rw [show a :: (w ++ (pwText p ++ b!"@")) = (a :: (w ++ pwText p)) ++ b!"@" by simp]
        exact removeSuffix_one _ _
      simp [Obj.assert, bind, Except.bind, pure, Except.pure, frontIs, hne, hback, hrem]
  · have e1 : (b!"//" ++ (u ++ pwText p)).take u.length = b!"/" := by rw [h1]; rfl
    constructor
    · unfold encoded_user
      rw [g1 true, e1]
      rfl
    · unfold encoded_user
      rw [g1 false, e1]
      rfl
  · rintro rfl
    have l1 : ∀ dbg, (st'.obj dbg).pt.length id_user = 0 := fun dbg => (hb.obj dbg).rep.length id_user
    have l2 : ∀ dbg, (st'.obj dbg).pt.length2 id_user id_path ≠ 0 := by
      intro dbg
      rw [(hb.obj dbg).rep.length2 (by decide)]
      simp [badParts, id_user, id_path]
    constructor
    · unfold Base.has_userinfo hasUserinfoTo
      rw [if_pos (l1 false)]
      rfl
    · unfold Base.has_userinfo hasUserinfoTo
      rw [if_pos (l1 true)]
      simp [Obj.assert, l2 true, show (st'.obj true).dbg = true from rfl, bind, Except.bind]

/-- C30: what a caller sees -/
theorem C30_witness : ∃ st', Base.set_encoded_userinfo b!"user:pass" env0 sampleSt = .ret () st' ∧
    encoded_url (st'.obj true) = .ok b!"http://user:pass@h%41.x:80/a//b;c?k=v&l#f%2F" ∧
    encoded_user (st'.obj true) = .ok b!"us" ∧ Base.encoded_password (st'.obj true) = .ok b!"er:pass" :=
  ⟨_, rfl, by decide +kernel, by decide +kernel, by decide +kernel⟩

example : UserinfoText (b!"user", some b!"pass") b!"user:pass" ∧ UserinfoText (b!"u", none) b!"u" ∧ UserinfoText (b!"", some b!"p") b!":p" := by
  refine ⟨⟨escaped_all (by decide), fun p h => ?_, rfl⟩, ⟨escaped_all (by decide), fun p h => (by cases h), rfl⟩, ⟨.nil, fun p h => ?_, rfl⟩⟩ <;>
  · cases h
    exact escaped_all (by decide)

/-! ### C31 -/

/-- C31: the authority is replaced by the parsed argument (`C31_accepts` gives the arguments that are
accepted). What is missing is the host type: see `C33_host_false`. -/
theorem C31_partial {s : Str} (hr : Reach env st) (hs : s ≠ []) (h : Base.set_encoded_authority s env st = .ret () st') (dbg : Bool) :
    ∃ a : Auth, a.Valid lib ∧ a.render = s ∧ has_authority (st'.obj dbg) = true ∧ encoded_authority (st'.obj dbg) = .ok s ∧
      Base.has_userinfo (st'.obj dbg) = .ok a.userinfo.isSome ∧
      encoded_user (st'.obj dbg) = .ok ((a.userinfo.map (·.1)).getD []) ∧
      password_part (st'.obj false) = .ok (withPrefix b!":" (a.userinfo.bind (·.2))) ∧
      encoded_host (st'.obj dbg) = .ok a.host ∧ port_part (st'.obj dbg) = .ok (withPrefix b!":" a.port) := by
  obtain ⟨c, c', -, -, he, hok⟩ := returned (op := .set_encoded_authority s) hr (fun _ _ hd => hd) h
  rcases he with ⟨he, -⟩ | ⟨-, a, ⟨hv, rfl⟩, rfl⟩
  · exact absurd he hs
  · have b := hok.rep.reports dbg
    have b0 := hok.rep.reports false
    refine ⟨a, hv, rfl, b.has_authority, b.authority, b.has_userinfo, ?_, b0.password_part rfl, b.host, b.port_part⟩
    rw [b.user]
    rcases a with ⟨_ | ⟨u, p⟩, hh, pt⟩ <;> rfl

example : (∃ st', Base.set_encoded_authority b!"a:b:c@[::1]:" env0 sampleSt = .ret () st' ∧
    encoded_url (st'.obj true) = .ok b!"http://a:b:c@[::1]:/a//b;c?k=v&l#f%2F" ∧ encoded_user (st'.obj true) = .ok b!"a") ∧
    Rejects (.set_encoded_authority b!"a b") env0 sampleSt :=
  ⟨⟨_, rfl, by decide +kernel, by decide +kernel⟩, _, rfl⟩

/-! ### C32 -/

theorem scheme_noColon {s : Str} (h : Scheme lib s) : c!":" ∉ s := by
  obtain ⟨a, r, rfl, ha, hr⟩ := h
  have h1 : ∀ a, isAlpha a = true → c!":" ≠ a := forall_byte (by decide +kernel)
  have h2 : ∀ a, lib.schemeChar a = true → a ≠ c!":" := forall_byte (by decide +kernel)
  simp only [List.mem_cons, not_or]
  refine ⟨h1 a ha, fun hm => ?_⟩
  exact h2 _ (List.all_eq_true.1 hr _ hm) rfl

theorem scheme_split {x y r r' : Str} (hx : c!":" ∉ x) (hy : c!":" ∉ y) (h : x ++ c!":" :: r = y ++ c!":" :: r') : x = y ∧ r = r' := by
  induction x generalizing y with
  | nil =>
    cases y with
    | nil => simpa using h
    | cons b y => simp at h hy; exact absurd h.1 hy.1
  | cons a x ih =>
    cases y with
    | nil => simp at h hx; exact absurd h.1.symm hx.1
    | cons b y =>
      simp only [List.mem_cons, not_or] at hx hy
      simp only [List.cons_append, List.cons.injEq] at h
      obtain ⟨rfl, rfl⟩ := ih hx.2 hy.2 h.2
      exact ⟨by rw [h.1], rfl⟩

/-- C32: after setting a string `scheme "://" authority`, that string is the origin, and the path, query and
fragment are as before. What is missing: other arguments are not rejected, see `C32_false`. -/
theorem C32_partial {sch s : Str} {a : Auth} (hr : Reach env st) (hs : OriginText sch a s)
    (h : Base.set_encoded_origin s env st = .ret () st') (dbg : Bool) :
    encoded_origin (st'.obj dbg) = .ok s ∧ scheme (st'.obj dbg) = .ok sch ∧ encoded_authority (st'.obj dbg) = .ok a.render ∧
    encoded_path (st'.obj dbg) = encoded_path (st.obj dbg) ∧ query_part (st'.obj dbg) = query_part (st.obj dbg) ∧
    fragment_part (st'.obj dbg) = fragment_part (st.obj dbg) := by
  have hne : s ≠ [] := by
    obtain ⟨-, -, rfl⟩ := hs
    simp
  obtain ⟨c, c', hrep, -, he, hok⟩ := returned (op := .set_encoded_origin s) hr (fun _ _ hd => hd.2 ⟨sch, a, hs⟩) h
  rcases he with ⟨he, -⟩ | ⟨sch', a', hs', rfl⟩
  · exact absurd he hne
  · have b := hrep.reports dbg
    have b' := hok.rep.reports dbg
    rw [b'.origin, b'.scheme, b'.authority, b'.path, b'.query_part, b'.fragment_part, b.path, b.query_part, b.fragment_part]
    have hi : sch' = sch ∧ a'.render = a.render := by
      have e := hs.2.2.symm.trans hs'.2.2
      simp only [List.append_assoc] at e
      have := scheme_split (scheme_noColon hs.1) (scheme_noColon hs'.1) e
      exact ⟨this.1.symm, by simpa using this.2.symm⟩
    obtain ⟨rfl, e⟩ := hi
    refine ⟨?_, rfl, ?_, rfl, rfl, rfl⟩
    · rw [hs'.2.2]; rfl
    · rw [← e]; rfl

/-- C32 is false: arguments that are not origins are accepted, and what follows the origin is put in front
of the path, unchecked. -/
theorem C32_false :
    partsOf (Base.set_encoded_origin b!"http://host:443/p" env0 sampleSt) =
      some ([b!"http:", b!"//", [], b!"host", b!":443", b!"/p/a//b;c", b!"?k=v&l", b!"#f%2F"],
        some [b!"http:", b!"//", [], b!"host", b!":443", b!"/p/a//b;c", b!"?k=v&l", b!"#f%2F"]) ∧
    partsOf (Base.set_encoded_origin b!"http:x" env0 sampleSt) =
      some ([b!"http:", [], [], [], [], b!"x/a//b;c", b!"?k=v&l", b!"#f%2F"],
        some [b!"http:", [], [], [], [], b!"x/a//b;c", b!"?k=v&l", b!"#f%2F"]) ∧
    partsOf (Base.set_encoded_origin b!"http://a b" env0 sampleSt) =
      some ([b!"http:", b!"//", [], b!"a", [], b!" b/a//b;c", b!"?k=v&l", b!"#f%2F"], none) := by decide +kernel

example : OriginText b!"ftp" ⟨some (b!"u", none), b!"h", some b!"21"⟩ b!"ftp://u@h:21" ∧
    textOf (Base.set_encoded_origin b!"ftp://u@h:21" env0 sampleSt) = some b!"ftp://u@h:21/a//b;c?k=v&l#f%2F" := by
  refine ⟨⟨⟨_, _, rfl, by decide, by decide⟩, ⟨?_, ?_, ?_⟩, rfl⟩, by decide +kernel⟩
  · intro u pw h
    cases h
    exact ⟨escaped_all (by decide), by simp⟩
  · exact .inr (escaped_all (by decide))
  · intro p h
    cases h
    decide

/-! ### C33 -/

/-- The cached numbers of segments and parameters and the host type are what the parser reports for the
text of the object. -/
def InStep (st : St) : Prop :=
  ∃ txt v, encoded_url (st.obj false) = .ok txt ∧ View.make txt = .ret v ∧
    st.pt.nseg = v.pt.nseg ∧ st.pt.nparam = v.pt.nparam ∧ host_type (st.obj false) = v.pt.host

theorem _root_.Url.Spec.HostKind.unique {h : Str} {k k' : HostType} (h1 : HostKind h k) (h2 : HostKind h k') : k = k' := by
  cases h1 with
  | none =>
    cases h2 with
    | none => rfl
    | ipv4 h => exact absurd rfl (v4_head h).1
    | name h => exact absurd rfl h
  | ipv4 h =>
    cases h2 with
    | none => exact absurd rfl (v4_head h).1
    | ipv4 => rfl
    | ipv6 => exact absurd rfl (v4_head h).2
    | name _ h' => exact absurd h h'
  | ipv6 =>
    cases h2 with
    | ipv4 h => exact absurd rfl (v4_head h).2
    | ipv6 => rfl
    | name _ _ h => exact absurd rfl h
  | name h h4 hb =>
    cases h2 with
    | none => exact absurd rfl h
    | ipv4 h => exact absurd h h4
    | ipv6 => exact absurd rfl hb
    | name => rfl

/-- the values that belong to components -/
structure Counted (st : St) (c : Components) : Prop where
  nseg : st.pt.nseg = (pathSegments c.path).length
  nparam : st.pt.nparam = paramCount c.query
  host : HostKind c.host st.pt.host

theorem inStep_iff {c : Components} (h : Rep env st c) (hv : Reparses st) : InStep st ↔ Counted st c := by
  rw [reparses_iff h] at hv
  have hu := (h.reports false).url
  obtain ⟨v, hm, r⟩ := make_of hv
  constructor
  · rintro ⟨txt, v', h1, h2, h3, h4, h5⟩
    rw [hu] at h1
    cases h1
    rw [hm] at h2
    cases h2
    exact ⟨h3.trans r.nseg, h4.trans r.nparam, by have := r.host; rw [← h5] at this; exact this⟩
  · intro ⟨h1, h2, h3⟩
    exact ⟨_, v, hu, hm, h1.trans r.nseg.symm, h2.trans r.nparam.symm, h3.unique r.host⟩

/-- a name that is stored escaped is not taken for an address -/
theorem _root_.Url.Spec.PlainHost.kind {s txt : Str} {k : HostType} (hs : s ≠ []) (h : PlainHost s txt k) : HostKind txt k := by
  cases h with
  | ipv4 h => exact .ipv4 h
  | literal h => exact .ipv6
  | name h4 hl =>
    have hesc : Escaped isUpperHex isRegName (pctEncode isRegName s) := pctEncode_escaped setOf_regName s
    have hne := pctEncode_ne setOf_regName hs
    refine .name hne (fun h => h4 ?_) ?_
    · have hd := IPv4.digitDot h
      have hn : (pctEncode isRegName s).all (· != c!"%") = true := all_mono (fun c h => (digitDot_facts c h).1) hd
      have : pctEncode isRegName s = s := by
        clear h4 hl h hd hesc hs hne
        induction s with
        | nil => rfl
        | cons a s ih =>
          unfold pctEncode at hn ih ⊢
          rw [List.flatMap_cons] at hn ⊢
          by_cases ha : isRegName a = true
          · rw [if_pos ha] at hn ⊢
            simp only [List.cons_append, List.nil_append, List.all_cons, Bool.and_eq_true] at hn ⊢
            rw [ih hn.2]
          · rw [if_neg ha] at hn
            simp at hn
      rwa [this] at h
    · generalize pctEncode isRegName s = x at hesc hne
      cases x with
      | nil => exact absurd rfl hne
      | cons a x =>
        rintro ⟨⟩
        rcases escaped_head hesc with h | h <;> exact absurd h (by decide)

/-- C33: `set_encoded_url` with a non-empty text, and so the constructor from a string, sets the cached
values. -/
theorem C33_set_encoded_url_partial {s : Str} (hr : Reach env st) (hs : s ≠ []) (h : Base.set_encoded_url s env st = .ret () st') :
    InStep st' := by
  obtain ⟨c, c', -, -, he, hok⟩ := returned (op := .set_encoded_url s) hr (fun _ _ hd => hd) h
  have hc := hok.counts
  have hh := hok.host
  rw [CountsAfter, if_neg hs] at hc
  rw [HostAfter, if_neg hs] at hh
  exact (inStep_iff hok.rep (C21_set_encoded_url hr h)).2 ⟨hc.1, hc.2, hh⟩

/-- C33: the cached values stay in step through calls that do not set the path, the query or the host, and
through setting a non-empty host. -/
theorem C33_kept_partial {op : Op} (hr : Reach env st) (hc : Callable env st op) (h : run op env st = .ret () st')
    (hv : Reparses st) (hv' : Reparses st') (hin : InStep st) (hp : .path ∉ sets op) (hq : .query ∉ sets op)
    (hh : .host ∉ sets op ∨ ∃ s, s ≠ [] ∧ (op = .set_host s ∨ op = .set_encoded_host s)) : InStep st' := by
  obtain ⟨c, c', hrep, -, he, hok⟩ := returned hr hc h
  rw [inStep_iff hrep hv] at hin
  rw [inStep_iff hok.rep hv']
  have e1 : c'.path = c.path := effect_frame he .path hp
  have e2 : paramCount c'.query = paramCount c.query := by
    have := effect_frame he .query hq
    simp only [Part.of] at this
    cases hq : c.query <;> cases hq' : c'.query <;> simp_all [withPrefix]
  have hcounts : st'.pt.nseg = st.pt.nseg ∧ st'.pt.nparam = st.pt.nparam := by
    have := hok.counts
    cases op <;> first | exact this | simp [sets] at hp
  refine ⟨by rw [hcounts.1, e1]; exact hin.nseg, by rw [hcounts.2, e2]; exact hin.nparam, ?_⟩
  have ho := hok.host
  rcases hh with hh | ⟨s, hs, rfl | rfl⟩
  · have e3 : c'.host = c.host := effect_frame he .host hh
    have hk : st'.pt.host = st.pt.host := by
      cases op <;> first | exact ho | simp [sets] at hh
    rw [e3, hk]
    exact hin.host
  · rw [HostAfter, if_neg hs] at ho
    exact ho.kind hs
  · rw [HostAfter, if_neg hs] at ho
    exact ho

example : InStep sampleSt ∧ ∃ st', Base.set_host b!"x y" env0 sampleSt = .ret () st' ∧ InStep st' := by
  have h0 : InStep sampleSt := C33_set_encoded_url_partial .empty (by decide) sampleSt_eq
  have hv : Reparses sampleSt := C21_set_encoded_url .empty sampleSt_eq
  have h1 : ∃ st', Base.set_host b!"x y" env0 sampleSt = .ret () st' := ⟨_, rfl⟩
  obtain ⟨st', h1⟩ := h1
  have hr : Reach env0 st' := .call (.set_host _) sampleSt_reach (fun _ _ h => h) (.inl h1)
  have hv' : Reparses st' := by
    refine C21_kept_partial (op := .set_host b!"x y") sampleSt_reach (fun _ _ h => h) h1 hv (by decide) ?_ ?_ ?_
    all_goals cases h1; decide +kernel
  exact ⟨h0, st', h1, C33_kept_partial (op := .set_host b!"x y") sampleSt_reach (fun _ _ h => h) h1 hv hv' h0 (by decide) (by decide)
    (.inr ⟨_, by decide, .inl rfl⟩)⟩

/-- what the object has cached, and what the parser finds in its text -/
def cachedOf (out : Out Unit) : Option ((Nat × Nat × HostType) × Option (Nat × Nat × HostType)) :=
  match out with
  | .ret () st =>
    match encoded_url (st.obj true) with
    | .ok txt => some ((st.pt.nseg, st.pt.nparam, st.pt.host),
        match View.make txt with
        | .ret v => some (v.pt.nseg, v.pt.nparam, v.pt.host)
        | _ => none)
    | _ => none
  | _ => none

/-- C33 is false: the setters of the path and the query do not count segments and parameters. -/
theorem C33_counts_false :
    cachedOf (Base.set_encoded_path b!"/a/b" env0 Base.empty) = some ((0, 0, .none), some (2, 0, .none)) ∧
    cachedOf (Base.set_encoded_query b!"a=b&c" env0 Base.empty) = some ((0, 0, .none), some (0, 2, .none)) ∧
    cachedOf (Base.set_query b!"a=b&c" env0 Base.empty) = some ((0, 0, .none), some (0, 2, .none)) ∧
    cachedOf (Base.set_query_part b!"?a=b&c" env0 Base.empty) = some ((0, 0, .none), some (0, 2, .none)) ∧
    cachedOf (Base.set_encoded_url [] env0 sampleSt) = some ((3, 2, .name), some (0, 0, .none)) := by
  refine ⟨?_, ?_, ?_, ?_, ?_⟩ <;> decide +kernel

/-- C33 is false: the setters of the authority and the origin, and clearing the host, do not set the host type. -/
theorem C33_host_type_false :
    cachedOf (Base.set_encoded_authority b!"x%20y" env0 Base.empty) = some ((0, 0, .none), some (0, 0, .name)) ∧
    cachedOf (Base.set_encoded_origin b!"http://1.2.3.4" env0 Base.empty) = some ((0, 0, .none), some (0, 0, .ipv4)) ∧
    cachedOf (Base.set_host [] env0 (after [.set_host b!"x"])) = some ((0, 0, .name), some (0, 0, .none)) := by
  refine ⟨?_, ?_, ?_⟩ <;> decide +kernel

/-- C33, C14 are false: as a consequence `host` returns encoded text. -/
theorem C33_host_false :
    ∃ st', Base.set_encoded_authority b!"x%20y" env0 Base.empty = .ret () st' ∧ host (st'.obj true) = .ok b!"x%20y" :=
  ⟨_, rfl, by decide +kernel⟩

/-! ### C46 -/

/-- C46: `password_part` in a release build -/
theorem C46_password_part_partial (hr : Reach env st) :
    ∃ p, Base.encoded_password (st.obj false) = .ok p ∧
      (password_part (st.obj false) = .ok (b!":" ++ p) ∨ (password_part (st.obj false) = .ok [] ∧ p = [])) := by
  obtain ⟨c, hrep, -⟩ := hr.rep
  have b := hrep.reports false
  refine ⟨_, b.password, ?_⟩
  rw [b.password_part rfl]
  unfold Components.password
  rcases c.userinfo with _ | ⟨u, _ | p⟩ <;> simp [withPrefix]

/-- C46 is false: in a debug build `password_part` fails an assertion whenever there is a password. -/
theorem C46_password_part_false (hr : Reach env st) {p : Str} (h : password_part (st.obj false) = .ok p) (hp : p ≠ []) :
    password_part (st.obj true) = .error .assert := by
  obtain ⟨c, hrep, -⟩ := hr.rep
  have b := hrep.reports false
  rw [b.password_part rfl] at h
  cases h
  have hg : (st.obj true).get id_password = .ok ((compParts c).getD id_password []) := (hrep.obj true).get id_password
  unfold password_part
  rw [hg]
  rcases c with ⟨sc, _ | ⟨_ | ⟨u, _ | p⟩, hh, pt⟩, pa, q, f⟩
  · exact absurd rfl hp
  · exact absurd rfl hp
  · exact absurd rfl hp
  · rfl

/-- C46: `set_password_part(":" + p)` stores `p`. -/
theorem C46_set_password_part_partial {p : Str} (hr : Reach env st) (hc : Callable env st (.set_password_part (c!":" :: p)))
    (h : Base.set_password_part (c!":" :: p) env st = .ret () st') (dbg : Bool) :
    Base.encoded_password (st'.obj dbg) = .ok p ∧ password_part (st'.obj false) = .ok (c!":" :: p) := by
  obtain ⟨c, c', -, -, he, hok⟩ := returned (op := .set_password_part (c!":" :: p)) hr hc h
  have b := hok.rep.reports dbg
  have b0 := hok.rep.reports false
  rw [b.password, b0.password_part rfl]
  rcases he with ⟨he, -⟩ | ⟨he, rfl⟩ | ⟨d, p', he, -, -, -, rfl⟩
  · simp at he
  · cases he
    exact ⟨rfl, rfl⟩
  · cases he
    exact ⟨rfl, rfl⟩

example : Callable env0 sampleSt (.set_password_part b!":") ∧
    textOf (Base.set_password_part b!":" env0 sampleSt) = some b!"http://us%20er:@h%41.x:80/a//b;c?k=v&l#f%2F" ∧
    textOf (Base.set_password_part b!":xy" env0 sampleSt) = some b!"http://us%20er:xy@h%41.x:80/a//b;c?k=v&l#f%2F" := by
  refine ⟨fun _ _ hd => ?_, by decide +kernel, by decide +kernel⟩
  have := hd.2
  revert this
  decide +kernel

/-- C46 is false: the first character is not looked at, a colon is not accepted after it, and a lone colon does
not give an empty password when there is no authority. -/
theorem C46_set_password_part_false :
    textOf (Base.set_password_part b!"xp" env0 sampleSt) = some b!"http://us%20er:p@h%41.x:80/a//b;c?k=v&l#f%2F" ∧
    Rejects (.set_password_part b!"::") env0 sampleSt ∧
    textOf (Base.set_password_part b!":" env0 Base.empty) = some b!"//" :=
  ⟨by decide +kernel, ⟨_, rfl⟩, by decide +kernel⟩

/-! ### C47 -/

/-- C47: a port that is set with its colon is preceded by `//` and stored. -/
theorem C47_partial {p : Str} (hr : Reach env st) (hp : p ≠ [] ∨ has_authority (st.obj env.dbg) = true)
    (h : Base.set_port_part (c!":" :: p) env st = .ret () st') (dbg : Bool) :
    has_authority (st'.obj dbg) = true ∧ port_part (st'.obj dbg) = .ok (c!":" :: p) ∧
    ∃ u h, encoded_url (st'.obj dbg) = .ok u ∧ encoded_origin (st'.obj dbg) = .ok (h ++ c!":" :: p) ∧
      h ++ c!":" :: p <+: u ∧ b!"//" <:+: h := by
  have hc : Callable env st (.set_port_part (c!":" :: p)) := by
    intro info _ hd
    rcases hp with hp | hp
    · exact hp (by simpa using hd.1)
    · rw [hp] at hd; exact absurd hd.2 (by decide)
  obtain ⟨c, c', -, -, he, hok⟩ := returned (op := .set_port_part (c!":" :: p)) hr hc h
  have b := hok.rep.reports dbg
  rcases he with ⟨he, -⟩ | ⟨p', he, -, rfl⟩
  · simp at he
  · cases he
    rw [b.has_authority, b.port_part, b.url, b.origin]
    refine ⟨rfl, rfl, _, withSuffix b!":" c.scheme ++ (b!"//" ++ (withSuffix b!"@" (c.authD.userinfo.map fun u => userinfoText (some u)) ++ c.authD.host)), rfl, ?_, ?_, ?_⟩
    · rcases c with ⟨sc, _ | ⟨_ | ⟨u, _ | pw⟩, hh, pt⟩, pa, q, f⟩ <;>
        simp [Components.origin, Components.withPort, Components.withAuth, Components.authD, withPrefix, withSuffix, Auth.render, userinfoText]
    · rcases c with ⟨_ | sc, _ | ⟨_ | ⟨u, _ | pw⟩, hh, pt⟩, pa, q, f⟩ <;>
        simp [Components.render, Components.withPort, Components.withAuth, Components.authD, withPrefix, withSuffix, Auth.render, userinfoText]
    · exact ⟨_, _, by rw [List.append_assoc]⟩

/-- C47 is false: without an authority a lone colon is written without `//` in front. -/
theorem C47_false :
    partsOf (Base.set_port_part b!":" env0 Base.empty) = some ([[], [], [], [], b!":", [], [], []], none) := by decide +kernel

/-- the fault of a call -/
def faultOf (out : Out Unit) : Option Flt :=
  match out with
  | .fault f => some f
  | _ => none

/-- C23 is false: `set_user("")` reads in front of the text when there is an authority without userinfo, in a
build with assertions. -/
theorem C23_set_user_false :
    faultOf (Base.set_user [] env0 (after [.set_host b!"h"])) = some .ub ∧
    faultOf (Base.set_encoded_user [] env0 (after [.set_host b!"h"])) = some .ub := by decide +kernel

end Url.Props
