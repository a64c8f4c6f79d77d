import Verif.Props.Algebra
import Verif.Props.Authority
import Verif.Props.Rfc

/-!
Exact conditions for properties that hold only in part: C07, C25, C26, C31 and C33.
-/

set_option linter.unusedSimpArgs false
set_option autoImplicit false

namespace Url.Props
open Url Spec

/-! ### C07 -/

theorem h16s_colon {hex : Byte → Bool} {k : Nat} {x : Str} (h : H16s hex (k + 1) x) : ∃ u, x = u ++ b!":" := by
  induction k generalizing x with
  | zero =>
    obtain ⟨a, t, -, rfl, rfl⟩ := h
    exact ⟨a, by simp⟩
  | succ k ih =>
    obtain ⟨a, t, -, ht, rfl⟩ := h
    obtain ⟨u, rfl⟩ := ih ht
    exact ⟨a ++ b!":" ++ u, by simp⟩

/-- in an IPv6 address a dotted tail follows a colon -/
theorem ipv6_tail {hex : Byte → Bool} {v4 v4' : Str → Prop} {x : Str} (hx : IPv6 hex v4 x)
    (h4 : ∀ u w, x = u ++ b!":" ++ w → v4 w → v4' w) : IPv6 hex v4' x := by
  have hls : ∀ {a y}, x = a ++ b!":" ++ y → Ls32 hex v4 y → Ls32 hex v4' y := by
    rintro a y e (h1 | h1)
    · exact .inl h1
    · exact .inr (h4 a y e h1)
  rcases hx with ⟨a, y, h1, h2, h3⟩ | ⟨j, p, a, y, h0, h1, h2, h3, h5⟩ | h | h
  · obtain ⟨u, rfl⟩ := h16s_colon h1
    exact .inl ⟨_, y, h1, hls h3 h2, h3⟩
  · refine .inr (.inl ⟨j, p, a, y, h0, h1, h2, ?_, h5⟩)
    generalize hn : 5 - j = n at h2
    cases n with
    | zero =>
      obtain rfl : a = [] := h2
      exact hls (a := p ++ b!":") (by rw [h5]; simp) h3
    | succ n =>
      obtain ⟨u, rfl⟩ := h16s_colon h2
      exact hls (a := p ++ b!"::" ++ u) (by rw [h5]; simp) h3
  · exact .inr (.inr (.inl h))
  · exact .inr (.inr (.inr h))

theorem colon_unique {u u' w w' : Str} (h : c!":" ∉ w) (h' : c!":" ∉ w') (e : u ++ b!":" ++ w = u' ++ b!":" ++ w') : w = w' := by
  have e2 := congrArg List.reverse e
  simp only [List.reverse_append, List.append_assoc] at e2
  have k : ∀ {x y a b : Str}, c!":" ∉ x → c!":" ∉ y → x ++ (b!":".reverse ++ a) = y ++ (b!":".reverse ++ b) → x = y := by
    intro x
    induction x with
    | nil =>
      intro y a b _ hy e
      cases y with
      | nil => rfl
      | cons d y =>
        simp only [List.nil_append, List.reverse_cons, List.reverse_nil, List.cons_append, List.cons.injEq] at e
        exact absurd (by rw [e.1]; simp) hy
    | cons d x ih =>
      intro y a b hx hy e
      cases y with
      | nil =>
        simp only [List.nil_append, List.reverse_cons, List.reverse_nil, List.cons_append, List.cons.injEq] at e
        exact absurd (by rw [e.1]; simp) hx
      | cons f y =>
        simp only [List.cons_append, List.cons.injEq] at e
        rw [e.1, ih (fun h => hx (by simp [h])) (fun h => hy (by simp [h])) e.2]
  have := k (by simpa using h) (by simpa using h') e2
  simpa using this

theorem ipv4_noColon {w : Str} (h : IPv4 w) : c!":" ∉ w := fun hm => by
  have := List.all_eq_true.1 (IPv4.digitDot h) _ hm
  exact absurd this (by decide)

theorem loose_noColon {w : Str} (h : LooseIPv4 w) : c!":" ∉ w := by
  obtain ⟨a, t, ha, ⟨b, c, d, hb, hc, hd, rfl⟩, rfl⟩ := h
  have k : ∀ {z : Str}, z.all isDigit = true → c!":" ∉ z := fun hz hm => absurd (List.all_eq_true.1 hz _ hm) (by decide)
  have := k ha.2.2.1
  have := k (DecOctet.digits hb).1
  have := k (DecOctet.digits hc).1
  have := k (DecOctet.digits hd).1
  simp_all

theorem dotted_facts {t : Str} (h : DottedTail t) : c!":" ∉ t ∧ c!"." ∈ t ∧ ¬ IPv4 t := by
  have h' := h
  obtain ⟨b, c, d, hb, hc, hd, rfl⟩ := h
  have k : ∀ {z : Str}, z.all isDigit = true → c!":" ∉ z := fun hz hm => absurd (List.all_eq_true.1 hz _ hm) (by decide)
  have h1 := k (DecOctet.digits hb).1
  have h2 := k (DecOctet.digits hc).1
  have h3 := k (DecOctet.digits hd).1
  refine ⟨by simp_all, by simp, fun h4 => IPv4.head h4 (by simp)⟩

/-- The text after the last colon, if there is a dot in it, is an IPv4 address. -/
def DottedOk (x : Str) : Prop := ∀ u w, x = u ++ b!":" ++ w → c!":" ∉ w → c!"." ∈ w → IPv4 w

/-- C07, soundness made exact: an accepted literal is an IPv6 address of the RFC exactly if the text after its
last colon is an IPv4 address or has no dot. -/
theorem C07_sound_exact {s : Str} {v : View} (hv : View.make s = .ret v) {dbg : Bool} {x : Str}
    (hh : encoded_host (v.obj dbg) = .ok (b!"[" ++ x ++ b!"]")) : IPv6 isHex IPv4 x ↔ DottedOk x := by
  obtain ⟨x', e, h, -⟩ := C07_sound_partial hv (t := x ++ b!"]") (by rw [hh]; rfl)
  obtain rfl : x = x' := List.append_cancel_right e
  constructor
  · intro hx u w e hc hd
    obtain ⟨a, z, rfl, ha, hz⟩ := IPv6.shape (ipv6_tail (v4' := fun y => IPv4 y ∧ ∃ u, x = u ++ b!":" ++ y) hx fun u w e h => ⟨h, u, e⟩)
    have hdz : c!"." ∈ z := by
      have : c!"." ∈ a ++ z := by rw [e]; simp [hd]
      rcases List.mem_append.1 this with h | h
      · have := isGroup_noDot _ (List.all_eq_true.1 ha _ h)
        exact absurd this (by decide)
      · exact h
    rcases hz with rfl | ⟨hz, u', e'⟩
    · simp at hdz
    · rw [colon_unique hc (ipv4_noColon hz) (e.symm.trans e')]
      exact hz
  · intro hd
    rcases h with h | h
    · refine IPv6.mono upper_isHex (fun _ _ _ h => h) (ipv6_tail h fun u w e hw => ?_)
      obtain ⟨a, t, -, ht, rfl⟩ := id hw
      exact hd u _ e (loose_noColon hw) (by simp [(dotted_facts ht).2.1])
    · rcases h with ⟨t, ht, rfl⟩ | ⟨k, y, z, t, -, -, -, ht, rfl⟩
      · exact absurd (hd b!":" t (by simp) (dotted_facts ht).1 (dotted_facts ht).2.1) (dotted_facts ht).2.2
      · exact absurd (hd (y ++ z ++ b!":") t (by simp) (dotted_facts ht).1 (dotted_facts ht).2.1) (dotted_facts ht).2.2

example : (∃ v, View.make b!"//[1::2:1.2.3.4]" = .ret v ∧ encoded_host (v.obj true) = .ok b!"[1::2:1.2.3.4]") ∧
    (∃ v, View.make b!"//[::0001.2.3.4]" = .ret v ∧ encoded_host (v.obj true) = .ok b!"[::0001.2.3.4]") ∧
    ¬ DottedOk b!"::0001.2.3.4" := by
  refine ⟨⟨_, rfl, by decide +kernel⟩, ⟨_, rfl, by decide +kernel⟩, fun h => ?_⟩
  have h4 := h b!":" b!"0001.2.3.4" rfl (by decide) (by decide)
  have hv : ∃ v, View.make b!"//0001.2.3.4" = .ret v ∧ encoded_host (v.obj true) = .ok b!"0001.2.3.4" ∧ host_type (v.obj true) = .name :=
    ⟨_, rfl, by decide +kernel, by decide +kernel⟩
  obtain ⟨v, h1, h2, h3⟩ := hv
  rw [(C06_host_type h1 h2).1.2 h4] at h3
  cases h3

/-- C07, completeness made exact: an IPv6 address of the RFC is accepted exactly if its letters are upper case. -/
theorem C07_complete_exact {x : Str} (hx : IPv6 isHex IPv4 x) :
    (∃ v, View.make (b!"//[" ++ x ++ b!"]") = .ret v) ↔ ∀ c ∈ x, isHex c = true → isUpperHex c = true := by
  have hc : (⟨none, some ⟨none, b!"[" ++ x ++ b!"]", none⟩, [], none, none⟩ : Components).Valid rfc := by
    refine ⟨by simp, ?_, ⟨[], by simp, rfl⟩, by simp, by simp⟩
    intro a ha
    simp at ha
    subst ha
    exact ⟨by simp, .inl ⟨x, .inl hx, by simp⟩, by simp⟩
  constructor
  · rintro ⟨v, hv⟩
    have := (C05_exact hc).1 ⟨v, by rw [← hv]; congr 1; simp [Components.render, Auth.render]⟩
    have := (this.literal x rfl).1
    intro c hm hh
    exact hex_noLower c hh (List.all_eq_true.1 this c hm)
  · intro h
    have hu : noLower x := List.all_eq_true.2 fun c hm =>
      forall_byte (P := fun c => (isHex c = true → isUpperHex c = true) → (!(97 ≤ c && c ≤ 102)) = true) (by decide +kernel) c (h c hm)
    obtain ⟨v, hv, -⟩ := C07_complete_partial (IPv6.upper hx hu) true
    exact ⟨v, hv⟩

/-! ### C25 and C26 -/

variable {env : Env} {st st' a b : St}

/-- Of the userinfo of the object there is only this part, or of its host and port at most this part. -/
def Alone (st : St) : AuthPart → Prop
  | .user => Base.has_userinfo (st.obj false) = .ok true ∧ password_part (st.obj false) = .ok []
  | .password => Base.has_userinfo (st.obj false) = .ok true ∧ encoded_user (st.obj false) = .ok []
  | .host => port_part (st.obj false) = .ok []
  | .port => encoded_host (st.obj false) = .ok []

/-- the same for components -/
def CAlone (c : Components) : AuthPart → Prop
  | .user => ∃ u, c.userinfo = some (u, none)
  | .password => ∃ p, c.userinfo = some ([], p)
  | .host => c.auth.bind (·.port) = none
  | .port => c.host = []

theorem alone_iff {c : Components} (h : Rep env st c) (p : AuthPart) : Alone st p ↔ CAlone c p := by
  have r := h.reports false
  cases p <;> simp only [Alone, CAlone, r.has_userinfo, r.password_part rfl, r.user, r.host, r.port_part, Except.ok.injEq]
  all_goals rcases c with ⟨sc, _ | ⟨_ | ⟨u, _ | pw⟩, hh, _ | pt⟩, pa, qu, f⟩ <;>
    simp [Components.userinfo, Components.user, Components.host, Components.port, withPrefix]

/-- two parts of the authority cleared one after the other: the `//` stays if the userinfo is cleared last -/
theorem clear_comm {c : Components} {p q : AuthPart} (hp : p.info = true) (hq : q.info = false) (h1 : CAlone c p) (h2 : CAlone c q) :
    ((c.edit (q, none)).edit (p, none)).render.length = ((c.edit (p, none)).edit (q, none)).render.length + 2 := by
  cases p <;> simp only [AuthPart.info, Bool.true_eq_false, Bool.false_eq_true] at hp <;>
  cases q <;> simp only [AuthPart.info, Bool.true_eq_false, Bool.false_eq_true] at hq <;>
  rcases c with ⟨sc, _ | ⟨_ | ⟨_ | ⟨a, u⟩, _ | pw⟩, _ | ⟨b, hh⟩, _ | pt⟩, pa, qu, f⟩ <;>
    simp [CAlone, Components.userinfo, Components.host] at h1 h2 <;>
    simp [Components.edit, Components.clearUser, Components.clearPassword, Components.clearHost, Components.clearPort,
      Components.withAuth, Components.render, Auth.render] <;> omega

/-- ... and otherwise the order does not matter -/
theorem clear_comm_not {c : Components} {p q : AuthPart} (hp : p.info = true) (hq : q.info = false) (h : ¬ (CAlone c p ∧ CAlone c q)) :
    (c.edit (p, none)).edit (q, none) = (c.edit (q, none)).edit (p, none) := by
  cases p <;> simp only [AuthPart.info, Bool.true_eq_false, Bool.false_eq_true] at hp <;>
  cases q <;> simp only [AuthPart.info, Bool.true_eq_false, Bool.false_eq_true] at hq <;>
  rcases c with ⟨sc, _ | ⟨_ | ⟨_ | ⟨a, u⟩, _ | pw⟩, _ | ⟨b, hh⟩, _ | pt⟩, pa, qu, f⟩ <;>
    simp [CAlone, Components.userinfo, Components.host] at h <;>
    simp [Components.userinfo, Components.edit, Components.clearUser, Components.clearPassword, Components.clearHost,
      Components.clearPort, Components.withAuth, Components.host]

theorem sameUrl_length {c c' : Components} (h : Rep env a c) (h' : Rep env b c') (hs : SameUrl a b) : c.render.length = c'.render.length := by
  have := hs.1 true
  rw [(h.reports true).url, (h'.reports true).url, Except.ok.injEq] at this
  rw [this]

/-- C25, exactly: two calls that set different parts of the authority can be exchanged, unless they clear the only
part of the userinfo and the only one of host and port. -/
theorem C25_authority_exact {op1 op2 : Op} {p q : AuthPart} (hr : Reach env st) (h1 : op1.authPart = some p) (h2 : op2.authPart = some q)
    (hpq : p ≠ q) (hc : CallableAll env st [op1, op2]) (hc' : CallableAll env st [op2, op1])
    (ha : runAll [op1, op2] env st = .ret () a) (hb : runAll [op2, op1] env st = .ret () b) :
    SameUrl a b ↔ ¬ (op1.clears = true ∧ op2.clears = true ∧ p.info ≠ q.info ∧ Alone st p ∧ Alone st q) := by
  obtain ⟨c, hrep, -⟩ := hr.rep
  obtain ⟨c1, c12, e1, e12, ra⟩ := returned_two hrep hc ha
  obtain ⟨c2, c21, e2, e21, rb⟩ := returned_two hrep hc' hb
  rw [alone_iff hrep, alone_iff hrep]
  obtain ⟨x, ax, dx, rfl⟩ := effect_edit e1 h1
  obtain ⟨y, ay, dy, rfl⟩ := effect_edit e2 h2
  obtain ⟨y', ay', -, rfl⟩ := effect_edit e12 h2
  obtain ⟨x', ax', -, rfl⟩ := effect_edit e21 h1
  obtain rfl := arg_unique ax ax'
  obtain rfl := arg_unique ay ay'
  obtain ⟨p', v⟩ := x
  obtain ⟨q', w⟩ := y
  obtain rfl : p' = p := dx.part
  obtain rfl : q' = q := dy.part
  constructor
  · rintro hs ⟨k1, k2, hi, l1, l2⟩
    obtain rfl : v = none := dx.clears.2 k1
    obtain rfl : w = none := dy.clears.2 k2
    have := sameUrl_length ra rb hs
    cases hp : p'.info <;> cases hq : q'.info
    · rw [hp, hq] at hi; exact hi rfl
    · rw [clear_comm hq hp l2 l1] at this; omega
    · rw [clear_comm hp hq l1 l2] at this; omega
    · rw [hp, hq] at hi; exact hi rfl
  · intro hn
    by_cases hi : op1.clears = true ∧ op2.clears = true ∧ p'.info ≠ q'.info
    · obtain ⟨k1, k2, hi⟩ := hi
      obtain rfl : v = none := dx.clears.2 k1
      obtain rfl : w = none := dy.clears.2 k2
      refine ra.sameUrl ?_
      cases hp : p'.info <;> cases hq : q'.info
      · rw [hp, hq] at hi; exact absurd rfl hi
      · rw [← clear_comm_not hq hp fun h => hn ⟨k1, k2, hi, h.2, h.1⟩]; exact rb
      · rw [clear_comm_not hp hq fun h => hn ⟨k1, k2, hi, h.1, h.2⟩]; exact rb
      · rw [hp, hq] at hi; exact absurd rfl hi
    · refine ra.sameUrl ?_
      rw [edit_comm hpq dx.ne dy.ne fun k1 k2 => ?_]
      · exact rb
      · by_cases h : p'.info = q'.info
        · exact h
        · exact absurd ⟨dx.clears.1 k1, dy.clears.1 k2, h⟩ hi

/-- a case in which the order does not matter although both are cleared, and one in which it does -/
example : textOf (runAll [.set_user [], .set_host []] env0 (after [.set_encoded_url b!"//u:p@h"])) = some b!"//:p@" ∧
    textOf (runAll [.set_host [], .set_user []] env0 (after [.set_encoded_url b!"//u:p@h"])) = some b!"//:p@" ∧
    textOf (runAll [.set_password [], .set_port []] env0 (after [.set_encoded_url b!"//:p@:1"])) = some [] ∧
    textOf (runAll [.set_port [], .set_password []] env0 (after [.set_encoded_url b!"//:p@:1"])) = some b!"//" := by decide +kernel

/-- C26, exactly: a call that sets a part of the authority overwrites what another call did to it, unless it clears the
user or password which the first call added to a url without an authority. -/
theorem C26_authority_exact {op1 op2 : Op} {p : AuthPart} (hr : Reach env st) (h1 : op1.authPart = some p) (h2 : op2.authPart = some p)
    (hc : CallableAll env st [op1, op2]) (hc' : Callable env st op2)
    (ha : runAll [op1, op2] env st = .ret () a) (hb : run op2 env st = .ret () b) :
    SameUrl a b ↔ ¬ (op1.clears = false ∧ op2.clears = true ∧ p.info = true ∧ has_authority (st.obj env.dbg) = false) := by
  obtain ⟨c, hrep, -⟩ := hr.rep
  obtain ⟨c1, c12, e1, e12, ra⟩ := returned_two hrep hc ha
  obtain ⟨c2, e2, rb⟩ := returned_one hrep hc' hb
  rw [(hrep.reports _).has_authority]
  obtain ⟨x, ax, dx, rfl⟩ := effect_edit e1 h1
  obtain ⟨y, ay, dy, rfl⟩ := effect_edit e2 h2
  obtain ⟨y', ay', -, rfl⟩ := effect_edit e12 h2
  obtain rfl := arg_unique ay ay'
  obtain ⟨p', v⟩ := x
  obtain ⟨q', w⟩ := y
  obtain rfl : p' = p := dx.part
  obtain rfl : q' = p' := dy.part
  constructor
  · rintro hs ⟨k1, k2, hi, hn⟩
    obtain rfl : w = none := dy.clears.2 k2
    have := sameUrl_length ra rb hs
    cases v with
    | none => rw [dx.clears.1 rfl] at k1; cases k1
    | some v =>
      rcases c with ⟨sc, _ | _, pa, qu, f⟩
      · cases q' <;> simp only [AuthPart.info, Bool.false_eq_true] at hi <;>
          simp [Components.edit, Components.clearUser, Components.clearPassword, Components.withUser, Components.withPassword,
            Components.userinfo, Components.user, Components.authD, Components.withAuth, Components.render, Auth.render] at this <;> omega
      · simp at hn
  · intro hn
    refine ra.sameUrl ?_
    by_cases hcl : op1.clears = true ∧ op2.clears = true ∧ c.auth = none
    · obtain ⟨k1, k2, k3⟩ := hcl
      obtain rfl : v = none := dx.clears.2 k1
      obtain rfl : w = none := dy.clears.2 k2
      have : (c.edit (q', none)).edit (q', none) = c.edit (q', none) := by
        rcases c with ⟨sc, _ | _, pa, qu, f⟩
        · cases q' <;> rfl
        · cases k3
      rw [this]
      exact rb
    · rw [edit_twice fun k1 k2 => ?_]
      · exact rb
      · cases hau : c.auth with
        | some _ => rfl
        | none =>
          cases ho : op1.clears with
          | false => exact absurd ⟨ho, dy.clears.1 k1, k2, by rw [hau]; rfl⟩ hn
          | true => exact absurd ⟨ho, dy.clears.1 k1, hau⟩ hcl

example : textOf (runAll [.set_password b!"p", .set_password []] env0 (after [.set_encoded_url b!"x:/p"])) = some b!"x:///p" ∧
    textOf (run (.set_password []) env0 (after [.set_encoded_url b!"x:/p"])) = some b!"x:/p" ∧
    textOf (runAll [.set_port b!"1", .set_port []] env0 (after [.set_encoded_url b!"x:/p"])) = some b!"x:/p" := by decide +kernel

/-! ### C31 and C33 -/

/-- The call stores a url, and with it the counts and the host type. -/
def Loads (op : Op) : Prop := ∃ s, s ≠ [] ∧ op = .set_encoded_url s

/-- The call stores a host, and with it the host type. -/
def StoresHost (op : Op) : Prop := ∃ s, s ≠ [] ∧ (op = .set_host s ∨ op = .set_encoded_host s)

/-- C33, exactly: after a call the cached values are those of the text exactly if the call stored a url, or if the counts
that were cached before the call are those of the new text, and so is the host type, unless the call stored a host. -/
theorem C33_exact {op : Op} (hr : Reach env st) (hc : Callable env st op) (h : run op env st = .ret () st') {txt : Str} {v : View}
    (ht : encoded_url (st'.obj false) = .ok txt) (hv : View.make txt = .ret v) (hp : Reparses st') :
    InStep st' ↔ Loads op ∨
      (st.pt.nseg = v.pt.nseg ∧ st.pt.nparam = v.pt.nparam ∧ (StoresHost op ∨ st.pt.host = v.pt.host)) := by
  obtain ⟨c, c', hrep, -, he, hok⟩ := returned hr hc h
  have hu := (hok.rep.reports false).url
  obtain rfl : txt = c'.render := by rw [hu] at ht; exact (Except.ok.inj ht).symm
  have hval := (reparses_iff hok.rep).1 hp
  obtain ⟨v', hm, r⟩ := make_of hval
  obtain rfl : v' = v := by rw [hm] at hv; cases hv; rfl
  rw [inStep_iff hok.rep hp]
  have hcn := hok.counts
  have hho := hok.host
  by_cases hl : Loads op
  · obtain ⟨s, hs, rfl⟩ := hl
    rw [CountsAfter, if_neg hs] at hcn
    rw [HostAfter, if_neg hs] at hho
    exact ⟨fun _ => .inl ⟨s, hs, rfl⟩, fun _ => ⟨hcn.1, hcn.2, hho⟩⟩
  · have hcn' : st'.pt.nseg = st.pt.nseg ∧ st'.pt.nparam = st.pt.nparam := by
      cases op <;> first | exact hcn | skip
      case set_encoded_url s =>
        rw [CountsAfter, if_pos] at hcn
        · exact hcn
        · by_cases hs : s = []
          · exact hs
          · exact absurd ⟨s, hs, rfl⟩ hl
    have hk : HostKind c'.host st'.pt.host ↔ StoresHost op ∨ st.pt.host = v'.pt.host := by
      by_cases hh : StoresHost op
      · obtain ⟨s, hs, rfl | rfl⟩ := hh
        · rw [HostAfter, if_neg hs] at hho
          exact ⟨fun _ => .inl ⟨s, hs, .inl rfl⟩, fun _ => hho.kind hs⟩
        · rw [HostAfter, if_neg hs] at hho
          exact ⟨fun _ => .inl ⟨s, hs, .inr rfl⟩, fun _ => hho⟩
      · have e : st'.pt.host = st.pt.host := by
          cases op <;> first | exact hho | skip
          case set_encoded_url s =>
            rw [HostAfter, if_pos] at hho
            · exact hho
            · by_cases hs : s = []
              · exact hs
              · exact absurd ⟨s, hs, rfl⟩ hl
          case set_host s =>
            rw [HostAfter, if_pos] at hho
            · exact hho
            · by_cases hs : s = []
              · exact hs
              · exact absurd ⟨s, hs, .inl rfl⟩ hh
          case set_encoded_host s =>
            rw [HostAfter, if_pos] at hho
            · exact hho
            · by_cases hs : s = []
              · exact hs
              · exact absurd ⟨s, hs, .inr rfl⟩ hh
        rw [e]
        exact ⟨fun hk => .inr (hk.unique r.host), fun hk => (hk.resolve_left hh) ▸ r.host⟩
    constructor
    · intro hct
      exact .inr ⟨by rw [← hcn'.1, hct.nseg, r.nseg], by rw [← hcn'.2, hct.nparam, r.nparam], hk.1 hct.host⟩
    · rintro (h | ⟨h1, h2, h3⟩)
      · exact absurd h hl
      · exact ⟨by rw [hcn'.1, h1, r.nseg], by rw [hcn'.2, h2, r.nparam], hk.2 h3⟩

/-- a path with as many segments keeps the url in step, one with more does not -/
example : cachedOf (Base.set_encoded_path b!"/x/y/z" env0 sampleSt) = some ((3, 2, .name), some (3, 2, .name)) ∧
    cachedOf (Base.set_encoded_path b!"/x/y/z/w" env0 sampleSt) = some ((3, 2, .name), some (4, 2, .name)) ∧
    cachedOf (Base.set_encoded_host b!"1.2.3.4" env0 sampleSt) = some ((3, 2, .ipv4), some (3, 2, .ipv4)) ∧
    cachedOf (Base.set_encoded_authority b!"1.2.3.4" env0 sampleSt) = some ((3, 2, .name), some (3, 2, .ipv4)) := by
  refine ⟨?_, ?_, ?_, ?_⟩ <;> decide +kernel

/-- C31, exactly: `set_encoded_authority` leaves the host type as it was; so it is the one that parsing reports for the
new authority exactly if it was that before the call. -/
theorem C31_host_type {s : Str} (hr : Reach env st) (hs : s ≠ []) (h : Base.set_encoded_authority s env st = .ret () st') (dbg : Bool) :
    ∃ v, View.make (b!"//" ++ s) = .ret v ∧ encoded_host (st'.obj dbg) = encoded_host (v.obj dbg) ∧
      host_type (st'.obj dbg) = host_type (st.obj dbg) ∧
      (HostKind ((encoded_host (st'.obj dbg)).toOption.getD []) (host_type (st'.obj dbg)) ↔ host_type (st.obj dbg) = host_type (v.obj dbg)) := by
  obtain ⟨c, c', -, -, he, hok⟩ := returned (op := .set_encoded_authority s) hr (fun _ _ hd => hd) h
  have e : host_type (st'.obj dbg) = host_type (st.obj dbg) := hok.host
  rcases he with ⟨he, -⟩ | ⟨-, a, ⟨hv, rfl⟩, rfl⟩
  · exact absurd he hs
  · have hval : (⟨none, some a, [], none, none⟩ : Components).Valid lib := by
      refine ⟨by simp, fun a' ha => ?_, ⟨[], by simp, rfl⟩, by simp, by simp⟩
      cases ha
      exact hv
    obtain ⟨v, hm, r⟩ := make_of hval
    have hh : encoded_host (st'.obj dbg) = .ok a.host := (hok.rep.reports dbg).host
    have hk : HostKind a.host (host_type (v.obj dbg)) := r.host
    refine ⟨v, ?_, ?_, e, ?_⟩
    · rw [← hm]; congr 1; simp [Components.render]
    · rw [hh, acc_host (r.obj dbg)]; rfl
    · rw [e, hh]
      exact ⟨fun h => h.unique hk, fun h => by rw [h]; exact hk⟩

example : cachedOf (Base.set_encoded_authority b!"u@x:1" env0 sampleSt) = some ((3, 2, .name), some (3, 2, .name)) := by decide +kernel

end Url.Props
