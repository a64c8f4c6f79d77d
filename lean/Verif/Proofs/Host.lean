import Verif.Proofs.PState

/-!
`parse_hostname`, `parse_host`, `parse_userinfo` and `parse_authority` recognise the authority grammar.
-/

set_option linter.unusedSimpArgs false

namespace Url
open Spec

/-- A prefix over a class cannot reach into a rest that does not start with the class. -/
theorem prefix_split {P : Byte → Bool} {x q h r : Str} (hx : x.all P) (hr : NotHead P r)
    (e : h ++ r = x ++ q) : ∃ h', h = x ++ h' ∧ q = h' ++ r := by
  induction x generalizing h with
  | nil => exact ⟨h, rfl, by simpa using e.symm⟩
  | cons c x ih =>
    simp only [List.all_cons, Bool.and_eq_true] at hx
    cases h with
    | nil =>
      simp only [List.nil_append, List.cons_append] at e
      rw [e] at hr
      have : P c = false := hr
      simp [this] at hx
    | cons d h =>
      simp only [List.cons_append, List.cons.injEq] at e
      obtain ⟨h', rfl, rfl⟩ := ih hx.2 e.2
      exact ⟨h', by simp [e.1], rfl⟩

/-- Dropping unescaped characters from an escaped string. -/
theorem escaped_drop {hex ok : Byte → Bool} {x y : Str} (hx : x.all (· != c!"%"))
    (h : Escaped hex ok (x ++ y)) : Escaped hex ok y := by
  induction x with
  | nil => exact h
  | cons c x ih =>
    simp only [List.all_cons, Bool.and_eq_true, bne_iff_ne] at hx
    apply ih hx.2
    rw [List.cons_append] at h
    generalize x ++ y = z at h
    cases h with
    | char _ h => exact h
    | pct _ _ _ => exact absurd rfl hx.1

theorem digitDot_facts (c : Byte) : isDigitDot c = true →
    (c != c!"%") = true ∧ isRegName c = true ∧ isUserinfo c = true := by
  revert c; exact forall_byte (by decide +kernel)

theorem all_mono {P Q : Byte → Bool} (h : ∀ c, P c = true → Q c = true) {x : Str} (hx : x.all P) :
    x.all Q := by
  simp only [List.all_eq_true] at hx ⊢
  exact fun c hc => h c (hx c hc)

theorem NotHead.mono {P Q : Byte → Bool} (h : ∀ c, P c = true → Q c = true) {r : Str}
    (hr : NotHead Q r) : NotHead P r := by
  cases r with
  | nil => trivial
  | cons c t =>
    have : Q c = false := hr
    show P c = false
    cases hp : P c
    · rfl
    · simp [h c hp] at this

theorem Stop.notHead {ok : Byte → Bool} {r : Str} (hr : Stop ok r) : NotHead ok r := by
  cases r with
  | nil => trivial
  | cons c t => exact hr.2

theorem Spec.Escaped.of_all {hex ok : Byte → Bool} {x : Str} (h : x.all ok) : Escaped hex ok x := by
  induction x with
  | nil => exact .nil
  | cons c x ih =>
    simp only [List.all_cons, Bool.and_eq_true] at h
    exact .char h.1 (ih h.2)

theorem escaped_head {hex ok : Byte → Bool} {c : Byte} {t : Str} (h : Escaped hex ok (c :: t)) :
    ok c = true ∨ c = c!"%" := by
  cases h with
  | char h _ => exact .inl h
  | pct _ _ _ => exact .inr rfl

theorem head_ne_bracket {hex : Byte → Bool} {h r : Str} (hh : Escaped hex isRegName h)
    (hb : ∀ t, r ≠ c!"[" :: t) : ∀ t, h ++ r ≠ c!"[" :: t := by
  intro t e
  cases h with
  | nil => exact hb t e
  | cons c h =>
    simp only [List.cons_append, List.cons.injEq] at e
    rcases escaped_head hh with h1 | h1
    · rw [e.1] at h1; revert h1; decide
    · rw [e.1] at h1; revert h1; decide

/-- What may follow a host. -/
def HostEnd (h r : Str) : Prop :=
  (∃ x, h = b!"[" ++ x ++ b!"]") ∨ (Stop isRegName r ∧ ∀ t, h ++ r ≠ c!"[" :: t)

theorem ip_literal_noMatch {ps : PS} (hb : ∀ t, ps.p ≠ c!"[" :: t) :
    parse_ip_literal ps = { ps with ec := some .no_match } := by
  unfold parse_ip_literal
  split
  · rfl
  · rename_i c t hp
    have : c ≠ c!"[" := fun h => hb t (by rw [hp, h])
    simp [this]

theorem ip_literal_of {ps L x r ns np h} (hx : lib.ipLiteral x)
    (a : At ps L [] (b!"[" ++ x ++ b!"]" ++ r) ns np h) :
    At (parse_ip_literal ps) L (b!"[" ++ x ++ b!"]") r ns np .ipv6 := by
  have hp := a.p
  have hv : parse_ip_v6 (x ++ c!"]" :: r) = { p := c!"]" :: r } := v6_of ((start_iff x).2 hx) r
  have : parse_ip_literal ps = { ps with p := r, pt := { ps.pt with host := .ipv6 } } := by
    unfold parse_ip_literal
    rw [hp]
    simp only [List.append_assoc, List.cons_append, List.nil_append, hv, a.ec, a.flt]
    simp
  rw [this]
  have b := a.advance
  exact ⟨b.rep, b.inp, rfl, b.ec, b.flt, b.nseg, b.nparam, rfl⟩

theorem ip_literal_inv {ps : PS} (hec : ps.ec = none) (h : (parse_ip_literal ps).ec = none) :
    ∃ x r, lib.ipLiteral x ∧ ps.p = b!"[" ++ x ++ b!"]" ++ r ∧ (parse_ip_literal ps).p = r := by
  unfold parse_ip_literal at h ⊢
  split at h
  · simp at h
  · rename_i c t hp
    split at h
    · simp at h
    · rename_i hc
      simp only [bne_iff_ne, ne_eq, Decidable.not_not] at hc
      subst hc
      simp only [hp, hec] at h ⊢
      cases hr : (parse_ip_v6 t).err with
      | true => simp [hr] at h
      | false =>
        have hv : parse_ip_v6 t = { p := (parse_ip_v6 t).p } := by
          have := v6_flt t
          cases hh : parse_ip_v6 t
          simp_all
        obtain ⟨x, h1, h2⟩ := v6_inv hv
        simp only [hr] at h ⊢
        simp only [Bool.false_eq_true, if_false, Option.isSome_none] at h ⊢
        split at h
        · simp at h
        · rename_i d u hd
          split at h
          · simp at h
          · rename_i hdb
            simp only [bne_iff_ne, ne_eq, Decidable.not_not] at hdb
            subst hdb
            rw [hd] at h1
            exact ⟨x, u, (start_iff x).1 h2, by rw [h1]; simp, by simp [hd]⟩

theorem ipv4_or_domain_of {ps L x r ns np} (hx : Escaped isUpperHex isRegName x) (hr : Stop isRegName r)
    (a : At ps L [] (x ++ r) ns np .none) :
    ∃ k, At (parse_ipv4_or_domain ps) L x r ns np k ∧
      ((k = .none ∧ x = []) ∨ (k = .ipv4 ∧ IPv4 x) ∨ (k = .name ∧ x ≠ [] ∧ ¬ IPv4 x)) := by
  obtain ⟨inp, p, pt, ec, flt⟩ := ps
  obtain rfl : ec = none := a.ec
  obtain rfl : p = x ++ r := a.p
  have hrd : NotHead isDigit r := hr.notHead.mono (by
    exact forall_byte (by decide +kernel))
  have hrd' : NotHead isDigitDot r := hr.notHead.mono (fun c hc => (digitDot_facts c hc).2.1)
  obtain ⟨y, hy1, hy2⟩ := v4_suffix (x ++ r)
  obtain ⟨x', hx', hq⟩ := prefix_split hy2 hrd' hy1
  have hesc : Escaped isUpperHex isRegName x' :=
    escaped_drop (all_mono (fun c hc => (digitDot_facts c hc).1) hy2) (hx' ▸ hx)
  have hpct : ∀ pt : Parts, PS.pct { inp := inp, p := x' ++ r, pt := pt, flt := flt } reg_name_pct_set
      (x' ++ r) = { inp := inp, p := r, pt := pt, flt := flt } := by
    intro pt
    unfold PS.pct
    simp only [pct_parse_of setOf_regName hesc hr]
  unfold parse_ipv4_or_domain
  simp only
  cases hv : match_ip_v4 (x ++ r) with
  | mk b q =>
    rw [hv] at hq
    simp only at hq
    subst hq
    have b0 := a.advance
    simp only [List.nil_append] at b0
    cases b with
    | true =>
      simp only [hpct, Option.isSome_none, Bool.false_eq_true, if_false]
      obtain ⟨z, hz1, hz2⟩ := v4_inv hv
      split
      · rename_i hne
        refine ⟨.name, ⟨b0.rep, b0.inp, rfl, b0.ec, b0.flt, b0.nseg, b0.nparam, rfl⟩,
          .inr (.inr ⟨rfl, ?_, ?_⟩)⟩
        · rintro rfl
          have : x' = [] := by simp at hx'; exact hx'.2
          simp [this] at hne
        · intro h4
          rw [v4_of h4 hrd] at hv
          simp only [Prod.mk.injEq, true_and] at hv
          exact hne (congrArg List.length hv)
      · rename_i heq
        have h0 : x' = [] := by
          simp at heq; exact heq
        subst h0
        refine ⟨.ipv4, ⟨b0.rep, b0.inp, rfl, b0.ec, b0.flt, b0.nseg, b0.nparam, rfl⟩, .inr (.inl ⟨rfl, ?_⟩)⟩
        have : x = z := by simpa using hz1
        rw [this]; exact hz2
    | false =>
      have h4 : ¬ IPv4 x := by
        intro h4
        rw [v4_of h4 hrd] at hv
        simp at hv
      simp only [hpct, Option.isSome_none, Bool.false_eq_true, if_false]
      split
      · rename_i hne
        refine ⟨.name, ⟨b0.rep, b0.inp, rfl, b0.ec, b0.flt, b0.nseg, b0.nparam, rfl⟩,
          .inr (.inr ⟨rfl, ?_, h4⟩)⟩
        rintro rfl
        simp at hne
      · rename_i heq
        refine ⟨.none, ⟨b0.rep, b0.inp, rfl, b0.ec, b0.flt, b0.nseg, b0.nparam, b0.host⟩, .inl ⟨rfl, ?_⟩⟩
        simp at heq
        exact heq

theorem hostKind_of {x : Str} {k : HostType} (hx : Escaped isUpperHex isRegName x)
    (h : (k = .none ∧ x = []) ∨ (k = .ipv4 ∧ IPv4 x) ∨ (k = .name ∧ x ≠ [] ∧ ¬ IPv4 x)) : HostKind x k := by
  rcases h with ⟨rfl, rfl⟩ | ⟨rfl, h⟩ | ⟨rfl, h1, h2⟩
  · exact .none
  · exact .ipv4 h
  · refine .name h1 h2 ?_
    cases x with
    | nil => simp
    | cons c t =>
      intro e
      simp at e
      subst e
      rcases escaped_head hx with h | h <;> revert h <;> decide

theorem hostname_of {ps L x r ns np} (hx : Host lib x) (hr : HostEnd x r) (hL : L.length = 3)
    (a : At ps L [] (x ++ r) ns np .none) :
    ∃ k, At (parse_hostname ps) (L ++ [x]) [] r ns np k ∧ HostKind x k := by
  by_cases hlit : ∃ y, x = b!"[" ++ y ++ b!"]"
  · obtain ⟨y, rfl⟩ := hlit
    have hy : lib.ipLiteral y := by
      rcases hx with ⟨z, hz, e⟩ | h
      · have : y = z := by simpa using e
        rw [this]; exact hz
      · exfalso; rcases escaped_head (c := c!"[") h with h | h <;> revert h <;> decide
    have b := ip_literal_of hy a
    refine ⟨.ipv6, ?_, .ipv6⟩
    unfold parse_hostname
    simp only [b.ec]
    exact b.mark hL.symm
  · have hx' : Escaped isUpperHex isRegName x := by
      rcases hx with ⟨z, hz, e⟩ | h
      · exact absurd ⟨z, e⟩ hlit
      · exact h
    rcases hr with h | ⟨hr, hb⟩
    · exact absurd h hlit
    rw [← a.p] at hb
    obtain ⟨k, b, hk⟩ := ipv4_or_domain_of hx' hr a
    refine ⟨k, ?_, hostKind_of hx' hk⟩
    have he : ({ ps with ec := none } : PS) = ps := by
      have := a.ec; cases ps; simp_all
    unfold parse_hostname
    rw [ip_literal_noMatch hb]
    simp only [Option.isSome_some, if_true, ne_eq, not_true_eq_false, if_false, he, b.ec]
    exact b.mark hL.symm

theorem digitDot_escaped {y x : Str} (hy : y.all isDigitDot) (hx : Escaped isUpperHex isRegName x) :
    Escaped isUpperHex isRegName (y ++ x) :=
  Escaped.append (Escaped.of_all (all_mono (fun c hc => (digitDot_facts c hc).2.1) hy)) hx

theorem ipv4_or_domain_inv {ps : PS} (hec : ps.ec = none) (h : (parse_ipv4_or_domain ps).ec = none) :
    ∃ x r, Escaped isUpperHex isRegName x ∧ Stop isRegName r ∧ ps.p = x ++ r := by
  unfold parse_ipv4_or_domain at h
  obtain ⟨y, hy1, hy2⟩ := v4_suffix ps.p
  cases hv : match_ip_v4 ps.p with
  | mk b q =>
    rw [hv] at h hy1
    have key : ∀ pt : Parts, (PS.pct { ps with p := q, pt := pt } reg_name_pct_set q).ec = none →
        ∃ x r, Escaped isUpperHex isRegName x ∧ Stop isRegName r ∧ ps.p = x ++ r := by
      intro pt hh
      obtain ⟨x, h1, h2, h3⟩ := pct_inv setOf_regName (by exact hec) hh
      refine ⟨y ++ x, _, digitDot_escaped hy2 h2, h3, ?_⟩
      rw [hy1, List.append_assoc, ← h1]
    cases b with
    | true =>
      simp only at h
      split at h
      · rename_i h'; rw [h] at h'; simp at h'
      · split at h
        · exact key _ h
        · exact key _ h
    | false =>
      simp only at h
      split at h
      · rename_i h'; rw [h] at h'; simp at h'
      · split at h
        · exact key ps.pt h
        · exact key ps.pt h

theorem hostname_inv {ps : PS} (hec : ps.ec = none) (h : (parse_hostname ps).ec = none) :
    ∃ x r, Host lib x ∧ HostEnd x r ∧ ps.p = x ++ r := by
  unfold parse_hostname at h
  simp only at h
  split at h
  · rename_i h1
    split at h
    · rename_i h2
      rw [h] at h1; simp at h1
    · rename_i h2
      have hnm : (parse_ip_literal ps).ec = some .no_match := by simpa using h2
      -- the failure was at the first character
      have hb : ∀ t, ps.p ≠ c!"[" :: t := by
        intro t e
        unfold parse_ip_literal at hnm
        rw [e] at hnm
        simp only [bne_self_eq_false, Bool.false_eq_true, if_false, hec] at hnm
        revert hnm
        cases (parse_ip_v6 t).err
        · simp only [Bool.false_eq_true, if_false, Option.isSome_none]
          split
          · simp
          · split <;> simp [hec]
        · simp
      rw [ip_literal_noMatch hb] at h
      have he : ({ ps with ec := none } : PS) = ps := by cases ps; simp_all
      simp only [he] at h
      split at h
      · rename_i h3; rw [h] at h3; simp at h3
      · rw [(mark_rest _ _).2.2.1] at h
        obtain ⟨x, r, hx, hr, hp⟩ := ipv4_or_domain_inv hec h
        exact ⟨x, r, .inr hx, .inr ⟨hr, by rw [← hp]; exact hb⟩, hp⟩
  · rename_i h1
    have h1 : (parse_ip_literal ps).ec = none := by simpa using h1
    obtain ⟨x, r, hx, hp, _⟩ := ip_literal_inv hec h1
    exact ⟨_, r, .inl ⟨x, hx, rfl⟩, .inl ⟨x, rfl⟩, hp⟩

/-! ### host and port -/

theorem literal_one {c : Byte} {q : Str} (l : Byte) :
    match_literal [l] (c :: q) = if c = l then some q else none := by
  unfold match_literal
  by_cases h : c = l <;> simp [h]

theorem literal_one_nil (l : Byte) : match_literal [l] [] = none := by
  simp [match_literal]

theorem literal_one_of (l : Byte) (q : Str) : match_literal [l] (l :: q) = some q := by
  rw [literal_one]; simp

theorem literal_one_inv {l : Byte} {p q : Str} (h : match_literal [l] p = some q) : p = l :: q := by
  cases p with
  | nil => simp [literal_one_nil] at h
  | cons c t =>
    rw [literal_one] at h
    split at h
    · simp_all
    · simp at h

theorem literal_one_none {l : Byte} {p : Str} (h : match_literal [l] p = none) : ∀ t, p ≠ l :: t := by
  rintro t rfl
  rw [literal_one_of] at h; simp at h

theorem literal_one_none_of {l : Byte} {p : Str} (h : ∀ t, p ≠ l :: t) : match_literal [l] p = none := by
  cases hq : match_literal [l] p with
  | none => rfl
  | some q => exact absurd (literal_one_inv hq) (h q)

/-- the text of an optional port -/
def portText : Option Str → Str
  | none => []
  | some p => c!":" :: p

/-- What may follow a host and port. -/
def PortEnd (h : Str) (port : Option Str) (r : Str) : Prop :=
  match port with
  | none => HostEnd h r ∧ ∀ t, r ≠ c!":" :: t
  | some _ => NotHead isDigit r

theorem colon_stop (r : Str) : Stop isRegName (c!":" :: r) := by
  refine ⟨by decide, by decide⟩

theorem hostEnd_colon {h r : Str} (hh : Host lib h) : HostEnd h (c!":" :: r) := by
  rcases hh with ⟨x, hx, rfl⟩ | hh
  · exact .inl ⟨x, rfl⟩
  · exact .inr ⟨colon_stop r, head_ne_bracket hh (by intro t; simp)⟩

theorem skipDigits_of {d r : Str} (hd : d.all isDigit) (hr : NotHead isDigit r) :
    skipDigits (d ++ r) = r := by
  rw [skipDigits_eq, dropWhile_of hd hr]

theorem host_of {ps L x port r ns np} (hx : Host lib x) (hport : ∀ d, port = some d → d.all isDigit)
    (hr : PortEnd x port r) (hL : L.length = 3)
    (a : At ps L [] (x ++ (portText port ++ r)) ns np .none) :
    ∃ k, At (parse_host ps) (L ++ [x, portText port]) [] r ns np k ∧ HostKind x k := by
  cases port with
  | none =>
    obtain ⟨k, b, hk⟩ := hostname_of hx hr.1 hL a
    refine ⟨k, ?_, hk⟩
    have : parse_host ps = parse_hostname ps := by
      unfold parse_host
      simp only [b.ec, Option.isSome_none, Bool.false_eq_true, if_false]
      split
      · rfl
      · rename_i c t hp
        rw [b.p] at hp
        have : c ≠ c!":" := by rintro rfl; exact hr.2 t hp
        simp [this]
    rw [this]
    have := b.skip
    simpa [portText] using this
  | some d =>
    obtain ⟨k, b, hk⟩ := hostname_of hx (hostEnd_colon hx) hL a
    refine ⟨k, ?_, hk⟩
    have : parse_host ps = ({ parse_hostname ps with p := r } : PS).mark id_port := by
      unfold parse_host
      simp only [b.ec, Option.isSome_none, Bool.false_eq_true, if_false, b.p, List.cons_append]
      simp [skipDigits_of (hport d rfl) hr]
    rw [this]
    have c := (b.advance (x := c!":" :: d)).mark (id := id_port) (by simp [hL])
    simpa [portText] using c

theorem host_inv {ps : PS} (hec : ps.ec = none) (h : (parse_host ps).ec = none) (hL : ∃ L ns np, L.length = 3 ∧
      At ps L [] ps.p ns np .none) :
    ∃ x port r, Host lib x ∧ (∀ d, port = some d → d.all isDigit) ∧ PortEnd x port r ∧
      ps.p = x ++ (portText port ++ r) := by
  unfold parse_host at h
  simp only at h
  have h1 : (parse_hostname ps).ec = none := by
    cases h2 : (parse_hostname ps).ec with
    | none => rfl
    | some e => simp [h2] at h
  obtain ⟨x, r, hx, hr, hp⟩ := hostname_inv hec h1
  obtain ⟨L, ns, np, hL, a⟩ := hL
  rw [hp] at a
  obtain ⟨k, b, hk⟩ := hostname_of hx hr hL a
  by_cases hc : ∃ t, r = c!":" :: t
  · obtain ⟨t, rfl⟩ := hc
    obtain ⟨d, h1, h2, h3⟩ := dropWhile_inv isDigit t
    exact ⟨x, some d, t.dropWhile isDigit, hx, by simpa using h2, h3, by rw [hp]; simp [portText, ← h1]⟩
  · exact ⟨x, none, r, hx, by simp, ⟨hr, fun t e => hc ⟨t, e⟩⟩, by simpa [portText] using hp⟩

theorem host_sound {ps L ns np} (hL : L.length = 3) (a : At ps L [] ps.p ns np .none)
    (h : (parse_host ps).ec = none) :
    ∃ x port r k, Host lib x ∧ (∀ d, port = some d → d.all isDigit) ∧ PortEnd x port r ∧
      ps.p = x ++ (portText port ++ r) ∧ HostKind x k ∧
      At (parse_host ps) (L ++ [x, portText port]) [] r ns np k := by
  obtain ⟨x, port, r, hx, hp, hr, e⟩ := host_inv a.ec h ⟨L, ns, np, hL, a⟩
  rw [e] at a
  obtain ⟨k, b, hk⟩ := host_of hx hp hr hL a
  exact ⟨x, port, r, k, hx, hp, hr, e, hk, b⟩

/-! ### userinfo -/

theorem userinfo_of {ps L pend u w r ns np h} (hu : Escaped isUpperHex isRegName u)
    (hw : Escaped isUpperHex isUserinfo w) (h1 : Stop isRegName (w ++ r)) (h2 : Stop isUserinfo r)
    (hL : L.length = 1) (a : At ps L pend (u ++ (w ++ r)) ns np h) :
    At (parse_userinfo ps) (L ++ [pend ++ u, w]) [] r ns np h := by
  have b := a.pct_of setOf_userinfo_nc hu h1
  have c := b.mark (id := id_user) hL.symm
  have d := c.pct_of setOf_userinfo hw h2
  have e := d.mark (id := id_password) (by simp [hL])
  unfold parse_userinfo
  simp only [b.ec, d.ec, Option.isSome_none, Bool.false_eq_true, if_false]
  simpa using e

theorem userinfo_inv {ps : PS} (hec : ps.ec = none) (h : (parse_userinfo ps).ec = none) :
    ∃ u w r, Escaped isUpperHex isRegName u ∧ Escaped isUpperHex isUserinfo w ∧
      Stop isRegName (w ++ r) ∧ Stop isUserinfo r ∧ ps.p = u ++ (w ++ r) := by
  unfold parse_userinfo at h
  simp only at h
  split at h
  · rename_i h'; rw [h] at h'; simp at h'
  · rename_i h1
    have h1 : (ps.pct userinfo_nc_pct_set ps.p).ec = none := by simpa using h1
    obtain ⟨u, e1, hu, su⟩ := pct_inv setOf_userinfo_nc hec h1
    split at h
    · rename_i h'; rw [h] at h'; simp at h'
    · rename_i h2
      have h2 := Option.not_isSome_iff_eq_none.1 h2
      obtain ⟨w, e2, hw, sw⟩ := pct_inv setOf_userinfo (by rw [(mark_rest _ _).2.2.1, h1]) h2
      rw [(mark_rest _ _).2.1] at e2
      rw [e2] at e1 su
      exact ⟨u, w, _, hu, hw, su, sw, e1⟩

theorem userinfo_ne_noMatch {ps : PS} (hec : ps.ec = none) : (parse_userinfo ps).ec ≠ some .no_match := by
  unfold parse_userinfo
  simp only
  split
  · exact pct_ne_noMatch hec
  · rename_i h1
    have h1 := Option.not_isSome_iff_eq_none.1 h1
    split
    · exact pct_ne_noMatch (by rw [(mark_rest _ _).2.2.1, h1])
    · rename_i h2
      rw [(mark_rest _ _).2.2.1]
      rw [Option.not_isSome_iff_eq_none.1 h2]
      simp

theorem userinfo_colon (c : Byte) : isUserinfo c = true → isRegName c = false → c = c!":" := by
  revert c; exact forall_byte (by decide +kernel)

/-- what the second scan of `parse_userinfo` reads is empty or starts with a colon -/
theorem password_shape {w r : Str} (hw : Escaped isUpperHex isUserinfo w) (h : Stop isRegName (w ++ r)) :
    w = [] ∨ ∃ p, w = c!":" :: p ∧ Escaped isUpperHex isUserinfo p := by
  cases hw with
  | nil => exact .inl rfl
  | @char c s hc hs =>
    have := userinfo_colon c hc h.2
    subst this
    exact .inr ⟨s, rfl, hs⟩
  | pct => exact absurd rfl h.1

/-! ### authority -/

/-- the texts of the user and password parts, after `pend` -/
def userParts (pend : Str) : Option (Str × Option Str) → List Str
  | none => [pend, []]
  | some (u, none) => [pend ++ u, b!"@"]
  | some (u, some p) => [pend ++ u, c!":" :: p ++ b!"@"]

/-- the texts of the four parts of an authority, after `pend` -/
def authParts (pend : Str) (a : Auth) : List Str :=
  userParts pend a.userinfo ++ [a.host, portText a.port]

theorem userParts_flatten (pend : Str) (u : Option (Str × Option Str)) :
    (userParts pend u).flatten = pend ++ (userParts [] u).flatten := by
  match u with
  | none => simp [userParts]
  | some (u, none) => simp [userParts]
  | some (u, some p) => simp [userParts]

theorem auth_render (a : Auth) :
    a.render = (userParts [] a.userinfo).flatten ++ (a.host ++ portText a.port) := by
  obtain ⟨ui, h, port⟩ := a
  match ui, port with
  | none, none => simp [Auth.render, userParts, portText]
  | none, some _ => simp [Auth.render, userParts, portText]
  | some (u, none), none => simp [Auth.render, userParts, portText]
  | some (u, none), some _ => simp [Auth.render, userParts, portText]
  | some (u, some p), none => simp [Auth.render, userParts, portText]
  | some (u, some p), some _ => simp [Auth.render, userParts, portText]

theorem userParts_length (pend : Str) (u : Option (Str × Option Str)) : (userParts pend u).length = 2 := by
  match u with
  | none => rfl
  | some (_, none) => rfl
  | some (_, some _) => rfl

/-- The state after giving up on a userinfo. -/
theorem userinfo_reset {ps L pend p ns np h} {u w r : Str} (hL : L.length = 1)
    (b : At (parse_userinfo ps) (L ++ [pend ++ u, w]) [] r ns np h)
    (e : p = u ++ (w ++ r)) :
    At ((({ parse_userinfo ps with p := p } : PS).mark id_user).mark id_password) (L ++ [pend, []]) [] p
      ns np h := by
  have hpos : ({ parse_userinfo ps with p := p } : PS).pos = L.flatten.length + pend.length := by
    unfold PS.pos
    simp only
    rw [b.inp, e]
    simp only [List.flatten_append, List.flatten_cons, List.flatten_nil, List.length_append,
      List.append_nil, List.nil_append]
    omega
  have r1 : PtRep (({ parse_userinfo ps with p := p } : PS).mark id_user).pt (L ++ pend :: [w]) :=
    mark_rep pend (A := L) (B := [w]) (x := pend ++ u) b.rep hL.symm hpos
  have hpos2 : (({ parse_userinfo ps with p := p } : PS).mark id_user).pos = L.flatten.length + pend.length := by
    unfold PS.pos
    rw [(mark_rest _ _).1, (mark_rest _ _).2.1]
    exact hpos
  have r2 : PtRep ((({ parse_userinfo ps with p := p } : PS).mark id_user).mark id_password).pt
      ((L ++ [pend]) ++ [] :: []) :=
    mark_rep [] (A := L ++ [pend]) (B := []) (x := w) (by simpa using r1) (by simp [hL]) (by
      rw [hpos2]; simp)
  obtain ⟨h1, h2, h3, h4, h5, h6, h7⟩ :=
    mark_rest (({ parse_userinfo ps with p := p } : PS).mark id_user) id_password
  obtain ⟨g1, g2, g3, g4, g5, g6, g7⟩ := mark_rest ({ parse_userinfo ps with p := p } : PS) id_user
  refine ⟨by simpa using r2, ?_, ?_, ?_, ?_, ?_, ?_, ?_⟩
  · rw [h1, g1]; simp only; rw [b.inp, e]; simp
  · rw [h2, g2]
  · rw [h3, g3]; exact b.ec
  · rw [h4, g4]; exact b.flt
  · rw [h5, g5]; exact b.nseg
  · rw [h6, g6]; exact b.nparam
  · rw [h7, g7]; exact b.host

/-- The end of an authority. -/
def EndAuth (r : Str) : Prop :=
  r = [] ∨ ∃ c t, r = c :: t ∧ (c = c!"/" ∨ c = c!"?" ∨ c = c!"#")

theorem EndAuth.stopUser {r} (h : EndAuth r) : Stop isUserinfo r := by
  rcases h with rfl | ⟨c, t, rfl, rfl | rfl | rfl⟩
  · trivial
  all_goals exact ⟨by decide, by decide⟩

theorem EndAuth.stopReg {r} (h : EndAuth r) : Stop isRegName r := by
  rcases h with rfl | ⟨c, t, rfl, rfl | rfl | rfl⟩
  · trivial
  all_goals exact ⟨by decide, by decide⟩

theorem EndAuth.portEnd {r x port} (hx : Host lib x) (h : EndAuth r) : PortEnd x port r := by
  cases port with
  | some d =>
    rcases h with rfl | ⟨c, t, rfl, rfl | rfl | rfl⟩
    · trivial
    all_goals (show isDigit _ = false; decide)
  | none =>
    have hb : ∀ c : Byte, c ≠ c!"/" → c ≠ c!"?" → c ≠ c!"#" → ∀ t, r ≠ c :: t := by
      intro c h1 h2 h3 t e
      rcases h with rfl | ⟨c', t', rfl, hc⟩
      · simp at e
      · simp at e
        rw [e.1] at hc
        rcases hc with rfl | rfl | rfl <;> simp_all
    refine ⟨?_, hb _ (by decide) (by decide) (by decide)⟩
    rcases hx with ⟨y, _, rfl⟩ | hx
    · exact .inl ⟨y, rfl⟩
    · exact .inr ⟨h.stopReg, head_ne_bracket hx (hb _ (by decide) (by decide) (by decide))⟩

theorem EndAuth.no_at {r} (h : EndAuth r) : ∀ t, r ≠ c!"@" :: t := by
  rintro t rfl
  rcases h with h | ⟨c, t, h, hc⟩
  · simp at h
  · simp at h
    rw [← h.1] at hc
    simp at hc

theorem digits_userinfo {d : Str} (h : d.all isDigit) : Escaped isUpperHex isUserinfo d :=
  Escaped.of_all (all_mono (forall_byte (by decide +kernel)) h)

theorem authority_of {ps L pend a r ns np} (ha : a.Valid lib) (hr : EndAuth r) (hL : L.length = 1)
    (st : At ps L pend (a.render ++ r) ns np .none) :
    ∃ k, At (parse_authority ps) (L ++ authParts pend a) [] r ns np k ∧ HostKind a.host k := by
  obtain ⟨hu, hh, hp⟩ := ha
  obtain ⟨ui, x, port⟩ := a
  have hend := hr.portEnd (port := port) hh
  have hend : PortEnd x port r := hend
  rw [auth_render] at st
  simp only at st hu hh hp ⊢
  cases ui with
  | some up =>
    obtain ⟨u, pw⟩ := up
    obtain ⟨hu1, hu2⟩ := hu u pw rfl
    -- the text of the password part without the trailing `@`
    obtain ⟨w, hw, hws, hparts⟩ : ∃ w, Escaped isUpperHex isUserinfo w ∧
        (∀ t, Stop isRegName (w ++ c!"@" :: t)) ∧
        ∀ pend, userParts pend (some (u, pw)) = [pend ++ u, w ++ b!"@"] := by
      cases pw with
      | none => exact ⟨[], .nil, fun t => ⟨by decide, by decide⟩, fun _ => rfl⟩
      | some p => exact ⟨c!":" :: p, .char (by decide) (hu2 p rfl), fun t => colon_stop _, fun _ => rfl⟩
    simp only [hparts, List.nil_append, List.flatten_cons, List.flatten_nil, List.append_nil,
      List.append_assoc, List.cons_append] at st
    have b := userinfo_of hu1 hw (hws _) ⟨by decide, by decide⟩ hL st
    have c := (b.advance (x := b!"@")).congr (ps' := { parse_userinfo ps with
      p := x ++ (portText port ++ r) }) rfl
    have d : At _ (L ++ [pend ++ u] ++ [w ++ b!"@"]) [] _ _ _ _ :=
      At.remark (L := L ++ [pend ++ u]) (x := w) (id := id_password) (by simpa using c) (by simp [hL])
    obtain ⟨k, f, hk⟩ := host_of hh hp hend (by simp [hL]) d
    refine ⟨k, ?_, hk⟩
    have : parse_authority ps = parse_host (({ parse_userinfo ps with
        p := x ++ (portText port ++ r) } : PS).mark id_password) := by
      unfold parse_authority
      simp only [b.ec, b.p]
      simp [literal_one_of]
    rw [this]
    simpa [authParts, hparts] using f
  | none =>
    simp only [userParts, List.flatten_cons, List.flatten_nil, List.nil_append, List.append_assoc] at st
    -- what `parse_userinfo` reads before it gives up
    obtain ⟨u, w, q, e, h1, h2, h3, h4, h5⟩ : ∃ u w q, x ++ (portText port ++ r) = u ++ (w ++ q) ∧
        Escaped isUpperHex isRegName u ∧ Escaped isUpperHex isUserinfo w ∧ Stop isRegName (w ++ q) ∧
        Stop isUserinfo q ∧ ∀ t, q ≠ c!"@" :: t := by
      rcases hh with ⟨y, hy, rfl⟩ | hh
      · exact ⟨[], [], _, rfl, .nil, .nil, ⟨by decide, by decide⟩, ⟨by decide, by decide⟩, by simp⟩
      · cases port with
        | none => exact ⟨x, [], r, rfl, hh, .nil, hr.stopReg, hr.stopUser, hr.no_at⟩
        | some d =>
          exact ⟨x, c!":" :: d, r, rfl, hh, .char (by decide) (digits_userinfo (hp d rfl)), colon_stop _,
            hr.stopUser, hr.no_at⟩
    have b := userinfo_of h1 h2 h3 h4 hL (e ▸ st)
    have c := userinfo_reset hL b e
    obtain ⟨k, f, hk⟩ := host_of hh hp hend (by simp [hL]) c
    refine ⟨k, ?_, hk⟩
    have : parse_authority ps = parse_host ((({ parse_userinfo ps with
        p := x ++ (portText port ++ r) } : PS).mark id_user).mark id_password) := by
      unfold parse_authority
      simp only [b.ec, b.p, st.p, literal_one_none_of h5]
      simp
    rw [this]
    simpa [authParts, userParts] using f

theorem authority_sound {ps L pend ns np} (hL : L.length = 1) (st : At ps L pend ps.p ns np .none)
    (h : (parse_authority ps).ec = none) :
    ∃ a r k, a.Valid lib ∧ ps.p = a.render ++ r ∧ HostKind a.host k ∧
      PortEnd a.host a.port r ∧ At (parse_authority ps) (L ++ authParts pend a) [] r ns np k := by
  have h1 : (parse_userinfo ps).ec = none := by
    cases he : (parse_userinfo ps).ec with
    | none => rfl
    | some er =>
      have := userinfo_ne_noMatch st.ec
      unfold parse_authority at h
      simp only [he] at h this
      rw [if_neg this] at h
      simp [he] at h
  obtain ⟨u, w, q, hu, hw, hs1, hs2, e⟩ := userinfo_inv st.ec h1
  have b := userinfo_of hu hw hs1 hs2 hL (e ▸ st)
  cases hl : match_literal b!"@" q with
  | some t =>
    obtain rfl := literal_one_inv hl
    have c := (b.advance (x := b!"@")).congr (ps' := { parse_userinfo ps with p := t }) rfl
    have d : At _ (L ++ [pend ++ u] ++ [w ++ b!"@"]) [] _ _ _ _ :=
      At.remark (L := L ++ [pend ++ u]) (x := w) (id := id_password) (by simpa using c) (by simp [hL])
    have hA : parse_authority ps = parse_host (({ parse_userinfo ps with p := t } : PS).mark id_password) := by
      unfold parse_authority
      simp only [h1, b.p]
      simp [literal_one_of]
    rw [hA] at h ⊢
    have hpp : (({ parse_userinfo ps with p := t } : PS).mark id_password).p = t := (mark_rest _ _).2.1
    obtain ⟨x, port, r, k, hx, hp, hr, e2, hk, f⟩ := host_sound (by simp [hL]) (d.congr rfl |> (hpp.symm ▸ ·)) h
    rw [hpp] at e2
    rcases password_shape hw hs1 with rfl | ⟨p, rfl, hpe⟩
    · refine ⟨⟨some (u, none), x, port⟩, r, k, ⟨?_, hx, hp⟩, ?_, hk, hr, ?_⟩
      · rintro u' pw' h; simp at h; obtain ⟨rfl, rfl⟩ := h; exact ⟨hu, by simp⟩
      · rw [e, e2, auth_render]; simp [userParts]
      · simpa [authParts, userParts] using f
    · refine ⟨⟨some (u, some p), x, port⟩, r, k, ⟨?_, hx, hp⟩, ?_, hk, hr, ?_⟩
      · rintro u' pw' h; simp at h; obtain ⟨rfl, rfl⟩ := h
        exact ⟨hu, by intro p' h; simp at h; subst h; exact hpe⟩
      · rw [e, e2, auth_render]; simp [userParts]
      · simpa [authParts, userParts] using f
  | none =>
    have c := userinfo_reset hL b e
    have hA : parse_authority ps = parse_host ((({ parse_userinfo ps with
        p := ps.p } : PS).mark id_user).mark id_password) := by
      unfold parse_authority
      simp only [h1, b.p, hl]
      simp
    rw [hA] at h ⊢
    have hpp : ((({ parse_userinfo ps with p := ps.p } : PS).mark id_user).mark id_password).p = ps.p := by
      rw [(mark_rest _ _).2.1, (mark_rest _ _).2.1]
    obtain ⟨x, port, r, k, hx, hp, hr, e2, hk, f⟩ := host_sound (by simp [hL]) (hpp.symm ▸ c) h
    rw [hpp] at e2
    refine ⟨⟨none, x, port⟩, r, k, ⟨by simp, hx, hp⟩, ?_, hk, hr, ?_⟩
    · rw [e2, auth_render]; simp [userParts]
    · simpa [authParts, userParts] using f

end Url
