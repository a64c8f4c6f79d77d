import Verif.Props.Texts

/-!
C32, C71: which arguments `set_encoded_origin` accepts, and what each of them does, after any calls and edits.
-/

set_option linter.unusedSimpArgs false
set_option autoImplicit false

namespace Url.Props
open Url Spec
variable {env : Env} {st st' : St}

/-! ### the accepted arguments -/

/-- `s` starts with characters of a class and complete escapes, up to `r`, which starts with neither such a character nor a `%`. -/
def Upto (ok : Byte → Bool) (s r : Str) : Prop :=
  ∃ x, s = x ++ r ∧ Escaped isUpperHex ok x ∧ ∀ c t, r = c :: t → c ≠ c!"%" ∧ ok c = false

/-- The characters of a path. -/
def isPathChar (c : Byte) : Bool := isPchar c || c == c!"/"

/-- The authority `a` cannot be continued with the start of `r`: not as a userinfo, not as a port, not as a host. -/
def Ends (a : Auth) (r : Str) : Prop :=
  (a.userinfo = none → ∃ q, Upto isUserinfo (a.render ++ r) q ∧ ∀ t, q ≠ c!"@" :: t) ∧
  (a.port ≠ none → ∀ c t, r = c :: t → isDigit c = false) ∧
  (a.port = none → (∀ t, r ≠ c!":" :: t) ∧
    ((∃ x, a.host = c!"[" :: x) ∨ ((∀ c t, r = c :: t → c ≠ c!"%" ∧ isRegName c = false) ∧ (a.host = [] → ∀ t, r ≠ c!"[" :: t))))

/-- What may follow the authority `a`, or the scheme if there is none: anything, as long as the longest piece of it that
looks like a path has complete escapes. -/
def Follows (a : Option Auth) (r : Str) : Prop :=
  match a with
  | some a => Ends a r ∧ ∀ t, r = c!"/" :: t → ∃ q, Upto isPathChar t q
  | none => (∀ t, r ≠ b!"//" ++ t) ∧ (∀ c t, r = c!"/" :: c :: t → ∃ q, Upto isPathChar t q) ∧
      ((∀ t, r ≠ c!"/" :: t) → ∃ q, Upto isPathChar r q)

/-- `s` is a scheme, an authority or none, and something that may follow. -/
def TakenAs (s sch : Str) (a : Option Auth) (r : Str) : Prop :=
  Scheme lib sch ∧ (∀ a', a = some a' → a'.Valid lib) ∧ Follows a r ∧ s = Components.render ⟨some sch, a, r, none, none⟩

/-! ### paths -/

theorem stop_iff {ok : Byte → Bool} {r : Str} : Stop ok r ↔ ∀ c t, r = c :: t → c ≠ c!"%" ∧ ok c = false := by
  cases r with
  | nil => simp [Stop]
  | cons c t =>
    constructor
    · rintro h c' t' e; cases e; exact h
    · intro h; exact h c t rfl

theorem pathEnd_iff {r : Str} : PathEnd r ↔ Stop isPathChar r := by
  cases r with
  | nil => simp [PathEnd, Stop]
  | cons c t =>
    simp only [PathEnd, Stop, isPathChar, Bool.or_eq_false_iff, beq_eq_false_iff_ne, ne_eq, List.cons.injEq, not_and]
    constructor
    · rintro ⟨⟨h1, h2⟩, h3⟩
      exact ⟨h1, h2, fun e => h3 t e rfl⟩
    · rintro ⟨h1, h2, h3⟩
      exact ⟨⟨h1, h2⟩, fun _ e => absurd e h3⟩

theorem path_pieces {x : Str} (h : Escaped isUpperHex isPathChar x) :
    ∃ s u, x = s ++ u ∧ Escaped isUpperHex isPchar s ∧ Slashed isUpperHex u := by
  induction h with
  | nil => exact ⟨[], [], rfl, .nil, [], by simp, rfl⟩
  | @char c t hc _ ih =>
    obtain ⟨s, u, rfl, hs, segs, hg, rfl⟩ := ih
    by_cases hp : isPchar c = true
    · exact ⟨c :: s, _, rfl, .char hp hs, segs, hg, rfl⟩
    · obtain rfl : c = c!"/" := by simpa [isPathChar, hp] using hc
      refine ⟨[], _, rfl, .nil, s :: segs, ?_, by simp⟩
      simp only [List.mem_cons, forall_eq_or_imp]
      exact ⟨hs, hg⟩
  | pct ha hb _ ih =>
    obtain ⟨s, u, rfl, hs, hg⟩ := ih
    exact ⟨_, u, rfl, .pct ha hb hs, hg⟩

theorem pieces_path {s u : Str} (hs : Escaped isUpperHex isPchar s) (hu : Slashed isUpperHex u) : Escaped isUpperHex isPathChar (s ++ u) := by
  have mono : ∀ {s}, Escaped isUpperHex isPchar s → Escaped isUpperHex isPathChar s :=
    fun h => h.mono (fun _ h => h) fun c hc => by simp [isPathChar, hc]
  refine (mono hs).append ?_
  obtain ⟨segs, hg, rfl⟩ := hu
  induction segs with
  | nil => exact .nil
  | cons a t ih =>
    simp only [List.flatMap_cons, List.cons_append]
    exact .char (by decide) ((mono (hg a (by simp))).append (ih fun s h => hg s (by simp [h])))

/-- the pieces of a text up to where the path in it ends -/
theorem upto_path {t : Str} : (∃ q, Upto isPathChar t q) ↔
    ∃ s u r, t = s ++ u ++ r ∧ Escaped isUpperHex isPchar s ∧ Slashed isUpperHex u ∧ PathEnd r := by
  constructor
  · rintro ⟨q, x, rfl, hx, hq⟩
    obtain ⟨s, u, rfl, hs, hu⟩ := path_pieces hx
    exact ⟨s, u, q, rfl, hs, hu, pathEnd_iff.2 (stop_iff.2 hq)⟩
  · rintro ⟨s, u, r, rfl, hs, hu, hr⟩
    exact ⟨r, s ++ u, rfl, pieces_path hs hu, stop_iff.1 (pathEnd_iff.1 hr)⟩

theorem slashed_of {s u : Str} (hs : Escaped isUpperHex isPchar s) (hu : Slashed isUpperHex u) : Slashed isUpperHex (c!"/" :: s ++ u) := by
  obtain ⟨segs, hg, rfl⟩ := hu
  refine ⟨s :: segs, ?_, by simp⟩
  simp only [List.mem_cons, forall_eq_or_imp]
  exact ⟨hs, hg⟩

theorem slashed_cases {p : Str} (h : Slashed isUpperHex p) :
    p = [] ∨ ∃ s u, p = c!"/" :: s ++ u ∧ Escaped isUpperHex isPchar s ∧ Slashed isUpperHex u := by
  obtain ⟨segs, hg, rfl⟩ := h
  cases segs with
  | nil => exact .inl rfl
  | cons a t => exact .inr ⟨a, _, by simp, hg a (by simp), t, fun s h => hg s (by simp [h]), rfl⟩

theorem abempty_iff {r : Str} : (∀ t, r = c!"/" :: t → ∃ q, Upto isPathChar t q) ↔
    ∃ p r', r = p ++ r' ∧ Slashed isUpperHex p ∧ (∀ t, r' ≠ c!"/" :: t) ∧ (p ≠ [] → Stop isPchar r') := by
  constructor
  · intro h
    by_cases hr : ∃ t, r = c!"/" :: t
    · obtain ⟨t, rfl⟩ := hr
      obtain ⟨s, u, q, rfl, hs, hu, hq⟩ := upto_path.1 (h t rfl)
      exact ⟨c!"/" :: s ++ u, q, by simp, slashed_of hs hu, hq.2, fun _ => hq.1⟩
    · exact ⟨[], r, rfl, ⟨[], by simp, rfl⟩, fun t e => hr ⟨t, e⟩, fun h => absurd rfl h⟩
  · rintro ⟨p, r', rfl, hp, h1, h2⟩ t e
    rcases slashed_cases hp with rfl | ⟨s, u, rfl, hs, hu⟩
    · exact absurd e (h1 t)
    · simp only [List.cons_append, List.cons.injEq, true_and] at e
      exact upto_path.2 ⟨s, u, r', e.symm, hs, hu, h2 (by simp), h1⟩

/-! ### authorities -/

theorem user_pieces {x q : Str} (h : Escaped isUpperHex isUserinfo x) (hq : Stop isUserinfo q) :
    ∃ u w, x = u ++ w ∧ Escaped isUpperHex isRegName u ∧ Escaped isUpperHex isUserinfo w ∧ Stop isRegName (w ++ q) := by
  have hm : ∀ c, isUserinfo c = false → isRegName c = false := forall_byte (by decide +kernel)
  induction h with
  | nil =>
    refine ⟨[], [], rfl, .nil, .nil, ?_⟩
    cases q with
    | nil => trivial
    | cons c t => exact ⟨hq.1, hm c hq.2⟩
  | @char c t hc ht ih =>
    by_cases hr : isRegName c = true
    · obtain ⟨u, w, rfl, h1, h2, h3⟩ := ih
      exact ⟨c :: u, w, rfl, .char hr h1, h2, h3⟩
    · refine ⟨[], c :: t, rfl, .nil, .char hc ht, ?_, by simpa using hr⟩
      rintro rfl
      revert hc; decide
  | pct ha hb _ ih =>
    obtain ⟨u, w, rfl, h1, h2, h3⟩ := ih
    exact ⟨_, w, rfl, .pct ha hb h1, h2, h3⟩

theorem portEnd_of {a : Auth} {r : Str} (ha : Host lib a.host) (h : Ends a r) : PortEnd a.host a.port r := by
  obtain ⟨-, h1, h2⟩ := h
  unfold PortEnd
  split
  · rename_i hp
    obtain ⟨h3, h4⟩ := h2 hp
    refine ⟨?_, h3⟩
    rcases ha with ⟨x, -, e⟩ | ha
    · exact .inl ⟨x, e⟩
    · rcases h4 with ⟨x, e⟩ | ⟨h4, h5⟩
      · rw [e] at ha
        exact absurd (escaped_head ha) (by decide)
      · refine .inr ⟨stop_iff.2 h4, ?_⟩
        cases he : a.host with
        | nil => exact h5 he
        | cons c t =>
          rw [he] at ha
          intro t' e'
          simp only [List.cons_append, List.cons.injEq] at e'
          rw [e'.1] at ha
          exact absurd (escaped_head ha) (by decide)
  · rename_i d hp
    have := h1 (by simp [hp])
    cases r with
    | nil => trivial
    | cons c t => exact this c t rfl

theorem ends_of {a : Auth} {r : Str} (h0 : a.userinfo = none → ∃ q, Upto isUserinfo (a.render ++ r) q ∧ ∀ t, q ≠ c!"@" :: t)
    (h : PortEnd a.host a.port r) : Ends a r := by
  refine ⟨h0, ?_, ?_⟩
  · intro hp c t e
    cases hq : a.port with
    | none => exact absurd hq hp
    | some d => rw [hq, e] at h; exact h
  · intro hp
    rw [hp] at h
    refine ⟨h.2, ?_⟩
    rcases h.1 with ⟨x, e⟩ | ⟨h1, h2⟩
    · exact .inl ⟨x ++ b!"]", by rw [e]; rfl⟩
    · exact .inr ⟨stop_iff.1 h1, fun e t => by have := h2 t; rwa [e] at this⟩

theorem authority_ends {ps : PS} {L : List Str} {pend : Str} {a : Auth} {r : Str} {ns np : Nat} (ha : a.Valid lib) (hr : Ends a r) (hL : L.length = 1)
    (st : At ps L pend (a.render ++ r) ns np .none) :
    ∃ k, At (parse_authority ps) (L ++ authParts pend a) [] r ns np k ∧ HostKind a.host k := by
  have hend := portEnd_of ha.2.1 hr
  obtain ⟨h0, -⟩ := hr
  obtain ⟨hu, hh, hp⟩ := ha
  obtain ⟨ui, x, port⟩ := a
  rw [auth_render] at st h0
  simp only at st hu hh hp hend h0 ⊢
  cases ui with
  | some up =>
    obtain ⟨u, pw⟩ := up
    obtain ⟨hu1, hu2⟩ := hu u pw rfl
    obtain ⟨w, hw, hws, hparts⟩ : ∃ w, Escaped isUpperHex isUserinfo w ∧
        (∀ t, Stop isRegName (w ++ c!"@" :: t)) ∧
        ∀ pend, userParts pend (some (u, pw)) = [pend ++ u, w ++ b!"@"] := by
      cases pw with
      | none => exact ⟨[], .nil, fun t => ⟨by decide, by decide⟩, fun _ => rfl⟩
      | some p => exact ⟨c!":" :: p, .char (by decide) (hu2 p rfl), fun t => colon_stop _, fun _ => rfl⟩
    simp only [hparts, List.nil_append, List.flatten_cons, List.flatten_nil, List.append_nil,
      List.append_assoc, List.cons_append] at st
    have b := _root_.Url.userinfo_of hu1 hw (hws _) ⟨by decide, by decide⟩ hL st
    have c := (b.advance (x := b!"@")).congr (ps' := { parse_userinfo ps with
      p := x ++ (portText port ++ r) }) rfl
    have d : At _ (L ++ [pend ++ u] ++ [w ++ b!"@"]) [] _ _ _ _ :=
      At.remark (L := L ++ [pend ++ u]) (x := w) (id := id_password) (by simpa using c) (by simp [hL])
    obtain ⟨k, f, hk⟩ := host_of hh hp hend (by simp [hL]) d
    refine ⟨k, ?_, hk⟩
    have : parse_authority ps = parse_host (({ parse_userinfo ps with
        p := x ++ (portText port ++ r) } : PS).mark id_password) := by
      unfold parse_authority
      simp only [b.ec, b.p]
      simp [literal_one_of]
    rw [this]
    simpa [authParts, hparts] using f
  | none =>
    simp only [userParts, List.flatten_cons, List.flatten_nil, List.nil_append, List.append_assoc] at st h0
    obtain ⟨q, ⟨y, e, hy, hq⟩, h5⟩ := h0 trivial
    have hq := stop_iff.2 hq
    obtain ⟨u, w, rfl, h1, h2, h3⟩ := user_pieces hy hq
    rw [List.append_assoc] at e
    have b := _root_.Url.userinfo_of h1 h2 h3 hq hL (e ▸ st)
    have c := userinfo_reset hL b e
    obtain ⟨k, f, hk⟩ := host_of hh hp hend (by simp [hL]) c
    refine ⟨k, ?_, hk⟩
    have : parse_authority ps = parse_host ((({ parse_userinfo ps with
        p := x ++ (portText port ++ r) } : PS).mark id_user).mark id_password) := by
      unfold parse_authority
      simp only [b.ec, b.p, st.p, literal_one_none_of h5]
      simp
    rw [this]
    simpa [authParts, userParts] using f

theorem authority_starts {ps : PS} {L : List Str} {pend : Str} {ns np : Nat} (hL : L.length = 1) (st : At ps L pend ps.p ns np .none)
    (h : (parse_authority ps).ec = none) : ∃ a r, a.Valid lib ∧ ps.p = a.render ++ r ∧ Ends a r := by
  have h1 : (parse_userinfo ps).ec = none := by
    cases he : (parse_userinfo ps).ec with
    | none => rfl
    | some er =>
      have := userinfo_ne_noMatch st.ec
      unfold parse_authority at h
      simp only [he] at h this
      rw [if_neg this] at h
      simp [he] at h
  obtain ⟨u, w, q, hu, hw, hs1, hs2, e⟩ := userinfo_inv st.ec h1
  have b := _root_.Url.userinfo_of hu hw hs1 hs2 hL (e ▸ st)
  cases hl : match_literal b!"@" q with
  | some t =>
    obtain rfl := literal_one_inv hl
    have c := (b.advance (x := b!"@")).congr (ps' := { parse_userinfo ps with p := t }) rfl
    have d : At _ (L ++ [pend ++ u] ++ [w ++ b!"@"]) [] _ _ _ _ :=
      At.remark (L := L ++ [pend ++ u]) (x := w) (id := id_password) (by simpa using c) (by simp [hL])
    have hA : parse_authority ps = parse_host (({ parse_userinfo ps with p := t } : PS).mark id_password) := by
      unfold parse_authority
      simp only [h1, b.p]
      simp [literal_one_of]
    rw [hA] at h
    have hpp : (({ parse_userinfo ps with p := t } : PS).mark id_password).p = t := (mark_rest _ _).2.1
    obtain ⟨x, port, r, k, hx, hp, hr, e2, hk, f⟩ := host_sound (by simp [hL]) (d.congr rfl |> (hpp.symm ▸ ·)) h
    rw [hpp] at e2
    rcases password_shape hw hs1 with rfl | ⟨p, rfl, hpe⟩
    · refine ⟨⟨some (u, none), x, port⟩, r, ⟨?_, hx, hp⟩, ?_, ends_of (by simp) hr⟩
      · rintro u' pw' h; simp at h; obtain ⟨rfl, rfl⟩ := h; exact ⟨hu, by simp⟩
      · rw [e, e2, auth_render]; simp [userParts]
    · refine ⟨⟨some (u, some p), x, port⟩, r, ⟨?_, hx, hp⟩, ?_, ends_of (by simp) hr⟩
      · rintro u' pw' h; simp at h; obtain ⟨rfl, rfl⟩ := h
        exact ⟨hu, by intro p' h; simp at h; subst h; exact hpe⟩
      · rw [e, e2, auth_render]; simp [userParts]
  | none =>
    have c := userinfo_reset hL b e
    have hA : parse_authority ps = parse_host ((({ parse_userinfo ps with
        p := ps.p } : PS).mark id_user).mark id_password) := by
      unfold parse_authority
      simp only [h1, b.p, hl]
      simp
    rw [hA] at h
    have hpp : ((({ parse_userinfo ps with p := ps.p } : PS).mark id_user).mark id_password).p = ps.p := by
      rw [(mark_rest _ _).2.1, (mark_rest _ _).2.1]
    obtain ⟨x, port, r, k, hx, hp, hr, e2, hk, f⟩ := host_sound (by simp [hL]) (hpp.symm ▸ c) h
    rw [hpp] at e2
    have e3 : ps.p = (⟨none, x, port⟩ : Auth).render ++ r := by rw [e2, auth_render]; simp [userParts]
    refine ⟨⟨none, x, port⟩, r, ⟨by simp, hx, hp⟩, e3, ends_of (fun _ => ⟨q, ?_, ?_⟩) hr⟩
    · rw [← e3, e]
      refine ⟨u ++ w, by simp, Escaped.append (hu.mono (fun _ h => h) (forall_byte (by decide +kernel))) hw, stop_iff.1 hs2⟩
    · rintro t rfl
      rw [literal_one_of] at hl
      cases hl

/-! ### the argument as a whole -/

theorem part_follows {ps : PS} {L : List Str} {a : Option Auth} {r : Str} {np : Nat} (ha : ∀ a', a = some a' → a'.Valid lib) (hr : Follows a r)
    (hL : L.length = 1) (st : At ps L [] ((authTexts a).flatten ++ r) 0 np .none) :
    ∃ p r' n k, r = p ++ r' ∧ At (parse_part pchar_pct_set ps) (L ++ authTexts a ++ [p]) [] r' n np k := by
  cases a with
  | some a =>
    obtain ⟨h1, h2⟩ := hr
    obtain ⟨p, r', rfl, hp, hr1, hr2⟩ := abempty_iff.1 h2
    have st : At ps L [] (b!"//" ++ (a.render ++ (p ++ r'))) 0 np .none := by
      rw [authTexts_flatten] at st; simpa using st
    have hl : match_literal b!"//" ps.p = some (a.render ++ (p ++ r')) := literal_two.2 st.p
    obtain ⟨k, c, hk⟩ := authority_ends (ha a rfl) h1 hL st.advance
    have d := abempty_of hp hr2 hr1 (by simp [hL, authParts, userParts_length]) c
    refine ⟨p, r', 0 + (pathSegments p).length, k, rfl, ?_⟩
    have : parse_part pchar_pct_set ps = parse_path_abempty (parse_authority { ps with p := a.render ++ (p ++ r') }) := by
      unfold parse_part
      rw [hl]
      simp [c.ec]
    rw [this]
    simpa [authTexts] using d
  | none =>
    obtain ⟨h1, h2, h3⟩ := hr
    have st : At ps L [] r 0 np .none := by simpa [authTexts] using st
    have b : At ps (L ++ [[], [], [], []]) [] r 0 np .none := by simpa using st.skip.skip.skip.skip
    have hL5 : (L ++ [[], [], [], ([] : Str)]).length = 5 := by simp [hL]
    have n2 : match_literal b!"//" ps.p = none := literal_two_none (fun q e => h1 q (st.p ▸ e))
    have he0 : ({ ps with ec := none } : PS) = ps := by have := st.ec; cases ps; simp_all
    by_cases hs : ∃ t, r = c!"/" :: t
    · obtain ⟨p, r', hp, hpe, rfl⟩ : ∃ p r', LoosePathAbsolute p (!r'.isEmpty) ∧ PathEnd r' ∧ r = p ++ r' := by
        obtain ⟨t, rfl⟩ := hs
        cases t with
        | nil => exact ⟨b!"/", [], .inl ⟨rfl, rfl⟩, ⟨trivial, by simp⟩, rfl⟩
        | cons c t =>
          obtain ⟨s, u, r', rfl, hs, hu, hr'⟩ := upto_path.1 (h2 c t rfl)
          refine ⟨c!"/" :: c :: s ++ u, r', .inr ⟨c, s, u, ?_, hs, hu, rfl⟩, hr', by simp⟩
          rintro rfl
          exact h1 (s ++ u ++ r') rfl
      have d := absolute_of hp hpe hL5 b
      refine ⟨p, r', (pathSegments p).length, .none, rfl, ?_⟩
      have : parse_part pchar_pct_set ps = parse_path_absolute ps := by
        unfold parse_part
        rw [n2]
        simp [d.ec]
      rw [this]
      simpa [authTexts] using d
    · have n1 : ∀ t, ps.p ≠ c!"/" :: t := fun t e => hs ⟨t, st.p ▸ e⟩
      obtain ⟨s, u, r', e, hs', hu, hr'⟩ := upto_path.1 (h3 fun t e => hs ⟨t, e⟩)
      have hA : parse_part pchar_pct_set ps = (if (parse_path_first pchar_pct_set ps).ec ≠ some .no_match then parse_path_first pchar_pct_set ps
          else { parse_path_first pchar_pct_set ps with ec := none }) := by
        unfold parse_part
        rw [n2]
        simp only [absolute_noMatch_eq n1, ne_eq, not_true_eq_false, if_false, he0]
      by_cases h0 : s = []
      · subst h0
        have hu0 : u = [] := by
          rcases slashed_cases hu with h | ⟨s, v, rfl, -⟩
          · exact h
          · exact absurd ⟨_, e⟩ hs
        subst hu0
        simp only [List.nil_append] at e
        subst e
        refine ⟨[], r, 0, .none, rfl, ?_⟩
        have : parse_part pchar_pct_set ps = ps := by
          rw [hA, first_noMatch_eq setOf_pchar st.ec (by rw [st.p]; exact hr'.1)]
          simp [he0]
        rw [this]
        simpa [authTexts] using b.skip
      · subst e
        have d := first_of setOf_pchar h0 hs' (pchars_noslash hs') (by decide) hu (fun _ => hr'.1) hr'.2 (fun _ => hr'.1) hL5 b
        refine ⟨s ++ u, r', (pathSegments (s ++ u)).length, .none, rfl, ?_⟩
        have : parse_part pchar_pct_set ps = parse_path_first pchar_pct_set ps := by rw [hA]; simp [d.ec]
        rw [this]
        simpa [authTexts] using d

theorem part_starts {ps : PS} {L : List Str} {np : Nat} (hL : L.length = 1) (st : At ps L [] ps.p 0 np .none) (h : (parse_part pchar_pct_set ps).ec = none) :
    ∃ a r, (∀ a', a = some a' → a'.Valid lib) ∧ Follows a r ∧ ps.p = (authTexts a).flatten ++ r := by
  cases hl : match_literal b!"//" ps.p with
  | some q =>
    have hp := literal_two.1 hl
    have st' := st
    rw [hp] at st'
    have b := st'.advance
    have hA : parse_part pchar_pct_set ps = (if (parse_authority { ps with p := q }).ec.isSome then
        parse_authority { ps with p := q } else parse_path_abempty (parse_authority { ps with p := q })) := by
      unfold parse_part
      rw [hl]
    have h1 : (parse_authority { ps with p := q }).ec = none := by
      cases he' : (parse_authority { ps with p := q }).ec with
      | none => rfl
      | some er => rw [hA] at h; simp [he'] at h
    rw [h1] at hA
    simp only [Option.isSome_none, Bool.false_eq_true, if_false] at hA
    obtain ⟨a, r, ha, e1, hr⟩ := authority_starts hL b h1
    simp only at e1
    subst e1
    obtain ⟨k, c, hk⟩ := authority_ends ha hr hL b
    rw [hA] at h
    obtain ⟨p, r', hp', e2, hr1, hr2⟩ := abempty_inv c.ec h
    rw [c.p] at e2
    refine ⟨some a, r, by rintro a' h; simp at h; subst h; exact ha, ⟨hr, abempty_iff.2 ⟨p, r', e2, hp', hr1, hr2⟩⟩, ?_⟩
    rw [hp, authTexts_flatten]; simp
  | none =>
    have hne : ∀ t, ps.p ≠ b!"//" ++ t := fun t e => by rw [literal_two.2 e] at hl; cases hl
    refine ⟨none, ps.p, by simp, ⟨hne, ?_⟩, by simp [authTexts]⟩
    by_cases hn : (parse_path_absolute ps).ec = some .no_match
    · have n1 := (absolute_noMatch st.ec).1 hn
      have he0 : ({ ps with ec := none } : PS) = ps := by have := st.ec; cases ps; simp_all
      refine ⟨fun c t e => absurd e (n1 _), fun _ => upto_path.2 ?_⟩
      have hA : parse_part pchar_pct_set ps = (if (parse_path_first pchar_pct_set ps).ec ≠ some .no_match then parse_path_first pchar_pct_set ps
          else { parse_path_first pchar_pct_set ps with ec := none }) := by
        unfold parse_part
        rw [hl]
        simp only [absolute_noMatch_eq n1, ne_eq, not_true_eq_false, if_false, he0]
      by_cases hf : (parse_path_first pchar_pct_set ps).ec = some .no_match
      · exact ⟨[], [], ps.p, rfl, .nil, ⟨[], by simp, rfl⟩, first_noMatch setOf_pchar st.ec hf, n1⟩
      · have hA' : parse_part pchar_pct_set ps = parse_path_first pchar_pct_set ps := by rw [hA]; simp [hf]
        rw [hA'] at h
        obtain ⟨s, t, r, h0, hs, ht, e1, hr1, hr2, hr3⟩ := first_inv setOf_pchar st.ec h
        refine ⟨s, t, r, e1, hs, ht, ?_, hr1⟩
        by_cases h : t = []
        · exact hr3 h
        · exact hr2 h
    · have hA : parse_part pchar_pct_set ps = parse_path_absolute ps := by
        unfold parse_part
        rw [hl]
        simp [hn]
      rw [hA] at h
      obtain ⟨p, r, hp, e1, hpe⟩ := absolute_inv st.ec h
      have hc : ∃ t, ps.p = c!"/" :: t := by
        rcases hp with ⟨rfl, -⟩ | ⟨c, s, t, -, -, -, rfl⟩
        · exact ⟨r, e1⟩
        · exact ⟨_, e1⟩
      refine ⟨fun c t e => upto_path.2 ?_, fun h => absurd hc fun ⟨t, e⟩ => h t e⟩
      rcases hp with ⟨rfl, hr⟩ | ⟨c', s, u, -, hs, hu, rfl⟩
      · have : r = [] := by simpa using hr
        rw [e1, this] at e
        cases e
      · rw [e1] at e
        simp only [List.cons_append, List.cons.injEq, true_and] at e
        exact ⟨s, u, r, e.2.symm, hs, hu, hpe⟩

theorem taken_text {sch r : Str} {a : Option Auth} : Components.render ⟨some sch, a, r, none, none⟩ = sch ++ b!":" ++ ((authTexts a).flatten ++ r) := by
  rw [← compParts_flatten]
  simp [compParts, schemeText, queryText, fragText]

theorem origin_at {s sch r : Str} {a : Option Auth} (h : TakenAs s sch a r) :
    ∃ p r' n k, r = p ++ r' ∧ At (parse_origin s) ([sch ++ b!":"] ++ authTexts a ++ [p]) [] r' n 0 k := by
  obtain ⟨hs, ha, hr, e⟩ := h
  rw [taken_text] at e
  have hm : match_scheme (PS.init s).p = (true, c!":" :: ((authTexts a).flatten ++ r)) := by
    rw [show (PS.init s).p = sch ++ c!":" :: ((authTexts a).flatten ++ r) by rw [e]; simp [PS.init]]
    exact match_scheme_of hs (colon_notScheme _)
  have hl : match_literal b!":" (c!":" :: ((authTexts a).flatten ++ r)) = some ((authTexts a).flatten ++ r) := literal_one_of _ _
  have st : At (({ PS.init s with p := (authTexts a).flatten ++ r } : PS).mark id_scheme) [sch ++ b!":"] [] ((authTexts a).flatten ++ r) 0 0 .none := by
    have := ((At.init (sch ++ b!":" ++ ((authTexts a).flatten ++ r))).advance (x := sch ++ b!":")).mark (id := id_scheme) rfl
    rw [e]
    simpa [schemeText] using this
  obtain ⟨p, r', n, k, e', hat⟩ := part_follows ha hr rfl st
  refine ⟨p, r', n, k, e', ?_⟩
  have hh := part_head hat.ec st.ec
  have hn := literal_two_none fun q => hh _
  have : parse_origin s = parse_part pchar_pct_set (({ PS.init s with p := (authTexts a).flatten ++ r } : PS).mark id_scheme) := by
    unfold parse_origin
    simp only [hm, hl, hier_eq, hn]
  rw [this]
  exact hat

/-- The parser takes an argument exactly if it can be read like that. -/
theorem origin_iff (s : Str) : (parse_origin s).ec = none ↔ ∃ sch a r, TakenAs s sch a r := by
  constructor
  · intro h
    cases hm : match_scheme (PS.init s).p with
    | mk b q =>
    cases b with
    | false => unfold parse_origin at h; simp [hm] at h
    | true =>
      cases hl : match_literal b!":" q with
      | none => unfold parse_origin at h; simp [hm, hl] at h
      | some q' =>
        obtain ⟨sch, hs, e, -⟩ := match_scheme_inv hm
        have hq := literal_one_inv hl
        have hs' : s = sch ++ b!":" ++ q' := by rw [show s = sch ++ q from e, hq]; simp
        have st : At (({ PS.init s with p := q' } : PS).mark id_scheme) [sch ++ b!":"] [] q' 0 0 .none := by
          have := ((At.init (sch ++ b!":" ++ q')).advance (x := sch ++ b!":")).mark (id := id_scheme) rfl
          rw [hs']
          simpa [schemeText] using this
        have hp : (parse_part pchar_pct_set (({ PS.init s with p := q' } : PS).mark id_scheme)).ec = none := by
          refine Decidable.byContradiction fun hp => ?_
          unfold parse_origin at h
          simp only [hm, hl, hier_eq] at h
          split at h
          · exact hp h
          · rename_i x _
            have := authority_keep (ps := { parse_part pchar_pct_set (({ PS.init s with p := q' } : PS).mark id_scheme) with p := x })
              (by simpa [Option.isSome_iff_ne_none] using hp) part_ne_noMatch
            simp only [this, if_true] at h
            rw [h] at this
            simp at this
        obtain ⟨a, r, h1, h2, h3⟩ := part_starts rfl (st.p.symm ▸ st) hp
        rw [st.p] at h3
        exact ⟨sch, a, r, hs, h1, h2, by rw [taken_text, hs', h3]⟩
  · rintro ⟨sch, a, r, h⟩
    obtain ⟨p, r', n, k, -, hat⟩ := origin_at h
    exact hat.ec

/-! ### C32 -/

/-- C32: an argument is rejected exactly if it cannot be read as a scheme, an authority or none, and something that may
follow, whatever calls and edits came before. -/
theorem C32_exact (hw : Worked env st) (s : Str) :
    Rejects (.set_encoded_origin s) env st ↔ s ≠ [] ∧ ¬ ∃ sch a r, TakenAs s sch a r := by
  rw [← origin_iff]
  constructor
  · rintro ⟨st', hr⟩
    obtain ⟨S, U, W, H, P, q, f, t, pa, h⟩ := hw.release.parts rfl
    have n := n_origin h s
    rcases run_sim (.set_encoded_origin s) env st with ⟨f, h'⟩ | h'
    · rw [hr] at h'; cases h'
    · rw [show Base.set_encoded_origin s env.release st = .throw .invalid_part st' from h'.symm.trans hr] at n
      simpa using n.1 rfl
  · rintro ⟨hs, he⟩
    refine ⟨st, ?_⟩
    obtain ⟨x, he⟩ := Option.ne_none_iff_exists'.1 he
    have hp : Base.parsed (parse_origin s) env st = .throw .invalid_part st := by
      simp [Base.parsed, (good_origin s).flt, he]
    rw [show run (.set_encoded_origin s) env st = Base.set_encoded_origin s env st from rfl, Base.set_encoded_origin,
      if_neg (by simpa using hs), run_bind_throw hp]

/-- C32: what an accepted argument does after any calls and edits: however it can be read as a scheme, an authority and
something that follows, these are the new texts, with what follows in front of the path; query and fragment are as before. -/
theorem C32_worked {s sch r : Str} {a : Option Auth} {x : Texts} {dbg : Bool} (hw : Worked env st) (hx : texts (st.obj dbg) = .ok x)
    (ht : TakenAs s sch a r) (hr : Base.set_encoded_origin s env st = .ret () st') :
    texts (st'.obj dbg) = .ok { Texts.of ⟨some sch, a, r ++ x.path, none, none⟩ with query := x.query, fragment := x.fragment } := by
  have hs : s ≠ [] := by
    rw [ht.2.2.2, taken_text]
    simp
  obtain ⟨t, h, -⟩ := hw.release.texts rfl hx
  have n := n_origin h s
  rw [show Base.set_encoded_origin s env.release st = .ret () st' from released (op := .set_encoded_origin s) hr] at n
  obtain ⟨-, -, L, t1, k1, k2⟩ := n
  rw [if_neg hs] at k2
  obtain ⟨sch', a', p', r', k, -, -, -, -, hat, rfl⟩ := k2
  obtain ⟨p, q, n, k', rfl, hat'⟩ := origin_at ht
  have e := parts_unique (by simp [authTexts_length]) (by
    have := hat.inp.symm.trans hat'.inp
    have hp := hat.p.symm.trans hat'.p
    rw [hp, List.nil_append] at this
    exact List.append_cancel_right this) (fun i => (hat.rep i).symm.trans (hat'.rep i))
  have hrr := hat.p.symm.trans hat'.p
  simp only [List.cons_append, List.nil_append, List.cons.injEq] at e
  obtain ⟨e1, e2⟩ := e
  obtain ⟨e4, e3⟩ := List.append_inj e2 (by rw [authTexts_length, authTexts_length])
  simp only [List.cons.injEq, and_true] at e3
  subst e3 hrr
  rw [e1, e4, ← List.map_append, authCells] at k1
  exact k1.texts

theorem ends_nil {a : Auth} (ha : a.Valid lib) : Ends a [] := by
  refine ends_of (fun h0 => ?_) ?_
  · obtain ⟨ui, x, port⟩ := a
    obtain ⟨-, hh, hp⟩ := ha
    simp only at h0 hh hp
    subst h0
    rw [auth_render]
    simp only [userParts, List.flatten_cons, List.flatten_nil, List.nil_append, List.append_nil]
    have mono : ∀ {s}, Escaped isUpperHex isRegName s → Escaped isUpperHex isUserinfo s :=
      fun h => h.mono (fun _ h => h) (forall_byte (by decide +kernel))
    rcases hh with ⟨y, -, rfl⟩ | hh
    · refine ⟨_, ⟨[], rfl, .nil, ?_⟩, by simp⟩
      rintro c t e
      simp only [List.cons_append, List.cons.injEq] at e
      rw [← e.1]; decide
    · refine ⟨[], ⟨_, (List.append_nil _).symm, ?_, by simp⟩, by simp⟩
      cases port with
      | none => simpa [portText] using mono hh
      | some d => exact (mono hh).append (.char (by decide) (digits_userinfo (hp d rfl)))
  · exact EndAuth.portEnd ha.2.1 (.inl rfl)

/-- C32: the origins of the documentation are the arguments after which nothing follows the authority. -/
theorem C32_origins {s sch : Str} {a : Auth} : OriginText sch a s ↔ TakenAs s sch (some a) [] := by
  have e : Components.render ⟨some sch, some a, [], none, none⟩ = sch ++ b!":" ++ (b!"//" ++ a.render) := by
    simp [Components.render]
  constructor
  · rintro ⟨h1, h2, h3⟩
    exact ⟨h1, by rintro a' h; cases h; exact h2, ⟨ends_nil h2, by simp⟩, by rw [e, h3]⟩
  · rintro ⟨h1, h2, -, h3⟩
    exact ⟨h1, h2 a rfl, by rw [h3, e]⟩

/-- A case of `C32_worked`: what follows the authority is neither a port nor a path, and its escape is not one. -/
theorem taken_space : TakenAs b!"http://a:8 %zz?" b!"http" (some ⟨none, b!"a", some b!"8"⟩) b!" %zz?" := by
  refine ⟨⟨_, _, rfl, by decide, by decide⟩, ?_, ⟨⟨fun _ => ⟨b!" %zz?", ⟨b!"a:8", rfl, Escaped.of_all (by decide), ?_⟩, ?_⟩, ?_, by simp⟩, ?_⟩, rfl⟩
  · rintro a' h
    cases h
    exact ⟨by simp, .inr (Escaped.of_all (by decide)), fun d h => by cases h; decide⟩
  · rintro c t e
    cases e; decide
  · intro t e; cases e
  · rintro - c t e
    cases e; decide
  · intro t e; cases e

example : Worked env0 (after [.set_encoded_url b!"s://h/p?q", .set_encoded_userinfo b!"v"]) ∧
    texts ((after [.set_encoded_url b!"s://h/p?q", .set_encoded_userinfo b!"v"]).obj true) = .ok ⟨b!"s:", b!"/", b!"/v@", b!"h", [], b!"/p", b!"?q", []⟩ ∧
    returns (run (.set_encoded_origin b!"http://a:8 %zz?") env0 (after [.set_encoded_url b!"s://h/p?q", .set_encoded_userinfo b!"v"])) = true ∧
    texts ((after [.set_encoded_url b!"s://h/p?q", .set_encoded_userinfo b!"v", .set_encoded_origin b!"http://a:8 %zz?"]).obj true) =
      .ok ⟨b!"http:", b!"//", [], b!"a", b!":8", b!" %zz?/p", b!"?q", []⟩ :=
  ⟨(after_used (by decide +kernel)).worked, by decide +kernel, by decide +kernel, by decide +kernel⟩

/-- Cases of `C32_exact`: an escape that is not complete is rejected where a host, a path or an address is read. -/
example : Rejects (.set_encoded_origin b!"a://h%") env0 sampleSt ∧ Rejects (.set_encoded_origin b!"a:/b%z") env0 sampleSt ∧
    Rejects (.set_encoded_origin b!"a://[::x]") env0 sampleSt ∧ ¬ Rejects (.set_encoded_origin b!"a:/%z") env0 sampleSt := by
  refine ⟨⟨_, rfl⟩, ⟨_, rfl⟩, ⟨_, rfl⟩, ?_⟩
  rintro ⟨st', h⟩
  cases h

/-! ### C71 -/

/-- The argument of a call is one it takes; an origin can be read as one. -/
def _root_.Url.Spec.Op.Accepts (op : Op) (x : Texts) : Prop :=
  op.Takes x ∧ ∀ s, op = .set_encoded_origin s → s = [] ∨ ∃ sch a r, TakenAs s sch a r

/-- C71: for every call, after any calls and edits: it does not reject an argument it accepts; and any other it rejects,
unless an assertion fails before that. -/
theorem C71_accepts {op : Op} {x : Texts} {dbg : Bool} (hw : Worked env st) (hx : texts (st.obj dbg) = .ok x) :
    (Rejects op env st → ¬ op.Accepts x) ∧
    (¬ op.Accepts x → Rejects op env st ∨ env.dbg = true ∧ ∃ f, run op env st = .fault f) := by
  by_cases hj : op.Judged
  · have : op.Accepts x ↔ op.Takes x := ⟨fun h => h.1, fun h => ⟨h, fun s e => .inl (hj s e)⟩⟩
    rw [this]
    exact ⟨(C71_rejects hw hx).1 hj, (C71_rejects hw hx).2⟩
  · obtain ⟨s, rfl, hs⟩ : ∃ s, op = .set_encoded_origin s ∧ s ≠ [] := by
      unfold Op.Judged at hj
      simpa using hj
    have key : Op.Accepts (.set_encoded_origin s) x ↔ ∃ sch a r, TakenAs s sch a r := by
      constructor
      · intro h
        exact (h.2 s rfl).resolve_left hs
      · intro h
        refine ⟨.inr ?_, fun s' e => by cases e; exact .inr h⟩
        obtain ⟨sch, a, p, r, k, h1, h2, h3, h4, -, hat⟩ := origin_sound ((origin_iff s).2 h)
        exact ⟨sch, _, h1, h4⟩
    rw [key, C32_exact hw]
    exact ⟨fun h => h.2, fun h => .inl ⟨hs, h⟩⟩

end Url.Props
