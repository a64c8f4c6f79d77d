import Verif.Proofs.Query

/-!
`parse_url` recognises exactly the dialect `lib` and records the offsets of the components.
-/

set_option linter.unusedSimpArgs false

namespace Url
open Spec

/-! ### texts of the parts -/

def schemeText : Option Str → Str
  | none => []
  | some s => s ++ b!":"

/-- the texts of the user, password, host and port parts -/
def authTexts : Option Auth → List Str
  | none => [[], [], [], []]
  | some a => authParts b!"//" a

/-- the texts of the eight parts -/
def compParts (c : Components) : List Str :=
  schemeText c.scheme :: authTexts c.auth ++ [c.path, queryText c.query, fragText c.fragment]

def hostText : Option Auth → Str
  | none => []
  | some a => a.host

theorem authTexts_length (a : Option Auth) : (authTexts a).length = 4 := by
  cases a with
  | none => rfl
  | some a => simp [authTexts, authParts, userParts_length]

theorem authTexts_flatten (a : Option Auth) :
    (authTexts a).flatten = match a with | none => [] | some a => b!"//" ++ a.render := by
  cases a with
  | none => rfl
  | some a =>
    simp only [authTexts, authParts, auth_render, List.flatten_append, userParts_flatten b!"//"]
    simp

theorem compParts_flatten (c : Components) : (compParts c).flatten = c.render := by
  obtain ⟨s, a, p, q, f⟩ := c
  simp only [compParts, Components.render, List.flatten_cons, List.flatten_append, authTexts_flatten]
  cases s <;> cases a <;> cases q <;> cases f <;>
    simp [schemeText, queryText, fragText]

theorem compParts_length (c : Components) : (compParts c).length = 8 := by
  simp [compParts, authTexts_length]

/-! ### hier-part and relative-part -/

/-- `parse_hier_part` and `parse_relative_part` differ only in the last alternative. -/
def parse_part (e : PctSet) (ps : PS) : PS :=
  match match_literal b!"//" ps.p with
  | some q =>
    let ps := parse_authority { ps with p := q }
    if ps.ec.isSome then ps else parse_path_abempty ps
  | none =>
    let ps := parse_path_absolute ps
    if ps.ec ≠ some .no_match then ps
    else
      let ps := parse_path_first e { ps with ec := none }
      if ps.ec ≠ some .no_match then ps else { ps with ec := none }

theorem hier_eq : parse_hier_part = parse_part pchar_pct_set := rfl
theorem relative_eq : parse_relative_part = parse_part pchar_nc_pct_set := rfl

/-- the path alternatives without authority -/
def PathNoAuth (ok : Byte → Bool) (follows : Bool) (p : Str) : Prop :=
  p = [] ∨ LoosePathAbsolute p follows ∨
    ∃ s t, s ≠ [] ∧ Escaped isUpperHex ok s ∧ Slashed isUpperHex t ∧ p = s ++ t

theorem literal_two {p q : Str} : match_literal b!"//" p = some q ↔ p = b!"//" ++ q := by
  unfold match_literal
  constructor
  · intro h
    split at h
    · simp at h
    · split at h
      · rename_i h2
        simp only [Option.some.injEq] at h
        have := List.take_append_drop (b!"//").length p
        rw [h2] at this
        rw [← h]
        exact this.symm
      · simp at h
  · rintro rfl
    simp

theorem literal_two_none {p : Str} (h : ∀ q, p ≠ b!"//" ++ q) : match_literal b!"//" p = none := by
  cases hl : match_literal b!"//" p with
  | none => rfl
  | some q => exact absurd (literal_two.1 hl) (h q)

/-- End of a URL's path: nothing, or a query or fragment. -/
def EndPath (r : Str) : Prop := r = [] ∨ ∃ c t, r = c :: t ∧ (c = c!"?" ∨ c = c!"#")

theorem EndPath.stop {r ok} (h : EndPath r) (h1 : ok c!"?" = false) (h2 : ok c!"#" = false) : Stop ok r := by
  rcases h with rfl | ⟨c, t, rfl, rfl | rfl⟩
  · trivial
  · exact ⟨by decide, h1⟩
  · exact ⟨by decide, h2⟩

theorem EndPath.ne {r} (h : EndPath r) (c : Byte) (h1 : c ≠ c!"?") (h2 : c ≠ c!"#") : ∀ t, r ≠ c :: t := by
  rintro t rfl
  rcases h with h | ⟨d, u, h, hd⟩
  · simp at h
  · simp at h; rw [← h.1] at hd; rcases hd with h | h
    · exact h1 h
    · exact h2 h

theorem slashed_endAuth {p r} (hp : Slashed isUpperHex p) (hr : EndPath r) : EndAuth (p ++ r) := by
  obtain ⟨segs, _, rfl⟩ := hp
  cases segs with
  | nil =>
    rcases hr with rfl | ⟨c, t, rfl, h⟩
    · exact .inl rfl
    · exact .inr ⟨c, t, rfl, .inr h⟩
  | cons s t => exact .inr ⟨c!"/", _, by simp; rfl, .inl rfl⟩

section
variable {e : PctSet} {ok : Byte → Bool} (he : SetOf e ok) (hsl : ok c!"/" = false)
include he hsl

omit he in
theorem ok_noslash {s : Str} (h : Escaped isUpperHex ok s) : s.all (· != c!"/") :=
  escaped_all (P := (· != c!"/")) (forall_byte (by decide +kernel))
    (fun c hc => by
      simp only [bne_iff_ne]; rintro rfl; simp [hsl] at hc) (by decide) h

theorem part_of_noauth {ps L p r np h} (hp : PathNoAuth ok (!r.isEmpty) p) (hr : EndPath r)
    (hq1 : ok c!"?" = false) (hq2 : ok c!"#" = false) (hL : L.length = 1)
    (a : At ps L [] (p ++ r) 0 np h) :
    At (parse_part e ps) (L ++ [[], [], [], [], p]) [] r (pathSegments p).length np h := by
  have b : At ps (L ++ [[], [], [], []]) [] (p ++ r) 0 np h := by simpa using a.skip.skip.skip.skip
  have hpe : PathEnd r := ⟨hr.stop (by decide) (by decide), hr.ne _ (by decide) (by decide)⟩
  have hL5 : (L ++ [[], [], [], ([] : Str)]).length = 5 := by simp [hL]
  rcases hp with rfl | hp | ⟨s, t, h0, hs, ht, rfl⟩
  · -- empty path
    have n1 : ∀ t, ps.p ≠ c!"/" :: t := by rw [a.p]; exact hpe.2
    have n2 : match_literal b!"//" ps.p = none := literal_two_none (fun q => n1 _)
    have he0 : ({ ps with ec := none } : PS) = ps := by have := a.ec; cases ps; simp_all
    have : parse_part e ps = ps := by
      unfold parse_part
      rw [n2]
      simp only [absolute_noMatch_eq n1, ne_eq, not_true_eq_false, if_false, he0]
      rw [first_noMatch_eq he a.ec (by rw [a.p]; exact hr.stop hq1 hq2)]
      simp [he0]
    rw [this]
    have := b.skip
    simpa [pathSegments] using this
  · -- absolute path
    have n2 : match_literal b!"//" ps.p = none := by
      apply literal_two_none
      intro q e'
      rw [a.p] at e'
      rcases hp with ⟨rfl, hr0⟩ | ⟨c, s, t, hc, _, _, rfl⟩
      · have : r = [] := by simpa using hr0
        subst this
        simp at e'
      · simp at e'; exact hc e'.1
    have d := absolute_of hp hpe hL5 b
    have : parse_part e ps = parse_path_absolute ps := by
      unfold parse_part
      rw [n2]
      simp [d.ec]
    rw [this]
    simpa using d
  · have hns := ok_noslash hsl hs
    have n1 : ∀ t, ps.p ≠ c!"/" :: t := by
      rw [a.p]
      intro u e'
      cases s with
      | nil => exact h0 rfl
      | cons c s =>
        simp at e' hns
        exact hns.1 e'.1
    have n2 : match_literal b!"//" ps.p = none := literal_two_none (fun q => n1 _)
    have he0 : ({ ps with ec := none } : PS) = ps := by have := a.ec; cases ps; simp_all
    have d := first_of he h0 hs hns hsl ht (fun _ => hpe.1) hpe.2 (fun _ => hr.stop hq1 hq2) hL5 b
    have : parse_part e ps = parse_path_first e ps := by
      unfold parse_part
      rw [n2]
      simp only [absolute_noMatch_eq n1, ne_eq, not_true_eq_false, if_false, he0]
      simp [d.ec]
    rw [this]
    simpa using d

omit hsl he in
theorem part_of_auth {ps L a p r np} (ha : a.Valid lib) (hp : Slashed isUpperHex p) (hr : EndPath r)
    (hL : L.length = 1) (st : At ps L [] (b!"//" ++ a.render ++ (p ++ r)) 0 np .none) :
    ∃ k, At (parse_part e ps) (L ++ authParts b!"//" a ++ [p]) [] r (pathSegments p).length np k ∧
      HostKind a.host k := by
  have hl : match_literal b!"//" ps.p = some (a.render ++ (p ++ r)) :=
    literal_two.2 (by rw [st.p]; simp)
  have b := (List.append_assoc b!"//" a.render (p ++ r) ▸ st).advance
  obtain ⟨k, c, hk⟩ := authority_of ha (slashed_endAuth hp hr) hL b
  refine ⟨k, ?_, hk⟩
  have d := abempty_of hp (fun _ => hr.stop (by decide) (by decide)) (hr.ne _ (by decide) (by decide))
    (by simp [hL, authParts, userParts_length]) c
  have : parse_part e ps = parse_path_abempty (parse_authority { ps with p := a.render ++ (p ++ r) }) := by
    unfold parse_part
    rw [hl]
    simp [c.ec]
  rw [this]
  simpa using d

theorem part_sound {ps L np} (hL : L.length = 1) (st : At ps L [] ps.p 0 np .none)
    (h : (parse_part e ps).ec = none) :
    ∃ a p r k, (∀ a', a = some a' → a'.Valid lib) ∧
      (if a.isSome then Slashed isUpperHex p else PathNoAuth ok (!r.isEmpty) p) ∧
      ps.p = (authTexts a).flatten ++ (p ++ r) ∧ HostKind (hostText a) k ∧
      At (parse_part e ps) (L ++ authTexts a ++ [p]) [] r (pathSegments p).length np k := by
  cases hl : match_literal b!"//" ps.p with
  | some q =>
    have hp := literal_two.1 hl
    have st' := st
    rw [hp] at st'
    have b := st'.advance
    have hA : parse_part e ps = (if (parse_authority { ps with p := q }).ec.isSome then
        parse_authority { ps with p := q } else parse_path_abempty (parse_authority { ps with p := q })) := by
      unfold parse_part
      rw [hl]
    have h1 : (parse_authority { ps with p := q }).ec = none := by
      cases he' : (parse_authority { ps with p := q }).ec with
      | none => rfl
      | some er => rw [hA] at h; simp [he'] at h
    rw [h1] at hA
    simp only [Option.isSome_none, Bool.false_eq_true, if_false] at hA
    obtain ⟨a, r, k, ha, e1, hk, hpe, c⟩ := authority_sound hL b h1
    simp only at e1
    rw [hA] at h ⊢
    obtain ⟨p, r', hp', e2, hr1, hr2⟩ := abempty_inv c.ec h
    rw [c.p] at e2
    have d := abempty_of hp' hr2 hr1 (by simp [hL, authParts, userParts_length]) (e2 ▸ c)
    refine ⟨some a, p, r', k, by rintro a' h; simp at h; subst h; exact ha, by simpa using hp', ?_, hk, ?_⟩
    · rw [hp, e1, e2, authTexts_flatten]; simp
    · simpa [authTexts] using d
  | none =>
    have b : At ps (L ++ [[], [], [], []]) [] ps.p 0 np .none := by simpa using st.skip.skip.skip.skip
    have hL5 : (L ++ [[], [], [], ([] : Str)]).length = 5 := by simp [hL]
    by_cases hn : (parse_path_absolute ps).ec = some .no_match
    · have n1 := (absolute_noMatch st.ec).1 hn
      have he0 : ({ ps with ec := none } : PS) = ps := by have := st.ec; cases ps; simp_all
      have hA : parse_part e ps = (if (parse_path_first e ps).ec ≠ some .no_match then parse_path_first e ps
          else { parse_path_first e ps with ec := none }) := by
        unfold parse_part
        rw [hl]
        simp only [absolute_noMatch_eq n1, ne_eq, not_true_eq_false, if_false, he0]
      by_cases hf : (parse_path_first e ps).ec = some .no_match
      · have hst := first_noMatch he st.ec hf
        have : parse_part e ps = ps := by
          rw [hA, first_noMatch_eq he st.ec hst]
          simp [he0]
        refine ⟨none, [], ps.p, .none, by simp, by simp [PathNoAuth], by simp [authTexts], .none, ?_⟩
        rw [this]
        have := b.skip
        simpa [pathSegments, authTexts] using this
      · have hA' : parse_part e ps = parse_path_first e ps := by rw [hA]; simp [hf]
        rw [hA'] at h ⊢
        obtain ⟨s, t, r, h0, hs, ht, e1, hr1, hr2, hr3⟩ := first_inv he st.ec h
        have d := first_of he h0 hs (ok_noslash hsl hs) hsl ht hr2 hr1 hr3 hL5 (e1 ▸ b)
        refine ⟨none, s ++ t, r, .none, by simp, ?_, ?_, .none, ?_⟩
        · simp only [Option.isSome_none, Bool.false_eq_true, if_false]
          exact .inr (.inr ⟨s, t, h0, hs, ht, rfl⟩)
        · rw [e1]; simp [authTexts]
        · simpa [authTexts] using d
    · have hA : parse_part e ps = parse_path_absolute ps := by
        unfold parse_part
        rw [hl]
        simp [hn]
      rw [hA] at h ⊢
      obtain ⟨p, r, hp, e1, hpe⟩ := absolute_inv st.ec h
      have d := absolute_of hp hpe hL5 (e1 ▸ b)
      refine ⟨none, p, r, .none, by simp, ?_, ?_, .none, ?_⟩
      · simp only [Option.isSome_none, Bool.false_eq_true, if_false]
        exact .inr (.inl hp)
      · rw [e1]; simp [authTexts]
      · simpa [authTexts] using d

end

/-! ### query and fragment -/

theorem fragText_ne {f : Option Str} {c : Byte} (h : c ≠ c!"#") : ∀ t, fragText f ≠ c :: t := by
  intro t e
  cases f with
  | none => simp [fragText] at e
  | some f => simp [fragText] at e; exact h e.1.symm

theorem fragText_stop (f : Option Str) : Stop isQueryFrag (fragText f) := by
  cases f with
  | none => trivial
  | some f => exact ⟨by decide, by decide⟩

theorem endPath_texts (q f : Option Str) : EndPath (queryText q ++ fragText f) := by
  cases q with
  | none =>
    cases f with
    | none => exact .inl rfl
    | some f => exact .inr ⟨c!"#", f, rfl, .inr rfl⟩
  | some q => exact .inr ⟨c!"?", _, rfl, .inl rfl⟩

theorem texts_empty (q f : Option Str) :
    (!(queryText q ++ fragText f).isEmpty) = (q.isSome || f.isSome) := by
  cases q <;> cases f <;> simp [queryText, fragText]

theorem tail_of {ps L q f ns h} (hq : ∀ s, q = some s → QChars s) (hf : ∀ s, f = some s → QChars s)
    (hL : L.length = 6) (a : At ps L [] (queryText q ++ fragText f) ns 0 h) :
    At (parse_url_tail ps) (L ++ [queryText q, fragText f]) [] [] ns (paramCount q) h := by
  have b := query_of (r := fragText f) hq (by
    cases q with
    | none => exact fragText_ne (by decide)
    | some q => exact fragText_stop f) hL a
  have c := fragment_of (L := L ++ [queryText q]) (f := f) (r := []) hf (by cases f <;> first | (intro t e; cases e) | trivial) (by simp [hL])
    (by simpa using b)
  refine (show At (parse_fragment (parse_query ps)) _ [] [] _ _ _ by simpa using c).congr ?_
  unfold parse_url_tail
  simp [b.ec, c.ec, PS.done, c.p]

theorem tail_sound {ps L ns h} (hL : L.length = 6) (a : At ps L [] ps.p ns 0 h)
    (hok : (parse_url_tail ps).ec = none) :
    ∃ q f, (∀ s, q = some s → QChars s) ∧ (∀ s, f = some s → QChars s) ∧
      ps.p = queryText q ++ fragText f := by
  unfold parse_url_tail at hok
  simp only at hok
  split at hok
  · rename_i h'; rw [hok] at h'; simp at h'
  · rename_i h1
    have h1 := Option.not_isSome_iff_eq_none.1 h1
    obtain ⟨q, r, hq, e1, hr⟩ := query_inv a.ec h1
    have b := query_of hq (by cases q <;> exact hr) hL (e1 ▸ a)
    split at hok
    · rename_i h'; rw [hok] at h'; simp at h'
    · rename_i h2
      have h2 := Option.not_isSome_iff_eq_none.1 h2
      obtain ⟨f, r', hf, e2, hr'⟩ := fragment_inv b.ec h2
      have c := fragment_of hf (by cases f <;> exact hr') (by simp [hL]) (e2 ▸ b.p.symm ▸ b)
      split at hok
      · rename_i hd
        rw [PS.done, c.p] at hd
        have : r' = [] := by simpa using hd
        subst this
        rw [b.p] at e2
        exact ⟨q, f, hq, hf, by rw [e1, e2]; simp⟩
      · simp at hok

theorem queryLoop_some (fuel : Nat) {ps : PS} {n : Nat} (h : ps.ec.isSome = true) :
    (queryLoop fuel ps n).ec.isSome = true := by
  cases fuel with
  | zero => exact h
  | succ f =>
    unfold queryLoop
    have := pct_some (e := qkey_pct_set) (q := ps.p) h
    simp [this]

theorem tail_some {ps : PS} (h : ps.ec.isSome = true) : (parse_url_tail ps).ec.isSome = true := by
  have : (parse_query ps).ec.isSome = true := by
    unfold parse_query
    split
    · exact h
    · split
      · exact h
      · exact queryLoop_some _ h
  unfold parse_url_tail
  simp [this]

/-! ### the scheme -/

theorem match_scheme_inv {p q : Str} (h : match_scheme p = (true, q)) :
    ∃ s, Scheme lib s ∧ p = s ++ q ∧ NotHead lib.schemeChar q := by
  unfold match_scheme at h
  split at h
  · simp at h
  · rename_i c t
    split at h
    · rename_i hc
      rw [is_alpha_eq] at hc
      simp only [Prod.mk.injEq, true_and] at h
      rw [skipSchemeChars_eq] at h
      obtain ⟨x, h1, h2, h3⟩ := dropWhile_inv lib.schemeChar t
      rw [h] at h1 h3
      exact ⟨c :: x, ⟨c, x, rfl, hc, h2⟩, by rw [h1]; rfl, h3⟩
    · simp at h

theorem match_scheme_of {s r : Str} (hs : Scheme lib s) (hr : NotHead lib.schemeChar r) :
    match_scheme (s ++ r) = (true, r) := by
  obtain ⟨a, t, rfl, ha, ht⟩ := hs
  simp only [List.cons_append, match_scheme, is_alpha_eq, ha, if_true, skipSchemeChars_eq]
  rw [dropWhile_of ht hr]

theorem colon_notScheme (r : Str) : NotHead lib.schemeChar (c!":" :: r) := by
  show lib.schemeChar 58 = false; decide

/-- the two outcomes of looking for a scheme -/
theorem parse_url_scheme {s r : Str} (hs : Scheme lib s) :
    parse_url (s ++ b!":" ++ r) =
      parse_url_tail (parse_hier_part (({ PS.init (s ++ b!":" ++ r) with p := r } : PS).mark id_scheme)) := by
  unfold parse_url
  have : match_scheme (PS.init (s ++ b!":" ++ r)).p = (true, c!":" :: r) := by
    have := match_scheme_of hs (colon_notScheme r)
    simpa [PS.init] using this
  simp only [this, literal_one_of]

theorem parse_url_noscheme {s : Str} (h : ¬ ∃ t r, Scheme lib t ∧ s = t ++ b!":" ++ r) :
    parse_url s = (if (parse_relative_part (PS.init s)).ec.isSome then parse_relative_part (PS.init s)
      else parse_url_tail (parse_relative_part (PS.init s))) := by
  unfold parse_url
  simp only
  cases hm : match_scheme (PS.init s).p with
  | mk b q =>
    cases b with
    | false => rfl
    | true =>
      obtain ⟨t, ht, e, _⟩ := match_scheme_inv hm
      cases hl : match_literal b!":" q with
      | none => simp only [hl]
      | some q' =>
        obtain rfl := literal_one_inv hl
        exact absurd ⟨t, q', ht, by simpa [PS.init] using e⟩ h

/-! ### the whole parser -/

theorem nc_facts : SetOf pchar_nc_pct_set isPcharNc ∧ isPcharNc c!"/" = false := ⟨setOf_pchar_nc, by decide⟩

/-- a relative reference does not start with a scheme and a colon -/
theorem no_scheme {c : Components} (hc : c.Valid lib) (hs : c.scheme = none) :
    ¬ ∃ t r, Scheme lib t ∧ c.render = t ++ b!":" ++ r := by
  rintro ⟨t, r, ⟨x, t, rfl, hx, ht⟩, e⟩
  obtain ⟨sch, au, p, q, f⟩ := c
  simp only at hs
  subst hs
  obtain ⟨_, _, hp, _, _⟩ := hc
  have hxne : ∀ d : Byte, isAlpha d = false → x ≠ d := by
    rintro d hd rfl; simp [hd] at hx
  have hend := endPath_texts q f
  have htexts : Components.render ⟨none, au, p, q, f⟩ =
      (authTexts au).flatten ++ (p ++ (queryText q ++ fragText f)) := by
    rw [← compParts_flatten]
    simp [compParts, schemeText]
  rw [htexts] at e
  cases au with
  | some a =>
    rw [authTexts_flatten] at e
    simp at e
    exact hxne _ (by decide) e.1.symm
  | none =>
    simp only [authTexts, List.flatten_cons, List.flatten_nil, List.nil_append] at e
    simp only [PathOk, Option.isSome_none, Bool.false_eq_true, if_false] at hp
    generalize queryText q ++ fragText f = w at e hend
    rcases hp with rfl | hp | ⟨s, u, h0, hs, hu, rfl⟩
    · rcases hend with rfl | ⟨c, w, rfl, rfl | rfl⟩
      · simp at e
      · simp at e; exact hxne _ (by decide) e.1.symm
      · simp at e; exact hxne _ (by decide) e.1.symm
    · rcases hp with ⟨rfl, _⟩ | ⟨c, s, u, _, _, _, rfl⟩
      · simp at e; exact hxne _ (by decide) e.1.symm
      · simp at e; exact hxne _ (by decide) e.1.symm
    · -- the scheme characters are a prefix of the first segment, which has no colon
      have hnh : NotHead lib.schemeChar (u ++ w) := by
        obtain ⟨segs, _, rfl⟩ := hu
        cases segs with
        | nil =>
          rcases hend with rfl | ⟨c, w, rfl, rfl | rfl⟩
          · trivial
          · show lib.schemeChar 63 = false; decide
          · show lib.schemeChar 35 = false; decide
        | cons s t => simp only [List.flatMap_cons, List.cons_append]; show lib.schemeChar 47 = false; decide
      have hall : (x :: t).all lib.schemeChar := by
        simp only [List.all_cons, Bool.and_eq_true]
        refine ⟨?_, ht⟩
        simp [lib, hx]
      rw [List.append_assoc, List.append_assoc] at e
      obtain ⟨s', rfl, e2⟩ := prefix_split hall hnh e
      have hnc : (x :: t ++ s').all (· != c!":") :=
        escaped_all (P := (· != c!":")) (forall_byte (by decide +kernel)) (forall_byte (by decide +kernel))
          (by decide) hs
      cases s' with
      | nil =>
        simp only [List.nil_append, List.cons_append] at e2
        -- the rest would start with a colon
        obtain ⟨segs, _, rfl⟩ := hu
        cases segs with
        | nil =>
          rcases hend with rfl | ⟨c, w, rfl, rfl | rfl⟩
          · simp at e2
          · simp at e2
          · simp at e2
        | cons s t => simp at e2
      | cons d s' =>
        simp only [List.cons_append, List.cons.injEq] at e2
        simp [e2.1] at hnc

/-- Completeness: a rendered valid tuple of components parses, with its own offsets. -/
theorem parse_url_complete {c : Components} (hc : c.Valid lib) :
    ∃ k, At (parse_url c.render) (compParts c) [] [] (pathSegments c.path).length (paramCount c.query) k ∧
      HostKind (hostText c.auth) k := by
  have hns := fun h => no_scheme hc h
  obtain ⟨hsch, hau, hpath, hqu, hfr⟩ := hc
  obtain ⟨sch, au, p, q, f⟩ := c
  simp only at hsch hau hpath hqu hfr ⊢
  have hend := endPath_texts q f
  have hemp := texts_empty q f
  have htexts : Components.render ⟨sch, au, p, q, f⟩ =
      schemeText sch ++ ((authTexts au).flatten ++ (p ++ (queryText q ++ fragText f))) := by
    rw [← compParts_flatten]
    simp [compParts]
  rw [htexts] at hns ⊢
  -- the part between the scheme and the query
  have main : ∀ (e : PctSet) (ok : Byte → Bool), SetOf e ok → ok c!"/" = false → ok c!"?" = false →
      ok c!"#" = false →
      (if au.isSome then Slashed isUpperHex p else PathNoAuth ok (q.isSome || f.isSome) p) →
      ∀ ps, At ps [schemeText sch] [] ((authTexts au).flatten ++ (p ++ (queryText q ++ fragText f))) 0 0 .none →
      ∃ k, At (parse_url_tail (parse_part e ps)) (compParts ⟨sch, au, p, q, f⟩) [] []
        (pathSegments p).length (paramCount q) k ∧ HostKind (hostText au) k ∧ (parse_part e ps).ec = none := by
    intro e ok he h1 h2 h3 hp ps st
    cases au with
    | none =>
      replace hp : PathNoAuth ok (q.isSome || f.isSome) p := hp
      rw [← hemp] at hp
      have b := part_of_noauth (L := [schemeText sch]) he h1 hp hend h2 h3 rfl (by simpa [authTexts] using st)
      have c := tail_of hqu hfr (by simp) b
      exact ⟨.none, by simpa [compParts, authTexts] using c, .none, b.ec⟩
    | some a =>
      simp only [Option.isSome_some, if_true] at hp
      rw [authTexts_flatten] at st
      obtain ⟨k, b, hk⟩ := part_of_auth (e := e) (hau a rfl) hp hend (by simp) st
      have c := tail_of hqu hfr (by simp [authParts, userParts_length]) b
      exact ⟨k, by simpa [compParts, authTexts] using c, hk, b.ec⟩
  cases sch with
  | some s =>
    have hs := hsch s rfl
    simp only [schemeText]
    rw [parse_url_scheme hs]
    have st : At (({ PS.init (s ++ b!":" ++ ((authTexts au).flatten ++ (p ++ (queryText q ++ fragText f)))) with
        p := (authTexts au).flatten ++ (p ++ (queryText q ++ fragText f)) } : PS).mark id_scheme)
        [schemeText (some s)] [] ((authTexts au).flatten ++ (p ++ (queryText q ++ fragText f))) 0 0 .none := by
      have := ((At.init (s ++ b!":" ++ ((authTexts au).flatten ++ (p ++ (queryText q ++ fragText f))))).advance
        (x := s ++ b!":")).mark (id := id_scheme) rfl
      simpa [schemeText] using this
    rw [hier_eq]
    obtain ⟨k, h1, h2, _⟩ := main _ _ setOf_pchar (by decide) (by decide) (by decide) (by
      cases au with
      | none => exact hpath
      | some a => exact hpath) _ st
    exact ⟨k, h1, h2⟩
  | none =>
    have hns := hns rfl
    simp only [schemeText, List.nil_append] at hns ⊢
    rw [parse_url_noscheme hns]
    have st := (At.init ((authTexts au).flatten ++ (p ++ (queryText q ++ fragText f)))).skip
    obtain ⟨k, h1, h2, h3⟩ := main _ _ setOf_pchar_nc (by decide) (by decide) (by decide) (by
      cases au with
      | none => exact hpath
      | some a => exact hpath) _ st
    rw [relative_eq, h3]
    exact ⟨k, h1, h2⟩

/-- Soundness: an accepted text is a rendered valid tuple of components. -/
theorem parse_url_sound {s : Str} (h : (parse_url s).ec = none) :
    ∃ c : Components, c.Valid lib ∧ c.render = s := by
  have main : ∀ (e : PctSet) (ok : Byte → Bool), SetOf e ok → ok c!"/" = false → ∀ (sch : Option Str) ps p,
      At ps [schemeText sch] [] p 0 0 .none → (parse_url_tail (parse_part e ps)).ec = none →
      ∃ au path q f, (∀ a, au = some a → a.Valid lib) ∧
        (if au.isSome then Slashed isUpperHex path else PathNoAuth ok (q.isSome || f.isSome) path) ∧
        (∀ s, q = some s → QChars s) ∧ (∀ s, f = some s → QChars s) ∧
        p = (authTexts au).flatten ++ (path ++ (queryText q ++ fragText f)) := by
    intro e ok he h1 sch ps p st hok
    have hpart : (parse_part e ps).ec = none := by
      cases hp : (parse_part e ps).ec with
      | none => rfl
      | some er =>
        have := tail_some (ps := parse_part e ps) (by simp [hp])
        rw [hok] at this; simp at this
    have hp := st.p
    obtain ⟨au, path, r, k, i1, i2, i3, i4, i5⟩ := part_sound he h1 (by simp) (hp.symm ▸ st) hpart
    obtain ⟨q, f, hq, hf, e2⟩ := tail_sound (by simp [authTexts_length]) (i5.p.symm ▸ i5) hok
    rw [i5.p] at e2
    subst e2
    rw [texts_empty] at i2
    exact ⟨au, path, q, f, i1, i2, hq, hf, by rw [← hp, i3]⟩
  by_cases hs : ∃ t r, Scheme lib t ∧ s = t ++ b!":" ++ r
  · obtain ⟨t, r, ht, rfl⟩ := hs
    rw [parse_url_scheme ht, hier_eq] at h
    have st : At (({ PS.init (t ++ b!":" ++ r) with p := r } : PS).mark id_scheme)
        [schemeText (some t)] [] r 0 0 .none := by
      have := ((At.init (t ++ b!":" ++ r)).advance (x := t ++ b!":")).mark (id := id_scheme) rfl
      simpa [schemeText] using this
    obtain ⟨au, path, q, f, i1, i2, i3, i4, rfl⟩ := main _ _ setOf_pchar (by decide) (some t) _ r st h
    refine ⟨⟨some t, au, path, q, f⟩, ⟨by rintro s h; simp at h; subst h; exact ht, i1, ?_, i3, i4⟩, ?_⟩
    · cases au with
      | none => exact i2
      | some a => exact i2
    · rw [← compParts_flatten]; simp [compParts, schemeText]
  · rw [parse_url_noscheme hs, relative_eq] at h
    have h1 : (parse_part pchar_nc_pct_set (PS.init s)).ec = none := by
      cases hp : (parse_part pchar_nc_pct_set (PS.init s)).ec with
      | none => rfl
      | some er => simp [hp] at h
    rw [h1] at h
    simp only [Option.isSome_none, Bool.false_eq_true, if_false] at h
    have st := (At.init s).skip
    obtain ⟨au, path, q, f, i1, i2, i3, i4, rfl⟩ := main _ _ setOf_pchar_nc (by decide) none _ s st h
    refine ⟨⟨none, au, path, q, f⟩, ⟨by simp, i1, ?_, i3, i4⟩, ?_⟩
    · cases au with
      | none => exact i2
      | some a => exact i2
    · rw [← compParts_flatten]; simp [compParts, schemeText]

theorem parse_url_iff (s : Str) : (parse_url s).ec = none ↔ UriReference lib s := by
  constructor
  · exact parse_url_sound
  · rintro ⟨c, hc, rfl⟩
    obtain ⟨k, h, _⟩ := parse_url_complete hc
    exact h.ec

end Url
