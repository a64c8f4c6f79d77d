import Verif.Proofs.UserinfoSetter

/-!
What `parse_origin` accepts, and what `set_encoded_origin` does with an argument that is not an origin.
-/

set_option linter.unusedSimpArgs false
attribute [-simp] List.length_flatten

namespace Url
open Spec

variable {env : Env} {st st' : St} {c : Components}

theorem mark_p (ps : PS) (id : Nat) : (ps.mark id).p = ps.p := by
  unfold PS.mark; split <;> rfl

theorem mark_ec (ps : PS) (id : Nat) : (ps.mark id).ec = ps.ec := by
  unfold PS.mark; split <;> rfl

/-- the path loop goes on as long as there are slashes -/
theorem pathLoop_head {e : PctSet} (fuel : Nat) {ps : PS} (hl : ps.p.length < fuel)
    (h : (pathLoop e fuel ps).ec = none) : ∀ t, (pathLoop e fuel ps).p ≠ c!"/" :: t := by
  induction fuel generalizing ps with
  | zero => omega
  | succ f ih =>
    unfold pathLoop at h ⊢
    split at h
    · rename_i hp; simp [hp]
    · rename_i a u hp
      split at h
      · rename_i ha
        simp only [bne_iff_ne, ne_eq] at ha
        simp only [bne_iff_ne, ne_eq, ha, not_false_eq_true, if_true, hp]
        rintro t ⟨⟩
        exact ha rfl
      · rename_i ha
        simp only at h
        rw [if_neg ha]
        have hlen := pct_length ps e u
        split at h
        · rename_i h'; rw [h] at h'; simp at h'
        · rename_i h'
          simp only
          rw [if_neg h']
          exact ih (by simp only [hp, List.length_cons] at hl; show (ps.pct e u).p.length < f; omega) h

theorem loopMark_head {ps : PS} (h : (pathLoopMark ps).ec = none) : ∀ t, (pathLoopMark ps).p ≠ c!"/" :: t := by
  unfold pathLoopMark at h ⊢
  simp only at h ⊢
  split at h
  · rename_i h'; rw [h] at h'; simp at h'
  · rename_i h'
    rw [if_neg h', mark_p]
    rw [mark_ec] at h
    exact pathLoop_head _ (by omega) h

theorem absolute_head {ps : PS} (h : (parse_path_absolute ps).ec = none) : ∀ t, (parse_path_absolute ps).p ≠ c!"/" :: t := by
  unfold parse_path_absolute at h ⊢
  split at h
  · simp at h
  · rename_i a u hp
    split at h
    · simp at h
    · rename_i ha
      simp only at h
      simp only [ha, Bool.false_eq_true, if_false]
      split at h
      · simp [mark_p]
      · rename_i d u'
        split at h
        · simp at h
        · rename_i hd
          rw [if_neg hd]
          split at h
          · rename_i h'; rw [h] at h'; simp at h'
          · rename_i h'
            rw [if_neg h']
            exact loopMark_head h

theorem first_head {e : PctSet} {ps : PS} (h : (parse_path_first e ps).ec = none) : ∀ t, (parse_path_first e ps).p ≠ c!"/" :: t := by
  unfold parse_path_first at h ⊢
  simp only at h ⊢
  split at h
  · rename_i h'; rw [h] at h'; simp at h'
  · rename_i h'
    rw [if_neg h']
    split at h
    · simp at h
    · rename_i h2
      rw [if_neg h2]
      exact loopMark_head h

theorem part_head {ps : PS} (h : (parse_part pchar_pct_set ps).ec = none) (hec : ps.ec = none) :
    ∀ t, (parse_part pchar_pct_set ps).p ≠ c!"/" :: t := by
  by_cases hl : ∃ q, match_literal b!"//" ps.p = some q
  · obtain ⟨q, hl⟩ := hl
    unfold parse_part at h ⊢
    rw [hl] at h ⊢
    simp only at h ⊢
    split at h
    · rename_i h'; rw [h] at h'; simp at h'
    · rename_i h'
      rw [if_neg h']
      exact loopMark_head h
  · have hl : match_literal b!"//" ps.p = none := by
      cases h : match_literal b!"//" ps.p <;> simp_all
    unfold parse_part at h ⊢
    rw [hl] at h ⊢
    simp only at h ⊢
    by_cases h1 : (parse_path_absolute ps).ec = some .no_match
    · have hne := (absolute_noMatch hec).1 h1
      rw [if_neg (by simpa using h1)] at h ⊢
      split at h
      · rename_i h2
        rw [if_pos h2]
        exact first_head h
      · rename_i h2
        rw [if_neg h2]
        simp only [absolute_noMatch_eq hne] at h2 ⊢
        have h2 : (parse_path_first pchar_pct_set { ps with ec := none }).ec = some .no_match := by simpa using h2
        have := first_noMatch setOf_pchar (ps := { ps with ec := none }) rfl h2
        rw [first_noMatch_eq setOf_pchar (ps := { ps with ec := none }) rfl this]
        exact hne
    · rw [if_pos h1] at h ⊢
      exact absolute_head h

theorem domain_ne_noMatch {ps : PS} (hec : ps.ec = none) : (parse_ipv4_or_domain ps).ec ≠ some .no_match := by
  unfold parse_ipv4_or_domain
  simp only
  split
  · split
    · exact pct_ne_noMatch hec
    · split <;> exact pct_ne_noMatch hec
  · split
    · exact pct_ne_noMatch hec
    · split <;> exact pct_ne_noMatch hec

theorem hostname_ne_noMatch {ps : PS} : (parse_hostname ps).ec ≠ some .no_match := by
  unfold parse_hostname
  simp only
  split
  · split
    · assumption
    · split
      · exact domain_ne_noMatch rfl
      · rw [mark_ec]; exact domain_ne_noMatch rfl
  · rename_i h
    rw [mark_ec]
    intro h'
    rw [h'] at h
    simp at h

theorem host_ne_noMatch {ps : PS} : (parse_host ps).ec ≠ some .no_match := by
  unfold parse_host
  simp only
  have := hostname_ne_noMatch (ps := ps)
  split
  · exact this
  · split
    · exact this
    · split
      · exact this
      · rw [mark_ec]; exact this

theorem authority_ne_noMatch {ps : PS} : (parse_authority ps).ec ≠ some .no_match := by
  unfold parse_authority
  simp only
  split
  · exact host_ne_noMatch
  · rename_i h1
    split
    · exact h1
    · split <;> exact host_ne_noMatch

theorem part_ne_noMatch {e : PctSet} {ps : PS} : (parse_part e ps).ec ≠ some .no_match := by
  unfold parse_part
  split
  · simp only
    split
    · exact authority_ne_noMatch
    · rename_i h
      exact loopMark_ne_noMatch (Option.not_isSome_iff_eq_none.1 h)
  · simp only
    split
    · assumption
    · split
      · assumption
      · simp

theorem pct_keep {ps : PS} {e : PctSet} {q : Str} (h : ps.ec.isSome = true) (hn : ps.ec ≠ some .no_match) :
    (ps.pct e q).ec.isSome = true ∧ (ps.pct e q).ec ≠ some .no_match :=
  ⟨pct_some h, by unfold PS.pct; exact (pct_parse_suffix q ps.ec hn).2⟩

/-- an error is not forgotten by `parse_authority` -/
theorem authority_keep {ps : PS} (h : ps.ec.isSome = true) (hn : ps.ec ≠ some .no_match) :
    (parse_authority ps).ec.isSome = true := by
  have hu : parse_userinfo ps = ps.pct userinfo_nc_pct_set ps.p := by
    unfold parse_userinfo
    simp only [(pct_keep (e := userinfo_nc_pct_set) (q := ps.p) h hn).1, if_true]
  have hk := pct_keep (e := userinfo_nc_pct_set) (q := ps.p) h hn
  unfold parse_authority
  simp only [hu]
  rw [if_neg hk.2, if_pos hk.1]
  exact hk.1

/-- `parse_origin` accepts a scheme, a colon and a hier-part, and whatever follows. -/
theorem origin_sound {s : Str} (h : (parse_origin s).ec = none) :
    ∃ sch a p r k, Scheme lib sch ∧ (∀ a', a = some a' → a'.Valid lib) ∧
      (if a.isSome then Slashed isUpperHex p else PathNoAuth isPchar (!r.isEmpty) p) ∧
      s = sch ++ b!":" ++ ((authTexts a).flatten ++ (p ++ r)) ∧ HostKind (hostText a) k ∧
      At (parse_origin s) ([sch ++ b!":"] ++ authTexts a ++ [p]) [] r (pathSegments p).length 0 k := by
  cases hm : match_scheme (PS.init s).p with
  | mk b q =>
  cases b with
  | false => unfold parse_origin at h; simp [hm] at h
  | true =>
    cases hl : match_literal b!":" q with
    | none => unfold parse_origin at h; simp [hm, hl] at h
    | some q' =>
      obtain ⟨sch, hs, e, -⟩ := match_scheme_inv hm
      have hq := literal_one_inv hl
      have hs' : s = sch ++ b!":" ++ q' := by rw [show s = sch ++ q from e, hq]; simp
      have st : At (({ PS.init s with p := q' } : PS).mark id_scheme) [sch ++ b!":"] [] q' 0 0 .none := by
        have := ((At.init (sch ++ b!":" ++ q')).advance (x := sch ++ b!":")).mark (id := id_scheme) rfl
        rw [hs']
        simpa [schemeText] using this
      generalize hps : ({ PS.init s with p := q' } : PS).mark id_scheme = ps at st
      have key : parse_origin s = parse_part pchar_pct_set ps ∧ (parse_part pchar_pct_set ps).ec = none := by
        have ho : parse_origin s = (match match_literal b!"//" (parse_part pchar_pct_set ps).p with
            | none => parse_part pchar_pct_set ps
            | some q =>
              let ps := parse_authority { parse_part pchar_pct_set ps with p := q }
              if ps.ec.isSome then ps
              else
                let ps := { ps with pt := ps.pt.resize id_user (ps.pt.length id_user + 1) }
                if ps.done then ps else { ps with ec := some .syntax }) := by
          rw [← hps]
          unfold parse_origin
          simp only [hm, hl]
          rfl
        by_cases hp : (parse_part pchar_pct_set ps).ec = none
        · have hh := part_head hp st.ec
          have : match_literal b!"//" (parse_part pchar_pct_set ps).p = none := by
            cases hx : match_literal b!"//" (parse_part pchar_pct_set ps).p with
            | none => rfl
            | some x => exact absurd (literal_two.1 hx) (hh _)
          rw [this] at ho
          exact ⟨ho, hp⟩
        · exfalso
          rw [ho] at h
          split at h
          · exact hp h
          · rename_i x _
            have := authority_keep (ps := { parse_part pchar_pct_set ps with p := x })
              (by simpa [Option.isSome_iff_ne_none] using hp) part_ne_noMatch
            simp only [this, if_true] at h
            rw [h] at this
            simp at this
      have hp := st.p
      obtain ⟨a, p, r, k, i1, i2, i3, i4, i5⟩ := part_sound setOf_pchar (by decide) (by simp) (hp.symm ▸ st) key.2
      rw [hp] at i3
      refine ⟨sch, a, p, r, k, hs, i1, i2, by rw [hs', i3], i4, ?_⟩
      rw [key.1]
      exact i5

theorem authTexts_four (a : Option Auth) : ∃ x w h p, authTexts a = [x, w, h, p] := by
  have := authTexts_length a
  match ht : authTexts a with
  | [x, w, h, p] => exact ⟨x, w, h, p, rfl⟩
  | [] | [_] | [_, _] | [_, _, _] | _ :: _ :: _ :: _ :: _ :: _ => simp [ht] at this

/-- what `set_encoded_origin` does with an argument `parse_origin` accepts -/
theorem origin_step {s sch p r : Str} {a : Option Auth} {k n m} {S X W H P pa t} {R : List (List Cell)} {G : Out Unit → Prop}
    (hne : s ≠ []) (b : At (parse_origin s) ([sch ++ b!":"] ++ authTexts a ++ [p]) [] r n 0 k)
    (hs : s = sch ++ b!":" ++ ((authTexts a).flatten ++ (p ++ r)))
    (h : Holds env st (S :: X :: W :: H :: P :: pa :: R) t) (hm : s.length + (pa :: R).flatten.length = m)
    (hok : Stores env st m → ∀ st' t', Prog env st m ((sch ++ b!":").map some :: ((authTexts a).map (·.map some) ++
      ((p ++ r).map some ++ pa) :: R)) st' t' → G (.ret () st'))
    (hthrow : ¬ Stores env st m → ∀ e st', e = .bad_alloc ∨ e = .too_large → Same st st' → G (.throw e st')) :
    G (Base.set_encoded_origin s env st) := by
  unfold Base.set_encoded_origin
  have he : s.isEmpty = false := by simpa using hne
  simp only [he, Bool.false_eq_true, if_false]
  have hp : Base.parsed (parse_origin s) env st = .ret (parse_origin s).pt st := by
    simp [Base.parsed, b.flt, b.ec]
  rw [run_bind_ret hp]
  have hlen : ∀ id, (parse_origin s).pt.length id = (([sch ++ b!":"] ++ authTexts a ++ [p]).getD id []).length := b.rep.length
  simp only [hlen]
  obtain ⟨x, w, hst, pt, e⟩ := authTexts_four a
  rw [e] at hs hok ⊢
  simp only [id_scheme, id_user, id_password, id_host, id_port, List.cons_append, List.nil_append, List.getD_cons_succ, List.getD_cons_zero]
  have hs : s = (sch ++ b!":") ++ (x ++ (w ++ (hst ++ (pt ++ (p ++ r))))) := by rw [hs]; simp
  refine resize2_step (A := []) (Xs := [S, X, W, H, P]) (k := 4) h rfl rfl rfl (m := m) (by simpa using hm) ?_ hthrow
  intro hsto X' st' t' hl _ hp
  refine put_mid (A := []) [] X' [] hp (by simp) (by simp) hl rfl fun st1 h1 => ?_
  rw [hs] at h1
  refine split_step (A := []) (x := (sch ++ b!":").map some) (y := (x ++ (w ++ (hst ++ (pt ++ (p ++ r))))).map some) (z := [])
    (by simpa using h1) rfl (by decide) (by simp) fun st2 h2 => ?_
  refine split_step (A := [_]) (x := x.map some) (y := (w ++ (hst ++ (pt ++ (p ++ r)))).map some) (z := [])
    (by simpa using h2) rfl (by decide) (by simp) fun st3 h3 => ?_
  refine split_step (A := [_, _]) (x := w.map some) (y := (hst ++ (pt ++ (p ++ r))).map some) (z := [])
    (by simpa using h3) rfl (by decide) (by simp) fun st4 h4 => ?_
  refine split_step (A := [_, _, _]) (x := hst.map some) (y := (pt ++ (p ++ r)).map some) (z := [])
    (by simpa using h4) rfl (by decide) (by simp) fun st5 h5 => ?_
  refine last_step (split_step (A := [_, _, _, _]) (x := pt.map some) (y := (p ++ r).map some) (z := pa)
    (by simpa using h5) rfl (by decide) (by simp) fun st6 h6 => ?_)
  exact hok hsto _ _ (by simpa using h6)

/-- The text behind the origin ends up in front of the path. -/
theorem base_set_origin_any {s : Str} (h : Rep env st c) (hne : s ≠ []) (ho : (parse_origin s).ec = none) :
    ∃ sch a rest, Scheme lib sch ∧ (∀ a', a = some a' → a'.Valid lib) ∧ s = sch ++ b!":" ++ ((authTexts a).flatten ++ rest) ∧
      SetsTo env st { c with scheme := some sch, auth := a, path := rest ++ c.path } st.pt.host
        (Base.set_encoded_origin s env st) := by
  obtain ⟨sch, a, p, r, k, hsc, ha, -, hs, -, b⟩ := origin_sound ho
  refine ⟨sch, a, p ++ r, hsc, ha, hs, ?_⟩
  obtain ⟨t, h⟩ := h
  obtain ⟨X, W, e, -, -⟩ := cells_auth c
  rw [e] at h
  have hc : cells { c with scheme := some sch, auth := a, path := p ++ r ++ c.path } = (sch ++ b!":").map some ::
      ((authTexts a).map (·.map some) ++ ((p ++ r).map some ++ c.path.map some) ::
        [(queryText c.query).map some, (fragText c.fragment).map some]) := by
    simp [cells_eq, schemeText]
  refine origin_step hne b hs h (m := (Components.render { c with scheme := some sch, auth := a, path := p ++ r ++ c.path }).length) ?_ ?_ SetsTo.thrown
  · rw [← cells_length, hc, hs]
    obtain ⟨x, w, hst, pt, e⟩ := authTexts_four a
    simp [e]; omega
  · intro hsto st' t' h'
    exact h'.done hc.symm hsto

end Url
