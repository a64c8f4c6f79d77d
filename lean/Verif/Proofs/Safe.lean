import Verif.Proofs.ParseUrl

/-!
The parser never faults and its pointer stays inside the input, for every input.
-/

set_option linter.unusedSimpArgs false

namespace Url
open Spec

/-- No fault so far, and the pointer is inside the input `s`. -/
structure Good (s : Str) (ps : PS) : Prop where
  flt : ps.flt = none
  inp : ps.inp = s
  suf : ps.p <:+ s

theorem Good.init (s : Str) : Good s (PS.init s) := ⟨rfl, rfl, List.suffix_refl _⟩

theorem Good.set {s ps} (g : Good s ps) {ps' : PS} (h1 : ps'.flt = ps.flt) (h2 : ps'.inp = ps.inp) (h3 : ps'.p <:+ s) :
    Good s ps' := ⟨h1.trans g.flt, h2.trans g.inp, h3⟩

theorem Good.pct {s ps} (g : Good s ps) (e : PctSet) {q : Str} (hq : q <:+ s) : Good s (ps.pct e q) := by
  refine g.set rfl rfl ?_
  obtain ⟨x, hx⟩ := pct_suffix e q ps.ec
  exact List.IsSuffix.trans ⟨x, hx.symm⟩ hq

theorem Good.mark {s ps} (g : Good s ps) (id : Nat) : Good s (ps.mark id) := by
  obtain ⟨h1, h2, h3, h4, _⟩ := mark_rest ps id
  exact g.set (by rw [h4]) (by rw [h1]) (by rw [h2]; exact g.suf)

theorem suf_tail {s t : Str} {c : Byte} (h : c :: t <:+ s) : t <:+ s :=
  (List.suffix_cons c t).trans h

theorem octet_suf (p : Str) : (match_octet p).2 <:+ p := by
  obtain ⟨x, h, _⟩ := octet_suffix p
  exact ⟨x, h.symm⟩

theorem v4_suf (p : Str) : (match_ip_v4 p).2 <:+ p := by
  obtain ⟨x, h, _⟩ := v4_suffix p
  exact ⟨x, h.symm⟩

theorem word_suf (c : Byte) (t : Str) : (parse_word c t).2 <:+ c :: t := by
  unfold parse_word
  split
  · exact List.suffix_refl _
  · obtain ⟨y, h, _⟩ := wordLoop_inv 3 t (hex_digit c)
    exact List.IsSuffix.trans ⟨y, h.symm⟩ (List.suffix_cons c t)

theorem v6Tail_suf (p : Str) : (v6Tail p).p <:+ p := by
  unfold v6Tail
  have h1 := octet_suf p
  split
  · rename_i e; rw [e] at h1; exact h1
  · rename_i e; rw [e] at h1; exact h1
  · rename_i c t e
    rw [e] at h1
    split
    · exact h1
    · have h2 := (octet_suf t).trans (suf_tail h1)
      split
      · rename_i e; rw [e] at h2; exact h2
      · rename_i e; rw [e] at h2; exact h2
      · rename_i c t e
        rw [e] at h2
        split
        · exact h2
        · have h3 := (octet_suf t).trans (suf_tail h2)
          split
          · rename_i e; rw [e] at h3; exact h3
          · rename_i e; rw [e] at h3; exact h3

theorem v6Loop_suf (f : Nat) (p : Str) (n w : Nat) (b c : Bool) : (v6Loop f p n b c w).p <:+ p := by
  induction f generalizing p n b c w with
  | zero => exact List.suffix_refl _
  | succ f ih =>
    unfold v6Loop
    split
    · split
      · exact List.suffix_refl _
      · split <;> exact List.suffix_refl _
    · rename_i x t
      split
      · split
        · exact List.nil_suffix
        · rename_i y u
          have s1 : y :: u <:+ x :: y :: u := List.suffix_cons _ _
          have s2 : u <:+ x :: y :: u := suf_tail s1
          split
          · split
            · exact s1
            · split
              · exact s2
              · exact (ih u _ _ _ _).trans s2
          · split
            · have hw := (word_suf y u).trans s1
              split
              · rename_i e; rw [e] at hw; exact hw
              · rename_i e
                rw [e] at hw
                split
                · exact hw
                · exact (ih _ _ _ _ _).trans hw
            · exact s1
      · split
        · split
          · exact List.suffix_refl _
          · split
            · exact List.suffix_refl _
            · exact (v6Tail_suf t).trans (List.suffix_cons _ _)
        · split
          · exact List.suffix_refl _
          · split
            · have hw := word_suf x t
              split
              · rename_i e; rw [e] at hw; exact hw
              · rename_i e
                rw [e] at hw
                split
                · exact hw
                · exact (ih _ _ _ _ _).trans hw
            · exact List.suffix_refl _

theorem v6_suf (p : Str) : (parse_ip_v6 p).p <:+ p := by
  unfold parse_ip_v6
  split
  · exact List.suffix_refl _
  · exact v6Loop_suf _ _ _ _ _ _

theorem literal_suf {lit p q : Str} (h : match_literal lit p = some q) : q <:+ p := by
  unfold match_literal at h
  split at h
  · simp at h
  · split at h
    · simp only [Option.some.injEq] at h
      rw [← h]; exact List.drop_suffix _ _
    · simp at h

theorem skipDigits_suf (p : Str) : skipDigits p <:+ p := by
  rw [skipDigits_eq]; exact List.dropWhile_suffix _

theorem skipScheme_suf (p : Str) : skipSchemeChars p <:+ p := by
  rw [skipSchemeChars_eq]; exact List.dropWhile_suffix _

theorem match_scheme_suf (p : Str) : (match_scheme p).2 <:+ p := by
  unfold match_scheme
  split
  · exact List.suffix_refl _
  · split
    · exact (skipScheme_suf _).trans (List.suffix_cons _ _)
    · exact List.suffix_refl _

section
variable {s : Str} {ps : PS} (g : Good s ps)
include g

theorem Good.ec (e : Option Err) : Good s { ps with ec := e } := g.set rfl rfl g.suf

theorem good_lit_close : Good s (if ps.ec.isSome then ps
    else match ps.p with
      | [] => { ps with ec := some .syntax }
      | d :: u =>
        if d != c!"]" then { ps with ec := some .syntax }
        else { ps with p := u, pt := { ps.pt with host := .ipv6 } }) := by
  have hs := g.suf
  split
  · exact g
  · split
    · exact g.ec _
    · rename_i d u hq
      rw [hq] at hs
      split
      · exact g.ec _
      · exact g.set rfl rfl (suf_tail hs)

theorem good_ip_literal : Good s (parse_ip_literal ps) := by
  have hs := g.suf
  unfold parse_ip_literal
  split
  · exact g.ec _
  · rename_i c t hp
    rw [hp] at hs
    split
    · exact g.ec _
    · have h6 := (v6_suf t).trans (suf_tail hs)
      have hf : (ps.flt <|> (parse_ip_v6 t).flt) = none := by rw [g.flt, v6_flt]; rfl
      exact good_lit_close ⟨hf, g.inp, h6⟩

theorem good_ipv4_or_domain : Good s (parse_ipv4_or_domain ps) := by
  have hs := (v4_suf ps.p).trans g.suf
  unfold parse_ipv4_or_domain
  simp only
  split
  · rename_i p1 e
    rw [e] at hs
    have g1 : Good s { ps with p := p1, pt := { ps.pt with host := .ipv4 } } := g.set rfl rfl hs
    have g2 := g1.pct reg_name_pct_set hs
    split
    · exact g2
    · split
      · exact g2.set rfl rfl g2.suf
      · exact g2
  · rename_i p1 e
    rw [e] at hs
    have g1 : Good s { ps with p := p1 } := g.set rfl rfl hs
    have g2 := g1.pct reg_name_pct_set hs
    split
    · exact g2
    · split
      · exact g2.set rfl rfl g2.suf
      · exact g2

theorem good_hostname : Good s (parse_hostname ps) := by
  have g1 := good_ip_literal g
  unfold parse_hostname
  simp only
  split
  · split
    · exact g1
    · have g2 := good_ipv4_or_domain (g1.ec none)
      split
      · exact g2
      · exact g2.mark _
  · exact g1.mark _

theorem good_host : Good s (parse_host ps) := by
  have g1 := good_hostname g
  have hs := g1.suf
  unfold parse_host
  simp only
  split
  · exact g1
  · split
    · exact g1
    · rename_i c t hp
      rw [hp] at hs
      split
      · exact g1
      · refine Good.mark ?_ _
        exact g1.set rfl rfl ((skipDigits_suf t).trans (suf_tail hs))

theorem good_userinfo : Good s (parse_userinfo ps) := by
  have g1 := g.pct userinfo_nc_pct_set g.suf
  unfold parse_userinfo
  simp only
  split
  · exact g1
  · have g2 := g1.mark id_user
    have g3 := g2.pct userinfo_pct_set g2.suf
    split
    · exact g3
    · exact g3.mark _

theorem good_authority : Good s (parse_authority ps) := by
  have g1 := good_userinfo g
  unfold parse_authority
  simp only
  split
  · exact good_host (g1.ec none)
  · split
    · exact g1
    · split
      · rename_i q hq
        refine good_host (Good.mark ?_ _)
        exact g1.set rfl rfl ((literal_suf hq).trans g1.suf)
      · refine good_host (Good.mark (Good.mark ?_ _) _)
        exact g1.set rfl rfl g.suf

omit g in
theorem pathLoop_suf (e : PctSet) (fuel : Nat) {ps : PS} (hs : ps.p <:+ s) :
    (pathLoop e fuel ps).p <:+ s ∧ (pathLoop e fuel ps).inp = ps.inp := by
  induction fuel generalizing ps with
  | zero => exact ⟨hs, rfl⟩
  | succ f ih =>
    unfold pathLoop
    split
    · exact ⟨hs, rfl⟩
    · rename_i c t hp
      rw [hp] at hs
      split
      · exact ⟨by rw [hp]; exact hs, rfl⟩
      · obtain ⟨x, hx⟩ := pct_suffix e t ps.ec
        have h2 : (ps.pct e t).p <:+ s := List.IsSuffix.trans ⟨x, hx.symm⟩ (suf_tail hs)
        simp only
        split
        · exact ⟨h2, rfl⟩
        · exact ih h2

theorem good_loopMark : Good s (pathLoopMark ps) := by
  have hs := pathLoop_suf (s := s) pchar_pct_set (ps.p.length + 1) g.suf
  have g1 : Good s (pathLoop pchar_pct_set (ps.p.length + 1) ps) :=
    ⟨pathLoop_flt _ _ g.flt (by omega), hs.2.trans g.inp, hs.1⟩
  unfold pathLoopMark
  simp only
  split
  · exact g1
  · exact g1.mark _

theorem good_abempty : Good s (parse_path_abempty ps) := good_loopMark g

theorem good_absolute : Good s (parse_path_absolute ps) := by
  have hs := g.suf
  unfold parse_path_absolute
  split
  · exact g.ec _
  · rename_i c t hp
    rw [hp] at hs
    split
    · exact g.ec _
    · have g1 : Good s { ps with pt := { ps.pt with nseg := ps.pt.nseg + 1 }, p := t } := g.set rfl rfl (suf_tail hs)
      simp only
      split
      · exact g1.mark _
      · rename_i d u
        split
        · exact g1.ec _
        · have g2 := g1.pct pchar_pct_set (suf_tail (suf_tail hs))
          split
          · exact g2
          · exact good_loopMark g2

theorem good_first (e : PctSet) : Good s (parse_path_first e ps) := by
  have g1 := g.pct e g.suf
  unfold parse_path_first
  simp only
  split
  · exact g1
  · split
    · exact g1.ec _
    · exact good_loopMark (g1.set rfl rfl g1.suf)

theorem good_part (e : PctSet) : Good s (parse_part e ps) := by
  unfold parse_part
  split
  · rename_i q hq
    have g1 : Good s (parse_authority { ps with p := q }) :=
      good_authority (g.set rfl rfl ((literal_suf hq).trans g.suf))
    simp only
    split
    · exact g1
    · exact good_abempty g1
  · have g1 := good_absolute g
    simp only
    split
    · exact g1
    · have g2 := good_first (g1.ec none) e
      split
      · exact g2
      · exact g2.ec _

omit g in
theorem queryLoop_suf (fuel : Nat) {ps : PS} {n : Nat} (hs : ps.p <:+ s) :
    (queryLoop fuel ps n).p <:+ s ∧ (queryLoop fuel ps n).inp = ps.inp := by
  induction fuel generalizing ps n with
  | zero => exact ⟨hs, rfl⟩
  | succ f ih =>
    unfold queryLoop
    obtain ⟨x, hx⟩ := pct_suffix qkey_pct_set ps.p ps.ec
    have h1 : (ps.pct qkey_pct_set ps.p).p <:+ s := List.IsSuffix.trans ⟨x, hx.symm⟩ hs
    simp only
    split
    · exact ⟨h1, rfl⟩
    · split
      · exact ⟨by simpa [(mark_rest _ _).2.1] using h1, by simp [(mark_rest _ _).1]; rfl⟩
      · rename_i c t hp
        rw [hp] at h1
        split
        · exact ⟨by simpa [(mark_rest _ _).2.1, hp] using h1, by simp [(mark_rest _ _).1]; rfl⟩
        · have h2 := suf_tail h1
          split
          · exact ⟨by simp [(mark_rest _ _).2.1], by simp [(mark_rest _ _).1]; rfl⟩
          · rename_i c2 t2
            obtain ⟨x, hx⟩ := pct_suffix qval_pct_set (c2 :: t2) ((ps.pct qkey_pct_set ps.p).ec)
            have h3 : (({ ps.pct qkey_pct_set ps.p with p := c2 :: t2 } : PS).pct qval_pct_set (c2 :: t2)).p <:+ s :=
              List.IsSuffix.trans ⟨x, hx.symm⟩ h2
            split
            · exact ⟨h3, rfl⟩
            · split
              · exact ⟨by simpa [(mark_rest _ _).2.1] using h3, by simp [(mark_rest _ _).1]; rfl⟩
              · rename_i d u hq
                rw [hq] at h3
                split
                · exact ⟨by simpa [(mark_rest _ _).2.1, hq] using h3, by simp [(mark_rest _ _).1]; rfl⟩
                · exact ih (ps := { (({ ps.pct qkey_pct_set ps.p with p := c2 :: t2 } : PS).pct qval_pct_set
                    (c2 :: t2)) with p := u }) (suf_tail h3)

theorem good_query : Good s (parse_query ps) := by
  unfold parse_query
  split
  · exact g
  · split
    · exact g
    · have hs := queryLoop_suf (s := s) (ps.p.length + 1) (n := 0) g.suf
      exact ⟨queryLoop_flt _ g.flt (by omega), hs.2.trans g.inp, hs.1⟩

theorem good_fragment : Good s (parse_fragment ps) := by
  have hs := g.suf
  unfold parse_fragment
  split
  · exact g
  · rename_i c t hp
    rw [hp] at hs
    split
    · exact g
    · have g1 := g.pct frag_pct_set (suf_tail hs)
      simp only
      split
      · exact g1
      · exact g1.mark _

theorem good_tail : Good s (parse_url_tail ps) := by
  have g1 := good_query g
  unfold parse_url_tail
  simp only
  split
  · exact g1
  · have g2 := good_fragment g1
    split
    · exact g2
    · split
      · exact g2
      · exact g2.ec _

end

theorem good_ite {s : Str} {c : Prop} [Decidable c] {a b : PS} (ha : Good s a) (hb : Good s b) :
    Good s (if c then a else b) := by
  by_cases h : c <;> simp only [h, if_true, if_false] <;> assumption

theorem good_url (s : Str) : Good s (parse_url s) := by
  have g := Good.init s
  have hs := match_scheme_suf (PS.init s).p
  unfold parse_url
  simp only [hier_eq, relative_eq]
  have g2 := good_part g pchar_nc_pct_set
  split
  · rename_i q e
    rw [e] at hs
    split
    · rename_i q' hq
      have g1 : Good s { PS.init s with p := q' } := g.set rfl rfl ((literal_suf hq).trans hs)
      exact good_tail (good_part (g1.mark _) _)
    · exact good_ite g2 (good_tail g2)
  · exact good_ite g2 (good_tail g2)

theorem good_origin_tail {s : Str} {ps : PS} (g : Good s ps) : Good s
    (match match_literal b!"//" ps.p with
      | none => ps
      | some q =>
        let ps := parse_authority { ps with p := q }
        if ps.ec.isSome then ps
        else
          let ps := { ps with pt := ps.pt.resize id_user (ps.pt.length id_user + 1) }
          if ps.done then ps else { ps with ec := some .syntax }) := by
  split
  · exact g
  · rename_i q hq
    have g3 := good_authority (g.set (ps' := { ps with p := q })
      rfl rfl ((literal_suf hq).trans g.suf))
    refine good_ite g3 (good_ite ?_ ?_)
    · exact g3.set rfl rfl g3.suf
    · exact g3.set rfl rfl g3.suf

theorem good_origin (s : Str) : Good s (parse_origin s) := by
  have g := Good.init s
  have hs := match_scheme_suf (PS.init s).p
  unfold parse_origin
  simp only
  split
  · rename_i q e
    rw [e] at hs
    exact g.set rfl rfl hs
  · rename_i q e
    rw [e] at hs
    split
    · exact g.set rfl rfl hs
    · rename_i q' hq
      have g1 : Good s { PS.init s with p := q' } := g.set rfl rfl ((literal_suf hq).trans hs)
      have g2 := good_part (g1.mark id_scheme) pchar_pct_set
      rw [← hier_eq] at g2
      exact good_origin_tail g2

end Url
