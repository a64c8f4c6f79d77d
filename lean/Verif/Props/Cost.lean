import Verif.Proofs.CostBound
import Verif.Model.View

/-!
C66. Parsing takes linear time: a text of `n` characters is parsed with at most `4 * n + 18` reads of a character,
whether it is accepted or not. The factor 4 cannot be lowered.

The reads are counted in `Verif/Model/Cost.lean`. Each iteration of a loop of the parser, except perhaps the last, reads a character, and
between two reads the parser executes a bounded number of statements, so the bound is a bound of the running time.
-/

set_option autoImplicit false

namespace Url.Props

open Url

/-- C66, the counting parser computes what the parser computes, for every text: the error code, the position, the
table of parts and the faults are the same. -/
theorem C66_same (s : Str) : (n_parse_url s).val = parse_url s := parse_erase s

/-- C66, for every text the parser reads at most four characters for each character of the text, and 18 more. -/
theorem C66_linear (s : Str) : (n_parse_url s).reads ≤ 4 * s.length + 18 := parse_reads s

theorem plain_reads (e : PctSet) (n : Nat) (h : e.is_special c!"a" = false) :
    (e.n_parse (List.replicate n c!"a") none).reads = 2 * n ∧
    e.parse (List.replicate n c!"a") none = ([], none) := by
  induction n with
  | zero => simp [PctSet.n_parse, PctSet.parse]
  | succ n ih =>
    simp only [List.replicate_succ]
    unfold PctSet.n_parse PctSet.parse
    simp [h, ih]
    omega

/-- C66, the factor is the smallest one: for every `n` there is an accepted text of `n + 3` characters for which the
parser reads `4 * n + 9` characters. -/
theorem C66_slope (n : Nat) : ∃ s : Str, s.length = n + 3 ∧ (parse_url s).ec = none ∧
    (n_parse_url s).reads = 4 * n + 9 := by
  refine ⟨b!"//" ++ List.replicate (n + 1) c!"a", by simp, ?_⟩
  obtain ⟨u1, u2⟩ := plain_reads userinfo_nc_pct_set (n + 1) (by decide)
  obtain ⟨r1, r2⟩ := plain_reads reg_name_pct_set (n + 1) (by decide)
  rw [← parse_erase]
  simp only [List.replicate_succ] at u1 u2 r1 r2 ⊢
  generalize List.replicate n c!"a" = v at *
  have hm : ∀ (ps : PS) (i : Nat), (ps.mark i).ec = ps.ec := fun ps i => (mark_rest ps i).2.2.1
  have h4 : n_match_ip_v4 (c!"a" :: v) = ⟨(false, c!"a" :: v), 1⟩ := rfl
  have hs : n_match_scheme (c!"/" :: c!"/" :: c!"a" :: v) = ⟨(false, c!"/" :: c!"/" :: c!"a" :: v), 1⟩ := rfl
  have hu (ps : PS) (h : ps.ec = none) (hp : ps.p = c!"a" :: v) : (n_parse_userinfo ps).reads = 2 * (n + 1) ∧
      (n_parse_userinfo ps).val.p = [] ∧ (n_parse_userinfo ps).val.ec = none := by
    simp [n_parse_userinfo, PS.n_pct, hp, h, u1, u2, hm, PctSet.n_parse]
  have hi (ps : PS) (hp : ps.p = c!"a" :: v) :
      n_parse_ip_literal ps = ⟨{ ps with ec := some .no_match }, 1⟩ := by
    unfold n_parse_ip_literal
    rw [hp]
    rfl
  have hd (ps : PS) (h : ps.ec = none) (hp : ps.p = c!"a" :: v) :
      (n_parse_ipv4_or_domain ps).reads = 2 * (n + 1) + 1 ∧
      (parse_ipv4_or_domain ps).p = [] ∧ (parse_ipv4_or_domain ps).ec = none := by
    rw [← domain_erase]
    unfold n_parse_ipv4_or_domain
    simp [hp, h4, PS.n_pct, h, r1, r2]
    omega
  have hh (ps : PS) (h : ps.ec = none) (hp : ps.p = c!"a" :: v) : (n_parse_host ps).reads = 2 * (n + 1) + 2 ∧
      (parse_host ps).p = [] ∧ (parse_host ps).ec = none := by
    obtain ⟨d1, d2, d3⟩ := hd { ps with ec := none } rfl hp
    rw [← host_erase]
    simp [n_parse_host, n_parse_hostname, hi ps hp, d1, d2, d3, hm]
    omega
  have ha (ps : PS) (h : ps.ec = none) (hp : ps.p = c!"a" :: v) : (n_parse_authority ps).reads = 4 * n + 6 ∧
      (parse_authority ps).p = [] ∧ (parse_authority ps).ec = none := by
    obtain ⟨e1, e2, e3⟩ := hu ps h hp
    rw [← authority_erase]
    have hl : n_match_literal b!"@" [] = ⟨none, 0⟩ := rfl
    unfold n_parse_authority
    simp only [reads_bind, val_bind, e1]
    generalize (n_parse_userinfo ps).val = r at *
    rcases r with ⟨inp, p, pt, ec, flt⟩
    simp only at e2 e3
    subst e2 e3
    obtain ⟨d1, d2, d3⟩ := hh ((({ inp := inp, p := ps.p, pt := pt, ec := none, flt := flt } : PS).mark id_user).mark
      id_password) (by simp only [hm]) (by simp only [mark_rest_p, hp])
    simp only [hl, host_erase, Option.isSome_none, Bool.false_eq_true, if_false, reduceCtorEq, reads_bind, val_bind,
      d1, d2, d3, and_self, and_true]
    omega
  obtain ⟨a1, a2, a3⟩ := ha { PS.init (c!"/" :: c!"/" :: c!"a" :: v) with p := c!"a" :: v } rfl rfl
  have hl : n_match_literal b!"//" (c!"/" :: c!"/" :: c!"a" :: v) = ⟨some (c!"a" :: v), 2⟩ := rfl
  have hp : (n_parse_part pchar_nc_pct_set (PS.init (c!"/" :: c!"/" :: c!"a" :: v))).reads = 4 * n + 8 ∧
      (n_parse_part pchar_nc_pct_set (PS.init (c!"/" :: c!"/" :: c!"a" :: v))).val.p = [] ∧
      (n_parse_part pchar_nc_pct_set (PS.init (c!"/" :: c!"/" :: c!"a" :: v))).val.ec = none := by
    unfold n_parse_part
    have e : (PS.init (c!"/" :: c!"/" :: c!"a" :: v)).p = c!"/" :: c!"/" :: c!"a" :: v := rfl
    simp only [e, reads_bind, val_bind, hl, authority_erase, a1, a3, Option.isSome_none, Bool.false_eq_true, if_false]
    simp [n_pathLoopMark, n_pathLoop, a2, a3, hm]
    omega
  obtain ⟨p1, p2, p3⟩ := hp
  show (n_parse_url (c!"/" :: c!"/" :: c!"a" :: v)).val.ec = none ∧ (n_parse_url (c!"/" :: c!"/" :: c!"a" :: v)).reads = _
  unfold n_parse_url
  have e : (PS.init (c!"/" :: c!"/" :: c!"a" :: v)).p = c!"/" :: c!"/" :: c!"a" :: v := rfl
  simp only [e, reads_bind, val_bind, hs, p1, p3, Option.isSome_none, Bool.false_eq_true, if_false]
  generalize (n_parse_part pchar_nc_pct_set (PS.init (c!"/" :: c!"/" :: c!"a" :: v))).val = r at *
  simp [n_parse_url_tail, n_parse_query, n_parse_fragment, p2, p3, PS.done]
  omega

/-- C66, hence no smaller factor: whatever constant is added, some accepted text takes more than three reads for
each of its characters. -/
theorem C66_factor (c : Nat) : ¬ ∀ s : Str, (parse_url s).ec = none → (n_parse_url s).reads ≤ 3 * s.length + c := by
  intro h
  obtain ⟨s, hl, ha, hr⟩ := C66_slope (c + 1)
  have := h s ha
  omega

/-- An accepted text of 35 characters with all parts takes 70 reads. -/
example : (parse_url b!"http://u:p@1.2.3.4:80/x/%41?k=v&l#f").ec = none ∧
    (n_parse_url b!"http://u:p@1.2.3.4:80/x/%41?k=v&l#f").reads = 70 := by decide +kernel

end Url.Props

