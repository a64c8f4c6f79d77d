import Verif.Proofs.Cost

/-!
Bounds for the counts of `Verif/Model/Cost.lean`. A lemma `reads + K * (rest) ≤ K * (given) + C` says that at most
`K` characters are read for each character passed, and `C` further ones.
-/

set_option autoImplicit false
set_option linter.unusedSimpArgs false

namespace Url

open Counted

theorem check_reads (p : Str) (ec : Option Err) : (n_check_escape p ec).reads ≤ 2 := by
  unfold n_check_escape
  rcases p with _ | ⟨a, _ | ⟨b, u⟩⟩ <;> simp
  split <;> simp
  try (split <;> simp)

theorem pct_reads (e : PctSet) (p : Str) (ec : Option Err) :
    (e.n_parse p ec).reads + 2 * (e.parse p ec).1.length ≤ 2 * p.length + (if (e.parse p ec).2.isSome then 3 else 2) := by
  rw [← pct_erase]
  fun_induction PctSet.n_parse e p ec with
  | case1 => simp
  | case2 c ec h a b u ih =>
    have hc := check_reads (a :: b :: u) ec
    simp only [reads_bind, reads_look, val_bind, val_ite, reads_ite, val_pure, reads_pure] at ih ⊢
    split
    · rename_i hs
      simp only [hs, if_true, List.length_cons]
      omega
    · simp only [List.length_cons]
      split <;> rename_i hk <;> simp only [hk, Bool.false_eq_true, if_true, if_false] at ih <;> omega
  | case3 => simp
  | case4 => simp
  | case5 c t ec h ih =>
    simp only [reads_bind, reads_look, val_bind, val_ite, reads_ite, val_pure, reads_pure] at ih ⊢
    split
    · simp only [List.length_cons]
      split <;> omega
    · simp only [List.length_cons]
      split <;> rename_i hk <;> simp only [hk, Bool.false_eq_true, if_true, if_false] at ih <;> omega

theorem ps_pct_reads (ps : PS) (e : PctSet) (q : Str) :
    (ps.n_pct e q).reads + 2 * (ps.pct e q).p.length ≤
      2 * q.length + (if (ps.pct e q).ec.isSome then 3 else 2) := by
  exact pct_reads e q ps.ec

theorem scheme_loop_reads (p : Str) : (n_skipSchemeChars p).reads + (skipSchemeChars p).length ≤ p.length + 1 := by
  induction p with
  | nil => simp [n_skipSchemeChars, skipSchemeChars]
  | cons c t ih =>
    simp only [n_skipSchemeChars, skipSchemeChars, reads_bind, reads_look, reads_ite, reads_pure]
    split <;> simp only [List.length_cons] <;> omega

theorem scheme_reads (p : Str) : (n_match_scheme p).reads + (match_scheme p).2.length ≤ p.length + 1 := by
  unfold n_match_scheme match_scheme
  rcases p with _ | ⟨c, t⟩
  · simp
  · have := scheme_loop_reads t
    simp only [reads_bind, reads_look, reads_ite, reads_pure]
    split <;> simp only [List.length_cons] <;> omega

theorem literal_reads (l p : Str) : (n_match_literal l p).reads ≤ l.length := by
  unfold n_match_literal
  split <;> simp

theorem literal_len {l p q : Str} (h : match_literal l p = some q) : p = l ++ q := by
  unfold match_literal at h
  split at h
  · simp at h
  · split at h
    · rename_i e
      simp only [Option.some.injEq] at h
      rw [← h]
      conv => lhs; rw [← List.take_append_drop l.length p, e]
    · simp at h

theorem octetLoop_reads (p : Str) (v : Nat) : (n_octetLoop p v).reads + (octetLoop p v).2.length ≤ p.length + 1 := by
  induction p generalizing v with
  | nil => simp [n_octetLoop, octetLoop]
  | cons c t ih =>
    simp only [n_octetLoop, octetLoop, reads_bind, reads_look, reads_ite, reads_pure]
    have := ih (10 * v + digitOf c)
    split
    · simp; omega
    · split
      · simp; omega
      · simp only [List.length_cons]; omega

theorem octetLoop_len (p : Str) (v : Nat) : (octetLoop p v).2.length ≤ p.length := by
  induction p generalizing v with
  | nil => simp [octetLoop]
  | cons c t ih =>
    have := ih (10 * v + digitOf c)
    simp only [octetLoop]
    split
    · simp
    · split <;> simp <;> omega

theorem octet_reads (p : Str) : (n_match_octet p).reads + (match_octet p).2.length ≤ p.length + 1 ∧
    (match_octet p).2.length ≤ p.length ∧ ((match_octet p).1.isSome → (match_octet p).2.length < p.length) := by
  unfold n_match_octet match_octet
  rcases p with _ | ⟨c, t⟩
  · simp
  · have h1 := octetLoop_reads t (digitOf c)
    have h2 := octetLoop_len t (digitOf c)
    simp only [reads_bind, reads_look, reads_ite, reads_pure]
    split
    · simp; omega
    · split
      · simp; omega
      · simp only [List.length_cons]
        refine ⟨by omega, by omega, fun _ => by omega⟩

theorem octet_dot_reads (p : Str) : (n_octet_dot p).reads + 2 * (octet_dot p).2.length ≤
    2 * p.length + (if (octet_dot p).1 then 0 else 1) ∧ (octet_dot p).2.length ≤ p.length := by
  have h := octet_reads p
  unfold n_octet_dot octet_dot
  simp only [reads_bind, octet_erase]
  generalize match_octet p = r at *
  rcases r with ⟨_ | v, _ | ⟨c, t⟩⟩
  · simp at h ⊢; omega
  · simp at h ⊢; omega
  · simp at h ⊢; omega
  · simp at h ⊢
    split <;> simp <;> omega

theorem v4_reads (p : Str) : (n_match_ip_v4 p).reads + 2 * (match_ip_v4 p).2.length ≤ 2 * p.length + 1 := by
  have h1 := octet_dot_reads p
  have h2 := octet_dot_reads (octet_dot p).2
  have h3 := octet_dot_reads (octet_dot (octet_dot p).2).2
  have h4 := octet_reads (octet_dot (octet_dot (octet_dot p).2).2).2
  rw [v4_dots]
  unfold n_match_ip_v4
  simp only [reads_bind, octet_erase, octet_dot_erase, reads_ite, reads_pure]
  split
  · split at h1 <;> omega
  · rename_i e1
    simp only [Bool.not_eq_true', Bool.not_eq_false] at e1
    rw [e1] at h1
    split
    · split at h2 <;> simp at h1 <;> omega
    · rename_i e2
      simp only [Bool.not_eq_true', Bool.not_eq_false] at e2
      rw [e2] at h2
      split
      · split at h3 <;> simp at h1 h2 <;> omega
      · rename_i e3
        simp only [Bool.not_eq_true', Bool.not_eq_false] at e3
        rw [e3] at h3
        generalize match_octet (octet_dot (octet_dot (octet_dot p).2).2).2 = r at *
        rcases r with ⟨_ | v, t⟩ <;> simp at h1 h2 h3 h4 ⊢ <;> omega

theorem tail_reads (p : Str) : (n_v6Tail p).reads + 2 * (v6Tail p).p.length ≤ 2 * p.length + 1 := by
  have h1 := octet_dot_reads p
  have h2 := octet_dot_reads (octet_dot p).2
  have h4 := octet_reads (octet_dot (octet_dot p).2).2
  rw [tail_dots]
  unfold n_v6Tail
  simp only [reads_bind, octet_erase, octet_dot_erase, reads_ite, reads_pure]
  split
  · split at h1 <;> simp at h1 ⊢ <;> omega
  · rename_i e1
    simp only [Bool.not_eq_true', Bool.not_eq_false] at e1
    rw [e1] at h1
    split
    · split at h2 <;> simp at h1 h2 ⊢ <;> omega
    · rename_i e2
      simp only [Bool.not_eq_true', Bool.not_eq_false] at e2
      rw [e2] at h2
      generalize match_octet (octet_dot (octet_dot p).2).2 = r at *
      rcases r with ⟨_ | v, t⟩ <;> simp at h1 h2 h4 ⊢ <;> omega

theorem wordLoop_reads (k : Nat) (p : Str) (v : Nat) :
    (n_wordLoop k p v).reads + (wordLoop k p v).2.length ≤ p.length + 1 ∧ (wordLoop k p v).2.length ≤ p.length := by
  induction k generalizing p v with
  | zero => simp [n_wordLoop, wordLoop]
  | succ k ih =>
    rcases p with _ | ⟨c, t⟩
    · simp [n_wordLoop, wordLoop]
    · have := ih t (16 * v + hex_digit c)
      simp only [n_wordLoop, wordLoop, reads_bind, reads_look, reads_ite, reads_pure]
      split <;> simp only [List.length_cons] <;> omega

theorem word_reads (c : Byte) (t : Str) : (n_parse_word c t).reads + (parse_word c t).2.length ≤ t.length + 2 ∧
    ((parse_word c t).1 = none → (n_parse_word c t).reads = 1 ∧ (parse_word c t).2 = c :: t) ∧
    ((parse_word c t).1.isSome → (parse_word c t).2.length ≤ t.length) := by
  have := wordLoop_reads 3 t (hex_digit c)
  simp only [n_parse_word, parse_word, reads_bind, reads_look, reads_ite, reads_pure]
  split
  · simp; omega
  · simp; omega

theorem v6Loop_reads (f : Nat) (p : Str) (n w : Nat) (b c : Bool) :
    (n_v6Loop f p n b c w).reads + 2 * (v6Loop f p n b c w).p.length ≤
      2 * p.length + 3 + (if b then 0 else 1) + (if c then 0 else 3) := by
  induction f generalizing p n w b c with
  | zero => simp [n_v6Loop, v6Loop]; omega
  | succ f ih =>
    rcases p with _ | ⟨x, t⟩
    · simp only [n_v6Loop, v6Loop, reads_ite, reads_pure]
      (repeat' split) <;> simp
    · unfold n_v6Loop v6Loop
      simp only [reads_bind, reads_look, List.length_cons]
      by_cases h1 : x = c!":"
      · simp only [h1, if_true]
        rcases t with _ | ⟨y, u⟩
        · simp; omega
        · simp only [reads_bind, reads_look, List.length_cons]
          by_cases h2 : y = c!":"
          · simp only [h2, if_true]
            by_cases h3 : b
            · simp [h3]; omega
            · simp only [h3, Bool.false_eq_true, if_false]
              by_cases h4 : n - 1 = 0
              · simp [h4]; omega
              · simp only [h4, if_false]
                have := ih u (n - 1) w true false
                simp only [Bool.false_eq_true, if_false, if_true] at this
                omega
          · simp only [h2, if_false]
            by_cases h3 : c
            · have hw := word_reads y u
              simp only [h3, if_true, reads_bind, word_erase]
              generalize parse_word y u = r at *
              rcases r with ⟨_ | v, q⟩
              · obtain ⟨_, hw, _⟩ := hw
                obtain ⟨e1, e2⟩ := hw rfl
                simp only at e2
                simp only [reads_pure, e2, List.length_cons]
                omega
              · obtain ⟨hw, _, hl⟩ := hw
                have hl := hl rfl
                simp only at hw hl
                by_cases h4 : n - 1 = 0
                · simp only [h4, if_true, reads_pure]; omega
                · simp only [h4, if_false]
                  have := ih q (n - 1) v b true
                  simp only [if_true] at this
                  omega
            · simp only [h3, Bool.false_eq_true, if_false, reads_pure, List.length_cons]
              omega
      · simp only [h1, if_false, reads_bind, reads_look]
        by_cases h2 : x = c!"."
        · simp only [h2, if_true]
          have ht := tail_reads t
          split
          · simp; omega
          · split
            · simp; omega
            · omega
        · simp only [h2, if_false, reads_bind, reads_look]
          by_cases hb : (b && notHex x) = true
          · have hb' : b = true := (Bool.and_eq_true _ _ ▸ hb).1
            simp only [hb, if_true, reads_pure, List.length_cons]
            simp only [hb', if_true]
            omega
          · simp only [hb, Bool.false_eq_true, if_false]
            by_cases h3 : c
            · simp only [h3, Bool.not_true, Bool.false_eq_true, if_false, if_true, reads_pure, List.length_cons]
              split <;> omega
            · have hw := word_reads x t
              simp only [h3, Bool.not_false, Bool.false_eq_true, if_false, if_true, reads_bind, word_erase]
              generalize parse_word x t = r at *
              rcases r with ⟨_ | v, q⟩
              · obtain ⟨_, hw, _⟩ := hw
                obtain ⟨e1, e2⟩ := hw rfl
                simp only at e2
                simp only [reads_pure, e2, List.length_cons]
                split <;> omega
              · obtain ⟨hw, _, hl⟩ := hw
                have hl := hl rfl
                simp only at hw hl
                by_cases h4 : n - 1 = 0
                · simp only [h4, if_true, reads_pure]
                  split <;> omega
                · simp only [h4, if_false]
                  have := ih q (n - 1) v b true
                  simp only [if_true] at this
                  split <;> rename_i hk <;> simp only [hk, if_true, if_false, Bool.false_eq_true] at this ⊢ <;> omega

theorem v6_reads (p : Str) : (n_parse_ip_v6 p).reads + 2 * (parse_ip_v6 p).p.length ≤ 2 * p.length + 7 := by
  unfold n_parse_ip_v6 parse_ip_v6
  rcases p with _ | ⟨c, t⟩
  · simp
  · exact v6Loop_reads _ _ _ _ _ _

theorem ip_literal_reads (ps : PS) (h : ps.ec = none) :
    (n_parse_ip_literal ps).reads + 2 * (parse_ip_literal ps).p.length ≤ 2 * ps.p.length + 7 ∧
    ((parse_ip_literal ps).ec = some .no_match → (n_parse_ip_literal ps).reads ≤ 1 ∧ (parse_ip_literal ps).p = ps.p) := by
  unfold n_parse_ip_literal parse_ip_literal
  rcases e : ps.p with _ | ⟨c, t⟩
  · simp [e]
  · have hv := v6_reads t
    simp only [reads_bind, reads_look, reads_ite, reads_pure, v6_erase]
    by_cases h1 : (c != c!"[") = true
    · simp [h1, e]; omega
    · simp only [h1, Bool.false_eq_true, if_false]
      by_cases h2 : (parse_ip_v6 t).err
      · simp [h2]; omega
      · simp only [h2, h, Bool.false_eq_true, if_false, Option.isSome_none, reads_bind]
        generalize (parse_ip_v6 t).p = r at *
        rcases r with _ | ⟨d, u⟩
        · simp at hv ⊢; omega
        · by_cases h3 : (d != c!"]") = true
          · simp [h3] at hv ⊢; omega
          · simp [h3, h] at hv ⊢; omega

theorem domain_reads (ps : PS) : (n_parse_ipv4_or_domain ps).reads + 2 * (parse_ipv4_or_domain ps).p.length ≤
    2 * ps.p.length + 4 := by
  have hv := v4_reads ps.p
  unfold n_parse_ipv4_or_domain parse_ipv4_or_domain
  simp only [reads_bind, v4_erase]
  generalize match_ip_v4 ps.p = r at *
  rcases r with ⟨_ | _, q⟩
  · have hp := ps_pct_reads { ps with p := q } reg_name_pct_set q
    simp only [reads_bind, reads_ite, reads_pure, ps_pct_erase, ite_self]
    split at hp <;> (repeat' split) <;> simp at hv hp ⊢ <;> omega
  · have hp := ps_pct_reads { ps with p := q, pt := { ps.pt with host := .ipv4 } } reg_name_pct_set q
    simp only [reads_bind, reads_ite, reads_pure, ps_pct_erase, ite_self]
    split at hp <;> (repeat' split) <;> simp at hv hp ⊢ <;> omega

@[simp] theorem mark_rest_p (ps : PS) (id : Nat) : (ps.mark id).p = ps.p := (mark_rest ps id).2.1

theorem hostname_reads (ps : PS) (h : ps.ec = none) :
    (n_parse_hostname ps).reads + 2 * (parse_hostname ps).p.length ≤ 2 * ps.p.length + 7 := by
  obtain ⟨h1, h2⟩ := ip_literal_reads ps h
  unfold n_parse_hostname parse_hostname
  simp only [reads_bind, ip_literal_erase, reads_ite, reads_pure, domain_erase, ite_self]
  split
  · split
    · omega
    · rename_i h3
      obtain ⟨h4, h5⟩ := h2 (Classical.not_not.mp h3)
      have hd := domain_reads { parse_ip_literal ps with ec := none }
      have hl : (parse_ip_literal ps).p.length = ps.p.length := by rw [h5]
      simp only at hd
      split <;> simp <;> omega
  · simp; omega

theorem digits_reads (p : Str) : (n_skipDigits p).reads + (skipDigits p).length ≤ p.length + 1 ∧
    (skipDigits p).length ≤ p.length := by
  induction p with
  | nil => simp [n_skipDigits, skipDigits]
  | cons c t ih =>
    simp only [n_skipDigits, skipDigits, reads_bind, reads_look, reads_ite, reads_pure]
    split <;> simp only [List.length_cons] <;> omega

theorem host_reads (ps : PS) (h : ps.ec = none) :
    (n_parse_host ps).reads + 2 * (parse_host ps).p.length ≤ 2 * ps.p.length + 8 := by
  have h1 := hostname_reads ps h
  unfold n_parse_host parse_host
  simp only [reads_bind, hostname_erase, reads_ite, reads_pure]
  by_cases h2 : (parse_hostname ps).ec.isSome
  · simp [h2]; omega
  · simp only [h2, Bool.false_eq_true, if_false]
    rcases e : (parse_hostname ps).p with _ | ⟨c, t⟩
    · simp [e] at h1 ⊢; omega
    · have hd := digits_reads t
      by_cases h3 : (c != c!":") = true
      · simp [h3, e] at h1 ⊢; omega
      · simp [h3, e] at h1 ⊢; omega

theorem userinfo_reads (ps : PS) :
    (n_parse_userinfo ps).reads + 2 * (parse_userinfo ps).p.length ≤ 2 * ps.p.length + 5 := by
  have h1 := ps_pct_reads ps userinfo_nc_pct_set ps.p
  have h2 := ps_pct_reads ((ps.pct userinfo_nc_pct_set ps.p).mark id_user) userinfo_pct_set (ps.pct userinfo_nc_pct_set ps.p).p
  unfold n_parse_userinfo parse_userinfo
  simp only [reads_bind, ps_pct_erase, reads_ite, reads_pure, ite_self, mark_rest_p]
  split
  · simp only [*] at h1; split at h1 <;> omega
  · simp only [*] at h1
    split at h2 <;> split <;> simp at * <;> omega

/-! ### where the host stops -/

theorem pct_suf (ps : PS) (e : PctSet) (q : Str) : (ps.pct e q).p <:+ q := by
  obtain ⟨x, hx⟩ := pct_suffix e q ps.ec
  exact ⟨x, hx.symm⟩

theorem ip_literal_suf (ps : PS) : (parse_ip_literal ps).p <:+ ps.p := by
  unfold parse_ip_literal
  rcases e : ps.p with _ | ⟨c, t⟩
  · simp [e]
  · have h6 := (v6_suf t).trans (List.suffix_cons c t)
    simp only
    by_cases h1 : (c != c!"[") = true
    · simp [h1, e]
    · simp only [h1, Bool.false_eq_true, if_false]
      generalize (if (parse_ip_v6 t).err then some Err.syntax else ps.ec) = ec
      by_cases h2 : ec.isSome
      · simp only [h2, if_true]; exact h6
      · simp only [h2, Bool.false_eq_true, if_false]
        generalize (parse_ip_v6 t).p = r at *
        rcases r with _ | ⟨d, u⟩
        · exact List.nil_suffix
        · by_cases h3 : (d != c!"]") = true
          · simp only [h3, if_true]; exact h6
          · simp only [h3, Bool.false_eq_true, if_false]
            exact suf_tail h6

theorem domain_suf (ps : PS) : (parse_ipv4_or_domain ps).p <:+ ps.p := by
  have h4 := v4_suf ps.p
  unfold parse_ipv4_or_domain
  simp only
  generalize match_ip_v4 ps.p = r at *
  rcases r with ⟨_ | _, q⟩
  · have h := (pct_suf { ps with p := q } reg_name_pct_set q).trans h4
    simp only
    by_cases h1 : (PS.pct { ps with p := q } reg_name_pct_set q).ec.isSome
    · simp only [h1, if_true]; exact h
    · simp only [h1, Bool.false_eq_true, if_false]
      split <;> exact h
  · have h := (pct_suf { ps with p := q, pt := { ps.pt with host := .ipv4 } } reg_name_pct_set q).trans h4
    simp only
    by_cases h1 : (PS.pct { ps with p := q, pt := { ps.pt with host := .ipv4 } } reg_name_pct_set q).ec.isSome
    · simp only [h1, if_true]; exact h
    · simp only [h1, Bool.false_eq_true, if_false]
      split <;> exact h

theorem hostname_suf (ps : PS) : (parse_hostname ps).p <:+ ps.p := by
  have h1 := ip_literal_suf ps
  have h2 := (domain_suf { parse_ip_literal ps with ec := none }).trans h1
  unfold parse_hostname
  simp only
  (repeat' split) <;> (try simp only [mark_rest_p]) <;> first | exact h1 | exact h2

theorem host_suf (ps : PS) : (parse_host ps).p <:+ ps.p := by
  have h1 := hostname_suf ps
  unfold parse_host
  simp only
  split
  · exact h1
  · rcases e : (parse_hostname ps).p with _ | ⟨c, t⟩
    · simp only [e]; exact List.nil_suffix
    · rw [e] at h1
      simp only
      split
      · rw [e]; exact h1
      · simp only [mark_rest_p]
        exact (skipDigits_suf t).trans (suf_tail h1)

/-- The characters that end an authority. -/
def Ends (b : Byte) : Prop := b = c!"/" ∨ b = c!"?" ∨ b = c!"#"

theorem pct_eats (e : PctSet) (p : Str) (ec : Option Err) :
    ∃ u, p = u ++ (e.parse p ec).1 ∧ ∀ b ∈ u, e.is_special b = false ∨ b = c!"%" ∨ notHex b = false := by
  fun_induction PctSet.parse e p ec with
  | case1 => exact ⟨[], rfl, by simp⟩
  | case2 _ _ _ _ _ h => exact ⟨[], by rw [h]; rfl, by simp⟩
  | case3 c ec h a b u hc ih =>
    obtain ⟨x, hx, hb⟩ := ih
    refine ⟨c :: a :: b :: x, by rw [hc, List.cons_append, List.cons_append, List.cons_append, ← hx], ?_⟩
    have hh : notHex a = false ∧ notHex b = false := by
      cases ha : notHex a <;> cases hb : notHex b <;> simp [check_escape, ha, hb] at hc ⊢
    intro y hy
    simp only [List.mem_cons] at hy
    rcases hy with rfl | rfl | rfl | hy
    · exact .inr (.inl (by simpa using h))
    · exact .inr (.inr hh.1)
    · exact .inr (.inr hh.2)
    · exact hb y hy
  | case4 c t ec h hc hn => exact ⟨[], by rw [hc]; rcases t with _ | ⟨a, _ | ⟨b, u⟩⟩ <;> simp_all, by simp⟩
  | case5 => exact ⟨[], rfl, by simp⟩
  | case6 c t ec h hs ih =>
    obtain ⟨x, hx, hb⟩ := ih
    refine ⟨c :: x, by rw [List.cons_append, ← hx], ?_⟩
    intro y hy
    simp only [List.mem_cons] at hy
    rcases hy with rfl | hy
    · exact .inl (by simpa using hs)
    · exact hb y hy

theorem userinfo_eats (ps : PS) : ∃ u, ps.p = u ++ (parse_userinfo ps).p ∧ ∀ b ∈ u, ¬ Ends b := by
  have key : ∀ b : Byte, (userinfo_nc_pct_set.is_special b = false ∨ b = c!"%" ∨ notHex b = false) → ¬ Ends b := by
    intro b h hs
    rcases hs with rfl | rfl | rfl <;> revert h <;> decide
  have key' : ∀ b : Byte, (userinfo_pct_set.is_special b = false ∨ b = c!"%" ∨ notHex b = false) → ¬ Ends b := by
    intro b h hs
    rcases hs with rfl | rfl | rfl <;> revert h <;> decide
  obtain ⟨u, hu, hb⟩ := pct_eats userinfo_nc_pct_set ps.p ps.ec
  unfold parse_userinfo
  simp only
  split
  · exact ⟨u, hu, fun b h => key b (hb b h)⟩
  · obtain ⟨v, hv, hc⟩ := pct_eats userinfo_pct_set (ps.pct userinfo_nc_pct_set ps.p).p
      ((ps.pct userinfo_nc_pct_set ps.p).mark id_user).ec
    have : ps.p = (u ++ v) ++ (((ps.pct userinfo_nc_pct_set ps.p).mark id_user).pct userinfo_pct_set
        (ps.pct userinfo_nc_pct_set ps.p).p).p := by
      rw [List.append_assoc]
      exact hu.trans (congrArg (u ++ ·) hv)
    refine ⟨u ++ v, ?_, ?_⟩
    · split <;> simp only [mark_rest_p] <;> exact this
    · intro b h
      rcases List.mem_append.mp h with h | h
      · exact key b (hb b h)
      · exact key' b (hc b h)

theorem head_of_suffix {u r q : Str} (h : q <:+ u ++ r) (hl : r.length < q.length) : ∃ b t, q = b :: t ∧ b ∈ u := by
  obtain ⟨x, hx⟩ := h
  rcases q with _ | ⟨b, t⟩
  · simp at hl
  · refine ⟨b, t, rfl, ?_⟩
    have hlen := congrArg List.length hx
    simp only [List.length_append, List.length_cons] at hlen hl
    have h1 : (x ++ b :: t)[x.length]? = some b := by simp
    rw [hx, List.getElem?_append_left (by omega)] at h1
    exact List.mem_of_getElem? h1

theorem authority_reads (ps : PS) :
    (n_parse_authority ps).reads + 4 * (parse_authority ps).p.length ≤ 4 * ps.p.length + 14 ∨
    ((n_parse_authority ps).reads ≤ 4 * ps.p.length + 14 ∧ ∃ b t, (parse_authority ps).p = b :: t ∧ ¬ Ends b) := by
  obtain ⟨u, hu, hb⟩ := userinfo_eats ps
  have h1 := userinfo_reads ps
  have hlu : (parse_userinfo ps).p.length ≤ ps.p.length := by
    have := congrArg List.length hu
    simp only [List.length_append] at this
    omega
  unfold n_parse_authority parse_authority
  simp only [reads_bind, userinfo_erase, reads_ite, reads_pure, literal_erase]
  by_cases e1 : (parse_userinfo ps).ec = some .no_match
  · simp only [e1, if_true]
    have h2 := host_reads { parse_userinfo ps with ec := none } rfl
    have h3 := (host_suf { parse_userinfo ps with ec := none }).length_le
    simp only at h2 h3
    omega
  · simp only [e1, if_false]
    by_cases e2 : (parse_userinfo ps).ec.isSome
    · simp only [e2, if_true]; omega
    · simp only [e2, Bool.false_eq_true, if_false]
      have hec : (parse_userinfo ps).ec = none := by simpa using e2
      have hr := literal_reads b!"@" (parse_userinfo ps).p
      simp only [List.length_cons, List.length_nil] at hr
      rcases e3 : match_literal b!"@" (parse_userinfo ps).p with _ | q
      · have h2 := host_reads ((({ parse_userinfo ps with p := ps.p } : PS).mark id_user).mark id_password)
          (by simp [(mark_rest _ _).2.2.1, hec])
        have h3 := host_suf ((({ parse_userinfo ps with p := ps.p } : PS).mark id_user).mark id_password)
        simp only [mark_rest_p] at h2 h3
        simp only
        generalize parse_host ((({ parse_userinfo ps with p := ps.p } : PS).mark id_user).mark id_password) = r at *
        by_cases hl : r.p.length ≤ (parse_userinfo ps).p.length
        · omega
        · right
          refine ⟨by omega, ?_⟩
          rw [hu] at h3
          obtain ⟨b, t, e, hm⟩ := head_of_suffix h3 (by omega)
          exact ⟨b, t, e, hb b hm⟩
      · have hq := congrArg List.length (literal_len e3)
        have h2 := host_reads (({ parse_userinfo ps with p := q } : PS).mark id_password)
          (by simp [(mark_rest _ _).2.2.1, hec])
        have h3 := (host_suf (({ parse_userinfo ps with p := q } : PS).mark id_password)).length_le
        simp only [mark_rest_p, List.length_append, List.length_cons, List.length_nil] at h2 h3 hq
        simp only
        omega

/-! ### the path, the query and the fragment -/

theorem pathLoop_reads (e : PctSet) (f : Nat) (ps : PS) :
    (n_pathLoop e f ps).reads + 3 * (pathLoop e f ps).p.length ≤ 3 * ps.p.length + 3 := by
  induction f generalizing ps with
  | zero => simp [n_pathLoop, pathLoop]
  | succ f ih =>
    unfold n_pathLoop pathLoop
    rcases e1 : ps.p with _ | ⟨c, t⟩
    · simp [e1]
    · have hp := ps_pct_reads ps e t
      have hs := (pct_suf ps e t).length_le
      simp only [reads_bind, reads_look, reads_ite, reads_pure, ps_pct_erase]
      by_cases h1 : (c != c!"/") = true
      · simp [h1, e1]; omega
      · simp only [h1, Bool.false_eq_true, if_false]
        by_cases h2 : (ps.pct e t).ec.isSome
        · simp only [h2, if_true, List.length_cons] at hp ⊢
          omega
        · have := ih { ps.pct e t with pt := { (ps.pct e t).pt with nseg := (ps.pct e t).pt.nseg + 1 } }
          simp only [h2, Bool.false_eq_true, if_false, List.length_cons] at hp this ⊢
          omega

theorem pathLoopMark_reads (ps : PS) :
    (n_pathLoopMark ps).reads + 3 * (pathLoopMark ps).p.length ≤ 3 * ps.p.length + 3 := by
  have := pathLoop_reads pchar_pct_set (ps.p.length + 1) ps
  unfold n_pathLoopMark pathLoopMark
  simp only [reads_bind, reads_ite, reads_pure, ite_self, pathLoop_erase]
  split <;> simp <;> omega

theorem pathLoop_len (e : PctSet) (f : Nat) (ps : PS) : (pathLoop e f ps).p.length ≤ ps.p.length := by
  induction f generalizing ps with
  | zero => simp [pathLoop]
  | succ f ih =>
    unfold pathLoop
    rcases e1 : ps.p with _ | ⟨c, t⟩
    · simp [e1]
    · have hs := (pct_suf ps e t).length_le
      simp only [List.length_cons]
      split
      · simp [e1]
      · split
        · omega
        · exact Nat.le_trans (ih _) (by simp only; omega)

theorem pathLoopMark_len (ps : PS) : (pathLoopMark ps).p.length ≤ ps.p.length := by
  have := pathLoop_len pchar_pct_set (ps.p.length + 1) ps
  unfold pathLoopMark
  simp only
  split <;> simp <;> omega

theorem pathLoopMark_stop (ps : PS) {b : Byte} {t : Str} (h : ps.p = b :: t) (hb : ¬ Ends b) :
    (n_pathLoopMark ps).reads = 1 ∧ (pathLoopMark ps).p = b :: t := by
  have hb : b ≠ c!"/" := fun e => hb (.inl e)
  unfold n_pathLoopMark pathLoopMark
  simp only [reads_bind, reads_ite, reads_pure, ite_self, pathLoop_erase]
  rw [h, List.length_cons]
  unfold n_pathLoop pathLoop
  simp only [h]
  simp [hb]
  split <;> simp [h]

theorem check_no_match {t : Str} {ec : Option Err} (h : ec ≠ some .no_match) : check_escape t ec ≠ some .no_match := by
  rcases t with _ | ⟨a, _ | ⟨b, u⟩⟩ <;> simp only [check_escape]
  · decide
  · decide
  · split
    · decide
    · exact h

theorem no_match_parse (e : PctSet) (p : Str) (ec : Option Err) (h : ec ≠ some .no_match) :
    (e.parse p ec).2 ≠ some .no_match := by
  fun_induction PctSet.parse e p ec with
  | case1 => exact h
  | case2 c t ec _ er hc => have := check_no_match (t := t) h; simp only [hc] at this ⊢; exact this
  | case3 c ec _ a b u hc ih => rw [hc]; exact ih (by simp)
  | case4 c t ec _ hc hn => rw [hc]; rcases t with _ | ⟨a, _ | ⟨b, u⟩⟩ <;> simp_all
  | case5 => exact h
  | case6 c t ec _ _ ih => exact ih h

theorem no_match_pct (ps : PS) (e : PctSet) (q : Str) (h : ps.ec ≠ some .no_match) :
    (ps.pct e q).ec ≠ some .no_match := no_match_parse e q ps.ec h

theorem no_match_pathLoop (e : PctSet) (f : Nat) (ps : PS) (h : ps.ec ≠ some .no_match) :
    (pathLoop e f ps).ec ≠ some .no_match := by
  induction f generalizing ps with
  | zero => exact h
  | succ f ih =>
    unfold pathLoop
    rcases ps.p with _ | ⟨c, t⟩
    · exact h
    · simp only
      split
      · exact h
      · have := no_match_pct ps e t h
        split
        · exact this
        · exact ih _ this

theorem no_match_loop (ps : PS) (h : ps.ec ≠ some .no_match) : (pathLoopMark ps).ec ≠ some .no_match := by
  have := no_match_pathLoop pchar_pct_set (ps.p.length + 1) ps h
  unfold pathLoopMark
  simp only
  split
  · exact this
  · rw [(mark_rest _ _).2.2.1]; exact this

theorem path_absolute_reads (ps : PS) (h : ps.ec = none) :
    (n_parse_path_absolute ps).reads + 3 * (parse_path_absolute ps).p.length ≤ 3 * ps.p.length + 3 ∧
    ((parse_path_absolute ps).ec = some .no_match →
      (n_parse_path_absolute ps).reads ≤ 1 ∧ (parse_path_absolute ps).p = ps.p) := by
  unfold n_parse_path_absolute parse_path_absolute
  rcases e1 : ps.p with _ | ⟨c, t⟩
  · simp [e1]
  · by_cases h1 : (c != c!"/") = true
    · simp [h1, e1]; omega
    · rcases t with _ | ⟨d, u⟩
      · simp [h1, (mark_rest _ _).2.2.1, h]
      · by_cases h2 : d = c!"/"
        · simp [h1, h2]; omega
        · have hp := ps_pct_reads { ps with pt := { ps.pt with nseg := ps.pt.nseg + 1 }, p := d :: u } pchar_pct_set u
          have hs := (pct_suf { ps with pt := { ps.pt with nseg := ps.pt.nseg + 1 }, p := d :: u } pchar_pct_set u).length_le
          have hn := no_match_pct { ps with pt := { ps.pt with nseg := ps.pt.nseg + 1 }, p := d :: u } pchar_pct_set u
            (by simp [h])
          simp only [h1, h2, Bool.false_eq_true, if_false, reads_bind, reads_look, reads_ite, reads_pure,
            ps_pct_erase, List.length_cons]
          generalize PS.pct { ps with pt := { ps.pt with nseg := ps.pt.nseg + 1 }, p := d :: u } pchar_pct_set u = r at *
          by_cases h3 : r.ec.isSome
          · simp only [h3, if_true] at hp ⊢
            exact ⟨by omega, fun h' => absurd h' hn⟩
          · have hm := pathLoopMark_reads r
            simp only [h3, Bool.false_eq_true, if_false] at hp ⊢
            exact ⟨by omega, fun h' => absurd h' (no_match_loop r hn)⟩

theorem path_first_reads (e : PctSet) (ps : PS) :
    (n_parse_path_first e ps).reads + 3 * (parse_path_first e ps).p.length ≤ 3 * ps.p.length + 5 := by
  have hp := ps_pct_reads ps e ps.p
  have hs := (pct_suf ps e ps.p).length_le
  unfold n_parse_path_first parse_path_first
  simp only [reads_bind, reads_ite, reads_pure, ps_pct_erase]
  by_cases h2 : (ps.pct e ps.p).ec.isSome
  · simp only [h2, if_true] at hp ⊢
    omega
  · simp only [h2, Bool.false_eq_true, if_false] at hp ⊢
    by_cases h3 : (ps.pct e ps.p).p.length = ps.p.length
    · simp only [h3, if_true]
      omega
    · have := pathLoopMark_reads { ps.pct e ps.p with pt := { (ps.pct e ps.p).pt with nseg := (ps.pct e ps.p).pt.nseg + 1 } }
      simp only [h3, if_false] at this ⊢
      omega

theorem queryLoop_reads (f : Nat) (ps : PS) (n : Nat) :
    (n_queryLoop f ps n).reads + 3 * (queryLoop f ps n).p.length ≤ 3 * ps.p.length + 3 := by
  induction f generalizing ps n with
  | zero => simp [n_queryLoop, queryLoop]
  | succ f ih =>
    have hp := ps_pct_reads ps qkey_pct_set ps.p
    have hs := (pct_suf ps qkey_pct_set ps.p).length_le
    unfold n_queryLoop queryLoop
    simp only [reads_bind, reads_ite, reads_pure, ps_pct_erase]
    generalize ps.pct qkey_pct_set ps.p = r at *
    by_cases h2 : r.ec.isSome
    · simp only [h2, if_true] at hp ⊢
      omega
    · simp only [h2, Bool.false_eq_true, if_false] at hp ⊢
      rcases e1 : r.p with _ | ⟨c, t⟩
      · simp [e1] at hp hs ⊢; omega
      · simp only [e1, List.length_cons] at hp hs
        simp only [reads_bind, reads_look, reads_ite, reads_pure]
        by_cases h1 : (c != c!"=") = true
        · simp [h1, e1]; omega
        · simp only [h1, Bool.false_eq_true, if_false]
          rcases t with _ | ⟨d, u⟩
          · simp; omega
          · simp only [reads_bind, reads_ite, reads_pure, ps_pct_erase]
            have hp' := ps_pct_reads { r with p := d :: u } qval_pct_set (d :: u)
            have hs' := (pct_suf { r with p := d :: u } qval_pct_set (d :: u)).length_le
            generalize PS.pct { r with p := d :: u } qval_pct_set (d :: u) = r' at *
            simp only [List.length_cons] at hp hs hp' hs'
            by_cases h3 : r'.ec.isSome
            · simp only [h3, if_true] at hp' ⊢
              omega
            · simp only [h3, Bool.false_eq_true, if_false] at hp' ⊢
              rcases e2 : r'.p with _ | ⟨c', t'⟩
              · simp [e2] at hp' hs' ⊢; omega
              · simp only [e2, List.length_cons] at hp' hs'
                simp only [reads_bind, reads_look, reads_ite, reads_pure]
                by_cases h4 : (c' != c!"&") = true
                · simp [h4, e2]; omega
                · simp only [h4, Bool.false_eq_true, if_false]
                  have := ih { r' with p := t' } (n + 1)
                  simp only at this
                  omega

theorem query_reads (ps : PS) : (n_parse_query ps).reads + 3 * (parse_query ps).p.length ≤ 3 * ps.p.length + 4 := by
  have h := queryLoop_reads (ps.p.length + 1) ps 0
  unfold n_parse_query parse_query
  rcases e1 : ps.p with _ | ⟨c, t⟩
  · simp [e1]
  · rw [e1] at h
    simp only [reads_bind, reads_look, reads_ite, reads_pure]
    split
    · simp [e1]; omega
    · simp at h ⊢; omega

theorem fragment_reads (ps : PS) : (n_parse_fragment ps).reads ≤ 2 * ps.p.length + 2 := by
  unfold n_parse_fragment
  rcases e1 : ps.p with _ | ⟨c, t⟩
  · simp
  · have h := ps_pct_reads ps frag_pct_set t
    simp only [reads_bind, reads_look, reads_ite, reads_pure, ite_self, List.length_cons]
    split
    · omega
    · split at h <;> omega

theorem tail_url_reads (ps : PS) : (n_parse_url_tail ps).reads ≤ 3 * ps.p.length + 6 := by
  have h1 := query_reads ps
  have h2 := fragment_reads (parse_query ps)
  unfold n_parse_url_tail
  simp only [reads_bind, reads_ite, reads_pure, query_erase, ite_self]
  split <;> omega

theorem tail_url_stop (ps : PS) {b : Byte} {t : Str} (h : ps.p = b :: t) (hb : ¬ Ends b) :
    (n_parse_url_tail ps).reads ≤ 2 := by
  have h1 : b ≠ c!"?" := fun e => hb (.inr (.inl e))
  have h2 : b ≠ c!"#" := fun e => hb (.inr (.inr e))
  unfold n_parse_url_tail n_parse_query n_parse_fragment
  simp only [h, reads_bind, reads_ite, reads_pure, val_bind, val_ite, val_pure, bne_iff_ne, ne_eq, h1, h2,
    not_false_eq_true, if_true, ite_self, reads_look]
  split <;> omega

/-! ### the whole parser -/

theorem part_path_reads (e : PctSet) (ps : PS) (h : ps.ec = none) (hn : match_literal b!"//" ps.p = none) :
    (n_parse_part e ps).reads + 3 * (parse_part e ps).p.length ≤ 3 * ps.p.length + 8 := by
  have hl := literal_reads b!"//" ps.p
  obtain ⟨h1, h2⟩ := path_absolute_reads ps h
  have h3 := path_first_reads e { parse_path_absolute ps with ec := none }
  unfold n_parse_part parse_part
  simp only [reads_bind, literal_erase, hn, path_absolute_erase, path_first_erase, reads_ite, reads_pure, ite_self]
  simp only [List.length_cons, List.length_nil] at hl h3
  by_cases h4 : (parse_path_absolute ps).ec = some .no_match
  · obtain ⟨h5, h6⟩ := h2 h4
    rw [h6] at h3
    simp only [h4, ne_eq, not_true_eq_false, if_false]
    rw [h6]
    split
    · omega
    · simp only; omega
  · simp only [ne_eq, h4, not_false_eq_true, if_true]
    omega

theorem part_auth_reads (e : PctSet) (ps : PS) {q : Str} (hn : match_literal b!"//" ps.p = some q) :
    (n_parse_part e ps).reads + 4 * (parse_part e ps).p.length ≤ 4 * ps.p.length + 11 ∨
    ((n_parse_part e ps).reads ≤ 4 * ps.p.length + 11 ∧ ∃ b t, (parse_part e ps).p = b :: t ∧ ¬ Ends b) := by
  have hl := literal_reads b!"//" ps.p
  have hq := congrArg List.length (literal_len hn)
  have h1 := authority_reads { ps with p := q }
  unfold n_parse_part parse_part
  simp only [reads_bind, literal_erase, hn, authority_erase, reads_ite, reads_pure, ite_self, parse_path_abempty]
  simp only [List.length_append, List.length_cons, List.length_nil] at hl hq h1
  generalize parse_authority { ps with p := q } = r at *
  have hm := pathLoopMark_reads r
  by_cases h2 : r.ec.isSome
  · simp only [h2, if_true]
    rcases h1 with h1 | ⟨h1, hb⟩
    · left; omega
    · right; exact ⟨by omega, hb⟩
  · simp only [h2, Bool.false_eq_true, if_false]
    rcases h1 with h1 | ⟨h1, b, t, hr, hb⟩
    · left
      have := pathLoopMark_len r
      omega
    · right
      obtain ⟨h3, h4⟩ := pathLoopMark_stop r hr hb
      exact ⟨by omega, b, t, h4, hb⟩

theorem parse_reads (s : Str) : (n_parse_url s).reads ≤ 4 * s.length + 18 := by
  have hs := scheme_reads s
  have hsuf := (match_scheme_suf s).length_le
  have relative : (n_match_scheme s).reads + (n_parse_part pchar_nc_pct_set (PS.init s)).reads +
      (if (parse_part pchar_nc_pct_set (PS.init s)).ec.isSome then 0
       else (n_parse_url_tail (parse_part pchar_nc_pct_set (PS.init s))).reads) ≤ 4 * s.length + (if (match_scheme s).1 then 15 else 18) := by
    have ht := tail_url_reads (parse_part pchar_nc_pct_set (PS.init s))
    rcases e : match_literal b!"//" (PS.init s).p with _ | q
    · have hp := part_path_reads pchar_nc_pct_set (PS.init s) rfl e
      have : (PS.init s).p.length = s.length := rfl
      (repeat' split) <;> omega
    · have he := literal_len e
      have hc : s = b!"//" ++ q := he
      have h1 : (n_match_scheme s).reads = 1 := by rw [hc]; rfl
      have h2 : (match_scheme s).1 = false := by rw [hc]; rfl
      simp only [h2, Bool.false_eq_true, if_false]
      rcases part_auth_reads pchar_nc_pct_set (PS.init s) e with hp | ⟨hp, b, t, hr, hb⟩
      · have : (PS.init s).p.length = s.length := rfl
        split <;> omega
      · have := tail_url_stop _ hr hb
        have : (PS.init s).p.length = s.length := rfl
        split <;> omega
  unfold n_parse_url
  simp only [reads_bind, scheme_erase]
  have hi : (PS.init s).p = s := rfl
  rw [hi]
  generalize match_scheme s = m at *
  rcases m with ⟨_ | _, q⟩
  · simp only [reads_bind, reads_ite, reads_pure, part_erase, Bool.false_eq_true, if_false] at relative ⊢
    omega
  · have hl := literal_reads b!":" q
    simp only [reads_bind, literal_erase]
    rcases e : match_literal b!":" q with _ | r
    · simp only [reads_bind, reads_ite, reads_pure, part_erase, if_true, List.length_cons, List.length_nil]
        at relative hl ⊢
      omega
    · have hq := congrArg List.length (literal_len e)
      simp only [reads_bind, part_erase]
      generalize hps : (({ PS.init s with p := r } : PS).mark id_scheme) = ps
      have hec : ps.ec = none := by rw [← hps, (mark_rest _ _).2.2.1]; rfl
      have hp : ps.p = r := by rw [← hps, mark_rest_p]
      have ht := tail_url_reads (parse_part pchar_pct_set ps)
      simp only [List.length_append, List.length_cons, List.length_nil] at hs hsuf hl hq
      rcases e' : match_literal b!"//" ps.p with _ | q'
      · have := part_path_reads pchar_pct_set ps hec e'
        rw [hp] at this
        omega
      · rcases part_auth_reads pchar_pct_set ps e' with h | ⟨h, b, t, hr, hb⟩
        · rw [hp] at h
          omega
        · have := tail_url_stop _ hr hb
          rw [hp] at h
          omega

end Url
