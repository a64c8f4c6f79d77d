import Verif.Model.Cost
import Verif.Proofs.ParseUrl
import Verif.Proofs.Safe

/-!
The counting parser of `Verif/Model/Cost.lean`: its results are those of the parser, and the counts are bounded.
-/

set_option autoImplicit false
set_option linter.unusedSimpArgs false

namespace Url

open Counted

/-! ### the results are the same -/

section Erase

variable {α β : Type}

@[simp] theorem val_bind (m : Counted α) (f : α → Counted β) : (m >>= f).val = (f m.val).val := rfl
@[simp] theorem val_pure (a : α) : (pure a : Counted α).val = a := rfl
@[simp] theorem val_ite (p : Prop) [Decidable p] (a b : Counted α) :
    (if p then a else b).val = if p then a.val else b.val := by split <;> rfl
@[simp] theorem reads_bind (m : Counted α) (f : α → Counted β) : (m >>= f).reads = m.reads + (f m.val).reads := rfl
@[simp] theorem reads_pure (a : α) : (pure a : Counted α).reads = 0 := rfl
@[simp] theorem reads_look (n : Nat) : (look n).reads = n := rfl
@[simp] theorem reads_ite (p : Prop) [Decidable p] (a b : Counted α) :
    (if p then a else b).reads = if p then a.reads else b.reads := by split <;> rfl

end Erase

@[simp] theorem check_erase (p : Str) (ec : Option Err) : (n_check_escape p ec).val = check_escape p ec := by
  unfold n_check_escape check_escape
  split <;> simp
  all_goals (repeat' split) <;> simp_all

@[simp] theorem pct_erase (e : PctSet) (p : Str) (ec : Option Err) : (e.n_parse p ec).val = e.parse p ec := by
  fun_induction PctSet.n_parse e p ec <;> unfold PctSet.parse <;> simp_all [check_escape]
  · rename_i a b u h _
    cases hc : (if notHex a = true ∨ notHex b = true then some Err.bad_pct_encoding_digit else _ : Option Err) <;> simp_all

@[simp] theorem ps_pct_erase (ps : PS) (e : PctSet) (q : Str) : (ps.n_pct e q).val = ps.pct e q := by
  simp [PS.n_pct, PS.pct]

@[simp] theorem skip_erase (p : Str) : (n_skipSchemeChars p).val = skipSchemeChars p := by
  fun_induction skipSchemeChars p <;> unfold n_skipSchemeChars <;> simp_all

@[simp] theorem scheme_erase (p : Str) : (n_match_scheme p).val = match_scheme p := by
  unfold n_match_scheme match_scheme
  split <;> simp

@[simp] theorem literal_erase (l p : Str) : (n_match_literal l p).val = match_literal l p := by
  unfold n_match_literal match_literal
  split <;> simp

@[simp] theorem octetLoop_erase (p : Str) (v : Nat) : (n_octetLoop p v).val = octetLoop p v := by
  induction p generalizing v with
  | nil => rfl
  | cons c t ih => simp [n_octetLoop, octetLoop, ih]

@[simp] theorem octet_erase (p : Str) : (n_match_octet p).val = match_octet p := by
  unfold n_match_octet match_octet
  split <;> simp

/-- an octet and a dot -/
def octet_dot (p : Str) : Bool × Str :=
  match match_octet p with
  | (none, p) => (false, p)
  | (some _, []) => (false, [])
  | (some _, c :: t) => if c != c!"." then (false, c :: t) else (true, t)

@[simp] theorem octet_dot_erase (p : Str) : (n_octet_dot p).val = octet_dot p := by
  unfold n_octet_dot octet_dot
  simp only [val_bind, octet_erase]
  rcases match_octet p with ⟨_ | v, _ | ⟨c, t⟩⟩ <;> simp

theorem v4_dots (p : Str) : match_ip_v4 p =
    if !(octet_dot p).1 then octet_dot p
    else if !(octet_dot (octet_dot p).2).1 then octet_dot (octet_dot p).2
    else if !(octet_dot (octet_dot (octet_dot p).2).2).1 then octet_dot (octet_dot (octet_dot p).2).2
    else ((match_octet (octet_dot (octet_dot (octet_dot p).2).2).2).1.isSome,
      (match_octet (octet_dot (octet_dot (octet_dot p).2).2).2).2) := by
  unfold match_ip_v4
  rw [show octet_dot p = _ from octet_dot.eq_1 p]
  rcases match_octet p with ⟨_ | v, _ | ⟨c, t⟩⟩ <;> try simp only [Bool.not_false, if_true, not_true_eq_false, if_false]
  by_cases hc : c = c!"." <;> try simp only [hc, bne_self_eq_false, Bool.false_eq_true, if_false, Bool.not_true,
    bne_iff_ne, ne_eq, not_true_eq_false, not_false_eq_true, if_true, Bool.not_false]
  rw [show octet_dot t = _ from octet_dot.eq_1 t]
  rcases match_octet t with ⟨_ | v, _ | ⟨c, t⟩⟩ <;> try simp only [Bool.not_false, if_true, not_true_eq_false, if_false]
  by_cases hc : c = c!"." <;> try simp only [hc, bne_self_eq_false, Bool.false_eq_true, if_false, Bool.not_true,
    bne_iff_ne, ne_eq, not_true_eq_false, not_false_eq_true, if_true, Bool.not_false]
  rw [show octet_dot t = _ from octet_dot.eq_1 t]
  rcases match_octet t with ⟨_ | v, _ | ⟨c, t⟩⟩ <;> try simp only [Bool.not_false, if_true, not_true_eq_false, if_false]
  by_cases hc : c = c!"." <;> try simp only [hc, bne_self_eq_false, Bool.false_eq_true, if_false, Bool.not_true,
    bne_iff_ne, ne_eq, not_true_eq_false, not_false_eq_true, if_true, Bool.not_false]
  rcases match_octet t with ⟨_ | v, _ | ⟨c, t⟩⟩ <;> rfl

theorem tail_dots (p : Str) : v6Tail p =
    if !(octet_dot p).1 then { p := (octet_dot p).2, err := true }
    else if !(octet_dot (octet_dot p).2).1 then { p := (octet_dot (octet_dot p).2).2, err := true }
    else { p := (match_octet (octet_dot (octet_dot p).2).2).2
           err := (match_octet (octet_dot (octet_dot p).2).2).1.isNone } := by
  unfold v6Tail
  rw [show octet_dot p = _ from octet_dot.eq_1 p]
  rcases match_octet p with ⟨_ | v, _ | ⟨c, t⟩⟩ <;> try simp only [Bool.not_false, if_true, not_true_eq_false, if_false]
  by_cases hc : c = c!"." <;> try simp only [hc, bne_self_eq_false, Bool.false_eq_true, if_false, Bool.not_true,
    bne_iff_ne, ne_eq, not_true_eq_false, not_false_eq_true, if_true, Bool.not_false]
  rw [show octet_dot t = _ from octet_dot.eq_1 t]
  rcases match_octet t with ⟨_ | v, _ | ⟨c, t⟩⟩ <;> try simp only [Bool.not_false, if_true, not_true_eq_false, if_false]
  by_cases hc : c = c!"." <;> try simp only [hc, bne_self_eq_false, Bool.false_eq_true, if_false, Bool.not_true,
    bne_iff_ne, ne_eq, not_true_eq_false, not_false_eq_true, if_true, Bool.not_false]
  rcases match_octet t with ⟨_ | v, _ | ⟨c, t⟩⟩ <;> rfl

@[simp] theorem v4_erase (p : Str) : (n_match_ip_v4 p).val = match_ip_v4 p := by
  rw [v4_dots]
  unfold n_match_ip_v4
  simp only [val_bind, octet_erase, octet_dot_erase, val_ite, val_pure]
  rcases match_octet (octet_dot (octet_dot (octet_dot p).2).2).2 with ⟨_ | v, t⟩ <;> rfl

@[simp] theorem wordLoop_erase (k : Nat) (p : Str) (v : Nat) : (n_wordLoop k p v).val = wordLoop k p v := by
  fun_induction wordLoop k p v <;> unfold n_wordLoop <;> simp_all

@[simp] theorem word_erase (c : Byte) (t : Str) : (n_parse_word c t).val = parse_word c t := by
  simp [n_parse_word, parse_word]

@[simp] theorem v6Tail_erase (p : Str) : (n_v6Tail p).val = v6Tail p := by
  rw [tail_dots]
  unfold n_v6Tail
  simp only [val_bind, octet_erase, octet_dot_erase, val_ite, val_pure]
  rcases match_octet (octet_dot (octet_dot p).2).2 with ⟨_ | v, t⟩ <;> rfl

@[simp] theorem v6Loop_erase (f : Nat) (p : Str) (n w : Nat) (b c : Bool) :
    (n_v6Loop f p n b c w).val = v6Loop f p n b c w := by
  induction f generalizing p n w b c with
  | zero => rfl
  | succ f ih =>
    rcases p with _ | ⟨x, t⟩
    · simp [n_v6Loop, v6Loop]
    · rcases t with _ | ⟨y, u⟩
      · simp only [n_v6Loop, v6Loop, val_bind, val_ite, val_pure, word_erase, v6Tail_erase]
        rcases parse_word x [] with ⟨_ | v, q⟩ <;> simp only [val_ite, val_pure, ih]
      · simp only [n_v6Loop, v6Loop, val_bind, val_ite, val_pure, word_erase, v6Tail_erase, ih]
        rcases parse_word x (y :: u) with ⟨_ | v, q⟩ <;> rcases parse_word y u with ⟨_ | v', q'⟩ <;>
          simp only [val_ite, val_pure, ih]

@[simp] theorem v6_erase (p : Str) : (n_parse_ip_v6 p).val = parse_ip_v6 p := by
  unfold n_parse_ip_v6 parse_ip_v6
  split <;> simp

@[simp] theorem ip_literal_erase (ps : PS) : (n_parse_ip_literal ps).val = parse_ip_literal ps := by
  unfold n_parse_ip_literal parse_ip_literal
  rcases ps.p with _ | ⟨c, t⟩
  · rfl
  · simp only [val_bind, val_ite, val_pure, v6_erase]
    rcases (parse_ip_v6 t).p with _ | ⟨d, u⟩ <;> simp only [val_bind, val_ite, val_pure]

@[simp] theorem domain_erase (ps : PS) : (n_parse_ipv4_or_domain ps).val = parse_ipv4_or_domain ps := by
  unfold n_parse_ipv4_or_domain parse_ipv4_or_domain
  simp only [val_bind, v4_erase]
  rcases match_ip_v4 ps.p with ⟨_ | _, q⟩ <;> simp

@[simp] theorem hostname_erase (ps : PS) : (n_parse_hostname ps).val = parse_hostname ps := by
  simp [n_parse_hostname, parse_hostname]

@[simp] theorem digits_erase (p : Str) : (n_skipDigits p).val = skipDigits p := by
  induction p with
  | nil => rfl
  | cons c t ih => simp [n_skipDigits, skipDigits, ih]

@[simp] theorem host_erase (ps : PS) : (n_parse_host ps).val = parse_host ps := by
  simp only [n_parse_host, parse_host, val_bind, hostname_erase, val_ite]
  rcases (parse_hostname ps).p with _ | ⟨d, u⟩ <;> simp

@[simp] theorem userinfo_erase (ps : PS) : (n_parse_userinfo ps).val = parse_userinfo ps := by
  simp [n_parse_userinfo, parse_userinfo]

@[simp] theorem authority_erase (ps : PS) : (n_parse_authority ps).val = parse_authority ps := by
  simp only [n_parse_authority, parse_authority, val_bind, userinfo_erase, val_ite, literal_erase]
  rcases match_literal b!"@" (parse_userinfo ps).p with _ | q <;> simp

@[simp] theorem pathLoop_erase (e : PctSet) (f : Nat) (ps : PS) : (n_pathLoop e f ps).val = pathLoop e f ps := by
  induction f generalizing ps with
  | zero => rfl
  | succ f ih =>
    unfold n_pathLoop pathLoop
    rcases ps.p with _ | ⟨d, u⟩ <;> simp [ih]

@[simp] theorem pathLoopMark_erase (ps : PS) : (n_pathLoopMark ps).val = pathLoopMark ps := by
  simp [n_pathLoopMark, pathLoopMark]

@[simp] theorem path_absolute_erase (ps : PS) : (n_parse_path_absolute ps).val = parse_path_absolute ps := by
  unfold n_parse_path_absolute parse_path_absolute
  rcases ps.p with _ | ⟨c, _ | ⟨d, u⟩⟩ <;> simp

@[simp] theorem path_first_erase (e : PctSet) (ps : PS) : (n_parse_path_first e ps).val = parse_path_first e ps := by
  simp [n_parse_path_first, parse_path_first]

@[simp] theorem part_erase (e : PctSet) (ps : PS) : (n_parse_part e ps).val = parse_part e ps := by
  simp only [n_parse_part, parse_part, val_bind, literal_erase]
  rcases match_literal b!"//" ps.p with _ | q <;> simp [parse_path_abempty]

@[simp] theorem queryLoop_erase (f : Nat) (ps : PS) (n : Nat) : (n_queryLoop f ps n).val = queryLoop f ps n := by
  induction f generalizing ps n with
  | zero => rfl
  | succ f ih =>
    unfold n_queryLoop queryLoop
    simp only [val_bind, val_ite, ps_pct_erase]
    rcases (ps.pct qkey_pct_set ps.p).p with _ | ⟨c, _ | ⟨d, u⟩⟩
    · simp
    · simp
    · simp only [val_bind, val_ite, val_pure, ps_pct_erase]
      generalize (PS.pct _ qval_pct_set (d :: u)) = r
      rcases r.p with _ | ⟨c', t⟩ <;> simp [ih]

@[simp] theorem query_erase (ps : PS) : (n_parse_query ps).val = parse_query ps := by
  unfold n_parse_query parse_query
  rcases ps.p with _ | ⟨d, u⟩ <;> simp

@[simp] theorem fragment_erase (ps : PS) : (n_parse_fragment ps).val = parse_fragment ps := by
  unfold n_parse_fragment parse_fragment
  rcases ps.p with _ | ⟨d, u⟩ <;> simp

@[simp] theorem tail_erase (ps : PS) : (n_parse_url_tail ps).val = parse_url_tail ps := by
  simp [n_parse_url_tail, parse_url_tail]

/-- Counting does not change the result. -/
theorem parse_erase (s : Str) : (n_parse_url s).val = parse_url s := by
  unfold n_parse_url parse_url
  simp only [val_bind, scheme_erase, hier_eq, relative_eq]
  rcases match_scheme (PS.init s).p with ⟨_ | _, q⟩
  · simp; rfl
  · simp only [val_bind, literal_erase]
    rcases match_literal b!":" q with _ | r
    · simp; rfl
    · simp

end Url
