import Verif.Proofs.Path

/-!
`parse_query` and `parse_fragment`.
-/

set_option linter.unusedSimpArgs false

namespace Url
open Spec

abbrev QChars (s : Str) : Prop := Escaped isUpperHex isQueryFrag s

/-! ### counting pairs -/

theorem libPairs_ne (q : Str) : libPairs q ≠ [] := by
  induction q with
  | nil => simp [libPairs]
  | cons c t ih =>
    unfold libPairs
    split
    · simp
    · split
      · contradiction
      · simp

/-- a key is prepended to the first pair -/
theorem libPairs_key {k q : Str} (hk : k.all (· != c!"=")) :
    (libPairs (k ++ q)).length = (libPairs q).length := by
  induction k with
  | nil => rfl
  | cons c k ih =>
    simp only [List.all_cons, Bool.and_eq_true, bne_iff_ne] at hk
    have ih := ih hk.2
    simp only [List.cons_append]
    rw [libPairs]
    simp only [hk.1, if_false]
    cases hl : libPairs (k ++ q) with
    | nil => exact absurd hl (libPairs_ne _)
    | cons p r =>
      rw [hl] at ih
      rw [← ih]
      rfl

theorem libPairs_eq (q : Str) : (libPairs (c!"=" :: q)).length = 1 + (libValue q).2.length := by
  rw [libPairs]; simp; omega

theorem libValue_none {v : Str} (hv : v.all (· != c!"&")) : (libValue v).2 = [] := by
  induction v with
  | nil => simp [libValue]
  | cons c v ih =>
    simp only [List.all_cons, Bool.and_eq_true, bne_iff_ne] at hv
    rw [libValue]
    simp [hv.1, ih hv.2]

theorem libValue_amp {v q : Str} (hv : v.all (· != c!"&")) : (libValue (v ++ c!"&" :: q)).2 = libPairs q := by
  induction v with
  | nil => simp [libValue]
  | cons c v ih =>
    simp only [List.all_cons, Bool.and_eq_true, bne_iff_ne] at hv
    simp only [List.cons_append]
    rw [libValue]
    simp [hv.1, ih hv.2]

theorem libPairs_noeq {k : Str} (hk : k.all (· != c!"=")) : (libPairs k).length = 1 := by
  have := libPairs_key (q := []) hk
  simpa [libPairs] using this

/-! ### splitting escaped text at a delimiter -/

/-- escaped text is escaped text without the delimiter, followed by nothing or the delimiter -/
theorem escaped_split {hex ok : Byte → Bool} (d : Byte) (hd : ok d = true) {q : Str} (h : Escaped hex ok q) :
    ∃ k r, q = k ++ r ∧ Escaped hex (fun c => ok c && c != d) k ∧
      (r = [] ∨ ∃ r', r = d :: r' ∧ Escaped hex ok r') := by
  induction h with
  | nil => exact ⟨[], [], rfl, .nil, .inl rfl⟩
  | @char c s hc hs ih =>
    by_cases hcd : c = d
    · subst hcd
      exact ⟨[], c :: s, rfl, .nil, .inr ⟨s, rfl, hs⟩⟩
    · obtain ⟨k, r, rfl, hk, hr⟩ := ih
      exact ⟨c :: k, r, rfl, .char (by simp [hc, hcd]) hk, hr⟩
  | @pct a b s ha hb _ ih =>
    obtain ⟨k, r, rfl, hk, hr⟩ := ih
    exact ⟨c!"%" :: a :: b :: k, r, rfl, .pct ha hb hk, hr⟩

theorem qkey_noeq {k : Str} (h : Escaped isUpperHex isQkey k) : k.all (· != c!"=") :=
  escaped_all (P := (· != c!"=")) (forall_byte (by decide +kernel)) (forall_byte (by decide +kernel)) (by decide) h

theorem qval_noamp {k : Str} (h : Escaped isUpperHex isQval k) : k.all (· != c!"&") :=
  escaped_all (P := (· != c!"&")) (forall_byte (by decide +kernel)) (forall_byte (by decide +kernel)) (by decide) h

theorem qkey_q {k : Str} (h : Escaped isUpperHex isQkey k) : QChars k :=
  h.mono (fun _ h => h) (forall_byte (by decide +kernel))

theorem qval_q {k : Str} (h : Escaped isUpperHex isQval k) : QChars k :=
  h.mono (fun _ h => h) (forall_byte (by decide +kernel))

/-! ### the loop -/

/-- the end of `parse_query` -/
def queryFinish (ps : PS) (r : Str) (n : Nat) : PS :=
  let ps := ({ ps with p := r } : PS).mark id_query
  { ps with pt := { ps.pt with nparam := n } }

theorem qstop_key {r : Str} (h : Stop isQueryFrag r) : Stop isQkey r := by
  cases r with
  | nil => trivial
  | cons c t => exact ⟨h.1, by have := h.2; simp [isQkey, this]⟩

theorem qstop_val {r : Str} (h : Stop isQueryFrag r) : Stop isQval r := by
  cases r with
  | nil => trivial
  | cons c t => exact ⟨h.1, by have := h.2; simp [isQval, this]⟩

theorem qstop_ne {r : Str} (h : Stop isQueryFrag r) (c : Byte) (hc : isQueryFrag c = true) : ∀ t, r ≠ c :: t := by
  rintro t rfl
  have := h.2
  simp [hc] at this

theorem queryLoop_of (fuel : Nat) {ps : PS} {q r : Str} {n : Nat} (hq : QChars q) (hr : Stop isQueryFrag r)
    (hp : ps.p = q ++ r) (hec : ps.ec = none) (hf : q.length < fuel) :
    queryLoop fuel ps n = queryFinish ps r (n + (libPairs q).length) := by
  induction fuel generalizing ps q n with
  | zero => omega
  | succ f ih =>
    obtain ⟨inp, p, pt, ec, flt⟩ := ps
    simp only at hp hec
    subst hp hec
    obtain ⟨k, r1, rfl, hk, h1⟩ := escaped_split c!"=" (by decide) hq
    have hk : Escaped isUpperHex isQkey k := hk
    unfold queryLoop
    have hpct : PS.pct { inp := inp, p := k ++ r1 ++ r, pt := pt, flt := flt } qkey_pct_set (k ++ r1 ++ r) =
        { inp := inp, p := r1 ++ r, pt := pt, flt := flt } := by
      unfold PS.pct
      have : Stop isQkey (r1 ++ r) := by
        rcases h1 with rfl | ⟨r', rfl, _⟩
        · exact qstop_key hr
        · exact ⟨by decide, by decide⟩
      simp only [List.append_assoc, pct_parse_of setOf_qkey hk this]
    simp only [hpct, Option.isSome_none, Bool.false_eq_true, if_false]
    rcases h1 with rfl | ⟨r2, rfl, hr2⟩
    · -- no `=`
      have hlen : (libPairs (k ++ [])).length = 1 := by simpa using libPairs_noeq (qkey_noeq hk)
      simp only [List.nil_append, hlen]
      split
      · rfl
      · rename_i c t
        have hc : c ≠ c!"=" := by rintro rfl; exact qstop_ne hr c!"=" (by decide) t rfl
        simp [hc, queryFinish]
    · simp only [List.cons_append, bne_self_eq_false, Bool.false_eq_true, if_false]
      rw [libPairs_key (qkey_noeq hk), libPairs_eq]
      obtain ⟨v, r3, rfl, hv, h3⟩ := escaped_split c!"&" (by decide) hr2
      have hv : Escaped isUpperHex isQval v := hv
      have hpct2 : ∀ p, PS.pct { inp := inp, p := p, pt := pt, flt := flt } qval_pct_set
          (v ++ r3 ++ r) = { inp := inp, p := r3 ++ r, pt := pt, flt := flt } := by
        intro p
        unfold PS.pct
        have : Stop isQval (r3 ++ r) := by
          rcases h3 with rfl | ⟨r', rfl, _⟩
          · exact qstop_val hr
          · exact ⟨by decide, by decide⟩
        simp only [List.append_assoc, pct_parse_of setOf_qval hv this]
      split
      · rename_i hnil
        simp only [List.append_eq_nil_iff] at hnil
        obtain ⟨⟨rfl, rfl⟩, rfl⟩ := hnil
        simp [libValue, queryFinish]
      · simp only [hpct2, Option.isSome_none, Bool.false_eq_true, if_false]
        rcases h3 with rfl | ⟨r4, rfl, hr4⟩
        · rw [List.append_nil, libValue_none (qval_noamp hv)]
          simp only [List.nil_append, List.length_nil, Nat.add_zero]
          split
          · rfl
          · rename_i c t _
            have hc : c ≠ c!"&" := by rintro rfl; exact qstop_ne hr c!"&" (by decide) t rfl
            simp [hc, queryFinish]
        · simp only [List.cons_append, bne_self_eq_false, Bool.false_eq_true, if_false]
          rw [libValue_amp (qval_noamp hv)]
          rw [ih hr4 rfl rfl (by simp at hf; omega)]
          rw [Nat.add_assoc]
          rfl

theorem queryLoop_inv (fuel : Nat) {ps : PS} {n : Nat} (hec : ps.ec = none) (hl : ps.p.length < fuel)
    (h : (queryLoop fuel ps n).ec = none) : ∃ q r, ps.p = q ++ r ∧ QChars q ∧ Stop isQueryFrag r := by
  induction fuel generalizing ps n with
  | zero => omega
  | succ f ih =>
    unfold queryLoop at h
    simp only at h
    split at h
    · rename_i h'; rw [h] at h'; simp at h'
    · rename_i h1
      have h1 := Option.not_isSome_iff_eq_none.1 h1
      obtain ⟨k, e1, hk, hst⟩ := pct_inv setOf_qkey hec h1
      split at h
      · rename_i hp
        rw [hp] at e1
        exact ⟨k, [], e1, qkey_q hk, trivial⟩
      · rename_i c t hp
        rw [hp] at e1 hst
        split at h
        · rename_i hc
          simp only [bne_iff_ne, ne_eq] at hc
          refine ⟨k, c :: t, e1, qkey_q hk, hst.1, ?_⟩
          have := hst.2
          simpa [isQkey, hc] using this
        · rename_i hc
          simp only [bne_iff_ne, ne_eq, Decidable.not_not] at hc
          subst hc
          have hke : QChars (k ++ b!"=") := (qkey_q hk).append (.char (by decide) .nil)
          split at h
          · exact ⟨k ++ b!"=", [], by rw [e1]; simp, hke, trivial⟩
          · rename_i d u
            split at h
            · rename_i h'; rw [h] at h'; simp at h'
            · rename_i h2
              have h2 := Option.not_isSome_iff_eq_none.1 h2
              obtain ⟨v, e2, hv, hst2⟩ := pct_inv setOf_qval (by exact h1) h2
              have hkv : QChars (k ++ b!"=" ++ v) := hke.append (qval_q hv)
              split at h
              · rename_i hp2
                rw [hp2] at e2
                exact ⟨k ++ b!"=" ++ v, [], by rw [e1, e2]; simp, hkv, trivial⟩
              · rename_i d2 u2 hp2
                rw [hp2] at e2 hst2
                split at h
                · rename_i hd
                  simp only [bne_iff_ne, ne_eq] at hd
                  refine ⟨k ++ b!"=" ++ v, d2 :: u2, by rw [e1, e2]; simp, hkv, hst2.1, ?_⟩
                  have := hst2.2
                  simpa [isQval, hd] using this
                · rename_i hd
                  simp only [bne_iff_ne, ne_eq, Decidable.not_not] at hd
                  subst hd
                  have hlen : u2.length < f := by
                    rw [e1, e2] at hl
                    simp at hl
                    omega
                  obtain ⟨q, r, i1, i2, i3⟩ := ih (by exact h2) (by exact hlen) h
                  simp only at i1
                  refine ⟨k ++ b!"=" ++ v ++ b!"&" ++ q, r, ?_, ?_, i3⟩
                  · rw [e1, e2, i1]; simp
                  · exact (hkv.append (.char (by decide) .nil)).append i2

theorem queryLoop_flt (fuel : Nat) {ps : PS} {n : Nat} (hf : ps.flt = none) (hl : ps.p.length < fuel) :
    (queryLoop fuel ps n).flt = none := by
  induction fuel generalizing ps n with
  | zero => omega
  | succ f ih =>
    unfold queryLoop
    have l1 := pct_length ps qkey_pct_set ps.p
    simp only
    split
    · simpa [pct_rest] using hf
    · split
      · simpa [(mark_rest _ _).2.2.2.1, pct_rest] using hf
      · rename_i c t hp
        rw [hp] at l1
        simp only [List.length_cons] at l1
        split
        · simpa [(mark_rest _ _).2.2.2.1, pct_rest] using hf
        · split
          · simpa [(mark_rest _ _).2.2.2.1, pct_rest] using hf
          · rename_i d u
            have l2 := pct_length { ps.pct qkey_pct_set ps.p with p := d :: u } qval_pct_set (d :: u)
            split
            · simpa [pct_rest] using hf
            · split
              · simpa [(mark_rest _ _).2.2.2.1, pct_rest] using hf
              · rename_i d2 u2 hp2
                rw [hp2] at l2
                simp only [List.length_cons] at l2 l1
                split
                · simpa [(mark_rest _ _).2.2.2.1, pct_rest] using hf
                · apply ih
                  · simpa [pct_rest] using hf
                  · simp only; omega

/-- the text of an optional query -/
def queryText : Option Str → Str
  | none => []
  | some q => c!"?" :: q

/-- the text of an optional fragment -/
def fragText : Option Str → Str
  | none => []
  | some f => c!"#" :: f

/-- the number of parameters the library counts -/
def paramCount : Option Str → Nat
  | none => 0
  | some q => (libPairs q).length

theorem query_of {ps L q r ns h} (hq : ∀ s, q = some s → QChars s)
    (hr : match q with | none => ∀ t, r ≠ c!"?" :: t | some _ => Stop isQueryFrag r) (hL : L.length = 6)
    (a : At ps L [] (queryText q ++ r) ns 0 h) :
    At (parse_query ps) (L ++ [queryText q]) [] r ns (paramCount q) h := by
  cases q with
  | none =>
    have : parse_query ps = ps := by
      unfold parse_query
      split
      · rfl
      · rename_i c t hp
        rw [a.p] at hp
        have : c ≠ c!"?" := by rintro rfl; exact hr t hp
        simp [this]
    rw [this]
    exact a.skip
  | some q =>
    have hq := hq q rfl
    have e := queryLoop_of (ps.p.length + 1) (ps := ps) (q := c!"?" :: q) (r := r) (n := 0)
      (.char (by decide) hq) hr a.p a.ec (by rw [a.p]; simp [queryText]; omega)
    have hlen : (libPairs (c!"?" :: q)).length = (libPairs q).length :=
      libPairs_key (k := b!"?") (by decide)
    have : parse_query ps = queryFinish ps r (0 + (libPairs (c!"?" :: q)).length) := by
      rw [← e]
      unfold parse_query
      rw [a.p]
      simp [queryText]
    rw [this, hlen]
    have b := a.advance.mark (id := id_query) hL.symm
    exact ⟨b.rep, b.inp, b.p, b.ec, b.flt, b.nseg, by simp [queryFinish, paramCount], b.host⟩

theorem query_inv {ps : PS} (hec : ps.ec = none) (h : (parse_query ps).ec = none) :
    ∃ q r, (∀ s, q = some s → QChars s) ∧ ps.p = queryText q ++ r ∧
      (match q with | none => ∀ t, r ≠ c!"?" :: t | some _ => Stop isQueryFrag r) := by
  unfold parse_query at h
  split at h
  · rename_i hp
    exact ⟨none, [], by simp, by simp [hp, queryText], by simp⟩
  · rename_i c t hp
    split at h
    · rename_i hc
      simp only [bne_iff_ne, ne_eq] at hc
      refine ⟨none, c :: t, by simp, by simp [hp, queryText], ?_⟩
      intro t' e; simp at e; exact hc e.1
    · rename_i hc
      simp only [bne_iff_ne, ne_eq, Decidable.not_not] at hc
      subst hc
      obtain ⟨q, r, e, hq, hr⟩ := queryLoop_inv _ hec (by omega) h
      rw [hp] at e
      cases q with
      | nil =>
        simp only [List.nil_append] at e
        rw [← e] at hr
        exact absurd hr.2 (by decide)
      | cons c q =>
        simp only [List.cons_append, List.cons.injEq] at e
        obtain ⟨rfl, rfl⟩ := e
        refine ⟨some q, r, ?_, by simp [hp, queryText], hr⟩
        intro s hs
        simp at hs
        subst hs
        cases hq with
        | char _ h => exact h

theorem fragment_of {ps L f r ns np h} (hf : ∀ s, f = some s → QChars s)
    (hr : match f with | none => ∀ t, r ≠ c!"#" :: t | some _ => Stop isQueryFrag r) (hL : L.length = 7)
    (a : At ps L [] (fragText f ++ r) ns np h) :
    At (parse_fragment ps) (L ++ [fragText f]) [] r ns np h := by
  cases f with
  | none =>
    have : parse_fragment ps = ps := by
      unfold parse_fragment
      split
      · rfl
      · rename_i c t hp
        rw [a.p] at hp
        have : c ≠ c!"#" := by rintro rfl; exact hr t hp
        simp [this]
    rw [this]
    exact a.skip
  | some f =>
    have b := a.advance.mark (id := id_frag) hL.symm
    refine b.congr ?_
    unfold parse_fragment
    rw [a.p]
    have hpct : PS.pct ps frag_pct_set (f ++ r) = { ps with p := r } := by
      unfold PS.pct
      rw [a.ec, pct_parse_of setOf_frag (hf f rfl) hr]
    simp only [fragText, List.cons_append, bne_self_eq_false, Bool.false_eq_true, if_false, hpct, a.ec,
      Option.isSome_none]

theorem fragment_inv {ps : PS} (hec : ps.ec = none) (h : (parse_fragment ps).ec = none) :
    ∃ f r, (∀ s, f = some s → QChars s) ∧ ps.p = fragText f ++ r ∧
      (match f with | none => ∀ t, r ≠ c!"#" :: t | some _ => Stop isQueryFrag r) := by
  unfold parse_fragment at h
  split at h
  · rename_i hp
    exact ⟨none, [], by simp, by simp [hp, fragText], by simp⟩
  · rename_i c t hp
    split at h
    · rename_i hc
      simp only [bne_iff_ne, ne_eq] at hc
      refine ⟨none, c :: t, by simp, by simp [hp, fragText], ?_⟩
      intro t' e; simp at e; exact hc e.1
    · rename_i hc
      simp only [bne_iff_ne, ne_eq, Decidable.not_not] at hc
      subst hc
      simp only at h
      split at h
      · rename_i h'; rw [h] at h'; simp at h'
      · rename_i h1
        obtain ⟨f, e, hf, hst⟩ := pct_inv setOf_frag hec (Option.not_isSome_iff_eq_none.1 h1)
        exact ⟨some f, _, by rintro s hs; simp at hs; subst hs; exact hf,
          by rw [hp]; simp only [fragText, List.cons_append]; rw [← e], hst⟩

end Url
