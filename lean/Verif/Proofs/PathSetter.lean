import Verif.Proofs.Setters
import Verif.Proofs.Safe

/-!
What the parser functions accept as a whole, and `set_encoded_path`.
-/

set_option linter.unusedSimpArgs false
attribute [-simp] List.length_flatten

namespace Url
open Spec

variable {env : Env} {st : St}

theorem parsedAll_ok {ps : PS} (hf : ps.flt = none) (he : ps.ec = none) (hp : ps.p = []) :
    Base.parsedAll ps env st = .ret ps.pt st := by
  simp [Base.parsedAll, Base.parsed, hf, he, PS.done, hp, run_bind]

theorem parsedAll_bad {ps : PS} (hf : ps.flt = none) (h : ¬ (ps.ec = none ∧ ps.p = [])) :
    Base.parsedAll ps env st = .throw .invalid_part st := by
  unfold Base.parsedAll Base.parsed
  rw [hf]
  by_cases he : ps.ec = none
  · have hp : ps.done = false := by simpa [PS.done, he] using h
    simp [he, hp, run_bind]
  · have : ps.ec.isSome = true := by cases h : ps.ec <;> simp_all
    simp [this, run_bind]

theorem parsedAll_of {v : Prop} {ps : PS} {f : Parts → M Unit} {c' k} (hf : ps.flt = none)
    (hv : (ps.ec = none ∧ ps.p = []) ↔ v) (h : v → SetsTo env st c' k (f ps.pt env st)) :
    Checked v env st c' k ((Base.parsedAll ps >>= f) env st) := by
  by_cases hp : ps.ec = none ∧ ps.p = []
  · refine .inl ⟨hv.1 hp, ?_⟩
    rw [run_bind_ret (parsedAll_ok hf hp.1 hp.2)]
    exact h (hv.1 hp)
  · refine .inr ⟨fun x => hp (hv.2 x), ?_⟩
    rw [run_bind_throw (parsedAll_bad hf hp)]

/-- a fresh parser has recorded any number of empty parts -/
theorem At.fresh (n : Nat) (s : Str) : At (PS.init s) (List.replicate n []) [] s 0 0 .none := by
  refine ⟨fun i => ?_, by simp [PS.init], rfl, rfl, rfl, rfl, rfl, rfl⟩
  rw [plen_replicate]; rfl

theorem abempty_all {s : Str} : ((parse_path_abempty (PS.init s)).ec = none ∧ (parse_path_abempty (PS.init s)).p = []) ↔
    Slashed isUpperHex s := by
  constructor
  · rintro ⟨h1, h2⟩
    obtain ⟨p, r, hp, e, hr2, hr⟩ := abempty_inv rfl h1
    have e : s = p ++ r := e
    subst e
    have := (abempty_of hp hr hr2 (by simp) (At.fresh 5 (p ++ r))).p
    rw [h2] at this
    subst this
    simpa using hp
  · intro h
    have a := abempty_of (L := List.replicate 5 []) (r := []) h (fun _ => trivial) (by simp) (by simp) (by simpa using At.fresh 5 s)
    exact ⟨a.ec, a.p⟩

theorem absolute_all {s : Str} : ((parse_path_absolute (PS.init s)).ec = none ∧ (parse_path_absolute (PS.init s)).p = []) ↔
    LoosePathAbsolute s false := by
  constructor
  · rintro ⟨h1, h2⟩
    obtain ⟨p, r, hp, e, hr⟩ := absolute_inv rfl h1
    have e : s = p ++ r := e
    subst e
    have := (absolute_of hp hr (by simp) (At.fresh 5 (p ++ r))).p
    rw [h2] at this
    subst this
    simpa using hp
  · intro h
    have a := absolute_of (L := List.replicate 5 []) (r := []) h ⟨trivial, by simp⟩ (by simp) (by simpa using At.fresh 5 s)
    exact ⟨a.ec, a.p⟩

theorem first_all {e : PctSet} {ok : Byte → Bool} (he : SetOf e ok) (hns : ∀ s, Escaped isUpperHex ok s → s.all (· != c!"/"))
    (hsl : ok c!"/" = false) {s : Str} :
    ((parse_path_first e (PS.init s)).ec = none ∧ (parse_path_first e (PS.init s)).p = []) ↔
    ∃ x t, x ≠ [] ∧ Escaped isUpperHex ok x ∧ Slashed isUpperHex t ∧ s = x ++ t := by
  constructor
  · rintro ⟨h1, h2⟩
    obtain ⟨x, t, r, h0, hx, ht, e, hr2, hr, hr'⟩ := first_inv he rfl h1
    have e : s = x ++ t ++ r := e
    subst e
    have := (first_of he h0 hx (hns _ hx) hsl ht hr hr2 hr' (by simp) (At.fresh 5 _)).p
    rw [h2] at this
    subst this
    exact ⟨x, t, h0, hx, ht, by simp⟩
  · rintro ⟨x, t, h0, hx, ht, rfl⟩
    have a := first_of (L := List.replicate 5 []) (r := []) he h0 hx (hns _ hx) hsl ht (fun _ => trivial) (by simp) (fun _ => trivial) (by simp)
      (by simpa using At.fresh 5 (x ++ t))
    exact ⟨a.ec, a.p⟩

theorem rootless_all {s : Str} : ((parse_path_rootless (PS.init s)).ec = none ∧ (parse_path_rootless (PS.init s)).p = []) ↔
    PathRootless isUpperHex s := by
  rw [rootless_eq]
  exact first_all setOf_pchar (fun _ h => pchars_noslash h) (by decide)

theorem nc_noslash {s : Str} (h : Escaped isUpperHex isPcharNc s) : s.all (· != c!"/") :=
  escaped_all (P := (· != c!"/")) (forall_byte (by decide +kernel)) (forall_byte (by decide +kernel)) (by decide) h

theorem noscheme_all {s : Str} : ((parse_path_noscheme (PS.init s)).ec = none ∧ (parse_path_noscheme (PS.init s)).p = []) ↔
    PathNoscheme isUpperHex s := by
  rw [noscheme_eq]
  exact first_all setOf_pchar_nc (fun _ h => nc_noslash h) (by decide)

theorem loose_head {s : Str} {b} (h : LoosePathAbsolute s b) : s.head? = some c!"/" := by
  rcases h with ⟨rfl, -⟩ | ⟨c, x, t, -, -, -, rfl⟩ <;> rfl

theorem rootless_head {s : Str} (h : PathRootless isUpperHex s) : s ≠ [] ∧ s.head? ≠ some c!"/" := by
  obtain ⟨x, t, h0, hx, -, rfl⟩ := h
  have := pchars_noslash hx
  cases x with
  | nil => exact absurd rfl h0
  | cons a x => simp at this ⊢; exact this.1

theorem noscheme_head {s : Str} (h : PathNoscheme isUpperHex s) : s ≠ [] ∧ s.head? ≠ some c!"/" := by
  obtain ⟨x, t, h0, hx, -, rfl⟩ := h
  have := nc_noslash hx
  cases x with
  | nil => exact absurd rfl h0
  | cons a x => simp at this ⊢; exact this.1

theorem run_has_authority {c} (h : Rep env st c) :
    M.ask (fun o => .ok (has_authority o)) env st = .ret c.auth.isSome st :=
  run_ask (by rw [acc_has_authority (h.obj _)])

/-- the path grammar for the components around it, when nothing follows the path -/
def SetPathOk (c : Components) (s : Str) : Prop := PathOk lib c.scheme.isSome c.auth.isSome false s

theorem base_set_encoded_path {c} (h : Rep env st c) (s : Str) :
    Checked (SetPathOk c s) env st (c.withPath s) st.pt.host (Base.set_encoded_path s env st) := by
  unfold Base.set_encoded_path Components.withPath
  by_cases hs : s = []
  · subst hs
    refine .inl ⟨?_, clear_path_of h⟩
    unfold SetPathOk PathOk
    split
    · exact ⟨[], by simp, rfl⟩
    · split <;> exact .inl rfl
  have he : s.isEmpty = false := by simpa using hs
  simp only [he, Bool.false_eq_true, if_false]
  rw [run_bind_ret (run_has_authority h)]
  have key : ∀ {v ps}, ps.flt = none → ((ps.ec = none ∧ ps.p = []) ↔ v) → (v ↔ SetPathOk c s) →
      Checked (SetPathOk c s) env st { c with path := s } st.pt.host
        ((Base.parsedAll ps >>= fun _ => Base.resize id_path s.length >>= fun dest => M.put dest s) env st) := by
    intro v ps hf h1 h2
    exact (parsedAll_of hf h1 fun _ => set_path_of h).congr h2
  unfold SetPathOk PathOk at key ⊢
  cases ha : c.auth.isSome with
  | true =>
    rw [ha] at key
    exact key (good_abempty (Good.init s)).flt abempty_all (by simp; rfl)
  | false =>
    rw [ha] at key
    simp only [Bool.false_eq_true, if_false] at key ⊢
    by_cases hh : s.head? = some c!"/"
    · have : (s.head? == some c!"/") = true := by simp [hh]
      simp only [this, if_true]
      refine key (good_absolute (Good.init s)).flt absolute_all ?_
      split
      · exact ⟨fun x => .inr (.inl x), fun x => x.elim (absurd · hs) (·.elim id fun y => absurd hh (rootless_head y).2)⟩
      · exact ⟨fun x => .inr (.inl x), fun x => x.elim (absurd · hs) (·.elim id fun y => absurd hh (noscheme_head y).2)⟩
    · have : (s.head? == some c!"/") = false := by simp [hh]
      simp only [this, if_false, Bool.false_eq_true]
      rw [run_bind_ret run_pt]
      have hl : st.pt.length id_scheme = (schemeText c.scheme).length := by
        have := (h.obj false).rep.length id_scheme
        exact this
      cases hsc : c.scheme with
      | none =>
        rw [hsc] at key hl
        simp only [hl, schemeText, List.length_nil, if_true]
        refine key (good_first (Good.init s) pchar_nc_pct_set).flt noscheme_all ?_
        simp
        exact ⟨fun x => .inr (.inr x), fun x => x.elim (absurd · hs) (·.elim (fun y => absurd (loose_head y) hh) id)⟩
      | some sc =>
        rw [hsc] at key hl
        simp only [hl, schemeText, List.length_append, List.length_singleton, Nat.add_eq_zero_iff, Nat.one_ne_zero, and_false, if_false]
        refine key (good_first (Good.init s) pchar_pct_set).flt rootless_all ?_
        simp
        exact ⟨fun x => .inr (.inr x), fun x => x.elim (absurd · hs) (·.elim (fun y => absurd (loose_head y) hh) id)⟩

end Url
