import Verif.Proofs.View
import Verif.Proofs.Safe

/-!
Constructing a `url_view`, and uniqueness of the decomposition.
-/

set_option linter.unusedSimpArgs false

namespace Url
open Spec

theorem make_eq (s : Str) : View.make s =
    if (parse_url s).ec.isSome then .throw .invalid_part else .ret { s := s, pt := (parse_url s).pt } := by
  unfold View.make
  simp only [(good_url s).flt]

/-- what a parsed view represents -/
structure ViewRep (v : View) (c : Components) : Prop where
  s : v.s = c.render
  obj : ∀ dbg, ObjRep (v.obj dbg) (compParts c)
  nseg : v.pt.nseg = (pathSegments c.path).length
  nparam : v.pt.nparam = paramCount c.query
  host : HostKind c.host v.pt.host

theorem host_eq (c : Components) : hostText c.auth = c.host := by
  unfold hostText Components.host; cases c.auth <;> rfl

theorem viewRep_of {c : Components} (hc : c.Valid lib) :
    (parse_url c.render).ec = none ∧ ViewRep { s := c.render, pt := (parse_url c.render).pt } c := by
  obtain ⟨k, h, hk⟩ := parse_url_complete hc
  refine ⟨h.ec, rfl, fun dbg => ⟨h.rep, [], ?_⟩, h.nseg, h.nparam, ?_⟩
  · simp [View.obj, compParts_flatten]
  · rw [← host_eq]; simp only [h.host]; exact hk

theorem make_of {c : Components} (hc : c.Valid lib) : ∃ v, View.make c.render = .ret v ∧ ViewRep v c := by
  obtain ⟨h1, h2⟩ := viewRep_of hc
  exact ⟨_, by rw [make_eq, h1]; rfl, h2⟩

theorem make_inv {s : Str} {v : View} (h : View.make s = .ret v) :
    ∃ c : Components, c.Valid lib ∧ c.render = s ∧ ViewRep v c := by
  rw [make_eq] at h
  split at h
  · simp at h
  · rename_i he
    simp only [Res.ret.injEq] at h
    have he : (parse_url s).ec = none := by simpa using he
    obtain ⟨c, hc, rfl⟩ := parse_url_sound he
    exact ⟨c, hc, rfl, h ▸ (viewRep_of hc).2⟩

/-- Equal offsets and equal text: equal parts. -/
theorem parts_unique {α : Type} {L L' : List (List α)} (hl : L.length = L'.length) (hf : L.flatten = L'.flatten)
    (ho : ∀ i, plen L i = plen L' i) : L = L' := by
  induction L generalizing L' with
  | nil => cases L' with
    | nil => rfl
    | cons => simp at hl
  | cons x L ih =>
    cases L' with
    | nil => simp at hl
    | cons y L' =>
      have h1 : x.length = y.length := by have := ho 1; simpa using this
      simp only [List.flatten_cons] at hf
      obtain ⟨e1, e2⟩ := List.append_inj hf h1
      subst e1
      rw [ih (by simpa using hl) e2 (fun i => by have := ho (i + 1); simpa using this)]

theorem schemeText_inj {a b : Option Str} (h : schemeText a = schemeText b) : a = b := by
  cases a <;> cases b <;> simp_all [schemeText]
theorem queryText_inj {a b : Option Str} (h : queryText a = queryText b) : a = b := by
  cases a <;> cases b <;> simp_all [queryText]
theorem fragText_inj {a b : Option Str} (h : fragText a = fragText b) : a = b := by
  cases a <;> cases b <;> simp_all [fragText]
theorem portText_inj {a b : Option Str} (h : portText a = portText b) : a = b := by
  cases a <;> cases b <;> simp_all [portText]

theorem authTexts_inj {a b : Option Auth} (h : authTexts a = authTexts b) : a = b := by
  rcases a with _ | ⟨_ | ⟨u, _ | p⟩, hh, pp⟩ <;> rcases b with _ | ⟨_ | ⟨u', _ | p'⟩, hh', pp'⟩ <;>
    simp [authTexts, authParts, userParts] at h ⊢
  all_goals first
    | exact ⟨h.1, portText_inj h.2⟩
    | exact ⟨h.1, h.2.1, portText_inj h.2.2⟩
    | exact ⟨⟨h.1, h.2.1⟩, h.2.2.1, portText_inj h.2.2.2⟩

theorem compParts_inj {c c' : Components} (h : compParts c = compParts c') : c = c' := by
  obtain ⟨s, a, p, q, f⟩ := c
  obtain ⟨s', a', p', q', f'⟩ := c'
  simp only [compParts, List.cons_append, List.cons.injEq] at h
  obtain ⟨h1, h2⟩ := h
  obtain ⟨h2, h3⟩ := List.append_inj h2 (by rw [authTexts_length, authTexts_length])
  simp only [List.cons.injEq, and_true] at h3
  rw [schemeText_inj h1, authTexts_inj h2, h3.1, queryText_inj h3.2.1, fragText_inj h3.2.2]

/-- No text has two valid decompositions. -/
theorem decomposition_unique {c c' : Components} (hc : c.Valid lib) (hc' : c'.Valid lib)
    (h : c.render = c'.render) : c = c' := by
  obtain ⟨k, h1, _⟩ := parse_url_complete hc
  obtain ⟨k', h2, _⟩ := parse_url_complete hc'
  apply compParts_inj
  apply parts_unique
  · rw [compParts_length, compParts_length]
  · rw [compParts_flatten, compParts_flatten, h]
  · intro i; rw [← h1.rep i, ← h2.rep i, h]

end Url
