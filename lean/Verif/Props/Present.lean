import Verif.Props.Chars

/-!
C41 as an equivalence: for which urls `has_authority` says what `! encoded_authority().empty()` says.
-/

set_option autoImplicit false

namespace Url.Props

open Url Url.Spec

variable {env : Env} {st : St}

theorem no_slash_authority {c : Components} (hp : PartsOk c) : c!"/" ∉ c.authority := by
  have d := delimited hp
  have hu := d.user c!"/" (by decide)
  have hw := d.password c!"/" (by decide)
  have hh : c!"/" ∉ c.host := by
    rcases d.host with h | ⟨x, e, hx⟩
    · exact h _ (by decide)
    · rw [e]
      intro h
      simp only [List.mem_append, List.mem_singleton] at h
      rcases h with (h | h) | h
      · exact absurd h (by decide)
      · exact absurd (List.all_eq_true.1 hx _ h) (by decide)
      · exact absurd h (by decide)
  have hq : c!"/" ∉ c.port.getD [] := fun h => absurd (List.all_eq_true.1 d.port _ h) (by decide)
  rcases c with ⟨sc, _ | ⟨_ | ⟨u, _ | pw⟩, hh, _ | pt⟩, pa, qu, f⟩ <;>
    simp_all [Components.authority, Auth.render, Components.user, Components.password, Components.host, Components.port,
      Components.userinfo]

theorem origin_double {c : Components} (hp : PartsOk c) : b!"//" <:+ c.origin ↔ c.auth.isSome = true ∧ c.authority = [] := by
  have hn := no_slash_authority hp
  have d := (delimited hp).scheme
  have hs : c!"/" ∉ withSuffix b!":" c.scheme := by
    intro h
    cases hc : c.scheme with
    | none => rw [hc] at h; cases h
    | some s =>
      rw [hc] at h d
      rcases List.mem_append.1 h with h | h
      · exact absurd (List.all_eq_true.1 d _ h) (by decide)
      · exact absurd h (by decide)
  unfold Components.origin
  unfold Components.authority at hn ⊢
  cases hc : c.auth with
  | none =>
    refine ⟨fun h => absurd (h.subset (List.mem_cons_self ..)) ?_, fun h => absurd h.1 (by decide)⟩
    simpa [withPrefix] using hs
  | some a =>
    rw [hc] at hn
    refine ⟨fun h => ⟨rfl, ?_⟩, fun h => ?_⟩
    · obtain ⟨t, h⟩ := h
      rcases List.eq_nil_or_concat a.render with e | ⟨l, x, e⟩
      · exact e
      · have h : (t ++ [c!"/"]) ++ [c!"/"] = (withSuffix b!":" c.scheme ++ b!"//" ++ l) ++ [x] := by
          simpa [withPrefix, e] using h
        refine absurd ?_ hn
        show c!"/" ∈ a.render
        rw [e]
        simp [(List.cons.inj (List.append_inj' h rfl).2).1]
    · exact ⟨withSuffix b!":" c.scheme, by simp [h.2, withPrefix]⟩

/-- C41, as an equivalence: `has_authority` differs from `! encoded_authority().empty()` exactly if the origin ends in `//`. -/
theorem C41_exact (hr : Reach env st) (dbg : Bool) : ∃ a g, encoded_authority (st.obj dbg) = .ok a ∧ encoded_origin (st.obj dbg) = .ok g ∧
    (has_authority (st.obj dbg) = (!a.isEmpty) ↔ ¬ b!"//" <:+ g) := by
  obtain ⟨c, hrep, hp⟩ := hr.rep
  have b := hrep.reports dbg
  refine ⟨_, _, b.authority, b.origin, ?_⟩
  rw [b.has_authority, origin_double hp]
  unfold Components.authority
  cases c.auth with
  | none => simp
  | some a => cases h : a.render <;> simp

/-- The same for a view. -/
theorem C41_view_exact {s : Str} {v : View} (h : View.make s = .ret v) (dbg : Bool) :
    ∃ a g, encoded_authority (v.obj dbg) = .ok a ∧ encoded_origin (v.obj dbg) = .ok g ∧
      (has_authority (v.obj dbg) = (!a.isEmpty) ↔ ¬ b!"//" <:+ g) := by
  obtain ⟨c, hc, rfl, r⟩ := make_inv h
  have b := viewReports (r.obj dbg)
  refine ⟨_, _, b.authority, b.origin, ?_⟩
  rw [b.has_authority, origin_double (.of_valid hc)]
  unfold Components.authority
  cases c.auth with
  | none => simp
  | some a => cases h : a.render <;> simp

example : (∃ v, View.make b!"s:///p" = .ret v ∧ has_authority (v.obj true) = true ∧ encoded_authority (v.obj true) = .ok [] ∧
      encoded_origin (v.obj true) = .ok b!"s://") ∧
    (∃ v, View.make b!"s://@/p" = .ret v ∧ has_authority (v.obj true) = true ∧ encoded_authority (v.obj true) = .ok b!"@" ∧
      encoded_origin (v.obj true) = .ok b!"s://@") ∧
    ∃ v, View.make b!"s:/p//" = .ret v ∧ has_authority (v.obj true) = false ∧ encoded_authority (v.obj true) = .ok [] ∧
      encoded_origin (v.obj true) = .ok b!"s:" :=
  ⟨⟨_, rfl, by decide +kernel, by decide +kernel, by decide +kernel⟩, ⟨_, rfl, by decide +kernel, by decide +kernel, by decide +kernel⟩,
    _, rfl, by decide +kernel, by decide +kernel, by decide +kernel⟩

end Url.Props
