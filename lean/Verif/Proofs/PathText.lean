import Verif.Proofs.Reach

/-!
What the text of a path looks like after any calls: escapes are complete, except that a `%` directly after a slash
may stand on its own.
-/

namespace Url
open Spec

set_option linter.unusedSimpArgs false

variable {env : Env} {st : St} {c c' : Components}

/-- any character but `%` -/
def notPct (c : Byte) : Bool := c != c!"%"

/-- Every `%` starts an escape, or comes directly after a slash. -/
inductive LoosePath : Str → Prop
  | nil : LoosePath []
  | char {a : Byte} {s : Str} : notPct a = true → LoosePath s → LoosePath (a :: s)
  | pct {a b : Byte} {s : Str} : isUpperHex a = true → isUpperHex b = true → LoosePath s → LoosePath (c!"%" :: a :: b :: s)
  | bare {s : Str} : LoosePath s → LoosePath (c!"/" :: c!"%" :: s)

theorem LoosePath.append {s t : Str} (hs : LoosePath s) (ht : LoosePath t) : LoosePath (s ++ t) := by
  induction hs with
  | nil => exact ht
  | char h _ ih => exact .char h ih
  | pct h1 h2 _ ih => exact .pct h1 h2 ih
  | bare _ ih => exact .bare ih

theorem LoosePath.of_escaped {ok : Byte → Bool} (hok : ∀ a, ok a = true → notPct a = true) {s : Str} (h : Escaped isUpperHex ok s) :
    LoosePath s := by
  induction h with
  | nil => exact .nil
  | char h _ ih => exact .char (hok _ h) ih
  | pct h1 h2 _ ih => exact .pct h1 h2 ih

theorem pchar_notPct : ∀ a, isPchar a = true → notPct a = true := forall_byte (by decide +kernel)
theorem hex_notSlash : ∀ a, isUpperHex a = true → a ≠ c!"/" := forall_byte (by decide +kernel)

theorem LoosePath.slashed {s : Str} (h : Slashed isUpperHex s) : LoosePath s := by
  obtain ⟨segs, hs, rfl⟩ := h
  induction segs with
  | nil => exact .nil
  | cons a segs ih =>
    rw [List.flatMap_cons]
    exact .char (by decide) ((LoosePath.of_escaped pchar_notPct (hs a (by simp))).append (ih fun s h => hs s (by simp [h])))

theorem LoosePath.pathOk {a b f : Bool} {p : Str} (h : PathOk lib a b f p) : LoosePath p := by
  rcases pathOk_shape h with h | ⟨f, h | ⟨a, s, t, ha, hs, ht, h⟩⟩ | ⟨s, t, -, hs, ht, h⟩
  · exact .slashed h
  · rw [h.1]; exact .char (by decide) .nil
  · rw [h]
    have hst : LoosePath (s ++ t) := (LoosePath.of_escaped pchar_notPct hs).append (.slashed ht)
    by_cases hp : a = c!"%"
    · subst hp; exact .bare hst
    · exact .char (by decide) (.char (by simp [notPct, hp]) hst)
  · rw [h]; exact (LoosePath.of_escaped pchar_notPct hs).append (.slashed ht)

/-- Cutting before a slash leaves two such texts. -/
theorem LoosePath.cut {p : Str} (h : LoosePath p) : ∀ u v, p = u ++ v → (v = [] ∨ ∃ w, v = c!"/" :: w) → LoosePath u ∧ LoosePath v := by
  induction h with
  | nil =>
    intro u v h _
    obtain ⟨rfl, rfl⟩ := List.append_eq_nil_iff.1 h.symm
    exact ⟨.nil, .nil⟩
  | @char a s ha hs ih =>
    intro u v h hv
    cases u with
    | nil => subst h; exact ⟨.nil, .char ha hs⟩
    | cons x u =>
      simp only [List.cons_append, List.cons.injEq] at h
      obtain ⟨rfl, h⟩ := h
      exact ⟨.char ha (ih u v h hv).1, (ih u v h hv).2⟩
  | @pct a b s ha hb hs ih =>
    intro u v h hv
    match u, h with
    | [], h => subst h; exact ⟨.nil, .pct ha hb hs⟩
    | [x], h =>
      simp only [List.cons_append, List.nil_append, List.cons.injEq] at h
      rcases hv with rfl | ⟨w, rfl⟩
      · cases h.2
      · exact absurd (List.cons.inj h.2).1 (hex_notSlash a ha)
    | [x, y], h =>
      simp only [List.cons_append, List.nil_append, List.cons.injEq] at h
      rcases hv with rfl | ⟨w, rfl⟩
      · cases h.2.2
      · exact absurd (List.cons.inj h.2.2).1 (hex_notSlash b hb)
    | x :: y :: z :: u, h =>
      simp only [List.cons_append, List.cons.injEq] at h
      obtain ⟨rfl, rfl, rfl, h⟩ := h
      exact ⟨.pct ha hb (ih u v h hv).1, (ih u v h hv).2⟩
  | @bare s hs ih =>
    intro u v h hv
    match u, h with
    | [], h => subst h; exact ⟨.nil, .bare hs⟩
    | [x], h =>
      simp only [List.cons_append, List.nil_append, List.cons.injEq] at h
      rcases hv with rfl | ⟨w, rfl⟩
      · cases h.2
      · exact absurd (List.cons.inj h.2).1 (by decide)
    | x :: y :: u, h =>
      simp only [List.cons_append, List.cons.injEq] at h
      obtain ⟨rfl, rfl, h⟩ := h
      exact ⟨.bare (ih u v h hv).1, (ih u v h hv).2⟩

theorem LoosePath.pieces {p : Str} (h : LoosePath p) (k : Nat) :
    LoosePath ((Url.pieces p).take k).flatten ∧ LoosePath ((Url.pieces p).drop k).flatten := by
  by_cases hk : k = 0
  · subst hk
    simp only [List.take_zero, List.flatten_nil, List.drop_zero, pieces_flatten]
    exact ⟨.nil, h⟩
  · refine h.cut _ _ (by rw [← List.flatten_append, List.take_append_drop, pieces_flatten]) ?_
    cases hd : (Url.pieces p).drop k with
    | nil => exact .inl rfl
    | cons x xs =>
      have hx : x ∈ (Url.pieces p).drop 1 := by
        have : x ∈ (Url.pieces p).drop k := by rw [hd]; simp
        rw [show k = 1 + (k - 1) by omega, ← List.drop_drop] at this
        exact List.mem_of_mem_drop this
      obtain ⟨s, rfl, -⟩ := pieces_tail_slash hx
      exact .inr ⟨s ++ xs.flatten, by simp⟩

theorem pathSegments_noslash {p s : Str} (h : s ∈ pathSegments p) : c!"/" ∉ s := by
  have key : ∀ t : Str, ∀ s ∈ splitAt c!"/" t, c!"/" ∉ s := by
    intro t
    induction t with
    | nil => simp [splitAt]
    | cons a t ih =>
      intro s hs
      rw [splitAt_cons] at hs
      split at hs
      · rcases List.mem_cons.1 hs with rfl | hs
        · simp
        · exact ih s hs
      · rename_i ha
        cases hx : splitAt c!"/" t with
        | nil => exact absurd hx (splitAt_ne _ _)
        | cons x xs =>
          rw [hx] at hs ih
          simp only [List.mem_cons] at hs
          rcases hs with rfl | hs
          · simp only [List.mem_cons, not_or]
            exact ⟨fun h => ha h.symm, ih x (by simp)⟩
          · exact ih s (by simp [hs])
  cases p with
  | nil => simp [pathSegments] at h
  | cons a t =>
    by_cases ha : a = c!"/"
    · subst ha
      exact key t _ h
    · simp only [pathSegments, if_neg ha] at h
      exact key _ _ h

/-- A segment is escaped completely, or only its first character is a `%` on its own. -/
theorem LoosePath.segment {p : Str} (h : LoosePath p) {s : Str} (hs : s ∈ pathSegments p) :
    Escaped isUpperHex notPct s ∨ ∃ t, s = c!"%" :: t ∧ Escaped isUpperHex notPct t := by
  have clean : ∀ s : Str, LoosePath s → s.all notSlash = true → Escaped isUpperHex notPct s := by
    intro s h hn
    induction h with
    | nil => exact .nil
    | char h _ ih => exact .char h (ih (by simp at hn ⊢; exact hn.2))
    | pct h1 h2 _ ih => exact .pct h1 h2 (ih (by simp at hn ⊢; exact hn.2.2.2))
    | bare _ ih => simp [notSlash] at hn
  rw [← pieces_strip, List.mem_map] at hs
  obtain ⟨x, hx, rfl⟩ := hs
  obtain ⟨k, hk, rfl⟩ := List.getElem_of_mem hx
  have h1 : LoosePath (Url.pieces p)[k] := by
    have h2 := (h.pieces k).2
    have h3 := (h2.pieces 1).1
    rw [pieces_drop, List.drop_eq_getElem_cons hk, List.take_succ_cons, List.take_zero] at h3
    simpa using h3
  have h4 : (strip (Url.pieces p)[k]).all notSlash = true := by
    have hm : strip (Url.pieces p)[k] ∈ pathSegments p := by
      rw [← pieces_strip]; exact List.mem_map_of_mem hx
    rw [List.all_eq_true]
    intro a ha
    have := pathSegments_noslash hm
    simp only [notSlash, bne_iff_ne, ne_eq]
    rintro rfl
    exact this ha
  generalize (Url.pieces p)[k] = x at h1 h4
  cases h1 with
  | nil => exact .inl .nil
  | @char a s ha hs =>
    by_cases he : a = c!"/"
    · subst he
      simp only [strip, if_true] at h4 ⊢
      exact .inl (clean _ hs h4)
    · simp only [strip, if_neg he] at h4 ⊢
      exact .inl (clean _ (.char ha hs) h4)
  | @pct a b s ha hb hs =>
    have he : ¬ c!"%" = c!"/" := by decide
    simp only [strip, if_neg he] at h4 ⊢
    exact .inl (clean _ (.pct ha hb hs) h4)
  | @bare s hs =>
    simp only [strip, if_true] at h4 ⊢
    refine .inr ⟨s, rfl, clean _ hs ?_⟩
    simp at h4 ⊢
    exact h4.2

/-- Every call keeps the path such a text. -/
theorem effect_path {op : Op} (h : LoosePath c.path) (he : op.Effect c c') : LoosePath c'.path := by
  have key : c'.path = c.path → LoosePath c'.path := fun e => e ▸ h
  cases op with
  | set_encoded_url s =>
    rcases he with ⟨-, rfl⟩ | ⟨-, hv, -⟩
    · exact .nil
    · exact .pathOk hv.2.2.1
  | set_encoded_path s =>
    obtain ⟨hv, rfl⟩ := he
    exact .pathOk hv
  | set_encoded_origin s => rcases he with ⟨-, rfl⟩ | ⟨_, _, -, rfl⟩ <;> exact h
  | set_scheme s => obtain ⟨-, rfl⟩ := he; exact h
  | set_encoded_authority s => rcases he with ⟨-, rfl⟩ | ⟨-, _, -, rfl⟩ <;> exact h
  | set_encoded_userinfo s => rcases he with ⟨-, rfl⟩ | ⟨-, _, -, rfl⟩ <;> exact h
  | set_userinfo_part s => rcases he with ⟨-, rfl⟩ | ⟨_, _, -, -, -, rfl⟩ <;> exact h
  | set_user s => obtain rfl := he; split <;> exact h
  | set_encoded_user s => obtain ⟨-, rfl⟩ := he; split <;> exact h
  | set_password s => obtain rfl := he; split <;> exact h
  | set_encoded_password s => obtain ⟨-, -, rfl⟩ := he; split <;> exact h
  | set_password_part s => rcases he with ⟨-, rfl⟩ | ⟨-, rfl⟩ | ⟨_, _, -, -, -, -, rfl⟩ <;> exact h
  | set_host s => rcases he with ⟨-, rfl⟩ | ⟨-, _, _, -, rfl⟩ <;> exact h
  | set_encoded_host s => obtain ⟨-, rfl⟩ := he; split <;> exact h
  | set_port s => obtain ⟨-, rfl⟩ := he; split <;> exact h
  | set_port_number n => obtain ⟨_, -, rfl⟩ := he; exact h
  | set_port_part s => rcases he with ⟨-, rfl⟩ | ⟨_, -, -, rfl⟩ <;> exact h
  | set_query s => obtain rfl := he; exact h
  | set_encoded_query s => obtain ⟨-, rfl⟩ := he; exact h
  | set_query_part s => rcases he with ⟨-, rfl⟩ | ⟨_, -, -, rfl⟩ <;> exact h
  | set_fragment s => obtain rfl := he; exact h
  | set_encoded_fragment s => obtain ⟨-, rfl⟩ := he; exact h
  | set_fragment_part s => rcases he with ⟨-, rfl⟩ | ⟨_, -, -, rfl⟩ <;> exact h
  | normalize_scheme => obtain rfl := he; exact h
  | normalize => obtain rfl := he; exact h

theorem edit_path {e : SegOp} {p : Str} (h : LoosePath p) (hv : e.Valid) : LoosePath (editText e p) := by
  refine ((h.pieces _).1.append ?_).append (h.pieces _).2
  have key : ∀ s, Escaped isUpperHex isPchar s → LoosePath (c!"/" :: s) := fun s hs =>
    .char (by decide) (.of_escaped pchar_notPct hs)
  cases e with
  | erase i => exact .nil
  | erase_range i j => exact .nil
  | insert i s => exact key _ (pctEncode_escaped setOf_pchar s)
  | insert_encoded i s => exact key _ hv
  | replace i s => exact key _ (pctEncode_escaped setOf_pchar s)
  | replace_encoded i s => exact key _ hv

/-- Every reachable object holds components that are well formed, with such a text for a path. -/
theorem Reach.path (h : Reach env st) : ∃ c, Rep env st c ∧ PartsOk c ∧ LoosePath c.path := by
  induction h with
  | @edit st st' e hr he hrun ih =>
    obtain ⟨c, hc, hp, hl⟩ := ih
    have ho := edit_outcome hc he
    revert ho
    generalize runSeg e env st = out at hrun
    intro ho
    cases ho with
    | fault f => rcases hrun with ⟨_, h⟩ | ⟨_, h⟩ <;> cases h
    | invalid =>
      rcases hrun with ⟨_, h⟩ | ⟨_, h⟩
      · cases h
      · cases h; exact ⟨c, hc, hp, hl⟩
    | full m =>
      rcases hrun with ⟨_, h⟩ | ⟨_, h⟩
      · cases h
      · cases h; exact ⟨c, Same.rep hc rfl, hp, hl⟩
    | ret it st1 hv hok =>
      rcases hrun with ⟨_, h⟩ | ⟨_, h⟩
      · cases h; exact ⟨_, hok.rep, ⟨hp.scheme, hp.auth, hp.query, hp.fragment⟩, edit_path hl hv⟩
      · cases h
  | empty => exact ⟨_, Rep.empty, PartsOk.empty, .nil⟩
  | @call st st' op hr hd hrun ih =>
    obtain ⟨c, hc, hp, hl⟩ := ih
    have ho := op_correct hc op (callable hc hd)
    revert ho
    generalize run op env st = out at hrun
    intro ho
    cases ho with
    | ret c' st1 he hs hok =>
      rcases hrun with e | ⟨e, h⟩
      · cases e; exact ⟨c', hok.rep, effect_parts hp he, effect_path hl he⟩
      · cases h
    | full c' e st1 he hs hx hsame =>
      rcases hrun with e | ⟨e, h⟩
      · cases e
      · cases h; exact ⟨c, hsame.rep hc, hp, hl⟩
    | invalid =>
      rcases hrun with e | ⟨e, h⟩
      · cases e
      · cases h; exact ⟨c, hc, hp, hl⟩

end Url
