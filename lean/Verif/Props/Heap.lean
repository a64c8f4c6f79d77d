import Verif.Props.Machine

/-!
C53: what a url allocates is freed once, with the size it was allocated with.
-/

set_option autoImplicit false

namespace Url.Props
open Url Spec

variable {env : Env} {st st' : St} {op : Op}

theorem owned_empty : Owned Base.empty := ⟨rfl, fun h => absurd rfl h⟩

theorem owned_reach (h : Reach env st ∨ Used env st) : Owned st := by
  rcases h with h | h
  · induction h with
    | empty => exact owned_empty
    | @call st st' op _ _ hrun ih => exact (Alias.grows_run op env st st' (hrun.imp_left fun h => ⟨(), h⟩)).2.2.2.1 ih
    | @edit st st' e _ _ hrun ih => exact (Capacity.grows_seg e env st st' hrun).2.2.2.1 ih
  · induction h with
    | empty => exact owned_empty
    | @call st st' op _ hrun ih => exact (Alias.grows_run op env st st' (hrun.imp_left fun h => ⟨(), h⟩)).2.2.2.1 ih

/-- C53: after any calls, returning or throwing, the one block that is allocated is the buffer, with one byte more than
the capacity, if there is a buffer. Nothing was freed that was not allocated, or twice, or with another size. -/
theorem C53_owned (h : Reach env st ∨ Used env st) :
    blocks [] st.log = some (match st.buf with
      | none => []
      | some _ => [(st.addr, st.cap + 1)]) := (owned_reach h).1

theorem destroy_owned (h : Owned st) : blocks [] (Storage.destroy st) = some [] := by
  obtain ⟨h, -⟩ := h
  unfold Storage.destroy
  cases hb : st.buf with
  | none => rw [hb] at h; exact h
  | some b =>
    rw [hb] at h
    dsimp only at h ⊢
    rw [Alias.blocks_append, h]
    simp [blocks]

/-- calls that allocate three times -/
def growing : List Op := [.set_encoded_url b!"//u@h", .set_query b!"abcdefghij", .set_fragment b!"k"]

example : Used env1 (afterRelease growing) ∧
    (afterRelease growing).log = [.alloc 0 6, .alloc 1 17, .free 0 6, .alloc 2 33, .free 1 17] ∧
    blocks [] (afterRelease growing).log = some [(2, 33)] ∧ (afterRelease growing).addr = 2 ∧ (afterRelease growing).cap = 32 ∧
    blocks [] [.alloc 0 6, .alloc 1 17, .free 0 5] = none ∧ blocks [] [.alloc 0 6, .free 0 6, .free 0 6] = none :=
  ⟨afterRelease_used (by decide +kernel), by decide +kernel, by decide +kernel, by decide +kernel, by decide +kernel, rfl, rfl⟩

/-- C53: nothing is left when the url is destroyed. -/
theorem C53_destroyed (h : Reach env st ∨ Used env st) : blocks [] (Storage.destroy st) = some [] := destroy_owned (owned_reach h)

example : Storage.destroy (afterRelease growing) = [.alloc 0 6, .alloc 1 17, .free 0 6, .alloc 2 33, .free 1 17, .free 2 33] := by
  decide +kernel

/-- C53: nor is anything left when a constructor throws (then the storage is destroyed). -/
theorem C53_constructor {s : Str} {e : Exc} (h : Base.make s env Base.empty = .throw e st) : blocks [] (Storage.destroy st) = some [] := by
  refine destroy_owned ((Alias.grows_run (.set_encoded_url s) env Base.empty st (.inr ⟨e, h⟩)).2.2.2.1 owned_empty)

example : Base.make b!"1:" env0 Base.empty = .throw .invalid_part Base.empty := rfl

/-- C53: for every call in every state that owns its buffer, whatever its contents. -/
theorem C53_call (h : Owned st) (hr : run op env st = .ret () st' ∨ ∃ e, run op env st = .throw e st') : Owned st' :=
  (Alias.grows_run op env st st' (hr.imp_left fun h => ⟨(), h⟩)).2.2.2.1 h

/-- C53: the same for the edits of segments. -/
theorem C53_edit {e : SegOp} (h : Owned st) (hr : (∃ it, runSeg e env st = .ret it st') ∨ ∃ x, runSeg e env st = .throw x st') : Owned st' :=
  (Capacity.grows_seg e env st st' hr).2.2.2.1 h

example : Owned (after [.set_encoded_url b!"/a/"]) ∧ (match runSeg (.insert 0 b!"abc") env0 (after [.set_encoded_url b!"/a/"]) with
    | .ret _ st' => Storage.destroy st'
    | _ => []) = [.alloc 0 4, .alloc 1 8, .free 0 4, .free 1 8] :=
  ⟨owned_reach (env := env0) (.inl (.call (.set_encoded_url b!"/a/") .empty (fun _ _ => id) (.inl (by rfl)))), by decide +kernel⟩

end Url.Props
