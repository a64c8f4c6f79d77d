import Verif.Props.Alike
import Verif.Props.EditExact
import Verif.Props.Texts

/-!
C22 for all histories: when the text is followed by a null character.
-/

set_option autoImplicit false

namespace Url.Props
open Url Spec

variable {env : Env} {st st' : St}

theorem nul_out {S U W H P pa q f : List Cell} {t : Cell} (op : Op) (hd : env.dbg = false) (h : Part8 env st S U W H P pa q f t) :
    ∃ V Q, NOutOf env (fun st' => Nul st' ↔ (∃ s, s ≠ [] ∧ op = .set_encoded_url s) ∨ Mended st st') V Q (run op env st) := by
  have same : ∀ {V : Prop} {Q : List (List Cell) → Prop}, (∀ s, op ≠ .set_encoded_url s) → NOut env st V Q (run op env st) →
      ∃ V Q, NOutOf env (fun st' => Nul st' ↔ (∃ s, s ≠ [] ∧ op = .set_encoded_url s) ∨ Mended st st') V Q (run op env st) := by
    intro V Q hs hn
    have : (∃ s, s ≠ [] ∧ op = .set_encoded_url s) ↔ False := ⟨fun ⟨s, _, e⟩ => hs s e, False.elim⟩
    simp only [this, false_or]
    exact ⟨V, Q, hn⟩
  obtain ⟨s0, hs0⟩ := init_iff.1 h.S
  cases op with
  | set_encoded_url s =>
    have : (∃ s', s' ≠ [] ∧ Op.set_encoded_url s = .set_encoded_url s') ↔ s ≠ [] :=
      ⟨fun ⟨s', h1, e⟩ => by cases e; exact h1, fun h => ⟨s, h, rfl⟩⟩
    simp only [this]
    exact ⟨_, _, n_url h s⟩
  | set_encoded_origin s => exact same (by simp) (n_origin h s)
  | set_scheme s => exact same (by simp) (n_scheme h s)
  | set_encoded_authority s => exact same (by simp) (n_authority h s)
  | set_encoded_userinfo s => exact same (by simp) (n_set_encoded_userinfo h s)
  | set_userinfo_part s => exact same (by simp) (n_set_userinfo_part h s)
  | set_user s => exact same (by simp) (n_set_user h hd s)
  | set_encoded_user s => exact same (by simp) (n_set_encoded_user h hd s)
  | set_password s => exact same (by simp) (n_set_password h hd s)
  | set_encoded_password s => exact same (by simp) (n_set_encoded_password h hd s)
  | set_password_part s => exact same (by simp) (n_set_password_part h hd s)
  | set_host s => exact same (by simp) (n_set_host h hd s)
  | set_encoded_host s => exact same (by simp) (n_set_encoded_host h hd s)
  | set_port s => exact same (by simp) (n_set_port h hd s)
  | set_port_number n => exact same (by simp) (n_port_number h hd n)
  | set_port_part s => exact same (by simp) (n_set_port_part h hd s)
  | set_encoded_path s => exact same (by simp) (n_set_encoded_path h s)
  | set_query s => exact same (by simp) (n_plain (A := [S, U, W, H, P, pa]) (B := [f]) h.holds rfl (encoded_size_eq setOf_query s))
  | set_encoded_query s => exact same (by simp) (n_encoded (A := [S, U, W, H, P, pa]) (B := [f]) h.holds rfl setOf_query)
  | set_query_part s => exact same (by simp) (n_part (A := [S, U, W, H, P, pa]) (B := [f]) h.holds rfl setOf_query)
  | set_fragment s => exact same (by simp) (n_plain (A := [S, U, W, H, P, pa, q]) (B := []) h.holds rfl (encoded_size_eq setOf_frag s))
  | set_encoded_fragment s => exact same (by simp) (n_encoded (A := [S, U, W, H, P, pa, q]) (B := []) h.holds rfl setOf_frag)
  | set_fragment_part s => exact same (by simp) (n_part (A := [S, U, W, H, P, pa, q]) (B := []) h.holds rfl setOf_frag)
  | normalize_scheme => exact same (by simp) (n_normalize h hd hs0)
  | normalize => exact same (by simp) (n_normalize h hd hs0)

/-- C22, exactly, after any calls and edits and in any build: after a call that returns the text is followed by a null
character if and only if it was so before, or the call is `set_encoded_url` with a text, or the call had to enlarge a buffer
whose recorded size was that of the text. -/
theorem C22_calls {op : Op} (hw : Worked env st) (h : run op env st = .ret () st') :
    Terminated st' ↔ (∃ s, s ≠ [] ∧ op = .set_encoded_url s) ∨ Terminated st ∨
      (st.buf.isSome = true ∧ st.size = size (st.obj false) ∧ st.cap < st'.cap) := by
  obtain ⟨S, U, W, H, P, q, g, t, pa, hp⟩ := hw.release.parts rfl
  obtain ⟨V, Q, hn⟩ := nul_out op rfl hp
  rw [released h] at hn
  exact hn.2.1

/-- C22: the null character stays through any call and any edit, whether it returns or throws. -/
theorem C22_call_kept {op : Op} (hw : Worked env st) (ht : Terminated st)
    (h : run op env st = .ret () st' ∨ ∃ e, run op env st = .throw e st') : Terminated st' := by
  rcases h with h | ⟨e, h⟩
  · exact (C22_calls hw h).2 (.inr (.inl ht))
  · obtain ⟨h1, h2, -, -⟩ := C18_strong h
    unfold Terminated size St.obj at ht ⊢
    rw [h1, h2]
    exact ht

theorem C22_edit_kept {e : ItOp} (hw : Worked env st) (hin : e.InPath st) (ht : Terminated st)
    (h : (∃ it, runIt e env st = .ret it st') ∨ ∃ x, runIt e env st = .throw x st') : Terminated st' := by
  rcases h with ⟨it, h⟩ | ⟨x, h⟩
  · have h' : runIt e env.release st = .ret it st' := by
      rcases runIt_sim e env st with ⟨f, h1⟩ | h1
      · rw [h1] at h; cases h
      · rw [← h1]; exact h
    obtain ⟨S, U, W, H, P, q, g, t, pa, hp⟩ := hw.release.parts rfl
    rcases hp.edit rfl hin with ⟨-, ho⟩ | ⟨-, ho⟩
    · rw [h'] at ho; cases ho
    · rw [h'] at ho
      exact ho.2.2.2.2.2.2.2.2.1 ht
  · obtain ⟨h1, h2, -, -, -⟩ := C57_throw hw hin h
    unfold Terminated size St.obj at ht ⊢
    rw [h1, h2]
    exact ht

/-- What becomes of an object by further calls and edits. -/
inductive Onward (env : Env) (st : St) : St → Prop
  | here : Onward env st st
  | call {st1 st2 : St} (op : Op) : Onward env st st1 → (run op env st1 = .ret () st2 ∨ ∃ e, run op env st1 = .throw e st2) → Onward env st st2
  | edit {st1 st2 : St} (e : ItOp) : Onward env st st1 → e.InPath st1 →
      ((∃ it, runIt e env st1 = .ret it st2) ∨ ∃ x, runIt e env st1 = .throw x st2) → Onward env st st2

theorem Worked.onward (hw : Worked env st) (h : Onward env st st') : Worked env st' := by
  induction h with
  | here => exact hw
  | call op _ h ih => exact .call op ih h
  | edit e _ hin h ih => exact .edit e ih hin h

/-- C22: once there is a null character after the text there is one for ever. -/
theorem C22_onward (hw : Worked env st) (ht : Terminated st) (h : Onward env st st') : Terminated st' := by
  induction h with
  | here => exact ht
  | call op ho h ih => exact C22_call_kept (hw.onward ho) ih h
  | edit e ho hin h ih => exact C22_edit_kept (hw.onward ho) hin ih h

/-- C22: a url that was once given a text by `set_encoded_url`, as the constructor from a string does, is null terminated
ever after, whatever calls and edits came before and come after it. -/
theorem C22_given {s : Str} {st0 : St} (hw : Worked env st0) (hs : s ≠ []) (h0 : run (.set_encoded_url s) env st0 = .ret () st)
    (h : Onward env st st') : Terminated st' :=
  C22_onward (.call _ hw (.inl h0)) ((C22_calls hw h0).2 (.inl ⟨s, hs, rfl⟩)) h

/-- C57: for such a url the only undefined behaviour of an edit in a build without assertions is to remove more slashes than
an `int` can count. -/
theorem C57_given {s : Str} {st0 : St} {e : ItOp} {x : Flt} (hd : env.dbg = false) (hw : Worked env st0) (hs : s ≠ [])
    (h0 : run (.set_encoded_url s) env st0 = .ret () st) (h : Onward env st st') (hin : e.InPath st') :
    runIt e env st' = .fault x ↔ x = .ub ∧ e.Valid ∧ Supplies env st' (room st' e) ∧ ∃ p, encoded_path (st'.obj false) = .ok p ∧
      2147483647 < (e.removed (st'.pt.off id_path) p).count c!"/" := by
  have ht := C22_given hw hs h0 h
  have hw' : Worked env st' := (Worked.call _ hw (.inl h0)).onward h
  rw [C57_exact hd hw' hin]
  constructor
  · rintro ⟨h1, h2, h3, p, h4, h5 | h5⟩
    · exact ⟨h1, h2, h3, p, h4, h5⟩
    · exact absurd ht h5.2.2.2.2.2.1
  · rintro ⟨h1, h2, h3, p, h4, h5⟩
    exact ⟨h1, h2, h3, p, h4, .inl h5⟩

/-- Cases of `C22_calls`: the null character is missing after calls that left bytes never written, is put in place by a call
that has to enlarge the buffer, and not by one that does not. -/
example : Worked env0 (after (oneLeft ++ [.set_encoded_userinfo []])) ∧ ¬ Terminated (after (oneLeft ++ [.set_encoded_userinfo []])) ∧
    ¬ Terminated (after (oneLeft ++ [.set_encoded_userinfo [], .set_encoded_query b!"q"])) ∧
    Terminated (after (oneLeft ++ [.set_encoded_userinfo [], .set_encoded_query b!"quer"])) := by
  refine ⟨(after_used (by decide +kernel)).worked, ?_, ?_, ?_⟩ <;> rw [terminated_iff] <;> decide +kernel

/-- A case of `C22_given` and `C57_given`: calls that leave what is not a URL, and an edit at the end of its path. -/
example : Worked env1 (afterRelease (.set_encoded_url b!"x:/a" :: staleCalls)) ∧
    Terminated (afterRelease (.set_encoded_url b!"x:/a" :: staleCalls)) := by
  refine ⟨(afterRelease_used (by decide +kernel)).worked, ?_⟩
  rw [terminated_iff]; decide +kernel

end Url.Props
