import Verif.Proofs.Storage
import Verif.Model.Op

/-!
The strong exception guarantee: a call that throws leaves the state as it was. This is a property of the
order of the steps of each call, and holds in every state whatsoever.
-/

namespace Url
open Spec M

variable {α β : Type}

/-- A throw leaves the state as it was. -/
def Strong (m : M α) : Prop := ∀ env st e st', m env st = .throw e st' → Same st st'

/-- No throw. -/
def NoThrow (m : M α) : Prop := ∀ env st e st', m env st ≠ .throw e st'

/-- The state is not modified, and a throw leaves it as it was. -/
def Reads (m : M α) : Prop := ∀ env st, (∀ a st', m env st = .ret a st' → st' = st) ∧ ∀ e st', m env st = .throw e st' → st' = st

theorem NoThrow.strong {m : M α} (h : NoThrow m) : Strong m := fun _ _ _ _ he => (h _ _ _ _ he).elim

theorem NoThrow.bind {m : M α} {f : α → M β} (hm : NoThrow m) (hf : ∀ a, NoThrow (f a)) : NoThrow (m >>= f) := by
  intro env st e st' h
  rw [run_bind] at h
  split at h
  · exact hf _ _ _ _ _ h
  · rename_i he; exact hm _ _ _ _ he
  · cases h

/-- throw first, modify afterwards -/
theorem Strong.bind {m : M α} {f : α → M β} (hm : Strong m) (hf : ∀ a, NoThrow (f a)) : Strong (m >>= f) := by
  intro env st e st' h
  rw [run_bind] at h
  split at h
  · exact (hf _ _ _ _ _ h).elim
  · rename_i he; cases h; exact hm _ _ _ _ he
  · cases h

theorem Reads.bind {m : M α} {f : α → M β} (hm : Reads m) (hf : ∀ a, Strong (f a)) : Strong (m >>= f) := by
  intro env st e st' h
  rw [run_bind] at h
  split at h
  · rename_i he; have := (hm _ _).1 _ _ he; subst this; exact hf _ _ _ _ _ h
  · rename_i he; cases h; have := (hm _ _).2 _ _ he; subst this; exact .refl _
  · cases h

theorem Reads.bind' {m : M α} {f : α → M β} (hm : Reads m) (hf : ∀ a, Reads (f a)) : Reads (m >>= f) := by
  intro env st
  rw [run_bind]
  split
  · rename_i he; have := (hm _ _).1 _ _ he; subst this; exact hf _ _ _
  · rename_i he
    refine ⟨fun _ _ h => (by cases h), fun _ _ h => ?_⟩
    cases h; exact (hm _ _).2 _ _ he
  · exact ⟨fun _ _ h => (by cases h), fun _ _ h => by cases h⟩

theorem Reads.pure (a : α) : Reads (pure a : M α) := fun _ _ => ⟨fun _ _ h => (by cases h; rfl), fun _ _ h => by cases h⟩
theorem Reads.raise (e : Exc) : Reads (M.raise e : M α) := fun _ _ => ⟨fun _ _ h => (by cases h), fun _ _ h => by cases h; rfl⟩
theorem Reads.pt : Reads M.pt := fun _ _ => ⟨fun _ _ h => (by cases h; rfl), fun _ _ h => by cases h⟩
theorem Reads.sizeMax : Reads M.sizeMax := fun _ _ => ⟨fun _ _ h => (by cases h; rfl), fun _ _ h => by cases h⟩
theorem Reads.isNull : Reads M.isNull := fun _ _ => ⟨fun _ _ h => (by cases h; rfl), fun _ _ h => by cases h⟩
theorem Reads.ask (f : Obj → R α) : Reads (M.ask f) := by
  intro env st
  unfold M.ask
  split
  · exact ⟨fun _ _ h => (by cases h; rfl), fun _ _ h => by cases h⟩
  · exact ⟨fun _ _ h => (by cases h), fun _ _ h => by cases h⟩
theorem Reads.fault (f : Flt) : Reads (fun _ _ => .fault f : M α) := fun _ _ => ⟨fun _ _ h => (by cases h), fun _ _ h => by cases h⟩
theorem Reads.assert (c : Obj → R Bool) : Reads (M.assert c) := Reads.ask _
theorem Reads.strong {m : M α} (h : Reads m) : Strong m := by
  intro env st e st' he
  have := (h _ _).2 _ _ he
  subst this; exact .refl _

theorem Reads.require (c : Bool) : Reads (Base.require c) := by
  unfold Base.require
  split
  · exact .pure _
  · exact .raise _
theorem Reads.parsed (ps : PS) : Reads (Base.parsed ps) := by
  unfold Base.parsed
  split
  · exact .fault _
  · split
    · exact .raise _
    · exact .pure _
theorem Reads.parsedAll (ps : PS) : Reads (Base.parsedAll ps) := by
  unfold Base.parsedAll
  refine .bind' (.parsed _) fun _ => ?_
  split
  · exact .pure _
  · exact .raise _

theorem NoThrow.pure (a : α) : NoThrow (pure a : M α) := fun _ _ _ _ h => by cases h
theorem NoThrow.ask (f : Obj → R α) : NoThrow (M.ask f) := by
  intro env st e st' h
  unfold M.ask at h
  split at h <;> cases h
theorem NoThrow.assert (c : Obj → R Bool) : NoThrow (M.assert c) := .ask _
theorem NoThrow.pt : NoThrow M.pt := fun _ _ _ _ h => by cases h
theorem NoThrow.setPt (f : Parts → Parts) : NoThrow (M.setPt f) := fun _ _ _ _ h => by cases h
theorem NoThrow.put (i : Nat) (s : Str) : NoThrow (M.put i s) := by
  intro env st e st' h
  unfold M.put at h
  repeat' split at h
  all_goals cases h
theorem NoThrow.move (a b n : Nat) : NoThrow (M.move a b n) := by
  intro env st e st' h
  unfold M.move at h
  repeat' split at h
  all_goals cases h
theorem NoThrow.split (id n : Nat) : NoThrow (Base.split id n) :=
  .bind (.assert _) fun _ => .bind (.assert _) fun _ => .setPt _

theorem Strong.storage_resize (n : Nat) : Strong (Storage.resize n) := by
  intro env st e st' h
  unfold Storage.resize at h
  split at h
  · rename_i h1
    cases h
    unfold Storage.reserve at h1
    split at h1
    · cases h1
    · dsimp only at h1
      split at h1
      · rename_i h2
        cases h1
        unfold Storage.allocate at h2
        split at h2 <;> cases h2
        rfl
      · cases h1
      · split at h1
        · cases h1
        · split at h1 <;> cases h1
  · cases h
  · split at h
    · cases h
    · split at h <;> cases h

theorem Strong.resize (id n : Nat) : Strong (Base.resize id n) := by
  unfold Base.resize
  refine Reads.bind .pt fun pt => ?_
  dsimp only
  split
  · exact (NoThrow.pure _).strong
  · split
    · exact (NoThrow.bind (.move _ _ _) fun _ => .bind (.setPt _) fun _ => .pure _).strong
    · refine Reads.bind .sizeMax fun m => ?_
      split
      · exact (Reads.raise _).strong
      · exact Strong.bind (.storage_resize _) fun _ => .bind (.move _ _ _) fun _ => .bind (.setPt _) fun _ => .pure _

theorem Strong.resize2 (a b n : Nat) : Strong (Base.resize2 a b n) := by
  unfold Base.resize2
  refine Reads.bind .pt fun pt => ?_
  dsimp only
  split
  · exact (NoThrow.pure _).strong
  · split
    · exact (NoThrow.bind (.move _ _ _) fun _ => .bind (.setPt _) fun _ => .pure _).strong
    · refine Reads.bind .sizeMax fun m => ?_
      split
      · exact (Reads.raise _).strong
      · exact Strong.bind (.storage_resize _) fun _ => .bind (.move _ _ _) fun _ => .bind (.setPt _) fun _ => .pure _

/-- shrinking does not throw -/
theorem resize_shrink {id n : Nat} {env : Env} {st : St} {e : Exc} {st' : St} (h : n ≤ st.pt.length id) :
    Base.resize id n env st ≠ .throw e st' := by
  intro he
  unfold Base.resize at he
  rw [run_bind_ret run_pt] at he
  dsimp only at he
  rw [run_ite] at he
  split at he
  · cases he
  · exact (NoThrow.bind (.move _ _ _) fun _ => .bind (.setPt _) fun _ => .pure _) _ _ _ _ he

theorem Reads.bind_noThrow {m : M α} {f : α → M β} {env : Env} {st : St} {e : Exc} {st' : St} (hm : Reads m) (hn : NoThrow m)
    (hf : ∀ a, f a env st ≠ .throw e st') : (m >>= f) env st ≠ .throw e st' := by
  intro h
  rw [run_bind] at h
  split at h
  · rename_i he; have := (hm _ _).1 _ _ he; subst this; exact hf _ h
  · rename_i he; exact hn _ _ _ _ he
  · cases h

theorem Reads.assertUserinfo : Reads Base.assertUserinfo :=
  .bind' (.assert _) fun _ => .bind' (.assert _) fun _ => .bind' (.assert _) fun _ => .assert _
theorem NoThrow.assertUserinfo : NoThrow Base.assertUserinfo :=
  .bind (.assert _) fun _ => .bind (.assert _) fun _ => .bind (.assert _) fun _ => .assert _

/-- `set_password("")` does not throw -/
theorem NoThrow.clear_password : NoThrow (Base.set_password []) := by
  intro env st e st'
  unfold Base.set_password
  rw [if_pos (by rfl), run_bind_ret run_pt, run_ite]
  split
  · intro h; cases h
  · rename_i hl
    refine Reads.bind_noThrow .assertUserinfo .assertUserinfo fun _ => ?_
    rw [run_bind_ret run_pt, run_ite]
    split
    · intro h
      rw [run_bind] at h
      split at h
      · cases h
      · rename_i he; exact resize_shrink (Nat.zero_le _) he
      · cases h
    · intro h
      rw [run_bind] at h
      split at h
      · exact NoThrow.put _ _ _ _ _ _ h
      · rename_i he; exact resize_shrink (by omega) he
      · cases h

/-- a step that only reads -/
macro "reads" : tactic => `(tactic| first
  | exact Reads.pt | exact Reads.assert _ | exact Reads.ask _ | exact Reads.require _ | exact Reads.parsed _
  | exact Reads.parsedAll _ | exact Reads.isNull | exact Reads.assertUserinfo | exact Reads.pure _ | exact Reads.fault _)

/-- a step that does not throw -/
macro "noThrow" : tactic => `(tactic| repeat' first
  | exact NoThrow.put _ _ | exact NoThrow.split _ _ | exact NoThrow.setPt _ | exact NoThrow.assert _ | exact NoThrow.pure _
  | exact NoThrow.clear_password
  | refine NoThrow.bind ?_ fun _ => ?_)

/-- decompose a call into reading steps, one growing step, and steps that do not throw -/
macro "strong" : tactic => `(tactic| repeat' first
  | exact Strong.resize _ _ | exact Strong.resize2 _ _ _ | exact Strong.storage_resize _
  | (refine Reads.strong ?_; reads; done)
  | (refine Reads.bind (by reads) fun _ => ?_)
  | (refine Strong.bind (by first | exact Strong.resize _ _ | exact Strong.resize2 _ _ _ | exact Strong.storage_resize _)
      fun _ => ?_; noThrow; done)
  | split
  | dsimp only)

theorem strong_set_user (s : Str) : Strong (Base.set_user s) := by
  unfold Base.set_user; strong
theorem strong_set_password (s : Str) : Strong (Base.set_password s) := by
  unfold Base.set_password; strong
theorem strong_set_encoded_password (s : Str) : Strong (Base.set_encoded_password s) := by
  unfold Base.set_encoded_password Base.validate
  split
  · exact strong_set_password s
  · strong
theorem strong_addHost (s : Str) : Strong (Base.addHost s) := by
  unfold Base.addHost; strong
theorem strong_set_host (s : Str) : Strong (Base.set_host s) := by
  unfold Base.set_host
  strong
  exact Strong.bind (strong_addHost s) fun _ => .setPt _
theorem strong_set_encoded_host (s : Str) : Strong (Base.set_encoded_host s) := by
  unfold Base.set_encoded_host
  split
  · exact strong_set_host s
  · strong
    exact Strong.bind (strong_addHost s) fun _ => .setPt _
theorem strong_set_port (s : Str) : Strong (Base.set_port s) := by
  unfold Base.set_port; strong
theorem strong_set_encoded_userinfo (s : Str) : Strong (Base.set_encoded_userinfo s) := by
  unfold Base.set_encoded_userinfo; strong
theorem strong_setPlain (id d e s) : Strong (Base.setPlain id d e s) := by
  unfold Base.setPlain; strong
theorem strong_setEncoded (id d e s) : Strong (Base.setEncoded id d e s) := by
  unfold Base.setEncoded Base.validate; strong
theorem strong_setPart (id d e s) : Strong (Base.setPart id d e s) := by
  unfold Base.setPart Base.validate; strong
theorem noThrow_lowerLoop (i n : Nat) : NoThrow (Base.lowerLoop i n) := by
  induction n generalizing i with
  | zero => exact .pure _
  | succ n ih =>
    refine NoThrow.bind (.ask _) fun c => ?_
    split
    · exact .bind (.put _ _) fun _ => ih _
    · exact ih _
theorem strong_normalize : Strong Base.normalize_scheme := by
  unfold Base.normalize_scheme
  strong
  exact (noThrow_lowerLoop _ _).strong

/-- A call that throws leaves the state as it was, in any state whatsoever. -/
theorem run_strong (op : Op) : Strong (run op) := by
  cases op with
  | set_encoded_url s => show Strong (Base.set_encoded_url s); unfold Base.set_encoded_url; strong
  | set_encoded_origin s => show Strong (Base.set_encoded_origin s); unfold Base.set_encoded_origin; strong
  | set_scheme s => show Strong (Base.set_scheme s); unfold Base.set_scheme; strong
  | set_encoded_authority s => show Strong (Base.set_encoded_authority s); unfold Base.set_encoded_authority; strong
  | set_encoded_userinfo s => exact strong_set_encoded_userinfo s
  | set_userinfo_part s =>
    show Strong (Base.set_userinfo_part s); unfold Base.set_userinfo_part
    split
    · exact strong_set_encoded_userinfo s
    · exact Reads.bind (.require _) fun _ => strong_set_encoded_userinfo _
  | set_user s => exact strong_set_user s
  | set_encoded_user s =>
    show Strong (Base.set_encoded_user s); unfold Base.set_encoded_user Base.validate
    split
    · exact strong_set_user s
    · strong
  | set_password s => exact strong_set_password s
  | set_encoded_password s => exact strong_set_encoded_password s
  | set_password_part s =>
    show Strong (Base.set_password_part s); unfold Base.set_password_part
    split
    · exact strong_set_password s
    · split
      · rename_i h
        obtain ⟨c, rfl⟩ := List.length_eq_one_iff.mp h
        have : Base.set_encoded_password ([c].drop 1) = Base.set_password [] := rfl
        rw [this]
        strong
      · exact strong_set_encoded_password _
  | set_host s => exact strong_set_host s
  | set_encoded_host s => exact strong_set_encoded_host s
  | set_port s => exact strong_set_port s
  | set_port_number n => exact Reads.bind (.ask _) fun _ => strong_set_port _
  | set_port_part s =>
    show Strong (Base.set_port_part s); unfold Base.set_port_part
    split
    · exact strong_set_port s
    · refine Reads.bind (.require _) fun _ => ?_
      split
      · exact strong_set_port _
      · strong
  | set_encoded_path s => show Strong (Base.set_encoded_path s); unfold Base.set_encoded_path; strong
  | set_query s => exact strong_setPlain _ _ _ _
  | set_encoded_query s => exact strong_setEncoded _ _ _ _
  | set_query_part s => exact strong_setPart _ _ _ _
  | set_fragment s => exact strong_setPlain _ _ _ _
  | set_encoded_fragment s => exact strong_setEncoded _ _ _ _
  | set_fragment_part s => exact strong_setPart _ _ _ _
  | normalize_scheme => exact strong_normalize
  | normalize => exact strong_normalize

end Url
