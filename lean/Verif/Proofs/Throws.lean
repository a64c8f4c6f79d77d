import Verif.Model.Op

/-!
The exceptions of the modifying calls.
-/

namespace Url
open M Base Spec

variable {α β : Type}

/-- `m` does not throw `out_of_range`. -/
def Kinds (m : M α) : Prop := ∀ env st e st', m env st = .throw e st' → e ≠ .out_of_range

namespace Kinds

theorem pure (a : α) : Kinds (pure a : M α) := fun _ _ _ _ h => by cases h
theorem fault (f : Flt) : Kinds (fun _ _ => .fault f : M α) := fun _ _ _ _ h => by cases h
theorem raise {e : Exc} (h : e ≠ .out_of_range) : Kinds (M.raise e : M α) := fun _ _ _ _ hr => by cases hr; exact h
theorem pt : Kinds M.pt := fun _ _ _ _ h => by cases h
theorem sizeMax : Kinds M.sizeMax := fun _ _ _ _ h => by cases h
theorem isNull : Kinds M.isNull := fun _ _ _ _ h => by cases h
theorem setPt (f : Parts → Parts) : Kinds (M.setPt f) := fun _ _ _ _ h => by cases h
theorem ask (f : Obj → R α) : Kinds (M.ask f) := by
  intro env st e st' h
  unfold M.ask at h
  split at h <;> cases h
theorem assert (c : Obj → R Bool) : Kinds (M.assert c) := ask _
theorem put (i : Nat) (s : Str) : Kinds (M.put i s) := by
  intro env st e st' h
  unfold M.put at h
  split at h
  · cases h
  · split at h
    · cases h
    · split at h <;> cases h
theorem move (a b c : Nat) : Kinds (M.move a b c) := by
  intro env st e st' h
  unfold M.move at h
  split at h
  · cases h
  · split at h
    · cases h
    · split at h <;> cases h
theorem bind {m : M α} {f : α → M β} (hm : Kinds m) (hf : ∀ a, Kinds (f a)) : Kinds (m >>= f) := by
  intro env st e st' h
  change (match m env st with
    | .ret a st => f a env st
    | .throw e st => .throw e st
    | .fault x => .fault x) = _ at h
  cases hr : m env st with
  | ret a st1 => rw [hr] at h; exact hf a env st1 e st' h
  | throw e1 st1 => rw [hr] at h; cases h; exact hm env st e st' hr
  | fault f => rw [hr] at h; cases h

theorem storage_resize (n : Nat) : Kinds (Storage.resize n) := by
  intro env st e st' h
  have hres : Kinds (Storage.reserve n) := by
    intro env st e st' h
    unfold Storage.reserve at h
    split at h
    · cases h
    · dsimp only at h
      split at h
      · rename_i ha
        cases h
        unfold Storage.allocate at ha
        split at ha <;> cases ha
        decide
      · cases h
      · split at h
        · cases h
        · split at h <;> cases h
  unfold Storage.resize at h
  split at h
  · rename_i hr
    cases h
    exact hres _ _ _ _ hr
  · cases h
  · split at h
    · cases h
    · split at h <;> cases h

end Kinds

/-- decompose a call -/
macro "kinds" : tactic => `(tactic| repeat' (with_reducible first
  | assumption
  | exact Kinds.pure _
  | exact Kinds.fault _
  | exact Kinds.raise (by decide)
  | exact Kinds.pt
  | exact Kinds.sizeMax
  | exact Kinds.isNull
  | exact Kinds.setPt _
  | exact Kinds.ask _
  | exact Kinds.assert _
  | exact Kinds.put _ _
  | exact Kinds.move _ _ _
  | exact Kinds.storage_resize _
  | refine Kinds.bind ?_ fun _ => ?_
  | split
  | dsimp only))

theorem kinds_resize (id n : Nat) : Kinds (Base.resize id n) := by unfold Base.resize; kinds
theorem kinds_resize2 (b e n : Nat) : Kinds (Base.resize2 b e n) := by unfold Base.resize2; kinds
theorem kinds_split (id n : Nat) : Kinds (Base.split id n) := by unfold Base.split; kinds
theorem kinds_require (b : Bool) : Kinds (Base.require b) := by unfold Base.require; kinds
theorem kinds_validate (e : PctSet) (s : Str) : Kinds (Base.validate e s) := kinds_require _
theorem kinds_parsed (ps : PS) : Kinds (Base.parsed ps) := by
  intro env st e st' h
  unfold Base.parsed at h
  cases hf : ps.flt with
  | some f => rw [hf] at h; cases h
  | none =>
    rw [hf] at h
    dsimp only at h
    split at h
    · cases h; decide
    · cases h
theorem kinds_parsedAll (ps : PS) : Kinds (Base.parsedAll ps) := by
  have := kinds_parsed ps
  unfold Base.parsedAll; kinds
theorem kinds_assertUserinfo : Kinds Base.assertUserinfo := by unfold Base.assertUserinfo; kinds

/-- the same with the composite steps -/
macro "kinds2" : tactic => `(tactic| repeat' (with_reducible first
  | assumption
  | exact kinds_resize _ _
  | exact kinds_resize2 _ _ _
  | exact kinds_split _ _
  | exact kinds_require _
  | exact kinds_validate _ _
  | exact kinds_parsed _
  | exact kinds_parsedAll _
  | exact kinds_assertUserinfo
  | exact Kinds.pure _
  | exact Kinds.fault _
  | exact Kinds.raise (by decide)
  | exact Kinds.pt
  | exact Kinds.sizeMax
  | exact Kinds.isNull
  | exact Kinds.setPt _
  | exact Kinds.ask _
  | exact Kinds.assert _
  | exact Kinds.put _ _
  | exact Kinds.move _ _ _
  | exact Kinds.storage_resize _
  | refine Kinds.bind ?_ fun _ => ?_
  | split
  | dsimp only))

theorem kinds_set_user (s : Str) : Kinds (Base.set_user s) := by unfold Base.set_user; kinds2
theorem kinds_set_password (s : Str) : Kinds (Base.set_password s) := by unfold Base.set_password; kinds2
theorem kinds_set_port (s : Str) : Kinds (Base.set_port s) := by unfold Base.set_port; kinds2
theorem kinds_set_encoded_userinfo (s : Str) : Kinds (Base.set_encoded_userinfo s) := by unfold Base.set_encoded_userinfo; kinds2
theorem kinds_set_encoded_password (s : Str) : Kinds (Base.set_encoded_password s) := by
  have := kinds_set_password s
  unfold Base.set_encoded_password; kinds2
theorem kinds_addHost (s : Str) : Kinds (Base.addHost s) := by unfold Base.addHost; kinds2
theorem kinds_set_host (s : Str) : Kinds (Base.set_host s) := by
  have := kinds_addHost s
  unfold Base.set_host; kinds2
theorem kinds_lowerLoop : ∀ n i, Kinds (Base.lowerLoop i n)
  | 0, _ => .pure _
  | n + 1, i => by
    have := kinds_lowerLoop n (i + 1)
    unfold Base.lowerLoop; kinds2
theorem kinds_normalize_scheme : Kinds Base.normalize_scheme := by
  unfold Base.normalize_scheme
  dsimp only
  refine .bind .pt fun _ => ?_
  split
  · exact .pure _
  · exact .bind (.assert _) fun _ => .bind .pt fun _ => kinds_lowerLoop _ _

theorem kinds_run (op : Op) : Kinds (Url.run op) := by
  cases op <;> unfold Url.run <;> dsimp only
  case set_encoded_url s => unfold Base.set_encoded_url; kinds2
  case set_encoded_origin s => unfold Base.set_encoded_origin; kinds2
  case set_scheme s => unfold Base.set_scheme; kinds2
  case set_encoded_authority s => unfold Base.set_encoded_authority; kinds2
  case set_encoded_userinfo s => exact kinds_set_encoded_userinfo s
  case set_userinfo_part s =>
    have := kinds_set_encoded_userinfo s
    have := kinds_set_encoded_userinfo (s.take (s.length - 1))
    unfold Base.set_userinfo_part; kinds2
  case set_user s => exact kinds_set_user s
  case set_encoded_user s =>
    have := kinds_set_user s
    unfold Base.set_encoded_user; kinds2
  case set_password s => exact kinds_set_password s
  case set_encoded_password s => exact kinds_set_encoded_password s
  case set_password_part s =>
    have := kinds_set_password s
    have := kinds_set_encoded_password (s.drop 1)
    unfold Base.set_password_part; kinds2
  case set_host s => exact kinds_set_host s
  case set_encoded_host s =>
    have := kinds_set_host s
    have := kinds_addHost s
    unfold Base.set_encoded_host; kinds2
  case set_port s => exact kinds_set_port s
  case set_port_number n =>
    unfold Base.set_port_number
    exact .bind (.ask _) fun s => kinds_set_port s
  case set_port_part s =>
    have := kinds_set_port s
    have := kinds_set_port (s.drop 1)
    unfold Base.set_port_part; kinds2
  case set_encoded_path s => unfold Base.set_encoded_path; kinds2
  case set_query s => unfold Base.set_query Base.setPlain; kinds2
  case set_encoded_query s => unfold Base.set_encoded_query Base.setEncoded; kinds2
  case set_query_part s => unfold Base.set_query_part Base.setPart; kinds2
  case set_fragment s => unfold Base.set_fragment Base.setPlain; kinds2
  case set_encoded_fragment s => unfold Base.set_encoded_fragment Base.setEncoded; kinds2
  case set_fragment_part s => unfold Base.set_fragment_part Base.setPart; kinds2
  case normalize_scheme => exact kinds_normalize_scheme
  case normalize => exact kinds_normalize_scheme

end Url
