import Verif.Model.Counted

/-!
The counted calls are the calls, and what they count.
-/

set_option linter.unusedSimpArgs false
set_option autoImplicit false

namespace Url
variable {α β : Type}

/-- the counted call has the outcome of the call -/
def Uncounted (c : CM α) (m : M α) : Prop := ∀ env st, (c env st).2 = m env st

theorem Uncounted.pure (a : α) : Uncounted (pure a) (pure a) := fun _ _ => rfl

theorem Uncounted.lift (m : M α) : Uncounted (CM.lift m) m := fun _ _ => rfl

theorem Uncounted.bind {c : CM α} {m : M α} {f : α → CM β} {g : α → M β} (h : Uncounted c m) (h' : ∀ a, Uncounted (f a) (g a)) :
    Uncounted (c >>= f) (m >>= g) := by
  intro env st
  show (match c env st with
    | (n, .ret a st) => (n + (f a env st).1, (f a env st).2)
    | (n, .throw e st) => (n, .throw e st)
    | (n, .fault x) => (n, .fault x) : Nat × Out β).2 = match m env st with
    | .ret a st => g a env st
    | .throw e st => .throw e st
    | .fault x => .fault x
  rw [← h env st]
  rcases c env st with ⟨n, _ | _ | _⟩
  · exact h' _ _ _
  · rfl
  · rfl

theorem Uncounted.ite {p : Prop} [Decidable p] {c d : CM α} {m n : M α} (h : Uncounted c m) (h' : Uncounted d n) :
    Uncounted (if p then c else d) (if p then m else n) := by
  split
  · exact h
  · exact h'

theorem Uncounted.put (i : Nat) (s : Str) : Uncounted (CM.put i s) (M.put i s) := fun _ _ => rfl
theorem Uncounted.move (a b n : Nat) : Uncounted (CM.move a b n) (M.move a b n) := fun _ _ => rfl
theorem Uncounted.storage (n : Nat) : Uncounted (CM.storage n) (Storage.resize n) := fun _ _ => rfl
theorem Uncounted.reserve (n : Nat) : Uncounted (CM.reserve n) (Storage.reserve n) := fun _ _ => rfl

/-- go through the steps of a call -/
macro "forget" : tactic => `(tactic| repeat' first
  | assumption
  | exact Uncounted.pure _ | exact Uncounted.put _ _ | exact Uncounted.move _ _ _ | exact Uncounted.storage _ | exact Uncounted.reserve _
  | exact Uncounted.lift _
  | refine Uncounted.bind ?_ (fun _ => ?_)
  | refine Uncounted.ite ?_ ?_)

theorem f_resize (id n : Nat) : Uncounted (Counted.resize id n) (Base.resize id n) := by
  unfold Counted.resize Base.resize
  forget

theorem f_resize2 (a b n : Nat) : Uncounted (Counted.resize2 a b n) (Base.resize2 a b n) := by
  unfold Counted.resize2 Base.resize2
  forget

/-- the same with the calls of other members -/
macro "forgets" : tactic => `(tactic| repeat' first
  | assumption
  | exact Uncounted.pure _ | exact Uncounted.put _ _ | exact Uncounted.move _ _ _ | exact Uncounted.storage _ | exact Uncounted.reserve _
  | exact f_resize _ _ | exact f_resize2 _ _ _
  | exact Uncounted.lift _
  | refine Uncounted.bind ?_ (fun _ => ?_)
  | refine Uncounted.ite ?_ ?_)

theorem f_set_encoded_url (s : Str) : Uncounted (Counted.set_encoded_url s) (Base.set_encoded_url s) := by
  unfold Counted.set_encoded_url Base.set_encoded_url; forgets

theorem f_set_encoded_origin (s : Str) : Uncounted (Counted.set_encoded_origin s) (Base.set_encoded_origin s) := by
  unfold Counted.set_encoded_origin Base.set_encoded_origin; forgets

theorem f_set_scheme (s : Str) : Uncounted (Counted.set_scheme s) (Base.set_scheme s) := by
  unfold Counted.set_scheme Base.set_scheme; forgets

theorem f_set_encoded_authority (s : Str) : Uncounted (Counted.set_encoded_authority s) (Base.set_encoded_authority s) := by
  unfold Counted.set_encoded_authority Base.set_encoded_authority; forgets

theorem f_set_encoded_userinfo (s : Str) : Uncounted (Counted.set_encoded_userinfo s) (Base.set_encoded_userinfo s) := by
  unfold Counted.set_encoded_userinfo Base.set_encoded_userinfo; forgets

theorem f_set_userinfo_part (s : Str) : Uncounted (Counted.set_userinfo_part s) (Base.set_userinfo_part s) := by
  unfold Counted.set_userinfo_part Base.set_userinfo_part
  exact .ite (f_set_encoded_userinfo _) (.bind (.lift _) fun _ => f_set_encoded_userinfo _)

theorem f_set_user (s : Str) : Uncounted (Counted.set_user s) (Base.set_user s) := by
  unfold Counted.set_user Base.set_user; forgets

theorem f_set_encoded_user (s : Str) : Uncounted (Counted.set_encoded_user s) (Base.set_encoded_user s) := by
  have h0 := f_set_user s
  unfold Counted.set_encoded_user Base.set_encoded_user
  forgets

theorem f_set_password (s : Str) : Uncounted (Counted.set_password s) (Base.set_password s) := by
  unfold Counted.set_password Base.set_password; forgets

theorem f_set_encoded_password (s : Str) : Uncounted (Counted.set_encoded_password s) (Base.set_encoded_password s) := by
  have h0 := f_set_password s
  unfold Counted.set_encoded_password Base.set_encoded_password
  forgets

theorem f_set_password_part (s : Str) : Uncounted (Counted.set_password_part s) (Base.set_password_part s) := by
  have h0 := f_set_password s
  have h1 := f_set_encoded_password (s.drop 1)
  unfold Counted.set_password_part Base.set_password_part
  forgets

theorem f_addHost (t : Str) : Uncounted (Counted.addHost t) (Base.addHost t) := by
  unfold Counted.addHost Base.addHost; forgets

theorem f_set_host (s : Str) : Uncounted (Counted.set_host s) (Base.set_host s) := by
  have h0 := f_addHost s
  unfold Counted.set_host Base.set_host
  forgets

theorem f_set_encoded_host (s : Str) : Uncounted (Counted.set_encoded_host s) (Base.set_encoded_host s) := by
  have h0 := f_set_host s
  have h1 := f_addHost s
  unfold Counted.set_encoded_host Base.set_encoded_host
  forgets

theorem f_set_port (s : Str) : Uncounted (Counted.set_port s) (Base.set_port s) := by
  unfold Counted.set_port Base.set_port; forgets

theorem f_set_port_number (n : UInt32) : Uncounted (Counted.set_port_number n) (Base.set_port_number n) := by
  unfold Counted.set_port_number Base.set_port_number
  exact .bind (.lift _) fun _ => f_set_port _

theorem f_set_port_part (s : Str) : Uncounted (Counted.set_port_part s) (Base.set_port_part s) := by
  have h0 := f_set_port s
  have h1 := f_set_port (s.drop 1)
  unfold Counted.set_port_part Base.set_port_part
  forgets

theorem f_set_encoded_path (s : Str) : Uncounted (Counted.set_encoded_path s) (Base.set_encoded_path s) := by
  unfold Counted.set_encoded_path Base.set_encoded_path; forgets

theorem f_setPlain (id : Nat) (d : Byte) (e : PctSet) (s : Str) : Uncounted (Counted.setPlain id d e s) (Base.setPlain id d e s) := by
  unfold Counted.setPlain Base.setPlain; forgets

theorem f_setEncoded (id : Nat) (d : Byte) (e : PctSet) (s : Str) : Uncounted (Counted.setEncoded id d e s) (Base.setEncoded id d e s) := by
  unfold Counted.setEncoded Base.setEncoded; forgets

theorem f_setPart (id : Nat) (d : Byte) (e : PctSet) (s : Str) : Uncounted (Counted.setPart id d e s) (Base.setPart id d e s) := by
  unfold Counted.setPart Base.setPart; forgets

theorem f_lowerLoop (n i : Nat) : Uncounted (Counted.lowerLoop i n) (Base.lowerLoop i n) := by
  induction n generalizing i with
  | zero => exact .pure _
  | succ n ih =>
    have h := ih (i + 1)
    unfold Counted.lowerLoop Base.lowerLoop
    forgets

theorem f_normalize_scheme : Uncounted Counted.normalize_scheme Base.normalize_scheme := by
  unfold Counted.normalize_scheme Base.normalize_scheme
  refine .bind (.lift _) fun _ => .ite (.pure _) (.bind (.lift _) fun _ => .bind (.lift _) fun _ => f_lowerLoop _ _)

theorem f_seg_erase_range (a b : SegIt) : Uncounted (Counted.seg_erase_range a b) (Base.seg_erase_range a b) := by
  unfold Counted.seg_erase_range Base.seg_erase_range; forgets

theorem f_seg_erase (a : SegIt) : Uncounted (Counted.seg_erase a) (Base.seg_erase a) := .bind (.lift _) fun _ => f_seg_erase_range _ _

theorem f_seg_put (p : SegIt) (n : Nat) (s : Str) : Uncounted (Counted.seg_put p n s) (Base.seg_put p n s) := by
  unfold Counted.seg_put Base.seg_put; forgets

theorem f_seg_insert_encoded_impl (p : SegIt) (s : Str) : Uncounted (Counted.seg_insert_encoded_impl p s) (Base.seg_insert_encoded_impl p s) :=
  .bind (.lift _) fun _ => f_seg_put _ _ _

theorem f_seg_insert_impl (p : SegIt) (s : Str) (n : Nat) : Uncounted (Counted.seg_insert_impl p s n) (Base.seg_insert_impl p s n) :=
  .bind (.lift _) fun _ => f_seg_put _ _ _

theorem f_seg_swap (p : SegIt) (n : Nat) {f : SegIt → CM SegIt} {g : SegIt → M SegIt} (h : ∀ i, Uncounted (f i) (g i)) :
    Uncounted (Counted.seg_swap p n f) (Base.seg_swap p n g) := by
  have h0 := f_seg_erase p
  have h1 := fun i => h i
  unfold Counted.seg_swap Base.seg_swap
  repeat' first
    | exact h1 _
    | assumption
    | exact Uncounted.pure _ | exact Uncounted.reserve _ | exact Uncounted.lift _
    | refine Uncounted.bind ?_ (fun _ => ?_)
    | refine Uncounted.ite ?_ ?_

/-- The counted call is the call. -/
theorem forget_run (op : Spec.Op) : Uncounted (runCounted op) (run op) := by
  cases op
  case set_encoded_url s => exact f_set_encoded_url s
  case set_encoded_origin s => exact f_set_encoded_origin s
  case set_scheme s => exact f_set_scheme s
  case set_encoded_authority s => exact f_set_encoded_authority s
  case set_encoded_userinfo s => exact f_set_encoded_userinfo s
  case set_userinfo_part s => exact f_set_userinfo_part s
  case set_user s => exact f_set_user s
  case set_encoded_user s => exact f_set_encoded_user s
  case set_password s => exact f_set_password s
  case set_encoded_password s => exact f_set_encoded_password s
  case set_password_part s => exact f_set_password_part s
  case set_host s => exact f_set_host s
  case set_encoded_host s => exact f_set_encoded_host s
  case set_port s => exact f_set_port s
  case set_port_number n => exact f_set_port_number n
  case set_port_part s => exact f_set_port_part s
  case set_encoded_path s => exact f_set_encoded_path s
  case set_query s => exact f_setPlain _ _ _ s
  case set_encoded_query s => exact f_setEncoded _ _ _ s
  case set_query_part s => exact f_setPart _ _ _ s
  case set_fragment s => exact f_setPlain _ _ _ s
  case set_encoded_fragment s => exact f_setEncoded _ _ _ s
  case set_fragment_part s => exact f_setPart _ _ _ s
  case normalize_scheme => exact f_normalize_scheme
  case normalize => exact f_normalize_scheme

/-- The counted edit is the edit. -/
theorem forget_runIt (e : ItOp) : Uncounted (runItCounted e) (runIt e) := by
  cases e
  case erase p => exact f_seg_erase p
  case erase_range a b => exact f_seg_erase_range a b
  case insert p s => exact f_seg_insert_impl p s _
  case insert_encoded p s => exact .bind (.lift _) fun _ => f_seg_insert_encoded_impl p s
  case replace p s => exact f_seg_swap p _ fun i => f_seg_insert_impl i s _
  case replace_encoded p s => exact .bind (.lift _) fun _ => f_seg_swap p _ fun i => f_seg_insert_encoded_impl i s

end Url
