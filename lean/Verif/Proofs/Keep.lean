import Verif.Model.Op

/-!
What the modifying calls leave of the cached counts and of the cached host type, from any state.
-/

set_option autoImplicit false

namespace Url
open Spec

/-- what is cached beside the offsets -/
def Parts.cached (p : Parts) : Nat × Nat × HostType := (p.nseg, p.nparam, p.host)

/-- what is cached of the path and of the query -/
def Parts.counts (p : Parts) : Nat × Nat := (p.nseg, p.nparam)

/-- the value `v` is `w` in the end -/
def Out.Has {α β : Type} (v : Parts → β) (w : β) : Out α → Prop
  | .ret _ st => v st.pt = w
  | .throw _ st => v st.pt = w
  | .fault _ => True

/-- a step after which `v` has the same value, unless it does not end -/
def Keep {β : Type} (v : Parts → β) {α : Type} (m : M α) : Prop := ∀ env st, (m env st).Has v (v st.pt)

/-- a value the offsets have no influence on -/
def Off {β : Type} (v : Parts → β) : Prop := ∀ (p : Parts) (f : Nat → Nat), v { p with off := f } = v p

theorem off_cached : Off Parts.cached := fun _ _ => rfl
theorem off_counts : Off Parts.counts := fun _ _ => rfl

section
variable {β : Type} {v : Parts → β}

namespace Keep

theorem pure {α : Type} (a : α) : Keep v (Pure.pure a) := fun _ _ => rfl

theorem bind {α γ : Type} {m : M α} {f : α → M γ} (h : Keep v m) (hf : ∀ a, Keep v (f a)) : Keep v (m >>= f) := by
  intro env st
  have h := h env st
  show Out.Has v (v st.pt) (match m env st with | .ret a st => f a env st | .throw e st => .throw e st | .fault x => .fault x : Out γ)
  generalize m env st = x at h
  cases x with
  | ret a s =>
    have hf := hf a env s
    dsimp only at h ⊢
    generalize f a env s = y at hf
    cases y with
    | ret => exact hf.trans h
    | throw => exact hf.trans h
    | fault => trivial
  | throw e s => exact h
  | fault => trivial

theorem fault {α : Type} (f : Flt) : Keep v (fun _ _ => .fault f : M α) := fun _ _ => trivial
theorem raise {α : Type} (e : Exc) : Keep v (M.raise e : M α) := fun _ _ => rfl
theorem pt : Keep v M.pt := fun _ _ => rfl
theorem sizeMax : Keep v M.sizeMax := fun _ _ => rfl
theorem isNull : Keep v M.isNull := fun _ _ => rfl

theorem setPt {f : Parts → Parts} (h : ∀ p, v (f p) = v p) : Keep v (M.setPt f) := fun _ _ => h _

theorem ask {α : Type} (f : Obj → R α) : Keep v (M.ask f) := by
  intro env st
  unfold M.ask
  split
  · exact rfl
  · trivial

theorem assert (c : Obj → R Bool) : Keep v (M.assert c) := ask _

theorem put (i : Nat) (s : Str) : Keep v (M.put i s) := by
  intro env st
  unfold M.put
  split
  · exact rfl
  · split
    · trivial
    · split
      · exact rfl
      · trivial

theorem move (i j n : Nat) : Keep v (M.move i j n) := by
  intro env st
  unfold M.move
  split
  · exact rfl
  · split
    · trivial
    · split
      · exact rfl
      · trivial

theorem storage_reserve (n : Nat) : Keep v (Storage.reserve n) := by
  intro env st
  unfold Storage.reserve Storage.allocate
  split
  · exact rfl
  · by_cases h : Storage.newCap env.maxSize st.cap n + 1 ≤ env.maxSize ∧ env.alloc st.tick (Storage.newCap env.maxSize st.cap n + 1) = true
    · dsimp only
      rw [if_pos h]
      dsimp only
      cases st.buf with
      | none => exact rfl
      | some b =>
        dsimp only
        split <;> first | rfl | trivial
    · dsimp only
      rw [if_neg h]
      exact rfl

theorem storage_resize (n : Nat) : Keep v (Storage.resize n) := by
  intro env st
  have h := storage_reserve (v := v) n env st
  unfold Storage.resize
  generalize Storage.reserve n env st = x at h
  cases x with
  | ret _ s =>
    dsimp only at h ⊢
    cases s.buf with
    | none => exact h
    | some b =>
      dsimp only
      split
      · exact h
      · trivial
  | throw _ s => exact h
  | fault => trivial

theorem parsed (ps : PS) : Keep v (Base.parsed ps) := by
  unfold Base.parsed
  split
  · exact fault _
  · split
    · exact raise _
    · exact pure _

theorem parsedAll (ps : PS) : Keep v (Base.parsedAll ps) := by
  unfold Base.parsedAll
  refine bind (parsed _) fun _ => ?_
  split
  · exact pure _
  · exact raise _

theorem require (b : Bool) : Keep v (Base.require b) := by
  unfold Base.require
  split
  · exact pure _
  · exact raise _

theorem validate (e : PctSet) (s : Str) : Keep v (Base.validate e s) := require _

end Keep

/-- a step that leaves the table alone -/
macro "keep1" : tactic => `(tactic| with_reducible first
  | exact Keep.pt | exact Keep.assert _ | exact Keep.require _ | exact Keep.validate _ _ | exact Keep.parsed _
  | exact Keep.parsedAll _ | exact Keep.isNull | exact Keep.pure _ | exact Keep.fault _ | exact Keep.put _ _
  | exact Keep.move _ _ _ | exact Keep.sizeMax | exact Keep.raise _ | exact Keep.storage_resize _ | exact Keep.ask _)

macro "keep" : tactic => `(tactic| repeat' first
  | keep1
  | (with_reducible assumption)
  | (with_reducible refine Keep.bind ?_ fun _ => ?_)
  | split
  | dsimp only)

variable (hv : Off v)
include hv

theorem Keep.resize (id n : Nat) : Keep v (Base.resize id n) := by
  unfold Base.resize
  keep <;> exact .setPt fun p => hv p _

theorem Keep.resize2 (a b n : Nat) : Keep v (Base.resize2 a b n) := by
  unfold Base.resize2
  keep <;> exact .setPt fun p => hv p _

theorem Keep.split (id n : Nat) : Keep v (Base.split id n) := by
  unfold Base.split
  keep
  exact .setPt fun p => by unfold Parts.split; exact hv p _

omit hv

theorem Keep.assertUserinfo : Keep v Base.assertUserinfo := by unfold Base.assertUserinfo; keep

/-- decompose a setter into steps -/
macro "keeps" hv:ident : tactic => `(tactic| repeat' first
  | (with_reducible first | exact Keep.resize $hv _ _ | exact Keep.resize2 $hv _ _ _ | exact Keep.split $hv _ _ | exact Keep.assertUserinfo)
  | keep1
  | (with_reducible assumption)
  | (with_reducible refine Keep.bind ?_ fun _ => ?_)
  | split
  | dsimp only)

include hv

theorem keep_set_user (s : Str) : Keep v (Base.set_user s) := by unfold Base.set_user; keeps hv
theorem keep_set_password (s : Str) : Keep v (Base.set_password s) := by unfold Base.set_password; keeps hv
theorem keep_set_encoded_password (s : Str) : Keep v (Base.set_encoded_password s) := by
  have := keep_set_password hv s
  unfold Base.set_encoded_password; keeps hv
theorem keep_addHost (s : Str) : Keep v (Base.addHost s) := by unfold Base.addHost; keeps hv

theorem keep_set_host_nil : Keep v (Base.set_host []) := by
  unfold Base.set_host
  rw [if_pos (by rfl)]
  keeps hv

theorem keep_set_host {s : Str} (hh : s ≠ [] → ∀ (p : Parts) (k : HostType), v { p with host := k } = v p) : Keep v (Base.set_host s) := by
  by_cases hs : s = []
  · subst hs; exact keep_set_host_nil hv
  have hh := hh hs
  have := keep_addHost hv s
  unfold Base.set_host
  keeps hv
  all_goals exact .setPt fun p => hh p _

theorem keep_set_encoded_host {s : Str} (hh : s ≠ [] → ∀ (p : Parts) (k : HostType), v { p with host := k } = v p) :
    Keep v (Base.set_encoded_host s) := by
  by_cases hs : s = []
  · subst hs
    unfold Base.set_encoded_host
    rw [if_pos (by rfl)]
    exact keep_set_host_nil hv
  have hh := hh hs
  have := keep_addHost hv s
  have := keep_set_host hv fun _ : s ≠ [] => hh
  unfold Base.set_encoded_host
  keeps hv
  all_goals exact .setPt fun p => hh p _

theorem keep_set_port (s : Str) : Keep v (Base.set_port s) := by unfold Base.set_port; keeps hv
theorem keep_set_encoded_userinfo (s : Str) : Keep v (Base.set_encoded_userinfo s) := by unfold Base.set_encoded_userinfo; keeps hv

omit hv

theorem keep_lowerLoop (i n : Nat) : Keep v (Base.lowerLoop i n) := by
  induction n generalizing i with
  | zero => exact .pure _
  | succ n ih =>
    have := ih (i + 1)
    unfold Base.lowerLoop; keep

theorem keep_normalize_scheme : Keep v Base.normalize_scheme := by
  unfold Base.normalize_scheme
  keep
  exact keep_lowerLoop _ _

include hv

/-- Every modifying call that does not store a url keeps a value that does not depend on the offsets; the two that store a host do if
it does not depend on the host type. -/
theorem keep_run (op : Op) (hl : ∀ s, op = .set_encoded_url s → s = [])
    (hh : ∀ s, s ≠ [] → op = .set_host s ∨ op = .set_encoded_host s → ∀ (p : Parts) (k : HostType), v { p with host := k } = v p) :
    Keep v (run op) := by
  cases op with
  | set_encoded_url s =>
    obtain rfl := hl s rfl
    show Keep v (Base.set_encoded_url [])
    unfold Base.set_encoded_url
    rw [if_pos (by rfl)]
    keeps hv
  | set_encoded_origin s => show Keep v (Base.set_encoded_origin s); unfold Base.set_encoded_origin; keeps hv
  | set_scheme s => show Keep v (Base.set_scheme s); unfold Base.set_scheme; keeps hv
  | set_encoded_authority s => show Keep v (Base.set_encoded_authority s); unfold Base.set_encoded_authority; keeps hv
  | set_encoded_userinfo s => exact keep_set_encoded_userinfo hv s
  | set_userinfo_part s =>
    have := keep_set_encoded_userinfo hv s
    have := keep_set_encoded_userinfo hv (s.take (s.length - 1))
    show Keep v (Base.set_userinfo_part s); unfold Base.set_userinfo_part; keeps hv
  | set_user s => exact keep_set_user hv s
  | set_encoded_user s =>
    have := keep_set_user hv s
    show Keep v (Base.set_encoded_user s); unfold Base.set_encoded_user; keeps hv
  | set_password s => exact keep_set_password hv s
  | set_encoded_password s => exact keep_set_encoded_password hv s
  | set_password_part s =>
    have := keep_set_password hv s
    have := keep_set_encoded_password hv (s.drop 1)
    show Keep v (Base.set_password_part s); unfold Base.set_password_part; keeps hv
  | set_host s => exact keep_set_host hv fun hs => hh s hs (.inl rfl)
  | set_encoded_host s => exact keep_set_encoded_host hv fun hs => hh s hs (.inr rfl)
  | set_port s => exact keep_set_port hv s
  | set_port_number n => exact .bind (.ask _) fun s => keep_set_port hv s
  | set_port_part s =>
    have := keep_set_port hv s
    have := keep_set_port hv (s.drop 1)
    show Keep v (Base.set_port_part s); unfold Base.set_port_part; keeps hv
  | set_encoded_path s => show Keep v (Base.set_encoded_path s); unfold Base.set_encoded_path; keeps hv
  | set_query s => show Keep v (Base.set_query s); unfold Base.set_query Base.setPlain; keeps hv
  | set_encoded_query s => show Keep v (Base.set_encoded_query s); unfold Base.set_encoded_query Base.setEncoded; keeps hv
  | set_query_part s => show Keep v (Base.set_query_part s); unfold Base.set_query_part Base.setPart; keeps hv
  | set_fragment s => show Keep v (Base.set_fragment s); unfold Base.set_fragment Base.setPlain; keeps hv
  | set_encoded_fragment s => show Keep v (Base.set_encoded_fragment s); unfold Base.set_encoded_fragment Base.setEncoded; keeps hv
  | set_fragment_part s => show Keep v (Base.set_fragment_part s); unfold Base.set_fragment_part Base.setPart; keeps hv
  | normalize_scheme => exact keep_normalize_scheme
  | normalize => exact keep_normalize_scheme

end

end Url
