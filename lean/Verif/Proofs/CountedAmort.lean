import Verif.Proofs.CountedLeast
import Verif.Proofs.CountedSetters
import Verif.Proofs.CountedEdits

/-!
What the calls write beyond what the growth of the capacity pays for.
-/

set_option linter.unusedSimpArgs false
set_option autoImplicit false

namespace Url.Amort
variable {α β : Type}

/-- Besides as many characters as the capacity grows by, the call writes at most `b`. -/
def Paid (c : CM α) (b : Nat) : Prop := ∀ env st st', st.size ≤ st.cap → (c env st).2.left = some st' →
  (c env st).1 + st.cap ≤ b + st'.cap ∧ st'.size ≤ st'.cap

/-- Besides, it writes at most the characters from the start of the part `f` on, and `b` more. The parts that are replaced are before `f`. -/
def Tail (c : CM α) (f b : Nat) : Prop := ∀ env st st', st.size ≤ st.cap → (∀ i, i < 8 → st.pt.off i ≤ st.pt.off (i + 1)) →
  (c env st).2.left = some st' → (c env st).1 + st.cap ≤ (st.pt.off 8 - st.pt.off f) + b + st'.cap ∧ st'.size ≤ st'.cap

theorem Paid.mono {c : CM α} {b b' : Nat} (h : Paid c b) (hb : b ≤ b') : Paid c b' := fun env st st' hs e => by
  have := h env st st' hs e
  omega

theorem Paid.tail {c : CM α} {b f : Nat} (h : Paid c b) : Tail c f b := fun env st st' hs _ e => by
  have := h env st st' hs e
  omega

theorem Tail.mono {c : CM α} {b b' f : Nat} (h : Tail c f b) (hb : b ≤ b') : Tail c f b' := fun env st st' hs ho e => by
  have := h env st st' hs ho e
  omega

theorem Tail.ite {p : Prop} [Decidable p] {c d : CM α} {f b : Nat} (h : p → Tail c f b) (h' : ¬ p → Tail d f b) : Tail (if p then c else d) f b := by
  split
  · exact h ‹_›
  · exact h' ‹_›

theorem Paid.ite {p : Prop} [Decidable p] {c d : CM α} {b : Nat} (h : p → Paid c b) (h' : ¬ p → Paid d b) : Paid (if p then c else d) b := by
  split
  · exact h ‹_›
  · exact h' ‹_›

/-- the outcome of two steps -/
theorem bind_left {c : CM α} {f : α → CM β} {env : Env} {st st' : St} (h : ((c >>= f) env st).2.left = some st') :
    (∃ a st1, (c env st).2 = .ret a st1 ∧ ((c >>= f) env st).1 = (c env st).1 + (f a env st1).1 ∧ (f a env st1).2.left = some st') ∨
    (((c >>= f) env st).1 = (c env st).1 ∧ (c env st).2.left = some st') := by
  have e : (c >>= f) env st = match c env st with
    | (n, .ret a st) => (n + (f a env st).1, (f a env st).2)
    | (n, .throw e st) => (n, .throw e st)
    | (n, .fault x) => (n, .fault x) := rfl
  rw [e] at h ⊢
  revert h
  rcases c env st with ⟨k, ⟨a, st1⟩ | ⟨e, st1⟩ | x⟩
  · exact fun h => .inl ⟨a, st1, rfl, rfl, h⟩
  · exact fun h => .inr ⟨rfl, h⟩
  · intro h; cases h

theorem Paid.bind {c : CM α} {f : α → CM β} {b b' : Nat} (h : Paid c b) (h' : ∀ a, Paid (f a) b') : Paid (c >>= f) (b + b') := by
  intro env st st' hs e
  rcases bind_left e with ⟨a, st1, e1, e2, e3⟩ | ⟨e1, e2⟩
  · have h1 := h env st st1 hs (by rw [e1]; rfl)
    have h2 := h' a env st1 st' h1.2 e3
    exact ⟨by omega, h2.2⟩
  · have h1 := h env st st' hs e2
    exact ⟨by omega, h1.2⟩

theorem Tail.bind {c : CM α} {g : α → CM β} {f b b' : Nat} (h : Tail c f b) (h' : ∀ a, Paid (g a) b') : Tail (c >>= g) f (b + b') := by
  intro env st st' hs ho e
  rcases bind_left e with ⟨a, st1, e1, e2, e3⟩ | ⟨e1, e2⟩
  · have h1 := h env st st1 hs ho (by rw [e1]; rfl)
    have h2 := h' a env st1 st' h1.2 e3
    omega
  · have h1 := h env st st' hs ho e2
    omega

/-- it changes nothing, also when it throws -/
def Sits (m : M α) : Prop := ∀ env st st', (m env st).left = some st' → st' = st

theorem Sits.bind {m : M α} {f : α → M β} (h : Sits m) (h' : ∀ a, Sits (f a)) : Sits (m >>= f) := by
  intro env st st' hb
  change (match m env st with
    | .ret a st => f a env st
    | .throw e st => .throw e st
    | .fault x => .fault x).left = _ at hb
  have := h env st
  revert this hb
  rcases m env st with ⟨a, st1⟩ | ⟨e, st1⟩ | x
  · intro hb this
    exact (h' a env st1 st' hb).trans (this _ rfl)
  · intro hb this
    exact this _ hb
  · intro hb
    cases hb

theorem Sits.ask (f : Obj → R α) : Sits (M.ask f) := by
  intro env st st' h
  unfold M.ask at h
  split at h <;> cases h
  rfl

theorem Sits.ite {p : Prop} [Decidable p] {c d : M α} (h : Sits c) (h' : Sits d) : Sits (if p then c else d) := by
  split
  · exact h
  · exact h'

theorem Sits.pure (a : α) : Sits (pure a) := fun _ _ _ h => by cases h; rfl
theorem Sits.raise (e : Exc) : Sits (M.raise e : M α) := fun _ _ _ h => by cases h; rfl
theorem Sits.fault (f : Flt) : Sits (fun _ _ => .fault f : M α) := fun _ _ _ h => by cases h
theorem Sits.undefined : Sits (M.undefined : M α) := fun _ _ _ h => by cases h
theorem Sits.assert (f : Obj → R Bool) : Sits (M.assert f) := Sits.ask _
theorem Sits.pt : Sits M.pt := fun _ _ _ h => by cases h; rfl
theorem Sits.sizeMax : Sits M.sizeMax := fun _ _ _ h => by cases h; rfl
theorem Sits.isNull : Sits M.isNull := fun _ _ _ h => by cases h; rfl
theorem Sits.stored : Sits M.stored := fun _ _ _ h => by cases h; rfl
theorem Sits.capacity : Sits M.capacity := fun _ _ _ h => by cases h; rfl
theorem Sits.parsed (ps : PS) : Sits (Base.parsed ps) := by
  unfold Base.parsed
  cases ps.flt with
  | some f => exact .fault f
  | none => exact .ite (.raise _) (.pure _)
theorem Sits.parsedAll (ps : PS) : Sits (Base.parsedAll ps) := .bind (.parsed _) fun _ => .ite (.pure _) (.raise _)
theorem Sits.require (b : Bool) : Sits (Base.require b) := by
  cases b
  · exact Sits.raise _
  · exact Sits.pure _
theorem Sits.validate (e : PctSet) (s : Str) : Sits (Base.validate e s) := Sits.require _
theorem Sits.assertUserinfo : Sits Base.assertUserinfo := .bind (.assert _) fun _ => .bind (.assert _) fun _ => .bind (.assert _) fun _ => .assert _

theorem Tail.sits {m : M α} {g : α → CM β} {f b : Nat} (h : Sits m) (h' : ∀ a, Tail (g a) f b) : Tail (CM.lift m >>= g) f b := by
  intro env st st' hs ho e
  rcases bind_left e with ⟨a, st1, e1, e2, e3⟩ | ⟨e1, e2⟩
  · obtain rfl := h env st st1 (by change m env st = _ at e1; rw [e1]; rfl)
    have := h' a env st1 st' hs ho e3
    have : (CM.lift m env st1).1 = 0 := rfl
    omega
  · obtain rfl := h env st st' e2
    have : (CM.lift m env st').1 = 0 := rfl
    omega

/-- it does not touch the storage -/
def Idle (m : M α) : Prop := ∀ env st st', (m env st).left = some st' → st'.size = st.size ∧ st'.cap = st.cap

theorem Sits.idle {m : M α} (h : Sits m) : Idle m := fun env st st' e => by
  obtain rfl := h env st st' e
  exact ⟨rfl, rfl⟩

theorem Idle.bind {m : M α} {f : α → M β} (h : Idle m) (h' : ∀ a, Idle (f a)) : Idle (m >>= f) := by
  intro env st st' hb
  change (match m env st with
    | .ret a st => f a env st
    | .throw e st => .throw e st
    | .fault x => .fault x).left = _ at hb
  have := h env st
  revert this hb
  rcases m env st with ⟨a, st1⟩ | ⟨e, st1⟩ | x
  · intro hb this
    obtain ⟨h1, h2⟩ := this _ rfl
    obtain ⟨h3, h4⟩ := h' a env st1 st' hb
    exact ⟨h3.trans h1, h4.trans h2⟩
  · intro hb this
    exact this _ hb
  · intro hb
    cases hb

theorem Idle.setPt (f : Parts → Parts) : Idle (M.setPt f) := fun _ _ _ h => by cases h; exact ⟨rfl, rfl⟩
theorem Idle.split (id n : Nat) : Idle (Base.split id n) := .bind (Sits.assert _).idle fun _ => .bind (Sits.assert _).idle fun _ => .setPt _

theorem Paid.lift {m : M α} (h : Idle m) : Paid (CM.lift m) 0 := fun env st st' hs e => by
  obtain ⟨h1, h2⟩ := h env st st' e
  have : (CM.lift m env st).1 = 0 := rfl
  omega

theorem Paid.pure (a : α) : Paid (pure a) 0 := Paid.lift (Sits.pure a).idle

theorem Tail.ptThen {g : Parts → CM β} {f b : Nat}
    (h : ∀ pt : Parts, (∀ i, i < 8 → pt.off i ≤ pt.off (i + 1)) → Paid (g pt) (pt.off 8 - pt.off f + b)) : Tail (CM.lift M.pt >>= g) f b := by
  intro env st st' hs ho e
  rcases bind_left e with ⟨a, st1, e1, e2, e3⟩ | ⟨e1, e2⟩
  · cases e1
    have := h st.pt ho env st st' hs e3
    have : (CM.lift M.pt env st).1 = 0 := rfl
    omega
  · cases e2
    have : (CM.lift M.pt env st).1 = 0 := rfl
    omega

theorem put_storage {i : Nat} {s : Str} {env : Env} {st st' : St} (h : (M.put i s env st).left = some st') : st'.size = st.size ∧ st'.cap = st.cap := by
  unfold M.put at h
  split at h
  · cases h; exact ⟨rfl, rfl⟩
  · split at h
    · cases h
    · split at h <;> cases h
      exact ⟨rfl, rfl⟩

theorem move_storage {x y n : Nat} {env : Env} {st st' : St} (h : (M.move x y n env st).left = some st') :
    st'.size = st.size ∧ st'.cap = st.cap ∧ st'.pt = st.pt := by
  unfold M.move at h
  split at h
  · cases h; exact ⟨rfl, rfl, rfl⟩
  · split at h
    · cases h
    · split at h <;> cases h
      exact ⟨rfl, rfl, rfl⟩

theorem Paid.put (i : Nat) (s : Str) : Paid (CM.put i s) s.length := fun env st st' hs e => by
  obtain ⟨h1, h2⟩ := put_storage (env := env) e
  have : (CM.put i s env st).1 = s.length := rfl
  omega

theorem Paid.move (x y n : Nat) : Paid (CM.move x y n) n := fun env st st' hs e => by
  obtain ⟨h1, h2, -⟩ := move_storage (env := env) e
  have : (CM.move x y n env st).1 = n := rfl
  omega

theorem reserve_doubles {n : Nat} {env : Env} {st st' : St} (e : Storage.reserve n env st = .ret () st') (hn : ¬ n ≤ st.cap) : 2 * st.cap ≤ st'.cap := by
  unfold Storage.reserve at e
  rw [if_neg hn] at e
  have hc : 2 * st.cap ≤ Storage.newCap env.maxSize st.cap n ∨ Storage.newCap env.maxSize st.cap n + 1 > env.maxSize := by
    unfold Storage.newCap
    split
    · split <;> omega
    · omega
  simp only at e
  unfold Storage.allocate at e
  by_cases ha : Storage.newCap env.maxSize st.cap n + 1 ≤ env.maxSize ∧ env.alloc st.tick (Storage.newCap env.maxSize st.cap n + 1) = true
  · rw [if_pos ha] at e
    simp only at e
    split at e
    · cases e; simp only; omega
    · split at e
      · cases e; simp only; omega
      · cases e
  · rw [if_neg ha] at e
    cases e

theorem reserve_throw {n : Nat} {env : Env} {st st' : St} {x : Exc} (e : Storage.reserve n env st = .throw x st') :
    st'.size = st.size ∧ st'.cap = st.cap ∧ st'.pt = st.pt := by
  unfold Storage.reserve at e
  split at e
  · cases e
  · simp only at e
    unfold Storage.allocate at e
    split at e
    · rename_i h; split at h <;> cases h
      cases e; exact ⟨rfl, rfl, rfl⟩
    · cases e
    · split at e
      · cases e
      · split at e <;> cases e

/-- Copying to a new block is paid for by the growth of the capacity. -/
theorem Paid.reserve (n : Nat) : Paid (CM.reserve n) 2 := by
  intro env st st' hs e
  obtain ⟨c1, -, c3⟩ := reserve_cost (n := n) env st hs
  change (Storage.reserve n env st).left = _ at e
  cases h : Storage.reserve n env st with
  | ret a st1 =>
    rw [h] at e; cases e
    obtain ⟨k1, k2, k3, k4, k5⟩ := reserve_size h
    by_cases hn : n ≤ st.cap
    · have := c3 hn
      omega
    · have := reserve_doubles h hn
      omega
  | throw x st1 =>
    rw [h] at e; cases e
    obtain ⟨k1, k2, -⟩ := reserve_throw h
    have : (CM.reserve n env st).1 = 0 := by unfold CM.reserve CM.reserved; rw [h]
    omega
  | fault f => rw [h] at e; cases e

theorem storage_paid {n : Nat} {env : Env} {st st' : St} (hs : st.size ≤ st.cap) (e : (Storage.resize n env st).left = some st') :
    (CM.storage n env st).1 + st.cap ≤ 3 + st'.cap ∧ st'.size ≤ st'.cap ∧ st'.pt = st.pt := by
  have hp := Paid.reserve n env st
  have hc : (CM.storage n env st).1 = (CM.reserve n env st).1 + CM.terminated (Storage.reserve n env st) := rfl
  have ht : CM.terminated (Storage.reserve n env st) ≤ 1 := by
    unfold CM.terminated
    split
    · split <;> omega
    · omega
  have hr : (CM.reserve n env st).2 = Storage.reserve n env st := rfl
  rw [hr] at hp
  unfold Storage.resize at e
  cases h : Storage.reserve n env st with
  | ret a st1 =>
    rw [h] at e hp
    obtain ⟨h1, h2⟩ := hp st1 hs rfl
    obtain ⟨k1, k2, k3, k4, k5⟩ := reserve_size h
    simp only at e
    split at e
    · cases e; exact ⟨by omega, h2, k2⟩
    · split at e <;> cases e
      exact ⟨by simp only; omega, k5, k2⟩
  | throw x st1 =>
    rw [h] at e hp; cases e
    obtain ⟨h1, h2⟩ := hp st' hs rfl
    exact ⟨by omega, h2, (reserve_throw h).2.2⟩
  | fault f => rw [h] at e; cases e

theorem Paid.storage (n : Nat) : Paid (CM.storage n) 3 := fun env _ _ hs e =>
  ⟨(storage_paid (env := env) hs e).1, (storage_paid (env := env) hs e).2.1⟩

theorem ordered_le {pt : Parts} (h : ∀ i, i < 8 → pt.off i ≤ pt.off (i + 1)) {i j : Nat} (hij : i ≤ j) (hj : j ≤ 8) : pt.off i ≤ pt.off j := by
  induction j with
  | zero => rw [Nat.le_zero.mp hij]; exact Nat.le_refl _
  | succ j ih =>
    rcases Nat.lt_or_ge i (j + 1) with hl | hl
    · exact Nat.le_trans (ih (by omega) (by omega)) (h j (by omega))
    · rw [show i = j + 1 by omega]; exact Nat.le_refl _

theorem Paid.moved (pos : Nat) (g : Parts → Parts) (x y n : Nat) (a : α) (h : n ≤ pos) :
    Paid (CM.move x y n >>= fun _ => CM.lift (M.setPt g) >>= fun _ => Pure.pure a) pos :=
  ((Paid.move x y n).bind fun _ => (Paid.lift (.setPt g)).bind fun _ => Paid.pure a).mono (by omega)

theorem t_resize {id f : Nat} (new : Nat) (hf : f ≤ id + 1) (hi : id < 8) : Tail (Counted.resize id new) f 4 := by
  unfold Counted.resize
  refine .ptThen fun pt ho => ?_
  have := ordered_le ho (i := f) (j := id + 1) (by omega) (by omega)
  have e8 : pt.off id_end = pt.off 8 := rfl
  refine .ite (fun _ => (Paid.pure _).mono (by omega)) fun _ => .ite (fun _ => ?_) fun _ => ?_
  · exact .moved _ _ _ _ _ _ (by omega)
  · refine ((Paid.lift Sits.sizeMax.idle).bind (b' := pt.off 8 - pt.off f + 4) fun m => ?_).mono (by omega)
    refine .ite (fun _ => (Paid.lift (Sits.raise _).idle).mono (by omega)) fun _ => ?_
    exact ((Paid.storage _).bind fun _ => .moved (pt.off 8 - pt.off f + 1) _ _ _ _ _ (by omega)).mono (by omega)

theorem t_resize2 {first last f : Nat} (new : Nat) (hf : f ≤ last) (hi : last ≤ 8) : Tail (Counted.resize2 first last new) f 4 := by
  unfold Counted.resize2
  refine .ptThen fun pt ho => ?_
  have := ordered_le ho (i := f) (j := last) (by omega) (by omega)
  have e8 : pt.off id_end = pt.off 8 := rfl
  refine .ite (fun _ => (Paid.pure _).mono (by omega)) fun _ => .ite (fun _ => ?_) fun _ => ?_
  · exact .moved _ _ _ _ _ _ (by omega)
  · refine ((Paid.lift Sits.sizeMax.idle).bind (b' := pt.off 8 - pt.off f + 4) fun m => ?_).mono (by omega)
    refine .ite (fun _ => (Paid.lift (Sits.raise _).idle).mono (by omega)) fun _ => ?_
    exact ((Paid.storage _).bind fun _ => .moved (pt.off 8 - pt.off f + 1) _ _ _ _ _ (by omega)).mono (by omega)

theorem Tail.resizeThen {id f n b : Nat} {g : Nat → CM β} (hf : f ≤ id + 1) (hi : id < 8) (hb : 4 ≤ b) (h' : ∀ a, Paid (g a) (b - 4)) :
    Tail (Counted.resize id n >>= g) f b := ((t_resize n hf hi).bind h').mono (by omega)

theorem Tail.resize2Then {first last f n b : Nat} {g : Nat → CM β} (hf : f ≤ last) (hi : last ≤ 8) (hb : 4 ≤ b) (h' : ∀ a, Paid (g a) (b - 4)) :
    Tail (Counted.resize2 first last n >>= g) f b := ((t_resize2 n hf hi).bind h').mono (by omega)

theorem Paid.liftThen {m : M α} {g : α → CM β} {b : Nat} (h : Idle m) (h' : ∀ a, Paid (g a) b) : Paid (CM.lift m >>= g) b :=
  ((Paid.lift h).bind h').mono (by omega)

theorem Paid.oneThen {i : Nat} {c : Byte} {g : Unit → CM β} {b : Nat} (hb : 1 ≤ b) (h' : ∀ a, Paid (g a) (b - 1)) : Paid (CM.put i [c] >>= g) b :=
  ((Paid.put i [c]).bind h').mono (by simp only [List.length_cons, List.length_nil]; omega)

theorem Paid.putThen {i : Nat} {s : Str} {g : Unit → CM β} {b : Nat} (hb : s.length ≤ b) (h' : ∀ a, Paid (g a) (b - s.length)) :
    Paid (CM.put i s >>= g) b := ((Paid.put i s).bind h').mono (by omega)

theorem Tail.thenIdle {c : CM α} {m : α → M β} {f b : Nat} (h : Tail c f b) (h' : ∀ a, Idle (m a)) : Tail (c >>= fun a => CM.lift (m a)) f b :=
  (h.bind fun a => Paid.lift (h' a)).mono (by omega)

/-- Without an authority its parts are all empty. -/
theorem Tail.unlessAuthority {c d : CM β} {f b : Nat} (h2 : 2 ≤ f) (h5 : f ≤ 5) (h : Tail c 2 b) (h' : Tail d f b) :
    Tail (CM.lift (M.ask fun o => .ok (has_authority o)) >>= fun a => if (!a) = true then c else d) f b := by
  intro env st st' hs ho e
  have h0 : (CM.lift (M.ask fun o => .ok (has_authority o)) env st).1 = 0 := rfl
  rcases bind_left e with ⟨a, st1, e1, e2, e3⟩ | ⟨e1, e2⟩
  · cases e1
    rw [e2, h0]
    by_cases ha : (!has_authority (st.obj env.dbg)) = true
    · rw [if_pos ha] at e3 ⊢
      have hl : st.pt.off 5 - st.pt.off 1 = 0 := by
        unfold has_authority at ha
        rw [Bool.not_eq_true', bne_eq_false_iff_eq] at ha
        exact ha
      have o1 := ordered_le ho (i := 1) (j := 2) (by omega) (by omega)
      have o2 := ordered_le ho (i := 2) (j := f) (by omega) (by omega)
      have o3 := ordered_le ho (i := f) (j := 5) (by omega) (by omega)
      have o4 := ordered_le ho (i := 1) (j := 5) (by omega) (by omega)
      have := h env st st' hs ho e3
      omega
    · rw [if_neg ha] at e3 ⊢
      have := h' env st st' hs ho e3
      omega
  · obtain rfl := Sits.ask (fun o => .ok (has_authority o)) env st st' e2
    omega

macro "sits" : tactic => `(tactic| first
  | exact Sits.assert _ | exact Sits.ask _ | exact Sits.pt | exact Sits.sizeMax | exact Sits.isNull | exact Sits.stored | exact Sits.capacity
  | exact Sits.parsed _ | exact Sits.parsedAll _ | exact Sits.require _ | exact Sits.validate _ _ | exact Sits.assertUserinfo
  | exact Sits.raise _ | exact Sits.undefined | exact Sits.pure _ | exact Sits.fault _)

macro "idle" : tactic => `(tactic| first
  | exact Idle.split _ _ | exact Idle.setPt _ | exact Sits.idle (by sits))

/-- go through the steps of a call -/
macro "tails" : tactic => `(tactic| ((try dsimp only [liftM, monadLift, MonadLiftT.monadLift, MonadLift.monadLift]); repeat' with_reducible first
  | assumption
  | refine Tail.ite (fun _ => ?_) (fun _ => ?_)
  | refine Paid.ite (fun _ => ?_) (fun _ => ?_)
  | refine Tail.unlessAuthority (by decide) (by decide) ?_ ?_
  | refine Tail.sits (by sits) (fun _ => ?_)
  | refine Paid.liftThen (by idle) (fun _ => ?_)
  | refine Paid.oneThen (by omega) (fun _ => ?_)
  | refine Paid.putThen (by omega) (fun _ => ?_)
  | refine Tail.resizeThen (by decide) (by decide) (by omega) (fun _ => ?_)
  | refine Tail.resize2Then (by decide) (by decide) (by omega) (fun _ => ?_)
  | exact (Paid.pure _).mono (by omega)
  | exact Paid.tail ((Paid.pure _).mono (by omega))
  | exact (Paid.lift (by idle)).mono (by omega)
  | exact Paid.tail ((Paid.lift (by idle)).mono (by omega))
  | exact (Paid.put _ [_]).mono (by simp only [List.length_cons, List.length_nil]; omega)
  | exact (Paid.put _ _).mono (by omega)
  | refine Tail.thenIdle ?_ (fun _ => by idle)))

theorem t_set_encoded_origin (s : Str) : Tail (Counted.set_encoded_origin s) 5 (s.length + 4) := by
  unfold Counted.set_encoded_origin
  tails

theorem t_set_scheme (s : Str) : Tail (Counted.set_scheme s) 1 (s.length + 5) := by
  unfold Counted.set_scheme
  tails

theorem t_set_encoded_authority (s : Str) : Tail (Counted.set_encoded_authority s) 5 (s.length + 6) := by
  unfold Counted.set_encoded_authority
  tails

theorem t_set_encoded_userinfo (s : Str) : Tail (Counted.set_encoded_userinfo s) 3 (s.length + 7) := by
  unfold Counted.set_encoded_userinfo
  tails

theorem t_set_userinfo_part (s : Str) : Tail (Counted.set_userinfo_part s) 3 (s.length + 7) := by
  have h1 := t_set_encoded_userinfo s
  have h2 := (t_set_encoded_userinfo (s.take (s.length - 1))).mono (show _ ≤ s.length + 7 by rw [List.length_take]; omega)
  unfold Counted.set_userinfo_part
  tails

theorem t_set_user (s : Str) : Tail (Counted.set_user s) 2 (userinfo_nc_pct_set.encoded_size s + 7) := by
  have h1 := (encoded_le setOf_userinfo_nc s).1
  unfold Counted.set_user
  tails

theorem t_set_encoded_user (s : Str) : Tail (Counted.set_encoded_user s) 2 (s.length + 7) := by
  unfold Counted.set_encoded_user
  refine .ite (fun h => ?_) fun _ => ?_
  · obtain rfl := List.isEmpty_iff.mp h
    exact t_set_user []
  · tails

theorem t_set_password (s : Str) : Tail (Counted.set_password s) 3 (userinfo_pct_set.encoded_size s + 8) := by
  have h1 := (encoded_le setOf_userinfo s).1
  unfold Counted.set_password
  tails

theorem t_set_encoded_password (s : Str) : Tail (Counted.set_encoded_password s) 3 (s.length + 8) := by
  unfold Counted.set_encoded_password
  refine .ite (fun h => ?_) fun _ => ?_
  · obtain rfl := List.isEmpty_iff.mp h
    exact t_set_password []
  · tails

theorem t_password_part_other {s : Str} (h : s ≠ b!":") : Tail (Counted.set_password_part s) 3 (s.length + 8) := by
  unfold Counted.set_password_part
  refine .ite (fun h => ?_) fun _ => .ite (fun h1 => ?_) fun _ => ?_
  · obtain rfl := List.isEmpty_iff.mp h
    exact t_set_password []
  · have : (s.head? == some c!":") = false := by
      rw [beq_eq_false_iff_ne]
      intro h2
      match s, h1 with
      | [c], _ => cases h2; exact h rfl
    rw [this]
    intro env st st' hs ho e
    cases e
    exact ⟨by simp only [Bind.bind, CM.lift, Base.require, M.raise, liftM, monadLift, MonadLift.monadLift, Bool.false_eq_true, if_false]; omega, hs⟩
  · exact (t_set_encoded_password _).mono (by rw [List.length_drop]; omega)

theorem t_addHost (s : Str) : Tail (Counted.addHost s) 2 (s.length + 6) := by
  unfold Counted.addHost
  tails

theorem t_set_host (s : Str) : Tail (Counted.set_host s) 4 (reg_name_pct_set.encoded_size s + 6) := by
  obtain ⟨h1, h3, -⟩ := encoded_le setOf_regName s
  have h2 := (t_addHost s).mono (show _ ≤ reg_name_pct_set.encoded_size s + 6 by omega)
  unfold Counted.set_host
  cases (parse_ip_literal (PS.init s)).flt with
  | none => tails
  | some f => exact .ite (fun _ => by tails) fun _ => .sits (.fault f) fun _ => by tails

theorem t_set_encoded_host (s : Str) : Tail (Counted.set_encoded_host s) 4 (s.length + 6) := by
  have h2 := t_addHost s
  unfold Counted.set_encoded_host
  refine .ite (fun h => ?_) fun _ => ?_
  · obtain rfl := List.isEmpty_iff.mp h
    exact t_set_host []
  · tails

theorem t_set_port (s : Str) : Tail (Counted.set_port s) 5 (s.length + 7) := by
  unfold Counted.set_port
  tails

theorem t_set_port_part (s : Str) : Tail (Counted.set_port_part s) 5 (s.length + 7) := by
  have h1 := t_set_port s
  have h2 := (t_set_port (s.drop 1)).mono (show _ ≤ s.length + 7 by rw [List.length_drop]; omega)
  unfold Counted.set_port_part
  tails

theorem t_set_port_number (n : UInt32) : Tail (Counted.set_port_number n) 5 17 := by
  obtain ⟨s, h1, -, h2⟩ := port_string_of n
  unfold Counted.set_port_number
  intro env st st' hs ho e
  rcases bind_left e with ⟨a, st1, e1, e2, e3⟩ | ⟨e1, e2⟩
  · change M.ask (fun _ => port_string n) env st = _ at e1
    unfold M.ask at e1
    rw [h1] at e1
    cases e1
    have h3 := (t_set_port s).mono (b' := 17) (by omega) env st st' hs ho e3
    refine ⟨?_, h3.2⟩
    rw [e2]
    exact Nat.le_trans (by show 0 + _ + _ ≤ _; omega) h3.1
  · obtain rfl := Sits.ask (fun _ => port_string n) env st st' e2
    refine ⟨?_, hs⟩
    rw [e1]
    show 0 + _ ≤ _
    omega

theorem t_set_encoded_path (s : Str) : Tail (Counted.set_encoded_path s) 6 (s.length + 4) := by
  unfold Counted.set_encoded_path
  tails

theorem t_setPlain {id : Nat} (hid : id < 8) (d : Byte) {e : PctSet} {ok : Byte → Bool} (he : SetOf e ok) (s : Str) :
    Tail (Counted.setPlain id d e s) (id + 1) (e.encoded_size s + 5) := by
  have h1 := (encoded_le he s).1
  unfold Counted.setPlain
  refine .ite (fun _ => .resizeThen (Nat.le_refl _) hid (by omega) fun _ => ?_) fun _ => .resizeThen (Nat.le_refl _) hid (by omega) fun _ => ?_
  · tails
  · tails

theorem t_setEncoded {id : Nat} (hid : id < 8) (d : Byte) (e : PctSet) (s : Str) :
    Tail (Counted.setEncoded id d e s) (id + 1) (s.length + 5) := by
  unfold Counted.setEncoded
  refine .ite (fun _ => .resizeThen (Nat.le_refl _) hid (by omega) fun _ => ?_) fun _ => .sits (.validate _ _) fun _ =>
    .resizeThen (Nat.le_refl _) hid (by omega) fun _ => ?_
  · tails
  · tails

theorem t_setPart {id : Nat} (hid : id < 8) (d : Byte) (e : PctSet) (s : Str) :
    Tail (Counted.setPart id d e s) (id + 1) (s.length + 5) := by
  have : (s.drop 1).length ≤ s.length := by rw [List.length_drop]; omega
  unfold Counted.setPart
  refine .ite (fun _ => .resizeThen (Nat.le_refl _) hid (by omega) fun _ => ?_) fun _ => .sits (.require _) fun _ => .sits (.validate _ _) fun _ =>
    .resizeThen (Nat.le_refl _) hid (by omega) fun _ => ?_
  · tails
  · tails

theorem t_set_encoded_url (s : Str) : Tail (Counted.set_encoded_url s) 8 (s.length + 4) := by
  unfold Counted.set_encoded_url
  refine .ite (fun _ => ?_) fun _ => .sits (.parsed _) fun pt => Paid.tail ?_
  · tails
  · exact ((Paid.storage _).bind fun _ => .liftThen (.setPt _) fun _ => .put 0 s).mono (by omega)

/-- Besides, it writes at most the characters from the offset `p` on, and `b` more. -/
def Behind (c : CM α) (p b : Nat) : Prop := ∀ env st st', st.size ≤ st.cap → (c env st).2.left = some st' →
  (c env st).1 + st.cap ≤ (st.pt.off 8 - p) + b + st'.cap ∧ st'.size ≤ st'.cap

theorem Behind.sits {m : M α} {g : α → CM β} {p b : Nat} (h : Sits m) (h' : ∀ a, Behind (g a) p b) : Behind (CM.lift m >>= g) p b := by
  intro env st st' hs e
  have h0 : (CM.lift m env st).1 = 0 := rfl
  rcases bind_left e with ⟨a, st1, e1, e2, e3⟩ | ⟨e1, e2⟩
  · obtain rfl := h env st st1 (by change m env st = _ at e1; rw [e1]; rfl)
    have := h' a env st1 st' hs e3
    omega
  · obtain rfl := h env st st' e2
    omega

theorem Behind.nsegThen {g : Unit → CM β} {k : Parts → Nat} {p b : Nat} (h' : ∀ a, Behind (g a) p b) :
    Behind (CM.lift (M.setPt fun pt => { pt with nseg := k pt }) >>= g) p b := by
  intro env st st' hs e
  have h0 : ∀ st1, (M.setPt (fun pt => { pt with nseg := k pt }) env st).left = some st1 → st1.size = st.size ∧ st1.cap = st.cap ∧ st1.pt.off = st.pt.off :=
    fun st1 h => by cases h; exact ⟨rfl, rfl, rfl⟩
  have h1 : (CM.lift (M.setPt fun pt => { pt with nseg := k pt }) env st).1 = 0 := rfl
  rcases bind_left e with ⟨a, st1, e1, e2, e3⟩ | ⟨e1, e2⟩
  · obtain ⟨k1, k2, k3⟩ := h0 st1 (by change M.setPt (fun pt => { pt with nseg := k pt }) env st = _ at e1; rw [e1]; rfl)
    have := h' a env st1 st' (by omega) e3
    rw [k3] at this
    omega
  · obtain ⟨k1, k2, k3⟩ := h0 st' e2
    omega

theorem Behind.ptThen {g : Parts → CM β} {p b : Nat} (h : ∀ pt : Parts, Paid (g pt) (pt.off 8 - p + b)) : Behind (CM.lift M.pt >>= g) p b := by
  intro env st st' hs e
  rcases bind_left e with ⟨a, st1, e1, e2, e3⟩ | ⟨e1, e2⟩
  · cases e1
    have := h st.pt env st st' hs e3
    have : (CM.lift M.pt env st).1 = 0 := rfl
    omega
  · cases e2
    have : (CM.lift M.pt env st).1 = 0 := rfl
    omega

theorem Behind.mono {c : CM α} {p b p' b' : Nat} (h : Behind c p b) (hp : p' ≤ p) (hb : b ≤ b') : Behind c p' b' := fun env st st' hs e => by
  have := h env st st' hs e
  omega

theorem Behind.ite {q : Prop} [Decidable q] {c d : CM α} {p b : Nat} (h : q → Behind c p b) (h' : ¬ q → Behind d p b) : Behind (if q then c else d) p b := by
  split
  · exact h ‹_›
  · exact h' ‹_›

theorem Behind.lift {m : M α} {p b : Nat} (h : Sits m) : Behind (CM.lift m) p b := fun env st st' hs e => by
  obtain rfl := h env st st' e
  exact ⟨by show 0 + _ ≤ _; omega, hs⟩

/-- An erasure moves what is behind the erased characters. -/
theorem b_erase_range (first last : SegIt) : Behind (Counted.seg_erase_range first last) (max first.off last.off) 4 := by
  unfold Counted.seg_erase_range
  refine .sits .stored fun n => .sits (.assert _) fun _ => .sits (.assert _) fun _ => .sits (.assert _) fun _ => .sits (.assert _) fun _ => .sits (.assert _) fun _ => ?_
  refine .ite (fun _ => .lift .undefined) fun _ => .ite (fun _ => Behind.lift (.pure _)) fun hd => .sits (.ask _) fun t => .ite (fun _ => .lift .undefined) fun _ => ?_
  refine .sits (.assert _) fun _ => .sits (.assert _) fun _ => .sits .sizeMax fun m => .nsegThen fun _ => .ptThen fun pt => ?_
  have e8 : pt.off id_end = pt.off 8 := rfl
  refine ((Paid.move _ _ _).bind (b' := 3) fun _ => .liftThen (.setPt _) fun _ => .liftThen Sits.pt.idle fun pt => .liftThen Sits.stored.idle fun _ =>
    .liftThen (Sits.assert _).idle fun _ => ?_).mono (by omega)
  exact ((Paid.storage _).bind fun _ => .liftThen (Sits.assert _).idle fun _ => .lift (Sits.ask _).idle).mono (by omega)

theorem b_put (pos : SegIt) {ns : Nat} {enc : Str} (he : enc.length ≤ ns) : Behind (Counted.seg_put pos ns enc) pos.off (ns + 5) := by
  unfold Counted.seg_put
  refine .sits .stored fun n => .sits (.assert _) fun _ => .sits (.assert _) fun _ => .sits (.assert _) fun _ => .ptThen fun pt => ?_
  have e8 : pt.off id_end = pt.off 8 := rfl
  refine ((Paid.storage _).bind (b' := pt.off 8 - pos.off + 1 + (ns + 1)) fun _ => .liftThen (.setPt _) fun _ => .liftThen Sits.pt.idle fun _ => ?_).mono (by omega)
  refine ((Paid.move _ _ _).bind (b' := ns + 1) fun _ => .liftThen (Sits.assert _).idle fun _ => .oneThen (by omega) fun _ => .putThen (by omega) fun _ => ?_).mono (by omega)
  exact .liftThen Sits.sizeMax.idle fun _ => .liftThen (.setPt _) fun _ => (Paid.lift (Sits.ask _).idle).mono (by omega)

theorem b_insert_encoded_impl (pos : SegIt) (s : Str) : Behind (Counted.seg_insert_encoded_impl pos s) pos.off (s.length + 5) := by
  unfold Counted.seg_insert_encoded_impl
  exact .sits (.assert _) fun _ => b_put pos (Nat.le_refl _)

theorem b_insert_impl (pos : SegIt) (s : Str) :
    Behind (Counted.seg_insert_impl pos s (pchar_pct_set.encoded_size s)) pos.off (pchar_pct_set.encoded_size s + 5) := by
  unfold Counted.seg_insert_impl
  exact .sits (.assert _) fun _ => b_put pos (Nat.le_of_eq (encoded_le setOf_pchar s).1)

theorem b_insert_encoded (pos : SegIt) (s : Str) : Behind (Counted.seg_insert_encoded pos s) pos.off (s.length + 5) := by
  unfold Counted.seg_insert_encoded
  exact .sits (.validate _ _) fun _ => b_insert_encoded_impl pos s

theorem parse_off {lim : Nat} {o : Obj} {it it' : SegIt} (h : Seg.parse lim o it = .ok it') : it'.off = it.off := by
  unfold Seg.parse at h
  simp only [Bind.bind, Except.bind, Pure.pure, Except.pure] at h
  repeat' split at h
  all_goals first
    | (cases h; done)
    | (cases h; rfl)

theorem next_off {lim : Nat} {o : Obj} {it it' : SegIt} (h : Seg.next lim o it = .ok it') : it'.off = it.off + it.n := by
  unfold Seg.next at h
  simp only [Bind.bind, Except.bind, Pure.pure, Except.pure] at h
  split at h
  · cases h
  · split at h
    · cases h; rfl
    · exact parse_off h

theorem Behind.askThen {q : Obj → R α} {g : α → CM β} {p b : Nat} (h' : ∀ o a, q o = .ok a → Behind (g a) p b) :
    Behind (CM.lift (M.ask q) >>= g) p b := by
  intro env st st' hs e
  have h0 : (CM.lift (M.ask q) env st).1 = 0 := rfl
  rcases bind_left e with ⟨a, st1, e1, e2, e3⟩ | ⟨e1, e2⟩
  · change M.ask q env st = _ at e1
    unfold M.ask at e1
    split at e1
    · cases e1
      have := h' _ _ ‹_› env st st' hs e3
      omega
    · cases e1
  · obtain rfl := Sits.ask q env st st' e2
    omega

theorem b_erase (pos : SegIt) : Behind (Counted.seg_erase pos) (pos.off + pos.n) 4 := by
  unfold Counted.seg_erase
  refine .askThen fun o last h => (b_erase_range pos last).mono ?_ (Nat.le_refl _)
  rw [← next_off h]
  exact Nat.le_max_right _ _

/-- what it returns -/
def Produces (c : CM α) (P : α → Prop) : Prop := ∀ env st a st', (c env st).2 = .ret a st' → P a

theorem Produces.bind {c : CM α} {g : α → CM β} {P : β → Prop} (h : ∀ a, Produces (g a) P) : Produces (c >>= g) P := by
  intro env st b st' hb
  have e : (c >>= g) env st = match c env st with
    | (n, .ret a st) => (n + (g a env st).1, (g a env st).2)
    | (n, .throw e st) => (n, .throw e st)
    | (n, .fault x) => (n, .fault x) := rfl
  rw [e] at hb
  revert hb
  rcases c env st with ⟨k, ⟨a, st1⟩ | ⟨e, st1⟩ | x⟩
  · exact fun hb => h a env st1 b st' hb
  · intro hb; cases hb
  · intro hb; cases hb

theorem Produces.ite {q : Prop} [Decidable q] {c d : CM α} {P : α → Prop} (h : Produces c P) (h' : Produces d P) : Produces (if q then c else d) P := by
  split
  · exact h
  · exact h'

theorem g_erase_range (first last : SegIt) : Produces (Counted.seg_erase_range first last) fun it => it.off = first.off := by
  have hu : Produces (CM.lift (M.undefined : M SegIt)) fun it => it.off = first.off := fun _ _ _ _ h => by cases h
  unfold Counted.seg_erase_range
  refine .bind fun _ => .bind fun _ => .bind fun _ => .bind fun _ => .bind fun _ => .bind fun _ => .ite hu (.ite ?_ (.bind fun _ => .ite hu ?_))
  · intro _ _ _ _ h; cases h; rfl
  · refine .bind fun _ => .bind fun _ => .bind fun _ => .bind fun _ => .bind fun _ => .bind fun _ => .bind fun _ => .bind fun _ => .bind fun _ => .bind fun _ =>
      .bind fun _ => .bind fun _ => ?_
    intro env st it st' h
    change M.ask (fun o => Seg.parse id_query o first) env st = _ at h
    unfold M.ask at h
    split at h
    · cases h; exact parse_off ‹_›
    · cases h

theorem g_erase (pos : SegIt) : Produces (Counted.seg_erase pos) fun it => it.off = pos.off := by
  unfold Counted.seg_erase
  exact .bind fun last => g_erase_range pos last

theorem b_swap {pos : SegIt} {ns b : Nat} {ins : SegIt → CM SegIt} (hi : ∀ it, Behind (ins it) it.off b) {env : Env} {st st' : St}
    (hs : st.size ≤ st.cap) (hc : st.pt.off 8 ≤ st.cap) (e : (Counted.seg_swap pos ns ins env st).2.left = some st') :
    (Counted.seg_swap pos ns ins env st).1 + st.cap ≤ 2 * (st.pt.off 8 - pos.off) + (b + 6) + st'.cap ∧ st'.size ≤ st'.cap := by
  have rest : ∀ st, st.size ≤ st.cap → st.pt.off 8 ≤ st.cap → ((CM.lift M.capacity >>= fun cap => Counted.seg_erase pos >>= fun it => ins it >>= fun r =>
      CM.lift M.capacity >>= fun cap' => CM.lift (M.assert fun _ => .ok (cap' = cap)) >>= fun _ => (pure r : CM SegIt)) env st).2.left = some st' →
      ((CM.lift M.capacity >>= fun cap => Counted.seg_erase pos >>= fun it => ins it >>= fun r =>
      CM.lift M.capacity >>= fun cap' => CM.lift (M.assert fun _ => .ok (cap' = cap)) >>= fun _ => (pure r : CM SegIt)) env st).1 + st.cap ≤
        2 * (st.pt.off 8 - pos.off) + (b + 4) + st'.cap ∧ st'.size ≤ st'.cap := by
    intro st hs hc e
    have h0 : (CM.lift M.capacity env st).1 = 0 := rfl
    rcases bind_left e with ⟨cap, st1, e1, e2, e3⟩ | ⟨e1, e2⟩
    · cases e1
      rw [e2, h0]
      rcases bind_left e3 with ⟨it, st2, f1, f2, f3⟩ | ⟨f1, f2⟩
      · rw [f2]
        have k1 := b_erase pos env st st2 hs (by rw [f1]; rfl)
        have k2 : st2.pt.off 8 ≤ st.pt.off 8 := ((w_erase (pos := pos) (env := env) (N := st.pt.off 8) ⟨hs, Nat.le_refl _, hc⟩).2 it st2 f1).2.1
        have k3 : it.off = pos.off := g_erase pos env st it st2 f1
        rcases bind_left f3 with ⟨r, st3, i1, i2, i3⟩ | ⟨i1, i2⟩
        · have k4 := hi it env st2 st3 k1.2 (by rw [i1]; rfl)
          have k5 := ((Paid.lift Sits.capacity.idle).bind fun cap' => (Paid.lift (Sits.assert fun _ => .ok (cap' = st.cap)).idle).bind fun _ => Paid.pure r)
            env st3 st' k4.2 i3
          rw [i2]
          exact ⟨by omega, k5.2⟩
        · have k4 := hi it env st2 st' k1.2 i2
          rw [i1]
          exact ⟨by omega, k4.2⟩
      · rw [f1]
        have k1 := b_erase pos env st st' hs f2
        exact ⟨by omega, k1.2⟩
    · cases e2
      rw [e1, h0]
      exact ⟨by omega, hs⟩
  unfold Counted.seg_swap at e ⊢
  have use : ∀ {α : Type} {m : M α} {g : α → CM SegIt} {B : Nat}, Sits m →
      (∀ a, (g a env st).2.left = some st' → (g a env st).1 + st.cap ≤ B + st'.cap ∧ st'.size ≤ st'.cap) →
      ((CM.lift m >>= g) env st).2.left = some st' → ((CM.lift m >>= g) env st).1 + st.cap ≤ B + st'.cap ∧ st'.size ≤ st'.cap := by
    intro α m g B hm h e
    have h0 : (CM.lift m env st).1 = 0 := rfl
    rcases bind_left e with ⟨a, st1, e1, e2, e3⟩ | ⟨e1, e2⟩
    · obtain rfl := hm env st st1 (by change m env st = _ at e1; rw [e1]; rfl)
      have := h a e3
      omega
    · obtain rfl := hm env st st' e2
      omega
  refine use .stored (fun n => use (.assert _) fun _ => ?_) e
  by_cases hn : pos.n < ns + 1
  · rw [if_pos hn]
    refine use .stored fun n => fun e => ?_
    rcases bind_left e with ⟨a, st1, e1, e2, e3⟩ | ⟨e1, e2⟩
    · have k1 := Paid.reserve _ env st st1 hs (by rw [e1]; rfl)
      obtain ⟨h1, h2, h3, -, -⟩ := reserve_size (env := env) e1
      have k2 := rest st1 k1.2 (by rw [h2]; omega) e3
      rw [h2] at k2
      rw [e2]
      refine ⟨Nat.le_trans (Nat.add_le_add_right (Nat.add_le_add_left (Nat.le_sub_of_add_le k2.1) _) _) ?_, k2.2⟩
      omega
    · have k1 := Paid.reserve _ env st st' hs e2
      rw [e1]
      exact ⟨by omega, k1.2⟩
  · rw [if_neg hn]
    intro e
    have k2 := rest st hs hc e
    exact ⟨Nat.le_trans k2.1 (by omega), k2.2⟩

theorem b_replace_encoded {pos : SegIt} {s : Str} {env : Env} {st st' : St} (hs : st.size ≤ st.cap) (hc : st.pt.off 8 ≤ st.cap)
    (e : (Counted.seg_replace_encoded pos s env st).2.left = some st') :
    (Counted.seg_replace_encoded pos s env st).1 + st.cap ≤ 2 * (st.pt.off 8 - pos.off) + (s.length + 11) + st'.cap ∧ st'.size ≤ st'.cap := by
  unfold Counted.seg_replace_encoded at e ⊢
  have h0 : (CM.lift (Base.validate pchar_pct_set s) env st).1 = 0 := rfl
  rcases bind_left e with ⟨a, st1, e1, e2, e3⟩ | ⟨e1, e2⟩
  · obtain rfl := Sits.validate pchar_pct_set s env st st1 (by change Base.validate pchar_pct_set s env st = _ at e1; rw [e1]; rfl)
    have := b_swap (fun it => b_insert_encoded_impl it s) hs hc e3
    rw [e2]
    exact ⟨Nat.le_trans (by show 0 + _ + _ ≤ _; omega) this.1, this.2⟩
  · obtain rfl := Sits.validate pchar_pct_set s env st st' e2
    rw [e1]
    exact ⟨by show 0 + _ ≤ _; omega, hs⟩

theorem b_replace {pos : SegIt} {s : Str} {env : Env} {st st' : St} (hs : st.size ≤ st.cap) (hc : st.pt.off 8 ≤ st.cap)
    (e : (Counted.seg_replace pos s env st).2.left = some st') :
    (Counted.seg_replace pos s env st).1 + st.cap ≤ 2 * (st.pt.off 8 - pos.off) + (pchar_pct_set.encoded_size s + 11) + st'.cap ∧ st'.size ≤ st'.cap :=
  b_swap (fun it => b_insert_impl it s) hs hc e

/-- It writes at least `b`, if it returns. -/
def Least (c : CM α) (b : Nat) : Prop := ∀ env st a st', (c env st).2 = .ret a st' → b ≤ (c env st).1

theorem bind_ret {c : CM α} {f : α → CM β} {env : Env} {st st' : St} {r : β} (h : ((c >>= f) env st).2 = .ret r st') :
    ∃ a st1, (c env st).2 = .ret a st1 ∧ ((c >>= f) env st).1 = (c env st).1 + (f a env st1).1 ∧ (f a env st1).2 = .ret r st' := by
  have e : (c >>= f) env st = match c env st with
    | (n, .ret a st) => (n + (f a env st).1, (f a env st).2)
    | (n, .throw e st) => (n, .throw e st)
    | (n, .fault x) => (n, .fault x) := rfl
  rw [e] at h ⊢
  revert h
  rcases c env st with ⟨k, ⟨a, st1⟩ | ⟨e, st1⟩ | x⟩
  · exact fun h => ⟨a, st1, rfl, rfl, h⟩
  · intro h; cases h
  · intro h; cases h

theorem Least.bind {c : CM α} {g : α → CM β} {b b' n : Nat} (h : Least c b) (h' : ∀ a, Least (g a) b') (hn : n ≤ b + b') : Least (c >>= g) n := by
  intro env st r st' e
  obtain ⟨a, st1, e1, e2, e3⟩ := bind_ret e
  have h1 := h env st a st1 e1
  have h2 := h' a env st1 r st' e3
  omega

theorem Least.then {c : CM α} {g : α → CM β} {b : Nat} (h' : ∀ a, Least (g a) b) : Least (c >>= g) b :=
  Least.bind (b := 0) (fun _ _ _ _ _ => Nat.zero_le _) h' (by omega)

theorem Least.sits {m : M α} {g : α → CM β} {p b : Nat} (h : Sits m)
    (h' : ∀ a env st r st', (g a env st).2 = .ret r st' → (st.pt.off 8 - p) + b ≤ (g a env st).1) :
    ∀ env st r st', ((CM.lift m >>= g) env st).2 = .ret r st' → (st.pt.off 8 - p) + b ≤ ((CM.lift m >>= g) env st).1 := by
  intro env st r st' e
  obtain ⟨a, st1, e1, e2, e3⟩ := bind_ret e
  obtain rfl := h env st st1 (by change m env st = _ at e1; rw [e1]; rfl)
  have := h' a env st1 r st' e3
  omega

theorem Least.ptThen {g : Parts → CM β} {p b : Nat} (h' : ∀ pt : Parts, Least (g pt) ((pt.off 8 - p) + b)) :
    ∀ env st r st', ((CM.lift M.pt >>= g) env st).2 = .ret r st' → (st.pt.off 8 - p) + b ≤ ((CM.lift M.pt >>= g) env st).1 := by
  intro env st r st' e
  obtain ⟨a, st1, e1, e2, e3⟩ := bind_ret e
  cases e1
  have := h' st.pt env st r st' e3
  omega

/-- An insertion moves all that is behind its position. -/
theorem least_put (pos : SegIt) (ns : Nat) (enc : Str) : ∀ env st r st', (Counted.seg_put pos ns enc env st).2 = .ret r st' →
    (st.pt.off 8 - pos.off) + (enc.length + 2) ≤ (Counted.seg_put pos ns enc env st).1 := by
  unfold Counted.seg_put
  refine Least.sits .stored fun n => Least.sits (.assert _) fun _ => Least.sits (.assert _) fun _ => Least.sits (.assert _) fun _ => Least.ptThen fun pt => ?_
  have e8 : pt.off id_end = pt.off 8 := rfl
  refine .then fun _ => .then fun _ => .then fun _ => ?_
  refine Least.bind (b := pt.off 8 - pos.off + 1) (b' := enc.length + 1) (fun _ _ _ _ _ => Nat.le_refl _) (fun _ => .then fun _ => ?_) (by omega)
  refine Least.bind (b := 1) (b' := enc.length) (fun _ _ _ _ _ => Nat.le_refl _) (fun _ => ?_) (by omega)
  refine Least.bind (b := enc.length) (b' := 0) (fun _ _ _ _ _ => Nat.le_refl _) (fun _ => ?_) (by omega)
  exact fun _ _ _ _ _ => Nat.zero_le _

theorem least_insert (pos : SegIt) (s : Str) : ∀ env st r st', (Counted.seg_insert pos s env st).2 = .ret r st' →
    (st.pt.off 8 - pos.off) + (pchar_pct_set.encoded_size s + 2) ≤ (Counted.seg_insert pos s env st).1 := by
  unfold Counted.seg_insert Counted.seg_insert_impl
  rw [← (encoded_le setOf_pchar s).1]
  exact Least.sits (.assert _) fun _ => least_put _ _ _

theorem least_insert_encoded (pos : SegIt) (s : Str) : ∀ env st r st', (Counted.seg_insert_encoded pos s env st).2 = .ret r st' →
    (st.pt.off 8 - pos.off) + (s.length + 2) ≤ (Counted.seg_insert_encoded pos s env st).1 := by
  unfold Counted.seg_insert_encoded Counted.seg_insert_encoded_impl
  exact Least.sits (.validate _ _) fun _ => Least.sits (.assert _) fun _ => least_put _ _ _

/-- Besides, it writes at most the `T` characters behind the password, and `b` more. -/
def Rear (c : CM α) (T b : Nat) : Prop := ∀ env st st', st.pt.off 8 - st.pt.off 3 = T ∧ st.pt.off 1 ≤ st.pt.off 3 → st.size ≤ st.cap → (c env st).2.left = some st' →
  (c env st).1 + st.cap ≤ T + b + st'.cap ∧ st'.size ≤ st'.cap

theorem Rear.sits {m : M α} {g : α → CM β} {T b : Nat} (h : Sits m) (h' : ∀ a, Rear (g a) T b) : Rear (CM.lift m >>= g) T b := by
  intro env st st' hT hs e
  have h0 : (CM.lift m env st).1 = 0 := rfl
  rcases bind_left e with ⟨a, st1, e1, e2, e3⟩ | ⟨e1, e2⟩
  · obtain rfl := h env st st1 (by change m env st = _ at e1; rw [e1]; rfl)
    have := h' a env st1 st' hT hs e3
    omega
  · obtain rfl := h env st st' e2
    omega

theorem Rear.ite {q : Prop} [Decidable q] {c d : CM α} {T b : Nat} (h : q → Rear c T b) (h' : ¬ q → Rear d T b) : Rear (if q then c else d) T b := by
  split
  · exact h ‹_›
  · exact h' ‹_›

theorem Rear.bind {c : CM α} {g : α → CM β} {T b b' : Nat} (h : Rear c T b) (h' : ∀ a, Paid (g a) b') : Rear (c >>= g) T (b + b') := by
  intro env st st' hT hs e
  rcases bind_left e with ⟨a, st1, e1, e2, e3⟩ | ⟨e1, e2⟩
  · have h1 := h env st st1 hT hs (by rw [e1]; rfl)
    have h2 := h' a env st1 st' h1.2 e3
    omega
  · have h1 := h env st st' hT hs e2
    omega

theorem Rear.mono {c : CM α} {T b b' : Nat} (h : Rear c T b) (hb : b ≤ b') : Rear c T b' := fun env st st' hT hs e => by
  have := h env st st' hT hs e
  omega

theorem Rear.ptThen {g : Parts → CM β} {T b : Nat} (h : ∀ pt : Parts, pt.off 8 - pt.off 3 = T → Paid (g pt) (T + b)) : Rear (CM.lift M.pt >>= g) T b := by
  intro env st st' hT hs e
  have h0 : (CM.lift M.pt env st).1 = 0 := rfl
  rcases bind_left e with ⟨a, st1, e1, e2, e3⟩ | ⟨e1, e2⟩
  · cases e1
    have := h st.pt hT.1 env st st' hs e3
    omega
  · cases e2
    omega

theorem Rear.password (n T : Nat) : Rear (Counted.resize id_password n) T 4 := by
  unfold Counted.resize
  refine .ptThen fun pt hT => ?_
  have e8 : pt.off id_end = pt.off 8 := rfl
  have e3 : pt.off (id_password + 1) = pt.off 3 := rfl
  refine .ite (fun _ => (Paid.pure _).mono (by omega)) fun _ => .ite (fun _ => ?_) fun _ => ?_
  · exact .moved _ _ _ _ _ _ (by omega)
  · refine ((Paid.lift Sits.sizeMax.idle).bind (b' := T + 4) fun m => ?_).mono (by omega)
    refine .ite (fun _ => (Paid.lift (Sits.raise _).idle).mono (by omega)) fun _ => ?_
    exact ((Paid.storage _).bind fun _ => .moved (T + 1) _ _ _ _ _ (by omega)).mono (by omega)

theorem rear_no_password (T : Nat) : Rear (Counted.set_password []) T 5 := by
  unfold Counted.set_password
  refine .ite (fun _ => .sits .pt fun _ => .ite (fun _ => ?_) fun _ => .sits .assertUserinfo fun _ => .sits .pt fun _ => .ite (fun _ => ?_) fun _ => ?_) fun h => absurd rfl h
  · intro env st st' _ hs e
    cases e
    exact ⟨by show 0 + _ ≤ _; omega, hs⟩
  · exact ((Rear.password _ T).bind fun _ => Paid.pure _).mono (by omega)
  · exact ((Rear.password _ T).bind fun _ => Paid.put _ _).mono (by simp only [List.length_cons, List.length_nil]; omega)

/-- it leaves the number of characters behind the password as it is -/
def Keeps (c : CM α) : Prop := ∀ env st a st', st.pt.off 1 ≤ st.pt.off 3 → (c env st).2 = .ret a st' →
  st'.pt.off 8 - st'.pt.off 3 = st.pt.off 8 - st.pt.off 3 ∧ st'.pt.off 1 ≤ st'.pt.off 3

theorem Keeps.bind {c : CM α} {g : α → CM β} (h : Keeps c) (h' : ∀ a, Keeps (g a)) : Keeps (c >>= g) := by
  intro env st r st' ho e
  obtain ⟨a, st1, e1, e2, e3⟩ := bind_ret e
  obtain ⟨k1, k2⟩ := h env st a st1 ho e1
  obtain ⟨k3, k4⟩ := h' a env st1 r st' k2 e3
  exact ⟨k3.trans k1, k4⟩

theorem Keeps.same {c : CM α} (h : ∀ env st a st', (c env st).2 = .ret a st' → st'.pt = st.pt) : Keeps c := fun env st a st' ho e => by
  rw [h env st a st' e]
  exact ⟨rfl, ho⟩

theorem Keeps.sits {m : M α} (h : Sits m) : Keeps (CM.lift m) := .same fun env st a st' e => by
  change m env st = _ at e
  rw [h env st st' (by rw [e]; rfl)]

theorem put_pt {i : Nat} {s : Str} {env : Env} {st st' : St} (h : (M.put i s env st).left = some st') : st'.pt = st.pt := by
  unfold M.put at h
  split at h
  · cases h; rfl
  · split at h
    · cases h
    · split at h <;> cases h
      rfl

theorem Keeps.put (i : Nat) (s : Str) : Keeps (CM.put i s) := .same fun env st a st' e => by
  change M.put i s env st = _ at e
  exact put_pt (by rw [e]; rfl)

theorem Keeps.move (x y n : Nat) : Keeps (CM.move x y n) := .same fun env st a st' e => by
  change M.move x y n env st = _ at e
  exact (move_storage (by rw [e]; rfl)).2.2

theorem storage_pt {n : Nat} {env : Env} {st st' : St} {a : Unit} (e : Storage.resize n env st = .ret a st') : st'.pt = st.pt := by
  unfold Storage.resize at e
  cases h : Storage.reserve n env st with
  | ret a st1 =>
    rw [h] at e
    obtain ⟨-, k2, -⟩ := reserve_size h
    simp only at e
    split at e
    · cases e; exact k2
    · split at e <;> cases e
      exact k2
  | throw x st1 => rw [h] at e; cases e
  | fault f => rw [h] at e; cases e

theorem Keeps.split : Keeps (CM.lift (Base.split id_user 2)) := by
  intro env st a st' ho e
  change Base.split id_user 2 env st = _ at e
  have h : ∀ {α : Type} {f : α → M Unit} {m : M α} {st : St}, Sits m → (m >>= f) env st = .ret a st' → ∃ b, f b env st = .ret a st' := by
    intro α f m st hm h
    change (match m env st with
      | .ret a st => f a env st
      | .throw e st => .throw e st
      | .fault x => .fault x) = _ at h
    have := hm env st
    revert this h
    rcases m env st with ⟨b, st1⟩ | ⟨x, st1⟩ | x
    · intro h this
      obtain rfl := this st1 rfl
      exact ⟨b, h⟩
    · intro h; cases h
    · intro h; cases h
  unfold Base.split at e
  obtain ⟨_, e⟩ := h (.assert _) e
  obtain ⟨_, e⟩ := h (.assert _) e
  cases e
  exact ⟨rfl, ho⟩

theorem Keeps.shift {T3 T8 : Nat} {k : Nat → Nat} {x y n r : Nat} {env : Env} {st st' : St} {a : Nat}
    (h3 : st.pt.off 3 = T3) (h8 : st.pt.off 8 = T8) (hk : k T8 - k T3 = T8 - T3) (h1 : st.pt.off 1 ≤ k T3)
    (e : ((CM.move x y n >>= fun _ => CM.lift (M.setPt fun pt => pt.shift2 id_user id_host k) >>= fun _ => (pure r : CM Nat)) env st).2 = .ret a st') :
    st'.pt.off 8 - st'.pt.off 3 = T8 - T3 ∧ st'.pt.off 1 ≤ st'.pt.off 3 := by
  obtain ⟨_, st1, e1, -, e⟩ := bind_ret e
  have hp : st1.pt = st.pt := (move_storage (x := x) (y := y) (n := n) (env := env) (by change M.move x y n env st = _ at e1; rw [e1]; rfl)).2.2
  obtain ⟨_, st2, e2, -, e⟩ := bind_ret e
  cases e2
  cases e
  show k (st1.pt.off 8) - k (st1.pt.off 3) = _ ∧ st1.pt.off 1 ≤ k (st1.pt.off 3)
  rw [hp, h3, h8]
  exact ⟨hk, h1⟩

theorem Keeps.userinfo (new : Nat) : Keeps (Counted.resize2 id_user id_host new) := by
  intro env st r st' ho e
  unfold Counted.resize2 at e
  obtain ⟨pt, st1, e1, -, e⟩ := bind_ret e
  cases e1
  have hl : st.pt.length2 id_user id_host = st.pt.off 3 - st.pt.off 1 := rfl
  simp only at e
  by_cases c1 : new = 0 ∧ st.pt.length2 id_user id_host = 0
  · rw [if_pos c1] at e
    cases e
    exact ⟨rfl, ho⟩
  · rw [if_neg c1] at e
    by_cases c2 : new ≤ st.pt.length2 id_user id_host
    · rw [if_pos c2] at e
      exact Keeps.shift (k := (· - (st.pt.length2 id_user id_host - new))) rfl rfl (by omega) (by omega) e
    · rw [if_neg c2] at e
      obtain ⟨m, st1, e1, -, e⟩ := bind_ret e
      cases e1
      by_cases c3 : new - st.pt.length2 id_user id_host > env.sizeMax - st.pt.off id_end
      · rw [if_pos c3] at e; cases e
      · rw [if_neg c3] at e
        obtain ⟨_, st1, e1, -, e⟩ := bind_ret e
        have k2 : st1.pt = st.pt := storage_pt (env := env) e1
        exact Keeps.shift (k := (· + (new - st.pt.length2 id_user id_host))) (by rw [k2]) (by rw [k2]) (by omega) (by rw [k2]; omega) e

theorem Rear.then {c : CM α} {g : α → CM β} {T b b' : Nat} (hk : Keeps c) (h : Paid c b) (h' : ∀ a, Rear (g a) T b') : Rear (c >>= g) T (b + b') := by
  intro env st st' hT hs e
  rcases bind_left e with ⟨a, st1, e1, e2, e3⟩ | ⟨e1, e2⟩
  · have h1 := h env st st1 hs (by rw [e1]; rfl)
    obtain ⟨k1, k2⟩ := hk env st a st1 hT.2 e1
    have h2 := h' a env st1 st' ⟨k1.trans hT.1, k2⟩ h1.2 e3
    omega
  · have h1 := h env st st' hs e2
    omega

theorem t_password_colon {env : Env} {st st' : St} (hs : st.size ≤ st.cap) (ho : ∀ i, i < 8 → st.pt.off i ≤ st.pt.off (i + 1))
    (e : (Counted.set_password_part b!":" env st).2.left = some st') :
    (Counted.set_password_part b!":" env st).1 + st.cap ≤ 2 * (st.pt.off 8 - st.pt.off 3) + 13 + st'.cap := by
  have a13 := ordered_le ho (i := 1) (j := 3) (by omega) (by omega)
  unfold Counted.set_password_part at e ⊢
  rw [if_neg (by decide), if_pos (by decide)] at e ⊢
  have h0 : ∀ {α : Type} (m : M α), (CM.lift m env st).1 = 0 := fun _ => rfl
  rcases bind_left e with ⟨a, st1, e1, e2, e3⟩ | ⟨e1, e2⟩
  · cases e1
    rcases bind_left e3 with ⟨pt, st1, f1, f2, f3⟩ | ⟨f1, f2⟩
    · cases f1
      rw [e2, f2]
      by_cases hu : st.pt.length id_user ≠ 0
      · rw [if_pos hu] at f3 ⊢
        have := (Tail.resizeThen (f := 3) (b := 6) (n := 2) (id := id_password) (by decide) (by decide) (by omega) fun dest =>
          Paid.oneThen (by omega) fun _ => (Paid.put (dest + 1) b!"@").mono (by decide)) env st st' hs ho f3
        refine Nat.le_trans (Nat.le_of_eq ?_) (Nat.le_trans this.1 (by omega))
        show 0 + (0 + _) + _ = _
        rw [Nat.zero_add, Nat.zero_add]
      · rw [if_neg hu] at f3 ⊢
        have hr : ∀ dest, Rear (CM.put dest b!"/" >>= fun _ => CM.put (dest + 1) b!"/" >>= fun _ => CM.put (dest + 2) b!":" >>= fun _ =>
            CM.put (dest + 3) b!"@" >>= fun _ => CM.lift (Base.split id_user 2) >>= fun _ => Counted.set_password []) (st.pt.off 8 - st.pt.off 3)
            (1 + (1 + (1 + (1 + (0 + 5))))) := fun dest =>
          .then (.put _ _) (.put _ [_]) fun _ => .then (.put _ _) (.put _ [_]) fun _ => .then (.put _ _) (.put _ [_]) fun _ =>
            .then (.put _ _) (.put _ [_]) fun _ => .then .split (.lift (.split _ _)) fun _ => rear_no_password _
        have ht := t_resize2 (first := id_user) (last := id_host) (f := 3) 4 (by decide) (by decide) env st
        refine Nat.le_trans (m := ((Counted.resize2 id_user id_host 4 >>= fun dest => CM.put dest b!"/" >>= fun _ => CM.put (dest + 1) b!"/" >>= fun _ =>
          CM.put (dest + 2) b!":" >>= fun _ => CM.put (dest + 3) b!"@" >>= fun _ => CM.lift (Base.split id_user 2) >>= fun _ => Counted.set_password []) env st).1 + st.cap) ?_ ?_
        · refine Nat.le_of_eq ?_
          show 0 + (0 + _) + _ = _
          rw [Nat.zero_add, Nat.zero_add]
          rfl
        · rcases bind_left f3 with ⟨dest, st1, i1, i2, i3⟩ | ⟨i1, i2⟩
          · have k1 := ht st1 hs ho (by rw [i1]; rfl)
            have k2 := hr dest env st1 st' (Keeps.userinfo 4 env st dest st1 a13 i1) k1.2 i3
            refine Nat.le_trans (Nat.add_le_add_right (Nat.le_of_eq i2) _) ?_
            refine Nat.le_trans (Nat.add_le_add_right (Nat.add_le_add_left (Nat.le_sub_of_add_le k2.1) _) _) ?_
            omega
          · have k1 := ht st' hs ho i2
            refine Nat.le_trans (Nat.add_le_add_right (Nat.le_of_eq i1) _) ?_
            omega
    · cases f2
      rw [e2, f1]
      show 0 + 0 + _ ≤ _
      omega
  · cases e2
    rw [e1]
    show 0 + _ ≤ _
    omega

end Url.Amort
