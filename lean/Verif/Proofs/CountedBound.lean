import Verif.Proofs.Counted
import Verif.Proofs.Port
import Verif.Proofs.Pct

/-!
How many characters the modifying calls write.
-/

set_option linter.unusedSimpArgs false
set_option autoImplicit false

namespace Url
variable {α β : Type}

/-- The call writes at most `k` times the size and `b` characters, and lets the text grow by at most `g`. -/
def Lin (c : CM α) (k b g : Nat) : Prop := ∀ env st, st.size ≤ st.cap →
  (c env st).1 ≤ k * st.pt.off 8 + b ∧ ∀ a st', (c env st).2 = .ret a st' → st'.size ≤ st'.cap ∧ st'.pt.off 8 ≤ st.pt.off 8 + g

theorem Lin.mono {c : CM α} {k b g k' b' g' : Nat} (h : Lin c k b g) (hk : k ≤ k') (hb : b ≤ b') (hg : g ≤ g') : Lin c k' b' g' := by
  intro env st hs
  obtain ⟨h1, h2⟩ := h env st hs
  have := Nat.mul_le_mul_right (st.pt.off 8) hk
  refine ⟨by omega, fun a st' h => ?_⟩
  have := h2 a st' h
  omega

theorem Lin.pure (a : α) : Lin (pure a) 0 0 0 := by
  intro env st hs
  refine ⟨Nat.zero_le _, fun a st' h => ?_⟩
  cases h
  exact ⟨hs, Nat.le_refl _⟩

theorem Lin.bind {c : CM α} {f : α → CM β} {k b g k' b' g' : Nat} (h : Lin c k b g) (h' : ∀ a, Lin (f a) k' b' g') :
    Lin (c >>= f) (k + k') (b + (k' * g + b')) (g + g') := by
  intro env st hs
  show (match c env st with
    | (n, .ret a st) => (n + (f a env st).1, (f a env st).2)
    | (n, .throw e st) => (n, .throw e st)
    | (n, .fault x) => (n, .fault x) : Nat × Out β).1 ≤ _ ∧ ∀ a st', (match c env st with
    | (n, .ret a st) => (n + (f a env st).1, (f a env st).2)
    | (n, .throw e st) => (n, .throw e st)
    | (n, .fault x) => (n, .fault x) : Nat × Out β).2 = .ret a st' → _
  obtain ⟨h1, h2⟩ := h env st hs
  have e : (k + k') * st.pt.off 8 = k * st.pt.off 8 + k' * st.pt.off 8 := Nat.add_mul _ _ _
  rcases hc : c env st with ⟨n, ⟨a, st1⟩ | ⟨e, st1⟩ | x⟩
  · rw [hc] at h1 h2
    obtain ⟨h3, h4⟩ := h2 _ _ rfl
    obtain ⟨h5, h6⟩ := h' a env st1 h3
    have h7 := Nat.mul_le_mul_left k' h4
    rw [Nat.mul_add] at h7
    refine ⟨by simp only at h1 ⊢; omega, fun a' st' h => ?_⟩
    have := h6 a' st' h
    omega
  · rw [hc] at h1
    exact ⟨by simp only at h1 ⊢; omega, fun _ _ h => by cases h⟩
  · rw [hc] at h1
    exact ⟨by simp only at h1 ⊢; omega, fun _ _ h => by cases h⟩

theorem Lin.ite {p : Prop} [Decidable p] {c d : CM α} {k b g : Nat} (h : p → Lin c k b g) (h' : ¬ p → Lin d k b g) :
    Lin (if p then c else d) k b g := by
  split
  · exact h ‹_›
  · exact h' ‹_›

/-- it changes neither the text nor its size -/
def Quiet (m : M α) : Prop := ∀ env st a st', m env st = .ret a st' → st'.size = st.size ∧ st'.cap = st.cap ∧ st'.pt.off 8 = st.pt.off 8

theorem Quiet.bind {m : M α} {f : α → M β} (h : Quiet m) (h' : ∀ a, Quiet (f a)) : Quiet (m >>= f) := by
  intro env st b st' hb
  change (match m env st with
    | .ret a st => f a env st
    | .throw e st => .throw e st
    | .fault x => .fault x) = _ at hb
  split at hb
  · rename_i a st1 e
    obtain ⟨h1, h2, h3⟩ := h _ _ _ _ e
    obtain ⟨h4, h5, h6⟩ := h' _ _ _ _ _ hb
    exact ⟨h4.trans h1, h5.trans h2, h6.trans h3⟩
  · cases hb
  · cases hb

theorem Quiet.pure (a : α) : Quiet (pure a) := by
  intro env st b st' h
  cases h
  exact ⟨rfl, rfl, rfl⟩

theorem Quiet.ite {p : Prop} [Decidable p] {c d : M α} (h : Quiet c) (h' : Quiet d) : Quiet (if p then c else d) := by
  split
  · exact h
  · exact h'

theorem Quiet.ask (f : Obj → R α) : Quiet (M.ask f) := by
  intro env st a st' h
  unfold M.ask at h
  split at h
  · cases h; exact ⟨rfl, rfl, rfl⟩
  · cases h

theorem Quiet.assert (f : Obj → R Bool) : Quiet (M.assert f) := Quiet.ask _
theorem Quiet.raise (e : Exc) : Quiet (M.raise e : M α) := fun _ _ _ _ h => by cases h
theorem Quiet.undefined : Quiet (M.undefined : M α) := fun _ _ _ _ h => by cases h
theorem Quiet.pt : Quiet M.pt := fun _ _ _ _ h => by cases h; exact ⟨rfl, rfl, rfl⟩
theorem Quiet.sizeMax : Quiet M.sizeMax := fun _ _ _ _ h => by cases h; exact ⟨rfl, rfl, rfl⟩
theorem Quiet.isNull : Quiet M.isNull := fun _ _ _ _ h => by cases h; exact ⟨rfl, rfl, rfl⟩
theorem Quiet.stored : Quiet M.stored := fun _ _ _ _ h => by cases h; exact ⟨rfl, rfl, rfl⟩
theorem Quiet.capacity : Quiet M.capacity := fun _ _ _ _ h => by cases h; exact ⟨rfl, rfl, rfl⟩

theorem Quiet.setPt {f : Parts → Parts} (hf : ∀ pt, (f pt).off 8 = pt.off 8) : Quiet (M.setPt f) := fun _ _ _ _ h => by
  cases h; exact ⟨rfl, rfl, hf _⟩

theorem Quiet.parsed (ps : PS) : Quiet (Base.parsed ps) := by
  unfold Base.parsed
  cases ps.flt with
  | some f => exact fun _ _ _ _ h => by cases h
  | none => exact .ite (.raise _) (.pure _)

theorem Quiet.parsedAll (ps : PS) : Quiet (Base.parsedAll ps) := .bind (.parsed _) fun _ => .ite (.pure _) (.raise _)
theorem Quiet.require (b : Bool) : Quiet (Base.require b) := by
  cases b
  · exact Quiet.raise _
  · exact Quiet.pure _
theorem Quiet.validate (e : PctSet) (s : Str) : Quiet (Base.validate e s) := Quiet.require _
theorem Quiet.assertUserinfo : Quiet Base.assertUserinfo := .bind (.assert _) fun _ => .bind (.assert _) fun _ => .bind (.assert _) fun _ => .assert _

theorem Quiet.split {id n : Nat} (h : id ≠ 7) : Quiet (Base.split id n) := by
  refine .bind (.assert _) fun _ => .bind (.assert _) fun _ => .setPt fun pt => ?_
  unfold Parts.split
  simp only
  rw [if_neg (by omega)]

theorem Lin.quiet {m : M α} (h : Quiet m) : Lin (CM.lift m) 0 0 0 := by
  intro env st hs
  refine ⟨Nat.zero_le _, fun a st' e => ?_⟩
  obtain ⟨h1, h2, h3⟩ := h env st a st' e
  omega

theorem Lin.put (i : Nat) (s : Str) : Lin (CM.put i s) 0 s.length 0 := by
  intro env st hs
  refine ⟨by simp [CM.put], fun a st' e => ?_⟩
  have e : M.put i s env st = .ret a st' := e
  unfold M.put at e
  split at e
  · cases e; omega
  · split at e
    · cases e
    · split at e
      · cases e; exact ⟨hs, Nat.le_refl _⟩
      · cases e

theorem move_size {x y n : Nat} {env : Env} {st st' : St} (e : M.move x y n env st = .ret () st') :
    st'.size = st.size ∧ st'.cap = st.cap ∧ st'.pt = st.pt := by
  unfold M.move at e
  split at e
  · cases e; exact ⟨rfl, rfl, rfl⟩
  · split at e
    · cases e
    · split at e
      · cases e; exact ⟨rfl, rfl, rfl⟩
      · cases e

theorem reserve_size {n : Nat} {env : Env} {st st' : St} (e : Storage.reserve n env st = .ret () st') :
    st'.size = st.size ∧ st'.pt = st.pt ∧ st.cap ≤ st'.cap ∧ (n ≤ st.cap → st' = st) ∧ n ≤ st'.cap := by
  unfold Storage.reserve at e
  split at e
  · cases e; exact ⟨rfl, rfl, Nat.le_refl _, fun _ => rfl, ‹_›⟩
  · rename_i hn
    have hc : (st.cap ≤ Storage.newCap env.maxSize st.cap n ∧ n ≤ Storage.newCap env.maxSize st.cap n) ∨ Storage.newCap env.maxSize st.cap n + 1 > env.maxSize := by
      unfold Storage.newCap
      split
      · split <;> omega
      · omega
    simp only at e
    unfold Storage.allocate at e
    by_cases ha : Storage.newCap env.maxSize st.cap n + 1 ≤ env.maxSize ∧ env.alloc st.tick (Storage.newCap env.maxSize st.cap n + 1) = true
    · rw [if_pos ha] at e
      simp only at e
      split at e
      · cases e; exact ⟨rfl, rfl, by simp only; omega, fun h => absurd h hn, by simp only; omega⟩
      · split at e
        · cases e; exact ⟨rfl, rfl, by simp only; omega, fun h => absurd h hn, by simp only; omega⟩
        · cases e
    · rw [if_neg ha] at e
      cases e

theorem reserve_cost {n : Nat} (env : Env) (st : St) (hs : st.size ≤ st.cap) : (CM.reserve n env st).1 ≤ st.size + 2 ∧
    (CM.reserve n env st).1 ≤ n + 1 ∧ (n ≤ st.cap → (CM.reserve n env st).1 = 0) := by
  unfold CM.reserve CM.reserved
  simp only
  split
  · split
    · refine ⟨by omega, by omega, fun _ => rfl⟩
    · split
      · exact ⟨by omega, by omega, fun h => absurd h ‹_›⟩
      · exact ⟨by omega, by omega, fun _ => rfl⟩
  · exact ⟨by omega, by omega, fun _ => rfl⟩

theorem storage_cost {n : Nat} (env : Env) (st : St) (hs : st.size ≤ st.cap) :
    (CM.storage n env st).1 ≤ n + 2 ∧ (n ≤ st.cap → (CM.storage n env st).1 ≤ 1) := by
  obtain ⟨-, h1, h2⟩ := reserve_cost (n := n) env st hs
  unfold CM.reserve at h1 h2
  unfold CM.storage
  simp only at h1 h2 ⊢
  have : CM.terminated (Storage.reserve n env st) ≤ 1 := by
    unfold CM.terminated
    split
    · split <;> omega
    · omega
  refine ⟨by omega, fun h => ?_⟩
  have := h2 h
  omega

theorem storage_size {n : Nat} {env : Env} {st st' : St} (hs : st.size ≤ st.cap) (e : Storage.resize n env st = .ret () st') :
    st'.size ≤ st'.cap ∧ st'.pt = st.pt ∧ (n ≤ st.cap → st'.cap = st.cap) := by
  unfold Storage.resize at e
  split at e
  · cases e
  · cases e
  · rename_i st1 h1
    obtain ⟨k1, k2, k3, k4, hn⟩ := reserve_size h1
    split at e
    · cases e; exact ⟨by omega, k2, fun h => by rw [k4 h]⟩
    · rename_i b hb
      split at e
      · cases e
        exact ⟨hn, k2, fun h => by rw [k4 h]⟩
      · cases e

/-- From this state the call writes at most `B` characters, and what it returns is like that. -/
def Writes (env : Env) (c : CM α) (st : St) (B : Nat) (Q : α → St → Prop) : Prop :=
  (c env st).1 ≤ B ∧ ∀ a st', (c env st).2 = .ret a st' → Q a st'

theorem Writes.bind {env : Env} {c : CM α} {f : α → CM β} {st : St} {B B' : Nat} {Q : α → St → Prop} {R : β → St → Prop}
    (h : Writes env c st B Q) (h' : ∀ a st', Q a st' → Writes env (f a) st' B' R) : Writes env (c >>= f) st (B + B') R := by
  obtain ⟨h1, h2⟩ := h
  unfold Writes
  show (match c env st with
    | (n, .ret a st) => (n + (f a env st).1, (f a env st).2)
    | (n, .throw e st) => (n, .throw e st)
    | (n, .fault x) => (n, .fault x) : Nat × Out β).1 ≤ _ ∧ ∀ a st', (match c env st with
    | (n, .ret a st) => (n + (f a env st).1, (f a env st).2)
    | (n, .throw e st) => (n, .throw e st)
    | (n, .fault x) => (n, .fault x) : Nat × Out β).2 = .ret a st' → _
  rcases hc : c env st with ⟨n, ⟨a, st1⟩ | ⟨e, st1⟩ | x⟩
  · rw [hc] at h1 h2
    obtain ⟨h5, h6⟩ := h' a st1 (h2 _ _ rfl)
    exact ⟨by simp only at h1 ⊢; omega, h6⟩
  · rw [hc] at h1
    exact ⟨by simp only at h1 ⊢; omega, fun _ _ h => by cases h⟩
  · rw [hc] at h1
    exact ⟨by simp only at h1 ⊢; omega, fun _ _ h => by cases h⟩

theorem Writes.lift {env : Env} {m : M α} {st : St} {Q : α → St → Prop} (h : ∀ a st', m env st = .ret a st' → Q a st') :
    Writes env (CM.lift m) st 0 Q := ⟨Nat.le_refl _, h⟩

theorem Writes.pure {env : Env} {a : α} {st : St} {Q : α → St → Prop} (h : Q a st) : Writes env (pure a) st 0 Q :=
  ⟨Nat.le_refl _, fun a st' e => by cases e; exact h⟩

theorem Writes.mono {env : Env} {c : CM α} {st : St} {B B' : Nat} {Q Q' : α → St → Prop} (h : Writes env c st B Q) (hB : B ≤ B')
    (hQ : ∀ a st', Q a st' → Q' a st') : Writes env c st B' Q' := ⟨Nat.le_trans h.1 hB, fun a st' e => hQ _ _ (h.2 a st' e)⟩

theorem Writes.ite {env : Env} {p : Prop} [Decidable p] {c d : CM α} {st : St} {B : Nat} {Q : α → St → Prop} (h : p → Writes env c st B Q)
    (h' : ¬ p → Writes env d st B Q) : Writes env (if p then c else d) st B Q := by
  split
  · exact h ‹_›
  · exact h' ‹_›

theorem Writes.move {env : Env} {st : St} (x y n : Nat) :
    Writes env (CM.move x y n) st n fun _ st' => st'.size = st.size ∧ st'.cap = st.cap ∧ st'.pt = st.pt :=
  ⟨Nat.le_refl _, fun _ _ e => move_size (env := env) e⟩

theorem Writes.storage {env : Env} {st : St} (n : Nat) (hs : st.size ≤ st.cap) :
    Writes env (CM.storage n) st (n + 2) fun _ st' => st'.size ≤ st'.cap ∧ st'.pt = st.pt :=
  ⟨(storage_cost env st hs).1, fun _ _ e => ⟨(storage_size hs e).1, (storage_size hs e).2.1⟩⟩

theorem shift_end {pt : Parts} {id : Nat} {f : Nat → Nat} (h : id ≤ 7) : (pt.shift id f).off 8 = f (pt.off 8) := by
  unfold Parts.shift
  simp only
  rw [if_pos (by omega)]

theorem shift2_end {pt : Parts} {a b : Nat} {f : Nat → Nat} (h : b ≤ 8) : (pt.shift2 a b f).off 8 = f (pt.off 8) := by
  unfold Parts.shift2
  simp only
  rw [if_pos h]

theorem resize_writes {id n : Nat} (h : id ≤ 7) {env : Env} {st : St} (hs : st.size ≤ st.cap) :
    Writes env (Counted.resize id n) st (if n ≤ st.pt.length id then st.pt.off 8 + 1 else 2 * st.pt.off 8 + n + 3)
      fun _ st' => st'.size ≤ st'.cap ∧ st'.pt.off 8 ≤ st.pt.off 8 + n := by
  have e8 : st.pt.off id_end = st.pt.off 8 := rfl
  unfold Counted.resize
  refine (Writes.bind (B' := if n ≤ st.pt.length id then st.pt.off 8 + 1 else 2 * st.pt.off 8 + n + 3) (Q := fun a st' => a = st.pt ∧ st = st')
    (.lift fun a st' e => by cases e; exact ⟨rfl, rfl⟩) ?_).mono (by omega) fun _ _ h => h
  rintro _ _ ⟨rfl, rfl⟩
  refine .ite (fun h1 => .mono (.pure (Q := fun _ st' => st = st') rfl) (Nat.zero_le _) ?_) fun h1 => .ite (fun h2 => ?_) fun h2 => ?_
  · rintro _ _ rfl; omega
  · rw [if_pos h2]
    refine (Writes.bind (.move _ _ _) (B' := 0) fun _ st1 k => .bind (B := 0) (B' := 0)
      (Q := fun _ st2 => st2.size = st1.size ∧ st2.cap = st1.cap ∧ st2.pt.off 8 ≤ st1.pt.off 8) (.lift fun _ _ e => ?_)
      fun _ st2 k2 => .pure ?_).mono (by omega) fun _ _ h => h
    · cases e; exact ⟨rfl, rfl, by rw [shift_end h]; omega⟩
    · rw [k.2.2] at k2; omega
  · rw [if_neg h2]
    refine (Writes.bind (B := 0) (B' := 2 * st.pt.off 8 + n + 3) (Q := fun _ st' => st = st') (.lift fun a st' e => by cases e; rfl) ?_).mono (by omega) fun _ _ h => h
    rintro m _ rfl
    refine .ite (fun _ => .mono (.lift (Q := fun _ _ => False) fun _ _ e => by cases e) (Nat.zero_le _) fun _ _ h => h.elim) fun _ => ?_
    refine (Writes.bind (.storage _ hs) fun _ st1 k => .bind (.move _ _ _) (B' := 0) fun _ st2 k2 => .bind (B := 0) (B' := 0)
      (Q := fun _ st3 => st3.size = st2.size ∧ st3.cap = st2.cap ∧ st3.pt.off 8 ≤ st2.pt.off 8 + n) (.lift fun _ _ e => ?_)
      fun _ st3 k3 => .pure ?_).mono (by omega) fun _ _ h => h
    · cases e; exact ⟨rfl, rfl, by rw [shift_end h]; omega⟩
    · rw [k2.2.2, k.2] at k3; omega

theorem resize2_writes {a b n : Nat} (h : b ≤ 8) {env : Env} {st : St} (hs : st.size ≤ st.cap) :
    Writes env (Counted.resize2 a b n) st (if n ≤ st.pt.length2 a b then st.pt.off 8 + 1 else 2 * st.pt.off 8 + n + 3)
      fun _ st' => st'.size ≤ st'.cap ∧ st'.pt.off 8 ≤ st.pt.off 8 + n := by
  have e8 : st.pt.off id_end = st.pt.off 8 := rfl
  unfold Counted.resize2
  refine (Writes.bind (B' := if n ≤ st.pt.length2 a b then st.pt.off 8 + 1 else 2 * st.pt.off 8 + n + 3) (Q := fun a st' => a = st.pt ∧ st = st')
    (.lift fun a st' e => by cases e; exact ⟨rfl, rfl⟩) ?_).mono (by omega) fun _ _ h => h
  rintro _ _ ⟨rfl, rfl⟩
  refine .ite (fun h1 => .mono (.pure (Q := fun _ st' => st = st') rfl) (Nat.zero_le _) ?_) fun h1 => .ite (fun h2 => ?_) fun h2 => ?_
  · rintro _ _ rfl; omega
  · rw [if_pos h2]
    refine (Writes.bind (.move _ _ _) (B' := 0) fun _ st1 k => .bind (B := 0) (B' := 0)
      (Q := fun _ st2 => st2.size = st1.size ∧ st2.cap = st1.cap ∧ st2.pt.off 8 ≤ st1.pt.off 8) (.lift fun _ _ e => ?_)
      fun _ st2 k2 => .pure ?_).mono (by omega) fun _ _ h => h
    · cases e; exact ⟨rfl, rfl, by rw [shift2_end h]; omega⟩
    · rw [k.2.2] at k2; omega
  · rw [if_neg h2]
    refine (Writes.bind (B := 0) (B' := 2 * st.pt.off 8 + n + 3) (Q := fun _ st' => st = st') (.lift fun a st' e => by cases e; rfl) ?_).mono (by omega) fun _ _ h => h
    rintro m _ rfl
    refine .ite (fun _ => .mono (.lift (Q := fun _ _ => False) fun _ _ e => by cases e) (Nat.zero_le _) fun _ _ h => h.elim) fun _ => ?_
    refine (Writes.bind (.storage _ hs) fun _ st1 k => .bind (.move _ _ _) (B' := 0) fun _ st2 k2 => .bind (B := 0) (B' := 0)
      (Q := fun _ st3 => st3.size = st2.size ∧ st3.cap = st2.cap ∧ st3.pt.off 8 ≤ st2.pt.off 8 + n) (.lift fun _ _ e => ?_)
      fun _ st3 k3 => .pure ?_).mono (by omega) fun _ _ h => h
    · cases e; exact ⟨rfl, rfl, by rw [shift2_end h]; omega⟩
    · rw [k2.2.2, k.2] at k3; omega

theorem Lin.resize {id n : Nat} (h : id ≤ 7) : Lin (Counted.resize id n) 2 (n + 3) n := fun env st hs => by
  have := resize_writes (n := n) h (env := env) hs
  exact ⟨by have := this.1; split at this <;> omega, this.2⟩

theorem Lin.shrink {id : Nat} (h : id ≤ 7) : Lin (Counted.resize id 0) 1 1 0 := fun env st hs => by
  have := resize_writes (n := 0) h (env := env) hs
  exact ⟨by have := this.1; rw [if_pos (Nat.zero_le _)] at this; omega, this.2⟩

theorem Lin.resize2 {a b n : Nat} (h : b ≤ 8) : Lin (Counted.resize2 a b n) 2 (n + 3) n := fun env st hs => by
  have := resize2_writes (a := a) (n := n) h (env := env) hs
  exact ⟨by have := this.1; split at this <;> omega, this.2⟩

theorem Lin.shrink2 {a b : Nat} (h : b ≤ 8) : Lin (Counted.resize2 a b 0) 1 1 0 := fun env st hs => by
  have := resize2_writes (a := a) (n := 0) h (env := env) hs
  exact ⟨by have := this.1; rw [if_pos (Nat.zero_le _)] at this; omega, this.2⟩

/-! ### steps -/

theorem Lin.quietThen {m : M α} {f : α → CM β} {k b g : Nat} (h : Quiet m) (h' : ∀ a, Lin (f a) k b g) : Lin (CM.lift m >>= f) k b g :=
  (Lin.bind (.quiet h) h').mono (by omega) (by omega) (by omega)

theorem Lin.thenQuiet {c : CM α} {f : α → CM β} {k b g : Nat} (h : Lin c k b g) (h' : ∀ a, Lin (f a) 0 0 0) : Lin (c >>= f) k b g :=
  (Lin.bind h h').mono (by omega) (by omega) (by omega)

theorem Lin.oneThen {i : Nat} {c : Byte} {f : Unit → CM β} {k b g : Nat} (hb : 1 ≤ b) (h' : ∀ a, Lin (f a) k (b - 1) g) :
    Lin (CM.put i [c] >>= f) k b g :=
  (Lin.bind (.put _ _) h').mono (by omega) (by simp; omega) (by omega)

theorem Lin.putThen {i : Nat} {s : Str} {f : Unit → CM β} {k b g : Nat} (hb : s.length ≤ b) (h' : ∀ a, Lin (f a) k (b - s.length) g) :
    Lin (CM.put i s >>= f) k b g :=
  (Lin.bind (.put _ _) h').mono (by omega) (by simp; omega) (by omega)

theorem Lin.resizeThen {id n : Nat} {f : Nat → CM β} {b g : Nat} (h : id ≤ 7) (hb : n + 3 ≤ b) (hg : n ≤ g)
    (h' : ∀ a, Lin (f a) 0 (b - (n + 3)) (g - n)) : Lin (Counted.resize id n >>= f) 2 b g :=
  (Lin.bind (.resize h) h').mono (by omega) (by simp; omega) (by omega)

theorem Lin.resize2Then {x y n : Nat} {f : Nat → CM β} {b g : Nat} (h : y ≤ 8) (hb : n + 3 ≤ b) (hg : n ≤ g)
    (h' : ∀ a, Lin (f a) 0 (b - (n + 3)) (g - n)) : Lin (Counted.resize2 x y n >>= f) 2 b g :=
  (Lin.bind (.resize2 h) h').mono (by omega) (by simp; omega) (by omega)

/-- a step that writes nothing -/
macro "quiet" : tactic => `(tactic| first
  | exact Quiet.assert _ | exact Quiet.ask _ | exact Quiet.pt | exact Quiet.sizeMax | exact Quiet.isNull | exact Quiet.stored | exact Quiet.capacity
  | exact Quiet.parsed _ | exact Quiet.parsedAll _ | exact Quiet.require _ | exact Quiet.validate _ _ | exact Quiet.assertUserinfo
  | exact Quiet.split (by decide) | exact Quiet.raise _ | exact Quiet.undefined | exact Quiet.pure _
  | exact Quiet.setPt fun _ => rfl)

/-- go through the steps of a call -/
macro "steps" : tactic => `(tactic| ((try dsimp only [liftM, monadLift, MonadLiftT.monadLift, MonadLift.monadLift]); repeat' with_reducible first
  | assumption
  | refine Lin.ite (fun _ => ?_) (fun _ => ?_)
  | refine Lin.quietThen (by quiet) (fun _ => ?_)
  | refine Lin.oneThen (by omega) (fun _ => ?_)
  | refine Lin.putThen (by omega) (fun _ => ?_)
  | refine Lin.resizeThen (by decide) (by omega) (by omega) (fun _ => ?_)
  | refine Lin.resize2Then (by decide) (by omega) (by omega) (fun _ => ?_)
  | exact (Lin.pure _).mono (by omega) (by omega) (by omega)
  | exact (Lin.quiet (by quiet)).mono (by omega) (by omega) (by omega)
  | exact (Lin.put _ [_]).mono (by omega) (by simp only [List.length_cons, List.length_nil]; omega) (by omega)
  | exact (Lin.put _ _).mono (by omega) (by omega) (by omega)
  | refine Lin.thenQuiet ?_ (fun _ => Lin.quiet (by quiet))))

theorem l_set_encoded_origin (s : Str) : Lin (Counted.set_encoded_origin s) 2 (2 * s.length + 3) s.length := by
  unfold Counted.set_encoded_origin
  steps

theorem l_set_scheme (s : Str) : Lin (Counted.set_scheme s) 2 (2 * s.length + 5) (s.length + 1) := by
  unfold Counted.set_scheme
  steps

theorem l_set_encoded_authority (s : Str) : Lin (Counted.set_encoded_authority s) 2 (2 * s.length + 7) (s.length + 2) := by
  unfold Counted.set_encoded_authority
  steps

theorem l_set_encoded_userinfo (s : Str) : Lin (Counted.set_encoded_userinfo s) 2 (2 * s.length + 9) (s.length + 3) := by
  unfold Counted.set_encoded_userinfo
  steps

end Url
