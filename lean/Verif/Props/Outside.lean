import Verif.Props.AnyHistory

/-!
C57 with assertions, for iterators that are not into the path: edits given such iterators do not return.
-/

set_option autoImplicit false

namespace Url.Props
open Url Spec

variable {env : Env} {st st' : St}

theorem outside_bind {α β : Type} {m : M α} {f : α → M β} (h : ∃ x, m env st = .fault x) : ∃ x, (m >>= f) env st = .fault x := by
  obtain ⟨x, h⟩ := h
  refine ⟨x, ?_⟩
  show (match m env st with | .ret a st => f a env st | .throw e st => .throw e st | .fault x => .fault x : Out β) = _
  rw [h]

/-- an assertion: it holds or the call ends there -/
theorem outside_assert {α : Type} {p : Obj → R Bool} {f : Unit → M α} (hd : env.dbg = true)
    (h : p (st.obj env.dbg) = .ok true → ∃ x, f () env st = .fault x) : ∃ x, (M.assert p >>= f) env st = .fault x := by
  by_cases hp : p (st.obj env.dbg) = .ok true
  · rw [run_bind_ret (run_assert hp)]
    exact h hp
  · exact outside_bind (_root_.Url.assert_fault hd hp)

theorem outside_decide {p : Prop} [Decidable p] (h : (.ok (decide p) : R Bool) = .ok true) : p := by simpa using h

/-- how `erase(first, last)` begins -/
theorem range_outside {a b : SegIt} {T : M SegIt} (hd : env.dbg = true) (h : ¬ (ItOp.erase_range a b).InPath st) :
    ∃ f, (M.stored >>= fun n => do
      M.assert fun o => .ok (Url.size o = n)
      M.assert fun o => .ok (a.off ≥ o.pt.off id_path)
      M.assert fun o => .ok (b.off ≥ o.pt.off id_path)
      M.assert fun o => .ok (a.off ≤ o.pt.off id_query)
      M.assert fun o => .ok (b.off ≤ o.pt.off id_query)
      if b.off < a.off then M.undefined else T) env st = .fault f := by
  rw [run_bind_ret run_stored]
  refine outside_assert hd fun _ => outside_assert hd fun h1 => outside_assert hd fun _ => outside_assert hd fun _ => outside_assert hd fun h4 => ?_
  rw [run_ite, if_pos]
  · exact ⟨_, rfl⟩
  · have h1 := outside_decide h1
    have h4 := outside_decide h4
    refine Classical.byContradiction fun hn => h ⟨h1, ?_, h4⟩
    show a.off ≤ b.off
    omega

theorem outside_next_off {o : Obj} {lim : Nat} {p q : SegIt} (hn : Seg.next lim o p = .ok q) : q.off = p.off + p.n := by
  have step : ∀ {α β : Type} {x : R α} {f : α → R β} {y : β}, (x >>= f) = .ok y → ∃ z, x = .ok z ∧ f z = .ok y := by
    intro α β x f y h
    cases x with
    | error e => cases h
    | ok z => exact ⟨z, rfl, h⟩
  unfold Seg.next at hn
  obtain ⟨_, -, hn⟩ := step hn
  dsimp only at hn
  split at hn
  · cases hn; rfl
  · unfold Seg.parse at hn
    obtain ⟨_, -, hn⟩ := step hn
    obtain ⟨_, -, hn⟩ := step hn
    obtain ⟨_, -, hn⟩ := step hn
    cases hn; rfl

/-- how `erase(pos)` begins -/
theorem erase_outside {p : SegIt} {T : SegIt → M SegIt} (h : ¬ (ItOp.erase p).InPath st)
    (hT : ∀ q, ¬ (ItOp.erase_range p q).InPath st → ∃ f, T q env st = .fault f) :
    ∃ f, ((M.ask fun o => Seg.next id_query o p) >>= T) env st = .fault f := by
  cases hn : Seg.next id_query (st.obj env.dbg) p with
  | error x => exact outside_bind ⟨x, by unfold M.ask; dsimp only; rw [hn]⟩
  | ok q =>
    rw [run_bind_ret (run_ask hn)]
    refine hT q fun h' => h ?_
    obtain ⟨i1, i2, i3⟩ := h'
    have i3 : q.off ≤ _ := i3
    rw [outside_next_off hn] at i3
    exact ⟨i1, by show p.off ≤ p.off + p.n; omega, i3⟩

/-- how `insert` begins -/
theorem put_outside {p : SegIt} {s : Str} {T : M SegIt} (hd : env.dbg = true) (h : ¬ (ItOp.insert p s).InPath st) :
    ∃ f, (M.stored >>= fun n => do
      M.assert fun o => .ok (Url.size o = n)
      M.assert fun o => .ok (p.off ≥ o.pt.off id_path)
      M.assert fun o => .ok (p.off ≤ o.pt.off id_query)
      T) env st = .fault f := by
  rw [run_bind_ret run_stored]
  refine outside_assert hd fun _ => outside_assert hd fun h1 => outside_assert hd fun h2 => ?_
  exact absurd ⟨outside_decide h1, Nat.le_refl _, outside_decide h2⟩ h

/-- a step before which an allocation may fail -/
def ReservedOutside (st : St) (x : Out Unit) : Prop :=
  (∃ s, x = .ret () s ∧ s.pt = st.pt) ∨ (∃ f, x = .fault f) ∨ x = .throw .bad_alloc { st with tick := st.tick + 1 }

theorem reserves_outside {n : Nat} : ReservedOutside st (Storage.reserve n env st) := by
  unfold Storage.reserve Storage.allocate
  split
  · exact .inl ⟨st, rfl, rfl⟩
  · dsimp only
    by_cases h : Storage.newCap env.maxSize st.cap n + 1 ≤ env.maxSize ∧ env.alloc st.tick (Storage.newCap env.maxSize st.cap n + 1) = true
    · rw [if_pos h]
      dsimp only
      cases st.buf with
      | none => exact .inl ⟨_, rfl, rfl⟩
      | some b =>
        dsimp only
        split
        · exact .inl ⟨_, rfl, rfl⟩
        · exact .inr (.inl ⟨_, rfl⟩)
    · rw [if_neg h]
      exact .inr (.inr rfl)

theorem reserves_outside_machine {k n : Nat} : ReservedOutside st (Machine.reserve k n env st) := by
  unfold Machine.reserve Storage.allocate
  split
  · exact .inl ⟨st, rfl, rfl⟩
  · dsimp only
    generalize (if st.cap < Machine.sub k env.maxSize st.cap then
        (if Machine.add k st.cap st.cap < n then n else Machine.add k st.cap st.cap) else env.maxSize) = cap
    by_cases h : Machine.add k cap 1 ≤ env.maxSize ∧ env.alloc st.tick (Machine.add k cap 1) = true
    · rw [if_pos h]
      dsimp only
      cases st.buf with
      | none => exact .inl ⟨_, rfl, rfl⟩
      | some b =>
        dsimp only
        split
        · exact .inl ⟨_, rfl, rfl⟩
        · exact .inr (.inl ⟨_, rfl⟩)
    · rw [if_neg h]
      exact .inr (.inr rfl)

/-- the call does not return; if it throws, the object is as before -/
def HaltsOutside (st : St) (x : Out SegIt) : Prop := (∃ f, x = .fault f) ∨ x = .throw .bad_alloc { st with tick := st.tick + 1 }

/-- how `replace` begins -/
theorem swap_outside {p : SegIt} {c : Prop} [Decidable c] {Q : Nat → M Unit} {E : M SegIt} {T : Nat → SegIt → M SegIt} (hd : env.dbg = true)
    (hR : ∀ n, ReservedOutside st (Q n env st)) (h : ¬ (ItOp.erase p).InPath st)
    (hE : ∀ st, ¬ (ItOp.erase p).InPath st → ∃ f, E env st = .fault f) :
    HaltsOutside st ((M.stored >>= fun n => do
      M.assert fun o => .ok (Url.size o = n)
      if c then Q (← M.stored)
      let cap ← M.capacity
      T cap (← E)) env st) := by
  have key : ∀ s : St, s.pt = st.pt → ∃ f, (M.capacity >>= fun cap => E >>= fun x => T cap x) env s = .fault f := by
    intro s hs
    rw [run_bind_ret (show M.capacity env s = .ret s.cap s from rfl)]
    refine outside_bind (hE s ?_)
    unfold ItOp.InPath at h ⊢
    rwa [hs]
  rw [run_bind_ret run_stored]
  by_cases hp : (.ok (decide (Url.size (st.obj env.dbg) = st.size)) : R Bool) = .ok true
  · rw [run_bind_ret (run_assert hp)]
    by_cases hc : c
    · simp only [if_pos hc]
      rw [run_bind_ret run_stored]
      rcases hR st.size with ⟨s, h1, h2⟩ | ⟨f, h1⟩ | h1
      · rw [run_bind_ret h1]
        exact .inl (key s h2)
      · exact .inl (outside_bind ⟨f, h1⟩)
      · exact .inr (run_bind_throw h1)
    · simp only [if_neg hc]
      exact .inl (key st rfl)
  · exact .inl (outside_bind (_root_.Url.assert_fault hd hp))

/-- C57 with assertions, in any state: an edit through iterators that are not into the path, such as those that are out of date, does not
return. It is stopped, or throws because an encoded argument is not a segment or memory is short, and the object is as before. -/
theorem C57_outside {e : ItOp} (hd : env.dbg = true) (h : ¬ e.InPath st) :
    (∃ f, runIt e env st = .fault f) ∨ (¬ e.Valid ∧ runIt e env st = .throw .invalid_part st) ∨
    (e.Valid ∧ runIt e env st = .throw .bad_alloc { st with tick := st.tick + 1 }) := by
  have hr : ∀ a b st, ¬ (ItOp.erase_range a b).InPath st → ∃ f, Base.seg_erase_range a b env st = .fault f := fun a b st h => by
    unfold Base.seg_erase_range; exact range_outside hd h
  have he : ∀ p st, ¬ (ItOp.erase p).InPath st → ∃ f, Base.seg_erase p env st = .fault f := fun p st h => by
    unfold Base.seg_erase; exact erase_outside h fun q hq => hr p q st hq
  have hp : ∀ p n x st, ¬ (ItOp.insert p []).InPath st → ∃ f, Base.seg_put p n x env st = .fault f := fun p n x st h => by
    unfold Base.seg_put; exact put_outside hd h
  have hi : ∀ p s, ¬ (ItOp.insert p []).InPath st → ∃ f, Base.seg_insert_encoded_impl p s env st = .fault f := fun p s h => by
    unfold Base.seg_insert_encoded_impl; exact outside_assert hd fun _ => hp _ _ _ _ h
  have hw : ∀ p n T, ¬ (ItOp.erase p).InPath st → HaltsOutside st (Base.seg_swap p n T env st) := fun p n T h => by
    unfold Base.seg_swap
    exact swap_outside (p := p) (Q := fun k => Storage.reserve (k + (n + 1) - p.n)) (E := Base.seg_erase p)
      (T := fun cap x => T x >>= fun r => M.capacity >>= fun cap' => M.assert (fun _ => .ok (cap' = cap)) >>= fun _ => pure r)
      hd (fun _ => reserves_outside) h (he p)
  have hs : ∀ {x : Out SegIt}, e.Valid → HaltsOutside st x → (∃ f, x = .fault f) ∨ (¬ e.Valid ∧ x = .throw .invalid_part st) ∨
      (e.Valid ∧ x = .throw .bad_alloc { st with tick := st.tick + 1 }) := fun hv h => h.imp id fun h => .inr ⟨hv, h⟩
  have hv : ∀ {s : Str}, pchar_pct_set.check s = true ↔ Escaped isUpperHex isPchar s := check_iff setOf_pchar _
  cases e with
  | erase p => exact .inl (he p st h)
  | erase_range a b => exact .inl (hr a b st h)
  | insert p s =>
    refine .inl ?_
    show ∃ f, Base.seg_insert_impl _ _ _ _ _ = _
    unfold Base.seg_insert_impl; exact outside_assert hd fun _ => hp _ _ _ _ h
  | replace p s => exact hs trivial (hw _ _ _ h)
  | insert_encoded p s =>
    show (∃ f, Base.seg_insert_encoded p s env st = _) ∨ _ ∧ Base.seg_insert_encoded p s env st = _ ∨ _ ∧ Base.seg_insert_encoded p s env st = _
    unfold Base.seg_insert_encoded Base.validate
    by_cases hc : pchar_pct_set.check s = true
    · left
      rw [run_bind_ret (by rw [hc]; rfl)]
      exact hi p s h
    · right; left
      exact ⟨fun k => hc (hv.2 k), run_bind_throw (by rw [Bool.not_eq_true] at hc; rw [hc]; rfl)⟩
  | replace_encoded p s =>
    show (∃ f, Base.seg_replace_encoded p s env st = _) ∨ _ ∧ Base.seg_replace_encoded p s env st = _ ∨ _ ∧ Base.seg_replace_encoded p s env st = _
    unfold Base.seg_replace_encoded Base.validate
    by_cases hc : pchar_pct_set.check s = true
    · rw [run_bind_ret (by rw [hc]; rfl)]
      exact hs (hv.1 hc) (hw _ _ _ h)
    · right; left
      exact ⟨fun k => hc (hv.2 k), run_bind_throw (by rw [Bool.not_eq_true] at hc; rw [hc]; rfl)⟩

/-- The same where sizes wrap, as they do on a machine. -/
theorem C57_outside_machine {e : ItOp} (hd : env.dbg = true) (h : ¬ e.InPath st) :
    (∃ f, Machine.runIt e env st = .fault f) ∨ (¬ e.Valid ∧ Machine.runIt e env st = .throw .invalid_part st) ∨
    (e.Valid ∧ Machine.runIt e env st = .throw .bad_alloc { st with tick := st.tick + 1 }) := by
  have hr : ∀ a b st, ¬ (ItOp.erase_range a b).InPath st → ∃ f, Machine.seg_erase_range env.sizeMax a b env st = .fault f := fun a b st h => by
    unfold Machine.seg_erase_range; exact range_outside hd h
  have he : ∀ p st, ¬ (ItOp.erase p).InPath st → ∃ f, Machine.seg_erase env.sizeMax p env st = .fault f := fun p st h => by
    unfold Machine.seg_erase; exact erase_outside h fun q hq => hr p q st hq
  have hp : ∀ p n x st, ¬ (ItOp.insert p []).InPath st → ∃ f, Machine.seg_put env.sizeMax p n x env st = .fault f := fun p n x st h => by
    unfold Machine.seg_put; exact put_outside hd h
  have hi : ∀ p s, ¬ (ItOp.insert p []).InPath st → ∃ f, Machine.seg_insert_encoded_impl env.sizeMax p s env st = .fault f := fun p s h => by
    unfold Machine.seg_insert_encoded_impl; exact outside_assert hd fun _ => hp _ _ _ _ h
  have hw : ∀ p n T, ¬ (ItOp.erase p).InPath st → HaltsOutside st (Machine.seg_swap env.sizeMax p n T env st) := fun p n T h => by
    unfold Machine.seg_swap
    exact swap_outside (p := p) (Q := fun j => Machine.reserve env.sizeMax (Machine.sub env.sizeMax (Machine.add env.sizeMax j (Machine.add env.sizeMax n 1)) p.n)) (E := Machine.seg_erase env.sizeMax p)
      (T := fun cap x => T x >>= fun r => M.capacity >>= fun cap' => M.assert (fun _ => .ok (cap' = cap)) >>= fun _ => pure r)
      hd (fun _ => reserves_outside_machine) h (he p)
  have hs : ∀ {x : Out SegIt}, e.Valid → HaltsOutside st x → (∃ f, x = .fault f) ∨ (¬ e.Valid ∧ x = .throw .invalid_part st) ∨
      (e.Valid ∧ x = .throw .bad_alloc { st with tick := st.tick + 1 }) := fun hv h => h.imp id fun h => .inr ⟨hv, h⟩
  have hv : ∀ {s : Str}, pchar_pct_set.check s = true ↔ Escaped isUpperHex isPchar s := check_iff setOf_pchar _
  cases e with
  | erase p => exact .inl (he p st h)
  | erase_range a b => exact .inl (hr a b st h)
  | insert p s =>
    refine .inl ?_
    show ∃ f, Machine.seg_insert_impl env.sizeMax _ _ _ _ _ = _
    unfold Machine.seg_insert_impl; exact outside_assert hd fun _ => hp _ _ _ _ h
  | replace p s => exact hs trivial (hw _ _ _ h)
  | insert_encoded p s =>
    show (∃ f, Machine.seg_insert_encoded env.sizeMax p s env st = _) ∨ _ ∧ Machine.seg_insert_encoded env.sizeMax p s env st = _ ∨ _ ∧ Machine.seg_insert_encoded env.sizeMax p s env st = _
    unfold Machine.seg_insert_encoded Base.validate
    by_cases hc : pchar_pct_set.check s = true
    · left
      rw [run_bind_ret (by rw [hc]; rfl)]
      exact hi p s h
    · right; left
      exact ⟨fun k => hc (hv.2 k), run_bind_throw (by rw [Bool.not_eq_true] at hc; rw [hc]; rfl)⟩
  | replace_encoded p s =>
    show (∃ f, Machine.seg_replace_encoded env.sizeMax p s env st = _) ∨ _ ∧ Machine.seg_replace_encoded env.sizeMax p s env st = _ ∨ _ ∧ Machine.seg_replace_encoded env.sizeMax p s env st = _
    unfold Machine.seg_replace_encoded Base.validate
    by_cases hc : pchar_pct_set.check s = true
    · rw [run_bind_ret (by rw [hc]; rfl)]
      exact hs (hv.1 hc) (hw _ _ _ h)
    · right; left
      exact ⟨fun k => hc (hv.2 k), run_bind_throw (by rw [Bool.not_eq_true] at hc; rw [hc]; rfl)⟩

/-- C57: so with assertions an edit that returns was given iterators into the path. -/
theorem C57_returns {e : ItOp} {it : SegIt} (hd : env.dbg = true) (h : runIt e env st = .ret it st' ∨ Machine.runIt e env st = .ret it st') :
    e.InPath st := by
  refine Classical.byContradiction fun hn => ?_
  rcases h with h | h
  · rcases C57_outside hd hn with ⟨f, h'⟩ | ⟨-, h'⟩ | ⟨-, h'⟩ <;> rw [h] at h' <;> cases h'
  · rcases C57_outside_machine hd hn with ⟨f, h'⟩ | ⟨-, h'⟩ | ⟨-, h'⟩ <;> rw [h] at h' <;> cases h'

/-- The states of a `url` object that was modified by calls of its own, whatever they were, and by edits of segments through any
iterators whatever, if they returned or threw. Left out is only lack of memory for an edit through iterators that are not into the
path, after which the object is as before, but one more allocation was asked for (`C57_outside`). -/
inductive Free (env : Env) : St → Prop
  | empty : Free env Base.empty
  | call {st st' : St} (op : Op) : Free env st → (run op env st = .ret () st' ∨ ∃ e, run op env st = .throw e st') → Free env st'
  | edit {st st' : St} (e : ItOp) (it : SegIt) : Free env st → runIt e env st = .ret it st' → Free env st'
  | thrown {st st' : St} (e : ItOp) (x : Exc) : Free env st → runIt e env st = .throw x st' → (x = .bad_alloc → e.InPath st) → Free env st'

/-- C57: so with assertions what is said of the states after edits through iterators into the path holds after edits through any
iterators. -/
theorem C57_free (hd : env.dbg = true) (h : Free env st) : Worked env st := by
  induction h with
  | empty => exact .empty
  | call op _ hrun ih => exact .call op ih hrun
  | edit e it _ hrun ih => exact .edit e ih (C57_returns hd (.inl hrun)) (.inl ⟨it, hrun⟩)
  | @thrown st st' e x _ hrun hb ih =>
    by_cases hin : e.InPath st
    · exact .edit e ih hin (.inr ⟨x, hrun⟩)
    · rcases C57_outside hd hin with ⟨f, h'⟩ | ⟨-, h'⟩ | ⟨-, h'⟩ <;> rw [hrun] at h' <;> cases h'
      · exact ih
      · exact absurd (hb rfl) hin

/-- a history in which an edit through an iterator that is not into the path throws -/
example : ∃ st, Free env0 st ∧ encoded_url (st.obj true) = .ok b!"x:/a/b?q" :=
  ⟨made env0 b!"x:/a/b?q", .thrown (.insert_encoded ⟨0, 0⟩ b!"%") .invalid_part
    (.call (.set_encoded_url b!"x:/a/b?q") .empty (.inl (after_eq (ops := [.set_encoded_url b!"x:/a/b?q"]) rfl))) rfl (by simp), by decide +kernel⟩

/-- a url, and iterators behind and in front of its path -/
example : ¬ ItOp.InPath (made env0 b!"x:/a/b?q") (.erase ⟨4, 3⟩) ∧ ¬ ItOp.InPath (made env0 b!"x:/a/b?q") (.insert ⟨0, 0⟩ b!"s") ∧
    ItOp.InPath (made env0 b!"x:/a/b?q") (.erase ⟨4, 2⟩) ∧
    itFault (runIt (.erase ⟨4, 3⟩) env0 (made env0 b!"x:/a/b?q")) = some .assert ∧
    itFault (runIt (.insert ⟨0, 0⟩ b!"s") env0 (made env0 b!"x:/a/b?q")) = some .assert ∧
    itThrown (runIt (.insert_encoded ⟨0, 0⟩ b!"%") env0 (made env0 b!"x:/a/b?q")) = some .invalid_part ∧
    itThrown (runIt (.replace ⟨0, 0⟩ b!"abcdefghij") { env0 with alloc := fun _ _ => false } (made env0 b!"x:/a/b?q")) = some .bad_alloc ∧
    pathOf (runIt (.erase ⟨4, 2⟩) env0 (made env0 b!"x:/a/b?q")) = some (b!"/a", ⟨4, 0⟩) := by decide +kernel

end Url.Props
