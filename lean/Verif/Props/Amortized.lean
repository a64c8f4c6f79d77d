import Verif.Proofs.Fair
import Verif.Props.Growth
import Verif.Props.Heap

/-!
C67: allocations are rare. However many calls modify a url, the blocks it ever allocated add up to little more than
twice its capacity, and a url whose text never has more than `B` characters never gets a capacity of more than `2 * B + 2`.
-/

set_option autoImplicit false

namespace Url.Props
open Url Spec Fair

variable {env : Env} {st st' : St} {op : Op}

/-- The sizes of the blocks that were allocated, in this order. -/
def granted : List Event → List Nat
  | [] => []
  | .alloc _ n :: t => n :: granted t
  | .free _ _ :: t => granted t

/-- The sizes of the blocks that were freed, in this order. -/
def freed : List Event → List Nat
  | [] => []
  | .alloc _ _ :: t => freed t
  | .free _ n :: t => n :: freed t

/-- What is known about the blocks a url has allocated. -/
structure Doubled (st : St) : Prop where
  each : Doubling 0 (allocs st.log)
  none : allocs st.log = [] → st.cap = 0
  last : ∀ x, (allocs st.log).getLast? = some x → st.cap + 1 = x.2
  buf : ∀ x, (allocs st.log).getLast? = some x → st.buf.isSome = true

theorem doubled_empty : Doubled Base.empty := ⟨trivial, fun _ => rfl, (by intro x hx; cases hx), (by intro x hx; cases hx)⟩

theorem Doubled.step {L : List (Nat × Nat)} (h : Doubled st) (ht : Took env st L st') : Doubled st' := by
  obtain ⟨E, hE, hL⟩ := ht.log
  have e : allocs st'.log = allocs st.log ++ L := by rw [hE, allocs_append, hL]
  have key : ∀ x, (allocs st'.log).getLast? = some x → st'.cap + 1 = x.2 ∧ st'.buf.isSome = true := by
    intro x hx
    rw [e] at hx
    by_cases he : L = []
    · subst he
      rw [List.append_nil] at hx
      obtain ⟨h1, h2⟩ := ht.same rfl
      rw [h1]
      exact ⟨h.last x hx, h2.2.2.trans (h.buf x hx)⟩
    · rw [List.getLast?_append, show L.getLast? = some (L.getLast he) from List.getLast?_eq_some_getLast he, Option.some_or,
        ← List.getLast?_eq_some_getLast he] at hx
      exact (ht.last x hx).2
  refine ⟨?_, fun hn => ?_, fun x hx => (key x hx).1, fun x hx => (key x hx).2⟩
  · rw [e]
    exact h.each.append h.none h.last ht.doubling
  · rw [e] at hn
    obtain ⟨n1, n2⟩ := List.append_eq_nil_iff.1 hn
    rw [(ht.same n2).1]
    exact h.none n1

theorem Doubled.fair {α : Type} {m : M α} (hm : Fair m) (h : Doubled st)
    (hr : (∃ a, m env st = .ret a st') ∨ ∃ e, m env st = .throw e st') : Doubled st' := by
  have hf := hm env st
  rcases hr with ⟨a, hr⟩ | ⟨e, hr⟩ <;> rw [hr] at hf <;> dsimp only at hf
  · obtain ⟨L, h1, -⟩ := hf
    exact h.step h1
  · rcases hf with ⟨L, h1, -⟩ | ⟨-, L, s1, n, h1, h2, -⟩
    · exact h.step h1
    · have := h.step h1
      rw [h2]
      exact ⟨this.each, this.none, this.last, this.buf⟩

theorem doubled_worked (h : Worked env st) : Doubled st := by
  induction h with
  | empty => exact doubled_empty
  | call op _ hrun ih => exact ih.fair (fair_run op) (hrun.imp_left fun h => ⟨(), h⟩)
  | edit e _ _ hrun ih => exact ih.fair (fair_runIt e) hrun

theorem granted_eq (l : List Event) : granted l = (allocs l).map (·.2) := by
  induction l with
  | nil => rfl
  | cons x l ih => cases x <;> simp [granted, allocs, ih]

theorem doubling_count : ∀ {L : List (Nat × Nat)} {c : Nat}, Doubling c L → ∀ x, L.getLast? = some x →
    2 ^ (L.length - 1) * (c + 1) ≤ x.2 - 1 + 2 ^ (L.length - 1) * c ∧ 2 ^ L.length * c ≤ x.2 - 1 ∧ 1 ≤ L.length ∧
    (L.map (·.2)).sum + 2 * c ≤ 2 * (x.2 - 1) + L.length ∧ (L.map (·.2)).sum + c + 1 ≤ 2 * (x.2 - 1) + L.length
  | [], _, _, x, hx => by cases hx
  | [y], c, h, x, hx => by
    simp only [List.getLast?_singleton, Option.some.injEq] at hx
    subst hx
    obtain ⟨h1, h2, -⟩ := h
    simp only [List.map_cons, List.map_nil, List.sum_cons, List.sum_nil, List.length_singleton, Nat.sub_self, Nat.pow_zero, Nat.pow_one]
    omega
  | y :: z :: L, c, h, x, hx => by
    obtain ⟨h1, h2, h3⟩ := h
    rw [List.getLast?_cons_cons] at hx
    obtain ⟨i1, i2, i3, i4, i5⟩ := doubling_count h3 x hx
    generalize z :: L = M at *
    simp only [List.map_cons, List.sum_cons, List.length_cons, Nat.add_sub_cancel]
    obtain ⟨n, hn⟩ : ∃ n, M.length = n + 1 := ⟨M.length - 1, by omega⟩
    obtain ⟨d, hd⟩ : ∃ d, y.2 = d + 1 := ⟨y.2 - 1, by omega⟩
    rw [hd] at h1 h2 i1 i2 i4 i5 ⊢
    rw [hn] at i1 i2 i4 i5 ⊢
    simp only [Nat.add_sub_cancel] at i1 i2 i4 i5
    have k1 : 2 ^ (n + 1) * 1 ≤ 2 ^ (n + 1) * d := Nat.mul_le_mul_left _ (by omega)
    have k2 : 2 ^ (n + 1) * (2 * c) ≤ 2 ^ (n + 1) * d := Nat.mul_le_mul_left _ (by omega)
    have k3 : 2 ^ (n + 1 + 1) * c = 2 ^ (n + 1) * (2 * c) := by rw [Nat.pow_succ, Nat.mul_assoc]
    refine ⟨?_, by omega, by omega, by omega, by omega⟩
    rw [Nat.mul_add]
    omega

/-- C67: a url has allocated at most as many blocks as its capacity has binary digits, after any calls and edits. -/
theorem C67_count (h : Worked env st) : 2 ^ (granted st.log).length ≤ 2 * st.cap + 1 := by
  have hd := doubled_worked h
  rw [granted_eq, List.length_map]
  cases hx : (allocs st.log).getLast? with
  | none =>
    rw [List.getLast?_eq_none_iff.1 hx]
    simp
  | some x =>
    obtain ⟨c1, -, c3, -, -⟩ := doubling_count hd.each x hx
    have := hd.last x hx
    obtain ⟨n, hn⟩ : ∃ n, (allocs st.log).length = n + 1 := ⟨(allocs st.log).length - 1, by omega⟩
    rw [hn] at c1 ⊢
    rw [Nat.pow_succ]
    simp only [Nat.add_sub_cancel] at c1
    omega

/-- C67: the blocks a url has allocated, the terminators not counted, add up to less than twice its capacity. -/
theorem C67_total (h : Worked env st) : (granted st.log).sum ≤ 2 * st.cap - 1 + (granted st.log).length := by
  have hd := doubled_worked h
  rw [granted_eq, List.length_map]
  cases hx : (allocs st.log).getLast? with
  | none =>
    rw [List.getLast?_eq_none_iff.1 hx]
    simp
  | some x =>
    have := (doubling_count hd.each x hx).2.2.2.2
    have := hd.last x hx
    omega

/-- calls that double the capacity three times -/
def doubling : List Op := [.set_encoded_path b!"/", .set_encoded_path b!"/a", .set_encoded_path b!"/ab", .set_encoded_path b!"/abcd"]

/-- Neither bound can be improved: four blocks for a capacity of four digits, and 19 bytes. -/
example : Worked env1 (afterRelease doubling) ∧ granted (afterRelease doubling).log = [2, 3, 5, 9] ∧ (afterRelease doubling).cap = 8 ∧
    freed (afterRelease doubling).log = [2, 3, 5] ∧ 2 ^ 4 ≤ 2 * 8 + 1 ∧ [2, 3, 5, 9].sum = 2 * 8 - 1 + 4 :=
  ⟨(afterRelease_used (by decide +kernel)).worked, by decide +kernel, by decide +kernel, by decide +kernel, by decide, rfl⟩

theorem blocks_sum : ∀ {E : List Event} {l r : List (Nat × Nat)}, blocks l E = some r →
    (l.map (·.2)).sum + (granted E).sum = (r.map (·.2)).sum + (freed E).sum
  | [], l, r, h => by
    simp only [blocks, Option.some.injEq] at h
    rw [h]
    rfl
  | .alloc id n :: E, l, r, h => by
    unfold blocks at h
    split at h
    · cases h
    · have := blocks_sum h
      simp only [List.map_cons, List.sum_cons, granted, freed] at this ⊢
      omega
  | .free id n :: E, l, r, h => by
    unfold blocks at h
    split at h
    · rename_i hm
      have := blocks_sum h
      have hp := ((List.perm_cons_erase hm).map (·.2)).sum_nat
      simp only [List.map_cons, List.sum_cons, granted, freed] at this hp ⊢
      omega
    · cases h

theorem grows_it (e : ItOp) : Alias.Grows (runIt e) := by
  cases e <;> unfold runIt <;> dsimp only
  · exact Capacity.grows_erase _
  · exact Capacity.grows_erase_range _ _
  · exact Capacity.grows_insert_impl _ _ _
  · exact .bind (Alias.Reads.validate _ _).still.grows fun _ => Capacity.grows_insert_encoded_impl _ _
  · exact Capacity.grows_swap _ _ fun _ => Capacity.grows_insert_impl _ _ _
  · exact .bind (Alias.Reads.validate _ _).still.grows fun _ => Capacity.grows_swap _ _ fun _ => Capacity.grows_insert_encoded_impl _ _

theorem owned_worked (h : Worked env st) : Owned st := by
  induction h with
  | empty => exact owned_empty
  | call op _ hrun ih => exact C53_call ih hrun
  | edit e _ _ hrun ih => exact (grows_it e _ _ _ hrun).2.2.2.1 ih

/-- C53: the same after any calls and any edits through iterators into the path. -/
theorem C53_worked (h : Worked env st) :
    blocks [] st.log = some (match st.buf with
      | none => []
      | some _ => [(st.addr, st.cap + 1)]) ∧ blocks [] (Storage.destroy st) = some [] :=
  ⟨(owned_worked h).1, destroy_owned (owned_worked h)⟩

/-- an edit after the calls, through an iterator to the third character -/
def editedLog : Out SegIt → List Event
  | .ret _ st => Storage.destroy st
  | _ => []

example : (ItOp.insert ⟨2, 3⟩ b!"wxyz").InPath (afterRelease doubling) ∧
    editedLog (runIt (.insert ⟨2, 3⟩ b!"wxyz") env1 (afterRelease doubling)) = (afterRelease doubling).log ++ [.alloc 4 17, .free 3 9, .free 4 17] :=
  ⟨by decide +kernel, by decide +kernel⟩

/-- C67: the blocks that were freed, from which the text was copied, add up to less than the capacity, the terminators
not counted. -/
theorem C67_copied (h : Worked env st) : (freed st.log).sum ≤ st.cap - 1 + ((granted st.log).length - 1) := by
  have h1 := C67_total h
  have h2 := blocks_sum (owned_worked h).1
  have h3 : (granted st.log).length = 0 → (granted st.log).sum = 0 := fun h => by rw [List.length_eq_zero_iff.1 h]; rfl
  have h4 := C67_count h
  simp only [List.map_nil, List.sum_nil] at h2
  cases hb : st.buf with
  | none =>
    have hn : allocs st.log = [] := by
      cases hx : (allocs st.log).getLast? with
      | none => exact List.getLast?_eq_none_iff.1 hx
      | some x => have := (doubled_worked h).buf x hx; rw [hb] at this; cases this
    have e : granted st.log = [] := by rw [granted_eq, hn]; rfl
    rw [hb, e] at h2
    simp only [List.map_nil, List.sum_nil] at h2
    omega
  | some b =>
    rw [hb] at h2
    simp only [List.map_cons, List.map_nil, List.sum_cons, List.sum_nil] at h2
    omega

example : Worked env1 (afterRelease doubling) ∧ (freed (afterRelease doubling).log).sum = (afterRelease doubling).cap - 1 + (4 - 1) :=
  ⟨(afterRelease_used (by decide +kernel)).worked, by decide +kernel⟩

/-- The states of a url that was modified by any calls, while its text never had more than `B` characters. -/
inductive UsedWithin (env : Env) (B : Nat) : St → Prop
  | empty : UsedWithin env B Base.empty
  | call {st st' : St} (op : Op) : UsedWithin env B st → (run op env st = .ret () st' ∨ ∃ e, run op env st = .throw e st') →
      size (st'.obj false) ≤ B → UsedWithin env B st'

theorem UsedWithin.used {B : Nat} (h : UsedWithin env B st) : Used env st := by
  induction h with
  | empty => exact .empty
  | call op _ hrun _ ih => exact .call op ih hrun

/-- C67: the capacity is at most twice what the longest text needed, and two characters. -/
theorem C67_within {B : Nat} (h : UsedWithin env B st) : st.cap ≤ 2 * B + 2 := by
  induction h with
  | empty => exact Nat.zero_le _
  | @call st st' op hu hrun hB ih =>
    rcases hrun with hrun | ⟨e, hrun⟩
    · have key : ∀ {n}, n ≤ B + 2 → ((n ≤ st.cap → st'.cap = st.cap ∧ st'.tick = st.tick) ∧
          (st.cap < n → st'.tick = st.tick + 1 ∧ 2 * st.cap ≤ st'.cap ∧ (st'.cap = n ∨ st'.cap = 2 * st.cap) ∧ st'.cap + 1 ≤ env.maxSize)) →
          st'.cap ≤ 2 * B + 2 := by
        rintro n hn ⟨h1, h2⟩
        by_cases hc : n ≤ st.cap
        · have := h1 hc; omega
        · have := h2 (by omega); omega
      by_cases hop : op = .set_password_part b!":"
      · subst hop
        refine key ?_ (C24_growth_colon (.inr hu.used) hrun _ rfl)
        split <;> omega
      · exact key (by omega) (C24_growth (.inr hu.used) hop hrun)
    · rw [(C18_strong hrun).2.2.2]
      exact ih

/-- calls whose texts have two, one and three characters -/
def colons : List Op := [.set_password_part b!":", .set_encoded_url b!"/", .set_password_part b!":"]

/-- Every call returns and leaves at most `B` characters. -/
def staysWithin (B : Nat) : List Op → St → Bool
  | [], _ => true
  | op :: ops, st => match run op env1 st with
    | .ret () st' => decide (size (st'.obj false) ≤ B) && staysWithin B ops st'
    | _ => false

theorem UsedWithin.all {B : Nat} : ∀ {ops : List Op} {st : St}, UsedWithin env1 B st → staysWithin B ops st = true →
    ∃ st', runAll ops env1 st = .ret () st' ∧ UsedWithin env1 B st'
  | [], st, h, _ => ⟨st, rfl, h⟩
  | op :: ops, st, h, hs => by
    unfold staysWithin at hs
    split at hs
    · rename_i st1 h1
      rw [Bool.and_eq_true, decide_eq_true_eq] at hs
      obtain ⟨st', h2, h3⟩ := UsedWithin.all (.call op h (.inl h1) hs.1) hs.2
      refine ⟨st', ?_, h3⟩
      show (run op >>= fun _ => runAll ops) env1 st = _
      rw [run_bind, h1]
      exact h2
    · cases hs

theorem afterRelease_within {B : Nat} {ops : List Op} (h : staysWithin B ops Base.empty = true) : UsedWithin env1 B (afterRelease ops) := by
  obtain ⟨st', h1, h2⟩ := UsedWithin.empty.all h
  rw [show afterRelease ops = st' by unfold afterRelease; rw [h1]]
  exact h2

/-- The bound cannot be improved. -/
example : UsedWithin env1 3 (afterRelease colons) ∧ textOf (.ret () (afterRelease colons)) = some b!"///" ∧ (afterRelease colons).cap = 2 * 3 + 2 :=
  ⟨afterRelease_within (by decide +kernel), by decide +kernel, by decide +kernel⟩

/-- C67: however many calls there were, all the blocks a url has allocated add up to little more than four times what
its longest text needed. -/
theorem C67_bounded {B : Nat} (h : UsedWithin env B st) : (granted st.log).sum ≤ 4 * B + 3 + (granted st.log).length ∧
    2 ^ (granted st.log).length ≤ 4 * B + 5 := by
  have h1 := C67_total h.used.worked
  have h2 := C67_count h.used.worked
  have h3 := C67_within h
  omega

/-- Five calls and two blocks. -/
example : UsedWithin env1 3 (afterRelease (colons ++ [.set_encoded_url b!"a", .set_encoded_url b!"//b"])) ∧
    granted (afterRelease (colons ++ [.set_encoded_url b!"a", .set_encoded_url b!"//b"])).log = [5, 9] :=
  ⟨afterRelease_within (by decide +kernel), by decide +kernel⟩

end Url.Props
