import Verif.Proofs.Storage
import Verif.Model.Alias
import Verif.Spec.Allocator

/-!
Calls whose argument is a part of the url's own buffer in front of everything the call changes.
-/

set_option linter.unusedSimpArgs false

namespace Url.Alias
open M Base Spec

variable {α β : Type} {env : Env} {st : St} {c0 g off : Nat} {s : Str}

/-! ### capacity and allocations only grow -/

/-- The allocator provides `n` bytes at some time. -/
def Granted (env : Env) (n : Nat) : Prop := n ≤ env.maxSize ∧ ∃ t, env.alloc t n = true

/-- Nothing is done to the allocations. -/
def HeapSame (st st' : St) : Prop := st'.addr = st.addr ∧ st'.log = st.log ∧ st'.buf.isSome = st.buf.isSome

theorem HeapSame.refl (st : St) : HeapSame st st := ⟨rfl, rfl, rfl⟩

theorem HeapSame.owned {st st' : St} (h : HeapSame st st') (hc : st'.cap = st.cap) (ht : st.tick ≤ st'.tick) (ho : Owned st) : Owned st' := by
  obtain ⟨h1, h2, h3⟩ := h
  obtain ⟨o1, o2⟩ := ho
  unfold Owned
  rw [h1, h2, hc]
  cases hb : st.buf <;> cases hb' : st'.buf <;> rw [hb, hb'] at h3 <;> try cases h3
  · rw [hb] at o1; exact ⟨o1, fun h => absurd rfl h⟩
  · rw [hb] at o1 o2; exact ⟨o1, fun _ => by have := o2 (by simp); omega⟩

theorem HeapSame.trans {a b c : St} (h : HeapSame a b) (h' : HeapSame b c) : HeapSame a c :=
  ⟨h'.1.trans h.1, h'.2.1.trans h.2.1, h'.2.2.trans h.2.2⟩

/-- The buffer is the same one exactly if it has the same capacity. -/
def Moves (st st' : St) : Prop :=
  (st'.cap = st.cap → HeapSame st st') ∧ (st.cap < st'.cap → st.tick ≤ st'.addr ∧ st'.buf.isSome = true)

theorem HeapSame.moves {st st' : St} (h : HeapSame st st') (hc : st'.cap = st.cap) : Moves st st' :=
  ⟨fun _ => h, fun hlt => absurd hlt (by omega)⟩

/-- The capacity and the count of allocations do not decrease, and another capacity means a new allocation, which the
allocator granted. A state that owns its buffer still does. -/
def Grows (m : M α) : Prop := ∀ env st st', (∃ a, m env st = .ret a st') ∨ (∃ e, m env st = .throw e st') →
  st.cap ≤ st'.cap ∧ st.tick ≤ st'.tick ∧ (st.cap < st'.cap → st.tick < st'.tick ∧ Granted env (st'.cap + 1)) ∧
  (Owned st → Owned st') ∧ Moves st st'

theorem Grows.bind {m : M α} {f : α → M β} (hm : Grows m) (hf : ∀ a, Grows (f a)) : Grows (m >>= f) := by
  intro env st st' h
  rw [run_bind] at h
  cases hx : m env st with
  | ret a st1 =>
    rw [hx] at h
    have h1 := hm env st st1 (.inl ⟨a, hx⟩)
    have h2 := hf a env st1 st' h
    refine ⟨by omega, by omega, fun h3 => ?_, fun ho => h2.2.2.2.1 (h1.2.2.2.1 ho), fun h3 => ?_, fun h3 => ?_⟩
    rotate_left
    · exact (h1.2.2.2.2.1 (by omega)).trans (h2.2.2.2.2.1 (by omega))
    · rcases Nat.lt_or_ge st1.cap st'.cap with h4 | h4
      · exact ⟨by have := (h2.2.2.2.2.2 h4).1; omega, (h2.2.2.2.2.2 h4).2⟩
      · obtain ⟨e1, -, e3⟩ := h2.2.2.2.2.1 (by omega)
        rw [e1, e3]
        exact h1.2.2.2.2.2 (by omega)
    rcases Nat.lt_or_ge st1.cap st'.cap with h4 | h4
    · exact ⟨by have := (h2.2.2.1 h4).1; omega, (h2.2.2.1 h4).2⟩
    · have e : st'.cap = st1.cap := by omega
      rw [e] at h3 ⊢
      exact ⟨by have := (h1.2.2.1 h3).1; omega, (h1.2.2.1 h3).2⟩
  | throw e st1 =>
    rw [hx] at h
    rcases h with ⟨a, h⟩ | ⟨e', h⟩
    · cases h
    · cases h
      exact hm env st _ (.inr ⟨_, hx⟩)
  | fault x =>
    rw [hx] at h
    rcases h with ⟨a, h⟩ | ⟨e', h⟩ <;> cases h

/-- a step that does not change the capacity or allocate -/
theorem Grows.still {m : M α} (h : ∀ env st st', (∃ a, m env st = .ret a st') ∨ (∃ e, m env st = .throw e st') →
    st'.cap = st.cap ∧ st'.tick = st.tick ∧ HeapSame st st') : Grows m := by
  intro env st st' hr
  obtain ⟨h1, h2, h3⟩ := h env st st' hr
  exact ⟨by omega, by omega, fun h => by omega, h3.owned h1 (by omega), h3.moves h1⟩

/-- A step that does not change the capacity or allocate or throw. -/
def Still (m : M α) : Prop := ∀ env st, (∃ a st', m env st = .ret a st' ∧ st'.cap = st.cap ∧ st'.tick = st.tick ∧ HeapSame st st') ∨
  (∃ f, m env st = .fault f) ∨ ∃ e, m env st = .throw e st

theorem Still.grows {m : M α} (h : Still m) : Grows m := by
  refine .still fun env st st' hr => ?_
  rcases h env st with ⟨a, st1, h, h1⟩ | ⟨f, h⟩ | ⟨e, h⟩ <;> rw [h] at hr <;> rcases hr with ⟨_, hr⟩ | ⟨_, hr⟩ <;> cases hr
  · exact h1
  · exact ⟨rfl, rfl, .refl _⟩

theorem Still.pure (a : α) : Still (pure a : M α) := fun _ st => .inl ⟨a, st, rfl, rfl, rfl, .refl _⟩
theorem Still.raise (e : Exc) : Still (M.raise e : M α) := fun _ _ => .inr (.inr ⟨e, rfl⟩)
theorem Still.fault (f : Flt) : Still (fun _ _ => .fault f : M α) := fun _ _ => .inr (.inl ⟨f, rfl⟩)
theorem Still.pt : Still M.pt := fun _ st => .inl ⟨_, st, rfl, rfl, rfl, .refl _⟩
theorem Still.sizeMax : Still M.sizeMax := fun _ st => .inl ⟨_, st, rfl, rfl, rfl, .refl _⟩
theorem Still.isNull : Still M.isNull := fun _ st => .inl ⟨_, st, rfl, rfl, rfl, .refl _⟩
theorem Still.setPt (f : Parts → Parts) : Still (M.setPt f) := fun _ _ => .inl ⟨_, _, rfl, rfl, rfl, rfl, rfl, rfl⟩
theorem Still.put (i : Nat) (s : Str) : Still (M.put i s) := by
  intro env st
  unfold M.put
  split
  · exact .inl ⟨_, _, rfl, rfl, rfl, rfl, rfl, rfl⟩
  · split
    · exact .inr (.inl ⟨_, rfl⟩)
    · rename_i hb
      split
      · exact .inl ⟨_, _, rfl, rfl, rfl, rfl, rfl, by rw [hb]; rfl⟩
      · exact .inr (.inl ⟨_, rfl⟩)
theorem Still.move (a b n : Nat) : Still (M.move a b n) := by
  intro env st
  unfold M.move
  split
  · exact .inl ⟨_, _, rfl, rfl, rfl, rfl, rfl, rfl⟩
  · split
    · exact .inr (.inl ⟨_, rfl⟩)
    · rename_i hb
      split
      · exact .inl ⟨_, _, rfl, rfl, rfl, rfl, rfl, by rw [hb]; rfl⟩
      · exact .inr (.inl ⟨_, rfl⟩)

/-- A step that only reads. -/
def Reads (m : M α) : Prop := ∀ env st, (∃ a, m env st = .ret a st) ∨ (∃ f, m env st = .fault f) ∨ ∃ e, m env st = .throw e st

theorem Reads.still {m : M α} (h : Reads m) : Still m := by
  intro env st
  rcases h env st with ⟨a, h⟩ | h | h
  · exact .inl ⟨a, st, h, rfl, rfl, .refl _⟩
  · exact .inr (.inl h)
  · exact .inr (.inr h)

theorem Reads.pure (a : α) : Reads (pure a : M α) := fun _ _ => .inl ⟨a, rfl⟩
theorem Reads.raise (e : Exc) : Reads (M.raise e : M α) := fun _ _ => .inr (.inr ⟨e, rfl⟩)
theorem Reads.fault (f : Flt) : Reads (fun _ _ => .fault f : M α) := fun _ _ => .inr (.inl ⟨f, rfl⟩)
theorem Reads.pt : Reads M.pt := fun _ _ => .inl ⟨_, rfl⟩
theorem Reads.sizeMax : Reads M.sizeMax := fun _ _ => .inl ⟨_, rfl⟩
theorem Reads.isNull : Reads M.isNull := fun _ _ => .inl ⟨_, rfl⟩
theorem Reads.ask (f : Obj → R α) : Reads (M.ask f) := by
  intro env st
  unfold M.ask
  split
  · exact .inl ⟨_, rfl⟩
  · exact .inr (.inl ⟨_, rfl⟩)
theorem Reads.assert (c : Obj → R Bool) : Reads (M.assert c) := .ask _
theorem Reads.bind {m : M α} {f : α → M β} (hm : Reads m) (hf : ∀ a, Reads (f a)) : Reads (m >>= f) := by
  intro env st
  rw [run_bind]
  rcases hm env st with ⟨a, h⟩ | ⟨x, h⟩ | ⟨e, h⟩ <;> rw [h]
  · exact hf a env st
  · exact .inr (.inl ⟨x, rfl⟩)
  · exact .inr (.inr ⟨e, rfl⟩)
theorem Reads.require (c : Bool) : Reads (Base.require c) := by
  unfold Base.require; split
  · exact .pure _
  · exact .raise _
theorem Reads.validate (e : PctSet) (s : Str) : Reads (Base.validate e s) := .require _
theorem Reads.parsed (ps : PS) : Reads (Base.parsed ps) := by
  unfold Base.parsed
  split
  · exact .fault _
  · split
    · exact .raise _
    · exact .pure _
theorem Reads.parsedAll (ps : PS) : Reads (Base.parsedAll ps) := by
  unfold Base.parsedAll
  refine .bind (.parsed _) fun _ => ?_
  split
  · exact .pure _
  · exact .raise _
theorem Reads.assertUserinfo : Reads Base.assertUserinfo := by
  unfold Base.assertUserinfo
  exact .bind (.assert _) fun _ => .bind (.assert _) fun _ => .bind (.assert _) fun _ => .assert _

theorem storage_reserve_grow {n : Nat} {st' : St} (h : Storage.reserve n env st = .ret () st') :
    (n ≤ st.cap ∧ st' = st) ∨ (st.cap < n ∧ st.cap < st'.cap ∧ st'.tick = st.tick + 1) := by
  unfold Storage.reserve at h
  by_cases hn : n ≤ st.cap
  · rw [if_pos hn] at h; cases h; exact .inl ⟨hn, rfl⟩
  · rw [if_neg hn] at h
    right
    dsimp only at h
    unfold Storage.allocate at h
    by_cases ha : Storage.newCap env.maxSize st.cap n + 1 ≤ env.maxSize ∧
        env.alloc st.tick (Storage.newCap env.maxSize st.cap n + 1) = true
    · rw [if_pos ha] at h
      have := newCap_ge ha.1
      dsimp only at h
      cases hb : st.buf with
      | none => rw [hb] at h; dsimp only at h; cases h; dsimp only; omega
      | some b =>
        rw [hb] at h; dsimp only at h
        split at h
        · cases h; dsimp only; omega
        · cases h
    · rw [if_neg ha] at h; cases h

theorem storage_reserve_throw {n : Nat} {e : Exc} {st' : St} (h : Storage.reserve n env st = .throw e st') :
    st'.cap = st.cap ∧ st'.tick = st.tick + 1 ∧ HeapSame st st' := by
  unfold Storage.reserve at h
  split at h
  · cases h
  · dsimp only at h
    unfold Storage.allocate at h
    split at h
    · rename_i hh
      split at hh
      · cases hh
      · cases hh; cases h; exact ⟨rfl, rfl, rfl, rfl, rfl⟩
    · cases h
    · split at h
      · cases h
      · split at h <;> cases h

theorem storage_resize_grow {n : Nat} {st' : St} (h : Storage.resize n env st = .ret () st') :
    st'.pt = st.pt ∧
    ((n ≤ st.cap ∧ st'.cap = st.cap ∧ st'.tick = st.tick ∧ ((st.buf = none ∧ st' = st) ∨
      ∃ b, st.buf = some b ∧ n < b.length ∧ st'.buf = some (b.set n (some 0)))) ∨
    (st.cap < n ∧ st.cap < st'.cap ∧ st'.tick = st.tick + 1)) := by
  unfold Storage.resize at h
  cases hr : Storage.reserve n env st with
  | throw e st1 => rw [hr] at h; cases h
  | fault f => rw [hr] at h; cases h
  | ret u st1 =>
    rw [hr] at h
    dsimp only at h
    have hpt : st1.pt = st.pt := by
      unfold Storage.reserve at hr
      split at hr
      · cases hr; rfl
      · dsimp only at hr
        unfold Storage.allocate at hr
        split at hr <;> try (cases hr; done)
        rename_i hh
        split at hh
        · cases hh
          split at hr
          · cases hr; rfl
          · split at hr
            · cases hr; rfl
            · cases hr
        · cases hh
    rcases storage_reserve_grow hr with ⟨h1, rfl⟩ | h1
    · cases hb : st1.buf with
      | none => rw [hb] at h; cases h; exact ⟨rfl, .inl ⟨h1, rfl, rfl, .inl ⟨rfl, rfl⟩⟩⟩
      | some b =>
        rw [hb] at h; dsimp only at h
        split at h
        · rename_i hn; cases h; exact ⟨rfl, .inl ⟨h1, rfl, rfl, .inr ⟨b, rfl, hn, rfl⟩⟩⟩
        · cases h
    · cases hb : st1.buf with
      | none => rw [hb] at h; cases h; exact ⟨hpt, .inr h1⟩
      | some b =>
        rw [hb] at h; dsimp only at h
        split at h
        · cases h; exact ⟨hpt, .inr h1⟩
        · cases h

theorem blocks_append (l : List (Nat × Nat)) (a b : List Event) : blocks l (a ++ b) = (blocks l a).bind fun l => blocks l b := by
  induction a generalizing l with
  | nil => rfl
  | cons x a ih => cases x <;> simp only [List.cons_append, blocks] <;> split <;> first | rfl | exact ih _

theorem reserve_owned {n : Nat} {st' : St} (h : Storage.reserve n env st = .ret () st') (ho : Owned st) : Owned st' := by
  unfold Storage.reserve at h
  by_cases hn : n ≤ st.cap
  · rw [if_pos hn] at h; cases h; exact ho
  · rw [if_neg hn] at h
    dsimp only at h
    unfold Storage.allocate at h
    by_cases ha : Storage.newCap env.maxSize st.cap n + 1 ≤ env.maxSize ∧
        env.alloc st.tick (Storage.newCap env.maxSize st.cap n + 1) = true
    · rw [if_pos ha] at h
      dsimp only at h
      obtain ⟨o1, o2⟩ := ho
      cases hb : st.buf with
      | none =>
        rw [hb] at h o1; dsimp only at h o1; cases h
        refine ⟨?_, fun _ => Nat.lt_succ_self _⟩
        dsimp only
        rw [blocks_append, o1]
        rfl
      | some b =>
        rw [hb] at h o1 o2; dsimp only at h o1
        have hlt := o2 (by simp)
        split at h
        · cases h
          refine ⟨?_, fun _ => Nat.lt_succ_self _⟩
          dsimp only
          rw [blocks_append, blocks_append, o1]
          have h1 : ¬ st.tick ∈ [(st.addr, st.cap + 1)].map (·.1) := by
            simp only [List.map_cons, List.map_nil, List.mem_singleton]; omega
          have h2 : ((st.tick, Storage.newCap env.maxSize st.cap n + 1) == (st.addr, st.cap + 1)) = false := by
            rw [beq_eq_false_iff_ne]; intro h; have := congrArg Prod.fst h; dsimp only at this; omega
          simp only [Option.bind_some, blocks, if_neg h1]
          rw [if_pos (by simp), List.erase_cons, h2]
          simp
        · cases h
    · rw [if_neg ha] at h; cases h

theorem resize_owned {n : Nat} {st' : St} (h : Storage.resize n env st = .ret () st') (ho : Owned st) : Owned st' := by
  unfold Storage.resize at h
  cases hr : Storage.reserve n env st with
  | throw e st1 => rw [hr] at h; cases h
  | fault f => rw [hr] at h; cases h
  | ret u st1 =>
    have h1 := reserve_owned hr ho
    rw [hr] at h
    dsimp only at h
    cases hb : st1.buf with
    | none => rw [hb] at h; cases h; exact h1
    | some b =>
      rw [hb] at h; dsimp only at h
      split at h
      · cases h
        exact HeapSame.owned (st := st1) ⟨rfl, rfl, by rw [hb]; rfl⟩ rfl (Nat.le_refl _) h1
      · cases h

theorem reserve_moves {n : Nat} {st' : St} (h : Storage.reserve n env st = .ret () st') : Moves st st' := by
  have hg := storage_reserve_grow h
  unfold Storage.reserve at h
  by_cases hn : n ≤ st.cap
  · rw [if_pos hn] at h; cases h; exact (HeapSame.refl _).moves rfl
  · refine ⟨fun hc => absurd hc (by omega), fun _ => ?_⟩
    rw [if_neg hn] at h
    dsimp only at h
    unfold Storage.allocate at h
    split at h <;> try (cases h; done)
    rename_i hh
    split at hh <;> cases hh
    split at h
    · cases h; exact ⟨Nat.le_refl _, rfl⟩
    · split at h
      · cases h; exact ⟨Nat.le_refl _, rfl⟩
      · cases h

theorem resize_moves {n : Nat} {st' : St} (h : Storage.resize n env st = .ret () st') : Moves st st' := by
  unfold Storage.resize at h
  cases hr : Storage.reserve n env st with
  | throw e st1 => rw [hr] at h; cases h
  | fault f => rw [hr] at h; cases h
  | ret u st1 =>
    obtain ⟨h1, h2⟩ := reserve_moves hr
    rw [hr] at h
    dsimp only at h
    cases hb : st1.buf with
    | none => rw [hb] at h; cases h; exact ⟨h1, h2⟩
    | some b =>
      rw [hb] at h; dsimp only at h
      split at h
      · cases h
        exact ⟨fun hc => ⟨(h1 hc).1, (h1 hc).2.1, by rw [← (h1 hc).2.2, hb]; rfl⟩, fun hc => ⟨(h2 hc).1, rfl⟩⟩
      · cases h

theorem reserve_granted {n : Nat} {st' : St} (h : Storage.reserve n env st = .ret () st') : st'.cap = st.cap ∨ Granted env (st'.cap + 1) := by
  unfold Storage.reserve at h
  by_cases hn : n ≤ st.cap
  · rw [if_pos hn] at h; cases h; exact .inl rfl
  · rw [if_neg hn] at h
    right
    dsimp only at h
    unfold Storage.allocate at h
    by_cases ha : Storage.newCap env.maxSize st.cap n + 1 ≤ env.maxSize ∧
        env.alloc st.tick (Storage.newCap env.maxSize st.cap n + 1) = true
    · rw [if_pos ha] at h
      dsimp only at h
      cases hb : st.buf with
      | none => rw [hb] at h; dsimp only at h; cases h; exact ⟨ha.1, _, ha.2⟩
      | some b =>
        rw [hb] at h; dsimp only at h
        split at h
        · cases h; exact ⟨ha.1, _, ha.2⟩
        · cases h
    · rw [if_neg ha] at h; cases h

theorem resize_granted {n : Nat} {st' : St} (h : Storage.resize n env st = .ret () st') : st'.cap = st.cap ∨ Granted env (st'.cap + 1) := by
  unfold Storage.resize at h
  cases hr : Storage.reserve n env st with
  | throw e st1 => rw [hr] at h; cases h
  | fault f => rw [hr] at h; cases h
  | ret u st1 =>
    have h1 := reserve_granted hr
    rw [hr] at h
    dsimp only at h
    cases hb : st1.buf with
    | none => rw [hb] at h; cases h; exact h1
    | some b =>
      rw [hb] at h; dsimp only at h
      split at h
      · cases h; exact h1
      · cases h

theorem Grows.storage_resize (n : Nat) : Grows (Storage.resize n) := by
  intro env st st' h
  rcases h with ⟨a, h⟩ | ⟨e, h⟩
  · have h1 := (storage_resize_grow h).2
    have h2 := resize_granted h
    refine ⟨by omega, by omega, fun h3 => ⟨by omega, h2.resolve_left (by omega)⟩, resize_owned h, resize_moves h⟩
  · unfold Storage.resize at h
    cases hr : Storage.reserve n env st with
    | throw e1 st1 =>
      rw [hr] at h; cases h
      obtain ⟨h1, h2, h3⟩ := storage_reserve_throw hr
      exact ⟨by omega, by omega, fun _ => by omega, h3.owned h1 (by omega), h3.moves h1⟩
    | fault f => rw [hr] at h; cases h
    | ret u st1 =>
      rw [hr] at h
      dsimp only at h
      split at h
      · cases h
      · split at h <;> cases h

/-- decompose a call into steps that grow -/
macro "grows" : tactic => `(tactic| repeat' (with_reducible first
  | assumption
  | exact Grows.storage_resize _
  | exact Still.grows (Still.put _ _)
  | exact Still.grows (Still.setPt _)
  | exact Still.grows (Still.move _ _ _)
  | exact Still.grows (Reads.still (Reads.pure _))
  | exact Still.grows (Reads.still (Reads.raise _))
  | exact Still.grows (Reads.still (Reads.fault _))
  | exact Still.grows (Reads.still Reads.pt)
  | exact Still.grows (Reads.still Reads.sizeMax)
  | exact Still.grows (Reads.still Reads.isNull)
  | exact Still.grows (Reads.still (Reads.ask _))
  | exact Still.grows (Reads.still (Reads.assert _))
  | exact Still.grows (Reads.still (Reads.require _))
  | exact Still.grows (Reads.still (Reads.validate _ _))
  | exact Still.grows (Reads.still (Reads.parsed _))
  | exact Still.grows (Reads.still (Reads.parsedAll _))
  | exact Still.grows (Reads.still Reads.assertUserinfo)
  | refine Grows.bind ?_ fun _ => ?_
  | split
  | dsimp only))

theorem Grows.resize (id n : Nat) : Grows (Base.resize id n) := by unfold Base.resize; grows
theorem Grows.resize2 (a b n : Nat) : Grows (Base.resize2 a b n) := by unfold Base.resize2; grows
theorem Grows.split (id n : Nat) : Grows (Base.split id n) := by unfold Base.split; grows

/-- the same with the composite steps -/
macro "grows2" : tactic => `(tactic| repeat' (with_reducible first
  | assumption
  | exact Grows.resize _ _
  | exact Grows.resize2 _ _ _
  | exact Grows.split _ _
  | exact Grows.storage_resize _
  | exact Still.grows (Still.put _ _)
  | exact Still.grows (Still.setPt _)
  | exact Still.grows (Still.move _ _ _)
  | exact Still.grows (Reads.still (Reads.pure _))
  | exact Still.grows (Reads.still (Reads.raise _))
  | exact Still.grows (Reads.still (Reads.fault _))
  | exact Still.grows (Reads.still Reads.pt)
  | exact Still.grows (Reads.still Reads.sizeMax)
  | exact Still.grows (Reads.still Reads.isNull)
  | exact Still.grows (Reads.still (Reads.ask _))
  | exact Still.grows (Reads.still (Reads.assert _))
  | exact Still.grows (Reads.still (Reads.require _))
  | exact Still.grows (Reads.still (Reads.validate _ _))
  | exact Still.grows (Reads.still (Reads.parsed _))
  | exact Still.grows (Reads.still (Reads.parsedAll _))
  | exact Still.grows (Reads.still Reads.assertUserinfo)
  | refine Grows.bind ?_ fun _ => ?_
  | split
  | dsimp only))

/-! ### the slice -/

/-- The bytes `s` are at `off` in the buffer. -/
def Slice (st : St) (off : Nat) (s : Str) : Prop :=
  ∃ b, st.buf = some b ∧ off + s.length ≤ b.length ∧ (b.drop off).take s.length = s.map some

/-- Since the start of the call, either nothing was allocated and the slice is still there, or the capacity grew. -/
structure Inv (c0 g off : Nat) (s : Str) (st : St) : Prop where
  cap : c0 ≤ st.cap
  gen : g ≤ st.tick
  same : st.tick = g → Slice st off s
  other : st.tick ≠ g → c0 < st.cap

/-- The call by value `m` and the call with the slice `m'` do the same, or the latter is undefined and the former
allocates. -/
def Al (env : Env) (c0 : Nat) (st : St) (m m' : M α) : Prop :=
  m' env st = m env st ∨
  (m' env st = .fault .ub ∧ ∀ st', (∃ a, m env st = .ret a st') ∨ (∃ e, m env st = .throw e st') → c0 < st'.cap)

theorem Al.refl (m : M α) : Al env c0 st m m := .inl rfl

theorem Al.step {r : M α} {f f' : α → M β}
    (h : ∀ a st1, r env st = .ret a st1 → Al env c0 st1 (f a) (f' a)) : Al env c0 st (r >>= f) (r >>= f') := by
  unfold Al
  simp only [run_bind]
  cases hr : r env st with
  | ret a st1 => exact h a st1 hr
  | throw e st1 => exact .inl rfl
  | fault x => exact .inl rfl

theorem Al.read {r : M α} {f f' : α → M β} (hr : Reads r) (h : ∀ a, Al env c0 st (f a) (f' a)) :
    Al env c0 st (r >>= f) (r >>= f') := by
  refine .step fun a st1 h1 => ?_
  rcases hr env st with ⟨b, hb⟩ | ⟨x, hb⟩ | ⟨e, hb⟩ <;> rw [hb] at h1 <;> cases h1
  exact h _

theorem Al.pt {f f' : Parts → M β} (h : Al env c0 st (f st.pt) (f' st.pt)) : Al env c0 st (M.pt >>= f) (M.pt >>= f') :=
  .step fun a st1 h1 => by cases h1; exact h

theorem Al.auth {f f' : Bool → M β} (h : Al env c0 st (f (has_authority (st.obj env.dbg))) (f' (has_authority (st.obj env.dbg)))) :
    Al env c0 st ((ask fun o => .ok (has_authority o)) >>= f) ((ask fun o => .ok (has_authority o)) >>= f') :=
  .step fun a st1 h1 => by cases h1; exact h

theorem take_prefix {b b' : List Cell} {lo off n : Nat} (h : b'.take lo = b.take lo) (hlo : off + n ≤ lo) :
    (b'.drop off).take n = (b.drop off).take n := by
  have : ∀ x : List Cell, (x.drop off).take n = ((x.take lo).drop off).take n := by
    intro x
    rw [List.drop_take, List.take_take, Nat.min_eq_left (by omega)]
  rw [this b, this b', h]

theorem Slice.write {st' : St} (h : Slice st off s) {i : Nat} {x b : List Cell} (hb : st.buf = some b) (hi : off + s.length ≤ i)
    (hx : i + x.length ≤ b.length) (h' : st'.buf = some (b.take i ++ x ++ b.drop (i + x.length))) : Slice st' off s := by
  obtain ⟨b0, hb0, hl, hs⟩ := h
  rw [hb] at hb0; cases hb0
  refine ⟨_, h', by simp; omega, ?_⟩
  rw [← hs]
  refine take_prefix (lo := i) ?_ hi
  rw [List.append_assoc, List.take_append_of_le_length (by simp; omega), List.take_take, Nat.min_self]

theorem Inv.put {i : Nat} {x : Str} {st1 : St} {u : Unit} (h : Inv c0 g off s st) (hi : off + s.length ≤ i)
    (h1 : M.put i x env st = .ret u st1) : Inv c0 g off s st1 := by
  unfold M.put at h1
  split at h1
  · cases h1; exact h
  · cases hb : st.buf with
    | none => rw [hb] at h1; cases h1
    | some b =>
      rw [hb] at h1; dsimp only at h1
      split at h1
      · rename_i hlen
        cases h1
        exact ⟨h.cap, h.gen, fun ht => (h.same ht).write hb hi (x := x.map some) (by simpa using hlen) (by simp), h.other⟩
      · cases h1

theorem Inv.move {dst src n : Nat} {st1 : St} {u : Unit} (h : Inv c0 g off s st) (hi : off + s.length ≤ dst)
    (h1 : M.move dst src n env st = .ret u st1) : Inv c0 g off s st1 ∧ st1.pt = st.pt := by
  unfold M.move at h1
  split at h1
  · cases h1; exact ⟨h, rfl⟩
  · cases hb : st.buf with
    | none => rw [hb] at h1; cases h1
    | some b =>
      rw [hb] at h1; dsimp only at h1
      split at h1
      · rename_i hlen
        cases h1
        have hl : ((b.drop src).take n).length = n := by simp; omega
        exact ⟨⟨h.cap, h.gen, fun ht => (h.same ht).write hb hi (x := (b.drop src).take n) (by rw [hl]; exact hlen.2)
          (by rw [hl]), h.other⟩, rfl⟩
      · cases h1

theorem Inv.setPt {f : Parts → Parts} {st1 : St} {u : Unit} (h : Inv c0 g off s st) (h1 : M.setPt f env st = .ret u st1) :
    Inv c0 g off s st1 := by
  cases h1; exact ⟨h.cap, h.gen, h.same, h.other⟩

theorem Inv.storage {n : Nat} {st1 : St} {u : Unit} (h : Inv c0 g off s st) (hn : off + s.length ≤ n)
    (h1 : Storage.resize n env st = .ret u st1) : Inv c0 g off s st1 ∧ st1.pt = st.pt := by
  obtain ⟨hp, h1⟩ := storage_resize_grow h1
  refine ⟨?_, hp⟩
  rcases h1 with ⟨-, hc, ht, h2⟩ | ⟨-, hc, ht⟩
  · refine ⟨by rw [hc]; exact h.cap, by rw [ht]; exact h.gen, fun hh => ?_, fun hh => by rw [hc]; exact h.other (by rw [← ht]; exact hh)⟩
    have hs := h.same (by rw [← ht]; exact hh)
    rcases h2 with ⟨-, rfl⟩ | ⟨b, hb, hl, h2⟩
    · exact hs
    · obtain ⟨b0, hb0, hl0, hs0⟩ := hs
      rw [hb] at hb0; cases hb0
      refine ⟨_, h2, by simpa using hl0, ?_⟩
      rw [← hs0]
      refine take_prefix (lo := off + s.length) ?_ (Nat.le_refl _)
      rw [List.take_set, List.set_eq_of_length_le (by simp; omega)]
  · have := h.cap
    have := h.gen
    exact ⟨by omega, by omega, fun hh => by omega, fun _ => by omega⟩

theorem bind_ret {m : M α} {f : α → M β} {b : β} {st' : St} (h : (m >>= f) env st = .ret b st') :
    ∃ a st1, m env st = .ret a st1 ∧ f a env st1 = .ret b st' := by
  rw [run_bind] at h
  cases hm : m env st with
  | ret a st1 => rw [hm] at h; exact ⟨a, st1, rfl, h⟩
  | throw e st1 => rw [hm] at h; cases h
  | fault x => rw [hm] at h; cases h

theorem Inv.resize {id n d : Nat} {st1 : St} (h : Inv c0 g off s st) (hi : off + s.length ≤ st.pt.off id)
    (h1 : st.pt.off id ≤ st.pt.off (id + 1)) (h2 : st.pt.off (id + 1) ≤ st.pt.off id_end)
    (hr : Base.resize id n env st = .ret d st1) : Inv c0 g off s st1 ∧ off + s.length ≤ d := by
  unfold Base.resize at hr
  rw [run_bind, run_pt] at hr
  dsimp only at hr
  unfold Parts.length at hr
  split at hr
  · cases hr; exact ⟨h, hi⟩
  · split at hr
    · obtain ⟨_, sa, ha, hr⟩ := bind_ret hr
      obtain ⟨_, sb, hb, hr⟩ := bind_ret hr
      cases hr
      exact ⟨((h.move (by omega) ha).1).setPt hb, hi⟩
    · rw [run_bind, run_sizeMax] at hr
      dsimp only at hr
      split at hr
      · cases hr
      · obtain ⟨_, sa, ha, hr⟩ := bind_ret hr
        obtain ⟨_, sb, hb, hr⟩ := bind_ret hr
        obtain ⟨_, sc, hc, hr⟩ := bind_ret hr
        cases hr
        exact ⟨(((h.storage (by omega) ha).1.move (by omega) hb).1).setPt hc, hi⟩

theorem Inv.resize2 {a b n d : Nat} {st1 : St} (h : Inv c0 g off s st) (hi : off + s.length ≤ st.pt.off a)
    (h1 : st.pt.off a ≤ st.pt.off b) (h2 : st.pt.off b ≤ st.pt.off id_end)
    (hr : Base.resize2 a b n env st = .ret d st1) : Inv c0 g off s st1 ∧ off + s.length ≤ d := by
  unfold Base.resize2 at hr
  rw [run_bind, run_pt] at hr
  dsimp only at hr
  unfold Parts.length2 at hr
  split at hr
  · cases hr; exact ⟨h, hi⟩
  · split at hr
    · obtain ⟨_, sa, ha, hr⟩ := bind_ret hr
      obtain ⟨_, sb, hb, hr⟩ := bind_ret hr
      cases hr
      exact ⟨((h.move (by omega) ha).1).setPt hb, hi⟩
    · rw [run_bind, run_sizeMax] at hr
      dsimp only at hr
      split at hr
      · cases hr
      · obtain ⟨_, sa, ha, hr⟩ := bind_ret hr
        obtain ⟨_, sb, hb, hr⟩ := bind_ret hr
        obtain ⟨_, sc, hc, hr⟩ := bind_ret hr
        cases hr
        exact ⟨(((h.storage (by omega) ha).1.move (by omega) hb).1).setPt hc, hi⟩

theorem Inv.reads {m : M α} {a : α} {st1 : St} (h : Inv c0 g off s st) (hm : Reads m) (h1 : m env st = .ret a st1) :
    Inv c0 g off s st1 := by
  rcases hm env st with ⟨b, hb⟩ | ⟨x, hb⟩ | ⟨e, hb⟩ <;> rw [hb] at h1 <;> cases h1
  exact h

theorem Inv.split {id n : Nat} {st1 : St} {u : Unit} (h : Inv c0 g off s st) (hr : Base.split id n env st = .ret u st1) :
    Inv c0 g off s st1 := by
  unfold Base.split at hr
  obtain ⟨_, sa, ha, hr⟩ := bind_ret hr
  obtain ⟨_, sb, hb, hr⟩ := bind_ret hr
  exact ((h.reads (.assert _) ha).reads (.assert _) hb).setPt hr

/-! ### steps of a call -/

theorem Al.resize {id n : Nat} {f f' : Nat → M β} (h : Inv c0 g off s st) (hi : off + s.length ≤ st.pt.off id)
    (h1 : st.pt.off id ≤ st.pt.off (id + 1)) (h2 : st.pt.off (id + 1) ≤ st.pt.off id_end)
    (hf : ∀ d st1, Inv c0 g off s st1 → off + s.length ≤ d → Al env c0 st1 (f d) (f' d)) :
    Al env c0 st (Base.resize id n >>= f) (Base.resize id n >>= f') :=
  .step fun d st1 hr => have := h.resize hi h1 h2 hr; hf d st1 this.1 this.2

theorem Al.resize2 {a b n : Nat} {f f' : Nat → M β} (h : Inv c0 g off s st) (hi : off + s.length ≤ st.pt.off a)
    (h1 : st.pt.off a ≤ st.pt.off b) (h2 : st.pt.off b ≤ st.pt.off id_end)
    (hf : ∀ d st1, Inv c0 g off s st1 → off + s.length ≤ d → Al env c0 st1 (f d) (f' d)) :
    Al env c0 st (Base.resize2 a b n >>= f) (Base.resize2 a b n >>= f') :=
  .step fun d st1 hr => have := h.resize2 hi h1 h2 hr; hf d st1 this.1 this.2

theorem Al.put {i : Nat} {x : Str} {f f' : Unit → M β} (h : Inv c0 g off s st) (hi : off + s.length ≤ i)
    (hf : ∀ st1, Inv c0 g off s st1 → Al env c0 st1 (f ()) (f' ())) : Al env c0 st (M.put i x >>= f) (M.put i x >>= f') :=
  .step fun _ _ hr => hf _ (h.put hi hr)

theorem Al.split {id n : Nat} {f f' : Unit → M β} (h : Inv c0 g off s st)
    (hf : ∀ st1, Inv c0 g off s st1 → Al env c0 st1 (f ()) (f' ())) : Al env c0 st (Base.split id n >>= f) (Base.split id n >>= f') :=
  .step fun _ _ hr => hf _ (h.split hr)

/-- reading the argument where it is, when it is still there -/
theorem copyArg_eq {i : Nat} (hs : s ≠ []) (h : Slice st off s) (hi : off + s.length ≤ i) :
    copyArg i ⟨s, some (st.tick, off)⟩ env st = M.put i s env st := by
  obtain ⟨b, hb, hl, hsl⟩ := h
  have hn : s.length ≠ 0 := by simpa using hs
  have he : s.isEmpty = false := by simpa using hs
  simp only [copyArg, M.put, hb, if_neg hn, he, ne_eq, not_true_eq_false, if_false, Bool.false_eq_true]
  by_cases hw : i + s.length ≤ b.length
  · rw [if_pos ⟨hl, hw, .inl hi⟩, if_pos hw, hsl]
  · rw [if_neg (fun x => hw x.2.1), if_neg hw]

theorem copyArg_ub {i : Nat} (hs : s ≠ []) (h : st.tick ≠ g) : copyArg i ⟨s, some (g, off)⟩ env st = .fault .ub := by
  have hn : s.length ≠ 0 := by simpa using hs
  simp only [copyArg, if_neg hn, ne_eq, h, not_false_eq_true, if_true]

/-- what remains to be said once the argument was copied -/
theorem Al.used {m m' : M Unit} {f : Unit → M β} (h : Inv c0 g off s st) (hm : Grows m) (hf : Grows (f ()))
    (heq : st.tick = g → m' env st = m env st) (hub : st.tick ≠ g → m' env st = .fault .ub) :
    Al env c0 st (m >>= f) (m' >>= f) := by
  by_cases ht : st.tick = g
  · left
    rw [run_bind, run_bind, heq ht]
  · right
    refine ⟨by rw [run_bind, hub ht], fun st' hr => ?_⟩
    have := h.other ht
    have := (hm.bind (f := f) fun _ => hf) env st st' hr
    omega

theorem Al.copy {i : Nat} {f : Unit → M β} (hs : s ≠ []) (h : Inv c0 g off s st) (hi : off + s.length ≤ i) (hf : Grows (f ())) :
    Al env c0 st (M.put i s >>= f) (copyArg i ⟨s, some (g, off)⟩ >>= f) :=
  .used h (Still.put _ _).grows hf (fun ht => by subst ht; exact copyArg_eq hs (h.same rfl) hi) fun ht => copyArg_ub hs ht

theorem put_append (i : Nat) (x y : Str) (hx : x ≠ []) :
    M.put i (x ++ y) env st = (M.put i x >>= fun _ => M.put (i + x.length) y) env st := by
  have hxe : x.isEmpty = false := by simpa using hx
  have hxy : (x ++ y).isEmpty = false := by simp [hx]
  rw [run_bind]
  unfold M.put
  simp only [hxe, hxy, Bool.false_eq_true, if_false]
  cases hb : st.buf with
  | none => rfl
  | some b =>
    dsimp only
    by_cases h1 : i + x.length ≤ b.length
    · rw [if_pos h1]
      dsimp only
      by_cases hy : y = []
      · subst hy
        simp [h1]
      · have hye : y.isEmpty = false := by simpa using hy
        have hl : (List.take i b ++ List.map some x ++ List.drop (i + x.length) b).length = b.length := by
          simp; omega
        simp only [hye, Bool.false_eq_true, if_false]
        by_cases h2 : i + (x ++ y).length ≤ b.length
        · have h2' : i + x.length + y.length ≤ b.length := by simp at h2; omega
          rw [if_pos h2, if_pos (by rw [hl]; exact h2')]
          have ht : (List.take i b ++ List.map some x ++ List.drop (i + x.length) b).take (i + x.length) = List.take i b ++ List.map some x := by
            rw [List.take_append_of_le_length (by simp; omega), List.take_of_length_le (by simp; omega)]
          have hd : (List.take i b ++ List.map some x ++ List.drop (i + x.length) b).drop (i + x.length + y.length) =
              b.drop (i + (x ++ y).length) := by
            rw [List.drop_append, List.drop_eq_nil_of_le (by simp; omega)]
            simp only [List.length_append, List.length_take, List.length_map, List.nil_append, List.drop_drop]
            congr 1
            rw [Nat.min_eq_left (by omega)]
            omega
          simp only [ht, hd, List.map_append]
          simp only [List.append_assoc]
        · have h2' : ¬ i + x.length + y.length ≤ b.length := by simp at h2; omega
          rw [if_neg h2, if_neg (by rw [hl]; exact h2')]
    · rw [if_neg h1, if_neg (by simp; omega)]

theorem encode_cons (e : PctSet) (c : Byte) (t : Str) : e.encode (c :: t) = e.encode [c] ++ e.encode t := by
  simp only [PctSet.encode]
  split <;> simp

theorem encode_ne (e : PctSet) (c : Byte) : e.encode [c] ≠ [] := by
  simp only [PctSet.encode]
  split <;> simp [encodeChar]

theorem encodeLoop_eq (e : PctSet) : ∀ (s : Str) (off i : Nat) (st : St), Slice st off s → off + s.length ≤ i →
    encodeLoop e off i s.length env st = M.put i (e.encode s) env st
  | [], off, i, st, h, hi => by simp [encodeLoop, PctSet.encode, M.put]
  | c :: t, off, i, st, h, hi => by
    obtain ⟨b, hb, hl, hs⟩ := h
    have hl' : off < b.length := by simp at hl; omega
    have hc : b[off]? = some (some c) := by
      have := congrArg (·[0]?) hs
      simpa [List.getElem?_take, List.getElem?_drop] using this
    have hbyte : (st.obj env.dbg).byte off = .ok c := by
      unfold Obj.byte St.obj
      simp [hb, hc]
    rw [encode_cons, put_append _ _ _ (encode_ne e c)]
    show encodeLoop e off i (t.length + 1) env st = _
    unfold encodeLoop
    rw [run_bind, run_ask (f := fun o => o.byte off) hbyte]
    dsimp only
    rw [run_bind, run_bind]
    cases hp : M.put i (e.encode [c]) env st with
    | throw e1 st1 => rfl
    | fault x => rfl
    | ret u st1 =>
      dsimp only
      have hsl : Slice st (off + 1) t := by
        refine ⟨b, hb, by simp at hl; omega, ?_⟩
        have := congrArg (List.drop 1) hs
        simpa [List.drop_take, List.drop_drop] using this
      have hin : Inv 0 st.tick (off + 1) t st := ⟨Nat.zero_le _, Nat.le_refl _, fun _ => hsl, fun h => absurd rfl h⟩
      have hlen : off + 1 + t.length ≤ i := by simp at hi; omega
      have hin1 := hin.put hlen hp
      have htick : st1.tick = st.tick := by
        rcases Still.put i (e.encode [c]) env st with ⟨a, s2, h2, h3⟩ | ⟨f, h2⟩ | ⟨x, h2⟩ <;> rw [hp] at h2 <;> cases h2
        exact h3.2.1
      exact encodeLoop_eq e t (off + 1) _ st1 (hin1.same htick) (by omega)

theorem Al.encode {i : Nat} {e : PctSet} {f : Unit → M β} (hs : s ≠ []) (h : Inv c0 g off s st) (hi : off + s.length ≤ i) (hf : Grows (f ())) :
    Al env c0 st (M.put i (e.encode s) >>= f) (encodeArg e i ⟨s, some (g, off)⟩ >>= f) := by
  have hn : s.length ≠ 0 := by simpa using hs
  refine .used h (Still.put _ _).grows hf (fun ht => ?_) fun ht => ?_
  · subst ht
    simp only [encodeArg, if_neg hn, ne_eq, not_true_eq_false, if_false]
    exact encodeLoop_eq e s off i st (h.same rfl) hi
  · simp only [encodeArg, if_neg hn, ne_eq, ht, not_false_eq_true, if_true]

theorem bind_pure' (m : M Unit) : (m >>= fun _ => pure ()) = m := by
  funext env st
  rw [run_bind]
  cases m env st <;> rfl

theorem Al.copyEnd {i : Nat} (hs : s ≠ []) (h : Inv c0 g off s st) (hi : off + s.length ≤ i) :
    Al env c0 st (M.put i s) (copyArg i ⟨s, some (g, off)⟩) := by
  have := Al.copy (env := env) (f := fun _ => (pure () : M Unit)) hs h hi (Reads.pure _).still.grows
  rwa [bind_pure', bind_pure'] at this

theorem Al.encodeEnd {i : Nat} {e : PctSet} (hs : s ≠ []) (h : Inv c0 g off s st) (hi : off + s.length ≤ i) :
    Al env c0 st (M.put i (e.encode s)) (encodeArg e i ⟨s, some (g, off)⟩) := by
  have := Al.encode (env := env) (e := e) (f := fun _ => (pure () : M Unit)) hs h hi (Reads.pure _).still.grows
  rwa [bind_pure', bind_pure'] at this

/-! ### the calls -/

/-- The offsets do not decrease. -/
def Ordered (pt : Parts) : Prop := ∀ i, i < 8 → pt.off i ≤ pt.off (i + 1)

theorem Ordered.all {pt : Parts} (h : Ordered pt) : pt.off 0 ≤ pt.off 1 ∧ pt.off 1 ≤ pt.off 2 ∧ pt.off 2 ≤ pt.off 3 ∧ pt.off 3 ≤ pt.off 4 ∧
    pt.off 4 ≤ pt.off 5 ∧ pt.off 5 ≤ pt.off 6 ∧ pt.off 6 ≤ pt.off 7 ∧ pt.off 7 ≤ pt.off 8 :=
  ⟨h 0 (by omega), h 1 (by omega), h 2 (by omega), h 3 (by omega), h 4 (by omega), h 5 (by omega), h 6 (by omega), h 7 (by omega)⟩

theorem auth_false {dbg : Bool} (h : (!has_authority (st.obj dbg)) = true) : st.pt.off 5 - st.pt.off 1 = 0 := by
  simpa [has_authority, St.obj, Parts.length2] using h

/-- part identifiers as numbers -/
macro "ids" : tactic => `(tactic| simp only [id_scheme, id_user, id_password, id_host, id_port, id_path, id_query, id_frag, id_end, Nat.reduceAdd,
  Parts.length, ne_eq, Decidable.not_not] at *)

/-- walk through a call and its counterpart -/
macro "al" h:ident hs:ident ho:ident : tactic => `(tactic| (
  have hall := Ordered.all $ho
  repeat' first
  | (with_reducible exact Al.refl _)
  | (with_reducible refine Al.pt ?_)
  | (with_reducible refine Al.auth ?_)
  | (with_reducible refine Al.read (Reads.require _) fun _ => ?_)
  | (with_reducible refine Al.read (Reads.validate _ _) fun _ => ?_)
  | (with_reducible refine Al.read (Reads.parsedAll _) fun _ => ?_)
  | (with_reducible refine Al.read (Reads.parsed _) fun _ => ?_)
  | (with_reducible refine Al.read (Reads.assert _) fun _ => ?_)
  | (with_reducible refine Al.resize $h (by first | assumption | (ids; omega) | (have := auth_false (by assumption); ids; omega)) (by first | assumption | (ids; omega) | (have := auth_false (by assumption); ids; omega)) (by first | assumption | (ids; omega) | (have := auth_false (by assumption); ids; omega)) fun _ _ $h _ => ?_)
  | (with_reducible refine Al.resize2 $h (by first | assumption | (ids; omega) | (have := auth_false (by assumption); ids; omega)) (by first | assumption | (ids; omega) | (have := auth_false (by assumption); ids; omega)) (by first | assumption | (ids; omega) | (have := auth_false (by assumption); ids; omega)) fun _ _ $h _ => ?_)
  | (with_reducible refine Al.put $h (by omega) fun _ $h => ?_)
  | (with_reducible refine Al.split $h fun _ $h => ?_)
  | (with_reducible refine Al.copyEnd $hs $h (by omega))
  | (with_reducible refine Al.encodeEnd $hs $h (by omega))
  | (with_reducible refine Al.copy $hs $h (by omega) ?_; grows2)
  | (with_reducible refine Al.encode $hs $h (by omega) ?_; grows2)
  | split
  | dsimp only))

theorem al_setEncoded {id : Nat} {d : Byte} {e : PctSet} (hid : id = 6 ∨ id = 7) (h : Inv c0 g off s st) (ho : Ordered st.pt)
    (hi : off + s.length ≤ st.pt.off id) : Al env c0 st (Base.setEncoded id d e s) (setEncoded id d e ⟨s, some (g, off)⟩) := by
  unfold Base.setEncoded setEncoded
  dsimp only
  by_cases hs : s = []
  · subst hs; exact .refl _
  rcases hid with rfl | rfl
  · al h hs ho
  · al h hs ho

theorem al_setPlain {id : Nat} {d : Byte} {e : PctSet} (hid : id = 6 ∨ id = 7) (h : Inv c0 g off s st) (ho : Ordered st.pt)
    (hi : off + s.length ≤ st.pt.off id) : Al env c0 st (Base.setPlain id d e s) (setPlain id d e ⟨s, some (g, off)⟩) := by
  unfold Base.setPlain setPlain
  dsimp only
  by_cases hs : s = []
  · subst hs; exact .refl _
  rcases hid with rfl | rfl
  · al h hs ho
  · al h hs ho

theorem al_set_scheme (h : Inv c0 g off s st) (ho : Ordered st.pt) (hi : off + s.length ≤ st.pt.off 0) :
    Al env c0 st (Base.set_scheme s) (set_scheme ⟨s, some (g, off)⟩) := by
  unfold Base.set_scheme set_scheme
  dsimp only
  by_cases hs : s = []
  · subst hs; exact .refl _
  al h hs ho

theorem al_set_encoded_path (h : Inv c0 g off s st) (ho : Ordered st.pt) (hi : off + s.length ≤ st.pt.off 5) :
    Al env c0 st (Base.set_encoded_path s) (set_encoded_path ⟨s, some (g, off)⟩) := by
  unfold Base.set_encoded_path set_encoded_path
  dsimp only
  by_cases hs : s = []
  · subst hs; exact .refl _
  al h hs ho

theorem al_set_encoded_authority (h : Inv c0 g off s st) (ho : Ordered st.pt) (hi : off + s.length ≤ st.pt.off 1) :
    Al env c0 st (Base.set_encoded_authority s) (set_encoded_authority ⟨s, some (g, off)⟩) := by
  unfold Base.set_encoded_authority set_encoded_authority
  dsimp only
  by_cases hs : s = []
  · subst hs; exact .refl _
  al h hs ho

theorem al_set_encoded_userinfo (h : Inv c0 g off s st) (ho : Ordered st.pt) (hi : off + s.length ≤ st.pt.off 1) :
    Al env c0 st (Base.set_encoded_userinfo s) (set_encoded_userinfo ⟨s, some (g, off)⟩) := by
  unfold Base.set_encoded_userinfo set_encoded_userinfo
  dsimp only
  by_cases hs : s = []
  · subst hs; exact .refl _
  al h hs ho

theorem al_set_user (h : Inv c0 g off s st) (ho : Ordered st.pt) (hi : off + s.length ≤ st.pt.off 1) :
    Al env c0 st (Base.set_user s) (set_user ⟨s, some (g, off)⟩) := by
  unfold Base.set_user set_user
  dsimp only
  by_cases hs : s = []
  · subst hs; exact .refl _
  al h hs ho

theorem al_set_encoded_user (h : Inv c0 g off s st) (ho : Ordered st.pt) (hi : off + s.length ≤ st.pt.off 1) :
    Al env c0 st (Base.set_encoded_user s) (set_encoded_user ⟨s, some (g, off)⟩) := by
  unfold Base.set_encoded_user set_encoded_user
  dsimp only
  by_cases hs : s = []
  · subst hs; exact al_set_user h ho hi
  al h hs ho
  exact al_set_user h ho hi

theorem al_set_password (h : Inv c0 g off s st) (ho : Ordered st.pt) (hi : off + s.length ≤ st.pt.off 2) :
    Al env c0 st (Base.set_password s) (set_password ⟨s, some (g, off)⟩) := by
  unfold Base.set_password set_password
  dsimp only
  by_cases hs : s = []
  · subst hs; exact .refl _
  al h hs ho

theorem al_set_encoded_password (h : Inv c0 g off s st) (ho : Ordered st.pt) (hi : off + s.length ≤ st.pt.off 2) :
    Al env c0 st (Base.set_encoded_password s) (set_encoded_password ⟨s, some (g, off)⟩) := by
  unfold Base.set_encoded_password set_encoded_password
  dsimp only
  by_cases hs : s = []
  · subst hs; exact al_set_password h ho hi
  al h hs ho
  exact al_set_password h ho hi

theorem al_set_port (h : Inv c0 g off s st) (ho : Ordered st.pt) (hi : off + s.length ≤ st.pt.off 4) :
    Al env c0 st (Base.set_port s) (set_port ⟨s, some (g, off)⟩) := by
  unfold Base.set_port set_port
  dsimp only
  by_cases hs : s = []
  · subst hs; exact .refl _
  al h hs ho

theorem Inv.drop (h : Inv c0 g off s st) (k : Nat) (hk : k ≤ s.length) : Inv c0 g (off + k) (s.drop k) st := by
  refine ⟨h.cap, h.gen, fun ht => ?_, h.other⟩
  obtain ⟨b, hb, hl, hs⟩ := h.same ht
  refine ⟨b, hb, by simp; omega, ?_⟩
  have := congrArg (List.drop k) hs
  simpa [List.drop_take, List.drop_drop, List.length_drop] using this

theorem Inv.take (h : Inv c0 g off s st) (k : Nat) (hk : k ≤ s.length) : Inv c0 g off (s.take k) st := by
  refine ⟨h.cap, h.gen, fun ht => ?_, h.other⟩
  obtain ⟨b, hb, hl, hs⟩ := h.same ht
  have hlen : (s.take k).length = k := by simp; omega
  refine ⟨b, hb, by rw [hlen]; omega, ?_⟩
  have := congrArg (List.take k) hs
  rw [List.take_take, Nat.min_eq_left hk] at this
  rw [hlen, this, List.map_take]

theorem drop_len (k : Nat) (hk : k ≤ s.length) : off + k + (s.drop k).length = off + s.length := by simp; omega

theorem al_set_userinfo_part (h : Inv c0 g off s st) (ho : Ordered st.pt) (hi : off + s.length ≤ st.pt.off 1) :
    Al env c0 st (Base.set_userinfo_part s) (set_userinfo_part ⟨s, some (g, off)⟩) := by
  unfold Base.set_userinfo_part set_userinfo_part
  dsimp only
  split
  · exact al_set_encoded_userinfo h ho hi
  · refine Al.read (Reads.require _) fun _ => ?_
    exact al_set_encoded_userinfo (h.take (s.length - 1) (by omega)) ho (by simp; omega)

theorem al_set_password_part (h : Inv c0 g off s st) (ho : Ordered st.pt) (hi : off + s.length ≤ st.pt.off 2) :
    Al env c0 st (Base.set_password_part s) (set_password_part ⟨s, some (g, off)⟩) := by
  unfold Base.set_password_part set_password_part
  dsimp only
  split
  · exact al_set_password h ho hi
  · rename_i he
    have h1 : 1 ≤ s.length := by
      cases s with
      | nil => simp at he
      | cons a t => simp
    split
    · rename_i hl
      obtain ⟨c, rfl⟩ := List.length_eq_one_iff.1 hl
      exact .refl _
    · exact al_set_encoded_password (h.drop 1 h1) ho (by rw [drop_len 1 h1]; exact hi)

theorem al_set_port_part (h : Inv c0 g off s st) (ho : Ordered st.pt) (hi : off + s.length ≤ st.pt.off 4) :
    Al env c0 st (Base.set_port_part s) (set_port_part ⟨s, some (g, off)⟩) := by
  unfold Base.set_port_part set_port_part
  dsimp only
  split
  · exact al_set_port h ho hi
  · refine Al.read (Reads.require _) fun _ => ?_
    split
    · exact al_set_port (h.drop 1 (by omega)) ho (by rw [drop_len 1 (by omega)]; exact hi)
    · exact .refl _

theorem al_setPart {id : Nat} {d : Byte} {e : PctSet} (hid : id = 6 ∨ id = 7) (h : Inv c0 g off s st) (ho : Ordered st.pt)
    (hi : off + s.length ≤ st.pt.off id) : Al env c0 st (Base.setPart id d e s) (setPart id d e ⟨s, some (g, off)⟩) := by
  unfold Base.setPart setPart Arg.drop
  dsimp only [Option.map]
  cases s with
  | nil => exact .refl _
  | cons a t =>
    have hd := h.drop 1 (by simp)
    have hl : off + 1 + ((a :: t).drop 1).length ≤ st.pt.off id := by rw [drop_len 1 (by simp)]; exact hi
    by_cases ht : t = []
    · subst ht; exact .refl _
    have hs : (a :: t).drop 1 ≠ [] := ht
    rcases hid with rfl | rfl
    · al hd hs ho
    · al hd hs ho

theorem grows_addHost (s : Str) : Grows (Base.addHost s) := by unfold Base.addHost; grows2

theorem assoc {α β γ : Type} (m : M α) (k : α → M β) (f : β → M γ) : (m >>= k) >>= f = m >>= fun a => k a >>= f := by
  funext env st
  simp only [run_bind]
  cases m env st <;> rfl

theorem ite_bind {α β : Type} (c : Prop) [Decidable c] (a b : M α) (f : α → M β) :
    (if c then a else b) >>= f = if c then a >>= f else b >>= f := by split <;> rfl

theorem al_addHost {f : Unit → M Unit} (hs : s ≠ []) (h : Inv c0 g off s st) (ho : Ordered st.pt) (hi : off + s.length ≤ st.pt.off 1) (hf : Grows (f ())) :
    Al env c0 st (Base.addHost s >>= f) (addHost ⟨s, some (g, off)⟩ >>= f) := by
  unfold Base.addHost addHost
  simp only [assoc]
  al h hs ho

theorem auth_le {dbg : Bool} (ho : Ordered st.pt) (h : (!has_authority (st.obj dbg)) = true) (hi : off + s.length ≤ st.pt.off 3) :
    off + s.length ≤ st.pt.off 1 := by
  have := auth_false h
  have := Ordered.all ho
  omega

theorem al_set_host (h : Inv c0 g off s st) (ho : Ordered st.pt) (hi : off + s.length ≤ st.pt.off 3) :
    Al env c0 st (Base.set_host s) (set_host ⟨s, some (g, off)⟩) := by
  unfold Base.set_host set_host
  dsimp only
  by_cases hs : s = []
  · subst hs; exact .refl _
  have hse : s.isEmpty = false := by simpa using hs
  simp only [assoc, ite_bind, hse, Bool.false_eq_true, if_false]
  have hk : Reads (match (parse_ip_literal (PS.init s)).flt with
      | some f => fun _ _ => .fault f
      | none => pure (parse_plain_hostname s) : M HostType) := by
    split
    · exact .fault _
    · exact .pure _
  refine Al.read hk fun k => ?_
  clear hk
  al h hs ho
  · exact al_addHost hs h ho (auth_le ho (by assumption) hi) (by grows2)

theorem al_set_encoded_host (h : Inv c0 g off s st) (ho : Ordered st.pt) (hi : off + s.length ≤ st.pt.off 3) :
    Al env c0 st (Base.set_encoded_host s) (set_encoded_host ⟨s, some (g, off)⟩) := by
  unfold Base.set_encoded_host set_encoded_host
  dsimp only
  by_cases hs : s = []
  · subst hs; exact al_set_host h ho hi
  have hse : s.isEmpty = false := by simpa using hs
  simp only [assoc, ite_bind, hse, Bool.false_eq_true, if_false]
  al h hs ho
  · exact al_addHost hs h ho (auth_le ho (by assumption) hi) (by grows2)

/-! ### all calls -/

/-- the string argument of a call, empty if there is none -/
def arg : Op → Str
  | .set_encoded_url s | .set_encoded_origin s | .set_scheme s | .set_encoded_authority s | .set_encoded_userinfo s
  | .set_userinfo_part s | .set_user s | .set_encoded_user s | .set_password s | .set_encoded_password s
  | .set_password_part s | .set_host s | .set_encoded_host s | .set_port s | .set_port_part s | .set_encoded_path s
  | .set_query s | .set_encoded_query s | .set_query_part s | .set_fragment s | .set_encoded_fragment s
  | .set_fragment_part s => s
  | .set_port_number _ | .normalize_scheme | .normalize => []

/-- the first part a call changes -/
def first : Op → Nat
  | .set_encoded_url _ | .set_encoded_origin _ | .set_scheme _ | .normalize_scheme | .normalize => 0
  | .set_encoded_authority _ | .set_encoded_userinfo _ | .set_userinfo_part _ | .set_user _ | .set_encoded_user _ => 1
  | .set_password _ | .set_encoded_password _ | .set_password_part _ => 2
  | .set_host _ | .set_encoded_host _ => 3
  | .set_port _ | .set_port_number _ | .set_port_part _ => 4
  | .set_encoded_path _ => 5
  | .set_query _ | .set_encoded_query _ | .set_query_part _ => 6
  | .set_fragment _ | .set_encoded_fragment _ | .set_fragment_part _ => 7

theorem run_al (op : Op) (h : Inv c0 g off (arg op) st) (ho : Ordered st.pt) (h0 : st.pt.off 0 = 0)
    (hi : off + (arg op).length ≤ st.pt.off (first op)) : Al env c0 st (Url.run op) (run op (some (g, off))) := by
  cases op <;> simp only [arg, first] at h hi
  case set_encoded_url s => obtain rfl : s = [] := List.eq_nil_of_length_eq_zero (by omega); exact .refl _
  case set_encoded_origin s => obtain rfl : s = [] := List.eq_nil_of_length_eq_zero (by omega); exact .refl _
  case set_scheme s => exact al_set_scheme h ho hi
  case set_encoded_authority s => exact al_set_encoded_authority h ho hi
  case set_encoded_userinfo s => exact al_set_encoded_userinfo h ho hi
  case set_userinfo_part s => exact al_set_userinfo_part h ho hi
  case set_user s => exact al_set_user h ho hi
  case set_encoded_user s => exact al_set_encoded_user h ho hi
  case set_password s => exact al_set_password h ho hi
  case set_encoded_password s => exact al_set_encoded_password h ho hi
  case set_password_part s => exact al_set_password_part h ho hi
  case set_host s => exact al_set_host h ho hi
  case set_encoded_host s => exact al_set_encoded_host h ho hi
  case set_port s => exact al_set_port h ho hi
  case set_port_number n => exact .refl _
  case set_port_part s => exact al_set_port_part h ho hi
  case set_encoded_path s => exact al_set_encoded_path h ho hi
  case set_query s => exact al_setPlain (.inl rfl) h ho hi
  case set_encoded_query s => exact al_setEncoded (.inl rfl) h ho hi
  case set_query_part s => exact al_setPart (.inl rfl) h ho hi
  case set_fragment s => exact al_setPlain (.inr rfl) h ho hi
  case set_encoded_fragment s => exact al_setEncoded (.inr rfl) h ho hi
  case set_fragment_part s => exact al_setPart (.inr rfl) h ho hi
  case normalize_scheme => exact .refl _
  case normalize => exact .refl _

theorem grows_set_user (s : Str) : Grows (Base.set_user s) := by unfold Base.set_user; grows2
theorem grows_set_password (s : Str) : Grows (Base.set_password s) := by unfold Base.set_password; grows2
theorem grows_set_port (s : Str) : Grows (Base.set_port s) := by unfold Base.set_port; grows2
theorem grows_set_encoded_userinfo (s : Str) : Grows (Base.set_encoded_userinfo s) := by unfold Base.set_encoded_userinfo; grows2
theorem grows_set_encoded_password (s : Str) : Grows (Base.set_encoded_password s) := by
  have := grows_set_password s
  unfold Base.set_encoded_password; grows2
theorem grows_set_host (s : Str) : Grows (Base.set_host s) := by
  have := grows_addHost s
  unfold Base.set_host; grows2
theorem grows_lowerLoop : ∀ n i, Grows (Base.lowerLoop i n)
  | 0, _ => (Still.pure _).grows
  | n + 1, i => by
    have := grows_lowerLoop n (i + 1)
    unfold Base.lowerLoop; grows2
theorem grows_normalize_scheme : Grows Base.normalize_scheme := by
  unfold Base.normalize_scheme
  dsimp only
  refine .bind (Reads.pt.still.grows) fun _ => ?_
  split
  · exact (Still.pure _).grows
  · exact .bind (Reads.assert _).still.grows fun _ => .bind (Reads.pt.still.grows) fun _ => grows_lowerLoop _ _

theorem grows_run (op : Op) : Grows (Url.run op) := by
  cases op <;> unfold Url.run <;> dsimp only
  case set_encoded_url s => unfold Base.set_encoded_url; grows2
  case set_encoded_origin s => unfold Base.set_encoded_origin; grows2
  case set_scheme s => unfold Base.set_scheme; grows2
  case set_encoded_authority s => unfold Base.set_encoded_authority; grows2
  case set_encoded_userinfo s => exact grows_set_encoded_userinfo s
  case set_userinfo_part s =>
    have := grows_set_encoded_userinfo s
    have := grows_set_encoded_userinfo (s.take (s.length - 1))
    unfold Base.set_userinfo_part; grows2
  case set_user s => exact grows_set_user s
  case set_encoded_user s =>
    have := grows_set_user s
    unfold Base.set_encoded_user; grows2
  case set_password s => exact grows_set_password s
  case set_encoded_password s => exact grows_set_encoded_password s
  case set_password_part s =>
    have := grows_set_password s
    have := grows_set_encoded_password (s.drop 1)
    unfold Base.set_password_part; grows2
  case set_host s => exact grows_set_host s
  case set_encoded_host s =>
    have := grows_set_host s
    have := grows_addHost s
    unfold Base.set_encoded_host; grows2
  case set_port s => exact grows_set_port s
  case set_port_number n =>
    unfold Base.set_port_number
    exact .bind (Reads.ask _).still.grows fun s => grows_set_port s
  case set_port_part s =>
    have := grows_set_port s
    have := grows_set_port (s.drop 1)
    unfold Base.set_port_part; grows2
  case set_encoded_path s => unfold Base.set_encoded_path; grows2
  case set_query s => unfold Base.set_query Base.setPlain; grows2
  case set_encoded_query s => unfold Base.set_encoded_query Base.setEncoded; grows2
  case set_query_part s => unfold Base.set_query_part Base.setPart; grows2
  case set_fragment s => unfold Base.set_fragment Base.setPlain; grows2
  case set_encoded_fragment s => unfold Base.set_encoded_fragment Base.setEncoded; grows2
  case set_fragment_part s => unfold Base.set_fragment_part Base.setPart; grows2
  case normalize_scheme => exact grows_normalize_scheme
  case normalize => exact grows_normalize_scheme

/-! ### a call that copies its argument after an allocation -/

/-- nothing is allocated if the step returns -/
def Keeps (m : M α) : Prop := ∀ env st a st', m env st = .ret a st' → st'.cap = st.cap

theorem Still.keeps {m : M α} (h : Still m) : Keeps m := by
  intro env st a st' hr
  rcases h env st with ⟨_, _, h, h1⟩ | ⟨f, h⟩ | ⟨e, h⟩ <;> rw [h] at hr <;> cases hr
  exact h1.1

theorem Keeps.bind {m : M α} {f : α → M β} (hm : Keeps m) (hf : ∀ a, Keeps (f a)) : Keeps (m >>= f) := by
  intro env st b st' h
  obtain ⟨a, st1, h1, h2⟩ := bind_ret h
  rw [hf a env st1 b st' h2, hm env st a st1 h1]

theorem Keeps.split (id n : Nat) : Keeps (Base.split id n) :=
  .bind (Reads.assert _).still.keeps fun _ => .bind (Reads.assert _).still.keeps fun _ => (Still.setPt _).keeps

/-- The capacity has not grown unless there was an allocation. -/
structure InvA (c0 g : Nat) (st : St) : Prop where
  gen : g ≤ st.tick
  same : st.tick = g → st.cap ≤ c0

/-- If the call by value `m` enlarges the capacity, the call with the slice `m'` is undefined. -/
def AlA (env : Env) (c0 : Nat) (st : St) (m m' : M α) : Prop :=
  ∀ a st', m env st = .ret a st' → c0 < st'.cap → m' env st = .fault .ub

theorem AlA.step {r : M α} {f f' : α → M β} (h : InvA c0 g st) (hr : Grows r)
    (hf : ∀ a st1, InvA c0 g st1 → AlA env c0 st1 (f a) (f' a)) : AlA env c0 st (r >>= f) (r >>= f') := by
  intro b st' hb hc
  obtain ⟨a, st1, h1, h2⟩ := bind_ret hb
  rw [run_bind, h1]
  have hg := hr env st st1 (.inl ⟨a, h1⟩)
  have := h.gen
  refine hf a st1 ⟨by omega, fun ht => ?_⟩ b st' h2 hc
  have := h.same (by omega)
  omega

theorem AlA.used {m : M Unit} {m' : M Unit} {f f' : Unit → M β} (h : InvA c0 g st) (hm : Keeps m) (hf : Keeps (f ()))
    (hub : st.tick ≠ g → m' env st = .fault .ub) : AlA env c0 st (m >>= f) (m' >>= f') := by
  intro b st' hb hc
  by_cases ht : st.tick = g
  · have := (hm.bind fun _ => hf) env st b st' hb
    have := h.same ht
    omega
  · rw [run_bind, hub ht]

theorem encodeArg_ub {i : Nat} {e : PctSet} (hs : s ≠ []) (ht : st.tick ≠ g) :
    encodeArg e i ⟨s, some (g, off)⟩ env st = .fault .ub := by
  have hn : s.length ≠ 0 := by simpa using hs
  simp only [encodeArg, if_neg hn, ne_eq, ht, not_false_eq_true, if_true]

theorem AlA.copy {i : Nat} {x : Str} {f f' : Unit → M β} (hs : s ≠ []) (h : InvA c0 g st) (hf : Keeps (f ())) :
    AlA env c0 st (M.put i x >>= f) (copyArg i ⟨s, some (g, off)⟩ >>= f') :=
  .used h (Still.put _ _).keeps hf fun ht => copyArg_ub hs ht

theorem AlA.encode {i : Nat} {x : Str} {e : PctSet} {f f' : Unit → M β} (hs : s ≠ []) (h : InvA c0 g st) (hf : Keeps (f ())) :
    AlA env c0 st (M.put i x >>= f) (encodeArg e i ⟨s, some (g, off)⟩ >>= f') :=
  .used h (Still.put _ _).keeps hf fun ht => encodeArg_ub hs ht

theorem AlA.copyEnd {i : Nat} {x : Str} (hs : s ≠ []) (h : InvA c0 g st) :
    AlA env c0 st (M.put i x) (copyArg i ⟨s, some (g, off)⟩) := by
  have := AlA.copy (env := env) (i := i) (x := x) (off := off) (f := fun _ => (pure () : M Unit))
    (f' := fun _ => (pure () : M Unit)) hs h (Still.pure _).keeps
  rwa [bind_pure', bind_pure'] at this

theorem AlA.encodeEnd {i : Nat} {x : Str} {e : PctSet} (hs : s ≠ []) (h : InvA c0 g st) :
    AlA env c0 st (M.put i x) (encodeArg e i ⟨s, some (g, off)⟩) := by
  have := AlA.encode (env := env) (i := i) (x := x) (e := e) (off := off) (f := fun _ => (pure () : M Unit))
    (f' := fun _ => (pure () : M Unit)) hs h (Still.pure _).keeps
  rwa [bind_pure', bind_pure'] at this

/-- the steps after the copy -/
macro "keeps" : tactic => `(tactic| repeat' (with_reducible first
  | exact Still.keeps (Still.put _ _)
  | exact Still.keeps (Still.setPt _)
  | exact Still.keeps (Still.pure _)
  | exact Still.keeps (Reads.still (Reads.assert _))
  | exact Keeps.split _ _
  | refine Keeps.bind ?_ fun _ => ?_
  | dsimp only))

/-- walk to the copy -/
macro "ala" h:ident hs:ident : tactic => `(tactic| repeat' (with_reducible first
  | exact AlA.copyEnd $hs $h
  | exact AlA.encodeEnd $hs $h
  | (refine AlA.copy $hs $h ?_; keeps; done)
  | (refine AlA.encode $hs $h ?_; keeps; done)
  | refine AlA.step $h (by grows2) fun _ _ $h => ?_
  | split
  | dsimp only))

/-- the part of its argument a call copies -/
def copied : Op → Str
  | .set_userinfo_part s => s.dropLast
  | .set_password_part s | .set_port_part s | .set_query_part s | .set_fragment_part s => s.drop 1
  | op => arg op

theorem isEmpty_false (hs : s ≠ []) : s.isEmpty = false := by simpa using hs

theorem ala_userinfo (hs : s ≠ []) (h : InvA c0 g st) :
    AlA env c0 st (Base.set_encoded_userinfo s) (set_encoded_userinfo ⟨s, some (g, off)⟩) := by
  unfold Base.set_encoded_userinfo set_encoded_userinfo
  simp only [isEmpty_false hs, Bool.false_eq_true, if_false]
  ala h hs

theorem ala_encoded_password (hs : s ≠ []) (h : InvA c0 g st) :
    AlA env c0 st (Base.set_encoded_password s) (set_encoded_password ⟨s, some (g, off)⟩) := by
  unfold Base.set_encoded_password set_encoded_password
  simp only [isEmpty_false hs, Bool.false_eq_true, if_false]
  ala h hs

theorem ala_port (hs : s ≠ []) (h : InvA c0 g st) : AlA env c0 st (Base.set_port s) (set_port ⟨s, some (g, off)⟩) := by
  unfold Base.set_port set_port
  simp only [isEmpty_false hs, Bool.false_eq_true, if_false]
  ala h hs

theorem ala_setPlain {id : Nat} {d : Byte} {e : PctSet} (hs : s ≠ []) (h : InvA c0 g st) :
    AlA env c0 st (Base.setPlain id d e s) (setPlain id d e ⟨s, some (g, off)⟩) := by
  unfold Base.setPlain setPlain
  simp only [isEmpty_false hs, Bool.false_eq_true, if_false]
  ala h hs

theorem ala_setEncoded {id : Nat} {d : Byte} {e : PctSet} (hs : s ≠ []) (h : InvA c0 g st) :
    AlA env c0 st (Base.setEncoded id d e s) (setEncoded id d e ⟨s, some (g, off)⟩) := by
  unfold Base.setEncoded setEncoded
  simp only [isEmpty_false hs, Bool.false_eq_true, if_false]
  ala h hs

theorem drop_ne {k : Nat} (h : s.drop k ≠ []) : s ≠ [] := fun h' => by subst h'; simp at h

theorem ala_setPart {id : Nat} {d : Byte} {e : PctSet} (hs : s.drop 1 ≠ []) (h : InvA c0 g st) :
    AlA env c0 st (Base.setPart id d e s) (setPart id d e ⟨s, some (g, off)⟩) := by
  unfold Base.setPart setPart Arg.drop
  simp only [isEmpty_false (drop_ne hs), Bool.false_eq_true, if_false, Option.map]
  ala h hs

theorem run_ala (op : Op) (hc : copied op ≠ []) (h : InvA c0 g st) : AlA env c0 st (Url.run op) (run op (some (g, off))) := by
  cases op <;> unfold Url.run run <;> dsimp only <;> simp only [copied, arg, ne_eq, not_true_eq_false] at hc
  case set_encoded_url s =>
    unfold Base.set_encoded_url set_encoded_url; simp only [isEmpty_false hc, Bool.false_eq_true, if_false]; ala h hc
  case set_encoded_origin s =>
    unfold Base.set_encoded_origin set_encoded_origin; simp only [isEmpty_false hc, Bool.false_eq_true, if_false]; ala h hc
  case set_scheme s =>
    unfold Base.set_scheme set_scheme; simp only [isEmpty_false hc, Bool.false_eq_true, if_false]; ala h hc
  case set_encoded_authority s =>
    unfold Base.set_encoded_authority set_encoded_authority; simp only [isEmpty_false hc, Bool.false_eq_true, if_false]; ala h hc
  case set_encoded_userinfo s => exact ala_userinfo hc h
  case set_userinfo_part s =>
    have hs : s ≠ [] := fun h => hc (by simp [h])
    unfold Base.set_userinfo_part set_userinfo_part; simp only [isEmpty_false hs, Bool.false_eq_true, if_false]
    refine .step h (by grows2) fun _ _ h => ?_
    rw [List.dropLast_eq_take] at hc
    exact ala_userinfo hc h
  case set_user s =>
    unfold Base.set_user set_user; simp only [isEmpty_false hc, Bool.false_eq_true, if_false]; ala h hc
  case set_encoded_user s =>
    unfold Base.set_encoded_user set_encoded_user; simp only [isEmpty_false hc, Bool.false_eq_true, if_false]; ala h hc
  case set_password s =>
    unfold Base.set_password set_password; simp only [isEmpty_false hc, Bool.false_eq_true, if_false]; ala h hc
  case set_encoded_password s => exact ala_encoded_password hc h
  case set_password_part s =>
    unfold Base.set_password_part set_password_part; simp only [isEmpty_false (drop_ne hc), Bool.false_eq_true, if_false]
    split
    · rename_i h; exact absurd (List.drop_eq_nil_of_le (by omega)) hc
    · exact ala_encoded_password hc h
  case set_host s =>
    unfold Base.set_host set_host Base.addHost addHost
    simp only [isEmpty_false hc, Bool.false_eq_true, if_false, assoc, ite_bind]
    have hk : Reads (match (parse_ip_literal (PS.init s)).flt with
        | some f => fun _ _ => .fault f
        | none => pure (parse_plain_hostname s) : M HostType) := by
      split
      · exact .fault _
      · exact .pure _
    refine .step h hk.still.grows fun k _ h => ?_
    clear hk
    ala h hc
  case set_encoded_host s =>
    unfold Base.set_encoded_host set_encoded_host Base.addHost addHost
    simp only [isEmpty_false hc, Bool.false_eq_true, if_false, assoc, ite_bind]; ala h hc
  case set_port s => exact ala_port hc h
  case set_port_part s =>
    unfold Base.set_port_part set_port_part; simp only [isEmpty_false (drop_ne hc), Bool.false_eq_true, if_false]
    refine .step h (by grows2) fun _ _ h => ?_
    split
    · exact ala_port hc h
    · rename_i h; exact absurd (List.drop_eq_nil_of_le (by omega)) hc
  case set_encoded_path s =>
    unfold Base.set_encoded_path set_encoded_path; simp only [isEmpty_false hc, Bool.false_eq_true, if_false]; ala h hc
  case set_query s => exact ala_setPlain hc h
  case set_encoded_query s => exact ala_setEncoded hc h
  case set_query_part s => exact ala_setPart hc h
  case set_fragment s => exact ala_setPlain hc h
  case set_encoded_fragment s => exact ala_setEncoded hc h
  case set_fragment_part s => exact ala_setPart hc h

theorem arg_nil {own : Option (Nat × Nat)} (op : Op) (h : arg op = []) : run op own = Url.run op := by
  cases op <;> simp only [arg] at h <;> (try subst h) <;> rfl

theorem plen_succ_le {γ : Type} : ∀ (L : List (List γ)) (i : Nat), plen L i ≤ plen L (i + 1)
  | [], _ => by simp
  | x :: L, 0 => by simp
  | x :: L, i + 1 => by rw [plen_cons, plen_cons]; have := plen_succ_le L i; omega

theorem ordered_of {L : List (List Cell)} {t : Cell} (h : Holds env st L t) : Ordered st.pt ∧ st.pt.off 0 = 0 := by
  refine ⟨fun i hi => ?_, ?_⟩
  · rw [h.rep i, h.rep (i + 1)]
    exact plen_succ_le L i
  · rw [h.rep 0]; simp [plen]

theorem mapM_cells : ∀ (l : List Cell) (s : Str), l.mapM id = some s → l = s.map some
  | [], s, h => by simp at h; subst h; rfl
  | none :: l, s, h => by simp [List.mapM_cons] at h
  | some c :: l, s, h => by
    rw [List.mapM_cons] at h
    cases hl : l.mapM id with
    | none => simp [hl] at h
    | some t => simp [hl] at h; subst h; simp [mapM_cells l t hl]

theorem slice_of {dbg : Bool} (hs : s ≠ []) (h : (st.obj dbg).read off s.length = .ok s) : Slice st off s := by
  have hn : s.length ≠ 0 := by simpa using hs
  unfold Obj.read at h
  rw [if_neg hn] at h
  split at h
  · rename_i hl
    split at h
    · rename_i x hx
      cases h
      cases hb : st.buf with
      | none => simp [St.obj, hb] at hl; exact absurd hl.2 hs
      | some b =>
        simp only [St.obj, hb, Option.getD_some] at hl hx
        exact ⟨b, hb, hl, mapM_cells _ _ hx⟩
    · cases h
  · cases h

end Url.Alias
