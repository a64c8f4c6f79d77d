import Verif.Model.Shared
import Verif.Proofs.Fair
import Verif.Props.Growth
import Verif.Props.Pool

/-!
Urls that share a pool: C60.
-/

set_option autoImplicit false

namespace Url.Props
open Url Spec Fair

variable {env env' : Env} {st st' : St}

/-- The iterators of an edit are into the path. -/
def _root_.Url.Act.InPath (st : St) : Act → Prop
  | .call _ => True
  | .edit e => e.InPath st

instance (st : St) (a : Act) : Decidable (a.InPath st) := by
  unfold Act.InPath
  cases a <;> dsimp only <;> infer_instance

theorem fair_act (a : Act) : Fair.Fair a.run := by
  cases a with
  | call op => exact fair_run op
  | edit e => exact .bind (fair_runIt e) fun _ => (Calm.pure _).fair

theorem act_edit_ret {e : ItOp} {u : Unit} (h : (Act.edit e).run env st = .ret u st') : ∃ it, runIt e env st = .ret it st' := by
  obtain ⟨it, s, h1, h⟩ := Alias.bind_ret h
  cases h
  exact ⟨it, h1⟩

theorem act_edit_throw {e : ItOp} {x : Exc} (h : (Act.edit e).run env st = .throw x st') : runIt e env st = .throw x st' := by
  simp only [Act.run] at h
  rw [run_bind] at h
  cases hx : runIt e env st with
  | ret it s => rw [hx] at h; cases h
  | throw e s => rw [hx] at h; cases h; rfl
  | fault f => rw [hx] at h; cases h

theorem act_worked {a : Act} (hw : Worked env st) (hin : a.InPath st)
    (h : a.run env st = .ret () st' ∨ ∃ x, a.run env st = .throw x st') : Worked env st' := by
  cases a with
  | call op => exact .call op hw h
  | edit e =>
    refine .edit e hw hin ?_
    rcases h with h | ⟨x, h⟩
    · exact .inl (act_edit_ret h)
    · exact .inr ⟨x, act_edit_throw h⟩

/-- The number of characters that a call or an edit makes room for: those of its result, with two exceptions. -/
def Act.need (st st' : St) : Act → Nat
  | .call (.set_password_part s) => if s = b!":" ∧ st.pt.length id_user = 0 then size (st'.obj false) + 2 else size (st'.obj false)
  | .call _ => size (st'.obj false)
  | .edit e => needs st st' e

theorem act_room {a : Act} (hw : Worked env st) (hin : a.InPath st) (h : a.run env st = .ret () st') :
    Capacity.Room env st (Act.need st st' a) st' := by
  cases a with
  | call op =>
    have hp := worked_proper hw
    by_cases hop : op = .set_password_part b!":"
    · subst hop
      have ho := (Capacity.Ordered.le hp.ord (i := 1) (j := 2) (by decide) (by decide))
      have hr := Capacity.colon_fit hp h
      have e : st.pt.length id_user = 0 ↔ st.pt.off 1 = st.pt.off 2 := by
        show st.pt.off 2 - st.pt.off 1 = 0 ↔ _
        omega
      simp only [Act.need, true_and, e]
      exact hr
    · have : Act.need st st' (.call op) = size (st'.obj false) := by
        cases op <;> simp only [Act.need]
        rename_i s
        exact if_neg fun h => hop (by rw [h.1])
      rw [this]
      exact Capacity.fit_run hop env st () st' hp h
  | edit e =>
    obtain ⟨it, h⟩ := act_edit_ret h
    exact edit_room hw hin h

theorem act_throw_same {a : Act} {x : Exc} (hw : Worked env st) (hin : a.InPath st) (h : a.run env st = .throw x st') :
    st'.pt = st.pt ∧ st'.buf = st.buf ∧ st'.size = st.size ∧ st'.cap = st.cap ∧ st'.addr = st.addr ∧ st'.log = st.log := by
  cases a with
  | call op =>
    obtain ⟨h1, h2, h3, h4⟩ := C18_strong h
    obtain ⟨h5, h6⟩ := C18_allocation h
    exact ⟨h1, h2, h3, h4, h5, h6⟩
  | edit e =>
    have h := act_edit_throw h
    have h1 : runIt e env.release st = .throw x st' := by
      rcases runIt_sim e env st with ⟨f, h'⟩ | h'
      · rw [h] at h'; cases h'
      · rw [← h', h]
    obtain ⟨S, U, W, H, P, q, f, t, pa, hp⟩ := hw.release.parts rfl
    rcases hp.edit rfl hin with ⟨hv, ho⟩ | ⟨hv, ho⟩
    · rw [h1] at ho
      cases ho
      exact ⟨rfl, rfl, rfl, rfl, rfl, rfl⟩
    · rw [h1] at ho
      obtain ⟨rfl, rfl⟩ := ho
      exact ⟨rfl, rfl, rfl, rfl, rfl, rfl⟩

theorem took_nil {L : List (Nat × Nat)} (h : Took env st L st') (hl : st'.log = st.log) : L = [] := by
  obtain ⟨E, h1, h2⟩ := h.log
  rw [hl] at h1
  have : E = [] := by simpa using h1
  rw [← h2, this]
  rfl

theorem st_ext {a b : St} (h1 : a.pt = b.pt) (h2 : a.buf = b.buf) (h3 : a.size = b.size) (h4 : a.cap = b.cap) (h5 : a.addr = b.addr)
    (h6 : a.log = b.log) (h7 : a.tick = b.tick) : a = b := by
  cases a; cases b
  simp only at *
  subst h1 h2 h3 h4 h5 h6 h7
  rfl

/-- What a call or an edit asks of the allocator, and what becomes of it. -/
inductive Asks (a : Act) (env : Env) (st : St) : Out Unit → Prop
  | quiet {st' : St} : st'.cap = st.cap → st'.tick = st.tick → Alias.HeapSame st st' → (∀ env', Like env env' → a.run env' st = .ret () st') →
      Asks a env st (.ret () st')
  | granted {st' : St} : st'.addr = st.tick → st'.tick = st.tick + 1 → st'.buf.isSome = true → 2 * st.cap ≤ st'.cap → st.cap < st'.cap →
      (∃ E, st'.log = st.log ++ E ∧ allocs E = [(st.tick, st'.cap + 1)]) → Grants env [(st.tick, st'.cap + 1)] →
      (∀ env', Like env env' → Grants env' [(st.tick, st'.cap + 1)] → a.run env' st = .ret () st') → Asks a env st (.ret () st')
  | throws {e : Exc} : (∀ env', Like env env' → a.run env' st = .throw e st) → Asks a env st (.throw e st)
  | refused {n : Nat} : ¬ Grants env [(st.tick, n)] →
      (∀ env', Like env env' → ¬ Grants env' [(st.tick, n)] → a.run env' st = .throw .bad_alloc { st with tick := st.tick + 1 }) →
      Asks a env st (.throw .bad_alloc { st with tick := st.tick + 1 })
  | fault {f : Flt} {L : List (Nat × Nat)} : Grants env L → (∀ env', Like env env' → Grants env' L → a.run env' st = .fault f) →
      Asks a env st (.fault f)

theorem act_asks (a : Act) (hw : Worked env st) (hin : a.InPath st) : Asks a env st (a.run env st) := by
  have hf := fair_act a env st
  cases hx : a.run env st with
  | fault f =>
    rw [hx] at hf
    obtain ⟨L, h1, h2⟩ := hf
    exact .fault h1 h2
  | throw e st' =>
    rw [hx] at hf
    obtain ⟨s1, s2, s3, s4, s5, s6⟩ := act_throw_same hw hin hx
    rcases hf with ⟨L, h1, h2⟩ | ⟨rfl, L, st1, n, h1, rfl, h3, h4⟩
    · obtain rfl := took_nil h1 s6
      have ht := h1.tick
      have : st' = st := st_ext s1 s2 s3 s4 s5 s6 (by simpa using ht)
      subst this
      exact .throws fun env' hl => h2 env' hl (by simp [Grants])
    · obtain rfl := took_nil h1 s6
      have ht := h1.tick
      have : st1 = st := st_ext s1 s2 s3 s4 s5 s6 (by simpa using ht)
      subst this
      exact .refused h3 fun env' hl hg => h4 env' hl (by simp [Grants]) hg
  | ret u st' =>
    rw [hx] at hf
    obtain ⟨L, h1, h2⟩ := hf
    have hr := act_room hw hin hx
    have hL : L.length ≤ 1 := by
      have ht := h1.tick
      rcases hr with ⟨-, -, h⟩ | ⟨-, h, -⟩ <;> omega
    match L, hL with
    | [], _ => exact .quiet (h1.same rfl).1 h1.tick (h1.same rfl).2 fun env' hl => h2 env' hl (by simp [Grants])
    | [x], _ =>
      obtain ⟨a1, a2, a3⟩ := h1.last x rfl
      have hid : x.1 = st.tick := by simpa using h1.ids
      obtain ⟨d1, d2, -⟩ := h1.doubling
      have e : x = (st.tick, st'.cap + 1) := Prod.ext hid a2.symm
      subst e
      dsimp only at d1 d2 a1
      exact .granted a1 h1.tick a3 (by omega) (by omega) h1.log h1.grants h2

/-- C60: a call or an edit asks the allocator once at most, after any calls and edits. -/
theorem C60_once {a : Act} (hw : Worked env st) (hin : a.InPath st) (h : a.run env st = .ret () st' ∨ ∃ x, a.run env st = .throw x st') :
    st'.tick = st.tick ∨ st'.tick = st.tick + 1 := by
  have hk := act_asks a hw hin
  rcases h with h | ⟨x, h⟩ <;> rw [h] at hk
  · cases hk with
    | quiet _ h => exact .inl h
    | granted _ h => exact .inr h
  · cases hk with
    | throws => exact .inl rfl
    | refused => exact .inr rfl

/-! ### Worlds -/

/-- The states of a pool and its urls, from the construction of the pool on. -/
inductive Worlds (dbg : Bool) (base size : Nat) : Sharing → Prop
  | start : Worlds dbg base size (.start base size)
  | step {w w' : Sharing} (s : Step) : Worlds dbg base size w →
      (∀ i a t, s = .act i a → w.urls[i]? = some t → a.InPath t.st) → w.step dbg s = some w' → Worlds dbg base size w'

/-- the number of bytes a url took from its pool -/
def taken (st : St) : Nat := ((allocs st.log).map (·.2)).sum

/-- A url took the blocks in its log, each at least twice as large as the one before, and now has the last one. -/
structure Kept (st : St) : Prop where
  doubling : Doubling 0 (allocs st.log)
  none : allocs st.log = [] → st.cap = 0 ∧ st.buf = none
  last : ∀ x, (allocs st.log).getLast? = some x → st.cap + 1 = x.2 ∧ st.buf.isSome = true

/-- `env'` grants what `env` grants to the first `n` requests. -/
def AgreeOn (n : Nat) (env env' : Env) : Prop := Like env env' ∧ ∀ k < n, ∀ m, env'.alloc k m = env.alloc k m

theorem AgreeOn.grants {n k m : Nat} (h : AgreeOn n env env') (hk : k < n) : Grants env' [(k, m)] ↔ Grants env [(k, m)] := by
  simp [Grants, h.1.maxSize, h.2 k hk m]

theorem AgreeOn.mono {n m : Nat} (h : AgreeOn n env env') (hm : m ≤ n) : AgreeOn m env env' := ⟨h.1, fun k hk => h.2 k (by omega)⟩

/-- A call asks no request but the next, so that no later answer of the allocator plays a role. -/
theorem act_agree {a : Act} (hw : Worked env st) (hin : a.InPath st) (hg : AgreeOn st'.tick env env') :
    (a.run env st = .ret () st' → a.run env' st = .ret () st') ∧ (∀ x, a.run env st = .throw x st' → a.run env' st = .throw x st') := by
  have hk := act_asks a hw hin
  constructor
  · intro h
    rw [h] at hk
    cases hk with
    | quiet _ _ _ h => exact h env' hg.1
    | granted _ ht _ _ _ _ h1 h => exact h env' hg.1 ((hg.grants (by omega)).2 h1)
  · intro x h
    rw [h] at hk
    cases hk with
    | throws h0 => exact h0 env' hg.1
    | refused h1 h0 => exact h0 env' hg.1 (fun h2 => h1 ((hg.grants (by simp)).1 h2))

theorem Worked.agreeOn (hw : Worked env st) (hg : AgreeOn st.tick env env') : Worked env' st := by
  induction hw with
  | empty => exact .empty
  | @call st st' op hw h ih =>
    have hin : (Act.call op).InPath st := trivial
    have hm := C60_once hw hin h
    have h1 := ih (hg.mono (by omega))
    have h2 := act_agree hw hin hg
    refine .call op h1 ?_
    rcases h with h | ⟨x, h⟩
    · exact .inl (h2.1 h)
    · exact .inr ⟨x, h2.2 x h⟩
  | @edit st st' e hw hin h ih =>
    have hin : (Act.edit e).InPath st := hin
    have h' : (Act.edit e).run env st = .ret () st' ∨ ∃ x, (Act.edit e).run env st = .throw x st' := by
      rcases h with ⟨it, h⟩ | ⟨x, h⟩
      · left; simp only [Act.run]; rw [run_bind, h]; rfl
      · right; refine ⟨x, ?_⟩; simp only [Act.run]; rw [run_bind, h]
    have hm := C60_once hw hin h'
    have h1 := ih (hg.mono (by omega))
    have h2 := act_agree hw hin hg
    refine act_worked h1 hin ?_
    rcases h' with h | ⟨x, h⟩
    · exact .inl (h2.1 h)
    · exact .inr ⟨x, h2.2 x h⟩

/-! ### The pool -/

theorem allocate_char {p : Pool} (h : PoolOk p) (n : Nat) :
    p.allocate n 1 = if p.top + n ≤ p.base + p.capacity then some (p.top, { p with top := p.top + n }) else none :=
  C43_request_partial h (u := p.top) ⟨0, by decide, rfl⟩ ⟨Nat.one_dvd _, Nat.le_refl _, fun _ _ h => h⟩ h.high

theorem serve_nil (place : Nat) (p : Pool) {E : List Event} (h : allocs E = []) : serve place p E = (place, p) := by
  induction E with
  | nil => rfl
  | cons x E ih =>
    cases x with
    | alloc i m => cases h
    | free i m => exact ih h

theorem serve_alloc {place : Nat} {p p' : Pool} {k n b : Nat} (hp : p.allocate n 1 = some (b, p')) {E : List Event} :
    serve place p (.alloc k n :: E) = serve b p' E := by
  rw [serve, Pool.grant, hp, Option.getD_some]

theorem serve_one (place : Nat) {p p' : Pool} {k n b : Nat} (hp : p.allocate n 1 = some (b, p')) {E : List Event}
    (h : allocs E = [(k, n)]) : serve place p E = (b, p') := by
  induction E with
  | nil => cases h
  | cons x E ih =>
    cases x with
    | free i m => exact ih h
    | alloc i m =>
      simp only [allocs, List.cons.injEq, Prod.mk.injEq] at h
      obtain ⟨⟨-, rfl⟩, h⟩ := h
      rw [serve_alloc hp]
      exact serve_nil b p' h

/-- A url that shares a pool is a url of some history. -/
def Lives (dbg : Bool) (st : St) : Prop :=
  ∃ env : Env, env.dbg = dbg ∧ env.maxSize = wordSize - 1 ∧ env.sizeMax = wordSize - 1 ∧ Worked env st

/-- The buffers of two urls do not overlap. -/
def Apart (s t : Tenant) : Prop := s.st.buf.isSome = true → t.st.buf.isSome = true →
  s.place + (s.st.cap + 1) ≤ t.place ∨ t.place + (t.st.cap + 1) ≤ s.place

theorem Apart.symm {s t : Tenant} (h : Apart s t) : Apart t s := fun h1 h2 => (h h2 h1).symm

structure Sound (dbg : Bool) (p : Pool) (ts : List Tenant) : Prop where
  ok : PoolOk p
  lives : ∀ t ∈ ts, Lives dbg t.st
  kept : ∀ t ∈ ts, Kept t.st
  inside : ∀ t ∈ ts, t.st.buf.isSome = true → p.base ≤ t.place ∧ t.place + (t.st.cap + 1) ≤ p.top
  apart : ts.Pairwise Apart
  sum : p.top = p.base + (ts.map fun t => taken t.st).sum

theorem Sound.perm {dbg : Bool} {p : Pool} {ts ts' : List Tenant} (h : Sound dbg p ts) (hp : ts.Perm ts') : Sound dbg p ts' where
  ok := h.ok
  lives := fun t ht => h.lives t (hp.mem_iff.2 ht)
  kept := fun t ht => h.kept t (hp.mem_iff.2 ht)
  inside := fun t ht => h.inside t (hp.mem_iff.2 ht)
  apart := (hp.pairwise_iff Apart.symm).1 h.apart
  sum := by rw [h.sum, (hp.map fun t => taken t.st).sum_nat]

/-- The limits of an allocator that does not say. -/
structure Wide (dbg : Bool) (e : Env) : Prop where
  dbg : e.dbg = dbg
  maxSize : e.maxSize = wordSize - 1
  sizeMax : e.sizeMax = wordSize - 1

theorem Wide.like {dbg : Bool} {e e' : Env} (h : Wide dbg e) (h' : Wide dbg e') : Like e e' :=
  ⟨h'.dbg.trans h.dbg.symm, h'.maxSize.trans h.maxSize.symm, h'.sizeMax.trans h.sizeMax.symm⟩

theorem wide_pool (dbg : Bool) (p : Pool) : Wide dbg (poolEnv dbg p) := ⟨rfl, rfl, rfl⟩

/-- an allocator that answers as `e` does to the first `n` requests and then as `f` does -/
def patched (e : Env) (n : Nat) (f : Env) : Env := { e with alloc := fun k m => if k < n then e.alloc k m else f.alloc k m }

theorem Lives.worked {dbg : Bool} (h : Lives dbg st) (f : Env) :
    ∃ e : Env, e.dbg = dbg ∧ e.maxSize = wordSize - 1 ∧ e.sizeMax = wordSize - 1 ∧ Worked e st ∧
      ∀ k m, st.tick ≤ k → e.alloc k m = f.alloc k m := by
  obtain ⟨e, h1, h2, h3, h4⟩ := h
  refine ⟨patched e st.tick f, h1, h2, h3, h4.agreeOn ⟨⟨rfl, rfl, rfl⟩, fun k hk m => if_pos hk⟩, fun k m hk => ?_⟩
  exact if_neg (by omega)

theorem grants_pool {e f : Env} {n : Nat} {L : List (Nat × Nat)} (h2 : Like e f)
    (h : ∀ k m, n ≤ k → e.alloc k m = f.alloc k m) (hk : ∀ x ∈ L, n ≤ x.1) : Grants e L ↔ Grants f L := by
  unfold Grants
  refine forall_congr' fun x => ⟨fun h1 hx => ?_, fun h1 hx => ?_⟩ <;> have h1 := h1 hx <;> rw [h2.maxSize, h _ _ (hk x hx)] at * <;> exact h1

theorem took_ids {L : List (Nat × Nat)} (h : Took env st L st') : ∀ x ∈ L, st.tick ≤ x.1 := by
  intro x hx
  have : x.1 ∈ L.map (·.1) := List.mem_map_of_mem hx
  rw [h.ids, List.mem_range'_1] at this
  exact this.1

/-- The outcome of a call by a url that shares a pool. -/
theorem pool_asks {dbg : Bool} {a : Act} (h : Lives dbg st) {E : Env} (hE : Wide dbg E) (hin : a.InPath st) :
    Asks a E st (a.run E st) ∧
      (∀ st', a.run E st = .ret () st' → Lives dbg st' ∧
        Capacity.Room E st (Act.need st st' a) st') ∧
      (∀ x st', a.run E st = .throw x st' → Lives dbg st') := by
  obtain ⟨e, h1, h2, h3, hw, h4⟩ := h.worked E
  have hl : Like e E := Wide.like ⟨h1, h2, h3⟩ hE
  have hlr : Like E e := ⟨hl.dbg.symm, hl.maxSize.symm, hl.sizeMax.symm⟩
  have hl' : ∀ {env'}, Like E env' → Like e env' := fun h =>
    ⟨h.dbg.trans hl.dbg, h.maxSize.trans hl.maxSize, h.sizeMax.trans hl.sizeMax⟩
  have hg : ∀ {m}, Grants e [(st.tick, m)] ↔ Grants E [(st.tick, m)] := grants_pool hl h4 (by simp)
  have hk := act_asks a hw hin
  have hf := fair_act a E st
  have hret : ∀ {st'}, a.run e st = .ret () st' → Lives dbg st' ∧ Capacity.Room E st (Act.need st st' a) st' := by
    intro st' hx
    refine ⟨⟨e, h1, h2, h3, act_worked hw hin (.inl hx)⟩, ?_⟩
    have := act_room hw hin hx
    unfold Capacity.Room at this ⊢
    rw [hl.maxSize]
    exact this
  have hthr : ∀ {x st'}, a.run e st = .throw x st' → Lives dbg st' := fun hx =>
    ⟨e, h1, h2, h3, act_worked hw hin (.inr ⟨_, hx⟩)⟩
  generalize hx : a.run e st = o at hk
  cases hk with
  | quiet a1 a2 a3 a4 =>
    rw [a4 _ hl]
    exact ⟨.quiet a1 a2 a3 fun env' h => a4 env' (hl' h), fun st' h => by cases h; exact hret hx, fun x st' h => by cases h⟩
  | granted a1 a2 a3 a4 a5 a6 a7 a8 =>
    rw [a8 _ hl (hg.1 a7)]
    exact ⟨.granted a1 a2 a3 a4 a5 a6 (hg.1 a7) fun env' h => a8 env' (hl' h), fun st' h => by cases h; exact hret hx, fun x st' h => by cases h⟩
  | throws a1 =>
    rw [a1 _ hl]
    exact ⟨.throws fun env' h => a1 env' (hl' h), fun st' h => by (cases h), fun x st' h => by cases h; exact hthr hx⟩
  | refused a1 a2 =>
    rw [a2 _ hl fun h => a1 (hg.2 h)]
    exact ⟨.refused (fun h => a1 (hg.2 h)) fun env' h => a2 env' (hl' h), fun st' h => by (cases h), fun x st' h => by cases h; exact hthr hx⟩
  | @fault f L a1 a2 =>
    cases hy : a.run E st with
    | ret u st' =>
      rw [hy] at hf
      obtain ⟨L', b1, b2⟩ := hf
      rw [b2 e hlr ((grants_pool hl h4 (took_ids b1)).2 b1.grants)] at hx
      cases hx
    | throw x st' =>
      rw [hy] at hf
      rcases hf with ⟨L', b1, b2⟩ | ⟨-, L', st1, n, b1, -, b3, b4⟩
      · rw [b2 e hlr ((grants_pool hl h4 (took_ids b1)).2 b1.grants)] at hx
        cases hx
      · rw [b4 e hlr ((grants_pool hl h4 (took_ids b1)).2 b1.grants) fun h => b3 ((grants_pool hl h4 (by
          have := b1.tick
          simp; omega)).1 h)] at hx
        cases hx
    | fault g =>
      rw [hy] at hf
      obtain ⟨L', b1, b2⟩ := hf
      exact ⟨.fault b1 b2, fun st' h => by (cases h), fun x st' h => by (cases h)⟩

theorem Kept.act {a : Act} (h : Kept st) {o : Out Unit} (hk : Asks a env st o) (ho : o = .ret () st' ∨ ∃ x, o = .throw x st') : Kept st' := by
  cases hk with
  | quiet h1 h2 h3 =>
    obtain ho | ⟨x, ho⟩ := ho <;> cases ho
    obtain ⟨h3, h4, h5⟩ := h3
    refine ⟨by rw [h4]; exact h.doubling, ?_, ?_⟩ <;> rw [h4, h1]
    · intro e
      obtain ⟨k1, k2⟩ := h.none e
      refine ⟨k1, ?_⟩
      rw [k2] at h5
      simpa using h5
    · rw [h5]; exact h.last
  | @granted s' h1 h2 h3 h4 h5 h6 =>
    obtain ho | ⟨x, ho⟩ := ho <;> cases ho
    obtain ⟨E, e1, e2⟩ := h6
    have e : allocs st'.log = allocs st.log ++ [(st.tick, st'.cap + 1)] := by rw [e1, allocs_append, e2]
    refine ⟨?_, ?_, ?_⟩ <;> rw [e]
    · refine Doubling.append (c' := st.cap) h.doubling (fun e => (h.none e).1) (fun x hx => (h.last x hx).1) ⟨?_, ?_, trivial⟩ <;>
        dsimp only <;> omega
    · intro h; simp at h
    · intro x hx
      simp at hx
      subst hx
      exact ⟨rfl, h3⟩
  | throws => obtain ho | ⟨x, ho⟩ := ho <;> cases ho; exact h
  | refused => obtain ho | ⟨x, ho⟩ := ho <;> cases ho; exact ⟨h.doubling, h.none, h.last⟩
  | fault => obtain ho | ⟨x, ho⟩ := ho <;> cases ho

theorem since_append {E : List Event} (h : st'.log = st.log ++ E) : st.since st' = E := by
  rw [St.since, h, List.drop_left]

theorem since_same (h : st'.log = st.log) : st.since st' = [] := by
  rw [St.since, h, List.drop_length]

theorem taken_same (h : st'.log = st.log) : taken st' = taken st := by rw [taken, h, taken]

/-- After a call of the first of the urls. -/
theorem Sound.act {dbg : Bool} {p : Pool} {t : Tenant} {ts : List Tenant} (h : Sound dbg p (t :: ts)) {a : Act} (hin : a.InPath t.st)
    (ho : a.run (poolEnv dbg p) t.st = .ret () st' ∨ ∃ x, a.run (poolEnv dbg p) t.st = .throw x st') :
    (serve t.place p (t.st.since st')).2.base = p.base ∧ (serve t.place p (t.st.since st')).2.capacity = p.capacity ∧
    Sound dbg (serve t.place p (t.st.since st')).2 (⟨st', (serve t.place p (t.st.since st')).1⟩ :: ts) := by
  have hlive := h.lives t (by simp)
  obtain ⟨hk, hr1, hr2⟩ := pool_asks hlive (wide_pool dbg p) hin
  have hlive' : Lives dbg st' := by
    rcases ho with ho | ⟨x, ho⟩
    · exact (hr1 st' ho).1
    · exact hr2 x st' ho
  have hkept := (h.kept t (by simp)).act hk ho
  have still : st'.log = t.st.log → st'.cap = t.st.cap → st'.buf.isSome = t.st.buf.isSome →
      (serve t.place p (t.st.since st')).2.base = p.base ∧ (serve t.place p (t.st.since st')).2.capacity = p.capacity ∧
      Sound dbg (serve t.place p (t.st.since st')).2 (⟨st', (serve t.place p (t.st.since st')).1⟩ :: ts) := by
    intro e1 e2 e3
    rw [since_same e1]
    refine ⟨rfl, rfl, h.ok, ?_, ?_, ?_, ?_, ?_⟩
    · simp only [List.forall_mem_cons] ; exact ⟨hlive', fun t ht => h.lives t (by simp [ht])⟩
    · simp only [List.forall_mem_cons] ; exact ⟨hkept, fun t ht => h.kept t (by simp [ht])⟩
    · simp only [List.forall_mem_cons, e2, e3]
      exact ⟨h.inside t (by simp), fun t ht => h.inside t (by simp [ht])⟩
    · rw [List.pairwise_cons]
      refine ⟨fun s hs => ?_, (List.pairwise_cons.1 h.apart).2⟩
      have := (List.pairwise_cons.1 h.apart).1 s hs
      simp only [Apart, e2, e3] at this ⊢
      exact this
    · have := h.sum
      simp only [List.map_cons, List.sum_cons, taken_same e1] at this ⊢
      exact this
  have hrun := hk
  generalize hx : a.run (poolEnv dbg p) t.st = o at hk ho
  cases hk with
  | quiet h1 h2 h3 =>
    obtain ho | ⟨x, ho⟩ := ho <;> cases ho
    exact still h3.2.1 h1 h3.2.2
  | throws => obtain ho | ⟨x, ho⟩ := ho <;> cases ho; exact still rfl rfl rfl
  | refused => obtain ho | ⟨x, ho⟩ := ho <;> cases ho; exact still rfl rfl rfl
  | fault => obtain ho | ⟨x, ho⟩ := ho <;> cases ho
  | granted h1 h2 h3 h4 h5 h6 h7 =>
    obtain ho | ⟨x, ho⟩ := ho <;> cases ho
    obtain ⟨E, e1, e2⟩ := h6
    have hg : (p.allocate (st'.cap + 1) 1).isSome = true := by
      have := h7 _ (List.mem_singleton.2 rfl)
      exact this.2
    rw [allocate_char h.ok] at hg
    have hfit : p.top + (st'.cap + 1) ≤ p.base + p.capacity := by
      by_cases hfit : p.top + (st'.cap + 1) ≤ p.base + p.capacity
      · exact hfit
      · rw [if_neg hfit] at hg; cases hg
    have ha := allocate_char h.ok (st'.cap + 1)
    rw [if_pos hfit] at ha
    rw [since_append e1, serve_one t.place ha e2]
    have hok := h.ok
    refine ⟨rfl, rfl, ⟨hok.fits, by have := hok.low; dsimp only; omega, hfit⟩, ?_, ?_, ?_, ?_, ?_⟩
    · simp only [List.forall_mem_cons] ; exact ⟨hlive', fun t ht => h.lives t (by simp [ht])⟩
    · simp only [List.forall_mem_cons] ; exact ⟨hkept, fun t ht => h.kept t (by simp [ht])⟩
    · simp only [List.forall_mem_cons]
      refine ⟨fun _ => ⟨hok.low, Nat.le_refl _⟩, fun t ht hb => ?_⟩
      obtain ⟨i1, i2⟩ := h.inside t (by simp [ht]) hb
      exact ⟨i1, by omega⟩
    · rw [List.pairwise_cons]
      refine ⟨fun s hs _ hb => .inr ?_, (List.pairwise_cons.1 h.apart).2⟩
      exact (h.inside s (by simp [hs]) hb).2
    · have := h.sum
      have e : taken st' = taken t.st + (st'.cap + 1) := by
        rw [taken, e1, allocs_append, e2]
        simp [taken]
      simp only [List.map_cons, List.sum_cons, e] at this ⊢
      omega

theorem perm_eraseIdx {α : Type} : ∀ {l : List α} {i : Nat} (h : i < l.length), (l[i] :: l.eraseIdx i).Perm l
  | x :: l, 0, _ => .refl _
  | x :: l, i + 1, h => ((List.Perm.swap x (l[i]'(by simpa using h)) (l.eraseIdx i))).trans ((perm_eraseIdx (by simpa using h)).cons x)

theorem perm_set {α : Type} : ∀ {l : List α} {i : Nat} (_ : i < l.length) (a : α), (l.set i a).Perm (a :: l.eraseIdx i)
  | x :: l, 0, _, _ => .refl _
  | x :: l, i + 1, h, a => ((perm_set (l := l) (i := i) (by simpa using h) a).cons x).trans (.swap a x _)

theorem worlds_fine {dbg : Bool} {base size : Nat} {w : Sharing} (hb : base + size < wordSize) (hw : Worlds dbg base size w) :
    w.pool.base = base ∧ w.pool.capacity = size ∧ Sound dbg w.pool (w.urls ++ w.gone) := by
  induction hw with
  | start =>
    refine ⟨rfl, rfl, ⟨hb, Nat.le_refl _, Nat.le_add_right _ _⟩, ?_, ?_, ?_, ?_, ?_⟩ <;> simp [Sharing.start, Pool.make]
  | @step w w' s hw hin h ih =>
    obtain ⟨b1, b2, ih⟩ := ih
    cases s with
    | make =>
      cases h
      refine ⟨b1, b2, Sound.perm (ts := ⟨Base.empty, 0⟩ :: (w.urls ++ w.gone)) ?_ (by
        rw [List.append_assoc]
        exact List.perm_middle.symm)⟩
      refine ⟨ih.ok, ?_, ?_, ?_, ?_, ?_⟩
      · simp only [List.forall_mem_cons]
        exact ⟨⟨poolEnv dbg w.pool, rfl, rfl, rfl, .empty⟩, ih.lives⟩
      · simp only [List.forall_mem_cons]
        exact ⟨⟨trivial, fun _ => ⟨rfl, rfl⟩, fun x hx => by cases hx⟩, ih.kept⟩
      · simp only [List.forall_mem_cons]
        exact ⟨fun h => by (cases h), ih.inside⟩
      · exact List.pairwise_cons.2 ⟨fun s _ h => by (cases h), ih.apart⟩
      · have := ih.sum
        simp only [List.map_cons, List.sum_cons] at this ⊢
        rw [this]
        simp [taken, Base.empty, allocs]
    | act i a =>
      simp only [Sharing.step] at h
      cases ht : w.urls[i]? with
      | none => rw [ht] at h; cases h
      | some t =>
        rw [ht] at h
        dsimp only at h
        obtain ⟨hi, hti⟩ := List.getElem?_eq_some_iff.1 ht
        have hp : (w.urls ++ w.gone).Perm (t :: (w.urls.eraseIdx i ++ w.gone)) := by
          have := (perm_eraseIdx hi).symm
          rw [hti] at this
          exact this.append_right w.gone
        have key : ∀ st', (a.run (poolEnv dbg w.pool) t.st = .ret () st' ∨ ∃ x, a.run (poolEnv dbg w.pool) t.st = .throw x st') →
            (w.set i t st').pool.base = base ∧ (w.set i t st').pool.capacity = size ∧
              Sound dbg (w.set i t st').pool ((w.set i t st').urls ++ (w.set i t st').gone) := by
          intro st' ho
          obtain ⟨c1, c2, c3⟩ := (ih.perm hp).act (hin i a t rfl ht) ho
          refine ⟨c1.trans b1, c2.trans b2, c3.perm ?_⟩
          exact ((perm_set hi _).append_right w.gone).symm
        cases hx : a.run (poolEnv dbg w.pool) t.st with
        | ret u st' => rw [hx] at h; cases h; exact key st' (.inl hx)
        | throw x st' => rw [hx] at h; cases h; exact key st' (.inr ⟨x, hx⟩)
        | fault f => rw [hx] at h; cases h
    | destroy i =>
      simp only [Sharing.step] at h
      cases ht : w.urls[i]? with
      | none => rw [ht] at h; cases h
      | some t =>
        rw [ht] at h
        cases h
        obtain ⟨hi, hti⟩ := List.getElem?_eq_some_iff.1 ht
        refine ⟨b1, b2, ih.perm ?_⟩
        have := (perm_eraseIdx hi).symm
        rw [hti] at this
        exact (this.append_right w.gone).trans List.perm_middle.symm

/-! ### Cases -/

/-- what `Worlds` asks of a step -/
def legal (w : Sharing) : Step → Bool
  | .act i a =>
    match w.urls[i]? with
    | some t => decide (a.InPath t.st)
    | none => true
  | _ => true

def steps (dbg : Bool) : List Step → Sharing → Option Sharing
  | [], w => some w
  | s :: ss, w => if legal w s then (w.step dbg s).bind (steps dbg ss) else none

theorem worlds_steps {dbg : Bool} {base size : Nat} {ss : List Step} : ∀ {w w' : Sharing}, Worlds dbg base size w → steps dbg ss w = some w' →
    Worlds dbg base size w' := by
  induction ss with
  | nil => intro w w' hw h; cases h; exact hw
  | cons s ss ih =>
    intro w w' hw h
    rw [steps] at h
    split at h <;> rename_i hl
    · cases hx : w.step dbg s with
      | none => rw [hx] at h; cases h
      | some w1 =>
        rw [hx] at h
        refine ih (hw.step s ?_ hx) h
        rintro i a t rfl ht
        simp only [legal, ht, decide_eq_true_eq] at hl
        exact hl
    · cases h

/-- the state after some steps -/
def world (dbg : Bool) (size : Nat) (ss : List Step) : Sharing := (steps dbg ss (.start 4096 size)).getD (.start 4096 size)

theorem world_worlds (dbg : Bool) (size : Nat) (ss : List Step) : Worlds dbg 4096 size (world dbg size ss) := by
  unfold world
  cases h : steps dbg ss (.start 4096 size) with
  | none => exact .start
  | some w => exact worlds_steps .start h

/-- the part of the pool that is in use, and the address, capacity and text of each url -/
def printed (w : Sharing) : Nat × List (Nat × Nat × Option Str) :=
  (w.pool.top, w.urls.map fun t => (t.place, t.st.cap, (encoded_url (t.st.obj false)).toOption))

/-- what a call comes to: the capacity and text, or that it throws -/
def ended : Out Unit → Option (Nat × Option Str) ⊕ Option Exc
  | .ret _ st => .inl (some (st.cap, (encoded_url (st.obj false)).toOption))
  | .throw e _ => .inr (some e)
  | .fault _ => .inr none

/-- Two urls share a pool, and the path of the first one outgrows its buffer. -/
def two : List Step := [.make, .make, .act 0 (.call (.set_encoded_url b!"/ab")), .act 1 (.call (.set_encoded_url b!"x:y")),
  .act 0 (.edit (.insert ⟨3, 0⟩ b!"cd"))]

/-- the second of them -/
def second : Tenant := (world false 30 two).urls[1]?.getD ⟨Base.empty, 0⟩

theorem second_mem : second ∈ (world false 30 two).urls := by
  unfold second
  cases h : (world false 30 two).urls[1]? with
  | none =>
    have : ((world false 30 two).urls[1]?).isSome = true := by decide +kernel
    rw [h] at this; cases this
  | some t =>
    obtain ⟨hi, e⟩ := List.getElem?_eq_some_iff.1 h
    rw [Option.getD_some, ← e]
    exact List.getElem_mem _

theorem word_case : 4096 + 30 < wordSize := by decide +kernel

/-! ### C60 -/

/-- C60: a url that shares a pool is a url like any other, with an allocator that refuses some requests: all that is
proved about the states after any calls and edits holds for it. -/
theorem C60_lives {dbg : Bool} {base size : Nat} {w : Sharing} {t : Tenant} (hb : base + size < wordSize) (hw : Worlds dbg base size w)
    (ht : t ∈ w.urls) : ∃ env : Env, env.dbg = dbg ∧ Worked env t.st := by
  obtain ⟨env, h1, -, -, h2⟩ := (worlds_fine hb hw).2.2.lives t (List.mem_append_left _ ht)
  exact ⟨env, h1, h2⟩

/-- C60: the buffer of a url lies in the buffer of the pool. -/
theorem C60_inside {dbg : Bool} {base size : Nat} {w : Sharing} {t : Tenant} (hb : base + size < wordSize) (hw : Worlds dbg base size w)
    (ht : t ∈ w.urls) (hs : t.st.buf.isSome = true) : base ≤ t.place ∧ t.place + (t.st.cap + 1) ≤ base + size := by
  obtain ⟨b1, b2, h⟩ := worlds_fine hb hw
  have h1 := h.inside t (List.mem_append_left _ ht) hs
  have h2 := h.ok.high
  rw [b1, b2] at h2
  rw [b1] at h1
  exact ⟨h1.1, by omega⟩

/-- C60: the buffers of two urls do not overlap. -/
theorem C60_apart {dbg : Bool} {base size : Nat} {w : Sharing} {i j : Nat} {s t : Tenant} (hb : base + size < wordSize)
    (hw : Worlds dbg base size w) (hij : i ≠ j) (hi : w.urls[i]? = some s) (hj : w.urls[j]? = some t)
    (hs : s.st.buf.isSome = true) (ht : t.st.buf.isSome = true) :
    s.place + (s.st.cap + 1) ≤ t.place ∨ t.place + (t.st.cap + 1) ≤ s.place := by
  have h := (List.pairwise_append.1 (worlds_fine hb hw).2.2.apart).1
  obtain ⟨hi', ei⟩ := List.getElem?_eq_some_iff.1 hi
  obtain ⟨hj', ej⟩ := List.getElem?_eq_some_iff.1 hj
  rw [List.pairwise_iff_getElem] at h
  rcases Nat.lt_or_gt_of_ne hij with hlt | hgt
  · have := h i j hi' hj' hlt
    rw [ei, ej] at this
    exact this hs ht
  · have := h j i hj' hi' hgt
    rw [ei, ej] at this
    exact this.symm hs ht

example : Worlds false 4096 30 (world false 30 two) ∧ 4096 + 30 < wordSize ∧
    printed (world false 30 two) = (4111, [(4104, 6, some b!"/ab/cd"), (4100, 3, some b!"x:y")]) :=
  ⟨world_worlds _ _ _, word_case, by decide +kernel⟩

/-- all the memory one can ask for -/
def amply (dbg : Bool) : Env where
  dbg := dbg
  alloc := fun _ _ => true
  maxSize := wordSize - 1
  sizeMax := wordSize - 1
  max_le := Nat.le_refl _

theorem wide_amply (dbg : Bool) : Wide dbg (amply dbg) := ⟨rfl, rfl, rfl⟩

theorem amply_grants {dbg : Bool} {E : Env} (hE : Wide dbg E) {L : List (Nat × Nat)} (h : Grants E L) : Grants (amply dbg) L := fun x hx =>
  ⟨Nat.le_trans (h x hx).1 (Nat.le_of_eq hE.maxSize), rfl⟩

theorem ample_ret {dbg : Bool} {E : Env} {a : Act} (hE : Wide dbg E) (hl : Lives dbg st) (hin : a.InPath st)
    (h : a.run (amply dbg) st = .ret () st') :
    (st'.cap = st.cap ∧ a.run E st = .ret () st') ∨
    (st.cap < st'.cap ∧ (Grants E [(st.tick, st'.cap + 1)] → a.run E st = .ret () st') ∧
      (¬ Grants E [(st.tick, st'.cap + 1)] → a.run E st = .throw .bad_alloc { st with tick := st.tick + 1 })) := by
  have hk := (pool_asks hl (wide_amply dbg) hin).1
  have hq := (pool_asks hl hE hin).1
  have hlike := (wide_amply dbg).like hE
  have hlike' := hE.like (wide_amply dbg)
  rw [h] at hk
  cases hk with
  | quiet a1 a2 a3 a4 => exact .inl ⟨a1, a4 E hlike⟩
  | granted a1 a2 a3 a4 a5 a6 a7 a8 =>
    refine .inr ⟨a5, fun hg => a8 E hlike hg, fun hg => ?_⟩
    generalize hx : a.run E st = o at hq
    cases hq with
    | quiet b1 b2 b3 b4 =>
      rw [b4 _ hlike'] at h
      cases h
      omega
    | granted b1 b2 b3 b4 b5 b6 b7 b8 =>
      rw [b8 _ hlike' (amply_grants hE b7)] at h
      cases h
      exact absurd b7 hg
    | throws b1 => rw [b1 _ hlike'] at h; cases h
    | refused => rfl
    | fault b1 b2 => rw [b2 _ hlike' (amply_grants hE b1)] at h; cases h

/-- C60: a call that returns when there is enough memory does the same in a pool, if it needs no new buffer or the
pool has room for it; otherwise it throws `bad_alloc` and the url is as before. -/
theorem C60_call {dbg : Bool} {base size : Nat} {w : Sharing} {t : Tenant} {a : Act} (hb : base + size < wordSize) (hw : Worlds dbg base size w)
    (ht : t ∈ w.urls) (hin : a.InPath t.st) (h : a.run (amply dbg) t.st = .ret () st') :
    a.run (poolEnv dbg w.pool) t.st =
      if st'.cap = t.st.cap ∨ w.pool.top + (st'.cap + 1) ≤ base + size then .ret () st'
      else .throw .bad_alloc { t.st with tick := t.st.tick + 1 } := by
  obtain ⟨b1, b2, hf⟩ := worlds_fine hb hw
  have hl := hf.lives t (List.mem_append_left _ ht)
  have hg : ∀ m, Grants (poolEnv dbg w.pool) [(t.st.tick, m)] ↔ w.pool.top + m ≤ base + size := by
    intro m
    have hf1 := hf.ok.fits
    have hl1 := hf.ok.low
    simp only [Grants, List.mem_singleton, forall_eq, poolEnv, allocate_char hf.ok, b1, b2] at hf1 hl1 ⊢
    by_cases hm : w.pool.top + m ≤ base + size
    · rw [if_pos hm]
      exact ⟨fun _ => hm, fun _ => ⟨by omega, rfl⟩⟩
    · rw [if_neg hm]
      exact ⟨fun h => (by cases h.2), fun h => absurd h hm⟩
  rcases ample_ret (wide_pool dbg w.pool) hl hin h with ⟨c1, c2⟩ | ⟨c1, c2, c3⟩
  · rw [if_pos (.inl c1), c2]
  · by_cases hm : w.pool.top + (st'.cap + 1) ≤ base + size
    · rw [if_pos (.inr hm), c2 ((hg _).2 hm)]
    · rw [if_neg (fun h => h.elim (by omega) hm), c3 (fun h => hm ((hg _).1 h))]

/-- 15 bytes are left. -/
example : Worlds false 4096 30 (world false 30 two) ∧ second ∈ (world false 30 two).urls ∧
    ended (run (.set_encoded_url b!"http://abcdefg") (amply false) second.st) = .inl (some (14, some b!"http://abcdefg")) ∧
    ended (run (.set_encoded_url b!"http://abcdefg") (poolEnv false (world false 30 two).pool) second.st) = .inl (some (14, some b!"http://abcdefg")) ∧
    ended (run (.set_encoded_url b!"http://abcdefgh") (amply false) second.st) = .inl (some (15, some b!"http://abcdefgh")) ∧
    ended (run (.set_encoded_url b!"http://abcdefgh") (poolEnv false (world false 30 two).pool) second.st) = .inr (some .bad_alloc) :=
  ⟨world_worlds _ _ _, second_mem, by decide +kernel, by decide +kernel, by decide +kernel, by decide +kernel⟩

/-- C60: a call that throws when there is enough memory does so in a pool. -/
theorem C60_throw {dbg : Bool} {base size : Nat} {w : Sharing} {t : Tenant} {a : Act} {x : Exc} (hb : base + size < wordSize)
    (hw : Worlds dbg base size w) (ht : t ∈ w.urls) (hin : a.InPath t.st) (h : a.run (amply dbg) t.st = .throw x st') :
    a.run (poolEnv dbg w.pool) t.st = .throw x st' := by
  have hl := (worlds_fine hb hw).2.2.lives t (List.mem_append_left _ ht)
  have hk := (pool_asks hl (wide_amply dbg) hin).1
  have hlike := (wide_amply dbg).like (wide_pool dbg w.pool)
  rw [h] at hk
  cases hk with
  | throws a1 => exact a1 _ hlike
  | refused a1 a2 => exact a2 _ hlike fun hg => a1 (amply_grants (wide_pool dbg w.pool) hg)

example : ended (run (.set_encoded_url b!"%") (amply false) second.st) = .inr (some .invalid_part) ∧
    ended (run (.set_encoded_url b!"%") (poolEnv false (world false 30 two).pool) second.st) = .inr (some .invalid_part) := by decide +kernel

/-- C60: what is undefined or fails an assertion when there is enough memory does so in a pool, or `bad_alloc` is thrown. -/
theorem C60_fault {dbg : Bool} {base size : Nat} {w : Sharing} {t : Tenant} {a : Act} {f : Flt} (hb : base + size < wordSize)
    (hw : Worlds dbg base size w) (ht : t ∈ w.urls) (hin : a.InPath t.st) (h : a.run (amply dbg) t.st = .fault f) :
    a.run (poolEnv dbg w.pool) t.st = .fault f ∨ a.run (poolEnv dbg w.pool) t.st = .throw .bad_alloc { t.st with tick := t.st.tick + 1 } := by
  have hl := (worlds_fine hb hw).2.2.lives t (List.mem_append_left _ ht)
  have hE := wide_pool dbg w.pool
  have hk := (pool_asks hl hE hin).1
  have hlike := hE.like (wide_amply dbg)
  generalize hx : a.run (poolEnv dbg w.pool) t.st = o at hk
  cases hk with
  | quiet _ _ _ a4 => rw [a4 _ hlike] at h; cases h
  | granted _ _ _ _ _ _ a7 a8 => rw [a8 _ hlike (amply_grants hE a7)] at h; cases h
  | throws a1 => rw [a1 _ hlike] at h; cases h
  | refused => exact .inr rfl
  | fault a1 a2 => rw [a2 _ hlike (amply_grants hE a1)] at h; cases h; exact .inl rfl

/-- With assertions, one fails when a segment is put at the end. -/
example : ended ((Act.edit (.insert ⟨3, 0⟩ b!"cd")).run (amply true) second.st) = .inr none ∧
    ended ((Act.edit (.insert ⟨3, 0⟩ b!"cd")).run (poolEnv true (world false 30 two).pool) second.st) = .inr none ∧
    ended ((Act.edit (.insert ⟨3, 0⟩ b!"abcdefghijklmnopq")).run (poolEnv true (world false 30 two).pool) second.st) = .inr (some .bad_alloc) := by decide +kernel

theorem doubling_sum {L : List (Nat × Nat)} : ∀ {c : Nat} {x : Nat × Nat}, Doubling c L → L.getLast? = some x →
    (L.map (·.2)).sum + 3 * c ≤ 3 * (x.2 - 1) := by
  induction L with
  | nil => intro c x _ h; cases h
  | cons y L ih =>
    intro c x h hx
    obtain ⟨h1, h2, h3⟩ := h
    cases L with
    | nil =>
      simp at hx
      subst hx
      simp
      omega
    | cons z L =>
      rw [List.getLast?_cons_cons] at hx
      have := ih h3 hx
      rw [List.map_cons, List.sum_cons]
      omega

theorem Kept.taken_le (h : Kept st) : taken st ≤ 3 * st.cap := by
  unfold taken
  cases hx : (allocs st.log).getLast? with
  | none =>
    rw [List.getLast?_eq_none_iff.1 hx]
    exact Nat.zero_le _
  | some x =>
    have := doubling_sum h.doubling hx
    have := (h.last x hx).1
    omega

/-- C60: what is in use of the pool is what its urls took, also those that were destroyed, and none of them took more
than three times its capacity. -/
theorem C60_taken {dbg : Bool} {base size : Nat} {w : Sharing} (hb : base + size < wordSize) (hw : Worlds dbg base size w) :
    w.pool.top = base + ((w.urls ++ w.gone).map fun t => taken t.st).sum ∧ ∀ t ∈ w.urls ++ w.gone, taken t.st ≤ 3 * t.st.cap := by
  obtain ⟨b1, b2, h⟩ := worlds_fine hb hw
  exact ⟨by rw [← b1]; exact h.sum, fun t ht => (h.kept t ht).taken_le⟩

example : (world false 30 (two ++ [.destroy 0, .make])).gone.map (fun t => (t.place, t.st.cap, taken t.st)) = [(4104, 6, 11)] ∧
    printed (world false 30 (two ++ [.destroy 0, .make])) = (4111, [(4100, 3, some b!"x:y"), (0, 0, some [])]) := by decide +kernel

theorem sum_le {ts : List Tenant} (h : ∀ t ∈ ts, taken t.st ≤ 3 * t.st.cap) :
    (ts.map fun t => taken t.st).sum ≤ 3 * (ts.map fun t => t.st.cap).sum := by
  induction ts with
  | nil => exact Nat.le_refl _
  | cons t ts ih =>
    have h1 := h t (by simp)
    have h2 := ih fun t ht => h t (by simp [ht])
    simp only [List.map_cons, List.sum_cons]
    omega

/-- C60: a pool with room for three times the capacities of all urls, the new one included, does not refuse. -/
theorem C60_enough {dbg : Bool} {base size i : Nat} {w : Sharing} {t : Tenant} {a : Act} (hb : base + size < wordSize)
    (hw : Worlds dbg base size w) (hi : w.urls[i]? = some t) (hin : a.InPath t.st) (h : a.run (amply dbg) t.st = .ret () st')
    (hsize : 3 * ((w.urls.eraseIdx i ++ w.gone).map fun s => s.st.cap).sum + 3 * st'.cap ≤ size) :
    a.run (poolEnv dbg w.pool) t.st = .ret () st' := by
  obtain ⟨hi', ei⟩ := List.getElem?_eq_some_iff.1 hi
  have ht : t ∈ w.urls := by rw [← ei]; exact List.getElem_mem _
  obtain ⟨b1, b2, hf⟩ := worlds_fine hb hw
  rw [C60_call hb hw ht hin h]
  by_cases hc : st'.cap = t.st.cap
  · rw [if_pos (.inl hc)]
  refine if_pos (.inr ?_)
  have hp : (w.urls ++ w.gone).Perm (t :: (w.urls.eraseIdx i ++ w.gone)) := by
    have := (perm_eraseIdx hi').symm
    rw [ei] at this
    exact this.append_right w.gone
  have hf' := hf.perm hp
  have hs := hf'.sum
  rw [b1, List.map_cons, List.sum_cons] at hs
  have hle := sum_le fun s (hs : s ∈ w.urls.eraseIdx i ++ w.gone) => (hf'.kept s (by simp [hs])).taken_le
  have hl := hf.lives t (List.mem_append_left _ ht)
  have hk := (pool_asks hl (wide_amply dbg) hin).1
  have hkept := ((hf'.kept t (by simp)).act hk (.inl h)).taken_le
  rw [h] at hk
  cases hk with
  | quiet a1 => exact absurd a1 hc
  | granted a1 a2 a3 a4 a5 a6 a7 a8 =>
    obtain ⟨E, e1, e2⟩ := a6
    have e : taken st' = taken t.st + (st'.cap + 1) := by
      rw [taken, e1, allocs_append, e2]
      simp [taken]
    omega

example : 3 * (((world false 60 two).urls.eraseIdx 1 ++ (world false 60 two).gone).map fun s => s.st.cap).sum + 3 * 14 ≤ 60 ∧
    ended (run (.set_encoded_url b!"http://abcdefg") (poolEnv false (world false 60 two).pool) second.st) = .inl (some (14, some b!"http://abcdefg")) := by
  decide +kernel

/-- C60: the new capacity is less than twice what the call needs. -/
theorem C60_capacity {a : Act} (hw : Worked env st) (hin : a.InPath st) (h : a.run env st = .ret () st') :
    st'.cap = st.cap ∨ (st.cap < Act.need st st' a ∧ (st'.cap = Act.need st st' a ∨ st'.cap = 2 * st.cap)) := by
  have := room_of (act_room hw hin h)
  rcases Nat.lt_or_ge st.cap (Act.need st st' a) with h1 | h1
  · exact .inr ⟨h1, (this.2 h1).2.2.1⟩
  · exact .inl (this.1 h1).1

/-- The states of a pool and its urls in which no call needed more than `n` characters. -/
inductive Small (dbg : Bool) (base size n : Nat) : Sharing → Prop
  | start : Small dbg base size n (.start base size)
  | step {w w' : Sharing} (s : Step) : Small dbg base size n w →
      (∀ i a t, s = .act i a → w.urls[i]? = some t → a.InPath t.st ∧
        ∀ st', a.run (poolEnv dbg w.pool) t.st = .ret () st' → Act.need t.st st' a ≤ n) →
      w.step dbg s = some w' → Small dbg base size n w'

theorem Small.worlds {dbg : Bool} {base size n : Nat} {w : Sharing} (h : Small dbg base size n w) : Worlds dbg base size w := by
  induction h with
  | start => exact .start
  | step s _ hin h ih => exact .step s ih (fun i a t e ht => (hin i a t e ht).1) h

theorem room_cap {n m : Nat} (h : Capacity.Room env st m st') (hc : st.cap ≤ 2 * n) (hm : m ≤ n) : st'.cap ≤ 2 * n := by
  have := room_of h
  rcases Nat.lt_or_ge st.cap m with h1 | h1
  · rcases (this.2 h1).2.2.1 with h | h <;> omega
  · rw [(this.1 h1).1]; exact hc

theorem Small.cap {dbg : Bool} {base size n : Nat} {w : Sharing} (hb : base + size < wordSize) (h : Small dbg base size n w) :
    ∀ t ∈ w.urls ++ w.gone, t.st.cap ≤ 2 * n := by
  induction h with
  | start => intro t ht; cases ht
  | @step w w' s hw hin h ih =>
    cases s with
    | make =>
      cases h
      intro t ht
      simp only [List.mem_append, List.mem_singleton] at ht ih
      rcases ht with (ht | rfl) | ht
      · exact ih t (.inl ht)
      · exact Nat.zero_le _
      · exact ih t (.inr ht)
    | destroy i =>
      simp only [Sharing.step] at h
      cases ht : w.urls[i]? with
      | none => rw [ht] at h; cases h
      | some s =>
        rw [ht] at h
        cases h
        obtain ⟨hi, e⟩ := List.getElem?_eq_some_iff.1 ht
        intro t ht
        simp only [List.mem_append, List.mem_cons] at ht ih
        rcases ht with ht | rfl | ht
        · exact ih t (.inl (List.mem_of_mem_eraseIdx ht))
        · exact ih t (.inl (by rw [← e]; exact List.getElem_mem _))
        · exact ih t (.inr ht)
    | act i a =>
      simp only [Sharing.step] at h
      cases ht : w.urls[i]? with
      | none => rw [ht] at h; cases h
      | some t =>
        rw [ht] at h
        dsimp only at h
        obtain ⟨hi, e⟩ := List.getElem?_eq_some_iff.1 ht
        have hm : t ∈ w.urls ++ w.gone := List.mem_append_left _ (by rw [← e]; exact List.getElem_mem _)
        obtain ⟨hin1, hin2⟩ := hin i a t rfl ht
        obtain ⟨-, hr, -⟩ := pool_asks ((worlds_fine hb hw.worlds).2.2.lives t hm) (wide_pool dbg w.pool) hin1
        have key : ∀ st' : St, st'.cap ≤ 2 * n → ∀ t' ∈ (w.set i t st').urls ++ (w.set i t st').gone, t'.st.cap ≤ 2 * n := by
          intro st' hc t' ht'
          simp only [Sharing.set, List.mem_append] at ht' ih
          rcases ht' with ht' | ht'
          · rcases List.mem_or_eq_of_mem_set ht' with ht' | rfl
            · exact ih t' (.inl ht')
            · exact hc
          · exact ih t' (.inr ht')
        cases hx : a.run (poolEnv dbg w.pool) t.st with
        | fault f => rw [hx] at h; cases h
        | ret u st' =>
          rw [hx] at h; cases h
          exact key st' (room_cap (hr st' hx).2 (ih t hm) (hin2 st' hx))
        | throw x st' =>
          rw [hx] at h; cases h
          have hk := (pool_asks ((worlds_fine hb hw.worlds).2.2.lives t hm) (wide_pool dbg w.pool) hin1).1
          rw [hx] at hk
          refine key st' ?_
          cases hk with
          | throws => exact ih t hm
          | refused => exact ih t hm

theorem sum_cap_le {m : Nat} {ts : List Tenant} (h : ∀ t ∈ ts, t.st.cap ≤ m) : (ts.map fun t => t.st.cap).sum ≤ m * ts.length := by
  induction ts with
  | nil => exact Nat.zero_le _
  | cons t ts ih =>
    have h1 := h t (by simp)
    have h2 := ih fun t ht => h t (by simp [ht])
    simp only [List.map_cons, List.sum_cons, List.length_cons, Nat.mul_add, Nat.mul_one]
    omega

/-- C60: a pool of `6 * n` bytes for each url ever constructed never refuses, as long as no call needs more than `n`
characters. -/
theorem C60_small {dbg : Bool} {base size n i : Nat} {w : Sharing} {t : Tenant} {a : Act} (hb : base + size < wordSize)
    (hw : Small dbg base size n w) (hsize : 6 * n * (w.urls.length + w.gone.length) ≤ size) (hi : w.urls[i]? = some t) (hin : a.InPath t.st)
    (h : a.run (amply dbg) t.st = .ret () st') (hn : Act.need t.st st' a ≤ n) : a.run (poolEnv dbg w.pool) t.st = .ret () st' := by
  have hc := hw.cap hb
  obtain ⟨hi', e⟩ := List.getElem?_eq_some_iff.1 hi
  have hm : t ∈ w.urls ++ w.gone := List.mem_append_left _ (by rw [← e]; exact List.getElem_mem _)
  have hl := (worlds_fine hb hw.worlds).2.2.lives t hm
  have hcap := room_cap ((pool_asks hl (wide_amply dbg) hin).2.1 st' h).2 (hc t hm) hn
  refine C60_enough hb hw.worlds hi hin h ?_
  have hs := sum_cap_le (ts := w.urls.eraseIdx i ++ w.gone) (m := 2 * n) fun s hs => hc s (by
    rcases List.mem_append.1 hs with hs | hs
    · exact List.mem_append_left _ (List.mem_of_mem_eraseIdx hs)
    · exact List.mem_append_right _ hs)
  rw [List.length_append, List.length_eraseIdx_of_lt hi'] at hs
  have e1 : 6 * n * (w.urls.length + w.gone.length) = 3 * (2 * n * (w.urls.length - 1 + w.gone.length)) + 6 * n := by
    obtain ⟨k, hk⟩ : ∃ k, w.urls.length = k + 1 := ⟨w.urls.length - 1, by omega⟩
    rw [hk, Nat.add_sub_cancel, show k + 1 + w.gone.length = (k + w.gone.length) + 1 by omega, Nat.mul_add]
    have : 6 * n * (k + w.gone.length) = 3 * (2 * n * (k + w.gone.length)) := by rw [← Nat.mul_assoc, ← Nat.mul_assoc]
    omega
  omega

/-- what `Small` asks of a step -/
def light (dbg : Bool) (n : Nat) (w : Sharing) : Step → Bool
  | .act i a =>
    match w.urls[i]? with
    | some t => decide (a.InPath t.st) &&
      match a.run (poolEnv dbg w.pool) t.st with
      | .ret () st' => decide (Act.need t.st st' a ≤ n)
      | _ => true
    | none => true
  | _ => true

def lightSteps (dbg : Bool) (n : Nat) : List Step → Sharing → Bool
  | [], _ => true
  | s :: ss, w => light dbg n w s && match w.step dbg s with
    | some w' => lightSteps dbg n ss w'
    | none => false

theorem small_steps {dbg : Bool} {base size n : Nat} {ss : List Step} : ∀ {w w' : Sharing}, Small dbg base size n w → lightSteps dbg n ss w = true →
    steps dbg ss w = some w' → Small dbg base size n w' := by
  induction ss with
  | nil => intro w w' hw _ h; cases h; exact hw
  | cons s ss ih =>
    intro w w' hw hl h
    rw [steps] at h
    rw [lightSteps, Bool.and_eq_true] at hl
    obtain ⟨hl, hl'⟩ := hl
    split at h
    · cases hx : w.step dbg s with
      | none => rw [hx] at h; cases h
      | some w1 =>
        rw [hx] at h hl'
        refine ih (hw.step s ?_ hx) hl' h
        rintro i a t rfl ht
        simp only [light, ht, Bool.and_eq_true, decide_eq_true_eq] at hl
        refine ⟨hl.1, fun st' hr => ?_⟩
        have := hl.2
        rw [hr] at this
        simpa using this
    · cases h

example : Small false 4096 100 7 (world false 100 two) ∧ 6 * 7 * ((world false 100 two).urls.length + (world false 100 two).gone.length) ≤ 100 := by
  constructor
  · unfold world
    cases h : steps false two (.start 4096 100) with
    | none => exact .start
    | some w => exact small_steps .start (by decide +kernel) h
  · decide +kernel

/-- C60: a call on a url with a default constructed allocator is undefined exactly if it needs a buffer. -/
theorem C60_null {dbg : Bool} {a : Act} (hin : a.InPath Base.empty) (h : a.run (amply dbg) Base.empty = .ret () st') :
    a.runNull dbg Base.empty = if st'.cap = 0 then .ret () st' else .fault .ub := by
  have hE : Wide dbg { poolEnv dbg (Pool.make 0 0) with alloc := fun _ _ => false } := ⟨rfl, rfl, rfl⟩
  have hn : ∀ x, ¬ Grants { poolEnv dbg (Pool.make 0 0) with alloc := fun _ _ => false } [x] := fun x h => by
    have := (h x (by simp)).2
    cases this
  unfold Act.runNull
  rcases ample_ret hE ⟨amply dbg, rfl, rfl, rfl, .empty⟩ hin h with ⟨c1, c2⟩ | ⟨c1, -, c3⟩
  · rw [c2, if_pos (show st'.cap = 0 from c1)]
  · rw [c3 (hn _), if_neg (by omega)]

example : ended ((Act.call (.set_encoded_path b!"")).runNull false Base.empty) = .inl (some (0, some [])) ∧
    ended ((Act.call (.set_encoded_url b!"/")).runNull false Base.empty) = .inr none := by decide +kernel

/-- C60 is false for a copy of a pool: it hands out the same memory as the original. -/
theorem C60_copy_false {p p' q : Pool} {n m b c : Nat} (hp : PoolOk p) (h1 : p.allocate n 1 = some (b, p'))
    (h2 : p.copy.allocate m 1 = some (c, q)) : b = c := by
  unfold Pool.copy at h2
  rw [allocate_char hp] at h1 h2
  split at h1
  · split at h2
    · cases h1; cases h2; rfl
    · cases h2
  · cases h1

example : (Pool.make 4096 30).allocate 4 1 = some (4096, ⟨4096, 30, 4100⟩) ∧
    (Pool.make 4096 30).copy.allocate 9 1 = some (4096, ⟨4096, 30, 4105⟩) := by decide +kernel

/-- C60: a pool with room for one url is exhausted by two, one after the other. -/
theorem C60_reuse_false : printed (world true 10 [.make, .act 0 (.call (.set_encoded_url b!"/abcd")), .destroy 0, .make]) = (4102, [(0, 0, some [])]) ∧
    ended (run (.set_encoded_url b!"/abcd") (poolEnv true (world true 10 [.make, .act 0 (.call (.set_encoded_url b!"/abcd")), .destroy 0, .make]).pool)
      Base.empty) = .inr (some .bad_alloc) ∧
    ended (run (.set_encoded_url b!"/abcd") (poolEnv true (world true 10 [.make]).pool) Base.empty) = .inl (some (5, some b!"/abcd")) := by decide +kernel

/-- C60: no memory is given back, not even by the destruction of a url. -/
theorem C60_top {dbg : Bool} {base size : Nat} {w w' : Sharing} (hb : base + size < wordSize) (hw : Worlds dbg base size w) {s : Step}
    (hin : ∀ i a t, s = .act i a → w.urls[i]? = some t → a.InPath t.st) (h : w.step dbg s = some w') : w.pool.top ≤ w'.pool.top := by
  cases s with
  | make => cases h; exact Nat.le_refl _
  | destroy i =>
    simp only [Sharing.step] at h
    split at h
    · cases h
    · cases h; exact Nat.le_refl _
  | act i a =>
    obtain ⟨b1, b2, hf⟩ := worlds_fine hb hw
    obtain ⟨c1, c2, hf'⟩ := worlds_fine hb (hw.step _ hin h)
    simp only [Sharing.step] at h
    cases ht : w.urls[i]? with
    | none => rw [ht] at h; cases h
    | some t =>
      rw [ht] at h
      dsimp only at h
      have hm : t ∈ w.urls ++ w.gone := by
        obtain ⟨hi', ei⟩ := List.getElem?_eq_some_iff.1 ht
        rw [← ei]; exact List.mem_append_left _ (List.getElem_mem _)
      have hk := (pool_asks (hf.lives t hm) (wide_pool dbg w.pool) (hin i a t rfl ht)).1
      have still : ∀ {st' : St}, st'.log = t.st.log → w.pool.top ≤ (w.set i t st').pool.top := by
        intro st' e
        simp only [Sharing.set]
        rw [since_same e]
        exact Nat.le_refl _
      generalize hx : a.run (poolEnv dbg w.pool) t.st = o at hk h
      cases hk with
      | quiet a1 a2 a3 a4 => cases h; exact still a3.2.1
      | throws => cases h; exact still rfl
      | refused => cases h; exact still rfl
      | fault => cases h
      | @granted st' a1 a2 a3 a4 a5 a6 a7 a8 =>
        cases h
        obtain ⟨E, e1, e2⟩ := a6
        have ha := allocate_char hf.ok (st'.cap + 1)
        have hg : (w.pool.allocate (st'.cap + 1) 1).isSome = true := (a7 _ (List.mem_singleton.2 rfl)).2
        split at ha
        · simp only [Sharing.set]
          rw [since_append e1, serve_one t.place ha e2]
          exact Nat.le_add_right _ _
        · rw [ha] at hg; cases hg

end Url.Props
