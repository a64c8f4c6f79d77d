import Verif.Proofs.Capacity
import Verif.Model.ItOp

/-!
What a call asks of the allocator, and that it depends on the answers and nothing else.
-/

set_option autoImplicit false
set_option linter.unusedSimpArgs false

namespace Url.Fair
open M Base Spec Alias

variable {α β : Type} {env env' : Env} {st st' st1 st2 : St}

/-- the requests that were granted: the number and the size of each block -/
def allocs : List Event → List (Nat × Nat)
  | [] => []
  | .alloc id n :: E => (id, n) :: allocs E
  | .free _ _ :: E => allocs E

theorem allocs_append (E E' : List Event) : allocs (E ++ E') = allocs E ++ allocs E' := by
  induction E with
  | nil => rfl
  | cons x E ih => cases x <;> simp [allocs, ih]

/-- Two environments which differ at most in what the allocator grants. -/
structure Like (env env' : Env) : Prop where
  dbg : env'.dbg = env.dbg
  maxSize : env'.maxSize = env.maxSize
  sizeMax : env'.sizeMax = env.sizeMax

theorem Like.refl (env : Env) : Like env env := ⟨rfl, rfl, rfl⟩

def Grants (env : Env) (L : List (Nat × Nat)) : Prop := ∀ x ∈ L, x.2 ≤ env.maxSize ∧ env.alloc x.1 x.2 = true

/-- each block is at least twice as large as the one before, the terminators not counted -/
def Doubling : Nat → List (Nat × Nat) → Prop
  | _, [] => True
  | c, x :: L => 2 * c + 1 ≤ x.2 ∧ c + 1 < x.2 ∧ Doubling (x.2 - 1) L

/-- The allocator granted `L`, and nothing else happened to the allocations. -/
structure Took (env : Env) (st : St) (L : List (Nat × Nat)) (st' : St) : Prop where
  log : ∃ E, st'.log = st.log ++ E ∧ allocs E = L
  tick : st'.tick = st.tick + L.length
  ids : L.map (·.1) = List.range' st.tick L.length
  grants : Grants env L
  same : L = [] → st'.cap = st.cap ∧ HeapSame st st'
  last : ∀ x, L.getLast? = some x → st'.addr = x.1 ∧ st'.cap + 1 = x.2 ∧ st'.buf.isSome = true
  doubling : Doubling st.cap L

theorem Took.still (h1 : st'.cap = st.cap) (h2 : st'.tick = st.tick) (h3 : HeapSame st st') : Took env st [] st' :=
  ⟨⟨[], by rw [h3.2.1, List.append_nil], rfl⟩, h2, rfl, by simp [Grants], fun _ => ⟨h1, h3⟩, by simp, trivial⟩

theorem Took.refl (env : Env) (st : St) : Took env st [] st := .still rfl rfl (.refl _)

theorem Doubling.append {L : List (Nat × Nat)} : ∀ {c c' : Nat} {L' : List (Nat × Nat)}, Doubling c L →
    (L = [] → c' = c) → (∀ x, L.getLast? = some x → c' + 1 = x.2) → Doubling c' L' → Doubling c (L ++ L') := by
  induction L with
  | nil => intro c c' L' _ h1 _ h3; rw [← h1 rfl]; exact h3
  | cons x L ih =>
    intro c c' L' h0 _ h2 h3
    refine ⟨h0.1, h0.2.1, ih (c' := c') h0.2.2 ?_ ?_ h3⟩
    · rintro rfl
      have := h2 x rfl
      omega
    · intro y hy
      refine h2 y ?_
      cases L with
      | nil => simp at hy
      | cons z L => rw [List.getLast?_cons_cons]; exact hy

theorem Took.trans {L L' : List (Nat × Nat)} (h : Took env st L st1) (h' : Took env st1 L' st2) : Took env st (L ++ L') st2 := by
  obtain ⟨E, hE, hL⟩ := h.log
  obtain ⟨E', hE', hL'⟩ := h'.log
  refine ⟨⟨E ++ E', by rw [hE', hE, List.append_assoc], by rw [allocs_append, hL, hL']⟩, ?_, ?_, ?_, ?_, ?_, ?_⟩
  · rw [h'.tick, h.tick, List.length_append]; omega
  · rw [List.map_append, h.ids, h'.ids, h.tick, List.length_append, List.range'_append_1]
  · intro x hx
    rcases List.mem_append.1 hx with hx | hx
    · exact h.grants x hx
    · exact h'.grants x hx
  · intro he
    obtain ⟨e1, e2⟩ := List.append_eq_nil_iff.1 he
    obtain ⟨a1, a2⟩ := h.same e1
    obtain ⟨b1, b2⟩ := h'.same e2
    exact ⟨b1.trans a1, a2.trans b2⟩
  · intro x hx
    by_cases he : L' = []
    · subst he
      rw [List.append_nil] at hx
      obtain ⟨a1, a2, a3⟩ := h.last x hx
      obtain ⟨b1, c1, -, c3⟩ := h'.same rfl
      exact ⟨c1.trans a1, by rw [b1]; exact a2, c3.trans a3⟩
    · rw [List.getLast?_append, show L'.getLast? = some (L'.getLast he) from List.getLast?_eq_some_getLast he, Option.some_or, ← List.getLast?_eq_some_getLast he] at hx
      exact h'.last x hx
  · exact Doubling.append h.doubling (fun e => (h.same e).1) (fun x hx => (h.last x hx).2.1) h'.doubling

/-- What a call does is determined by what the allocator grants it. -/
def Fair (m : M α) : Prop := ∀ env st,
  match m env st with
  | .ret a st' => ∃ L, Took env st L st' ∧ ∀ env', Like env env' → Grants env' L → m env' st = .ret a st'
  | .throw e st' =>
    (∃ L, Took env st L st' ∧ ∀ env', Like env env' → Grants env' L → m env' st = .throw e st') ∨
    (e = .bad_alloc ∧ ∃ L st1 n, Took env st L st1 ∧ st' = { st1 with tick := st1.tick + 1 } ∧ ¬ Grants env [(st1.tick, n)] ∧
      ∀ env', Like env env' → Grants env' L → ¬ Grants env' [(st1.tick, n)] → m env' st = .throw e st')
  | .fault f => ∃ L, Grants env L ∧ ∀ env', Like env env' → Grants env' L → m env' st = .fault f

/-- A step that does not change the capacity or allocate or look at the allocator. -/
def Calm (m : M α) : Prop := Still m ∧ ∀ env env' st, Like env env' → m env' st = m env st

theorem Calm.fair {m : M α} (h : Calm m) : Fair m := by
  intro env st
  rcases h.1 env st with ⟨a, st1, h1, h2, h3, h4⟩ | ⟨f, h1⟩ | ⟨e, h1⟩ <;> rw [h1] <;> dsimp only
  · exact ⟨[], .still h2 h3 h4, fun env' hl _ => (h.2 env env' st hl).trans h1⟩
  · exact ⟨[], by simp [Grants], fun env' hl _ => (h.2 env env' st hl).trans h1⟩
  · exact .inl ⟨[], .refl _ _, fun env' hl _ => (h.2 env env' st hl).trans h1⟩

theorem Fair.bind {m : M α} {f : α → M β} (hm : Fair m) (hf : ∀ a, Fair (f a)) : Fair (m >>= f) := by
  intro env st
  rw [run_bind]
  have h1 := hm env st
  cases hx : m env st with
  | throw e st1 =>
    rw [hx] at h1
    dsimp only at h1 ⊢
    rcases h1 with ⟨L, h1, h2⟩ | ⟨rfl, L, s1, n, h1, h2, h3, h4⟩
    · exact .inl ⟨L, h1, fun env' hl hg => by rw [run_bind, h2 env' hl hg]⟩
    · exact .inr ⟨rfl, L, s1, n, h1, h2, h3, fun env' hl hg hn => by rw [run_bind, h4 env' hl hg hn]⟩
  | fault x =>
    rw [hx] at h1
    obtain ⟨L, h1, h2⟩ := h1
    exact ⟨L, h1, fun env' hl hg => by rw [run_bind, h2 env' hl hg]⟩
  | ret a st1 =>
    rw [hx] at h1
    obtain ⟨L, h1, h2⟩ := h1
    have h3 := hf a env st1
    have hsplit : ∀ {env' L'}, Grants env' (L ++ L') → Grants env' L ∧ Grants env' L' := fun hg =>
      ⟨fun x hx => hg x (List.mem_append_left _ hx), fun x hx => hg x (List.mem_append_right _ hx)⟩
    have hstep : ∀ env', Like env env' → Grants env' L → (m >>= f) env' st = f a env' st1 := fun env' hl hg => by
      rw [run_bind, h2 env' hl hg]
    dsimp only
    cases hy : f a env st1 with
    | ret b st2 =>
      rw [hy] at h3
      obtain ⟨L', h3, h4⟩ := h3
      exact ⟨L ++ L', h1.trans h3, fun env' hl hg => (hstep env' hl (hsplit hg).1).trans (h4 env' hl (hsplit hg).2)⟩
    | fault x =>
      rw [hy] at h3
      obtain ⟨L', h3, h4⟩ := h3
      refine ⟨L ++ L', fun x hx => ?_, fun env' hl hg => (hstep env' hl (hsplit hg).1).trans (h4 env' hl (hsplit hg).2)⟩
      rcases List.mem_append.1 hx with hx | hx
      · exact h1.grants x hx
      · exact h3 x hx
    | throw e st2 =>
      rw [hy] at h3
      rcases h3 with ⟨L', h3, h4⟩ | ⟨rfl, L', s1, n, h3, h4, h5, h6⟩
      · exact .inl ⟨L ++ L', h1.trans h3, fun env' hl hg => (hstep env' hl (hsplit hg).1).trans (h4 env' hl (hsplit hg).2)⟩
      · exact .inr ⟨rfl, L ++ L', s1, n, h1.trans h3, h4, h5,
          fun env' hl hg hn => (hstep env' hl (hsplit hg).1).trans (h6 env' hl (hsplit hg).2 hn)⟩

theorem newCap_room {maxSize cap n : Nat} (hn : cap < n) (h : Storage.newCap maxSize cap n + 1 ≤ maxSize) :
    2 * cap ≤ Storage.newCap maxSize cap n ∧ cap < Storage.newCap maxSize cap n := by
  unfold Storage.newCap at h ⊢
  split at h <;> rename_i h1
  · rw [if_pos h1]
    split <;> omega
  · omega

theorem Fair.reserve (n : Nat) : Fair (Storage.reserve n) := by
  intro env st
  by_cases hn : n ≤ st.cap
  · have h : ∀ env', Storage.reserve n env' st = .ret () st := fun env' => if_pos hn
    rw [h env]
    exact ⟨[], .refl _ _, fun env' _ _ => h env'⟩
  · let cap := Storage.newCap env.maxSize st.cap n
    have hg1 : ∀ env', Grants env' [(st.tick, cap + 1)] ↔ cap + 1 ≤ env'.maxSize ∧ env'.alloc st.tick (cap + 1) = true := by
      intro env'; simp [Grants]
    by_cases ha : Grants env [(st.tick, cap + 1)]
    · -- granted
      have hroom := newCap_room (by omega) ((hg1 env).1 ha).1
      have hal : ∀ env', Like env env' → Grants env' [(st.tick, cap + 1)] →
          Storage.allocate (Storage.newCap env'.maxSize st.cap n + 1) env' st =
            .ret st.tick { st with tick := st.tick + 1, log := st.log ++ [.alloc st.tick (cap + 1)] } := by
        intro env' hl hg
        rw [hl.maxSize]
        exact if_pos ((hg1 env').1 hg)
      cases hb : st.buf with
      | none =>
        have h : ∀ env', Like env env' → Grants env' [(st.tick, cap + 1)] → Storage.reserve n env' st =
            .ret () { st with buf := some (List.replicate (cap + 1) none), cap := cap, addr := st.tick, tick := st.tick + 1, log := st.log ++ [.alloc st.tick (cap + 1)] } := by
          intro env' hl hg
          unfold Storage.reserve
          rw [if_neg hn]
          dsimp only
          rw [hal env' hl hg]
          dsimp only
          rw [hb, hl.maxSize]
        rw [h env (.refl _) ha]
        refine ⟨[(st.tick, cap + 1)], ⟨⟨_, rfl, rfl⟩, rfl, rfl, ha, by simp, ?_, ?_⟩, h⟩
        · intro x hx
          simp at hx
          subst hx
          exact ⟨rfl, rfl, rfl⟩
        · exact ⟨by dsimp only; omega, by dsimp only; omega, trivial⟩
      | some b =>
        by_cases hr : st.size + 1 ≤ b.length ∧ st.size + 1 ≤ cap + 1
        · have h : ∀ env', Like env env' → Grants env' [(st.tick, cap + 1)] → Storage.reserve n env' st =
              .ret () { st with buf := some ((b.take (st.size + 1) ++ List.replicate (cap + 1 - (st.size + 1)) none).set st.size (some 0)), cap := cap, addr := st.tick, tick := st.tick + 1, log := st.log ++ [.alloc st.tick (cap + 1)] ++ [.free st.addr (st.cap + 1)] } := by
            intro env' hl hg
            unfold Storage.reserve
            rw [if_neg hn]
            dsimp only
            rw [hal env' hl hg]
            dsimp only
            rw [hb, hl.maxSize]
            dsimp only
            rw [if_pos hr]
          rw [h env (.refl _) ha]
          refine ⟨[(st.tick, cap + 1)], ⟨⟨[.alloc st.tick (cap + 1), .free st.addr (st.cap + 1)], by simp, rfl⟩, rfl, rfl, ha, by simp, ?_, ?_⟩, h⟩
          · intro x hx
            simp at hx
            subst hx
            exact ⟨rfl, rfl, rfl⟩
          · exact ⟨by dsimp only; omega, by dsimp only; omega, trivial⟩
        · have h : ∀ env', Like env env' → Grants env' [(st.tick, cap + 1)] → Storage.reserve n env' st = .fault .ub := by
            intro env' hl hg
            unfold Storage.reserve
            rw [if_neg hn]
            dsimp only
            rw [hal env' hl hg]
            dsimp only
            rw [hb, hl.maxSize]
            dsimp only
            rw [if_neg hr]
          rw [h env (.refl _) ha]
          exact ⟨_, ha, h⟩
    · have h : ∀ env', Like env env' → ¬ Grants env' [(st.tick, cap + 1)] → Storage.reserve n env' st =
          .throw .bad_alloc { st with tick := st.tick + 1 } := by
        intro env' hl hg
        unfold Storage.reserve
        rw [if_neg hn]
        dsimp only
        have : Storage.allocate (Storage.newCap env'.maxSize st.cap n + 1) env' st = .throw .bad_alloc { st with tick := st.tick + 1 } := by
          rw [hl.maxSize]
          exact if_neg (fun h => hg ((hg1 env').2 h))
        rw [this]
      rw [h env (.refl _) ha]
      exact .inr ⟨rfl, [], st, cap + 1, .refl _ _, rfl, ha, fun env' hl _ hg => h env' hl hg⟩

/-- the part of `Storage.resize` after `Storage.reserve` -/
def setSize (n : Nat) : M Unit := fun _ st =>
  match st.buf with
  | none => .ret () st
  | some b => if n < b.length then .ret () { st with size := n, buf := some (b.set n (some 0)) } else .fault .ub

theorem resize_eq (n : Nat) : Storage.resize n = (Storage.reserve n >>= fun _ => setSize n) := by
  funext env st
  refine Eq.trans ?_ (run_bind (Storage.reserve n) (fun _ => setSize n)).symm
  show Storage.resize n env st = _
  unfold Storage.resize
  cases Storage.reserve n env st <;> rfl

theorem Calm.setSize (n : Nat) : Calm (setSize n) := by
  refine ⟨fun env st => ?_, fun _ _ _ _ => rfl⟩
  unfold Fair.setSize
  cases hb : st.buf with
  | none => exact .inl ⟨(), st, rfl, rfl, rfl, .refl _⟩
  | some b =>
    dsimp only
    by_cases h : n < b.length
    · rw [if_pos h]
      exact .inl ⟨(), _, rfl, rfl, rfl, rfl, rfl, by rw [hb]; rfl⟩
    · rw [if_neg h]
      exact .inr (.inl ⟨.ub, rfl⟩)

theorem Fair.storage_resize (n : Nat) : Fair (Storage.resize n) := by
  rw [resize_eq]
  exact .bind (.reserve n) fun _ => (Calm.setSize n).fair

theorem Calm.pure (a : α) : Calm (Pure.pure a : M α) := ⟨(Alias.Reads.pure a).still, fun _ _ _ _ => rfl⟩
theorem Calm.raise (e : Exc) : Calm (M.raise e : M α) := ⟨(Alias.Reads.raise e).still, fun _ _ _ _ => rfl⟩
theorem Calm.fault (f : Flt) : Calm (fun _ _ => .fault f : M α) := ⟨(Alias.Reads.fault f).still, fun _ _ _ _ => rfl⟩
theorem Calm.pt : Calm M.pt := ⟨Alias.Reads.pt.still, fun _ _ _ _ => rfl⟩
theorem Calm.sizeMax : Calm M.sizeMax := ⟨Alias.Reads.sizeMax.still, fun _ _ _ h => by unfold M.sizeMax; rw [h.sizeMax]⟩
theorem Calm.isNull : Calm M.isNull := ⟨Alias.Reads.isNull.still, fun _ _ _ _ => rfl⟩
theorem Calm.stored : Calm M.stored := ⟨Capacity.reads_stored.still, fun _ _ _ _ => rfl⟩
theorem Calm.capacity : Calm M.capacity := ⟨Capacity.reads_capacity.still, fun _ _ _ _ => rfl⟩
theorem Calm.undefined : Calm (M.undefined : M α) := ⟨Capacity.reads_undefined.still, fun _ _ _ _ => rfl⟩
theorem Calm.setPt (f : Parts → Parts) : Calm (M.setPt f) := ⟨.setPt f, fun _ _ _ _ => rfl⟩
theorem Calm.put (i : Nat) (s : Str) : Calm (M.put i s) := ⟨.put i s, fun _ _ _ _ => rfl⟩
theorem Calm.move (a b n : Nat) : Calm (M.move a b n) := ⟨.move a b n, fun _ _ _ _ => rfl⟩
theorem Calm.ask (f : Obj → R α) : Calm (M.ask f) := ⟨(Alias.Reads.ask f).still, fun _ _ _ h => by unfold M.ask; rw [h.dbg]⟩
theorem Calm.assert (c : Obj → R Bool) : Calm (M.assert c) := .ask _
theorem Calm.require (c : Bool) : Calm (Base.require c) := by
  unfold Base.require; split
  · exact .pure _
  · exact .raise _
theorem Calm.validate (e : PctSet) (s : Str) : Calm (Base.validate e s) := .require _
theorem Calm.parsed (ps : PS) : Calm (Base.parsed ps) := by
  unfold Base.parsed
  split
  · exact .fault _
  · split
    · exact .raise _
    · exact .pure _

/-- decompose a call into fair steps -/
macro "fair" : tactic => `(tactic| repeat' (with_reducible first
  | assumption
  | exact Fair.storage_resize _
  | exact Fair.reserve _
  | exact Calm.fair (Calm.put _ _)
  | exact Calm.fair (Calm.setPt _)
  | exact Calm.fair (Calm.move _ _ _)
  | exact Calm.fair (Calm.pure _)
  | exact Calm.fair (Calm.raise _)
  | exact Calm.fair (Calm.fault _)
  | exact Calm.fair Calm.pt
  | exact Calm.fair Calm.sizeMax
  | exact Calm.fair Calm.isNull
  | exact Calm.fair Calm.stored
  | exact Calm.fair Calm.capacity
  | exact Calm.fair Calm.undefined
  | exact Calm.fair (Calm.ask _)
  | exact Calm.fair (Calm.assert _)
  | exact Calm.fair (Calm.require _)
  | exact Calm.fair (Calm.validate _ _)
  | exact Calm.fair (Calm.parsed _)
  | refine Fair.bind ?_ fun _ => ?_
  | split
  | dsimp only))

theorem Fair.parsedAll (ps : PS) : Fair (Base.parsedAll ps) := by unfold Base.parsedAll; fair
theorem Fair.assertUserinfo : Fair Base.assertUserinfo := by unfold Base.assertUserinfo; fair
theorem Fair.resize (id n : Nat) : Fair (Base.resize id n) := by unfold Base.resize; fair
theorem Fair.resize2 (a b n : Nat) : Fair (Base.resize2 a b n) := by unfold Base.resize2; fair
theorem Fair.split (id n : Nat) : Fair (Base.split id n) := by unfold Base.split; fair

macro "fair2" : tactic => `(tactic| repeat' (with_reducible first
  | assumption
  | exact Fair.resize _ _
  | exact Fair.resize2 _ _ _
  | exact Fair.split _ _
  | exact Fair.parsedAll _
  | exact Fair.assertUserinfo
  | exact Fair.storage_resize _
  | exact Fair.reserve _
  | exact Calm.fair (Calm.put _ _)
  | exact Calm.fair (Calm.setPt _)
  | exact Calm.fair (Calm.move _ _ _)
  | exact Calm.fair (Calm.pure _)
  | exact Calm.fair (Calm.raise _)
  | exact Calm.fair (Calm.fault _)
  | exact Calm.fair Calm.pt
  | exact Calm.fair Calm.sizeMax
  | exact Calm.fair Calm.isNull
  | exact Calm.fair Calm.stored
  | exact Calm.fair Calm.capacity
  | exact Calm.fair Calm.undefined
  | exact Calm.fair (Calm.ask _)
  | exact Calm.fair (Calm.assert _)
  | exact Calm.fair (Calm.require _)
  | exact Calm.fair (Calm.validate _ _)
  | exact Calm.fair (Calm.parsed _)
  | refine Fair.bind ?_ fun _ => ?_
  | split
  | dsimp only))

theorem fair_addHost (s : Str) : Fair (Base.addHost s) := by unfold Base.addHost; fair2
theorem fair_set_user (s : Str) : Fair (Base.set_user s) := by unfold Base.set_user; fair2
theorem fair_set_password (s : Str) : Fair (Base.set_password s) := by unfold Base.set_password; fair2
theorem fair_set_port (s : Str) : Fair (Base.set_port s) := by unfold Base.set_port; fair2
theorem fair_set_encoded_userinfo (s : Str) : Fair (Base.set_encoded_userinfo s) := by unfold Base.set_encoded_userinfo; fair2
theorem fair_set_encoded_password (s : Str) : Fair (Base.set_encoded_password s) := by
  have := fair_set_password s
  unfold Base.set_encoded_password; fair2
theorem fair_set_host (s : Str) : Fair (Base.set_host s) := by
  have := fair_addHost s
  unfold Base.set_host; fair2
theorem fair_lowerLoop : ∀ n i, Fair (Base.lowerLoop i n)
  | 0, _ => (Calm.pure _).fair
  | n + 1, i => by
    have := fair_lowerLoop n (i + 1)
    unfold Base.lowerLoop; fair2
theorem fair_normalize_scheme : Fair Base.normalize_scheme := by
  unfold Base.normalize_scheme
  dsimp only
  refine .bind Calm.pt.fair fun _ => ?_
  split
  · exact (Calm.pure _).fair
  · exact .bind (Calm.assert _).fair fun _ => .bind Calm.pt.fair fun _ => fair_lowerLoop _ _

theorem fair_run (op : Op) : Fair (Url.run op) := by
  cases op <;> unfold Url.run <;> dsimp only
  case set_encoded_url s => unfold Base.set_encoded_url; fair2
  case set_encoded_origin s => unfold Base.set_encoded_origin; fair2
  case set_scheme s => unfold Base.set_scheme; fair2
  case set_encoded_authority s => unfold Base.set_encoded_authority; fair2
  case set_encoded_userinfo s => exact fair_set_encoded_userinfo s
  case set_userinfo_part s =>
    have := fair_set_encoded_userinfo s
    have := fair_set_encoded_userinfo (s.take (s.length - 1))
    unfold Base.set_userinfo_part; fair2
  case set_user s => exact fair_set_user s
  case set_encoded_user s =>
    have := fair_set_user s
    unfold Base.set_encoded_user; fair2
  case set_password s => exact fair_set_password s
  case set_encoded_password s => exact fair_set_encoded_password s
  case set_password_part s =>
    have := fair_set_password s
    have := fair_set_encoded_password (s.drop 1)
    unfold Base.set_password_part; fair2
  case set_host s => exact fair_set_host s
  case set_encoded_host s =>
    have := fair_set_host s
    have := fair_addHost s
    unfold Base.set_encoded_host; fair2
  case set_port s => exact fair_set_port s
  case set_port_number n =>
    unfold Base.set_port_number
    exact .bind (Calm.ask _).fair fun s => fair_set_port s
  case set_port_part s =>
    have := fair_set_port s
    have := fair_set_port (s.drop 1)
    unfold Base.set_port_part; fair2
  case set_encoded_path s => unfold Base.set_encoded_path; fair2
  case set_query s => unfold Base.set_query Base.setPlain; fair2
  case set_encoded_query s => unfold Base.set_encoded_query Base.setEncoded; fair2
  case set_query_part s => unfold Base.set_query_part Base.setPart; fair2
  case set_fragment s => unfold Base.set_fragment Base.setPlain; fair2
  case set_encoded_fragment s => unfold Base.set_encoded_fragment Base.setEncoded; fair2
  case set_fragment_part s => unfold Base.set_fragment_part Base.setPart; fair2
  case normalize_scheme => exact fair_normalize_scheme
  case normalize => exact fair_normalize_scheme

theorem fair_erase_range (a b : SegIt) : Fair (Base.seg_erase_range a b) := by unfold Base.seg_erase_range; fair2
theorem fair_erase (a : SegIt) : Fair (Base.seg_erase a) := .bind (Calm.ask _).fair fun _ => fair_erase_range _ _
theorem fair_seg_put (a : SegIt) (n : Nat) (s : Str) : Fair (Base.seg_put a n s) := by unfold Base.seg_put; fair2
theorem fair_insert_encoded_impl (a : SegIt) (s : Str) : Fair (Base.seg_insert_encoded_impl a s) :=
  .bind (Calm.assert _).fair fun _ => fair_seg_put _ _ _
theorem fair_insert_impl (a : SegIt) (s : Str) (n : Nat) : Fair (Base.seg_insert_impl a s n) :=
  .bind (Calm.assert _).fair fun _ => fair_seg_put _ _ _
theorem fair_swap (a : SegIt) (n : Nat) {ins : SegIt → M SegIt} (h : ∀ a, Fair (ins a)) : Fair (Base.seg_swap a n ins) := by
  unfold Base.seg_swap
  dsimp only
  refine .bind Calm.stored.fair fun _ => .bind (Calm.assert _).fair fun _ => ?_
  have rest : Fair (M.capacity >>= fun cap => Base.seg_erase a >>= fun x => ins x >>= fun r => M.capacity >>= fun cap' =>
      M.assert (fun _ => .ok (cap' = cap)) >>= fun _ => (pure r : M SegIt)) :=
    .bind Calm.capacity.fair fun _ => .bind (fair_erase a) fun _ => .bind (h _) fun _ =>
      .bind Calm.capacity.fair fun _ => .bind (Calm.assert _).fair fun _ => (Calm.pure _).fair
  split
  · exact .bind Calm.stored.fair fun _ => .bind (.reserve _) fun _ => rest
  · exact rest

theorem fair_runIt (e : ItOp) : Fair (runIt e) := by
  cases e <;> unfold runIt <;> dsimp only
  · exact fair_erase _
  · exact fair_erase_range _ _
  · exact fair_insert_impl _ _ _
  · exact .bind (Calm.validate _ _).fair fun _ => fair_insert_encoded_impl _ _
  · exact fair_swap _ _ fun _ => fair_insert_impl _ _ _
  · exact .bind (Calm.validate _ _).fair fun _ => fair_swap _ _ fun _ => fair_insert_encoded_impl _ _

theorem fair_runSeg (e : SegOp) : Fair (runSeg e) := by
  cases e <;> unfold runSeg <;> dsimp only <;> refine .bind (Calm.ask _).fair fun _ => ?_
  · exact fair_erase _
  · exact .bind (Calm.ask _).fair fun _ => fair_erase_range _ _
  · exact fair_insert_impl _ _ _
  · exact .bind (Calm.validate _ _).fair fun _ => fair_insert_encoded_impl _ _
  · exact fair_swap _ _ fun _ => fair_insert_impl _ _ _
  · exact .bind (Calm.validate _ _).fair fun _ => fair_swap _ _ fun _ => fair_insert_encoded_impl _ _

end Url.Fair
