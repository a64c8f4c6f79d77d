import Verif.Model.UrlBase
import Verif.Proofs.View

/-!
The buffer of a `url_base` as a list of parts, and what `resize`, `split` and writes do to it.
-/

set_option linter.unusedSimpArgs false
attribute [-simp] List.length_flatten

namespace Url

variable {α β : Type} {env : Env} {st : St}

/-! ### running -/

theorem run_bind (m : M α) (f : α → M β) : (m >>= f) env st =
    match m env st with
    | .ret a st => f a env st
    | .throw e st => .throw e st
    | .fault x => .fault x := rfl

theorem run_bind_ret {m : M α} {f : α → M β} {a : α} {st' : St} (h : m env st = .ret a st') :
    (m >>= f) env st = f a env st' := by rw [run_bind, h]

theorem run_bind_throw {m : M α} {f : α → M β} {e : Exc} {st' : St} (h : m env st = .throw e st') :
    (m >>= f) env st = .throw e st' := by rw [run_bind, h]

@[simp] theorem run_pure (a : α) : (pure a : M α) env st = .ret a st := rfl
@[simp] theorem run_raise (e : Exc) : (M.raise e : M α) env st = .throw e st := rfl
@[simp] theorem run_pt : M.pt env st = .ret st.pt st := rfl
@[simp] theorem run_sizeMax : M.sizeMax env st = .ret env.sizeMax st := rfl
@[simp] theorem run_isNull : M.isNull env st = .ret st.buf.isNone st := rfl
@[simp] theorem run_setPt (f : Parts → Parts) : M.setPt f env st = .ret () { st with pt := f st.pt } := rfl

theorem run_ask {f : Obj → R α} {a : α} (h : f (st.obj env.dbg) = .ok a) : M.ask f env st = .ret a st := by
  simp [M.ask, h]

theorem run_assert {c : Obj → R Bool} (h : c (st.obj env.dbg) = .ok true) : M.assert c env st = .ret () st := by
  refine run_ask ?_
  rw [h, assert_true]

theorem run_ite {c : Prop} [Decidable c] (a b : M α) : (if c then a else b) env st = if c then a env st else b env st := by
  split <;> rfl

/-! ### cells -/

theorem ptRep_cells {pt : Parts} {L : List Str} : PtRep pt (L.map (·.map some)) ↔ PtRep pt L := by
  have : ∀ i, plen (L.map (·.map some)) i = plen L i := by
    intro i
    unfold plen
    rw [← List.map_take, ← List.map_flatten, List.length_map]
  unfold PtRep
  simp only [this]

/-- The allocation: `T` is the text, `t` the cell after it. -/
def BufHolds (st : St) (T : List Cell) (t : Cell) : Prop :=
  (st.buf = none ∧ T = [] ∧ st.cap = 0 ∧ st.size = 0) ∨
  (∃ junk, st.buf = some (T ++ t :: junk) ∧ (T ++ t :: junk).length = st.cap + 1 ∧
    T.length ≤ st.size ∧ st.size ≤ st.cap)

/-- The capacity is one the allocator could have provided. -/
def CapOk (env : Env) (st : St) : Prop := st.cap = 0 ∨ st.cap + 1 ≤ env.maxSize

/-- The cell after the text: a terminator, or nothing was ever written there. -/
def Term (t : Cell) : Prop := t = none ∨ t = some 0

/-- The state holds the parts `L` (as cells), followed by the cell `t`. -/
structure Holds (env : Env) (st : St) (L : List (List Cell)) (t : Cell) : Prop where
  rep : PtRep st.pt L
  len : L.length = 8
  buf : BufHolds st L.flatten t
  cap : CapOk env st
  term : Term t

/-- The storage can provide `m` characters: they fit, or the allocation succeeds. -/
def Stores (env : Env) (st : St) (m : Nat) : Prop :=
  m ≤ st.cap ∨ (Storage.newCap env.maxSize st.cap m + 1 ≤ env.maxSize ∧
    env.alloc st.tick (Storage.newCap env.maxSize st.cap m + 1) = true)

instance (env : Env) (st : St) (m : Nat) : Decidable (Stores env st m) := by
  unfold Stores; infer_instance

/-- How capacity and allocation count change when room for `m` characters is made. -/
def Grow (env : Env) (m : Nat) (st st' : St) : Prop :=
  (m ≤ st.cap ∧ st'.cap = st.cap ∧ st'.tick = st.tick) ∨
  (st.cap < m ∧ st'.cap = Storage.newCap env.maxSize st.cap m ∧ st'.tick = st.tick + 1)

/-- Equal up to the count of (failed) allocations. -/
def Same (st st' : St) : Prop := { st' with tick := st.tick } = st

theorem Same.refl (st : St) : Same st st := rfl

theorem newCap_ge {env : Env} {cap n : Nat} (h : Storage.newCap env.maxSize cap n + 1 ≤ env.maxSize) :
    n ≤ Storage.newCap env.maxSize cap n ∧ 2 * cap ≤ Storage.newCap env.maxSize cap n := by
  unfold Storage.newCap at h ⊢
  split
  · split <;> omega
  · rename_i hh; rw [if_neg hh] at h; omega

/-- the state after a successful `Storage.resize` -/
structure Resized (env : Env) (m : Nat) (st st' : St) : Prop where
  pt : st'.pt = st.pt
  size : st'.size = m
  fits : m ≤ st'.cap
  cap : CapOk env st'
  grow : Grow env m st st'

theorem storage_resize_of {T : List Cell} {t : Cell} {m : Nat} (h : BufHolds st T t) (hc : CapOk env st)
    (hm : T.length < m) (hs : Stores env st m) :
    ∃ st' junk t', Storage.resize m env st = .ret () st' ∧ Resized env m st st' ∧
      st'.buf = some (T ++ t' :: junk) ∧ (T ++ t' :: junk).length = st'.cap + 1 ∧
      (st.buf.isSome → (t' = some 0 ↔ t = some 0 ∨ (st.size = T.length ∧ st.cap < st'.cap))) ∧ (st.buf = none → t' = none) ∧ (Term t → Term t') := by
  by_cases hle : m ≤ st.cap
  · rcases h with ⟨h1, h2, h3, h4⟩ | ⟨junk, hb, hl, h1, h2⟩
    · omega
    · obtain ⟨k, rfl⟩ : ∃ k, m = T.length + (k + 1) := ⟨m - T.length - 1, by omega⟩
      have hset : (T ++ t :: junk).set (T.length + (k + 1)) (some 0) = T ++ t :: junk.set k (some 0) := by
        simp [List.set_append_right]
      refine ⟨{ st with buf := some (T ++ t :: junk.set k (some 0)), size := T.length + (k + 1) },
        junk.set k (some 0), t, ?_, ⟨?_, ?_, ?_, ?_, ?_⟩, ?_, ?_, fun _ => by simp, fun h => by simp [hb] at h, id⟩
      · unfold Storage.resize Storage.reserve
        simp only [if_pos hle, hb]
        rw [if_pos (by rw [hl]; omega), hset]
      · rfl
      · rfl
      · exact hle
      · exact hc
      · exact .inl ⟨hle, rfl, rfl⟩
      · rfl
      · simpa using hl
  · have hg : Storage.newCap env.maxSize st.cap m + 1 ≤ env.maxSize ∧
        env.alloc st.tick (Storage.newCap env.maxSize st.cap m + 1) = true := hs.resolve_left hle
    have hge := (newCap_ge hg.1)
    generalize hN : Storage.newCap env.maxSize st.cap m = N at *
    have hcap : CapOk env { st with cap := N } := .inr hg.1
    rcases h with ⟨h1, h2, h3, h4⟩ | ⟨junk, hb, hl, h1, h2⟩
    · subst h2
      obtain ⟨k, rfl⟩ : ∃ k, m = k + 1 := ⟨m - 1, by simp at hm; omega⟩
      refine ⟨{ st with buf := some (none :: (List.replicate N none).set k (some 0)), size := k + 1, cap := N, tick := st.tick + 1, addr := st.tick, log := st.log ++ [.alloc st.tick (N + 1)] },
        (List.replicate N none).set k (some 0), none, ?_, ⟨rfl, rfl, ?_, ?_, ?_⟩, ?_, ?_, ?_, ?_, fun _ => .inl rfl⟩
      · unfold Storage.resize Storage.reserve
        simp only [if_neg hle, hN]
        have : Storage.allocate (N + 1) env st = .ret st.tick { st with tick := st.tick + 1, log := st.log ++ [.alloc st.tick (N + 1)] } := by
          unfold Storage.allocate; rw [if_pos hg]
        rw [this]
        simp only [h1]
        rw [if_pos (by simp; omega)]
        simp [List.replicate_succ]
      · exact hge.1
      · exact hcap
      · exact .inr ⟨by omega, hN.symm, rfl⟩
      · rfl
      · simp
      · simp [h1]
      · simp
    · obtain ⟨k, rfl⟩ : ∃ k, m = T.length + (k + 1) := ⟨m - T.length - 1, by omega⟩
      have hlen : (T ++ t :: junk).length = st.cap + 1 := hl
      -- the cells after the text once they were copied
      obtain ⟨u, hu⟩ : ∃ u, (T ++ t :: junk).take (st.size + 1) = T ++ t :: u := by
        refine ⟨junk.take (st.size - T.length), ?_⟩
        rw [List.take_append, List.take_of_length_le (by omega),
          show st.size + 1 - T.length = (st.size - T.length) + 1 by omega]
        rfl
      have hul : (T ++ t :: u).length = st.size + 1 := by
        rw [← hu, List.length_take]; omega
      have hset : ∃ t1 u1, (T ++ t :: u ++ List.replicate (N + 1 - (st.size + 1)) none).set st.size (some 0) =
          T ++ t1 :: u1 ∧ (t1 = some 0 ↔ t = some 0 ∨ st.size = T.length) ∧ (Term t → Term t1) := by
        by_cases he : st.size = T.length
        · refine ⟨some 0, u ++ List.replicate (N + 1 - (st.size + 1)) none, ?_, by simp [he], fun _ => .inr rfl⟩
          simp [he, List.set_append_right]
        · obtain ⟨j, hj⟩ : ∃ j, st.size = T.length + (j + 1) := ⟨st.size - T.length - 1, by omega⟩
          refine ⟨t, (u ++ List.replicate (N + 1 - (st.size + 1)) none).set j (some 0), ?_, by simp [hj], id⟩
          simp [hj, List.set_append_right]
      obtain ⟨t1, u1, hset, ht1, htm⟩ := hset
      have hl1 : (T ++ t1 :: u1).length = N + 1 := by
        rw [← hset, List.length_set, List.length_append, hul, List.length_replicate]
        omega
      refine ⟨{ st with buf := some (T ++ t1 :: u1.set k (some 0)), size := T.length + (k + 1), cap := N, tick := st.tick + 1, addr := st.tick, log := st.log ++ [.alloc st.tick (N + 1)] ++ [.free st.addr (st.cap + 1)] }, u1.set k (some 0), t1, ?_, ⟨rfl, rfl, ?_, ?_, ?_⟩, rfl, ?_, fun _ => ?_, ?_, htm⟩
      · unfold Storage.resize Storage.reserve
        simp only [if_neg hle, hN]
        have : Storage.allocate (N + 1) env st = .ret st.tick { st with tick := st.tick + 1, log := st.log ++ [.alloc st.tick (N + 1)] } := by
          unfold Storage.allocate; rw [if_pos hg]
        rw [this]
        simp only [hb]
        rw [if_pos (by rw [hlen]; omega), hu, hset]
        simp only [hl1]
        rw [if_pos (by omega)]
        simp [List.set_append_right]
      · exact hge.1
      · exact hcap
      · exact .inr ⟨by omega, hN.symm, rfl⟩
      · simpa using hl1
      · rw [ht1]
        have : st.cap < N := by omega
        simp [this]
      · simp [hb]

theorem storage_resize_throw {m : Nat} (hs : ¬ Stores env st m) :
    Storage.resize m env st = .throw .bad_alloc { st with tick := st.tick + 1 } := by
  unfold Stores at hs
  unfold Storage.resize Storage.reserve
  rw [if_neg (fun h => hs (.inl h))]
  have : Storage.allocate (Storage.newCap env.maxSize st.cap m + 1) env st = .throw .bad_alloc { st with tick := st.tick + 1 } := by
    unfold Storage.allocate; rw [if_neg (fun h => hs (.inr h))]
  simp only [this]

/-! ### `resize`, writes and `split` as steps on the list of parts -/

/-- The buffer is owned and null terminated. -/
def Nul (st : St) : Prop := ∃ b, st.buf = some b ∧ b[st.pt.off id_end]? = some (some 0)

theorem Holds.off_end {L t} (h : Holds env st L t) : st.pt.off id_end = L.flatten.length := by
  rw [h.rep, plen_of_le (by rw [h.len]; decide)]

theorem Holds.nul_iff {L t} (h : Holds env st L t) : Nul st ↔ st.buf.isSome = true ∧ t = some 0 := by
  unfold Nul
  rw [h.off_end]
  rcases h.buf with ⟨h1, -⟩ | ⟨junk, hb, -⟩
  · simp [h1]
  · simp [hb]

/-- The terminator was there, or memory was allocated for more than what there was: then it is put in place if the
size is up to date. -/
def Mended (st st' : St) : Prop := Nul st ∨ (st.buf.isSome = true ∧ st.size = st.pt.off id_end ∧ st.cap < st'.cap)

theorem Mended.same {st st' : St} (h : st'.cap = st.cap) : Mended st st' ↔ Nul st := by
  unfold Mended; rw [h]; simp

/-- the terminator after `Storage.resize` -/
theorem nul_resized {L t} {st' st'' : St} {t' : Cell} (h : Holds env st L t)
    (ht : st.buf.isSome → (t' = some 0 ↔ t = some 0 ∨ (st.size = L.flatten.length ∧ st.cap < st'.cap)))
    (ht2 : st.buf = none → t' = none) (hb : st''.buf.isSome = true) (hc : st''.cap = st'.cap) :
    st''.buf.isSome = true ∧ t' = some 0 ↔ Mended st st'' := by
  unfold Mended
  rw [h.nul_iff, h.off_end, hc]
  cases hbuf : st.buf with
  | none => simp [ht2 hbuf]
  | some b =>
    rw [hbuf] at ht
    simp [ht rfl, hb]

/-- On the way from `st₀` to a state with `m` characters: the parts are `L`. -/
structure Prog (env : Env) (st₀ : St) (m : Nat) (L : List (List Cell)) (st : St) (t : Cell) : Prop where
  holds : Holds env st L t
  grow : Grow env m st₀ st
  len : L.flatten.length = m
  nseg : st.pt.nseg = st₀.pt.nseg
  nparam : st.pt.nparam = st₀.pt.nparam
  host : st.pt.host = st₀.pt.host
  nul : st.buf.isSome = true ∧ t = some 0 ↔ Mended st₀ st
  own : st₀.buf.isSome = true → st.buf.isSome = true

theorem PtRep.shift {pt : Parts} {A B : List (List β)} {x x' : List β} {f : Nat → Nat}
    (h : PtRep pt (A ++ x :: B))
    (hf : ∀ k, f (A.flatten.length + (x.length + k)) = A.flatten.length + (x'.length + k)) :
    PtRep (pt.shift A.length f) (A ++ x' :: B) := by
  intro i
  simp only [Parts.shift]
  split
  · rename_i hi
    obtain ⟨k, rfl⟩ : ∃ k, i = A.length + (k + 1) := ⟨i - A.length - 1, by omega⟩
    rw [h, plen_append_right, plen_append_right, plen_cons, plen_cons, hf]
  · rename_i hi
    rw [h, plen_append_left _ _ (by omega), plen_append_left _ _ (by omega)]

theorem PtRep.off_at {pt : Parts} {A B : List (List β)} (h : PtRep pt (A ++ B)) : pt.off A.length = A.flatten.length := by
  have := plen_append_right A B 0
  rw [h, ← Nat.add_zero A.length, this]; simp

theorem PtRep.off_succ {pt : Parts} {A B : List (List β)} {x : List β} (h : PtRep pt (A ++ x :: B)) :
    pt.off (A.length + 1) = A.flatten.length + x.length := by
  rw [h, plen_append_right]; simp

theorem PtRep.length_at {pt : Parts} {A B : List (List β)} {x : List β} (h : PtRep pt (A ++ x :: B)) :
    pt.length A.length = x.length := by
  unfold Parts.length
  rw [h.off_succ, h.off_at]; omega

/-- moving the tail of the text down -/
theorem move_down {a x b T : List Cell} {t : Cell} {junk : List Cell} {n : Nat} (hn : n ≤ x.length)
    (hb : st.buf = some (T ++ t :: junk)) (hT : T = a ++ x ++ b) :
    ∃ junk', M.move (a.length + x.length - (x.length - n)) (a.length + x.length) (b.length + 1) env st =
      .ret () { st with buf := some ((a ++ x.take n ++ b) ++ t :: junk') } ∧
      ((a ++ x.take n ++ b) ++ t :: junk').length = (T ++ t :: junk).length := by
  subst hT
  refine ⟨(a ++ x ++ b ++ t :: junk).drop (a.length + n + (b.length + 1)), ?_, ?_⟩
  · unfold M.move
    rw [if_neg (by omega), hb]
    simp only
    rw [if_pos (by simp; omega), show a.length + x.length - (x.length - n) = a.length + n by omega]
    have e1 : (a ++ x ++ b ++ t :: junk).take (a.length + n) = a ++ x.take n := by
      simp [List.take_append, Nat.sub_eq_zero_of_le hn, List.take_of_length_le]
    have e2 : ((a ++ x ++ b ++ t :: junk).drop (a.length + x.length)).take (b.length + 1) = b ++ [t] := by
      have : (a ++ x ++ b ++ t :: junk) = (a ++ x) ++ (b ++ t :: junk) := by simp
      rw [this, ← List.length_append, List.drop_left, show b ++ t :: junk = (b ++ [t]) ++ junk by simp,
        show b.length + 1 = (b ++ [t]).length by simp, List.take_left]
    rw [e1, e2]
    simp
  · simp; omega

/-- moving the tail of the text up -/
theorem move_up {a x b T : List Cell} {t : Cell} {junk : List Cell} {k : Nat}
    (hb : st.buf = some (T ++ t :: junk)) (hT : T = a ++ x ++ b) (hl : T.length + k < (T ++ t :: junk).length) :
    ∃ y junk', y.length = k ∧ M.move (a.length + x.length + k) (a.length + x.length) (b.length + 1) env st =
      .ret () { st with buf := some ((a ++ (x ++ y) ++ b) ++ t :: junk') } ∧
      ((a ++ (x ++ y) ++ b) ++ t :: junk').length = (T ++ t :: junk).length := by
  subst hT
  refine ⟨(b ++ t :: junk).take k, (a ++ x ++ b ++ t :: junk).drop (a.length + x.length + k + (b.length + 1)), ?_, ?_, ?_⟩
  · simp at hl ⊢; omega
  · unfold M.move
    rw [if_neg (by omega), hb]
    simp only
    rw [if_pos (by simp at hl ⊢; omega)]
    have e0 : (a ++ x ++ b ++ t :: junk) = (a ++ x) ++ (b ++ t :: junk) := by simp
    have e1 : (a ++ x ++ b ++ t :: junk).take (a.length + x.length + k) = a ++ (x ++ (b ++ t :: junk).take k) := by
      rw [e0, ← List.length_append, List.take_length_add_append]; simp
    have e2 : ((a ++ x ++ b ++ t :: junk).drop (a.length + x.length)).take (b.length + 1) = b ++ [t] := by
      rw [e0, ← List.length_append, List.drop_left, show b ++ t :: junk = (b ++ [t]) ++ junk by simp,
        show b.length + 1 = (b ++ [t]).length by simp, List.take_left]
    rw [e1, e2]
    simp
  · simp at hl ⊢; omega

/-- `resize(id, n)` makes part `id` have length `n`. -/
theorem resize_step {A B : List (List Cell)} {X : List Cell} {t : Cell} {id n m : Nat} {f : Nat → M β}
    {P : Out β → Prop} (h : Holds env st (A ++ X :: B) t) (hid : id = A.length)
    (hm : A.flatten.length + n + B.flatten.length = m)
    (hok : Stores env st m → ∀ X' st' t', X'.length = n → X'.take X.length = X.take n →
      Prog env st m (A ++ X' :: B) st' t' → P (f A.flatten.length env st'))
    (hthrow : ¬ Stores env st m → ∀ e st', e = .bad_alloc ∨ e = .too_large → Same st st' → P (.throw e st')) :
    P ((Base.resize id n >>= f) env st) := by
  subst hid
  have hlen := h.rep.length_at
  have hoff := h.rep.off_at
  have hsucc := h.rep.off_succ
  have hend := h.off_end
  have htot : (A ++ X :: B).flatten = A.flatten ++ X ++ B.flatten := by simp
  have htl : (A ++ X :: B).flatten.length = A.flatten.length + X.length + B.flatten.length := by
    rw [htot]; simp; omega
  have hfit : A.flatten.length + X.length + B.flatten.length ≤ st.cap := by
    rcases h.buf with ⟨-, h2, h3, -⟩ | ⟨junk, -, hl, -⟩
    · rw [h2] at htl; simp at htl; omega
    · rw [List.length_append, htl] at hl; simp at hl; omega
  rw [run_bind]
  unfold Base.resize
  simp only [run_bind, run_pt, hlen, run_ite]
  by_cases h1 : X.length = n
  · rw [if_pos h1]
    simp only [run_pure, hoff]
    have hcap : m ≤ st.cap := by omega
    refine hok (.inl hcap) X st t h1 (by rw [h1]) ⟨h, .inl ⟨hcap, rfl, rfl⟩, ?_, rfl, rfl, rfl, h.nul_iff.symm.trans (Mended.same rfl).symm, id⟩
    rw [htl]; omega
  · rw [if_neg h1]
    by_cases h2 : n ≤ X.length
    · rw [if_pos h2]
      have hcap : m ≤ st.cap := by omega
      rcases h.buf with ⟨-, h3, -, -⟩ | ⟨junk, hb, hl, hs1, hs2⟩
      · rw [h3] at htl; simp at htl; omega
      · obtain ⟨junk', hmv, hl'⟩ := move_down (env := env) (st := st) (n := n) h2 hb htot
        rw [hsucc, hend, show (A ++ X :: B).flatten.length - (A.flatten.length + X.length) + 1 = B.flatten.length + 1 by omega, hmv]
        simp only [run_setPt, run_pure, hoff]
        refine hok (.inl hcap) (X.take n) _ t ?_ ?_ ⟨⟨?_, ?_, ?_, h.cap, h.term⟩, .inl ⟨hcap, rfl, rfl⟩, ?_, rfl, rfl, rfl, ?_, ?_⟩
        · simp; omega
        · rw [List.take_take]; congr 1; omega
        · show PtRep (st.pt.shift A.length (· - (X.length - n))) _
          refine PtRep.shift (x := X) h.rep ?_
          intro k; simp; omega
        · have := h.len; simp at this ⊢; omega
        · refine .inr ⟨junk', ?_, ?_, ?_, hs2⟩
          · simp
          · rw [← hl, ← hl']; simp
          · simp; rw [htl] at hs1; omega
        · simp; omega
        · refine Iff.trans ?_ (Mended.same rfl).symm
          rw [h.nul_iff, hb]; simp
        · intro _; rfl
    · rw [if_neg h2]
      simp only [run_sizeMax]
      have hbig : n - X.length > env.sizeMax - st.pt.off id_end ↔ m > env.sizeMax := by rw [hend, htl]; omega
      by_cases h3 : m > env.sizeMax
      · rw [if_pos (hbig.2 h3)]
        simp only [run_raise]
        refine hthrow ?_ _ _ (.inr rfl) (Same.refl _)
        have := env.max_le
        rintro (hh | ⟨hh, -⟩)
        · rcases h.cap with hc | hc <;> omega
        · have := (newCap_ge hh).1; omega
      · rw [if_neg (fun hh => h3 (hbig.1 hh))]
        have hm' : st.pt.off id_end - X.length + n = m := by rw [hend, htl]; omega
        rw [hm']
        by_cases hs : Stores env st m
        · obtain ⟨st', junk, t', hr, hz, hb, hl, ht, ht2, htm⟩ := storage_resize_of h.buf h.cap (by rw [htl]; omega) hs
          have htot' := htot
          obtain ⟨y, junk', hy, hmv, hl'⟩ := move_up (env := env) (st := st') (k := n - X.length) hb htot
            (by rw [hl, htl]; have := hz.fits; omega)
          simp only [hr]
          rw [hsucc, hend, show (A ++ X :: B).flatten.length - (A.flatten.length + X.length) + 1 = B.flatten.length + 1 by omega, hmv]
          simp only [run_setPt, run_pure, hoff]
          refine hok hs (X ++ y) _ t' ?_ ?_ ⟨⟨?_, ?_, ?_, ?_, htm h.term⟩, ?_, ?_, ?_, ?_, ?_, ?_, ?_⟩
          · simp; omega
          · simp [List.take_of_length_le (show X.length ≤ n by omega)]
          · rw [hz.pt]
            show PtRep (st.pt.shift A.length (· + (n - X.length))) _
            refine PtRep.shift (x := X) h.rep ?_
            intro k; simp; omega
          · have := h.len; simp at this ⊢; omega
          · refine .inr ⟨junk', ?_, ?_, ?_, ?_⟩
            · simp
            · rw [← hl, ← hl']; simp
            · have := hz.size; simp; omega
            · have := hz.size; have := hz.fits; simp; omega
          · exact hz.cap
          · exact hz.grow
          · simp; omega
          · simp [Parts.shift, hz.pt]
          · simp [Parts.shift, hz.pt]
          · simp [Parts.shift, hz.pt]
          · exact nul_resized h ht ht2 rfl rfl
          · intro _; rfl
        · rw [storage_resize_throw hs]
          exact hthrow hs _ _ (.inl rfl) rfl

theorem plen_replicate (k i : Nat) : plen (List.replicate k ([] : List β)) i = 0 := by
  simp [plen, List.take_replicate]

theorem PtRep.shift2 {pt : Parts} {A Xs B : List (List β)} {x' : List β} {f : Nat → Nat} {k : Nat}
    (h : PtRep pt (A ++ (Xs ++ B))) (hk : Xs.length = k + 1)
    (hf : ∀ k, f (A.flatten.length + (Xs.flatten.length + k)) = A.flatten.length + (x'.length + k)) :
    PtRep (pt.shift2 A.length (A.length + (k + 1)) f) (A ++ (x' :: List.replicate k [] ++ B)) := by
  have hl : (x' :: List.replicate k ([] : List β)).length = k + 1 := by simp
  have hfl : (x' :: List.replicate k ([] : List β)).flatten.length = x'.length := by simp
  intro i
  simp only [Parts.shift2]
  split
  · rename_i hi
    obtain ⟨j, rfl⟩ : ∃ j, i = A.length + (k + 1 + j) := ⟨i - A.length - (k + 1), by omega⟩
    have e1 := plen_append_right Xs B j
    have e2 := plen_append_right (x' :: List.replicate k ([] : List β)) B j
    rw [hk] at e1
    rw [hl, hfl] at e2
    rw [h, plen_append_right, plen_append_right, e1, e2, hf]
  · split
    · rename_i h1 hi
      obtain ⟨j, rfl⟩ : ∃ j, i = A.length + (j + 1) := ⟨i - A.length - 1, by omega⟩
      have e1 := plen_append_right Xs B 0
      rw [hk, Nat.add_zero] at e1
      rw [h, plen_append_right, plen_append_right, e1, hf, List.cons_append, plen_cons,
        plen_append_left _ _ (by simp; omega), plen_replicate]
      simp
    · rename_i h1 hi
      rw [h, plen_append_left _ _ (by omega), plen_append_left _ _ (by omega)]

/-- `resize(first, last, n)` joins the parts `first..last-1` into part `first`, of length `n`. -/
theorem resize2_step {A Xs B : List (List Cell)} {t : Cell} {first last k n m : Nat} {f : Nat → M β}
    {P : Out β → Prop} (h : Holds env st (A ++ (Xs ++ B)) t) (hk : Xs.length = k + 1) (hfirst : first = A.length)
    (hlast : last = A.length + (k + 1)) (hm : A.flatten.length + n + B.flatten.length = m)
    (hok : Stores env st m → ∀ X' st' t', X'.length = n → X'.take Xs.flatten.length = Xs.flatten.take n →
      Prog env st m (A ++ (X' :: List.replicate k [] ++ B)) st' t' → P (f A.flatten.length env st'))
    (hthrow : ¬ Stores env st m → ∀ e st', e = .bad_alloc ∨ e = .too_large → Same st st' → P (.throw e st')) :
    P ((Base.resize2 first last n >>= f) env st) := by
  subst hfirst hlast
  have hoff := h.rep.off_at
  have hlst : st.pt.off (A.length + (k + 1)) = A.flatten.length + Xs.flatten.length := by
    have := plen_append_right Xs B 0
    rw [hk, Nat.add_zero] at this
    rw [h.rep, plen_append_right, this]; simp
  have hlen : st.pt.length2 A.length (A.length + (k + 1)) = Xs.flatten.length := by
    unfold Parts.length2; omega
  have hend := h.off_end
  generalize hX : Xs.flatten = X at *
  have htot : (A ++ (Xs ++ B)).flatten = A.flatten ++ X ++ B.flatten := by simp [hX]
  have htl : (A ++ (Xs ++ B)).flatten.length = A.flatten.length + X.length + B.flatten.length := by
    rw [htot]; simp; omega
  have hfit : A.flatten.length + X.length + B.flatten.length ≤ st.cap := by
    rcases h.buf with ⟨-, h2, h3, -⟩ | ⟨junk, -, hl, -⟩
    · rw [h2] at htl; simp at htl; omega
    · rw [List.length_append, htl] at hl; simp at hl; omega
  have hlen8 : ∀ X' : List Cell, (A ++ (X' :: List.replicate k [] ++ B)).length = 8 := by
    intro X'; have := h.len; simp [hk] at this ⊢; omega
  have hflat : ∀ X' : List Cell, (A ++ (X' :: List.replicate k [] ++ B)).flatten = A.flatten ++ X' ++ B.flatten := by
    intro X'; simp
  rw [run_bind]
  unfold Base.resize2
  simp only [run_bind, run_pt, hlen, run_ite]
  by_cases h1 : n = 0 ∧ X.length = 0
  · rw [if_pos h1]
    simp only [run_pure, hoff]
    have hcap : m ≤ st.cap := by omega
    have hXs : Xs = [] :: List.replicate k [] := by
      rw [← List.replicate_succ, ← hk]
      refine List.eq_replicate_iff.2 ⟨rfl, fun b hb => ?_⟩
      rw [← hX, List.length_eq_zero_iff, List.flatten_eq_nil_iff] at h1
      exact h1.2 b hb
    have hX0 : X = [] := List.length_eq_zero_iff.1 h1.2
    refine hok (.inl hcap) [] st t h1.1.symm (by simp [hX0]) ⟨?_, .inl ⟨hcap, rfl, rfl⟩, ?_, rfl, rfl, rfl, h.nul_iff.symm.trans (Mended.same rfl).symm, id⟩
    · rw [hXs] at h; exact h
    · rw [hflat]; simp; omega
  · rw [if_neg h1]
    by_cases h2 : n ≤ X.length
    · rw [if_pos h2]
      have hcap : m ≤ st.cap := by omega
      rcases h.buf with ⟨-, h3, -, -⟩ | ⟨junk, hb, hl, hs1, hs2⟩
      · rw [h3] at htl; simp at htl; omega
      · obtain ⟨junk', hmv, hl'⟩ := move_down (env := env) (st := st) (n := n) h2 hb htot
        rw [hlst, hend, show (A ++ (Xs ++ B)).flatten.length - (A.flatten.length + X.length) + 1 = B.flatten.length + 1 by omega, hmv]
        simp only [run_setPt, run_pure, hoff]
        refine hok (.inl hcap) (X.take n) _ t ?_ ?_ ⟨⟨?_, ?_, ?_, h.cap, h.term⟩, .inl ⟨hcap, rfl, rfl⟩, ?_, rfl, rfl, rfl, ?_, ?_⟩
        · simp; omega
        · rw [List.take_take]; congr 1; omega
        · show PtRep (st.pt.shift2 A.length (A.length + (k + 1)) (· - (X.length - n))) _
          refine PtRep.shift2 (Xs := Xs) h.rep hk ?_
          intro k; rw [hX]; simp; omega
        · exact hlen8 _
        · rw [hflat]
          refine .inr ⟨junk', ?_, ?_, ?_, hs2⟩
          · simp
          · rw [← hl, ← hl']
          · simp; rw [htl] at hs1; omega
        · rw [hflat]; simp; omega
        · refine Iff.trans ?_ (Mended.same rfl).symm
          rw [h.nul_iff, hb]; simp
        · intro _; rfl
    · rw [if_neg h2]
      simp only [run_sizeMax]
      have hbig : n - X.length > env.sizeMax - st.pt.off id_end ↔ m > env.sizeMax := by rw [hend, htl]; omega
      by_cases h3 : m > env.sizeMax
      · rw [if_pos (hbig.2 h3)]
        simp only [run_raise]
        refine hthrow ?_ _ _ (.inr rfl) (Same.refl _)
        have := env.max_le
        rintro (hh | ⟨hh, -⟩)
        · rcases h.cap with hc | hc <;> omega
        · have := (newCap_ge hh).1; omega
      · rw [if_neg (fun hh => h3 (hbig.1 hh))]
        have hm' : st.pt.off id_end - X.length + n = m := by rw [hend, htl]; omega
        rw [hm']
        by_cases hs : Stores env st m
        · obtain ⟨st', junk, t', hr, hz, hb, hl, ht, ht2, htm⟩ := storage_resize_of h.buf h.cap (by rw [htl]; omega) hs
          obtain ⟨y, junk', hy, hmv, hl'⟩ := move_up (env := env) (st := st') (k := n - X.length) hb htot
            (by rw [hl, htl]; have := hz.fits; omega)
          simp only [hr]
          rw [hlst, hend, show (A ++ (Xs ++ B)).flatten.length - (A.flatten.length + X.length) + 1 = B.flatten.length + 1 by omega, hmv]
          simp only [run_setPt, run_pure, hoff]
          refine hok hs (X ++ y) _ t' ?_ ?_ ⟨⟨?_, ?_, ?_, ?_, htm h.term⟩, ?_, ?_, ?_, ?_, ?_, ?_, ?_⟩
          · simp; omega
          · simp [List.take_of_length_le (show X.length ≤ n by omega)]
          · rw [hz.pt]
            show PtRep (st.pt.shift2 A.length (A.length + (k + 1)) (· + (n - X.length))) _
            refine PtRep.shift2 (Xs := Xs) h.rep hk ?_
            intro k; rw [hX]; simp; omega
          · exact hlen8 _
          · rw [hflat]
            refine .inr ⟨junk', ?_, ?_, ?_, ?_⟩
            · simp
            · rw [← hl, ← hl']
            · have := hz.size; simp; omega
            · have := hz.size; have := hz.fits; simp; omega
          · exact hz.cap
          · exact hz.grow
          · rw [hflat]; simp; omega
          · simp [Parts.shift2, hz.pt]
          · simp [Parts.shift2, hz.pt]
          · simp [Parts.shift2, hz.pt]
          · exact nul_resized h ht ht2 rfl rfl
          · intro _; rfl
        · rw [storage_resize_throw hs]
          exact hthrow hs _ _ (.inl rfl) rfl

/-- `X` with the bytes `s` written at `k` -/
def ow (X : List Cell) (k : Nat) (s : Str) : List Cell := X.take k ++ s.map some ++ X.drop (k + s.length)

theorem ow_length {X : List Cell} {k : Nat} {s : Str} (h : k + s.length ≤ X.length) : (ow X k s).length = X.length := by
  simp [ow]; omega

theorem ow_cons (c : Cell) (X : List Cell) (k : Nat) (s : Str) : ow (c :: X) (k + 1) s = c :: ow X k s := by
  simp [ow, show k + 1 + s.length = (k + s.length) + 1 by omega]

theorem ow_right (X Y : List Cell) (k : Nat) (s : Str) : ow (X ++ Y) (X.length + k) s = X ++ ow Y k s := by
  simp [ow, List.take_length_add_append, Nat.add_assoc, List.drop_length_add_append]

theorem ow_left {X Y : List Cell} {s : Str} (h : X.length = s.length) : ow (X ++ Y) 0 s = s.map some ++ Y := by
  simp [ow, ← h]

theorem ow_all {X : List Cell} {s : Str} (h : X.length = s.length) : ow X 0 s = s.map some := by
  have := ow_left (Y := []) h
  simpa using this

/-- writing into part `X` -/
theorem put_step {A B : List (List Cell)} {X : List Cell} {t : Cell} {i k m : Nat} {s : Str} {f : Unit → M β}
    {P : Out β → Prop} {st₀ : St} (h : Prog env st₀ m (A ++ X :: B) st t) (hi : i = A.flatten.length + k)
    (hk : k + s.length ≤ X.length)
    (hok : ∀ st', Prog env st₀ m (A ++ ow X k s :: B) st' t → P (f () env st')) :
    P ((M.put i s >>= f) env st) := by
  subst hi
  rw [run_bind]
  unfold M.put
  cases hs : s with
  | nil =>
    simp only [List.isEmpty_nil, if_pos]
    subst hs
    refine hok st ?_
    have : ow X k [] = X := by simp [ow]
    rw [this]; exact h
  | cons c s' =>
    rw [← hs]
    have hne : s.isEmpty = false := by simp [hs]
    have hpos : 0 < s.length := by simp [hs]
    rw [hne]
    simp only [Bool.false_eq_true, if_false]
    have hol := ow_length hk
    have hflat : ∀ X', (A ++ X' :: B).flatten = A.flatten ++ X' ++ B.flatten := by intro X'; simp
    rcases h.holds.buf with ⟨-, h3, -, -⟩ | ⟨junk, hb, hl, hs1, hs2⟩
    · have := congrArg List.length h3; rw [hflat, List.length_append, List.length_append, List.length_nil] at this; omega
    · rw [hb]
      simp only
      have htl : ((A ++ X :: B).flatten ++ t :: junk) = A.flatten ++ (X ++ (B.flatten ++ t :: junk)) := by simp
      rw [if_pos (by rw [htl]; simp; omega)]
      have hw : ((A ++ X :: B).flatten ++ t :: junk).take (A.flatten.length + k) ++ s.map some ++
          ((A ++ X :: B).flatten ++ t :: junk).drop (A.flatten.length + k + s.length) =
          (A ++ ow X k s :: B).flatten ++ t :: junk := by
        have e1 := ow_right A.flatten (X ++ (B.flatten ++ t :: junk)) k s
        have e2 : ow (X ++ (B.flatten ++ t :: junk)) k s = ow X k s ++ (B.flatten ++ t :: junk) := by
          unfold ow
          rw [List.take_append_of_le_length (by omega), List.drop_append_of_le_length (by omega)]
          simp
        rw [e2] at e1
        unfold ow at e1
        rw [htl, e1]
        simp [ow]
      rw [hw]
      have hl' : ((A ++ ow X k s :: B).flatten).length = ((A ++ X :: B).flatten).length := by
        simp [hol]
      refine hok _ ⟨⟨?_, ?_, .inr ⟨junk, rfl, ?_, ?_, hs2⟩, h.holds.cap, h.holds.term⟩, h.grow, ?_, h.nseg, h.nparam, h.host, ?_, ?_⟩
      · intro i
        show st.pt.off i = _
        rw [h.holds.rep]
        unfold plen
        by_cases hi : i ≤ A.length
        · rw [List.take_append_of_le_length hi, List.take_append_of_le_length hi]
        · obtain ⟨j, rfl⟩ : ∃ j, i = A.length + (j + 1) := ⟨i - A.length - 1, by omega⟩
          simp [List.take_length_add_append, hol]
      · have := h.holds.len; simpa using this
      · rw [← hl, List.length_append, hl', List.length_append]
      · rw [hl']; exact hs1
      · rw [hl']; exact h.len
      · refine Iff.trans ?_ (show Mended st₀ st ↔ _ from Iff.rfl)
        rw [← h.nul, hb]; simp
      · intro _; rfl

/-- `pt_.split` -/
theorem split_step {A B : List (List Cell)} {x y z : List Cell} {t : Cell} {id n m : Nat} {f : Unit → M β}
    {P : Out β → Prop} {st₀ : St} (h : Prog env st₀ m (A ++ (x ++ y) :: z :: B) st t) (hid : id = A.length)
    (h7 : id < 7) (hn : n = x.length)
    (hok : ∀ st', Prog env st₀ m (A ++ x :: (y ++ z) :: B) st' t → P (f () env st')) :
    P ((Base.split id n >>= f) env st) := by
  have hlen := h.holds.rep.length_at
  rw [run_bind]
  unfold Base.split
  rw [run_bind_ret (st' := st) (a := ()) (run_assert (by simp; exact h7)),
    run_bind_ret (st' := st) (a := ()) (run_assert (by subst hid; simp [St.obj, hlen, hn]))]
  simp only [run_setPt]
  have hflat : (A ++ x :: (y ++ z) :: B).flatten = (A ++ (x ++ y) :: z :: B).flatten := by simp
  refine hok _ ⟨⟨h.holds.rep.split hid hn, ?_, ?_, h.holds.cap, h.holds.term⟩, h.grow, ?_, h.nseg, h.nparam, h.host, h.nul, h.own⟩
  · have := h.holds.len; simpa using this
  · rw [hflat]; exact h.holds.buf
  · rw [hflat]; exact h.len

theorem last_step {m : M Unit} {P : Out Unit → Prop} (h : P ((m >>= pure) env st)) : P (m env st) := by
  have : (m >>= pure) env st = m env st := by
    rw [run_bind]; cases m env st <;> rfl
  rwa [this] at h

end Url
