import Verif.Model.Machine
import Verif.Proofs.Capacity
import Verif.Proofs.Weak
import Verif.Proofs.Port

/-!
When no size is near the largest `std::size_t`, the calls of `Verif.Model.Machine` are those of the model.
-/

set_option linter.unusedSimpArgs false

namespace Url.Machine
open Spec M Url.Alias Url.Capacity

attribute [-simp] List.length_flatten

variable {α β : Type} {env : Env} {B : Nat} {st : St}

/-- What the comparison needs to know about a state. -/
structure Inv (env : Env) (B : Nat) (st : St) : Prop where
  mono : ∀ i, st.pt.off i ≤ st.pt.off (i + 1)
  top : ∀ i, st.pt.off i ≤ st.pt.off 8
  cap : st.pt.off 8 ≤ st.cap
  size : st.size ≤ st.cap
  fit : CapOk env st
  got : st.cap = 0 ∨ st.cap + 1 ≤ B
  bound : Bound env B

/-- What `reserve` needs. -/
structure Ready (env : Env) (st : St) : Prop where
  cap : st.cap ≤ env.maxSize
  lt : st.cap < env.sizeMax
  size : st.size ≤ st.cap
  half : st.cap + st.cap < env.maxSize ∨ env.maxSize < env.sizeMax

theorem add_eq {k a b : Nat} (h : a + b ≤ k) : add k a b = a + b := Nat.mod_eq_of_lt (by omega)

theorem sub_eq {k a b : Nat} (h : b ≤ a) (ha : a ≤ k) : sub k a b = a - b := by
  unfold sub
  rw [show a + (k + 1 - b) = (a - b) + (k + 1) by omega, Nat.add_mod_right, Nat.mod_eq_of_lt (by omega)]

theorem Inv.le (h : Inv env B st) {i j : Nat} (hij : i ≤ j) : st.pt.off i ≤ st.pt.off j := by
  induction j with
  | zero => obtain rfl : i = 0 := by omega
            exact Nat.le_refl _
  | succ j ih =>
    rcases Nat.lt_or_ge i (j + 1) with h1 | h1
    · exact Nat.le_trans (ih (by omega)) (h.mono j)
    · obtain rfl : i = j + 1 := by omega
      exact Nat.le_refl _

theorem Inv.capLt (h : Inv env B st) (hm : B < env.sizeMax) : st.cap < env.sizeMax ∧ st.cap ≤ B := by
  rcases h.got with h1 | h1 <;> omega

theorem Inv.ready (h : Inv env B st) (hm : B < env.sizeMax) : Ready env st := by
  have h1 := h.capLt hm
  have h2 := env.max_le
  refine ⟨by rcases h.fit with h | h <;> omega, h1.1, h.size, ?_⟩
  have h3 := h.got
  rcases h.bound.half with h4 | h4
  · rcases Nat.lt_or_ge env.maxSize env.sizeMax with h5 | h5 <;> omega
  · exact .inr h4

theorem Inv.length (h : Inv env B st) (hm : B < env.sizeMax) (id : Nat) :
    length env.sizeMax st.pt id = st.pt.length id := by
  have h1 := h.capLt hm
  have h2 := h.cap
  exact sub_eq (h.mono id) (by have := h.top (id + 1); omega)

theorem Inv.length2 (h : Inv env B st) (hm : B < env.sizeMax) {b e : Nat} (hbe : b ≤ e) :
    length2 env.sizeMax st.pt b e = st.pt.length2 b e := by
  have h1 := h.capLt hm
  have h2 := h.cap
  exact sub_eq (h.le hbe) (by have := h.top e; omega)

theorem bind_eq {m m' : M α} {f f' : α → M β} (h : m env st = m' env st)
    (hf : ∀ a st', m' env st = .ret a st' → f a env st' = f' a env st') : (m >>= f) env st = (m' >>= f') env st := by
  rw [run_bind, run_bind, h]
  cases hx : m' env st with
  | ret a st1 => exact hf a st1 hx
  | throw e st1 => rfl
  | fault x => rfl

theorem reserve_eq {n : Nat} (hr : Ready env st) (hn : n < env.sizeMax) :
    reserve env.sizeMax n env st = Storage.reserve n env st := by
  obtain ⟨hc, hcl, hz, hh⟩ := hr
  have hml := env.max_le
  unfold reserve Storage.reserve
  by_cases h1 : n ≤ st.cap
  · rw [if_pos h1, if_pos h1]
  · rw [if_neg h1, if_neg h1]
    have h2 : sub env.sizeMax env.maxSize st.cap = env.maxSize - st.cap := sub_eq hc (by omega)
    have hcap : (if st.cap < sub env.sizeMax env.maxSize st.cap then
        (if add env.sizeMax st.cap st.cap < n then n else add env.sizeMax st.cap st.cap) else env.maxSize) =
        Storage.newCap env.maxSize st.cap n := by
      rw [h2]
      unfold Storage.newCap
      by_cases h3 : st.cap < env.maxSize - st.cap
      · rw [if_pos h3, if_pos h3, add_eq (by omega), ← Nat.two_mul]
      · rw [if_neg h3, if_neg h3]
    have hlt : Storage.newCap env.maxSize st.cap n < env.sizeMax := by
      unfold Storage.newCap
      split
      · split <;> omega
      · omega
    dsimp only
    rw [hcap, add_eq (by omega)]
    cases ha : Storage.allocate (Storage.newCap env.maxSize st.cap n + 1) env st with
    | throw e st1 => rfl
    | fault f => rfl
    | ret u st1 =>
      have hst : st1.size = st.size ∧ st1.cap = st.cap := by
        unfold Storage.allocate at ha
        split at ha <;> cases ha
        exact ⟨rfl, rfl⟩
      dsimp only
      cases st1.buf with
      | none => rfl
      | some b =>
        dsimp only
        rw [add_eq (by omega), add_eq (a := st1.cap) (by omega)]
        by_cases h4 : st1.size + 1 ≤ b.length ∧ st1.size + 1 ≤ Storage.newCap env.maxSize st.cap n + 1
        · rw [if_pos ⟨h4.1, h4.2, by omega⟩, if_pos h4]
        · rw [if_neg (by omega), if_neg h4]

theorem storage_eq {n : Nat} (hr : Ready env st) (hn : n < env.sizeMax) :
    storage env.sizeMax n env st = Storage.resize n env st := by
  unfold storage Storage.resize
  rw [reserve_eq hr hn]
  cases Storage.reserve n env st <;> rfl

theorem Parts.ext' {p q : Parts} (h : ∀ i, p.off i = q.off i) (h1 : p.nseg = q.nseg) (h2 : p.nparam = q.nparam) (h3 : p.host = q.host) : p = q := by
  obtain ⟨a, b, c, d⟩ := p
  obtain ⟨a', b', c', d'⟩ := q
  obtain rfl : a = a' := funext h
  cases h1; cases h2; cases h3; rfl

theorem setPt_eq {f g : Parts → Parts} (h : f st.pt = g st.pt) : M.setPt f env st = M.setPt g env st := by
  rw [run_setPt, run_setPt, h]

theorem resize_eq (hi : Inv env B st) {id new : Nat} (hl : B + new < env.sizeMax) :
    resize env.sizeMax id new env st = Base.resize id new env st := by
  obtain ⟨hc1, hc2⟩ := hi.capLt (by omega)
  have hcap := hi.cap
  have h0 := hi.mono id
  have h1 := hi.top (id + 1)
  have hge : ∀ i, id + 1 ≤ i → st.pt.off (id + 1) ≤ st.pt.off i := fun i h => hi.le h
  have htop := hi.top
  unfold resize Base.resize
  rw [run_bind_ret run_pt, run_bind_ret run_pt]
  dsimp only
  rw [hi.length (by omega)]
  have hlen : st.pt.length id = st.pt.off (id + 1) - st.pt.off id := rfl
  by_cases c1 : st.pt.length id = new
  · rw [if_pos c1, if_pos c1]
  · rw [if_neg c1, if_neg c1]
    have hmv : add env.sizeMax (sub env.sizeMax (st.pt.off id_end) (st.pt.off (id + 1))) 1 = st.pt.off id_end - st.pt.off (id + 1) + 1 := by
      rw [sub_eq h1 (by show st.pt.off 8 ≤ _; omega), add_eq (by show st.pt.off 8 - _ + 1 ≤ _; omega)]
    by_cases c2 : new ≤ st.pt.length id
    · rw [if_pos c2, if_pos c2, hmv, sub_eq c2 (by omega)]
      refine bind_eq rfl fun _ st1 e1 => ?_
      refine bind_eq (setPt_eq ?_) fun _ _ _ => rfl
      rw [move_pt e1]
      refine Parts.ext' (fun i => ?_) rfl rfl rfl
      dsimp only [Parts.shift]
      split
      · rename_i hge'
        have := hge i hge'
        have := htop i
        exact sub_eq (by omega) (by omega)
      · rfl
    · rw [if_neg c2, if_neg c2, sub_eq (by omega) (by omega), sub_eq (by show st.pt.off 8 ≤ _; omega) (Nat.le_refl _), run_bind_ret run_sizeMax]
      have hend : st.pt.off id_end = st.pt.off 8 := rfl
      by_cases c3 : new - st.pt.length id > env.sizeMax - st.pt.off id_end
      · rw [if_pos c3, if_pos c3]
      · rw [if_neg c3, if_neg c3, hmv, sub_eq (a := st.pt.off id_end) (b := st.pt.length id) (by omega) (by omega), add_eq (by omega)]
        refine bind_eq (storage_eq (hi.ready (by omega)) (by omega)) fun _ st1 e1 => ?_
        refine bind_eq rfl fun _ st2 e2 => ?_
        refine bind_eq (setPt_eq ?_) fun _ _ _ => rfl
        rw [move_pt e2, (storage_resize_grow e1).1]
        refine Parts.ext' (fun i => ?_) rfl rfl rfl
        dsimp only [Parts.shift]
        split
        · have := htop i
          exact add_eq (by omega)
        · rfl

theorem resize2_eq (hi : Inv env B st) {b e new : Nat} (hbe : b ≤ e) (hl : B + new < env.sizeMax) :
    resize2 env.sizeMax b e new env st = Base.resize2 b e new env st := by
  obtain ⟨hc1, hc2⟩ := hi.capLt (by omega)
  have hcap := hi.cap
  have h0 := hi.le hbe
  have h1 := hi.top e
  have hge : ∀ i, e ≤ i → st.pt.off e ≤ st.pt.off i := fun i h => hi.le h
  have htop := hi.top
  unfold resize2 Base.resize2
  rw [run_bind_ret run_pt, run_bind_ret run_pt]
  dsimp only
  rw [hi.length2 (by omega) hbe]
  have hlen : st.pt.length2 b e = st.pt.off e - st.pt.off b := rfl
  by_cases c1 : new = 0 ∧ st.pt.length2 b e = 0
  · rw [if_pos c1, if_pos c1]
  · rw [if_neg c1, if_neg c1]
    have hmv : add env.sizeMax (sub env.sizeMax (st.pt.off id_end) (st.pt.off e)) 1 = st.pt.off id_end - st.pt.off e + 1 := by
      rw [sub_eq h1 (by show st.pt.off 8 ≤ _; omega), add_eq (by show st.pt.off 8 - _ + 1 ≤ _; omega)]
    by_cases c2 : new ≤ st.pt.length2 b e
    · rw [if_pos c2, if_pos c2, hmv, sub_eq c2 (by omega)]
      refine bind_eq rfl fun _ st1 e1 => ?_
      refine bind_eq (setPt_eq ?_) fun _ _ _ => rfl
      rw [move_pt e1]
      refine Parts.ext' (fun i => ?_) rfl rfl rfl
      dsimp only [Parts.shift2]
      split
      · rename_i hge'
        have := hge i hge'
        have := htop i
        exact sub_eq (by omega) (by omega)
      · split
        · exact sub_eq (by omega) (by omega)
        · rfl
    · rw [if_neg c2, if_neg c2, sub_eq (by omega) (by omega), sub_eq (by show st.pt.off 8 ≤ _; omega) (Nat.le_refl _), run_bind_ret run_sizeMax]
      have hend : st.pt.off id_end = st.pt.off 8 := rfl
      by_cases c3 : new - st.pt.length2 b e > env.sizeMax - st.pt.off id_end
      · rw [if_pos c3, if_pos c3]
      · rw [if_neg c3, if_neg c3, hmv, sub_eq (a := st.pt.off id_end) (b := st.pt.length2 b e) (by omega) (by omega), add_eq (by omega)]
        refine bind_eq (storage_eq (hi.ready (by omega)) (by omega)) fun _ st1 e1 => ?_
        refine bind_eq rfl fun _ st2 e2 => ?_
        refine bind_eq (setPt_eq ?_) fun _ _ _ => rfl
        rw [move_pt e2, (storage_resize_grow e1).1]
        refine Parts.ext' (fun i => ?_) rfl rfl rfl
        dsimp only [Parts.shift2]
        split
        · have := htop i
          exact add_eq (by omega)
        · split
          · exact add_eq (by omega)
          · rfl

/-- the offsets after `resize(id, new)` -/
theorem resize_off (hi : Inv env B st) {id n a : Nat} {st' : St} (h : Base.resize id n env st = .ret a st') :
    a = st.pt.off id ∧ ∀ i, st'.pt.off i = if id + 1 ≤ i then st.pt.off i + n - st.pt.length id else st.pt.off i := by
  have h0 := hi.mono id
  have hge : ∀ i, id + 1 ≤ i → st.pt.off (id + 1) ≤ st.pt.off i := fun i h => hi.le h
  have hlen : st.pt.length id = st.pt.off (id + 1) - st.pt.off id := rfl
  unfold Base.resize at h
  rw [run_bind_ret run_pt] at h
  dsimp only at h
  split at h
  · cases h
    refine ⟨rfl, fun i => ?_⟩
    split
    · have := hge i ‹_›; omega
    · rfl
  · split at h
    · obtain ⟨_, st1, h1, h⟩ := bind_ret h
      cases h
      refine ⟨rfl, fun i => ?_⟩
      simp only [move_pt h1, Parts.shift]
      split
      · have := hge i ‹_›; omega
      · rfl
    · rw [run_bind_ret (a := env.sizeMax) (st' := st) rfl] at h
      split at h
      · cases h
      · obtain ⟨_, st1, h1, h⟩ := bind_ret h
        obtain ⟨_, st2, h2, h⟩ := bind_ret h
        cases h
        refine ⟨rfl, fun i => ?_⟩
        simp only [move_pt h2, (storage_resize_grow h1).1, Parts.shift]
        split
        · have := hge i ‹_›; omega
        · rfl

/-- the offsets after `resize(first, last, new)` -/
theorem resize2_off (hi : Inv env B st) {b e n a : Nat} (hbe : b ≤ e) {st' : St} (h : Base.resize2 b e n env st = .ret a st') :
    a = st.pt.off b ∧ ∀ i, st'.pt.off i = if e ≤ i then st.pt.off i + n - st.pt.length2 b e else
      if b + 1 ≤ i then st.pt.off b + n else st.pt.off i := by
  have h0 := hi.le hbe
  have hge : ∀ i, e ≤ i → st.pt.off e ≤ st.pt.off i := fun i h => hi.le h
  have hlen : st.pt.length2 b e = st.pt.off e - st.pt.off b := rfl
  unfold Base.resize2 at h
  rw [run_bind_ret run_pt] at h
  dsimp only at h
  split at h
  · cases h
    refine ⟨rfl, fun i => ?_⟩
    split
    · have := hge i ‹_›; omega
    · split
      · have := hi.le (i := b) (j := i) (by omega)
        have := hi.le (i := i) (j := e) (by omega)
        omega
      · rfl
  · split at h
    · obtain ⟨_, st1, h1, h⟩ := bind_ret h
      cases h
      refine ⟨rfl, fun i => ?_⟩
      simp only [move_pt h1, Parts.shift2]
      split
      · have := hge i ‹_›; omega
      · split
        · omega
        · rfl
    · rw [run_bind_ret (a := env.sizeMax) (st' := st) rfl] at h
      split at h
      · cases h
      · obtain ⟨_, st1, h1, h⟩ := bind_ret h
        obtain ⟨_, st2, h2, h⟩ := bind_ret h
        cases h
        refine ⟨rfl, fun i => ?_⟩
        simp only [move_pt h2, (storage_resize_grow h1).1, Parts.shift2]
        split
        · have := hge i ‹_›; omega
        · split
          · omega
          · rfl

theorem put_next {i : Nat} {s : Str} {f f' : Unit → M β} (h : ∀ st', st'.pt = st.pt → f () env st' = f' () env st') :
    (M.put i s >>= f) env st = (M.put i s >>= f') env st :=
  bind_eq rfl fun _ _ e => h _ (put_still e).1

theorem split_eq {id n : Nat} (h0 : st.pt.off id + n ≤ env.sizeMax) (h1 : st.pt.off id ≤ st.pt.off (id + 1)) (h2 : st.pt.off (id + 1) ≤ env.sizeMax) :
    split env.sizeMax id n env st = Base.split id n env st := by
  unfold split Base.split
  refine bind_eq rfl fun _ st1 e1 => ?_
  obtain rfl := reads_ret (Alias.Reads.assert _) e1
  refine bind_eq ?_ fun _ st2 e2 => ?_
  · show M.ask _ env _ = M.ask _ env _
    unfold M.ask
    dsimp only [St.obj]
    rw [length, sub_eq h1 h2]
    rfl
  · obtain rfl := reads_ret (Alias.Reads.assert _) e2
    refine setPt_eq (Parts.ext' (fun i => ?_) rfl rfl rfl)
    dsimp only [Parts.split]
    rw [add_eq h0]

theorem split_pt {id n : Nat} {u : Unit} {st' : St} (h : Base.split id n env st = .ret u st') : st'.pt = st.pt.split id n := by
  unfold Base.split at h
  obtain ⟨_, st1, h1, h3⟩ := bind_ret h
  obtain ⟨_, st2, h2, h4⟩ := bind_ret h3
  have e1 := reads_ret (Alias.Reads.assert _) h1
  have e2 := reads_ret (Alias.Reads.assert _) h2
  cases h4
  rw [e2, e1]

theorem split_next {id n : Nat} {f f' : Unit → M β} (h0 : st.pt.off id + n ≤ env.sizeMax) (h1 : st.pt.off id ≤ st.pt.off (id + 1))
    (h2 : st.pt.off (id + 1) ≤ env.sizeMax) (h : ∀ st', (∀ i, st'.pt.off i = if i = id + 1 then st.pt.off id + n else st.pt.off i) → f () env st' = f' () env st') :
    (split env.sizeMax id n >>= f) env st = (Base.split id n >>= f') env st :=
  bind_eq (split_eq h0 h1 h2) fun _ _ e => h _ fun i => by rw [split_pt e]; rfl

theorem encodedFrom_eq {k : Nat} {e : PctSet} : ∀ {s : Str} {n : Nat}, n + e.encoded_size s ≤ k → encodedFrom k e n s = n + e.encoded_size s
  | [], _, _ => rfl
  | c :: t, n, h => by
    rw [PctSet.encoded_size] at h ⊢
    rw [encodedFrom, add_eq (by omega), encodedFrom_eq (by omega)]
    omega

theorem encode_length (e : PctSet) (s : Str) : (e.encode s).length ≤ 3 * s.length := by
  induction s with
  | nil => exact Nat.le_refl _
  | cons c t ih =>
    rw [PctSet.encode]
    split
    · simp only [encodeChar, List.length_append, List.length_cons, List.length_nil]; omega
    · simp only [List.length_cons]; omega

theorem encoded_size_eq' {k : Nat} {e : PctSet} {ok : Byte → Bool} (h : SetOf e ok) {s : Str} (hk : 3 * s.length ≤ k) :
    encoded_size k e s = e.encoded_size s ∧ e.encoded_size s ≤ 3 * s.length := by
  have h1 := encoded_size_eq h s
  have h2 := encode_length e s
  rw [encoded_size, encodedFrom_eq (by omega)]
  omega

/-! ### the calls -/

/-- decide a comparison of offsets from their description -/
macro "offs" "[" hs:term,* "]" : tactic =>
  `(tactic| (simp only [$[$hs:term],*, id_scheme, id_user, id_password, id_host, id_port, id_path, id_query, id_frag, id_end,
      Parts.length, Parts.length2, Nat.reduceAdd, Nat.reduceEqDiff, Nat.reduceLeDiff, if_true, if_false] <;> omega))

section Calls
variable (hi : Inv env B st)

/-- `n` more characters than are ever allocated are still far from the largest size -/
def Lim (env : Env) (B n : Nat) : Prop := B + n < env.sizeMax

theorem Lim.mono {n m : Nat} (h : Lim env B n) (hm : m ≤ n) : Lim env B m := by unfold Lim at *; omega

theorem length_at {ps : PS} {L : List Str} {pend r : Str} {a b : Nat} {k : HostType} (h : At ps L pend r a b k)
    (hl : L.flatten.length ≤ env.sizeMax) (id : Nat) : length env.sizeMax ps.pt id = ps.pt.length id := by
  have h1 : ps.pt.off (id + 1) ≤ L.flatten.length := by
    rw [h.rep, plen]
    have := congrArg List.length (List.take_append_drop (id + 1) L)
    have h2 : (L.take (id + 1)).flatten.length + (L.drop (id + 1)).flatten.length = L.flatten.length := by
      rw [← List.length_append, ← List.flatten_append, List.take_append_drop]
    omega
  refine sub_eq ?_ (by omega)
  rw [h.rep, h.rep, plen, plen, List.take_add_one]
  simp

include hi

theorem url_eq {s : Str} (hl : Lim env B s.length) : set_encoded_url env.sizeMax s env st = Base.set_encoded_url s env st := by
  unfold Lim at hl
  unfold set_encoded_url Base.set_encoded_url
  split
  · rw [run_bind_ret run_isNull, run_bind_ret run_isNull]
    split
    · exact bind_eq (resize2_eq hi (by decide) (by omega)) fun _ _ _ => rfl
    · rfl
  · refine bind_eq rfl fun pt st1 e1 => ?_
    obtain rfl := reads_ret (Alias.Reads.parsed _) e1
    exact bind_eq (storage_eq (hi.ready (by omega)) (by omega)) fun _ _ _ => rfl

theorem scheme_eq {s : Str} (hl : Lim env B (s.length + 1)) : set_scheme env.sizeMax s env st = Base.set_scheme s env st := by
  unfold Lim at hl
  unfold set_scheme Base.set_scheme
  split
  · exact bind_eq (resize_eq hi (by omega)) fun _ _ _ => rfl
  · refine bind_eq rfl fun _ st1 e1 => ?_
    obtain rfl := reads_ret (Alias.Reads.require _) e1
    refine bind_eq rfl fun _ st2 e2 => ?_
    obtain rfl := reads_ret (Alias.Reads.require _) e2
    rw [add_eq (by omega)]
    exact bind_eq (resize_eq hi (by omega)) fun _ _ _ => rfl

theorem authority_eq {s : Str} (hl : Lim env B (s.length + 2)) :
    set_encoded_authority env.sizeMax s env st = Base.set_encoded_authority s env st := by
  unfold Lim at hl
  unfold set_encoded_authority Base.set_encoded_authority
  by_cases hs : s = []
  · subst hs
    simp only [List.isEmpty_nil, if_true]
    exact bind_eq (resize2_eq hi (by decide) (by simp at hl; omega)) fun _ _ _ => rfl
  · have he : s.isEmpty = false := by simpa using hs
    simp only [he, Bool.false_eq_true, if_false]
    refine bind_eq rfl fun pt st1 e1 => ?_
    by_cases hv : ∃ a, IsAuth a s
    · obtain ⟨a, ha, rfl⟩ := hv
      obtain ⟨k, b, -⟩ := authority_parts ha
      rw [parsedAll_ok b.flt b.ec b.p] at e1
      cases e1
      have hr := authParts_render a
      have hlen := length_at (env := env) (k := k) b (by simp only [List.flatten_append, List.length_append, hr]; simp; omega)
      simp only [hlen]
      have hlen' : ∀ id, (parse_authority (PS.init a.render)).pt.length id = (([[]] ++ authParts [] a).getD id []).length := b.rep.length
      simp only [hlen']
      obtain ⟨u, hst, pt⟩ := a
      obtain ⟨x, w, -, e2, e3⟩ := userParts_two [] u
      simp only [authParts, e2] at hr hlen hlen' ⊢
      generalize hR : Auth.render ⟨u, hst, pt⟩ = s at *
      simp only [id_user, id_password, id_host, id_port, List.cons_append, List.nil_append, List.getD_cons_succ, List.getD_cons_zero]
      have hs : s.length = x.length + w.length + hst.length + (portText pt).length := by rw [← hr]; simp; omega
      rw [add_eq (by omega), add_eq (by omega)]
      refine bind_eq (resize2_eq hi (by decide) (by omega)) fun d st2 e2 => ?_
      obtain ⟨rfl, ho⟩ := resize2_off hi (by decide) e2
      have hc := hi.cap
      obtain ⟨hc1, hc2⟩ := hi.capLt (by omega)
      have m1 := hi.le (i := 1) (j := 5) (by omega)
      have m2 := hi.top 1
      refine put_next fun st3 e3 => ?_
      refine put_next fun st4 e4 => ?_
      refine put_next fun st5 e5 => ?_
      have hp : ∀ i, st5.pt.off i = st2.pt.off i := fun i => by rw [e5, e4, e3]
      refine split_next (by offs [hp, ho]) (by offs [hp, ho]) (by offs [hp, ho]) fun st6 p1 => ?_
      refine split_next (by offs [p1, hp, ho]) (by offs [p1, hp, ho]) (by offs [p1, hp, ho]) fun st7 p2 => ?_
      refine split_next (by offs [p2, p1, hp, ho]) (by offs [p2, p1, hp, ho]) (by offs [p2, p1, hp, ho]) fun st8 p3 => ?_
      show M.ask _ env _ = M.ask _ env _
      unfold M.ask
      dsimp only [St.obj]
      rw [length, sub_eq (by offs [p3, p2, p1, hp, ho]) (by offs [p3, p2, p1, hp, ho])]
      rfl
    · exfalso
      rw [parsedAll_bad (good_authority (Good.init s)).flt (fun h => hv (authority_all.1 h))] at e1
      cases e1

theorem origin_eq {s : Str} (hl : Lim env B s.length) :
    set_encoded_origin env.sizeMax s env st = Base.set_encoded_origin s env st := by
  unfold Lim at hl
  unfold set_encoded_origin Base.set_encoded_origin
  by_cases hs : s = []
  · subst hs
    simp only [List.isEmpty_nil, if_true]
    exact bind_eq (resize2_eq hi (by decide) (by simp at hl; omega)) fun _ _ _ => rfl
  · have he : s.isEmpty = false := by simpa using hs
    simp only [he, Bool.false_eq_true, if_false]
    refine bind_eq rfl fun pt st1 e1 => ?_
    by_cases hv : (parse_origin s).ec = none
    · obtain ⟨sch, a, p, r, k, -, -, -, hs, -, b⟩ := origin_sound hv
      obtain ⟨x, w, hst, pt', e⟩ := authTexts_four a
      rw [e] at b hs
      have e1' : Base.parsed (parse_origin s) env st = .ret (parse_origin s).pt st := by simp [Base.parsed, b.flt, hv, run_pure]
      rw [e1'] at e1
      cases e1
      have hsl := congrArg List.length hs
      simp at hsl
      have hlen := length_at (env := env) b (by simp; omega)
      simp only [hlen]
      have hlen' : ∀ id, (parse_origin s).pt.length id = (([sch ++ b!":"] ++ [x, w, hst, pt'] ++ [p]).getD id []).length := b.rep.length
      simp only [hlen']
      simp only [id_scheme, id_user, id_password, id_host, id_port, List.cons_append, List.nil_append, List.getD_cons_succ, List.getD_cons_zero,
        List.length_append, List.length_cons, List.length_nil]
      refine bind_eq (resize2_eq hi (by decide) (by omega)) fun d st2 e2 => ?_
      obtain ⟨rfl, ho⟩ := resize2_off hi (by decide) e2
      have hc := hi.cap
      obtain ⟨hc1, hc2⟩ := hi.capLt (by omega)
      have m1 := hi.le (i := 0) (j := 5) (by omega)
      have m2 := hi.top 0
      have m3 := hi.top 5
      refine put_next fun st5 e5 => ?_
      have hp : ∀ i, st5.pt.off i = st2.pt.off i := fun i => by rw [e5]
      refine split_next (by offs [hp, ho]) (by offs [hp, ho]) (by offs [hp, ho]) fun st6 p1 => ?_
      refine split_next (by offs [p1, hp, ho]) (by offs [p1, hp, ho]) (by offs [p1, hp, ho]) fun st7 p2 => ?_
      refine split_next (by offs [p2, p1, hp, ho]) (by offs [p2, p1, hp, ho]) (by offs [p2, p1, hp, ho]) fun st8 p3 => ?_
      refine split_next (by offs [p3, p2, p1, hp, ho]) (by offs [p3, p2, p1, hp, ho]) (by offs [p3, p2, p1, hp, ho]) fun st9 p4 => ?_
      exact split_eq (by offs [p4, p3, p2, p1, hp, ho]) (by offs [p4, p3, p2, p1, hp, ho]) (by offs [p4, p3, p2, p1, hp, ho])
    · exfalso
      have hp : Base.parsed (parse_origin s) env st = .throw .invalid_part st := by
        have : (parse_origin s).ec.isSome = true := by simpa [Option.isSome_iff_ne_none] using hv
        simp [Base.parsed, (good_origin s).flt, this]
      rw [hp] at e1
      cases e1

theorem userinfo_eq {s : Str} (hl : Lim env B (s.length + 3)) :
    set_encoded_userinfo env.sizeMax s env st = Base.set_encoded_userinfo s env st := by
  unfold Lim at hl
  unfold set_encoded_userinfo Base.set_encoded_userinfo
  split
  · rw [run_bind_ret run_pt, run_bind_ret run_pt, hi.length2 (by omega) (by decide)]
    split <;> exact bind_eq (resize2_eq hi (by decide) (by omega)) fun _ _ _ => rfl
  · refine bind_eq rfl fun pt st1 e1 => ?_
    by_cases hv : (parse_userinfo (PS.init s)).ec = none ∧ (parse_userinfo (PS.init s)).p = []
    · obtain ⟨u, hu⟩ := userinfoText_exists (userinfo_all hv)
      have b := parse_userinfo_at hu
      rw [parsedAll_ok b.flt b.ec b.p] at e1
      cases e1
      have hsl : s.length = u.1.length + (pwText u.2).length := by rw [← hu.2.2, userinfoText_eq]; simp
      rw [length_at (env := env) b (by simp; omega)]
      have hlen : (parse_userinfo (PS.init s)).pt.length id_user = u.1.length := b.rep.length id_user
      rw [hlen, add_eq (a := 2) (by omega), add_eq (by omega)]
      refine bind_eq (resize2_eq hi (by decide) (by omega)) fun d st2 e2 => ?_
      obtain ⟨rfl, ho⟩ := resize2_off hi (by decide) e2
      have hc := hi.cap
      obtain ⟨hc1, hc2⟩ := hi.capLt (by omega)
      have m1 := hi.le (i := 1) (j := 3) (by omega)
      have m2 := hi.top 1
      have m3 := hi.top 3
      refine put_next fun st3 e3 => ?_
      refine put_next fun st4 e4 => ?_
      refine put_next fun st5 e5 => ?_
      have hp : ∀ i, st5.pt.off i = st2.pt.off i := fun i => by rw [e5, e4, e3]
      exact split_next (by offs [hp, ho]) (by offs [hp, ho]) (by offs [hp, ho]) fun st6 p1 => rfl
    · exfalso
      rw [parsedAll_bad (good_userinfo (Good.init s)).flt hv] at e1
      cases e1

theorem userinfo_part_eq {s : Str} (hl : Lim env B (s.length + 3)) :
    set_userinfo_part env.sizeMax s env st = Base.set_userinfo_part s env st := by
  unfold set_userinfo_part Base.set_userinfo_part
  split
  · exact userinfo_eq hi hl
  · refine bind_eq rfl fun _ st1 e1 => ?_
    obtain rfl := reads_ret (Alias.Reads.require _) e1
    exact userinfo_eq hi (hl.mono (by simp))

theorem storeUser_eq {n : Nat} {txt : Str} (hl : Lim env B (n + 3)) :
    storeUser env.sizeMax n txt env st = (do
      if (← M.pt).length id_password ≠ 0 then
        assert fun o => do backIs (← o.get id_password) c!"@"
        let dest ← Base.resize id_user (2 + n)
        put (dest + 2) txt
      else
        let dest ← Base.resize id_user (2 + n + 1)
        put dest b!"/"
        put (dest + 1) b!"/"
        put (dest + (2 + n)) b!"@"
        Base.split id_user (2 + n)
        put (dest + 2) txt : M Unit) env st := by
  unfold Lim at hl
  unfold storeUser
  rw [run_bind_ret run_pt, run_bind_ret run_pt, hi.length (by omega), add_eq (a := 2) (by omega), add_eq (by omega)]
  split
  · refine bind_eq rfl fun _ st1 e1 => ?_
    obtain rfl := reads_ret (Alias.Reads.assert _) e1
    exact bind_eq (resize_eq hi (by omega)) fun _ _ _ => rfl
  · refine bind_eq (resize_eq hi (by omega)) fun d st2 e2 => ?_
    obtain ⟨rfl, ho⟩ := resize_off hi e2
    have hc := hi.cap
    obtain ⟨hc1, hc2⟩ := hi.capLt (by omega)
    have m1 := hi.le (i := 1) (j := 2) (by omega)
    have m2 := hi.top 1
    have m3 := hi.top 2
    refine put_next fun st3 e3 => ?_
    refine put_next fun st4 e4 => ?_
    refine put_next fun st5 e5 => ?_
    have hp : ∀ i, st5.pt.off i = st2.pt.off i := fun i => by rw [e5, e4, e3]
    exact split_next (by offs [hp, ho]) (by offs [hp, ho]) (by offs [hp, ho]) fun st6 p1 => rfl

theorem user_eq {s : Str} (hl : Lim env B (3 * s.length + 3)) :
    set_user env.sizeMax s env st = Base.set_user s env st := by
  have hl' := hl
  unfold Lim at hl'
  unfold set_user Base.set_user
  split
  · rw [run_bind_ret run_pt, run_bind_ret run_pt, hi.length (by omega)]
    split
    · rfl
    · refine bind_eq rfl fun _ st1 e1 => ?_
      obtain rfl := reads_ret Alias.Reads.assertUserinfo e1
      rw [run_bind_ret run_pt, run_bind_ret run_pt, hi.length (by omega)]
      split
      · exact bind_eq (resize2_eq hi (by decide) (by omega)) fun _ _ _ => rfl
      · exact bind_eq (resize_eq hi (by omega)) fun _ _ _ => rfl
  · obtain ⟨h1, h2⟩ := encoded_size_eq' (k := env.sizeMax) setOf_userinfo_nc (s := s) (by omega)
    rw [h1]
    exact storeUser_eq hi (hl.mono (by omega))

theorem encoded_user_eq {s : Str} (hl : Lim env B (3 * s.length + 3)) :
    set_encoded_user env.sizeMax s env st = Base.set_encoded_user s env st := by
  unfold set_encoded_user Base.set_encoded_user
  split
  · exact user_eq hi hl
  · refine bind_eq rfl fun _ st1 e1 => ?_
    obtain rfl := reads_ret (Alias.Reads.validate _ _) e1
    exact storeUser_eq hi (hl.mono (by omega))

theorem storePassword_eq {n : Nat} {txt : Str} (hl : Lim env B (n + 4)) :
    storePassword env.sizeMax n txt env st = (do
      if (← M.pt).length id_user ≠ 0 then
        let dest ← Base.resize id_password (1 + n + 1)
        put dest b!":"
        put (dest + (n + 1)) b!"@"
        put (dest + 1) txt
      else
        let dest ← Base.resize2 id_user id_host (2 + 1 + n + 1)
        put dest b!"/"
        put (dest + 1) b!"/"
        put (dest + 2) b!":"
        put (dest + (2 + n + 1)) b!"@"
        put (dest + 3) txt
        Base.split id_user 2 : M Unit) env st := by
  unfold Lim at hl
  unfold storePassword
  rw [run_bind_ret run_pt, run_bind_ret run_pt, hi.length (by omega), add_eq (a := 1) (by omega), add_eq (a := 2) (by omega), add_eq (a := 3) (by omega),
    add_eq (a := 1 + n) (by omega), add_eq (a := 2 + n) (by omega), add_eq (a := 3 + n) (by omega), add_eq (a := n) (by omega)]
  split
  · exact bind_eq (resize_eq hi (by omega)) fun _ _ _ => rfl
  · refine bind_eq (resize2_eq hi (by decide) (by omega)) fun d st2 e2 => ?_
    obtain ⟨rfl, ho⟩ := resize2_off hi (by decide) e2
    have hc := hi.cap
    obtain ⟨hc1, hc2⟩ := hi.capLt (by omega)
    have m1 := hi.le (i := 1) (j := 3) (by omega)
    have m2 := hi.top 1
    have m3 := hi.top 3
    refine put_next fun st3 e3 => ?_
    refine put_next fun st4 e4 => ?_
    refine put_next fun st5 e5 => ?_
    refine put_next fun st6 e6 => ?_
    refine put_next fun st7 e7 => ?_
    have hp : ∀ i, st7.pt.off i = st2.pt.off i := fun i => by rw [e7, e6, e5, e4, e3]
    exact split_eq (by offs [hp, ho]) (by offs [hp, ho]) (by offs [hp, ho])

theorem password_eq {s : Str} (hl : Lim env B (3 * s.length + 4)) :
    set_password env.sizeMax s env st = Base.set_password s env st := by
  have hl' := hl
  unfold Lim at hl'
  unfold set_password Base.set_password
  split
  · rw [run_bind_ret run_pt, run_bind_ret run_pt, hi.length (by omega)]
    split
    · rfl
    · refine bind_eq rfl fun _ st1 e1 => ?_
      obtain rfl := reads_ret Alias.Reads.assertUserinfo e1
      rw [run_bind_ret run_pt, run_bind_ret run_pt, hi.length (by omega)]
      split
      · exact bind_eq (resize_eq hi (by omega)) fun _ _ _ => rfl
      · exact bind_eq (resize_eq hi (by omega)) fun _ _ _ => rfl
  · obtain ⟨h1, h2⟩ := encoded_size_eq' (k := env.sizeMax) setOf_userinfo (s := s) (by omega)
    rw [h1]
    exact storePassword_eq hi (hl.mono (by omega))

theorem encoded_password_eq {s : Str} (hl : Lim env B (3 * s.length + 4)) :
    set_encoded_password env.sizeMax s env st = Base.set_encoded_password s env st := by
  unfold set_encoded_password Base.set_encoded_password
  split
  · exact password_eq hi hl
  · refine bind_eq rfl fun _ st1 e1 => ?_
    obtain rfl := reads_ret (Alias.Reads.require _) e1
    refine bind_eq rfl fun _ st1 e1 => ?_
    obtain rfl := reads_ret (Alias.Reads.validate _ _) e1
    exact storePassword_eq hi (hl.mono (by omega))

omit hi in
theorem shrink_eq {id new : Nat} (h0 : st.pt.off id ≤ st.pt.off (id + 1)) (hn : new ≤ st.pt.length id)
    (hge : ∀ i, id + 1 ≤ i → st.pt.off (id + 1) ≤ st.pt.off i ∧ st.pt.off i < env.sizeMax) (hid : id < 8) :
    resize env.sizeMax id new env st = Base.resize id new env st := by
  have hlen : st.pt.length id = st.pt.off (id + 1) - st.pt.off id := rfl
  have h1 := hge (id + 1) (by omega)
  have h8 := hge 8 (by omega)
  unfold resize Base.resize
  rw [run_bind_ret run_pt, run_bind_ret run_pt]
  dsimp only
  rw [length, sub_eq h0 (by omega)]
  rw [← hlen]
  by_cases c1 : st.pt.length id = new
  · rw [if_pos c1, if_pos c1]
  · rw [if_neg c1, if_neg c1]
    have hmv : add env.sizeMax (sub env.sizeMax (st.pt.off id_end) (st.pt.off (id + 1))) 1 = st.pt.off id_end - st.pt.off (id + 1) + 1 := by
      rw [sub_eq h8.1 (by show st.pt.off 8 ≤ _; omega), add_eq (by show st.pt.off 8 - _ + 1 ≤ _; omega)]
    rw [if_pos hn, if_pos hn, hmv, sub_eq hn (by omega)]
    refine bind_eq rfl fun _ st1 e1 => ?_
    refine bind_eq (setPt_eq ?_) fun _ _ _ => rfl
    rw [move_pt e1]
    refine Parts.ext' (fun i => ?_) rfl rfl rfl
    dsimp only [Parts.shift]
    split
    · rename_i hge'
      have := hge i hge'
      exact sub_eq (by omega) (by omega)
    · rfl

theorem password_part_eq {s : Str} (hl : Lim env B (3 * s.length + 4)) :
    set_password_part env.sizeMax s env st = Base.set_password_part s env st := by
  have hl' := hl
  unfold Lim at hl'
  unfold set_password_part Base.set_password_part
  split
  · exact password_eq hi hl
  split
  · rename_i h1
    refine bind_eq rfl fun _ st1 e1 => ?_
    obtain rfl := (reads_ret (Alias.Reads.require _) e1).symm
    rw [run_bind_ret run_pt, run_bind_ret run_pt, hi.length (by omega)]
    split
    · exact bind_eq (resize_eq hi (by omega)) fun _ _ _ => rfl
    · refine bind_eq (resize2_eq hi (by decide) (by omega)) fun d st2 e2 => ?_
      obtain ⟨rfl, ho⟩ := resize2_off hi (by decide) e2
      have hc := hi.cap
      obtain ⟨hc1, hc2⟩ := hi.capLt (by omega)
      have m1 := hi.le (i := 1) (j := 3) (by omega)
      have m2 := hi.top 1
      have m3 := hi.top 3
      refine put_next fun st3 e3 => ?_
      refine put_next fun st4 e4 => ?_
      refine put_next fun st5 e5 => ?_
      refine put_next fun st6 e6 => ?_
      have hp : ∀ i, st6.pt.off i = st2.pt.off i := fun i => by rw [e6, e5, e4, e3]
      refine split_next (by offs [hp, ho]) (by offs [hp, ho]) (by offs [hp, ho]) fun st7 p1 => ?_
      have hd : List.drop 1 s = [] := List.drop_eq_nil_of_le (by omega)
      simp only [hd, set_encoded_password, Base.set_encoded_password, set_password, Base.set_password, List.isEmpty_nil, if_true]
      have o1 : st7.pt.off 1 = st.pt.off 1 := by offs [p1, hp, ho]
      have o2 : st7.pt.off 2 = st.pt.off 1 + 2 := by offs [p1, hp, ho]
      have o3 : st7.pt.off 3 = st.pt.off 1 + 4 := by offs [p1, hp, ho]
      have l2 : length env.sizeMax st7.pt id_password = 2 := by
        rw [length, sub_eq (by offs [o1, o2, o3]) (by offs [o1, o2, o3])]; offs [o1, o2, o3]
      have l2' : st7.pt.length id_password = 2 := by offs [o1, o2, o3]
      have l1 : length env.sizeMax st7.pt id_user = 2 := by
        rw [length, sub_eq (by offs [o1, o2, o3]) (by offs [o1, o2, o3])]; offs [o1, o2, o3]
      have l1' : st7.pt.length id_user = 2 := by offs [o1, o2, o3]
      rw [run_bind_ret run_pt, run_bind_ret run_pt, l2, l2']
      simp only [Nat.reduceEqDiff, if_false]
      refine bind_eq rfl fun _ st8 e8 => ?_
      obtain rfl := (reads_ret Alias.Reads.assertUserinfo e8).symm
      rw [run_bind_ret run_pt, run_bind_ret run_pt, l1, l1']
      simp only [if_true]
      refine bind_eq (shrink_eq (by offs [o1, o2, o3]) (by omega) (fun i hi' => ?_) (by decide)) fun _ _ _ => rfl
      have hi' : 3 ≤ i := hi'
      have h4 : st7.pt.off i = st.pt.off i + 4 - (st.pt.off 3 - st.pt.off 1) := by
        rw [p1, if_neg (by simp only [id_user]; omega), hp, ho, if_pos hi']; rfl
      have h5 := hi.le hi'
      have h6 := hi.top i
      show st7.pt.off 3 ≤ _ ∧ _
      rw [o3, h4]
      omega
  · exact encoded_password_eq hi (hl.mono (by rw [List.length_drop]; omega))

theorem has_authority_eq (hm : B < env.sizeMax) : has_authority env.sizeMax env st = M.ask (fun o => .ok (Url.has_authority o)) env st := by
  unfold has_authority M.ask
  dsimp only [St.obj]
  rw [hi.length2 hm (by decide)]
  rfl

theorem storeHost_eq {n : Nat} {txt : Str} (hl : Lim env B (n + 2)) :
    storeHost env.sizeMax n txt env st = (do
      if !(← ask fun o => .ok (Url.has_authority o)) then
        let dest ← Base.resize id_user (2 + n)
        put dest b!"/"
        put (dest + 1) b!"/"
        Base.split id_user 2
        Base.split id_password 0
        put (dest + 2) txt
      else
        let dest ← Base.resize id_host n
        put dest txt : M Unit) env st := by
  unfold Lim at hl
  unfold storeHost
  refine bind_eq (has_authority_eq hi (by omega)) fun b st1 e1 => ?_
  rw [run_ask_auth] at e1
  cases e1
  rw [add_eq (by omega)]
  split
  · refine bind_eq (resize_eq hi (by omega)) fun d st2 e2 => ?_
    obtain ⟨rfl, ho⟩ := resize_off hi e2
    have hc := hi.cap
    obtain ⟨hc1, hc2⟩ := hi.capLt (by omega)
    have m1 := hi.le (i := 1) (j := 2) (by omega)
    have m0 := hi.le (i := 2) (j := 3) (by omega)
    have m2 := hi.top 1
    have m3 := hi.top 2
    have m4 := hi.top 3
    refine put_next fun st3 e3 => ?_
    refine put_next fun st4 e4 => ?_
    have hp : ∀ i, st4.pt.off i = st2.pt.off i := fun i => by rw [e4, e3]
    refine split_next (by offs [hp, ho]) (by offs [hp, ho]) (by offs [hp, ho]) fun st6 p1 => ?_
    exact split_next (by offs [p1, hp, ho]) (by offs [p1, hp, ho]) (by offs [p1, hp, ho]) fun st7 p2 => rfl
  · exact bind_eq (resize_eq hi (by omega)) fun _ _ _ => rfl

theorem host_eq {s : Str} (hl : Lim env B (3 * s.length + 2)) :
    set_host env.sizeMax s env st = Base.set_host s env st := by
  have hl' := hl
  unfold Lim at hl'
  unfold set_host Base.set_host
  split
  · rw [run_bind_ret run_pt, run_bind_ret run_pt, run_bind_ret run_pt, run_bind_ret run_pt, hi.length2 (by omega) (by decide), hi.length (by omega)]
    split
    · refine bind_eq rfl fun _ st1 e1 => ?_
      obtain rfl := reads_ret (Alias.Reads.assert _) e1
      exact bind_eq (resize2_eq hi (by decide) (by omega)) fun _ _ _ => rfl
    · exact bind_eq (resize_eq hi (by omega)) fun _ _ _ => rfl
  · refine bind_eq rfl fun t st1 e1 => ?_
    have hst : st1 = st := by
      cases hf : (parse_ip_literal (PS.init s)).flt <;> rw [hf] at e1 <;> cases e1
      rfl
    subst hst
    refine bind_eq rfl fun _ st2 e2 => ?_
    obtain rfl := reads_ret (Alias.Reads.assert _) e2
    obtain ⟨h1, h2⟩ := encoded_size_eq' (k := env.sizeMax) setOf_regName (s := s) (by omega)
    rw [h1]
    split
    · refine (bind_eq (storeHost_eq hi (hl.mono (by omega))) fun _ _ _ => rfl).trans ?_
      simp only [assoc, ite_bind, Base.addHost]
    · refine (bind_eq (storeHost_eq hi (hl.mono (by omega))) fun _ _ _ => rfl).trans ?_
      simp only [assoc, ite_bind]

theorem encoded_host_eq {s : Str} (hl : Lim env B (3 * s.length + 2)) :
    set_encoded_host env.sizeMax s env st = Base.set_encoded_host s env st := by
  unfold set_encoded_host Base.set_encoded_host
  split
  · exact host_eq hi hl
  · refine bind_eq rfl fun t st1 e1 => ?_
    obtain rfl := reads_ret (Alias.Reads.parsedAll _) e1
    refine (bind_eq (storeHost_eq hi (hl.mono (by omega))) fun _ _ _ => rfl).trans ?_
    simp only [assoc, ite_bind, Base.addHost]

theorem port_eq {s : Str} (hl : Lim env B (s.length + 3)) :
    set_port env.sizeMax s env st = Base.set_port s env st := by
  unfold Lim at hl
  unfold set_port Base.set_port
  split
  · rw [run_bind_ret run_pt, run_bind_ret run_pt, hi.length2 (by omega) (by decide)]
    split
    · refine bind_eq rfl fun _ st1 e1 => ?_
      obtain rfl := reads_ret (Alias.Reads.assert _) e1
      exact bind_eq (resize2_eq hi (by decide) (by omega)) fun _ _ _ => rfl
    · exact bind_eq (resize_eq hi (by omega)) fun _ _ _ => rfl
  · refine bind_eq rfl fun _ st1 e1 => ?_
    obtain rfl := reads_ret (Alias.Reads.require _) e1
    refine bind_eq (has_authority_eq hi (by omega)) fun b st1 e1 => ?_
    rw [run_ask_auth] at e1
    cases e1
    rw [add_eq (by omega), add_eq (by omega)]
    split
    · refine bind_eq (resize_eq hi (by omega)) fun d st2 e2 => ?_
      obtain ⟨rfl, ho⟩ := resize_off hi e2
      have hc := hi.cap
      obtain ⟨hc1, hc2⟩ := hi.capLt (by omega)
      have m1 := hi.le (i := 1) (j := 2) (by omega)
      have m0 := hi.le (i := 2) (j := 3) (by omega)
      have m5 := hi.le (i := 3) (j := 4) (by omega)
      have m2 := hi.top 1
      have m3 := hi.top 2
      have m4 := hi.top 3
      have m6 := hi.top 4
      refine put_next fun st3 e3 => ?_
      refine put_next fun st4 e4 => ?_
      refine put_next fun st5 e5 => ?_
      have hp : ∀ i, st5.pt.off i = st2.pt.off i := fun i => by rw [e5, e4, e3]
      refine split_next (by offs [hp, ho]) (by offs [hp, ho]) (by offs [hp, ho]) fun st6 p1 => ?_
      refine split_next (by offs [p1, hp, ho]) (by offs [p1, hp, ho]) (by offs [p1, hp, ho]) fun st7 p2 => ?_
      exact split_next (by offs [p2, p1, hp, ho]) (by offs [p2, p1, hp, ho]) (by offs [p2, p1, hp, ho]) fun st8 p3 => rfl
    · exact bind_eq (resize_eq hi (by omega)) fun _ _ _ => rfl

theorem port_number_eq {n : UInt32} (hl : Lim env B 13) :
    set_port_number env.sizeMax n env st = Base.set_port_number n env st := by
  unfold set_port_number Base.set_port_number
  obtain ⟨s, e, -, h⟩ := port_string_of n
  rw [run_bind_ret (run_ask e), run_bind_ret (run_ask e)]
  exact port_eq hi (hl.mono (by omega))

theorem port_part_eq {s : Str} (hl : Lim env B (s.length + 3)) :
    set_port_part env.sizeMax s env st = Base.set_port_part s env st := by
  unfold set_port_part Base.set_port_part
  split
  · exact port_eq hi hl
  · refine bind_eq rfl fun _ st1 e1 => ?_
    obtain rfl := reads_ret (Alias.Reads.require _) e1
    split
    · exact port_eq hi (hl.mono (by simp))
    · exact bind_eq (resize_eq hi (by unfold Lim at hl; omega)) fun _ _ _ => rfl

theorem path_eq {s : Str} (hl : Lim env B s.length) :
    set_encoded_path env.sizeMax s env st = Base.set_encoded_path s env st := by
  unfold Lim at hl
  unfold set_encoded_path Base.set_encoded_path
  split
  · exact bind_eq (resize_eq hi (by omega)) fun _ _ _ => rfl
  · refine bind_eq (has_authority_eq hi (by omega)) fun b st1 e1 => ?_
    rw [run_ask_auth] at e1
    cases e1
    have fin : (resize env.sizeMax id_path s.length >>= fun dest => M.put dest s) env st =
        (Base.resize id_path s.length >>= fun dest => M.put dest s) env st :=
      bind_eq (resize_eq hi (by omega)) fun _ _ _ => rfl
    have step : ∀ ps, (Base.parsedAll ps >>= fun _ => resize env.sizeMax id_path s.length >>= fun dest => M.put dest s) env st =
        (Base.parsedAll ps >>= fun _ => Base.resize id_path s.length >>= fun dest => M.put dest s) env st := fun ps => by
      refine bind_eq rfl fun _ st1 e1 => ?_
      obtain rfl := reads_ret (Alias.Reads.parsedAll _) e1
      exact fin
    split
    · exact step _
    · split
      · exact step _
      · rw [run_bind_ret run_pt, run_bind_ret run_pt, hi.length (by omega)]
        split
        · exact step _
        · exact step _

theorem storeTail_eq {id n : Nat} {d : Byte} {txt : Str} (hl : Lim env B (n + 1)) :
    storeTail env.sizeMax id d n txt env st = (do
      let dest ← Base.resize id (1 + n)
      put dest [d]
      put (dest + 1) txt : M Unit) env st := by
  unfold Lim at hl
  unfold storeTail
  rw [add_eq (by omega)]
  exact bind_eq (resize_eq hi (by omega)) fun _ _ _ => rfl

theorem plain_eq {id : Nat} {d : Byte} {e : PctSet} {ok : Byte → Bool} (he : SetOf e ok) {s : Str} (hl : Lim env B (3 * s.length + 1)) :
    setPlain env.sizeMax id d e s env st = Base.setPlain id d e s env st := by
  have hl' := hl
  unfold Lim at hl'
  unfold setPlain Base.setPlain
  split
  · exact bind_eq (resize_eq hi (by omega)) fun _ _ _ => rfl
  · obtain ⟨h1, h2⟩ := encoded_size_eq' (k := env.sizeMax) he (s := s) (by omega)
    rw [h1]
    exact storeTail_eq hi (hl.mono (by omega))

theorem encoded_eq {id : Nat} {d : Byte} {e : PctSet} {s : Str} (hl : Lim env B (s.length + 1)) :
    setEncoded env.sizeMax id d e s env st = Base.setEncoded id d e s env st := by
  have hl' := hl
  unfold Lim at hl'
  unfold setEncoded Base.setEncoded
  split
  · exact bind_eq (resize_eq hi (by omega)) fun _ _ _ => rfl
  · refine bind_eq rfl fun _ st1 e1 => ?_
    obtain rfl := reads_ret (Alias.Reads.validate _ _) e1
    exact storeTail_eq hi hl

theorem part_eq {id : Nat} {d : Byte} {e : PctSet} {s : Str} (hl : Lim env B (s.length + 1)) :
    setPart env.sizeMax id d e s env st = Base.setPart id d e s env st := by
  have hl' := hl
  unfold Lim at hl'
  unfold setPart Base.setPart
  split
  · exact bind_eq (resize_eq hi (by omega)) fun _ _ _ => rfl
  · refine bind_eq rfl fun _ st1 e1 => ?_
    obtain rfl := reads_ret (Alias.Reads.require _) e1
    refine bind_eq rfl fun _ st1 e1 => ?_
    obtain rfl := reads_ret (Alias.Reads.validate _ _) e1
    exact storeTail_eq hi (hl.mono (by simp))

theorem normalize_eq (hm : B < env.sizeMax) : normalize_scheme env.sizeMax env st = Base.normalize_scheme env st := by
  unfold normalize_scheme Base.normalize_scheme
  rw [run_bind_ret run_pt, run_bind_ret run_pt, hi.length hm]

theorem run_eq {op : Op} (hl : Lim env B (3 * (arg op).length + 16)) : run op env st = Url.run op env st := by
  have hm : B < env.sizeMax := by unfold Lim at hl; omega
  unfold run
  cases op <;> simp only [runAt, Url.run, arg] at hl ⊢
  case set_encoded_url s => exact url_eq hi (hl.mono (by omega))
  case set_encoded_origin s => exact origin_eq hi (hl.mono (by omega))
  case set_scheme s => exact scheme_eq hi (hl.mono (by omega))
  case set_encoded_authority s => exact authority_eq hi (hl.mono (by omega))
  case set_encoded_userinfo s => exact userinfo_eq hi (hl.mono (by omega))
  case set_userinfo_part s => exact userinfo_part_eq hi (hl.mono (by omega))
  case set_user s => exact user_eq hi (hl.mono (by omega))
  case set_encoded_user s => exact encoded_user_eq hi (hl.mono (by omega))
  case set_password s => exact password_eq hi (hl.mono (by omega))
  case set_encoded_password s => exact encoded_password_eq hi (hl.mono (by omega))
  case set_password_part s => exact password_part_eq hi (hl.mono (by omega))
  case set_host s => exact host_eq hi (hl.mono (by omega))
  case set_encoded_host s => exact encoded_host_eq hi (hl.mono (by omega))
  case set_port s => exact port_eq hi (hl.mono (by omega))
  case set_port_number n => exact port_number_eq hi (hl.mono (by simp))
  case set_port_part s => exact port_part_eq hi (hl.mono (by omega))
  case set_encoded_path s => exact path_eq hi (hl.mono (by omega))
  case set_query s => exact plain_eq hi setOf_query (hl.mono (by omega))
  case set_encoded_query s => exact encoded_eq hi (hl.mono (by omega))
  case set_query_part s => exact part_eq hi (hl.mono (by omega))
  case set_fragment s => exact plain_eq hi setOf_frag (hl.mono (by omega))
  case set_encoded_fragment s => exact encoded_eq hi (hl.mono (by omega))
  case set_fragment_part s => exact part_eq hi (hl.mono (by omega))
  case normalize_scheme => exact normalize_eq hi hm
  case normalize => exact normalize_eq hi hm

end Calls

end Url.Machine
