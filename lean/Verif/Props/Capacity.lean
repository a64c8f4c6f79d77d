import Verif.Props.Sharp
import Verif.Proofs.Capacity

/-!
C24 for every call, also for the calls that histories leave out, and after any calls.
-/

set_option autoImplicit false

namespace Url.Props
open Url Spec

variable {env : Env} {st st' : St} {op : Op}

theorem proper_of {L : List (List Cell)} {t : Cell} (h : Holds env st L t) : Capacity.Proper st := by
  refine ⟨(Alias.ordered_of h).1, ?_⟩
  rw [h.rep 8, plen_of_le (Nat.le_of_eq h.len)]
  rcases h.buf with ⟨-, h2, -, -⟩ | ⟨junk, -, -, h3, h4⟩
  · rw [h2]; exact Nat.zero_le _
  · exact Nat.le_trans h3 h4

theorem proper (h : Reach env st ∨ Used env st) : Capacity.Proper st := by
  rcases h with h | h
  · obtain ⟨c, ⟨t, h⟩, -⟩ := h.rep
    exact proper_of h
  · obtain ⟨S, U, W, H, P, pa, q, f, t, h⟩ := h.release.parts rfl
    exact proper_of h.holds

/-- C24: the text fits into the capacity, after any calls. -/
theorem C24_size_used (h : Used env st) (dbg : Bool) : size (st.obj dbg) ≤ st.cap := (proper (.inr h)).cap

example : Used env1 (afterRelease staleCalls) ∧ size ((afterRelease staleCalls).obj false) ≤ (afterRelease staleCalls).cap :=
  ⟨afterRelease_used (by decide +kernel), by decide +kernel⟩

/-- C24: the capacity never decreases, whatever the call and the state. -/
theorem C24_monotone (op : Op) (h : run op env st = .ret () st' ∨ ∃ e, run op env st = .throw e st') : st.cap ≤ st'.cap := by
  rcases h with h | ⟨e, h⟩
  · exact (Alias.grows_run op env st st' (.inl ⟨(), h⟩)).1
  · rw [(C18_strong h).2.2.2]; exact Nat.le_refl _

/-- C24: nor does an edit of the segments decrease it. -/
theorem C24_monotone_edit (e : SegOp) (h : (∃ it, runSeg e env st = .ret it st') ∨ ∃ x, runSeg e env st = .throw x st') :
    st.cap ≤ st'.cap := (Capacity.grows_seg e env st st' h).1

example : (match runSeg (.insert 0 b!"abc") env0 (after [.set_encoded_url b!"/a/"]) with
    | .ret _ st' => some (st'.cap, st'.tick)
    | _ => none) = some (7, 2) := by decide +kernel

theorem room_of {n : Nat} (h : Capacity.Room env st n st') :
    (n ≤ st.cap → st'.cap = st.cap ∧ st'.tick = st.tick) ∧
    (st.cap < n → st'.tick = st.tick + 1 ∧ 2 * st.cap ≤ st'.cap ∧ (st'.cap = n ∨ st'.cap = 2 * st.cap) ∧ st'.cap + 1 ≤ env.maxSize) := by
  rcases h with ⟨h0, h1, h2⟩ | ⟨h1, h2, h3, h4⟩
  · exact ⟨fun _ => ⟨h1, h2⟩, fun h => by omega⟩
  · refine ⟨fun h => by omega, fun _ => ?_⟩
    unfold Storage.newCap at h3
    split at h3
    · split at h3 <;> exact ⟨h2, by omega, by omega, h4⟩
    · omega

/-- C24: for every call but one, after any calls: a result that fits does not allocate; otherwise there is one
allocation, the capacity at least doubles and is what the result needs or exactly doubled, and the allocator's limit is
respected. (`tick` counts the allocations.) -/
theorem C24_growth (h0 : Reach env st ∨ Used env st) (hop : op ≠ .set_password_part b!":") (h : run op env st = .ret () st') :
    (size (st'.obj false) ≤ st.cap → st'.cap = st.cap ∧ st'.tick = st.tick) ∧
    (st.cap < size (st'.obj false) → st'.tick = st.tick + 1 ∧ 2 * st.cap ≤ st'.cap ∧
      (st'.cap = size (st'.obj false) ∨ st'.cap = 2 * st.cap) ∧ st'.cap + 1 ≤ env.maxSize) :=
  room_of (Capacity.fit_run hop env st () st' (proper h0) h)

/-- size, capacity and allocations after a call -/
def roomOf : Out Unit → Option (Nat × Nat × Nat)
  | .ret () st => some (size (st.obj false), st.cap, st.tick)
  | _ => none

/-- A call that histories leave out, in a state after such calls. -/
example : Used env1 (afterRelease staleCalls) ∧
    roomOf (.ret () (afterRelease staleCalls)) = some (4, 5, 1) ∧
    roomOf (run (.set_userinfo_part b!"ab@") env1 (afterRelease staleCalls)) = some (5, 5, 1) ∧
    roomOf (run (.set_userinfo_part b!"abcdefghijk@") env1 (afterRelease staleCalls)) = some (14, 14, 2) :=
  ⟨afterRelease_used (by decide +kernel), by decide +kernel, by decide +kernel, by decide +kernel⟩

/-- C24: the remaining call. Where there is no user, `set_password_part(":")` makes room for two characters more than
its result has; otherwise it is as the others. -/
theorem C24_growth_colon (h0 : Reach env st ∨ Used env st) (h : Base.set_password_part b!":" env st = .ret () st') (n : Nat)
    (hn : n = if (st.obj false).pt.length id_user = 0 then size (st'.obj false) + 2 else size (st'.obj false)) :
    (n ≤ st.cap → st'.cap = st.cap ∧ st'.tick = st.tick) ∧
    (st.cap < n → st'.tick = st.tick + 1 ∧ 2 * st.cap ≤ st'.cap ∧ (st'.cap = n ∨ st'.cap = 2 * st.cap) ∧ st'.cap + 1 ≤ env.maxSize) := by
  have ho := (Capacity.Ordered.le (proper h0).ord (i := 1) (j := 2) (by decide) (by decide))
  have e : (st.obj false).pt.length id_user = 0 ↔ st.pt.off 1 = st.pt.off 2 := by
    show st.pt.off 2 - st.pt.off 1 = 0 ↔ _
    omega
  have hr := room_of (Capacity.colon_fit (proper h0) h)
  have e' : n = if st.pt.off 1 = st.pt.off 2 then st'.pt.off 8 + 2 else st'.pt.off 8 := by
    rw [hn]
    simp only [e]
    rfl
  rw [e']
  exact hr

/-- C24 is false: the result of `set_password_part(":")` fits into the capacity, but there is an allocation. -/
theorem C24_colon_false : Reach env0 (after [.set_encoded_url b!"/abc", .set_encoded_url b!"/a"]) ∧
    (∃ st', run (.set_password_part b!":") env0 (after [.set_encoded_url b!"/abc", .set_encoded_url b!"/a"]) = .ret () st' ∧
      size (st'.obj true) ≤ (after [.set_encoded_url b!"/abc", .set_encoded_url b!"/a"]).cap ∧
      st'.tick = (after [.set_encoded_url b!"/abc", .set_encoded_url b!"/a"]).tick + 1) :=
  ⟨reach_all .empty (by simp [Op.Defective]) (after_eq (by decide +kernel)), _, rfl, by decide +kernel, by decide +kernel⟩

/-- C24 is false near the limit of the allocator: from half of the limit on, the capacity never grows again, because
the request is then one more than the limit. A call whose result does not fit throws although the allocator could
provide the memory. -/
theorem C24_limit_false (h0 : Reach env st ∨ Used env st) (hc : env.maxSize ≤ 2 * st.cap) (op : Op) (h : run op env st = .ret () st') :
    st'.cap = st.cap ∧ size (st'.obj false) ≤ st.cap := by
  have key : ∀ {n}, Capacity.Room env st n st' → st'.cap = st.cap ∧ n ≤ st.cap := by
    rintro n (⟨h0, h1, -⟩ | ⟨-, -, h3, h4⟩)
    · exact ⟨h1, h0⟩
    · unfold Storage.newCap at h3
      rw [if_neg (by omega)] at h3
      omega
  by_cases hop : op = .set_password_part b!":"
  · subst hop
    have := key (Capacity.colon_fit (proper h0) h)
    refine ⟨this.1, Nat.le_trans ?_ this.2⟩
    split
    · exact Nat.le_add_right _ _
    · exact Nat.le_refl _
  · exact key (Capacity.fit_run hop env st () st' (proper h0) h)

/-- an allocator that provides up to 10 characters -/
def env10 : Env := { env0 with maxSize := 10, max_le := by decide }

def st10 : St :=
  match run (.set_encoded_url b!"/abcd") env10 Base.empty with
  | .ret () st => st
  | _ => Base.empty

theorem st10_reach : Reach env10 st10 := by
  refine .call (.set_encoded_url b!"/abcd") .empty (fun _ _ h => h) ?_
  have h : returns (run (.set_encoded_url b!"/abcd") env10 Base.empty) = true := by decide +kernel
  unfold st10
  cases hx : run (.set_encoded_url b!"/abcd") env10 Base.empty with
  | ret u st => exact .inl rfl
  | throw e st => exact .inr ⟨e, by rw [hx] at h; cases h⟩
  | fault f => rw [hx] at h; cases h

/-- Six characters do not fit into the capacity of five, and are refused, although the allocator has room for nine and
the terminating zero. -/
example : Reach env10 st10 ∧ env10.maxSize ≤ 2 * st10.cap ∧ st10.cap = 5 ∧
    returns (run (.set_encoded_path b!"/abcde") env10 st10) = false ∧
    returns (run (.set_encoded_path b!"/abcdefgh") env10 Base.empty) = true :=
  ⟨st10_reach, by decide +kernel, by decide +kernel, by decide +kernel, by decide +kernel⟩

end Url.Props
