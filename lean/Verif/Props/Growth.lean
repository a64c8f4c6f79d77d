import Verif.Props.Edits
import Verif.Props.Capacity

/-!
C24 for edits of segments through any iterators, after any calls and edits.
-/

set_option autoImplicit false

namespace Url.Props
open Url Spec Capacity Alias

variable {env : Env} {st st' : St}

theorem erase_room {a b it : SegIt} (h : Base.seg_erase_range a b env st = .ret it st') : st' = st ∨ Room env st (st'.pt.off 8) st' := by
  unfold Base.seg_erase_range at h
  obtain ⟨_, s1, h1, h⟩ := bind_ret h; cases reads_ret reads_stored h1
  obtain ⟨_, s2, h1, h⟩ := bind_ret h; cases reads_ret (Alias.Reads.assert _) h1
  obtain ⟨_, s3, h1, h⟩ := bind_ret h; cases reads_ret (Alias.Reads.assert _) h1
  obtain ⟨_, s4, h1, h⟩ := bind_ret h; cases reads_ret (Alias.Reads.assert _) h1
  obtain ⟨_, s5, h1, h⟩ := bind_ret h; cases reads_ret (Alias.Reads.assert _) h1
  obtain ⟨_, s6, h1, h⟩ := bind_ret h; cases reads_ret (Alias.Reads.assert _) h1
  dsimp only at h
  split at h
  · cases h
  split at h
  · cases h; exact .inl rfl
  obtain ⟨_, s7, h1, h⟩ := bind_ret h; cases reads_ret (Alias.Reads.ask _) h1
  split at h
  · cases h
  obtain ⟨_, s8, h1, h⟩ := bind_ret h; cases reads_ret (Alias.Reads.assert _) h1
  obtain ⟨_, s9, h1, h⟩ := bind_ret h; cases reads_ret (Alias.Reads.assert _) h1
  obtain ⟨_, s10, h1, h⟩ := bind_ret h; cases reads_ret Alias.Reads.sizeMax h1
  obtain ⟨_, s11, h1, h⟩ := bind_ret h; cases h1
  obtain ⟨_, s12, h1, h⟩ := bind_ret h; cases h1
  obtain ⟨_, s13, h1, h⟩ := bind_ret h
  obtain ⟨t1, t2, -⟩ := Tail.move _ _ _ _ _ _ _ h1
  dsimp only at t1 t2
  obtain ⟨_, s14, h2, h⟩ := bind_ret h; cases h2
  obtain ⟨pt, s15, h2, h⟩ := bind_ret h; cases h2
  obtain ⟨_, s16, h2, h⟩ := bind_ret h; cases reads_ret reads_stored h2
  obtain ⟨_, s17, h2, h⟩ := bind_ret h; cases reads_ret (Alias.Reads.assert _) h2
  obtain ⟨_, s18, h3, h⟩ := bind_ret h
  have e2 := Capacity.storage_resize_fit h3
  obtain ⟨_, s19, h2, h⟩ := bind_ret h; cases reads_ret (Alias.Reads.assert _) h2
  cases reads_ret (Alias.Reads.ask _) h
  right
  obtain ⟨e1, e2⟩ := e2
  unfold Room at e2 ⊢
  dsimp only at e1 e2
  rw [t1, t2] at e2
  rw [e1]
  exact e2

theorem put_room {pos it : SegIt} {ns : Nat} {enc : Str} (h : Base.seg_put pos ns enc env st = .ret it st') :
    Room env st (st.pt.off 8 + (ns + 1)) st' := by
  unfold Base.seg_put at h
  obtain ⟨_, s1, h1, h⟩ := bind_ret h; cases reads_ret reads_stored h1
  obtain ⟨_, s2, h1, h⟩ := bind_ret h; cases reads_ret (Alias.Reads.assert _) h1
  obtain ⟨_, s3, h1, h⟩ := bind_ret h; cases reads_ret (Alias.Reads.assert _) h1
  obtain ⟨_, s4, h1, h⟩ := bind_ret h; cases reads_ret (Alias.Reads.assert _) h1
  obtain ⟨pt, s5, h1, h⟩ := bind_ret h; cases h1
  dsimp only at h
  obtain ⟨_, s6, h1, h⟩ := bind_ret h
  have e1 := (Capacity.storage_resize_fit h1).2
  obtain ⟨_, s7, h1, h⟩ := bind_ret h; cases h1
  obtain ⟨pt, s8, h1, h⟩ := bind_ret h; cases h1
  obtain ⟨_, s9, h1, h⟩ := bind_ret h
  obtain ⟨a1, a2, -⟩ := Tail.move _ _ _ _ _ _ _ h1
  obtain ⟨_, s10, h1, h⟩ := bind_ret h; cases reads_ret (Alias.Reads.assert _) h1
  obtain ⟨_, s11, h1, h⟩ := bind_ret h
  obtain ⟨b1, b2, -⟩ := Tail.put _ _ _ _ _ _ h1
  obtain ⟨_, s12, h1, h⟩ := bind_ret h
  obtain ⟨c1, c2, -⟩ := Tail.put _ _ _ _ _ _ h1
  obtain ⟨_, s13, h1, h⟩ := bind_ret h; cases reads_ret Alias.Reads.sizeMax h1
  obtain ⟨_, s14, h1, h⟩ := bind_ret h; cases h1
  cases reads_ret (Alias.Reads.ask _) h
  dsimp only at a1 a2
  unfold Room at e1 ⊢
  dsimp only
  rw [c1, c2, b1, b2, a1, a2]
  exact e1

theorem reserve_room {n : Nat} {u : Unit} (h : Storage.reserve n env st = .ret u st') :
    (n ≤ st.cap ∧ st' = st) ∨
    (st.cap < n ∧ st'.tick = st.tick + 1 ∧ st'.cap = Storage.newCap env.maxSize st.cap n ∧ st'.cap + 1 ≤ env.maxSize) := by
  by_cases hn : n ≤ st.cap
  · unfold Storage.reserve at h
    rw [if_pos hn] at h
    cases h
    exact .inl ⟨hn, rfl⟩
  · right
    obtain ⟨-, h2, h3⟩ := (storage_reserve_grow h).resolve_left (fun h => hn h.1)
    unfold Storage.reserve at h
    rw [if_neg hn] at h
    dsimp only at h
    unfold Storage.allocate at h
    by_cases ha : Storage.newCap env.maxSize st.cap n + 1 ≤ env.maxSize ∧
        env.alloc st.tick (Storage.newCap env.maxSize st.cap n + 1) = true
    · rw [if_pos ha] at h
      dsimp only at h
      cases hb : st.buf with
      | none => rw [hb] at h; dsimp only at h; cases h; exact ⟨by omega, rfl, rfl, ha.1⟩
      | some b =>
        rw [hb] at h; dsimp only at h
        split at h
        · cases h; exact ⟨by omega, rfl, rfl, ha.1⟩
        · cases h
    · rw [if_neg ha] at h; cases h

theorem part8_off {S U W H P q f : List Cell} {pa : Str} {t : Cell} (h : Holds env st ([S, U, W, H, P] ++ pa.map some :: [q, f]) t) :
    st.pt.off 8 = ([S, U, W, H, P].flatten.length + q.length + f.length) + pa.length ∧ st.pt.off 8 ≤ st.size ∧ st.size ≤ st.cap := by
  have e : st.pt.off 8 = ([S, U, W, H, P] ++ pa.map some :: [q, f]).flatten.length := by
    rw [h.rep 8, plen_of_le (Nat.le_of_eq h.len)]
  refine ⟨by rw [e]; simp; omega, ?_⟩
  rw [e]
  rcases h.buf with ⟨-, h2, h3, h4⟩ | ⟨-, -, -, h3, h4⟩
  · rw [h2, h3, h4]; simp
  · exact ⟨h3, h4⟩

theorem path_length {e : ItOp} (hin : e.InPath st) {pa : Str} (hq : st.pt.off id_query = st.pt.off id_path + pa.length) :
    (e.path (st.pt.off id_path) pa).length + (e.range.2 - e.range.1) = pa.length + e.text.length := by
  obtain ⟨i1, i2, i3⟩ := hin
  simp only [ItOp.path, ItOp.rest, List.length_append, List.length_take, List.length_drop]
  omega

/-- The text after an edit is longer by what was put there, and shorter by what was removed. -/
theorem edit_size (hd : env.dbg = false) {S U W H P q f : List Cell} {pa : Str} {t : Cell} (hp : Part8 env st S U W H P (pa.map some) q f t)
    {e : ItOp} {it : SegIt} (hin : e.InPath st) (h : runIt e env st = .ret it st') :
    st'.pt.off 8 + (e.range.2 - e.range.1) = st.pt.off 8 + e.text.length := by
  rcases hp.edit hd hin with ⟨-, hv⟩ | ⟨-, ho⟩
  · rw [h] at hv; cases hv
  · rw [h] at ho
    obtain ⟨-, -, -, ⟨t', g⟩, -⟩ := ho
    obtain ⟨g1, -⟩ := part8_off g
    obtain ⟨f1, -⟩ := part8_off (pa := pa) hp.holds
    obtain ⟨q1, q2, -⟩ := Holds.offs (A := [S, U, W, H, P]) (X := pa.map some) (B := [q, f]) hp.holds rfl
    rw [List.length_map] at q2
    have := path_length hin (pa := pa) (by omega)
    omega

/-- The storage of a replacement: `st.size` is what the storage takes the size of the text for. -/
theorem swap_room (hw : ∃ S U W H P q f t, ∃ pa : Str, Part8 env st S U W H P (pa.map some) q f t) (hd : env.dbg = false) {pos it : SegIt}
    (hin : (ItOp.erase pos).InPath st) {ns : Nat} {ins : SegIt → M SegIt}
    (hins : ∀ {it it' s s'}, ins it env s = .ret it' s' → Room env s (s.pt.off 8 + (ns + 1)) s')
    (h : Base.seg_swap pos ns ins env st = .ret it st') : Room env st (st.size + (ns + 1) - pos.n) st' := by
  obtain ⟨S, U, W, H, P, q, f, t, pa, hp⟩ := hw
  obtain ⟨o1, o2, o3⟩ := part8_off (pa := pa) hp.holds
  -- after the reservation
  have key : ∀ st1 t1, Part8 env st1 S U W H P (pa.map some) q f t1 → st1.pt = st.pt → st.size + (ns + 1) - pos.n ≤ st1.cap →
      ∀ {st' it}, ((do
          let cap ← M.capacity
          let r ← ins (← Base.seg_erase pos)
          let cap' ← M.capacity
          M.assert fun _ => .ok (cap' = cap)
          return r : M SegIt) env st1) = .ret it st' → st'.cap = st1.cap ∧ st'.tick = st1.tick := by
    intro st1 t1 hp1 hpt hcap st' it h
    obtain ⟨_, s1, h1, h⟩ := bind_ret h; cases reads_ret reads_capacity h1
    obtain ⟨it2, st2, h2, h⟩ := bind_ret h
    obtain ⟨_, s3, h3, h⟩ := bind_ret h
    obtain ⟨_, s4, h4, h⟩ := bind_ret h; cases reads_ret reads_capacity h4
    obtain ⟨_, s5, h4, h⟩ := bind_ret h; cases reads_ret (Alias.Reads.assert _) h4
    cases h
    have hin1 : (ItOp.erase pos).InPath st1 := by unfold ItOp.InPath at hin ⊢; rw [hpt]; exact hin
    have hst2 : st2.pt.off 8 + pos.n = st1.pt.off 8 := by
      have := edit_size hd hp1 hin1 h2
      simp only [ItOp.range, ItOp.text, List.length_nil] at this
      omega
    obtain ⟨f1, f2, f3⟩ := part8_off (pa := pa) hp1.holds
    have hf : st1.pt.off 8 = st.pt.off 8 := by rw [hpt]
    have h2' : st2.cap = st1.cap ∧ st2.tick = st1.tick := by
      unfold Base.seg_erase at h2
      obtain ⟨_, s6, h6, h2⟩ := bind_ret h2; cases reads_ret (Alias.Reads.ask _) h6
      rcases erase_room h2 with rfl | ⟨-, a, b⟩ | ⟨a, -⟩
      · exact ⟨rfl, rfl⟩
      · exact ⟨a, b⟩
      · omega
    rcases hins h3 with ⟨-, a, b⟩ | ⟨a, -⟩
    · exact ⟨a.trans h2'.1, b.trans h2'.2⟩
    · omega
  unfold Base.seg_swap at h
  obtain ⟨_, s1, h1, h⟩ := bind_ret h; cases reads_ret reads_stored h1
  obtain ⟨_, s2, h1, h⟩ := bind_ret h; cases reads_ret (Alias.Reads.assert _) h1
  dsimp only at h
  split at h
  · obtain ⟨_, s3, h1, h⟩ := bind_ret h; cases h1
    obtain ⟨_, st1, h1, h⟩ := bind_ret h
    have hs : Stores env st (st.size + (ns + 1) - pos.n) := by
      refine Classical.byContradiction fun hs => ?_
      rw [storage_reserve_throw hs] at h1
      cases h1
    obtain ⟨st1', t1, r1, r2, r3, r4, r5, r6, r7⟩ := reserve_cells hp.holds hs
    rw [h1] at r1
    cases r1
    obtain ⟨k1, k2⟩ := key st1 t1 ⟨r6, hp.S, hp.W, hp.H, hp.P, hp.pa, hp.q, hp.f⟩ r2 r4 h
    rcases reserve_room h1 with ⟨a, rfl⟩ | ⟨a, b, c, d⟩
    · exact .inl ⟨a, k1, k2⟩
    · exact .inr ⟨a, k2.trans b, k1.trans c, by rw [k1]; exact d⟩
  · obtain ⟨k1, k2⟩ := key st t hp rfl (by omega) h
    exact .inl ⟨by omega, k1, k2⟩

theorem worked_proper (h : Worked env st) : Capacity.Proper st := by
  obtain ⟨S, U, W, H, P, q, f, t, pa, h⟩ := h.release.parts rfl
  exact proper_of h.holds

/-- C24: the text fits into the capacity, after any calls and edits. -/
theorem C24_size_worked (h : Worked env st) (dbg : Bool) : size (st.obj dbg) ≤ st.cap := (worked_proper h).cap

/-- C24 for every call but one, after any calls and edits. -/
theorem C24_growth_worked {op : Op} (h0 : Worked env st) (hop : op ≠ .set_password_part b!":") (h : run op env st = .ret () st') :
    (size (st'.obj false) ≤ st.cap → st'.cap = st.cap ∧ st'.tick = st.tick) ∧
    (st.cap < size (st'.obj false) → st'.tick = st.tick + 1 ∧ 2 * st.cap ≤ st'.cap ∧
      (st'.cap = size (st'.obj false) ∨ st'.cap = 2 * st.cap) ∧ st'.cap + 1 ≤ env.maxSize) :=
  room_of (Capacity.fit_run hop env st () st' (worked_proper h0) h)

/-- The number of characters an edit makes room for: those of its result. A replacement takes the size of the text from
the storage instead, which may be more than the size of the text. -/
def needs (st st' : St) : ItOp → Nat
  | .replace _ _ | .replace_encoded _ _ => size (st'.obj false) + (st.size - size (st.obj false))
  | _ => size (st'.obj false)

theorem edit_room {e : ItOp} {it : SegIt} (hw : Worked env st) (hin : e.InPath st) (h : runIt e env st = .ret it st') :
    Room env st (needs st st' e) st' := by
  have h' : runIt e env.release st = .ret it st' := by
    rcases runIt_sim e env st with ⟨f, h1⟩ | h1
    · rw [h1] at h; cases h
    · rw [← h1]; exact h
  suffices Room env.release st (needs st st' e) st' from this
  have hw' := hw.release.parts rfl
  obtain ⟨S, U, W, H, P, q, f, t, pa, hp⟩ := hw'
  have hsz := edit_size rfl hp hin h'
  obtain ⟨o1, o2, o3⟩ := part8_off (pa := pa) hp.holds
  obtain ⟨i1, i2, i3⟩ := hin
  have hlen : ∀ s, pchar_pct_set.encoded_size s = (pctEncode isPchar s).length := fun s => by
    rw [encoded_size_eq setOf_pchar, encode_eq setOf_pchar]
  cases e with
  | erase p =>
    simp only [runIt, Base.seg_erase] at h'
    obtain ⟨_, s1, h1, h'⟩ := bind_ret h'; cases reads_ret (Alias.Reads.ask _) h1
    rcases erase_room h' with rfl | h
    · exact .inl ⟨Nat.le_trans o2 o3, rfl, rfl⟩
    · exact h
  | erase_range a b =>
    rcases erase_room h' with rfl | h
    · exact .inl ⟨Nat.le_trans o2 o3, rfl, rfl⟩
    · exact h
  | insert p s =>
    simp only [runIt, Base.seg_insert, Base.seg_insert_impl] at h'
    obtain ⟨_, s1, h1, h'⟩ := bind_ret h'; cases reads_ret (Alias.Reads.assert _) h1
    have hr := put_room h'
    rw [hlen] at hr
    simp only [ItOp.range, ItOp.text, List.length_cons] at hsz
    rw [show st.pt.off 8 + ((pctEncode isPchar s).length + 1) = st'.pt.off 8 by omega] at hr
    exact hr
  | insert_encoded p s =>
    simp only [runIt, Base.seg_insert_encoded, Base.seg_insert_encoded_impl] at h'
    obtain ⟨_, s1, h1, h'⟩ := bind_ret h'; cases reads_ret (Alias.Reads.validate _ _) h1
    obtain ⟨_, s1, h1, h'⟩ := bind_ret h'; cases reads_ret (Alias.Reads.assert _) h1
    have hr := put_room h'
    simp only [ItOp.range, ItOp.text, List.length_cons] at hsz
    rw [show st.pt.off 8 + (s.length + 1) = st'.pt.off 8 by omega] at hr
    exact hr
  | replace p s =>
    simp only [runIt, Base.seg_replace] at h'
    have hr := swap_room ⟨S, U, W, H, P, q, f, t, pa, hp⟩ rfl ⟨i1, i2, i3⟩ (fun {it it' s1 s2} h => by
      simp only [Base.seg_insert_impl] at h
      obtain ⟨_, s3, h1, h⟩ := bind_ret h; cases reads_ret (Alias.Reads.assert _) h1
      exact put_room h) h'
    rw [hlen] at hr
    simp only [ItOp.range, ItOp.text, List.length_cons] at hsz i2 i3
    have hn : st.size + ((pctEncode isPchar s).length + 1) - p.n = needs st st' (.replace p s) := by
      show _ = st'.pt.off 8 + (st.size - st.pt.off 8)
      omega
    rw [hn] at hr
    exact hr
  | replace_encoded p s =>
    simp only [runIt, Base.seg_replace_encoded] at h'
    obtain ⟨_, s1, h1, h'⟩ := bind_ret h'; cases reads_ret (Alias.Reads.validate _ _) h1
    have hr := swap_room ⟨S, U, W, H, P, q, f, t, pa, hp⟩ rfl ⟨i1, i2, i3⟩ (fun {it it' s1 s2} h => by
      simp only [Base.seg_insert_encoded_impl] at h
      obtain ⟨_, s3, h1, h⟩ := bind_ret h; cases reads_ret (Alias.Reads.assert _) h1
      exact put_room h) h'
    simp only [ItOp.range, ItOp.text, List.length_cons] at hsz i2 i3
    have hn : st.size + (s.length + 1) - p.n = needs st st' (.replace_encoded p s) := by
      show _ = st'.pt.off 8 + (st.size - st.pt.off 8)
      omega
    rw [hn] at hr
    exact hr

/-- C24 for an edit through any iterators into the path, after any calls and edits: if what it needs fits, it does not
allocate; otherwise there is one allocation, and the capacity at least doubles. -/
theorem C24_growth_edit {e : ItOp} {it : SegIt} (hw : Worked env st) (hin : e.InPath st) (h : runIt e env st = .ret it st') :
    (needs st st' e ≤ st.cap → st'.cap = st.cap ∧ st'.tick = st.tick) ∧
    (st.cap < needs st st' e → st'.tick = st.tick + 1 ∧ 2 * st.cap ≤ st'.cap ∧
      (st'.cap = needs st st' e ∨ st'.cap = 2 * st.cap) ∧ st'.cap + 1 ≤ env.maxSize) := room_of (edit_room hw hin h)

/-- size, capacity and allocations after an edit -/
def roomOfEdit : Out SegIt → Option (Nat × Nat × Nat)
  | .ret _ st => some (size (st.obj false), st.cap, st.tick)
  | _ => none

example : Worked env1 (afterRelease (staleCalls ++ [.set_encoded_path b!"/abc/d"])) ∧
    (ItOp.insert ⟨6, 3⟩ b!"xyz").InPath (afterRelease (staleCalls ++ [.set_encoded_path b!"/abc/d"])) ∧
    roomOf (.ret () (afterRelease (staleCalls ++ [.set_encoded_path b!"/abc/d"]))) = some (10, 10, 2) ∧
    roomOfEdit (runIt (.insert ⟨6, 3⟩ b!"xyz") env1 (afterRelease (staleCalls ++ [.set_encoded_path b!"/abc/d"]))) = some (14, 20, 3) :=
  ⟨(afterRelease_used (by decide +kernel)).worked, by decide +kernel, by decide +kernel, by decide +kernel⟩

/-- C24 is false for a replacement after `set_password_part(":")`, which leaves the storage with a size that is not the
size of the text: the result fits into the capacity, but there is an allocation. (With assertions, one fails.) -/
theorem C24_replace_false : Worked env1 (afterRelease [.set_encoded_url b!"/a/b", .set_password_part b!":"]) ∧
    (ItOp.replace ⟨2, 2⟩ b!"xyz").InPath (afterRelease [.set_encoded_url b!"/a/b", .set_password_part b!":"]) ∧
    roomOf (.ret () (afterRelease [.set_encoded_url b!"/a/b", .set_password_part b!":"])) = some (6, 8, 2) ∧
    roomOfEdit (runIt (.replace ⟨2, 2⟩ b!"xyz") env1 (afterRelease [.set_encoded_url b!"/a/b", .set_password_part b!":"])) = some (8, 16, 3) :=
  ⟨(afterRelease_used (by decide +kernel)).worked, by decide +kernel, by decide +kernel, by decide +kernel⟩

end Url.Props
