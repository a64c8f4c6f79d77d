import Verif.Proofs.Machine
import Verif.Proofs.SegOp

/-!
The edits of segments of `Verif.Model.Machine` and those of the model.
-/

set_option linter.unusedSimpArgs false

namespace Url.Machine
open Spec M Url.Alias Url.Capacity

attribute [-simp] List.length_flatten

variable {α β : Type} {env : Env} {B : Nat} {st : St}

/-! ### the edits of segments -/

theorem move_still {a b c : Nat} {u : Unit} {st' : St} (h : M.move a b c env st = .ret u st') :
    st'.pt = st.pt ∧ st'.cap = st.cap ∧ st'.size = st.size := by
  unfold M.move at h
  split at h
  · cases h; exact ⟨rfl, rfl, rfl⟩
  · split at h
    · cases h
    · split at h
      · cases h; exact ⟨rfl, rfl, rfl⟩
      · cases h

theorem reserve_still {n : Nat} {u : Unit} {st' : St} (h : Storage.reserve n env st = .ret u st') :
    st'.pt = st.pt ∧ st'.size = st.size ∧ st.cap ≤ st'.cap ∧ (st'.cap = st.cap ∨ Granted env (st'.cap + 1)) ∧ (n ≤ st.cap → st' = st) := by
  unfold Storage.reserve at h
  split at h
  · cases h; exact ⟨rfl, rfl, Nat.le_refl _, .inl rfl, fun _ => rfl⟩
  · rename_i hn
    dsimp only at h
    cases ha : Storage.allocate (Storage.newCap env.maxSize st.cap n + 1) env st with
    | throw e st1 => rw [ha] at h; cases h
    | fault f => rw [ha] at h; cases h
    | ret u st1 =>
      rw [ha] at h
      unfold Storage.allocate at ha
      split at ha <;> cases ha
      rename_i hc
      have hle : st.cap ≤ Storage.newCap env.maxSize st.cap n := by have := (newCap_ge hc.1); omega
      dsimp only at h
      cases hb : st.buf with
      | none =>
        rw [hb] at h
        cases h
        exact ⟨rfl, rfl, hle, .inr ⟨hc.1, _, hc.2⟩, fun h => absurd h hn⟩
      | some b =>
        rw [hb] at h
        dsimp only at h
        split at h <;> cases h
        exact ⟨rfl, rfl, hle, .inr ⟨hc.1, _, hc.2⟩, fun h => absurd h hn⟩

theorem ask_ret {f : Obj → R α} {a : α} {st' : St} (h : M.ask f env st = .ret a st') : f (st.obj env.dbg) = .ok a ∧ st' = st := by
  unfold M.ask at h
  cases hn : f (st.obj env.dbg) with
  | error e => rw [hn] at h; cases h
  | ok x => rw [hn] at h; cases h; exact ⟨rfl, rfl⟩

theorem next_off {lim : Nat} {o : Obj} {it it' : SegIt} (h : Seg.next lim o it = .ok it') : it'.off = it.off + it.n := by
  unfold Seg.next at h
  simp only [bind, Except.bind, pure, Except.pure] at h
  split at h
  · cases h
  · split at h
    · cases h; rfl
    · exact parse_off h

theorem add_sub_eq {k x a b : Nat} (h : b ≤ x + a) (hb : b ≤ k) (hk : x + a - b ≤ k) : add k x (sub k a b) = x + a - b := by
  unfold add sub
  rw [Nat.add_mod_mod, show x + (a + (k + 1 - b)) = (x + a - b) + (k + 1) by omega, Nat.add_mod_right, Nat.mod_eq_of_lt (by omega)]

theorem parts_resize_eq (hi : Inv env B st) (hm : B < env.sizeMax) {pt : Parts} (ho : ∀ i, pt.off i = st.pt.off i) {id n : Nat}
    (hn : st.pt.off 8 + n - st.pt.length id ≤ env.sizeMax) : Parts.resize env.sizeMax pt id n = pt.resize id n := by
  obtain ⟨hc1, hc2⟩ := hi.capLt hm
  have hc := hi.cap
  have m0 := hi.mono id
  have m1 := hi.top (id + 1)
  refine Parts.ext' (fun i => ?_) rfl rfl rfl
  show (if id < i then _ else _) = (if id < i then _ else _)
  have hl : length env.sizeMax pt id = st.pt.off (id + 1) - st.pt.off id := by
    rw [length, ho, ho, sub_eq (by omega) (by omega)]
  have hl' : pt.length id = st.pt.off (id + 1) - st.pt.off id := by
    rw [Parts.length, ho, ho]
  have hl2 : st.pt.length id = st.pt.off (id + 1) - st.pt.off id := rfl
  split
  · rename_i h
    have := hi.le (i := id + 1) (j := i) h
    have := hi.top i
    rw [hl, hl', ho, add_sub_eq (by omega) (by omega) (by omega)]
  · rfl

theorem seg_erase_range_eq (hi : Inv env B st) (hm : B < env.sizeMax) {f l : SegIt} (h5 : st.pt.off 5 ≤ f.off) (h6 : l.off ≤ st.pt.off 6) :
    seg_erase_range env.sizeMax f l env st = Base.seg_erase_range f l env st := by
  obtain ⟨hc1, hc2⟩ := hi.capLt hm
  have hc := hi.cap
  have m6 := hi.top 6
  have m56 : st.pt.off 5 ≤ st.pt.off 6 := hi.mono 5
  unfold seg_erase_range Base.seg_erase_range
  rw [run_bind_ret run_stored, run_bind_ret run_stored]
  iterate 5
    refine bind_eq rfl fun _ st1 e1 => ?_
    obtain rfl := (reads_ret (Alias.Reads.assert _) e1).symm
    clear e1
  by_cases hlt : l.off < f.off
  · rw [if_pos hlt, if_pos hlt]
  · rw [if_neg hlt, if_neg hlt, sub_eq (by omega) (by omega)]
    by_cases hz : l.off - f.off = 0
    · rw [if_pos hz, if_pos hz]
    · rw [if_neg hz, if_neg hz]
      refine bind_eq rfl fun s st1 e1 => ?_
      obtain rfl := (reads_ret (Alias.Reads.ask _) e1).symm
      clear e1
      split
      · rfl
      iterate 2
        refine bind_eq rfl fun _ st1 e1 => ?_
        obtain rfl := (reads_ret (Alias.Reads.assert _) e1).symm
        clear e1
      rw [run_bind_ret run_sizeMax, run_bind_ret run_sizeMax, run_bind_ret (run_setPt _), run_bind_ret (run_setPt _), run_bind_ret run_pt, run_bind_ret run_pt]
      dsimp only
      have h8 : st.pt.off id_end = st.pt.off 8 := rfl
      rw [sub_eq (by omega) (by omega), add_eq (by omega)]
      refine bind_eq rfl fun _ st2 e2 => ?_
      obtain ⟨g1, g2, g3⟩ := move_still e2
      dsimp only at g1 g2 g3
      have ho : ∀ i, st2.pt.off i = st.pt.off i := fun i => by rw [g1]
      have hl2 : length2 env.sizeMax st2.pt id_path id_query = st.pt.off 6 - st.pt.off 5 := by
        rw [length2, ho, ho, sub_eq (by show st.pt.off 5 ≤ st.pt.off 6; omega) (by show st.pt.off 6 ≤ _; omega)]
      have hl2' : st2.pt.length2 id_path id_query = st.pt.off 6 - st.pt.off 5 := by
        rw [Parts.length2, ho, ho]
      have hl : st.pt.length id_path = st.pt.off 6 - st.pt.off 5 := rfl
      refine bind_eq (setPt_eq ?_) fun _ st3 e3 => ?_
      · rw [hl2, hl2', sub_eq (by omega) (by omega)]
        exact parts_resize_eq hi hm ho (by omega)
      · rw [run_setPt] at e3
        cases e3
        rw [run_bind_ret run_pt, run_bind_ret run_pt, run_bind_ret run_stored, run_bind_ret run_stored]
        have h8' : (st2.pt.resize id_path (st2.pt.length2 id_path id_query - (l.off - f.off))).off id_end = st.pt.off 8 - (l.off - f.off) := by
          show st2.pt.off 8 + _ - (st2.pt.off 6 - st2.pt.off 5) = _
          rw [hl2', ho, ho, ho]
          omega
        dsimp only
        rw [h8', add_eq (by omega)]
        refine bind_eq rfl fun _ st1 e1 => ?_
        obtain rfl := (reads_ret (Alias.Reads.assert _) e1).symm
        refine bind_eq (storage_eq ?_ (by omega)) fun _ _ _ => rfl
        obtain ⟨r1, r2, r3, r4⟩ := hi.ready hm
        exact ⟨by show st2.cap ≤ _; omega, by show st2.cap < _; omega, by show st2.size ≤ st2.cap; omega, by show st2.cap + st2.cap < _ ∨ _; omega⟩

theorem seg_erase_eq (hi : Inv env B st) (hm : B < env.sizeMax) {f : SegIt} (h5 : st.pt.off 5 ≤ f.off) (h6 : f.off + f.n ≤ st.pt.off 6) :
    seg_erase env.sizeMax f env st = Base.seg_erase f env st := by
  unfold seg_erase Base.seg_erase
  refine bind_eq rfl fun l st1 e1 => ?_
  obtain rfl := (reads_ret (Alias.Reads.ask _) e1).symm
  have := (ask_ret e1).1
  refine seg_erase_range_eq hi hm h5 ?_
  rw [next_off this]
  exact h6

theorem reserve_inv (hi : Inv env B st) {n : Nat} {st' : St} (h : Storage.reserve n env st = .ret () st') : Inv env B st' ∧ st'.pt = st.pt ∧ st'.size = st.size := by
  obtain ⟨h1, h2, h3, h4, -⟩ := reserve_still h
  have := hi.cap
  have := hi.size
  have hf := hi.fit
  refine ⟨⟨by rw [h1]; exact hi.mono, by rw [h1]; exact hi.top, by rw [h1]; omega, by omega, ?_, ?_, hi.bound⟩, h1, h2⟩
  · rcases h4 with h4 | h4
    · unfold CapOk at *; omega
    · exact .inr h4.1
  · rcases h4 with h4 | ⟨h4, t, h5⟩
    · rw [h4]; exact hi.got
    · exact .inr (hi.bound.granted t _ h4 h5)

/-- the state after `erase` -/
theorem erase_inv (hi : Inv env B st) {f it : SegIt} {st' : St} (h5 : st.pt.off 5 ≤ f.off) (h6 : f.off + f.n ≤ st.pt.off 6)
    (hh : Base.seg_erase f env st = .ret it st') : Inv env B st' ∧ st'.pt.off 5 ≤ it.off ∧ it.off ≤ st'.pt.off 6 := by
  have m0 := hi.mono
  have m8 := hi.top
  have m6 := hi.top 6
  have m56 : st.pt.off 5 ≤ st.pt.off 6 := hi.mono 5
  unfold Base.seg_erase at hh
  obtain ⟨l, st1, e1, h⟩ := bind_ret hh
  obtain rfl := (reads_ret (Alias.Reads.ask _) e1).symm
  have hl : l.off = f.off + f.n := next_off (ask_ret e1).1
  clear e1 hh
  unfold Base.seg_erase_range at h
  rw [run_bind_ret run_stored] at h
  iterate 5
    obtain ⟨_, st1, e1, h'⟩ := bind_ret h
    obtain rfl := (reads_ret (Alias.Reads.assert _) e1).symm
    clear e1 h
    have h := h'; clear h'
  split at h
  · cases h
  · dsimp only at h
    split at h
    · cases h
      exact ⟨hi, h5, by omega⟩
    · obtain ⟨s, st1, e1, h'⟩ := bind_ret h
      obtain rfl := (reads_ret (Alias.Reads.ask _) e1).symm
      clear e1 h
      have h := h'; clear h'
      split at h
      · cases h
      iterate 2
        obtain ⟨_, st1, e1, h'⟩ := bind_ret h
        obtain rfl := (reads_ret (Alias.Reads.assert _) e1).symm
        clear e1 h
        have h := h'; clear h'
      rw [run_bind_ret run_sizeMax, run_bind_ret (run_setPt _), run_bind_ret run_pt] at h
      obtain ⟨_, st2, e2, h'⟩ := bind_ret h
      clear h
      have h := h'; clear h'
      obtain ⟨g1, g2, g3⟩ := move_still e2
      dsimp only at g1 g2 g3
      have ho : ∀ i, st2.pt.off i = st.pt.off i := fun i => by rw [g1]
      have hl2' : st2.pt.length2 id_path id_query = st.pt.off 6 - st.pt.off 5 := by
        rw [Parts.length2, ho, ho]
      have hl1' : st2.pt.length id_path = st.pt.off 6 - st.pt.off 5 := by
        rw [Parts.length, ho, ho]
      rw [run_bind_ret (run_setPt _), run_bind_ret run_pt, run_bind_ret run_stored] at h
      dsimp only at h
      obtain ⟨_, st3, e3, h'⟩ := bind_ret h
      obtain rfl := reads_ret (Alias.Reads.assert _) e3
      clear h e3
      have h := h'; clear h'
      obtain ⟨_, st4, e4, h'⟩ := bind_ret h
      clear h
      have h := h'; clear h'
      obtain ⟨_, st5, e5, h'⟩ := bind_ret h
      obtain rfl := (reads_ret (Alias.Reads.assert _) e5).symm
      clear h e5
      have h := h'; clear h'
      have hit : it.off = f.off ∧ st' = st4 := ⟨parse_off (ask_ret h).1, (ask_ret h).2⟩
      obtain ⟨hit, rfl⟩ := hit
      have hoff : ∀ i, (st2.pt.resize id_path (st2.pt.length2 id_path id_query - (l.off - f.off))).off i =
          if 5 < i then st.pt.off i - (l.off - f.off) else st.pt.off i := by
        intro i
        show (if 5 < i then st2.pt.off i + _ - _ else st2.pt.off i) = _
        rw [hl2', hl1', ho]
        split
        · have := hi.le (i := 6) (j := i) (by omega)
          omega
        · rfl
      have hcap : st'.cap = st.cap ∧ st'.size ≤ st.cap ∧ st'.pt = st2.pt.resize id_path (st2.pt.length2 id_path id_query - (l.off - f.off)) := by
        have h8 := hoff 8
        have hc := hi.cap
        have hs := hi.size
        simp only [Nat.reduceLT, if_true] at h8
        unfold Storage.resize at e4
        have hr : ∀ n st, n ≤ st.cap → Storage.reserve n env st = .ret () st := fun n st h => by
          unfold Storage.reserve; rw [if_pos h]
        rw [hr _ _ (by show (Parts.off _ 8) ≤ st2.cap; rw [h8]; omega)] at e4
        dsimp only at e4
        split at e4
        · cases e4
          exact ⟨by omega, by show st2.size ≤ _; omega, rfl⟩
        · split at e4 <;> cases e4
          exact ⟨by omega, by dsimp only; rw [show id_end = 8 from rfl, h8]; omega, rfl⟩
      obtain ⟨hc1, hc2, hpt⟩ := hcap
      rw [← hpt] at hoff
      refine ⟨⟨fun i => ?_, fun i => ?_, ?_, by omega, ?_, by rw [hc1]; exact hi.got, hi.bound⟩, ?_, ?_⟩
      · have := m0 i
        rw [hoff, hoff]
        split
        · rw [if_pos (by omega)]; omega
        · split
          · obtain rfl : i = 5 := by omega
            show st.pt.off 5 ≤ st.pt.off 6 - _
            omega
          · exact m0 i
      · have h1 := m8 i
        rw [hoff, hoff, if_pos (c := 5 < 8) (by omega)]
        split
        · omega
        · have := hi.le (i := i) (j := 5) (by omega)
          omega
      · have := hi.cap
        rw [hoff, if_pos (by omega), hc1]; omega
      · have := hi.fit
        unfold CapOk at *
        rw [hc1]; exact this
      · rw [hoff, if_neg (by omega), hit]; exact h5
      · rw [hoff, if_pos (by omega), hit]; omega

theorem seg_put_eq (hi : Inv env B st) {pos : SegIt} {ns : Nat} {enc : Str} (hl : Lim env B (ns + 1)) (h6 : pos.off ≤ st.pt.off 6) :
    seg_put env.sizeMax pos ns enc env st = Base.seg_put pos ns enc env st := by
  unfold Lim at hl
  have hm : B < env.sizeMax := by omega
  obtain ⟨hc1, hc2⟩ := hi.capLt hm
  have hc := hi.cap
  have m6 := hi.top 6
  have m56 : st.pt.off 5 ≤ st.pt.off 6 := hi.mono 5
  have h8 : st.pt.off id_end = st.pt.off 8 := rfl
  unfold seg_put Base.seg_put
  rw [run_bind_ret run_stored, run_bind_ret run_stored]
  iterate 3
    refine bind_eq rfl fun _ st1 e1 => ?_
    obtain rfl := (reads_ret (Alias.Reads.assert _) e1).symm
    clear e1
  rw [run_bind_ret run_pt, run_bind_ret run_pt, add_eq (a := ns) (by omega), add_eq (by omega)]
  refine bind_eq (storage_eq (hi.ready hm) (by omega)) fun _ st1 e1 => ?_
  have g1 := (storage_resize_grow e1).1
  have ho : ∀ i, st1.pt.off i = st.pt.off i := fun i => by rw [g1]
  have hl2 : length2 env.sizeMax st1.pt id_path id_query = st.pt.off 6 - st.pt.off 5 := by
    rw [length2, ho, ho, sub_eq (by show st.pt.off 5 ≤ st.pt.off 6; omega) (by show st.pt.off 6 ≤ _; omega)]
  have hl2' : st1.pt.length2 id_path id_query = st.pt.off 6 - st.pt.off 5 := by
    rw [Parts.length2, ho, ho]
  have hl : st.pt.length id_path = st.pt.off 6 - st.pt.off 5 := rfl
  refine bind_eq (setPt_eq ?_) fun _ st3 e3 => ?_
  · rw [hl2, hl2', add_eq (by omega)]
    exact parts_resize_eq hi hm ho (by omega)
  · rw [sub_eq (by omega) (by omega), add_eq (by omega), add_eq (by omega)]

theorem seg_swap_eq (hi : Inv env B st) {pos : SegIt} {ns : Nat} {ins ins' : SegIt → M SegIt} (hl : Lim env B (ns + 1))
    (h5 : st.pt.off 5 ≤ pos.off) (h6 : pos.off + pos.n ≤ st.pt.off 6)
    (hins : ∀ st it, Inv env B st → it.off ≤ st.pt.off 6 → ins it env st = ins' it env st) :
    seg_swap env.sizeMax pos ns ins env st = Base.seg_swap pos ns ins' env st := by
  unfold Lim at hl
  have hm : B < env.sizeMax := by omega
  obtain ⟨hc1, hc2⟩ := hi.capLt hm
  have hs := hi.size
  have fin : ∀ st : St, Inv env B st → st.pt.off 5 ≤ pos.off → pos.off + pos.n ≤ st.pt.off 6 →
      (do let cap ← M.capacity
          let r ← ins (← seg_erase env.sizeMax pos)
          let cap' ← M.capacity
          M.assert fun _ => .ok (cap' = cap)
          return r : M SegIt) env st =
      (do let cap ← M.capacity
          let r ← ins' (← Base.seg_erase pos)
          let cap' ← M.capacity
          M.assert fun _ => .ok (cap' = cap)
          return r : M SegIt) env st := by
    intro st hi h5 h6
    rw [run_bind_ret run_capacity, run_bind_ret run_capacity]
    refine bind_eq (seg_erase_eq hi hm h5 h6) fun it st1 e1 => ?_
    obtain ⟨g1, -, g3⟩ := erase_inv hi h5 h6 e1
    exact bind_eq (hins _ _ g1 g3) fun _ _ _ => rfl
  unfold seg_swap Base.seg_swap
  rw [run_bind_ret run_stored, run_bind_ret run_stored]
  refine bind_eq rfl fun _ st1 e1 => ?_
  obtain rfl := (reads_ret (Alias.Reads.assert _) e1).symm
  clear e1
  rw [add_eq (a := ns) (by omega)]
  dsimp only
  by_cases hlt : pos.n < ns + 1
  · rw [if_pos hlt, if_pos hlt, run_bind_ret run_stored, run_bind_ret run_stored]
    rw [add_eq (by omega), sub_eq (by omega) (by omega)]
    refine bind_eq (reserve_eq (hi.ready hm) (by omega)) fun _ st1 e1 => ?_
    obtain ⟨g1, g2, -⟩ := reserve_inv hi e1
    exact fin st1 g1 (by rw [g2]; exact h5) (by rw [g2]; exact h6)
  · rw [if_neg hlt, if_neg hlt]
    exact fin st hi h5 h6

/-- the string argument of an edit, empty if there is none -/
def segArg : SegOp → Str
  | .erase _ | .erase_range _ _ => []
  | .insert _ s | .insert_encoded _ s | .replace _ s | .replace_encoded _ s => s

theorem inv_of_holds {L : List (List Cell)} {t : Cell} (h : Holds env st L t) (hb : Bound env B) (hg : st.cap = 0 ∨ st.cap + 1 ≤ B) : Inv env B st := by
  have hmono : ∀ i, st.pt.off i ≤ st.pt.off (i + 1) := by
    intro i
    rw [h.rep, h.rep, plen, plen, List.take_add_one]
    simp
  have htop : ∀ i, st.pt.off i ≤ st.pt.off 8 := by
    intro i
    rw [h.rep, h.rep, plen, plen, List.take_of_length_le (i := 8) (by rw [h.len]; omega)]
    have h2 : (L.take i).flatten.length + (L.drop i).flatten.length = L.flatten.length := by
      rw [← List.length_append, ← List.flatten_append, List.take_append_drop]
    omega
  have h8 : st.pt.off 8 = L.flatten.length := by
    rw [h.rep, plen, List.take_of_length_le (by rw [h.len]; omega)]
  refine ⟨hmono, htop, ?_, ?_, h.cap, hg, hb⟩
  · rcases h.buf with ⟨-, h2, h3, -⟩ | ⟨junk, -, -, h3, h4⟩
    · rw [h8, h2]; simp
    · omega
  · rcases h.buf with ⟨-, -, h3, h4⟩ | ⟨junk, -, -, h3, h4⟩ <;> omega

theorem runSeg_eq {c : Components} (hi : Inv env B st) (h : Rep env st c) (hn : st.pt.nseg = 0 ↔ c.path = []) {e : SegOp}
    (hf : e.Fits (pathSegments c.path).length) (hl : Lim env B (3 * (segArg e).length + 1)) : runSeg e env st = Url.runSeg e env st := by
  have hm : B < env.sizeMax := by unfold Lim at hl; omega
  have hat : ∀ k, k ≤ (pathSegments c.path).length → Base.segAt k env st = .ret (posIt (preText c) c.path k) st :=
    fun k hk => run_ask (segAt_eq h hn env.dbg hk)
  have h1 : e.cut.1 ≤ (pathSegments c.path).length := Nat.le_trans hf.1 hf.2
  obtain ⟨p5, p6, -⟩ := plen_parts c
  have o5 : st.pt.off 5 = (preText c).length := by rw [← p5]; exact (h.obj env.dbg).rep 5
  have o6 : st.pt.off 6 = (preText c).length + c.path.length := by rw [← p6]; exact (h.obj env.dbg).rep 6
  have hp : ∀ k, st.pt.off 5 ≤ (posIt (preText c) c.path k).off ∧ (posIt (preText c) c.path k).off ≤ st.pt.off 6 ∧
      (posIt (preText c) c.path k).off + (posIt (preText c) c.path k).n ≤ st.pt.off 6 := by
    intro k
    have h2 := congrArg List.length (flatten_take_drop (pieces c.path) k)
    rw [pieces_flatten, List.length_append] at h2
    have h3 : (((pieces c.path).drop k).head?.getD []).length ≤ ((pieces c.path).drop k).flatten.length := by
      cases (pieces c.path).drop k with
      | nil => simp
      | cons x l => simp
    rw [o5, o6]
    simp only [posIt]
    omega
  unfold runSeg
  cases e with
  | erase i =>
    rw [runSegAt, Url.runSeg, run_bind_ret (hat i h1), run_bind_ret (hat i h1)]
    exact seg_erase_eq hi hm (hp i).1 (hp i).2.2
  | erase_range i j =>
    rw [runSegAt, Url.runSeg, run_bind_ret (hat i h1), run_bind_ret (hat i h1), run_bind_ret (hat j hf.2), run_bind_ret (hat j hf.2)]
    exact seg_erase_range_eq hi hm (hp i).1 (hp j).2.1
  | insert i s =>
    rw [runSegAt, Url.runSeg, run_bind_ret (hat i h1), run_bind_ret (hat i h1)]
    have hs : segArg (.insert i s) = s := rfl
    rw [hs] at hl
    obtain ⟨g1, g2⟩ := encoded_size_eq' (k := env.sizeMax) setOf_pchar (s := s) (by unfold Lim at hl; omega)
    unfold seg_insert Base.seg_insert seg_insert_impl Base.seg_insert_impl
    rw [g1]
    refine bind_eq rfl fun _ st1 e1 => ?_
    obtain rfl := (reads_ret (Alias.Reads.assert _) e1).symm
    exact seg_put_eq hi (hl.mono (by omega)) (hp i).2.1
  | insert_encoded i s =>
    rw [runSegAt, Url.runSeg, run_bind_ret (hat i h1), run_bind_ret (hat i h1)]
    have hs : segArg (.insert_encoded i s) = s := rfl
    rw [hs] at hl
    unfold seg_insert_encoded Base.seg_insert_encoded seg_insert_encoded_impl Base.seg_insert_encoded_impl
    refine bind_eq rfl fun _ st1 e1 => ?_
    obtain rfl := (reads_ret (Alias.Reads.validate _ _) e1).symm
    clear e1
    refine bind_eq rfl fun _ st1 e1 => ?_
    obtain rfl := (reads_ret (Alias.Reads.assert _) e1).symm
    exact seg_put_eq hi (hl.mono (by omega)) (hp i).2.1
  | replace i s =>
    rw [runSegAt, Url.runSeg, run_bind_ret (hat i h1), run_bind_ret (hat i h1)]
    have hs : segArg (.replace i s) = s := rfl
    rw [hs] at hl
    obtain ⟨g1, g2⟩ := encoded_size_eq' (k := env.sizeMax) setOf_pchar (s := s) (by unfold Lim at hl; omega)
    unfold seg_replace Base.seg_replace
    rw [g1]
    refine seg_swap_eq hi (hl.mono (by omega)) (hp i).1 (hp i).2.2 fun st it hi h6 => ?_
    unfold seg_insert_impl Base.seg_insert_impl
    rw [g1]
    refine bind_eq rfl fun _ st1 e1 => ?_
    obtain rfl := (reads_ret (Alias.Reads.assert _) e1).symm
    exact seg_put_eq hi (hl.mono (by omega)) h6
  | replace_encoded i s =>
    rw [runSegAt, Url.runSeg, run_bind_ret (hat i h1), run_bind_ret (hat i h1)]
    have hs : segArg (.replace_encoded i s) = s := rfl
    rw [hs] at hl
    unfold seg_replace_encoded Base.seg_replace_encoded
    refine bind_eq rfl fun _ st1 e1 => ?_
    obtain rfl := (reads_ret (Alias.Reads.validate _ _) e1).symm
    clear e1
    refine seg_swap_eq hi (hl.mono (by omega)) (hp i).1 (hp i).2.2 fun st it hi h6 => ?_
    unfold seg_insert_encoded_impl Base.seg_insert_encoded_impl
    refine bind_eq rfl fun _ st1 e1 => ?_
    obtain rfl := (reads_ret (Alias.Reads.assert _) e1).symm
    exact seg_put_eq hi (hl.mono (by omega)) h6

end Url.Machine
