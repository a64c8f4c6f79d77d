import Verif.Proofs.Weak
import Verif.Proofs.SegEdit
import Verif.Model.ItOp

/-!
Edits of segments through any iterators into the path, in a build without assertions, whatever the parts around the
path are.
-/

set_option linter.unusedSimpArgs false
attribute [-simp] List.length_flatten

namespace Url
open Spec

variable {env : Env} {st : St}

section
variable {A B : List (List Cell)} {u x v enc : Str} {t : Cell}

/-- the offsets around the path -/
theorem Holds.offs {X : List Cell} (h : Holds env st (A ++ X :: B) t) (hA : A.length = 5) :
    st.pt.off id_path = A.flatten.length ∧ st.pt.off id_query = A.flatten.length + X.length ∧
      st.pt.off id_end = A.flatten.length + X.length + B.flatten.length := by
  have h5 := plen_append_right A (X :: B) 0
  have h6 := plen_append_right A (X :: B) 1
  rw [hA] at h5 h6
  refine ⟨?_, ?_, ?_⟩
  · rw [h.rep]; simpa [id_path] using h5
  · rw [h.rep]; simpa [id_query] using h6
  · rw [h.off_end]; simp; omega

/-- the memory of a state that holds something -/
theorem Holds.mem {L} (h : Holds env st L t) (hb : st.buf.isSome = true) (dbg : Bool) :
    ∃ junk, (st.obj dbg).mem = L.flatten ++ t :: junk := by
  rcases h.buf with ⟨h1, -⟩ | ⟨junk, h1, -⟩
  · rw [h1] at hb; cases hb
  · exact ⟨junk, by simp [St.obj, h1]⟩

theorem read_cells {o : Obj} {A : List Cell} {s : Str} {rest : List Cell} (h : o.mem = A ++ (s.map some ++ rest)) :
    o.read A.length s.length = .ok s := by
  unfold Obj.read
  split
  · rename_i h0; rw [List.length_eq_zero_iff.1 h0]
  · rw [if_pos (by rw [h]; simp), h, List.drop_left, List.take_append_of_le_length (by simp),
      List.take_of_length_le (by simp), mapM_some]

theorem byte_cells {o : Obj} {A : List Cell} {c : Cell} {rest : List Cell} (h : o.mem = A ++ c :: rest) :
    o.byte A.length = (c.map Except.ok).getD (.error .ub) := by
  unfold Obj.byte
  rw [h, List.getElem?_append_right (Nat.le_refl _)]
  cases c <;> simp

theorem scan_cells {o : Obj} {A : List Cell} {s : Str} {rest : List Cell} (h : o.mem = A ++ (s.map some ++ rest)) :
    Seg.scan o s.length A.length = .ok (A.length + (s.takeWhile notSlash).length) := by
  induction s generalizing A with
  | nil => rfl
  | cons c t ih =>
    rw [List.length_cons, Seg.scan, byte_cells (c := some c) (rest := t.map some ++ rest) (by simpa using h)]
    simp only [bind, Except.bind, Option.map_some, Option.getD_some]
    by_cases hc : c = c!"/"
    · subst hc
      rw [List.takeWhile_cons_of_neg (by decide)]
      rfl
    · have hn : notSlash c = true := by simp [notSlash, hc]
      have := ih (A := A ++ [some c]) (by simp [h])
      rw [List.length_append, List.length_singleton] at this
      rw [if_neg (by simpa using hc), this, List.takeWhile_cons_of_pos hn, List.length_cons, Nat.add_assoc, Nat.add_comm 1]

theorem assert_rel {o : Obj} (hd : o.dbg = false) (c : R Bool) : o.assert c = .ok () := by simp [Obj.assert, hd]

/-- the length of the piece at the start of `v` -/
def pieceLen (v : Str) : Nat := ((pieces v).head?.getD []).length

theorem pieceLen_le (v : Str) : pieceLen v ≤ v.length := by
  unfold pieceLen
  cases h : pieces v with
  | nil => simp
  | cons a l =>
    have := congrArg List.length (pieces_flatten v)
    rw [h] at this
    simp at this ⊢
    omega

/-- `parse` before the rest `v` of the path -/
theorem parse_cells {o : Obj} {P : List Cell} {v : Str} {rest : List Cell} {n : Nat} (hd : o.dbg = false)
    (h : o.mem = P ++ (v.map some ++ rest)) (hlim : o.pt.off id_query = P.length + v.length)
    (hr : v = [] → ∃ c r, rest = some c :: r ∧ c ≠ c!"/") :
    Seg.parse id_query o { off := P.length, n := n } = .ok { off := P.length, n := pieceLen v } := by
  unfold Seg.parse pieceLen
  rw [assert_rel hd]
  cases v with
  | nil =>
    obtain ⟨c, r, rfl, hc⟩ := hr rfl
    have hb : (c == c!"/") = false := by simpa using hc
    rw [byte_cells (c := some c) (rest := r) (by simpa using h), hlim]
    simp [bind, Except.bind, hb, Seg.scan, pure, Except.pure, pieces]
  | cons c t =>
    rw [byte_cells (c := some c) (rest := t.map some ++ rest) (by simpa using h), hlim, pieces_cons]
    simp only [bind, Except.bind, Option.map_some, Option.getD_some]
    by_cases hc : c = c!"/"
    · subst hc
      have := scan_cells (o := o) (A := P ++ [some c!"/"]) (s := t) (rest := rest) (by simp [h])
      rw [List.length_append, List.length_singleton] at this
      simp only [beq_self_eq_true, if_true]
      rw [show P.length + (c!"/" :: t).length - (P.length + 1) = t.length by simp; omega, this]
      simp only [pure, Except.pure, Except.ok.injEq, SegIt.mk.injEq, true_and, List.head?_cons, Option.getD_some, List.length_cons]
      omega
    · have hn : notSlash c = true := by simp [notSlash, hc]
      have := scan_cells (s := c :: t) h
      rw [List.takeWhile_cons_of_pos hn] at this
      have hb : (c == c!"/") = false := by simpa using hc
      simp only [hb, Bool.false_eq_true, if_false]
      rw [show P.length + (c :: t).length - P.length = (c :: t).length by simp, this]
      simp only [pure, Except.pure, Except.ok.injEq, SegIt.mk.injEq, true_and, List.head?_cons, Option.getD_some, List.length_cons]
      omega

/-- `parse` where nothing was written -/
theorem parse_none {o : Obj} {P : List Cell} {rest : List Cell} {n : Nat} (hd : o.dbg = false)
    (h : o.mem = P ++ none :: rest) : Seg.parse id_query o { off := P.length, n := n } = .error .ub := by
  unfold Seg.parse
  rw [assert_rel hd, byte_cells (c := none) h]
  rfl

/-! ### `erase` -/

theorem erase_cells (hd : env.dbg = false) (h : Holds env st (A ++ (u ++ x ++ v).map some :: B) t) (hA : A.length = 5) (hx : x ≠ [])
    (hc : x.count c!"/" ≤ Base.intMax) (k k' : Nat) :
    ∃ st', Base.seg_erase_range { off := A.flatten.length + u.length, n := k }
        { off := A.flatten.length + u.length + x.length, n := k' } env st =
      M.ask (fun o => Seg.parse id_query o { off := A.flatten.length + u.length, n := k }) env st' ∧
      Holds env st' (A ++ (u ++ v).map some :: B) (some 0) ∧ st'.buf.isSome = true ∧
      st'.size = (A ++ (u ++ v).map some :: B).flatten.length ∧ st'.cap = st.cap ∧ st'.tick = st.tick ∧
      st'.pt.nparam = st.pt.nparam ∧ st'.pt.host = st.pt.host ∧
      st'.pt.nseg = Base.modSub env.sizeMax st.pt.nseg (x.count c!"/") := by
  obtain ⟨e1, e2, e3⟩ := h.offs hA
  have hxl : 0 < x.length := List.length_pos_iff.2 hx
  simp only [List.map_append, List.length_append, List.length_map] at e2 e3
  have hflat : (A ++ (u ++ x ++ v).map some :: B).flatten = A.flatten ++ u.map some ++ x.map some ++ (v.map some ++ B.flatten) := by simp
  have hflat' : (A ++ (u ++ v).map some :: B).flatten = A.flatten ++ u.map some ++ (v.map some ++ B.flatten) := by simp
  obtain ⟨junk, hb, hl, hs1, hs2⟩ := h.buf.resolve_left (by
    rintro ⟨-, h2, -⟩
    have := congrArg List.length h2
    rw [hflat] at this
    simp only [List.length_append, List.length_map, List.length_nil] at this; omega)
  have hread : (st.obj env.dbg).read (A.flatten.length + u.length) x.length = .ok x := by
    have := read_cells (o := st.obj env.dbg) (A := A.flatten ++ u.map some) (s := x) (rest := v.map some ++ (B.flatten ++ t :: junk)) (by
      simp only [St.obj, hb, Option.getD_some, hflat]; simp)
    simpa using this
  unfold Base.seg_erase_range
  rw [run_bind_ret run_stored, assert_bind hd, assert_bind hd, assert_bind hd, assert_bind hd, assert_bind hd, run_ite, if_neg (by simp)]
  simp only [Nat.add_sub_cancel_left, run_ite, if_neg (show ¬ x.length = 0 by omega)]
  rw [run_bind_ret (run_ask hread), run_ite, if_neg (by omega), assert_bind hd, assert_bind hd,
    run_bind_ret run_sizeMax, run_bind_ret (run_setPt _), run_bind_ret run_pt]
  obtain ⟨junk', hmv, hl'⟩ := move_down (env := env)
    (st := { st with pt := { st.pt with nseg := Base.modSub env.sizeMax st.pt.nseg (x.count c!"/") } })
    (a := A.flatten ++ u.map some) (x := x.map some) (b := v.map some ++ B.flatten) (n := 0) (by omega) hb hflat
  simp only [List.length_map, List.take_zero, List.append_nil, List.length_append] at hmv
  rw [Nat.sub_zero, Nat.add_sub_cancel] at hmv
  simp only
  rw [e3, show A.flatten.length + (u.length + x.length + v.length) + B.flatten.length - (A.flatten.length + u.length + x.length) + 1 =
      v.length + B.flatten.length + 1 by omega,
    run_bind_ret hmv, run_bind_ret (run_setPt _), run_bind_ret run_pt, run_bind_ret run_stored, assert_bind hd]
  have hlen2 : st.pt.length2 id_path id_query - x.length = ((u ++ v).map some : List Cell).length := by
    unfold Parts.length2
    rw [e1, e2]; simp; omega
  have hpt : PtRep (st.pt.resize id_path (st.pt.length2 id_path id_query - x.length)) (A ++ (u ++ v).map some :: B) :=
    PtRep.resize _ h.rep hA.symm hlen2
  have h8 : (A ++ (u ++ v).map some :: B).length = 8 := by have := h.len; simpa using this
  have hend' : (st.pt.resize id_path (st.pt.length2 id_path id_query - x.length)).off id_end = (A ++ (u ++ v).map some :: B).flatten.length := by
    rw [hpt, plen_of_le (by rw [h8]; decide)]
  have hendn : ∀ k, ((⟨(st.pt.off), k, st.pt.nparam, st.pt.host⟩ : Parts).resize id_path
      ((⟨(st.pt.off), k, st.pt.nparam, st.pt.host⟩ : Parts).length2 id_path id_query - x.length)).off =
      (st.pt.resize id_path (st.pt.length2 id_path id_query - x.length)).off := fun _ => rfl
  simp only [hendn, hend']
  have hTl : (A ++ (u ++ v).map some :: B).flatten.length + x.length = (A ++ (u ++ x ++ v).map some :: B).flatten.length := by
    simp; omega
  rw [List.take_zero, List.append_nil, ← hflat'] at hl'
  rw [← hflat']
  have hbl : ((A ++ (u ++ v).map some :: B).flatten ++ t :: junk').length = st.cap + 1 := by
    rw [← hl, ← hl']
  have hset : ((A ++ (u ++ v).map some :: B).flatten ++ t :: junk').set (A ++ (u ++ v).map some :: B).flatten.length (some 0) =
      (A ++ (u ++ v).map some :: B).flatten ++ some 0 :: junk' := by
    rw [List.set_append_right _ _ (Nat.le_refl _)]; simp
  have hN : ∀ pt : Parts, Storage.resize (A ++ (u ++ v).map some :: B).flatten.length env
      ⟨some ((A ++ (u ++ v).map some :: B).flatten ++ t :: junk'), st.size, st.cap, st.tick, pt, st.addr, st.log⟩ =
      .ret () ⟨some ((A ++ (u ++ v).map some :: B).flatten ++ some 0 :: junk'), (A ++ (u ++ v).map some :: B).flatten.length,
        st.cap, st.tick, pt, st.addr, st.log⟩ := fun pt => by
    rw [← hset]
    exact storage_resize_fit rfl hbl (by show _ ≤ st.cap; omega)
  rw [run_bind_ret (hN _), assert_bind hd]
  refine ⟨_, rfl, ⟨hpt, h8, .inr ⟨junk', rfl, ?_, Nat.le_refl _, ?_⟩, h.cap, .inr rfl⟩, rfl, rfl, rfl, rfl, rfl, rfl, rfl⟩
  · simpa using hbl
  · show (A ++ (u ++ v).map some :: B).flatten.length ≤ st.cap; omega

/-! ### `insert` -/

theorem put_cells (hd : env.dbg = false) (h : Holds env st (A ++ (u ++ v).map some :: B) t) (hA : A.length = 5) (k : Nat) :
    (¬ Stores env st ((A ++ (u ++ v).map some :: B).flatten.length + (enc.length + 1)) ∧
      Base.seg_put { off := A.flatten.length + u.length, n := k } enc.length enc env st =
        .throw .bad_alloc { st with tick := st.tick + 1 }) ∨
    (Stores env st ((A ++ (u ++ v).map some :: B).flatten.length + (enc.length + 1)) ∧ ∃ st' t',
      Base.seg_put { off := A.flatten.length + u.length, n := k } enc.length enc env st =
        M.ask (fun o => Seg.parse id_query o { off := A.flatten.length + u.length + (enc.length + 1), n := k }) env st' ∧
      Holds env st' (A ++ (u ++ (c!"/" :: enc) ++ v).map some :: B) t' ∧ st'.buf.isSome = true ∧
      st'.size = (A ++ (u ++ (c!"/" :: enc) ++ v).map some :: B).flatten.length ∧
      (t' = some 0 ↔ Mended st st') ∧
      Grow env ((A ++ (u ++ v).map some :: B).flatten.length + (enc.length + 1)) st st' ∧ st'.pt.nparam = st.pt.nparam ∧
      st'.pt.host = st.pt.host ∧ st'.pt.nseg = Base.modAdd env.sizeMax st.pt.nseg 1) := by
  obtain ⟨e1, e2, e3⟩ := h.offs hA
  simp only [List.map_append, List.length_append, List.length_map] at e2
  have hend := h.off_end
  have hflat : (A ++ (u ++ v).map some :: B).flatten = A.flatten ++ u.map some ++ [] ++ (v.map some ++ B.flatten) := by simp
  have hflat' : (A ++ (u ++ (c!"/" :: enc) ++ v).map some :: B).flatten =
      A.flatten ++ u.map some ++ (some c!"/" :: enc.map some) ++ (v.map some ++ B.flatten) := by simp
  have hTl : (A ++ (u ++ (c!"/" :: enc) ++ v).map some :: B).flatten.length =
      (A ++ (u ++ v).map some :: B).flatten.length + (enc.length + 1) := by simp; omega
  have hTu : (A ++ (u ++ v).map some :: B).flatten.length = A.flatten.length + u.length + (v.length + B.flatten.length) := by
    simp; omega
  unfold Base.seg_put
  rw [run_bind_ret run_stored, assert_bind hd, assert_bind hd, assert_bind hd, run_bind_ret run_pt]
  simp only [hend]
  by_cases hs : ¬ Stores env st ((A ++ (u ++ v).map some :: B).flatten.length + (enc.length + 1))
  · exact .inl ⟨hs, by rw [run_bind_throw (storage_resize_throw hs)]⟩
  have hs := Decidable.not_not.1 hs
  refine .inr ⟨hs, ?_⟩
  obtain ⟨st1, junk, t1, hrs, hz, hb, hl, ht, ht2, htm⟩ := storage_resize_of h.buf h.cap (by omega) hs
  rw [run_bind_ret hrs, run_bind_ret (run_setPt _), run_bind_ret run_pt, hz.pt]
  have hlen2 : st.pt.length2 id_path id_query + (enc.length + 1) = ((u ++ (c!"/" :: enc) ++ v).map some : List Cell).length := by
    unfold Parts.length2
    rw [e1, e2]; simp; omega
  have hpt : PtRep (st.pt.resize id_path (st.pt.length2 id_path id_query + (enc.length + 1)))
      (A ++ (u ++ (c!"/" :: enc) ++ v).map some :: B) := PtRep.resize _ h.rep hA.symm hlen2
  have h8 : (A ++ (u ++ (c!"/" :: enc) ++ v).map some :: B).length = 8 := by have := h.len; simpa using this
  have hend' : (st.pt.resize id_path (st.pt.length2 id_path id_query + (enc.length + 1))).off id_end =
      (A ++ (u ++ v).map some :: B).flatten.length + (enc.length + 1) := by
    rw [hpt, plen_of_le (by rw [h8]; decide), hTl]
  simp only [hend']
  obtain ⟨y, junk', hy, hmv, hl'⟩ := move_up (env := env)
    (st := { st1 with pt := st.pt.resize id_path (st.pt.length2 id_path id_query + (enc.length + 1)) })
    (a := A.flatten ++ u.map some) (x := []) (b := v.map some ++ B.flatten) (k := enc.length + 1) hb hflat
    (by rw [hl]; have := hz.fits; omega)
  simp only [List.length_map, List.nil_append, List.length_append, List.length_nil, Nat.add_zero] at hmv
  rw [show (A ++ (u ++ v).map some :: B).flatten.length + (enc.length + 1) + (A.flatten.length + u.length) - (A ++ (u ++ v).map some :: B).flatten.length =
      A.flatten.length + u.length + (enc.length + 1) by omega,
    show (A ++ (u ++ v).map some :: B).flatten.length - (A.flatten.length + u.length) + 1 = v.length + B.flatten.length + 1 by omega,
    run_bind_ret hmv, assert_bind hd]
  have hbl : (A.flatten ++ u.map some ++ y ++ (v.map some ++ B.flatten) ++ t1 :: junk').length = st1.cap + 1 := by
    rw [← hl, ← hl']; simp
  obtain ⟨y0, ys, rfl⟩ : ∃ y0 ys, y = y0 :: ys := List.exists_cons_of_ne_nil (by intro h; rw [h] at hy; simp at hy)
  have hys : ys.length = enc.length := by simp at hy; omega
  have w1 : ow (A.flatten ++ u.map some ++ (y0 :: ys) ++ (v.map some ++ B.flatten) ++ t1 :: junk') (A.flatten.length + u.length) b!"/" =
      A.flatten ++ u.map some ++ some c!"/" :: (ys ++ ((v.map some ++ B.flatten) ++ t1 :: junk')) := by
    have := ow_right (A.flatten ++ u.map some) ((y0 :: ys) ++ ((v.map some ++ B.flatten) ++ t1 :: junk')) 0 b!"/"
    simp only [List.length_append, List.length_map, Nat.add_zero] at this
    rw [List.append_assoc _ (v.map some ++ B.flatten), List.append_assoc _ (y0 :: ys), this]
    simp [ow]
  have w2 : ow (A.flatten ++ u.map some ++ some c!"/" :: (ys ++ ((v.map some ++ B.flatten) ++ t1 :: junk')))
      (A.flatten.length + u.length + 1) enc =
      (A ++ (u ++ (c!"/" :: enc) ++ v).map some :: B).flatten ++ t1 :: junk' := by
    have := ow_right (A.flatten ++ u.map some ++ [some c!"/"]) (ys ++ ((v.map some ++ B.flatten) ++ t1 :: junk')) 0 enc
    rw [ow_left hys] at this
    rw [hflat']
    simpa [Nat.add_assoc] using this
  have hbl1 : (A.flatten ++ u.map some ++ some c!"/" :: (ys ++ ((v.map some ++ B.flatten) ++ t1 :: junk'))).length = st1.cap + 1 := by
    rw [← hbl]; simp
  have hfit := hz.fits
  have hp1 : ∀ pt : Parts, M.put (A.flatten.length + u.length) b!"/" env
      ⟨some (A.flatten ++ u.map some ++ (y0 :: ys) ++ (v.map some ++ B.flatten) ++ t1 :: junk'), st1.size, st1.cap, st1.tick, pt, st1.addr, st1.log⟩ =
      .ret () ⟨some (A.flatten ++ u.map some ++ some c!"/" :: (ys ++ ((v.map some ++ B.flatten) ++ t1 :: junk'))),
        st1.size, st1.cap, st1.tick, pt, st1.addr, st1.log⟩ := fun pt => by
    rw [run_put rfl (by rw [hbl]; simp; omega), w1]
  have hp2 : ∀ pt : Parts, M.put (A.flatten.length + u.length + 1) enc env
      ⟨some (A.flatten ++ u.map some ++ some c!"/" :: (ys ++ ((v.map some ++ B.flatten) ++ t1 :: junk'))),
        st1.size, st1.cap, st1.tick, pt, st1.addr, st1.log⟩ =
      .ret () ⟨some ((A ++ (u ++ (c!"/" :: enc) ++ v).map some :: B).flatten ++ t1 :: junk'), st1.size, st1.cap, st1.tick, pt, st1.addr, st1.log⟩ := fun pt => by
    rw [run_put rfl (by rw [hbl1]; omega), w2]
  rw [run_bind_ret (hp1 _), run_bind_ret (hp2 _), run_bind_ret (a := env.sizeMax) rfl, run_bind_ret (run_setPt _)]
  refine ⟨_, t1, rfl, ⟨hpt, h8, .inr ⟨junk', rfl, ?_, ?_, ?_⟩, hz.cap, htm h.term⟩, rfl, hz.size.trans hTl.symm, ?_, hz.grow, ?_, ?_, ?_⟩
  · show _ = st1.cap + 1
    rw [← hbl, List.length_append, hTl, hTu]
    simp; omega
  · show _ ≤ st1.size
    rw [hTl, hz.size]; exact Nat.le_refl _
  · show st1.size ≤ st1.cap
    rw [hz.size]; exact hz.fits
  · have := nul_resized (st'' := (⟨some ((A ++ (u ++ (c!"/" :: enc) ++ v).map some :: B).flatten ++ t1 :: junk'), st1.size, st1.cap, st1.tick,
      st.pt, st1.addr, st1.log⟩ : St)) h ht ht2 rfl rfl
    exact ⟨fun e => this.1 ⟨rfl, e⟩, fun m => (this.2 m).2⟩
  · rfl
  · rfl
  · rfl

/-! ### iterators -/

variable {q f : List Cell}

/-- nothing is behind this rest of the path, and nothing was written there -/
def Bare (st : St) (v : Str) (q f : List Cell) (t : Cell) : Prop :=
  v = [] ∧ q = [] ∧ f = [] ∧ ¬ (st.buf.isSome = true ∧ t = some 0)

theorem Lead.slash {d : Byte} {X : List Cell} (h : Lead d X) (hd : d ≠ c!"/") (hX : X ≠ []) : ∃ c r, X = some c :: r ∧ c ≠ c!"/" := by
  rcases h with h | ⟨s, rfl⟩
  · exact absurd h hX
  · exact ⟨d, s.map some, rfl, hd⟩

theorem Holds.parse_at (hd : env.dbg = false) (h : Holds env st (A ++ (u ++ v).map some :: [q, f]) t) (hA : A.length = 5)
    (hq : Lead c!"?" q) (hf : Lead c!"#" f) (hb : ¬ Bare st v q f t) (n : Nat) :
    Seg.parse id_query (st.obj env.dbg) { off := A.flatten.length + u.length, n := n } =
      .ok { off := A.flatten.length + u.length, n := pieceLen v } := by
  obtain ⟨-, e2, -⟩ := h.offs hA
  have hbuf : st.buf.isSome = true := by
    rcases h.buf with ⟨-, h2, -⟩ | ⟨junk, h1, -⟩
    · refine Classical.byContradiction fun hn => hb ?_
      simp only [List.flatten_append, List.flatten_cons, List.map_append, List.append_eq_nil_iff, List.map_eq_nil_iff, List.flatten_nil] at h2
      exact ⟨h2.2.1.2, h2.2.2.1, h2.2.2.2.1, fun h => hn h.1⟩
    · rw [h1]; rfl
  obtain ⟨junk, hm⟩ := h.mem hbuf env.dbg
  have hl : A.flatten.length + u.length = (A.flatten ++ u.map some).length := by simp
  rw [hl]
  refine parse_cells (rest := q ++ (f ++ t :: junk)) hd (by rw [hm]; simp) ?_ ?_
  · show st.pt.off id_query = _
    rw [e2]; simp; omega
  · intro hv
    by_cases hq0 : q = []
    · by_cases hf0 : f = []
      · have ht : t = some 0 := Classical.byContradiction fun hn => hb ⟨hv, hq0, hf0, fun h => hn h.2⟩
        exact ⟨0, junk, by rw [hq0, hf0, ht]; rfl, by decide⟩
      · obtain ⟨c, r, rfl, hc⟩ := hf.slash (by decide) hf0
        exact ⟨c, r ++ t :: junk, by rw [hq0]; rfl, hc⟩
    · obtain ⟨c, r, rfl, hc⟩ := hq.slash (by decide) hq0
      exact ⟨c, _, rfl, hc⟩

theorem Holds.parse_bare (hd : env.dbg = false) (h : Holds env st (A ++ (u ++ v).map some :: [q, f]) t)
    (hb : Bare st v q f t) (n : Nat) :
    Seg.parse id_query (st.obj env.dbg) { off := A.flatten.length + u.length, n := n } = .error .ub := by
  obtain ⟨rfl, rfl, rfl, hb⟩ := hb
  rcases h.buf with ⟨h1, h2, -⟩ | ⟨junk, h1, -⟩
  · unfold Seg.parse
    rw [assert_rel (show (st.obj env.dbg).dbg = false from hd)]
    have : (st.obj env.dbg).byte (A.flatten.length + u.length) = .error .ub := by simp [Obj.byte, St.obj, h1]
    simp only [this]
    rfl
  · have ht : t = none := by
      rcases h.term with ht | ht
      · exact ht
      · exact absurd ⟨by rw [h1]; rfl, ht⟩ hb
    subst ht
    have hl : A.flatten.length + u.length = (A.flatten ++ u.map some).length := by simp
    rw [hl]
    exact parse_none (rest := junk) hd (by simp [St.obj, h1])

theorem Holds.off_frag {X : List Cell} (h : Holds env st (A ++ X :: [q, f]) t) (hA : A.length = 5) :
    st.pt.off id_frag = A.flatten.length + X.length + q.length := by
  have h7 := plen_append_right A (X :: [q, f]) 2
  rw [hA] at h7
  rw [h.rep]
  simpa [id_frag, Nat.add_assoc] using h7

theorem Holds.next_at (hd : env.dbg = false) (h : Holds env st (A ++ (u ++ x ++ v).map some :: [q, f]) t) (hA : A.length = 5)
    (hq : Lead c!"?" q) (hf : Lead c!"#" f) :
    Seg.next id_query (st.obj env.dbg) { off := A.flatten.length + u.length, n := x.length } =
      .ok { off := A.flatten.length + u.length + x.length, n := pieceLen v } := by
  have e := h.off_frag hA
  unfold Seg.next
  rw [assert_rel (show (st.obj env.dbg).dbg = false from hd)]
  simp only [bind, Except.bind]
  have hoff : (st.obj env.dbg).pt.off id_frag = A.flatten.length + (u.length + x.length + v.length) + q.length := by
    show st.pt.off id_frag = _
    rw [e]; simp; omega
  rw [hoff]
  split
  · rename_i h0
    have hv : v = [] := List.length_eq_zero_iff.1 (by omega)
    subst hv
    rfl
  · rename_i h0
    have := h.parse_at (u := u ++ x) (v := v) hd hA hq hf (fun hb => h0 (by rw [hb.1, hb.2.1]; simp; omega)) x.length
    rw [List.length_append, ← Nat.add_assoc] at this
    exact this

theorem back_cells {o : Obj} {P : List Cell} {s : Str} {rest : List Cell} (h : o.mem = P ++ (s.map some ++ rest)) (c : Byte) (k : Nat)
    (hk : k < s.length) : ∃ r, Seg.back o c P.length k = .ok r ∧
      (∀ p, r = some p → P.length < p ∧ p ≤ P.length + k ∧ s[p - P.length]? = some c ∧ ∀ m, p - P.length < m → m ≤ k → s[m]? ≠ some c) ∧
      (r = none → ∀ m, 0 < m → m ≤ k → s[m]? ≠ some c) := by
  induction k with
  | zero => exact ⟨none, rfl, by simp, fun _ m h1 h2 => by omega⟩
  | succ k ih =>
    have hb : o.byte (P.length + (k + 1)) = .ok s[k + 1] := by
      have hs : s = s.take (k + 1) ++ s[k + 1] :: s.drop (k + 2) := by simp
      have := byte_cells (o := o) (A := P ++ (s.take (k + 1)).map some) (c := some s[k + 1]) (rest := (s.drop (k + 2)).map some ++ rest) (by
        rw [h]; conv => lhs; rw [hs]
        simp only [List.map_append, List.map_cons, List.append_assoc, List.cons_append])
      have hl : (P ++ (s.take (k + 1)).map some).length = P.length + (k + 1) := by simp; omega
      rw [hl] at this
      simpa using this
    rw [Seg.back, hb]
    simp only [bind, Except.bind]
    split
    · rename_i hc
      refine ⟨_, rfl, ?_, by simp⟩
      intro p hp
      cases hp
      refine ⟨by omega, by omega, ?_, fun m h1 h2 => by omega⟩
      rw [show P.length + (k + 1) - P.length = k + 1 by omega, List.getElem?_eq_getElem hk]
      simpa using hc
    · rename_i hc
      obtain ⟨r, h1, h2, h3⟩ := ih (by omega)
      have hne : s[k + 1]? ≠ some c := by
        rw [List.getElem?_eq_getElem hk]
        simpa using hc
      have hlast : ∀ m, m ≤ k + 1 → (m ≤ k → s[m]? ≠ some c) → s[m]? ≠ some c := by
        intro m h4 h5
        by_cases h6 : m = k + 1
        · rw [h6]; exact hne
        · exact h5 (by omega)
      refine ⟨r, h1, fun p hp => ?_, fun hr m h4 h5 => hlast m h5 fun h6 => h3 hr m h4 h6⟩
      obtain ⟨a, b, d, e⟩ := h2 p hp
      exact ⟨a, by omega, d, fun m h4 h5 => hlast m h5 fun h6 => e m h4 h6⟩

/-! ### the edits -/

/-- How an edit of the path between `A` and `q`, `f` ends: the new path is `p'`, the iterator is before its rest `v`.
(`over`: there are too many slashes to count them; `idle`: nothing happens and the iterator is `it0`; `may`: the byte
after the text is used.) -/
def ItOut (env : Env) (st : St) (A : List (List Cell)) (p' v : Str) (q f : List Cell) (nseg : Nat) (it0 : SegIt) (over idle may : Prop) :
    Out SegIt → Prop
  | .ret it st' => it.off + v.length = A.flatten.length + p'.length ∧ (¬ idle → it.n = pieceLen v) ∧ (idle → it = it0 ∧ st' = st) ∧
      (∃ t', Holds env st' (A ++ p'.map some :: [q, f]) t') ∧ st'.pt.nparam = st.pt.nparam ∧ st'.pt.host = st.pt.host ∧
      st'.pt.nseg = nseg ∧ (¬ idle → st'.size = (A ++ p'.map some :: [q, f]).flatten.length) ∧ (Nul st → Nul st') ∧ ¬ over
  | .throw e st' => e = .bad_alloc ∧ st' = { st with tick := st.tick + 1 }
  | .fault e => e = .ub ∧ (over ∨ may ∧ v = [] ∧ q = [] ∧ f = [] ∧ ¬ Nul st)

theorem erase_over (hd : env.dbg = false) (h : Holds env st (A ++ (u ++ x ++ v).map some :: B) t)
    (hc : Base.intMax < x.count c!"/") (k k' : Nat) :
    Base.seg_erase_range { off := A.flatten.length + u.length, n := k }
      { off := A.flatten.length + u.length + x.length, n := k' } env st = .fault .ub := by
  have hx : 0 < x.length := by have := List.count_le_length (a := c!"/") (l := x); omega
  have hflat : (A ++ (u ++ x ++ v).map some :: B).flatten = A.flatten ++ u.map some ++ x.map some ++ (v.map some ++ B.flatten) := by simp
  obtain ⟨junk, hb, -⟩ := h.buf.resolve_left (by
    rintro ⟨-, h2, -⟩
    have := congrArg List.length h2
    rw [hflat] at this
    simp only [List.length_append, List.length_map, List.length_nil] at this; omega)
  have hread : (st.obj env.dbg).read (A.flatten.length + u.length) x.length = .ok x := by
    have := read_cells (o := st.obj env.dbg) (A := A.flatten ++ u.map some) (s := x) (rest := v.map some ++ (B.flatten ++ t :: junk)) (by
      simp only [St.obj, hb, Option.getD_some, hflat]; simp)
    simpa using this
  unfold Base.seg_erase_range
  rw [run_bind_ret run_stored, assert_bind hd, assert_bind hd, assert_bind hd, assert_bind hd, assert_bind hd, run_ite, if_neg (by simp)]
  simp only [Nat.add_sub_cancel_left, run_ite, if_neg (show ¬ x.length = 0 by omega)]
  rw [run_bind_ret (run_ask hread), run_ite, if_pos hc]
  rfl

/-- an erase of nothing -/
theorem erase_nothing (hd : env.dbg = false) (n k k' : Nat) :
    Base.seg_erase_range { off := n, n := k } { off := n, n := k' } env st = .ret { off := n, n := k } st := by
  unfold Base.seg_erase_range
  rw [run_bind_ret run_stored, assert_bind hd, assert_bind hd, assert_bind hd, assert_bind hd, assert_bind hd, run_ite, if_neg (by simp)]
  simp only [Nat.sub_self, run_ite, if_true, run_pure]

theorem erase_range_out (hd : env.dbg = false) (h : Holds env st (A ++ (u ++ x ++ v).map some :: [q, f]) t) (hA : A.length = 5)
    (hq : Lead c!"?" q) (hf : Lead c!"#" f) (k k' : Nat) :
    ItOut env st A (u ++ v) v q f (Base.modSub env.sizeMax st.pt.nseg (x.count c!"/")) { off := A.flatten.length + u.length, n := k }
      (Base.intMax < x.count c!"/") (x = []) False
      (Base.seg_erase_range { off := A.flatten.length + u.length, n := k } { off := A.flatten.length + u.length + x.length, n := k' } env st) := by
  by_cases hc : Base.intMax < x.count c!"/"
  · rw [erase_over hd h hc]
    exact ⟨rfl, .inl hc⟩
  by_cases hx : x = []
  · subst hx
    rw [List.length_nil, Nat.add_zero, erase_nothing hd]
    refine ⟨by simp; omega, by simp, fun _ => ⟨rfl, rfl⟩, ⟨t, by simpa using h⟩, rfl, rfl, ?_, by simp, id, hc⟩
    simp [Base.modSub]
  · obtain ⟨st', e, h1, h2, h3, h4, h5, h6, h7, h8⟩ := erase_cells hd h hA hx (by omega) k k'
    rw [e, run_ask (h1.parse_at hd hA hq hf (fun hb => hb.2.2.2 ⟨h2, rfl⟩) k)]
    exact ⟨by simp; omega, fun _ => rfl, fun h => absurd h hx, ⟨_, h1⟩, h6, h7, h8, fun _ => h3,
      fun _ => h1.nul_iff.2 ⟨h2, rfl⟩, hc⟩

theorem erase_out (hd : env.dbg = false) (h : Holds env st (A ++ (u ++ x ++ v).map some :: [q, f]) t) (hA : A.length = 5)
    (hq : Lead c!"?" q) (hf : Lead c!"#" f) :
    ItOut env st A (u ++ v) v q f (Base.modSub env.sizeMax st.pt.nseg (x.count c!"/")) { off := A.flatten.length + u.length, n := x.length }
      (Base.intMax < x.count c!"/") (x = []) False
      (Base.seg_erase { off := A.flatten.length + u.length, n := x.length } env st) := by
  unfold Base.seg_erase
  rw [run_bind_ret (run_ask (h.next_at hd hA hq hf))]
  exact erase_range_out hd h hA hq hf _ _

theorem put_out (hd : env.dbg = false) (h : Holds env st (A ++ (u ++ v).map some :: [q, f]) t) (hA : A.length = 5)
    (hq : Lead c!"?" q) (hf : Lead c!"#" f) (k : Nat) (it0 : SegIt) :
    ItOut env st A (u ++ (c!"/" :: enc) ++ v) v q f (Base.modAdd env.sizeMax st.pt.nseg 1) it0 False False True
      (Base.seg_put { off := A.flatten.length + u.length, n := k } enc.length enc env st) ∧
    (Stores env st ((A ++ (u ++ v).map some :: [q, f]).flatten.length + (enc.length + 1)) →
      ∀ e st', Base.seg_put { off := A.flatten.length + u.length, n := k } enc.length enc env st ≠ .throw e st') := by
  rcases put_cells (enc := enc) hd h hA k with ⟨h0, e⟩ | ⟨h0, st', t', e, h1, h2, h3, h4, -, h6, h7, h8⟩
  · exact ⟨by rw [e]; exact ⟨rfl, rfl⟩, fun hs => absurd hs h0⟩
  · have e2 : A.flatten.length + u.length + (enc.length + 1) = A.flatten.length + (u ++ (c!"/" :: enc)).length := by simp; omega
    rw [e2] at e
    by_cases hb : Bare st' v q f t'
    · have hp := h1.parse_bare hd hb k
      have e3 : Base.seg_put { off := A.flatten.length + u.length, n := k } enc.length enc env st = .fault .ub := by
        rw [e]; exact ask_fault hp
      rw [e3]
      refine ⟨⟨rfl, .inr ⟨trivial, hb.1, hb.2.1, hb.2.2.1, fun hn => hb.2.2.2 ⟨h2, h4.2 (.inl hn)⟩⟩⟩, fun _ _ _ => by simp⟩
    · have e3 := e.trans (run_ask (h1.parse_at hd hA hq hf hb k))
      rw [e3]
      refine ⟨⟨by simp; omega, fun _ => rfl, False.elim, ⟨_, h1⟩, h6, h7, h8, fun _ => h3, fun hn => ?_, id⟩, fun _ _ _ => by simp⟩
      exact h1.nul_iff.2 ⟨h2, h4.2 (.inl hn)⟩

/-- `reserve`, also of a null buffer -/
theorem reserve_cells {L : List (List Cell)} {m : Nat} (h : Holds env st L t) (hs : Stores env st m) :
    ∃ st' t', Storage.reserve m env st = .ret () st' ∧ st'.pt = st.pt ∧ st'.size = st.size ∧ m ≤ st'.cap ∧ st.cap ≤ st'.cap ∧
      Holds env st' L t' ∧ (Nul st → Nul st') := by
  cases hb : st.buf with
  | some b =>
    obtain ⟨st1, t1, r1, r2, r3, r4, r5, r6, r7, r8, r9, htm⟩ := storage_reserve_of h.buf h.cap (by rw [hb]; rfl) hs
    have h1 : Holds env st1 L t1 := ⟨by rw [r2]; exact h.rep, h.len, r5, r6, htm h.term⟩
    refine ⟨st1, t1, r1, r2, r3, r4, ?_, h1, fun hn => h1.nul_iff.2 ⟨r7, r9 (h.nul_iff.1 hn).2⟩⟩
    rcases r8 with ⟨-, r, -⟩ | ⟨r, r', -⟩
    · omega
    · omega
  | none =>
    have hno : ¬ Nul st := fun hn => by have := (h.nul_iff.1 hn).1; rw [hb] at this; cases this
    by_cases hle : m ≤ st.cap
    · refine ⟨st, t, ?_, rfl, rfl, hle, Nat.le_refl _, h, id⟩
      unfold Storage.reserve
      rw [if_pos hle]
    · have hg : Storage.newCap env.maxSize st.cap m + 1 ≤ env.maxSize ∧
          env.alloc st.tick (Storage.newCap env.maxSize st.cap m + 1) = true := hs.resolve_left hle
      have hge := (newCap_ge hg.1)
      generalize hN : Storage.newCap env.maxSize st.cap m = N at *
      obtain ⟨-, h2, h3, h4⟩ := h.buf.resolve_right (by rintro ⟨j, hj, -⟩; rw [hb] at hj; cases hj)
      refine ⟨{ st with buf := some (List.replicate (N + 1) none), cap := N, tick := st.tick + 1, addr := st.tick, log := st.log ++ [.alloc st.tick (N + 1)] },
        none, ?_, rfl, rfl, hge.1, by show st.cap ≤ N; omega, ⟨h.rep, h.len, .inr ⟨List.replicate N none, ?_, ?_, ?_, ?_⟩, .inr hg.1, .inl rfl⟩,
        fun hn => absurd hn hno⟩
      · unfold Storage.reserve
        simp only [if_neg hle, hN]
        have : Storage.allocate (N + 1) env st = .ret st.tick { st with tick := st.tick + 1, log := st.log ++ [.alloc st.tick (N + 1)] } := by
          unfold Storage.allocate; rw [if_pos hg]
        rw [this]
        simp only [hb]
      · rw [h2]; rfl
      · rw [h2]; simp
      · rw [h2]; simp
      · show st.size ≤ N; omega

theorem swap_out (hd : env.dbg = false) (h : Holds env st (A ++ (u ++ x ++ v).map some :: [q, f]) t) (hA : A.length = 5)
    (hq : Lead c!"?" q) (hf : Lead c!"#" f) (it0 : SegIt) {ins : SegIt → M SegIt}
    (hins : ∀ it st, ins it env st = Base.seg_put it enc.length enc env st) :
    ItOut env st A (u ++ (c!"/" :: enc) ++ v) v q f (Base.modAdd env.sizeMax (Base.modSub env.sizeMax st.pt.nseg (x.count c!"/")) 1)
      it0 (Base.intMax < x.count c!"/") False (x = []) (Base.seg_swap { off := A.flatten.length + u.length, n := x.length } enc.length ins env st) := by
  have hsz : (A ++ (u ++ x ++ v).map some :: [q, f]).flatten.length ≤ st.size ∧ st.size ≤ st.cap := by
    rcases h.buf with ⟨-, h2, h3, h4⟩ | ⟨-, -, -, h3, h4⟩
    · rw [h2, h3, h4]; simp
    · exact ⟨h3, h4⟩
  have hlen : (A ++ (u ++ x ++ v).map some :: [q, f]).flatten.length = (A ++ (u ++ v).map some :: [q, f]).flatten.length + x.length := by
    simp; omega
  -- after the reservation
  have key : ∀ st1 t1, Holds env st1 (A ++ (u ++ x ++ v).map some :: [q, f]) t1 → st1.pt = st.pt → (Nul st → Nul st1) →
      (A ++ (u ++ x ++ v).map some :: [q, f]).flatten.length + (enc.length + 1) - x.length ≤ st1.cap →
      ItOut env st A (u ++ (c!"/" :: enc) ++ v) v q f (Base.modAdd env.sizeMax (Base.modSub env.sizeMax st.pt.nseg (x.count c!"/")) 1)
        it0 (Base.intMax < x.count c!"/") False (x = []) ((do
          let cap ← M.capacity
          let r ← ins (← Base.seg_erase { off := A.flatten.length + u.length, n := x.length })
          let cap' ← M.capacity
          M.assert fun _ => .ok (cap' = cap)
          return r : M SegIt) env st1) := by
    intro st1 t1 h1 hpt hn hcap
    rw [run_bind_ret run_capacity]
    have hE := erase_out hd h1 hA hq hf
    have hcapE : ∀ it st2, Base.seg_erase { off := A.flatten.length + u.length, n := x.length } env st1 = .ret it st2 →
        st2.cap = st1.cap ∧ (x ≠ [] → Nul st2) := by
      intro it st2 he
      have hE' := hE
      rw [he] at hE'
      by_cases hx : x = []
      · rw [he] at hE
        rw [(hE.2.2.1 hx).2]
        exact ⟨rfl, fun h => absurd hx h⟩
      · obtain ⟨st', e, g1, g2, g3, g4, -⟩ := erase_cells hd h1 hA hx (Nat.not_lt.1 hE'.2.2.2.2.2.2.2.2.2) x.length (pieceLen v)
        unfold Base.seg_erase at he
        rw [run_bind_ret (run_ask (h1.next_at hd hA hq hf)), e, run_ask (g1.parse_at hd hA hq hf (fun hb => hb.2.2.2 ⟨g2, rfl⟩) _)] at he
        cases he
        exact ⟨g4, fun _ => g1.nul_iff.2 ⟨g2, rfl⟩⟩
    cases hEr : Base.seg_erase { off := A.flatten.length + u.length, n := x.length } env st1 with
    | throw e st2 =>
      exfalso
      unfold Base.seg_erase at hEr
      rw [run_bind_ret (run_ask (h1.next_at hd hA hq hf))] at hEr
      by_cases hc : Base.intMax < x.count c!"/"
      · rw [erase_over hd h1 hc] at hEr
        cases hEr
      by_cases hx : x = []
      · subst hx
        rw [List.length_nil, Nat.add_zero, erase_nothing hd] at hEr
        cases hEr
      · obtain ⟨st', e', g1, g2, g3, g4, -⟩ := erase_cells hd h1 hA hx (Nat.not_lt.1 hc) x.length (pieceLen v)
        rw [e', run_ask (g1.parse_at hd hA hq hf (fun hb => hb.2.2.2 ⟨g2, rfl⟩) _)] at hEr
        cases hEr
    | fault e =>
      rw [hEr] at hE
      rw [run_bind, hEr]
      exact ⟨hE.1, .inl (hE.2.resolve_right fun h => h.1)⟩
    | ret it st2 =>
      have hc2 := hcapE it st2 hEr
      rw [hEr] at hE
      obtain ⟨k1, k3, k3', ⟨t2, k4⟩, k5, k6, k7, k8, k9, k10⟩ := hE
      obtain ⟨off, n⟩ := it
      have hoff : off = A.flatten.length + u.length := by simp at k1; omega
      subst hoff
      rw [run_bind_ret hEr]
      obtain ⟨hP, hT⟩ := put_out (enc := enc) hd k4 hA hq hf n it0
      have hT := hT (.inl (by rw [hc2.1]; omega))
      have hi : ins { off := A.flatten.length + u.length, n := n } env st2 = Base.seg_put { off := A.flatten.length + u.length, n := n } enc.length enc env st2 := hins _ _
      cases hPr : Base.seg_put { off := A.flatten.length + u.length, n := n } enc.length enc env st2 with
      | throw e st3 => exact absurd hPr (hT e st3)
      | fault e =>
        rw [hPr] at hP hi
        rw [run_bind, hi]
        obtain ⟨p2, p0⟩ := hP
        obtain ⟨-, p3, p4, p5, p6⟩ := p0.resolve_left id
        refine ⟨p2, .inr ⟨?_, p3, p4, p5, fun h => p6 (k9 (hn h))⟩⟩
        exact Classical.byContradiction fun hx => p6 (hc2.2 hx)
      | ret it' st3 =>
        rw [hPr] at hP hi
        rw [run_bind_ret hi, run_bind_ret run_capacity, assert_bind hd, run_pure]
        obtain ⟨p1, p3, -, p4, p5, p6, p7, p8, p9, -⟩ := hP
        refine ⟨p1, p3, False.elim, p4, ?_, ?_, ?_, p8, fun h => p9 (k9 (hn h)), k10⟩
        · rw [p5, k5, hpt]
        · rw [p6, k6, hpt]
        · rw [p7, k7, hpt]
  unfold Base.seg_swap
  rw [run_bind_ret run_stored, assert_bind hd]
  by_cases hlt : x.length < enc.length + 1
  · simp only [if_pos hlt]
    rw [run_bind_ret run_stored]
    by_cases hs : Stores env st (st.size + (enc.length + 1) - x.length)
    · obtain ⟨st1, t1, r1, r2, r3, r4, r5, r6, r7⟩ := reserve_cells h hs
      rw [run_bind_ret r1]
      exact key st1 t1 r6 r2 r7 (by omega)
    · rw [run_bind_throw (storage_reserve_throw hs)]
      exact ⟨rfl, rfl⟩
  · simp only [if_neg hlt]
    exact key st t h rfl id (by omega)

end

end Url
