import Verif.Proofs.Ndebug
import Verif.Proofs.WeakSeg

/-!
Edits of segments through any iterators into the path, in both builds: exactly when they fault.
-/

set_option linter.unusedSimpArgs false
attribute [-simp] List.length_flatten

namespace Url
open Spec

variable {env : Env} {st : St}

/-- a fault -/
def Faults {α : Type} (out : Out α) : Prop := ∃ f, out = .fault f

theorem not_faults_ret {α : Type} {a : α} {st : St} : ¬ Faults (.ret a st) := nofun

theorem not_faults_throw {α : Type} {e : Exc} {st : St} : ¬ Faults (.throw e st : Out α) := nofun

theorem faults_bind {α β : Type} {m : M α} {k : α → M β} (h : Faults (m env st)) : Faults ((m >>= k) env st) := by
  obtain ⟨f, h⟩ := h
  exact ⟨f, by rw [run_bind, h]⟩

theorem assert_error {c : Obj → R Bool} {x : Flt} (hd : env.dbg = true) (h : c (st.obj env.dbg) = .error x) : M.assert c env st = .fault x := by
  unfold M.assert M.ask Obj.assert
  have : (st.obj env.dbg).dbg = true := hd
  simp only [this, if_true, h]

theorem Holds.release {L t} (h : Holds env st L t) : Holds env.release st L t := ⟨h.rep, h.len, h.buf, h.cap, h.term⟩

section
variable {A B : List (List Cell)} {u x v enc : Str} {t : Cell} {q f : List Cell}

theorem scan_release (o : Obj) (k p : Nat) : Seg.scan { o with dbg := false } k p = Seg.scan o k p := by
  induction k generalizing p with
  | zero => rfl
  | succ k ih => simp only [Seg.scan, ih]; rfl

theorem parse_release {o : Obj} {it : SegIt} (h : it.off ≠ o.pt.off id_frag) : Seg.parse id_query o it = Seg.parse id_query { o with dbg := false } it := by
  unfold Seg.parse
  rw [assert_rel (o := { o with dbg := false }) rfl, assert_not h]
  simp only [scan_release]
  rfl

/-- the iterator is at the end of what can be edited -/
def AtEnd (v : Str) (q : List Cell) : Prop := v = [] ∧ q = []

instance : Decidable (AtEnd v q) := by unfold AtEnd; infer_instance

theorem off_frag_iff {X : List Cell} (h : Holds env st (A ++ X :: [q, f]) t) (hA : A.length = 5) {n : Nat} (hn : X.length = n + v.length) :
    A.flatten.length + n = st.pt.off id_frag ↔ AtEnd v q := by
  rw [h.off_frag hA, hn]
  unfold AtEnd
  rw [← List.length_eq_zero_iff, ← List.length_eq_zero_iff]
  omega

/-- what `parse` does -/
theorem Holds.parse_exact (h : Holds env st (A ++ (u ++ v).map some :: [q, f]) t) (hA : A.length = 5)
    (hq : Lead c!"?" q) (hf : Lead c!"#" f) (n : Nat) :
    ((AtEnd v q ∧ (env.dbg = true ∨ f = [] ∧ ¬ (st.buf.isSome = true ∧ t = some 0))) ∧
      ∃ x, Seg.parse id_query (st.obj env.dbg) { off := A.flatten.length + u.length, n := n } = .error x) ∨
    (¬ (AtEnd v q ∧ (env.dbg = true ∨ f = [] ∧ ¬ (st.buf.isSome = true ∧ t = some 0))) ∧
      Seg.parse id_query (st.obj env.dbg) { off := A.flatten.length + u.length, n := n } =
        .ok { off := A.flatten.length + u.length, n := pieceLen v }) := by
  have hfr := off_frag_iff (v := v) (n := u.length) h hA (by simp)
  cases hd : env.dbg with
  | false =>
    by_cases hb : Bare st v q f t
    · refine .inl ⟨⟨⟨hb.1, hb.2.1⟩, .inr ⟨hb.2.2.1, hb.2.2.2⟩⟩, .ub, ?_⟩
      have := h.parse_bare hd hb n
      rwa [hd] at this
    · refine .inr ⟨?_, ?_⟩
      · rintro ⟨⟨h1, h2⟩, h3 | ⟨h3, h4⟩⟩
        · cases h3
        · exact hb ⟨h1, h2, h3, h4⟩
      · have := h.parse_at hd hA hq hf hb n
        rwa [hd] at this
  | true =>
    by_cases he : AtEnd v q
    · refine .inl ⟨⟨he, .inl rfl⟩, .assert, ?_⟩
      unfold Seg.parse
      have : A.flatten.length + u.length = (st.obj true).pt.off id_frag := hfr.2 he
      simp [Obj.assert, St.obj, bind, Except.bind, hfr.2 he]
    · refine .inr ⟨fun h => he h.1, ?_⟩
      rw [parse_release (o := st.obj true) (fun e => he (hfr.1 e))]
      exact h.release.parse_at (env := env.release) rfl hA hq hf (fun hb => he ⟨hb.1, hb.2.1⟩) n

/-- what `operator++` does -/
theorem Holds.next_exact (h : Holds env st (A ++ (u ++ x ++ v).map some :: [q, f]) t) (hA : A.length = 5)
    (hq : Lead c!"?" q) (hf : Lead c!"#" f) :
    ((env.dbg = true ∧ x = [] ∧ AtEnd v q) ∧
      ∃ y, Seg.next id_query (st.obj env.dbg) { off := A.flatten.length + u.length, n := x.length } = .error y) ∨
    (¬ (env.dbg = true ∧ x = [] ∧ AtEnd v q) ∧
      Seg.next id_query (st.obj env.dbg) { off := A.flatten.length + u.length, n := x.length } =
        .ok { off := A.flatten.length + u.length + x.length, n := pieceLen v }) := by
  have hx : A.flatten.length + u.length = st.pt.off id_frag ↔ x = [] ∧ AtEnd v q := by
    rw [off_frag_iff (v := x ++ v) (n := u.length) h hA (by simp)]
    unfold AtEnd
    simp [and_assoc]
  cases hd : env.dbg with
  | false =>
    refine .inr ⟨fun h => (by cases h.1), ?_⟩
    have := h.next_at hd hA hq hf
    rwa [hd] at this
  | true =>
    by_cases he : x = [] ∧ AtEnd v q
    · refine .inl ⟨⟨rfl, he⟩, .assert, ?_⟩
      unfold Seg.next
      simp [Obj.assert, St.obj, bind, Except.bind, hx.2 he]
    · refine .inr ⟨fun h => he h.2, ?_⟩
      have hn := h.release.next_at (env := env.release) rfl hA hq hf
      unfold Seg.next at hn ⊢
      rw [assert_not (o := st.obj true) (p := ({ off := A.flatten.length + u.length, n := x.length } : SegIt).off ≠ (st.obj true).pt.off id_frag) (fun e => he (hx.1 e))]
      rw [assert_rel (o := st.obj env.release.dbg) rfl] at hn
      simp only [bind, Except.bind] at hn ⊢
      have e1 : (st.obj env.release.dbg).pt.off id_frag = st.pt.off id_frag := rfl
      have e2 : (st.obj true).pt.off id_frag = st.pt.off id_frag := rfl
      rw [e1] at hn
      rw [e2]
      split
      · rename_i h0; rw [if_pos h0] at hn; exact hn
      · rename_i h0
        rw [if_neg h0] at hn
        rw [parse_release (o := st.obj true) h0]
        exact hn

theorem end_null {o : Obj} {P rest : List Cell} (h : o.mem = P ++ some 0 :: rest) (he : o.pt.off id_end = P.length) :
    (do return (← o.byte (o.pt.off id_end)) == 0 : R Bool) = .ok true := by
  rw [he, byte_cells h]
  rfl

theorem end_none {o : Obj} {P rest : List Cell} (h : o.mem = P ++ none :: rest) (he : o.pt.off id_end = P.length) :
    (do return (← o.byte (o.pt.off id_end)) == 0 : R Bool) = .error .ub := by
  rw [he, byte_cells h]
  rfl

/-- an erase, until the new iterator is computed -/
theorem erase_both (h : Holds env st (A ++ (u ++ x ++ v).map some :: B) t) (hA : A.length = 5) (hx : x ≠ [])
    (hc : x.count c!"/" ≤ Base.intMax)
    (hd : env.dbg = true → st.size = (A ++ (u ++ x ++ v).map some :: B).flatten.length ∧ 0 < x.count c!"/" ∧ x.count c!"/" ≤ st.pt.nseg)
    (k k' : Nat) :
    ∃ st', Base.seg_erase_range { off := A.flatten.length + u.length, n := k }
        { off := A.flatten.length + u.length + x.length, n := k' } env st =
      M.ask (fun o => Seg.parse id_query o { off := A.flatten.length + u.length, n := k }) env st' ∧
      Holds env st' (A ++ (u ++ v).map some :: B) (some 0) ∧ st'.buf.isSome = true ∧
      st'.size = (A ++ (u ++ v).map some :: B).flatten.length ∧ st'.cap = st.cap ∧ st'.tick = st.tick ∧
      st'.pt.nparam = st.pt.nparam ∧ st'.pt.host = st.pt.host ∧
      st'.pt.nseg = Base.modSub env.sizeMax st.pt.nseg (x.count c!"/") := by
  obtain ⟨e1, e2, e3⟩ := h.offs hA
  have hxl : 0 < x.length := List.length_pos_iff.2 hx
  simp only [List.map_append, List.length_append, List.length_map] at e2 e3
  have hflat : (A ++ (u ++ x ++ v).map some :: B).flatten = A.flatten ++ u.map some ++ x.map some ++ (v.map some ++ B.flatten) := by simp
  have hflat' : (A ++ (u ++ v).map some :: B).flatten = A.flatten ++ u.map some ++ (v.map some ++ B.flatten) := by simp
  obtain ⟨junk, hb, hl, hs1, hs2⟩ := h.buf.resolve_left (by
    rintro ⟨-, h2, -⟩
    have := congrArg List.length h2
    rw [hflat] at this
    simp only [List.length_append, List.length_map, List.length_nil] at this; omega)
  have hread : (st.obj env.dbg).read (A.flatten.length + u.length) x.length = .ok x := by
    have := read_cells (o := st.obj env.dbg) (A := A.flatten ++ u.map some) (s := x) (rest := v.map some ++ (B.flatten ++ t :: junk)) (by
      simp only [St.obj, hb, Option.getD_some, hflat]; simp)
    simpa using this
  unfold Base.seg_erase_range
  have ho : ∀ i, (st.obj env.dbg).pt.off i = st.pt.off i := fun _ => rfl
  have hsize : Url.size (st.obj env.dbg) = st.pt.off id_end := rfl
  rw [run_bind_ret run_stored, run_bind_ret (run_assert_dbg fun hdbg => by have := (hd hdbg).1; simp only [hsize, h.off_end, this, decide_true]),
    run_bind_ret (run_assert_dbg fun hdbg => by simp [ho, e1, e2]; try omega), run_bind_ret (run_assert_dbg fun hdbg => by simp [ho, e1, e2]; try omega), run_bind_ret (run_assert_dbg fun hdbg => by simp [ho, e1, e2]; try omega), run_bind_ret (run_assert_dbg fun hdbg => by simp [ho, e1, e2]; try omega), run_ite, if_neg (by simp)]
  simp only [Nat.add_sub_cancel_left, run_ite, if_neg (show ¬ x.length = 0 by omega)]
  rw [run_bind_ret (run_ask hread), run_ite, if_neg (by omega),
    run_bind_ret (run_assert_dbg fun hdbg => by simpa using (hd hdbg).2.1), run_bind_ret (run_assert_dbg fun hdbg => by simp only [Except.ok.injEq, decide_eq_true_eq]; exact (hd hdbg).2.2),
    run_bind_ret run_sizeMax, run_bind_ret (run_setPt _), run_bind_ret run_pt]
  obtain ⟨junk', hmv, hl'⟩ := move_down (env := env)
    (st := { st with pt := { st.pt with nseg := Base.modSub env.sizeMax st.pt.nseg (x.count c!"/") } })
    (a := A.flatten ++ u.map some) (x := x.map some) (b := v.map some ++ B.flatten) (n := 0) (by omega) hb hflat
  simp only [List.length_map, List.take_zero, List.append_nil, List.length_append] at hmv
  rw [Nat.sub_zero, Nat.add_sub_cancel] at hmv
  simp only
  rw [e3, show A.flatten.length + (u.length + x.length + v.length) + B.flatten.length - (A.flatten.length + u.length + x.length) + 1 =
      v.length + B.flatten.length + 1 by omega,
    run_bind_ret hmv, run_bind_ret (run_setPt _), run_bind_ret run_pt, run_bind_ret run_stored]
  have hlen2 : st.pt.length2 id_path id_query - x.length = ((u ++ v).map some : List Cell).length := by
    unfold Parts.length2
    rw [e1, e2]; simp; omega
  have hpt : PtRep (st.pt.resize id_path (st.pt.length2 id_path id_query - x.length)) (A ++ (u ++ v).map some :: B) :=
    PtRep.resize _ h.rep hA.symm hlen2
  have h8 : (A ++ (u ++ v).map some :: B).length = 8 := by have := h.len; simpa using this
  have hend' : (st.pt.resize id_path (st.pt.length2 id_path id_query - x.length)).off id_end = (A ++ (u ++ v).map some :: B).flatten.length := by
    rw [hpt, plen_of_le (by rw [h8]; decide)]
  have hendn : ∀ k, ((⟨(st.pt.off), k, st.pt.nparam, st.pt.host⟩ : Parts).resize id_path
      ((⟨(st.pt.off), k, st.pt.nparam, st.pt.host⟩ : Parts).length2 id_path id_query - x.length)).off =
      (st.pt.resize id_path (st.pt.length2 id_path id_query - x.length)).off := fun _ => rfl
  simp only [hendn, hend']
  have hTl : (A ++ (u ++ v).map some :: B).flatten.length + x.length = (A ++ (u ++ x ++ v).map some :: B).flatten.length := by
    simp; omega
  rw [List.take_zero, List.append_nil, ← hflat'] at hl'
  rw [← hflat']
  rw [run_bind_ret (run_assert_dbg fun hdbg => by have := (hd hdbg).1; simp only [this, hTl, decide_true])]
  have hbl : ((A ++ (u ++ v).map some :: B).flatten ++ t :: junk').length = st.cap + 1 := by
    rw [← hl, ← hl']
  have hset : ((A ++ (u ++ v).map some :: B).flatten ++ t :: junk').set (A ++ (u ++ v).map some :: B).flatten.length (some 0) =
      (A ++ (u ++ v).map some :: B).flatten ++ some 0 :: junk' := by
    rw [List.set_append_right _ _ (Nat.le_refl _)]; simp
  have hN : ∀ pt : Parts, Storage.resize (A ++ (u ++ v).map some :: B).flatten.length env
      ⟨some ((A ++ (u ++ v).map some :: B).flatten ++ t :: junk'), st.size, st.cap, st.tick, pt, st.addr, st.log⟩ =
      .ret () ⟨some ((A ++ (u ++ v).map some :: B).flatten ++ some 0 :: junk'), (A ++ (u ++ v).map some :: B).flatten.length,
        st.cap, st.tick, pt, st.addr, st.log⟩ := fun pt => by
    rw [← hset]
    exact storage_resize_fit rfl hbl (by show _ ≤ st.cap; omega)
  rw [run_bind_ret (hN _), run_bind_ret (run_assert_dbg fun _ => end_null rfl hend')]
  refine ⟨_, rfl, ⟨hpt, h8, .inr ⟨junk', rfl, ?_, Nat.le_refl _, ?_⟩, h.cap, .inr rfl⟩, rfl, rfl, rfl, rfl, rfl, rfl, rfl⟩
  · simpa using hbl
  · show (A ++ (u ++ v).map some :: B).flatten.length ≤ st.cap; omega

/-- an insertion, until the new iterator is computed -/
theorem put_both (h : Holds env st (A ++ (u ++ v).map some :: B) t) (hA : A.length = 5)
    (hd : env.dbg = true → st.size = (A ++ (u ++ v).map some :: B).flatten.length) (k : Nat) :
    (¬ Stores env st ((A ++ (u ++ v).map some :: B).flatten.length + (enc.length + 1)) ∧
      Base.seg_put { off := A.flatten.length + u.length, n := k } enc.length enc env st =
        .throw .bad_alloc { st with tick := st.tick + 1 }) ∨
    (Stores env st ((A ++ (u ++ v).map some :: B).flatten.length + (enc.length + 1)) ∧ ∃ st' t',
      (env.dbg = true → t' ≠ some 0 → Base.seg_put { off := A.flatten.length + u.length, n := k } enc.length enc env st = .fault .ub) ∧
      ((env.dbg = true → t' = some 0) → Base.seg_put { off := A.flatten.length + u.length, n := k } enc.length enc env st =
        M.ask (fun o => Seg.parse id_query o { off := A.flatten.length + u.length + (enc.length + 1),  n := k }) env st') ∧
      Holds env st' (A ++ (u ++ (c!"/" :: enc) ++ v).map some :: B) t' ∧ st'.buf.isSome = true ∧
      st'.size = (A ++ (u ++ (c!"/" :: enc) ++ v).map some :: B).flatten.length ∧
      (t' = some 0 ↔ Mended st st') ∧
      Grow env ((A ++ (u ++ v).map some :: B).flatten.length + (enc.length + 1)) st st' ∧ st'.pt.nparam = st.pt.nparam ∧
      st'.pt.host = st.pt.host ∧ st'.pt.nseg = Base.modAdd env.sizeMax st.pt.nseg 1) := by
  obtain ⟨e1, e2, e3⟩ := h.offs hA
  simp only [List.map_append, List.length_append, List.length_map] at e2
  have hend := h.off_end
  have hflat : (A ++ (u ++ v).map some :: B).flatten = A.flatten ++ u.map some ++ [] ++ (v.map some ++ B.flatten) := by simp
  have hflat' : (A ++ (u ++ (c!"/" :: enc) ++ v).map some :: B).flatten =
      A.flatten ++ u.map some ++ (some c!"/" :: enc.map some) ++ (v.map some ++ B.flatten) := by simp
  have hTl : (A ++ (u ++ (c!"/" :: enc) ++ v).map some :: B).flatten.length =
      (A ++ (u ++ v).map some :: B).flatten.length + (enc.length + 1) := by simp; omega
  have hTu : (A ++ (u ++ v).map some :: B).flatten.length = A.flatten.length + u.length + (v.length + B.flatten.length) := by
    simp; omega
  unfold Base.seg_put
  have ho : ∀ i, (st.obj env.dbg).pt.off i = st.pt.off i := fun _ => rfl
  have hsize : Url.size (st.obj env.dbg) = st.pt.off id_end := rfl
  rw [run_bind_ret run_stored, run_bind_ret (run_assert_dbg fun hdbg => by have := hd hdbg; simp only [hsize, h.off_end, this, decide_true]),
    run_bind_ret (run_assert_dbg fun hdbg => by simp [ho, e1, e2]; try omega), run_bind_ret (run_assert_dbg fun hdbg => by simp [ho, e1, e2]; try omega), run_bind_ret run_pt]
  simp only [hend]
  by_cases hs : ¬ Stores env st ((A ++ (u ++ v).map some :: B).flatten.length + (enc.length + 1))
  · exact .inl ⟨hs, by rw [run_bind_throw (storage_resize_throw hs)]⟩
  have hs := Decidable.not_not.1 hs
  refine .inr ⟨hs, ?_⟩
  obtain ⟨st1, junk, t1, hrs, hz, hb, hl, ht, ht2, htm⟩ := storage_resize_of h.buf h.cap (by omega) hs
  rw [run_bind_ret hrs, run_bind_ret (run_setPt _), run_bind_ret run_pt, hz.pt]
  have hlen2 : st.pt.length2 id_path id_query + (enc.length + 1) = ((u ++ (c!"/" :: enc) ++ v).map some : List Cell).length := by
    unfold Parts.length2
    rw [e1, e2]; simp; omega
  have hpt : PtRep (st.pt.resize id_path (st.pt.length2 id_path id_query + (enc.length + 1)))
      (A ++ (u ++ (c!"/" :: enc) ++ v).map some :: B) := PtRep.resize _ h.rep hA.symm hlen2
  have h8 : (A ++ (u ++ (c!"/" :: enc) ++ v).map some :: B).length = 8 := by have := h.len; simpa using this
  have hend' : (st.pt.resize id_path (st.pt.length2 id_path id_query + (enc.length + 1))).off id_end =
      (A ++ (u ++ v).map some :: B).flatten.length + (enc.length + 1) := by
    rw [hpt, plen_of_le (by rw [h8]; decide), hTl]
  simp only [hend']
  obtain ⟨y, junk', hy, hmv, hl'⟩ := move_up (env := env)
    (st := { st1 with pt := st.pt.resize id_path (st.pt.length2 id_path id_query + (enc.length + 1)) })
    (a := A.flatten ++ u.map some) (x := []) (b := v.map some ++ B.flatten) (k := enc.length + 1) hb hflat
    (by rw [hl]; have := hz.fits; omega)
  simp only [List.length_map, List.nil_append, List.length_append, List.length_nil, Nat.add_zero] at hmv
  rw [show (A ++ (u ++ v).map some :: B).flatten.length + (enc.length + 1) + (A.flatten.length + u.length) - (A ++ (u ++ v).map some :: B).flatten.length =
      A.flatten.length + u.length + (enc.length + 1) by omega,
    show (A ++ (u ++ v).map some :: B).flatten.length - (A.flatten.length + u.length) + 1 = v.length + B.flatten.length + 1 by omega,
    run_bind_ret hmv]
  have hbl : (A.flatten ++ u.map some ++ y ++ (v.map some ++ B.flatten) ++ t1 :: junk').length = st1.cap + 1 := by
    rw [← hl, ← hl']; simp
  obtain ⟨y0, ys, rfl⟩ : ∃ y0 ys, y = y0 :: ys := List.exists_cons_of_ne_nil (by intro h; rw [h] at hy; simp at hy)
  have hys : ys.length = enc.length := by simp at hy; omega
  have w1 : ow (A.flatten ++ u.map some ++ (y0 :: ys) ++ (v.map some ++ B.flatten) ++ t1 :: junk') (A.flatten.length + u.length) b!"/" =
      A.flatten ++ u.map some ++ some c!"/" :: (ys ++ ((v.map some ++ B.flatten) ++ t1 :: junk')) := by
    have := ow_right (A.flatten ++ u.map some) ((y0 :: ys) ++ ((v.map some ++ B.flatten) ++ t1 :: junk')) 0 b!"/"
    simp only [List.length_append, List.length_map, Nat.add_zero] at this
    rw [List.append_assoc _ (v.map some ++ B.flatten), List.append_assoc _ (y0 :: ys), this]
    simp [ow]
  have w2 : ow (A.flatten ++ u.map some ++ some c!"/" :: (ys ++ ((v.map some ++ B.flatten) ++ t1 :: junk')))
      (A.flatten.length + u.length + 1) enc =
      (A ++ (u ++ (c!"/" :: enc) ++ v).map some :: B).flatten ++ t1 :: junk' := by
    have := ow_right (A.flatten ++ u.map some ++ [some c!"/"]) (ys ++ ((v.map some ++ B.flatten) ++ t1 :: junk')) 0 enc
    rw [ow_left hys] at this
    rw [hflat']
    simpa [Nat.add_assoc] using this
  have hbl1 : (A.flatten ++ u.map some ++ some c!"/" :: (ys ++ ((v.map some ++ B.flatten) ++ t1 :: junk'))).length = st1.cap + 1 := by
    rw [← hbl]; simp
  have hfit := hz.fits
  have hp1 : ∀ pt : Parts, M.put (A.flatten.length + u.length) b!"/" env
      ⟨some (A.flatten ++ u.map some ++ (y0 :: ys) ++ (v.map some ++ B.flatten) ++ t1 :: junk'), st1.size, st1.cap, st1.tick, pt, st1.addr, st1.log⟩ =
      .ret () ⟨some (A.flatten ++ u.map some ++ some c!"/" :: (ys ++ ((v.map some ++ B.flatten) ++ t1 :: junk'))),
        st1.size, st1.cap, st1.tick, pt, st1.addr, st1.log⟩ := fun pt => by
    rw [run_put rfl (by rw [hbl]; simp; omega), w1]
  have hp2 : ∀ pt : Parts, M.put (A.flatten.length + u.length + 1) enc env
      ⟨some (A.flatten ++ u.map some ++ some c!"/" :: (ys ++ ((v.map some ++ B.flatten) ++ t1 :: junk'))),
        st1.size, st1.cap, st1.tick, pt, st1.addr, st1.log⟩ =
      .ret () ⟨some ((A ++ (u ++ (c!"/" :: enc) ++ v).map some :: B).flatten ++ t1 :: junk'), st1.size, st1.cap, st1.tick, pt, st1.addr, st1.log⟩ := fun pt => by
    rw [run_put rfl (by rw [hbl1]; omega), w2]
  have hlast : (st.pt.resize id_path (st.pt.length2 id_path id_query + (enc.length + 1))).off id_end =
      (A.flatten ++ u.map some ++ (y0 :: ys) ++ (v.map some ++ B.flatten)).length := by
    rw [hend', hTu]; simp at hy ⊢; omega
  refine ⟨⟨some ((A ++ (u ++ (c!"/" :: enc) ++ v).map some :: B).flatten ++ t1 :: junk'), st1.size, st1.cap, st1.tick,
    { st.pt.resize id_path (st.pt.length2 id_path id_query + (enc.length + 1)) with
      nseg := Base.modAdd env.sizeMax (st.pt.resize id_path (st.pt.length2 id_path id_query + (enc.length + 1))).nseg 1 },
    st1.addr, st1.log⟩, t1, ?_, ?_, ⟨hpt, h8, .inr ⟨junk', rfl, ?_, ?_, ?_⟩, hz.cap, htm h.term⟩, rfl, hz.size.trans hTl.symm, ?_, hz.grow, ?_, ?_, ?_⟩
  · intro hdbg ht0
    have htn : t1 = none := (htm h.term).resolve_right ht0
    subst htn
    rw [run_bind]
    have : (M.assert fun o => do return (← o.byte (o.pt.off id_end)) == 0) env
        ⟨some (A.flatten ++ u.map some ++ (y0 :: ys) ++ (v.map some ++ B.flatten) ++ none :: junk'), st1.size, st1.cap, st1.tick,
          st.pt.resize id_path (st.pt.length2 id_path id_query + (enc.length + 1)), st1.addr, st1.log⟩ = .fault .ub := by
      exact assert_error hdbg (end_none (P := A.flatten ++ u.map some ++ (y0 :: ys) ++ (v.map some ++ B.flatten)) rfl hlast)
    rw [this]
  · intro ht0
    rw [run_bind_ret (run_assert_dbg fun hdbg => by rw [ht0 hdbg]; exact end_null rfl hlast),
      run_bind_ret (hp1 _), run_bind_ret (hp2 _), run_bind_ret (a := env.sizeMax) rfl, run_bind_ret (run_setPt _)]
  · show _ = st1.cap + 1
    rw [← hbl, List.length_append, hTl, hTu]
    simp; omega
  · show _ ≤ st1.size
    rw [hTl, hz.size]; exact Nat.le_refl _
  · show st1.size ≤ st1.cap
    rw [hz.size]; exact hz.fits
  · have := nul_resized (st'' := (⟨some ((A ++ (u ++ (c!"/" :: enc) ++ v).map some :: B).flatten ++ t1 :: junk'), st1.size, st1.cap, st1.tick,
      st.pt, st1.addr, st1.log⟩ : St)) h ht ht2 rfl rfl
    exact ⟨fun e => this.1 ⟨rfl, e⟩, fun m => (this.2 m).2⟩
  · rfl
  · rfl
  · rfl

/-- what is wrong with removing `x` from the path in front of `v` -/
def BadErase (env : Env) (st : St) (x v : Str) (q : List Cell) : Prop :=
  x ≠ [] ∧ (Base.intMax < x.count c!"/" ∨ env.dbg = true ∧ (x.count c!"/" = 0 ∨ st.pt.nseg < x.count c!"/" ∨ AtEnd v q))

theorem faults_assert {β : Type} {c : Obj → R Bool} {k : Unit → M β} (hd : env.dbg = true) (h : c (st.obj env.dbg) ≠ .ok true) :
    Faults ((M.assert c >>= k) env st) := faults_bind (assert_fault hd h)

/-- an assertion that holds can be left out -/
theorem pass_bind {β : Type} {c : Obj → R Bool} {k : Unit → M β} (h : env.dbg = true → c (st.obj env.dbg) = .ok true) :
    (M.assert c >>= k) env st = k () env st := run_bind_ret (run_assert_dbg h)

theorem Holds.full (h : Holds env st (A ++ x.map some :: B) t) (hx : x ≠ []) :
    ∃ junk, st.buf = some ((A ++ x.map some :: B).flatten ++ t :: junk) := by
  rcases h.buf with ⟨-, h2, -⟩ | ⟨junk, h1, -⟩
  · exfalso
    have := congrArg List.length h2
    have hx := List.length_pos_iff.2 hx
    simp only [List.flatten_append, List.flatten_cons, List.length_append, List.length_map, List.length_nil] at this
    omega
  · exact ⟨junk, h1⟩

/-- an erase, exactly -/
theorem erase_range_exact (h : Holds env st (A ++ (u ++ x ++ v).map some :: [q, f]) t) (hA : A.length = 5)
    (hq : Lead c!"?" q) (hf : Lead c!"#" f) (k k' : Nat) :
    (((env.dbg = true ∧ st.size ≠ (A ++ (u ++ x ++ v).map some :: [q, f]).flatten.length) ∨ BadErase env st x v q) ∧
      Faults (Base.seg_erase_range { off := A.flatten.length + u.length, n := k } { off := A.flatten.length + u.length + x.length, n := k' } env st)) ∨
    (¬ ((env.dbg = true ∧ st.size ≠ (A ++ (u ++ x ++ v).map some :: [q, f]).flatten.length) ∨ BadErase env st x v q) ∧
      ∃ n st', Base.seg_erase_range { off := A.flatten.length + u.length, n := k } { off := A.flatten.length + u.length + x.length, n := k' } env st =
        .ret { off := A.flatten.length + u.length, n := n } st' ∧ (x = [] → st' = st) ∧
        (x ≠ [] → Holds env st' (A ++ (u ++ v).map some :: [q, f]) (some 0) ∧ st'.buf.isSome = true ∧
          st'.size = (A ++ (u ++ v).map some :: [q, f]).flatten.length ∧ st'.cap = st.cap)) := by
  obtain ⟨e1, e2, e3⟩ := h.offs hA
  simp only [List.map_append, List.length_append, List.length_map] at e2
  have ho : ∀ i, (st.obj env.dbg).pt.off i = st.pt.off i := fun _ => rfl
  have hsize : Url.size (st.obj env.dbg) = st.pt.off id_end := rfl
  by_cases hz : env.dbg = true ∧ st.size ≠ (A ++ (u ++ x ++ v).map some :: [q, f]).flatten.length
  · refine .inl ⟨.inl hz, ?_⟩
    unfold Base.seg_erase_range
    rw [run_bind_ret run_stored]
    refine faults_assert hz.1 ?_
    rw [hsize, h.off_end]
    simp only [ne_eq, Except.ok.injEq, decide_eq_true_eq]
    exact fun e => hz.2 e.symm
  have hz' : env.dbg = true → st.size = (A ++ (u ++ x ++ v).map some :: [q, f]).flatten.length := fun hd =>
    Classical.byContradiction fun hn => hz ⟨hd, hn⟩
  have start : Base.seg_erase_range { off := A.flatten.length + u.length, n := k } { off := A.flatten.length + u.length + x.length, n := k' } env st =
      (if x.length = 0 then pure { off := A.flatten.length + u.length, n := k } else do
        let c := (← M.ask fun o => o.read (A.flatten.length + u.length) x.length).count c!"/"
        if c > Base.intMax then M.undefined
        else
          M.assert fun _ => .ok (c > 0)
          M.assert fun o => .ok (o.pt.nseg ≥ c)
          let m ← M.sizeMax
          M.setPt fun pt => { pt with nseg := Base.modSub m pt.nseg c }
          let pt ← M.pt
          M.move (A.flatten.length + u.length) (A.flatten.length + u.length + x.length) (pt.off id_end - (A.flatten.length + u.length + x.length) + 1)
          M.setPt fun pt => pt.resize id_path (pt.length2 id_path id_query - x.length)
          let pt ← M.pt
          let n ← M.stored
          M.assert fun _ => .ok (pt.off id_end + x.length = n)
          Storage.resize (pt.off id_end)
          M.assert fun o => do return (← o.byte (o.pt.off id_end)) == 0
          M.ask fun o => Seg.parse id_query o { off := A.flatten.length + u.length, n := k } : M SegIt) env st := by
    unfold Base.seg_erase_range
    rw [run_bind_ret run_stored, pass_bind fun hd => by rw [hsize, h.off_end, hz' hd]; simp,
      pass_bind fun _ => by simp [ho, e1], pass_bind fun _ => by simp [ho, e1]; omega, pass_bind fun _ => by simp [ho, e2]; omega,
      pass_bind fun _ => by simp [ho, e2]; omega, run_ite, if_neg (by simp)]
    simp only [Nat.add_sub_cancel_left]
  by_cases hx : x = []
  · refine .inr ⟨?_, k, st, ?_, fun _ => rfl, fun h => absurd hx h⟩
    · rintro (h | h)
      · exact hz h
      · exact h.1 hx
    · rw [start, if_pos (by rw [hx]; rfl)]
      rfl
  have hxl : 0 < x.length := List.length_pos_iff.2 hx
  obtain ⟨junk, hb⟩ := h.full (by simp [hx])
  have hread : (st.obj env.dbg).read (A.flatten.length + u.length) x.length = .ok x := by
    have := read_cells (o := st.obj env.dbg) (A := A.flatten ++ u.map some) (s := x) (rest := v.map some ++ (List.flatten [q, f] ++ t :: junk)) (by
      simp only [St.obj, hb, Option.getD_some]; simp)
    simpa using this
  rw [if_neg (by omega)] at start
  by_cases hc : Base.intMax < x.count c!"/"
  · refine .inl ⟨.inr ⟨hx, .inl hc⟩, .ub, ?_⟩
    rw [start, run_bind_ret (run_ask hread), run_ite, if_pos hc]
    rfl
  by_cases hd : env.dbg = true ∧ (x.count c!"/" = 0 ∨ st.pt.nseg < x.count c!"/")
  · refine .inl ⟨.inr ⟨hx, .inr ⟨hd.1, hd.2.imp_right .inl⟩⟩, ?_⟩
    rw [start, run_bind_ret (run_ask hread), run_ite, if_neg (by omega)]
    by_cases h0 : x.count c!"/" = 0
    · exact faults_assert hd.1 (by simp [h0])
    · rw [pass_bind fun _ => by simp only [Except.ok.injEq, decide_eq_true_eq]; omega]
      refine faults_assert hd.1 ?_
      have h1 := hd.2.resolve_left h0
      have : (st.obj env.dbg).pt.nseg = st.pt.nseg := rfl
      simp only [this, ne_eq, Except.ok.injEq, decide_eq_true_eq]
      omega
  obtain ⟨st', e, g1, g2, g3, g4, -⟩ := erase_both h hA hx (by omega) (fun hdbg => ⟨hz' hdbg, by
    have := Classical.byContradiction fun hn => hd ⟨hdbg, Classical.not_not.1 hn⟩
    omega, by
    have := Classical.byContradiction fun hn => hd ⟨hdbg, Classical.not_not.1 hn⟩
    omega⟩) k k'
  rw [e]
  rcases g1.parse_exact hA hq hf k with ⟨⟨h1, h2⟩, y, hy⟩ | ⟨h1, hy⟩
  · have h2 := h2.resolve_right fun h => h.2 ⟨g2, rfl⟩
    exact .inl ⟨.inr ⟨hx, .inr ⟨h2, .inr (.inr h1)⟩⟩, y, ask_fault hy⟩
  · refine .inr ⟨?_, _, st', run_ask hy, fun h => absurd h hx, fun _ => ⟨g1, g2, g3, g4⟩⟩
    rintro (h | ⟨-, h | ⟨h2, h | h | h⟩⟩)
    · exact hz h
    · exact hc h
    · exact hd ⟨h2, .inl h⟩
    · exact hd ⟨h2, .inr h⟩
    · exact h1 ⟨h, .inl h2⟩

/-- `erase(pos)`, exactly -/
theorem erase_exact (h : Holds env st (A ++ (u ++ x ++ v).map some :: [q, f]) t) (hA : A.length = 5)
    (hq : Lead c!"?" q) (hf : Lead c!"#" f) :
    (((env.dbg = true ∧ st.size ≠ (A ++ (u ++ x ++ v).map some :: [q, f]).flatten.length) ∨ BadErase env st x v q ∨
        (env.dbg = true ∧ x = [] ∧ AtEnd v q)) ∧
      Faults (Base.seg_erase { off := A.flatten.length + u.length, n := x.length } env st)) ∨
    (¬ ((env.dbg = true ∧ st.size ≠ (A ++ (u ++ x ++ v).map some :: [q, f]).flatten.length) ∨ BadErase env st x v q ∨
        (env.dbg = true ∧ x = [] ∧ AtEnd v q)) ∧
      ∃ n st', Base.seg_erase { off := A.flatten.length + u.length, n := x.length } env st =
        .ret { off := A.flatten.length + u.length, n := n } st' ∧ (x = [] → st' = st) ∧
        (x ≠ [] → Holds env st' (A ++ (u ++ v).map some :: [q, f]) (some 0) ∧ st'.buf.isSome = true ∧
          st'.size = (A ++ (u ++ v).map some :: [q, f]).flatten.length ∧ st'.cap = st.cap)) := by
  unfold Base.seg_erase
  rcases h.next_exact hA hq hf with ⟨h1, y, hy⟩ | ⟨h1, hy⟩
  · exact .inl ⟨.inr (.inr h1), faults_bind ⟨y, ask_fault hy⟩⟩
  · rw [run_bind_ret (run_ask hy)]
    rcases erase_range_exact h hA hq hf x.length (pieceLen v) with ⟨h2, h3⟩ | ⟨h2, h3⟩
    · exact .inl ⟨h2.imp_right .inl, h3⟩
    · refine .inr ⟨?_, h3⟩
      rintro (h | h | h)
      · exact h2 (.inl h)
      · exact h2 (.inr h)
      · exact h1 h

/-- there is, or will be, a null behind the text of `T` characters when room for `m` is made -/
def Fed (st : St) (T m : Nat) : Prop := Nul st ∨ (st.buf.isSome = true ∧ st.size = T ∧ st.cap < m)

/-- what is wrong with an insertion in front of `v` -/
def BadPut (env : Env) (st : St) (T m : Nat) (v : Str) (q f : List Cell) : Prop :=
  (env.dbg = true ∧ ¬ Fed st T m) ∨ (AtEnd v q ∧ (env.dbg = true ∨ f = [] ∧ ¬ Fed st T m))

/-- an insertion, exactly -/
theorem put_exact (h : Holds env st (A ++ (u ++ v).map some :: [q, f]) t) (hA : A.length = 5)
    (hq : Lead c!"?" q) (hf : Lead c!"#" f) (k : Nat) {T m : Nat} (hT : (A ++ (u ++ v).map some :: [q, f]).flatten.length = T)
    (hm : T + (enc.length + 1) = m) :
    ((env.dbg = true ∧ st.size ≠ T) ∧ Faults (Base.seg_put { off := A.flatten.length + u.length, n := k } enc.length enc env st)) ∨
    (¬ (env.dbg = true ∧ st.size ≠ T) ∧
      ((¬ Stores env st m ∧ Base.seg_put { off := A.flatten.length + u.length, n := k } enc.length enc env st =
        .throw .bad_alloc { st with tick := st.tick + 1 }) ∨
      (Stores env st m ∧ BadPut env st T m v q f ∧
        Faults (Base.seg_put { off := A.flatten.length + u.length, n := k } enc.length enc env st)) ∨
      (Stores env st m ∧ ¬ BadPut env st T m v q f ∧
        ∃ it st', Base.seg_put { off := A.flatten.length + u.length, n := k } enc.length enc env st = .ret it st' ∧ Grow env m st st'))) := by
  by_cases hz : env.dbg = true ∧ st.size ≠ T
  · refine .inl ⟨hz, ?_⟩
    unfold Base.seg_put
    rw [run_bind_ret run_stored]
    refine faults_assert hz.1 ?_
    have hsize : Url.size (st.obj env.dbg) = st.pt.off id_end := rfl
    rw [hsize, h.off_end, hT]
    simp only [ne_eq, Except.ok.injEq, decide_eq_true_eq]
    exact fun e => hz.2 e.symm
  refine .inr ⟨hz, ?_⟩
  have hz' : env.dbg = true → st.size = T := fun hd => Classical.byContradiction fun hn => hz ⟨hd, hn⟩
  have hput := put_both (enc := enc) h hA (by rw [hT]; exact hz') k
  rw [hT, hm] at hput
  rcases hput with ⟨h0, e⟩ | ⟨h0, st', t', e1, e2, h1, h2, h3, h4, h5, -⟩
  · exact .inl ⟨h0, e⟩
  · refine .inr ?_
    have hfed : t' = some 0 ↔ Fed st T m := by
      have ho := h.off_end
      rw [hT] at ho
      rw [h4]
      unfold Mended Fed
      rw [ho]
      have : st.cap < st'.cap ↔ st.cap < m := by
        rcases h5 with ⟨g1, g2, -⟩ | ⟨g1, g2, -⟩
        · omega
        · have := newCap_ge (h0.resolve_left (by omega)).1
          omega
      rw [this]
    by_cases hbad : env.dbg = true ∧ ¬ Fed st T m
    · exact .inl ⟨h0, .inl hbad, .ub, e1 hbad.1 fun e => hbad.2 (hfed.1 e)⟩
    have e2 := e2 fun hd => hfed.2 (Classical.byContradiction fun hn => hbad ⟨hd, hn⟩)
    have el : A.flatten.length + u.length + (enc.length + 1) = A.flatten.length + (u ++ (c!"/" :: enc)).length := by simp; omega
    rw [el] at e2
    rw [e2]
    rcases h1.parse_exact hA hq hf k with ⟨⟨h6, h7⟩, y, hy⟩ | ⟨h6, hy⟩
    · refine .inl ⟨h0, .inr ⟨h6, h7.imp_right fun h => ⟨h.1, fun hn => h.2 ⟨h2, hfed.2 hn⟩⟩⟩, y, ask_fault hy⟩
    · refine .inr ⟨h0, ?_, _, st', run_ask hy, h5⟩
      rintro (h | ⟨ha, h⟩)
      · exact hbad h
      · exact h6 ⟨ha, h.imp_right fun h => ⟨h.1, fun hn => h.2 (hfed.1 hn.2)⟩⟩

/-- `reserve`, also of a null buffer: exactly when there is a null behind the text -/
theorem reserve_fed {L : List (List Cell)} {m : Nat} (h : Holds env st L t) (hs : Stores env st m) :
    ∃ st' t', Storage.reserve m env st = .ret () st' ∧ st'.pt = st.pt ∧ st'.size = st.size ∧ m ≤ st'.cap ∧
      Holds env st' L t' ∧ (Nul st' ↔ Fed st L.flatten.length m) := by
  by_cases hle : m ≤ st.cap
  · refine ⟨st, t, ?_, rfl, rfl, hle, h, ?_⟩
    · unfold Storage.reserve
      rw [if_pos hle]
    · exact ⟨.inl, fun h => h.resolve_right fun h => by omega⟩
  have hg : Storage.newCap env.maxSize st.cap m + 1 ≤ env.maxSize ∧
      env.alloc st.tick (Storage.newCap env.maxSize st.cap m + 1) = true := hs.resolve_left hle
  have hge := (newCap_ge hg.1)
  generalize hN : Storage.newCap env.maxSize st.cap m = N at *
  have hal : Storage.allocate (N + 1) env st = .ret st.tick { st with tick := st.tick + 1, log := st.log ++ [.alloc st.tick (N + 1)] } := by
    unfold Storage.allocate; rw [if_pos hg]
  rcases h.buf with ⟨hb, h2, h3, h4⟩ | ⟨junk, hb, hl, h1, h2⟩
  · have hno : ¬ Nul st := fun hn => by have := (h.nul_iff.1 hn).1; rw [hb] at this; cases this
    have hh : Holds env { st with buf := some (List.replicate (N + 1) none), cap := N, tick := st.tick + 1, addr := st.tick, log := st.log ++ [.alloc st.tick (N + 1)] } L none := by
      refine ⟨h.rep, h.len, .inr ⟨List.replicate N none, ?_, ?_, ?_, ?_⟩, .inr hg.1, .inl rfl⟩
      · rw [h2]; rfl
      · rw [h2]; simp
      · rw [h2]; simp
      · show st.size ≤ N; omega
    refine ⟨{ st with buf := some (List.replicate (N + 1) none), cap := N, tick := st.tick + 1, addr := st.tick, log := st.log ++ [.alloc st.tick (N + 1)] }, none, ?_, rfl, rfl, hge.1, hh, ?_⟩
    · unfold Storage.reserve
      simp only [if_neg hle, hN]
      rw [hal]
      simp only [hb]
    · rw [hh.nul_iff]
      unfold Fed
      rw [hb]
      simp [hno]
  · have hlen : (L.flatten ++ t :: junk).length = st.cap + 1 := hl
    obtain ⟨w, hw⟩ : ∃ w, (L.flatten ++ t :: junk).take (st.size + 1) = L.flatten ++ t :: w := by
      refine ⟨junk.take (st.size - L.flatten.length), ?_⟩
      rw [List.take_append, List.take_of_length_le (by omega),
        show st.size + 1 - L.flatten.length = (st.size - L.flatten.length) + 1 by omega]
      rfl
    have hul : (L.flatten ++ t :: w).length = st.size + 1 := by
      rw [← hw, List.length_take]; omega
    have hset : ∃ t1 u1, (L.flatten ++ t :: w ++ List.replicate (N + 1 - (st.size + 1)) none).set st.size (some 0) =
        L.flatten ++ t1 :: u1 ∧ (t1 = some 0 ↔ t = some 0 ∨ st.size = L.flatten.length) ∧ (Term t → Term t1) := by
      by_cases he : st.size = L.flatten.length
      · refine ⟨some 0, w ++ List.replicate (N + 1 - (st.size + 1)) none, ?_, by simp [he], fun _ => .inr rfl⟩
        simp [he, List.set_append_right]
      · obtain ⟨j, hj⟩ : ∃ j, st.size = L.flatten.length + (j + 1) := ⟨st.size - L.flatten.length - 1, by omega⟩
        refine ⟨t, (w ++ List.replicate (N + 1 - (st.size + 1)) none).set j (some 0), ?_, by simp [he], id⟩
        simp [hj, List.set_append_right]
    obtain ⟨t1, u1, hset, ht1, htm⟩ := hset
    have hl1 : (L.flatten ++ t1 :: u1).length = N + 1 := by
      rw [← hset, List.length_set, List.length_append, hul, List.length_replicate]
      omega
    have hh : Holds env { st with buf := some (L.flatten ++ t1 :: u1), cap := N, tick := st.tick + 1, addr := st.tick, log := st.log ++ [.alloc st.tick (N + 1)] ++ [.free st.addr (st.cap + 1)] } L t1 :=
      ⟨h.rep, h.len, .inr ⟨u1, rfl, hl1, h1, by show st.size ≤ N; omega⟩, .inr hg.1, htm h.term⟩
    refine ⟨{ st with buf := some (L.flatten ++ t1 :: u1), cap := N, tick := st.tick + 1, addr := st.tick, log := st.log ++ [.alloc st.tick (N + 1)] ++ [.free st.addr (st.cap + 1)] }, t1, ?_, rfl, rfl, hge.1, hh, ?_⟩
    · unfold Storage.reserve
      simp only [if_neg hle, hN]
      rw [hal]
      simp only [hb]
      rw [if_pos (by rw [hlen]; omega), hw, hset]
    · rw [hh.nul_iff, ht1]
      unfold Fed
      rw [h.nul_iff, hb]
      simp only [Option.isSome_some, true_and]
      have : st.cap < m := by omega
      simp [this]

/-- a replacement, exactly -/
theorem swap_exact (h : Holds env st (A ++ (u ++ x ++ v).map some :: [q, f]) t) (hA : A.length = 5)
    (hq : Lead c!"?" q) (hf : Lead c!"#" f) {ins : SegIt → M SegIt}
    (hins : ∀ it st, ins it env st = Base.seg_put it enc.length enc env st) {T m : Nat}
    (hT : (A ++ (u ++ x ++ v).map some :: [q, f]).flatten.length = T) (hm : st.size + (enc.length + 1) - x.length = m) :
    Faults (Base.seg_swap { off := A.flatten.length + u.length, n := x.length } enc.length ins env st) ↔
      (env.dbg = true ∧ st.size ≠ T) ∨ (Stores env st m ∧ (BadErase env st x v q ∨ (x = [] ∧ BadPut env st T m v q f))) := by
  have hsz : T ≤ st.size ∧ st.size ≤ st.cap := by
    rcases h.buf with ⟨-, h2, h3, h4⟩ | ⟨-, -, -, h3, h4⟩
    · rw [h2] at hT; rw [h3, h4, ← hT]; simp
    · rw [hT] at h3; exact ⟨h3, h4⟩
  have hlen : T = (A ++ (u ++ v).map some :: [q, f]).flatten.length + x.length := by
    rw [← hT]; simp; omega
  unfold Base.seg_swap
  rw [run_bind_ret run_stored]
  by_cases hz : env.dbg = true ∧ st.size ≠ T
  · refine ⟨fun _ => .inl hz, fun _ => faults_assert hz.1 ?_⟩
    have hsize : Url.size (st.obj env.dbg) = st.pt.off id_end := rfl
    rw [hsize, h.off_end, hT]
    simp only [ne_eq, Except.ok.injEq, decide_eq_true_eq]
    exact fun e => hz.2 e.symm
  have hz' : env.dbg = true → st.size = T := fun hd => Classical.byContradiction fun hn => hz ⟨hd, hn⟩
  simp only [hz, false_or]
  rw [pass_bind fun hd => by
    have hsize : Url.size (st.obj env.dbg) = st.pt.off id_end := rfl
    rw [hsize, h.off_end, hT, hz' hd]; simp]
  -- after the reservation
  have key : ∀ st1 t1, Holds env st1 (A ++ (u ++ x ++ v).map some :: [q, f]) t1 → st1.pt = st.pt → st1.size = st.size →
      (Nul st1 ↔ Fed st T m) → m ≤ st1.cap →
      (Faults ((do
          let cap ← M.capacity
          let r ← ins (← Base.seg_erase { off := A.flatten.length + u.length, n := x.length })
          let cap' ← M.capacity
          M.assert fun _ => .ok (cap' = cap)
          return r : M SegIt) env st1) ↔ BadErase env st x v q ∨ (x = [] ∧ BadPut env st T m v q f)) := by
    intro st1 t1 h1 hpt hs1 hn hcap
    have hbe : BadErase env st1 x v q ↔ BadErase env st x v q := by unfold BadErase; rw [hpt]
    have hz1 : ¬ (env.dbg = true ∧ st1.size ≠ (A ++ (u ++ x ++ v).map some :: [q, f]).flatten.length) := by rw [hs1, hT]; exact hz
    rw [run_bind_ret run_capacity]
    rcases erase_exact h1 hA hq hf with ⟨g1, g2⟩ | ⟨g1, n, st2, g2, g3, g4⟩
    · refine ⟨fun _ => ?_, fun _ => faults_bind g2⟩
      rcases g1 with g | g | g
      · exact absurd g hz1
      · exact .inl (hbe.1 g)
      · exact .inr ⟨g.2.1, .inr ⟨g.2.2, .inl g.1⟩⟩
    · have nbe : ¬ BadErase env st x v q := fun h => g1 (.inr (.inl (hbe.2 h)))
      simp only [nbe, false_or]
      rw [run_bind_ret g2]
      have hi : ins { off := A.flatten.length + u.length, n := n } env st2 = Base.seg_put { off := A.flatten.length + u.length, n := n } enc.length enc env st2 := hins _ _
      have fin : ∀ it st3, ins { off := A.flatten.length + u.length, n := n } env st2 = .ret it st3 → st3.cap = st1.cap →
          ¬ Faults ((do
            let r ← ins { off := A.flatten.length + u.length, n := n }
            let cap' ← M.capacity
            M.assert fun _ => .ok (cap' = st1.cap)
            return r : M SegIt) env st2) := by
        intro it st3 e1 e2
        rw [run_bind_ret e1, run_bind_ret run_capacity, pass_bind fun _ => by simp [e2]]
        exact not_faults_ret
      by_cases hx : x = []
      · rw [g3 hx] at hi fin ⊢
        subst hx
        simp only [List.append_nil] at h1 hT
        rw [List.length_nil] at hm
        have hst : Stores env st1 (T + (enc.length + 1)) := .inl (by omega)
        have hbp : BadPut env st1 T (T + (enc.length + 1)) v q f ↔ BadPut env st T m v q f := by
          have : Fed st1 T (T + (enc.length + 1)) ↔ Fed st T m := by
            rw [← hn]
            exact ⟨fun h => h.resolve_right fun h => by omega, .inl⟩
          unfold BadPut
          rw [this]
        simp only [true_and]
        rcases put_exact (enc := enc) h1 hA hq hf n hT rfl with ⟨p1, -⟩ | ⟨-, ⟨p1, -⟩ | ⟨-, p1, p2⟩ | ⟨-, p1, it, st3, p2, p3⟩⟩
        · exact absurd p1 (by rw [hs1]; exact hz)
        · exact absurd hst p1
        · exact ⟨fun _ => hbp.1 p1, fun _ => faults_bind (by rw [hi]; exact p2)⟩
        · have := fin it st3 (hi.trans p2) (by rcases p3 with ⟨-, r, -⟩ | ⟨r, -⟩ <;> omega)
          exact ⟨fun h => absurd h this, fun h => absurd (hbp.2 h) p1⟩
      · obtain ⟨k1, k2, k3, k4⟩ := g4 hx
        have hst : Stores env st2 ((A ++ (u ++ v).map some :: [q, f]).flatten.length + (enc.length + 1)) := .inl (by omega)
        have hfed : ∀ a b, Fed st2 a b := fun _ _ => .inl (k1.nul_iff.2 ⟨k2, rfl⟩)
        have nae : ¬ (AtEnd v q ∧ env.dbg = true) := fun h => nbe ⟨hx, .inr ⟨h.2, .inr (.inr h.1)⟩⟩
        simp only [hx, false_and, iff_false]
        rcases put_exact (enc := enc) k1 hA hq hf n rfl rfl with ⟨p1, -⟩ | ⟨-, ⟨p1, -⟩ | ⟨-, p1, p2⟩ | ⟨-, p1, it, st3, p2, p3⟩⟩
        · exact absurd k3 p1.2
        · exact absurd hst p1
        · exfalso
          rcases p1 with p | ⟨pa, p | p⟩
          · exact p.2 (hfed _ _)
          · exact nae ⟨pa, p⟩
          · exact p.2 (hfed _ _)
        · exact fin it st3 (hi.trans p2) (by rcases p3 with ⟨-, r, -⟩ | ⟨r, -⟩ <;> omega)
  by_cases hlt : x.length < enc.length + 1
  · simp only [if_pos hlt]
    rw [run_bind_ret run_stored, hm]
    by_cases hs : Stores env st m
    · obtain ⟨st1, t1, r1, r2, r3, r4, r5, r6⟩ := reserve_fed h hs
      rw [hT] at r6
      rw [run_bind_ret r1, key st1 t1 r5 r2 r3 r6 r4]
      simp [hs]
    · rw [run_bind_throw (storage_reserve_throw hs)]
      simp only [hs, false_and, iff_false]
      exact not_faults_throw
  · simp only [if_neg hlt]
    have hs : Stores env st m := .inl (by omega)
    simp only [hs, true_and]
    exact key st t h rfl rfl ⟨.inl, fun h => h.resolve_right fun h => by omega⟩ (by omega)

end

end Url
