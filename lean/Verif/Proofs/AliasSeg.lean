import Verif.Proofs.Alias
import Verif.Proofs.Capacity
import Verif.Proofs.MachineEdit

/-!
Edits of segments with an argument that points into the url's own buffer.
-/

set_option linter.unusedSimpArgs false

namespace Url.Alias
open M Spec Capacity

variable {env : Env} {st : St} {α β : Type} {c0 g off : Nat} {s : Str}

/-! ### reading the argument -/

theorem slice_read {dbg : Bool} (hs : s ≠ []) (h : Slice st off s) : (st.obj dbg).read off s.length = .ok s := by
  obtain ⟨b, hb, hl, hsl⟩ := h
  have hn : s.length ≠ 0 := by simpa using hs
  unfold Obj.read
  have hm : (s.map some).mapM id = some s := by
    clear hsl hn hl hs
    induction s with
    | nil => rfl
    | cons c t ih => simp [ih]
  simp only [St.obj, hb, Option.getD_some, if_neg hn, if_pos hl, hsl, hm]

theorem assert_congr {c c' : Obj → R Bool} (h : c (st.obj env.dbg) = c' (st.obj env.dbg)) : M.assert c env st = M.assert c' env st := by
  unfold M.assert M.ask
  dsimp only
  rw [h]

theorem assert_release {c : Obj → R Bool} (hd : env.dbg = false) : M.assert c env st = .ret () st := by
  unfold M.assert M.ask
  dsimp only
  rw [show (st.obj env.dbg).assert (c (st.obj env.dbg)) = .ok () by simp [Obj.assert, St.obj, hd]]

theorem examine_eq {p : Str → Bool} (hs : s ≠ []) (h : Slice st off s) :
    examine ⟨s, some (st.tick, off)⟩ p env st = M.assert (fun _ => .ok (p s)) env st := by
  have hn : s.length ≠ 0 := by simpa using hs
  simp only [examine, if_neg hn, ne_eq, not_true_eq_false, if_false]
  exact assert_congr (by rw [slice_read hs h]; rfl)

theorem examine_late {p : Str → Bool} (hs : s ≠ []) (ht : st.tick ≠ g) :
    examine ⟨s, some (g, off)⟩ p env st = .fault .ub ∨ examine ⟨s, some (g, off)⟩ p env st = .ret () st ∧ env.dbg = false := by
  have hn : s.length ≠ 0 := by simpa using hs
  simp only [examine, if_neg hn, ne_eq, ht, not_false_eq_true, if_true]
  cases env.dbg <;> simp

theorem Al.examine {p : Str → Bool} {f f' : Unit → M β} (hs : s ≠ []) (h : Inv c0 g off s st) (hg : Grows (f ()))
    (hf : Al env c0 st (f ()) (f' ())) :
    Al env c0 st (M.assert (fun _ => .ok (p s)) >>= f) (Alias.examine ⟨s, some (g, off)⟩ p >>= f') := by
  by_cases ht : st.tick = g
  · subst ht
    have he := examine_eq (env := env) (p := p) hs (h.same rfl)
    unfold Al
    simp only [run_bind, he]
    cases hr : M.assert (fun _ => .ok (p s)) env st with
    | ret a st1 =>
      obtain rfl : st1 = st := by
        rcases Reads.assert (fun _ => .ok (p s)) env st with ⟨_, h⟩ | ⟨_, h⟩ | ⟨_, h⟩ <;> rw [h] at hr <;> cases hr
        rfl
      exact hf
    | throw e st1 => exact .inl rfl
    | fault x => exact .inl rfl
  · rcases examine_late (env := env) (off := off) (p := p) hs ht with he | ⟨he, hd⟩
    · right
      refine ⟨by rw [run_bind, he], fun st' hr => ?_⟩
      have := h.other ht
      have := (Grows.bind (Reads.assert _).still.grows (f := f) fun _ => hg) env st st' hr
      omega
    · have ha : M.assert (fun _ => .ok (p s)) env st = .ret () st := assert_release hd
      unfold Al
      simp only [run_bind, he, ha]
      exact hf

/-! ### inserting -/

/-- A copy of the argument into the buffer. -/
structure Copies (g off : Nat) (s : Str) (w w' : Nat → M Unit) : Prop where
  al : ∀ {env st c0 i} {f : Unit → M SegIt}, Inv c0 g off s st → off + s.length ≤ i → Grows (f ()) →
    Al env c0 st (w i >>= f) (w' i >>= f)
  grows : ∀ i, Grows (w i)
  keeps : ∀ i, Keeps (w i)
  late : ∀ {env : Env} {st : St} {i : Nat}, st.tick ≠ g → w' i env st = .fault .ub

theorem copies_copy (hs : s ≠ []) : Copies g off s (fun i => M.put i s) fun i => copyArg i ⟨s, some (g, off)⟩ where
  al h hi hf := Al.copy hs h hi hf
  grows _ := (Still.put _ _).grows
  keeps _ := (Still.put _ _).keeps
  late h := copyArg_ub hs h

theorem copies_encode (hs : s ≠ []) :
    Copies g off s (fun i => M.put i (pchar_pct_set.encode s)) fun i => encodeArg pchar_pct_set i ⟨s, some (g, off)⟩ where
  al h hi hf := Al.encode hs h hi hf
  grows _ := (Still.put _ _).grows
  keeps _ := (Still.put _ _).keeps
  late h := encodeArg_ub hs h

/-- the argument is gone -/
def Late (c0 g : Nat) (st : St) : Prop := g < st.tick ∧ c0 < st.cap

theorem Late.inv (h : Late c0 g st) : Inv c0 g off s st :=
  ⟨Nat.le_of_lt h.2, Nat.le_of_lt h.1, fun ht => absurd ht (Nat.ne_of_gt h.1), fun _ => h.2⟩

theorem Late.step {m : M α} {a : α} {st1 : St} (h : Late c0 g st) (hm : Grows m) (hr : m env st = .ret a st1) : Late c0 g st1 := by
  have := hm env st st1 (.inl ⟨a, hr⟩)
  obtain ⟨h1, h2⟩ := h
  exact ⟨by omega, by omega⟩

theorem Al.late {r : M α} {f f' : α → M β} (h : Late c0 g st) (hr : Grows r)
    (hf : ∀ a st1, Late c0 g st1 → Al env c0 st1 (f a) (f' a)) : Al env c0 st (r >>= f) (r >>= f') :=
  .step fun a st1 h1 => hf a st1 (h.step hr h1)

variable {w w' : Nat → M Unit}

theorem seg_put_eq (pos : SegIt) (ns : Nat) (enc : Str) : Base.seg_put pos ns enc = seg_put pos ns fun i => M.put i enc := rfl

theorem grows_put' {pos : SegIt} {ns : Nat} (hw : ∀ i, Grows (w i)) : Grows (seg_put pos ns w) := by
  have hx := hw (pos.off + 1)
  unfold seg_put
  grows3

theorem Al.seg_put_late {pos : SegIt} {ns : Nat} (hw : Copies g off s w w') (h : Late c0 g st) :
    Al env c0 st (seg_put pos ns w) (seg_put pos ns w') := by
  unfold seg_put
  refine .late h reads_stored.still.grows fun _ _ h => ?_
  refine .late h (by grows3) fun _ _ h => ?_
  refine .late h (by grows3) fun _ _ h => ?_
  refine .late h (by grows3) fun _ _ h => ?_
  refine .late h (by grows3) fun _ _ h => ?_
  refine .late h (by grows3) fun _ _ h => ?_
  refine .late h (by grows3) fun _ _ h => ?_
  refine .late h (by grows3) fun _ _ h => ?_
  refine .late h (by grows3) fun _ _ h => ?_
  refine .late h (by grows3) fun _ _ h => ?_
  refine .late h (by grows3) fun _ _ h => ?_
  refine .used (h.inv (off := off) (s := s)) (hw.grows _) (by grows3) (fun ht => absurd ht (Nat.ne_of_gt h.1)) fun ht => hw.late ht

theorem Al.seg_put {pos : SegIt} {ns : Nat} (hw : Copies g off s w w') (h : Inv c0 g off s st) (ho : Ordered st.pt)
    (hp : off + s.length ≤ pos.off) (hq : pos.off ≤ st.pt.off id_query) :
    Al env c0 st (seg_put pos ns w) (Alias.seg_put pos ns w') := by
  have hall := ho.all
  unfold Alias.seg_put
  refine .read reads_stored fun _ => .read (.assert _) fun _ => .read (.assert _) fun _ => .read (.assert _) fun _ => .pt ?_
  refine .step fun _ st1 h1 => ?_
  obtain ⟨h2, e1⟩ := h.storage (by ids; omega) h1
  refine .step fun _ st2 h3 => ?_
  have h4 := h2.setPt h3
  have e2 : st2.pt = st.pt.resize id_path (st.pt.length2 id_path id_query + (ns + 1)) := by cases h3; rw [← e1]
  refine .pt ?_
  refine .step fun _ st3 h5 => ?_
  have hend : st2.pt.off id_end = st.pt.off id_end + (ns + 1) := by
    rw [e2]
    simp only [Parts.resize, Parts.length, Parts.length2]
    ids
    simp
    omega
  obtain ⟨h6, e3⟩ := h4.move (by rw [hend]; ids; omega) h5
  refine .read (.assert _) fun _ => ?_
  refine .put h6 hp fun st4 h7 => ?_
  exact hw.al h7 (by omega) (by grows3)

theorem Al.insert_impl {q : Str → Bool} {pos : SegIt} {ns : Nat} (hs : s ≠ []) (hw : Copies g off s w w')
    (h : Inv c0 g off s st) (hp : Late c0 g st ∨ Ordered st.pt ∧ off + s.length ≤ pos.off ∧ pos.off ≤ st.pt.off id_query) :
    Al env c0 st (M.assert (fun _ => .ok (q s)) >>= fun _ => Alias.seg_put pos ns w)
      (Alias.examine ⟨s, some (g, off)⟩ q >>= fun _ => Alias.seg_put pos ns w') := by
  refine .examine hs h (grows_put' hw.grows) ?_
  rcases hp with hp | ⟨ho, h1, h2⟩
  · exact .seg_put_late hw hp
  · exact .seg_put hw h ho h1 h2

/-! ### replacing -/

theorem Inv.erase_range {a b it : SegIt} {st1 : St} (h : Inv c0 g off s st) (ho : Ordered st.pt) (hp : off + s.length ≤ a.off)
    (h5 : st.pt.off id_path ≤ a.off) (h6 : b.off ≤ st.pt.off id_query) (hab : a.off ≤ b.off)
    (hr : Base.seg_erase_range a b env st = .ret it st1) :
    Inv c0 g off s st1 ∧ Ordered st1.pt ∧ it.off = a.off ∧ it.off ≤ st1.pt.off id_query := by
  have hall := ho.all
  unfold Base.seg_erase_range at hr
  obtain ⟨_, _, e, hr⟩ := bind_ret hr
  obtain rfl := (reads_ret reads_stored e).symm
  iterate 5
    obtain ⟨_, _, e, hr⟩ := bind_ret hr
    obtain rfl := (reads_ret (Reads.assert _) e).symm
  rw [if_neg (by omega)] at hr
  dsimp only at hr
  split at hr
  · cases hr
    exact ⟨h, ho, rfl, by omega⟩
  · obtain ⟨_, _, e, hr⟩ := bind_ret hr
    obtain rfl := (reads_ret (Reads.ask _) e).symm
    split at hr
    · cases hr
    · iterate 2
        obtain ⟨_, _, e, hr⟩ := bind_ret hr
        obtain rfl := (reads_ret (Reads.assert _) e).symm
      obtain ⟨_, _, e, hr⟩ := bind_ret hr
      obtain rfl := (reads_ret Reads.sizeMax e).symm
      obtain ⟨_, sa, e, hr⟩ := bind_ret hr
      have ha := h.setPt e
      have pa : sa.pt.off = st.pt.off := by cases e; rfl
      clear e
      obtain ⟨_, _, e, hr⟩ := bind_ret hr
      cases e
      obtain ⟨_, sb, e, hr⟩ := bind_ret hr
      obtain ⟨hb, pb⟩ := ha.move hp e
      clear e
      obtain ⟨_, sc, e, hr⟩ := bind_ret hr
      have hc := hb.setPt e
      have pc : ∀ i, sc.pt.off i = if 5 < i then st.pt.off i - (b.off - a.off) else st.pt.off i := by
        intro i
        cases e
        show (sb.pt.resize id_path _).off i = _
        rw [pb]
        simp only [Parts.resize, Parts.length, Parts.length2, pa]
        ids
        split
        · omega
        · rfl
      clear e
      obtain ⟨_, _, e, hr⟩ := bind_ret hr
      cases e
      obtain ⟨_, _, e, hr⟩ := bind_ret hr
      obtain rfl := (reads_ret reads_stored e).symm
      obtain ⟨_, _, e, hr⟩ := bind_ret hr
      obtain rfl := (reads_ret (Reads.assert _) e).symm
      obtain ⟨_, sd, e, hr⟩ := bind_ret hr
      obtain ⟨hd, pd⟩ := hc.storage (by rw [pc]; ids; simp; omega) e
      clear e
      obtain ⟨_, _, e, hr⟩ := bind_ret hr
      obtain rfl := (reads_ret (Reads.assert _) e).symm
      obtain ⟨e1, rfl⟩ := Machine.ask_ret hr
      have ho1 : Ordered st1.pt := by
        intro i hi
        have := ho i hi
        have e5 : i = 5 → st.pt.off (i + 1) = st.pt.off 6 ∧ st.pt.off i = st.pt.off 5 := by rintro rfl; exact ⟨rfl, rfl⟩
        ids
        rw [pd, pc, pc]
        split <;> split <;> omega
      refine ⟨hd, ho1, parse_off e1, ?_⟩
      rw [parse_off e1, pd, pc]
      ids
      simp
      omega

theorem Inv.erase {a it : SegIt} {st1 : St} (h : Inv c0 g off s st) (ho : Ordered st.pt) (hp : off + s.length ≤ a.off)
    (h5 : st.pt.off id_path ≤ a.off) (h6 : a.off + a.n ≤ st.pt.off id_query)
    (hr : Base.seg_erase a env st = .ret it st1) :
    Inv c0 g off s st1 ∧ Ordered st1.pt ∧ it.off = a.off ∧ it.off ≤ st1.pt.off id_query := by
  unfold Base.seg_erase at hr
  obtain ⟨b, _, e, h2⟩ := bind_ret hr
  obtain ⟨e1, rfl⟩ := Machine.ask_ret e
  have := Machine.next_off e1
  exact h.erase_range (b := b) ho hp h5 (by omega) (by omega) h2

theorem Al.bind {m m' : M α} {f : α → M β} (h : Al env c0 st m m') (hf : ∀ a, Grows (f a)) : Al env c0 st (m >>= f) (m' >>= f) := by
  rcases h with h | ⟨h1, h2⟩
  · left; rw [run_bind, run_bind, h]
  · right
    refine ⟨by rw [run_bind, h1], fun st' hr => ?_⟩
    rw [run_bind] at hr
    cases hm : m env st with
    | fault x => rw [hm] at hr; rcases hr with ⟨_, hr⟩ | ⟨_, hr⟩ <;> cases hr
    | throw e st1 =>
      rw [hm] at hr
      rcases hr with ⟨_, hr⟩ | ⟨_, hr⟩ <;> cases hr
      exact h2 _ (.inr ⟨_, hm⟩)
    | ret a st1 =>
      rw [hm] at hr
      have := h2 _ (.inl ⟨_, hm⟩)
      have := hf a env st1 st' hr
      omega

/-- Where an edit takes place. -/
structure At (st : St) (pos : SegIt) (lo : Nat) : Prop where
  ord : Ordered st.pt
  lo : lo ≤ pos.off
  path : st.pt.off id_path ≤ pos.off
  query : pos.off + pos.n ≤ st.pt.off id_query

theorem Al.swap {pos : SegIt} {ns : Nat} {ins ins' : SegIt → M SegIt} (h : Inv c0 g off s st)
    (hp : At st pos (off + s.length))
    (hi : ∀ st it, Inv c0 g off s st →
      Late c0 g st ∨ Ordered st.pt ∧ off + s.length ≤ it.off ∧ it.off ≤ st.pt.off id_query → Al env c0 st (ins it) (ins' it)) :
    Al env c0 st (Base.seg_swap pos ns ins) (Base.seg_swap pos ns ins') := by
  have fin : ∀ cap, ∀ r : SegIt, Grows (M.capacity >>= fun cap' => M.assert (fun _ => .ok (cap' = cap)) >>= fun _ => (pure r : M SegIt)) :=
    fun _ _ => .bind reads_capacity.still.grows fun _ => .bind (Reads.assert _).still.grows fun _ => (Reads.pure _).still.grows
  have rest : ∀ st, Inv c0 g off s st → Late c0 g st ∨ At st pos (off + s.length) →
      Al env c0 st
        (M.capacity >>= fun cap => Base.seg_erase pos >>= fun x => ins x >>= fun r => M.capacity >>= fun cap' =>
          M.assert (fun _ => .ok (cap' = cap)) >>= fun _ => (pure r : M SegIt))
        (M.capacity >>= fun cap => Base.seg_erase pos >>= fun x => ins' x >>= fun r => M.capacity >>= fun cap' =>
          M.assert (fun _ => .ok (cap' = cap)) >>= fun _ => (pure r : M SegIt)) := by
    intro st h hp
    refine .read reads_capacity fun cap => .step fun it st1 h1 => .bind ?_ (fin cap)
    rcases hp with hp | hp
    · have := hp.step (grows_erase _) h1
      exact hi st1 it this.inv (.inl this)
    · obtain ⟨g1, g2, g3, g4⟩ := h.erase hp.ord hp.lo hp.path hp.query h1
      exact hi st1 it g1 (.inr ⟨g2, by rw [g3]; exact hp.lo, g4⟩)
  unfold Base.seg_swap
  dsimp only
  refine .read reads_stored fun _ => .read (.assert _) fun _ => ?_
  split
  · refine .read reads_stored fun _ => .step fun _ st1 h1 => ?_
    rcases storage_reserve_grow h1 with ⟨-, rfl⟩ | ⟨-, h2, h3⟩
    · exact rest _ h (.inr hp)
    · have hl : Late c0 g st1 := by
        have := h.cap
        have := h.gen
        exact ⟨by omega, by omega⟩
      exact rest _ hl.inv (.inl hl)
  · exact rest _ h (.inr hp)

/-! ### the calls -/

/-- the string argument of an edit -/
def editArg : SegOp → Str
  | .insert _ s | .insert_encoded _ s | .replace _ s | .replace_encoded _ s => s
  | .erase _ | .erase_range _ _ => []

theorem editArg_nil {own : Option (Nat × Nat)} (e : SegOp) (h : editArg e = []) : runSeg e own = Url.runSeg e := by
  cases e <;> simp only [editArg] at h <;> (try subst h) <;> (first | rfl | (cases own <;> rfl))

theorem at_pos {c : Components} {lo : Nat} (h : Rep env st c) {k : Nat} (hlo : lo ≤ (posIt (preText c) c.path k).off) :
    At st (posIt (preText c) c.path k) lo := by
  obtain ⟨p5, p6, -⟩ := plen_parts c
  have o5 : st.pt.off 5 = (preText c).length := by rw [← p5]; exact (h.obj env.dbg).rep 5
  have o6 : st.pt.off 6 = (preText c).length + c.path.length := by rw [← p6]; exact (h.obj env.dbg).rep 6
  have h2 := congrArg List.length (flatten_take_drop (pieces c.path) k)
  rw [pieces_flatten, List.length_append] at h2
  have h3 : (((pieces c.path).drop k).head?.getD []).length ≤ ((pieces c.path).drop k).flatten.length := by
    cases (pieces c.path).drop k with
    | nil => simp
    | cons x l => simp
  obtain ⟨t, ht⟩ := h
  refine ⟨(ordered_of ht).1, hlo, ?_, ?_⟩
  · show st.pt.off 5 ≤ _
    rw [o5]; simp only [posIt]; omega
  · show _ ≤ st.pt.off 6
    rw [o6]; simp only [posIt]; omega

theorem insert_impl_unfold (pos : SegIt) (s : Str) (ns : Nat) : Base.seg_insert_impl pos s ns =
    (M.assert (fun _ => .ok ((fun s : Str => decide (pchar_pct_set.encoded_size s = ns)) s)) >>= fun _ =>
      seg_put pos ns fun i => M.put i (pchar_pct_set.encode s)) := rfl

theorem insert_encoded_unfold (pos : SegIt) (s : Str) : Base.seg_insert_encoded_impl pos s =
    (M.assert (fun _ => .ok ((fun s : Str => pchar_pct_set.check s) s)) >>= fun _ =>
      seg_put pos s.length fun i => M.put i s) := rfl

theorem runSeg_al {c : Components} (e : SegOp) (h : Inv c0 g off (editArg e) st) (hc : Rep env st c)
    (hn : st.pt.nseg = 0 ↔ c.path = []) (hf : e.Fits (pathSegments c.path).length)
    (hlo : off + (editArg e).length ≤ (posIt (preText c) c.path e.cut.1).off) :
    Al env c0 st (Url.runSeg e) (runSeg e (some (g, off))) := by
  by_cases hs : editArg e = []
  · rw [editArg_nil e hs]; exact .refl _
  have h1 : e.cut.1 ≤ (pathSegments c.path).length := Nat.le_trans hf.1 hf.2
  have hat : Base.segAt e.cut.1 env st = .ret (posIt (preText c) c.path e.cut.1) st := run_ask (segAt_eq hc hn env.dbg h1)
  have hp := at_pos hc hlo
  have go : ∀ {f f' : SegIt → M SegIt}, Al env c0 st (f (posIt (preText c) c.path e.cut.1)) (f' (posIt (preText c) c.path e.cut.1)) →
      Al env c0 st (Base.segAt e.cut.1 >>= f) (Base.segAt e.cut.1 >>= f') := by
    intro f f' hx
    refine .step fun a st1 hr => ?_
    rw [hat] at hr
    cases hr
    exact hx
  have q := hp.query
  cases e with
  | erase i => exact absurd rfl hs
  | erase_range i j => exact absurd rfl hs
  | insert i s =>
    refine go (f := fun p => Base.seg_insert p s) (f' := fun p => seg_insert p ⟨s, some (g, off)⟩) ?_
    unfold Base.seg_insert seg_insert seg_insert_impl
    rw [insert_impl_unfold]
    exact .insert_impl hs (copies_encode hs) h (.inr ⟨hp.ord, hp.lo, by omega⟩)
  | insert_encoded i s =>
    refine go (f := fun p => Base.seg_insert_encoded p s) (f' := fun p => seg_insert_encoded p ⟨s, some (g, off)⟩) ?_
    unfold Base.seg_insert_encoded seg_insert_encoded seg_insert_encoded_impl
    refine .read (.validate _ _) fun _ => ?_
    rw [insert_encoded_unfold]
    exact .insert_impl hs (copies_copy hs) h (.inr ⟨hp.ord, hp.lo, by omega⟩)
  | replace i s =>
    refine go (f := fun p => Base.seg_replace p s) (f' := fun p => seg_replace p ⟨s, some (g, off)⟩) ?_
    unfold Base.seg_replace seg_replace seg_insert_impl
    refine .swap h hp fun st it h1 h2 => ?_
    rw [insert_impl_unfold]
    exact .insert_impl hs (copies_encode hs) h1 h2
  | replace_encoded i s =>
    refine go (f := fun p => Base.seg_replace_encoded p s) (f' := fun p => seg_replace_encoded p ⟨s, some (g, off)⟩) ?_
    unfold Base.seg_replace_encoded seg_replace_encoded seg_insert_encoded_impl
    refine .read (.validate _ _) fun _ => .swap h hp fun st it h1 h2 => ?_
    rw [insert_encoded_unfold]
    exact .insert_impl hs (copies_copy hs) h1 h2

/-! ### edits that enlarge the capacity -/

theorem AlA.seg_put {pos : SegIt} {ns : Nat} (hw : Copies g off s w w') (h : InvA c0 g st) :
    AlA env c0 st (Alias.seg_put pos ns w) (Alias.seg_put pos ns w') := by
  unfold Alias.seg_put
  refine .step h reads_stored.still.grows fun _ _ h => ?_
  iterate 10 refine .step h (by grows3) fun _ _ h => ?_
  refine .used h (hw.keeps _) ?_ fun ht => hw.late ht
  exact .bind Reads.sizeMax.still.keeps fun _ => .bind (Still.setPt _).keeps fun _ => (Reads.ask _).still.keeps

theorem AlA.insert_impl {q : Str → Bool} {pos : SegIt} {ns : Nat} (hs : s ≠ []) (hw : Copies g off s w w') (h : InvA c0 g st)
    (hv : env.dbg = true → st.tick = g → Slice st off s) :
    AlA env c0 st (M.assert (fun _ => .ok (q s)) >>= fun _ => Alias.seg_put pos ns w)
      (Alias.examine ⟨s, some (g, off)⟩ q >>= fun _ => Alias.seg_put pos ns w') := by
  intro b st' hb hc
  obtain ⟨_, _, h1, h2⟩ := bind_ret hb
  obtain rfl := (reads_ret (Reads.assert _) h1).symm
  have key : Alias.examine ⟨s, some (g, off)⟩ q env st = .ret () st → _ := fun he =>
    show (Alias.examine ⟨s, some (g, off)⟩ q >>= fun _ => Alias.seg_put pos ns w') env st = .fault .ub by
      rw [run_bind, he]; exact AlA.seg_put hw h b st' h2 hc
  by_cases ht : st.tick = g
  · cases hd : env.dbg with
    | true => subst ht; exact key ((examine_eq hs (hv hd rfl)).trans h1)
    | false =>
      refine key ?_
      have hn : s.length ≠ 0 := by simpa using hs
      simp only [Alias.examine, if_neg hn, ne_eq, ht, not_true_eq_false, if_false]
      exact assert_release hd
  · rcases examine_late (env := env) (off := off) (p := q) hs ht with he | ⟨he, -⟩
    · rw [run_bind, he]
    · exact key he

theorem AlA.swap {pos : SegIt} {ns : Nat} {ins ins' : SegIt → M SegIt} (h : InvA c0 g st)
    (hi : ∀ st it, InvA c0 g st → (env.dbg = true → st.tick ≠ g) → AlA env c0 st (ins it) (ins' it)) :
    AlA env c0 st (Base.seg_swap pos ns ins) (Base.seg_swap pos ns ins') := by
  have rest : ∀ st, InvA c0 g st →
      AlA env c0 st
        (M.capacity >>= fun cap => Base.seg_erase pos >>= fun x => ins x >>= fun r => M.capacity >>= fun cap' =>
          M.assert (fun _ => .ok (cap' = cap)) >>= fun _ => (pure r : M SegIt))
        (M.capacity >>= fun cap => Base.seg_erase pos >>= fun x => ins' x >>= fun r => M.capacity >>= fun cap' =>
          M.assert (fun _ => .ok (cap' = cap)) >>= fun _ => (pure r : M SegIt)) := by
    intro st h b st' hb hc
    obtain ⟨cap, _, h1, hb⟩ := bind_ret hb
    cases h1
    obtain ⟨it, st1, h1, hb⟩ := bind_ret hb
    obtain ⟨r, st2, h2, hb⟩ := bind_ret hb
    obtain ⟨cap', _, h3, hb⟩ := bind_ret hb
    cases h3
    obtain ⟨_, _, h3, hb⟩ := bind_ret hb
    cases hb
    obtain rfl := (reads_ret (Reads.assert _) h3).symm
    have g1 := grows_erase pos env st st1 (.inl ⟨_, h1⟩)
    have hg := h.gen
    have hi1 : InvA c0 g st1 := ⟨by omega, fun ht => by have := h.same (by omega); omega⟩
    rw [run_bind]
    show (Base.seg_erase pos >>= _) env st = _
    rw [run_bind, h1]
    dsimp only
    rw [run_bind, hi st1 it hi1 (fun hd ht => ?_) b st2 h2 hc]
    have hcap : st2.cap = st.cap := by
      unfold M.assert M.ask at h3
      simp only [Obj.assert, St.obj, hd, if_true] at h3
      by_cases he : st2.cap = st.cap
      · exact he
      · simp [he] at h3
    have := h.same (by omega)
    omega
  unfold Base.seg_swap
  dsimp only
  refine .step h reads_stored.still.grows fun _ _ h => .step h (Reads.assert _).still.grows fun _ _ h => ?_
  split
  · exact .step h reads_stored.still.grows fun _ _ h => .step h (grows_reserve _) fun _ _ h => rest _ h
  · exact rest _ h

theorem runSeg_ala (e : SegOp) (hs : editArg e ≠ []) (h : InvA c0 g st) (hv : st.tick = g → Slice st off (editArg e)) :
    AlA env c0 st (Url.runSeg e) (runSeg e (some (g, off))) := by
  have go : ∀ {k : Nat} {f f' : SegIt → M SegIt}, (∀ it, AlA env c0 st (f it) (f' it)) →
      AlA env c0 st (Base.segAt k >>= f) (Base.segAt k >>= f') := by
    intro k f f' hx b st' hb hc
    obtain ⟨it, _, h1, h2⟩ := bind_ret hb
    obtain ⟨-, rfl⟩ := Machine.ask_ret h1
    rw [run_bind, h1]
    exact hx it b st' h2 hc
  have val : ∀ {t : Str} {f f' : Unit → M SegIt}, AlA env c0 st (f ()) (f' ()) →
      AlA env c0 st (Base.validate pchar_pct_set t >>= f) (Base.validate pchar_pct_set t >>= f') := by
    intro t f f' hx b st' hb hc
    obtain ⟨it, _, h1, h2⟩ := bind_ret hb
    obtain rfl := (reads_ret (Reads.validate _ _) h1).symm
    rw [run_bind, h1]
    exact hx b st' h2 hc
  cases e with
  | erase i => exact absurd rfl hs
  | erase_range i j => exact absurd rfl hs
  | insert i s =>
    refine go (f := fun p => Base.seg_insert p s) (f' := fun p => seg_insert p ⟨s, some (g, off)⟩) fun it => ?_
    unfold Base.seg_insert seg_insert seg_insert_impl
    rw [insert_impl_unfold]
    exact .insert_impl (s := s) (q := fun x => decide (pchar_pct_set.encoded_size x = pchar_pct_set.encoded_size s)) hs (copies_encode hs) h fun _ => hv
  | insert_encoded i s =>
    refine go (f := fun p => Base.seg_insert_encoded p s) (f' := fun p => seg_insert_encoded p ⟨s, some (g, off)⟩) fun it => ?_
    unfold Base.seg_insert_encoded seg_insert_encoded seg_insert_encoded_impl
    refine val ?_
    rw [insert_encoded_unfold]
    exact .insert_impl hs (copies_copy hs) h fun _ => hv
  | replace i s =>
    refine go (f := fun p => Base.seg_replace p s) (f' := fun p => seg_replace p ⟨s, some (g, off)⟩) fun it => ?_
    unfold Base.seg_replace seg_replace seg_insert_impl
    refine .swap h fun st it h1 h2 => ?_
    rw [insert_impl_unfold]
    exact .insert_impl (s := s) (q := fun x => decide (pchar_pct_set.encoded_size x = pchar_pct_set.encoded_size s)) hs (copies_encode hs) h1 fun hd ht => absurd ht (h2 hd)
  | replace_encoded i s =>
    refine go (f := fun p => Base.seg_replace_encoded p s) (f' := fun p => seg_replace_encoded p ⟨s, some (g, off)⟩) fun it => ?_
    unfold Base.seg_replace_encoded seg_replace_encoded seg_insert_encoded_impl
    refine val (.swap h fun st it h1 h2 => ?_)
    rw [insert_encoded_unfold]
    exact .insert_impl hs (copies_copy hs) h1 fun hd ht => absurd ht (h2 hd)

end Url.Alias
