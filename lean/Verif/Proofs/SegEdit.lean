import Verif.Proofs.Segments
import Verif.Proofs.Setters

/-!
Editing segments: `erase`, `insert` and `replace` on the text, and what they do to the list of segments.
-/

set_option linter.unusedSimpArgs false
attribute [-simp] List.length_flatten

namespace Url
open Spec

variable {env : Env} {st : St}

/-! ### pieces of an edited path -/

/-- the text is empty or starts with a slash -/
def Rooted (v : Str) : Prop := v = [] ∨ ∃ w, v = c!"/" :: w

theorem pieces_append (u : Str) {v : Str} (hv : Rooted v) : pieces (u ++ v) = pieces u ++ pieces v := by
  induction u with
  | nil => rfl
  | cons c t ih =>
    rw [List.cons_append, pieces, ih, pieces]
    cases ht : pieces t with
    | nil =>
      rcases hv with rfl | ⟨w, rfl⟩
      · rfl
      · rw [pieces_cons]; simp
    | cons p ps =>
      simp only [List.cons_append]
      split <;> rfl

theorem pieces_single {s : Str} (hs : s.all notSlash = true) : pieces (c!"/" :: s) = [c!"/" :: s] := by
  rw [pieces_cons]
  have h1 := takeWhile_stop (v := []) hs (.inl rfl)
  rw [List.append_nil] at h1
  have h2 : s.dropWhile notSlash = [] := by
    have := List.takeWhile_append_dropWhile (p := notSlash) (l := s)
    rw [h1] at this
    simpa using this
  rw [h1, h2]
  rfl

theorem rooted_drop (p : Str) (k : Nat) (hk : 0 < k) : Rooted ((pieces p).drop k).flatten := by
  cases hq : (pieces p).drop k with
  | nil => exact .inl rfl
  | cons x xs =>
    right
    obtain ⟨s', rfl, -⟩ := pieces_tail_slash (p := p) (x := x) (by
      have : x ∈ (pieces p).drop k := by rw [hq]; simp
      rw [show k = 1 + (k - 1) by omega, ← List.drop_drop] at this
      exact List.mem_of_mem_drop this)
    exact ⟨s' ++ xs.flatten, by simp⟩

theorem pieces_take (p : Str) (k : Nat) : pieces ((pieces p).take k).flatten = (pieces p).take k := by
  by_cases hk : k = 0
  · subst hk; rfl
  · have h1 := pieces_append ((pieces p).take k).flatten (rooted_drop p k (by omega))
    rw [flatten_take_drop, pieces_flatten, pieces_drop] at h1
    conv at h1 => lhs; rw [← List.take_append_drop k (pieces p)]
    exact (List.append_cancel_right h1).symm

theorem pieces_erase (p : Str) (i : Nat) {j : Nat} (hj : 0 < j) :
    pieces (((pieces p).take i).flatten ++ ((pieces p).drop j).flatten) = (pieces p).take i ++ (pieces p).drop j := by
  rw [pieces_append _ (rooted_drop p j hj), pieces_take, pieces_drop]

theorem pieces_insert (p : Str) (i : Nat) {s : Str} (hs : s.all notSlash = true) (hr : Rooted ((pieces p).drop i).flatten) :
    pieces (((pieces p).take i).flatten ++ (c!"/" :: s) ++ ((pieces p).drop i).flatten) =
      (pieces p).take i ++ (c!"/" :: s) :: (pieces p).drop i := by
  have h1 : Rooted ((c!"/" :: s) ++ ((pieces p).drop i).flatten) := .inr ⟨_, rfl⟩
  rw [List.append_assoc, pieces_append _ h1, pieces_append _ hr, pieces_take, pieces_drop, pieces_single hs]
  rfl

theorem strip_slash (s : Str) : strip (c!"/" :: s) = s := by simp [strip]

/-- slashes in a range of pieces -/
theorem count_slash {P : List Str} (h : ∀ x ∈ P, ∃ s, x = c!"/" :: s ∧ s.all notSlash = true) :
    P.flatten.count c!"/" = P.length := by
  induction P with
  | nil => rfl
  | cons x P ih =>
    obtain ⟨s, rfl, hs⟩ := h x (by simp)
    have h0 : s.count c!"/" = 0 := by
      rw [List.count_eq_zero]
      intro hm
      have := List.all_eq_true.1 hs _ hm
      simp [notSlash] at this
    rw [List.flatten_cons, List.count_append, ih fun y hy => h y (by simp [hy]), List.count_cons_self, h0, List.length_cons]
    omega

/-- Every piece starts with a slash, except the first of a path that does not. -/
theorem count_pieces {p : Str} {i j : Nat} (hij : i ≤ j) (hj : j ≤ (pieces p).length) (h0 : 0 < i ∨ Rooted p) :
    (((pieces p).take j).drop i).flatten.count c!"/" = j - i := by
  rw [count_slash]
  · simp; omega
  · intro x hx
    have hx : x ∈ (pieces p).drop i := by
      rw [List.drop_take] at hx
      exact List.mem_of_mem_take hx
    by_cases hi : i = 0
    · subst hi
      rw [List.drop_zero] at hx
      rcases h0.resolve_left (by omega) with rfl | ⟨w, rfl⟩
      · simp [pieces] at hx
      · rw [pieces_cons, List.mem_cons] at hx
        rcases hx with rfl | hx
        · exact ⟨_, rfl, List.all_takeWhile⟩
        · refine pieces_tail_slash (p := c!"/" :: w) ?_
          rw [pieces_cons]; simpa using hx
    · rw [show i = 1 + (i - 1) by omega, ← List.drop_drop] at hx
      exact pieces_tail_slash (List.mem_of_mem_drop hx)

/-- The first piece of a path that does not start with a slash has none. -/
theorem count_rootless {p : Str} {j : Nat} (h0 : 0 < j) (hj : j ≤ (pieces p).length) (hr : ¬ Rooted p) :
    ((pieces p).take j).flatten.count c!"/" = j - 1 := by
  cases p with
  | nil => exact absurd (.inl rfl) hr
  | cons a t =>
    have ha : a ≠ c!"/" := fun h => hr (.inr ⟨t, by rw [h]⟩)
    obtain ⟨k, rfl⟩ : ∃ k, j = k + 1 := ⟨j - 1, by omega⟩
    have hc := count_pieces (p := a :: t) (i := 1) (j := k + 1) (by omega) hj (.inl (by omega))
    rw [pieces_cons] at hc ⊢
    rw [List.take_succ_cons, List.drop_succ_cons, List.drop_zero] at hc
    rw [List.take_succ_cons, List.flatten_cons, List.count_append, hc]
    have : (a :: t.takeWhile notSlash).count c!"/" = 0 := by
      rw [List.count_eq_zero]
      intro hm
      rcases List.mem_cons.1 hm with h | h
      · exact ha h.symm
      · have := List.all_eq_true.1 (List.all_takeWhile (l := t) (p := notSlash)) _ h
        simp [notSlash] at this
    omega

/-! ### running -/

theorem run_assert_dbg {p : Obj → R Bool} (h : env.dbg = true → p (st.obj env.dbg) = .ok true) : M.assert p env st = .ret () st := by
  by_cases hd : env.dbg = true
  · exact run_assert (h hd)
  · have : (st.obj env.dbg).dbg = false := by simpa [St.obj] using hd
    simp [M.assert, M.ask, Obj.assert, this]

@[simp] theorem run_stored : M.stored env st = .ret st.size st := rfl
@[simp] theorem run_capacity : M.capacity env st = .ret st.cap st := rfl

/-! ### the storage -/

theorem storage_resize_fit {b : List Cell} {m : Nat} (hb : st.buf = some b) (hl : b.length = st.cap + 1) (hm : m ≤ st.cap) :
    Storage.resize m env st = .ret () { st with size := m, buf := some (b.set m (some 0)) } := by
  unfold Storage.resize Storage.reserve
  simp only [if_pos hm, hb]
  rw [if_pos (by omega)]

theorem storage_reserve_of {T : List Cell} {t : Cell} {m : Nat} (h : BufHolds st T t) (hc : CapOk env st) (hb : st.buf.isSome = true)
    (hs : Stores env st m) :
    ∃ st' t', Storage.reserve m env st = .ret () st' ∧ st'.pt = st.pt ∧ st'.size = st.size ∧ m ≤ st'.cap ∧ BufHolds st' T t' ∧
      CapOk env st' ∧ st'.buf.isSome = true ∧ Grow env m st st' ∧ (t = some 0 → t' = some 0) ∧ (Term t → Term t') := by
  by_cases hle : m ≤ st.cap
  · refine ⟨st, t, ?_, rfl, rfl, hle, h, hc, hb, .inl ⟨hle, rfl, rfl⟩, id, id⟩
    unfold Storage.reserve
    rw [if_pos hle]
  · have hg : Storage.newCap env.maxSize st.cap m + 1 ≤ env.maxSize ∧
        env.alloc st.tick (Storage.newCap env.maxSize st.cap m + 1) = true := hs.resolve_left hle
    have hge := (newCap_ge hg.1)
    generalize hN : Storage.newCap env.maxSize st.cap m = N at *
    rcases h with ⟨h1, -⟩ | ⟨junk, hb, hl, h1, h2⟩
    · rw [h1] at hb; cases hb
    have hlen : (T ++ t :: junk).length = st.cap + 1 := hl
    obtain ⟨u, hu⟩ : ∃ u, (T ++ t :: junk).take (st.size + 1) = T ++ t :: u := by
      refine ⟨junk.take (st.size - T.length), ?_⟩
      rw [List.take_append, List.take_of_length_le (by omega),
        show st.size + 1 - T.length = (st.size - T.length) + 1 by omega]
      rfl
    have hul : (T ++ t :: u).length = st.size + 1 := by
      rw [← hu, List.length_take]; omega
    have hset : ∃ t1 u1, (T ++ t :: u ++ List.replicate (N + 1 - (st.size + 1)) none).set st.size (some 0) =
        T ++ t1 :: u1 ∧ (t = some 0 → t1 = some 0) ∧ (Term t → Term t1) := by
      by_cases he : st.size = T.length
      · refine ⟨some 0, u ++ List.replicate (N + 1 - (st.size + 1)) none, ?_, fun _ => rfl, fun _ => .inr rfl⟩
        simp [he, List.set_append_right]
      · obtain ⟨j, hj⟩ : ∃ j, st.size = T.length + (j + 1) := ⟨st.size - T.length - 1, by omega⟩
        refine ⟨t, (u ++ List.replicate (N + 1 - (st.size + 1)) none).set j (some 0), ?_, id, id⟩
        simp [hj, List.set_append_right]
    obtain ⟨t1, u1, hset, ht1, htm⟩ := hset
    have hl1 : (T ++ t1 :: u1).length = N + 1 := by
      rw [← hset, List.length_set, List.length_append, hul, List.length_replicate]
      omega
    refine ⟨{ st with buf := some (T ++ t1 :: u1), cap := N, tick := st.tick + 1, addr := st.tick, log := st.log ++ [.alloc st.tick (N + 1)] ++ [.free st.addr (st.cap + 1)] }, t1, ?_, rfl, rfl, hge.1, .inr ⟨u1, rfl, hl1, h1, ?_⟩,
      .inr hg.1, rfl, .inr ⟨by omega, hN.symm, rfl⟩, ht1, htm⟩
    · unfold Storage.reserve
      simp only [if_neg hle, hN]
      have : Storage.allocate (N + 1) env st = .ret st.tick { st with tick := st.tick + 1, log := st.log ++ [.alloc st.tick (N + 1)] } := by
        unfold Storage.allocate; rw [if_pos hg]
      rw [this]
      simp only [hb]
      rw [if_pos (by rw [hlen]; omega), hu, hset]
    · show st.size ≤ N
      omega

theorem storage_reserve_throw {m : Nat} (hs : ¬ Stores env st m) :
    Storage.reserve m env st = .throw .bad_alloc { st with tick := st.tick + 1 } := by
  unfold Stores at hs
  unfold Storage.reserve
  rw [if_neg (fun h => hs (.inl h))]
  have : Storage.allocate (Storage.newCap env.maxSize st.cap m + 1) env st = .throw .bad_alloc { st with tick := st.tick + 1 } := by
    unfold Storage.allocate; rw [if_neg (fun h => hs (.inr h))]
  simp only [this]

/-! ### the text around the path -/

def prePath (c : Components) : List (List Cell) := (schemeText c.scheme :: authTexts c.auth).map (·.map some)
def postPath (c : Components) : List (List Cell) := [(queryText c.query).map some, (fragText c.fragment).map some]
def postText (c : Components) : Str := queryText c.query ++ fragText c.fragment

theorem cells_split (c : Components) (p : Str) : cells { c with path := p } = prePath c ++ p.map some :: postPath c := by
  simp [cells, compParts, prePath, postPath]

theorem prePath_length (c : Components) : (prePath c).length = 5 := by simp [prePath, authTexts_length]

theorem prePath_flatten (c : Components) : (prePath c).flatten = (preText c).map some := by
  simp [prePath, preText, List.map_flatten]

theorem postPath_flatten (c : Components) : (postPath c).flatten = (postText c).map some := by
  simp [postPath, postText]

theorem render_eq (c : Components) (p : Str) : ({ c with path := p } : Components).render = preText c ++ p ++ postText c := by
  rw [← compParts_flatten]
  simp [compParts, preText, postText]

theorem cells_path_flatten (c : Components) (p : Str) :
    (cells { c with path := p }).flatten = (preText c ++ p ++ postText c).map some := by
  rw [cells_flatten, render_eq]

/-- The state after an edit: it holds `c`, exactly as long as its text, terminated. -/
structure Tight (env : Env) (st : St) (c : Components) : Prop where
  holds : Holds env st (cells c) (some 0)
  buf : st.buf.isSome = true
  size : st.size = c.render.length

theorem Tight.rep {c} (h : Tight env st c) : Rep env st c := ⟨_, h.holds⟩

theorem Tight.nul {c} (h : Tight env st c) : Nul st := h.holds.nul_iff.2 ⟨h.buf, rfl⟩

/-- the byte after the text of a terminated buffer -/
theorem Tight.mem {c} (h : Tight env st c) (dbg : Bool) :
    ∃ rest, (st.obj dbg).mem = c.render.map some ++ some 0 :: rest := by
  rcases h.holds.buf with ⟨h1, -⟩ | ⟨junk, hb, -⟩
  · have := h.buf; rw [h1] at this; cases this
  · exact ⟨junk, by simp only [St.obj, hb, Option.getD_some, cells_flatten]⟩

/-- `parse` between two pieces of the path -/
theorem Tight.parse {c : Components} (h : Tight env st c) {u v : Str} (hp : c.path = u ++ v) {n : Nat}
    (hd : env.dbg = true → v ≠ [] ∨ c.query ≠ none) :
    Seg.parse id_query (st.obj env.dbg) { off := (preText c).length + u.length, n := n } =
      .ok { off := (preText c).length + u.length, n := ((pieces v).head?.getD []).length } := by
  obtain ⟨rest, hm⟩ := h.mem env.dbg
  have hr := (h.rep.obj env.dbg).rep
  obtain ⟨-, e2, e3⟩ := plen_parts c
  have hc : c.render = preText c ++ (u ++ v) ++ postText c := by rw [← hp, ← render_eq c c.path]
  have hl : (preText c).length + u.length = (preText c ++ u).length := by simp
  rw [hl]
  cases v with
  | cons a t =>
    rw [parse_of (o := st.obj env.dbg) (A := preText c ++ u) (c := a) (t := t) (rest := (postText c).map some ++ some 0 :: rest)
      (by rw [hm, hc]; simp) (by rw [hr, e2, hp]; simp; omega) (by rw [hr, e3, hp]; simp; omega), pieces_cons]
    simp
  | nil =>
    have hb : ∃ d r, (st.obj env.dbg).mem = (preText c ++ u).map some ++ some d :: r ∧ d ≠ c!"/" := by
      rw [hm, hc]
      cases hq : c.query with
      | some q => exact ⟨c!"?", _, by simp [postText, hq, queryText]; rfl, by decide⟩
      | none =>
        cases hf : c.fragment with
        | some q => exact ⟨c!"#", _, by simp [postText, hq, hf, queryText, fragText]; rfl, by decide⟩
        | none => exact ⟨0, _, by simp [postText, hq, hf, queryText, fragText]; rfl, by decide⟩
    obtain ⟨d, r, hd1, hd2⟩ := hb
    have hb : (d == c!"/") = false := by simpa using hd2
    have hlim : (st.obj env.dbg).pt.off id_query = (preText c ++ u).length := by rw [hr, e2, hp]; simp
    have ha : (st.obj env.dbg).assert (.ok (decide ((preText c ++ u).length ≠ (st.obj env.dbg).pt.off id_frag))) = .ok () := by
      by_cases hdbg : env.dbg = true
      · refine assert_not ?_
        rw [hr, e3, hp]
        rcases hd hdbg with h | h
        · exact absurd rfl h
        · obtain ⟨q, hq⟩ := Option.ne_none_iff_exists'.1 h
          simp [hq, queryText]
      · have : (st.obj env.dbg).dbg = false := by simpa [St.obj] using hdbg
        simp [Obj.assert, this]
    unfold Seg.parse
    rw [ha, byte_of hd1, hlim]
    simp [bind, Except.bind, hb, Seg.scan, pure, Except.pure, pieces]

/-! ### `erase` -/

theorem erase_run {c : Components} {u x v : Str} {k k' : Nat} (h : Rep env st c) (hp : c.path = u ++ x ++ v) (hx : x ≠ [])
    (hc : x.count c!"/" ≤ Base.intMax)
    (hd : env.dbg = true → st.size = c.render.length ∧ 0 < x.count c!"/" ∧ x.count c!"/" ≤ st.pt.nseg) :
    ∃ st', Base.seg_erase_range { off := (preText c).length + u.length, n := k }
        { off := (preText c).length + u.length + x.length, n := k' } env st =
      M.ask (fun o => Seg.parse id_query o { off := (preText c).length + u.length, n := k }) env st' ∧
      Tight env st' { c with path := u ++ v } ∧ st'.cap = st.cap ∧ st'.tick = st.tick ∧ st'.pt.nparam = st.pt.nparam ∧
      st'.pt.host = st.pt.host ∧ st'.pt.nseg = Base.modSub env.sizeMax st.pt.nseg (x.count c!"/") := by
  have hr : ∀ dbg, PtRep (st.obj dbg).pt (compParts c) := fun dbg => (h.obj dbg).rep
  have hr' : PtRep st.pt (compParts c) := hr true
  obtain ⟨e1, e2, e3⟩ := plen_parts c
  have hxl : 0 < x.length := List.length_pos_iff.2 hx
  have hcr : c.render = preText c ++ (u ++ x ++ v) ++ postText c := by rw [← hp, ← render_eq c c.path]
  have hlen : c.render.length = (preText c).length + u.length + x.length + v.length + (postText c).length := by
    rw [hcr]; simp; omega
  have hpl : c.path.length = u.length + x.length + v.length := by rw [hp]; simp; omega
  obtain ⟨t, hh⟩ := h
  have hend : st.pt.off id_end = c.render.length := by rw [hh.off_end, cells_length]
  obtain ⟨junk, hb, hl, hs1, hs2⟩ := hh.buf.resolve_left (by
    rintro ⟨-, h2, -⟩
    have := congrArg List.length h2
    rw [cells_length, hlen] at this
    simp only [List.length_nil] at this; omega)
  rw [cells_length] at hs1
  -- the count
  have hread : (st.obj env.dbg).read ((preText c).length + u.length) x.length = .ok x := by
    have := read_of (o := st.obj env.dbg) (A := preText c ++ u) (B := x) (rest := v.map some ++ ((postText c).map some ++ t :: junk)) (by
      simp only [St.obj, hb, Option.getD_some, cells_flatten, hcr]; simp)
    simpa using this
  unfold Base.seg_erase_range
  rw [run_bind_ret run_stored, run_bind_ret (run_assert_dbg fun hdbg => by simp [Url.size, St.obj, hend, (hd hdbg).1]),
    run_bind_ret (run_assert_dbg fun _ => by rw [hr, e1]; simp),
    run_bind_ret (run_assert_dbg fun _ => by rw [hr, e1]; simp; omega),
    run_bind_ret (run_assert_dbg fun _ => by rw [hr, e2]; simp; omega),
    run_bind_ret (run_assert_dbg fun _ => by rw [hr, e2]; simp; omega), run_ite, if_neg (by simp)]
  simp only [Nat.add_sub_cancel_left, run_ite, if_neg (show ¬ x.length = 0 by omega)]
  rw [run_bind_ret (run_ask hread), run_ite, if_neg (by omega),
    run_bind_ret (run_assert_dbg fun hdbg => by simp [(hd hdbg).2.1]),
    run_bind_ret (run_assert_dbg fun hdbg => by simp [St.obj, (hd hdbg).2.2]),
    run_bind_ret run_sizeMax, run_bind_ret (run_setPt _), run_bind_ret run_pt]
  -- the move
  obtain ⟨junk', hmv, hl'⟩ := move_down (env := env)
    (st := { st with pt := { st.pt with nseg := Base.modSub env.sizeMax st.pt.nseg (x.count c!"/") } })
    (a := (preText c ++ u).map some) (x := x.map some) (b := (v ++ postText c).map some) (n := 0) (by omega) hb
    (by rw [cells_flatten, hcr]; simp)
  simp only [List.length_map, List.take_zero, List.append_nil, List.length_append] at hmv
  rw [Nat.sub_zero, Nat.add_sub_cancel] at hmv
  simp only
  rw [hend, show c.render.length - ((preText c).length + u.length + x.length) + 1 = v.length + (postText c).length + 1 by omega,
    run_bind_ret hmv, run_bind_ret (run_setPt _), run_bind_ret run_pt, run_bind_ret run_stored]
  -- the offsets
  have hlen2 : st.pt.length2 id_path id_query - x.length = (u ++ v).length := by
    unfold Parts.length2
    rw [hr', hr', e1, e2]; simp; omega
  have hpt : PtRep (st.pt.resize id_path (st.pt.length2 id_path id_query - x.length)) (cells { c with path := u ++ v }) := by
    rw [cells_split, hlen2]
    refine PtRep.resize (x := c.path.map some) _ ?_ (prePath_length c).symm (by simp)
    rw [← cells_split]
    exact hh.rep
  have hend' : (st.pt.resize id_path (st.pt.length2 id_path id_query - x.length)).off id_end = (u.length + v.length + (preText c).length + (postText c).length) := by
    rw [hpt, plen_of_le (by simp [cells, compParts, authTexts_length]), cells_path_flatten]; simp; omega
  have hendn : ∀ k, ((⟨(st.pt.off), k, st.pt.nparam, st.pt.host⟩ : Parts).resize id_path
      ((⟨(st.pt.off), k, st.pt.nparam, st.pt.host⟩ : Parts).length2 id_path id_query - x.length)).off =
      (st.pt.resize id_path (st.pt.length2 id_path id_query - x.length)).off := fun _ => rfl
  rw [run_bind_ret (run_assert_dbg fun hdbg => by
    have := (hd hdbg).1
    simp only [Except.ok.injEq, decide_eq_true_eq, hendn, hend']; omega)]
  simp only [hendn, hend']
  have hbl : (((preText c ++ u).map some ++ (v ++ postText c).map some) ++ t :: junk').length = st.cap + 1 := by
    rw [← hl, ← hl']; simp
  have hN : ∀ pt : Parts, Storage.resize (u.length + v.length + (preText c).length + (postText c).length) env
      ⟨some (((preText c ++ u).map some ++ (v ++ postText c).map some) ++ t :: junk'), st.size, st.cap, st.tick, pt, st.addr, st.log⟩ =
      .ret () ⟨some ((((preText c ++ u).map some ++ (v ++ postText c).map some) ++ t :: junk').set
        (u.length + v.length + (preText c).length + (postText c).length) (some 0)),
        u.length + v.length + (preText c).length + (postText c).length, st.cap, st.tick, pt, st.addr, st.log⟩ :=
    fun pt => storage_resize_fit rfl hbl (by show _ ≤ st.cap; omega)
  rw [run_bind_ret (hN _)]
  have hT : (preText c ++ u).map some ++ (v ++ postText c).map some = (cells { c with path := u ++ v }).flatten := by
    rw [cells_path_flatten]; simp
  have hTl : (cells { c with path := u ++ v }).flatten.length = u.length + v.length + (preText c).length + (postText c).length := by
    rw [cells_path_flatten]; simp; omega
  have hset : (((preText c ++ u).map some ++ (v ++ postText c).map some) ++ t :: junk').set
      (u.length + v.length + (preText c).length + (postText c).length) (some 0) =
      (cells { c with path := u ++ v }).flatten ++ some 0 :: junk' := by
    rw [hT, ← hTl, List.set_append_right _ _ (Nat.le_refl _)]; simp
  rw [hset]
  rw [hT] at hbl
  have htight : Tight env ⟨some ((cells { c with path := u ++ v }).flatten ++ some 0 :: junk'),
      u.length + v.length + (preText c).length + (postText c).length, st.cap, st.tick,
      ⟨(st.pt.resize id_path (st.pt.length2 id_path id_query - x.length)).off, Base.modSub env.sizeMax st.pt.nseg (x.count c!"/"),
        st.pt.nparam, st.pt.host⟩, st.addr, st.log⟩ { c with path := u ++ v } := by
    refine ⟨⟨hpt, by simp [cells, compParts, authTexts_length], .inr ⟨junk', rfl, ?_, by rw [hTl]; exact Nat.le_refl _, ?_⟩, hh.cap, .inr rfl⟩, rfl, ?_⟩
    · simpa using hbl
    · show u.length + v.length + (preText c).length + (postText c).length ≤ st.cap; omega
    · rw [render_eq]; simp; omega
  refine ⟨_, ?_, htight, rfl, rfl, rfl, rfl, rfl⟩
  refine run_bind_ret (run_assert_dbg fun _ => ?_)
  obtain ⟨rest, hm⟩ := htight.mem env.dbg
  have hb0 := byte_of hm
  have : (Components.render { c with path := u ++ v }).length = u.length + v.length + (preText c).length + (postText c).length := by
    rw [render_eq]; simp; omega
  rw [this] at hb0
  have he : ((⟨st.pt.off, Base.modSub env.sizeMax st.pt.nseg (x.count c!"/"), st.pt.nparam, st.pt.host⟩ : Parts).resize id_path
      ((⟨st.pt.off, Base.modSub env.sizeMax st.pt.nseg (x.count c!"/"), st.pt.nparam, st.pt.host⟩ : Parts).length2 id_path id_query - x.length)).off id_end =
      u.length + v.length + (preText c).length + (postText c).length := hend'
  simp only [St.obj] at hb0 ⊢
  rw [he]
  have hb1 : Obj.byte ⟨env.dbg, (⟨st.pt.off, Base.modSub env.sizeMax st.pt.nseg (x.count c!"/"), st.pt.nparam, st.pt.host⟩ : Parts).resize id_path
      ((⟨st.pt.off, Base.modSub env.sizeMax st.pt.nseg (x.count c!"/"), st.pt.nparam, st.pt.host⟩ : Parts).length2 id_path id_query - x.length),
      (some ((cells { c with path := u ++ v }).flatten ++ some 0 :: junk')).getD []⟩
      (u.length + v.length + (preText c).length + (postText c).length) = .ok 0 := hb0
  rw [hb1]
  rfl

/-! ### `insert` -/

theorem run_put {b : List Cell} {i : Nat} {s : Str} (hb : st.buf = some b) (hi : i + s.length ≤ b.length) :
    M.put i s env st = .ret () { st with buf := some (ow b i s) } := by
  unfold M.put
  cases s with
  | nil =>
    simp only [List.isEmpty_nil, if_true, ow, List.map_nil, List.append_nil, List.length_nil, Nat.add_zero, List.take_append_drop]
    rw [← hb]
  | cons c s =>
    simp only [List.isEmpty_cons, Bool.false_eq_true, if_false, hb]
    rw [if_pos hi]
    rfl

theorem put_run {c : Components} {t : Cell} {u v enc : Str} {k : Nat} (hh : Holds env st (cells c) t) (hp : c.path = u ++ v)
    (hd : env.dbg = true → st.size = c.render.length) :
    (¬ Stores env st (c.render.length + (enc.length + 1)) ∧
      Base.seg_put { off := (preText c).length + u.length, n := k } enc.length enc env st =
        .throw .bad_alloc { st with tick := st.tick + 1 }) ∨
    (Stores env st (c.render.length + (enc.length + 1)) ∧ env.dbg = true ∧ ¬ (st.buf.isSome = true ∧ t = some 0) ∧
      ∃ f, Base.seg_put { off := (preText c).length + u.length, n := k } enc.length enc env st = .fault f) ∨
    (Stores env st (c.render.length + (enc.length + 1)) ∧ ∃ st' t', (env.dbg = true → t' = some 0) ∧
      Base.seg_put { off := (preText c).length + u.length, n := k } enc.length enc env st =
        M.ask (fun o => Seg.parse id_query o { off := (preText c).length + u.length + (enc.length + 1), n := k }) env st' ∧
      Holds env st' (cells { c with path := u ++ (c!"/" :: enc) ++ v }) t' ∧ st'.buf.isSome = true ∧
      st'.size = c.render.length + (enc.length + 1) ∧ (st.buf.isSome = true → t = some 0 → t' = some 0) ∧ (st.buf = none → t' = none) ∧
      Grow env (c.render.length + (enc.length + 1)) st st' ∧ st'.pt.nparam = st.pt.nparam ∧ st'.pt.host = st.pt.host ∧
      st'.pt.nseg = Base.modAdd env.sizeMax st.pt.nseg 1) := by
  have hr : PtRep st.pt (compParts c) := ptRep_cells.1 hh.rep
  have hr' : ∀ dbg, PtRep (st.obj dbg).pt (compParts c) := fun _ => hr
  obtain ⟨e1, e2, e3⟩ := plen_parts c
  have hcr : c.render = preText c ++ (u ++ v) ++ postText c := by rw [← hp, ← render_eq c c.path]
  have hlen : c.render.length = (preText c).length + u.length + v.length + (postText c).length := by
    rw [hcr]; simp; omega
  have hpl : c.path.length = u.length + v.length := by rw [hp]; simp
  have hend : st.pt.off id_end = c.render.length := by rw [hh.off_end, cells_length]
  unfold Base.seg_put
  rw [run_bind_ret run_stored, run_bind_ret (run_assert_dbg fun hdbg => by simp [Url.size, St.obj, hend, hd hdbg]),
    run_bind_ret (run_assert_dbg fun _ => by rw [hr', e1]; simp),
    run_bind_ret (run_assert_dbg fun _ => by rw [hr', e2]; simp; omega), run_bind_ret run_pt]
  simp only [hend]
  by_cases hs : ¬ Stores env st (c.render.length + (enc.length + 1))
  · exact .inl ⟨hs, by rw [run_bind_throw (storage_resize_throw hs)]⟩
  have hs := Decidable.not_not.1 hs
  obtain ⟨st1, junk, t1, hrs, hz, hb, hl, ht, ht2, htm⟩ := storage_resize_of hh.buf hh.cap (by rw [cells_length]; omega) hs
  rw [run_bind_ret hrs, run_bind_ret (run_setPt _), run_bind_ret run_pt, hz.pt]
  -- the offsets
  have hlen2 : st.pt.length2 id_path id_query + (enc.length + 1) = (u ++ (c!"/" :: enc) ++ v).length := by
    unfold Parts.length2
    rw [hr, hr, e1, e2]; simp; omega
  have hpt : PtRep (st.pt.resize id_path (st.pt.length2 id_path id_query + (enc.length + 1)))
      (cells { c with path := u ++ (c!"/" :: enc) ++ v }) := by
    rw [cells_split, hlen2]
    refine PtRep.resize (x := c.path.map some) _ ?_ (prePath_length c).symm (by simp)
    rw [← cells_split]
    exact hh.rep
  have hend' : (st.pt.resize id_path (st.pt.length2 id_path id_query + (enc.length + 1))).off id_end =
      c.render.length + (enc.length + 1) := by
    rw [hpt, plen_of_le (by simp [cells, compParts, authTexts_length]), cells_path_flatten]; simp; omega
  simp only [hend']
  -- the move
  obtain ⟨y, junk', hy, hmv, hl'⟩ := move_up (env := env)
    (st := { st1 with pt := st.pt.resize id_path (st.pt.length2 id_path id_query + (enc.length + 1)) })
    (a := (preText c ++ u).map some) (x := []) (b := (v ++ postText c).map some) (k := enc.length + 1) hb
    (by rw [cells_flatten, hcr]; simp) (by rw [hl, cells_length]; have := hz.fits; omega)
  simp only [List.length_map, List.nil_append, List.length_append, List.length_nil, Nat.add_zero] at hmv
  rw [show c.render.length + (enc.length + 1) + ((preText c).length + u.length) - c.render.length =
      (preText c).length + u.length + (enc.length + 1) by omega,
    show c.render.length - ((preText c).length + u.length) + 1 = v.length + (postText c).length + 1 by omega, run_bind_ret hmv]
  have hbl : ((preText c ++ u).map some ++ y ++ (v ++ postText c).map some ++ t1 :: junk').length = st1.cap + 1 := by
    rw [← hl, ← hl']; simp
  have hix : ((preText c ++ u).map some ++ y ++ (v ++ postText c).map some).length = c.render.length + (enc.length + 1) := by
    simp [hy]; omega
  have hbyte : ∀ pt : Parts, (St.obj ⟨some ((preText c ++ u).map some ++ y ++ (v ++ postText c).map some ++ t1 :: junk'), st1.size, st1.cap,
      st1.tick, pt, st1.addr, st1.log⟩ env.dbg).mem[c.render.length + (enc.length + 1)]? = some t1 := by
    intro pt
    simp only [St.obj, Option.getD_some]
    rw [← hix, List.getElem?_append_right (Nat.le_refl _)]
    simp
  by_cases hA : ¬ (env.dbg = true → t1 = some 0)
  · have hA := Classical.not_imp.1 hA
    refine .inr (.inl ⟨hs, hA.1, fun hb => hA.2 ((ht hb.1).2 (.inl hb.2)), ?_⟩)
    have hmem := hbyte (st.pt.resize id_path (st.pt.length2 id_path id_query + (enc.length + 1)))
    rw [hA.1] at hmem
    rw [run_bind]
    have : ∃ f, M.assert (fun o => do return (← o.byte (o.pt.off id_end)) == 0) env
        ⟨some ((preText c ++ u).map some ++ y ++ (v ++ postText c).map some ++ t1 :: junk'), st1.size, st1.cap, st1.tick,
          st.pt.resize id_path (st.pt.length2 id_path id_query + (enc.length + 1)), st1.addr, st1.log⟩ = .fault f := by
      unfold M.assert M.ask
      have hd1 : ∀ s : St, (s.obj true).dbg = true := fun _ => rfl
      have hoff : ∀ (b : Option (List Cell)) (x y z a : Nat) (l : List Event), ((St.mk b x y z (st.pt.resize id_path (st.pt.length2 id_path id_query + (enc.length + 1))) a l).obj true).pt.off id_end =
        c.render.length + (enc.length + 1) := fun _ _ _ _ _ _ => hend'
      rw [hA.1]
      simp only [Obj.assert, hd1, if_true, hoff, Obj.byte, hmem]
      cases t1 with
      | none => exact ⟨.ub, rfl⟩
      | some d =>
        have : (d == 0) = false := by
          rw [beq_eq_false_iff_ne]
          intro h
          exact hA.2 (by rw [h])
        simp only [bind, Except.bind, pure, Except.pure, this]
        exact ⟨_, rfl⟩
    obtain ⟨f, hf⟩ := this
    rw [hf]
    exact ⟨f, rfl⟩
  have hA := Classical.not_not.1 hA
  refine .inr (.inr ⟨hs, ?_⟩)
  rw [run_bind_ret (run_assert_dbg fun hdbg => by
    have hmem := hbyte (st.pt.resize id_path (st.pt.length2 id_path id_query + (enc.length + 1)))
    have hoff : ∀ (b : Option (List Cell)) (x y z a : Nat) (l : List Event), ((St.mk b x y z (st.pt.resize id_path (st.pt.length2 id_path id_query + (enc.length + 1))) a l).obj env.dbg).pt.off id_end =
        c.render.length + (enc.length + 1) := fun _ _ _ _ _ _ => hend'
    rw [hA hdbg] at hmem
    simp only [Obj.byte, hoff, hA hdbg, hmem]
    rfl)]
  have hyl : y.length = 1 + enc.length := by omega
  -- the writes
  have w1 : ow ((preText c ++ u).map some ++ y ++ (v ++ postText c).map some ++ t1 :: junk') ((preText c).length + u.length) b!"/" =
      (preText c ++ u).map some ++ ow (y ++ ((v ++ postText c).map some ++ t1 :: junk')) 0 b!"/" := by
    have := ow_right ((preText c ++ u).map some) (y ++ ((v ++ postText c).map some ++ t1 :: junk')) 0 b!"/"
    simpa using this
  obtain ⟨y0, ys, rfl⟩ : ∃ y0 ys, y = y0 :: ys := List.exists_cons_of_ne_nil (by intro h; rw [h] at hyl; simp at hyl; omega)
  have hys : ys.length = enc.length := by simp at hyl; omega
  have w2 : ow (((y0 :: ys) ++ ((v ++ postText c).map some ++ t1 :: junk'))) 0 b!"/" =
      some c!"/" :: (ys ++ ((v ++ postText c).map some ++ t1 :: junk')) := by
    simp [ow]
  have w3 : ow ((preText c ++ u).map some ++ some c!"/" :: (ys ++ ((v ++ postText c).map some ++ t1 :: junk')))
      ((preText c).length + u.length + 1) enc =
      (cells { c with path := u ++ (c!"/" :: enc) ++ v }).flatten ++ t1 :: junk' := by
    have := ow_right ((preText c ++ u).map some ++ [some c!"/"]) (ys ++ ((v ++ postText c).map some ++ t1 :: junk')) 0 enc
    rw [ow_left hys] at this
    rw [cells_path_flatten]
    simpa [Nat.add_assoc] using this
  rw [w2] at w1
  have hbl1 : ((preText c ++ u).map some ++ some c!"/" :: (ys ++ ((v ++ postText c).map some ++ t1 :: junk'))).length = st1.cap + 1 := by
    rw [← hbl]; simp
  have hp1 : ∀ pt : Parts, M.put ((preText c).length + u.length) b!"/" env
      ⟨some ((preText c ++ u).map some ++ (y0 :: ys) ++ (v ++ postText c).map some ++ t1 :: junk'), st1.size, st1.cap, st1.tick, pt, st1.addr, st1.log⟩ =
      .ret () ⟨some ((preText c ++ u).map some ++ some c!"/" :: (ys ++ ((v ++ postText c).map some ++ t1 :: junk'))),
        st1.size, st1.cap, st1.tick, pt, st1.addr, st1.log⟩ := fun pt => by
    rw [run_put rfl (by rw [hbl]; have := hz.fits; simp; omega), w1]
  have hp2 : ∀ pt : Parts, M.put ((preText c).length + u.length + 1) enc env
      ⟨some ((preText c ++ u).map some ++ some c!"/" :: (ys ++ ((v ++ postText c).map some ++ t1 :: junk'))),
        st1.size, st1.cap, st1.tick, pt, st1.addr, st1.log⟩ =
      .ret () ⟨some ((cells { c with path := u ++ (c!"/" :: enc) ++ v }).flatten ++ t1 :: junk'), st1.size, st1.cap, st1.tick, pt, st1.addr, st1.log⟩ := fun pt => by
    rw [run_put rfl (by rw [hbl1]; have := hz.fits; omega), w3]
  rw [run_bind_ret (hp1 _), run_bind_ret (hp2 _), run_bind_ret (a := env.sizeMax) rfl, run_bind_ret (run_setPt _)]
  have hTl : (cells { c with path := u ++ (c!"/" :: enc) ++ v }).flatten.length = c.render.length + (enc.length + 1) := by
    rw [cells_path_flatten]; simp; omega
  refine ⟨_, t1, hA, rfl, ⟨hpt, by simp [cells, compParts, authTexts_length], .inr ⟨junk', rfl, ?_, ?_, ?_⟩, hz.cap, htm hh.term⟩, rfl, hz.size, fun h1 h2 => (ht h1).2 (.inl h2), ht2,
    hz.grow, ?_, ?_, ?_⟩
  · show _ = st1.cap + 1
    rw [← hbl, List.length_append, hTl, List.length_append, hix]
  · show _ ≤ st1.size
    rw [hTl, hz.size]; exact Nat.le_refl _
  · show st1.size ≤ st1.cap
    rw [hz.size]; exact hz.fits
  · rfl
  · rfl
  · rfl

/-- What an edit of the path leaves behind. -/
structure SegEdited (env : Env) (st : St) (c' : Components) (nseg : Nat) (st' : St) : Prop where
  tight : Tight env st' c'
  nseg : st'.pt.nseg = nseg
  nparam : st'.pt.nparam = st.pt.nparam
  host : st'.pt.host = st.pt.host

/-- the iterator between `u` and `v` -/
def midIt (c : Components) (u v : Str) : SegIt := { off := (preText c).length + u.length, n := ((pieces v).head?.getD []).length }

theorem posIt_eq {c : Components} {p : Str} {k : Nat} {P Q : List Str} (h : pieces p = P ++ Q) (hk : P.length = k) :
    posIt (preText c) p k = { off := (preText c).length + P.flatten.length, n := (Q.head?.getD []).length } := by
  subst hk
  simp [posIt, h]

/-- `erase(first, last)` -/
theorem erase_mid {c : Components} {u x v : Str} {k k' : Nat} (h : Rep env st c) (hp : c.path = u ++ x ++ v) (hx : x ≠ [])
    (hc : x.count c!"/" ≤ Base.intMax)
    (hd : env.dbg = true → st.size = c.render.length ∧ 0 < x.count c!"/" ∧ x.count c!"/" ≤ st.pt.nseg ∧ (v ≠ [] ∨ c.query ≠ none)) :
    ∃ st', Base.seg_erase_range { off := (preText c).length + u.length, n := k }
        { off := (preText c).length + u.length + x.length, n := k' } env st = .ret (midIt c u v) st' ∧
      SegEdited env st { c with path := u ++ v } (Base.modSub env.sizeMax st.pt.nseg (x.count c!"/")) st' ∧
      st'.cap = st.cap ∧ st'.tick = st.tick := by
  obtain ⟨st', h1, h2, h3, h4, h5, h6, h7⟩ := erase_run (k := k) (k' := k') h hp hx hc
    (fun hdbg => ⟨(hd hdbg).1, (hd hdbg).2.1, (hd hdbg).2.2.1⟩)
  refine ⟨st', ?_, ⟨h2, h7, h5, h6⟩, h3, h4⟩
  rw [h1]
  exact run_ask (h2.parse rfl fun hdbg => (hd hdbg).2.2.2)

/-- the common part of `insert` and `insert_encoded` -/
theorem insert_mid {c : Components} {u v enc : Str} {k : Nat} (h : Rep env st c) (hn : Nul st) (hp : c.path = u ++ v)
    (hd : env.dbg = true → st.size = c.render.length ∧ (v ≠ [] ∨ c.query ≠ none)) :
    (¬ Stores env st (c.render.length + (enc.length + 1)) ∧
      Base.seg_put { off := (preText c).length + u.length, n := k } enc.length enc env st =
        .throw .bad_alloc { st with tick := st.tick + 1 }) ∨
    (Stores env st (c.render.length + (enc.length + 1)) ∧ ∃ st',
      Base.seg_put { off := (preText c).length + u.length, n := k } enc.length enc env st = .ret (midIt c (u ++ (c!"/" :: enc)) v) st' ∧
      SegEdited env st { c with path := u ++ (c!"/" :: enc) ++ v } (Base.modAdd env.sizeMax st.pt.nseg 1) st' ∧
      Grow env (c.render.length + (enc.length + 1)) st st') := by
  obtain ⟨t, hh⟩ := h
  have hb := hh.nul_iff.1 hn
  rcases put_run (enc := enc) (k := k) hh hp (fun hdbg => (hd hdbg).1) with h | ⟨-, -, h, -⟩ | ⟨hs, st', t', -, h1, h2, h3, h4, h5, -, h7, h8, h9, h10⟩
  · exact .inl h
  · exact absurd hb h
  · have ht : Tight env st' { c with path := u ++ (c!"/" :: enc) ++ v } := by
      rw [h5 hb.1 hb.2] at h2
      refine ⟨h2, h3, ?_⟩
      have hcr : c.render = preText c ++ (u ++ v) ++ postText c := by rw [← hp, ← render_eq c c.path]
      rw [h4, hcr, render_eq]
      simp; omega
    refine .inr ⟨hs, st', ?_, ⟨ht, h10, h8, h9⟩, h7⟩
    rw [h1]
    have := ht.parse (u := u ++ (c!"/" :: enc)) (v := v) rfl (n := k) fun hdbg => (hd hdbg).2
    refine run_ask ?_
    have e : (preText { c with path := u ++ (c!"/" :: enc) ++ v }).length + (u ++ (c!"/" :: enc)).length =
        (preText c).length + u.length + (enc.length + 1) := by
      simp [preText]; omega
    rw [e] at this
    rw [this, midIt]
    simp; omega

/-! ### `replace` -/

/-- the common part of `replace` and `replace_encoded` -/
theorem replace_mid {c : Components} {u x v enc : Str} {ins : SegIt → M SegIt} (h : Rep env st c) (hp : c.path = u ++ x ++ v) (hx : x ≠ [])
    (hc : x.count c!"/" ≤ Base.intMax)
    (hnext : ∀ st, Rep env st c → Seg.next id_query (st.obj env.dbg) { off := (preText c).length + u.length, n := x.length } =
      .ok { off := (preText c).length + u.length + x.length, n := ((pieces v).head?.getD []).length })
    (hins : ∀ it st, ins it env st = Base.seg_put it enc.length enc env st)
    (hd : env.dbg = true → st.size = c.render.length ∧ 0 < x.count c!"/" ∧ x.count c!"/" ≤ st.pt.nseg ∧ (v ≠ [] ∨ c.query ≠ none)) :
    (x.length < enc.length + 1 ∧ ¬ Stores env st (st.size + (enc.length + 1) - x.length) ∧
      Base.seg_swap { off := (preText c).length + u.length, n := x.length } enc.length ins env st =
        .throw .bad_alloc { st with tick := st.tick + 1 }) ∨
    ((x.length < enc.length + 1 → Stores env st (st.size + (enc.length + 1) - x.length)) ∧ ∃ st',
      Base.seg_swap { off := (preText c).length + u.length, n := x.length } enc.length ins env st =
        .ret (midIt c (u ++ (c!"/" :: enc)) v) st' ∧
      SegEdited env st { c with path := u ++ (c!"/" :: enc) ++ v } (Base.modAdd env.sizeMax (Base.modSub env.sizeMax st.pt.nseg (x.count c!"/")) 1) st' ∧
      Grow env (if x.length < enc.length + 1 then st.size + (enc.length + 1) - x.length else 0) st st') := by
  have hxl : 0 < x.length := List.length_pos_iff.2 hx
  have hcr : c.render = preText c ++ (u ++ x ++ v) ++ postText c := by rw [← hp, ← render_eq c c.path]
  have hlen : c.render.length = (preText c).length + u.length + x.length + v.length + (postText c).length := by
    rw [hcr]; simp; omega
  have hsz : c.render.length ≤ st.size ∧ st.buf.isSome = true := by
    obtain ⟨t, hh⟩ := h
    rcases hh.buf with ⟨-, h2, -⟩ | ⟨junk, hb, -, h1, -⟩
    · have := congrArg List.length h2
      rw [cells_length, hlen] at this
      simp only [List.length_nil] at this; omega
    · rw [cells_length] at h1
      exact ⟨h1, by rw [hb]; rfl⟩
  have hend : st.pt.off id_end = c.render.length := by
    obtain ⟨t, hh⟩ := h
    rw [hh.off_end, cells_length]
  -- after the reservation
  have key : ∀ st1, Rep env st1 c → st1.pt = st.pt → st1.size = st.size → c.render.length - x.length + (enc.length + 1) ≤ st1.cap →
      ∃ st', (do
          let cap ← M.capacity
          let r ← ins (← Base.seg_erase { off := (preText c).length + u.length, n := x.length })
          let cap' ← M.capacity
          M.assert fun _ => .ok (cap' = cap)
          return r : M SegIt) env st1 = .ret (midIt c (u ++ (c!"/" :: enc)) v) st' ∧
        SegEdited env st { c with path := u ++ (c!"/" :: enc) ++ v } (Base.modAdd env.sizeMax (Base.modSub env.sizeMax st.pt.nseg (x.count c!"/")) 1) st' ∧
        st'.cap = st1.cap ∧ st'.tick = st1.tick := by
    intro st1 h1 hpt hsize hcap
    obtain ⟨st2, e1, e2, e3, e4⟩ := erase_mid (k := x.length) (k' := ((pieces v).head?.getD []).length) h1 hp hx hc
      (fun hdbg => by rw [hpt, hsize]; exact hd hdbg)
    have hlen2 : (Components.render { c with path := u ++ v }).length = c.render.length - x.length := by
      rw [render_eq]; simp; omega
    have hst : Stores env st2 ((Components.render { c with path := u ++ v }).length + (enc.length + 1)) :=
      .inl (by rw [hlen2, e3]; exact hcap)
    have hm := insert_mid (enc := enc) (u := u) (v := v) (k := ((pieces v).head?.getD []).length) e2.tight.rep e2.tight.nul rfl
      (fun hdbg => ⟨e2.tight.size, (hd hdbg).2.2.2⟩)
    rcases hm with ⟨h, -⟩ | ⟨-, st3, f1, f2, f3⟩
    · exact absurd hst h
    · have hcap3 : st3.cap = st2.cap ∧ st3.tick = st2.tick := by
        rcases f3 with ⟨-, g1, g2⟩ | ⟨g0, -⟩
        · exact ⟨g1, g2⟩
        · rw [hlen2, e3] at g0; omega
      refine ⟨st3, ?_, ⟨f2.tight, ?_, ?_, ?_⟩, by rw [hcap3.1, e3], by rw [hcap3.2, e4]⟩
      · rw [run_bind_ret run_capacity]
        have hE : Base.seg_erase { off := (preText c).length + u.length, n := x.length } env st1 = .ret (midIt c u v) st2 := by
          unfold Base.seg_erase
          rw [run_bind_ret (run_ask (hnext _ h1)), e1]
        have f1' : ins (midIt c u v) env st2 = .ret (midIt c (u ++ (c!"/" :: enc)) v) st3 := by
          rw [hins]; exact f1
        rw [run_bind_ret hE, run_bind_ret f1', run_bind_ret run_capacity,
          run_bind_ret (run_assert_dbg fun _ => by simp [hcap3.1, e3]), run_pure]
      · rw [f2.nseg, e2.nseg, hpt]
      · rw [f2.nparam, e2.nparam, hpt]
      · rw [f2.host, e2.host, hpt]
  unfold Base.seg_swap
  rw [run_bind_ret run_stored, run_bind_ret (run_assert_dbg fun hdbg => by simp [Url.size, St.obj, hend, (hd hdbg).1])]
  by_cases hlt : x.length < enc.length + 1
  · simp only [if_pos hlt]
    rw [run_bind_ret run_stored]
    by_cases hs : Stores env st (st.size + (enc.length + 1) - x.length)
    · obtain ⟨t, hh⟩ := h
      obtain ⟨st1, t1, r1, r2, r3, r4, r5, r6, r7, r8, -, htm⟩ := storage_reserve_of hh.buf hh.cap hsz.2 hs
      obtain ⟨st', k1, k2, k3, k4⟩ := key st1 ⟨t1, by rw [r2]; exact hh.rep, hh.len, r5, r6, htm hh.term⟩ r2 r3 (by omega)
      rw [run_bind_ret r1]
      refine .inr ⟨fun _ => hs, st', k1, k2, ?_⟩
      unfold Grow at r8 ⊢
      rw [k3, k4]
      exact r8
    · rw [run_bind_throw (storage_reserve_throw hs)]
      exact .inl ⟨hlt, hs, rfl⟩
  · simp only [if_neg hlt]
    obtain ⟨st', k1, k2, k3, k4⟩ := key st h rfl rfl (by
      obtain ⟨t, hh⟩ := h
      rcases hh.buf with ⟨h1, -⟩ | ⟨junk, hb, -, -, h2⟩
      · rw [h1] at hsz; cases hsz.2
      · omega)
    refine .inr ⟨fun h => absurd h hlt, st', ?_, k2, .inl ⟨by omega, k3, k4⟩⟩
    exact k1

/-! ### failing assertions -/

theorem assert_fault {p : Obj → R Bool} (hdbg : env.dbg = true) (h : p (st.obj env.dbg) ≠ .ok true) : ∃ f, M.assert p env st = .fault f := by
  have hd : (st.obj env.dbg).dbg = true := hdbg
  unfold M.assert M.ask Obj.assert
  simp only [hd, if_true]
  cases hp : p (st.obj env.dbg) with
  | error e => exact ⟨e, rfl⟩
  | ok b =>
    cases b with
    | true => exact absurd hp h
    | false => exact ⟨.assert, rfl⟩

theorem ask_fault {α : Type} {f : Obj → R α} {e : Flt} (h : f (st.obj env.dbg) = .error e) : M.ask f env st = .fault e := by
  simp only [M.ask, h]

theorem bind_fault {α β : Type} {m : M α} {f : α → M β} (h : ∃ e, m env st = .fault e) : ∃ e, (m >>= f) env st = .fault e := by
  obtain ⟨e, h⟩ := h
  exact ⟨e, by rw [run_bind, h]⟩

theorem erase_fault {c : Components} {u x v : Str} {k k' : Nat} (h : Rep env st c) (hp : c.path = u ++ x ++ v) (hx : x ≠ [])
    (hc : x.count c!"/" ≤ Base.intMax) (hdbg : env.dbg = true)
    (hd : ¬ (st.size = c.render.length ∧ 0 < x.count c!"/" ∧ x.count c!"/" ≤ st.pt.nseg)) :
    ∃ f, Base.seg_erase_range { off := (preText c).length + u.length, n := k }
        { off := (preText c).length + u.length + x.length, n := k' } env st = .fault f := by
  have hr : ∀ dbg, PtRep (st.obj dbg).pt (compParts c) := fun dbg => (h.obj dbg).rep
  obtain ⟨e1, e2, e3⟩ := plen_parts c
  have hxl : 0 < x.length := List.length_pos_iff.2 hx
  have hpl : c.path.length = u.length + x.length + v.length := by rw [hp]; simp; omega
  have hread : (st.obj env.dbg).read ((preText c).length + u.length) x.length = .ok x := by
    obtain ⟨rest, hm⟩ := (h.obj env.dbg).mem
    have hcr : c.render = preText c ++ (u ++ x ++ v) ++ postText c := by rw [← hp, ← render_eq c c.path]
    have := read_of (o := st.obj env.dbg) (A := preText c ++ u) (B := x) (rest := v.map some ++ ((postText c).map some ++ rest)) (by
      rw [hm, compParts_flatten, hcr]; simp)
    simpa using this
  obtain ⟨t, hh⟩ := h
  have hend : st.pt.off id_end = c.render.length := by rw [hh.off_end, cells_length]
  unfold Base.seg_erase_range
  rw [run_bind_ret run_stored]
  by_cases h1 : ¬ st.size = c.render.length
  · exact bind_fault (assert_fault hdbg (by simp [Url.size, St.obj, hend]; omega))
  have h1 := Decidable.not_not.1 h1
  rw [run_bind_ret (run_assert_dbg fun hdbg => by simp [Url.size, St.obj, hend, h1]),
    run_bind_ret (run_assert_dbg fun _ => by rw [hr, e1]; simp),
    run_bind_ret (run_assert_dbg fun _ => by rw [hr, e1]; simp; omega),
    run_bind_ret (run_assert_dbg fun _ => by rw [hr, e2]; simp; omega),
    run_bind_ret (run_assert_dbg fun _ => by rw [hr, e2]; simp; omega), run_ite, if_neg (by simp)]
  simp only [Nat.add_sub_cancel_left, run_ite, if_neg (show ¬ x.length = 0 by omega)]
  rw [run_bind_ret (run_ask hread), run_ite, if_neg (by omega)]
  by_cases h2 : ¬ 0 < x.count c!"/"
  · exact bind_fault (assert_fault hdbg (by simp only [ne_eq, Except.ok.injEq, decide_eq_true_eq]; exact h2))
  have h2 := Decidable.not_not.1 h2
  rw [run_bind_ret (run_assert_dbg fun hdbg => by simp only [Except.ok.injEq, decide_eq_true_eq]; exact h2)]
  exact bind_fault (assert_fault hdbg (by
    simp only [ne_eq, Except.ok.injEq, decide_eq_true_eq]
    intro h3
    exact hd ⟨h1, h2, h3⟩))

theorem parse_fault {c : Components} {u : Str} {n : Nat} (h : Rep env st c) (hp : c.path = u) (hq : c.query = none) (hdbg : env.dbg = true) :
    Seg.parse id_query (st.obj env.dbg) { off := (preText c).length + u.length, n := n } = .error .assert := by
  have hr := (h.obj env.dbg).rep
  obtain ⟨-, e2, e3⟩ := plen_parts c
  have hd : (st.obj env.dbg).dbg = true := hdbg
  unfold Seg.parse
  have : (st.obj env.dbg).pt.off id_frag = (preText c).length + u.length := by
    rw [hr, e3, hp, hq]; simp [queryText]
  rw [this]
  simp [Obj.assert, hd, bind, Except.bind]

theorem parse_off {lim : Nat} {o : Obj} {it it' : SegIt} (h : Seg.parse lim o it = .ok it') : it'.off = it.off := by
  unfold Seg.parse at h
  simp only [bind, Except.bind, pure, Except.pure] at h
  split at h
  · cases h
  · split at h
    · cases h
    · split at h
      · cases h
      · cases h; rfl

/-- what `erase(first, last)` asserts -/
def EraseDbg (st : St) (c : Components) (x v : Str) : Prop :=
  st.size = c.render.length ∧ 0 < x.count c!"/" ∧ x.count c!"/" ≤ st.pt.nseg ∧ (v ≠ [] ∨ c.query ≠ none)

/-- all outcomes of `erase(first, last)` -/
theorem erase_total {c : Components} {u x v : Str} {k k' : Nat} (h : Rep env st c) (hp : c.path = u ++ x ++ v) (hx : x ≠ [])
    (hc : x.count c!"/" ≤ Base.intMax) :
    (∃ f, Base.seg_erase_range { off := (preText c).length + u.length, n := k }
        { off := (preText c).length + u.length + x.length, n := k' } env st = .fault f ∧ env.dbg = true ∧ ¬ EraseDbg st c x v) ∨
    (∃ st', Base.seg_erase_range { off := (preText c).length + u.length, n := k }
        { off := (preText c).length + u.length + x.length, n := k' } env st = .ret (midIt c u v) st' ∧
      (env.dbg = true → EraseDbg st c x v) ∧
      SegEdited env st { c with path := u ++ v } (Base.modSub env.sizeMax st.pt.nseg (x.count c!"/")) st' ∧
      st'.cap = st.cap ∧ st'.tick = st.tick) := by
  by_cases hd : env.dbg = true → EraseDbg st c x v
  · obtain ⟨st', h⟩ := erase_mid (k := k) (k' := k') h hp hx hc hd
    exact .inr ⟨st', h.1, hd, h.2⟩
  · obtain ⟨hdbg, hd⟩ := Classical.not_imp.1 hd
    left
    by_cases h1 : st.size = c.render.length ∧ 0 < x.count c!"/" ∧ x.count c!"/" ≤ st.pt.nseg
    · obtain ⟨st', e1, h2, -⟩ := erase_run (k := k) (k' := k') h hp hx hc (fun _ => h1)
      have hv : v = [] := Classical.byContradiction fun hv => hd ⟨h1.1, h1.2.1, h1.2.2, .inl hv⟩
      have hq : c.query = none := Classical.byContradiction fun hv => hd ⟨h1.1, h1.2.1, h1.2.2, .inr hv⟩
      refine ⟨.assert, ?_, hdbg, hd⟩
      rw [e1]
      have hf := parse_fault (u := u) (n := k) h2.rep (by rw [hv]; simp) hq hdbg
      exact ask_fault hf
    · obtain ⟨f, hf⟩ := erase_fault (k := k) (k' := k') h hp hx hc hdbg h1
      exact ⟨f, hf, hdbg, hd⟩

/-- what inserting between `u` and `v` asserts -/
def PutDbg (st : St) (c : Components) (v : Str) : Prop := st.size = c.render.length ∧ (v ≠ [] ∨ c.query ≠ none)

theorem put_fault {c : Components} {u enc : Str} {k : Nat} (h : Rep env st c) (hdbg : env.dbg = true)
    (hd : st.size ≠ c.render.length) :
    ∃ f, Base.seg_put { off := (preText c).length + u.length, n := k } enc.length enc env st = .fault f := by
  obtain ⟨t, hh⟩ := h
  have hend : st.pt.off id_end = c.render.length := by rw [hh.off_end, cells_length]
  unfold Base.seg_put
  rw [run_bind_ret run_stored]
  exact bind_fault (assert_fault hdbg (by simp [Url.size, St.obj, hend]; omega))

/-- all outcomes of inserting between `u` and `v` -/
theorem insert_total {c : Components} {u v enc : Str} {k : Nat} (h : Rep env st c) (hp : c.path = u ++ v) :
    (∃ f, Base.seg_put { off := (preText c).length + u.length, n := k } enc.length enc env st = .fault f ∧
      ¬ (Nul st ∧ (env.dbg = true → PutDbg st c v))) ∨
    (¬ Stores env st (c.render.length + (enc.length + 1)) ∧
      Base.seg_put { off := (preText c).length + u.length, n := k } enc.length enc env st =
        .throw .bad_alloc { st with tick := st.tick + 1 }) ∨
    (Stores env st (c.render.length + (enc.length + 1)) ∧ ∃ it st',
      Base.seg_put { off := (preText c).length + u.length, n := k } enc.length enc env st = .ret it st' ∧
      (env.dbg = true → PutDbg st c v) ∧ it.off = (midIt c (u ++ (c!"/" :: enc)) v).off ∧
      (Nul st → it = midIt c (u ++ (c!"/" :: enc)) v ∧ Nul st') ∧
      Rep env st' { c with path := u ++ (c!"/" :: enc) ++ v } ∧ st'.buf.isSome = true ∧
      st'.size = (Components.render { c with path := u ++ (c!"/" :: enc) ++ v }).length ∧
      st'.pt.nseg = Base.modAdd env.sizeMax st.pt.nseg 1 ∧ st'.pt.nparam = st.pt.nparam ∧ st'.pt.host = st.pt.host ∧
      Grow env (c.render.length + (enc.length + 1)) st st') := by
  by_cases hsz : ¬ (env.dbg = true → st.size = c.render.length)
  · obtain ⟨hdbg, hd⟩ := Classical.not_imp.1 hsz
    obtain ⟨f, hf⟩ := put_fault (u := u) (enc := enc) (k := k) h hdbg hd
    exact .inl ⟨f, hf, fun hc => hd (hc.2 hdbg).1⟩
  have hsz := Classical.not_not.1 hsz
  obtain ⟨t, hh⟩ := h
  have hlen : (Components.render { c with path := u ++ (c!"/" :: enc) ++ v }).length = c.render.length + (enc.length + 1) := by
    have hcr : c.render = preText c ++ (u ++ v) ++ postText c := by rw [← hp, ← render_eq c c.path]
    rw [hcr, render_eq]
    simp; omega
  have hpre : preText { c with path := u ++ (c!"/" :: enc) ++ v } = preText c := rfl
  rcases put_run (enc := enc) (k := k) hh hp hsz with h | ⟨-, -, hn, f, hf⟩ | ⟨hs, st', t', ht', h1, h2, h3, h4, h5, -, h7, h8, h9, h10⟩
  · exact .inr (.inl h)
  · exact .inl ⟨f, hf, fun hc => hn (hh.nul_iff.1 hc.1)⟩
  · have e : (preText c).length + u.length + (enc.length + 1) = (preText c).length + (u ++ (c!"/" :: enc)).length := by
      simp; omega
    rw [e] at h1
    by_cases hdbg : ¬ (env.dbg = true → v ≠ [] ∨ c.query ≠ none)
    · obtain ⟨hdbg, hd⟩ := Classical.not_imp.1 hdbg
      left
      have hv : v = [] := Classical.byContradiction fun hv => hd (.inl hv)
      have hq : c.query = none := Classical.byContradiction fun hv => hd (.inr hv)
      have hf := parse_fault (u := u ++ (c!"/" :: enc)) (n := k) (c := { c with path := u ++ (c!"/" :: enc) ++ v }) ⟨t', h2⟩
        (by rw [hv]; simp) hq hdbg
      exact ⟨_, by rw [h1]; exact ask_fault hf, fun hc => hd (hc.2 hdbg).2⟩
    have hdbg := Classical.not_not.1 hdbg
    have hgood : Nul st → t' = some 0 ∧ Seg.parse id_query (st'.obj env.dbg) { off := (preText c).length + (u ++ (c!"/" :: enc)).length, n := k } =
        .ok (midIt c (u ++ (c!"/" :: enc)) v) := by
      intro hn
      have hb := hh.nul_iff.1 hn
      have ht0 := h5 hb.1 hb.2
      rw [ht0] at h2
      have ht : Tight env st' { c with path := u ++ (c!"/" :: enc) ++ v } := ⟨h2, h3, by rw [h4, hlen]⟩
      exact ⟨ht0, ht.parse (u := u ++ (c!"/" :: enc)) (v := v) rfl (n := k) hdbg⟩
    cases hpar : Seg.parse id_query (st'.obj env.dbg) { off := (preText c).length + (u ++ (c!"/" :: enc)).length, n := k } with
    | error f =>
      left
      refine ⟨f, by rw [h1]; exact ask_fault hpar, fun hc => ?_⟩
      have := (hgood hc.1).2
      rw [hpar] at this
      cases this
    | ok it =>
      refine .inr (.inr ⟨hs, it, st', by rw [h1]; exact run_ask hpar, fun hd => ⟨hsz hd, hdbg hd⟩, parse_off hpar, ?_, ⟨t', h2⟩, h3,
        by rw [h4, hlen], h10, h8, h9, h7⟩)
      intro hn
      obtain ⟨g1, g2⟩ := hgood hn
      rw [hpar] at g2
      cases g2
      exact ⟨rfl, h2.nul_iff.2 ⟨h3, g1⟩⟩

theorem swap_size_fault {c : Components} {pos : SegIt} {n : Nat} {ins : SegIt → M SegIt} (h : Rep env st c) (hdbg : env.dbg = true)
    (hd : st.size ≠ c.render.length) : ∃ f, Base.seg_swap pos n ins env st = .fault f := by
  obtain ⟨t, hh⟩ := h
  have hend : st.pt.off id_end = c.render.length := by rw [hh.off_end, cells_length]
  unfold Base.seg_swap
  rw [run_bind_ret run_stored]
  exact bind_fault (assert_fault hdbg (by simp [Url.size, St.obj, hend]; omega))

/-- all outcomes of replacing `x` -/
theorem replace_total {c : Components} {u x v enc : Str} {ins : SegIt → M SegIt} (h : Rep env st c) (hp : c.path = u ++ x ++ v) (hx : x ≠ [])
    (hc : x.count c!"/" ≤ Base.intMax)
    (hnext : ∀ st, Rep env st c → Seg.next id_query (st.obj env.dbg) { off := (preText c).length + u.length, n := x.length } =
      .ok { off := (preText c).length + u.length + x.length, n := ((pieces v).head?.getD []).length })
    (hins : ∀ it st, ins it env st = Base.seg_put it enc.length enc env st) :
    (∃ f, Base.seg_swap { off := (preText c).length + u.length, n := x.length } enc.length ins env st = .fault f ∧
      env.dbg = true ∧ ¬ EraseDbg st c x v) ∨
    (x.length < enc.length + 1 ∧ ¬ Stores env st (st.size + (enc.length + 1) - x.length) ∧
      Base.seg_swap { off := (preText c).length + u.length, n := x.length } enc.length ins env st =
        .throw .bad_alloc { st with tick := st.tick + 1 }) ∨
    ((x.length < enc.length + 1 → Stores env st (st.size + (enc.length + 1) - x.length)) ∧ ∃ st',
      Base.seg_swap { off := (preText c).length + u.length, n := x.length } enc.length ins env st =
        .ret (midIt c (u ++ (c!"/" :: enc)) v) st' ∧ (env.dbg = true → EraseDbg st c x v) ∧
      SegEdited env st { c with path := u ++ (c!"/" :: enc) ++ v } (Base.modAdd env.sizeMax (Base.modSub env.sizeMax st.pt.nseg (x.count c!"/")) 1) st' ∧
      Grow env (if x.length < enc.length + 1 then st.size + (enc.length + 1) - x.length else 0) st st') := by
  by_cases hd : env.dbg = true → EraseDbg st c x v
  · rcases replace_mid h hp hx hc hnext hins hd with h | ⟨h1, st', h2, h3⟩
    · exact .inr (.inl h)
    · exact .inr (.inr ⟨h1, st', h2, hd, h3⟩)
  obtain ⟨hdbg, hd⟩ := Classical.not_imp.1 hd
  by_cases hsz : ¬ st.size = c.render.length
  · obtain ⟨f, hf⟩ := swap_size_fault (pos := { off := (preText c).length + u.length, n := x.length }) (n := enc.length) (ins := ins) h hdbg hsz
    exact .inl ⟨f, hf, hdbg, hd⟩
  have hsz := Classical.not_not.1 hsz
  have hbuf : st.buf.isSome = true := by
    obtain ⟨t, hh⟩ := h
    rcases hh.buf with ⟨-, h2, -⟩ | ⟨junk, hb, -⟩
    · have := congrArg List.length h2
      rw [cells_length] at this
      have hcr : c.render = preText c ++ (u ++ x ++ v) ++ postText c := by rw [← hp, ← render_eq c c.path]
      have hxl : 0 < x.length := List.length_pos_iff.2 hx
      rw [hcr] at this
      simp only [List.length_append, List.length_nil] at this; omega
    · rw [hb]; rfl
  have key : ∀ st1, Rep env st1 c → st1.pt = st.pt → st1.size = st.size → ∃ f, (do
          let cap ← M.capacity
          let r ← ins (← Base.seg_erase { off := (preText c).length + u.length, n := x.length })
          let cap' ← M.capacity
          M.assert fun _ => .ok (cap' = cap)
          return r : M SegIt) env st1 = .fault f := by
    intro st1 h1 hpt hs1
    rw [run_bind_ret run_capacity]
    refine bind_fault ?_
    unfold Base.seg_erase
    rw [run_bind_ret (run_ask (hnext _ h1))]
    rcases erase_total (k := x.length) (k' := ((pieces v).head?.getD []).length) h1 hp hx hc with ⟨f, hf, -⟩ | ⟨st', -, hr, -⟩
    · exact ⟨f, hf⟩
    · refine absurd (hr hdbg) ?_
      unfold EraseDbg at hd ⊢
      rw [hs1, hpt]
      exact hd
  have hend : st.pt.off id_end = c.render.length := by
    obtain ⟨t, hh⟩ := h
    rw [hh.off_end, cells_length]
  unfold Base.seg_swap
  rw [run_bind_ret run_stored, run_bind_ret (run_assert_dbg fun hdbg => by simp [Url.size, St.obj, hend, hsz])]
  by_cases hlt : x.length < enc.length + 1
  · simp only [if_pos hlt]
    rw [run_bind_ret run_stored]
    by_cases hs : Stores env st (st.size + (enc.length + 1) - x.length)
    · obtain ⟨t, hh⟩ := h
      obtain ⟨st1, t1, r1, r2, r3, r4, r5, r6, r7, r8, -, htm⟩ := storage_reserve_of hh.buf hh.cap hbuf hs
      obtain ⟨f, hf⟩ := key st1 ⟨t1, by rw [r2]; exact hh.rep, hh.len, r5, r6, htm hh.term⟩ r2 r3
      rw [run_bind_ret r1]
      exact .inl ⟨f, hf, hdbg, hd⟩
    · rw [run_bind_throw (storage_reserve_throw hs)]
      exact .inr (.inl ⟨hlt, hs, rfl⟩)
  · simp only [if_neg hlt]
    obtain ⟨f, hf⟩ := key st h rfl rfl
    exact .inl ⟨f, hf, hdbg, hd⟩

end Url
