import Verif.Props.Lookup

/-!
C34 - C36 and C38 after any calls and edits: what the loops over the segments and the parameters do, also when the cached
counts are stale.
-/

set_option linter.unusedSimpArgs false
set_option autoImplicit false

namespace Url.Props
open Url Spec

variable {env : Env} {st : St} {o : Obj} {A p q f : Str}

/-! ### segments -/

theorem walk_zero {lim fuel : Nat} (hn : o.pt.nseg = 0) (hf : 0 < fuel) : Seg.walk lim o fuel = .ok [] := by
  obtain ⟨n, rfl⟩ : ∃ n, fuel = n + 1 := ⟨fuel - 1, by omega⟩
  unfold Seg.walk
  rw [first_empty hn]
  simp only [bind, Except.bind, Seg.collect, eq_self, if_true]
  rfl

theorem ctx_walk {lim fuel : Nat} {R : Str} (h : SegCtx o lim A R) (hn : o.pt.nseg ≠ 0) (hR : R ≠ []) (ho : o.pt.off id_query = A.length + R.length)
    (hf : (pathSegments R).length < fuel) : Seg.walk lim o fuel = .ok (pathSegments R) :=
  h.walk_good ho ⟨fun h => absurd h hn, fun h => absurd h hR⟩ hf

/-- a loop from a `begin()` that could be formed and is at `end()` already -/
theorem walk_at_end {lim fuel : Nat} {it : SegIt} (h1 : Seg.first lim o = .ok it) (h2 : it.off = o.pt.off id_query) (h3 : o.dbg = false ∨ it.n = 0)
    (hf : 0 < fuel) : Seg.walk lim o fuel = .ok [] := by
  obtain ⟨n, rfl⟩ : ∃ n, fuel = n + 1 := ⟨fuel - 1, by omega⟩
  unfold Seg.walk
  rw [h1]
  simp only [bind, Except.bind, Seg.collect]
  have : Seg.eq o it (Seg.last o) = .ok true := by
    unfold Seg.eq
    rcases h3 with h3 | h3
    · simp [Obj.assert, h3, Seg.last, h2, bind, Except.bind, pure, Except.pure]
    · rw [assert_not (.inr (by rw [h3]; rfl))]
      simp [Seg.last, h2, bind, Except.bind, pure, Except.pure]
  rw [this]
  rfl

/-- `parse` at the place where it stops -/
theorem parse_stop {lim : Nat} {it : SegIt} (h : o.pt.off lim ≤ it.off) (h2 : o.dbg = true → it.off ≠ o.pt.off id_frag) :
    Seg.parse lim o it = (o.byte it.off).bind fun c => .ok { it with n := if c = c!"/" then 1 else 0 } := by
  unfold Seg.parse
  have : o.assert (.ok (decide (it.off ≠ o.pt.off id_frag))) = .ok () := by
    cases hd : o.dbg
    · simp [Obj.assert, hd]
    · exact assert_not (h2 hd)
  rw [this]
  simp only [bind, Except.bind]
  cases o.byte it.off with
  | error e => rfl
  | ok c =>
    by_cases hc : c = c!"/"
    · subst hc
      simp [show o.pt.off lim - (it.off + 1) = 0 by omega, Seg.scan, pure, Except.pure]
    · simp [hc, show o.pt.off lim - it.off = 0 by omega, Seg.scan, pure, Except.pure]

/-- C34: after any calls and edits the loop over the segments of a `url` sees the segments of its path, unless the cached count is zero:
then it sees none. -/
theorem C34_worked (hw : Worked env st) (dbg : Bool) : ∃ p, encoded_path (st.obj dbg) = .ok p ∧
    ∀ fuel, (pathSegments p).length < fuel →
      (st.pt.nseg = 0 → Base.segments (st.obj dbg) fuel = .ok []) ∧
      (st.pt.nseg ≠ 0 → p ≠ [] → Base.segments (st.obj dbg) fuel = .ok (pathSegments p)) := by
  obtain ⟨A, p, q, f, r⟩ := hw.ranged dbg
  exact ⟨p, r.path, fun fuel hf => ⟨fun hn => walk_zero hn (by omega), fun hn hp => ctx_walk r.base hn hp r.off6 hf⟩⟩

/-- C34: what the loop does if the path is gone and the count is not zero. With a query it still sees no segments; without one, an
assertion fails, and in a build without assertions the byte after the path is read, which may be outside the buffer or may never have been
written. -/
theorem C34_gone (hw : Worked env st) (dbg : Bool) (hp : encoded_path (st.obj dbg) = .ok []) (hn : st.pt.nseg ≠ 0) {fuel : Nat} (hf : 0 < fuel) :
    (query_part (st.obj dbg) ≠ .ok [] → Base.segments (st.obj dbg) fuel = .ok []) ∧
    (query_part (st.obj dbg) = .ok [] → dbg = true → Base.segments (st.obj dbg) fuel = .error .assert) ∧
    (query_part (st.obj dbg) = .ok [] → dbg = false → fragment_part (st.obj dbg) ≠ .ok [] → Base.segments (st.obj dbg) fuel = .ok []) ∧
    (query_part (st.obj dbg) = .ok [] → dbg = false → fragment_part (st.obj dbg) = .ok [] →
      Base.segments (st.obj dbg) fuel = ((st.obj dbg).byte (st.pt.off id_end)).map fun _ => []) := by
  obtain ⟨A, p, q, f, r⟩ := hw.ranged dbg
  rw [r.path] at hp
  cases hp
  obtain ⟨X, rest, hX, hm⟩ := r.mem
  have h5 := r.off5; have h6 := r.off6; have h7 := r.off7; have h8 := r.off8
  have hd : (st.obj dbg).dbg = dbg := rfl
  simp only [List.length_nil, Nat.add_zero] at h6 h7 h8
  have hfirst : (dbg = true → q ≠ []) → Seg.first id_query (st.obj dbg) =
      ((st.obj dbg).byte A.length).bind fun c => .ok { off := A.length, n := if c = c!"/" then 1 else 0 } := fun hq => by
    rw [Seg.first, if_neg (show (st.obj dbg).pt.nseg ≠ 0 from hn), h5]
    refine parse_stop (Nat.le_of_eq h6) fun e => ?_
    have := List.length_pos_iff.2 (hq (hd ▸ e))
    show A.length ≠ _
    omega
  rw [r.part, r.fragment]
  refine ⟨fun hq => ?_, fun hq e => ?_, fun hq e hf' => ?_, fun hq e hf' => ?_⟩
  · have hq : q ≠ [] := fun e => hq (by rw [e])
    obtain ⟨x, -, rfl⟩ := r.qok.resolve_left hq
    have hb := byte_at (o := st.obj dbg) (A := X) (c := c!"?") (rest := x.map some ++ (f.map some ++ rest)) (by rw [hm]; rfl)
    rw [hX] at hb
    have h1 := hfirst fun _ => hq
    rw [hb] at h1
    exact walk_at_end h1 h6.symm (.inr rfl) hf
  · cases hq
    subst e
    unfold Base.segments Seg.walk
    rw [Seg.first, if_neg (show (st.obj true).pt.nseg ≠ 0 from hn), Seg.parse]
    simp [Obj.assert, hd, h5, h7, bind, Except.bind]
  · cases hq
    subst e
    obtain ⟨x, rfl⟩ := r.fok.resolve_left fun e => hf' (by rw [e])
    have hb := byte_at (o := st.obj false) (A := X) (c := c!"#") (rest := x.map some ++ rest) (by rw [hm]; rfl)
    rw [hX] at hb
    have h1 := hfirst nofun
    rw [hb] at h1
    exact walk_at_end h1 h6.symm (.inr rfl) hf
  · cases hq
    cases hf'
    subst e
    have h1 := hfirst nofun
    simp only [List.length_nil, Nat.add_zero] at h8
    rw [show st.pt.off id_end = A.length from h8]
    cases hb : (st.obj false).byte A.length with
    | error e =>
      rw [hb] at h1
      unfold Base.segments Seg.walk
      rw [h1]
      rfl
    | ok c =>
      rw [hb] at h1
      exact walk_at_end h1 h6.symm (.inl rfl) hf

/-- with a query attached to it, no piece of a path starts where the path ends -/
theorem Ranged.never (r : Ranged o A p q f) (hp : p ≠ []) (hq : q ≠ []) {k : Nat} (hk : k ≤ (pieces (p ++ q)).length) :
    (posIt A (p ++ q) k).off ≠ o.pt.off id_query := by
  obtain ⟨x, -, rfl⟩ := r.qok.resolve_left hq
  have hpl : 0 < p.length := List.length_pos_iff.2 hp
  rw [r.off6]
  intro heq
  by_cases hk' : k < (pieces (p ++ c!"?" :: x)).length
  · obtain ⟨d, s, v, hd, -, -, -, hR, hc⟩ := piece_at hk'
    by_cases h0 : k = 0
    · subst h0
      have : (posIt A (p ++ c!"?" :: x) 0).off = A.length := by simp [posIt]
      omega
    · have hlen : ((pieces (p ++ c!"?" :: x)).take k).flatten.length = p.length := by
        simp only [posIt] at heq; omega
      have := (List.append_inj hR hlen.symm).2
      rw [hc h0] at this
      exact absurd (List.cons.inj this).1 (by decide)
  · obtain rfl : k = (pieces (p ++ c!"?" :: x)).length := by omega
    rw [posIt_end] at heq
    simp at heq

/-- C35: after any calls and edits the loop over the segments of a `const` `url` sees the segments of its path if there is no query, and
none if the cached count is zero. -/
theorem C35_worked (hw : Worked env st) (dbg : Bool) : ∃ p, encoded_path (st.obj dbg) = .ok p ∧
    ∀ fuel, (pathSegments p).length < fuel →
      (st.pt.nseg = 0 → View.segments (st.obj dbg) fuel = .ok []) ∧
      (st.pt.nseg ≠ 0 → p ≠ [] → query_part (st.obj dbg) = .ok [] → View.segments (st.obj dbg) fuel = .ok (pathSegments p)) := by
  obtain ⟨A, p, q, f, r⟩ := hw.ranged dbg
  refine ⟨p, r.path, fun fuel hf => ⟨fun hn => walk_zero hn (by omega), fun hn hp hq => ?_⟩⟩
  rw [r.part] at hq
  cases hq
  have ctx := r.view
  rw [List.append_nil] at ctx
  exact ctx_walk ctx hn hp r.off6 hf

/-- C35 is false for every `const` `url` with a query and a path, whatever calls and edits came before: the loop never gets to `end()`,
unless the count is zero. -/
theorem C35_worked_false (hw : Worked env st) (dbg : Bool) (hn : st.pt.nseg ≠ 0) {p q : Str} (hp : encoded_path (st.obj dbg) = .ok p) (h0 : p ≠ [])
    (hq : query_part (st.obj dbg) = .ok q) (h1 : q ≠ []) (fuel : Nat) :
    View.segments (st.obj dbg) fuel = .error (if dbg = true ∧ (pathSegments (p ++ q)).length < fuel then .assert else .diverge) := by
  obtain ⟨A, p', q', f, r⟩ := hw.ranged dbg
  rw [r.path] at hp
  cases hp
  rw [r.part] at hq
  cases hq
  have ctx := r.view
  have hn' : (st.obj dbg).pt.nseg ≠ 0 := hn
  unfold View.segments Seg.walk
  rw [ctx.first_pos hn' (by simp [h0])]
  simp only [bind, Except.bind]
  rw [ctx.collect_bad (by rw [r.off7, List.length_append, Nat.add_assoc]) (fun k hk => r.never h0 h1 hk) (by omega), pieces_length]
  rfl

/-- C35: with a query, no path and a count that is not zero, an assertion fails, and without assertions the loop sees no segments. Without
a query it is the loop of `C34_gone`. -/
theorem C35_gone (hw : Worked env st) (dbg : Bool) (hp : encoded_path (st.obj dbg) = .ok []) (hn : st.pt.nseg ≠ 0) {fuel : Nat} (hf : 0 < fuel) :
    (query_part (st.obj dbg) ≠ .ok [] → View.segments (st.obj dbg) fuel = if dbg = true then .error .assert else .ok []) ∧
    (query_part (st.obj dbg) = .ok [] → View.segments (st.obj dbg) fuel = Base.segments (st.obj dbg) fuel) := by
  obtain ⟨A, p, q, f, r⟩ := hw.ranged dbg
  rw [r.path] at hp
  cases hp
  have h6 := r.off6; have h7 := r.off7
  have hn' : (st.obj dbg).pt.nseg ≠ 0 := hn
  rw [r.part]
  constructor
  · intro hq
    have hq : q ≠ [] := fun e => hq (by rw [e])
    have h1 := r.view.first_pos hn' (by simpa using hq)
    have ho : (posIt A ([] ++ q) 0).off = (st.obj dbg).pt.off id_query := by rw [h6]; simp [posIt]
    have hpos : 0 < (posIt A ([] ++ q) 0).n := posIt_n_pos (List.length_pos_iff.2 fun e => hq (pieces_eq_nil.1 e))
    cases dbg with
    | false => exact walk_at_end h1 ho (.inl rfl) hf
    | true =>
      obtain ⟨n, rfl⟩ : ∃ n, fuel = n + 1 := ⟨fuel - 1, by omega⟩
      unfold View.segments Seg.walk
      rw [h1]
      simp only [bind, Except.bind, Seg.collect]
      have : Seg.eq (st.obj true) (posIt A ([] ++ q) 0) (Seg.last (st.obj true)) = .error .assert := by
        unfold Seg.eq
        have hne : (posIt A ([] ++ q) 0).n ≠ 0 := by omega
        have hx : ¬ ((posIt A ([] ++ q) 0).off ≠ (Seg.last (st.obj true)).off ∨ (posIt A ([] ++ q) 0).n = (Seg.last (st.obj true)).n) := by
          rintro (h | h)
          · exact h ho
          · exact hne h
        rw [decide_eq_false hx]
        rfl
      rw [this]
      rfl
  · intro hq
    cases hq
    have e : (st.obj dbg).pt.off id_frag = (st.obj dbg).pt.off id_query := by rw [h6, h7]; rfl
    have hparse : ∀ it, Seg.parse id_frag (st.obj dbg) it = Seg.parse id_query (st.obj dbg) it := fun it => by
      unfold Seg.parse
      rw [e]
    have hnext : ∀ it, Seg.next id_frag (st.obj dbg) it = Seg.next id_query (st.obj dbg) it := fun it => by
      unfold Seg.next
      simp only [hparse]
    have hcol : ∀ n it, Seg.collect id_frag (st.obj dbg) n it = Seg.collect id_query (st.obj dbg) n it := fun n => by
      induction n with
      | zero => intro it; rfl
      | succ n ih => intro it; simp only [Seg.collect, hnext, ih]
    unfold View.segments Base.segments Seg.walk Seg.first
    simp only [hparse, hcol]

/-- A step forwards and back again, and the segment there. -/
def Steps (lim : Nat) (o : Obj) (ss : List Str) : Prop :=
  ∀ k x, ss[k]? = some x → ∃ it it', Seg.nth lim o k = .ok it ∧ Seg.nth lim o (k + 1) = .ok it' ∧
    Seg.next lim o it = .ok it' ∧ Seg.prev lim o it' = .ok it ∧ Seg.deref o it = .ok x

theorem ctx_steps {lim : Nat} {R : Str} (ctx : SegCtx o lim A R) (hn : o.pt.nseg ≠ 0) : Steps lim o (pathSegments R) := by
  intro k x hx
  rw [← pieces_strip] at hx
  obtain ⟨hk, rfl⟩ := List.getElem?_eq_some_iff.1 hx
  rw [List.length_map] at hk
  have hR : R ≠ [] := by rintro rfl; simp [pieces] at hk
  refine ⟨_, _, ctx.nth_pos hn hR (Nat.le_of_lt hk), ctx.nth_pos hn hR hk, ctx.next_pos hk, ctx.prev_pos hk, ?_⟩
  rw [ctx.deref_pos hk]
  simp

/-- C36: after any calls and edits, with a count that is not zero, the iterators of a `url` step forwards and backwards through the segments
of the path, and those of a `const` `url` through the segments of the path with the query attached to it. -/
theorem C36_worked (hw : Worked env st) (dbg : Bool) (hn : st.pt.nseg ≠ 0) : ∃ p q, encoded_path (st.obj dbg) = .ok p ∧ query_part (st.obj dbg) = .ok q ∧
    Steps id_query (st.obj dbg) (pathSegments p) ∧ Steps id_frag (st.obj dbg) (pathSegments (p ++ q)) ∧
    (p ≠ [] → Seg.nth id_query (st.obj dbg) (pathSegments p).length = .ok (Seg.last (st.obj dbg))) := by
  obtain ⟨A, p, q, f, r⟩ := hw.ranged dbg
  have hn' : (st.obj dbg).pt.nseg ≠ 0 := hn
  refine ⟨p, q, r.path, r.part, ctx_steps r.base hn', ctx_steps r.view hn', fun hp => ?_⟩
  rw [← pieces_length, r.base.nth_pos hn' hp (Nat.le_refl _), posIt_last r.off6]

/-! ### parameters -/

/-- C38 and C39: after any calls and edits, if the cached count is zero then the loop over the parameters sees none and no key is found,
whatever the query is. -/
theorem C38_zero {o : Obj} (hn : o.pt.nparam = 0) {fuel : Nat} (hf : 0 < fuel) (key : Str) :
    Params.walk o fuel = .ok [] ∧ Params.contains o key fuel = .ok false ∧ Params.count o key fuel = .ok 0 ∧
    Params.find o key fuel = .ok (Params.last o) ∧ Params.index o key fuel = .ok [] ∧ Params.atKey o key fuel = .ok none := by
  obtain ⟨n, rfl⟩ : ∃ n, fuel = n + 1 := ⟨fuel - 1, by omega⟩
  simp [Params.walk, Params.contains, Params.count, Params.find, Params.index, Params.atKey, Params.first, hn, bind, Except.bind,
    Params.collect, Params.containsLoop, Params.countLoop, Params.findLoop, params_eq_self, pure, Except.pure]

/-- reading on to the end of the text -/
theorem skip_total {X rest : List Cell} {y : Str} (hm : o.mem = X ++ (y.map some ++ rest)) (he : o.pt.off id_end = X.length + y.length) {n : Nat}
    (h1 : X.length ≤ n) (h2 : n ≤ X.length + y.length) (e : PctSet) (ec : Option Err) :
    ∃ r, Params.skip e o n ec = .ok r ∧ (r.1 = n ∨ r.1 ≤ o.pt.off id_end) := by
  unfold Params.skip
  rw [if_neg (by rw [hm]; simp; omega)]
  split
  · have hc : y = y.take (n - X.length) ++ y.drop (n - X.length) := (List.take_append_drop _ _).symm
    have := read_at (o := o) (A := X ++ (y.take (n - X.length)).map some) (B := y.drop (n - X.length)) (rest := rest) (by
      rw [hm]
      conv => lhs; rw [hc]
      simp only [List.map_append, List.append_assoc])
    rw [List.length_append, List.length_map, List.length_take, List.length_drop, show X.length + min (n - X.length) y.length = n by omega,
      show y.length - (n - X.length) = o.pt.off id_end - n by omega] at this
    rw [this]
    exact ⟨_, rfl, .inr (Nat.sub_le _ _)⟩
  · exact ⟨_, rfl, .inl rfl⟩

theorem params_at_end {it : ParamIt} {fuel : Nat} (h1 : Params.first o = .ok it) (h2 : it.off = o.pt.off id_frag) (hd : o.dbg = false) (hf : 0 < fuel) :
    Params.walk o fuel = .ok [] := by
  obtain ⟨n, rfl⟩ : ∃ n, fuel = n + 1 := ⟨fuel - 1, by omega⟩
  unfold Params.walk
  rw [h1]
  simp [bind, Except.bind, Params.collect, Params.eq, Obj.assert, hd, Params.last, h2, pure, Except.pure]

/-- C38: what the loop does if the query is gone and the count is not zero. With assertions it never returns. Without, it sees no parameters
if there is a fragment; otherwise it forms a pointer to two characters behind the text, which must be within the buffer. -/
theorem C38_gone (hw : Worked env st) (dbg : Bool) (hq : query_part (st.obj dbg) = .ok []) (hn : st.pt.nparam ≠ 0) {fuel : Nat} (hf : 0 < fuel) :
    (dbg = true → ∀ l, Params.walk (st.obj dbg) fuel ≠ .ok l) ∧
    (dbg = true → fragment_part (st.obj dbg) ≠ .ok [] → Params.walk (st.obj dbg) fuel = .error .assert) ∧
    (dbg = false → fragment_part (st.obj dbg) ≠ .ok [] → Params.walk (st.obj dbg) fuel = .ok []) ∧
    (dbg = false → fragment_part (st.obj dbg) = .ok [] →
      Params.walk (st.obj dbg) fuel = if st.pt.off id_end + 2 ≤ (st.obj dbg).mem.length then .ok [] else .error .ub) := by
  obtain ⟨A, p, q, f, r⟩ := hw.ranged dbg
  rw [r.part] at hq
  cases hq
  obtain ⟨X, rest, hX, hm⟩ := r.mem
  have h6 := r.off6; have h7 := r.off7; have h8 := r.off8
  have hn' : (st.obj dbg).pt.nparam ≠ 0 := hn
  simp only [List.length_nil, Nat.add_zero] at h7 h8
  have ha : (st.obj dbg).assert (.ok (decide ((st.obj dbg).pt.nparam > 0))) = .ok () := assert_not (Nat.pos_of_ne_zero hn')
  have hfirst : Params.first (st.obj dbg) = Params.parse (st.obj dbg) ⟨A.length + p.length, 0, 0⟩ := by
    rw [Params.first, if_neg hn', h6]
  have hlen : A.length + p.length + f.length ≤ (st.obj dbg).mem.length := by rw [hm]; simp; omega
  have hbyte : f ≠ [] → (st.obj dbg).byte (A.length + p.length) = .ok c!"#" := fun hf' => by
    obtain ⟨x, rfl⟩ := r.fok.resolve_left hf'
    have hb := byte_at (o := st.obj dbg) (A := X ++ p.map some) (c := c!"#") (rest := x.map some ++ rest) (by rw [hm]; simp)
    rwa [List.length_append, List.length_map, hX] at hb
  have hbad : ∀ c, (st.obj dbg).byte (A.length + p.length) = .ok c → c ≠ c!"?" → dbg = true → Params.walk (st.obj dbg) fuel = .error .assert := by
    rintro c hc hne rfl
    have : (st.obj true).assert (.ok (c == c!"?")) = .error .assert := by
      rw [show (c == c!"?") = false by simpa using hne]
      rfl
    unfold Params.walk
    rw [hfirst, Params.parse, ha]
    simp only [bind, Except.bind, hc, h6, if_true, pure, Except.pure, this]
  rw [r.fragment]
  have hoff : ∀ it, Params.parse (st.obj dbg) ⟨A.length + p.length, 0, 0⟩ = .ok it → dbg = false → Params.walk (st.obj dbg) fuel = .ok [] :=
    fun it hit hd => params_at_end (hfirst.trans hit) ((parse_off_eq hit).trans h7.symm) hd hf
  have hna : ∀ (x : R Bool), dbg = false → (st.obj dbg).assert x = .ok () := fun x hd => by subst hd; rfl
  refine ⟨fun hd l => ?_, fun hd hf' => ?_, fun hd hf' => ?_, fun hd hf' => ?_⟩
  · by_cases hf' : f = []
    · subst hf'
      cases hb : (st.obj dbg).byte (A.length + p.length) with
      | ok c =>
        have : c = 0 := r.term c (by rw [h8]; exact hb)
        rw [hbad c hb (by rw [this]; decide) hd]
        nofun
      | error e =>
        subst hd
        unfold Params.walk
        rw [hfirst, Params.parse, ha]
        have : (st.obj true).assert (.error e) = .error e := rfl
        simp only [bind, Except.bind, hb, this]
        nofun
    · rw [hbad _ (hbyte hf') (by decide) hd]
      nofun
  · exact hbad _ (hbyte fun e => hf' (by rw [e])) (by decide) hd
  · have hf' : f ≠ [] := fun e => hf' (by rw [e])
    have hpos := List.length_pos_iff.2 hf'
    have hm' : (st.obj dbg).mem = (X ++ p.map some) ++ (f.map some ++ rest) := by rw [hm]; simp
    have hl' : (X ++ p.map some).length = A.length + p.length := by simp [hX]
    obtain ⟨s1, e1, e2⟩ := skip_total hm' (by rw [hl']; exact h8) (n := A.length + p.length + 1) (by omega) (by omega) qkey_pct_set none
    suffices h : ∃ it, Params.parse (st.obj dbg) ⟨A.length + p.length, 0, 0⟩ = .ok it by
      obtain ⟨it, hit⟩ := h
      exact hoff it hit hd
    unfold Params.parse
    simp only [hna _ hd, bind, Except.bind, e1]
    split
    · exact ⟨_, rfl⟩
    · rename_i hne
      have hge : A.length + p.length + 1 ≤ s1.1 := skip_le (q := s1.1) (ec' := s1.2) e1 (by simp)
      obtain ⟨s2, e3, -⟩ := skip_total hm' (by rw [hl']; exact h8) (n := s1.1 + 1) (by omega) (by rw [hl']; omega) qval_pct_set s1.2
      rw [e3]
      exact ⟨_, rfl⟩
  · cases hf'
    simp only [List.length_nil, Nat.add_zero] at h8 hlen
    rw [show st.pt.off id_end = A.length + p.length from h8]
    have hs : ∀ (n : Nat) (e : PctSet), A.length + p.length < n → Params.skip e (st.obj dbg) n none =
        if (st.obj dbg).mem.length < n then .error .ub else .ok (n, none) := fun n e h => by
      unfold Params.skip
      rw [h8, if_neg (by omega : ¬ n < A.length + p.length)]
      rfl
    have hparse : Params.parse (st.obj dbg) ⟨A.length + p.length, 0, 0⟩ = if A.length + p.length + 2 ≤ (st.obj dbg).mem.length then
        .ok ⟨A.length + p.length, 1, 1⟩ else .error .ub := by
      unfold Params.parse
      simp only [hna _ hd, bind, Except.bind, hs _ _ (Nat.lt_succ_self _)]
      by_cases h1 : (st.obj dbg).mem.length < A.length + p.length + 1
      · rw [if_pos h1, if_neg (by omega)]
      · rw [if_neg h1]
        simp only
        rw [if_neg (by rw [h8]; omega), hs _ _ (by omega)]
        by_cases h2 : (st.obj dbg).mem.length < A.length + p.length + 1 + 1
        · rw [if_pos h2, if_neg (by omega)]
        · rw [if_neg h2, if_pos (by omega)]
          simp only [pure, Except.pure]
          congr 2 <;> omega
    split
    · rename_i h
      rw [if_pos h] at hparse
      exact hoff _ hparse hd
    · rename_i h
      rw [if_neg h] at hparse
      unfold Params.walk
      rw [hfirst, hparse]
      rfl

/-! ### cases -/

/-- a url after calls that are not among those of `Reach`, with a path and a query -/
def oddUrl : St := afterRelease [.set_encoded_url b!"x:/a/b?k=v", .set_encoded_userinfo b!"%41b:c", .set_encoded_path b!"/c//d"]

theorem oddUrl_worked : Worked env1 oddUrl := (afterRelease_used (by decide +kernel)).worked

example : Readable (oddUrl.obj false) := .url false oddUrl_worked (by decide +kernel)

example : encoded_url (oddUrl.obj false) = .ok b!"x://%41b:c@/c//d?k=v" ∧ user (oddUrl.obj false) = .error .ub ∧ oddUrl.pt.nseg = 2 ∧
    Base.segments (oddUrl.obj false) 4 = .ok [b!"c", b!"", b!"d"] ∧ View.segments (oddUrl.obj false) 9 = .error .diverge ∧
    View.segments (oddUrl.obj true) 9 = .error .assert ∧ Params.walk (oddUrl.obj false) 2 = .ok [⟨b!"k", b!"v"⟩] ∧
    Params.index (oddUrl.obj true) b!"k" 2 = .ok b!"v" := by decide +kernel

-- a path or a query that is gone, and counts that are not zero
example : (afterRelease [.set_encoded_url b!"/a/b", .set_encoded_path []]).pt.nseg = 2 ∧
    Base.segments ((afterRelease [.set_encoded_url b!"/a/b", .set_encoded_path []]).obj false) 1 = .ok [] ∧
    Base.segments ((afterRelease [.set_encoded_url b!"/a/b", .set_encoded_path []]).obj true) 1 = .error .assert ∧
    View.segments ((afterRelease [.set_encoded_url b!"/a/b?q", .set_encoded_path []]).obj false) 1 = .ok [] ∧
    View.segments ((afterRelease [.set_encoded_url b!"/a/b?q", .set_encoded_path []]).obj true) 1 = .error .assert ∧
    (afterRelease [.set_encoded_url b!"?k=v#f", .set_query_part []]).pt.nparam = 1 ∧
    Params.walk ((afterRelease [.set_encoded_url b!"?k=v#f", .set_query_part []]).obj false) 1 = .ok [] ∧
    Params.walk ((afterRelease [.set_encoded_url b!"?k=v#f", .set_query_part []]).obj true) 1 = .error .assert ∧
    Params.walk ((afterRelease [.set_encoded_url b!"?k=v", .set_query_part []]).obj false) 1 = .ok [] := by decide +kernel

-- a query that is there, and a count that is zero
example : query_part ((afterRelease [.set_encoded_query b!"k=v"]).obj true) = .ok b!"?k=v" ∧
    (afterRelease [.set_encoded_query b!"k=v"]).pt.nparam = 0 ∧
    Params.contains ((afterRelease [.set_encoded_query b!"k=v"]).obj true) b!"k" 2 = .ok false := by decide +kernel

end Url.Props
