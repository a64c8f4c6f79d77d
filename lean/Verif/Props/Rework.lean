import Verif.Props.Capacity
import Verif.Props.SegEdit

/-!
C74: the loop that edits the segments of a `url` while it walks over them. The loop is not part of the library; it is what
the interface of `segments_type` is for:

    for(auto it = u.segments().begin(); it != u.segments().end();)
        switch(f(it->encoded_string()))
        {
        case keep:    ++it; break;
        case erase:   it = u.segments().erase(it); break;
        case replace: it = u.segments().replace(it, ...); break;
        }

C75: the loop that inserts a list of strings.
-/

set_option linter.unusedSimpArgs false
set_option autoImplicit false

namespace Url.Props
open Url Spec

/-- what the loop does with a segment -/
inductive Deed where
  | keep
  | erase
  | replace (s : Str)

/-- what becomes of a segment -/
def Deed.result : Deed → Str → List Str
  | .keep, s => [s]
  | .erase, _ => []
  | .replace t, _ => [pctEncode isPchar t]

/-- The loop from an iterator on; `fuel` bounds the number of steps. -/
def reworkFrom (f : Str → Deed) : Nat → SegIt → M Unit
  | 0, _ => fun _ _ => .fault .diverge
  | fuel + 1, it => do
    if ← M.ask fun o => Seg.eq o it (Seg.last o) then return ()
    else
      match f (← M.ask fun o => Seg.deref o it) with
      | .keep => reworkFrom f fuel (← M.ask fun o => Seg.next id_query o it)
      | .erase => reworkFrom f fuel (← Base.seg_erase it)
      | .replace s => reworkFrom f fuel (← Base.seg_replace it s)

/-- the loop from `begin()` on -/
def rework (f : Str → Deed) (fuel : Nat) : M Unit := do reworkFrom f fuel (← M.ask fun o => Seg.first id_query o)

variable {env : Env} {st st' : St} {p : Str} {f : Str → Deed}

/-- The object is in order, its path is `p`, and an `int` can count the segments. -/
structure Orderly (env : Env) (st : St) (p : Str) : Prop where
  reach : Reach env st
  tidy : Tidy st
  path : ∀ dbg, encoded_path (st.obj dbg) = .ok p
  few : (pathSegments p).length ≤ 2147483647

/-- Nothing but the path differs. -/
def PathOnly (st st' : St) : Prop :=
  (∀ (q : Part) (dbg : Bool), q ≠ .path → q.text (st'.obj dbg) = q.text (st.obj dbg)) ∧
  (∀ dbg, host_type (st'.obj dbg) = host_type (st.obj dbg)) ∧ st'.pt.nparam = st.pt.nparam

theorem PathOnly.trans {a b c : St} (h : PathOnly a b) (h' : PathOnly b c) : PathOnly a c :=
  ⟨fun q d hq => (h'.1 q d hq).trans (h.1 q d hq), fun d => (h'.2.1 d).trans (h.2.1 d), h'.2.2.trans h.2.2⟩

theorem PathOnly.query {a b : St} (h : PathOnly a b) (dbg : Bool) : query_part (b.obj dbg) = query_part (a.obj dbg) :=
  h.1 .query dbg (by decide)

theorem PathOnly.refl (st : St) : PathOnly st st := ⟨fun _ _ _ => rfl, fun _ => rfl, rfl⟩

/-- the path with segments `l` that starts with a slash, or without one if `p` does -/
def joinedLike (p : Str) (l : List Str) : Str := if Rootless p then (joined l).drop 1 else joined l

theorem absPath_rooted (l : List Str) : ¬ Rootless (absPath l) := by
  cases l with
  | nil => exact fun h => h.1 rfl
  | cons x l => exact fun h => h.2 rfl

/-- Neither the capacity nor the allocator provides for a text of `n` characters. -/
def Lacks (env : Env) (st : St) (n : Nat) : Prop :=
  st.cap < n ∧ ∃ tick, ¬ (Storage.newCap env.maxSize st.cap n + 1 ≤ env.maxSize ∧ env.alloc tick (Storage.newCap env.maxSize st.cap n + 1) = true)

theorem lacks_of {n : Nat} (h : Same st st') (hs : ¬ Stores env st n) : Lacks env st' n := by
  have hc : st'.cap = st.cap := by
    unfold Same at h
    rw [← h]
  unfold Lacks
  rw [hc]
  unfold Stores at hs
  exact ⟨Nat.lt_of_not_le fun h => hs (.inl h), st.tick, fun h => hs (.inr h)⟩

theorem joinedLike_segments (p : Str) : joinedLike p (pathSegments p) = p := by
  unfold joinedLike
  rcases joined_cases p with ⟨h, h'⟩ | ⟨h1, h2, h'⟩
  · rw [if_neg (fun hr => h.elim hr.2 hr.1), ← h']
  · rw [if_pos ⟨h2, h1⟩, ← h']
    rfl

/-- the first segment of a path without a slash in front -/
theorem rootless_first (h : Rootless p) : ∃ c t l, pathSegments p = (c :: t) :: l ∧ c ≠ c!"/" := by
  obtain ⟨h1, h2⟩ := h
  rcases joined_cases p with ⟨h, -⟩ | ⟨-, -, h'⟩
  · exact absurd h (by simp [h1, h2])
  · cases hl : pathSegments p with
    | nil => rw [hl] at h'; cases h'
    | cons x l =>
      rw [hl] at h'
      have h' : p = x ++ joined l := by
        have := congrArg (List.drop 1) h'
        simpa [joined] using this
      cases x with
      | cons c t =>
        refine ⟨c, t, l, rfl, fun hc => h2 ?_⟩
        rw [h', hc]; rfl
      | nil =>
        rw [List.nil_append] at h'
        cases l with
        | nil => exact absurd h' h1
        | cons y l => exact absurd (by rw [h']; rfl) h2

/-- The new path starts with a slash exactly if the old one does, when the first segment stays. -/
theorem rootless_like {l : List Str} (h : Rootless p → l.head? = (pathSegments p).head?) : Rootless (joinedLike p l) ↔ Rootless p := by
  unfold joinedLike
  by_cases hr : Rootless p
  · rw [if_pos hr]
    obtain ⟨c, t, k, hk, hc⟩ := rootless_first hr
    have := h hr
    rw [hk] at this
    cases l with
    | nil => cases this
    | cons x l =>
      cases this
      refine ⟨fun _ => hr, fun _ => ⟨?_, ?_⟩⟩
      · simp [joined]
      · simpa [joined] using hc
  · rw [if_neg hr]
    exact ⟨fun h => absurd h (absPath_rooted l), fun h => absurd h hr⟩

theorem joinedLike_like {l m : List Str} (h : Rootless p → l.head? = (pathSegments p).head?) :
    joinedLike (joinedLike p l) m = joinedLike p m := by
  have := rootless_like h
  unfold joinedLike at this ⊢
  simp only [this]

theorem Orderly.zero (h : Orderly env st p) : st.pt.nseg = 0 ↔ p = [] := by
  rw [h.tidy.2.2 p (h.path false), pathSegments_length_zero]

theorem Orderly.editable (h : Orderly env st p) {e : SegOp} (hf : e.Fits (pathSegments p).length) : Editable env st e :=
  ⟨p, h.path _, h.zero, hf, h.few⟩

theorem same_obj (h : Same st st') (dbg : Bool) : st'.obj dbg = st.obj dbg := by
  unfold Same at h
  rw [← h]
  rfl

theorem pathOnly_same (h : Same st st') : PathOnly st st' := by
  have ho := same_obj h
  refine ⟨fun q d _ => by rw [ho], fun d => by rw [ho], ?_⟩
  exact congrArg (fun o : Obj => o.pt.nparam) (ho false)

theorem Orderly.same (h : Orderly env st p) (hs : Same st st') (hr : Reach env st') : Orderly env st' p := by
  have ho := same_obj hs
  refine ⟨hr, ?_, fun d => by rw [ho]; exact h.path d, h.few⟩
  have ht := h.tidy
  unfold Same at hs
  rw [← hs] at ht
  exact ht

/-- one edit of the loop -/
theorem Orderly.edit (h : Orderly env st p) {e : SegOp} (hf : e.Fits (pathSegments p).length) (hv : e.Valid)
    (hl : (e.apply (pathSegments p)).length ≤ 2147483647)
    (hk : e.KeepsFirst ∨ ¬ Rootless p)
    (hd : env.dbg = true → query_part (st.obj env.dbg) ≠ .ok [] ∨ e.index < (e.apply (pathSegments p)).length) :
    (∃ it st', runSeg e env st = .ret it st' ∧ Orderly env st' (joinedLike p (e.apply (pathSegments p))) ∧
      pathSegments (joinedLike p (e.apply (pathSegments p))) = e.apply (pathSegments p) ∧
      Seg.nth id_query (st'.obj env.dbg) e.index = .ok it ∧ PathOnly st st') ∨
    (p.length < (joinedLike p (e.apply (pathSegments p))).length ∧
      ∃ st', runSeg e env st = .throw .bad_alloc st' ∧ Orderly env st' p ∧ PathOnly st st' ∧
        ∀ n, n + p.length = Url.size (st'.obj env.dbg) + (joinedLike p (e.apply (pathSegments p))).length → Lacks env st' n) := by
  have he := h.editable hf
  have hg : ¬ e.Glues p := not_glues hf hk
  have hnew : e.newPath p = joinedLike p (e.apply (pathSegments p)) := by
    unfold SegOp.newPath joinedLike
    rcases hk with hk | hk
    · simp only [hk, and_true]; rfl
    · simp only [hk, false_and, if_false]; rfl
  have hle : p.length ≤ Url.size (st.obj env.dbg) := by
    obtain ⟨c, hrep, -⟩ := h.reach.rep
    have := h.path env.dbg
    rw [(hrep.reports env.dbg).path] at this
    cases this
    rw [(hrep.reports env.dbg).size]
    exact path_le_render c
  rcases C37_outcome_partial h.reach he (h.path _) h.tidy hk hv (fun h => (hd h).symm)
    (n := Url.size (st.obj env.dbg) + (e.newPath p).length - p.length) (by omega) with ⟨it, st', hrun, -⟩ | ⟨hno, st', hrun, hs⟩
  · have hp := fun dbg => C37_partial h.reach he hrun dbg (h.path dbg) hg
    have hsegs := (hp false).1.2
    rw [hnew] at hsegs
    refine .inl ⟨it, st', hrun, ⟨.edit e h.reach he (.inl ⟨_, hrun⟩), ?_, ?_, ?_⟩, hsegs, ?_, ?_⟩
    · refine C37_tidy_partial h.reach he hrun h.tidy (hk.imp_right fun hk q hq => ?_)
      rw [h.path] at hq
      cases hq
      exact hk
    · intro dbg
      rw [(hp dbg).1.1, hnew]
    · rw [hsegs]; exact hl
    · exact C37_position_partial h.reach he hrun env.dbg (h.path _) h.tidy hk
    · exact ⟨fun q dbg hq => (hp dbg).2.1 q hq, fun dbg => (hp dbg).2.2.1, (hp false).2.2.2⟩
  · refine .inr ⟨?_, st', hrun, h.same hs (.edit e h.reach he (.inr ⟨_, hrun⟩)), pathOnly_same hs, fun n hn => lacks_of hs ?_⟩
    · rw [← hnew]
      have hc : Url.size (st.obj env.dbg) ≤ st.cap := C24_size h.reach env.dbg
      rcases Nat.lt_or_ge p.length (e.newPath p).length with h1 | h1
      · exact h1
      · exact absurd (.inl (by omega)) hno
    · rw [← hnew, same_obj hs] at hn
      have : n = Url.size (st.obj env.dbg) + (e.newPath p).length - p.length := by omega
      rw [this]
      exact hno

/-- where the loop is -/
theorem Orderly.at (h : Orderly env st p) {k : Nat} (hk : k ≤ (pathSegments p).length) {it : SegIt}
    (hi : Seg.nth id_query (st.obj env.dbg) k = .ok it) :
    Seg.eq (st.obj env.dbg) it (Seg.last (st.obj env.dbg)) = .ok (decide (k = (pathSegments p).length)) ∧
    ∀ hk : k < (pathSegments p).length, Seg.deref (st.obj env.dbg) it = .ok (pathSegments p)[k] ∧
      ∃ it', Seg.next id_query (st.obj env.dbg) it = .ok it' ∧ Seg.nth id_query (st.obj env.dbg) (k + 1) = .ok it' := by
  obtain ⟨c, hrep, -⟩ := h.reach.rep
  have hp := h.path env.dbg
  rw [(hrep.reports env.dbg).path] at hp
  cases hp
  have hi' := segAt_eq hrep h.zero env.dbg hk
  rw [hi] at hi'
  cases hi'
  have ctx := base_ctx (hrep.obj env.dbg)
  have ho : (st.obj env.dbg).pt.off id_query = (preText c).length + c.path.length := ctx.lim
  have hl := pieces_length c.path
  refine ⟨?_, fun hk => ?_⟩
  · by_cases he : k = (pathSegments c.path).length
    · subst he
      rw [← hl, posIt_last ho, eq_self]
      simp
    · have hk' : k < (pieces c.path).length := by omega
      rw [eq_off _ (by have := posIt_off_lt (A := preText c) hk'; simp only [Seg.last, ho]; omega)]
      simp [he]
  · have hk' : k < (pieces c.path).length := by omega
    refine ⟨?_, _, ctx.next_pos hk', segAt_eq hrep h.zero env.dbg hk⟩
    rw [ctx.deref_pos hk']
    simp only [← pieces_strip, List.getElem_map]

/-- the loop from an iterator on -/
theorem Orderly.loop (todo : List Str) {fuel : Nat} (hf : todo.length < fuel) {done : List Str} {it : SegIt} {st : St} {p : Str}
    (h : Orderly env st p) (hs : pathSegments p = done ++ todo) (hi : Seg.nth id_query (st.obj env.dbg) done.length = .ok it)
    (hr : Rootless p → 0 < done.length ∨ ∀ s, todo.head? = some s → f s = .keep)
    (hq : env.dbg = true → query_part (st.obj env.dbg) ≠ .ok [] ∨ ∀ s, todo.getLast? = some s → f s = .keep) :
    (∃ st', reworkFrom f fuel it env st = .ret () st' ∧ PathOnly st st' ∧
      Orderly env st' (joinedLike p (done ++ todo.flatMap fun s => (f s).result s)) ∧
      pathSegments (joinedLike p (done ++ todo.flatMap fun s => (f s).result s)) = done ++ todo.flatMap fun s => (f s).result s) ∨
    (∃ a s b t st', todo = a ++ s :: b ∧ f s = .replace t ∧ reworkFrom f fuel it env st = .throw .bad_alloc st' ∧ PathOnly st st' ∧
      (∃ n, n + s.length = Url.size (st'.obj env.dbg) + (pctEncode isPchar t).length ∧ Lacks env st' n) ∧
      Orderly env st' (joinedLike p (done ++ (a.flatMap fun s => (f s).result s) ++ s :: b))) := by
  induction todo generalizing fuel done it st p with
  | nil =>
    obtain ⟨n, rfl⟩ : ∃ n, fuel = n + 1 := ⟨fuel - 1, by simp at hf; omega⟩
    have hlen : done.length = (pathSegments p).length := by rw [hs]; simp
    have ha := (h.at (k := done.length) (by omega) hi).1
    rw [decide_eq_true hlen] at ha
    refine .inl ⟨st, ?_, .refl st, ?_, ?_⟩
    · rw [reworkFrom, run_bind_ret (run_ask ha)]
      rfl
    · simp only [List.flatMap_nil]
      rw [← hs, joinedLike_segments]
      exact h
    · simp only [List.flatMap_nil]
      rw [← hs, joinedLike_segments]
  | cons s todo ih =>
    obtain ⟨n, rfl⟩ : ∃ n, fuel = n + 1 := ⟨fuel - 1, by omega⟩
    have hf : todo.length < n := by simp at hf; omega
    have hlen : (pathSegments p).length = done.length + (todo.length + 1) := by rw [hs]; simp
    have hk : done.length < (pathSegments p).length := by omega
    obtain ⟨ha, hb⟩ := h.at (k := done.length) (by omega) hi
    obtain ⟨hd, it', hn, hn'⟩ := hb hk
    rw [decide_eq_false (by omega)] at ha
    have hds : (pathSegments p)[done.length] = s := by simp [hs]
    rw [hds] at hd
    have hp : p = joinedLike p (done ++ s :: todo) := by rw [← hs]; exact (joinedLike_segments p).symm
    rw [reworkFrom, run_bind_ret (run_ask ha)]
    simp only [Bool.false_eq_true, if_false]
    rw [run_bind_ret (run_ask hd)]
    have few := h.few
    have hpos : f s ≠ .keep → Rootless p → 0 < done.length := fun hfs hp =>
      (hr hp).resolve_right fun hl => hfs (hl s rfl)
    have hhead : ∀ l, 0 < done.length → (done ++ l).head? = (pathSegments p).head? := by
      intro l h0
      rw [hs]
      cases done with
      | nil => cases h0
      | cons x d => rfl
    have hq' : env.dbg = true → query_part (st.obj env.dbg) ≠ .ok [] ∨ ∀ s, todo.getLast? = some s → f s = .keep :=
      fun hd => (hq hd).imp_right fun hl x hx => hl x (by
        rw [List.getLast?_cons, hx]; rfl)
    have hne : f s ≠ .keep → env.dbg = true → query_part (st.obj env.dbg) ≠ .ok [] ∨ 0 < todo.length := fun hfs hd =>
      (hq hd).imp_right fun hl => List.length_pos_iff.2 fun h0 => hfs (hl s (by rw [h0]; rfl))
    have hat : Base.segAt done.length env st = .ret it st := run_ask hi
    cases hfs : f s with
    | keep =>
      simp only
      rw [run_bind_ret (run_ask hn)]
      rcases ih hf (done := done ++ [s]) h (by rw [hs]; simp) (by rw [List.length_append]; exact hn') (fun _ => .inl (by simp)) hq' with
        ⟨st', h1, h2, h3, h4⟩ | ⟨a, s', b, t, st', h1, h2, h3, h4, hm, h5⟩
      · refine .inl ⟨st', h1, h2, ?_, ?_⟩
        · simpa [hfs, Deed.result] using h3
        · simpa [hfs, Deed.result] using h4
      · refine .inr ⟨s :: a, s', b, t, st', by rw [h1]; rfl, h2, h3, h4, hm, ?_⟩
        simpa [hfs, Deed.result] using h5
    | erase =>
      simp only
      have hap : (SegOp.erase done.length).apply (pathSegments p) = done ++ todo := by
        rw [hs]; simp [SegOp.apply, SegOp.cut, SegOp.text]
      rcases h.edit (e := .erase done.length) ⟨Nat.le_succ _, hk⟩ trivial (by rw [hap, List.length_append]; omega)
        (if hp : Rootless p then .inl (.inl (hpos (by rw [hfs]; simp) hp)) else .inr hp)
        (fun hd => (hne (by rw [hfs]; simp) hd).imp_right fun h0 => by rw [hap, List.length_append]; show done.length + 0 < _; omega) with
        ⟨it1, st1, r1, r2, r3, r4, r5⟩ | ⟨r1, -⟩
      · rw [hap] at r2 r3
        have r1 : (Base.segAt done.length >>= Base.seg_erase) env st = .ret it1 st1 := r1
        rw [run_bind_ret hat] at r1
        rw [run_bind_ret r1]
        have hlike : Rootless p → (done ++ todo).head? = (pathSegments p).head? := fun hp => hhead _ (hpos (by rw [hfs]; simp) hp)
        rcases ih hf (done := done) r2 r3 r4 (fun hp => .inl (hpos (by rw [hfs]; simp) ((rootless_like hlike).1 hp))) (by rw [r5.query]; exact hq') with ⟨st', h1, h2, h3, h4⟩ | ⟨a, s', b, t, st', h1, h2, h3, h4, hm, h5⟩
        · rw [joinedLike_like hlike] at h3 h4
          refine .inl ⟨st', h1, r5.trans h2, ?_, ?_⟩
          · simpa [hfs, Deed.result] using h3
          · simpa [hfs, Deed.result] using h4
        · rw [joinedLike_like hlike] at h5
          refine .inr ⟨s :: a, s', b, t, st', by rw [h1]; rfl, h2, h3, r5.trans h4, hm, ?_⟩
          simpa [hfs, Deed.result] using h5
      · rw [hap] at r1
        have hp' := congrArg List.length hp
        unfold joinedLike at r1 hp'
        by_cases hroot : Rootless p <;> simp [hroot, joined] at r1 hp' <;> omega
    | replace t =>
      simp only
      have hap : (SegOp.replace done.length t).apply (pathSegments p) = (done ++ [pctEncode isPchar t]) ++ todo := by
        rw [hs]; simp [SegOp.apply, SegOp.cut, SegOp.text]
      rcases h.edit (e := .replace done.length t) ⟨Nat.le_succ _, hk⟩ trivial
        (by rw [hap, List.length_append, List.length_append, List.length_singleton]; omega)
        (if hp : Rootless p then .inl (.inl (hpos (by rw [hfs]; simp) hp)) else .inr hp)
        (fun hd => (hne (by rw [hfs]; simp) hd).imp_right fun h0 => by
          rw [hap, List.length_append, List.length_append, List.length_singleton]; show done.length + 1 < _; omega) with
        ⟨it1, st1, r1, r2, r3, r4, r5⟩ | ⟨-, st1, r1, r2, r3, r4⟩
      · rw [hap] at r2 r3
        have r1 : (Base.segAt done.length >>= fun i => Base.seg_replace i t) env st = .ret it1 st1 := r1
        rw [run_bind_ret hat] at r1
        rw [run_bind_ret r1]
        have hlike : Rootless p → (done ++ [pctEncode isPchar t] ++ todo).head? = (pathSegments p).head? := fun hp => by
          rw [List.append_assoc]; exact hhead _ (hpos (by rw [hfs]; simp) hp)
        rcases ih hf (done := done ++ [pctEncode isPchar t]) r2 r3 (by rw [List.length_append]; exact r4) (fun _ => .inl (by simp)) (by rw [r5.query]; exact hq') with
          ⟨st', h1, h2, h3, h4⟩ | ⟨a, s', b, t, st', h1, h2, h3, h4, hm, h5⟩
        · rw [joinedLike_like hlike] at h3 h4
          refine .inl ⟨st', h1, r5.trans h2, ?_, ?_⟩
          · simpa [hfs, Deed.result] using h3
          · simpa [hfs, Deed.result] using h4
        · rw [joinedLike_like hlike] at h5
          refine .inr ⟨s :: a, s', b, t, st', by rw [h1]; rfl, h2, h3, r5.trans h4, hm, ?_⟩
          simpa [hfs, Deed.result] using h5
      · have r1 : (Base.segAt done.length >>= fun i => Base.seg_replace i t) env st = .throw .bad_alloc st1 := r1
        rw [run_bind_ret hat] at r1
        rw [run_bind_throw r1]
        have hle : s.length ≤ p.length ∧ p.length + (pctEncode isPchar t).length =
            (joinedLike p (done ++ [pctEncode isPchar t] ++ todo)).length + s.length := by
          have hp' := congrArg List.length hp
          unfold joinedLike at hp' ⊢
          by_cases hroot : Rootless p <;> simp [hroot, joined] at hp' ⊢ <;> omega
        have hsz : p.length ≤ Url.size (st1.obj env.dbg) := by
          obtain ⟨c, hrep, -⟩ := r2.reach.rep
          have := r2.path env.dbg
          rw [(hrep.reports env.dbg).path] at this
          cases this
          rw [(hrep.reports env.dbg).size]
          exact path_le_render c
        rw [hap] at r4
        refine .inr ⟨[], s, todo, t, st1, rfl, hfs, rfl, r3,
          ⟨Url.size (st1.obj env.dbg) + (pctEncode isPchar t).length - s.length, by omega, r4 _ (by omega)⟩, ?_⟩
        simpa [← hp] using r2

theorem Orderly.begins (h : Orderly env st p) : ∃ it, Seg.nth id_query (st.obj env.dbg) 0 = .ok it ∧
    ∀ fuel, rework f fuel env st = reworkFrom f fuel it env st := by
  obtain ⟨c, hrep, -⟩ := h.reach.rep
  have hp := h.path env.dbg
  rw [(hrep.reports env.dbg).path] at hp
  cases hp
  refine ⟨_, segAt_eq hrep h.zero env.dbg (Nat.zero_le _), fun fuel => ?_⟩
  unfold rework
  rw [run_bind_ret (run_ask (segAt_eq hrep h.zero env.dbg (Nat.zero_le _)))]

/-- C74: the loop ends, does nothing undefined and fails no assertion. If it returns, every segment became what the loop wanted
of it, in the order they were in; the count is right, a further loop sees the new segments, and nothing but the path changed. If
it throws, it is in a call of `replace` whose text neither the capacity nor the allocator provides for: the segments before that one are changed, it and those behind it are
not, and the object is in order as before. In a build with assertions there must be a query, or the last segment must be kept:
see `C74_last_false`. If the path does not start with a slash, its first segment must be kept: see `C74_false`. -/
theorem C74_loop_partial (h : Orderly env st p) {fuel : Nat} (hf : (pathSegments p).length < fuel)
    (hr : Rootless p → ∀ s, (pathSegments p).head? = some s → f s = .keep)
    (hq : env.dbg = true → query_part (st.obj env.dbg) ≠ .ok [] ∨ ∀ s, (pathSegments p).getLast? = some s → f s = .keep) :
    (∃ st', rework f fuel env st = .ret () st' ∧ PathOnly st st' ∧
      ∃ l, (l = (pathSegments p).flatMap fun s => (f s).result s) ∧ (∀ dbg, encoded_path (st'.obj dbg) = .ok (joinedLike p l)) ∧
        st'.pt.nseg = l.length ∧ (∀ dbg fuel', l.length < fuel' → Base.segments (st'.obj dbg) fuel' = .ok l) ∧
        Orderly env st' (joinedLike p l)) ∨
    (∃ a s b t st', pathSegments p = a ++ s :: b ∧ f s = .replace t ∧ rework f fuel env st = .throw .bad_alloc st' ∧
      PathOnly st st' ∧ (∃ n, n + s.length = Url.size (st'.obj env.dbg) + (pctEncode isPchar t).length ∧ Lacks env st' n) ∧
      Orderly env st' (joinedLike p ((a.flatMap fun s => (f s).result s) ++ s :: b))) := by
  obtain ⟨it, hi, hrun⟩ := h.begins (f := f)
  rw [hrun]
  rcases h.loop (f := f) (pathSegments p) hf (done := []) rfl hi (fun hp => .inr (hr hp)) hq with ⟨st', h1, h2, h3, h4⟩ | ⟨a, s, b, t, st', h1, h2, h3, h4, hm, h5⟩
  · rw [List.nil_append] at h3 h4
    refine .inl ⟨st', h1, h2, _, rfl, h3.path, ?_, fun dbg fuel' hf' => ?_, h3⟩
    · rw [h3.tidy.2.2 _ (h3.path false), h4]
    · have := C34_stale h3.reach dbg (h3.path dbg) h3.zero (fuel := fuel') (by rw [h4]; exact hf')
      rw [this, h4]
  · exact .inr ⟨a, s, b, t, st', h1, h2, h3, h4, hm, h5⟩

/-- C74: a loop that only erases always returns, however little memory there is: what is left are the segments it kept. -/
theorem C74_erase_partial {keeps : Str → Bool} (h : Orderly env st p) {fuel : Nat} (hf : (pathSegments p).length < fuel)
    (hr : Rootless p → ∀ s, (pathSegments p).head? = some s → keeps s = true)
    (hq : env.dbg = true → query_part (st.obj env.dbg) ≠ .ok [] ∨ ∀ s, (pathSegments p).getLast? = some s → keeps s = true) :
    ∃ st', rework (fun s => if keeps s then .keep else .erase) fuel env st = .ret () st' ∧ PathOnly st st' ∧
      (∀ dbg, encoded_path (st'.obj dbg) = .ok (joinedLike p ((pathSegments p).filter keeps))) ∧
      st'.pt.nseg = ((pathSegments p).filter keeps).length := by
  rcases C74_loop_partial (f := fun s => if keeps s then .keep else .erase) h hf
    (fun hp s hs => by rw [hr hp s hs]; rfl) (fun hd => (hq hd).imp_right fun hl s hs => by rw [hl s hs]; rfl) with ⟨st', h1, h2, l, hl, h3, h4, -⟩ | ⟨a, s, b, t, st', -, h2, -⟩
  · have : l = (pathSegments p).filter keeps := by
      rw [hl]
      generalize pathSegments p = L
      induction L with
      | nil => rfl
      | cons s L ih =>
        rw [List.flatMap_cons, ih, List.filter_cons]
        cases keeps s <;> rfl
    subst this
    exact ⟨st', h1, h2, h3, h4⟩
  · revert h2
    cases keeps s <;> intro h2 <;> cases h2

theorem not_ret_bind {α β : Type} {m : M α} {g : α → M β} {b : β} (h : ∀ a st', m env st ≠ .ret a st') : (m >>= g) env st ≠ .ret b st' := by
  rw [run_bind]
  cases hm : m env st with
  | ret a st1 => exact absurd hm (h a st1)
  | throw e st1 => simp
  | fault x => simp

theorem Orderly.last (todo : List Str) {fuel : Nat} {done : List Str} {it : SegIt} {st : St} {p : Str} (hd : env.dbg = true)
    (h : Orderly env st p) (hs : pathSegments p = done ++ todo) (hi : Seg.nth id_query (st.obj env.dbg) done.length = .ok it)
    (hr : Rootless p → 0 < done.length ∨ ∀ s, todo.head? = some s → f s = .keep)
    (hq : query_part (st.obj env.dbg) = .ok []) {l : Str} (hl : todo.getLast? = some l) (hf : f l ≠ .keep) :
    reworkFrom f fuel it env st ≠ .ret () st' := by
  induction todo generalizing fuel done it st p with
  | nil => cases hl
  | cons s todo ih =>
    cases fuel with
    | zero => exact fun h => by cases h
    | succ n =>
    have hlen : (pathSegments p).length = done.length + (todo.length + 1) := by rw [hs]; simp
    have hk : done.length < (pathSegments p).length := by omega
    obtain ⟨ha, hb⟩ := h.at (k := done.length) (by omega) hi
    obtain ⟨hd', it', hn, hn'⟩ := hb hk
    rw [decide_eq_false (by omega)] at ha
    have hds : (pathSegments p)[done.length] = s := by simp [hs]
    rw [hds] at hd'
    rw [reworkFrom, run_bind_ret (run_ask ha)]
    simp only [Bool.false_eq_true, if_false]
    rw [run_bind_ret (run_ask hd')]
    have few := h.few
    have hpos : f s ≠ .keep → Rootless p → 0 < done.length := fun hfs hp =>
      (hr hp).resolve_right fun hl => hfs (hl s rfl)
    have hhead : ∀ l, 0 < done.length → (done ++ l).head? = (pathSegments p).head? := by
      intro l h0
      rw [hs]
      cases done with
      | nil => cases h0
      | cons x d => rfl
    have hat : Base.segAt done.length env st = .ret it st := run_ask hi
    have hl' : todo ≠ [] → todo.getLast? = some l := by
      intro h0
      obtain ⟨x, y, rfl⟩ := List.exists_cons_of_ne_nil h0
      simpa using hl
    have hz : todo = [] → s = l := by
      rintro rfl
      simpa using hl
    cases hfs : f s with
    | keep =>
      simp only
      rw [run_bind_ret (run_ask hn)]
      have h0 : todo ≠ [] := fun h0 => hf (by rw [← hz h0]; exact hfs)
      exact ih (done := done ++ [s]) h (by rw [hs]; simp) (by rw [List.length_append]; exact hn') (fun _ => .inl (by simp)) hq (hl' h0)
    | erase =>
      simp only
      have hap : (SegOp.erase done.length).apply (pathSegments p) = done ++ todo := by
        rw [hs]; simp [SegOp.apply, SegOp.cut, SegOp.text]
      have hfit : (SegOp.erase done.length).Fits (pathSegments p).length := ⟨Nat.le_succ _, hk⟩
      have hrun : Base.seg_erase it env st = runSeg (.erase done.length) env st := by
        show _ = (Base.segAt done.length >>= Base.seg_erase) env st
        rw [run_bind_ret hat]
      by_cases h0 : todo = []
      · refine not_ret_bind fun a st1 => ?_
        rw [hrun]
        refine C37_end_false h.reach (h.editable hfit) hd (h.path _) hq ?_ (.inl ?_)
        · rw [hap, h0, List.append_nil]; rfl
        · show done.length ≠ done.length + 1; omega
      · rcases h.edit (e := .erase done.length) hfit trivial (by rw [hap, List.length_append]; omega)
          (if hp : Rootless p then .inl (.inl (hpos (by rw [hfs]; simp) hp)) else .inr hp)
          (fun _ => .inr (by have := List.length_pos_iff.2 h0; rw [hap, List.length_append]; show done.length + 0 < _; omega)) with
          ⟨it1, st1, r1, r2, r3, r4, r5⟩ | ⟨-, st1, r1, -⟩
        · rw [← hrun] at r1
          rw [hap] at r2 r3
          rw [run_bind_ret r1]
          exact ih (done := done) r2 r3 r4 (fun hp => .inl (hpos (by rw [hfs]; simp)
            ((rootless_like fun hp => hhead _ (hpos (by rw [hfs]; simp) hp)).1 hp))) (by rw [r5.query]; exact hq) (hl' h0)
        · rw [← hrun] at r1
          rw [run_bind_throw r1]
          exact fun h => by cases h
    | replace t =>
      simp only
      have hap : (SegOp.replace done.length t).apply (pathSegments p) = (done ++ [pctEncode isPchar t]) ++ todo := by
        rw [hs]; simp [SegOp.apply, SegOp.cut, SegOp.text]
      have hfit : (SegOp.replace done.length t).Fits (pathSegments p).length := ⟨Nat.le_succ _, hk⟩
      have hrun : Base.seg_replace it t env st = runSeg (.replace done.length t) env st := by
        show _ = (Base.segAt done.length >>= fun i => Base.seg_replace i t) env st
        rw [run_bind_ret hat]
      by_cases h0 : todo = []
      · refine not_ret_bind fun a st1 => ?_
        rw [hrun]
        refine C37_end_false h.reach (h.editable hfit) hd (h.path _) hq ?_ (.inl ?_)
        · rw [hap, h0, List.append_nil, List.length_append]; rfl
        · show done.length ≠ done.length + 1; omega
      · rcases h.edit (e := .replace done.length t) hfit trivial
          (by rw [hap, List.length_append, List.length_append, List.length_singleton]; omega)
          (if hp : Rootless p then .inl (.inl (hpos (by rw [hfs]; simp) hp)) else .inr hp)
          (fun _ => .inr (by
            have := List.length_pos_iff.2 h0
            rw [hap, List.length_append, List.length_append, List.length_singleton]; show done.length + 1 < _; omega)) with
          ⟨it1, st1, r1, r2, r3, r4, r5⟩ | ⟨-, st1, r1, -⟩
        · rw [← hrun] at r1
          rw [hap] at r2 r3
          rw [run_bind_ret r1]
          exact ih (done := done ++ [pctEncode isPchar t]) r2 r3 (by rw [List.length_append]; exact r4) (fun _ => .inl (by simp)) (by rw [r5.query]; exact hq) (hl' h0)
        · rw [← hrun] at r1
          rw [run_bind_throw r1]
          exact fun h => by cases h

/-- C74 is false otherwise: in a build with assertions, if there is no query and the last segment is not to be kept, the loop
does not return. -/
theorem C74_last_false (h : Orderly env st p) (hr : Rootless p → ∀ s, (pathSegments p).head? = some s → f s = .keep) (hd : env.dbg = true) (hq : query_part (st.obj env.dbg) = .ok []) {l : Str}
    (hl : (pathSegments p).getLast? = some l) (hf : f l ≠ .keep) (fuel : Nat) : rework f fuel env st ≠ .ret () st' := by
  obtain ⟨it, hi, hrun⟩ := h.begins (f := f)
  rw [hrun]
  exact Orderly.last (pathSegments p) hd h (done := []) rfl hi (fun hp => .inr (hr hp)) hq hl hf

/-- the path, the count and the whole text after the loop, or the way it went wrong -/
def reworked (f : Str → Deed) (fuel : Nat) (env : Env) (s : Str) : Except Flt (R Str × R Str × Nat) :=
  match rework f fuel env (made env s) with
  | .ret _ st | .throw _ st => .ok (encoded_path (st.obj false), encoded_url (st.obj false), st.pt.nseg)
  | .fault x => .error x

/-- drops dots, and spells out an abbreviation -/
def tidyUp (s : Str) : Deed := if s = b!"." then .erase else if s = b!"~" then .replace b!"my home" else .keep

/-- what `C74_loop_partial` asks of a state, for a state made from a string -/
theorem made_orderly {s p : Str} (hs : s ≠ []) (h : Base.make s env Base.empty = .ret () (made env s))
    (hp : ∀ dbg, encoded_path ((made env s).obj dbg) = .ok p) (h2 : (pathSegments p).length ≤ 2147483647) : Orderly env (made env s) p :=
  ⟨(made_ok hs h).1, (made_ok hs h).2, hp, h2⟩

example : Orderly env0 (made env0 b!"s://h/./~/a/.?q#f") b!"/./~/a/." ∧ (pathSegments b!"/./~/a/.").length < 5 ∧
    query_part ((made env0 b!"s://h/./~/a/.?q#f").obj true) ≠ .ok [] ∧
    reworked tidyUp 5 env0 b!"s://h/./~/a/.?q#f" = .ok (.ok b!"/my%20home/a", .ok b!"s://h/my%20home/a?q#f", 2) ∧
    Orderly env1 (made env1 b!"/./~/a/.") b!"/./~/a/." ∧
    reworked tidyUp 5 env1 b!"/./~/a/." = .ok (.ok b!"/my%20home/a", .ok b!"/my%20home/a", 2) ∧
    reworked (fun _ => .erase) 5 env1 b!"/./~/a/." = .ok (.ok [], .ok [], 0) ∧
    reworked tidyUp 5 env0 b!"/./~/a" = .ok (.ok b!"/my%20home/a", .ok b!"/my%20home/a", 2) ∧
    Orderly env1 (made env1 b!"a/./~") b!"a/./~" ∧ Rootless b!"a/./~" ∧ tidyUp b!"a" = .keep ∧
    reworked tidyUp 5 env1 b!"a/./~" = .ok (.ok b!"a/my%20home", .ok b!"a/my%20home", 2) := by
  refine ⟨made_orderly (by decide) rfl ?_ ?_, ?_, ?_, ?_, made_orderly (by decide) rfl ?_ ?_, ?_, ?_, ?_,
    made_orderly (by decide) rfl ?_ ?_, ?_, rfl, ?_⟩ <;> decide +kernel

/-- the path when the loop ran out of memory -/
def given_up (f : Str → Deed) (fuel : Nat) (env : Env) (s : Str) : Option (R Str × Nat) :=
  match rework f fuel env (made env s) with
  | .throw .bad_alloc st => some (encoded_path (st.obj false), st.pt.nseg)
  | _ => none

example : Orderly env10 (made env10 b!"/./~/a?q") b!"/./~/a" ∧
    given_up tidyUp 5 env10 b!"/./~/a?q" = some (.ok b!"/~/a", 2) ∧
    given_up (fun _ => .erase) 5 env10 b!"/./~/a?q" = none :=
  ⟨made_orderly (by decide) rfl (by decide +kernel) (by decide +kernel), by decide +kernel, by decide +kernel⟩

example : Orderly env0 (made env0 b!"/a/b") b!"/a/b" ∧ query_part ((made env0 b!"/a/b").obj true) = .ok [] ∧
    (pathSegments b!"/a/b").getLast? = some b!"b" ∧ tidyUp b!"b" = .keep ∧ (fun _ => Deed.erase) b!"b" ≠ .keep :=
  ⟨made_orderly (by decide) rfl (by decide +kernel) (by decide +kernel), by decide +kernel, by decide +kernel, rfl,
    fun h => by cases h⟩

/-- C74 is false in a build with assertions if there is no query: the loop fails an assertion when the last segment goes. It is
false for a path that does not start with a slash and loses its first segment. Without assertions, the count is too large afterwards; with them, the loop
fails one at the first segment it changes. -/
theorem C74_false : reworked (fun _ => .erase) 5 env0 b!"/a/b" = .error .assert ∧
    reworked (fun _ => .erase) 5 env1 b!"a/b?q" = .ok (.ok [], .ok b!"?q", 1) ∧
    reworked (fun _ => .replace b!"x") 5 env1 b!"a/b" = .ok (.ok b!"/x/x", .ok b!"/x/x", 3) ∧
    reworked (fun s => if s = b!"a" then .erase else .keep) 5 env0 b!"a/b?q" = .error .assert := by
  refine ⟨?_, ?_, ?_, ?_⟩ <;> decide +kernel

/-! ### C75 -/

/-- `for(auto s : xs) it = u.segments().insert(it, s);` -/
def insertAll : List Str → SegIt → M SegIt
  | [], it => pure it
  | s :: xs, it => do insertAll xs (← Base.seg_insert it s)

theorem Orderly.insertAll (xs : List Str) {a b : List Str} {it : SegIt} {st : St} {p : Str} (h : Orderly env st p)
    (hs : pathSegments p = a ++ b) (hi : Seg.nth id_query (st.obj env.dbg) a.length = .ok it)
    (few : (pathSegments p).length + xs.length ≤ 2147483647)
    (hr : Rootless p → 0 < a.length)
    (hq : env.dbg = true → query_part (st.obj env.dbg) ≠ .ok [] ∨ 0 < b.length) :
    (∃ it' st', insertAll xs it env st = .ret it' st' ∧ PathOnly st st' ∧
      Orderly env st' (joinedLike p (a ++ xs.map (pctEncode isPchar) ++ b)) ∧
      pathSegments (joinedLike p (a ++ xs.map (pctEncode isPchar) ++ b)) = a ++ xs.map (pctEncode isPchar) ++ b ∧
      Seg.nth id_query (st'.obj env.dbg) (a.length + xs.length) = .ok it') ∨
    (∃ x s y st', xs = x ++ s :: y ∧ insertAll xs it env st = .throw .bad_alloc st' ∧ PathOnly st st' ∧
      Lacks env st' (Url.size (st'.obj env.dbg) + ((pctEncode isPchar s).length + 1)) ∧
      Orderly env st' (joinedLike p (a ++ x.map (pctEncode isPchar) ++ b))) := by
  induction xs generalizing a it st p with
  | nil =>
    have hp : joinedLike p (a ++ b) = p := by rw [← hs]; exact joinedLike_segments p
    refine .inl ⟨it, st, rfl, .refl st, ?_, ?_, by simpa using hi⟩
    · simpa [hp] using h
    · simpa [hp] using hs
  | cons s xs ih =>
    have hlen : (pathSegments p).length = a.length + b.length := by rw [hs, List.length_append]
    rw [List.length_cons] at few
    have hp : joinedLike p (a ++ b) = p := by rw [← hs]; exact joinedLike_segments p
    have hat : Base.segAt a.length env st = .ret it st := run_ask hi
    have hap : (SegOp.insert a.length s).apply (pathSegments p) = (a ++ [pctEncode isPchar s]) ++ b := by
      rw [hs]; simp [SegOp.apply, SegOp.cut, SegOp.text]
    have hapl : ((a ++ [pctEncode isPchar s]) ++ b).length = (pathSegments p).length + 1 := by
      rw [hlen]; simp; omega
    rcases h.edit (e := .insert a.length s) ⟨Nat.le_refl _, by show a.length ≤ _; omega⟩ trivial (by rw [hap, hapl]; omega)
      (if hp : Rootless p then .inl (.inl (hr hp)) else .inr hp)
      (fun hd => (hq hd).imp_right fun h0 => by rw [hap, hapl]; show a.length + 1 < _; omega) with
      ⟨it1, st1, r1, r2, r3, r4, r5⟩ | ⟨-, st1, r1, r2, r3, r4⟩
    · rw [hap] at r2 r3
      have r1 : (Base.segAt a.length >>= fun i => Base.seg_insert i s) env st = .ret it1 st1 := r1
      rw [run_bind_ret hat] at r1
      rw [Props.insertAll, run_bind_ret r1]
      have hlike : Rootless p → (a ++ [pctEncode isPchar s] ++ b).head? = (pathSegments p).head? := fun hp => by
        have := hr hp
        rw [hs, List.append_assoc]
        cases a with
        | nil => cases this
        | cons x d => rfl
      rcases ih (a := a ++ [pctEncode isPchar s]) r2 r3 (by rw [List.length_append]; exact r4) (by rw [r3, hapl]; omega)
        (fun _ => by simp) (by rw [r5.query]; exact hq) with
        ⟨it', st', h1, h2, h3, h4, h5⟩ | ⟨x, s', y, st', h1, h2, h3, hm, h4⟩
      · rw [joinedLike_like hlike] at h3 h4
        refine .inl ⟨it', st', h1, r5.trans h2, ?_, ?_, ?_⟩
        · simpa using h3
        · simpa using h4
        · rw [← h5, List.length_append, List.length_cons, List.length_singleton]
          congr 1
          omega
      · rw [joinedLike_like hlike] at h4
        refine .inr ⟨s :: x, s', y, st', by rw [h1]; rfl, h2, r5.trans h3, hm, ?_⟩
        simpa using h4
    · have r1 : (Base.segAt a.length >>= fun i => Base.seg_insert i s) env st = .throw .bad_alloc st1 := r1
      rw [run_bind_ret hat] at r1
      rw [Props.insertAll, run_bind_throw r1]
      have hle : (joinedLike p (a ++ [pctEncode isPchar s] ++ b)).length = p.length + ((pctEncode isPchar s).length + 1) := by
        have hp' := congrArg List.length hp
        have h0 : Rootless p → 0 < a.length := hr
        unfold joinedLike at hp' ⊢
        by_cases hroot : Rootless p
        · have h0 := h0 hroot
          cases a with
          | nil => cases h0
          | cons x a => simp [hroot, joined] at hp' ⊢; omega
        · simp [hroot, joined] at hp' ⊢
          omega
      rw [hap, hle] at r4
      refine .inr ⟨[], s, xs, st1, rfl, rfl, r3, r4 _ (by omega), ?_⟩
      simpa [hp] using r2

theorem strings_encoded (xs : List Str) : (xs.map (pctEncode isPchar)).mapM Seg.string = .ok xs := by
  induction xs with
  | nil => rfl
  | cons s xs ih =>
    have : Seg.string (pctEncode isPchar s) = .ok s := decode_pctEncode setOf_pchar s
    rw [List.map_cons, List.mapM_cons, this, ih]
    rfl

/-- C75: strings of any bytes that are inserted one after the other, each at the iterator the insertion before returned, are
read back (in a build with assertions if there is a query or the position is not the end): a loop over the segments sees those
before the position, then one for each string that decodes to it, then those
that were behind. The iterator returned is the one behind them. If neither the capacity nor the allocator provides for the text with
the next string, those before it are in place, and the object is in order. No other component changes. -/
theorem C75_insert_partial {k : Nat} {it : SegIt} {xs : List Str} (h : Orderly env st p) (hk : k ≤ (pathSegments p).length)
    (hi : Seg.nth id_query (st.obj env.dbg) k = .ok it) (few : (pathSegments p).length + xs.length ≤ 2147483647)
    (hr : Rootless p → 0 < k) (hq : env.dbg = true → query_part (st.obj env.dbg) ≠ .ok [] ∨ k < (pathSegments p).length) :
    (∃ it' st' mid, insertAll xs it env st = .ret it' st' ∧ PathOnly st st' ∧ mid.mapM Seg.string = .ok xs ∧
      (∀ dbg fuel, (pathSegments p).length + xs.length < fuel →
        Base.segments (st'.obj dbg) fuel = .ok ((pathSegments p).take k ++ mid ++ (pathSegments p).drop k)) ∧
      st'.pt.nseg = (pathSegments p).length + xs.length ∧
      Seg.nth id_query (st'.obj env.dbg) (k + xs.length) = .ok it') ∨
    (∃ x s y st' mid, xs = x ++ s :: y ∧ insertAll xs it env st = .throw .bad_alloc st' ∧ PathOnly st st' ∧
      Lacks env st' (Url.size (st'.obj env.dbg) + ((pctEncode isPchar s).length + 1)) ∧
      mid.mapM Seg.string = .ok x ∧ Orderly env st' (joinedLike p ((pathSegments p).take k ++ mid ++ (pathSegments p).drop k))) := by
  have htl : ((pathSegments p).take k).length = k := by rw [List.length_take]; omega
  rcases h.insertAll xs (a := (pathSegments p).take k) (b := (pathSegments p).drop k) (List.take_append_drop _ _).symm
    (by rw [htl]; exact hi) few (by rw [htl]; exact hr) (fun hd => (hq hd).imp_right fun h => by rw [List.length_drop]; omega) with ⟨it', st', h1, h2, h3, h4, h5⟩ | ⟨x, s, y, st', h1, h2, h3, hm, h4⟩
  · have hlen : ((pathSegments p).take k ++ xs.map (pctEncode isPchar) ++ (pathSegments p).drop k).length =
        (pathSegments p).length + xs.length := by
      simp only [List.length_append, htl, List.length_map, List.length_drop]; omega
    refine .inl ⟨it', st', _, h1, h2, strings_encoded xs, fun dbg fuel hf => ?_, ?_, by rw [← h5, htl]⟩
    · rw [C34_stale h3.reach dbg (h3.path dbg) h3.zero (fuel := fuel) (by rw [h4, hlen]; exact hf), h4]
    · rw [h3.tidy.2.2 _ (h3.path false), h4, hlen]
  · exact .inr ⟨x, s, y, st', _, h1, h2, h3, hm, strings_encoded x, h4⟩

/-- the text, the count and the iterator after inserting strings at position `k` -/
def inserted (xs : List Str) (k : Nat) (env : Env) (s : Str) : Except Flt (R Str × Nat × SegIt) :=
  match (do insertAll xs (← Base.segAt k)) env (made env s) with
  | .ret it st => .ok (encoded_url (st.obj false), st.pt.nseg, it)
  | .throw _ st => .ok (encoded_url (st.obj false), st.pt.nseg, ⟨0, 0⟩)
  | .fault x => .error x

example : Orderly env0 (made env0 b!"s://h/a/b?q") b!"/a/b" ∧
    inserted [b!"x/y", [], b!"%"] 1 env0 b!"s://h/a/b?q" = .ok (.ok b!"s://h/a/x%2Fy//%25/b?q", 5, ⟨18, 2⟩) ∧
    Orderly env1 (made env1 b!"s://h") [] ∧
    inserted [b!"x/y", [], b!"%"] 0 env1 b!"s://h" = .ok (.ok b!"s://h/x%2Fy//%25", 3, ⟨16, 0⟩) := by
  refine ⟨made_orderly (by decide) rfl ?_ ?_, ?_, made_orderly (by decide) rfl ?_ ?_, ?_⟩ <;> decide +kernel

/-- C75 is false without the conditions: at the end of a path without a query an assertion fails, and what is put in front of
a path without a slash is merged with its first segment. -/
theorem C75_false : inserted [b!"x"] 2 env0 b!"/a/b" = .error .assert ∧
    inserted [b!"x", b!"y"] 0 env1 b!"a/b" = .ok (.ok b!"/x/ya/b", 4, ⟨4, 1⟩) := by
  refine ⟨?_, ?_⟩ <;> decide +kernel

/-- `for(auto s : xs) it = u.segments().insert(it, s);` after `it = u.segments().erase(u.segments().begin(), u.segments().end())` -/
def assignAll (xs : List Str) : M SegIt := do
  let first ← M.ask fun o => Seg.first id_query o
  let last ← M.ask fun o => .ok (Seg.last o)
  insertAll xs (← Base.seg_erase_range first last)

/-- C75: any list of strings of any bytes can be made the segments of the path and is read back from it, in a build with
assertions if there is a query. The position is then the end. If memory runs out, a first part of the list is in place. -/
theorem C75_assign_partial {xs : List Str} (h : Orderly env st p) (hr : ¬ Rootless p) (few : xs.length ≤ 2147483647)
    (hq : env.dbg = true → query_part (st.obj env.dbg) ≠ .ok []) :
    (∃ it st' segs, assignAll xs env st = .ret it st' ∧ PathOnly st st' ∧ segs.mapM Seg.string = .ok xs ∧
      (∀ dbg fuel, xs.length < fuel → Base.segments (st'.obj dbg) fuel = .ok segs) ∧ st'.pt.nseg = xs.length ∧
      Seg.nth id_query (st'.obj env.dbg) xs.length = .ok it) ∨
    (∃ x s y st' segs, xs = x ++ s :: y ∧ assignAll xs env st = .throw .bad_alloc st' ∧ PathOnly st st' ∧
      Lacks env st' (Url.size (st'.obj env.dbg) + ((pctEncode isPchar s).length + 1)) ∧
      segs.mapM Seg.string = .ok x ∧ Orderly env st' (joined segs)) := by
  have hlast : Seg.nth id_query (st.obj env.dbg) (pathSegments p).length = .ok (Seg.last (st.obj env.dbg)) := by
    obtain ⟨c, hrep, -⟩ := h.reach.rep
    have hp := h.path env.dbg
    rw [(hrep.reports env.dbg).path] at hp
    cases hp
    rw [segAt_eq hrep h.zero env.dbg (Nat.le_refl _), ← pieces_length, posIt_last (base_ctx (hrep.obj env.dbg)).lim]
  obtain ⟨it0, h0, -⟩ := h.begins (f := fun _ => .keep)
  have hap : (SegOp.erase_range 0 (pathSegments p).length).apply (pathSegments p) = [] := by
    simp [SegOp.apply, SegOp.cut, SegOp.text]
  have hat0 : Base.segAt 0 env st = .ret it0 st := run_ask h0
  have hatl : Base.segAt (pathSegments p).length env st = .ret (Seg.last (st.obj env.dbg)) st := run_ask hlast
  have hrun : ∀ g : SegIt → M SegIt, ((do
      let first ← M.ask fun o => Seg.first id_query o
      let last ← M.ask fun o => .ok (Seg.last o)
      g (← Base.seg_erase_range first last)) : M SegIt) env st =
      (runSeg (.erase_range 0 (pathSegments p).length) >>= g) env st := by
    intro g
    have e1 : runSeg (.erase_range 0 (pathSegments p).length) env st = Base.seg_erase_range it0 (Seg.last (st.obj env.dbg)) env st := by
      show (Base.segAt 0 >>= fun first => Base.segAt (pathSegments p).length >>= fun last => Base.seg_erase_range first last) env st = _
      rw [run_bind_ret hat0, run_bind_ret hatl]
    rw [run_bind_ret (run_ask h0), run_bind_ret (run_ask (a := Seg.last (st.obj env.dbg)) rfl), run_bind, run_bind, e1]
  rcases h.edit (e := .erase_range 0 (pathSegments p).length) ⟨Nat.zero_le _, Nat.le_refl _⟩ trivial (by rw [hap]; simp) (.inr hr)
    (fun hd => .inl (hq hd)) with ⟨it1, st1, r1, r2, r3, r4, r5⟩ | ⟨r1, -⟩
  · rw [hap] at r2 r3
    have hrun' : assignAll xs env st = insertAll xs it1 env st1 := by
      unfold assignAll
      rw [hrun, run_bind_ret r1]
    have hz : (pathSegments (joinedLike p [])).length = 0 := by rw [r3]; rfl
    rw [hrun']
    rcases C75_insert_partial (xs := xs) r2 (Nat.zero_le _) r4 (by rw [hz]; omega) (fun h => absurd ((rootless_like fun h => absurd h hr).1 h) hr)
      (fun hd => .inl (by rw [r5.query]; exact hq hd)) with
      ⟨it', st', mid, h1, h2, h3, h4, h5, h6⟩ | ⟨x, s, y, st', mid, h1, h2, h3, hm, h4, h5⟩
    · rw [r3] at h4 h5
      refine .inl ⟨it', st', mid, h1, r5.trans h2, h3, fun dbg fuel hf => ?_, by simpa using h5, by simpa using h6⟩
      simpa using h4 dbg fuel (by simpa using hf)
    · rw [r3, joinedLike_like fun h => absurd h hr] at h5
      unfold joinedLike at h5
      rw [if_neg hr] at h5
      exact .inr ⟨x, s, y, st', mid, h1, h2, r5.trans h3, hm, h4, by simpa using h5⟩
  · rw [hap] at r1
    exact absurd r1 (by simp [joinedLike, joined])

/-- the text and the count after making the path from a list -/
def assigned (xs : List Str) (env : Env) (s : Str) : Except Flt (R Str × Nat) :=
  match assignAll xs env (made env s) with
  | .ret _ st | .throw _ st => .ok (encoded_url (st.obj false), st.pt.nseg)
  | .fault x => .error x

example : Orderly env0 (made env0 b!"s://h/a/b?q") b!"/a/b" ∧ query_part ((made env0 b!"s://h/a/b?q").obj true) ≠ .ok [] ∧
    assigned [b!"x/y", [], b!"%"] env0 b!"s://h/a/b?q" = .ok (.ok b!"s://h/x%2Fy//%25?q", 3) ∧
    assigned [] env0 b!"s://h/a/b?q" = .ok (.ok b!"s://h?q", 0) := by
  refine ⟨made_orderly (by decide) rfl ?_ ?_, ?_, ?_, ?_⟩ <;> decide +kernel

/-- C75 says nothing about the text being read again: without an authority, an empty string in front makes the next one the
host. -/
theorem C75_reread_false : assigned [[], b!"x"] env1 b!"s:/a" = .ok (.ok b!"s://x", 2) ∧
    (∃ v, View.make b!"s://x" = .ret v ∧ encoded_host (v.obj false) = .ok b!"x" ∧ encoded_path (v.obj false) = .ok []) :=
  ⟨by decide +kernel, _, rfl, by decide +kernel, by decide +kernel⟩

end Url.Props
