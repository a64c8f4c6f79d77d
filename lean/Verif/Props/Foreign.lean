import Verif.Props.Edits
import Verif.Model.Foreign

/-!
C58: ranges and iterators of no url, and of another url.
-/

set_option autoImplicit false

namespace Url.Props
open Spec

variable {env : Env} {st : St}

/-- C58: a default constructed range is an empty one, in every build: it has no elements, `begin()` is `end()`, nothing is
found in it, and `at` throws. -/
theorem C58_default (lim fuel : Nat) (dbg : Bool) (w : World) (key : Str) :
    Range.seg_size w none = 0 ∧ Range.seg_begin lim w none = .ok (Range.seg_end w none) ∧
    Range.seg_walk lim w (fuel + 1) (Range.seg_end w none) (Range.seg_end w none) = .ok [] ∧
    Range.param_size w none = 0 ∧ Range.param_begin w none = .ok (Range.param_end w none) ∧
    Range.param_walk dbg w (fuel + 1) (Range.param_end w none) (Range.param_end w none) = .ok [] ∧
    Range.contains dbg w none key (fuel + 1) = .ok false ∧ Range.count dbg w none key (fuel + 1) = .ok 0 ∧
    Range.find dbg w none key (fuel + 1) = .ok (Range.param_end w none) ∧
    Range.index dbg w none key (fuel + 1) = .ok [] ∧ Range.atKey dbg w none key (fuel + 1) = .ok none :=
  ⟨rfl, rfl, rfl, rfl, rfl, rfl, rfl, rfl, rfl, rfl, rfl⟩

/-- C58: the ranges of an object are those of the other theorems. -/
theorem C58_walk (lim i : Nat) (w : World) : ∀ (fuel : Nat) (it : SegIt),
    Range.seg_walk lim w fuel ⟨some i, it⟩ (Range.seg_end w (some i)) = Seg.collect lim (w i) fuel it := by
  intro fuel
  induction fuel with
  | zero => intro it; rfl
  | succ fuel ih =>
    intro it
    unfold Range.seg_walk Seg.collect
    simp only [Range.seg_eq, Range.seg_end, Range.seg_deref, Range.seg_next, if_true, bind_assoc, pure_bind]
    simp only [Range.seg_end] at ih
    simp only [ih]

theorem C58_param_walk (dbg : Bool) (i : Nat) (w : World) : ∀ (fuel : Nat) (it : ParamIt),
    Range.param_walk dbg w fuel ⟨some i, it⟩ (Range.param_end w (some i)) = Params.collect (w i) fuel it := by
  intro fuel
  induction fuel with
  | zero => intro it; rfl
  | succ fuel ih =>
    intro it
    unfold Range.param_walk Params.collect
    simp only [Range.param_eq, Range.param_end, Range.param_deref, Range.param_next, if_true, bind_assoc, pure_bind]
    simp only [Range.param_end] at ih
    simp only [ih]

theorem findLoop_own (dbg : Bool) (i : Nat) (w : World) (key : Str) : ∀ (fuel : Nat) (it : ParamIt),
    Range.findLoop dbg w key (Range.param_end w (some i)) fuel ⟨some i, it⟩ =
      (do return ⟨some i, ← Params.findLoop (w i) key fuel it⟩) := by
  intro fuel
  induction fuel with
  | zero => intro it; rfl
  | succ fuel ih =>
    intro it
    unfold Range.findLoop Params.findLoop
    simp only [Range.param_eq, Range.param_end, Range.param_deref, Range.param_next, if_true, bind_assoc, pure_bind]
    simp only [Range.param_end] at ih
    simp only [ih]
    congr 1; funext b
    cases b with
    | true => simp
    | false =>
      simp only [Bool.false_eq_true, if_false, bind_assoc]
      congr 1; funext e
      congr 1; funext b
      cases b <;> simp

/-- C58: `find`, `operator[]` and `at` of the parameters of an object are those of C39. -/
theorem C58_find (dbg : Bool) (w : World) (i : Nat) (key : Str) (fuel : Nat) :
    Range.find dbg w (some i) key fuel = (do return ⟨some i, ← Params.find (w i) key fuel⟩) ∧
    Range.index dbg w (some i) key fuel = Params.index (w i) key fuel ∧
    Range.atKey dbg w (some i) key fuel = Params.atKey (w i) key fuel := by
  have hf : Range.find dbg w (some i) key fuel = (do return ⟨some i, ← Params.find (w i) key fuel⟩) := by
    unfold Range.find Params.find
    simp only [Range.param_begin, bind_assoc, pure_bind, findLoop_own]
  refine ⟨hf, ?_, ?_⟩
  · unfold Range.index Params.index
    simp only [hf, bind_assoc, pure_bind, Range.param_eq, Range.param_end, Range.param_deref, if_true]
  · unfold Range.atKey Params.atKey
    simp only [hf, bind_assoc, pure_bind, Range.param_eq, Range.param_end, Range.param_deref, if_true]

theorem countLoop_own (dbg : Bool) (i : Nat) (w : World) (key : Str) : ∀ (fuel : Nat) (it : ParamIt) (n : Nat),
    Range.countLoop dbg w key (Range.param_end w (some i)) false fuel ⟨some i, it⟩ n = Params.countLoop (w i) key fuel it n := by
  intro fuel
  induction fuel with
  | zero => intro it n; rfl
  | succ fuel ih =>
    intro it n
    unfold Range.countLoop Params.countLoop
    simp only [Range.param_eq, Range.param_end, Range.param_deref, Range.param_next, if_true, bind_assoc, pure_bind]
    simp only [Range.param_end] at ih
    simp only [ih]
    congr 1; funext b
    cases b with
    | true => rfl
    | false =>
      simp only [Bool.false_eq_true, if_false]
      congr 1; funext e
      congr 1; funext b
      cases b <;> rfl

theorem containsLoop_own (dbg : Bool) (i : Nat) (w : World) (key : Str) : ∀ (fuel : Nat) (it : ParamIt),
    (do return (← Range.countLoop dbg w key (Range.param_end w (some i)) true fuel ⟨some i, it⟩ 0) != 0) =
      Params.containsLoop (w i) key fuel it := by
  intro fuel
  induction fuel with
  | zero => intro it; rfl
  | succ fuel ih =>
    intro it
    unfold Range.countLoop Params.containsLoop
    simp only [Range.param_eq, Range.param_end, Range.param_deref, Range.param_next, if_true, bind_assoc, pure_bind]
    simp only [Range.param_end] at ih
    simp only [← ih]
    congr 1; funext b
    cases b with
    | true => rfl
    | false =>
      simp only [Bool.false_eq_true, if_false, bind_assoc]
      congr 1; funext e
      congr 1; funext b
      cases b <;> simp

/-- C58: so are `contains` and `count`. -/
theorem C58_count (dbg : Bool) (w : World) (i : Nat) (key : Str) (fuel : Nat) :
    Range.contains dbg w (some i) key fuel = Params.contains (w i) key fuel ∧
    Range.count dbg w (some i) key fuel = Params.count (w i) key fuel := by
  constructor
  · unfold Range.contains Params.contains
    simp only [Range.param_begin, bind_assoc, pure_bind, ← containsLoop_own dbg]
  · unfold Range.count Params.count
    simp only [Range.param_begin, bind_assoc, pure_bind, countLoop_own]

/-- C58: a loop from an iterator of one object to an iterator of another, or to a default constructed one, does not come to
an end: for every bound, it either runs into a fault or is still running. -/
theorem C58_mixed (lim : Nat) (w : World) {e : Handle SegIt} : ∀ (fuel : Nat) {a : Handle SegIt}, a.own ≠ e.own → ∀ l,
    Range.seg_walk lim w fuel a e ≠ .ok l := by
  intro fuel
  induction fuel with
  | zero => intro a _ l h; cases h
  | succ fuel ih =>
    intro a ha l h
    have heq : Range.seg_eq w a e = .ok false := by
      obtain ⟨ao, ai⟩ := a
      obtain ⟨eo, ei⟩ := e
      cases ao <;> cases eo
      · exact absurd rfl ha
      · rfl
      · rfl
      · rename_i i j
        have : i ≠ j := fun hij => ha (by rw [hij])
        simp [Range.seg_eq, this]
    unfold Range.seg_walk at h
    rw [heq] at h
    change (do let s ← Range.seg_deref lim w a; let it ← Range.seg_next lim w a; return s :: (← Range.seg_walk lim w fuel it e)) = _ at h
    cases hdr : Range.seg_deref lim w a with
    | error f => rw [hdr] at h; cases h
    | ok s =>
      rw [hdr] at h
      cases hn : Range.seg_next lim w a with
      | error f => rw [hn] at h; cases h
      | ok b =>
        rw [hn] at h
        have hb : b.own = a.own := by
          unfold Range.seg_next at hn
          split at hn
          · cases hn
          · rename_i i _
            cases hs : Seg.next lim (w i) a.it with
            | error f => rw [hs] at hn; cases hn
            | ok c => rw [hs] at hn; cases hn; rfl
        change (do return s :: (← Range.seg_walk lim w fuel b e)) = _ at h
        cases hw : Range.seg_walk lim w fuel b e with
        | error f => rw [hw] at h; cases h
        | ok l' => exact ih (hb ▸ ha) l' hw

/-- C58: the same for parameters. -/
theorem C58_param_mixed (dbg : Bool) (w : World) {e : Handle ParamIt} : ∀ (fuel : Nat) {a : Handle ParamIt}, a.own ≠ e.own → ∀ l,
    Range.param_walk dbg w fuel a e ≠ .ok l := by
  intro fuel
  induction fuel with
  | zero => intro a _ l h; cases h
  | succ fuel ih =>
    intro a ha l h
    have heq : Range.param_eq w a e = .ok false := by
      obtain ⟨ao, ai⟩ := a
      obtain ⟨eo, ei⟩ := e
      cases ao <;> cases eo
      · exact absurd rfl ha
      · rfl
      · rfl
      · rename_i i j
        have : i ≠ j := fun hij => ha (by rw [hij])
        simp [Range.param_eq, this]
    unfold Range.param_walk at h
    rw [heq] at h
    change (do let s ← Range.param_deref dbg w a; let it ← Range.param_next dbg w a; return s :: (← Range.param_walk dbg w fuel it e)) = _ at h
    cases hdr : Range.param_deref dbg w a with
    | error f => rw [hdr] at h; cases h
    | ok s =>
      rw [hdr] at h
      cases hn : Range.param_next dbg w a with
      | error f => rw [hn] at h; cases h
      | ok b =>
        rw [hn] at h
        have hb : b.own = a.own := by
          unfold Range.param_next at hn
          split at hn
          · cases hn
          · rename_i i _
            cases hs : Params.next (w i) a.it with
            | error f => rw [hs] at hn; cases hn
            | ok c => rw [hs] at hn; cases hn; rfl
        change (do return s :: (← Range.param_walk dbg w fuel b e)) = _ at h
        cases hw : Range.param_walk dbg w fuel b e with
        | error f => rw [hw] at h; cases h
        | ok l' => exact ih (hb ▸ ha) l' hw

theorem own_self : Foreign.own .self = (pure () : M Unit) := by
  funext env st
  cases hd : env.dbg <;> simp [Foreign.own, M.assert, M.ask, Obj.assert, St.obj, hd] <;> rfl

theorem erase_range_self (a b : SegIt) : Foreign.seg_erase_range .self .self a b = Base.seg_erase_range a b := by
  unfold Foreign.seg_erase_range
  rw [own_self]
  rfl

theorem put_self (p : SegIt) (n : Nat) (s : Str) : Foreign.seg_put .self p n s = Base.seg_put p n s := by
  unfold Foreign.seg_put
  rw [own_self]
  rfl

/-- C58: with iterators of the url itself, an edit is the one of C57. -/
theorem C58_self (e : ItOp) : Foreign.runIt .self .self e = runIt e := by
  have h1 : ∀ p, Foreign.seg_erase .self p = Base.seg_erase p := fun p => by
    unfold Foreign.seg_erase Base.seg_erase
    simp only [erase_range_self]
    rfl
  have h2 : ∀ p s n, Foreign.seg_insert_impl .self p s n = Base.seg_insert_impl p s n := fun p s n => by
    unfold Foreign.seg_insert_impl Base.seg_insert_impl
    rw [put_self]
  have h3 : ∀ p s, Foreign.seg_insert_encoded_impl .self p s = Base.seg_insert_encoded_impl p s := fun p s => by
    unfold Foreign.seg_insert_encoded_impl Base.seg_insert_encoded_impl
    rw [put_self]
  have h4 : ∀ p n ins, Foreign.seg_swap .self p n ins = Base.seg_swap p n ins := fun p n ins => by
    unfold Foreign.seg_swap Base.seg_swap
    rw [h1]
  cases e <;> simp only [Foreign.runIt, h1, h2, h3, h4, erase_range_self] <;> rfl

/-- whatever the state, it faults -/
def Stuck {α : Type} (env : Env) (m : M α) : Prop := ∀ st, ∃ f, m env st = .fault f

section
variable {α β : Type}

theorem m_bind (m : M α) (f : α → M β) (env : Env) (st : St) : (m >>= f) env st =
    match m env st with
    | .ret a st => f a env st
    | .throw e st => .throw e st
    | .fault x => .fault x := rfl

theorem Stuck.bind {m : M α} (h : Stuck env m) (f : α → M β) : Stuck env (m >>= f) := by
  intro st
  obtain ⟨x, hx⟩ := h st
  refine ⟨x, ?_⟩
  rw [m_bind]
  rw [hx]

/-- it does not throw and does not change anything -/
def Looks (m : M α) : Prop := ∀ env st, (∃ f, m env st = .fault f) ∨ ∃ a, m env st = .ret a st

theorem Looks.then {m : M α} (h : Looks m) {f : α → M β} (hf : ∀ a, Stuck env (f a)) : Stuck env (m >>= f) := by
  intro st
  simp only [m_bind]
  rcases h env st with ⟨x, hx⟩ | ⟨a, ha⟩
  · exact ⟨x, by rw [hx]⟩
  · rw [ha]; exact hf a st

theorem looks_ask (f : Obj → R α) : Looks (M.ask f) := by
  intro env st
  unfold M.ask
  split
  · exact .inr ⟨_, rfl⟩
  · exact .inl ⟨_, rfl⟩

theorem looks_assert (c : Obj → R Bool) : Looks (M.assert c) := looks_ask _

theorem looks_stored : Looks M.stored := fun _ _ => .inr ⟨_, rfl⟩

theorem looks_via (w : Owner) (f : Obj → R α) : Looks (Foreign.via w f) := by
  cases w with
  | self => exact looks_ask _
  | other o => exact looks_ask fun me => f { o with dbg := me.dbg }
  | null => exact fun _ _ => .inl ⟨_, rfl⟩

theorem stuck_own (hd : env.dbg = true) {w : Owner} (hw : w ≠ .self) : Stuck env (Foreign.own w) := by
  intro st
  refine ⟨.assert, ?_⟩
  cases w with
  | self => exact absurd rfl hw
  | other o => simp [Foreign.own, M.assert, M.ask, Obj.assert, St.obj, hd]
  | null => simp [Foreign.own, M.assert, M.ask, Obj.assert, St.obj, hd]

end

theorem stuck_erase_range (hd : env.dbg = true) {wf wl : Owner} (hw : wf ≠ .self ∨ wl ≠ .self) (a b : SegIt) :
    Stuck env (Foreign.seg_erase_range wf wl a b) := by
  unfold Foreign.seg_erase_range
  refine looks_stored.then fun n => (looks_assert _).then fun _ => ?_
  rcases hw with hw | hw
  · exact (stuck_own hd hw).bind _
  · exact Looks.then (looks_assert _) fun _ => (stuck_own hd hw).bind _

theorem stuck_put (hd : env.dbg = true) {w : Owner} (hw : w ≠ .self) (p : SegIt) (n : Nat) (s : Str) :
    Stuck env (Foreign.seg_put w p n s) := by
  unfold Foreign.seg_put
  exact looks_stored.then fun n => (looks_assert _).then fun _ => (stuck_own hd hw).bind _

theorem stuck_erase (hd : env.dbg = true) {w : Owner} (hw : w ≠ .self) (p : SegIt) : Stuck env (Foreign.seg_erase w p) :=
  (looks_via _ _).then fun _ => stuck_erase_range hd (.inl hw) _ _

/-- the object is as it was -/
def Unchanged (st st' : St) : Prop := st'.pt = st.pt ∧ st'.buf = st.buf ∧ st'.size = st.size ∧ st'.cap = st.cap

/-- whatever the state, it faults, or it throws and changes nothing -/
def Halts {α : Type} (env : Env) (m : M α) : Prop :=
  ∀ st, (∃ f, m env st = .fault f) ∨ ∃ x st', m env st = .throw x st' ∧ Unchanged st st'

section
variable {α β : Type}

theorem Stuck.halts {m : M α} (h : Stuck env m) : Halts env m := fun st => .inl (h st)

theorem Looks.halts {m : M α} (h : Looks m) {f : α → M β} (hf : ∀ a, Halts env (f a)) : Halts env (m >>= f) := by
  intro st
  simp only [m_bind]
  rcases h env st with ⟨x, hx⟩ | ⟨a, ha⟩
  · exact .inl ⟨x, by rw [hx]⟩
  · rw [ha]; exact hf a st

theorem halts_reserve (n : Nat) {f : Unit → M β} (hf : ∀ a, Stuck env (f a)) : Halts env (Storage.reserve n >>= f) := by
  intro st
  simp only [m_bind]
  cases h : Storage.reserve n env st with
  | ret a st' => exact .inl (hf a st')
  | fault x => exact .inl ⟨x, rfl⟩
  | throw e st' =>
    refine .inr ⟨e, st', rfl, ?_⟩
    unfold Storage.reserve at h
    split at h
    · cases h
    · unfold Storage.allocate at h
      dsimp only at h
      split at h
      · rename_i h1
        split at h1
        · cases h1
        · cases h1; cases h; exact ⟨rfl, rfl, rfl, rfl⟩
      · cases h
      · split at h
        · cases h
        · split at h <;> cases h

theorem halts_validate (s : Str) {f : Unit → M β} (hf : ∀ a, Halts env (f a)) : Halts env (Base.validate pchar_pct_set s >>= f) := by
  intro st
  simp only [m_bind]
  unfold Base.validate Base.require
  by_cases hc : pchar_pct_set.check s = true
  · simp only [hc, if_true]; exact hf _ _
  · simp only [hc]; exact .inr ⟨_, _, rfl, rfl, rfl, rfl, rfl⟩

end

theorem halts_swap (hd : env.dbg = true) {w : Owner} (hw : w ≠ .self) (p : SegIt) (n : Nat) (ins : SegIt → M SegIt) :
    Halts env (Foreign.seg_swap w p n ins) := by
  have hk : Stuck env (do
      let cap ← M.capacity
      let r ← ins (← Foreign.seg_erase w p)
      let cap' ← M.capacity
      M.assert fun _ => .ok (cap' = cap)
      return r) :=
    Looks.then (fun _ _ => .inr ⟨_, rfl⟩) fun cap => (stuck_erase hd hw p).bind _
  unfold Foreign.seg_swap
  refine looks_stored.halts fun k => (looks_assert _).halts fun _ => ?_
  dsimp only
  split
  · exact looks_stored.halts fun m => halts_reserve _ fun _ => hk
  · exact hk.halts

/-- the second iterator of a range -/
def _root_.Url.ItOp.Ranged : ItOp → Prop
  | .erase_range _ _ => True
  | _ => False

/-- C58: in a build with assertions, an edit that is given an iterator of another url, or a default constructed one, never
returns and never changes the url: it stops, unless it throws before. -/
theorem C58_debug (hd : env.dbg = true) {wf wl : Owner} {e : ItOp} (hw : wf ≠ .self ∨ wl ≠ .self ∧ e.Ranged) :
    (∃ f, Foreign.runIt wf wl e env st = .fault f) ∨
    ∃ x st', Foreign.runIt wf wl e env st = .throw x st' ∧ st'.pt = st.pt ∧ st'.buf = st.buf ∧ st'.size = st.size ∧ st'.cap = st.cap := by
  revert st
  show Halts env (Foreign.runIt wf wl e)
  cases e with
  | erase_range a b => exact (stuck_erase_range hd (hw.imp id And.left) a b).halts
  | erase p => exact (stuck_erase hd (hw.resolve_right fun h => h.2) p).halts
  | insert p s => exact (Looks.then (looks_assert _) fun _ => stuck_put hd (hw.resolve_right fun h => h.2) _ _ _).halts
  | insert_encoded p s =>
    exact halts_validate s fun _ => (Looks.then (looks_assert _) fun _ => stuck_put hd (hw.resolve_right fun h => h.2) _ _ _).halts
  | replace p s => exact halts_swap hd (hw.resolve_right fun h => h.2) _ _ _
  | replace_encoded p s => exact halts_validate s fun _ => halts_swap hd (hw.resolve_right fun h => h.2) _ _ _

/-- The outcomes of two edits agree: the same exception, or the same state and the same offset, unless one of them
faults. -/
def Agree : Out SegIt → Out SegIt → Prop
  | .ret a st, .ret b st' => st = st' ∧ a.off = b.off
  | .throw x st, .throw y st' => x = y ∧ st = st'
  | .fault _, _ => True
  | _, .fault _ => True
  | _, _ => False

section
variable {α : Type}

theorem Agree.refl (o : Out SegIt) : Agree o o := by cases o <;> simp [Agree]

theorem agree_bind {m : M α} {f g : α → M SegIt} (h : ∀ a st, Agree (f a env st) (g a env st)) (st : St) :
    Agree ((m >>= f) env st) ((m >>= g) env st) := by
  rw [m_bind, m_bind]
  cases m env st with
  | ret a st => exact h a st
  | throw e st => exact ⟨rfl, rfl⟩
  | fault x => trivial

/-- the same through two iterators that may be different except for their offset -/
theorem agree_bind' {m m' : M SegIt} {f g : SegIt → M SegIt} {st : St} (hm : Agree (m env st) (m' env st))
    (h : ∀ a b st, a.off = b.off → Agree (f a env st) (g b env st)) : Agree ((m >>= f) env st) ((m' >>= g) env st) := by
  rw [m_bind, m_bind]
  cases h1 : m env st <;> cases h2 : m' env st <;> rw [h1, h2] at hm <;> dsimp only
  · obtain ⟨rfl, ho⟩ := hm; exact h _ _ _ ho
  · exact hm.elim
  · rename_i a st _; cases f a env st <;> trivial
  · exact hm.elim
  · exact hm
  · trivial
  all_goals trivial

theorem parse_off {lim : Nat} {o : Obj} {a b : SegIt} (h : Seg.parse lim o a = .ok b) : b.off = a.off := by
  unfold Seg.parse at h
  cases h1 : o.assert (.ok (a.off ≠ o.pt.off id_frag)) with
  | error f => rw [h1] at h; cases h
  | ok u =>
    rw [h1] at h
    cases h2 : o.byte a.off with
    | error f => simp only [h2] at h; cases h
    | ok c =>
      simp only [h2] at h
      cases h3 : Seg.scan o (o.pt.off lim - if (c == c!"/") = true then a.off + 1 else a.off) (if (c == c!"/") = true then a.off + 1 else a.off) with
      | error f => 
        change (do let p ← Seg.scan o (o.pt.off lim - if (c == c!"/") = true then a.off + 1 else a.off) (if (c == c!"/") = true then a.off + 1 else a.off); return { a with n := p - a.off }) = _ at h
        rw [h3] at h; cases h
      | ok p => 
        change (do let p ← Seg.scan o (o.pt.off lim - if (c == c!"/") = true then a.off + 1 else a.off) (if (c == c!"/") = true then a.off + 1 else a.off); return { a with n := p - a.off }) = _ at h
        rw [h3] at h; cases h; rfl

theorem next_off {lim : Nat} {o : Obj} {a b : SegIt} (h : Seg.next lim o a = .ok b) : b.off = a.off + a.n := by
  unfold Seg.next at h
  cases h1 : o.assert (.ok (a.off ≠ o.pt.off id_frag)) with
  | error f => rw [h1] at h; cases h
  | ok u =>
    rw [h1] at h
    change (if a.off + a.n = o.pt.off id_frag then _ else _) = _ at h
    split at h
    · cases h; rfl
    · exact parse_off h

/-- what is computed through an iterator's own pointer has the same offset -/
theorem agree_via {F G : Obj → R SegIt} {k : Nat} (hF : ∀ o a, F o = .ok a → a.off = k) (hG : ∀ o a, G o = .ok a → a.off = k)
    (w : Owner) (st : St) : Agree (Foreign.via w F env st) (M.ask G env st) := by
  have hask : ∀ F' : Obj → R SegIt, (∀ o a, F' o = .ok a → a.off = k) → Agree (M.ask F' env st) (M.ask G env st) := by
    intro F' hF'
    unfold M.ask
    cases h1 : F' (st.obj env.dbg) <;> cases h2 : G (st.obj env.dbg) <;> try trivial
    exact ⟨rfl, (hF' _ _ h1).trans (hG _ _ h2).symm⟩
  cases w with
  | self => exact hask F hF
  | other o => exact hask (fun me => F { o with dbg := me.dbg }) fun _ a h => hF _ a h
  | null => cases M.ask G env st <;> trivial

theorem own_release (hd : env.dbg = false) (w : Owner) (f : Unit → M α) (st : St) : (Foreign.own w >>= f) env st = f () env st := by
  unfold Foreign.own
  exact assert_bind hd

end

theorem agree_erase_range (hd : env.dbg = false) (wf wl : Owner) {a b c : SegIt} (hb : b.off = c.off) (st : St) :
    Agree (Foreign.seg_erase_range wf wl a b env st) (Base.seg_erase_range a c env st) := by
  unfold Foreign.seg_erase_range Base.seg_erase_range
  rw [hb]
  refine agree_bind (fun _ st => agree_bind (fun _ st => ?_) _) _
  rw [own_release hd, own_release hd]
  refine agree_bind (fun _ st => agree_bind (fun _ st => agree_bind (fun _ st => agree_bind (fun _ st => ?_) _) _) _) _
  split
  · trivial
  dsimp only
  split
  · exact ⟨rfl, rfl⟩
  refine agree_bind (fun _ st => ?_) _
  split
  · trivial
  refine agree_bind (fun _ st => agree_bind (fun _ st => agree_bind (fun _ st => agree_bind (fun _ st => agree_bind (fun _ st =>
    agree_bind (fun _ st => agree_bind (fun _ st => agree_bind (fun _ st => agree_bind (fun _ st => agree_bind (fun _ st =>
    agree_bind (fun _ st => agree_bind (fun _ st => ?_) _) _) _) _) _) _) _) _) _) _) _) _
  exact agree_via (fun _ _ h => parse_off h) (fun _ _ h => parse_off h) wf st

theorem agree_put (hd : env.dbg = false) (w : Owner) {a b : SegIt} (hab : a.off = b.off) (n : Nat) (s : Str) (st : St) :
    Agree (Foreign.seg_put w a n s env st) (Base.seg_put b n s env st) := by
  unfold Foreign.seg_put Base.seg_put
  rw [hab]
  refine agree_bind (fun _ st => agree_bind (fun _ st => ?_) _) _
  rw [own_release hd]
  refine agree_bind (fun _ st => agree_bind (fun _ st => agree_bind (fun _ st => agree_bind (fun _ st => agree_bind (fun _ st =>
    agree_bind (fun _ st => agree_bind (fun _ st => agree_bind (fun _ st => agree_bind (fun _ st => agree_bind (fun _ st =>
    agree_bind (fun _ st => agree_bind (fun _ st => ?_) _) _) _) _) _) _) _) _) _) _) _) _
  exact agree_via (fun _ _ h => parse_off h) (fun _ _ h => parse_off h) w st

theorem agree_erase (hd : env.dbg = false) (w : Owner) (p : SegIt) (st : St) :
    Agree (Foreign.seg_erase w p env st) (Base.seg_erase p env st) :=
  agree_bind' (agree_via (fun _ _ h => next_off h) (fun _ _ h => next_off h) w st) fun _ _ st h => agree_erase_range hd w w h st

theorem agree_swap (hd : env.dbg = false) (w : Owner) (p : SegIt) (n : Nat) {ins ins' : SegIt → M SegIt}
    (h : ∀ a b st, a.off = b.off → Agree (ins a env st) (ins' b env st)) (st : St) :
    Agree (Foreign.seg_swap w p n ins env st) (Base.seg_swap p n ins' env st) := by
  unfold Foreign.seg_swap Base.seg_swap
  refine agree_bind (fun _ st => agree_bind (fun _ st => ?_) _) _
  have hk : ∀ st, Agree ((do
      let cap ← M.capacity
      let r ← ins (← Foreign.seg_erase w p)
      let cap' ← M.capacity
      M.assert fun _ => .ok (cap' = cap)
      return r : M SegIt) env st) ((do
      let cap ← M.capacity
      let r ← ins' (← Base.seg_erase p)
      let cap' ← M.capacity
      M.assert fun _ => .ok (cap' = cap)
      return r : M SegIt) env st) := fun st =>
    agree_bind (fun cap st => agree_bind' (agree_erase hd w p st) fun a b st hab => agree_bind' (h a b st hab) fun a b st hab =>
      agree_bind (fun _ st => agree_bind (fun _ st => show Agree (.ret a st) (.ret b st) from ⟨rfl, hab⟩) _) _) _
  dsimp only
  split
  · exact agree_bind (fun _ st => agree_bind (fun _ st => hk st) _) _
  · exact hk st

/-- C58: in a build without assertions, an edit does with an iterator of another url what it does with one of its own at the
same offset and of the same length: the same exception, or the same url afterwards and the same offset in the result,
unless one of the two runs into undefined behaviour. -/
theorem C58_release (hd : env.dbg = false) (wf wl : Owner) (e : ItOp) :
    match Foreign.runIt wf wl e env st, runIt e env st with
    | .ret a st1, .ret b st2 => st1 = st2 ∧ a.off = b.off
    | .throw x st1, .throw y st2 => x = y ∧ st1 = st2
    | .fault _, _ => True
    | _, .fault _ => True
    | _, _ => False := by
  suffices h : Agree (Foreign.runIt wf wl e env st) (runIt e env st) by
    revert h
    cases Foreign.runIt wf wl e env st <;> cases runIt e env st <;> exact id
  have hi : ∀ s (a b : SegIt) st, a.off = b.off →
      Agree (Foreign.seg_insert_impl wf a s (pchar_pct_set.encoded_size s) env st) (Base.seg_insert_impl b s (pchar_pct_set.encoded_size s) env st) :=
    fun s a b st hab => agree_bind (fun _ st => agree_put hd wf hab _ _ st) _
  have hie : ∀ s (a b : SegIt) st, a.off = b.off →
      Agree (Foreign.seg_insert_encoded_impl wf a s env st) (Base.seg_insert_encoded_impl b s env st) :=
    fun s a b st hab => agree_bind (fun _ st => agree_put hd wf hab _ _ st) _
  cases e with
  | erase p => exact agree_erase hd wf p st
  | erase_range a b => exact agree_erase_range hd wf wl rfl st
  | insert p s => exact hi s p p st rfl
  | insert_encoded p s => exact agree_bind (fun _ st => hie s p p st rfl) _
  | replace p s => exact agree_swap hd wf p _ (hi s) st
  | replace_encoded p s => exact agree_bind (fun _ st => agree_swap hd wf p _ (hie s) st) _

/-- The effect of C57, for iterators of another url. -/
theorem C58_effect {e : ItOp} {it : SegIt} {st' : St} {wf wl : Owner} (hd : env.dbg = false) (hw : Worked env st) (hin : e.InPath st)
    (h : Foreign.runIt wf wl e env st = .ret it st') (hf : ∀ f, runIt e env st ≠ .fault f) :
    ∃ p, encoded_path (st.obj false) = .ok p ∧ encoded_path (st'.obj false) = .ok (e.path (st.pt.off id_path) p) ∧
      (∀ part : Part, part ≠ .path → part.text (st'.obj false) = part.text (st.obj false)) ∧
      it.off = e.range.1 + e.text.length := by
  have ha := C58_release (st := st) hd wf wl e
  rw [h] at ha
  cases h2 : runIt e env st with
  | fault f => exact absurd h2 (hf f)
  | throw x s => rw [h2] at ha; exact ha.elim
  | ret b s =>
    rw [h2] at ha
    obtain ⟨rfl, ho⟩ := ha
    obtain ⟨p, h3, h4, h5, -, h6, -⟩ := C57_effect hw hin h2
    exact ⟨p, h3, h4, h5, ho.trans h6⟩

/-- it never returns -/
def NoRet {α : Type} (env : Env) (m : M α) : Prop := ∀ st a st', m env st ≠ .ret a st'

section
variable {α β : Type}

theorem NoRet.last {m : M α} {f : α → M β} (hf : ∀ a, NoRet env (f a)) : NoRet env (m >>= f) := by
  intro st b st' h
  rw [m_bind] at h
  split at h
  · exact hf _ _ _ _ h
  · cases h
  · cases h

theorem NoRet.first {m : M α} (h : NoRet env m) (f : α → M β) : NoRet env (m >>= f) := by
  intro st b st' hr
  rw [m_bind] at hr
  split at hr
  · rename_i he; exact h _ _ _ he
  · cases hr
  · cases hr

theorem Looks.ret {m : M α} (hm : Looks m) {f : α → M β} {st st' : St} {b : β} (h : (m >>= f) env st = .ret b st') :
    ∃ a, f a env st = .ret b st' := by
  rw [m_bind] at h
  rcases hm env st with ⟨x, hx⟩ | ⟨a, ha⟩
  · rw [hx] at h; cases h
  · rw [ha] at h; exact ⟨a, h⟩

theorem noRet_null (f : Obj → R α) : NoRet env (Foreign.via .null f) := fun _ _ _ h => by cases h

end

/-- C58: an edit given a default constructed iterator never returns, in any build, unless it is asked to erase nothing. -/
theorem C58_null (wl : Owner) {e : ItOp} {it : SegIt} {st' : St} (h : Foreign.runIt .null wl e env st = .ret it st') :
    ∃ a b, e = .erase_range a b ∧ a.off = b.off ∧ it = a ∧ st' = st := by
  have hput : ∀ p n s, NoRet env (Foreign.seg_put .null p n s) := fun p n s => by
    unfold Foreign.seg_put
    exact .last fun _ => .last fun _ => .last fun _ => .last fun _ => .last fun _ => .last fun _ => .last fun _ => .last fun _ =>
      .last fun _ => .last fun _ => .last fun _ => .last fun _ => .last fun _ => .last fun _ => .last fun _ => noRet_null _
  have her : ∀ p, NoRet env (Foreign.seg_erase .null p) := fun p => (noRet_null _).first _
  have hsw : ∀ p n ins, NoRet env (Foreign.seg_swap .null p n ins) := fun p n ins => by
    have hk : NoRet env (do
        let cap ← M.capacity
        let r ← ins (← Foreign.seg_erase .null p)
        let cap' ← M.capacity
        M.assert fun _ => .ok (cap' = cap)
        return r) := .last fun cap => (her p).first _
    unfold Foreign.seg_swap
    refine .last fun _ => .last fun _ => ?_
    dsimp only
    split
    · exact .last fun _ => .last fun _ => hk
    · exact hk
  cases e with
  | erase p => exact absurd h (her p _ _ _)
  | insert p s => exact absurd h (NoRet.last (fun _ => hput _ _ _) _ _ _)
  | insert_encoded p s => exact absurd h (NoRet.last (fun _ => NoRet.last fun _ => hput _ _ _) _ _ _)
  | replace p s => exact absurd h (hsw _ _ _ _ _ _)
  | replace_encoded p s => exact absurd h (NoRet.last (fun _ => hsw _ _ _) _ _ _)
  | erase_range a b =>
    refine ⟨a, b, rfl, ?_⟩
    change Foreign.seg_erase_range .null wl a b env st = _ at h
    unfold Foreign.seg_erase_range at h
    obtain ⟨_, h⟩ := looks_stored.ret h
    obtain ⟨_, h⟩ := (looks_assert _).ret h
    obtain ⟨_, h⟩ := Looks.ret (looks_assert _) h
    obtain ⟨_, h⟩ := Looks.ret (looks_assert _) h
    obtain ⟨_, h⟩ := (looks_assert _).ret h
    obtain ⟨_, h⟩ := (looks_assert _).ret h
    obtain ⟨_, h⟩ := (looks_assert _).ret h
    obtain ⟨_, h⟩ := (looks_assert _).ret h
    split at h
    · cases h
    dsimp only at h
    split at h
    · cases h; exact ⟨by omega, rfl, rfl⟩
    refine absurd h (NoRet.last (fun s => ?_) _ _ _)
    split
    · intro _ _ _ h; cases h
    · exact .last fun _ => .last fun _ => .last fun _ => .last fun _ => .last fun _ => .last fun _ => .last fun _ => .last fun _ =>
        .last fun _ => .last fun _ => .last fun _ => .last fun _ => noRet_null _

/-- Another url, as its iterators see it. -/
def otherUrl : Owner := .other ((made env1 b!"/ab/cd/ef").obj false)

/-- C58 and its hypotheses on a concrete case: the iterator of the second segment of `"/ab/cd/ef"` given to the segments of
`"/x/y/z"`. A build without assertions erases three characters and hands out the iterator of a segment of the other url;
a build with assertions stops. A default constructed iterator is undefined behaviour without assertions. -/
theorem C58_release_sat :
    Seg.nth id_query ((made env1 b!"/ab/cd/ef").obj false) 1 = .ok ⟨3, 3⟩ ∧ Worked env1 (afterRelease [.set_encoded_url b!"/x/y/z"]) ∧
    ItOp.InPath (afterRelease [.set_encoded_url b!"/x/y/z"]) (.erase ⟨3, 3⟩) ∧
    pathOf (Foreign.runIt otherUrl .self (.erase ⟨3, 3⟩) env1 (afterRelease [.set_encoded_url b!"/x/y/z"])) = some (b!"/x/", ⟨3, 3⟩) ∧
    returns (runIt (.erase ⟨3, 3⟩) env1 (afterRelease [.set_encoded_url b!"/x/y/z"])) = true ∧
    itFault (Foreign.runIt otherUrl .self (.erase ⟨3, 3⟩) env0 (made env0 b!"/x/y/z")) = some .assert ∧
    itFault (Foreign.runIt .self otherUrl (.erase_range ⟨2, 2⟩ ⟨3, 3⟩) env0 (made env0 b!"/x/y/z")) = some .assert ∧
    itFault (Foreign.runIt .null .self (.insert ⟨0, 0⟩ b!"a") env1 (afterRelease [.set_encoded_url b!"/x/y/z"])) = some .ub ∧
    itThrown (Foreign.runIt .null .self (.insert_encoded ⟨0, 0⟩ b!"/") env0 (made env0 b!"/x/y/z")) = some .invalid_part :=
  ⟨by decide +kernel, (afterRelease_used (by decide +kernel)).worked, by decide +kernel, by decide +kernel, by decide +kernel, by decide +kernel, by decide +kernel, by decide +kernel, by decide +kernel⟩

/-- two urls -/
def twoUrls : World := fun i => if i = 0 then (made env0 b!"/x/y/z").obj true else (made env0 b!"/ab/cd?k=v&l").obj true

/-- C58 on a concrete case: walking to the end of the url, walking to the end of another one. -/
theorem C58_mixed_sat :
    (do Range.seg_walk id_query twoUrls 100 (← Range.seg_begin id_query twoUrls (some 0)) (Range.seg_end twoUrls (some 0))) = .ok [b!"x", b!"y", b!"z"] ∧
    (do Range.seg_walk id_query twoUrls 100 (← Range.seg_begin id_query twoUrls (some 0)) (Range.seg_end twoUrls (some 1))) = .error .assert ∧
    (do Range.seg_walk id_query twoUrls 100 (← Range.seg_begin id_query twoUrls (some 0)) (Range.seg_end twoUrls none)) = .error .assert ∧
    (do Range.param_walk true twoUrls 100 (← Range.param_begin twoUrls (some 1)) (Range.param_end twoUrls (some 1))) = .ok [⟨b!"k", b!"v"⟩, ⟨b!"l", []⟩] ∧
    (do Range.param_walk true twoUrls 100 (← Range.param_begin twoUrls (some 1)) (Range.param_end twoUrls (some 0))) = .error .assert ∧
    Range.count true twoUrls (some 1) b!"l" 100 = .ok 1 ∧ Range.contains true twoUrls (some 1) b!"k" 100 = .ok true ∧
    Range.contains true twoUrls (some 1) b!"j" 100 = .ok false ∧
    Range.index true twoUrls (some 1) b!"k" 100 = .ok b!"v" ∧ Range.atKey true twoUrls (some 1) b!"j" 100 = .ok none := by
  decide +kernel

/-- C58: there is no element at `begin()` of a default constructed range, but only some uses of it are noticed. `*begin()` of the
segments of a `url_view` is an empty segment, of those of a `url` it is undefined; `*begin()` of the parameters fails an assertion, or is
undefined without assertions, and so is `++begin()`, except that no assertion guards the segments. -/
theorem C58_element (w : World) (dbg : Bool) :
    (do Range.seg_deref id_frag w (← Range.seg_begin id_frag w none)) = .ok [] ∧
    (do Range.seg_deref id_query w (← Range.seg_begin id_query w none)) = .error .ub ∧
    (∀ lim, (do Range.seg_next lim w (← Range.seg_begin lim w none)) = .error .ub) ∧
    (do Range.param_deref dbg w (← Range.param_begin w none)) = .error (if dbg then .assert else .ub) ∧
    (do Range.param_next dbg w (← Range.param_begin w none)) = .error (if dbg then .assert else .ub) :=
  ⟨rfl, rfl, fun _ => rfl, rfl, rfl⟩

end Url.Props
