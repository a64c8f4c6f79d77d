import Verif.Model.AliasIt
import Verif.Model.MachineIt
import Verif.Props.Amortized
import Verif.Props.Held

/-!
C50, C52 and C56 after any calls and any edits through iterators into the path.
-/

set_option autoImplicit false
attribute [-simp] List.length_flatten

/-! ### the machine -/

namespace Url.Machine
open Spec M Url.Alias Url.Capacity

variable {env : Env} {B : Nat} {st : St}

theorem runIt_eq (hi : Inv env B st) {e : ItOp} (hin : e.InPath st) (hl : Lim env B (3 * itArgLength e + 1)) :
    runIt e env st = Url.runIt e env st := by
  have hm : B < env.sizeMax := by unfold Lim at hl; omega
  obtain ⟨i1, i2, i3⟩ := hin
  have hs : ∀ s : Str, 3 * itArgLength e + 1 = 3 * s.length + 1 →
      encoded_size env.sizeMax pchar_pct_set s = pchar_pct_set.encoded_size s ∧ pchar_pct_set.encoded_size s ≤ 3 * s.length := by
    intro s h
    obtain ⟨g1, g2⟩ := encoded_size_eq' (k := env.sizeMax) setOf_pchar (s := s) (by unfold Lim at hl; omega)
    exact ⟨g1, by omega⟩
  unfold runIt
  cases e with
  | erase p => exact seg_erase_eq hi hm i1 i3
  | erase_range a b => exact seg_erase_range_eq hi hm i1 i3
  | insert p s =>
    obtain ⟨g1, g2⟩ := hs s rfl
    simp only [itArgLength] at hl
    show seg_insert _ _ _ env st = Base.seg_insert _ _ env st
    unfold seg_insert Base.seg_insert seg_insert_impl Base.seg_insert_impl
    rw [g1]
    refine bind_eq rfl fun _ st1 e1 => ?_
    obtain rfl := (reads_ret (Alias.Reads.assert _) e1).symm
    exact seg_put_eq hi (hl.mono (by omega)) i3
  | insert_encoded p s =>
    simp only [itArgLength] at hl
    show seg_insert_encoded _ _ _ env st = Base.seg_insert_encoded _ _ env st
    unfold seg_insert_encoded Base.seg_insert_encoded seg_insert_encoded_impl Base.seg_insert_encoded_impl
    refine bind_eq rfl fun _ st1 e1 => ?_
    obtain rfl := (reads_ret (Alias.Reads.validate _ _) e1).symm
    clear e1
    refine bind_eq rfl fun _ st1 e1 => ?_
    obtain rfl := (reads_ret (Alias.Reads.assert _) e1).symm
    exact seg_put_eq hi (hl.mono (by omega)) i3
  | replace p s =>
    obtain ⟨g1, g2⟩ := hs s rfl
    simp only [itArgLength] at hl
    show seg_replace _ _ _ env st = Base.seg_replace _ _ env st
    unfold seg_replace Base.seg_replace
    rw [g1]
    refine seg_swap_eq hi (hl.mono (by omega)) i1 i3 fun st it hi h6 => ?_
    unfold seg_insert_impl Base.seg_insert_impl
    rw [g1]
    refine bind_eq rfl fun _ st1 e1 => ?_
    obtain rfl := (reads_ret (Alias.Reads.assert _) e1).symm
    exact seg_put_eq hi (hl.mono (by omega)) h6
  | replace_encoded p s =>
    simp only [itArgLength] at hl
    show seg_replace_encoded _ _ _ env st = Base.seg_replace_encoded _ _ env st
    unfold seg_replace_encoded Base.seg_replace_encoded
    refine bind_eq rfl fun _ st1 e1 => ?_
    obtain rfl := (reads_ret (Alias.Reads.validate _ _) e1).symm
    clear e1
    refine seg_swap_eq hi (hl.mono (by omega)) i1 i3 fun st it hi h6 => ?_
    unfold seg_insert_encoded_impl Base.seg_insert_encoded_impl
    refine bind_eq rfl fun _ st1 e1 => ?_
    obtain rfl := (reads_ret (Alias.Reads.assert _) e1).symm
    exact seg_put_eq hi (hl.mono (by omega)) h6

/-- The states of a `url` object on a machine after any calls and any edits through iterators into the path, when no
argument has more than `n` bytes. -/
inductive Worked (env : Env) (n : Nat) : St → Prop
  | empty : Worked env n Base.empty
  | call {st st' : St} (op : Op) : Worked env n st → argLength op ≤ n →
      (run op env st = .ret () st' ∨ ∃ e, run op env st = .throw e st') → Worked env n st'
  | edit {st st' : St} (e : ItOp) : Worked env n st → itArgLength e ≤ n → e.InPath st →
      ((∃ it, runIt e env st = .ret it st') ∨ ∃ x, runIt e env st = .throw x st') → Worked env n st'

end Url.Machine

/-! ### arguments within the url -/

namespace Url.Alias
open M Spec Capacity

variable {env : Env} {st : St} {c0 g off : Nat}

/-- the string argument of an edit -/
def itArg : ItOp → Str
  | .insert _ s | .insert_encoded _ s | .replace _ s | .replace_encoded _ s => s
  | .erase _ | .erase_range _ _ => []

theorem itArg_nil {own : Option (Nat × Nat)} (e : ItOp) (h : itArg e = []) : runIt e own = Url.runIt e := by
  cases e <;> simp only [itArg] at h <;> (try subst h) <;> (first | rfl | (cases own <;> rfl))

theorem runIt_al (e : ItOp) (h : Inv c0 g off (itArg e) st) (ho : Ordered st.pt) (hin : e.InPath st)
    (hlo : off + (itArg e).length ≤ e.range.1) : Al env c0 st (Url.runIt e) (runIt e (some (g, off))) := by
  by_cases hs : itArg e = []
  · rw [itArg_nil e hs]; exact .refl _
  obtain ⟨i1, i2, i3⟩ := hin
  cases e with
  | erase p => exact absurd rfl hs
  | erase_range a b => exact absurd rfl hs
  | insert p s =>
    show Al env c0 st (Base.seg_insert p s) (seg_insert p ⟨s, some (g, off)⟩)
    unfold Base.seg_insert seg_insert seg_insert_impl
    rw [insert_impl_unfold]
    exact .insert_impl hs (copies_encode hs) h (.inr ⟨ho, hlo, i3⟩)
  | insert_encoded p s =>
    show Al env c0 st (Base.seg_insert_encoded p s) (seg_insert_encoded p ⟨s, some (g, off)⟩)
    unfold Base.seg_insert_encoded seg_insert_encoded seg_insert_encoded_impl
    refine .read (.validate _ _) fun _ => ?_
    rw [insert_encoded_unfold]
    exact .insert_impl hs (copies_copy hs) h (.inr ⟨ho, hlo, i3⟩)
  | replace p s =>
    show Al env c0 st (Base.seg_replace p s) (seg_replace p ⟨s, some (g, off)⟩)
    unfold Base.seg_replace seg_replace seg_insert_impl
    refine .swap h ⟨ho, hlo, i1, i3⟩ fun st it h1 h2 => ?_
    rw [insert_impl_unfold]
    exact .insert_impl hs (copies_encode hs) h1 h2
  | replace_encoded p s =>
    show Al env c0 st (Base.seg_replace_encoded p s) (seg_replace_encoded p ⟨s, some (g, off)⟩)
    unfold Base.seg_replace_encoded seg_replace_encoded seg_insert_encoded_impl
    refine .read (.validate _ _) fun _ => .swap h ⟨ho, hlo, i1, i3⟩ fun st it h1 h2 => ?_
    rw [insert_encoded_unfold]
    exact .insert_impl hs (copies_copy hs) h1 h2

theorem runIt_ala (e : ItOp) (hs : itArg e ≠ []) (h : InvA c0 g st) (hv : st.tick = g → Slice st off (itArg e)) :
    AlA env c0 st (Url.runIt e) (runIt e (some (g, off))) := by
  have val : ∀ {t : Str} {f f' : Unit → M SegIt}, AlA env c0 st (f ()) (f' ()) →
      AlA env c0 st (Base.validate pchar_pct_set t >>= f) (Base.validate pchar_pct_set t >>= f') := by
    intro t f f' hx b st' hb hc
    obtain ⟨it, _, h1, h2⟩ := bind_ret hb
    obtain rfl := (reads_ret (Reads.validate _ _) h1).symm
    rw [run_bind, h1]
    exact hx b st' h2 hc
  cases e with
  | erase p => exact absurd rfl hs
  | erase_range a b => exact absurd rfl hs
  | insert p s =>
    show AlA env c0 st (Base.seg_insert p s) (seg_insert p ⟨s, some (g, off)⟩)
    unfold Base.seg_insert seg_insert seg_insert_impl
    rw [insert_impl_unfold]
    exact .insert_impl (s := s) (q := fun x => decide (pchar_pct_set.encoded_size x = pchar_pct_set.encoded_size s)) hs (copies_encode hs) h fun _ => hv
  | insert_encoded p s =>
    show AlA env c0 st (Base.seg_insert_encoded p s) (seg_insert_encoded p ⟨s, some (g, off)⟩)
    unfold Base.seg_insert_encoded seg_insert_encoded seg_insert_encoded_impl
    refine val ?_
    rw [insert_encoded_unfold]
    exact .insert_impl hs (copies_copy hs) h fun _ => hv
  | replace p s =>
    show AlA env c0 st (Base.seg_replace p s) (seg_replace p ⟨s, some (g, off)⟩)
    unfold Base.seg_replace seg_replace seg_insert_impl
    refine .swap h fun st it h1 h2 => ?_
    rw [insert_impl_unfold]
    exact .insert_impl (s := s) (q := fun x => decide (pchar_pct_set.encoded_size x = pchar_pct_set.encoded_size s)) hs (copies_encode hs) h1 fun hd ht => absurd ht (h2 hd)
  | replace_encoded p s =>
    show AlA env c0 st (Base.seg_replace_encoded p s) (seg_replace_encoded p ⟨s, some (g, off)⟩)
    unfold Base.seg_replace_encoded seg_replace_encoded seg_insert_encoded_impl
    refine val (.swap h fun st it h1 h2 => ?_)
    rw [insert_encoded_unfold]
    exact .insert_impl hs (copies_copy hs) h1 fun hd ht => absurd ht (h2 hd)

end Url.Alias

namespace Url.Props
open Url Spec

variable {env : Env} {st st' : St} {op : Op}

theorem granted_worked (h : Worked env st) : st.cap = 0 ∨ Alias.Granted env (st.cap + 1) := by
  induction h with
  | empty => exact .inl rfl
  | @call st st' op _ hrun ih =>
    have hg := Alias.grows_run op env st st' (hrun.imp_left fun h => ⟨(), h⟩)
    rcases Nat.lt_or_ge st.cap st'.cap with h | h
    · exact .inr (hg.2.2.1 h).2
    · rw [show st'.cap = st.cap by omega]; exact ih
  | @edit st st' e _ _ hrun ih =>
    have hg := grows_it e env st st' hrun
    rcases Nat.lt_or_ge st.cap st'.cap with h | h
    · exact .inr (hg.2.2.1 h).2
    · rw [show st'.cap = st.cap by omega]; exact ih

theorem machine_worked {b : Nat} (hw : Worked env st) (hb : Machine.Bound env b) : Machine.Inv env b st := by
  have hg : st.cap = 0 ∨ st.cap + 1 ≤ b := (granted_worked hw).imp_right fun ⟨h, t, h'⟩ => hb.granted t _ h h'
  obtain ⟨S, U, W, H, P, q, f, t, pa, h⟩ := hw.release.parts rfl
  obtain ⟨i1, i2, i3, i4, i5, i6, -⟩ := Machine.inv_of_holds (B := b) h.holds ⟨hb.granted, hb.half⟩ hg
  exact ⟨i1, i2, i3, i4, i5, i6, hb⟩

/-- C52: after any calls and edits, a call does exactly what the model says if three times its argument, and a little
more, can be added to the largest allocation without exceeding a `std::size_t`. (Missing: longer arguments, see
`C52_wrap_false` and `C52_zero_false`.) -/
theorem C52_worked_calls_partial {b : Nat} (hw : Worked env st) (hb : Machine.Bound env b)
    (hl : b + 3 * Machine.argLength op + 16 < env.sizeMax) : Machine.run op env st = run op env st :=
  Machine.run_eq (machine_worked hw hb) (by rw [arg_length]; unfold Machine.Lim; omega)

/-- C52: the same for an edit through any iterators into the path. -/
theorem C52_worked_edits_partial {b : Nat} {e : ItOp} (hw : Worked env st) (hin : e.InPath st) (hb : Machine.Bound env b)
    (hl : b + 3 * Machine.itArgLength e + 16 < env.sizeMax) : Machine.runIt e env st = runIt e env st :=
  Machine.runIt_eq (machine_worked hw hb) hin (by unfold Machine.Lim; omega)

/-- C52: so the histories on a machine are those of the model, with all edits. -/
theorem C52_worked_partial {n b : Nat} (h : Machine.Worked env n st) (hb : Machine.Bound env b) (hl : b + 3 * n + 16 < env.sizeMax) :
    Worked env st := by
  induction h with
  | empty => exact .empty
  | @call st st' op _ hn hrun ih =>
    rw [C52_worked_calls_partial ih hb (by omega)] at hrun
    exact .call op ih hrun
  | @edit st st' e _ hn hin hrun ih =>
    rw [C52_worked_edits_partial ih hin hb (by omega)] at hrun
    exact .edit e ih hin hrun

/-- On a common 64 bit machine, arguments can have a quarter of all bytes. -/
example (h : Machine.Worked machine64 (2 ^ 61) st) : Worked machine64 st := C52_worked_partial h bound64 (by decide)

example (h : Machine.Worked machinePool (2 ^ 30) st) : Worked machinePool st := C52_worked_partial h boundPool (by decide)

/-- an edit in the middle of a segment, on that machine -/
example : Machine.Worked machine64 (2 ^ 61) (made machine64 b!"/abc/d") ∧
    (ItOp.insert ⟨2, 3⟩ b!"/").InPath (made machine64 b!"/abc/d") ∧
    Machine.itArgLength (.insert ⟨2, 3⟩ b!"/") ≤ 2 ^ 61 ∧
    pathOf (Machine.runIt (.insert ⟨2, 3⟩ b!"/") machine64 (made machine64 b!"/abc/d")) = some (b!"/a/%2Fbc/d", ⟨6, 2⟩) ∧
    pathOf (runIt (.insert ⟨2, 3⟩ b!"/") machine64 (made machine64 b!"/abc/d")) = some (b!"/a/%2Fbc/d", ⟨6, 2⟩) :=
  ⟨.call (.set_encoded_url b!"/abc/d") .empty (by decide) (.inl (by rfl)), by decide +kernel, by decide, by decide +kernel, by decide +kernel⟩

/-! ### C50 -/

/-- C50 after any calls and edits, as far as it holds: an argument that is a part of the url itself, in front of what the
call sets, acts like a copy, provided the call with the copy throws or returns without having enlarged the capacity.
(Missing: parts of the url elsewhere, and calls that enlarge the capacity; for these it is false.) -/
theorem C50_worked_partial {off : Nat} (hw : Worked env st) (hi : Within st off (Alias.arg op))
    (hf : ∀ p ∈ sets op, off + (Alias.arg op).length ≤ st.pt.off p.id)
    (hc : (∃ st', run op env st = .ret () st' ∧ st'.cap = st.cap) ∨ ∃ e st', run op env st = .throw e st') :
    runWithin op off env st = run op env st := by
  unfold runWithin
  by_cases hs : Alias.arg op = []
  · rw [Alias.arg_nil op hs]
  obtain ⟨S, U, W, H, P, q, f, t, pa, h⟩ := hw.release.parts rfl
  obtain ⟨ho, h0⟩ := Alias.ordered_of h.holds
  have hsl := Alias.slice_of hs hi
  rcases Alias.run_al (env := env) (c0 := st.cap) (g := st.tick) op
      ⟨Nat.le_refl _, Nat.le_refl _, fun _ => hsl, fun h => absurd rfl h⟩ ho h0 (first_le (h := hf)) with h | ⟨-, h⟩
  · exact h
  · exfalso
    rcases hc with ⟨st', hx, hc⟩ | ⟨e, st', hx⟩
    · have := h st' (.inl ⟨(), hx⟩)
      omega
    · have := h st' (.inr ⟨e, hx⟩)
      have := (C18_strong hx).2.2.2
      omega

/-- a url with an indeterminate byte in its user and room to spare -/
def stale : St := afterRelease (staleCalls ++ [.set_encoded_path b!"/abc/d", .set_encoded_path b!"/a"])

theorem stale_worked : Worked env1 stale := (afterRelease_used (by decide +kernel)).worked

/-- the path as fragment -/
example : Worked env1 stale ∧ Within stale 4 (Alias.arg (.set_encoded_fragment b!"/a")) ∧
    (∀ p ∈ sets (.set_encoded_fragment b!"/a"), 4 + (Alias.arg (.set_encoded_fragment b!"/a")).length ≤ stale.pt.off p.id) ∧
    capOf (run (.set_encoded_fragment b!"/a") env1 stale) = some stale.cap ∧
    (encoded_fragment ((left (runWithin (.set_encoded_fragment b!"/a") 4 env1 stale)).obj false)).toOption = some b!"/a" := by
  refine ⟨stale_worked, ?_, by decide +kernel, by decide +kernel, by decide +kernel⟩
  unfold Within
  decide +kernel

/-- Edit a segment through iterators with an argument that is not a copy but the characters of the url themselves, from
offset `off` on. -/
def itWithin (e : ItOp) (off : Nat) : M SegIt := fun env st => Alias.runIt e (some (st.tick, off)) env st

/-- C50 for edits through any iterators into the path, after any calls and edits, as far as it holds: an argument that is
a part of the url itself, in front of the place of the edit, acts like a copy, provided the edit with the copy throws or
returns without having enlarged the capacity. (Missing: parts of the url from the place on, and edits that enlarge the
capacity; for these it is false.) -/
theorem C50_worked_edit_partial {e : ItOp} {off : Nat} (hw : Worked env st) (hin : e.InPath st) (hi : Within st off (Alias.itArg e))
    (hf : off + (Alias.itArg e).length ≤ e.range.1)
    (hc : (∃ it st', runIt e env st = .ret it st' ∧ st'.cap = st.cap) ∨ ∃ x st', runIt e env st = .throw x st') :
    itWithin e off env st = runIt e env st := by
  unfold itWithin
  by_cases hs : Alias.itArg e = []
  · rw [Alias.itArg_nil e hs]
  obtain ⟨S, U, W, H, P, q, f, t, pa, h⟩ := hw.release.parts rfl
  have ho := (Alias.ordered_of h.holds).1
  have hsl := Alias.slice_of hs hi
  rcases Alias.runIt_al (env := env) (c0 := st.cap) (g := st.tick) e
      ⟨Nat.le_refl _, Nat.le_refl _, fun _ => hsl, fun h => absurd rfl h⟩ ho hin hf with h | ⟨-, h⟩
  · exact h
  · exfalso
    rcases hc with ⟨it, st', hx, hc⟩ | ⟨x, st', hx⟩
    · have := h st' (.inl ⟨_, hx⟩)
      omega
    · have := h st' (.inr ⟨x, hx⟩)
      have := (C57_throw hw hin hx).2.2.2.1
      omega

/-- the slash of the path as another segment -/
example : (ItOp.insert ⟨6, 0⟩ b!"/").InPath stale ∧ Within stale 4 (Alias.itArg (.insert ⟨6, 0⟩ b!"/")) ∧
    4 + (Alias.itArg (.insert ⟨6, 0⟩ b!"/")).length ≤ (ItOp.insert ⟨6, 0⟩ b!"/").range.1 ∧
    editCap (runIt (.insert ⟨6, 0⟩ b!"/") env1 stale) = some stale.cap ∧
    pathOf (itWithin (.insert ⟨6, 0⟩ b!"/") 4 env1 stale) = some (b!"/a/%2F", ⟨10, 0⟩) ∧
    pathOf (runIt (.insert ⟨6, 0⟩ b!"/") env1 stale) = some (b!"/a/%2F", ⟨10, 0⟩) := by
  refine ⟨by decide +kernel, ?_, by decide, by decide +kernel, by decide +kernel, by decide +kernel⟩
  unfold Within
  decide +kernel

/-- C50 is false for every edit that has to enlarge the capacity, in every state, through any iterators and wherever in
the url the argument is. -/
theorem C50_worked_edit_false {e : ItOp} {off : Nat} {it : SegIt} (hi : Within st off (Alias.itArg e)) (hs : Alias.itArg e ≠ [])
    (hr : runIt e env st = .ret it st') (hc : st.cap < st'.cap) : itWithin e off env st = .fault .ub :=
  Alias.runIt_ala (env := env) (c0 := st.cap) (g := st.tick) e hs ⟨Nat.le_refl _, fun _ => Nat.le_refl _⟩
    (fun _ => Alias.slice_of hs hi) it st' hr hc

example : Within stale 4 (Alias.itArg (.insert ⟨5, 1⟩ b!"/a")) ∧
    pathOf (runIt (.insert ⟨5, 1⟩ b!"/a") env1 stale) = some (b!"//%2Faa", ⟨10, 1⟩) ∧
    editCap (runIt (.insert ⟨5, 1⟩ b!"/a") env1 stale) = some 20 ∧ stale.cap = 10 ∧
    itFault (itWithin (.insert ⟨5, 1⟩ b!"/a") 4 env1 stale) = some .ub := by
  unfold Within
  decide +kernel

/-! ### C56 -/

/-- C56: after any calls and edits, a call keeps the buffer exactly if it keeps the capacity. -/
theorem C56_worked (hw : Worked env st) (h : run op env st = .ret () st' ∨ ∃ e, run op env st = .throw e st') :
    st'.base = st.base ↔ st'.cap = st.cap := by
  have hg := Alias.grows_run op env st st' (h.imp_left fun h => ⟨(), h⟩)
  exact base_moves (owned_worked hw) hg.1 hg.2.2.2.2

/-- C56: the same for edits, through any iterators. -/
theorem C56_worked_edit {e : ItOp} (hw : Worked env st) (h : (∃ it, runIt e env st = .ret it st') ∨ ∃ x, runIt e env st = .throw x st') :
    st'.base = st.base ↔ st'.cap = st.cap := by
  have hg := grows_it e env st st' h
  exact base_moves (owned_worked hw) hg.1 hg.2.2.2.2

/-- C56: after any calls and edits, every call but one keeps the buffer exactly if the new text fits. -/
theorem C56_worked_fits (hw : Worked env st) (hop : op ≠ .set_password_part b!":") (h : run op env st = .ret () st') (dbg : Bool) :
    st'.base = st.base ↔ size (st'.obj dbg) ≤ st.cap := by
  rw [C56_worked hw (.inl h)]
  obtain ⟨h1, h2⟩ := C24_growth_worked hw hop h
  have h3 : size (st'.obj dbg) ≤ st'.cap := C24_size_worked (.call op hw (.inl h)) dbg
  have h4 : size (st'.obj dbg) = size (st'.obj false) := rfl
  rw [h4] at h3 ⊢
  exact ⟨fun h => by omega, fun h => (h1 h).1⟩

/-- C56: after any calls and edits, an edit keeps the buffer exactly if what it needs fits. -/
theorem C56_worked_fits_edit {e : ItOp} {it : SegIt} (hw : Worked env st) (hin : e.InPath st) (h : runIt e env st = .ret it st') :
    st'.base = st.base ↔ needs st st' e ≤ st.cap := by
  rw [C56_worked_edit hw (.inl ⟨it, h⟩)]
  obtain ⟨h1, h2⟩ := C24_growth_edit hw hin h
  have hr := edit_room hw hin h
  refine ⟨fun h => ?_, fun h => (h1 h).1⟩
  rcases hr with ⟨h5, -⟩ | ⟨h4, -, h7, -⟩
  · exact h5
  · unfold Storage.newCap at h7
    split at h7
    · split at h7 <;> omega
    · omega

theorem hold_lost (hb : st'.base ≠ st.base) (dbg : Bool) : (st.hold.obj st' dbg).mem = [] := by
  unfold Held.obj St.hold
  exact if_neg (fun h => hb h.symm)

/-- C56: once the buffer was replaced, reading a string that was returned before is undefined. -/
theorem C56_worked_lost_false (hb : st'.base ≠ st.base) (dbg : Bool) {a n : Nat} (hn : n ≠ 0) :
    (st.hold.obj st' dbg).read a n = .error .ub := by
  unfold Obj.read
  rw [if_neg hn, hold_lost hb, if_neg (by simp only [List.length_nil]; omega)]

/-- C56: once the buffer was replaced, a range of segments that was obtained before is undefined to loop over, after any
calls and edits. -/
theorem C56_worked_segments_false (hw : Worked env st') (hb : st'.base ≠ st.base) (dbg : Bool)
    (hp : encoded_path (st'.obj dbg) ≠ .ok []) (hn : st'.pt.nseg ≠ 0) (fuel : Nat) :
    View.segments (st.hold.obj st' dbg) fuel = .error .ub := by
  obtain ⟨S, U, W, H, P, q, f, t, pa, h⟩ := hw.release.parts rfl
  have hpa : pa ≠ [] := fun he => hp (by rw [h.path dbg, he])
  have o1 := (h.holds.offs (A := [S, U, W, H, P]) rfl).1
  have o2 := h.holds.off_frag (A := [S, U, W, H, P]) rfl
  have hlt := List.length_pos_iff.2 hpa
  rw [List.length_map] at o2
  unfold View.segments Seg.walk Seg.first
  rw [if_neg (show (st.hold.obj st' dbg).pt.nseg ≠ 0 from hn)]
  unfold Seg.parse
  rw [assert_not (show (st.hold.obj st' dbg).pt.off id_path ≠ (st.hold.obj st' dbg).pt.off id_frag by
    show st'.pt.off id_path ≠ st'.pt.off id_frag; omega), byte_lost (hold_lost hb dbg)]
  rfl

/-- C56: the same for parameters. -/
theorem C56_worked_params_false (hb : st'.base ≠ st.base) (dbg : Bool) (hn : st'.pt.nparam ≠ 0) (fuel : Nat) :
    Params.walk (st.hold.obj st' dbg) fuel = .error .ub := by
  have hm := hold_lost hb dbg
  unfold Params.walk Params.first
  rw [if_neg (show (st.hold.obj st' dbg).pt.nparam ≠ 0 from hn)]
  unfold Params.parse
  rw [byte_lost hm]
  have h0 : 0 < st'.pt.nparam := Nat.pos_of_ne_zero hn
  have hs : ∀ e p ec, Params.skip e (st.hold.obj st' dbg) (p + 1) ec = .error .ub := by
    intro e p ec
    unfold Params.skip
    rw [hm, if_pos (by simp)]
  cases dbg with
  | true => simp [Obj.assert, Held.obj, bind, Except.bind, h0]
  | false => simp only [Obj.assert, show (st.hold.obj st' false).dbg = false from rfl, hs]; rfl

theorem read_front {o o' : Obj} {A r r' : List Cell} (h : o.mem = A ++ r) (h' : o'.mem = A ++ r') {a n : Nat}
    (hn : a + n ≤ A.length) : o'.read a n = o.read a n := by
  have key : ∀ X : List Cell, ((A ++ X).drop a).take n = (A.drop a).take n := by
    intro X
    rw [List.drop_append_of_le_length (by omega), List.take_append_of_le_length (by rw [List.length_drop]; omega)]
  unfold Obj.read
  rw [h, h', key, key, List.length_append, List.length_append, if_pos (c := a + n ≤ A.length + r.length) (by omega),
    if_pos (c := a + n ≤ A.length + r'.length) (by omega)]

/-- the parts in front of part `k` are the same and have the same place -/
theorem front_same {L L' : List (List Cell)} {t t' : Cell} (h : Holds env.release st L t) (h' : Holds env.release st' L' t') {k : Nat}
    (he : L'.take k = L.take k) (dbg : Bool) {a n : Nat} (hn : a + n ≤ st.pt.off k) :
    (st'.obj dbg).read a n = (st.obj dbg).read a n := by
  rw [h.rep, plen] at hn
  by_cases h0 : n = 0
  · unfold Obj.read; rw [if_pos h0, if_pos h0]
  have hf : ∀ M : List (List Cell), M.flatten = (M.take k).flatten ++ (M.drop k).flatten := fun M => by
    rw [← List.flatten_append, List.take_append_drop]
  have hb : ∀ {s : St} {M : List (List Cell)} {t : Cell}, Holds env.release s M t → (M.take k).flatten.length ≠ 0 → s.buf.isSome = true := by
    intro s M t h hl
    rcases h.buf with ⟨-, h2, -⟩ | ⟨junk, h1, -⟩
    · have := congrArg List.length h2
      rw [hf, List.length_append, List.length_nil] at this
      omega
    · rw [h1]; rfl
  obtain ⟨j, hj⟩ := h.mem (hb h (by omega)) dbg
  obtain ⟨j', hj'⟩ := h'.mem (hb h' (by rw [he]; omega)) dbg
  rw [hf, List.append_assoc] at hj hj'
  rw [he] at hj'
  exact read_front hj hj' hn

/-- C56: after any calls and edits, as long as the buffer stays, a string that an accessor returned keeps its characters
(or stays indeterminate), if it lies in front of the component that is set. -/
theorem C56_worked_strings {f : Field} (hw : Worked env st) (hf : op.field = some f) (h : run op env st = .ret () st') (dbg : Bool)
    (hb : st'.base = st.base) {a n : Nat} (hn : a + n ≤ Field.start st f) :
    (st.hold.obj st' dbg).read a n = (st.obj dbg).read a n := by
  rw [C56_stays hb]
  obtain ⟨S, U, W, H, P, q, g, t, pa, hp⟩ := hw.release.parts rfl
  have h1 : run op env.release st = .ret () st' := by
    rcases run_sim op env st with ⟨f, h'⟩ | h'
    · rw [h] at h'; cases h'
    · rw [← h', h]
  obtain ⟨S', U', W', H', P', pa', q', g', t', hp', ht⟩ := w_next hp rfl h1
  cases f with
  | scheme =>
    have : n = 0 := by simp only [Field.start] at hn; omega
    unfold Obj.read; rw [if_pos this, if_pos this]
  | auth =>
    refine front_same hp.holds hp'.holds (k := 1) ?_ dbg hn
    cases op <;> simp only [Op.field, Option.some.injEq, reduceCtorEq] at hf <;> simp only [Op.touch, Touched] at ht <;> simp [ht]
  | path =>
    refine front_same hp.holds hp'.holds (k := 5) ?_ dbg hn
    cases op <;> simp only [Op.field, Option.some.injEq, reduceCtorEq] at hf <;> simp only [Op.touch, Touched] at ht <;> simp [ht]
  | query =>
    refine front_same hp.holds hp'.holds (k := 6) ?_ dbg hn
    cases op <;> simp only [Op.field, Option.some.injEq, reduceCtorEq] at hf <;> simp only [Op.touch, Touched] at ht <;> simp [ht]
  | fragment =>
    refine front_same hp.holds hp'.holds (k := 7) ?_ dbg hn
    cases op <;> simp only [Op.field, Option.some.injEq, reduceCtorEq] at hf <;> simp only [Op.touch, Touched] at ht <;> simp [ht]

/-- C56: as long as the buffer stays, an edit keeps the characters in front of the place of the edit. -/
theorem C56_worked_strings_edit {e : ItOp} {it : SegIt} (hw : Worked env st) (hin : e.InPath st) (h : runIt e env st = .ret it st') (dbg : Bool)
    (hb : st'.base = st.base) {a n : Nat} (hn : a + n ≤ e.range.1) :
    (st.hold.obj st' dbg).read a n = (st.obj dbg).read a n := by
  rw [C56_stays hb]
  by_cases h0 : n = 0
  · unfold Obj.read; rw [if_pos h0, if_pos h0]
  have h1 : runIt e env.release st = .ret it st' := by
    rcases runIt_sim e env st with ⟨f, h'⟩ | h'
    · rw [h] at h'; cases h'
    · rw [← h', h]
  obtain ⟨S, U, W, H, P, q, f, t, pa, hp⟩ := hw.release.parts rfl
  rcases hp.edit rfl hin with ⟨-, ho⟩ | ⟨hv, ho⟩
  · rw [h1] at ho; cases ho
  rw [h1] at ho
  obtain ⟨-, -, -, ⟨t', g4⟩, -⟩ := ho
  obtain ⟨o1, o2, -⟩ := hp.holds.offs (A := [S, U, W, H, P]) rfl
  obtain ⟨i1, i2, i3⟩ := hin
  rw [List.length_map] at o2
  have key : ∀ {s : St} {L : List (List Cell)} {t : Cell}, Holds env.release s L t → L.flatten ≠ [] → s.buf.isSome = true := by
    intro s L t h hl
    rcases h.buf with ⟨-, h2, -⟩ | ⟨junk, h1, -⟩
    · exact absurd h2 hl
    · rw [h1]; rfl
  generalize hA : [S, U, W, H, P] = A at *
  have hL : [S, U, W, H, P, pa.map some, q, f] = A ++ pa.map some :: [q, f] := by rw [← hA]; rfl
  have e1 : (A ++ pa.map some :: [q, f]).flatten =
      (A.flatten ++ (pa.take (e.range.1 - st.pt.off id_path)).map some) ++
        ((pa.drop (e.range.1 - st.pt.off id_path)).map some ++ (q ++ f)) := by
    rw [List.flatten_append, List.flatten_cons, List.append_assoc, ← List.append_assoc (List.map _ _), ← List.map_append, List.take_append_drop]
    simp
  have e2 : (A ++ (e.path (st.pt.off id_path) pa).map some :: [q, f]).flatten =
      (A.flatten ++ (pa.take (e.range.1 - st.pt.off id_path)).map some) ++
        ((e.text ++ e.rest (st.pt.off id_path) pa).map some ++ (q ++ f)) := by
    unfold ItOp.path
    simp
  have hlen : (A.flatten ++ (pa.take (e.range.1 - st.pt.off id_path)).map some).length = e.range.1 := by
    rw [List.length_append, List.length_map, List.length_take]; omega
  have hne : ∀ X : List Cell, (A.flatten ++ (pa.take (e.range.1 - st.pt.off id_path)).map some) ++ X ≠ [] := by
    intro X he
    have := congrArg List.length he
    rw [List.length_append, hlen, List.length_nil] at this
    omega
  have hh := hp.holds
  rw [hL] at hh
  obtain ⟨j, hj⟩ := hh.mem (key hh (by rw [e1]; exact hne _)) dbg
  obtain ⟨j', hj'⟩ := g4.mem (key g4 (by rw [e2]; exact hne _)) dbg
  rw [e1, List.append_assoc] at hj
  rw [e2, List.append_assoc] at hj'
  exact read_front hj hj' (by omega)

/-- the path is kept while a fragment or a segment that fits is added; both read indeterminate bytes as before -/
example : Worked env1 stale ∧ Op.field (.set_fragment b!"f") = some .fragment ∧
    returns (run (.set_fragment b!"f") env1 stale) = true ∧
    (left (run (.set_fragment b!"f") env1 stale)).base = stale.base ∧ stale.base = some 1 ∧ Field.start stale .fragment = 6 ∧
    ((stale.hold.obj (left (run (.set_fragment b!"f") env1 stale)) false).read 4 2).toOption = some b!"/a" ∧
    ((stale.hold.obj (left (run (.set_fragment b!"f") env1 stale)) false).read 0 2).toOption = none ∧
    ((stale.obj false).read 0 2).toOption = none ∧
    (ItOp.insert ⟨6, 0⟩ b!"b").InPath stale ∧ (left (runIt (.insert ⟨6, 0⟩ b!"b") env1 stale)).base = stale.base ∧
    needs stale (left (runIt (.insert ⟨6, 0⟩ b!"b") env1 stale)) (.insert ⟨6, 0⟩ b!"b") = 8 ∧ stale.cap = 10 ∧
    ((stale.hold.obj (left (runIt (.insert ⟨6, 0⟩ b!"b") env1 stale)) false).read 4 2).toOption = some b!"/a" ∧
    View.segments (stale.hold.obj (left (runIt (.insert ⟨6, 0⟩ b!"b") env1 stale)) false) 9 = .ok [b!"a", b!"b"] :=
  by
  refine ⟨stale_worked, rfl, ?_, ?_, ?_, ?_, ?_, ?_, ?_, ?_, ?_, ?_, ?_, ?_, ?_⟩ <;> decide +kernel

/-- and lost when a longer one is added -/
example : (left (run (.set_fragment b!"abcdef") env1 stale)).base = some 2 ∧ size ((left (run (.set_fragment b!"abcdef") env1 stale)).obj false) = 13 ∧
    ((stale.hold.obj (left (run (.set_fragment b!"abcdef") env1 stale)) false).read 4 2).toOption = none ∧
    encoded_path ((left (run (.set_fragment b!"abcdef") env1 stale)).obj false) = .ok b!"/a" ∧
    (left (runIt (.insert ⟨6, 0⟩ b!"abcdef") env1 stale)).base = some 2 ∧
    needs stale (left (runIt (.insert ⟨6, 0⟩ b!"abcdef") env1 stale)) (.insert ⟨6, 0⟩ b!"abcdef") = 13 := by
  refine ⟨?_, ?_, ?_, ?_, ?_, ?_⟩ <;> decide +kernel

end Url.Props
