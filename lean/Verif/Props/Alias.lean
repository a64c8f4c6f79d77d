import Verif.Props.Release
import Verif.Props.SegEdit
import Verif.Proofs.AliasSeg

/-!
Properties of the container `url`: C50, arguments that are a part of the url itself.
-/

set_option linter.unusedSimpArgs false
set_option autoImplicit false

namespace Url.Props
open Url Spec

variable {env : Env} {st st' : St} {op : Op} {off : Nat}

/-- `s` are the characters at offset `off` of the url. -/
def Within (st : St) (off : Nat) (s : Str) : Prop := (st.obj false).read off s.length = .ok s

/-- Call `op` with an argument that is not a copy but the characters of the url themselves, from offset `off` on. -/
def runWithin (op : Op) (off : Nat) : M Unit := fun env st => Alias.run op (some (st.tick, off)) env st

theorem ordered (h : Reach env st ∨ Used env st) : Alias.Ordered st.pt ∧ st.pt.off 0 = 0 := by
  rcases h with h | h
  · obtain ⟨c, ⟨t, h⟩, -⟩ := h.rep
    exact Alias.ordered_of h
  · obtain ⟨S, U, W, H, P, pa, q, f, t, h⟩ := h.release.parts rfl
    exact Alias.ordered_of h.holds

theorem first_le {h : ∀ p ∈ sets op, off ≤ st.pt.off p.id} : off ≤ st.pt.off (Alias.first op) := by
  cases op
  case set_encoded_url => exact h .scheme (by simp [sets])
  case set_encoded_origin => exact h .scheme (by simp [sets])
  case set_scheme => exact h .scheme (by simp [sets])
  case set_encoded_authority => exact h .user (by simp [sets])
  case set_encoded_userinfo => exact h .user (by simp [sets])
  case set_userinfo_part => exact h .user (by simp [sets])
  case set_user => exact h .user (by simp [sets])
  case set_encoded_user => exact h .user (by simp [sets])
  case set_password => exact h .password (by simp [sets])
  case set_encoded_password => exact h .password (by simp [sets])
  case set_password_part => exact h .password (by simp [sets])
  case set_host => exact h .host (by simp [sets])
  case set_encoded_host => exact h .host (by simp [sets])
  case set_port => exact h .port (by simp [sets])
  case set_port_number => exact h .port (by simp [sets])
  case set_port_part => exact h .port (by simp [sets])
  case set_encoded_path => exact h .path (by simp [sets])
  case set_query => exact h .query (by simp [sets])
  case set_encoded_query => exact h .query (by simp [sets])
  case set_query_part => exact h .query (by simp [sets])
  case set_fragment => exact h .fragment (by simp [sets])
  case set_encoded_fragment => exact h .fragment (by simp [sets])
  case set_fragment_part => exact h .fragment (by simp [sets])
  case normalize_scheme => exact h .scheme (by simp [sets])
  case normalize => exact h .scheme (by simp [sets])

/-- C50, as far as it holds: an argument that is a part of the url itself, in front of what the call sets, acts
like a copy, provided the call with the copy throws or returns without having enlarged the capacity. (Missing: parts
of the url elsewhere, and calls that enlarge the capacity; for these it is false.) -/
theorem C50_partial (hr : Reach env st ∨ Used env st) (hw : Within st off (Alias.arg op))
    (hf : ∀ p ∈ sets op, off + (Alias.arg op).length ≤ st.pt.off p.id)
    (hc : (∃ st', run op env st = .ret () st' ∧ st'.cap = st.cap) ∨ ∃ e st', run op env st = .throw e st') :
    runWithin op off env st = run op env st := by
  unfold runWithin
  by_cases hs : Alias.arg op = []
  · rw [Alias.arg_nil op hs]
  obtain ⟨ho, h0⟩ := ordered hr
  have hsl := Alias.slice_of hs hw
  rcases Alias.run_al (env := env) (c0 := st.cap) (g := st.tick) op
      ⟨Nat.le_refl _, Nat.le_refl _, fun _ => hsl, fun h => absurd rfl h⟩ ho h0 (first_le (h := hf)) with h | ⟨-, h⟩
  · exact h
  · exfalso
    rcases hc with ⟨st', hx, hc⟩ | ⟨e, st', hx⟩
    · have := h st' (.inl ⟨(), hx⟩)
      omega
    · have := h st' (.inr ⟨e, hx⟩)
      have := (C18_strong hx).2.2.2
      omega

/-- a url with room to spare: `//u@h/p` in the memory of a longer text -/
def roomy : St := after [.set_encoded_url b!"//u@h/p?0123456789012345678901234567890123456789", .set_encoded_url b!"//u@h/p"]

theorem reach_all {ops : List Op} : ∀ {st st' : St}, Reach env st → (∀ op ∈ ops, ∀ a i, ¬ op.Defective a i) →
    runAll ops env st = .ret () st' → Reach env st' := by
  induction ops with
  | nil => intro st st' h _ hr; cases hr; exact h
  | cons op ops ih =>
    intro st st' h hd hr
    obtain ⟨u, st1, h1, h2⟩ := Alias.bind_ret (m := run op) (f := fun _ => runAll ops) hr
    exact ih (.call op h (fun i _ => hd op (by simp) _ i) (.inl h1)) (fun o ho => hd o (by simp [ho])) h2

theorem after_eq {ops : List Op} (h : returns (runAll ops env0 Base.empty) = true) :
    runAll ops env0 Base.empty = .ret () (after ops) := by
  unfold after
  cases hx : runAll ops env0 Base.empty with
  | ret u st => rfl
  | throw e st => rw [hx] at h; cases h
  | fault f => rw [hx] at h; cases h

theorem roomy_reach : Reach env0 roomy :=
  reach_all .empty (by simp [Op.Defective]) (after_eq (by decide +kernel))

/-- the capacity after a call -/
def capOf (out : Out Unit) : Option Nat :=
  match out with
  | .ret _ st => some st.cap
  | _ => none

theorem capOf_eq {out : Out Unit} {n : Nat} (h : capOf out = some n) : ∃ st', out = .ret () st' ∧ st'.cap = n := by
  cases out with
  | ret u st => simp [capOf] at h; exact ⟨st, rfl, h⟩
  | throw e st => cases h
  | fault f => cases h

-- the path as fragment, the user as password: four characters, one character of the url itself
example : Within roomy 5 b!"/p" ∧ runWithin (.set_encoded_fragment b!"/p") 5 env0 roomy = run (.set_encoded_fragment b!"/p") env0 roomy ∧
    textOf (runWithin (.set_encoded_fragment b!"/p") 5 env0 roomy) = some b!"//u@h/p#/p" ∧
    textOf (runWithin (.set_password b!"u") 2 env0 roomy) = some b!"//u:u@h/p" := by
  have hw : Within roomy 5 b!"/p" := by unfold Within; decide +kernel
  refine ⟨hw, C50_partial (.inl roomy_reach) hw ?_ (.inl (capOf_eq (by decide +kernel))), by decide +kernel, by decide +kernel⟩
  intro p hp
  simp only [sets, List.mem_singleton] at hp
  subst hp
  decide +kernel

/-- C50 is false for every call that has to enlarge the capacity, in every state and wherever in the url the argument
is: the characters are read from the memory that was released. -/
theorem C50_capacity_false (hr : run op env st = .ret () st') (hc : st.cap < st'.cap) (hs : Alias.copied op ≠ []) :
    runWithin op off env st = .fault .ub :=
  Alias.run_ala (env := env) (c0 := st.cap) (g := st.tick) op hs ⟨Nat.le_refl _, fun _ => Nat.le_refl _⟩ () st' hr hc

-- the same calls where the capacity is used up
example : Within (after [.set_encoded_url b!"//u@h/p"]) 5 b!"/p" ∧
    textOf (run (.set_encoded_fragment b!"/p") env0 (after [.set_encoded_url b!"//u@h/p"])) = some b!"//u@h/p#/p" ∧
    runWithin (.set_encoded_fragment b!"/p") 5 env0 (after [.set_encoded_url b!"//u@h/p"]) = .fault .ub := by
  refine ⟨by unfold Within; decide +kernel, by decide +kernel, ?_⟩
  obtain ⟨st', h1, h2⟩ := capOf_eq (show capOf (run (.set_encoded_fragment b!"/p") env0 (after [.set_encoded_url b!"//u@h/p"])) = some 14 by decide +kernel)
  exact C50_capacity_false h1 (by rw [h2]; decide +kernel) (by decide)

/-- C50 is false for an argument behind the part that is set, even if no memory is allocated: the text is moved before it
is copied. Here the query `/x` of `/abc?/x#f` is made the path, which becomes `#f`, although `/x` was validated; and
in `aa` the second character is made the url, after it was overwritten by the terminating zero. -/
theorem C50_behind_false :
    Within (after [.set_encoded_url b!"/abc?/x#f"]) 5 b!"/x" ∧
    textOf (run (.set_encoded_path b!"/x") env0 (after [.set_encoded_url b!"/abc?/x#f"])) = some b!"/x?/x#f" ∧
    textOf (runWithin (.set_encoded_path b!"/x") 5 env0 (after [.set_encoded_url b!"/abc?/x#f"])) = some b!"#f?/x#f" ∧
    Within (after [.set_encoded_url b!"aa"]) 1 b!"a" ∧
    textOf (run (.set_encoded_url b!"a") env0 (after [.set_encoded_url b!"aa"])) = some b!"a" ∧
    textOf (runWithin (.set_encoded_url b!"a") 1 env0 (after [.set_encoded_url b!"aa"])) = some [0] := by
  unfold Within
  decide +kernel

/-- The calls that copy their argument to where the corresponding part is, and the place. -/
def ownPlace (pt : Parts) : Op → Option Nat
  | .set_encoded_path s => if pt.length id_path = s.length then some (pt.off id_path) else none
  | .set_encoded_query s => if pt.length id_query = 1 + s.length then some (pt.off id_query + 1) else none
  | .set_encoded_fragment s => if pt.length id_frag = 1 + s.length then some (pt.off id_frag + 1) else none
  | .set_encoded_url s => if pt.off id_end = s.length then some 0 else none
  | _ => none

theorem stuck_copy {i g : Nat} {s : Str} (hs : s ≠ []) : Alias.copyArg i ⟨s, some (g, i)⟩ env st = .fault .ub := by
  have : 0 < s.length := List.length_pos_iff.2 hs
  simp only [Alias.copyArg]
  rw [if_neg (by omega)]
  split
  · rfl
  · split
    · rfl
    · rw [if_neg (by omega)]

theorem resize_same {id n : Nat} (h : st.pt.length id = n) : Base.resize id n env st = .ret (st.pt.off id) st := by
  show (M.pt >>= _) env st = _
  simp only [bind, M.pt]
  rw [if_pos h]
  rfl

/-- C50 is false for a part set to itself, as in `u.set_encoded_path(u.encoded_path())`: the characters are copied to where
they are, with functions (`traits::copy`, `memcpy`) that forbid the two ranges to overlap. In no state does such a call
return. (Implementations of these functions usually tolerate equal ranges; the standard does not promise it.) -/
theorem C50_self_false (h : ownPlace st.pt op = some off) (hs : Alias.arg op ≠ []) :
    returns (runWithin op off env st) = false := by
  cases hx : runWithin op off env st with
  | throw e st => rfl
  | fault f => rfl
  | ret u st2 =>
    exfalso
    unfold runWithin at hx
    cases op <;> simp only [ownPlace, reduceCtorEq, Option.ite_none_right_eq_some, Option.some.injEq] at h
    case set_encoded_path s =>
      obtain ⟨hl, rfl⟩ := h
      have hs0 : s ≠ [] := hs
      have hs' : s.isEmpty = false := by simpa using hs0
      simp only [Alias.run, Alias.set_encoded_path, hs', Bool.false_eq_true, if_false] at hx
      have fin : ∀ {u : Unit} {st3 : St}, (Base.resize id_path s.length >>= fun d => Alias.copyArg d ⟨s, some (st.tick, st.pt.off id_path)⟩) env st ≠ .ret u st3 := by
        intro u st3 hx
        obtain ⟨d, st4, h1, h2⟩ := Alias.bind_ret hx
        rw [resize_same hl] at h1
        cases h1
        rw [stuck_copy hs0] at h2
        cases h2
      obtain ⟨b, st4, h1, hx⟩ := Alias.bind_ret hx
      rcases (Alias.Reads.ask _) env st with ⟨_, h⟩ | ⟨_, h⟩ | ⟨_, h⟩ <;> rw [h] at h1 <;> cases h1
      repeat' split at hx
      all_goals
        obtain ⟨x, st5, h1, hx⟩ := Alias.bind_ret hx
        try (rcases (Alias.Reads.parsedAll _) env st with ⟨_, h⟩ | ⟨_, h⟩ | ⟨_, h⟩ <;> rw [h] at h1 <;> cases h1; exact fin hx)
      cases h1
      split at hx
      all_goals
        obtain ⟨x, st5, h1, hx⟩ := Alias.bind_ret hx
        rcases (Alias.Reads.parsedAll _) env st with ⟨_, h⟩ | ⟨_, h⟩ | ⟨_, h⟩ <;> rw [h] at h1 <;> cases h1
        exact fin hx
    case set_encoded_url s =>
      obtain ⟨hl, rfl⟩ := h
      have hs0 : s ≠ [] := hs
      have hs' : s.isEmpty = false := by simpa using hs0
      simp only [Alias.run, Alias.set_encoded_url, hs', Bool.false_eq_true, if_false] at hx
      obtain ⟨_, _, -, hx⟩ := Alias.bind_ret hx
      obtain ⟨_, _, -, hx⟩ := Alias.bind_ret hx
      obtain ⟨_, _, -, hx⟩ := Alias.bind_ret hx
      rw [stuck_copy hs0] at hx
      cases hx
    all_goals
      rename_i s
      obtain ⟨hl, rfl⟩ := h
      have hs0 : s ≠ [] := hs
      have hs' : s.isEmpty = false := by simpa using hs0
      simp only [Alias.run, Alias.setEncoded, hs', Bool.false_eq_true, if_false] at hx
      obtain ⟨_, _, h1, hx⟩ := Alias.bind_ret hx
      rcases (Alias.Reads.validate _ _) env st with ⟨_, h⟩ | ⟨_, h⟩ | ⟨_, h⟩ <;> rw [h] at h1 <;> cases h1
      obtain ⟨_, _, h1, hx⟩ := Alias.bind_ret hx
      rw [resize_same hl] at h1
      cases h1
      obtain ⟨_, _, -, hx⟩ := Alias.bind_ret hx
      rw [stuck_copy hs0] at hx
      cases hx

-- the url, the path, the query and the fragment of `/a?b#c`, each set to itself, against a copy of it
example : let st := after [.set_encoded_url b!"/a?b#c"]
    (∀ x ∈ [(Op.set_encoded_url b!"/a?b#c", 0), (.set_encoded_path b!"/a", 0), (.set_encoded_query b!"b", 3),
      (.set_encoded_fragment b!"c", 5)],
      ownPlace st.pt x.1 = some x.2 ∧ Within st x.2 (Alias.arg x.1) ∧ textOf (run x.1 env0 st) = some b!"/a?b#c" ∧
      faultOf (runWithin x.1 x.2 env0 st) = some .ub) := by
  unfold Within
  decide +kernel

/-! ### edits of segments -/

variable {e : SegOp} {it : SegIt}

/-- Edit a segment with an argument that is not a copy but the characters of the url themselves, from offset `off` on. -/
def editWithin (e : SegOp) (off : Nat) : M SegIt := fun env st => Alias.runSeg e (some (st.tick, off)) env st

/-- C50 for edits of segments, as far as it holds: an argument that is a part of the url itself, in front of the position
`it` of the edit, acts like a copy, provided the edit with the copy throws or returns without having enlarged the capacity.
(Missing: parts of the url from the position on, and edits that enlarge the capacity; for these it is false.) -/
theorem C50_edit_partial (hr : Reach env st) (he : Editable env st e) (hw : Within st off (Alias.editArg e))
    (hit : Seg.nth id_query (st.obj env.dbg) e.cut.1 = .ok it) (hf : off + (Alias.editArg e).length ≤ it.off)
    (hc : (∃ i' st', runSeg e env st = .ret i' st' ∧ st'.cap = st.cap) ∨ ∃ x st', runSeg e env st = .throw x st') :
    editWithin e off env st = runSeg e env st := by
  unfold editWithin
  by_cases hs : Alias.editArg e = []
  · rw [Alias.editArg_nil e hs]
  obtain ⟨c, h, -⟩ := hr.rep
  have ho := edit_outcome h he
  obtain ⟨p, h1, h2, h3, h4⟩ := he
  rw [acc_path (h.obj env.dbg)] at h1
  cases h1
  rw [segAt_eq h h2 env.dbg (Nat.le_trans h3.1 h3.2)] at hit
  cases hit
  have hsl := Alias.slice_of hs hw
  rcases Alias.runSeg_al (env := env) (c0 := st.cap) (g := st.tick) e
      ⟨Nat.le_refl _, Nat.le_refl _, fun _ => hsl, fun h => absurd rfl h⟩ h h2 h3 hf with h | ⟨-, h⟩
  · exact h
  · exfalso
    rcases hc with ⟨i', st', hx, hc⟩ | ⟨x, st', hx⟩
    · have := h st' (.inl ⟨_, hx⟩)
      omega
    · have hlt := h st' (.inr ⟨_, hx⟩)
      rw [hx] at ho
      cases ho with
      | invalid => omega
      | full => exact Nat.lt_irrefl _ hlt

/-- C50 is false for every edit that has to enlarge the capacity, in every state and wherever in the url the argument is:
the characters are read from the memory that was released. -/
theorem C50_edit_capacity_false (hw : Within st off (Alias.editArg e)) (hs : Alias.editArg e ≠ [])
    (hr : runSeg e env st = .ret it st') (hc : st.cap < st'.cap) : editWithin e off env st = .fault .ub :=
  Alias.runSeg_ala (env := env) (c0 := st.cap) (g := st.tick) e hs ⟨Nat.le_refl _, fun _ => Nat.le_refl _⟩
    (fun _ => Alias.slice_of hs hw) it st' hr hc

theorem erase_off {a b i' : SegIt} (hr : Base.seg_erase_range a b env st = .ret i' st') : i'.off = a.off := by
  unfold Base.seg_erase_range at hr
  iterate 6 obtain ⟨_, _, -, hr⟩ := Alias.bind_ret hr
  split at hr
  · cases hr
  · dsimp only at hr
    split at hr
    · cases hr; rfl
    · obtain ⟨_, _, -, hr⟩ := Alias.bind_ret hr
      split at hr
      · cases hr
      · iterate 12 obtain ⟨_, _, -, hr⟩ := Alias.bind_ret hr
        exact parse_off (Machine.ask_ret hr).1

theorem overlap_copy {i g : Nat} {s : Str} (h1 : off < i + s.length) (h2 : i < off + s.length) :
    Alias.copyArg i ⟨s, some (g, off)⟩ env st = .fault .ub := by
  simp only [Alias.copyArg]
  rw [if_neg (by omega)]
  split
  · rfl
  · split
    · rfl
    · rw [if_neg (by omega)]

/-- C50 is false for a segment replaced by itself or by a part of itself that overlaps its new place, as in
`segs.replace_encoded(it, it->encoded_string())` (offset `it.off + 1`): where the old segment was erased its characters are
copied to where they were, or from memory that was released. In no state does such a call return. -/
theorem C50_edit_self_false {i : Nat} {s : Str} (hit : Seg.nth id_query (st.obj env.dbg) i = .ok it)
    (hs : off < it.off + 1 + s.length ∧ it.off + 1 < off + s.length) {i' : SegIt} :
    editWithin (.replace_encoded i s) off env st ≠ .ret i' st' := by
  intro hx
  unfold editWithin at hx
  obtain ⟨_, _, e, hx⟩ := Alias.bind_ret (m := Base.segAt i) (f := fun p => Alias.seg_replace_encoded p ⟨s, some (st.tick, off)⟩) hx
  obtain ⟨e1, rfl⟩ := Machine.ask_ret e
  rw [hit] at e1
  cases e1
  unfold Alias.seg_replace_encoded at hx
  obtain ⟨_, _, -, hx⟩ := Alias.bind_ret hx
  unfold Base.seg_swap at hx
  iterate 2 obtain ⟨_, _, -, hx⟩ := Alias.bind_ret hx
  have fin : ∀ {env : Env} {st st' : St} {g cap : Nat} {i' : SegIt},
      (Base.seg_erase it >>= fun x => Alias.seg_insert_encoded_impl x ⟨s, some (g, off)⟩ >>= fun r => M.capacity >>= fun cap' =>
        M.assert (fun _ => .ok (cap' = cap)) >>= fun _ => (pure r : M SegIt)) env st ≠ .ret i' st' := by
    intro env st st' g cap i' hx
    obtain ⟨x, _, e, hx⟩ := Alias.bind_ret hx
    unfold Base.seg_erase at e
    obtain ⟨_, _, -, e⟩ := Alias.bind_ret e
    have hoff := erase_off e
    obtain ⟨_, _, e, -⟩ := Alias.bind_ret hx
    unfold Alias.seg_insert_encoded_impl Alias.seg_put at e
    iterate 12 obtain ⟨_, _, -, e⟩ := Alias.bind_ret e
    obtain ⟨_, _, e, -⟩ := Alias.bind_ret e
    dsimp only at e
    rw [hoff, overlap_copy hs.1 hs.2] at e
    cases e
  dsimp only at hx
  split at hx
  · iterate 3 obtain ⟨_, _, -, hx⟩ := Alias.bind_ret hx
    exact fin hx
  · obtain ⟨_, _, -, hx⟩ := Alias.bind_ret hx
    exact fin hx

/-- the text after an edit -/
def editedText (out : Out SegIt) : Option Str :=
  match out with
  | .ret _ st => (encoded_url (st.obj false)).toOption
  | _ => none

/-- the fault of an edit -/
def editFault (out : Out SegIt) : Option Flt :=
  match out with
  | .fault f => some f
  | _ => none

/-- the capacity after an edit -/
def editCap (out : Out SegIt) : Option Nat :=
  match out with
  | .ret _ st => some st.cap
  | _ => none

/-- `/a/bc/d?q` in the memory of a longer text -/
def roomyPath : St := after [.set_encoded_url b!"/a/bc/d?0123456789012345678901234567890123456789", .set_encoded_url b!"/a/bc/d?q"]

theorem roomyPath_reach : Reach env0 roomyPath :=
  reach_all .empty (by simp [Op.Defective]) (after_eq (by decide +kernel))

theorem editCap_eq {out : Out SegIt} {n : Nat} (h : editCap out = some n) : ∃ i' st', out = .ret i' st' ∧ st'.cap = n := by
  cases out with
  | ret u st => simp [editCap] at h; exact ⟨u, st, rfl, h⟩
  | throw e st => cases h
  | fault f => cases h

-- the first two segments, with the slash escaped, in place of the third one; the second one once more in front of it
example : Editable env0 roomyPath (.replace 2 b!"a/bc") ∧ Within roomyPath 1 b!"a/bc" ∧
    editWithin (.replace 2 b!"a/bc") 1 env0 roomyPath = runSeg (.replace 2 b!"a/bc") env0 roomyPath ∧
    editedText (editWithin (.replace 2 b!"a/bc") 1 env0 roomyPath) = some b!"/a/bc/a%2Fbc?q" ∧
    editedText (editWithin (.insert_encoded 2 b!"bc") 3 env0 roomyPath) = some b!"/a/bc/bc/d?q" := by
  have he : Editable env0 roomyPath (.replace 2 b!"a/bc") := ⟨b!"/a/bc/d", by decide +kernel, by decide +kernel, by decide +kernel, by decide +kernel⟩
  have hw : Within roomyPath 1 b!"a/bc" := by unfold Within; decide +kernel
  refine ⟨he, hw, C50_edit_partial roomyPath_reach he hw (it := ⟨5, 2⟩) (by decide +kernel) (by decide) (.inl (editCap_eq (by decide +kernel))),
    by decide +kernel, by decide +kernel⟩

-- the same where the capacity is used up
example : Within (after [.set_encoded_url b!"/a/bc/d?q"]) 1 b!"a/bc" ∧
    editedText (runSeg (.replace 2 b!"a/bc") env0 (after [.set_encoded_url b!"/a/bc/d?q"])) = some b!"/a/bc/a%2Fbc?q" ∧
    editWithin (.replace 2 b!"a/bc") 1 env0 (after [.set_encoded_url b!"/a/bc/d?q"]) = .fault .ub ∧
    editWithin (.insert_encoded 2 b!"bc") 3 env0 (after [.set_encoded_url b!"/a/bc/d?q"]) = .fault .ub := by
  have hw : Within (after [.set_encoded_url b!"/a/bc/d?q"]) 1 b!"a/bc" := by unfold Within; decide +kernel
  refine ⟨hw, by decide +kernel, ?_, ?_⟩
  · obtain ⟨i', st', h1, h2⟩ := editCap_eq (show editCap (runSeg (.replace 2 b!"a/bc") env0 (after [.set_encoded_url b!"/a/bc/d?q"])) = some 18 by decide +kernel)
    exact C50_edit_capacity_false hw (by decide) h1 (by rw [h2]; decide +kernel)
  · obtain ⟨i', st', h1, h2⟩ := editCap_eq (show editCap (runSeg (.insert_encoded 2 b!"bc") env0 (after [.set_encoded_url b!"/a/bc/d?q"])) = some 18 by decide +kernel)
    exact C50_edit_capacity_false (by unfold Within; decide +kernel) (by decide) h1 (by rw [h2]; decide +kernel)

/-- C50 is false for an argument from the position on, even if no memory is allocated: the text is moved before it is
copied. Here the second segment of `/a/bc/d?q` is inserted in front of the first one, and becomes `/a`, so that the path
starts with two slashes; and `a/bc` is inserted in front of the second segment, which is overwritten as the encoded text
gets longer than it was to be. -/
theorem C50_edit_behind_false :
    Reach env0 roomyPath ∧ Within roomyPath 3 b!"bc" ∧ Within roomyPath 1 b!"a/bc" ∧
    editedText (runSeg (.insert_encoded 0 b!"bc") env0 roomyPath) = some b!"/bc/a/bc/d?q" ∧
    editedText (editWithin (.insert_encoded 0 b!"bc") 3 env0 roomyPath) = some b!"//a/a/bc/d?q" ∧
    editedText (runSeg (.insert 1 b!"a/bc") env0 roomyPath) = some b!"/a/a%2Fbc/bc/d?q" ∧
    editedText (editWithin (.insert 1 b!"a/bc") 1 env0 roomyPath) = some b!"/a/a%2Fa%25c/d?q" := by
  refine ⟨roomyPath_reach, ?_⟩
  unfold Within
  decide +kernel

-- each segment of `/a/bc/d?q` replaced by itself, in a debug and in a release build
example : ∀ x ∈ [(0, 0, b!"a"), (1, 2, b!"bc"), (2, 5, b!"d")],
    ((Seg.nth id_query (roomyPath.obj true) x.1).toOption.map fun i => i.off) = some x.2.1 ∧ Within roomyPath (x.2.1 + 1) x.2.2 ∧
    editedText (runSeg (.replace_encoded x.1 x.2.2) env0 roomyPath) = some b!"/a/bc/d?q" ∧
    (editFault (editWithin (.replace_encoded x.1 x.2.2) (x.2.1 + 1) env0 roomyPath)).isSome ∧
    editFault (editWithin (.replace_encoded x.1 x.2.2) (x.2.1 + 1) env1 roomyPath) = some .ub := by
  unfold Within
  decide +kernel

end Url.Props
