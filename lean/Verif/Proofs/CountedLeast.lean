import Verif.Proofs.CountedSetters

/-!
What a call changes it has written, and the counted calls count it.
-/

set_option linter.unusedSimpArgs false
set_option autoImplicit false

namespace Url
variable {α β : Type}

/-- the value in the memory of the URL at an index, if there is one -/
def St.cell (st : St) (i : Nat) : Option Byte := ((st.buf.getD [])[i]?).join

/-- At this index there is a value that was not there before: it is another one, or in another block. -/
def Fresh (st st' : St) (i : Nat) : Prop := st'.cell i ≠ none ∧ (st'.addr ≠ st.addr ∨ st'.cell i ≠ st.cell i)

instance (st st' : St) (i : Nat) : Decidable (Fresh st st' i) := by unfold Fresh; infer_instance

/-- the number of values that were not there before, among the first `n` -/
def fresh (n : Nat) (st st' : St) : Nat := (List.range n).countP fun i => decide (Fresh st st' i)

theorem fresh_same {n : Nat} {st st' : St} (h : st'.buf = st.buf) (ha : st'.addr = st.addr) : fresh n st st' = 0 := by
  unfold fresh
  rw [List.countP_eq_zero]
  intro i _
  simp only [decide_eq_true_eq]
  rintro ⟨-, h1 | h1⟩
  · exact h1 ha
  · exact h1 (by unfold St.cell; rw [h])

theorem countP_or_le (p q : Nat → Bool) (l : List Nat) : l.countP (fun i => p i || q i) ≤ l.countP p + l.countP q := by
  induction l with
  | nil => exact Nat.le_refl _
  | cons a t ih =>
    simp only [List.countP_cons]
    cases p a <;> cases q a <;> simp <;> omega

theorem fresh_trans (n : Nat) (a b c : St) : fresh n a c ≤ fresh n a b + fresh n b c := by
  unfold fresh
  refine Nat.le_trans ?_ (countP_or_le _ _ _)
  refine List.countP_mono_left fun i _ h => ?_
  simp only [Bool.or_eq_true, decide_eq_true_eq] at h ⊢
  unfold Fresh at *
  grind

theorem countP_interval (a k n : Nat) : (List.range n).countP (fun i => decide (a ≤ i ∧ i < a + k)) ≤ k := by
  have : (List.range n).countP (fun i => decide (a ≤ i ∧ i < a + k)) ≤ min k (n - a) := by
    induction n with
    | zero => exact Nat.zero_le _
    | succ n ih =>
      rw [List.range_succ, List.countP_append]
      simp only [List.countP_cons, List.countP_nil, decide_eq_true_eq]
      split <;> omega
  omega

/-- Values that are fresh lie in an interval. -/
theorem fresh_le {n a k : Nat} {st st' : St} (h : ∀ i, Fresh st st' i → a ≤ i ∧ i < a + k) : fresh n st st' ≤ k := by
  refine Nat.le_trans (List.countP_mono_left fun i _ hi => ?_) (countP_interval a k n)
  simp only [decide_eq_true_eq] at hi ⊢
  exact h i hi

/-- the state an outcome leaves behind -/
def Out.left : Out α → Option St
  | .ret _ st => some st
  | .throw _ st => some st
  | .fault _ => none

/-- The call counts at least what it changes. -/
def Counts (c : CM α) : Prop := ∀ env st st' n, (c env st).2.left = some st' → fresh n st st' ≤ (c env st).1

/-- it leaves the memory as it is -/
def Leaves (m : M α) : Prop := ∀ env st st', (m env st).left = some st' → st'.buf = st.buf ∧ st'.addr = st.addr

theorem Leaves.ask (f : Obj → R α) : Leaves (M.ask f) := by
  intro env st st' h
  unfold M.ask at h
  split at h <;> cases h
  exact ⟨rfl, rfl⟩

theorem Leaves.bind {m : M α} {f : α → M β} (h : Leaves m) (h' : ∀ a, Leaves (f a)) : Leaves (m >>= f) := by
  intro env st st' hb
  change (match m env st with
    | .ret a st => f a env st
    | .throw e st => .throw e st
    | .fault x => .fault x).left = _ at hb
  have := h env st
  revert this hb
  rcases m env st with ⟨a, st1⟩ | ⟨e, st1⟩ | x
  · intro hb this
    obtain ⟨h1, h2⟩ := this _ rfl
    obtain ⟨h3, h4⟩ := h' a env st1 st' hb
    exact ⟨h3.trans h1, h4.trans h2⟩
  · intro hb this
    exact this _ hb
  · intro hb
    cases hb

theorem Leaves.ite {p : Prop} [Decidable p] {c d : M α} (h : Leaves c) (h' : Leaves d) : Leaves (if p then c else d) := by
  split
  · exact h
  · exact h'

theorem Leaves.pure (a : α) : Leaves (pure a) := fun _ _ _ h => by cases h; exact ⟨rfl, rfl⟩
theorem Leaves.raise (e : Exc) : Leaves (M.raise e : M α) := fun _ _ _ h => by cases h; exact ⟨rfl, rfl⟩
theorem Leaves.fault (f : Flt) : Leaves (fun _ _ => .fault f : M α) := fun _ _ _ h => by cases h
theorem Leaves.undefined : Leaves (M.undefined : M α) := fun _ _ _ h => by cases h
theorem Leaves.assert (f : Obj → R Bool) : Leaves (M.assert f) := Leaves.ask _
theorem Leaves.pt : Leaves M.pt := fun _ _ _ h => by cases h; exact ⟨rfl, rfl⟩
theorem Leaves.sizeMax : Leaves M.sizeMax := fun _ _ _ h => by cases h; exact ⟨rfl, rfl⟩
theorem Leaves.isNull : Leaves M.isNull := fun _ _ _ h => by cases h; exact ⟨rfl, rfl⟩
theorem Leaves.stored : Leaves M.stored := fun _ _ _ h => by cases h; exact ⟨rfl, rfl⟩
theorem Leaves.capacity : Leaves M.capacity := fun _ _ _ h => by cases h; exact ⟨rfl, rfl⟩
theorem Leaves.setPt (f : Parts → Parts) : Leaves (M.setPt f) := fun _ _ _ h => by cases h; exact ⟨rfl, rfl⟩
theorem Leaves.parsed (ps : PS) : Leaves (Base.parsed ps) := by
  unfold Base.parsed
  cases ps.flt with
  | some f => exact .fault f
  | none => exact .ite (.raise _) (.pure _)
theorem Leaves.parsedAll (ps : PS) : Leaves (Base.parsedAll ps) := .bind (.parsed _) fun _ => .ite (.pure _) (.raise _)
theorem Leaves.require (b : Bool) : Leaves (Base.require b) := by
  cases b
  · exact Leaves.raise _
  · exact Leaves.pure _
theorem Leaves.validate (e : PctSet) (s : Str) : Leaves (Base.validate e s) := Leaves.require _
theorem Leaves.assertUserinfo : Leaves Base.assertUserinfo := .bind (.assert _) fun _ => .bind (.assert _) fun _ => .bind (.assert _) fun _ => .assert _
theorem Leaves.split (id n : Nat) : Leaves (Base.split id n) := .bind (.assert _) fun _ => .bind (.assert _) fun _ => .setPt _

theorem Counts.lift {m : M α} (h : Leaves m) : Counts (CM.lift m) := fun env st st' n e => by
  obtain ⟨h1, h2⟩ := h env st st' e
  rw [fresh_same h1 h2]
  exact Nat.zero_le _

theorem Counts.pure (a : α) : Counts (pure a) := Counts.lift (Leaves.pure a)

theorem Counts.ite {p : Prop} [Decidable p] {c d : CM α} (h : Counts c) (h' : Counts d) : Counts (if p then c else d) := by
  split
  · exact h
  · exact h'

theorem Counts.bind {c : CM α} {f : α → CM β} (h : Counts c) (h' : ∀ a, Counts (f a)) : Counts (c >>= f) := by
  intro env st st' n
  show (match c env st with
    | (n, .ret a st) => (n + (f a env st).1, (f a env st).2)
    | (n, .throw e st) => (n, .throw e st)
    | (n, .fault x) => (n, .fault x) : Nat × Out β).2.left = some st' → _ ≤ (match c env st with
    | (n, .ret a st) => (n + (f a env st).1, (f a env st).2)
    | (n, .throw e st) => (n, .throw e st)
    | (n, .fault x) => (n, .fault x) : Nat × Out β).1
  have := h env st
  revert this
  rcases c env st with ⟨k, ⟨a, st1⟩ | ⟨e, st1⟩ | x⟩
  · intro h1 h2
    have h3 := h1 st1 n rfl
    have h4 := h' a env st1 st' n h2
    have := fresh_trans n st st1 st'
    simp only at h3 ⊢
    omega
  · intro h1 h2
    exact h1 st' n h2
  · intro _ h2
    cases h2

theorem splice_outside {b t : List Cell} {i j : Nat} (hi : i + t.length ≤ b.length) (hj : ¬ (i ≤ j ∧ j < i + t.length)) :
    (b.take i ++ t ++ b.drop (i + t.length))[j]? = b[j]? := by
  have hl : (b.take i).length = i := by rw [List.length_take]; omega
  rcases Nat.lt_or_ge j i with h | h
  · rw [List.append_assoc, List.getElem?_append_left (by omega), List.getElem?_take, if_pos h]
  · have hj : i + t.length ≤ j := by omega
    rw [List.getElem?_append_right (by rw [List.length_append]; omega), List.getElem?_drop, List.length_append, hl]
    congr 1
    omega

theorem Counts.put (i : Nat) (s : Str) : Counts (CM.put i s) := by
  intro env st st' n h
  show _ ≤ s.length
  change (M.put i s env st).left = _ at h
  unfold M.put at h
  split at h
  · cases h; rw [fresh_same rfl rfl]; exact Nat.zero_le _
  · split at h
    · cases h
    · rename_i b hb
      split at h
      · cases h
        rename_i hl
        refine fresh_le (a := i) fun j hj => Decidable.byContradiction fun hn => ?_
        unfold Fresh St.cell at hj
        rw [hb] at hj
        simp only [Option.getD_some, ne_eq, not_true_eq_false, false_or] at hj
        have := splice_outside (b := b) (t := s.map some) (i := i) (j := j) (by simpa using hl) (by simpa using hn)
        rw [List.length_map] at this
        exact hj.2 (by rw [this])
      · cases h

theorem Counts.move (x y k : Nat) : Counts (CM.move x y k) := by
  intro env st st' n h
  show _ ≤ k
  change (M.move x y k env st).left = _ at h
  unfold M.move at h
  split at h
  · cases h; rw [fresh_same rfl rfl]; exact Nat.zero_le _
  · split at h
    · cases h
    · rename_i b hb
      split at h
      · cases h
        rename_i hl
        refine fresh_le (a := x) fun j hj => Decidable.byContradiction fun hn => ?_
        unfold Fresh St.cell at hj
        rw [hb] at hj
        simp only [Option.getD_some, ne_eq, not_true_eq_false, false_or] at hj
        have hk : ((b.drop y).take k).length = k := by rw [List.length_take, List.length_drop]; omega
        have := splice_outside (b := b) (t := (b.drop y).take k) (i := x) (j := j) (by rw [hk]; exact hl.2) (by rw [hk]; exact hn)
        rw [hk] at this
        exact hj.2 (by rw [this])
      · cases h

theorem Counts.reserve (k : Nat) : Counts (CM.reserve k) := by
  intro env st st' n h
  show _ ≤ CM.reserved k st (Storage.reserve k env st)
  change (Storage.reserve k env st).left = _ at h
  revert h
  unfold Storage.reserve Storage.allocate
  by_cases hk : k ≤ st.cap
  · rw [if_pos hk]
    intro h; cases h; rw [fresh_same rfl rfl]; exact Nat.zero_le _
  · rw [if_neg hk]
    simp only
    split
    · rename_i h; split at h <;> cases h
      intro h; cases h
      exact Nat.le_trans (Nat.le_of_eq (fresh_same rfl rfl)) (Nat.zero_le _)
    · rename_i h; split at h <;> cases h
    · rename_i h; split at h <;> cases h
      split
      · rename_i hb
        intro h; cases h
        refine Nat.le_trans (fresh_le (a := 0) (k := 0) fun j hj => ?_) (Nat.zero_le _)
        unfold Fresh St.cell at hj
        simp only [Option.getD_some] at hj
        grind
      · rename_i b hb
        split
        · intro h; cases h
          have : CM.reserved k st (Out.ret () { st with buf := some [] }) = st.size + 2 := by
            have hb' : st.buf.isSome = true := by rw [show st.buf = some b from hb]; rfl
            unfold CM.reserved
            simp only
            rw [if_neg hk, if_pos hb']
          refine Nat.le_trans (fresh_le (a := 0) (k := st.size + 1) fun j hj => ?_) (show _ ≤ CM.reserved k st (Out.ret () { st with buf := some [] }) by rw [this]; omega)
          unfold Fresh St.cell at hj
          simp only [Option.getD_some] at hj
          grind
        · intro h; cases h

theorem Counts.storage (k : Nat) : Counts (CM.storage k) := by
  intro env st st' n h
  have hr := Counts.reserve k env st
  change (Storage.resize k env st).left = _ at h
  show _ ≤ CM.reserved k st (Storage.reserve k env st) + CM.terminated (Storage.reserve k env st)
  unfold CM.reserve at hr
  simp only at hr
  revert hr h
  unfold Storage.resize
  rcases Storage.reserve k env st with ⟨a, st1⟩ | ⟨e, st1⟩ | x
  · intro hr h
    have h1 := hr st1 n rfl
    refine Nat.le_trans (fresh_trans n st st1 st') (Nat.add_le_add h1 ?_)
    simp only at h
    split at h
    · cases h; rw [fresh_same rfl rfl]; exact Nat.zero_le _
    · rename_i b hb
      have : CM.terminated (Out.ret a st1) = 1 := by
        unfold CM.terminated
        simp only [hb, Option.isSome_some, if_true]
      split at h
      · cases h
        rw [this]
        refine fresh_le (a := k) fun j hj => ?_
        unfold Fresh St.cell at hj
        rw [hb] at hj
        simp only [Option.getD_some, ne_eq, not_true_eq_false, false_or] at hj
        grind
      · cases h
  · intro hr h
    have := hr st' n h
    omega
  · intro _ h
    cases h

/-- it leaves the memory as it is -/
macro "leaves" : tactic => `(tactic| first
  | exact Leaves.assert _ | exact Leaves.ask _ | exact Leaves.pt | exact Leaves.sizeMax | exact Leaves.isNull | exact Leaves.stored | exact Leaves.capacity
  | exact Leaves.parsed _ | exact Leaves.parsedAll _ | exact Leaves.require _ | exact Leaves.validate _ _ | exact Leaves.assertUserinfo
  | exact Leaves.split _ _ | exact Leaves.raise _ | exact Leaves.undefined | exact Leaves.pure _ | exact Leaves.fault _
  | exact Leaves.setPt _)

/-- go through the steps of a call -/
macro "counts" : tactic => `(tactic| ((try dsimp only [liftM, monadLift, MonadLiftT.monadLift, MonadLift.monadLift]); repeat' with_reducible first
  | assumption
  | exact Counts.pure _ | exact Counts.put _ _ | exact Counts.move _ _ _ | exact Counts.storage _ | exact Counts.reserve _
  | exact Counts.lift (by leaves)
  | refine Counts.ite ?_ ?_
  | refine Counts.bind ?_ (fun _ => ?_)))

theorem k_resize (id n : Nat) : Counts (Counted.resize id n) := by
  unfold Counted.resize
  counts

theorem k_resize2 (a b n : Nat) : Counts (Counted.resize2 a b n) := by
  unfold Counted.resize2
  counts

/-- the same with the calls of other members -/
macro "countsAll" : tactic => `(tactic| ((try dsimp only [liftM, monadLift, MonadLiftT.monadLift, MonadLift.monadLift]); repeat' with_reducible first
  | assumption
  | exact k_resize _ _ | exact k_resize2 _ _ _
  | exact Counts.pure _ | exact Counts.put _ _ | exact Counts.move _ _ _ | exact Counts.storage _ | exact Counts.reserve _
  | exact Counts.lift (by leaves)
  | refine Counts.ite ?_ ?_
  | refine Counts.bind ?_ (fun _ => ?_)))

theorem k_set_encoded_url (s : Str) : Counts (Counted.set_encoded_url s) := by
  unfold Counted.set_encoded_url; countsAll

theorem k_set_encoded_origin (s : Str) : Counts (Counted.set_encoded_origin s) := by
  unfold Counted.set_encoded_origin; countsAll

theorem k_set_scheme (s : Str) : Counts (Counted.set_scheme s) := by
  unfold Counted.set_scheme; countsAll

theorem k_set_encoded_authority (s : Str) : Counts (Counted.set_encoded_authority s) := by
  unfold Counted.set_encoded_authority; countsAll

theorem k_set_encoded_userinfo (s : Str) : Counts (Counted.set_encoded_userinfo s) := by
  unfold Counted.set_encoded_userinfo; countsAll

theorem k_set_userinfo_part (s : Str) : Counts (Counted.set_userinfo_part s) := by
  have h0 := k_set_encoded_userinfo s
  have h1 := k_set_encoded_userinfo (s.take (s.length - 1))
  unfold Counted.set_userinfo_part; countsAll

theorem k_set_user (s : Str) : Counts (Counted.set_user s) := by
  unfold Counted.set_user; countsAll

theorem k_set_encoded_user (s : Str) : Counts (Counted.set_encoded_user s) := by
  have h0 := k_set_user s
  unfold Counted.set_encoded_user; countsAll

theorem k_set_password (s : Str) : Counts (Counted.set_password s) := by
  unfold Counted.set_password; countsAll

theorem k_set_encoded_password (s : Str) : Counts (Counted.set_encoded_password s) := by
  have h0 := k_set_password s
  unfold Counted.set_encoded_password; countsAll

theorem k_set_password_part (s : Str) : Counts (Counted.set_password_part s) := by
  have h0 := k_set_password s
  have h1 := k_set_encoded_password (s.drop 1)
  unfold Counted.set_password_part; countsAll

theorem k_addHost (s : Str) : Counts (Counted.addHost s) := by
  unfold Counted.addHost; countsAll

theorem k_set_host (s : Str) : Counts (Counted.set_host s) := by
  have h0 := k_addHost s
  unfold Counted.set_host
  cases (parse_ip_literal (PS.init s)).flt with
  | none => countsAll
  | some f =>
    have h1 : Counts (CM.lift (fun _ _ => .fault f : M HostType)) := .lift (.fault f)
    countsAll

theorem k_set_encoded_host (s : Str) : Counts (Counted.set_encoded_host s) := by
  have h0 := k_set_host s
  have h1 := k_addHost s
  unfold Counted.set_encoded_host; countsAll

theorem k_set_port (s : Str) : Counts (Counted.set_port s) := by
  unfold Counted.set_port; countsAll

theorem k_set_port_number (n : UInt32) : Counts (Counted.set_port_number n) := by
  unfold Counted.set_port_number
  exact .bind (.lift (.ask _)) fun s => k_set_port s

theorem k_set_port_part (s : Str) : Counts (Counted.set_port_part s) := by
  have h0 := k_set_port s
  have h1 := k_set_port (s.drop 1)
  unfold Counted.set_port_part; countsAll

theorem k_set_encoded_path (s : Str) : Counts (Counted.set_encoded_path s) := by
  unfold Counted.set_encoded_path; countsAll

theorem k_setPlain (id : Nat) (d : Byte) (e : PctSet) (s : Str) : Counts (Counted.setPlain id d e s) := by
  unfold Counted.setPlain; countsAll

theorem k_setEncoded (id : Nat) (d : Byte) (e : PctSet) (s : Str) : Counts (Counted.setEncoded id d e s) := by
  unfold Counted.setEncoded; countsAll

theorem k_setPart (id : Nat) (d : Byte) (e : PctSet) (s : Str) : Counts (Counted.setPart id d e s) := by
  unfold Counted.setPart; countsAll

theorem k_lowerLoop (n : Nat) : ∀ i, Counts (Counted.lowerLoop i n) := by
  induction n with
  | zero => exact fun _ => .pure _
  | succ n ih =>
    intro i
    have h0 := ih (i + 1)
    unfold Counted.lowerLoop
    countsAll

theorem k_normalize_scheme : Counts Counted.normalize_scheme := by
  unfold Counted.normalize_scheme
  refine .bind (.lift .pt) fun pt => ?_
  dsimp only
  refine .ite (.pure _) (.bind (.lift (.assert _)) fun _ => .bind (.lift .pt) fun _ => k_lowerLoop _ _)

theorem k_run (op : Spec.Op) : Counts (runCounted op) := by
  cases op
  case set_encoded_url s => exact k_set_encoded_url s
  case set_encoded_origin s => exact k_set_encoded_origin s
  case set_scheme s => exact k_set_scheme s
  case set_encoded_authority s => exact k_set_encoded_authority s
  case set_encoded_userinfo s => exact k_set_encoded_userinfo s
  case set_userinfo_part s => exact k_set_userinfo_part s
  case set_user s => exact k_set_user s
  case set_encoded_user s => exact k_set_encoded_user s
  case set_password s => exact k_set_password s
  case set_encoded_password s => exact k_set_encoded_password s
  case set_password_part s => exact k_set_password_part s
  case set_host s => exact k_set_host s
  case set_encoded_host s => exact k_set_encoded_host s
  case set_port s => exact k_set_port s
  case set_port_number n => exact k_set_port_number n
  case set_port_part s => exact k_set_port_part s
  case set_encoded_path s => exact k_set_encoded_path s
  case set_query s => exact k_setPlain _ _ _ s
  case set_encoded_query s => exact k_setEncoded _ _ _ s
  case set_query_part s => exact k_setPart _ _ _ s
  case set_fragment s => exact k_setPlain _ _ _ s
  case set_encoded_fragment s => exact k_setEncoded _ _ _ s
  case set_fragment_part s => exact k_setPart _ _ _ s
  case normalize_scheme => exact k_normalize_scheme
  case normalize => exact k_normalize_scheme

theorem k_seg_erase_range (a : SegIt) (b : SegIt) : Counts (Counted.seg_erase_range a b) := by
  unfold Counted.seg_erase_range; countsAll

theorem k_seg_erase (p : SegIt) : Counts (Counted.seg_erase p) := .bind (.lift (.ask _)) fun l => k_seg_erase_range p l

theorem k_seg_put (p : SegIt) (n : Nat) (e : Str) : Counts (Counted.seg_put p n e) := by
  unfold Counted.seg_put; countsAll

theorem k_seg_insert_encoded_impl (p : SegIt) (s : Str) : Counts (Counted.seg_insert_encoded_impl p s) :=
  .bind (.lift (.assert _)) fun _ => k_seg_put _ _ _

theorem k_seg_insert_impl (p : SegIt) (s : Str) (n : Nat) : Counts (Counted.seg_insert_impl p s n) :=
  .bind (.lift (.assert _)) fun _ => k_seg_put _ _ _

theorem k_seg_swap (p : SegIt) (n : Nat) {ins : SegIt → CM SegIt} (hi : ∀ it, Counts (ins it)) : Counts (Counted.seg_swap p n ins) := by
  have rest : Counts (CM.lift M.capacity >>= fun cap => Counted.seg_erase p >>= fun it => ins it >>= fun r =>
      CM.lift M.capacity >>= fun cap' => CM.lift (M.assert fun _ => .ok (cap' = cap)) >>= fun _ => pure r) :=
    .bind (.lift .capacity) fun _ => .bind (k_seg_erase p) fun it => .bind (hi it) fun _ => .bind (.lift .capacity) fun _ =>
      .bind (.lift (.assert _)) fun _ => .pure _
  unfold Counted.seg_swap
  refine .bind (.lift .stored) fun _ => .bind (.lift (.assert _)) fun _ => ?_
  dsimp only
  exact .ite (.bind (.lift .stored) fun _ => .bind (.reserve _) fun _ => rest) rest

theorem k_runIt (e : ItOp) : Counts (runItCounted e) := by
  cases e
  case erase p => exact k_seg_erase p
  case erase_range a b => exact k_seg_erase_range a b
  case insert p s => exact k_seg_insert_impl p s _
  case insert_encoded p s => exact .bind (.lift (.validate _ _)) fun _ => k_seg_insert_encoded_impl p s
  case replace p s => exact k_seg_swap p _ fun it => k_seg_insert_impl it s _
  case replace_encoded p s => exact .bind (.lift (.validate _ _)) fun _ => k_seg_swap p _ fun it => k_seg_insert_encoded_impl it s

end Url
