import Verif.Proofs.Thrown
import Verif.Proofs.Throws
import Verif.Props.Shared

/-!
What a call or an edit may throw, and when: C61.
-/

set_option autoImplicit false

namespace Url.Props
open Url Spec

variable {env : Env} {st st' : St}

/-- What the storage does to provide `n` characters: nothing if they fit; otherwise it asks for a block of twice the
capacity, or of `n` characters if that is more, and for the terminator. -/
def Supplies (env : Env) (st : St) (n : Nat) : Prop :=
  n ≤ st.cap ∨ (2 * st.cap < env.maxSize ∧ max n (2 * st.cap) + 1 ≤ env.maxSize ∧ env.alloc st.tick (max n (2 * st.cap) + 1) = true)

instance (env : Env) (st : St) (n : Nat) : Decidable (Supplies env st n) := by unfold Supplies; infer_instance

theorem stores_iff {n : Nat} : Stores env st n ↔ Supplies env st n := by
  unfold Stores Supplies Storage.newCap
  have e : (if 2 * st.cap < n then n else 2 * st.cap) = max n (2 * st.cap) := by split <;> omega
  rw [e]
  by_cases h : st.cap < env.maxSize - st.cap
  · rw [if_pos h]
    have : 2 * st.cap < env.maxSize := by omega
    simp [this]
  · rw [if_neg h]
    have : ¬ 2 * st.cap < env.maxSize := by omega
    simp only [this, false_and, or_false]
    exact ⟨fun h => h.resolve_right fun h => by omega, .inl⟩

theorem worked_cap (h : Worked env st) : st.cap ≤ env.sizeMax := by
  obtain ⟨S, U, W, H, P, q, f, t, pa, h⟩ := h.release.parts rfl
  have := h.holds.cap
  have := env.max_le
  unfold CapOk at *
  simp only [Env.release] at *
  omega

/-- Does the call compare the size of its result with the largest size? -/
def sized : Op → Bool
  | .set_encoded_url _ => false
  | _ => true

/-- C61: a call that returns if there is enough memory throws in exactly two cases: the size of the result is more than
the largest size (which `set_encoded_url` does not look at), or the storage cannot provide for it. The object is as
before. This is after any calls and edits, for any behaviour of the allocator. -/
theorem C61_call {op : Op} {A : Env} (hw : Worked env st) (hd : A.dbg = env.dbg) (h : run op A st = .ret () st') (x : Exc) (s : St) :
    run op env st = .throw x s ↔
      (sized op = true ∧ env.sizeMax < Act.need st st' (.call op) ∧ x = .too_large ∧ s = st) ∨
      ((sized op = true → Act.need st st' (.call op) ≤ env.sizeMax) ∧ ¬ Supplies env st (Act.need st st' (.call op)) ∧ x = .bad_alloc ∧
        s = { st with tick := st.tick + 1 }) := by
  have hp := worked_proper hw
  have hc := worked_cap hw
  rw [← stores_iff]
  by_cases hop : op = .set_password_part b!":"
  · subst hop
    have hu : st.pt.length id_user = 0 ↔ st.pt.off 1 = st.pt.off 2 := by
      have ho := (Capacity.Ordered.le hp.ord (i := 1) (j := 2) (by decide) (by decide))
      show st.pt.off 2 - st.pt.off 1 = 0 ↔ _
      omega
    have := Thrown.exact_colon hd hp hc h x s
    simp only [Act.need, true_and, hu]
    exact this
  · have e : Act.need st st' (.call op) = size (st'.obj false) := by
      cases op <;> simp only [Act.need]
      rename_i s
      exact if_neg fun h => hop (by rw [h.1])
    have e2 : sized op = Thrown.checks op := by cases op <;> rfl
    rw [e, e2]
    exact Thrown.exact_run hop env A st () st' hd hp hc h x s

/-- an environment with a given largest size, whose allocator grants the first request and refuses all others -/
def once (dbg : Bool) (n : Nat) : Env where
  dbg := dbg
  alloc := fun k _ => k == 0
  maxSize := n
  sizeMax := n
  max_le := Nat.le_refl n

/-- the url made there -/
def onceSt (dbg : Bool) (n : Nat) : St :=
  match run (.set_encoded_url b!"//u@h/abc") (once dbg n) Base.empty with
  | .ret () st => st
  | _ => Base.empty

/-- the exception of a call, and the number of requests -/
def thrownBy (out : Out Unit) : Option (Exc × Nat) :=
  match out with
  | .throw x st => some (x, st.tick)
  | _ => none

theorem onceSt_worked (dbg : Bool) {n : Nat} (hn : returns (run (.set_encoded_url b!"//u@h/abc") (once dbg n) Base.empty) = true) :
    Worked (once dbg n) (onceSt dbg n) := by
  refine .call (.set_encoded_url b!"//u@h/abc") .empty (.inl ?_)
  unfold onceSt
  revert hn
  cases run (.set_encoded_url b!"//u@h/abc") (once dbg n) Base.empty <;> simp [returns]

/-- A result that fits, one for which the second request is refused, one that is more than the largest size; and
`set_encoded_url`, which does not compare. -/
example : Worked (once true 30) (onceSt true 30) ∧ (once true 30).dbg = env0.dbg ∧ (onceSt true 30).cap = 9 ∧
    returns (run (.set_user b!"") env0 (onceSt true 30)) = true ∧
    returns (run (.set_user b!"") (once true 30) (onceSt true 30)) = true ∧
    roomOf (run (.set_user b!"user") env0 (onceSt true 30)) = some (12, 18, 2) ∧
    thrownBy (run (.set_user b!"user") (once true 30) (onceSt true 30)) = some (.bad_alloc, 2) ∧
    roomOf (run (.set_user b!"username-username-username") env0 (onceSt true 30)) = some (34, 34, 2) ∧
    thrownBy (run (.set_user b!"username-username-username") (once true 30) (onceSt true 30)) = some (.too_large, 1) ∧
    roomOf (run (.set_encoded_url b!"//username-username-username@h") env0 (onceSt true 30)) = some (30, 30, 2) ∧
    thrownBy (run (.set_encoded_url b!"//username-username-username@h/") (once true 30) (onceSt true 30)) = some (.bad_alloc, 2) :=
  ⟨onceSt_worked _ (by decide +kernel), by decide +kernel⟩

/-! ### Edits -/

/-- The number of characters an edit makes room for, before it is known what becomes of it. -/
def room (st : St) : ItOp → Nat
  | .erase _ | .erase_range _ _ => 0
  | .insert p s => size (st.obj false) + (ItOp.insert p s).text.length
  | .insert_encoded p s => size (st.obj false) + (ItOp.insert_encoded p s).text.length
  | .replace p s => st.size + (ItOp.replace p s).text.length - p.n
  | .replace_encoded p s => st.size + (ItOp.replace_encoded p s).text.length - p.n

theorem edit_decides (hw : Worked env st) (hd : env.dbg = false) {e : ItOp} (hin : e.InPath st) (hv : e.Valid) :
    Thrown.Decides env st (room st e) (runIt e env st) := by
  obtain ⟨S, U, W, H, P, q, f, t, pa, hp⟩ := hw.parts hd
  have h := hp.holds
  have hq := hp.q
  have hf := hp.f
  obtain ⟨A, hA, hA'⟩ : ∃ A : List (List Cell), A.length = 5 ∧ A = [S, U, W, H, P] := ⟨_, rfl, rfl⟩
  change Holds env st ([S, U, W, H, P] ++ pa.map some :: [q, f]) t at h
  rw [← hA'] at h
  clear hA' hp
  obtain ⟨o1, o2, -⟩ := h.offs hA
  rw [List.length_map] at o2
  have hend : size (st.obj false) = (A ++ pa.map some :: [q, f]).flatten.length := h.off_end
  have hsz : ∀ s, pchar_pct_set.encoded_size s = (pctEncode isPchar s).length := fun s => by
    rw [encoded_size_eq setOf_pchar, encode_eq setOf_pchar]
  have henc : ∀ s, pchar_pct_set.encode s = pctEncode isPchar s := encode_eq setOf_pchar
  have hchk : ∀ s, pchar_pct_set.check s = true ↔ Escaped isUpperHex isPchar s := check_iff setOf_pchar
  have himpl : ∀ s it st, Base.seg_insert_impl it s (pctEncode isPchar s).length env st =
      Base.seg_put it (pctEncode isPchar s).length (pctEncode isPchar s) env st := by
    intro s it st
    unfold Base.seg_insert_impl
    rw [assert_bind hd, henc]
  have hiimpl : ∀ s it st, Base.seg_insert_encoded_impl it s env st = Base.seg_put it s.length s env st := by
    intro s it st
    unfold Base.seg_insert_encoded_impl
    rw [assert_bind hd]
  obtain ⟨i, j, hi, hj, h1, h2⟩ : ∃ i j, i ≤ j ∧ j ≤ pa.length ∧ e.range = (A.flatten.length + i, A.flatten.length + j) ∧
      pa = pa.take i ++ (pa.take j).drop i ++ pa.drop j := by
    obtain ⟨a, b, c⟩ := hin
    rw [o1] at a
    rw [o2] at c
    refine ⟨e.range.1 - A.flatten.length, e.range.2 - A.flatten.length, by omega, by omega, ?_, ?_⟩
    · ext
      · show _ = A.flatten.length + _; omega
      · show _ = A.flatten.length + _; omega
    · conv => lhs; rw [← List.take_append_drop (e.range.2 - A.flatten.length) pa]
      congr 1
      conv => lhs; rw [← List.take_append_drop (e.range.1 - A.flatten.length) (pa.take _)]
      rw [List.take_take, Nat.min_eq_left (by omega)]
  have hl1 : (pa.take i).length = i := by rw [List.length_take]; omega
  have hl2 : ((pa.take j).drop i).length = j - i := by rw [List.length_drop, List.length_take]; omega
  rw [h2] at h hend
  generalize pa.take i = u at *
  generalize (pa.take j).drop i = x at *
  generalize pa.drop j = v at *
  subst hl1
  have hput : ∀ (k : Nat) (enc : Str), x = [] →
      Thrown.Decides env st (size (st.obj false) + (enc.length + 1))
        (Base.seg_put { off := A.flatten.length + u.length, n := k } enc.length enc env st) := by
    intro k enc hx
    subst hx
    rw [List.append_nil] at h hend
    rw [hend]
    exact Thrown.put_decides (enc := enc) hd h hA hq hf k
  have zero : Stores env st 0 := .inl (Nat.zero_le _)
  cases e with
  | erase p =>
    obtain ⟨off, n⟩ := p
    simp only [ItOp.range, Prod.mk.injEq] at h1
    obtain ⟨rfl, h1⟩ := h1
    obtain rfl : n = x.length := by omega
    exact ⟨fun _ => Thrown.erase_decides hd h hA hq hf, fun h => absurd zero h⟩
  | erase_range a b =>
    obtain ⟨off, k⟩ := a
    obtain ⟨off', k'⟩ := b
    simp only [ItOp.range, Prod.mk.injEq] at h1
    obtain ⟨rfl, h1⟩ := h1
    obtain rfl : off' = A.flatten.length + u.length + x.length := by omega
    exact ⟨fun _ => Thrown.erase_range_decides hd h hA hq hf k k', fun h => absurd zero h⟩
  | insert p s =>
    obtain ⟨off, n⟩ := p
    simp only [ItOp.range, Prod.mk.injEq] at h1
    obtain ⟨rfl, h1⟩ := h1
    have := hput n (pctEncode isPchar s) (List.length_eq_zero_iff.1 (by omega))
    rw [← himpl] at this
    rw [runIt]
    unfold Base.seg_insert
    rw [hsz]
    exact this
  | insert_encoded p s =>
    obtain ⟨off, n⟩ := p
    simp only [ItOp.range, Prod.mk.injEq] at h1
    obtain ⟨rfl, h1⟩ := h1
    rw [runIt]
    unfold Base.seg_insert_encoded Base.validate
    rw [run_bind_ret (run_require ((hchk s).2 hv)), hiimpl]
    exact hput n s (List.length_eq_zero_iff.1 (by omega))
  | replace p s =>
    obtain ⟨off, n⟩ := p
    simp only [ItOp.range, Prod.mk.injEq] at h1
    obtain ⟨rfl, h1⟩ := h1
    obtain rfl : n = x.length := by omega
    rw [runIt]
    unfold Base.seg_replace
    rw [hsz]
    exact Thrown.swap_decides (enc := pctEncode isPchar s) hd h hA hq hf (himpl s)
  | replace_encoded p s =>
    obtain ⟨off, n⟩ := p
    simp only [ItOp.range, Prod.mk.injEq] at h1
    obtain ⟨rfl, h1⟩ := h1
    obtain rfl : n = x.length := by omega
    rw [runIt]
    unfold Base.seg_replace_encoded Base.validate
    rw [run_bind_ret (run_require ((hchk s).2 hv))]
    exact Thrown.swap_decides (enc := s) hd h hA hq hf (hiimpl s)

/-- C61: an edit through iterators into the path throws in exactly two cases: an encoded argument is not a segment, or
the storage cannot provide for the result. The object is as before. This is after any calls and edits, for any behaviour
of the allocator; in a build with assertions, one may fail first. -/
theorem C61_edit {e : ItOp} (hw : Worked env st) (hin : e.InPath st) (hf : env.dbg = false ∨ ∀ f, runIt e env st ≠ .fault f) (x : Exc)
    (s : St) :
    runIt e env st = .throw x s ↔
      (¬ e.Valid ∧ x = .invalid_part ∧ s = st) ∨
      (e.Valid ∧ ¬ Supplies env st (room st e) ∧ x = .bad_alloc ∧ s = { st with tick := st.tick + 1 }) := by
  have h1 : runIt e env st = runIt e env.release st := by
    rcases hf with hf | hf
    · have : env.release = env := by cases env; simp only [Env.release] at *; rw [hf]
      rw [this]
    · exact (runIt_sim e env st).resolve_left fun ⟨f, h⟩ => hf f h
  rw [← stores_iff]
  change _ ↔ _ ∨ (_ ∧ ¬ Stores env.release st (room st e) ∧ _)
  rw [h1]
  by_cases hv : e.Valid
  · have hk := edit_decides hw.release rfl hin hv
    simp only [hv, not_true, false_and, true_and, false_or]
    by_cases hs : Stores env.release st (room st e)
    · simp only [hs, not_true, false_and, iff_false]
      exact hk.1 hs x s
    · rw [hk.2 hs]
      simp only [hs, not_false_iff, true_and]
      exact ⟨fun h => (by cases h; exact ⟨rfl, rfl⟩), fun ⟨h1, h2⟩ => by rw [h1, h2]⟩
  · obtain ⟨S, U, W, H, P, q, f, t, pa, hp⟩ := hw.release.parts rfl
    rcases hp.edit rfl hin with ⟨-, ho⟩ | ⟨hv', -⟩
    · rw [ho]
      simp only [hv, not_false_iff, true_and, false_and, or_false]
      exact ⟨fun h => (by cases h; exact ⟨rfl, rfl⟩), fun ⟨h1, h2⟩ => by rw [h1, h2]⟩
    · exact absurd hv' hv

/-- C61: `erase`, which is declared `noexcept`, does not throw: through iterators into the path, after any calls and edits,
for any behaviour of the allocator. -/
theorem C61_erase {e : ItOp} (hw : Worked env st) (hin : e.InPath st) (he : e.text = []) (x : Exc) : runIt e env st ≠ .throw x st' := by
  intro h
  have hf : ∀ f, runIt e env st ≠ .fault f := fun f h' => by rw [h] at h'; cases h'
  rcases (C61_edit hw hin (.inr hf) x st').1 h with ⟨h1, -⟩ | ⟨-, h1, -⟩
  · cases e with
    | erase | erase_range => exact h1 trivial
    | insert | insert_encoded | replace | replace_encoded => cases he
  · cases e with
    | erase | erase_range => exact h1 (.inl (Nat.zero_le _))
    | insert | insert_encoded | replace | replace_encoded => cases he

/-- Edits of a url whose allocator refuses everything from now on: an erase; an insertion that does not fit; a replacement
by as much; a replacement by more; an argument that is not a segment. -/
example : Worked (once false 30) (onceSt false 30) ∧ (ItOp.erase ⟨5, 4⟩).InPath (onceSt false 30) ∧
    roomOfEdit (runIt (.erase ⟨5, 4⟩) (once false 30) (onceSt false 30)) = some (5, 9, 1) ∧
    itThrown (runIt (.insert ⟨5, 4⟩ b!"") (once false 30) (onceSt false 30)) = some .bad_alloc ∧
    roomOfEdit (runIt (.insert ⟨5, 4⟩ b!"") env1 (onceSt false 30)) = some (10, 18, 2) ∧
    roomOfEdit (runIt (.replace ⟨5, 4⟩ b!"xyz") (once false 30) (onceSt false 30)) = some (9, 9, 1) ∧
    itThrown (runIt (.replace ⟨5, 4⟩ b!"x/") (once false 30) (onceSt false 30)) = some .bad_alloc ∧
    itThrown (runIt (.replace_encoded ⟨5, 4⟩ b!"x/") (once false 30) (onceSt false 30)) = some .invalid_part :=
  ⟨onceSt_worked _ (by decide +kernel), by decide +kernel⟩

/-! ### Calls that do not throw -/

/-- C61: `normalize_scheme`, which is declared `noexcept`, and `normalize` do not throw, in any state. -/
theorem C61_normalize (x : Exc) : run .normalize_scheme env st ≠ .throw x st' ∧ run .normalize env st ≠ .throw x st' :=
  ⟨Thrown.NoThrow.normalize_scheme env st x st', Thrown.NoThrow.normalize_scheme env st x st'⟩

/-- C61: a call throws nothing but `invalid_part`, `too_large` and `bad_alloc`, in any state; an edit through iterators into
the path nothing but `invalid_part` and `bad_alloc`, after any calls and edits. -/
theorem C61_kinds : (∀ (op : Op) (x : Exc), run op env st = .throw x st' → x = .invalid_part ∨ x = .too_large ∨ x = .bad_alloc) ∧
    ∀ (e : ItOp) (x : Exc), Worked env st → e.InPath st → runIt e env st = .throw x st' → x = .invalid_part ∨ x = .bad_alloc := by
  refine ⟨fun op x h => ?_, fun e x hw hin h => ?_⟩
  · have := kinds_run op env st x st' h
    cases x <;> simp_all
  · rcases (C57_throw hw hin h).2.2.2.2 with h | h
    · exact .inl h.1
    · exact .inr h.1

/-- The call is given the empty text, by which it removes a part. -/
def clears : Op → Bool
  | .set_encoded_url s | .set_encoded_origin s | .set_scheme s | .set_encoded_authority s | .set_encoded_userinfo s
  | .set_userinfo_part s | .set_user s | .set_encoded_user s | .set_password s | .set_encoded_password s | .set_password_part s
  | .set_host s | .set_encoded_host s | .set_port s | .set_port_part s | .set_encoded_path s | .set_query s | .set_encoded_query s
  | .set_query_part s | .set_fragment s | .set_encoded_fragment s | .set_fragment_part s => s == []
  | .set_port_number _ | .normalize_scheme | .normalize => false

/-- C61: a call by which a part is removed does not throw, after any calls and edits, for any behaviour of the allocator.
(The user of an authority has its slashes, or there is no authority; see `C61_clear_history`.) -/
theorem C61_clear {op : Op} (hw : Worked env st) (hu : 2 ≤ st.pt.length id_user ∨ st.pt.length2 id_user id_path = 0)
    (h : clears op = true) (x : Exc) : run op env st ≠ .throw x st' := by
  have hp := worked_proper hw
  have h12 := Capacity.Ordered.le hp.ord (i := 1) (j := 2) (by decide) (by decide)
  have h23 := Capacity.Ordered.le hp.ord (i := 2) (j := 3) (by decide) (by decide)
  have h35 := Capacity.Ordered.le hp.ord (i := 3) (j := 5) (by decide) (by decide)
  have shrink : ∀ {b e n : Nat}, n ≤ st.pt.length2 b e → ∀ x s, Base.resize2 b e n env st ≠ .throw x s := by
    intro b e n hn x s hx
    unfold Base.resize2 at hx
    rw [run_bind_ret run_pt] at hx
    dsimp only at hx
    rw [if_pos hn] at hx
    split at hx
    · cases hx
    · exact (NoThrow.bind (.move _ _ _) fun _ => .bind (.setPt _) fun _ => .pure _) _ _ _ _ hx
  have drop : ∀ {α β : Type} {m : M α} {f : α → M β}, (∀ x s, m env st ≠ .throw x s) → (∀ a, NoThrow (f a)) →
      ∀ x s, (m >>= f) env st ≠ .throw x s := by
    intro α β m f h1 h2 x s hx
    rw [run_bind] at hx
    cases hm : m env st with
    | ret a s1 => rw [hm] at hx; exact h2 a _ _ _ _ hx
    | throw e s1 => exact h1 _ _ hm
    | fault f => rw [hm] at hx; cases hx
  have c1 : ∀ id, NoThrow (Base.resize id 0 >>= fun _ => pure ()) := fun id => .bind (Thrown.NoThrow.clear id) fun _ => .pure _
  have c2 : ∀ b e, NoThrow (Base.resize2 b e 0 >>= fun _ => pure ()) := fun b e => .bind (Thrown.NoThrow.clear2 b e) fun _ => .pure _
  have user : ∀ x s, Base.set_user [] env st ≠ .throw x s := by
    intro x s
    unfold Base.set_user
    rw [if_pos (by rfl), run_bind_ret run_pt, run_ite]
    split
    · intro h; cases h
    · rename_i hl
      simp only [Parts.length, Parts.length2, id_user, id_path, Nat.reduceAdd] at hu hl
      refine Reads.bind_noThrow .assertUserinfo .assertUserinfo fun _ => ?_
      rw [run_bind_ret run_pt, run_ite]
      split
      · rename_i hl2
        refine drop (shrink ?_) (fun _ => by noThrow) _ _
        simp only [Parts.length, Parts.length2, id_user, id_host, id_password, Nat.reduceAdd] at hl2 ⊢
        omega
      · refine drop (fun x s => resize_shrink ?_) (fun _ => .pure _) _ _
        simp only [Parts.length, id_user, Nat.reduceAdd]
        omega
  have info : ∀ x s, Base.set_encoded_userinfo [] env st ≠ .throw x s := by
    intro x s
    unfold Base.set_encoded_userinfo
    rw [if_pos (by rfl), run_bind_ret run_pt, run_ite]
    split
    · exact c2 _ _ _ _ _ _
    · rename_i hl
      refine drop (shrink ?_) (fun _ => by noThrow) _ _
      simp only [Parts.length, Parts.length2, id_user, id_host, id_path, Nat.reduceAdd] at hu hl ⊢
      omega
  have host : NoThrow (Base.set_host []) := by
    unfold Base.set_host
    rw [if_pos (by rfl)]
    refine .bind .pt fun _ => ?_
    refine .bind .pt fun _ => ?_
    split
    · exact .bind (.assert _) fun _ => c2 _ _
    · exact c1 _
  have port : NoThrow (Base.set_port []) := by
    unfold Base.set_port
    rw [if_pos (by rfl)]
    refine .bind .pt fun _ => ?_
    split
    · exact .bind (.assert _) fun _ => c2 _ _
    · exact c1 _
  cases op <;> simp only [clears, beq_iff_eq, Bool.false_eq_true] at h <;> subst h <;> unfold run <;> dsimp only
  case set_encoded_url =>
    unfold Base.set_encoded_url
    rw [if_pos (by rfl)]
    refine Reads.bind_noThrow .isNull (fun _ _ _ _ h => by cases h) fun _ => ?_
    split
    · exact c2 _ _ _ _ _ _
    · intro h; cases h
  case set_encoded_userinfo => exact info _ _
  case set_userinfo_part => unfold Base.set_userinfo_part; rw [if_pos (by rfl)]; exact info _ _
  case set_user => exact user _ _
  case set_encoded_user => unfold Base.set_encoded_user; rw [if_pos (by rfl)]; exact user _ _
  case set_password => exact NoThrow.clear_password _ _ _ _
  case set_encoded_password => unfold Base.set_encoded_password; rw [if_pos (by rfl)]; exact NoThrow.clear_password _ _ _ _
  case set_password_part => unfold Base.set_password_part; rw [if_pos (by rfl)]; exact NoThrow.clear_password _ _ _ _
  case set_encoded_origin => unfold Base.set_encoded_origin; rw [if_pos (by rfl)]; exact c2 _ _ _ _ _ _
  case set_scheme => unfold Base.set_scheme; rw [if_pos (by rfl)]; exact (NoThrow.bind (Thrown.NoThrow.clear _) fun _ => by noThrow) _ _ _ _
  case set_encoded_authority =>
    unfold Base.set_encoded_authority; rw [if_pos (by rfl)]
    exact (NoThrow.bind (Thrown.NoThrow.clear2 _ _) fun _ => by noThrow) _ _ _ _
  case set_host => exact host _ _ _ _
  case set_encoded_host => unfold Base.set_encoded_host; rw [if_pos (by rfl)]; exact host _ _ _ _
  case set_port => exact port _ _ _ _
  case set_port_part => unfold Base.set_port_part; rw [if_pos (by rfl)]; exact port _ _ _ _
  case set_encoded_path => unfold Base.set_encoded_path; rw [if_pos (by rfl)]; exact (NoThrow.bind (Thrown.NoThrow.clear _) fun _ => by noThrow) _ _ _ _
  case set_query => unfold Base.set_query Base.setPlain; rw [if_pos (by rfl)]; exact c1 _ _ _ _ _
  case set_encoded_query => unfold Base.set_encoded_query Base.setEncoded; rw [if_pos (by rfl)]; exact c1 _ _ _ _ _
  case set_query_part => unfold Base.set_query_part Base.setPart; rw [if_pos (by rfl)]; exact c1 _ _ _ _ _
  case set_fragment => unfold Base.set_fragment Base.setPlain; rw [if_pos (by rfl)]; exact c1 _ _ _ _ _
  case set_encoded_fragment => unfold Base.set_encoded_fragment Base.setEncoded; rw [if_pos (by rfl)]; exact c1 _ _ _ _ _
  case set_fragment_part => unfold Base.set_fragment_part Base.setPart; rw [if_pos (by rfl)]; exact c1 _ _ _ _ _

/-- C61: a call by which a part is removed does not throw, after any history. -/
theorem C61_clear_history {op : Op} (hr : Reach env st) (h : clears op = true) (x : Exc) : run op env st ≠ .throw x st' := by
  refine C61_clear (C57_reach hr) ?_ h x
  obtain ⟨c, hc, -⟩ := hr.rep
  rw [hc.length, hc.length2 (by decide)]
  rcases ha : c.auth with _ | ⟨u, hst, pt⟩
  · right
    simp [compParts, authTexts, ha, id_user, id_path]
  · left
    rcases u with _ | ⟨u, _ | w⟩ <;> simp [compParts, authTexts, authParts, userParts, ha, id_user]

/-- Such calls while the allocator refuses everything. -/
example : Worked (once false 30) (onceSt false 30) ∧ 2 ≤ (onceSt false 30).pt.length id_user ∧ clears (.set_user []) = true ∧
    roomOf (run (.set_user []) (once false 30) (onceSt false 30)) = some (7, 9, 1) ∧
    roomOf (run (.set_host []) (once false 30) (onceSt false 30)) = some (8, 9, 1) ∧
    roomOf (run (.set_encoded_path []) (once false 30) (onceSt false 30)) = some (5, 9, 1) ∧
    roomOf (run (.set_encoded_url []) (once false 30) (onceSt false 30)) = some (0, 9, 1) :=
  ⟨onceSt_worked _ (by decide +kernel), by decide +kernel⟩

/-- The call `set_password_part(":")` throws although its result fits: it makes room for two characters more. -/
theorem C61_colon_false : ∃ st, Worked (once true 30) st ∧
    thrownBy (run (.set_password_part b!":") (once true 30) st) = some (.bad_alloc, 2) ∧
    st.cap = 7 ∧ roomOf (run (.set_password_part b!":") env0 st) = some (6, 14, 2) := by
  have hx : returns (runAll [.set_encoded_url b!"/abcdef", .set_encoded_url b!"/abc"] (once true 30) Base.empty) = true := by decide +kernel
  refine ⟨(match runAll [.set_encoded_url b!"/abcdef", .set_encoded_url b!"/abc"] (once true 30) Base.empty with
    | .ret () st => st
    | _ => Base.empty), ?_, by decide +kernel⟩
  refine (Used.empty.all (env := once true 30) (ops := [.set_encoded_url b!"/abcdef", .set_encoded_url b!"/abc"]) ?_).worked
  revert hx
  cases runAll [.set_encoded_url b!"/abcdef", .set_encoded_url b!"/abc"] (once true 30) Base.empty <;> simp [returns]

/-- The hypothesis of `C61_clear` cannot be dropped: after `set_port_part(":")` of a url without an authority there is a
colon and no `//`, and removing the userinfo, of which there is none, makes room for the slashes (and does not write
them). It throws if they do not fit. -/
theorem C61_clear_false : ∃ st, Worked (once true 30) st ∧ st.pt.length2 id_user id_path = 1 ∧ clears (.set_encoded_userinfo []) = true ∧
    thrownBy (run (.set_encoded_userinfo []) (once true 30) st) = some (.bad_alloc, 2) ∧
    thrownBy (run (.set_userinfo_part []) (once true 30) st) = some (.bad_alloc, 2) ∧
    textOf (run (.set_encoded_userinfo []) env0 st) = some b!":/:/ab" := by
  have hx : returns (runAll [.set_encoded_url b!"/abc", .set_encoded_url b!"/ab", .set_port_part b!":"] (once true 30) Base.empty) = true := by
    decide +kernel
  refine ⟨(match runAll [.set_encoded_url b!"/abc", .set_encoded_url b!"/ab", .set_port_part b!":"] (once true 30) Base.empty with
    | .ret () st => st
    | _ => Base.empty), ?_, by decide +kernel⟩
  refine (Used.empty.all (env := once true 30) (ops := [.set_encoded_url b!"/abc", .set_encoded_url b!"/ab", .set_port_part b!":"]) ?_).worked
  revert hx
  cases runAll [.set_encoded_url b!"/abc", .set_encoded_url b!"/ab", .set_port_part b!":"] (once true 30) Base.empty <;> simp [returns]

end Url.Props
