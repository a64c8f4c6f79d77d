import Verif.Proofs.Capacity
import Verif.Proofs.Strong
import Verif.Proofs.WeakSeg
import Verif.Model.ItOp

/-!
When a call throws: it compares the size of its result with the largest size and asks the allocator, once.
-/

set_option autoImplicit false
set_option linter.unusedSimpArgs false

namespace Url.Thrown
open M Base Spec Capacity

variable {α β : Type} {env : Env} {st st' : St}

/-- What a call throws that makes room for `n` characters; `chk` if it compares `n` with the largest size. -/
def Verdict (chk : Bool) (env : Env) (st : St) (n : Nat) (out : Out α) : Prop :=
  ∀ x s, out = .throw x s ↔
    (chk = true ∧ env.sizeMax < n ∧ x = .too_large ∧ s = st) ∨
    ((chk = true → n ≤ env.sizeMax) ∧ ¬ Stores env st n ∧ x = .bad_alloc ∧ s = { st with tick := st.tick + 1 })

/-- The call depends on the environment by the build mode only. -/
def Plain (m : M α) : Prop := ∀ env A st, A.dbg = env.dbg → m A st = m env st

/-- If the call returns with whatever memory, it throws if and only if there is not enough. -/
def Exact (chk : Bool) (m : M α) : Prop := ∀ env A st a s, A.dbg = env.dbg → Proper st → st.cap ≤ env.sizeMax →
  m A st = .ret a s → Verdict chk env st (s.pt.off 8) (m env st)

theorem Verdict.fits {chk : Bool} {n : Nat} {out : Out α} (hn : n ≤ st.cap) (hs : st.cap ≤ env.sizeMax)
    (h : ∀ x s, out ≠ .throw x s) : Verdict chk env st n out := by
  intro x s
  refine ⟨fun hx => (h x s hx).elim, ?_⟩
  rintro (⟨-, h1, -⟩ | ⟨-, h1, -⟩)
  · omega
  · exact (h1 (.inl hn)).elim

theorem Exact.tail {chk : Bool} {m : M α} (h : Tail m) (hn : NoThrow m) : Exact chk m := by
  intro env A st a s _ ho hs hr
  refine .fits ?_ hs fun x s => hn _ _ _ _
  rw [(h A st a s hr).2.2]
  exact ho.cap

theorem Exact.read {chk : Bool} {m : M α} {f : α → M β} (hp : Plain m) (hm : Alias.Reads m) (hf : ∀ a, Exact chk (f a)) :
    Exact chk (m >>= f) := by
  intro env A st b s hd ho hs h
  obtain ⟨a, s1, h1, h⟩ := Alias.bind_ret h
  cases reads_ret hm h1
  rw [run_bind_ret ((hp env A st hd).symm.trans h1)]
  exact hf a env A st b s hd ho hs h

theorem Verdict.bind {chk : Bool} {m : M α} {f : α → M β} {n : Nat} (hm : Verdict chk env st n (m env st))
    (hn : ∀ a, NoThrow (f a)) : Verdict chk env st n ((m >>= f) env st) := by
  intro x s
  rw [← hm x s, run_bind]
  cases hx : m env st with
  | ret a s1 => exact ⟨fun h => (hn a _ _ _ _ h).elim, fun h => (by cases h)⟩
  | throw e s1 => exact ⟨fun h => (by cases h; rfl), fun h => by cases h; rfl⟩
  | fault f => exact ⟨fun h => (by cases h), fun h => by cases h⟩

theorem Exact.bind {chk : Bool} {m : M α} {f : α → M β} (hm : Exact chk m) (hf : ∀ a, Tail (f a)) (hn : ∀ a, NoThrow (f a)) :
    Exact chk (m >>= f) := by
  intro env A st b s hd ho hs h
  obtain ⟨a, s1, h1, h⟩ := Alias.bind_ret h
  rw [(hf a A s1 b s h).2.2]
  exact (hm env A st a s1 hd ho hs h1).bind hn

theorem storage_verdict (n : Nat) (st : St) : Verdict false env st n (Storage.resize n env st) := by
  intro x s
  by_cases hs : Stores env st n
  · refine ⟨fun h => ?_, by simp [hs]⟩
    exfalso
    unfold Storage.resize at h
    cases hr : Storage.reserve n env st with
    | fault f => rw [hr] at h; cases h
    | ret u s1 =>
      rw [hr] at h
      dsimp only at h
      cases hb : s1.buf with
      | none => rw [hb] at h; cases h
      | some b => rw [hb] at h; dsimp only at h; split at h <;> cases h
    | throw e s1 =>
      unfold Storage.reserve at hr
      rcases hs with hs | hs
      · rw [if_pos hs] at hr; cases hr
      · split at hr
        · cases hr
        · dsimp only at hr
          unfold Storage.allocate at hr
          rw [if_pos hs] at hr
          dsimp only at hr
          split at hr
          · cases hr
          · split at hr <;> cases hr
  · rw [storage_resize_throw hs]
    simp only [Bool.false_eq_true, false_and, false_implies, true_and, false_or, hs, not_false_iff]
    exact ⟨fun h => (by cases h; exact ⟨rfl, rfl⟩), fun ⟨h1, h2⟩ => by rw [h1, h2]⟩

/-- making room, moving, shifting the offsets -/
theorem grow_verdict {k a b c r : Nat} {g : Parts → Parts} (hk : k ≤ env.sizeMax) :
    Verdict true env st k ((Storage.resize k >>= fun _ => M.move a b c >>= fun _ => M.setPt g >>= fun _ => (pure r : M Nat)) env st) := by
  have h : Verdict true env st k (Storage.resize k env st) := by
    intro x s
    rw [storage_verdict (env := env) k st x s]
    simp only [Bool.false_eq_true, false_and, false_implies, true_and, false_or, hk, forall_const]
    exact ⟨.inr, fun h => h.resolve_left fun h => by omega⟩
  exact h.bind fun _ => .bind (.move _ _ _) fun _ => .bind (.setPt _) fun _ => .pure _

theorem large_verdict {n : Nat} (hn : env.sizeMax < n) : Verdict true env st n ((M.raise .too_large : M Nat) env st) := by
  intro x s
  have : ¬ n ≤ env.sizeMax := by omega
  simp only [true_and, hn, forall_const, this, false_and, or_false]
  exact ⟨fun h => (by cases h; exact ⟨rfl, rfl⟩), fun ⟨h1, h2⟩ => by rw [h1, h2]; rfl⟩

theorem Exact.resize {id n : Nat} (hid : id < 8) : Exact true (Base.resize id n) := by
  intro env A st a s hd ho hs h
  have h1 := Ordered.le ho.ord (i := id) (j := id + 1) (by omega) (by omega)
  have h2 := Ordered.le ho.ord (i := id + 1) (j := 8) (by omega) (by omega)
  have hc := ho.cap
  unfold Base.resize at h ⊢
  rw [run_bind_ret run_pt] at h ⊢
  dsimp only at h ⊢
  by_cases e1 : st.pt.length id = n
  · rw [if_pos e1] at h ⊢
    cases h
    exact .fits hc hs fun x s h => by cases h
  rw [if_neg e1] at h ⊢
  by_cases e2 : n ≤ st.pt.length id
  · rw [if_pos e2] at h ⊢
    obtain ⟨-, -, t3⟩ := shrink_fit h
    refine .fits ?_ hs fun x s => (NoThrow.bind (.move _ _ _) fun _ => .bind (.setPt _) fun _ => .pure _) _ _ _ _
    rw [t3]
    simp only [Parts.shift, Parts.length, id_end] at *
    rw [if_pos (by omega)]
    omega
  rw [if_neg e2] at h ⊢
  rw [run_bind_ret (a := A.sizeMax) (st' := st) rfl] at h
  rw [run_bind_ret (a := env.sizeMax) (st' := st) rfl]
  split at h
  · cases h
  have hk : s.pt.off 8 = st.pt.off id_end - st.pt.length id + n := by
    obtain ⟨_, s1, g1, h⟩ := Alias.bind_ret h
    obtain ⟨_, s2, g2, h⟩ := Alias.bind_ret h
    cases h
    dsimp only
    rw [move_pt g2, (Capacity.storage_resize_fit g1).1]
    simp only [Parts.shift, Parts.length, id_end] at *
    rw [if_pos (by omega)]
    omega
  rw [hk]
  clear h
  by_cases e3 : n - st.pt.length id > env.sizeMax - st.pt.off id_end
  · rw [if_pos e3]
    exact large_verdict (by simp only [Parts.length, id_end] at *; omega)
  · rw [if_neg e3]
    exact grow_verdict (by simp only [Parts.length, id_end] at *; omega)

theorem Exact.resize2 {b e n : Nat} (hbe : b ≤ e) (he : e ≤ 8) : Exact true (Base.resize2 b e n) := by
  intro env A st a s hd ho hs h
  have h1 := Ordered.le ho.ord (i := b) (j := e) (by omega) (by omega)
  have h2 := Ordered.le ho.ord (i := e) (j := 8) (by omega) (by omega)
  have hc := ho.cap
  unfold Base.resize2 at h ⊢
  rw [run_bind_ret run_pt] at h ⊢
  dsimp only at h ⊢
  by_cases e1 : n = 0 ∧ st.pt.length2 b e = 0
  · rw [if_pos e1] at h ⊢
    cases h
    exact .fits hc hs fun x s h => by cases h
  rw [if_neg e1] at h ⊢
  by_cases e2 : n ≤ st.pt.length2 b e
  · rw [if_pos e2] at h ⊢
    obtain ⟨-, -, t3⟩ := shrink_fit h
    refine .fits ?_ hs fun x s => (NoThrow.bind (.move _ _ _) fun _ => .bind (.setPt _) fun _ => .pure _) _ _ _ _
    rw [t3]
    simp only [Parts.shift2, Parts.length2, id_end] at *
    rw [if_pos (by omega)]
    omega
  rw [if_neg e2] at h ⊢
  rw [run_bind_ret (a := A.sizeMax) (st' := st) rfl] at h
  rw [run_bind_ret (a := env.sizeMax) (st' := st) rfl]
  split at h
  · cases h
  have hk : s.pt.off 8 = st.pt.off id_end - st.pt.length2 b e + n := by
    obtain ⟨_, s1, g1, h⟩ := Alias.bind_ret h
    obtain ⟨_, s2, g2, h⟩ := Alias.bind_ret h
    cases h
    dsimp only
    rw [move_pt g2, (Capacity.storage_resize_fit g1).1]
    simp only [Parts.shift2, Parts.length2, id_end] at *
    rw [if_pos (by omega)]
    omega
  rw [hk]
  clear h
  by_cases e3 : n - st.pt.length2 b e > env.sizeMax - st.pt.off id_end
  · rw [if_pos e3]
    exact large_verdict (by simp only [Parts.length2, id_end] at *; omega)
  · rw [if_neg e3]
    exact grow_verdict (by simp only [Parts.length2, id_end] at *; omega)

theorem Plain.pure (a : α) : Plain (Pure.pure a : M α) := fun _ _ _ _ => rfl
theorem Plain.raise (e : Exc) : Plain (M.raise e : M α) := fun _ _ _ _ => rfl
theorem Plain.fault (f : Flt) : Plain (fun _ _ => .fault f : M α) := fun _ _ _ _ => rfl
theorem Plain.pt : Plain M.pt := fun _ _ _ _ => rfl
theorem Plain.isNull : Plain M.isNull := fun _ _ _ _ => rfl
theorem Plain.ask (f : Obj → R α) : Plain (M.ask f) := fun _ _ _ h => by unfold M.ask; rw [h]
theorem Plain.assert (c : Obj → R Bool) : Plain (M.assert c) := .ask _
theorem Plain.require (c : Bool) : Plain (Base.require c) := by
  unfold Base.require; split
  · exact .pure _
  · exact .raise _
theorem Plain.validate (e : PctSet) (s : Str) : Plain (Base.validate e s) := .require _
theorem Plain.parsed (ps : PS) : Plain (Base.parsed ps) := by
  unfold Base.parsed
  split
  · exact .fault _
  · split
    · exact .raise _
    · exact .pure _
theorem Plain.bind {m : M α} {f : α → M β} (hm : Plain m) (hf : ∀ a, Plain (f a)) : Plain (m >>= f) := by
  intro env A st hd
  rw [run_bind, run_bind, hm env A st hd]
  cases m env st with
  | ret a s => exact hf a env A s hd
  | throw e s => rfl
  | fault f => rfl
theorem Plain.parsedAll (ps : PS) : Plain (Base.parsedAll ps) := by
  unfold Base.parsedAll
  refine .bind (.parsed _) fun _ => ?_
  split
  · exact .pure _
  · exact .raise _
theorem Plain.assertUserinfo : Plain Base.assertUserinfo :=
  .bind (.assert _) fun _ => .bind (.assert _) fun _ => .bind (.assert _) fun _ => .assert _

/-- a step after room was made: it neither throws nor changes the size -/
macro "after" : tactic => `(tactic| repeat' (with_reducible first
  | exact Tail.put _ _
  | exact Tail.split (by decide)
  | exact Tail.host _
  | exact Tail.reads (Alias.Reads.pure _)
  | exact Tail.reads (Alias.Reads.assert _)
  | exact NoThrow.put _ _
  | exact NoThrow.split _ _
  | exact NoThrow.setPt _
  | exact NoThrow.pure _
  | exact NoThrow.assert _
  | refine Tail.bind ?_ fun _ => ?_
  | refine NoThrow.bind ?_ fun _ => ?_))

theorem never {chk : Bool} {m : M α} (h : ∀ env st a s, m env st ≠ .ret a s) : Exact chk m := fun _ _ _ _ _ _ _ _ hr => (h _ _ _ _ hr).elim

macro "exacts" : tactic => `(tactic| repeat' (with_reducible first
  | assumption
  | exact Exact.resize (by decide)
  | exact Exact.resize2 (by decide) (by decide)
  | exact Exact.tail (Tail.reads (Alias.Reads.pure _)) (NoThrow.pure _)
  | exact never fun _ _ _ _ h => by cases h
  | refine Exact.read Plain.pt Alias.Reads.pt fun _ => ?_
  | refine Exact.read (Plain.ask _) (Alias.Reads.ask _) fun _ => ?_
  | refine Exact.read (Plain.assert _) (Alias.Reads.assert _) fun _ => ?_
  | refine Exact.read (Plain.require _) (Alias.Reads.require _) fun _ => ?_
  | refine Exact.read (Plain.validate _ _) (Alias.Reads.validate _ _) fun _ => ?_
  | refine Exact.read (Plain.parsed _) (Alias.Reads.parsed _) fun _ => ?_
  | refine Exact.read (Plain.parsedAll _) (Alias.Reads.parsedAll _) fun _ => ?_
  | refine Exact.read Plain.assertUserinfo Alias.Reads.assertUserinfo fun _ => ?_
  | refine Exact.read Plain.isNull Alias.Reads.isNull fun _ => ?_
  | (refine Exact.bind (Exact.resize (by decide)) (fun _ => ?_) (fun _ => ?_) <;> after; done)
  | (refine Exact.bind (Exact.resize2 (by decide) (by decide)) (fun _ => ?_) (fun _ => ?_) <;> after; done)
  | split
  | dsimp only))

theorem exact_set_user (s : Str) : Exact true (Base.set_user s) := by unfold Base.set_user; exacts
theorem exact_set_password (s : Str) : Exact true (Base.set_password s) := by unfold Base.set_password; exacts
theorem exact_set_port (s : Str) : Exact true (Base.set_port s) := by unfold Base.set_port; exacts
theorem exact_set_encoded_userinfo (s : Str) : Exact true (Base.set_encoded_userinfo s) := by unfold Base.set_encoded_userinfo; exacts
theorem exact_set_encoded_password (s : Str) : Exact true (Base.set_encoded_password s) := by
  have := exact_set_password s
  unfold Base.set_encoded_password; exacts
theorem exact_addHost (s : Str) : Exact true (Base.addHost s) := by unfold Base.addHost; exacts

theorem plain_hostname (s : Str) : Plain (match (parse_ip_literal (PS.init s)).flt with
      | some f => fun _ _ => .fault f
      | none => pure (parse_plain_hostname s) : M HostType) := by
  split
  · exact .fault _
  · exact .pure _

theorem exact_set_host (s : Str) : Exact true (Base.set_host s) := by
  have h1 := exact_addHost s
  unfold Base.set_host
  dsimp only
  split
  · exacts
  · refine Exact.read (plain_hostname s) (reads_hostname s) fun k => ?_
    refine Exact.read (Plain.assert _) (Alias.Reads.assert _) fun _ => ?_
    split
    · refine Exact.read (Plain.ask _) (Alias.Reads.ask _) fun _ => ?_
      split
      · exact Exact.bind h1 (fun _ => Tail.host _) fun _ => .setPt _
      · exacts
    · exacts

theorem NoThrow.normalize_scheme : NoThrow Base.normalize_scheme := by
  unfold Base.normalize_scheme
  dsimp only
  refine .bind .pt fun _ => ?_
  split
  · exact .pure _
  · exact .bind (.assert _) fun _ => .bind .pt fun _ => noThrow_lowerLoop _ _

theorem NoThrow.clear2 (b e : Nat) : NoThrow (Base.resize2 b e 0) := by
  intro env st x s h
  unfold Base.resize2 at h
  rw [run_bind_ret run_pt] at h
  dsimp only at h
  rw [run_ite] at h
  split at h
  · cases h
  · exact (NoThrow.bind (.move _ _ _) fun _ => .bind (.setPt _) fun _ => .pure _) _ _ _ _ h

theorem NoThrow.clear (id : Nat) : NoThrow (Base.resize id 0) := fun _ _ _ _ => resize_shrink (Nat.zero_le _)

theorem Exact.clear2 {chk : Bool} {b e : Nat} (hbe : b ≤ e) (he : e ≤ 8) : Exact chk (Base.resize2 b e 0) := by
  intro env A st a s hd ho hs h
  refine .fits ?_ hs fun x s => NoThrow.clear2 _ _ _ _ _ _
  have h1 := Ordered.le ho.ord (i := b) (j := e) (by omega) (by omega)
  have h2 := Ordered.le ho.ord (i := e) (j := 8) (by omega) (by omega)
  have hc := ho.cap
  unfold Base.resize2 at h
  rw [run_bind_ret run_pt] at h
  dsimp only at h
  split at h
  · cases h; exact hc
  · rw [if_pos (Nat.zero_le _)] at h
    obtain ⟨-, -, t3⟩ := shrink_fit h
    rw [t3]
    simp only [Parts.shift2, Parts.length2, id_end] at *
    rw [if_pos (by omega)]
    omega

/-- `set_encoded_url` does not compare with the largest size. -/
theorem exact_set_encoded_url (s : Str) : Exact false (Base.set_encoded_url s) := by
  unfold Base.set_encoded_url
  split
  · refine Exact.read .isNull .isNull fun _ => ?_
    split
    · exact Exact.bind (.clear2 (by decide) (by decide)) (fun _ => .reads (.pure _)) fun _ => .pure _
    · exact .tail (.reads (.pure _)) (.pure _)
  · intro env A st u s' hd ho hs h
    obtain ⟨pt, st1, h1, h⟩ := Alias.bind_ret h
    obtain ⟨_, st2, h2, h⟩ := Alias.bind_ret h
    obtain ⟨_, st3, h3, h4⟩ := Alias.bind_ret h
    cases h3
    have h1' : st1 = st ∧ pt.off 8 = s.length := by
      cases hf : (parse_url s).flt with
      | some f => simp only [Base.parsed, hf] at h1; cases h1
      | none =>
        simp only [Base.parsed, hf] at h1
        cases hn : (parse_url s).ec with
        | some e => simp only [hn, Option.isSome_some, if_true] at h1; cases h1
        | none =>
          simp only [hn, Option.isSome_none, Bool.false_eq_true, if_false] at h1
          cases h1
          exact ⟨rfl, parse_url_end hn⟩
    obtain ⟨rfl, he⟩ := h1'
    obtain ⟨-, -, t3⟩ := Tail.put 0 s _ _ _ _ h4
    dsimp only at t3
    rw [t3, he, run_bind_ret ((Plain.parsed _ env A st1 hd).symm.trans h1)]
    exact (storage_verdict _ _).bind fun _ => .bind (.setPt _) fun _ => .put _ _

/-- Does the call compare the size of the result with the largest size? -/
def checks : Op → Bool
  | .set_encoded_url _ => false
  | _ => true

theorem exact_run {op : Op} (hop : op ≠ .set_password_part b!":") : Exact (checks op) (Url.run op) := by
  cases op <;> unfold Url.run checks <;> dsimp only
  case set_encoded_url s => exact exact_set_encoded_url s
  case set_encoded_origin s => unfold Base.set_encoded_origin; exacts
  case set_scheme s => unfold Base.set_scheme; exacts
  case set_encoded_authority s => unfold Base.set_encoded_authority; exacts
  case set_encoded_userinfo s => exact exact_set_encoded_userinfo s
  case set_userinfo_part s =>
    have := exact_set_encoded_userinfo s
    have := exact_set_encoded_userinfo (s.take (s.length - 1))
    unfold Base.set_userinfo_part; exacts
  case set_user s => exact exact_set_user s
  case set_encoded_user s =>
    have := exact_set_user s
    unfold Base.set_encoded_user; exacts
  case set_password s => exact exact_set_password s
  case set_encoded_password s => exact exact_set_encoded_password s
  case set_password_part s =>
    have h1 := exact_set_password s
    have h2 := exact_set_encoded_password (s.drop 1)
    unfold Base.set_password_part
    split
    · exact h1
    · split
      · rename_i hl
        obtain ⟨x, rfl⟩ := List.length_eq_one_iff.1 hl
        have hx : x ≠ c!":" := fun h => hop (by rw [h])
        intro env A st a s _ _ _ h
        simp [Base.require, hx] at h
        cases h
      · exact h2
  case set_host s => exact exact_set_host s
  case set_encoded_host s =>
    have h1 := exact_set_host s
    have h2 := exact_addHost s
    unfold Base.set_encoded_host
    split
    · exact h1
    · refine Exact.read (Plain.parsedAll _) (Alias.Reads.parsedAll _) fun _ => ?_
      refine Exact.read (Plain.ask _) (Alias.Reads.ask _) fun _ => ?_
      split
      · exact Exact.bind h2 (fun _ => Tail.host _) fun _ => .setPt _
      · exacts
  case set_port s => exact exact_set_port s
  case set_port_number n =>
    unfold Base.set_port_number
    exact .read (Plain.ask _) (Alias.Reads.ask _) fun s => exact_set_port s
  case set_port_part s =>
    have := exact_set_port s
    have := exact_set_port (s.drop 1)
    unfold Base.set_port_part; exacts
  case set_encoded_path s => unfold Base.set_encoded_path; exacts
  case set_query s => unfold Base.set_query Base.setPlain; exacts
  case set_encoded_query s => unfold Base.set_encoded_query Base.setEncoded; exacts
  case set_query_part s => unfold Base.set_query_part Base.setPart; exacts
  case set_fragment s => unfold Base.set_fragment Base.setPlain; exacts
  case set_encoded_fragment s => unfold Base.set_encoded_fragment Base.setEncoded; exacts
  case set_fragment_part s => unfold Base.set_fragment_part Base.setPart; exacts
  case normalize_scheme => exact .tail tail_normalize_scheme NoThrow.normalize_scheme
  case normalize => exact .tail tail_normalize_scheme NoThrow.normalize_scheme

/-- The remaining call. Where there is no user, it makes room for two characters more than its result has. -/
theorem exact_colon {A : Env} {s : St} (hd : A.dbg = env.dbg) (ho : Proper st) (hs : st.cap ≤ env.sizeMax)
    (h : Base.set_password_part b!":" A st = .ret () s) :
    Verdict true env st (if st.pt.off 1 = st.pt.off 2 then s.pt.off 8 + 2 else s.pt.off 8) (Base.set_password_part b!":" env st) := by
  have h12 := Ordered.le ho.ord (i := 1) (j := 2) (by omega) (by omega)
  split
  · rename_i hu
    obtain ⟨dest, st1, h1, h2, -⟩ := colon_split ho hu h
    unfold Base.set_password_part
    rw [if_neg (by decide), if_pos (by decide), run_bind_ret (a := ()) (st' := st) (by rfl)]
    rw [run_bind_ret run_pt, if_neg (by simp only [Parts.length, id_user, Nat.reduceAdd]; omega), ← h2]
    refine (Exact.resize2 (by decide) (by decide) env A st dest st1 hd ho hs h1).bind fun _ => ?_
    have : Base.set_encoded_password (b!":".drop 1) = Base.set_password [] := by
      show Base.set_encoded_password [] = _
      rw [Base.set_encoded_password, if_pos (by rfl)]
    rw [this]
    noThrow
  · rename_i hu
    unfold Base.set_password_part at h ⊢
    rw [if_neg (by decide), if_pos (by decide), run_bind_ret (a := ()) (st' := st) (by rfl)] at h ⊢
    have e : st.pt.length id_user ≠ 0 := by simp only [Parts.length, id_user, Nat.reduceAdd]; omega
    rw [run_bind_ret run_pt, if_pos e] at h ⊢
    have hf : Exact true (do
      let dest ← Base.resize id_password 2
      M.put dest b!":"
      M.put (dest + 1) b!"@") := by exacts
    exact hf env A st () s hd ho hs h

/-! ### edits of segments -/

section
variable {A : List (List Cell)} {u x v : Str} {q f : List Cell} {t : Cell} {enc : Str}

/-- An edit throws if and only if there is no room for `n` characters. -/
def Decides (env : Env) (st : St) (n : Nat) (out : Out SegIt) : Prop :=
  (Stores env st n → ∀ e s, out ≠ .throw e s) ∧ (¬ Stores env st n → out = .throw .bad_alloc { st with tick := st.tick + 1 })

theorem erase_range_decides (hd : env.dbg = false) (h : Holds env st (A ++ (u ++ x ++ v).map some :: [q, f]) t) (hA : A.length = 5)
    (hq : Lead c!"?" q) (hf : Lead c!"#" f) (k k' : Nat) (e : Exc) (s : St) :
    Base.seg_erase_range { off := A.flatten.length + u.length, n := k } { off := A.flatten.length + u.length + x.length, n := k' } env st ≠
      .throw e s := by
  intro hEr
  by_cases hc : Base.intMax < x.count c!"/"
  · rw [erase_over hd h hc] at hEr
    cases hEr
  by_cases hx : x = []
  · subst hx
    rw [List.length_nil, Nat.add_zero, erase_nothing hd] at hEr
    cases hEr
  · obtain ⟨st', e', g1, g2, g3, g4, -⟩ := erase_cells hd h hA hx (Nat.not_lt.1 hc) k k'
    rw [e', run_ask (g1.parse_at hd hA hq hf (fun hb => hb.2.2.2 ⟨g2, rfl⟩) _)] at hEr
    cases hEr

theorem erase_decides (hd : env.dbg = false) (h : Holds env st (A ++ (u ++ x ++ v).map some :: [q, f]) t) (hA : A.length = 5)
    (hq : Lead c!"?" q) (hf : Lead c!"#" f) (e : Exc) (s : St) :
    Base.seg_erase { off := A.flatten.length + u.length, n := x.length } env st ≠ .throw e s := by
  unfold Base.seg_erase
  rw [run_bind_ret (run_ask (h.next_at hd hA hq hf))]
  exact erase_range_decides hd h hA hq hf _ _ e s

theorem put_decides (hd : env.dbg = false) (h : Holds env st (A ++ (u ++ v).map some :: [q, f]) t) (hA : A.length = 5)
    (hq : Lead c!"?" q) (hf : Lead c!"#" f) (k : Nat) :
    Decides env st ((A ++ (u ++ v).map some :: [q, f]).flatten.length + (enc.length + 1))
      (Base.seg_put { off := A.flatten.length + u.length, n := k } enc.length enc env st) := by
  refine ⟨(put_out (enc := enc) hd h hA hq hf k ⟨0, 0⟩).2, fun hs => ?_⟩
  rcases put_cells (enc := enc) hd h hA k with ⟨-, e⟩ | ⟨h0, -⟩
  · exact e
  · exact absurd h0 hs

theorem swap_decides (hd : env.dbg = false) (h : Holds env st (A ++ (u ++ x ++ v).map some :: [q, f]) t) (hA : A.length = 5)
    (hq : Lead c!"?" q) (hf : Lead c!"#" f) {ins : SegIt → M SegIt}
    (hins : ∀ it st, ins it env st = Base.seg_put it enc.length enc env st) :
    Decides env st (st.size + (enc.length + 1) - x.length)
      (Base.seg_swap { off := A.flatten.length + u.length, n := x.length } enc.length ins env st) := by
  have hsz : (A ++ (u ++ x ++ v).map some :: [q, f]).flatten.length ≤ st.size ∧ st.size ≤ st.cap := by
    rcases h.buf with ⟨-, h2, h3, h4⟩ | ⟨-, -, -, h3, h4⟩
    · rw [h2, h3, h4]; simp
    · exact ⟨h3, h4⟩
  have hlen : (A ++ (u ++ x ++ v).map some :: [q, f]).flatten.length = (A ++ (u ++ v).map some :: [q, f]).flatten.length + x.length := by
    simp; omega
  have key : ∀ st1 t1, Holds env st1 (A ++ (u ++ x ++ v).map some :: [q, f]) t1 →
      (A ++ (u ++ x ++ v).map some :: [q, f]).flatten.length + (enc.length + 1) - x.length ≤ st1.cap →
      ∀ e s, ((do
          let cap ← M.capacity
          let r ← ins (← Base.seg_erase { off := A.flatten.length + u.length, n := x.length })
          let cap' ← M.capacity
          M.assert fun _ => .ok (cap' = cap)
          return r : M SegIt) env st1) ≠ .throw e s := by
    intro st1 t1 h1 hcap e s hthr
    rw [run_bind_ret run_capacity] at hthr
    have hE := erase_out hd h1 hA hq hf
    cases hEr : Base.seg_erase { off := A.flatten.length + u.length, n := x.length } env st1 with
    | throw e st2 => exact erase_decides hd h1 hA hq hf _ _ hEr
    | fault e => rw [run_bind, hEr] at hthr; cases hthr
    | ret it st2 =>
      have hc2 : st2.cap = st1.cap := by
        by_cases hx : x = []
        · rw [hEr] at hE
          rw [(hE.2.2.1 hx).2]
        · have hE' := hE
          rw [hEr] at hE'
          obtain ⟨st', e, g1, g2, g3, g4, -⟩ := erase_cells hd h1 hA hx (Nat.not_lt.1 hE'.2.2.2.2.2.2.2.2.2) x.length (pieceLen v)
          have he := hEr
          unfold Base.seg_erase at he
          rw [run_bind_ret (run_ask (h1.next_at hd hA hq hf)), e, run_ask (g1.parse_at hd hA hq hf (fun hb => hb.2.2.2 ⟨g2, rfl⟩) _)] at he
          cases he
          exact g4
      rw [hEr] at hE
      obtain ⟨k1, k3, k3', ⟨t2, k4⟩, -⟩ := hE
      obtain ⟨off, n⟩ := it
      have hoff : off = A.flatten.length + u.length := by rw [List.length_append] at k1; dsimp only at k1; omega
      subst hoff
      rw [run_bind_ret hEr] at hthr
      have hroom : (A ++ (u ++ v).map some :: [q, f]).flatten.length + (enc.length + 1) ≤ st2.cap := by rw [hc2]; omega
      have hT := (put_decides (enc := enc) hd k4 hA hq hf n).1 (.inl hroom)
      rw [← hins] at hT
      rw [run_bind] at hthr
      cases hPr : ins { off := A.flatten.length + u.length, n := n } env st2 with
      | throw e st3 => exact hT _ _ hPr
      | fault e => rw [hPr] at hthr; cases hthr
      | ret it' st3 =>
        rw [hPr] at hthr
        dsimp only at hthr
        rw [run_bind_ret run_capacity, assert_bind hd, run_pure] at hthr
        cases hthr
  unfold Base.seg_swap
  rw [run_bind_ret run_stored, assert_bind hd]
  by_cases hlt : x.length < enc.length + 1
  · simp only [if_pos hlt]
    rw [run_bind_ret run_stored]
    refine ⟨fun hs => ?_, fun hs => ?_⟩
    · obtain ⟨st1, t1, r1, r2, r3, r4, r5, r6, r7⟩ := reserve_cells h hs
      rw [run_bind_ret r1]
      exact key st1 t1 r6 (by omega)
    · rw [run_bind_throw (Url.storage_reserve_throw hs)]
  · simp only [if_neg hlt]
    refine ⟨fun hs => ?_, fun hs => absurd (.inl (by omega)) hs⟩
    exact key st t h (by omega)

end

end Url.Thrown
