import Verif.Proofs.CountedBound

/-!
How many characters each call that changes a part writes.
-/

set_option linter.unusedSimpArgs false
set_option autoImplicit false

namespace Url

theorem encoded_le {e : PctSet} {ok : Byte → Bool} (he : SetOf e ok) (s : Str) :
    (e.encode s).length = e.encoded_size s ∧ s.length ≤ e.encoded_size s ∧ e.encoded_size s ≤ 3 * s.length := by
  refine ⟨(encoded_size_eq he s).symm, ?_⟩
  induction s with
  | nil => exact ⟨Nat.zero_le _, Nat.zero_le _⟩
  | cons c t ih =>
    unfold PctSet.encoded_size
    rw [he.needed, List.length_cons]
    split <;> omega

theorem l_set_userinfo_part (s : Str) : Lin (Counted.set_userinfo_part s) 2 (2 * s.length + 9) (s.length + 3) := by
  have h1 := l_set_encoded_userinfo s
  have h2 := (l_set_encoded_userinfo (s.take (s.length - 1))).mono (Nat.le_refl 2)
    (show _ ≤ 2 * s.length + 9 by rw [List.length_take]; omega) (show _ ≤ s.length + 3 by rw [List.length_take]; omega)
  unfold Counted.set_userinfo_part
  steps

theorem l_set_user (s : Str) : Lin (Counted.set_user s) 2 (2 * userinfo_nc_pct_set.encoded_size s + 9) (userinfo_nc_pct_set.encoded_size s + 3) := by
  have h1 := (encoded_le setOf_userinfo_nc s).1
  unfold Counted.set_user
  steps

theorem l_set_encoded_user (s : Str) : Lin (Counted.set_encoded_user s) 2 (2 * s.length + 9) (s.length + 3) := by
  unfold Counted.set_encoded_user
  refine .ite (fun h => ?_) fun _ => ?_
  · obtain rfl := List.isEmpty_iff.mp h
    exact l_set_user []
  · steps

theorem l_set_password (s : Str) : Lin (Counted.set_password s) 2 (2 * userinfo_pct_set.encoded_size s + 11) (userinfo_pct_set.encoded_size s + 4) := by
  have h1 := (encoded_le setOf_userinfo s).1
  unfold Counted.set_password
  steps

theorem l_set_encoded_password (s : Str) : Lin (Counted.set_encoded_password s) 2 (2 * s.length + 11) (s.length + 4) := by
  unfold Counted.set_encoded_password
  refine .ite (fun h => ?_) fun _ => ?_
  · obtain rfl := List.isEmpty_iff.mp h
    exact l_set_password []
  · steps

theorem l_addHost (s : Str) : Lin (Counted.addHost s) 2 (2 * s.length + 7) (s.length + 2) := by
  unfold Counted.addHost
  steps

theorem l_set_host (s : Str) : Lin (Counted.set_host s) 2 (2 * reg_name_pct_set.encoded_size s + 7) (reg_name_pct_set.encoded_size s + 2) := by
  obtain ⟨h1, h3, -⟩ := encoded_le setOf_regName s
  have h2 := (l_addHost s).mono (Nat.le_refl 2) (show _ ≤ 2 * reg_name_pct_set.encoded_size s + 7 by omega)
    (show _ ≤ reg_name_pct_set.encoded_size s + 2 by omega)
  have h4 : ∀ f, Quiet (fun _ _ => .fault f : M HostType) := fun f _ _ _ _ h => by cases h
  unfold Counted.set_host
  cases (parse_ip_literal (PS.init s)).flt with
  | none => steps
  | some f =>
    refine .ite (fun _ => ?_) fun _ => .quietThen (h4 f) fun _ => ?_
    · steps
    · steps

theorem l_set_encoded_host (s : Str) : Lin (Counted.set_encoded_host s) 2 (2 * s.length + 7) (s.length + 2) := by
  have h2 := l_addHost s
  unfold Counted.set_encoded_host
  refine .ite (fun h => ?_) fun _ => ?_
  · obtain rfl := List.isEmpty_iff.mp h
    exact l_set_host []
  · steps

theorem l_set_port (s : Str) : Lin (Counted.set_port s) 2 (2 * s.length + 9) (s.length + 3) := by
  unfold Counted.set_port
  steps

theorem l_set_port_part (s : Str) : Lin (Counted.set_port_part s) 2 (2 * s.length + 9) (s.length + 3) := by
  have h1 := l_set_port s
  have h2 := (l_set_port (s.drop 1)).mono (Nat.le_refl 2)
    (show _ ≤ 2 * s.length + 9 by rw [List.length_drop]; omega) (show _ ≤ s.length + 3 by rw [List.length_drop]; omega)
  unfold Counted.set_port_part
  steps

theorem l_set_encoded_path (s : Str) : Lin (Counted.set_encoded_path s) 2 (2 * s.length + 3) s.length := by
  unfold Counted.set_encoded_path
  steps

theorem l_setPlain {id : Nat} (hid : id ≤ 7) (d : Byte) {e : PctSet} {ok : Byte → Bool} (he : SetOf e ok) (s : Str) :
    Lin (Counted.setPlain id d e s) 2 (2 * e.encoded_size s + 5) (e.encoded_size s + 1) := by
  have h1 := (encoded_le he s).1
  unfold Counted.setPlain
  refine .ite (fun _ => .resizeThen hid (by omega) (by omega) fun _ => ?_) fun _ => .resizeThen hid (by omega) (by omega) fun _ => ?_
  · steps
  · steps

theorem l_setEncoded {id : Nat} (hid : id ≤ 7) (d : Byte) (e : PctSet) (s : Str) :
    Lin (Counted.setEncoded id d e s) 2 (2 * s.length + 5) (s.length + 1) := by
  unfold Counted.setEncoded
  refine .ite (fun _ => .resizeThen hid (by omega) (by omega) fun _ => ?_) fun _ => .quietThen (.validate _ _) fun _ => .resizeThen hid (by omega) (by omega) fun _ => ?_
  · steps
  · steps

theorem l_setPart {id : Nat} (hid : id ≤ 7) (d : Byte) (e : PctSet) (s : Str) :
    Lin (Counted.setPart id d e s) 2 (2 * s.length + 5) (s.length + 1) := by
  have : (s.drop 1).length ≤ s.length := by rw [List.length_drop]; omega
  unfold Counted.setPart
  refine .ite (fun _ => .resizeThen hid (by omega) (by omega) fun _ => ?_) fun _ => .quietThen (.require _) fun _ => .quietThen (.validate _ _) fun _ =>
    .resizeThen hid (by omega) (by omega) fun _ => ?_
  · steps
  · steps

/-- it changes nothing -/
def Unmoved {α : Type} (m : M α) : Prop := ∀ env st a st', m env st = .ret a st' → st = st'

theorem Unmoved.bind {α β : Type} {m : M α} {f : α → M β} (h : Unmoved m) (h' : ∀ a, Unmoved (f a)) : Unmoved (m >>= f) := by
  intro env st b st' hb
  change (match m env st with
    | .ret a st => f a env st
    | .throw e st => .throw e st
    | .fault x => .fault x) = _ at hb
  split at hb
  · rename_i a st1 e
    exact (h _ _ _ _ e).trans (h' _ _ _ _ _ hb)
  · cases hb
  · cases hb

theorem Unmoved.ask {α : Type} (f : Obj → R α) : Unmoved (M.ask f) := by
  intro env st a st' h
  unfold M.ask at h
  split at h
  · cases h; rfl
  · cases h

theorem Unmoved.assertUserinfo : Unmoved Base.assertUserinfo :=
  .bind (.ask _) fun _ => .bind (.ask _) fun _ => .bind (.ask _) fun _ => .ask _

theorem assertUserinfo_same {env : Env} {st st' : St} {a : Unit} (h : Base.assertUserinfo env st = .ret a st') : st = st' :=
  Unmoved.assertUserinfo _ _ _ _ h

/-- A check changes nothing. -/
theorem assert_same {f : Obj → R Bool} {env : Env} {st st' : St} {a : Unit} (h : M.assert f env st = .ret a st') : st = st' :=
  Unmoved.ask _ _ _ _ _ h

theorem Writes.bind0 {α β : Type} {env : Env} {c : CM α} {f : α → CM β} {st : St} {B : Nat} {Q : α → St → Prop} {R : β → St → Prop}
    (h : Writes env c st 0 Q) (h' : ∀ a st', Q a st' → Writes env (f a) st' B R) : Writes env (c >>= f) st B R :=
  (Writes.bind h h').mono (by omega) fun _ _ h => h

theorem Writes.assertThen {β : Type} {env : Env} {f : Obj → R Bool} {g : Unit → CM β} {st : St} {B : Nat} {R : β → St → Prop}
    (h : Writes env (g ()) st B R) : Writes env (CM.lift (M.assert f) >>= g) st B R :=
  .bind0 (Q := fun _ st' => st = st') (.lift fun _ _ e => assert_same e) fun _ _ e => e ▸ h

theorem Writes.ptThen {β : Type} {env : Env} {g : Parts → CM β} {st : St} {B : Nat} {R : β → St → Prop}
    (h : Writes env (g st.pt) st B R) : Writes env (CM.lift M.pt >>= g) st B R :=
  .bind0 (Q := fun a st' => a = st.pt ∧ st = st') (.lift fun _ _ e => by cases e; exact ⟨rfl, rfl⟩) fun _ _ e => by
    obtain ⟨rfl, rfl⟩ := e; exact h

/-- Removing the password moves the rest of the text at most once. -/
theorem l_no_password : Lin (Counted.set_password []) 1 2 1 := by
  intro env st hs
  have key : Writes env (Counted.set_password []) st (st.pt.off 8 + 2) fun _ st' => st'.size ≤ st'.cap ∧ st'.pt.off 8 ≤ st.pt.off 8 + 1 := by
    unfold Counted.set_password
    refine .ite (fun _ => ?_) fun h => absurd rfl h
    refine .ptThen (.ite (fun _ => ?_) fun hp => ?_)
    · exact (Writes.pure (Q := fun _ st' => st'.size ≤ st'.cap ∧ st'.pt.off 8 ≤ st.pt.off 8 + 1) ⟨hs, by omega⟩).mono (by omega) fun _ _ h => h
    · refine .bind0 (Q := fun _ st' => st = st') (.lift fun _ _ e => assertUserinfo_same e) ?_
      rintro _ _ rfl
      refine .ptThen (.ite (fun _ => ?_) fun _ => ?_)
      · have h1 := resize_writes (id := id_password) (n := 0) (by decide) (env := env) hs
        rw [if_pos (Nat.zero_le _)] at h1
        exact (Writes.bind (B' := 0) h1 fun _ _ h => .pure ⟨h.1, by omega⟩).mono (by omega) fun _ _ h => h
      · have h1 := resize_writes (id := id_password) (n := 1) (by decide) (env := env) hs
        rw [if_pos (by omega)] at h1
        refine (Writes.bind (B' := 1) h1 fun a st1 h => ?_).mono (by omega) fun _ _ h => h
        obtain ⟨h2, h3⟩ := Lin.put a b!"@" env st1 h.1
        refine ⟨by simpa using h2, fun _ st2 e => ?_⟩
        have := h3 _ st2 e
        omega
  exact ⟨by have := key.1; omega, key.2⟩

theorem l_set_password_part (s : Str) : Lin (Counted.set_password_part s) 3 (2 * s.length + 17) (s.length + 4) := by
  unfold Counted.set_password_part
  refine .ite (fun h => ?_) fun _ => ?_
  · obtain rfl := List.isEmpty_iff.mp h
    exact l_no_password.mono (by omega) (by omega) (by omega)
  · refine .ite (fun h => .quietThen (.require _) fun _ => .quietThen .pt fun _ => .ite (fun _ => .mono (k := 2) (b := 7) (g := 2) ?_ ?_ ?_ ?_) fun _ => ?_) fun _ => ?_
    · steps
    · omega
    · omega
    · omega
    · have hd : s.drop 1 = [] := List.drop_eq_nil_of_le (by omega)
      rw [hd]
      have h1 : Lin (Counted.set_encoded_password []) 1 2 1 := l_no_password
      have h2 := h1.mono (Nat.le_refl 1) (show _ ≤ 2 by omega) (show _ ≤ 1 by omega)
      refine (Lin.bind (k' := 1) (b' := 6) (g' := 1) (Lin.resize2 (by decide)) fun _ => ?_).mono (by omega) (by omega) (by omega)
      steps
    · exact (l_set_encoded_password _).mono (by omega) (by rw [List.length_drop]; omega) (by rw [List.length_drop]; omega)

theorem l_set_port_number (n : UInt32) : Lin (Counted.set_port_number n) 2 29 13 := by
  obtain ⟨s, h1, -, h2⟩ := port_string_of n
  intro env st hs
  have hl := (l_set_port s).mono (k' := 2) (b' := 29) (g' := 13) (by omega) (by omega) (by omega) env st hs
  unfold Counted.set_port_number
  refine Writes.bind0 (Q := fun a st' => s = a ∧ st = st') (.lift fun a st' e => ?_) ?_
  · unfold M.ask at e
    rw [h1] at e
    cases e
    exact ⟨rfl, rfl⟩
  · rintro _ _ ⟨rfl, rfl⟩
    exact hl

theorem w_set_encoded_url (s : Str) (env : Env) (st : St) (hs : st.size ≤ st.cap) :
    (Counted.set_encoded_url s env st).1 ≤ (if s = [] then st.pt.off 8 + 1 else 2 * s.length + 2) := by
  have key : Writes env (Counted.set_encoded_url s) st (if s = [] then st.pt.off 8 + 1 else 2 * s.length + 2) fun _ _ => True := by
    unfold Counted.set_encoded_url
    refine .ite (fun h => ?_) fun h => ?_
    · rw [if_pos (List.isEmpty_iff.mp h)]
      refine .bind0 (Q := fun _ st' => st = st') (.lift fun _ _ e => by cases e; rfl) ?_
      rintro b _ rfl
      refine .ite (fun _ => ?_) fun _ => (Writes.pure (Q := fun _ _ => True) trivial).mono (by omega) fun _ _ h => h
      have h1 := resize2_writes (a := id_scheme) (b := id_end) (n := 0) (by decide) (env := env) hs
      rw [if_pos (Nat.zero_le _)] at h1
      exact (Writes.bind (B' := 0) h1 fun _ _ h => .pure trivial).mono (by omega) fun _ _ h => h
    · rw [if_neg (fun e => h (List.isEmpty_iff.mpr e))]
      refine .bind0 (Q := fun _ st' => st'.size = st.size ∧ st'.cap = st.cap ∧ st'.pt.off 8 = st.pt.off 8) (.lift fun _ _ e => Quiet.parsed _ _ _ _ _ e) ?_
      intro pt st1 h1
      refine (Writes.bind (B' := s.length) (.storage s.length (by omega)) fun _ st2 _ => .bind0 (Q := fun _ _ => True) (.lift fun _ _ _ => trivial) ?_).mono (by omega) fun _ _ h => h
      exact fun _ st3 _ => ⟨by simp [CM.put], fun _ _ _ => trivial⟩
  exact key.1

theorem w_lowerLoop (env : Env) (n : Nat) : ∀ (i : Nat) (st : St), (Counted.lowerLoop i n env st).1 ≤ n := by
  have key : ∀ (n i : Nat) (st : St), Writes env (Counted.lowerLoop i n) st n fun _ _ => True := by
    intro n
    induction n with
    | zero => exact fun i st => Writes.pure trivial
    | succ n ih =>
      intro i st
      unfold Counted.lowerLoop
      refine .bind0 (Q := fun _ _ => True) (.lift fun _ _ _ => trivial) fun c st1 _ => .ite (fun _ => ?_) fun _ => ?_
      · exact (Writes.bind (B := 1) (Q := fun _ _ => True) ⟨by simp [CM.put], fun _ _ _ => trivial⟩ fun _ st2 _ => ih _ st2).mono (by omega) fun _ _ h => h
      · exact (ih (i + 1) st1).mono (by omega) fun _ _ h => h
  exact fun i st => (key n i st).1

theorem w_normalize_scheme (env : Env) (st : St) : (Counted.normalize_scheme env st).1 ≤ st.pt.length id_scheme := by
  have key : Writes env Counted.normalize_scheme st (st.pt.length id_scheme) fun _ _ => True := by
    unfold Counted.normalize_scheme
    refine .ptThen (.ite (fun _ => (Writes.pure (Q := fun _ _ => True) trivial).mono (by omega) fun _ _ h => h) fun h => ?_)
    refine .assertThen (.ptThen ?_)
    exact ⟨Nat.le_trans (w_lowerLoop _ _ _ _) (by omega), fun _ _ _ => trivial⟩
  exact key.1

end Url
