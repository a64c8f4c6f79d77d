import Verif.Proofs.CountedSetters

/-!
How many characters each call that edits a segment writes.
-/

set_option autoImplicit false

namespace Url
variable {α β : Type}

/-- The text has at most `N` characters, and they fit. -/
def Fits (N : Nat) (st : St) : Prop := st.size ≤ st.cap ∧ st.pt.off 8 ≤ N ∧ st.pt.off 8 ≤ st.cap

theorem Writes.quietThen {env : Env} {m : M α} {f : α → CM β} {st : St} {N B : Nat} {R : β → St → Prop} (hq : Quiet m) (hf : Fits N st)
    (h : ∀ a st', Fits N st' → Writes env (f a) st' B R) : Writes env (CM.lift m >>= f) st B R :=
  .bind0 (Q := fun _ st' => Fits N st') (.lift fun a st' e => by
    obtain ⟨h1, h2, h3⟩ := hq _ _ _ _ e
    obtain ⟨k1, k2, k3⟩ := hf
    exact ⟨by omega, by omega, by omega⟩) h

theorem Writes.stop {env : Env} {m : M α} {st : St} {N B : Nat} (hq : Quiet m) (hf : Fits N st) :
    Writes env (CM.lift m) st B fun _ st' => Fits N st' :=
  (Writes.lift (Q := fun _ st' => Fits N st') fun a st' e => by
    obtain ⟨h1, h2, h3⟩ := hq _ _ _ _ e
    obtain ⟨k1, k2, k3⟩ := hf
    exact ⟨by omega, by omega, by omega⟩).mono (Nat.zero_le _) fun _ _ h => h

theorem Fits.move {x y n N : Nat} {env : Env} {st : St} (hf : Fits N st) : Writes env (CM.move x y n) st n fun _ st' => Fits N st' :=
  (Writes.move x y n).mono (Nat.le_refl _) fun _ st' h => by
    obtain ⟨h1, h2, h3⟩ := h
    obtain ⟨k1, k2, k3⟩ := hf
    exact ⟨by omega, by rw [h3]; omega, by rw [h3]; omega⟩

theorem Fits.store {n N : Nat} {env : Env} {st : St} (hf : Fits N st) (h : n ≤ st.cap) : Writes env (CM.storage n) st 1 fun _ st' => Fits N st' :=
  ⟨(storage_cost env st hf.1).2 h, fun _ st' e => by
    obtain ⟨h1, h2, h3⟩ := storage_size (env := env) hf.1 e
    obtain ⟨k1, k2, k3⟩ := hf
    have := h3 h
    exact ⟨h1, by rw [h2]; omega, by rw [h2]; omega⟩⟩

theorem Writes.storedThen {env : Env} {g : Nat → CM β} {st : St} {B : Nat} {R : β → St → Prop}
    (h : Writes env (g st.size) st B R) : Writes env (CM.lift M.stored >>= g) st B R :=
  .bind0 (Q := fun a st' => a = st.size ∧ st = st') (.lift fun _ _ e => by cases e; exact ⟨rfl, rfl⟩) fun _ _ e => by
    obtain ⟨rfl, rfl⟩ := e; exact h

theorem w_erase_range {first last : SegIt} {N : Nat} {env : Env} {st : St} (hf : Fits N st) :
    Writes env (Counted.seg_erase_range first last) st (N + 2) fun _ st' => Fits N st' := by
  unfold Counted.seg_erase_range
  refine .quietThen .stored hf fun n st hf => .assertThen (.assertThen (.assertThen (.assertThen (.assertThen ?_))))
  refine .ite (fun _ => .stop .undefined hf) fun _ => .ite (fun _ => (Writes.pure (Q := fun _ st' => Fits N st') hf).mono (Nat.zero_le _) fun _ _ h => h) fun hd => ?_
  refine .quietThen (.ask _) hf fun t st hf => .ite (fun _ => .stop .undefined hf) fun _ => .assertThen (.assertThen ?_)
  refine .quietThen .sizeMax hf fun m st hf => .quietThen (.setPt fun _ => rfl) hf fun _ st hf => .ptThen ?_
  have e8 : st.pt.off id_end = st.pt.off 8 := rfl
  have hN := hf.2.1
  refine (Writes.bind (B' := 1) hf.move fun _ st hf => ?_).mono (by omega) fun _ _ h => h
  refine .bind0 (Q := fun _ st' => Fits N st') (.lift fun _ st' e => ?_) fun _ st hf => .ptThen (.storedThen (.assertThen ?_))
  · cases e
    obtain ⟨k1, k2, k3⟩ := hf
    have : (st.pt.resize id_path (st.pt.length2 id_path id_query - (last.off - first.off))).off 8 ≤ st.pt.off 8 := by
      show (if 5 < 8 then st.pt.off 8 + (st.pt.off 6 - st.pt.off 5 - (last.off - first.off)) - (st.pt.off 6 - st.pt.off 5) else st.pt.off 8) ≤ _
      rw [if_pos (by omega)]
      omega
    exact ⟨k1, Nat.le_trans this k2, Nat.le_trans this k3⟩
  · refine (Writes.bind (B' := 0) (hf.store (by exact hf.2.2)) fun _ st hf => .assertThen (.stop (.ask _) hf)).mono (by omega) fun _ _ h => h

theorem w_erase {pos : SegIt} {N : Nat} {env : Env} {st : St} (hf : Fits N st) :
    Writes env (Counted.seg_erase pos) st (N + 2) fun _ st' => Fits N st' := by
  unfold Counted.seg_erase
  exact .quietThen (.ask _) hf fun _ _ hf => w_erase_range hf

theorem w_put {pos : SegIt} {ns : Nat} {enc : Str} (he : enc.length ≤ ns) {N : Nat} {env : Env} {st : St} (hf : Fits N st) :
    (Counted.seg_put pos ns enc env st).1 ≤ 2 * N + 2 * ns + 6 := by
  have key : Writes env (Counted.seg_put pos ns enc) st (2 * N + 2 * ns + 6) fun _ _ => True := by
    unfold Counted.seg_put
    refine .storedThen (.assertThen (.assertThen (.assertThen (.ptThen ?_))))
    have e8 : st.pt.off id_end = st.pt.off 8 := rfl
    have hN := hf.2.1
    refine (Writes.bind (B' := N + ns + 2) (.storage _ hf.1) fun _ st1 _ => ?_).mono (by omega) fun _ _ h => h
    refine .bind0 (Q := fun _ _ => True) (.lift fun _ _ _ => trivial) fun _ st2 _ => .ptThen ?_
    refine (Writes.bind (B' := ns + 1) (.move _ _ _) fun _ st3 _ => .assertThen ?_).mono (by omega) fun _ _ h => h
    refine (Writes.bind (B := 1) (B' := ns) (Q := fun _ _ => True) ⟨by simp [CM.put], fun _ _ _ => trivial⟩ fun _ st4 _ => ?_).mono (by omega) fun _ _ h => h
    refine (Writes.bind (B := ns) (B' := 0) (Q := fun _ _ => True) ⟨by simp [CM.put]; omega, fun _ _ _ => trivial⟩ fun _ st5 _ => ?_).mono (by omega) fun _ _ h => h
    refine .bind0 (Q := fun _ _ => True) (.lift fun _ _ _ => trivial) fun _ st6 _ => .bind0 (Q := fun _ _ => True) (.lift fun _ _ _ => trivial) fun _ st7 _ => ?_
    exact .lift fun _ _ _ => trivial
  exact key.1

theorem w_insert_encoded_impl {pos : SegIt} {s : Str} {N : Nat} {env : Env} {st : St} (hf : Fits N st) :
    (Counted.seg_insert_encoded_impl pos s env st).1 ≤ 2 * N + 2 * s.length + 6 := by
  unfold Counted.seg_insert_encoded_impl
  exact (Writes.assertThen (R := fun _ _ => True) ⟨w_put (Nat.le_refl _) hf, fun _ _ _ => trivial⟩).1

theorem w_insert_impl {pos : SegIt} {s : Str} {N : Nat} {env : Env} {st : St} (hf : Fits N st) :
    (Counted.seg_insert_impl pos s (pchar_pct_set.encoded_size s) env st).1 ≤ 2 * N + 2 * pchar_pct_set.encoded_size s + 6 := by
  unfold Counted.seg_insert_impl
  exact (Writes.assertThen (R := fun _ _ => True) ⟨w_put (Nat.le_of_eq (encoded_le setOf_pchar s).1) hf, fun _ _ _ => trivial⟩).1

theorem w_insert_encoded {pos : SegIt} {s : Str} {N : Nat} {env : Env} {st : St} (hf : Fits N st) :
    (Counted.seg_insert_encoded pos s env st).1 ≤ 2 * N + 2 * s.length + 6 := by
  unfold Counted.seg_insert_encoded
  exact (Writes.quietThen (R := fun _ _ => True) (.validate _ _) hf fun _ _ hf => ⟨w_insert_encoded_impl hf, fun _ _ _ => trivial⟩).1

theorem w_swap {pos : SegIt} {ns : Nat} {ins : SegIt → CM SegIt} {N B : Nat} {env : Env} {st : St} (hf : Fits N st)
    (hi : ∀ it st', Fits N st' → (ins it env st').1 ≤ B) : (Counted.seg_swap pos ns ins env st).1 ≤ st.size + 2 + (N + 2 + B) := by
  have rest : ∀ st, Fits N st → Writes env (CM.lift M.capacity >>= fun cap => Counted.seg_erase pos >>= fun it => ins it >>= fun r =>
      CM.lift M.capacity >>= fun cap' => CM.lift (M.assert fun _ => .ok (cap' = cap)) >>= fun _ => pure r) st (N + 2 + B) fun _ _ => True := by
    intro st hf
    refine .quietThen .capacity hf fun cap st hf => Writes.bind (w_erase hf) fun it st hf => ?_
    refine (Writes.bind (B := B) (B' := 0) (Q := fun _ _ => True) ⟨hi it st hf, fun _ _ _ => trivial⟩ fun r st _ => ?_).mono (by omega) fun _ _ h => h
    exact .bind0 (Q := fun _ _ => True) (.lift fun _ _ _ => trivial) fun _ _ _ => .assertThen (.pure trivial)
  have key : Writes env (Counted.seg_swap pos ns ins) st (st.size + 2 + (N + 2 + B)) fun _ _ => True := by
    unfold Counted.seg_swap
    refine .storedThen (.assertThen (.ite (fun _ => .storedThen ?_) fun _ => (rest st hf).mono (by omega) fun _ _ h => h))
    refine Writes.bind (Q := fun _ st' => Fits N st') ⟨(reserve_cost env st hf.1).1, fun _ st' e => ?_⟩ fun _ st hf => rest st hf
    obtain ⟨h1, h2, h3, -, -⟩ := reserve_size (env := env) e
    obtain ⟨k1, k2, k3⟩ := hf
    exact ⟨by omega, by rw [h2]; exact k2, by rw [h2]; omega⟩
  exact key.1

theorem w_replace_encoded {pos : SegIt} {s : Str} {N : Nat} {env : Env} {st : St} (hf : Fits N st) :
    (Counted.seg_replace_encoded pos s env st).1 ≤ st.size + 3 * N + 2 * s.length + 10 := by
  unfold Counted.seg_replace_encoded
  refine (show Writes env _ st _ fun _ _ => True from .bind0 (Q := fun _ st' => st = st') (.lift fun _ _ e => ?_) fun _ st' e => ?_).1
  · unfold Base.validate Base.require at e
    split at e
    · cases e; rfl
    · cases e
  · subst e
    exact ⟨Nat.le_trans (w_swap hf fun it st' hf => w_insert_encoded_impl hf) (by omega), fun _ _ _ => trivial⟩

theorem w_replace {pos : SegIt} {s : Str} {N : Nat} {env : Env} {st : St} (hf : Fits N st) :
    (Counted.seg_replace pos s env st).1 ≤ st.size + 3 * N + 2 * pchar_pct_set.encoded_size s + 10 :=
  Nat.le_trans (w_swap hf fun it st' hf => w_insert_impl hf) (by omega)

end Url
