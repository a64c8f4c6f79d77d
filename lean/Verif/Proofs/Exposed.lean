import Verif.Proofs.Frame8

/-!
What is in the room that `resize` makes: the cells that were there before.
-/

set_option linter.unusedSimpArgs false
attribute [-simp] List.length_flatten

namespace Url
open Spec

variable {env : Env} {st : St} {S U W H P pa q f : List Cell} {t : Cell} {β : Type}

theorem move_prefix {d s n i : Nat} {st1 : St} {b : List Cell} (h : M.move d s n env st = .ret () st1) (hb : st.buf = some b) (hi : i < d) :
    (st1.buf.getD [])[i]? = b[i]? := by
  unfold M.move at h
  split at h
  · cases h; simp [hb]
  · rw [hb] at h
    simp only at h
    split at h
    · rename_i hc
      cases h
      simp only [Option.getD_some]
      rw [List.append_assoc, List.getElem?_append_left (by rw [List.length_take]; omega), List.getElem?_take, if_pos hi]
    · cases h

/-- the text is still there after `Storage.resize` -/
theorem storage_prefix {T : List Cell} {m : Nat} {st1 : St} (hb : BufHolds st T t) (hc : CapOk env st) (hm : T.length < m)
    (h : Storage.resize m env st = .ret () st1) : ∃ t' junk, st1.buf = some (T ++ t' :: junk) := by
  by_cases hs : Stores env st m
  · obtain ⟨st', junk, t', hr, -, hb', -⟩ := storage_resize_of hb hc hm hs
    rw [h] at hr
    cases hr
    exact ⟨t', junk, hb'⟩
  · rw [storage_resize_throw hs] at h; cases h

theorem resize_prefix {A B : List (List Cell)} {X : List Cell} {id n d i : Nat} {st1 : St} (h : Holds env st (A ++ X :: B) t)
    (hid : id = A.length) (hr : Base.resize id n env st = .ret d st1) (hi : i < A.flatten.length + n)
    (ht : i < (A ++ X :: B).flatten.length) : (st1.buf.getD [])[i]? = (A ++ X :: B).flatten[i]? := by
  subst hid
  have hlen := h.rep.length_at
  have hsucc := h.rep.off_succ
  have hend := h.off_end
  have htl : (A ++ X :: B).flatten.length = A.flatten.length + X.length + B.flatten.length := by
    simp [List.flatten_append]; omega
  obtain ⟨junk, hb⟩ : ∃ junk, st.buf = some ((A ++ X :: B).flatten ++ t :: junk) := by
    rcases h.buf with ⟨-, h2, -⟩ | ⟨junk, hb, -⟩
    · rw [h2] at ht; simp at ht
    · exact ⟨junk, hb⟩
  have hold : ∀ (t : Cell) (junk : List Cell), ((A ++ X :: B).flatten ++ t :: junk)[i]? = (A ++ X :: B).flatten[i]? :=
    fun t junk => List.getElem?_append_left ht
  unfold Base.resize at hr
  simp only [run_bind, run_pt, hlen, run_ite] at hr
  split at hr
  · cases hr
    rw [hb]; exact hold _ _
  · split at hr
    · rename_i h1 h2
      rw [hsucc] at hr
      cases hm : M.move (A.flatten.length + X.length - (X.length - n)) (A.flatten.length + X.length)
          (st.pt.off id_end - (A.flatten.length + X.length) + 1) env st with
      | ret a st2 =>
        rw [hm] at hr
        simp only [run_setPt, run_pure] at hr
        cases hr
        exact (move_prefix hm hb (by omega)).trans (hold _ _)
      | throw e st2 => rw [hm] at hr; cases hr
      | fault x => rw [hm] at hr; cases hr
    · rename_i h1 h2
      simp only [run_sizeMax] at hr
      split at hr
      · cases hr
      · rw [hsucc] at hr
        cases hs : Storage.resize (st.pt.off id_end - X.length + n) env st with
        | ret a st2 =>
          rw [hs] at hr
          simp only at hr
          obtain ⟨t', junk', hb2⟩ := storage_prefix h.buf h.cap (by omega) hs
          cases hm : M.move (A.flatten.length + X.length + (n - X.length)) (A.flatten.length + X.length)
            (st.pt.off id_end - (A.flatten.length + X.length) + 1) env st2 with
          | ret a st3 =>
            rw [hm] at hr
            simp only [run_setPt, run_pure] at hr
            cases hr
            exact (move_prefix hm hb2 (by omega)).trans (hold _ _)
          | throw e st2 => rw [hm] at hr; cases hr
          | fault x => rw [hm] at hr; cases hr
        | throw e st2 => rw [hs] at hr; cases hr
        | fault x => rw [hs] at hr; cases hr

theorem resize2_prefix {A Xs B : List (List Cell)} {first last k n d i : Nat} {st1 : St} (h : Holds env st (A ++ (Xs ++ B)) t)
    (hk : Xs.length = k + 1) (hfirst : first = A.length) (hlast : last = A.length + (k + 1))
    (hr : Base.resize2 first last n env st = .ret d st1) (hi : i < A.flatten.length + n)
    (ht : i < (A ++ (Xs ++ B)).flatten.length) : (st1.buf.getD [])[i]? = (A ++ (Xs ++ B)).flatten[i]? := by
  subst hfirst hlast
  have hoff := h.rep.off_at
  have hlst : st.pt.off (A.length + (k + 1)) = A.flatten.length + Xs.flatten.length := by
    have := plen_append_right Xs B 0
    rw [hk, Nat.add_zero] at this
    rw [h.rep, plen_append_right, this]; simp
  have hlen : st.pt.length2 A.length (A.length + (k + 1)) = Xs.flatten.length := by
    unfold Parts.length2; rw [hlst, h.rep.off_at]; omega
  have hend := h.off_end
  have htl : (A ++ (Xs ++ B)).flatten.length = A.flatten.length + Xs.flatten.length + B.flatten.length := by
    simp [List.flatten_append]; omega
  obtain ⟨junk, hb⟩ : ∃ junk, st.buf = some ((A ++ (Xs ++ B)).flatten ++ t :: junk) := by
    rcases h.buf with ⟨-, h2, -⟩ | ⟨junk, hb, -⟩
    · rw [h2] at ht; simp at ht
    · exact ⟨junk, hb⟩
  have hold : ∀ (t : Cell) (junk : List Cell), ((A ++ (Xs ++ B)).flatten ++ t :: junk)[i]? = (A ++ (Xs ++ B)).flatten[i]? :=
    fun t junk => List.getElem?_append_left ht
  unfold Base.resize2 at hr
  simp only [run_bind, run_pt, hlen, run_ite, hlst] at hr
  split at hr
  · cases hr
    rw [hb]; exact hold _ _
  · split at hr
    · rename_i h1 h2
      cases hm : M.move (A.flatten.length + Xs.flatten.length - (Xs.flatten.length - n)) (A.flatten.length + Xs.flatten.length)
          (st.pt.off id_end - (A.flatten.length + Xs.flatten.length) + 1) env st with
      | ret a st2 =>
        rw [hm] at hr
        simp only [run_setPt, run_pure] at hr
        cases hr
        exact (move_prefix hm hb (by omega)).trans (hold _ _)
      | throw e st2 => rw [hm] at hr; cases hr
      | fault x => rw [hm] at hr; cases hr
    · rename_i h1 h2
      simp only [run_sizeMax] at hr
      split at hr
      · cases hr
      · cases hs : Storage.resize (st.pt.off id_end - Xs.flatten.length + n) env st with
        | ret a st2 =>
          rw [hs] at hr
          simp only at hr
          obtain ⟨t', junk', hb2⟩ := storage_prefix h.buf h.cap (by omega) hs
          cases hm : M.move (A.flatten.length + Xs.flatten.length + (n - Xs.flatten.length)) (A.flatten.length + Xs.flatten.length)
            (st.pt.off id_end - (A.flatten.length + Xs.flatten.length) + 1) env st2 with
          | ret a st3 =>
            rw [hm] at hr
            simp only [run_setPt, run_pure] at hr
            cases hr
            exact (move_prefix hm hb2 (by omega)).trans (hold _ _)
          | throw e st2 => rw [hm] at hr; cases hr
          | fault x => rw [hm] at hr; cases hr
        | throw e st2 => rw [hs] at hr; cases hr
        | fault x => rw [hs] at hr; cases hr

theorem Holds.cell {L : List (List Cell)} {i : Nat} (h : Holds env st L t) (hi : i < L.flatten.length) :
    (st.buf.getD [])[i]? = L.flatten[i]? := by
  rcases h.buf with ⟨-, h2, -⟩ | ⟨junk, hb, -⟩
  · rw [h2] at hi; simp at hi
  · rw [hb]; exact List.getElem?_append_left hi

theorem bind_pure_at (m : M β) : (m >>= (pure : β → M β)) env st = m env st := by
  rw [run_bind]
  cases m env st <;> rfl

/-- `resize(id, n)`, with what is in the part afterwards -/
theorem resize_step' {A B : List (List Cell)} {X : List Cell} {id n m : Nat} {g : Nat → M β}
    {G : Out β → Prop} (h : Holds env st (A ++ X :: B) t) (hid : id = A.length)
    (hm : A.flatten.length + n + B.flatten.length = m)
    (hok : ∀ X' st' t', X'.length = n → (∀ j, j < n → j < (X ++ B.flatten).length → X'[j]? = (X ++ B.flatten)[j]?) →
      Prog env st m (A ++ X' :: B) st' t' → G (g A.flatten.length env st'))
    (hthrow : ∀ e st', G (.throw e st')) : G ((Base.resize id n >>= g) env st) := by
  have key : ∀ o, Base.resize id n env st = o → (∀ d st', o = .ret d st' → d = A.flatten.length ∧ ∃ X' t', X'.length = n ∧ Prog env st m (A ++ X' :: B) st' t') ∧
      ∀ x, o ≠ .fault x := by
    intro o ho
    have := resize_step (f := (pure : Nat → M Nat)) (P := fun o => (∀ d st', o = .ret d st' → d = A.flatten.length ∧ ∃ X' t', X'.length = n ∧ Prog env st m (A ++ X' :: B) st' t') ∧ ∀ x, o ≠ .fault x)
      h hid hm (fun _ X' st' t' hl _ hp => ⟨fun d st1 e => by cases e; exact ⟨rfl, X', t', hl, hp⟩, fun x e => by cases e⟩)
      (fun _ e st' _ _ => ⟨(fun d st1 e => by cases e), (fun x e => by cases e)⟩)
    rw [bind_pure_at, ho] at this
    exact this
  rw [run_bind]
  cases hr : Base.resize id n env st with
  | fault x => exact absurd rfl ((key _ hr).2 x)
  | throw e st' => exact hthrow e st'
  | ret d st' =>
    obtain ⟨rfl, X', t', hl, hp⟩ := (key _ hr).1 _ _ rfl
    refine hok X' st' t' hl ?_ hp
    intro j h1 h2
    have h3 : A.flatten.length + j < (A ++ X :: B).flatten.length := by
      simp [List.flatten_append] at h2 ⊢; omega
    have h4 : A.flatten.length + j < (A ++ X' :: B).flatten.length := by
      simp [List.flatten_append]; omega
    have e1 := resize_prefix h hid hr (by omega) h3
    rw [hp.holds.cell h4] at e1
    have e2 : ∀ Y : List Cell, (A ++ Y :: B).flatten[A.flatten.length + j]? = (Y ++ B.flatten)[j]? := by
      intro Y
      rw [List.flatten_append, List.getElem?_append_right (by omega), Nat.add_sub_cancel_left]; rfl
    rw [e2, e2, List.getElem?_append_left (by omega)] at e1
    exact e1

/-- `resize(first, last, n)`, with what is in the part afterwards -/
theorem resize2_step' {A Xs B : List (List Cell)} {first last k n m : Nat} {g : Nat → M β}
    {G : Out β → Prop} (h : Holds env st (A ++ (Xs ++ B)) t) (hk : Xs.length = k + 1) (hfirst : first = A.length)
    (hlast : last = A.length + (k + 1)) (hm : A.flatten.length + n + B.flatten.length = m)
    (hok : ∀ X' st' t', X'.length = n → (∀ j, j < n → j < (Xs ++ B).flatten.length → X'[j]? = (Xs ++ B).flatten[j]?) →
      Prog env st m (A ++ (X' :: List.replicate k [] ++ B)) st' t' → G (g A.flatten.length env st'))
    (hthrow : ∀ e st', G (.throw e st')) : G ((Base.resize2 first last n >>= g) env st) := by
  have key : ∀ o, Base.resize2 first last n env st = o → (∀ d st', o = .ret d st' → d = A.flatten.length ∧ ∃ X' t', X'.length = n ∧ Prog env st m (A ++ (X' :: List.replicate k [] ++ B)) st' t') ∧
      ∀ x, o ≠ .fault x := by
    intro o ho
    have := resize2_step (f := (pure : Nat → M Nat)) (P := fun o => (∀ d st', o = .ret d st' → d = A.flatten.length ∧ ∃ X' t', X'.length = n ∧ Prog env st m (A ++ (X' :: List.replicate k [] ++ B)) st' t') ∧ ∀ x, o ≠ .fault x)
      h hk hfirst hlast hm (fun _ X' st' t' hl _ hp => ⟨fun d st1 e => by cases e; exact ⟨rfl, X', t', hl, hp⟩, fun x e => by cases e⟩)
      (fun _ e st' _ _ => ⟨(fun d st1 e => by cases e), (fun x e => by cases e)⟩)
    rw [bind_pure_at, ho] at this
    exact this
  rw [run_bind]
  cases hr : Base.resize2 first last n env st with
  | fault x => exact absurd rfl ((key _ hr).2 x)
  | throw e st' => exact hthrow e st'
  | ret d st' =>
    obtain ⟨rfl, X', t', hl, hp⟩ := (key _ hr).1 _ _ rfl
    refine hok X' st' t' hl ?_ hp
    intro j h1 h2
    have h3 : A.flatten.length + j < (A ++ (Xs ++ B)).flatten.length := by
      rw [List.flatten_append, List.length_append]; omega
    have h4 : A.flatten.length + j < (A ++ (X' :: List.replicate k [] ++ B)).flatten.length := by
      simp [List.flatten_append]; omega
    have e1 := resize2_prefix h hk hfirst hlast hr (by omega) h3
    rw [hp.holds.cell h4] at e1
    have e2 : ∀ Y : List (List Cell), (A ++ Y).flatten[A.flatten.length + j]? = Y.flatten[j]? := by
      intro Y
      rw [List.flatten_append, List.getElem?_append_right (by omega), Nat.add_sub_cancel_left]
    rw [e2, e2] at e1
    rw [← e1]
    simp only [List.cons_append, List.flatten_cons]
    rw [List.getElem?_append_left (by omega)]

/-- cells that were in a text that was written -/
theorem init_of_cells {X Y : List Cell} {n : Nat} (hy : Init Y) (hl : X.length = n) (hn : n ≤ Y.length)
    (h : ∀ j, j < n → j < Y.length → X[j]? = Y[j]?) : Init X := by
  intro hm
  obtain ⟨j, hj, e⟩ := List.getElem_of_mem hm
  have := h j (by omega) (by omega)
  rw [List.getElem?_eq_getElem hj, e] at this
  exact hy (List.mem_of_getElem? this.symm)

theorem a_parsedAll' {Q : List Cell → List Cell → List Cell → List Cell → Prop} {ps : PS} {g : Parts → M Unit} (hf : ps.flt = none)
    (h : ps.ec = none → ps.p = [] → AOut env S pa q f Q (g ps.pt env st)) : AOut env S pa q f Q ((Base.parsedAll ps >>= g) env st) := by
  by_cases hp : ps.ec = none ∧ ps.p = []
  · rw [run_bind_ret (parsedAll_ok hf hp.1 hp.2)]; exact h hp.1 hp.2
  · rw [run_bind_throw (parsedAll_bad hf hp)]; trivial

section
variable (h : Part8 env st S U W H P pa q f t) (hu : Init U) (hr : (U ++ (W ++ (H ++ (P ++ (pa ++ (q ++ f)))))).length ≠ 1)
include h hu

theorem all_init : Init (U ++ (W ++ (H ++ (P ++ (pa ++ (q ++ f)))))) := by
  simp [hu, h.W, h.H, h.P, h.pa, h.q.init, h.f.init]

theorem e_set_encoded_userinfo (s : Str) (hr : s = [] → (U ++ (W ++ (H ++ (P ++ (pa ++ (q ++ f)))))).length ≠ 1) :
    AOut env S pa q f (fun U' _ _ _ => Init U') (Base.set_encoded_userinfo s env st) := by
  have hall := all_init h hu
  unfold Base.set_encoded_userinfo
  split
  · rename_i he
    have hr := hr (by simpa using he)
    rw [run_bind_ret run_pt]
    have hhp : st.pt.length2 id_host id_path = H.length + P.length := by
      unfold Parts.length2
      rw [h.holds.rep, h.holds.rep]
      simp [plen, id_host, id_path]; omega
    rw [hhp]
    split
    · refine resize2_step' (A := [S]) (Xs := [U, W]) (B := [H, P, pa, q, f]) (k := 1) (by simpa using h.holds) rfl rfl rfl rfl ?_ fun _ _ => trivial
      intro X' st' t' hl _ hp
      obtain rfl := List.length_eq_zero_iff.1 hl
      exact a_done hp.holds init_nil
    · refine resize2_step' (A := [S]) (Xs := [U, W]) (B := [H, P, pa, q, f]) (k := 1) (by simpa using h.holds) rfl rfl rfl rfl ?_ fun _ _ => trivial
      intro X' st' t' hl hc hp
      refine a_done hp.holds (init_of_cells hall hl ?_ ?_)
      · simp at hr ⊢; omega
      · intro j h1 h2
        have := hc j h1 (by simpa using h2)
        simpa using this
  · refine a_parsedAll' (good_userinfo (Good.init s)).flt fun h1 h2 => ?_
    obtain ⟨u, hu⟩ := userinfoText_exists (userinfo_all ⟨h1, h2⟩)
    have b := parse_userinfo_at hu
    have hlen : (parse_userinfo (PS.init s)).pt.length id_user = u.1.length := b.rep.length id_user
    rw [hlen]
    have hle : u.1.length ≤ s.length := by
      rw [← hu.2.2, userinfoText_eq]; simp
    refine resize2_step (A := [S]) (Xs := [U, W]) (B := [H, P, pa, q, f]) (k := 1) h.holds rfl rfl rfl rfl ?_ a_thrown
    intro hsto X' st' t' hl _ hp
    obtain ⟨a, Y, rfl, hl1⟩ := len_succ (n := s.length + 2) (by omega : X'.length = _)
    obtain ⟨b, Y, rfl, hl2⟩ := len_succ hl1
    obtain ⟨Y, z, rfl, hl3⟩ := len_snoc hl2
    refine put_mid (A := [_]) [] [a] (b :: (Y ++ [z])) hp (by simp) rfl rfl rfl fun st1 h1 => ?_
    refine put_mid (A := [_]) [some c!"/"] [b] (Y ++ [z]) h1 (by simp) rfl rfl rfl fun st2 h2 => ?_
    refine put_mid (A := [_]) slashes Y [z] h2 (by simp) (by simp) hl3 rfl fun st3 h3 => ?_
    have hx : ((b!"//" ++ s).take u.1.length).map some ++ (((b!"//" ++ s).drop u.1.length).map some ++ [z]) =
        slashes ++ (s.map some ++ [z]) := by
      rw [← List.append_assoc, ← List.map_append, List.take_append_drop]; simp
    refine split_step (A := [_]) (x := ((b!"//" ++ s).take u.1.length).map some)
      (y := ((b!"//" ++ s).drop u.1.length).map some ++ [z]) (z := [])
      (by rw [hx]; simpa using h3) rfl (by decide) (by simp; omega) fun st4 h4 => ?_
    refine last_step (put_mid (A := [_, _]) (((b!"//" ++ s).drop u.1.length).map some) [z] [] h4 (by simp; omega) (by simp) rfl rfl fun st5 h5 => ?_)
    exact a_done h5.holds (init_some _)

theorem e_userinfo_part (s : Str) (hr : s = [] ∨ s = b!"@" → (U ++ (W ++ (H ++ (P ++ (pa ++ (q ++ f)))))).length ≠ 1) :
    AOut env S pa q f (fun U' _ _ _ => Init U') (Base.set_userinfo_part s env st) := by
  unfold Base.set_userinfo_part
  split
  · exact e_set_encoded_userinfo h hu s fun e => hr (.inl e)
  · refine a_require fun hl => e_set_encoded_userinfo h hu _ fun e => hr (.inr ?_)
    have hl : s.getLast? = some c!"@" := by simpa using hl
    obtain ⟨x, rfl⟩ := List.getLast?_eq_some_iff.1 hl
    simp at e
    simp [e]

include hr

theorem e_store_user {n : Nat} {txt : Str} (hd : env.dbg = false) (hn : n = txt.length) :
    AOut env S pa q f (fun U' _ _ _ => Init U') ((do
    if (← M.pt).length id_password ≠ 0 then
      M.assert fun o => do backIs (← o.get id_password) c!"@"
      let dest ← Base.resize id_user (2 + n)
      M.put (dest + 2) txt
    else
      let dest ← Base.resize id_user (2 + n + 1)
      M.put dest b!"/"
      M.put (dest + 1) b!"/"
      M.put (dest + (2 + n)) b!"@"
      Base.split id_user (2 + n)
      M.put (dest + 2) txt) env st) := by
  subst hn
  have hall := all_init h hu
  rw [run_bind_ret run_pt]
  split
  · rename_i hw
    have hw : W.length ≠ 0 := by simpa [w_len h, id_password] using hw
    rw [assert_bind hd]
    refine resize_step' (A := [S]) h.holds rfl rfl ?_ fun _ _ => trivial
    intro X' st' t' hl hc hp
    obtain ⟨a, Y, rfl, hl1⟩ := len_succ (n := txt.length + 1) (by omega : X'.length = _)
    obtain ⟨b, Y, rfl, hl2⟩ := len_succ hl1
    refine last_step (put_mid (A := [S]) [a, b] Y [] hp (by simp) (by simp) hl2 rfl ?_)
    intro st2 h2
    have hab : Init [a, b] := by
      refine init_of_cells hall (n := 2) rfl ?_ ?_
      · simp at hr ⊢; omega
      · intro j h1 h2
        have := hc j (by omega) (by simpa using h2)
        match j, h1 with
        | 0, _ => simpa using this
        | 1, _ => simpa using this
    exact a_done h2.holds (by simp only [init_append, init_some, init_nil, and_true]; exact hab)
  · rename_i hw
    have hw : W = [] := by simpa [w_len h, id_password] using hw
    subst hw
    refine resize_step (A := [S]) h.holds rfl rfl ?_ a_thrown
    intro hs X' st' t' hl _ hp
    obtain ⟨a, Y, rfl, hl1⟩ := len_succ (n := txt.length + 1 + 1) (by omega : X'.length = _)
    obtain ⟨b, Y, rfl, hl2⟩ := len_succ hl1
    obtain ⟨Y, z, rfl, hl3⟩ := len_snoc hl2
    refine put_mid (A := [S]) [] [a] (b :: (Y ++ [z])) hp (by simp) rfl rfl rfl fun st1 h1 => ?_
    refine put_mid (A := [S]) [some c!"/"] [b] (Y ++ [z]) h1 (by simp) rfl rfl rfl fun st2 h2 => ?_
    refine put_mid (A := [S]) (slashes ++ Y) [z] [] h2 (by simp; omega) (by simp) rfl rfl fun st3 h3 => ?_
    refine split_step (A := [S]) (x := slashes ++ Y) (y := [some c!"@"]) (z := []) (by simpa using h3) rfl (by decide)
      (by simp; omega) fun st4 h4 => ?_
    refine last_step (put_mid (A := [S]) slashes Y [] h4 (by simp) (by simp) hl3 rfl fun st5 h5 => ?_)
    exact a_done h5.holds (by simp)

theorem e_set_user (hd : env.dbg = false) (s : Str) :
    AOut env S pa q f (fun U' _ _ _ => Init U') (Base.set_user s env st) := by
  have hall := all_init h hu
  unfold Base.set_user
  split
  · rw [run_bind_ret run_pt]
    split
    · exact a_done h.holds hu
    · rename_i hul
      have hul : U.length ≠ 0 := by simpa [w_len h, id_user] using hul
      have ha : Base.assertUserinfo env st = .ret () st := by
        unfold Base.assertUserinfo
        rw [assert_bind hd, assert_bind hd, assert_bind hd, assert_off hd]
      rw [run_bind_ret ha, run_bind_ret run_pt]
      split
      · refine resize2_step' (A := [S]) (Xs := [U, W]) (B := [H, P, pa, q, f]) (k := 1) (by simpa using h.holds) rfl rfl rfl rfl ?_ fun _ _ => trivial
        intro X' st' t' hl hc hp
        refine a_done hp.holds (init_of_cells hall hl ?_ ?_)
        · simp at hr ⊢; omega
        · intro j h1 h2
          have := hc j h1 (by simpa using h2)
          simpa using this
      · refine resize_step' (A := [S]) h.holds rfl rfl ?_ fun _ _ => trivial
        intro X' st' t' hl hc hp
        refine a_done hp.holds (init_of_cells hall hl ?_ ?_)
        · simp at hr ⊢; omega
        · intro j h1 h2
          have := hc j h1 (by simpa using h2)
          simpa using this
  · exact e_store_user h hu hr hd (encoded_size_eq setOf_userinfo_nc _)

theorem e_set_encoded_user (hd : env.dbg = false) (s : Str) :
    AOut env S pa q f (fun U' _ _ _ => Init U') (Base.set_encoded_user s env st) := by
  unfold Base.set_encoded_user
  split
  · exact e_set_user h hu hr hd s
  · exact a_require fun _ => e_store_user h hu hr hd rfl

end

end Url
