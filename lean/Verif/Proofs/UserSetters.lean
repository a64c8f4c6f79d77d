import Verif.Proofs.PathSetter

/-!
The setters of the user name and the password.
-/

set_option linter.unusedSimpArgs false
attribute [-simp] List.length_flatten

namespace Url
open Spec

variable {env : Env} {st : St} {S X W t : _} {R : List (List Cell)} {c' : Components} {txt : Str} {n : Nat}

abbrev slashes : List Cell := [some c!"/", some c!"/"]

/-- `resize(id_user, 2 + n)` over a user part that starts with `//`, then writing `n` bytes -/
theorem user_keep (hn : n = txt.length) (h : Holds env st (S :: (slashes ++ X) :: R) t)
    (hc : cells c' = S :: (slashes ++ txt.map some) :: R) :
    SetsTo env st c' st.pt.host ((Base.resize id_user (2 + n) >>= fun dest => M.put (dest + 2) txt) env st) := by
  subst hn
  refine resize_step (A := [S]) h rfl (cells_len (A := [S]) hc (by simp; omega)) ?_ SetsTo.thrown
  intro hs X' st' t' hl htake hp
  obtain ⟨a, Y, rfl, hl1⟩ := len_succ (n := txt.length + 1) (by omega : X'.length = _)
  obtain ⟨b, Y, rfl, hl2⟩ := len_succ hl1
  have : a = some c!"/" ∧ b = some c!"/" := by
    rw [show 2 + txt.length = txt.length + 1 + 1 by omega] at htake
    simp at htake
    exact ⟨htake.1, htake.2.1⟩
  obtain ⟨rfl, rfl⟩ := this
  refine last_step (put_mid (A := [S]) slashes Y [] hp (by simp) (by simp) hl2 rfl ?_)
  intro st2 h2
  exact h2.done (by simp [hc]) hs

/-- adding a user name where there is no userinfo -/
theorem user_add (hn : n = txt.length) (h : Holds env st (S :: X :: [] :: R) t)
    (hc : cells c' = S :: (slashes ++ txt.map some) :: [some c!"@"] :: R) :
    SetsTo env st c' st.pt.host ((do
      let dest ← Base.resize id_user (2 + n + 1)
      M.put dest b!"/"
      M.put (dest + 1) b!"/"
      M.put (dest + (2 + n)) b!"@"
      Base.split id_user (2 + n)
      M.put (dest + 2) txt) env st) := by
  subst hn
  refine resize_step (A := [S]) h rfl ?_ ?_ SetsTo.thrown
  · rw [← cells_length, hc]; simp; omega
  intro hs X' st' t' hl _ hp
  obtain ⟨a, Y, rfl, hl1⟩ := len_succ (n := txt.length + 1 + 1) (by omega : X'.length = _)
  obtain ⟨b, Y, rfl, hl2⟩ := len_succ hl1
  obtain ⟨Y, z, rfl, hl3⟩ := len_snoc hl2
  refine put_mid (A := [S]) [] [a] (b :: (Y ++ [z])) hp (by simp) rfl rfl rfl fun st1 h1 => ?_
  refine put_mid (A := [S]) [some c!"/"] [b] (Y ++ [z]) h1 (by simp) rfl rfl rfl fun st2 h2 => ?_
  refine put_mid (A := [S]) (slashes ++ Y) [z] [] h2 (by simp; omega) (by simp) rfl rfl fun st3 h3 => ?_
  refine split_step (A := [S]) (x := slashes ++ Y) (y := [some c!"@"]) (z := []) (by simpa using h3) rfl (by decide)
    (by simp; omega) fun st4 h4 => ?_
  refine last_step (put_mid (A := [S]) slashes Y [] h4 (by simp) (by simp) hl3 rfl fun st5 h5 => ?_)
  exact h5.done (by simp [hc]) hs

/-- setting a password where there is an authority -/
theorem pw_keep (hn : n = txt.length) (h : Holds env st (S :: X :: W :: R) t)
    (hc : cells c' = S :: X :: (some c!":" :: txt.map some ++ [some c!"@"]) :: R) :
    SetsTo env st c' st.pt.host ((do
      let dest ← Base.resize id_password (1 + n + 1)
      M.put dest b!":"
      M.put (dest + (n + 1)) b!"@"
      M.put (dest + 1) txt) env st) := by
  subst hn
  refine resize_step (A := [S, X]) h rfl (cells_len (A := [S, X]) hc (by simp; omega)) ?_ SetsTo.thrown
  intro hs X' st' t' hl _ hp
  obtain ⟨a, Y, rfl, hl1⟩ := len_succ (n := txt.length + 1) (by omega : X'.length = _)
  obtain ⟨Y, z, rfl, hl2⟩ := len_snoc hl1
  refine put_mid (A := [S, X]) [] [a] (Y ++ [z]) hp (by simp) rfl rfl rfl fun st1 h1 => ?_
  refine put_mid (A := [S, X]) (some c!":" :: Y) [z] [] h1 (by simp; omega) (by simp) rfl rfl fun st2 h2 => ?_
  refine last_step (put_mid (A := [S, X]) [some c!":"] Y [some c!"@"] h2 (by simp) (by simp) hl2 rfl fun st3 h3 => ?_)
  exact h3.done (by simp [hc]) hs

/-- setting a password where there is no authority -/
theorem pw_add (hn : n = txt.length) (h : Holds env st (S :: X :: W :: R) t)
    (hc : cells c' = S :: slashes :: (some c!":" :: txt.map some ++ [some c!"@"]) :: R) :
    SetsTo env st c' st.pt.host ((do
      let dest ← Base.resize2 id_user id_host (2 + 1 + n + 1)
      M.put dest b!"/"
      M.put (dest + 1) b!"/"
      M.put (dest + 2) b!":"
      M.put (dest + (2 + n + 1)) b!"@"
      M.put (dest + 3) txt
      Base.split id_user 2) env st) := by
  subst hn
  refine resize2_step (A := [S]) (Xs := [X, W]) (k := 1) h rfl rfl rfl ?_ ?_ SetsTo.thrown
  · rw [← cells_length, hc]; simp; omega
  intro hs X' st' t' hl _ hp
  obtain ⟨a, Y, rfl, hl1⟩ := len_succ (n := txt.length + 1 + 1 + 1) (by omega : X'.length = _)
  obtain ⟨b, Y, rfl, hl2⟩ := len_succ hl1
  obtain ⟨c, Y, rfl, hl3⟩ := len_succ hl2
  obtain ⟨Y, z, rfl, hl4⟩ := len_snoc hl3
  refine put_mid (A := [S]) [] [a] (b :: c :: (Y ++ [z])) hp (by simp) rfl rfl rfl fun st1 h1 => ?_
  refine put_mid (A := [S]) [some c!"/"] [b] (c :: (Y ++ [z])) h1 (by simp) rfl rfl rfl fun st2 h2 => ?_
  refine put_mid (A := [S]) slashes [c] (Y ++ [z]) h2 (by simp) rfl rfl rfl fun st3 h3 => ?_
  refine put_mid (A := [S]) (slashes ++ some c!":" :: Y) [z] [] h3 (by simp; omega) (by simp) rfl rfl fun st4 h4 => ?_
  refine put_mid (A := [S]) (slashes ++ [some c!":"]) Y [some c!"@"] h4 (by simp) (by simp) hl4 rfl fun st5 h5 => ?_
  refine last_step (split_step (A := [S]) (x := slashes) (y := some c!":" :: txt.map some ++ [some c!"@"]) (z := [])
    (by simpa using h5) rfl (by decide) rfl fun st6 h6 => ?_)
  exact h6.done (by simp [hc]) hs

/-- `resize(id_user, id_host, 2)` over a user part that starts with `//` -/
theorem userinfo_drop (h : Holds env st (S :: (slashes ++ X) :: W :: R) t) (hc : cells c' = S :: slashes :: [] :: R) :
    SetsTo env st c' st.pt.host ((Base.resize2 id_user id_host 2 >>= fun _ => pure ()) env st) := by
  refine resize2_step (A := [S]) (Xs := [slashes ++ X, W]) (k := 1) h rfl rfl rfl ?_ ?_ SetsTo.thrown
  · rw [← cells_length, hc]; simp; omega
  intro hs X' st' t' hl htake hp
  have : X' = slashes := by
    rw [List.take_of_length_le (by simp [hl])] at htake
    rw [htake]; simp
  subst this
  exact hp.done hc.symm hs

/-- `resize(id_user, 2)` over a user part that starts with `//` -/
theorem user_drop (h : Holds env st (S :: (slashes ++ X) :: R) t) (hc : cells c' = S :: slashes :: R) :
    SetsTo env st c' st.pt.host ((Base.resize id_user 2 >>= fun _ => pure ()) env st) := by
  refine resize_step (A := [S]) h rfl (cells_len (A := [S]) hc (by simp)) ?_ SetsTo.thrown
  intro hs X' st' t' hl htake hp
  have : X' = slashes := by
    rw [List.take_of_length_le (by simp [hl])] at htake
    rw [htake]; simp
  subst this
  exact hp.done hc.symm hs

/-- `resize(id_password, 1)` and writing `@` -/
theorem pw_drop (h : Holds env st (S :: X :: W :: R) t) (hc : cells c' = S :: X :: [some c!"@"] :: R) :
    SetsTo env st c' st.pt.host ((Base.resize id_password 1 >>= fun dest => M.put dest b!"@") env st) :=
  write_of (A := [S, X]) rfl h rfl hc

/-! ### the components -/

theorem Rep.length {c} (h : Rep env st c) (id : Nat) : st.pt.length id = ((compParts c).getD id []).length :=
  (h.obj false).rep.length id

theorem Rep.get {c} (h : Rep env st c) (id : Nat) (dbg : Bool) : (st.obj dbg).get id = .ok ((compParts c).getD id []) :=
  (h.obj dbg).get id

theorem run_assert_back {c} (h : Rep env st c) {id : Nat} {d : Byte} {s : Str} (hs : (compParts c).getD id [] = s ++ [d]) :
    M.assert (fun o => do backIs (← o.get id) d) env st = .ret () st := by
  refine run_assert ?_
  rw [h.get]
  rw [hs]
  simp [backIs, bind, Except.bind]

theorem run_assertUserinfo {c} (h : Rep env st c) (hu : c.userinfo.isSome = true) : Base.assertUserinfo env st = .ret () st := by
  obtain ⟨sc, a, p, q, f⟩ := c
  rcases a with _ | ⟨_ | ⟨u, pw⟩, hh, pt⟩ <;> simp [Components.userinfo] at hu
  unfold Base.assertUserinfo
  have h1 : (compParts ⟨sc, some ⟨some (u, pw), hh, pt⟩, p, q, f⟩).getD id_user [] = b!"//" ++ u := by
    cases pw <;> simp [compParts, authTexts, authParts, userParts, id_user]
  have h2 : ∃ s, (compParts ⟨sc, some ⟨some (u, pw), hh, pt⟩, p, q, f⟩).getD id_password [] = s ++ b!"@" := by
    cases pw with
    | none => exact ⟨[], rfl⟩
    | some pw => exact ⟨c!":" :: pw, rfl⟩
  obtain ⟨s, h2⟩ := h2
  rw [run_bind_ret (run_assert_back h h2),
    run_bind_ret (run_assert (by rw [h.get, h1]; simp [bind, Except.bind, pure, Except.pure])),
    run_bind_ret (run_assert (by rw [h.get, h1]; rfl))]
  exact run_assert (by rw [h.get, h1]; rfl)

section
variable {c : Components}

/-- the part of `set_user` and `set_encoded_user` that stores a non-empty text -/
theorem base_store_user (h : Rep env st c) (hn : n = txt.length) :
    SetsTo env st (c.withUser txt) st.pt.host ((do
    if (← M.pt).length id_password ≠ 0 then
      M.assert fun o => do backIs (← o.get id_password) c!"@"
      let dest ← Base.resize id_user (2 + n)
      M.put (dest + 2) txt
    else
      let dest ← Base.resize id_user (2 + n + 1)
      M.put dest b!"/"
      M.put (dest + 1) b!"/"
      M.put (dest + (2 + n)) b!"@"
      Base.split id_user (2 + n)
      M.put (dest + 2) txt) env st) := by
  rw [run_bind_ret run_pt, h.length]
  have h' := h
  obtain ⟨t, hh⟩ := h'
  obtain ⟨sc, a, p, q, f⟩ := c
  rcases a with _ | ⟨_ | ⟨u, _ | pw⟩, hst, pt⟩
  · rw [if_neg (by simp [compParts, authTexts, id_password])]
    refine user_add (S := (schemeText sc).map some) (X := []) hn hh ?_
    simp [cells_eq, authTexts, authParts, userParts, Components.withUser, Components.withAuth, Components.authD,
      Components.userinfo, portText]
  · rw [if_neg (by simp [compParts, authTexts, authParts, userParts, id_password])]
    refine user_add (S := (schemeText sc).map some) (X := slashes) hn hh ?_
    simp [cells_eq, authTexts, authParts, userParts, Components.withUser, Components.withAuth, Components.authD,
      Components.userinfo, portText]
  · rw [if_pos (by simp [compParts, authTexts, authParts, userParts, id_password]),
      run_bind_ret (run_assert_back (s := []) h rfl)]
    refine user_keep (S := (schemeText sc).map some) (X := u.map some) hn hh ?_
    simp [cells_eq, authTexts, authParts, userParts, Components.withUser, Components.withAuth, Components.authD,
      Components.userinfo, portText]
  · rw [if_pos (by simp [compParts, authTexts, authParts, userParts, id_password]),
      run_bind_ret (run_assert_back (s := c!":" :: pw) h rfl)]
    refine user_keep (S := (schemeText sc).map some) (X := u.map some) hn hh ?_
    simp [cells_eq, authTexts, authParts, userParts, Components.withUser, Components.withAuth, Components.authD,
      Components.userinfo, portText]

/-- An empty user name in an authority that has no userinfo trips an assertion of `set_user`. -/
def UserClearable (c : Components) : Prop := c.auth.isSome = true → c.userinfo.isSome = true

theorem base_clear_user (h : Rep env st c) (hc : UserClearable c) :
    SetsTo env st c.clearUser st.pt.host (Base.set_user [] env st) := by
  unfold Base.set_user
  simp only [List.isEmpty_nil, if_true]
  rw [run_bind_ret run_pt, h.length]
  have h' := h
  obtain ⟨t, hh⟩ := h'
  obtain ⟨sc, a, p, q, f⟩ := c
  rcases a with _ | ⟨_ | ⟨u, _ | pw⟩, hst, pt⟩
  · rw [if_pos (by simp [compParts, authTexts, id_user])]
    exact SetsTo.refl h
  · simp [UserClearable, Components.userinfo] at hc
  · rw [if_neg (by simp [compParts, authTexts, authParts, userParts, id_user]), run_bind_ret (run_assertUserinfo h rfl),
      run_bind_ret run_pt, h.length, if_pos (by rfl)]
    refine userinfo_drop (S := (schemeText sc).map some) (X := u.map some) (W := [some c!"@"]) hh ?_
    simp [cells_eq, authTexts, authParts, userParts, Components.clearUser, Components.withAuth]
  · rw [if_neg (by simp [compParts, authTexts, authParts, userParts, id_user]), run_bind_ret (run_assertUserinfo h rfl),
      run_bind_ret run_pt, h.length, if_neg (by simp [compParts, authTexts, authParts, userParts, id_password])]
    refine user_drop (S := (schemeText sc).map some) (X := u.map some) hh ?_
    simp [cells_eq, authTexts, authParts, userParts, Components.clearUser, Components.withAuth]

theorem base_set_user (h : Rep env st c) (s : Str) (hs : s ≠ []) :
    SetsTo env st (c.withUser (pctEncode isRegName s)) st.pt.host (Base.set_user s env st) := by
  unfold Base.set_user
  have he : s.isEmpty = false := by simpa using hs
  simp only [he, Bool.false_eq_true, if_false]
  rw [← encode_eq setOf_userinfo_nc]
  exact base_store_user h (encoded_size_eq setOf_userinfo_nc _)

theorem base_set_encoded_user (h : Rep env st c) (s : Str) (hs : s ≠ []) :
    Checked (Escaped isUpperHex isRegName s) env st (c.withUser s) st.pt.host (Base.set_encoded_user s env st) := by
  unfold Base.set_encoded_user
  have he : s.isEmpty = false := by simpa using hs
  simp only [he, Bool.false_eq_true, if_false]
  exact validate_of setOf_userinfo_nc (base_store_user h rfl)

theorem base_set_encoded_user_nil : Base.set_encoded_user [] = Base.set_user [] := rfl

theorem base_store_password (h : Rep env st c) (hn : n = txt.length) :
    SetsTo env st (c.withPassword txt) st.pt.host ((do
    if (← M.pt).length id_user ≠ 0 then
      let dest ← Base.resize id_password (1 + n + 1)
      M.put dest b!":"
      M.put (dest + (n + 1)) b!"@"
      M.put (dest + 1) txt
    else
      let dest ← Base.resize2 id_user id_host (2 + 1 + n + 1)
      M.put dest b!"/"
      M.put (dest + 1) b!"/"
      M.put (dest + 2) b!":"
      M.put (dest + (2 + n + 1)) b!"@"
      M.put (dest + 3) txt
      Base.split id_user 2) env st) := by
  rw [run_bind_ret run_pt, h.length]
  obtain ⟨t, hh⟩ := h
  obtain ⟨sc, a, p, q, f⟩ := c
  rcases a with _ | ⟨_ | ⟨u, _ | pw⟩, hst, pt⟩
  · rw [if_neg (by simp [compParts, authTexts, id_user])]
    refine pw_add (S := (schemeText sc).map some) (X := []) (W := []) hn hh ?_
    simp [cells_eq, authTexts, authParts, userParts, Components.withPassword, Components.withAuth, Components.authD,
      Components.userinfo, portText, Components.user]
  · rw [if_pos (by simp [compParts, authTexts, authParts, userParts, id_user])]
    refine pw_keep (S := (schemeText sc).map some) (X := slashes) (W := []) hn hh ?_
    simp [cells_eq, authTexts, authParts, userParts, Components.withPassword, Components.withAuth, Components.authD,
      Components.userinfo, portText, Components.user]
  · rw [if_pos (by simp [compParts, authTexts, authParts, userParts, id_user])]
    refine pw_keep (S := (schemeText sc).map some) (X := slashes ++ u.map some) (W := [some c!"@"]) hn hh ?_
    simp [cells_eq, authTexts, authParts, userParts, Components.withPassword, Components.withAuth, Components.authD,
      Components.userinfo, portText, Components.user]
  · rw [if_pos (by simp [compParts, authTexts, authParts, userParts, id_user])]
    refine pw_keep (S := (schemeText sc).map some) (X := slashes ++ u.map some) (W := (c!":" :: pw ++ b!"@").map some) hn hh ?_
    simp [cells_eq, authTexts, authParts, userParts, Components.withPassword, Components.withAuth, Components.authD,
      Components.userinfo, portText, Components.user]

theorem base_clear_password (h : Rep env st c) : SetsTo env st c.clearPassword st.pt.host (Base.set_password [] env st) := by
  unfold Base.set_password
  simp only [List.isEmpty_nil, if_true]
  rw [run_bind_ret run_pt, h.length]
  have h' := h
  obtain ⟨t, hh⟩ := h'
  obtain ⟨sc, a, p, q, f⟩ := c
  rcases a with _ | ⟨_ | ⟨u, pw⟩, hst, pt⟩
  · rw [if_pos (by simp [compParts, authTexts, id_password])]
    exact SetsTo.refl h
  · rw [if_pos (by simp [compParts, authTexts, authParts, userParts, id_password])]
    exact SetsTo.refl h
  · rw [if_neg (by cases pw <;> simp [compParts, authTexts, authParts, userParts, id_password]), run_bind_ret (run_assertUserinfo h rfl),
      run_bind_ret run_pt, h.length]
    have hh : ∃ W, Holds env st (cells (Components.mk sc (some ⟨some (u, pw), hst, pt⟩) p q f)) t ∧
        cells (Components.mk sc (some ⟨some (u, pw), hst, pt⟩) p q f) =
        (schemeText sc).map some :: (slashes ++ u.map some) :: W :: [hst.map some, (portText pt).map some, p.map some,
          (queryText q).map some, (fragText f).map some] := by
      cases pw with
      | none => exact ⟨_, hh, by simp [cells_eq, authTexts, authParts, userParts]; rfl⟩
      | some pw => exact ⟨_, hh, by simp [cells_eq, authTexts, authParts, userParts]; rfl⟩
    obtain ⟨W, hh, e⟩ := hh
    rw [e] at hh
    by_cases hu : u = []
    · subst hu
      rw [if_pos (by cases pw <;> simp [compParts, authTexts, authParts, userParts, id_user])]
      refine clear_of (A := [(schemeText sc).map some, slashes]) hh rfl ?_
      simp [cells_eq, authTexts, authParts, userParts, Components.clearPassword, Components.withAuth]
    · rw [if_neg (by cases pw <;> simp [compParts, authTexts, authParts, userParts, id_user, hu])]
      refine pw_drop hh ?_
      simp [cells_eq, authTexts, authParts, userParts, Components.clearPassword, Components.withAuth, hu]

theorem base_set_password (h : Rep env st c) (s : Str) (hs : s ≠ []) :
    SetsTo env st (c.withPassword (pctEncode isUserinfo s)) st.pt.host (Base.set_password s env st) := by
  unfold Base.set_password
  have he : s.isEmpty = false := by simpa using hs
  simp only [he, Bool.false_eq_true, if_false]
  rw [← encode_eq setOf_userinfo]
  exact base_store_password h (encoded_size_eq setOf_userinfo _)

theorem base_set_encoded_password (h : Rep env st c) (s : Str) (hs : s ≠ []) :
    Checked (s.head? ≠ some c!":" ∧ Escaped isUpperHex isUserinfo s) env st (c.withPassword s) st.pt.host
      (Base.set_encoded_password s env st) := by
  unfold Base.set_encoded_password
  have he : s.isEmpty = false := by simpa using hs
  simp only [he, Bool.false_eq_true, if_false]
  cases hb : s.head? != some c!":" with
  | false =>
    refine .inr ⟨?_, by rw [run_bind_throw (run_require_false rfl)]⟩
    intro x
    simp at hb
    exact x.1 hb
  | true =>
    rw [run_bind_ret (run_require rfl)]
    refine Checked.congr (validate_of setOf_userinfo (base_store_password h rfl)) ?_
    simp at hb
    simp [hb]

theorem base_set_encoded_password_nil : Base.set_encoded_password [] = Base.set_password [] := rfl

end

end Url
