import Verif.Proofs.HostSetters

/-!
The setters of the authority as a whole, the part setters, and the case of the scheme.
-/

set_option linter.unusedSimpArgs false
attribute [-simp] List.length_flatten

namespace Url
open Spec

variable {env : Env} {st : St} {c : Components}

/-- The whole of `s` is an authority. -/
def IsAuth (a : Auth) (s : Str) : Prop := a.Valid lib ∧ a.render = s

theorem authority_all {s : Str} : ((parse_authority (PS.init s)).ec = none ∧ (parse_authority (PS.init s)).p = []) ↔
    ∃ a, IsAuth a s := by
  constructor
  · rintro ⟨h1, h2⟩
    obtain ⟨a, r, k, ha, e, -, -, b⟩ := authority_sound (L := [[]]) rfl (At.fresh 1 s) h1
    have := b.p
    rw [h2] at this
    subst this
    exact ⟨a, ha, by simpa [PS.init] using e.symm⟩
  · rintro ⟨a, ha, rfl⟩
    obtain ⟨k, b, -⟩ := authority_of (L := [[]]) (pend := []) (r := []) ha (.inl rfl) rfl
      (by simpa using At.fresh 1 a.render)
    exact ⟨b.ec, b.p⟩

theorem authority_parts {a : Auth} (ha : a.Valid lib) : ∃ k, At (parse_authority (PS.init a.render)) ([[]] ++ authParts [] a) [] [] 0 0 k ∧
    HostKind a.host k :=
  authority_of (L := [[]]) (pend := []) (r := []) ha (.inl rfl) rfl (by simpa using At.fresh 1 a.render)

theorem userParts_two (pend : Str) (u : Option (Str × Option Str)) : ∃ x w, userParts pend u = [pend ++ x, w] ∧
    userParts [] u = [x, w] ∧ (userParts b!"//" u = [b!"//" ++ x, w]) := by
  rcases u with _ | ⟨u, _ | pw⟩
  · exact ⟨[], [], by simp [userParts]⟩
  · exact ⟨u, b!"@", by simp [userParts]⟩
  · exact ⟨u, c!":" :: pw ++ b!"@", by simp [userParts]⟩

theorem base_clear_authority (h : Rep env st c) :
    SetsTo env st (c.withAuth none) st.pt.host (Base.set_encoded_authority [] env st) := by
  unfold Base.set_encoded_authority
  simp only [List.isEmpty_nil, if_true]
  obtain ⟨t, h⟩ := h
  obtain ⟨X, W, e, -, -⟩ := cells_auth c
  rw [e] at h
  refine auth_drop h ?_
  simp [cells_eq, authTexts, Components.withAuth]

theorem authParts_render (a : Auth) : (authParts [] a).flatten = a.render := by
  obtain ⟨u, h, p⟩ := a
  rcases u with _ | ⟨u, _ | pw⟩ <;> cases p <;> simp [authParts, userParts, Auth.render, portText]

theorem base_set_authority_of {a : Auth} (h : Rep env st c) (ha : a.Valid lib) (hne : a.render ≠ []) :
    SetsTo env st (c.withAuth (some a)) st.pt.host (Base.set_encoded_authority a.render env st) := by
  unfold Base.set_encoded_authority
  have he : a.render.isEmpty = false := by simpa using hne
  simp only [he, Bool.false_eq_true, if_false]
  obtain ⟨k, b, -⟩ := authority_parts ha
  rw [run_bind_ret (parsedAll_ok b.flt b.ec b.p)]
  have hlen : ∀ id, (parse_authority (PS.init a.render)).pt.length id = (([[]] ++ authParts [] a).getD id []).length := b.rep.length
  simp only [hlen]
  have hr := authParts_render a
  obtain ⟨u, hst, pt⟩ := a
  obtain ⟨x, w, -, e2, e3⟩ := userParts_two [] u
  simp only [authParts, e2] at hr hlen ⊢
  generalize hR : Auth.render ⟨u, hst, pt⟩ = s at *
  simp only [id_user, id_password, id_host, id_port, List.cons_append, List.nil_append, List.getD_cons_succ, List.getD_cons_zero]
  obtain ⟨t, h⟩ := h
  obtain ⟨X, W, e, -, -⟩ := cells_auth c
  rw [e] at h
  have hc : cells (c.withAuth (some ⟨u, hst, pt⟩)) = (schemeText c.scheme).map some :: (slashes ++ x.map some) :: w.map some ::
      hst.map some :: (portText pt).map some :: [c.path.map some, (queryText c.query).map some, (fragText c.fragment).map some] := by
    simp [cells_eq, authTexts, authParts, e3, Components.withAuth]
  have hs : s = x ++ (w ++ (hst ++ portText pt)) := by rw [← hr]; simp
  refine resize2_step (A := [_]) (Xs := [X, W, _, _]) (k := 3) h rfl rfl rfl (m := (c.withAuth (some ⟨u, hst, pt⟩)).render.length) ?_ ?_ SetsTo.thrown
  · rw [← cells_length, hc, hs]; simp; omega
  intro hsto X' st' t' hl _ hp
  obtain ⟨a, Y, rfl, hl1⟩ := len_succ (n := s.length + 1) (by omega : X'.length = _)
  obtain ⟨b, Y, rfl, hl2⟩ := len_succ hl1
  refine put_mid (A := [_]) [] [a] (b :: Y) hp (by simp) rfl rfl rfl fun st1 h1 => ?_
  refine put_mid (A := [_]) [some c!"/"] [b] Y h1 (by simp) rfl rfl rfl fun st2 h2 => ?_
  refine put_mid (A := [_]) slashes Y [] h2 (by simp) (by simp) hl2 rfl fun st3 h3 => ?_
  rw [hs] at h3
  refine split_step (A := [_]) (x := slashes ++ x.map some) (y := (w ++ (hst ++ portText pt)).map some) (z := [])
    (by simpa using h3) rfl (by decide) (by simp; omega) fun st4 h4 => ?_
  refine split_step (A := [_, _]) (x := w.map some) (y := (hst ++ portText pt).map some) (z := [])
    (by simpa using h4) rfl (by decide) (by simp) fun st5 h5 => ?_
  refine split_step (A := [_, _, _]) (x := hst.map some) (y := (portText pt).map some) (z := [])
    (by simpa using h5) rfl (by decide) (by simp) fun st6 h6 => ?_
  have h6' : Prog env st (c.withAuth (some ⟨u, hst, pt⟩)).render.length (cells (c.withAuth (some ⟨u, hst, pt⟩))) st6 t' := by
    rw [hc]; simpa using h6
  have hrep : Rep env st6 (c.withAuth (some ⟨u, hst, pt⟩)) := ⟨t', h6'.holds⟩
  have hpl := hrep.length id_port
  have : M.assert (fun o => .ok (o.pt.length 4 = (portText pt).length)) env st6 = .ret () st6 := by
    refine run_assert ?_
    have : st6.pt.length 4 = (portText pt).length := by
      rw [show (4 : Nat) = id_port from rfl, hpl]
      simp [compParts, authTexts, authParts, e3, Components.withAuth, id_port]
    simp [St.obj, this]
  rw [this]
  exact h6'.done rfl hsto

theorem base_set_authority_bad (s : Str) (hs : s ≠ []) (hbad : ¬ ∃ a, IsAuth a s) :
    Base.set_encoded_authority s env st = .throw .invalid_part st := by
  unfold Base.set_encoded_authority
  have he : s.isEmpty = false := by simpa using hs
  simp only [he, Bool.false_eq_true, if_false]
  rw [run_bind_throw (parsedAll_bad (good_authority (Good.init s)).flt (fun h => hbad (authority_all.1 h)))]

/-! ### userinfo -/

/-- removing the userinfo -/
theorem base_clear_userinfo (h : Rep env st c) :
    SetsTo env st c.clearUserinfo st.pt.host (Base.set_encoded_userinfo [] env st) := by
  unfold Base.set_encoded_userinfo
  simp only [List.isEmpty_nil, if_true]
  rw [run_bind_ret run_pt, h.length2 (by decide)]
  have h' := h
  obtain ⟨t, hh⟩ := h'
  obtain ⟨sc, a, p, q, f⟩ := c
  have hclear : ∀ {c' X W R}, Holds env st ((schemeText sc).map some :: X :: W :: R) t →
      cells c' = (schemeText sc).map some :: [] :: [] :: R →
      SetsTo env st c' st.pt.host ((Base.resize2 id_user id_host 0 >>= fun _ => pure ()) env st) := by
    intro c' X W R h hc
    refine resize2_step (A := [(schemeText sc).map some]) (Xs := [X, W]) (k := 1) h rfl rfl rfl (m := c'.render.length) ?_ ?_ SetsTo.thrown
    · rw [← cells_length, hc]; simp
    intro hs X' st' t' hl _ hp
    obtain rfl := List.length_eq_zero_iff.1 hl
    exact hp.done hc.symm hs
  rcases a with _ | ⟨u, hst, pt⟩
  · rw [if_pos (by simp [compParts, authTexts, id_host, id_path])]
    refine hclear hh ?_
    simp [cells_eq, authTexts, Components.clearUserinfo, Components.withAuth]
  · obtain ⟨x, w, -, -, e3⟩ := userParts_two [] u
    have e : cells (Components.mk sc (some ⟨u, hst, pt⟩) p q f) = (schemeText sc).map some :: (slashes ++ x.map some) :: w.map some ::
      hst.map some :: (portText pt).map some :: [p.map some, (queryText q).map some, (fragText f).map some] := by
      simp [cells_eq, authTexts, authParts, e3]
    rw [e] at hh
    by_cases hup : hst = [] ∧ pt = none
    · obtain ⟨rfl, rfl⟩ := hup
      rw [if_pos (by simp [compParts, authTexts, authParts, e3, portText, id_host, id_path])]
      refine hclear hh ?_
      simp [cells_eq, authTexts, Components.clearUserinfo, Components.withAuth, portText]
    · rw [if_neg (by
        rcases hst with _ | ⟨a, hst⟩ <;> cases pt <;>
          simp_all [compParts, authTexts, authParts, portText, id_host, id_path])]
      refine userinfo_drop hh ?_
      simp [cells_eq, authTexts, authParts, userParts, Components.clearUserinfo, Components.withAuth, hup]

theorem base_set_userinfo_part_nil : Base.set_userinfo_part [] = Base.set_encoded_userinfo [] := rfl

theorem userinfo_all {s : Str} (h : (parse_userinfo (PS.init s)).ec = none ∧ (parse_userinfo (PS.init s)).p = []) :
    Escaped isUpperHex isUserinfo s := by
  obtain ⟨u, w, r, hu, hw, h1, h2, e⟩ := userinfo_inv rfl h.1
  have e : s = u ++ (w ++ r) := e
  subst e
  have := (userinfo_of (L := [[]]) (pend := []) hu hw h1 h2 rfl (At.fresh 1 _)).p
  rw [h.2] at this
  subst this
  rw [List.append_nil]
  exact Escaped.append (Escaped.mono (fun _ h => h) (ok' := isUserinfo) (forall_byte (by decide +kernel)) hu) hw

/-- an invalid userinfo is refused -/
theorem base_set_userinfo_bad (s : Str) (hs : s ≠ []) (hbad : ¬ Escaped isUpperHex isUserinfo s) :
    Base.set_encoded_userinfo s env st = .throw .invalid_part st := by
  unfold Base.set_encoded_userinfo
  have he : s.isEmpty = false := by simpa using hs
  simp only [he, Bool.false_eq_true, if_false]
  rw [run_bind_throw (parsedAll_bad (good_userinfo (Good.init s)).flt (fun h => hbad (userinfo_all h)))]

/-! ### the password with its colon -/

theorem base_set_password_part_nil : Base.set_password_part [] = Base.set_password [] := rfl

/-- The first character is only examined when it is the only one. -/
theorem base_set_password_part (h : Rep env st c) (s : Str) (hs : s ≠ []) (hc : s = b!":" → c.auth.isSome = true) :
    Checked (s = b!":" ∨ ∃ d p, s = d :: p ∧ p ≠ [] ∧ p.head? ≠ some c!":" ∧ Escaped isUpperHex isUserinfo p) env st
      (c.withPassword (s.drop 1)) st.pt.host (Base.set_password_part s env st) := by
  unfold Base.set_password_part
  have he : s.isEmpty = false := by simpa using hs
  simp only [he, Bool.false_eq_true, if_false]
  obtain ⟨d, p, rfl⟩ := List.exists_cons_of_ne_nil hs
  cases p with
  | nil =>
    simp only [List.length_singleton, if_true, List.head?_cons]
    by_cases hd : d = c!":"
    · subst hd
      refine .inl ⟨.inl rfl, ?_⟩
      have ha := hc rfl
      rw [run_bind_ret (run_require (by simp)), run_bind_ret run_pt, if_pos (by
        rw [h.length]
        obtain ⟨sc, a, p, q, f⟩ := c
        cases a with
        | none => simp at ha
        | some a =>
          obtain ⟨x, w, -, -, e3⟩ := userParts_two [] a.userinfo
          simp [compParts, authTexts, authParts, e3, id_user])]
      have := base_store_password (txt := []) h rfl
      rw [run_bind_ret run_pt, if_pos (by
        rw [h.length]
        obtain ⟨sc, a, p, q, f⟩ := c
        cases a with
        | none => simp at ha
        | some a =>
          obtain ⟨x, w, -, -, e3⟩ := userParts_two [] a.userinfo
          simp [compParts, authTexts, authParts, e3, id_user])] at this
      have e : (Base.resize id_password 2 >>= fun dest => M.put dest b!":" >>= fun _ => M.put (dest + 1) b!"@") env st =
          (Base.resize id_password (1 + ([] : Str).length + 1) >>= fun dest => M.put dest b!":" >>= fun _ =>
            M.put (dest + (([] : Str).length + 1)) b!"@" >>= fun _ => M.put (dest + 1) []) env st := by
        simp only [List.length_nil, Nat.zero_add, Nat.add_zero]
        rw [run_bind, run_bind]
        cases Base.resize id_password 2 env st with
        | throw => rfl
        | fault => rfl
        | ret d s =>
          simp only
          rw [run_bind, run_bind]
          cases M.put d b!":" env s with
          | throw => rfl
          | fault => rfl
          | ret _ s =>
            simp only
            rw [run_bind]
            cases M.put (d + 1) b!"@" env s <;> rfl
      show SetsTo env st (c.withPassword []) _ _
      rw [e]
      exact this
    · refine .inr ⟨by simp [hd], ?_⟩
      rw [run_bind_throw (run_require_false (by simpa using hd))]
  | cons b p =>
    rw [if_neg (by simp)]
    refine (base_set_encoded_password h (b :: p) (by simp)).congr ?_
    constructor
    · rintro ⟨h1, h2⟩; exact .inr ⟨d, b :: p, rfl, by simp, h1, h2⟩
    · rintro (h | ⟨_, _, e, -, h1, h2⟩)
      · simp at h
      · simp at e; obtain ⟨rfl, rfl⟩ := e; exact ⟨h1, h2⟩

/-! ### the case of the scheme -/

theorem lower_eq (c : Byte) : lower c = if (c - 65).toNat < 26 then c + 32 else c := by
  revert c; exact forall_byte (by decide +kernel)

theorem Holds.byte {A B : List (List Cell)} {P Q : List Cell} {a : Byte} {t : Cell} {i : Nat} {dbg : Bool}
    (h : Holds env st (A ++ (P ++ some a :: Q) :: B) t) (hi : i = A.flatten.length + P.length) :
    (st.obj dbg).byte i = .ok a := by
  subst hi
  have hm : ∃ rest, (st.obj dbg).mem = A.flatten ++ P ++ some a :: rest := by
    rcases h.buf with ⟨-, h2, -⟩ | ⟨junk, hb, -⟩
    · simp at h2
    · exact ⟨Q ++ (B.flatten ++ t :: junk), by simp [St.obj, hb]⟩
  obtain ⟨rest, hm⟩ := hm
  unfold Obj.byte
  rw [hm, List.getElem?_append_right (by simp)]
  simp

theorem Holds.start {L t} (h : Holds env st L t) : Prog env st L.flatten.length L st t := by
  refine ⟨h, .inl ⟨?_, rfl, rfl⟩, rfl, rfl, rfl, rfl, h.nul_iff.symm.trans (Mended.same rfl).symm, id⟩
  rcases h.buf with ⟨-, h2, h3, -⟩ | ⟨junk, -, hl, h1, h2⟩
  · rw [h2]; simp
  · omega

theorem lowerLoop_of {m : Nat} {B : List (List Cell)} {t : Cell} {st₀ : St} {G : Out Unit → Prop} (s P Q : Str)
    (h : Prog env st₀ m ([] ++ (P ++ (s ++ Q)).map some :: B) st t)
    (hok : ∀ st', Prog env st₀ m ([] ++ (P ++ (s.map lower ++ Q)).map some :: B) st' t → G (.ret () st')) :
    G (Base.lowerLoop P.length s.length env st) := by
  induction s generalizing st P with
  | nil => exact hok st h
  | cons a s ih =>
    have hbyte : (st.obj env.dbg).byte P.length = .ok a := by
      have := h.holds
      rw [show (P ++ (a :: s ++ Q)).map some = P.map some ++ some a :: (s ++ Q).map some by simp] at this
      exact this.byte (by simp)
    have next : ∀ st1, Prog env st₀ m ([] ++ ((P ++ [lower a]) ++ (s ++ Q)).map some :: B) st1 t →
        G (Base.lowerLoop (P.length + 1) s.length env st1) := by
      intro st1 h1
      have := ih (P ++ [lower a]) h1 fun st' h' => hok st' (by simpa using h')
      simpa using this
    show G ((M.ask (fun o => o.byte P.length) >>= _) env st)
    rw [run_bind_ret (run_ask hbyte)]
    have hl := lower_eq a
    by_cases hc : (a - 65).toNat < 26
    · simp only [hc, if_true] at hl ⊢
      refine put_mid (A := []) (P.map some) [some a] ((s ++ Q).map some) h (by simp) (by simp) rfl rfl fun st1 h1 => ?_
      exact next st1 (by rw [hl]; simpa using h1)
    · simp only [hc, if_false] at hl ⊢
      exact next st (by rw [hl]; simpa using h)

theorem base_normalize_scheme (h : Rep env st c) :
    SetsTo env st c.lowerScheme st.pt.host (Base.normalize_scheme env st) := by
  unfold Base.normalize_scheme
  rw [run_bind_ret run_pt]
  have h' := h
  obtain ⟨t, hh⟩ := h'
  have hlen := h.length id_scheme
  obtain ⟨sc, a, p, q, f⟩ := c
  cases sc with
  | none =>
    rw [if_pos (by rw [hlen]; rfl)]
    exact SetsTo.refl h
  | some s =>
    have hlen : st.pt.length id_scheme = s.length + 1 := by rw [hlen]; simp [compParts, schemeText, id_scheme]
    rw [if_neg (by omega), hlen]
    have hoff : st.pt.off 0 = 0 := by rw [hh.rep]; simp
    rw [cells_scheme] at hh
    simp only [schemeText, Nat.add_sub_cancel] at hh ⊢
    have hb : (st.obj env.dbg).byte s.length = .ok c!":" := by
      have := hh
      rw [show (s ++ b!":").map some = s.map some ++ some c!":" :: [] by simp] at this
      exact this.byte (by simp)
    rw [run_bind_ret (run_assert (by
      show ((st.obj env.dbg).byte (st.pt.off 0 + s.length) >>= _) = _
      rw [hoff, Nat.zero_add, hb]; rfl)), run_bind_ret run_pt]
    show SetsTo _ _ _ _ (Base.lowerLoop (st.pt.off 0) s.length env st)
    rw [hoff]
    have hc : cells (Components.lowerScheme ⟨some s, a, p, q, f⟩) = [] ++ (s.map lower ++ b!":").map some ::
        ((authTexts a).map (·.map some) ++ [p.map some, (queryText q).map some, (fragText f).map some]) := by
      simp [cells_scheme, Components.lowerScheme, schemeText]
    have hm : (Components.lowerScheme ⟨some s, a, p, q, f⟩).render.length = ([] ++ (s ++ b!":").map some ::
        ((authTexts a).map (·.map some) ++ [p.map some, (queryText q).map some, (fragText f).map some]) : List (List Cell)).flatten.length := by
      rw [← cells_length, hc]; simp
    refine lowerLoop_of (st₀ := st) s [] b!":" hh.start fun st' h' => ?_
    rw [← hm] at h'
    refine h'.done ?_ (.inl ?_)
    · rw [hc]; simp
    · rw [hm]
      rcases hh.start.grow with ⟨h, -⟩ | ⟨h, h2, h3⟩
      · exact h
      · omega

end Url
