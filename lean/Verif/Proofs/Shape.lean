import Verif.Proofs.Exposed
import Verif.Proofs.WeakSeg

/-!
The last characters of the scheme and of the userinfo after any calls: `:` and `@`.
-/

set_option linter.unusedSimpArgs false
set_option linter.unusedSectionVars false
attribute [-simp] List.length_flatten

namespace Url
open Spec

variable {env : Env} {st : St} {S U W H P pa q f : List Cell} {t : Cell}

/-- nothing, or something that ends with `d` -/
def EndsIn (d : Byte) (X : List Cell) : Prop := X = [] ∨ ∃ Y, X = Y ++ [some d]

@[simp] theorem ends_nil (d : Byte) : EndsIn d [] := .inl rfl
@[simp] theorem ends_append (d : Byte) (X : List Cell) : EndsIn d (X ++ [some d]) := .inr ⟨X, rfl⟩
@[simp] theorem ends_one (d : Byte) : EndsIn d [some d] := .inr ⟨[], rfl⟩
@[simp] theorem ends_cons (d : Byte) (a : Cell) (X : List Cell) : EndsIn d (a :: (X ++ [some d])) := .inr ⟨a :: X, rfl⟩
@[simp] theorem ends_two (d : Byte) (a : Cell) : EndsIn d [a, some d] := .inr ⟨[a], rfl⟩

theorem ends_scheme (s : Option Str) : EndsIn c!":" ((schemeText s).map some) := by
  cases s <;> simp [schemeText]

theorem ends_user {pend x w : Str} {u : Option (Str × Option Str)} (h : userParts pend u = [x, w]) : EndsIn c!"@" (w.map some) := by
  rcases u with _ | ⟨u, _ | pw⟩ <;> simp [userParts] at h <;> obtain ⟨-, rfl⟩ := h <;> simp

theorem ends_auth {x w h p : Str} {a : Option Auth} (e : authTexts a = [x, w, h, p]) : EndsIn c!"@" (w.map some) := by
  rcases a with _ | ⟨u, hst, pt⟩
  · simp [authTexts] at e
    obtain ⟨-, rfl, -⟩ := e
    simp
  · obtain ⟨x', w', e1, -, -⟩ := userParts_two b!"//" u
    simp [authTexts, authParts, e1] at e
    obtain ⟨-, rfl, -⟩ := e
    exact ends_user e1

/-- A call that throws or returns with the scheme ending with `:` and the userinfo with `@`. -/
def TOut (env : Env) : Out Unit → Prop
  | .ret _ st' => ∃ L t', Holds env st' L t' ∧ EndsIn c!":" (L.getD 0 []) ∧ EndsIn c!"@" (L.getD 2 [])
  | .throw _ _ => True
  | .fault _ => False

theorem t_thrown {p : Prop} (_ : p) (e : Exc) (st' : St) (_ : e = .bad_alloc ∨ e = .too_large) (_ : Same st st') :
    TOut env (.throw e st') := trivial

theorem Holds.tl {L : List (List Cell)} {st' : St} {t' : Cell} (h : Holds env st' L t') (hs : EndsIn c!":" (L.getD 0 []))
    (hw : EndsIn c!"@" (L.getD 2 [])) : TOut env (.ret () st') := ⟨L, t', h, hs, hw⟩

theorem AOut.tl {Q : List Cell → List Cell → List Cell → List Cell → Prop} {o : Out Unit} (h : AOut env S pa q f Q o) (hs : EndsIn c!":" S)
    (hq : ∀ U W H P, Q U W H P → EndsIn c!"@" W) : TOut env o := by
  cases o with
  | ret a st' =>
    obtain ⟨U', W', H', P', t', h1, h2⟩ := h
    exact ⟨_, _, h1, hs, hq _ _ _ _ h2⟩
  | throw => trivial
  | fault => exact h

section
variable {A B : List (List Cell)} {X : List Cell} {t : Cell} {id : Nat}

theorem Prog.tl {L : List (List Cell)} {m : Nat} {st' : St} {t' : Cell} (h : Prog env st m L st' t') (hs : EndsIn c!":" (L.getD 0 []))
    (hw : EndsIn c!"@" (L.getD 2 [])) : TOut env (.ret () st') := ⟨L, t', h.holds, hs, hw⟩

theorem t_clear (h : Holds env st (A ++ X :: B) t) (hid : id = A.length) (hs : EndsIn c!":" ((A ++ [] :: B).getD 0 []))
    (hw : EndsIn c!"@" ((A ++ [] :: B).getD 2 [])) :
    TOut env ((Base.resize id 0 >>= fun _ => pure ()) env st) := by
  refine resize_step h hid rfl ?_ t_thrown
  intro _ X' st' t' hl _ hp
  obtain rfl := List.length_eq_zero_iff.1 hl
  exact hp.tl hs hw

theorem t_write {s : Str} {n : Nat} (hn : n = s.length) (h : Holds env st (A ++ X :: B) t) (hid : id = A.length)
    (hs : EndsIn c!":" ((A ++ s.map some :: B).getD 0 [])) (hw : EndsIn c!"@" ((A ++ s.map some :: B).getD 2 [])) :
    TOut env ((Base.resize id n >>= fun dest => M.put dest s) env st) := by
  subst hn
  refine resize_step h hid rfl ?_ t_thrown
  intro _ X' st' t' hl _ hp
  refine last_step (put_step hp (k := 0) (by simp) (by omega) ?_)
  intro st1 h1
  rw [ow_all hl] at h1
  exact h1.tl hs hw

theorem t_cut {Xs : List (List Cell)} {first last k n : Nat} (h : Holds env st (A ++ (Xs ++ B)) t) (hk : Xs.length = k + 1)
    (hfirst : first = A.length) (hlast : last = A.length + (k + 1))
    (ht : ∀ X', X'.length = n → EndsIn c!":" ((A ++ (X' :: List.replicate k [] ++ B)).getD 0 []) ∧
      EndsIn c!"@" ((A ++ (X' :: List.replicate k [] ++ B)).getD 2 [])) :
    TOut env ((Base.resize2 first last n >>= fun _ => pure ()) env st) := by
  refine resize2_step h hk hfirst hlast rfl ?_ t_thrown
  intro _ X' st' t' hl _ hp
  exact hp.tl (ht X' hl).1 (ht X' hl).2

end

theorem t_require {b : Bool} {g : Unit → M Unit} (h : b = true → TOut env (g () env st)) :
    TOut env ((Base.require b >>= g) env st) := by
  cases b with
  | true => rw [run_bind_ret (run_require rfl)]; exact h rfl
  | false => rw [run_bind_throw (run_require_false rfl)]; trivial

theorem t_validate {e : PctSet} {s : Str} {g : Unit → M Unit} (h : TOut env (g () env st)) :
    TOut env ((Base.validate e s >>= g) env st) := t_require fun _ => h

theorem t_parsedAll {ps : PS} {g : Parts → M Unit} (hf : ps.flt = none)
    (h : ps.ec = none → ps.p = [] → TOut env (g ps.pt env st)) :
    TOut env ((Base.parsedAll ps >>= g) env st) := by
  by_cases hp : ps.ec = none ∧ ps.p = []
  · rw [run_bind_ret (parsedAll_ok hf hp.1 hp.2)]; exact h hp.1 hp.2
  · rw [run_bind_throw (parsedAll_bad hf hp)]; trivial

section
variable (h : Part8 env st S U W H P pa q f t) (hS : EndsIn c!":" S) (hW : EndsIn c!"@" W)
include h hS hW

theorem t_url (s : Str) : TOut env (Base.set_encoded_url s env st) := by
  by_cases hs : s = []
  · subst hs
    unfold Base.set_encoded_url
    simp only [List.isEmpty_nil, if_true]
    rw [run_bind_ret run_isNull]
    by_cases hb : st.buf = none
    · rcases h.holds.buf with ⟨-, h2, -⟩ | ⟨junk, hb', -⟩
      · simp only [hb, Option.isNone_none]
        exact h.holds.tl (by simp [hS]) (by simp [hW])
      · rw [hb] at hb'; simp at hb'
    · have : st.buf.isNone = false := by cases h : st.buf <;> simp_all
      simp only [this]
      refine t_cut (A := []) (Xs := [S, U, W, H, P, pa, q, f]) (B := []) (k := 7) (by simpa using h.holds) rfl rfl rfl ?_
      intro X' hl
      obtain rfl := List.length_eq_zero_iff.1 hl
      simp [hS, hW]
  · by_cases hv : UriReference lib s
    · obtain ⟨c', hv, rfl⟩ := hv
      rcases base_set_url_holds h.holds hv hs with ⟨hs', st', e, h⟩ | ⟨hs', st', e, h2⟩
      · rw [e]
        obtain ⟨t', h'⟩ := h.rep
        obtain ⟨x, w, hst, pt, e⟩ := authTexts_four c'.auth
        exact h'.tl (by simp [cells_eq, e, ends_scheme]) (by simp [cells_eq, e, ends_auth e])
      · rw [e]; trivial
    · rw [base_set_url_bad s hs hv]; trivial

theorem t_origin (s : Str) : TOut env (Base.set_encoded_origin s env st) := by
  by_cases hs : s = []
  · subst hs
    unfold Base.set_encoded_origin
    simp only [List.isEmpty_nil, if_true]
    refine t_cut (A := []) (Xs := [S, U, W, H, P]) (B := [pa, q, f]) (k := 4) (by simpa using h.holds) rfl rfl rfl ?_
    intro X' hl
    obtain rfl := List.length_eq_zero_iff.1 hl
    simp [hS, hW]
  · by_cases hv : (parse_origin s).ec = none
    · obtain ⟨sch, a, p, r, k, -, -, -, e, -, b⟩ := origin_sound hv
      refine origin_step hs b e h.holds rfl ?_ t_thrown
      intro _ st' t' h'
      obtain ⟨x, w, hst, pt, e⟩ := authTexts_four a
      exact h'.tl (by simp) (by simp [e, ends_auth e])
    · unfold Base.set_encoded_origin
      have he : s.isEmpty = false := by simpa using hs
      simp only [he, Bool.false_eq_true, if_false]
      have hp : Base.parsed (parse_origin s) env st = .throw .invalid_part st := by
        have : (parse_origin s).ec.isSome = true := by simpa [Option.isSome_iff_ne_none] using hv
        simp [Base.parsed, (good_origin s).flt, this]
      rw [run_bind_throw hp]; trivial

theorem t_scheme (s : Str) : TOut env (Base.set_scheme s env st) := by
  unfold Base.set_scheme
  split
  · exact t_clear (A := []) h.holds rfl (by simp [hS]) (by simp [hW])
  · refine t_require fun _ => t_require fun _ => ?_
    refine resize_step (A := []) h.holds rfl rfl ?_ t_thrown
    intro hs X' st' t' hl _ hp
    obtain ⟨Y, x, rfl, hy⟩ := len_snoc hl
    refine put_mid [] Y [x] hp rfl rfl hy rfl ?_
    intro st1 h1
    refine last_step (put_mid (s.map some) [x] [] h1 (by simp) (by simp) rfl rfl ?_)
    intro st2 h2
    exact h2.tl (by simp [hS]) (by simp [hW])

theorem t_authority (s : Str) :
    TOut env (Base.set_encoded_authority s env st) := by
  by_cases hs : s = []
  · subst hs
    unfold Base.set_encoded_authority
    simp only [List.isEmpty_nil, if_true]
    refine t_cut (A := [S]) (Xs := [U, W, H, P]) (B := [pa, q, f]) (k := 3) (by simpa using h.holds) rfl rfl rfl ?_
    intro X' hl
    obtain rfl := List.length_eq_zero_iff.1 hl
    simp [hS, hW]
  · by_cases hv : ∃ a, IsAuth a s
    · obtain ⟨a, ha, rfl⟩ := hv
      unfold Base.set_encoded_authority
      have he : a.render.isEmpty = false := by simpa using hs
      simp only [he, Bool.false_eq_true, if_false]
      obtain ⟨k, b, -⟩ := authority_parts ha
      rw [run_bind_ret (parsedAll_ok b.flt b.ec b.p)]
      have hlen : ∀ id, (parse_authority (PS.init a.render)).pt.length id = (([[]] ++ authParts [] a).getD id []).length := b.rep.length
      simp only [hlen]
      have hr := authParts_render a
      obtain ⟨u, hst, pt⟩ := a
      obtain ⟨x, w, -, e2, e3⟩ := userParts_two [] u
      simp only [authParts, e2] at hr hlen ⊢
      generalize hR : Auth.render ⟨u, hst, pt⟩ = s at *
      simp only [id_user, id_password, id_host, id_port, List.cons_append, List.nil_append, List.getD_cons_succ, List.getD_cons_zero]
      have hs : s = x ++ (w ++ (hst ++ portText pt)) := by rw [← hr]; simp
      refine resize2_step (A := [_]) (Xs := [U, W, _, _]) (k := 3) h.holds rfl rfl rfl rfl ?_ t_thrown
      intro hsto X' st' t' hl _ hp
      obtain ⟨a, Y, rfl, hl1⟩ := len_succ (n := s.length + 1) (by omega : X'.length = _)
      obtain ⟨b, Y, rfl, hl2⟩ := len_succ hl1
      refine put_mid (A := [_]) [] [a] (b :: Y) hp (by simp) rfl rfl rfl fun st1 h1 => ?_
      refine put_mid (A := [_]) [some c!"/"] [b] Y h1 (by simp) rfl rfl rfl fun st2 h2 => ?_
      refine put_mid (A := [_]) slashes Y [] h2 (by simp) (by simp) hl2 rfl fun st3 h3 => ?_
      rw [hs] at h3
      refine split_step (A := [_]) (x := slashes ++ x.map some) (y := (w ++ (hst ++ portText pt)).map some) (z := [])
        (by simpa using h3) rfl (by decide) (by simp; omega) fun st4 h4 => ?_
      refine split_step (A := [_, _]) (x := w.map some) (y := (hst ++ portText pt).map some) (z := [])
        (by simpa using h4) rfl (by decide) (by simp) fun st5 h5 => ?_
      refine split_step (A := [_, _, _]) (x := hst.map some) (y := (portText pt).map some) (z := [])
        (by simpa using h5) rfl (by decide) (by simp) fun st6 h6 => ?_
      rw [run_assert (by
        show Except.ok (decide (st6.pt.length 4 = (portText pt).length)) = _
        rw [h6.holds.rep.length]
        simp)]
      exact h6.tl (by simpa using hS) (by simpa using ends_user e2)
    · rw [base_set_authority_bad s hs hv]; trivial

theorem t_set_encoded_userinfo (s : Str) :
    TOut env (Base.set_encoded_userinfo s env st) := by
  unfold Base.set_encoded_userinfo
  split
  · rw [run_bind_ret run_pt]
    split
    · refine t_cut (A := [S]) (Xs := [U, W]) (B := [H, P, pa, q, f]) (k := 1) (by simpa using h.holds) rfl rfl rfl ?_
      intro X' hl
      simp [hS, hW]
    · refine t_cut (A := [S]) (Xs := [U, W]) (B := [H, P, pa, q, f]) (k := 1) (by simpa using h.holds) rfl rfl rfl ?_
      intro X' hl
      simp [hS, hW]
  · refine t_parsedAll (good_userinfo (Good.init s)).flt fun h1 h2 => ?_
    obtain ⟨u, hu⟩ := userinfoText_exists (userinfo_all ⟨h1, h2⟩)
    have b := parse_userinfo_at hu
    have hlen : (parse_userinfo (PS.init s)).pt.length id_user = u.1.length := b.rep.length id_user
    rw [hlen]
    have hle : u.1.length ≤ s.length := by
      rw [← hu.2.2, userinfoText_eq]; simp
    refine resize2_step (A := [S]) (Xs := [U, W]) (B := [H, P, pa, q, f]) (k := 1) h.holds rfl rfl rfl rfl ?_ t_thrown
    intro hsto X' st' t' hl _ hp
    obtain ⟨a, Y, rfl, hl1⟩ := len_succ (n := s.length + 2) (by omega : X'.length = _)
    obtain ⟨b, Y, rfl, hl2⟩ := len_succ hl1
    obtain ⟨Y, z, rfl, hl3⟩ := len_snoc hl2
    refine put_mid (A := [_]) [] [a] (b :: (Y ++ [z])) hp (by simp) rfl rfl rfl fun st1 h1 => ?_
    refine put_mid (A := [_]) [some c!"/"] [b] (Y ++ [z]) h1 (by simp) rfl rfl rfl fun st2 h2 => ?_
    refine put_mid (A := [_]) slashes Y [z] h2 (by simp) (by simp) hl3 rfl fun st3 h3 => ?_
    have hx : ((b!"//" ++ s).take u.1.length).map some ++ (((b!"//" ++ s).drop u.1.length).map some ++ [z]) =
        slashes ++ (s.map some ++ [z]) := by
      rw [← List.append_assoc, ← List.map_append, List.take_append_drop]; simp
    refine split_step (A := [_]) (x := ((b!"//" ++ s).take u.1.length).map some)
      (y := ((b!"//" ++ s).drop u.1.length).map some ++ [z]) (z := [])
      (by rw [hx]; simpa using h3) rfl (by decide) (by simp; omega) fun st4 h4 => ?_
    refine last_step (put_mid (A := [_, _]) (((b!"//" ++ s).drop u.1.length).map some) [z] [] h4 (by simp; omega) (by simp) rfl rfl fun st5 h5 => ?_)
    exact h5.tl (by simp [hS]) (by simp [hW])

theorem t_userinfo_part (s : Str) :
    TOut env (Base.set_userinfo_part s env st) := by
  unfold Base.set_userinfo_part
  split
  · exact t_set_encoded_userinfo h hS hW s
  · exact t_require fun _ => t_set_encoded_userinfo h hS hW _

theorem t_store_password {n : Nat} {txt : Str} (hn : n = txt.length) :
    TOut env ((do
    if (← M.pt).length id_user ≠ 0 then
      let dest ← Base.resize id_password (1 + n + 1)
      M.put dest b!":"
      M.put (dest + (n + 1)) b!"@"
      M.put (dest + 1) txt
    else
      let dest ← Base.resize2 id_user id_host (2 + 1 + n + 1)
      M.put dest b!"/"
      M.put (dest + 1) b!"/"
      M.put (dest + 2) b!":"
      M.put (dest + (2 + n + 1)) b!"@"
      M.put (dest + 3) txt
      Base.split id_user 2) env st) := by
  subst hn
  rw [run_bind_ret run_pt]
  split
  · refine resize_step (A := [S, U]) h.holds rfl rfl ?_ t_thrown
    intro hs X' st' t' hl _ hp
    obtain ⟨a, Y, rfl, hl1⟩ := len_succ (n := txt.length + 1) (by omega : X'.length = _)
    obtain ⟨Y, z, rfl, hl2⟩ := len_snoc hl1
    refine put_mid (A := [S, U]) [] [a] (Y ++ [z]) hp (by simp) rfl rfl rfl fun st1 h1 => ?_
    refine put_mid (A := [S, U]) (some c!":" :: Y) [z] [] h1 (by simp; omega) (by simp) rfl rfl fun st2 h2 => ?_
    refine last_step (put_mid (A := [S, U]) [some c!":"] Y [some c!"@"] h2 (by simp) (by simp) hl2 rfl fun st3 h3 => ?_)
    exact h3.tl (by simp [hS]) (by simp [hW])
  · refine resize2_step (A := [S]) (Xs := [U, W]) (k := 1) h.holds rfl rfl rfl rfl ?_ t_thrown
    intro hs X' st' t' hl _ hp
    obtain ⟨a, Y, rfl, hl1⟩ := len_succ (n := txt.length + 1 + 1 + 1) (by omega : X'.length = _)
    obtain ⟨b, Y, rfl, hl2⟩ := len_succ hl1
    obtain ⟨c, Y, rfl, hl3⟩ := len_succ hl2
    obtain ⟨Y, z, rfl, hl4⟩ := len_snoc hl3
    refine put_mid (A := [S]) [] [a] (b :: c :: (Y ++ [z])) hp (by simp) rfl rfl rfl fun st1 h1 => ?_
    refine put_mid (A := [S]) [some c!"/"] [b] (c :: (Y ++ [z])) h1 (by simp) rfl rfl rfl fun st2 h2 => ?_
    refine put_mid (A := [S]) slashes [c] (Y ++ [z]) h2 (by simp) rfl rfl rfl fun st3 h3 => ?_
    refine put_mid (A := [S]) (slashes ++ some c!":" :: Y) [z] [] h3 (by simp; omega) (by simp) rfl rfl fun st4 h4 => ?_
    refine put_mid (A := [S]) (slashes ++ [some c!":"]) Y [some c!"@"] h4 (by simp) (by simp) hl4 rfl fun st5 h5 => ?_
    refine last_step (split_step (A := [S]) (x := slashes) (y := some c!":" :: txt.map some ++ [some c!"@"]) (z := [])
      (by simpa using h5) rfl (by decide) rfl fun st6 h6 => ?_)
    exact h6.tl (by simp [hS]) (by simp [hW])

theorem t_set_password (hd : env.dbg = false) (s : Str) :
    TOut env (Base.set_password s env st) := by
  unfold Base.set_password
  split
  · rw [run_bind_ret run_pt]
    split
    · exact h.holds.tl (by simp [hS]) (by simp [hW])
    · have ha : Base.assertUserinfo env st = .ret () st := by
        unfold Base.assertUserinfo
        rw [assert_bind hd, assert_bind hd, assert_bind hd, assert_off hd]
      rw [run_bind_ret ha, run_bind_ret run_pt]
      split
      · exact t_clear (A := [S, U]) h.holds rfl (by simp [hS]) (by simp [hW])
      · exact t_write (A := [S, U]) rfl h.holds rfl (by simp [hS]) (by simp [hW])
  · exact t_store_password h hS hW (encoded_size_eq setOf_userinfo _)

theorem t_set_encoded_password (hd : env.dbg = false) (s : Str) :
    TOut env (Base.set_encoded_password s env st) := by
  unfold Base.set_encoded_password
  split
  · exact t_set_password h hS hW hd s
  · exact t_require fun _ => t_validate (t_store_password h hS hW rfl)

theorem t_set_password_part (hd : env.dbg = false) (s : Str) :
    TOut env (Base.set_password_part s env st) := by
  unfold Base.set_password_part
  split
  · exact t_set_password h hS hW hd s
  · split
    · refine t_require fun _ => ?_
      rw [run_bind_ret run_pt]
      split
      · refine resize_step (A := [S, U]) h.holds rfl rfl ?_ t_thrown
        intro hs X' st' t' hl _ hp
        obtain ⟨a, Y, rfl, hl1⟩ := len_succ hl
        obtain ⟨b, Y, rfl, hl2⟩ := len_succ hl1
        obtain rfl := List.length_eq_zero_iff.1 hl2
        refine put_mid (A := [S, U]) [] [a] [b] hp (by simp) rfl rfl rfl fun st1 h1 => ?_
        refine last_step (put_mid (A := [S, U]) [some c!":"] [b] [] h1 (by simp) (by simp) rfl rfl fun st2 h2 => ?_)
        exact h2.tl (by simp [hS]) (by simp [hW])
      · refine resize2_step (A := [S]) (Xs := [U, W]) (k := 1) h.holds rfl rfl rfl rfl ?_ t_thrown
        intro hs X' st' t' hl _ hp
        obtain ⟨a, Y, rfl, hl1⟩ := len_succ hl
        obtain ⟨b, Y, rfl, hl2⟩ := len_succ hl1
        obtain ⟨c, Y, rfl, hl3⟩ := len_succ hl2
        obtain ⟨d, Y, rfl, hl4⟩ := len_succ hl3
        obtain rfl := List.length_eq_zero_iff.1 hl4
        refine put_mid (A := [S]) [] [a] [b, c, d] hp (by simp) rfl rfl rfl fun st1 h1 => ?_
        refine put_mid (A := [S]) [some c!"/"] [b] [c, d] h1 (by simp) rfl rfl rfl fun st2 h2 => ?_
        refine put_mid (A := [S]) slashes [c] [d] h2 (by simp) rfl rfl rfl fun st3 h3 => ?_
        refine put_mid (A := [S]) (slashes ++ [some c!":"]) [d] [] h3 (by simp) rfl rfl rfl fun st4 h4 => ?_
        refine split_step (A := [S]) (x := slashes) (y := [some c!":", some c!"@"]) (z := [])
          (by simpa using h4) rfl (by decide) rfl fun st5 h5 => ?_
        exact t_set_encoded_password (U := slashes) (W := [some c!":", some c!"@"]) ⟨by simpa using h5.holds, h.S, by simp, h.H, h.P, h.pa, h.q, h.f⟩ hS (by simp) hd _
    · exact t_set_encoded_password h hS hW hd _

theorem t_normalize :
    TOut env (Base.normalize_scheme env st) := by
  unfold Base.normalize_scheme
  obtain ⟨s, rfl⟩ := init_iff.1 h.S
  rw [run_bind_ret run_pt]
  have hlen : st.pt.length id_scheme = s.length := by rw [w_len h]; simp [id_scheme]
  rw [hlen]
  rcases List.eq_nil_or_concat s with rfl | ⟨s, a, rfl⟩
  · exact h.holds.tl (by simp [hS]) (by simp [hW])
  · have hoff : st.pt.off id_scheme = 0 := by rw [h.holds.rep]; simp [id_scheme]
    have hlast : a = c!":" := by
      rcases hS with e | ⟨Y, e⟩
      · simp at e
      · rw [List.concat_eq_append, List.map_append] at e
        simpa using (List.append_inj' e rfl).2
    subst hlast
    have : (s.concat c!":").length - 1 = s.length := by simp
    rw [this, if_neg (by simp), run_bind_ret (run_assert ?_), run_bind_ret run_pt, hoff]
    · have hh : Holds env st ([] ++ ([] ++ (s ++ b!":")).map some :: [U, W, H, P, pa, q, f]) t := by simpa using h.holds
      refine lowerLoop_of (st₀ := st) s [] b!":" hh.start fun st' h' => ?_
      exact h'.tl (by simp) (by simp [hW])
    · show (do return (← (st.obj env.dbg).byte (st.pt.off id_scheme + s.length)) == c!":") = _
      rcases h.holds.buf with ⟨-, h2, -⟩ | ⟨junk, hb, -⟩
      · simp at h2
      · rw [hoff, Nat.zero_add]
        have := byte_cells (o := st.obj env.dbg) (A := s.map some) (c := some c!":")
          (rest := U ++ (W ++ (H ++ (P ++ (pa ++ (q ++ (f ++ t :: junk))))))) (by simp [St.obj, hb])
        rw [List.length_map] at this
        rw [this]; rfl

omit hS in
theorem back_password (hne : W ≠ []) (dbg : Bool) : (do backIs (← (st.obj dbg).get id_password) c!"@") = .ok true := by
  have hW' := h.W
  rcases hW with rfl | ⟨Y, rfl⟩
  · exact absurd rfl hne
  · obtain ⟨y, hy⟩ := init_iff.1 hW'
    rw [h.holds.get]
    show (do backIs (← readCells (Y ++ [some c!"@"])) c!"@") = _
    rw [hy, readCells_some]
    obtain ⟨a, b, rfl, -, hb⟩ := List.map_eq_append_iff.1 hy.symm
    obtain rfl : b = b!"@" := by
      match b, hb with
      | [a], hb => simpa using hb
    simp [bind, Except.bind, backIs]

/-- storing a non-empty user, with assertions or without -/
theorem d_store_user {n : Nat} {txt : Str} (hn : n = txt.length) :
    WOut env [S, U, W, H, P, pa, q, f] (Op.touch (.set_user txt)) ((do
    if (← M.pt).length id_password ≠ 0 then
      M.assert fun o => do backIs (← o.get id_password) c!"@"
      let dest ← Base.resize id_user (2 + n)
      M.put (dest + 2) txt
    else
      let dest ← Base.resize id_user (2 + n + 1)
      M.put dest b!"/"
      M.put (dest + 1) b!"/"
      M.put (dest + (2 + n)) b!"@"
      Base.split id_user (2 + n)
      M.put (dest + 2) txt) env st) := by
  subst hn
  rw [run_bind_ret run_pt]
  split
  · rw [run_bind_ret (run_assert (back_password h hW (by rename_i e; rw [w_len h] at e; exact fun e' => e (by rw [e']; rfl)) _))]
    refine resize_step (A := [S]) h.holds rfl rfl ?_ w_thrown
    intro hs X' st' t' hl htake hp
    obtain ⟨a, Y, rfl, hl1⟩ := len_succ (n := txt.length + 1) (by omega : X'.length = _)
    obtain ⟨b, Y, rfl, hl2⟩ := len_succ hl1
    refine last_step (put_mid (A := [S]) [a, b] Y [] hp (by simp) (by simp) hl2 rfl ?_)
    intro st2 h2
    exact h2.w (by simp [Touched, Op.touch, h.W])
  · refine resize_step (A := [S]) h.holds rfl rfl ?_ w_thrown
    intro hs X' st' t' hl _ hp
    obtain ⟨a, Y, rfl, hl1⟩ := len_succ (n := txt.length + 1 + 1) (by omega : X'.length = _)
    obtain ⟨b, Y, rfl, hl2⟩ := len_succ hl1
    obtain ⟨Y, z, rfl, hl3⟩ := len_snoc hl2
    refine put_mid (A := [S]) [] [a] (b :: (Y ++ [z])) hp (by simp) rfl rfl rfl fun st1 h1 => ?_
    refine put_mid (A := [S]) [some c!"/"] [b] (Y ++ [z]) h1 (by simp) rfl rfl rfl fun st2 h2 => ?_
    refine put_mid (A := [S]) (slashes ++ Y) [z] [] h2 (by simp; omega) (by simp) rfl rfl fun st3 h3 => ?_
    refine split_step (A := [S]) (x := slashes ++ Y) (y := [some c!"@"]) (z := W) (by simpa using h3) rfl (by decide)
      (by simp; omega) fun st4 h4 => ?_
    refine last_step (put_mid (A := [S]) slashes Y [] h4 (by simp) (by simp) hl3 rfl fun st5 h5 => ?_)
    exact h5.w (by simp [Touched, Op.touch, h.W])

theorem d_set_port (s : Str) (hs : s ≠ []) :
    WOut env [S, U, W, H, P, pa, q, f] (Op.touch (.set_port s)) (Base.set_port s env st) := by
  unfold Base.set_port
  rw [if_neg (by simpa using hs)]
  refine w_require fun _ => ?_
  rw [run_bind_ret run_ask_auth]
  split
  · rename_i ha
    have ha : st.pt.length2 id_user id_path = 0 := by simpa [has_authority, St.obj] using ha
    rw [w_len2_auth h] at ha
    obtain rfl := List.length_eq_zero_iff.1 (show U.length = 0 by omega)
    obtain rfl := List.length_eq_zero_iff.1 (show W.length = 0 by omega)
    obtain rfl := List.length_eq_zero_iff.1 (show H.length = 0 by omega)
    obtain rfl := List.length_eq_zero_iff.1 (show P.length = 0 by omega)
    refine resize_step (A := [S]) h.holds rfl rfl ?_ w_thrown
    intro hs X' st' t' hl _ hp
    obtain ⟨a, Y, rfl, hl1⟩ := len_succ (n := s.length + 1 + 1) (by omega : X'.length = _)
    obtain ⟨b, Y, rfl, hl2⟩ := len_succ hl1
    obtain ⟨c, Y, rfl, hl3⟩ := len_succ hl2
    refine put_mid (A := [S]) [] [a] (b :: c :: Y) hp (by simp) rfl rfl rfl fun st1 h1 => ?_
    refine put_mid (A := [S]) [some c!"/"] [b] (c :: Y) h1 (by simp) rfl rfl rfl fun st2 h2 => ?_
    refine put_mid (A := [S]) slashes [c] Y h2 (by simp) rfl rfl rfl fun st3 h3 => ?_
    refine split_step (A := [S]) (x := slashes) (y := some c!":" :: Y) (z := []) (by simpa using h3) rfl (by decide) rfl fun st4 h4 => ?_
    refine split_step (A := [S, slashes]) (x := []) (y := some c!":" :: Y) (z := []) (by simpa using h4) rfl (by decide) rfl fun st5 h5 => ?_
    refine split_step (A := [S, slashes, []]) (x := []) (y := some c!":" :: Y) (z := []) (by simpa using h5) rfl (by decide) rfl fun st6 h6 => ?_
    refine last_step (put_mid (A := [S, slashes, [], []]) [some c!":"] Y [] (by simpa using h6) (by simp) (by simp) hl3 rfl fun st7 h7 => ?_)
    exact h7.w (by simp [Touched, Op.touch])
  · exact w_delim (A := [S, U, W, H]) rfl h.holds rfl (by simp [Touched, Op.touch, h.W, h.H])

end

end Url
