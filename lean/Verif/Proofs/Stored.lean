import Verif.Proofs.Shape

/-!
What the calls that set a component store, in a build without assertions and whatever calls came before.
-/

set_option linter.unusedSimpArgs false
set_option linter.unusedSectionVars false
attribute [-simp] List.length_flatten

namespace Url
open Spec

variable {env : Env} {st : St} {S U W H P pa q f : List Cell} {t : Cell} {Q : St → List (List Cell) → Prop}

/-- A call that throws or returns with the parts as `Q` says. -/
def SOut (env : Env) (Q : St → List (List Cell) → Prop) : Out Unit → Prop
  | .ret _ st' => ∃ L t', Holds env st' L t' ∧ Q st' L
  | .throw _ _ => True
  | .fault _ => False

theorem s_thrown {p : Prop} (_ : p) (e : Exc) (st' : St) (_ : e = .bad_alloc ∨ e = .too_large) (_ : Same st st') :
    SOut env Q (.throw e st') := trivial

theorem Holds.s {L : List (List Cell)} {t' : Cell} (h : Holds env st L t') (hq : Q st L) : SOut env Q (.ret () st) := ⟨L, t', h, hq⟩

theorem Prog.s {L : List (List Cell)} {m : Nat} {st' : St} {t' : Cell} (h : Prog env st m L st' t') (hq : Q st' L) :
    SOut env Q (.ret () st') := ⟨L, t', h.holds, hq⟩

theorem SOut.mono {Q' : St → List (List Cell) → Prop} {o : Out Unit} (h : SOut env Q o) (hq : ∀ st L, Q st L → Q' st L) : SOut env Q' o := by
  cases o with
  | ret a st' => obtain ⟨L, t', h1, h2⟩ := h; exact ⟨_, _, h1, hq _ _ h2⟩
  | throw => trivial
  | fault => exact h

section
variable {A B : List (List Cell)} {X : List Cell} {id : Nat}

theorem s_clear (h : Holds env st (A ++ X :: B) t) (hid : id = A.length) (hq : ∀ st', Q st' (A ++ [] :: B)) :
    SOut env Q ((Base.resize id 0 >>= fun _ => pure ()) env st) := by
  refine resize_step h hid rfl ?_ s_thrown
  intro _ X' st' t' hl _ hp
  obtain rfl := List.length_eq_zero_iff.1 hl
  exact hp.s (hq _)

theorem s_write {s : Str} {n : Nat} (hn : n = s.length) (h : Holds env st (A ++ X :: B) t) (hid : id = A.length)
    (hq : ∀ st', Q st' (A ++ s.map some :: B)) :
    SOut env Q ((Base.resize id n >>= fun dest => M.put dest s) env st) := by
  subst hn
  refine resize_step h hid rfl ?_ s_thrown
  intro _ X' st' t' hl _ hp
  refine last_step (put_step hp (k := 0) (by simp) (by omega) ?_)
  intro st1 h1
  rw [ow_all hl] at h1
  exact h1.s (hq _)

theorem s_delim {d : Byte} {s : Str} {n : Nat} (hn : n = s.length) (h : Holds env st (A ++ X :: B) t) (hid : id = A.length)
    (hq : ∀ st', Q st' (A ++ (d :: s).map some :: B)) :
    SOut env Q
      ((Base.resize id (1 + n) >>= fun dest => M.put dest [d] >>= fun _ => M.put (dest + 1) s) env st) := by
  subst hn
  refine resize_step h hid rfl ?_ s_thrown
  intro hs X' st' t' hl _ hp
  obtain ⟨x, Y, rfl, hy⟩ := len_succ (X := X') (n := s.length) (by omega)
  refine put_mid [] [x] Y hp rfl rfl rfl rfl ?_
  intro st1 h1
  refine last_step (put_mid [some d] Y [] h1 rfl (by simp) hy rfl ?_)
  intro st2 h2
  exact h2.s (by simpa using hq st2)

theorem s_cut {Xs : List (List Cell)} {first last k n : Nat} (h : Holds env st (A ++ (Xs ++ B)) t) (hk : Xs.length = k + 1)
    (hfirst : first = A.length) (hlast : last = A.length + (k + 1))
    (hq : ∀ st' X', X'.length = n → Q st' (A ++ (X' :: List.replicate k [] ++ B))) :
    SOut env Q ((Base.resize2 first last n >>= fun _ => pure ()) env st) := by
  refine resize2_step h hk hfirst hlast rfl ?_ s_thrown
  intro _ X' st' t' hl _ hp
  exact hp.s (hq _ X' hl)

end

theorem s_require {b : Bool} {g : Unit → M Unit} (h : b = true → SOut env Q (g () env st)) :
    SOut env Q ((Base.require b >>= g) env st) := by
  cases b with
  | true => rw [run_bind_ret (run_require rfl)]; exact h rfl
  | false => rw [run_bind_throw (run_require_false rfl)]; trivial

theorem s_parsedAll {ps : PS} {g : Parts → M Unit} (hf : ps.flt = none)
    (h : ps.ec = none → ps.p = [] → SOut env Q (g ps.pt env st)) :
    SOut env Q ((Base.parsedAll ps >>= g) env st) := by
  by_cases hp : ps.ec = none ∧ ps.p = []
  · rw [run_bind_ret (parsedAll_ok hf hp.1 hp.2)]; exact h hp.1 hp.2
  · rw [run_bind_throw (parsedAll_bad hf hp)]; trivial

/-- part `id` is the text `s` -/
def Slot (id : Nat) (s : Str) (_ : St) (L : List (List Cell)) : Prop := L.getD id [] = s.map some

/-- the user is the text `s` behind two cells, or there is no user and `s` is empty -/
def UserSlot (s : Str) (_ : St) (L : List (List Cell)) : Prop :=
  (∃ a b, L.getD id_user [] = a :: b :: s.map some) ∨ L.getD id_user [] = [] ∧ s = []

/-- the password is the text `s` behind `:` and in front of `@`, or it is empty and `s` says so -/
def PasswordSlot (s : Option Str) (_ : St) (L : List (List Cell)) : Prop :=
  match s with
  | none => L.getD id_password [] = [] ∨ L.getD id_password [] = [some c!"@"]
  | some s => L.getD id_password [] = (b!":" ++ s ++ b!"@").map some

section
variable (h : Part8 env st S U W H P pa q f t)
include h

theorem s_scheme (s : Str) : SOut env (Slot id_scheme (if s = [] then [] else s ++ b!":")) (Base.set_scheme s env st) := by
  by_cases hs : s = []
  · subst hs
    exact s_clear (A := []) h.holds rfl fun _ => rfl
  · unfold Base.set_scheme
    rw [if_neg hs, if_neg (by simpa using hs)]
    refine s_require fun _ => s_require fun _ => ?_
    refine resize_step (A := []) h.holds rfl rfl ?_ s_thrown
    intro _ X' st' t' hl _ hp
    obtain ⟨Y, x, rfl, hy⟩ := len_snoc hl
    refine put_mid [] Y [x] hp rfl rfl hy rfl ?_
    intro st1 h1
    refine last_step (put_mid (s.map some) [x] [] h1 (by simp) (by simp) rfl rfl ?_)
    intro st2 h2
    exact h2.s (by simp [Slot, id_scheme, hs])

theorem s_store_user {n : Nat} {txt : Str} (hd : env.dbg = false) (hn : n = txt.length) :
    SOut env (UserSlot txt) ((do
    if (← M.pt).length id_password ≠ 0 then
      M.assert fun o => do backIs (← o.get id_password) c!"@"
      let dest ← Base.resize id_user (2 + n)
      M.put (dest + 2) txt
    else
      let dest ← Base.resize id_user (2 + n + 1)
      M.put dest b!"/"
      M.put (dest + 1) b!"/"
      M.put (dest + (2 + n)) b!"@"
      Base.split id_user (2 + n)
      M.put (dest + 2) txt) env st) := by
  subst hn
  rw [run_bind_ret run_pt]
  split
  · rw [assert_bind hd]
    refine resize_step (A := [S]) h.holds rfl rfl ?_ s_thrown
    intro hs X' st' t' hl htake hp
    obtain ⟨a, Y, rfl, hl1⟩ := len_succ (n := txt.length + 1) (by omega : X'.length = _)
    obtain ⟨b, Y, rfl, hl2⟩ := len_succ hl1
    refine last_step (put_mid (A := [S]) [a, b] Y [] hp (by simp) (by simp) hl2 rfl ?_)
    intro st2 h2
    exact h2.s (.inl ⟨a, b, by simp [id_user]⟩)
  · refine resize_step (A := [S]) h.holds rfl rfl ?_ s_thrown
    intro hs X' st' t' hl _ hp
    obtain ⟨a, Y, rfl, hl1⟩ := len_succ (n := txt.length + 1 + 1) (by omega : X'.length = _)
    obtain ⟨b, Y, rfl, hl2⟩ := len_succ hl1
    obtain ⟨Y, z, rfl, hl3⟩ := len_snoc hl2
    refine put_mid (A := [S]) [] [a] (b :: (Y ++ [z])) hp (by simp) rfl rfl rfl fun st1 h1 => ?_
    refine put_mid (A := [S]) [some c!"/"] [b] (Y ++ [z]) h1 (by simp) rfl rfl rfl fun st2 h2 => ?_
    refine put_mid (A := [S]) (slashes ++ Y) [z] [] h2 (by simp; omega) (by simp) rfl rfl fun st3 h3 => ?_
    refine split_step (A := [S]) (x := slashes ++ Y) (y := [some c!"@"]) (z := W) (by simpa using h3) rfl (by decide)
      (by simp; omega) fun st4 h4 => ?_
    refine last_step (put_mid (A := [S]) slashes Y [] h4 (by simp) (by simp) hl3 rfl fun st5 h5 => ?_)
    exact h5.s (.inl ⟨some c!"/", some c!"/", by simp [id_user]⟩)

theorem s_set_user (hd : env.dbg = false) (s : Str) : SOut env (UserSlot (userinfo_nc_pct_set.encode s)) (Base.set_user s env st) := by
  unfold Base.set_user
  split
  · rename_i hs
    have hs : s = [] := by simpa using hs
    subst hs
    have e0 : userinfo_nc_pct_set.encode [] = [] := rfl
    rw [e0]
    rw [run_bind_ret run_pt]
    split
    · rename_i hu
      have hu : U = [] := by simpa [w_len h, id_user] using hu
      exact h.holds.s (.inr ⟨by simp [id_user, hu], rfl⟩)
    · have ha : Base.assertUserinfo env st = .ret () st := by
        unfold Base.assertUserinfo
        rw [assert_bind hd, assert_bind hd, assert_bind hd, assert_off hd]
      rw [run_bind_ret ha, run_bind_ret run_pt]
      split
      · refine s_cut (A := [S]) (Xs := [U, W]) (B := [H, P, pa, q, f]) (k := 1) (by simpa using h.holds) rfl rfl rfl ?_
        intro st' X' hl
        obtain ⟨a, Y, rfl, hl1⟩ := len_succ hl
        obtain ⟨b, Y, rfl, hl2⟩ := len_succ hl1
        obtain rfl := List.length_eq_zero_iff.1 hl2
        exact .inl ⟨a, b, by simp [id_user]⟩
      · refine resize_step (A := [S]) h.holds rfl rfl ?_ s_thrown
        intro hs X' st' t' hl htake hp
        obtain ⟨a, Y, rfl, hl1⟩ := len_succ hl
        obtain ⟨b, Y, rfl, hl2⟩ := len_succ hl1
        obtain rfl := List.length_eq_zero_iff.1 hl2
        exact hp.s (.inl ⟨a, b, by simp [id_user]⟩)
  · exact s_store_user h hd (encoded_size_eq setOf_userinfo_nc _)

theorem s_set_encoded_user (hd : env.dbg = false) (s : Str) : SOut env (UserSlot s) (Base.set_encoded_user s env st) := by
  unfold Base.set_encoded_user
  split
  · rename_i hs
    have hs : s = [] := by simpa using hs
    subst hs
    exact s_set_user h hd []
  · exact s_require fun _ => s_store_user h hd rfl

theorem s_store_password {n : Nat} {txt : Str} (hn : n = txt.length) :
    SOut env (PasswordSlot (some txt)) ((do
    if (← M.pt).length id_user ≠ 0 then
      let dest ← Base.resize id_password (1 + n + 1)
      M.put dest b!":"
      M.put (dest + (n + 1)) b!"@"
      M.put (dest + 1) txt
    else
      let dest ← Base.resize2 id_user id_host (2 + 1 + n + 1)
      M.put dest b!"/"
      M.put (dest + 1) b!"/"
      M.put (dest + 2) b!":"
      M.put (dest + (2 + n + 1)) b!"@"
      M.put (dest + 3) txt
      Base.split id_user 2) env st) := by
  subst hn
  rw [run_bind_ret run_pt]
  split
  · refine resize_step (A := [S, U]) h.holds rfl rfl ?_ s_thrown
    intro hs X' st' t' hl _ hp
    obtain ⟨a, Y, rfl, hl1⟩ := len_succ (n := txt.length + 1) (by omega : X'.length = _)
    obtain ⟨Y, z, rfl, hl2⟩ := len_snoc hl1
    refine put_mid (A := [S, U]) [] [a] (Y ++ [z]) hp (by simp) rfl rfl rfl fun st1 h1 => ?_
    refine put_mid (A := [S, U]) (some c!":" :: Y) [z] [] h1 (by simp; omega) (by simp) rfl rfl fun st2 h2 => ?_
    refine last_step (put_mid (A := [S, U]) [some c!":"] Y [some c!"@"] h2 (by simp) (by simp) hl2 rfl fun st3 h3 => ?_)
    exact h3.s (by simp [PasswordSlot, id_password])
  · refine resize2_step (A := [S]) (Xs := [U, W]) (k := 1) h.holds rfl rfl rfl rfl ?_ s_thrown
    intro hs X' st' t' hl _ hp
    obtain ⟨a, Y, rfl, hl1⟩ := len_succ (n := txt.length + 1 + 1 + 1) (by omega : X'.length = _)
    obtain ⟨b, Y, rfl, hl2⟩ := len_succ hl1
    obtain ⟨c, Y, rfl, hl3⟩ := len_succ hl2
    obtain ⟨Y, z, rfl, hl4⟩ := len_snoc hl3
    refine put_mid (A := [S]) [] [a] (b :: c :: (Y ++ [z])) hp (by simp) rfl rfl rfl fun st1 h1 => ?_
    refine put_mid (A := [S]) [some c!"/"] [b] (c :: (Y ++ [z])) h1 (by simp) rfl rfl rfl fun st2 h2 => ?_
    refine put_mid (A := [S]) slashes [c] (Y ++ [z]) h2 (by simp) rfl rfl rfl fun st3 h3 => ?_
    refine put_mid (A := [S]) (slashes ++ some c!":" :: Y) [z] [] h3 (by simp; omega) (by simp) rfl rfl fun st4 h4 => ?_
    refine put_mid (A := [S]) (slashes ++ [some c!":"]) Y [some c!"@"] h4 (by simp) (by simp) hl4 rfl fun st5 h5 => ?_
    refine last_step (split_step (A := [S]) (x := slashes) (y := some c!":" :: txt.map some ++ [some c!"@"]) (z := [])
      (by simpa using h5) rfl (by decide) rfl fun st6 h6 => ?_)
    exact h6.s (by simp [PasswordSlot, id_password])

theorem s_set_password (hd : env.dbg = false) (s : Str) :
    SOut env (PasswordSlot (if s = [] then none else some (userinfo_pct_set.encode s))) (Base.set_password s env st) := by
  unfold Base.set_password
  by_cases hs : s = []
  · subst hs
    simp only [List.isEmpty_nil, if_true]
    rw [run_bind_ret run_pt]
    split
    · rename_i hw
      have hw : W = [] := by simpa [w_len h, id_password] using hw
      exact h.holds.s (.inl (by simp [id_password, hw]))
    · have ha : Base.assertUserinfo env st = .ret () st := by
        unfold Base.assertUserinfo
        rw [assert_bind hd, assert_bind hd, assert_bind hd, assert_off hd]
      rw [run_bind_ret ha, run_bind_ret run_pt]
      split
      · exact s_clear (A := [S, U]) h.holds rfl fun _ => .inl (by simp [id_password])
      · exact s_write (A := [S, U]) rfl h.holds rfl fun _ => .inr (by simp [id_password])
  · rw [if_neg hs, if_neg (by simpa using hs)]
    exact s_store_password h (encoded_size_eq setOf_userinfo _)

theorem s_set_encoded_password (hd : env.dbg = false) (s : Str) :
    SOut env (PasswordSlot (if s = [] then none else some s)) (Base.set_encoded_password s env st) := by
  by_cases hs : s = []
  · subst hs
    exact s_set_password h hd []
  · unfold Base.set_encoded_password
    rw [if_neg hs, if_neg (by simpa using hs)]
    exact s_require fun _ => s_require fun _ => s_store_password h rfl

theorem s_set_password_part (hd : env.dbg = false) (s : Str) :
    SOut env (PasswordSlot (if s = [] ∨ s.length = 1 ∧ U = [] then none else some (s.drop 1))) (Base.set_password_part s env st) := by
  by_cases hs : s = []
  · subst hs
    rw [if_pos (.inl rfl)]
    exact s_set_password h hd []
  · unfold Base.set_password_part
    rw [if_neg (c := List.isEmpty s = true) (by simpa using hs)]
    by_cases h1 : s.length = 1
    · rw [if_pos h1]
      refine s_require fun _ => ?_
      rw [run_bind_ret run_pt]
      have hdrop : s.drop 1 = [] := by rw [List.drop_eq_nil_iff]; omega
      rw [hdrop]
      by_cases hu : U = []
      case neg =>
        rw [if_neg (c := s = [] ∨ _) (by rintro (e | ⟨-, e⟩); exact hs e; exact hu e),
          if_pos (by rw [w_len h]; simpa [id_user] using hu)]
        refine resize_step (A := [S, U]) h.holds rfl rfl ?_ s_thrown
        intro hs X' st' t' hl _ hp
        obtain ⟨a, Y, rfl, hl1⟩ := len_succ hl
        obtain ⟨b, Y, rfl, hl2⟩ := len_succ hl1
        obtain rfl := List.length_eq_zero_iff.1 hl2
        refine put_mid (A := [S, U]) [] [a] [b] hp (by simp) rfl rfl rfl fun st1 h1 => ?_
        refine last_step (put_mid (A := [S, U]) [some c!":"] [b] [] h1 (by simp) (by simp) rfl rfl fun st2 h2 => ?_)
        exact h2.s (by simp [PasswordSlot, id_password])
      case pos =>
        subst hu
        rw [if_pos (c := s = [] ∨ _) (.inr ⟨h1, rfl⟩), if_neg (by rw [w_len h]; simp [id_user])]
        refine resize2_step (A := [S]) (Xs := [[], W]) (k := 1) h.holds rfl rfl rfl rfl ?_ s_thrown
        intro hs X' st' t' hl _ hp
        obtain ⟨a, Y, rfl, hl1⟩ := len_succ hl
        obtain ⟨b, Y, rfl, hl2⟩ := len_succ hl1
        obtain ⟨c, Y, rfl, hl3⟩ := len_succ hl2
        obtain ⟨d, Y, rfl, hl4⟩ := len_succ hl3
        obtain rfl := List.length_eq_zero_iff.1 hl4
        refine put_mid (A := [S]) [] [a] [b, c, d] hp (by simp) rfl rfl rfl fun st1 h1 => ?_
        refine put_mid (A := [S]) [some c!"/"] [b] [c, d] h1 (by simp) rfl rfl rfl fun st2 h2 => ?_
        refine put_mid (A := [S]) slashes [c] [d] h2 (by simp) rfl rfl rfl fun st3 h3 => ?_
        refine put_mid (A := [S]) (slashes ++ [some c!":"]) [d] [] h3 (by simp) rfl rfl rfl fun st4 h4 => ?_
        refine split_step (A := [S]) (x := slashes) (y := [some c!":", some c!"@"]) (z := [])
          (by simpa using h4) rfl (by decide) rfl fun st5 h5 => ?_
        exact s_set_encoded_password (U := slashes) (W := [some c!":", some c!"@"])
          ⟨by simpa using h5.holds, h.S, by simp, h.H, h.P, h.pa, h.q, h.f⟩ hd []
    · rw [if_neg (c := s.length = 1) h1]
      have hl : s.length ≠ 0 := by simpa using hs
      have hne : s.drop 1 ≠ [] := by rw [Ne, List.drop_eq_nil_iff]; omega
      rw [if_neg (by rintro (e | ⟨e, -⟩); exact hs e; exact h1 e)]
      exact (s_set_encoded_password h hd (s.drop 1)).mono fun st L hq => by rwa [if_neg hne] at hq

/-- the host is the text `s` and has kind `k` -/
def HostSlot (s : Str) (k : HostType) (st : St) (L : List (List Cell)) : Prop := L.getD id_host [] = s.map some ∧ st.pt.host = k

theorem s_store_host {n : Nat} {txt : Str} {k : HostType} {g : Unit → M Unit} (hn : n = txt.length)
    (hg : ∀ e s, g () e s = .ret () { s with pt := { s.pt with host := k } }) :
    SOut env (HostSlot txt k) ((do
      if !(← M.ask fun o => .ok (has_authority o)) then
        let dest ← Base.resize id_user (2 + n)
        M.put dest b!"/"
        M.put (dest + 1) b!"/"
        Base.split id_user 2
        Base.split id_password 0
        M.put (dest + 2) txt
        g ()
      else
        let dest ← Base.resize id_host n
        M.put dest txt
        g ()) env st) := by
  subst hn
  rw [run_bind_ret run_ask_auth]
  split
  · rename_i ha
    have ha : st.pt.length2 id_user id_path = 0 := by simpa [has_authority, St.obj] using ha
    rw [w_len2_auth h] at ha
    obtain rfl := List.length_eq_zero_iff.1 (show U.length = 0 by omega)
    obtain rfl := List.length_eq_zero_iff.1 (show W.length = 0 by omega)
    obtain rfl := List.length_eq_zero_iff.1 (show H.length = 0 by omega)
    obtain rfl := List.length_eq_zero_iff.1 (show P.length = 0 by omega)
    refine resize_step (A := [S]) h.holds rfl rfl ?_ s_thrown
    intro hs X' st' t' hl _ hp
    obtain ⟨a, Y, rfl, hl1⟩ := len_succ (n := txt.length + 1) (by omega : X'.length = _)
    obtain ⟨b, Y, rfl, hl2⟩ := len_succ hl1
    refine put_mid (A := [S]) [] [a] (b :: Y) hp (by simp) rfl rfl rfl fun st1 h1 => ?_
    refine put_mid (A := [S]) [some c!"/"] [b] Y h1 (by simp) rfl rfl rfl fun st2 h2 => ?_
    refine split_step (A := [S]) (x := slashes) (y := Y) (z := []) (by simpa using h2) rfl (by decide) rfl fun st4 h4 => ?_
    refine split_step (A := [S, slashes]) (x := []) (y := Y) (z := []) (by simpa using h4) rfl (by decide) rfl fun st5 h5 => ?_
    refine put_mid (A := [S, slashes, []]) [] Y [] (by simpa using h5) (by simp) (by simp) hl2 rfl fun st6 h6 => ?_
    rw [hg]
    exact h6.holds.setHost.s ⟨by simp [id_host], rfl⟩
  · refine resize_step (A := [S, U, W]) h.holds rfl rfl ?_ s_thrown
    intro hs X' st' t' hl _ hp
    refine put_mid (A := [S, U, W]) [] X' [] hp (by simp) (by simp) hl rfl fun st1 h1 => ?_
    rw [hg]
    exact h1.holds.setHost.s ⟨by simp [id_host], rfl⟩

theorem s_store_host' {txt : Str} {k : HostType} {g : Unit → M Unit}
    (hg : ∀ e s, g () e s = .ret () { s with pt := { s.pt with host := k } }) :
    SOut env (HostSlot txt k) ((do
      if !(← M.ask fun o => .ok (has_authority o)) then
        let r ← Base.addHost txt
        g r
      else
        let dest ← Base.resize id_host txt.length
        M.put dest txt
        g ()) env st) := by
  have := s_store_host (txt := txt) (g := g) h rfl hg
  rw [run_bind_ret run_ask_auth] at this ⊢
  split at this
  · rename_i ha
    rw [if_pos ha]
    rw [← addHost_bind] at this
    exact this
  · rename_i ha
    rw [if_neg ha]
    exact this

theorem s_clear_host (hd : env.dbg = false) : SOut env (Slot id_host []) (Base.set_host [] env st) := by
  unfold Base.set_host
  simp only [List.isEmpty_nil, if_true]
  rw [run_bind_ret run_pt, run_bind_ret run_pt]
  split
  · rw [assert_bind hd]
    exact s_cut (A := [S]) (Xs := [U, W, H, P]) (B := [pa, q, f]) (k := 3) (by simpa using h.holds) rfl rfl rfl fun _ _ _ => rfl
  · exact s_clear (A := [S, U, W]) h.holds rfl fun _ => rfl

theorem s_set_host (hd : env.dbg = false) (s : Str) (hs : s ≠ []) :
    SOut env (fun st' L => ∃ txt k, PlainHost s txt k ∧ HostSlot txt k st' L) (Base.set_host s env st) := by
  obtain ⟨txt, hp, h1, h2⟩ := plain_hostname_of s
  unfold Base.set_host
  rw [if_neg (by simpa using hs)]
  simp only [(good_ip_literal (Good.init s)).flt]
  revert hp h1 h2
  generalize parse_plain_hostname s = k
  intro hp h1 h2
  rw [run_bind_ret (run_pure k), assert_bind hd]
  split
  · rename_i hk
    obtain rfl := h1 hk
    exact (s_store_host' (k := k) (g := fun _ => M.setPt fun pt => { pt with host := k }) h fun _ _ => rfl).mono
      fun _ _ hq => ⟨_, _, hp, hq⟩
  · rename_i hk
    have hk : k = .name := by simpa using hk
    obtain rfl := h2 hk
    refine (s_store_host (txt := reg_name_pct_set.encode s) (k := k) (g := fun _ => M.setPt fun pt => { pt with host := k }) h
        (encoded_size_eq setOf_regName _) fun _ _ => rfl).mono
      fun _ _ hq => ⟨_, _, hp, ?_⟩
    rw [← encode_eq setOf_regName]
    exact hq

theorem s_set_encoded_host (hd : env.dbg = false) (s : Str) : SOut env (Slot id_host s) (Base.set_encoded_host s env st) := by
  unfold Base.set_encoded_host
  split
  · rename_i hs
    have hs : s = [] := by simpa using hs
    subst hs
    exact s_clear_host h hd
  · exact s_parsedAll (good_hostname (Good.init s)).flt fun _ _ => (s_store_host' h fun _ _ => rfl).mono fun _ _ hq => hq.1

theorem s_set_port (hd : env.dbg = false) (s : Str) :
    SOut env (Slot id_port (if s = [] then [] else b!":" ++ s)) (Base.set_port s env st) := by
  unfold Base.set_port
  by_cases hs : s = []
  · subst hs
    simp only [List.isEmpty_nil, if_true]
    rw [run_bind_ret run_pt]
    split
    · rw [assert_bind hd]
      exact s_cut (A := [S]) (Xs := [U, W, H, P]) (B := [pa, q, f]) (k := 3) (by simpa using h.holds) rfl rfl rfl fun _ _ _ => rfl
    · exact s_clear (A := [S, U, W, H]) h.holds rfl fun _ => rfl
  · rw [if_neg hs, if_neg (by simpa using hs)]
    refine s_require fun _ => ?_
    rw [run_bind_ret run_ask_auth]
    split
    · rename_i ha
      have ha : st.pt.length2 id_user id_path = 0 := by simpa [has_authority, St.obj] using ha
      rw [w_len2_auth h] at ha
      obtain rfl := List.length_eq_zero_iff.1 (show U.length = 0 by omega)
      obtain rfl := List.length_eq_zero_iff.1 (show W.length = 0 by omega)
      obtain rfl := List.length_eq_zero_iff.1 (show H.length = 0 by omega)
      obtain rfl := List.length_eq_zero_iff.1 (show P.length = 0 by omega)
      refine resize_step (A := [S]) h.holds rfl rfl ?_ s_thrown
      intro hs X' st' t' hl _ hp
      obtain ⟨a, Y, rfl, hl1⟩ := len_succ (n := s.length + 1 + 1) (by omega : X'.length = _)
      obtain ⟨b, Y, rfl, hl2⟩ := len_succ hl1
      obtain ⟨c, Y, rfl, hl3⟩ := len_succ hl2
      refine put_mid (A := [S]) [] [a] (b :: c :: Y) hp (by simp) rfl rfl rfl fun st1 h1 => ?_
      refine put_mid (A := [S]) [some c!"/"] [b] (c :: Y) h1 (by simp) rfl rfl rfl fun st2 h2 => ?_
      refine put_mid (A := [S]) slashes [c] Y h2 (by simp) rfl rfl rfl fun st3 h3 => ?_
      refine split_step (A := [S]) (x := slashes) (y := some c!":" :: Y) (z := []) (by simpa using h3) rfl (by decide) rfl fun st4 h4 => ?_
      refine split_step (A := [S, slashes]) (x := []) (y := some c!":" :: Y) (z := []) (by simpa using h4) rfl (by decide) rfl fun st5 h5 => ?_
      refine split_step (A := [S, slashes, []]) (x := []) (y := some c!":" :: Y) (z := []) (by simpa using h5) rfl (by decide) rfl fun st6 h6 => ?_
      refine last_step (put_mid (A := [S, slashes, [], []]) [some c!":"] Y [] (by simpa using h6) (by simp) (by simp) hl3 rfl fun st7 h7 => ?_)
      exact h7.s (by simp [Slot, id_port])
    · exact s_delim (A := [S, U, W, H]) rfl h.holds rfl fun _ => by simp [Slot, id_port]

theorem s_set_port_part (hd : env.dbg = false) (s : Str) : SOut env (Slot id_port s) (Base.set_port_part s env st) := by
  unfold Base.set_port_part
  split
  · rename_i hs
    have hs : s = [] := by simpa using hs
    subst hs
    exact s_set_port h hd []
  · rename_i hs
    have hs : s ≠ [] := by simpa using hs
    refine s_require fun hh => ?_
    obtain ⟨r, rfl⟩ : ∃ r, s = c!":" :: r := by
      cases s with
      | nil => exact absurd rfl hs
      | cons a r => exact ⟨r, by simpa using hh⟩
    split
    · rename_i hl
      refine (s_set_port h hd r).mono fun st L hq => ?_
      rw [if_neg (by rintro rfl; simp at hl)] at hq
      exact hq
    · rename_i hl
      obtain rfl : r = [] := by simpa using hl
      exact s_write (A := [S, U, W, H]) rfl h.holds rfl fun _ => rfl

theorem s_set_encoded_path (s : Str) : SOut env (Slot id_path s) (Base.set_encoded_path s env st) := by
  unfold Base.set_encoded_path
  have fin : SOut env (Slot id_path s) ((Base.resize id_path s.length >>= fun dest => M.put dest s) env st) :=
    s_write (A := [S, U, W, H, P]) rfl h.holds rfl fun _ => rfl
  split
  · rename_i hs
    exact s_clear (A := [S, U, W, H, P]) h.holds rfl fun _ => by simp [Slot, id_path, List.isEmpty_iff.1 hs]
  · rw [run_bind_ret run_ask_auth]
    split
    · exact s_parsedAll (good_abempty (Good.init s)).flt fun _ _ => fin
    · split
      · exact s_parsedAll (good_absolute (Good.init s)).flt fun _ _ => fin
      · rw [run_bind_ret run_pt]
        split
        · exact s_parsedAll (good_first (Good.init s) _).flt fun _ _ => fin
        · exact s_parsedAll (good_first (Good.init s) _).flt fun _ _ => fin

end

section
variable {A B : List (List Cell)} {X : List Cell} {id : Nat} {d : Byte} {e : PctSet} {s : Str}
  (h : Holds env st (A ++ X :: B) t) (hid : id = A.length)
include h hid

theorem s_plain (hn : e.encoded_size s = (e.encode s).length) :
    SOut env (Slot id (if s = [] then [] else d :: e.encode s)) (Base.setPlain id d e s env st) := by
  unfold Base.setPlain
  by_cases hs : s = []
  · subst hs
    simp only [List.isEmpty_nil, if_true]
    exact s_clear h hid fun _ => by simp [Slot, hid]
  · rw [if_neg hs, if_neg (by simpa using hs)]
    exact s_delim hn h hid fun _ => by simp [Slot, hid]

theorem s_encoded : SOut env (Slot id (if s = [] then [] else d :: s)) (Base.setEncoded id d e s env st) := by
  unfold Base.setEncoded
  by_cases hs : s = []
  · subst hs
    simp only [List.isEmpty_nil, if_true]
    exact s_clear h hid fun _ => by simp [Slot, hid]
  · rw [if_neg hs, if_neg (by simpa using hs)]
    exact s_require fun _ => s_delim rfl h hid fun _ => by simp [Slot, hid]

theorem s_part : SOut env (Slot id s) (Base.setPart id d e s env st) := by
  unfold Base.setPart
  split
  · rename_i hs
    exact s_clear h hid fun _ => by simp [Slot, hid, List.isEmpty_iff.1 hs]
  · rename_i hs
    have hs : s ≠ [] := by simpa using hs
    refine s_require fun hh => s_require fun _ => ?_
    obtain ⟨r, rfl⟩ : ∃ r, s = d :: r := by
      cases s with
      | nil => exact absurd rfl hs
      | cons a r => exact ⟨r, by simpa using hh⟩
    exact s_delim rfl h hid fun _ => by simp [Slot, hid]

end

section
variable (h : Part8 env st S U W H P pa q f t)
include h

theorem s_port_number (hd : env.dbg = false) (n : UInt32) :
    SOut env (fun st L => ∃ s, Decimal n.toNat s ∧ Slot id_port (b!":" ++ s) st L) (Base.set_port_number n env st) := by
  unfold Base.set_port_number
  obtain ⟨s, hs, hdec, -⟩ := port_string_of n
  rw [run_bind_ret (run_ask (a := s) hs)]
  refine (s_set_port h hd s).mono fun st L hq => ⟨s, hdec, ?_⟩
  rwa [if_neg hdec.1] at hq

theorem s_normalize (hd : env.dbg = false) {s : Str} (hs : S = s.map some) :
    SOut env (fun st L => Slot id_scheme (s.dropLast.map lower ++ s.drop (s.length - 1)) st L) (Base.normalize_scheme env st) := by
  unfold Base.normalize_scheme
  subst hs
  rw [run_bind_ret run_pt]
  have hlen : st.pt.length id_scheme = s.length := by rw [w_len h]; simp [id_scheme]
  rw [hlen]
  rcases List.eq_nil_or_concat s with rfl | ⟨s, a, rfl⟩
  · exact h.holds.s rfl
  · rw [if_neg (by simp), assert_bind hd, run_bind_ret run_pt]
    have hoff : st.pt.off id_scheme = 0 := by rw [h.holds.rep]; simp [id_scheme]
    rw [hoff]
    have : (s.concat a).length - 1 = s.length := by simp
    rw [this]
    have hh : Holds env st ([] ++ ([] ++ (s ++ [a])).map some :: [U, W, H, P, pa, q, f]) t := by simpa using h.holds
    refine lowerLoop_of (st₀ := st) s [] [a] hh.start fun st' h' => ?_
    exact h'.s (by simp [Slot, id_scheme])

/-- `set_encoded_url` -/
theorem s_url (s : Str) : SOut env (fun _ L => L.length = 8 ∧ L.flatten = s.map some) (Base.set_encoded_url s env st) := by
  by_cases hs : s = []
  · subst hs
    unfold Base.set_encoded_url
    simp only [List.isEmpty_nil, if_true]
    rw [run_bind_ret run_isNull]
    by_cases hb : st.buf = none
    · rcases h.holds.buf with ⟨-, h2, -⟩ | ⟨junk, hb', -⟩
      · simp only [hb, Option.isNone_none]
        exact h.holds.s ⟨rfl, h2⟩
      · rw [hb] at hb'; simp at hb'
    · have : st.buf.isNone = false := by cases h : st.buf <;> simp_all
      simp only [this]
      refine s_cut (A := []) (Xs := [S, U, W, H, P, pa, q, f]) (B := []) (k := 7) (by simpa using h.holds) rfl rfl rfl ?_
      intro st' X' hl
      obtain rfl := List.length_eq_zero_iff.1 hl
      exact ⟨rfl, rfl⟩
  · by_cases hv : UriReference lib s
    · obtain ⟨c', hv, rfl⟩ := hv
      rcases base_set_url_holds h.holds hv hs with ⟨hs', st', e, h⟩ | ⟨hs', st', e, h2⟩
      · rw [e]
        obtain ⟨t', h'⟩ := h.rep
        refine h'.s ⟨?_, ?_⟩
        · obtain ⟨x, w, hst, pt, e⟩ := authTexts_four c'.auth
          simp [cells_eq, e]
        · exact cells_flatten c'
      · rw [e]; trivial
    · rw [base_set_url_bad s hs hv]; trivial

/-- `set_encoded_authority` -/
theorem s_authority (s : Str) (hs : s ≠ []) :
    SOut env (fun _ L => ((L.take id_path).drop id_user).flatten = (b!"//" ++ s).map some) (Base.set_encoded_authority s env st) := by
  by_cases hv : ∃ a, IsAuth a s
  · obtain ⟨a, ha, rfl⟩ := hv
    unfold Base.set_encoded_authority
    have he : a.render.isEmpty = false := by simpa using hs
    simp only [he, Bool.false_eq_true, if_false]
    obtain ⟨k, b, -⟩ := authority_parts ha
    rw [run_bind_ret (parsedAll_ok b.flt b.ec b.p)]
    have hlen : ∀ id, (parse_authority (PS.init a.render)).pt.length id = (([[]] ++ authParts [] a).getD id []).length := b.rep.length
    simp only [hlen]
    have hr := authParts_render a
    obtain ⟨u, hst, pt⟩ := a
    obtain ⟨x, w, -, e2, e3⟩ := userParts_two [] u
    simp only [authParts, e2] at hr hlen ⊢
    generalize hR : Auth.render ⟨u, hst, pt⟩ = s at *
    simp only [id_user, id_password, id_host, id_port, List.cons_append, List.nil_append, List.getD_cons_succ, List.getD_cons_zero]
    have hs : s = x ++ (w ++ (hst ++ portText pt)) := by rw [← hr]; simp
    refine resize2_step (A := [_]) (Xs := [U, W, _, _]) (k := 3) h.holds rfl rfl rfl rfl ?_ s_thrown
    intro hsto X' st' t' hl _ hp
    obtain ⟨a, Y, rfl, hl1⟩ := len_succ (n := s.length + 1) (by omega : X'.length = _)
    obtain ⟨b, Y, rfl, hl2⟩ := len_succ hl1
    refine put_mid (A := [_]) [] [a] (b :: Y) hp (by simp) rfl rfl rfl fun st1 h1 => ?_
    refine put_mid (A := [_]) [some c!"/"] [b] Y h1 (by simp) rfl rfl rfl fun st2 h2 => ?_
    refine put_mid (A := [_]) slashes Y [] h2 (by simp) (by simp) hl2 rfl fun st3 h3 => ?_
    rw [hs] at h3
    refine split_step (A := [_]) (x := slashes ++ x.map some) (y := (w ++ (hst ++ portText pt)).map some) (z := [])
      (by simpa using h3) rfl (by decide) (by simp; omega) fun st4 h4 => ?_
    refine split_step (A := [_, _]) (x := w.map some) (y := (hst ++ portText pt).map some) (z := [])
      (by simpa using h4) rfl (by decide) (by simp) fun st5 h5 => ?_
    refine split_step (A := [_, _, _]) (x := hst.map some) (y := (portText pt).map some) (z := [])
      (by simpa using h5) rfl (by decide) (by simp) fun st6 h6 => ?_
    rw [run_assert (by
      show Except.ok (decide (st6.pt.length 4 = (portText pt).length)) = _
      rw [h6.holds.rep.length]
      simp)]
    exact h6.s (by simp [hs, id_path])
  · rw [base_set_authority_bad s hs hv]; trivial

/-- `set_encoded_userinfo` -/
theorem s_userinfo (s : Str) (hs : s ≠ []) :
    SOut env (fun _ L => ((L.take id_host).drop id_user).flatten = (b!"//" ++ s ++ b!"@").map some) (Base.set_encoded_userinfo s env st) := by
  unfold Base.set_encoded_userinfo
  rw [if_neg (by simpa using hs)]
  refine s_parsedAll (good_userinfo (Good.init s)).flt fun h1 h2 => ?_
  obtain ⟨u, hu⟩ := userinfoText_exists (userinfo_all ⟨h1, h2⟩)
  have b := parse_userinfo_at hu
  have hlen : (parse_userinfo (PS.init s)).pt.length id_user = u.1.length := b.rep.length id_user
  rw [hlen]
  have hle : u.1.length ≤ s.length := by
    rw [← hu.2.2, userinfoText_eq]; simp
  refine resize2_step (A := [S]) (Xs := [U, W]) (B := [H, P, pa, q, f]) (k := 1) h.holds rfl rfl rfl rfl ?_ s_thrown
  intro hsto X' st' t' hl _ hp
  obtain ⟨a, Y, rfl, hl1⟩ := len_succ (n := s.length + 2) (by omega : X'.length = _)
  obtain ⟨b, Y, rfl, hl2⟩ := len_succ hl1
  obtain ⟨Y, z, rfl, hl3⟩ := len_snoc hl2
  refine put_mid (A := [_]) [] [a] (b :: (Y ++ [z])) hp (by simp) rfl rfl rfl fun st1 h1 => ?_
  refine put_mid (A := [_]) [some c!"/"] [b] (Y ++ [z]) h1 (by simp) rfl rfl rfl fun st2 h2 => ?_
  refine put_mid (A := [_]) slashes Y [z] h2 (by simp) (by simp) hl3 rfl fun st3 h3 => ?_
  have hx : ((b!"//" ++ s).take u.1.length).map some ++ (((b!"//" ++ s).drop u.1.length).map some ++ [z]) =
      slashes ++ (s.map some ++ [z]) := by
    rw [← List.append_assoc, ← List.map_append, List.take_append_drop]; simp
  refine split_step (A := [_]) (x := ((b!"//" ++ s).take u.1.length).map some)
    (y := ((b!"//" ++ s).drop u.1.length).map some ++ [z]) (z := [])
    (by rw [hx]; simpa using h3) rfl (by decide) (by simp; omega) fun st4 h4 => ?_
  refine last_step (put_mid (A := [_, _]) (((b!"//" ++ s).drop u.1.length).map some) [z] [] h4 (by simp; omega) (by simp) rfl rfl fun st5 h5 => ?_)
  refine h5.s ?_
  show ((b!"//" ++ s).take u.1.length).map some ++ ((((b!"//" ++ s).drop u.1.length).map some ++ [some c!"@"]) ++ []) = _
  rw [List.append_nil, ← List.append_assoc, ← List.map_append, List.take_append_drop]
  simp

end

end Url
