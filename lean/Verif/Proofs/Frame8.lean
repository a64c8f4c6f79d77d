import Verif.Proofs.Weak

/-!
A build without assertions: what the calls that set one part of the authority do to its other parts, whatever calls came
before.
-/

set_option linter.unusedSimpArgs false
attribute [-simp] List.length_flatten

namespace Url
open Spec

variable {env : Env} {st : St} {S U W H P pa q f : List Cell} {t : Cell} {Q : List Cell → List Cell → List Cell → List Cell → Prop}

/-- A call that throws or returns with user, password, host and port as `Q` says and the other parts as they were. -/
def AOut (env : Env) (S pa q f : List Cell) (Q : List Cell → List Cell → List Cell → List Cell → Prop) : Out Unit → Prop
  | .ret _ st' => ∃ U' W' H' P' t', Holds env st' [S, U', W', H', P', pa, q, f] t' ∧ Q U' W' H' P'
  | .throw _ _ => True
  | .fault _ => False

theorem a_thrown {p : Prop} (_ : p) (e : Exc) (st' : St) (_ : e = .bad_alloc ∨ e = .too_large) (_ : Same st st') :
    AOut env S pa q f Q (.throw e st') := trivial

theorem a_done {st' : St} {U' W' H' P' : List Cell} {t' : Cell} (h : Holds env st' [S, U', W', H', P', pa, q, f] t') (hq : Q U' W' H' P') :
    AOut env S pa q f Q (.ret () st') := ⟨_, _, _, _, _, h, hq⟩

theorem a_require {b : Bool} {g : Unit → M Unit} (h : b = true → AOut env S pa q f Q (g () env st)) :
    AOut env S pa q f Q ((Base.require b >>= g) env st) := by
  cases b with
  | true => rw [run_bind_ret (run_require rfl)]; exact h rfl
  | false => rw [run_bind_throw (run_require_false rfl)]; trivial

theorem a_parsedAll {ps : PS} {g : Parts → M Unit} (hf : ps.flt = none) (h : AOut env S pa q f Q (g ps.pt env st)) :
    AOut env S pa q f Q ((Base.parsedAll ps >>= g) env st) := by
  by_cases hp : ps.ec = none ∧ ps.p = []
  · rw [run_bind_ret (parsedAll_ok hf hp.1 hp.2)]; exact h
  · rw [run_bind_throw (parsedAll_bad hf hp)]; trivial

theorem AOut.mono {Q' : List Cell → List Cell → List Cell → List Cell → Prop} {o : Out Unit} (h : AOut env S pa q f Q o)
    (hq : ∀ U W H P, Q U W H P → Q' U W H P) : AOut env S pa q f Q' o := by
  cases o with
  | ret a st' => obtain ⟨U', W', H', P', t', h1, h2⟩ := h; exact ⟨_, _, _, _, _, h1, hq _ _ _ _ h2⟩
  | throw => trivial
  | fault => exact h

/-- the password is as it was, or it was and is empty, with or without the `@` -/
def PasswordKept (W W' : List Cell) : Prop := W' = W ∨ W.length ≤ 1 ∧ (W' = [] ∨ W' = [some c!"@"])

/-- the user is as it was, or there is an authority now -/
def UserKept (U U' : List Cell) : Prop := U' = U ∨ U = [] ∧ U' = slashes

section
variable (h : Part8 env st S U W H P pa q f t)
include h

theorem a_store_user {n : Nat} {txt : Str} (hd : env.dbg = false) (hn : n = txt.length) :
    AOut env S pa q f (fun _ W' H' P' => PasswordKept W W' ∧ H' = H ∧ P' = P) ((do
    if (← M.pt).length id_password ≠ 0 then
      M.assert fun o => do backIs (← o.get id_password) c!"@"
      let dest ← Base.resize id_user (2 + n)
      M.put (dest + 2) txt
    else
      let dest ← Base.resize id_user (2 + n + 1)
      M.put dest b!"/"
      M.put (dest + 1) b!"/"
      M.put (dest + (2 + n)) b!"@"
      Base.split id_user (2 + n)
      M.put (dest + 2) txt) env st) := by
  subst hn
  rw [run_bind_ret run_pt]
  split
  · rw [assert_bind hd]
    refine resize_step (A := [S]) h.holds rfl rfl ?_ a_thrown
    intro hs X' st' t' hl htake hp
    obtain ⟨a, Y, rfl, hl1⟩ := len_succ (n := txt.length + 1) (by omega : X'.length = _)
    obtain ⟨b, Y, rfl, hl2⟩ := len_succ hl1
    refine last_step (put_mid (A := [S]) [a, b] Y [] hp (by simp) (by simp) hl2 rfl ?_)
    intro st2 h2
    exact a_done h2.holds ⟨.inl rfl, rfl, rfl⟩
  · rename_i hw
    have hw : W = [] := by simpa [w_len h, id_password] using hw
    subst hw
    refine resize_step (A := [S]) h.holds rfl rfl ?_ a_thrown
    intro hs X' st' t' hl _ hp
    obtain ⟨a, Y, rfl, hl1⟩ := len_succ (n := txt.length + 1 + 1) (by omega : X'.length = _)
    obtain ⟨b, Y, rfl, hl2⟩ := len_succ hl1
    obtain ⟨Y, z, rfl, hl3⟩ := len_snoc hl2
    refine put_mid (A := [S]) [] [a] (b :: (Y ++ [z])) hp (by simp) rfl rfl rfl fun st1 h1 => ?_
    refine put_mid (A := [S]) [some c!"/"] [b] (Y ++ [z]) h1 (by simp) rfl rfl rfl fun st2 h2 => ?_
    refine put_mid (A := [S]) (slashes ++ Y) [z] [] h2 (by simp; omega) (by simp) rfl rfl fun st3 h3 => ?_
    refine split_step (A := [S]) (x := slashes ++ Y) (y := [some c!"@"]) (z := []) (by simpa using h3) rfl (by decide)
      (by simp; omega) fun st4 h4 => ?_
    refine last_step (put_mid (A := [S]) slashes Y [] h4 (by simp) (by simp) hl3 rfl fun st5 h5 => ?_)
    exact a_done h5.holds ⟨.inr ⟨Nat.zero_le _, .inr rfl⟩, rfl, rfl⟩

theorem a_set_user (hd : env.dbg = false) (s : Str) :
    AOut env S pa q f (fun _ W' H' P' => PasswordKept W W' ∧ H' = H ∧ P' = P) (Base.set_user s env st) := by
  unfold Base.set_user
  split
  · rw [run_bind_ret run_pt]
    split
    · exact a_done h.holds ⟨.inl rfl, rfl, rfl⟩
    · have ha : Base.assertUserinfo env st = .ret () st := by
        unfold Base.assertUserinfo
        rw [assert_bind hd, assert_bind hd, assert_bind hd, assert_off hd]
      rw [run_bind_ret ha, run_bind_ret run_pt]
      split
      · rename_i hw
        have hw : W.length = 1 := by simpa [w_len h, id_password] using hw
        refine resize2_step (A := [S]) (Xs := [U, W]) (B := [H, P, pa, q, f]) (k := 1) (by simpa using h.holds) rfl rfl rfl rfl ?_ a_thrown
        intro hs X' st' t' hl _ hp
        exact a_done hp.holds ⟨.inr ⟨by omega, .inl rfl⟩, rfl, rfl⟩
      · refine resize_step (A := [S]) h.holds rfl rfl ?_ a_thrown
        intro hs X' st' t' hl htake hp
        exact a_done hp.holds ⟨.inl rfl, rfl, rfl⟩
  · exact a_store_user h hd (encoded_size_eq setOf_userinfo_nc _)

theorem a_set_encoded_user (hd : env.dbg = false) (s : Str) :
    AOut env S pa q f (fun _ W' H' P' => PasswordKept W W' ∧ H' = H ∧ P' = P) (Base.set_encoded_user s env st) := by
  unfold Base.set_encoded_user
  split
  · exact a_set_user h hd s
  · exact a_require fun _ => a_store_user h hd rfl

theorem a_store_password {n : Nat} {txt : Str} (hn : n = txt.length) :
    AOut env S pa q f (fun U' _ H' P' => UserKept U U' ∧ H' = H ∧ P' = P) ((do
    if (← M.pt).length id_user ≠ 0 then
      let dest ← Base.resize id_password (1 + n + 1)
      M.put dest b!":"
      M.put (dest + (n + 1)) b!"@"
      M.put (dest + 1) txt
    else
      let dest ← Base.resize2 id_user id_host (2 + 1 + n + 1)
      M.put dest b!"/"
      M.put (dest + 1) b!"/"
      M.put (dest + 2) b!":"
      M.put (dest + (2 + n + 1)) b!"@"
      M.put (dest + 3) txt
      Base.split id_user 2) env st) := by
  subst hn
  rw [run_bind_ret run_pt]
  split
  · refine resize_step (A := [S, U]) h.holds rfl rfl ?_ a_thrown
    intro hs X' st' t' hl _ hp
    obtain ⟨a, Y, rfl, hl1⟩ := len_succ (n := txt.length + 1) (by omega : X'.length = _)
    obtain ⟨Y, z, rfl, hl2⟩ := len_snoc hl1
    refine put_mid (A := [S, U]) [] [a] (Y ++ [z]) hp (by simp) rfl rfl rfl fun st1 h1 => ?_
    refine put_mid (A := [S, U]) (some c!":" :: Y) [z] [] h1 (by simp; omega) (by simp) rfl rfl fun st2 h2 => ?_
    refine last_step (put_mid (A := [S, U]) [some c!":"] Y [some c!"@"] h2 (by simp) (by simp) hl2 rfl fun st3 h3 => ?_)
    exact a_done h3.holds ⟨.inl rfl, rfl, rfl⟩
  · rename_i hu
    have hu : U = [] := by simpa [w_len h, id_user] using hu
    subst hu
    refine resize2_step (A := [S]) (Xs := [[], W]) (k := 1) h.holds rfl rfl rfl rfl ?_ a_thrown
    intro hs X' st' t' hl _ hp
    obtain ⟨a, Y, rfl, hl1⟩ := len_succ (n := txt.length + 1 + 1 + 1) (by omega : X'.length = _)
    obtain ⟨b, Y, rfl, hl2⟩ := len_succ hl1
    obtain ⟨c, Y, rfl, hl3⟩ := len_succ hl2
    obtain ⟨Y, z, rfl, hl4⟩ := len_snoc hl3
    refine put_mid (A := [S]) [] [a] (b :: c :: (Y ++ [z])) hp (by simp) rfl rfl rfl fun st1 h1 => ?_
    refine put_mid (A := [S]) [some c!"/"] [b] (c :: (Y ++ [z])) h1 (by simp) rfl rfl rfl fun st2 h2 => ?_
    refine put_mid (A := [S]) slashes [c] (Y ++ [z]) h2 (by simp) rfl rfl rfl fun st3 h3 => ?_
    refine put_mid (A := [S]) (slashes ++ some c!":" :: Y) [z] [] h3 (by simp; omega) (by simp) rfl rfl fun st4 h4 => ?_
    refine put_mid (A := [S]) (slashes ++ [some c!":"]) Y [some c!"@"] h4 (by simp) (by simp) hl4 rfl fun st5 h5 => ?_
    refine last_step (split_step (A := [S]) (x := slashes) (y := some c!":" :: txt.map some ++ [some c!"@"]) (z := [])
      (by simpa using h5) rfl (by decide) rfl fun st6 h6 => ?_)
    exact a_done h6.holds ⟨.inr ⟨rfl, rfl⟩, rfl, rfl⟩

theorem a_set_password (hd : env.dbg = false) (s : Str) :
    AOut env S pa q f (fun U' _ H' P' => UserKept U U' ∧ H' = H ∧ P' = P) (Base.set_password s env st) := by
  unfold Base.set_password
  split
  · rw [run_bind_ret run_pt]
    split
    · exact a_done h.holds ⟨.inl rfl, rfl, rfl⟩
    · have ha : Base.assertUserinfo env st = .ret () st := by
        unfold Base.assertUserinfo
        rw [assert_bind hd, assert_bind hd, assert_bind hd, assert_off hd]
      rw [run_bind_ret ha, run_bind_ret run_pt]
      split
      · refine resize_step (A := [S, U]) h.holds rfl rfl ?_ a_thrown
        intro hs X' st' t' hl _ hp
        exact a_done hp.holds ⟨.inl rfl, rfl, rfl⟩
      · refine resize_step (A := [S, U]) h.holds rfl rfl ?_ a_thrown
        intro hs X' st' t' hl _ hp
        refine last_step (put_step hp (k := 0) (by simp) (by simp; omega) ?_)
        intro st1 h1
        exact a_done h1.holds ⟨.inl rfl, rfl, rfl⟩
  · exact a_store_password h (encoded_size_eq setOf_userinfo _)

theorem a_set_encoded_password (hd : env.dbg = false) (s : Str) :
    AOut env S pa q f (fun U' _ H' P' => UserKept U U' ∧ H' = H ∧ P' = P) (Base.set_encoded_password s env st) := by
  unfold Base.set_encoded_password
  split
  · exact a_set_password h hd s
  · exact a_require fun _ => a_require fun _ => a_store_password h rfl

theorem a_set_password_part (hd : env.dbg = false) (s : Str) :
    AOut env S pa q f (fun U' _ H' P' => UserKept U U' ∧ H' = H ∧ P' = P) (Base.set_password_part s env st) := by
  unfold Base.set_password_part
  split
  · exact a_set_password h hd s
  · split
    · refine a_require fun _ => ?_
      rw [run_bind_ret run_pt]
      split
      · refine resize_step (A := [S, U]) h.holds rfl rfl ?_ a_thrown
        intro hs X' st' t' hl _ hp
        obtain ⟨a, Y, rfl, hl1⟩ := len_succ hl
        obtain ⟨b, Y, rfl, hl2⟩ := len_succ hl1
        obtain rfl := List.length_eq_zero_iff.1 hl2
        refine put_mid (A := [S, U]) [] [a] [b] hp (by simp) rfl rfl rfl fun st1 h1 => ?_
        refine last_step (put_mid (A := [S, U]) [some c!":"] [b] [] h1 (by simp) (by simp) rfl rfl fun st2 h2 => ?_)
        exact a_done h2.holds ⟨.inl rfl, rfl, rfl⟩
      · rename_i hu
        have hu : U = [] := by simpa [w_len h, id_user] using hu
        subst hu
        refine resize2_step (A := [S]) (Xs := [[], W]) (k := 1) h.holds rfl rfl rfl rfl ?_ a_thrown
        intro hs X' st' t' hl _ hp
        obtain ⟨a, Y, rfl, hl1⟩ := len_succ hl
        obtain ⟨b, Y, rfl, hl2⟩ := len_succ hl1
        obtain ⟨c, Y, rfl, hl3⟩ := len_succ hl2
        obtain ⟨d, Y, rfl, hl4⟩ := len_succ hl3
        obtain rfl := List.length_eq_zero_iff.1 hl4
        refine put_mid (A := [S]) [] [a] [b, c, d] hp (by simp) rfl rfl rfl fun st1 h1 => ?_
        refine put_mid (A := [S]) [some c!"/"] [b] [c, d] h1 (by simp) rfl rfl rfl fun st2 h2 => ?_
        refine put_mid (A := [S]) slashes [c] [d] h2 (by simp) rfl rfl rfl fun st3 h3 => ?_
        refine put_mid (A := [S]) (slashes ++ [some c!":"]) [d] [] h3 (by simp) rfl rfl rfl fun st4 h4 => ?_
        refine split_step (A := [S]) (x := slashes) (y := [some c!":", some c!"@"]) (z := [])
          (by simpa using h4) rfl (by decide) rfl fun st5 h5 => ?_
        refine (a_set_encoded_password (U := slashes) (W := [some c!":", some c!"@"])
          ⟨by simpa using h5.holds, h.S, by simp, h.H, h.P, h.pa, h.q, h.f⟩ hd _).mono ?_
        rintro U' W' H' P' ⟨hu, e1, e2⟩
        refine ⟨.inr ⟨rfl, ?_⟩, e1, e2⟩
        rcases hu with hu | ⟨hu, -⟩
        · exact hu
        · cases hu
    · exact a_set_encoded_password h hd _

/-- what setting the host does to the rest of the authority -/
def HostKept (U W H P : List Cell) (cl : Prop) (U' W' _ P' : List Cell) : Prop :=
  (U' = U ∧ W' = W ∧ P' = P) ∨ (U = [] ∧ W = [] ∧ H = [] ∧ P = [] ∧ U' = slashes ∧ W' = [] ∧ P' = []) ∨
  (cl ∧ U.length + W.length = 2 ∧ P = [] ∧ U' = [] ∧ W' = [] ∧ P' = [])

theorem a_store_host {n : Nat} {txt : Str} {k : HostType} {g : Unit → M Unit} {cl : Prop} (hn : n = txt.length)
    (hg : ∀ e s, g () e s = .ret () { s with pt := { s.pt with host := k } }) :
    AOut env S pa q f (HostKept U W H P cl) ((do
      if !(← M.ask fun o => .ok (has_authority o)) then
        let dest ← Base.resize id_user (2 + n)
        M.put dest b!"/"
        M.put (dest + 1) b!"/"
        Base.split id_user 2
        Base.split id_password 0
        M.put (dest + 2) txt
        g ()
      else
        let dest ← Base.resize id_host n
        M.put dest txt
        g ()) env st) := by
  subst hn
  rw [run_bind_ret run_ask_auth]
  split
  · rename_i ha
    have ha : st.pt.length2 id_user id_path = 0 := by simpa [has_authority, St.obj] using ha
    rw [w_len2_auth h] at ha
    obtain rfl := List.length_eq_zero_iff.1 (show U.length = 0 by omega)
    obtain rfl := List.length_eq_zero_iff.1 (show W.length = 0 by omega)
    obtain rfl := List.length_eq_zero_iff.1 (show H.length = 0 by omega)
    obtain rfl := List.length_eq_zero_iff.1 (show P.length = 0 by omega)
    refine resize_step (A := [S]) h.holds rfl rfl ?_ a_thrown
    intro hs X' st' t' hl _ hp
    obtain ⟨a, Y, rfl, hl1⟩ := len_succ (n := txt.length + 1) (by omega : X'.length = _)
    obtain ⟨b, Y, rfl, hl2⟩ := len_succ hl1
    refine put_mid (A := [S]) [] [a] (b :: Y) hp (by simp) rfl rfl rfl fun st1 h1 => ?_
    refine put_mid (A := [S]) [some c!"/"] [b] Y h1 (by simp) rfl rfl rfl fun st2 h2 => ?_
    refine split_step (A := [S]) (x := slashes) (y := Y) (z := []) (by simpa using h2) rfl (by decide) rfl fun st4 h4 => ?_
    refine split_step (A := [S, slashes]) (x := []) (y := Y) (z := []) (by simpa using h4) rfl (by decide) rfl fun st5 h5 => ?_
    refine put_mid (A := [S, slashes, []]) [] Y [] (by simpa using h5) (by simp) (by simp) hl2 rfl fun st6 h6 => ?_
    rw [hg]
    exact a_done h6.holds.setHost (.inr (.inl ⟨rfl, rfl, rfl, rfl, rfl, rfl, rfl⟩))
  · refine resize_step (A := [S, U, W]) h.holds rfl rfl ?_ a_thrown
    intro hs X' st' t' hl _ hp
    refine put_mid (A := [S, U, W]) [] X' [] hp (by simp) (by simp) hl rfl fun st1 h1 => ?_
    rw [hg]
    exact a_done h1.holds.setHost (.inl ⟨rfl, rfl, rfl⟩)

theorem a_store_host' {txt : Str} {k : HostType} {g : Unit → M Unit} {cl : Prop}
    (hg : ∀ e s, g () e s = .ret () { s with pt := { s.pt with host := k } }) :
    AOut env S pa q f (HostKept U W H P cl) ((do
      if !(← M.ask fun o => .ok (has_authority o)) then
        let r ← Base.addHost txt
        g r
      else
        let dest ← Base.resize id_host txt.length
        M.put dest txt
        g ()) env st) := by
  have := a_store_host (txt := txt) (g := g) (cl := cl) h rfl hg
  rw [run_bind_ret run_ask_auth] at this ⊢
  split at this
  · rename_i ha
    rw [if_pos ha]
    rw [← addHost_bind] at this
    exact this
  · rename_i ha
    rw [if_neg ha]
    exact this

theorem a_len2_host : st.pt.length2 id_user id_host = U.length + W.length := by
  unfold Parts.length2
  rw [h.holds.rep, h.holds.rep]
  simp [plen, id_user, id_host]

theorem a_len2_port : st.pt.length2 id_user id_port = U.length + W.length + H.length := by
  unfold Parts.length2
  rw [h.holds.rep, h.holds.rep]
  simp [plen, id_user, id_port]; omega

theorem a_set_host (hd : env.dbg = false) (s : Str) :
    AOut env S pa q f (HostKept U W H P (s = [])) (Base.set_host s env st) := by
  unfold Base.set_host
  split
  · rename_i hs
    have hs : s = [] := by simpa using hs
    rw [run_bind_ret run_pt, run_bind_ret run_pt]
    split
    · rename_i hl
      rw [assert_bind hd]
      refine resize2_step (A := [S]) (Xs := [U, W, H, P]) (B := [pa, q, f]) (k := 3) (by simpa using h.holds) rfl rfl rfl rfl ?_ a_thrown
      intro _ X' st' t' hx _ hp
      obtain rfl := List.length_eq_zero_iff.1 hx
      rw [a_len2_host h, w_len h] at hl
      exact a_done hp.holds (.inr (.inr ⟨hs, hl.1, List.length_eq_zero_iff.1 hl.2, rfl, rfl, rfl⟩))
    · refine resize_step (A := [S, U, W]) h.holds rfl rfl ?_ a_thrown
      intro _ X' st' t' hl _ hp
      exact a_done hp.holds (.inl ⟨rfl, rfl, rfl⟩)
  · simp only [(good_ip_literal (Good.init s)).flt]
    generalize parse_plain_hostname s = k
    rw [run_bind_ret (run_pure k), assert_bind hd]
    split
    · exact a_store_host' (k := k) (g := fun _ => M.setPt fun pt => { pt with host := k }) h fun _ _ => rfl
    · exact a_store_host (k := k) (g := fun _ => M.setPt fun pt => { pt with host := k }) h
        (encoded_size_eq setOf_regName _) fun _ _ => rfl

theorem a_set_encoded_host (hd : env.dbg = false) (s : Str) :
    AOut env S pa q f (HostKept U W H P (s = [])) (Base.set_encoded_host s env st) := by
  unfold Base.set_encoded_host
  split
  · exact a_set_host h hd s
  · exact a_parsedAll (good_hostname (Good.init s)).flt (a_store_host' h fun _ _ => rfl)

/-- what setting the port does to the rest of the authority -/
def PortKept (U W H P : List Cell) (cl : Prop) (U' W' H' _ : List Cell) : Prop :=
  (U' = U ∧ W' = W ∧ H' = H) ∨ (U = [] ∧ W = [] ∧ H = [] ∧ P = [] ∧ U' = slashes ∧ W' = [] ∧ H' = []) ∨
  (cl ∧ U.length + W.length + H.length = 2 ∧ U' = [] ∧ W' = [] ∧ H' = [])

theorem a_set_port (hd : env.dbg = false) (s : Str) :
    AOut env S pa q f (PortKept U W H P (s = [])) (Base.set_port s env st) := by
  unfold Base.set_port
  split
  · rename_i hs
    have hs : s = [] := by simpa using hs
    rw [run_bind_ret run_pt]
    split
    · rename_i hl
      rw [assert_bind hd]
      refine resize2_step (A := [S]) (Xs := [U, W, H, P]) (B := [pa, q, f]) (k := 3) (by simpa using h.holds) rfl rfl rfl rfl ?_ a_thrown
      intro _ X' st' t' hx _ hp
      obtain rfl := List.length_eq_zero_iff.1 hx
      rw [a_len2_port h] at hl
      exact a_done hp.holds (.inr (.inr ⟨hs, hl, rfl, rfl, rfl⟩))
    · refine resize_step (A := [S, U, W, H]) h.holds rfl rfl ?_ a_thrown
      intro _ X' st' t' hl _ hp
      exact a_done hp.holds (.inl ⟨rfl, rfl, rfl⟩)
  · refine a_require fun _ => ?_
    rw [run_bind_ret run_ask_auth]
    split
    · rename_i ha
      have ha : st.pt.length2 id_user id_path = 0 := by simpa [has_authority, St.obj] using ha
      rw [w_len2_auth h] at ha
      obtain rfl := List.length_eq_zero_iff.1 (show U.length = 0 by omega)
      obtain rfl := List.length_eq_zero_iff.1 (show W.length = 0 by omega)
      obtain rfl := List.length_eq_zero_iff.1 (show H.length = 0 by omega)
      obtain rfl := List.length_eq_zero_iff.1 (show P.length = 0 by omega)
      refine resize_step (A := [S]) h.holds rfl rfl ?_ a_thrown
      intro hs X' st' t' hl _ hp
      obtain ⟨a, Y, rfl, hl1⟩ := len_succ (n := s.length + 1 + 1) (by omega : X'.length = _)
      obtain ⟨b, Y, rfl, hl2⟩ := len_succ hl1
      obtain ⟨c, Y, rfl, hl3⟩ := len_succ hl2
      refine put_mid (A := [S]) [] [a] (b :: c :: Y) hp (by simp) rfl rfl rfl fun st1 h1 => ?_
      refine put_mid (A := [S]) [some c!"/"] [b] (c :: Y) h1 (by simp) rfl rfl rfl fun st2 h2 => ?_
      refine put_mid (A := [S]) slashes [c] Y h2 (by simp) rfl rfl rfl fun st3 h3 => ?_
      refine split_step (A := [S]) (x := slashes) (y := some c!":" :: Y) (z := []) (by simpa using h3) rfl (by decide) rfl fun st4 h4 => ?_
      refine split_step (A := [S, slashes]) (x := []) (y := some c!":" :: Y) (z := []) (by simpa using h4) rfl (by decide) rfl fun st5 h5 => ?_
      refine split_step (A := [S, slashes, []]) (x := []) (y := some c!":" :: Y) (z := []) (by simpa using h5) rfl (by decide) rfl fun st6 h6 => ?_
      refine last_step (put_mid (A := [S, slashes, [], []]) [some c!":"] Y [] (by simpa using h6) (by simp) (by simp) hl3 rfl fun st7 h7 => ?_)
      exact a_done h7.holds (.inr (.inl ⟨rfl, rfl, rfl, rfl, rfl, rfl, rfl⟩))
    · refine resize_step (A := [S, U, W, H]) h.holds rfl rfl ?_ a_thrown
      intro _ X' st' t' hl _ hp
      obtain ⟨x, Y, rfl, hy⟩ := len_succ (X := X') (n := s.length) (by omega)
      refine put_mid (A := [S, U, W, H]) [] [x] Y hp rfl rfl rfl rfl ?_
      intro st1 h1
      refine last_step (put_mid (A := [S, U, W, H]) [some c!":"] Y [] h1 rfl (by simp) hy rfl ?_)
      intro st2 h2
      exact a_done h2.holds (.inl ⟨rfl, rfl, rfl⟩)

theorem a_set_port_part (hd : env.dbg = false) (s : Str) :
    AOut env S pa q f (PortKept U W H P (s = [])) (Base.set_port_part s env st) := by
  unfold Base.set_port_part
  split
  · exact a_set_port h hd s
  · refine a_require fun _ => ?_
    split
    · rename_i hl
      refine (a_set_port h hd _).mono ?_
      rintro U' W' H' P' (h | h | ⟨h, -⟩)
      · exact .inl h
      · exact .inr (.inl h)
      · have := congrArg List.length h
        simp at this
        omega
    · refine resize_step (A := [S, U, W, H]) h.holds rfl rfl ?_ a_thrown
      intro _ X' st' t' hl _ hp
      refine last_step (put_step hp (k := 0) (by simp) (by simp; omega) ?_)
      intro st1 h1
      exact a_done h1.holds (.inl ⟨rfl, rfl, rfl⟩)

/-- `set_encoded_origin` leaves the rest of its argument in front of the path. -/
theorem a_origin {s : Str} {st' : St} (hr : Base.set_encoded_origin s env st = .ret () st') :
    ∃ S' U' W' H' P' t', ∃ r : Str, Holds env st' [S', U', W', H', P', r.map some ++ pa, q, f] t' ∧ (s = [] → r = []) ∧ r <:+ s := by
  by_cases hs : s = []
  · subst hs
    have key : ∀ o : Out Unit, Base.set_encoded_origin [] env st = o → o = .ret () st' →
        ∃ S' U' W' H' P' t', Holds env st' [S', U', W', H', P', pa, q, f] t' := by
      intro o ho
      unfold Base.set_encoded_origin at ho
      simp only [List.isEmpty_nil, if_true] at ho
      rw [← ho]
      refine resize2_step (A := []) (Xs := [S, U, W, H, P]) (B := [pa, q, f]) (k := 4)
        (P := fun o => o = .ret () st' → _) (by simpa using h.holds) rfl rfl rfl rfl ?_ ?_
      · intro _ X' st1 t' hl _ hp he
        cases he
        exact ⟨_, _, _, _, _, _, hp.holds⟩
      · intro _ _ _ _ _ he; cases he
    obtain ⟨S', U', W', H', P', t', h1⟩ := key _ rfl hr
    exact ⟨S', U', W', H', P', t', [], by simpa using h1, fun _ => rfl, List.suffix_refl _⟩
  · by_cases hv : (parse_origin s).ec = none
    · obtain ⟨sch, a, p, r, k, -, -, -, e, -, b⟩ := origin_sound hv
      revert hr
      refine origin_step (G := fun o => o = .ret () st' → _) hs b e h.holds rfl ?_ ?_
      · intro _ st1 t' h' he
        cases he
        obtain ⟨x, w, hst, pt, e'⟩ := authTexts_four a
        rw [e'] at h'
        exact ⟨_, _, _, _, _, _, p ++ r, h'.holds, fun h => absurd h hs, ⟨sch ++ b!":" ++ (authTexts a).flatten, by rw [e]; simp⟩⟩
      · intro _ _ _ _ _ he; cases he
    · exfalso
      unfold Base.set_encoded_origin at hr
      have he : s.isEmpty = false := by simpa using hs
      simp only [he, Bool.false_eq_true, if_false] at hr
      have hp : Base.parsed (parse_origin s) env st = .throw .invalid_part st := by
        have : (parse_origin s).ec.isSome = true := by simpa [Option.isSome_iff_ne_none] using hv
        simp [Base.parsed, (good_origin s).flt, this]
      rw [run_bind_throw hp] at hr; cases hr

theorem a_port_number (hd : env.dbg = false) (n : UInt32) :
    AOut env S pa q f (PortKept U W H P False) (Base.set_port_number n env st) := by
  unfold Base.set_port_number
  obtain ⟨s, hs, hdec, -⟩ := port_string_of n
  rw [run_bind_ret (run_ask (a := s) hs)]
  refine (a_set_port h hd s).mono ?_
  rintro U' W' H' P' (h | h | ⟨h, -⟩)
  · exact .inl h
  · exact .inr (.inl h)
  · exact absurd h hdec.1

end

end Url
