import Verif.Proofs.Stored
import Verif.Proofs.Exposed

/-!
The eight texts after a call, in a build without assertions and whatever calls came before.
-/

set_option linter.unusedSimpArgs false
set_option linter.unusedSectionVars false
attribute [-simp] List.length_flatten

namespace Url
open Spec

variable {env : Env} {st : St} {S U W H P pa q f : List Cell} {t : Cell} {Q : List (List Cell) → Prop} {V : Prop}

/-- A call that returns with the parts as `Q` says and a terminator as `N` says, throws `invalid_part` if `V` does not hold, or
throws for lack of memory. -/
def NOutOf (env : Env) (N : St → Prop) (V : Prop) (Q : List (List Cell) → Prop) : Out Unit → Prop
  | .ret _ st' => V ∧ N st' ∧ ∃ L t', Holds env st' L t' ∧ Q L
  | .throw e _ => e = .invalid_part ↔ ¬ V
  | .fault _ => False

/-- the terminator is there if it was, or was put in place by allocating -/
abbrev NOut (env : Env) (st : St) (V : Prop) (Q : List (List Cell) → Prop) : Out Unit → Prop :=
  NOutOf env (fun st' => Nul st' ↔ Mended st st') V Q

variable {N : St → Prop}

theorem n_throws (hv : V) {e : Exc} {st' : St} (he : e = .bad_alloc ∨ e = .too_large) : NOutOf env N V Q (.throw e st') := by
  rcases he with rfl | rfl <;> simp [NOutOf, hv]

theorem n_thrown (hv : V) {p : Prop} (_ : p) (e : Exc) (st' : St) (he : e = .bad_alloc ∨ e = .too_large) (_ : Same st st') :
    NOutOf env N V Q (.throw e st') := n_throws hv he

theorem n_bad (hv : ¬ V) : NOutOf env N V Q (.throw .invalid_part st) := by simp [NOutOf, hv]

theorem Prog.n {L : List (List Cell)} {m : Nat} {st' : St} {t' : Cell} (h : Prog env st m L st' t') (hv : V) (hq : Q L) :
    NOut env st V Q (.ret () st') := ⟨hv, h.holds.nul_iff.trans h.nul, L, t', h.holds, hq⟩

theorem Prog.nHost {L : List (List Cell)} {m : Nat} {st' : St} {t' : Cell} {k : HostType} (h : Prog env st m L st' t') (hv : V) (hq : Q L) :
    NOut env st V Q (.ret () { st' with pt := { st'.pt with host := k } }) :=
  ⟨hv, h.holds.nul_iff.trans h.nul, L, t', h.holds.setHost, hq⟩

theorem Holds.n {L : List (List Cell)} {t' : Cell} (h : Holds env st L t') (hv : V) (hq : Q L) : NOut env st V Q (.ret () st) :=
  ⟨hv, (Mended.same rfl).symm, L, t', h, hq⟩

theorem NOutOf.imp {Q' : List (List Cell) → Prop} {V' : Prop} {o : Out Unit} (h : NOutOf env N V Q o) (hv : V ↔ V') (hq : ∀ L, Q L → Q' L) :
    NOutOf env N V' Q' o := by
  cases o with
  | ret a st' => obtain ⟨v, n, L, t', h1, h2⟩ := h; exact ⟨hv.1 v, n, _, _, h1, hq _ h2⟩
  | throw => exact h.trans (not_congr hv)
  | fault => exact h

theorem n_require {b : Bool} {g : Unit → M Unit} (hv : V → b = true) (h : b = true → NOutOf env N V Q (g () env st)) :
    NOutOf env N V Q ((Base.require b >>= g) env st) := by
  cases b with
  | true => rw [run_bind_ret (run_require rfl)]; exact h rfl
  | false => rw [run_bind_throw (run_require_false rfl)]; exact n_bad fun v => by cases hv v

theorem n_parsedAll {ps : PS} {g : Parts → M Unit} (hf : ps.flt = none) (hv : V → ps.ec = none ∧ ps.p = [])
    (h : ps.ec = none → ps.p = [] → NOutOf env N V Q (g ps.pt env st)) : NOutOf env N V Q ((Base.parsedAll ps >>= g) env st) := by
  by_cases hp : ps.ec = none ∧ ps.p = []
  · rw [run_bind_ret (parsedAll_ok hf hp.1 hp.2)]; exact h hp.1 hp.2
  · rw [run_bind_throw (parsedAll_bad hf hp)]; exact n_bad fun v => hp (hv v)

section
variable {A B : List (List Cell)} {X : List Cell} {id : Nat}

theorem n_clear (h : Holds env st (A ++ X :: B) t) (hid : id = A.length) (hv : V) (hq : Q (A ++ [] :: B)) :
    NOut env st V Q ((Base.resize id 0 >>= fun _ => pure ()) env st) := by
  refine resize_step h hid rfl ?_ (n_thrown hv)
  intro _ X' st' t' hl _ hp
  obtain rfl := List.length_eq_zero_iff.1 hl
  exact hp.n hv hq

theorem n_write {s : Str} {n : Nat} (hn : n = s.length) (h : Holds env st (A ++ X :: B) t) (hid : id = A.length) (hv : V)
    (hq : Q (A ++ s.map some :: B)) : NOut env st V Q ((Base.resize id n >>= fun dest => M.put dest s) env st) := by
  subst hn
  refine resize_step h hid rfl ?_ (n_thrown hv)
  intro _ X' st' t' hl _ hp
  refine last_step (put_step hp (k := 0) (by simp) (by omega) ?_)
  intro st1 h1
  rw [ow_all hl] at h1
  exact h1.n hv hq

theorem n_delim {d : Byte} {s : Str} {n : Nat} (hn : n = s.length) (h : Holds env st (A ++ X :: B) t) (hid : id = A.length) (hv : V)
    (hq : Q (A ++ (d :: s).map some :: B)) :
    NOut env st V Q ((Base.resize id (1 + n) >>= fun dest => M.put dest [d] >>= fun _ => M.put (dest + 1) s) env st) := by
  subst hn
  refine resize_step h hid rfl ?_ (n_thrown hv)
  intro hs X' st' t' hl _ hp
  obtain ⟨x, Y, rfl, hy⟩ := len_succ (X := X') (n := s.length) (by omega)
  refine put_mid [] [x] Y hp rfl rfl rfl rfl ?_
  intro st1 h1
  refine last_step (put_mid [some d] Y [] h1 rfl (by simp) hy rfl ?_)
  intro st2 h2
  exact h2.n hv (by simpa using hq)

/-- parts removed -/
theorem n_cut {Xs : List (List Cell)} {first last k : Nat} (h : Holds env st (A ++ (Xs ++ B)) t) (hk : Xs.length = k + 1)
    (hfirst : first = A.length) (hlast : last = A.length + (k + 1)) (hv : V)
    (hq : Q (A ++ (List.replicate (k + 1) [] ++ B))) :
    NOut env st V Q ((Base.resize2 first last 0 >>= fun _ => pure ()) env st) := by
  refine resize2_step h hk hfirst hlast rfl ?_ (n_thrown hv)
  intro _ X' st' t' hl _ hp
  obtain rfl := List.length_eq_zero_iff.1 hl
  exact hp.n hv hq

end

/-- `resize(id, n)`, with what is in the part afterwards and why it throws -/
theorem resize_cells {β : Type} {A B : List (List Cell)} {X : List Cell} {id n m : Nat} {g : Nat → M β} {G : Out β → Prop}
    (h : Holds env st (A ++ X :: B) t) (hid : id = A.length) (hm : A.flatten.length + n + B.flatten.length = m)
    (hok : ∀ X' st' t', X'.length = n → (∀ j, j < n → j < (X ++ B.flatten).length → X'[j]? = (X ++ B.flatten)[j]?) →
      Prog env st m (A ++ X' :: B) st' t' → G (g A.flatten.length env st'))
    (hthrow : ∀ e st', e = .bad_alloc ∨ e = .too_large → G (.throw e st')) : G ((Base.resize id n >>= g) env st) := by
  have k1 := resize_step' (g := (pure : Nat → M Nat)) (G := fun o => ∀ d st', o = .ret d st' → d = A.flatten.length ∧ ∃ X' t', X'.length = n ∧
    (∀ j, j < n → j < (X ++ B.flatten).length → X'[j]? = (X ++ B.flatten)[j]?) ∧ Prog env st m (A ++ X' :: B) st' t') h hid hm
    (fun X' st' t' h1 h2 h3 d st1 e => by cases e; exact ⟨rfl, X', t', h1, h2, h3⟩) (fun _ _ _ _ e => by cases e)
  have k2 := resize_step (f := (pure : Nat → M Nat)) (P := fun o => (∀ e st', o = .throw e st' → e = .bad_alloc ∨ e = .too_large) ∧ ∀ x, o ≠ .fault x) h hid hm
    (fun _ _ _ _ _ _ _ => ⟨(fun _ _ e => by cases e), (fun _ e => by cases e)⟩)
    (fun _ e st' he _ => ⟨(fun e' st' h => by cases h; exact he), (fun _ e => by cases e)⟩)
  rw [bind_pure_at] at k1 k2
  rw [run_bind]
  cases hr : Base.resize id n env st with
  | fault x => exact absurd hr (k2.2 x)
  | throw e st' => exact hthrow e st' (k2.1 e st' hr)
  | ret d st' =>
    obtain ⟨rfl, X', t', h1, h2, h3⟩ := k1 _ _ hr
    exact hok X' st' t' h1 h2 h3

/-- `resize(first, last, n)`, with what is in the part afterwards and why it throws -/
theorem resize2_cells {β : Type} {A Xs B : List (List Cell)} {first last k n m : Nat} {g : Nat → M β} {G : Out β → Prop}
    (h : Holds env st (A ++ (Xs ++ B)) t) (hk : Xs.length = k + 1) (hfirst : first = A.length)
    (hlast : last = A.length + (k + 1)) (hm : A.flatten.length + n + B.flatten.length = m)
    (hok : ∀ X' st' t', X'.length = n → (∀ j, j < n → j < (Xs ++ B).flatten.length → X'[j]? = (Xs ++ B).flatten[j]?) →
      Prog env st m (A ++ (X' :: List.replicate k [] ++ B)) st' t' → G (g A.flatten.length env st'))
    (hthrow : ∀ e st', e = .bad_alloc ∨ e = .too_large → G (.throw e st')) : G ((Base.resize2 first last n >>= g) env st) := by
  have k1 := resize2_step' (g := (pure : Nat → M Nat)) (G := fun o => ∀ d st', o = .ret d st' → d = A.flatten.length ∧ ∃ X' t', X'.length = n ∧
    (∀ j, j < n → j < (Xs ++ B).flatten.length → X'[j]? = (Xs ++ B).flatten[j]?) ∧ Prog env st m (A ++ (X' :: List.replicate k [] ++ B)) st' t')
    h hk hfirst hlast hm
    (fun X' st' t' h1 h2 h3 d st1 e => by cases e; exact ⟨rfl, X', t', h1, h2, h3⟩) (fun _ _ _ _ e => by cases e)
  have k2 := resize2_step (f := (pure : Nat → M Nat)) (P := fun o => (∀ e st', o = .throw e st' → e = .bad_alloc ∨ e = .too_large) ∧ ∀ x, o ≠ .fault x)
    h hk hfirst hlast hm
    (fun _ _ _ _ _ _ _ => ⟨(fun _ _ e => by cases e), (fun _ e => by cases e)⟩)
    (fun _ e st' he _ => ⟨(fun e' st' h => by cases h; exact he), (fun _ e => by cases e)⟩)
  rw [bind_pure_at] at k1 k2
  rw [run_bind]
  cases hr : Base.resize2 first last n env st with
  | fault x => exact absurd hr (k2.2 x)
  | throw e st' => exact hthrow e st' (k2.1 e st' hr)
  | ret d st' =>
    obtain ⟨rfl, X', t', h1, h2, h3⟩ := k1 _ _ hr
    exact hok X' st' t' h1 h2 h3

/-- `d` is two cells, those at the start of `front` as far as there are any -/
def Kept (d front : List Cell) : Prop := d.length = 2 ∧ ∀ j, j < 2 → j < front.length → d[j]? = front[j]?

section
variable (h : Part8 env st S U W H P pa q f t)
include h

theorem n_scheme (s : Str) :
    NOut env st (s = [] ∨ Scheme lib s) (fun L => L = [(if s = [] then [] else s ++ b!":").map some, U, W, H, P, pa, q, f]) (Base.set_scheme s env st) := by
  by_cases hs : s = []
  · subst hs
    exact n_clear (A := []) h.holds rfl (.inl rfl) rfl
  · unfold Base.set_scheme
    rw [if_neg (c := s.isEmpty = true) (by simpa using hs)]
    refine n_require (fun v => (match_scheme_iff.2 (v.resolve_left hs)).1) fun v1 => n_require
      (fun v => by simpa using (match_scheme_iff.2 (v.resolve_left hs)).2) fun v2 => ?_
    have hv : s = [] ∨ Scheme lib s := .inr (match_scheme_iff.1 ⟨v1, by simpa using v2⟩)
    refine resize_step (A := []) h.holds rfl rfl ?_ (n_thrown hv)
    intro _ X' st' t' hl _ hp
    obtain ⟨Y, x, rfl, hy⟩ := len_snoc hl
    refine put_mid [] Y [x] hp rfl rfl hy rfl ?_
    intro st1 h1
    refine last_step (put_mid (s.map some) [x] [] h1 (by simp) (by simp) rfl rfl ?_)
    intro st2 h2
    exact h2.n hv (by simp [hs])

/-- the user set to `txt` -/
def UserTo (S U W H P pa q f : List Cell) (txt : Str) (L : List (List Cell)) : Prop :=
  (W ≠ [] ∧ ∃ d, Kept d (U ++ (W ++ (H ++ (P ++ (pa ++ (q ++ f)))))) ∧ L = [S, d ++ txt.map some, W, H, P, pa, q, f]) ∨
  (W = [] ∧ L = [S, (b!"//" ++ txt).map some, b!"@".map some, H, P, pa, q, f])

/-- the user removed -/
def UserOff (S U W H P pa q f : List Cell) (L : List (List Cell)) : Prop :=
  (U = [] ∧ L = [S, U, W, H, P, pa, q, f]) ∨
  (U ≠ [] ∧ ∃ d, Kept d (U ++ (W ++ (H ++ (P ++ (pa ++ (q ++ f)))))) ∧
    L = [S, d, (if W.length = 1 then [] else W), H, P, pa, q, f])

theorem n_store_user {n : Nat} {txt : Str} (hd : env.dbg = false) (hn : n = txt.length) (hv : V) :
    NOut env st V (UserTo S U W H P pa q f txt) ((do
    if (← M.pt).length id_password ≠ 0 then
      M.assert fun o => do backIs (← o.get id_password) c!"@"
      let dest ← Base.resize id_user (2 + n)
      M.put (dest + 2) txt
    else
      let dest ← Base.resize id_user (2 + n + 1)
      M.put dest b!"/"
      M.put (dest + 1) b!"/"
      M.put (dest + (2 + n)) b!"@"
      Base.split id_user (2 + n)
      M.put (dest + 2) txt) env st) := by
  subst hn
  rw [run_bind_ret run_pt]
  split
  · rename_i hw
    have hw : W.length ≠ 0 := by simpa [w_len h, id_password] using hw
    rw [assert_bind hd]
    refine resize_cells (A := [S]) h.holds rfl rfl ?_ fun _ _ => n_throws hv
    intro X' st' t' hl hc hp
    obtain ⟨a, Y, rfl, hl1⟩ := len_succ (n := txt.length + 1) (by omega : X'.length = _)
    obtain ⟨b, Y, rfl, hl2⟩ := len_succ hl1
    refine last_step (put_mid (A := [S]) [a, b] Y [] hp (by simp) (by simp) hl2 rfl ?_)
    intro st2 h2
    refine h2.n hv (.inl ⟨by simpa using hw, [a, b], ⟨rfl, ?_⟩, by simp⟩)
    intro j h1 h2
    have := hc j (by omega) (by simpa using h2)
    match j, h1 with
    | 0, _ => simpa using this
    | 1, _ => simpa using this
  · rename_i hw
    have hw : W = [] := by simpa [w_len h, id_password] using hw
    subst hw
    refine resize_step (A := [S]) h.holds rfl rfl ?_ (n_thrown hv)
    intro hs X' st' t' hl _ hp
    obtain ⟨a, Y, rfl, hl1⟩ := len_succ (n := txt.length + 1 + 1) (by omega : X'.length = _)
    obtain ⟨b, Y, rfl, hl2⟩ := len_succ hl1
    obtain ⟨Y, z, rfl, hl3⟩ := len_snoc hl2
    refine put_mid (A := [S]) [] [a] (b :: (Y ++ [z])) hp (by simp) rfl rfl rfl fun st1 h1 => ?_
    refine put_mid (A := [S]) [some c!"/"] [b] (Y ++ [z]) h1 (by simp) rfl rfl rfl fun st2 h2 => ?_
    refine put_mid (A := [S]) (slashes ++ Y) [z] [] h2 (by simp; omega) (by simp) rfl rfl fun st3 h3 => ?_
    refine split_step (A := [S]) (x := slashes ++ Y) (y := [some c!"@"]) (z := []) (by simpa using h3) rfl (by decide)
      (by simp; omega) fun st4 h4 => ?_
    refine last_step (put_mid (A := [S]) slashes Y [] h4 (by simp) (by simp) hl3 rfl fun st5 h5 => ?_)
    exact h5.n hv (.inr ⟨rfl, by simp⟩)

theorem n_set_user (hd : env.dbg = false) (s : Str) :
    NOut env st True (fun L => if s = [] then UserOff S U W H P pa q f L else UserTo S U W H P pa q f (userinfo_nc_pct_set.encode s) L)
      (Base.set_user s env st) := by
  unfold Base.set_user
  by_cases hs : s = []
  · subst hs
    simp only [List.isEmpty_nil, if_true]
    rw [run_bind_ret run_pt]
    split
    · rename_i hu
      have hu : U = [] := by simpa [w_len h, id_user] using hu
      exact h.holds.n trivial (.inl ⟨hu, rfl⟩)
    · rename_i hu
      have hu : U ≠ [] := by simpa [w_len h, id_user] using hu
      have ha : Base.assertUserinfo env st = .ret () st := by
        unfold Base.assertUserinfo
        rw [assert_bind hd, assert_bind hd, assert_bind hd, assert_off hd]
      rw [run_bind_ret ha, run_bind_ret run_pt]
      split
      · rename_i hw
        have hw : W.length = 1 := by simpa [w_len h, id_password] using hw
        refine resize2_cells (A := [S]) (Xs := [U, W]) (B := [H, P, pa, q, f]) (k := 1) (by simpa using h.holds) rfl rfl rfl rfl ?_ fun _ _ => n_throws trivial
        intro X' st' t' hl hc hp
        refine hp.n trivial (.inr ⟨hu, X', ⟨hl, fun j h1 h2 => ?_⟩, by simp [hw]⟩)
        have := hc j h1 (by simpa using h2)
        simpa using this
      · rename_i hw
        have hw : ¬ W.length = 1 := by simpa [w_len h, id_password] using hw
        refine resize_cells (A := [S]) h.holds rfl rfl ?_ fun _ _ => n_throws trivial
        intro X' st' t' hl hc hp
        refine hp.n trivial (.inr ⟨hu, X', ⟨hl, fun j h1 h2 => ?_⟩, by simp [hw]⟩)
        have := hc j h1 (by simpa using h2)
        simpa using this
  · simp only [if_neg hs]
    rw [if_neg (by simpa using hs)]
    exact n_store_user h hd (encoded_size_eq setOf_userinfo_nc _) trivial

theorem n_set_encoded_user (hd : env.dbg = false) (s : Str) :
    NOut env st (Escaped isUpperHex isRegName s) (fun L => if s = [] then UserOff S U W H P pa q f L else UserTo S U W H P pa q f s L)
      (Base.set_encoded_user s env st) := by
  unfold Base.set_encoded_user
  by_cases hs : s = []
  · subst hs
    exact (n_set_user h hd []).imp ⟨fun _ => .nil, fun _ => trivial⟩ fun _ h => h
  · simp only [if_neg hs]
    rw [if_neg (by simpa using hs)]
    exact n_require (check_iff setOf_userinfo_nc s).2 fun v => n_store_user h hd rfl ((check_iff setOf_userinfo_nc s).1 v)

/-- the password set to `txt` -/
def PasswordTo (S U _W H P pa q f : List Cell) (txt : Str) (L : List (List Cell)) : Prop :=
  L = [S, (if U = [] then b!"//".map some else U), (b!":" ++ txt ++ b!"@").map some, H, P, pa, q, f]

/-- the password removed -/
def PasswordOff (S U W H P pa q f : List Cell) (L : List (List Cell)) : Prop :=
  L = [S, U, (if W = [] ∨ U.length = 2 then [] else b!"@".map some), H, P, pa, q, f]

theorem n_store_password {n : Nat} {txt : Str} (hn : n = txt.length) (hv : V) :
    NOut env st V (PasswordTo S U W H P pa q f txt) ((do
    if (← M.pt).length id_user ≠ 0 then
      let dest ← Base.resize id_password (1 + n + 1)
      M.put dest b!":"
      M.put (dest + (n + 1)) b!"@"
      M.put (dest + 1) txt
    else
      let dest ← Base.resize2 id_user id_host (2 + 1 + n + 1)
      M.put dest b!"/"
      M.put (dest + 1) b!"/"
      M.put (dest + 2) b!":"
      M.put (dest + (2 + n + 1)) b!"@"
      M.put (dest + 3) txt
      Base.split id_user 2) env st) := by
  subst hn
  rw [run_bind_ret run_pt]
  split
  · rename_i hu
    have hu : U ≠ [] := by simpa [w_len h, id_user] using hu
    refine resize_step (A := [S, U]) h.holds rfl rfl ?_ (n_thrown hv)
    intro hs X' st' t' hl _ hp
    obtain ⟨a, Y, rfl, hl1⟩ := len_succ (n := txt.length + 1) (by omega : X'.length = _)
    obtain ⟨Y, z, rfl, hl2⟩ := len_snoc hl1
    refine put_mid (A := [S, U]) [] [a] (Y ++ [z]) hp (by simp) rfl rfl rfl fun st1 h1 => ?_
    refine put_mid (A := [S, U]) (some c!":" :: Y) [z] [] h1 (by simp; omega) (by simp) rfl rfl fun st2 h2 => ?_
    refine last_step (put_mid (A := [S, U]) [some c!":"] Y [some c!"@"] h2 (by simp) (by simp) hl2 rfl fun st3 h3 => ?_)
    exact h3.n hv (by simp [PasswordTo, hu])
  · rename_i hu
    have hu : U = [] := by simpa [w_len h, id_user] using hu
    refine resize2_step (A := [S]) (Xs := [U, W]) (k := 1) h.holds rfl rfl rfl rfl ?_ (n_thrown hv)
    intro hs X' st' t' hl _ hp
    obtain ⟨a, Y, rfl, hl1⟩ := len_succ (n := txt.length + 1 + 1 + 1) (by omega : X'.length = _)
    obtain ⟨b, Y, rfl, hl2⟩ := len_succ hl1
    obtain ⟨c, Y, rfl, hl3⟩ := len_succ hl2
    obtain ⟨Y, z, rfl, hl4⟩ := len_snoc hl3
    refine put_mid (A := [S]) [] [a] (b :: c :: (Y ++ [z])) hp (by simp) rfl rfl rfl fun st1 h1 => ?_
    refine put_mid (A := [S]) [some c!"/"] [b] (c :: (Y ++ [z])) h1 (by simp) rfl rfl rfl fun st2 h2 => ?_
    refine put_mid (A := [S]) slashes [c] (Y ++ [z]) h2 (by simp) rfl rfl rfl fun st3 h3 => ?_
    refine put_mid (A := [S]) (slashes ++ some c!":" :: Y) [z] [] h3 (by simp; omega) (by simp) rfl rfl fun st4 h4 => ?_
    refine put_mid (A := [S]) (slashes ++ [some c!":"]) Y [some c!"@"] h4 (by simp) (by simp) hl4 rfl fun st5 h5 => ?_
    refine last_step (split_step (A := [S]) (x := slashes) (y := some c!":" :: txt.map some ++ [some c!"@"]) (z := [])
      (by simpa using h5) rfl (by decide) rfl fun st6 h6 => ?_)
    exact h6.n hv (by simp [PasswordTo, hu, slashes])

theorem n_set_password (hd : env.dbg = false) (s : Str) :
    NOut env st True (fun L => if s = [] then PasswordOff S U W H P pa q f L else PasswordTo S U W H P pa q f (userinfo_pct_set.encode s) L)
      (Base.set_password s env st) := by
  unfold Base.set_password
  by_cases hs : s = []
  · subst hs
    simp only [List.isEmpty_nil, if_true]
    rw [run_bind_ret run_pt]
    split
    · rename_i hw
      have hw : W = [] := by simpa [w_len h, id_password] using hw
      exact h.holds.n trivial (by simp [PasswordOff, hw])
    · rename_i hw
      have hw : W ≠ [] := by simpa [w_len h, id_password] using hw
      have ha : Base.assertUserinfo env st = .ret () st := by
        unfold Base.assertUserinfo
        rw [assert_bind hd, assert_bind hd, assert_bind hd, assert_off hd]
      rw [run_bind_ret ha, run_bind_ret run_pt]
      split
      · rename_i hu
        have hu : U.length = 2 := by simpa [w_len h, id_user] using hu
        exact n_clear (A := [S, U]) h.holds rfl trivial (by simp [PasswordOff, hu])
      · rename_i hu
        have hu : ¬ U.length = 2 := by simpa [w_len h, id_user] using hu
        exact n_write (A := [S, U]) rfl h.holds rfl trivial (by simp [PasswordOff, hu, hw])
  · simp only [if_neg hs]
    rw [if_neg (by simpa using hs)]
    exact n_store_password h (encoded_size_eq setOf_userinfo _) trivial

theorem n_set_encoded_password (hd : env.dbg = false) (s : Str) :
    NOut env st (s.head? ≠ some c!":" ∧ Escaped isUpperHex isUserinfo s)
      (fun L => if s = [] then PasswordOff S U W H P pa q f L else PasswordTo S U W H P pa q f s L) (Base.set_encoded_password s env st) := by
  by_cases hs : s = []
  · subst hs
    exact (n_set_password h hd []).imp ⟨fun _ => ⟨by simp, .nil⟩, fun _ => trivial⟩ fun _ h => h
  · unfold Base.set_encoded_password
    simp only [if_neg hs]
    rw [if_neg (by simpa using hs)]
    refine n_require (fun v => by simpa using v.1) fun v1 => n_require (fun v => (check_iff setOf_userinfo s).2 v.2) fun v2 =>
      n_store_password h rfl ⟨by simpa using v1, (check_iff setOf_userinfo s).1 v2⟩

/-- the password part set to a lone colon -/
def PasswordColon (S U _W H P pa q f : List Cell) (L : List (List Cell)) : Prop :=
  L = [S, (if U = [] then b!"//".map some else U), (if U = [] then [] else b!":@".map some), H, P, pa, q, f]

theorem n_set_password_part (hd : env.dbg = false) (s : Str) :
    NOut env st (s = [] ∨ s = b!":" ∨ ∃ d p, s = d :: p ∧ p ≠ [] ∧ p.head? ≠ some c!":" ∧ Escaped isUpperHex isUserinfo p)
      (fun L => if s = [] then PasswordOff S U W H P pa q f L else if s.length = 1 then PasswordColon S U W H P pa q f L else
        PasswordTo S U W H P pa q f (s.drop 1) L) (Base.set_password_part s env st) := by
  match s with
  | [] => exact (n_set_password h hd []).imp ⟨fun _ => .inl rfl, fun _ => trivial⟩ fun _ h => h
  | [d] =>
    unfold Base.set_password_part
    simp only [List.isEmpty_cons, Bool.false_eq_true, if_false, List.length_singleton, if_true, List.drop_one, List.tail_cons,
      List.cons_ne_nil]
    refine n_require (fun v => ?_) fun v => ?_
    · rcases v with v | v | ⟨_, p, v, hp, -⟩
      · cases v
      · cases v; rfl
      · cases v; exact absurd rfl hp
    have hv : False ∨ [d] = b!":" ∨ ∃ d' p, [d] = d' :: p ∧ p ≠ [] ∧ p.head? ≠ some c!":" ∧ Escaped isUpperHex isUserinfo p :=
      .inr (.inl (by simpa using v))
    rw [run_bind_ret run_pt]
    by_cases hu : U = []
    case neg =>
      rw [if_pos (by rw [w_len h]; simpa [id_user] using hu)]
      refine resize_step (A := [S, U]) h.holds rfl rfl ?_ (n_thrown hv)
      intro hs X' st' t' hl _ hp
      obtain ⟨a, Y, rfl, hl1⟩ := len_succ hl
      obtain ⟨b, Y, rfl, hl2⟩ := len_succ hl1
      obtain rfl := List.length_eq_zero_iff.1 hl2
      refine put_mid (A := [S, U]) [] [a] [b] hp (by simp) rfl rfl rfl fun st1 h1 => ?_
      refine last_step (put_mid (A := [S, U]) [some c!":"] [b] [] h1 (by simp) (by simp) rfl rfl fun st2 h2 => ?_)
      exact h2.n hv (by simp [PasswordColon, hu])
    case pos =>
      subst hu
      rw [if_neg (by rw [w_len h]; simp [id_user])]
      refine resize2_step (A := [S]) (Xs := [[], W]) (k := 1) h.holds rfl rfl rfl rfl ?_ (n_thrown hv)
      intro hs X' st' t' hl _ hp
      obtain ⟨a, Y, rfl, hl1⟩ := len_succ hl
      obtain ⟨b, Y, rfl, hl2⟩ := len_succ hl1
      obtain ⟨c, Y, rfl, hl3⟩ := len_succ hl2
      obtain ⟨d, Y, rfl, hl4⟩ := len_succ hl3
      obtain rfl := List.length_eq_zero_iff.1 hl4
      refine put_mid (A := [S]) [] [a] [b, c, d] hp (by simp) rfl rfl rfl fun st1 h1 => ?_
      refine put_mid (A := [S]) [some c!"/"] [b] [c, d] h1 (by simp) rfl rfl rfl fun st2 h2 => ?_
      refine put_mid (A := [S]) slashes [c] [d] h2 (by simp) rfl rfl rfl fun st3 h3 => ?_
      refine put_mid (A := [S]) (slashes ++ [some c!":"]) [d] [] h3 (by simp) rfl rfl rfl fun st4 h4 => ?_
      refine split_step (A := [S]) (x := slashes) (y := [some c!":", some c!"@"]) (z := [])
        (by simpa using h4) rfl (by decide) rfl fun st5 h5 => ?_
      have h5' : Part8 env st5 S slashes [some c!":", some c!"@"] H P pa q f t' :=
        ⟨by simpa using h5.holds, h.S, by simp, h.H, h.P, h.pa, h.q, h.f⟩
      unfold Base.set_encoded_password Base.set_password
      simp only [List.isEmpty_nil, if_true]
      have ha : Base.assertUserinfo env st5 = .ret () st5 := by
        unfold Base.assertUserinfo
        rw [assert_bind hd, assert_bind hd, assert_bind hd, assert_off hd]
      rw [run_bind_ret run_pt, if_neg (by rw [w_len h5']; simp [id_password]), run_bind_ret ha, run_bind_ret run_pt,
        if_pos (by rw [w_len h5']; simp [id_user])]
      refine resize_step (A := [S, slashes]) h5'.holds rfl rfl ?_ (n_thrown hv)
      intro hs X' st6 t6 hl _ hp
      obtain rfl := List.length_eq_zero_iff.1 hl
      refine ⟨hv, ?_, _, _, hp.holds, by simp [PasswordColon, slashes]⟩
      have hc : st6.cap = st5.cap := by
        rcases hp.grow with ⟨-, e, -⟩ | ⟨e, -⟩
        · exact e
        · rcases h5'.holds.buf with ⟨-, e', -⟩ | ⟨junk, -, e', -⟩
          · simp [slashes] at e'
          · simp [slashes] at e e'
            omega
      show Nul st6 ↔ Mended st st6
      rw [hp.holds.nul_iff.trans hp.nul, Mended.same hc, h5.holds.nul_iff, h5.nul]
      unfold Mended
      rw [hc]
  | d :: a :: p =>
    unfold Base.set_password_part
    simp only [List.isEmpty_cons, Bool.false_eq_true, if_false, List.length_cons, List.drop_one, List.tail_cons,
      List.cons_ne_nil, Nat.add_eq_zero_iff, Nat.add_eq_right, Nat.succ_ne_zero, and_false]
    refine (n_set_encoded_password h hd (a :: p)).imp ⟨fun v => .inr (.inr ⟨d, a :: p, rfl, by simp, v.1, v.2⟩), ?_⟩ fun L hl => ?_
    · rintro (v | v | ⟨_, p, v, hp, h1, h2⟩)
      · cases v
      · cases v
      · cases v; exact ⟨h1, h2⟩
    · simpa using hl

/-- the userinfo removed -/
def UserinfoOff (S U W H P pa q f : List Cell) (L : List (List Cell)) : Prop :=
  (H ++ P = [] ∧ L = [S, [], [], H, P, pa, q, f]) ∨
  (H ++ P ≠ [] ∧ ∃ d, Kept d (U ++ (W ++ (H ++ (P ++ (pa ++ (q ++ f)))))) ∧ L = [S, d, [], H, P, pa, q, f])

theorem n_set_encoded_userinfo (s : Str) :
    NOut env st (Escaped isUpperHex isUserinfo s)
      (fun L => if s = [] then UserinfoOff S U W H P pa q f L else
        ∃ u, UserinfoText u s ∧ L = [S, ((b!"//" ++ s).take u.1.length).map some, ((b!"//" ++ s).drop u.1.length ++ b!"@").map some, H, P, pa, q, f])
      (Base.set_encoded_userinfo s env st) := by
  unfold Base.set_encoded_userinfo
  by_cases hs : s = []
  · subst hs
    simp only [List.isEmpty_nil, if_true]
    rw [run_bind_ret run_pt]
    have hhp : st.pt.length2 id_host id_path = (H ++ P).length := by
      unfold Parts.length2
      rw [h.holds.rep, h.holds.rep]
      simp [plen, id_host, id_path]; omega
    rw [hhp]
    split
    · rename_i he
      exact n_cut (A := [S]) (Xs := [U, W]) (B := [H, P, pa, q, f]) (k := 1) (by simpa using h.holds) rfl rfl rfl .nil
        (.inl ⟨List.length_eq_zero_iff.1 he, rfl⟩)
    · rename_i he
      refine resize2_cells (A := [S]) (Xs := [U, W]) (B := [H, P, pa, q, f]) (k := 1) (by simpa using h.holds) rfl rfl rfl rfl ?_ fun _ _ => n_throws .nil
      intro X' st' t' hl hc hp
      refine hp.n .nil (.inr ⟨fun e => he (by rw [e]; rfl), X', ⟨hl, fun j h1 h2 => ?_⟩, by simp⟩)
      have := hc j h1 (by simpa using h2)
      simpa using this
  · simp only [if_neg hs]
    rw [if_neg (by simpa using hs)]
    refine n_parsedAll (good_userinfo (Good.init s)).flt (fun v => ?_) fun h1 h2 => ?_
    · obtain ⟨u, hu⟩ := userinfoText_exists v
      exact ⟨(parse_userinfo_at hu).ec, (parse_userinfo_at hu).p⟩
    have hv := userinfo_all ⟨h1, h2⟩
    obtain ⟨u, hu⟩ := userinfoText_exists hv
    have b := parse_userinfo_at hu
    have hlen : (parse_userinfo (PS.init s)).pt.length id_user = u.1.length := b.rep.length id_user
    rw [hlen]
    have hle : u.1.length ≤ s.length := by
      rw [← hu.2.2, userinfoText_eq]; simp
    refine resize2_step (A := [S]) (Xs := [U, W]) (B := [H, P, pa, q, f]) (k := 1) h.holds rfl rfl rfl rfl ?_ (n_thrown hv)
    intro hsto X' st' t' hl _ hp
    obtain ⟨a, Y, rfl, hl1⟩ := len_succ (n := s.length + 2) (by omega : X'.length = _)
    obtain ⟨b, Y, rfl, hl2⟩ := len_succ hl1
    obtain ⟨Y, z, rfl, hl3⟩ := len_snoc hl2
    refine put_mid (A := [_]) [] [a] (b :: (Y ++ [z])) hp (by simp) rfl rfl rfl fun st1 h1 => ?_
    refine put_mid (A := [_]) [some c!"/"] [b] (Y ++ [z]) h1 (by simp) rfl rfl rfl fun st2 h2 => ?_
    refine put_mid (A := [_]) slashes Y [z] h2 (by simp) (by simp) hl3 rfl fun st3 h3 => ?_
    have hx : ((b!"//" ++ s).take u.1.length).map some ++ (((b!"//" ++ s).drop u.1.length).map some ++ [z]) =
        slashes ++ (s.map some ++ [z]) := by
      rw [← List.append_assoc, ← List.map_append, List.take_append_drop]; simp
    refine split_step (A := [_]) (x := ((b!"//" ++ s).take u.1.length).map some)
      (y := ((b!"//" ++ s).drop u.1.length).map some ++ [z]) (z := [])
      (by rw [hx]; simpa using h3) rfl (by decide) (by simp; omega) fun st4 h4 => ?_
    refine last_step (put_mid (A := [_, _]) (((b!"//" ++ s).drop u.1.length).map some) [z] [] h4 (by simp; omega) (by simp) rfl rfl fun st5 h5 => ?_)
    exact h5.n hv ⟨u, hu, by simp⟩

theorem n_set_userinfo_part (s : Str) :
    NOut env st (s = [] ∨ ∃ z, s = z ++ b!"@" ∧ Escaped isUpperHex isUserinfo z)
      (fun L => if s = [] ∨ s = b!"@" then UserinfoOff S U W H P pa q f L else
        ∃ u, UserinfoText u s.dropLast ∧
          L = [S, ((b!"//" ++ s.dropLast).take u.1.length).map some, ((b!"//" ++ s.dropLast).drop u.1.length ++ b!"@").map some, H, P, pa, q, f])
      (Base.set_userinfo_part s env st) := by
  unfold Base.set_userinfo_part
  by_cases hs : s = []
  · subst hs
    exact (n_set_encoded_userinfo h []).imp ⟨fun _ => .inl rfl, fun _ => .nil⟩ fun _ h => h
  · rw [if_neg (by simpa using hs)]
    refine n_require (fun v => ?_) fun v => ?_
    · rcases v with v | ⟨z, rfl, -⟩
      · exact absurd v hs
      · simp
    have v : s.getLast? = some c!"@" := by simpa using v
    obtain ⟨z, rfl⟩ := List.getLast?_eq_some_iff.1 v
    rw [List.take_left' (by simp)]
    refine (n_set_encoded_userinfo h z).imp ⟨fun v => .inr ⟨z, rfl, v⟩, ?_⟩ fun L hl => ?_
    · rintro (v | ⟨z', e, v⟩)
      · exact absurd v hs
      · obtain rfl := List.append_cancel_right e
        exact v
    · simpa using hl

theorem n_authority (s : Str) :
    NOut env st (s = [] ∨ ∃ a, IsAuth a s)
      (fun L => if s = [] then L = [S, [], [], [], [], pa, q, f] else ∃ a, IsAuth a s ∧ L = S :: ((authTexts (some a)).map (·.map some) ++ [pa, q, f]))
      (Base.set_encoded_authority s env st) := by
  by_cases hs : s = []
  · subst hs
    exact n_cut (A := [S]) (Xs := [U, W, H, P]) (B := [pa, q, f]) (k := 3) (by simpa using h.holds) rfl rfl rfl (.inl rfl) rfl
  by_cases hv : ∃ a, IsAuth a s
  · obtain ⟨a, ha, rfl⟩ := hv
    have hv : a.render = [] ∨ ∃ a', IsAuth a' a.render := .inr ⟨a, ha, rfl⟩
    unfold Base.set_encoded_authority
    have he : a.render.isEmpty = false := by simpa using hs
    simp only [he, Bool.false_eq_true, if_false, if_neg hs]
    obtain ⟨k, b, -⟩ := authority_parts ha
    rw [run_bind_ret (parsedAll_ok b.flt b.ec b.p)]
    have hlen : ∀ id, (parse_authority (PS.init a.render)).pt.length id = (([[]] ++ authParts [] a).getD id []).length := b.rep.length
    simp only [hlen]
    have hr := authParts_render a
    obtain ⟨u, hst, pt⟩ := a
    obtain ⟨x, w, -, e2, e3⟩ := userParts_two [] u
    have hq : ∀ L, L = [S, slashes ++ x.map some, w.map some, hst.map some, (portText pt).map some, pa, q, f] →
        ∃ a, IsAuth a (Auth.render ⟨u, hst, pt⟩) ∧ L = S :: ((authTexts (some a)).map (·.map some) ++ [pa, q, f]) := by
      rintro L rfl
      refine ⟨_, ⟨ha, rfl⟩, ?_⟩
      obtain ⟨x', w', e1', e2', e3'⟩ := userParts_two b!"//" u
      rw [e2] at e2'
      cases e2'
      simp [authTexts, authParts, e3', slashes]
    simp only [authParts, e2] at hr hlen ⊢
    generalize hR : Auth.render ⟨u, hst, pt⟩ = s at *
    simp only [id_user, id_password, id_host, id_port, List.cons_append, List.nil_append, List.getD_cons_succ, List.getD_cons_zero]
    have hs : s = x ++ (w ++ (hst ++ portText pt)) := by rw [← hr]; simp
    refine resize2_step (A := [_]) (Xs := [U, W, _, _]) (k := 3) h.holds rfl rfl rfl rfl ?_ (n_thrown hv)
    intro hsto X' st' t' hl _ hp
    obtain ⟨a, Y, rfl, hl1⟩ := len_succ (n := s.length + 1) (by omega : X'.length = _)
    obtain ⟨b, Y, rfl, hl2⟩ := len_succ hl1
    refine put_mid (A := [_]) [] [a] (b :: Y) hp (by simp) rfl rfl rfl fun st1 h1 => ?_
    refine put_mid (A := [_]) [some c!"/"] [b] Y h1 (by simp) rfl rfl rfl fun st2 h2 => ?_
    refine put_mid (A := [_]) slashes Y [] h2 (by simp) (by simp) hl2 rfl fun st3 h3 => ?_
    rw [hs] at h3
    refine split_step (A := [_]) (x := slashes ++ x.map some) (y := (w ++ (hst ++ portText pt)).map some) (z := [])
      (by simpa using h3) rfl (by decide) (by simp; omega) fun st4 h4 => ?_
    refine split_step (A := [_, _]) (x := w.map some) (y := (hst ++ portText pt).map some) (z := [])
      (by simpa using h4) rfl (by decide) (by simp) fun st5 h5 => ?_
    refine split_step (A := [_, _, _]) (x := hst.map some) (y := (portText pt).map some) (z := [])
      (by simpa using h5) rfl (by decide) (by simp) fun st6 h6 => ?_
    rw [run_assert (by
      show Except.ok (decide (st6.pt.length 4 = (portText pt).length)) = _
      rw [h6.holds.rep.length]
      simp)]
    exact h6.n hv (hq _ (by simp))
  · rw [base_set_authority_bad s hs hv]
    exact n_bad fun v => v.elim hs hv

/-- the host set to `txt` -/
def HostTo (S U W H P pa q f : List Cell) (txt : Str) (L : List (List Cell)) : Prop :=
  L = [S, (if U ++ (W ++ (H ++ P)) = [] then b!"//".map some else U), W, txt.map some, P, pa, q, f]

/-- the host removed -/
def HostOff (S U W _H P pa q f : List Cell) (L : List (List Cell)) : Prop :=
  L = if (U ++ W).length = 2 ∧ P = [] then [S, [], [], [], [], pa, q, f] else [S, U, W, [], P, pa, q, f]

theorem n_store_host {n : Nat} {txt : Str} {k : HostType} {g : Unit → M Unit} (hn : n = txt.length)
    (hg : ∀ e s, g () e s = .ret () { s with pt := { s.pt with host := k } }) (hv : V) :
    NOut env st V (HostTo S U W H P pa q f txt) ((do
      if !(← M.ask fun o => .ok (has_authority o)) then
        let dest ← Base.resize id_user (2 + n)
        M.put dest b!"/"
        M.put (dest + 1) b!"/"
        Base.split id_user 2
        Base.split id_password 0
        M.put (dest + 2) txt
        g ()
      else
        let dest ← Base.resize id_host n
        M.put dest txt
        g ()) env st) := by
  subst hn
  rw [run_bind_ret run_ask_auth]
  split
  · rename_i ha
    have ha : st.pt.length2 id_user id_path = 0 := by simpa [has_authority, St.obj] using ha
    rw [w_len2_auth h] at ha
    obtain rfl := List.length_eq_zero_iff.1 (show U.length = 0 by omega)
    obtain rfl := List.length_eq_zero_iff.1 (show W.length = 0 by omega)
    obtain rfl := List.length_eq_zero_iff.1 (show H.length = 0 by omega)
    obtain rfl := List.length_eq_zero_iff.1 (show P.length = 0 by omega)
    refine resize_step (A := [S]) h.holds rfl rfl ?_ (n_thrown hv)
    intro hs X' st' t' hl _ hp
    obtain ⟨a, Y, rfl, hl1⟩ := len_succ (n := txt.length + 1) (by omega : X'.length = _)
    obtain ⟨b, Y, rfl, hl2⟩ := len_succ hl1
    refine put_mid (A := [S]) [] [a] (b :: Y) hp (by simp) rfl rfl rfl fun st1 h1 => ?_
    refine put_mid (A := [S]) [some c!"/"] [b] Y h1 (by simp) rfl rfl rfl fun st2 h2 => ?_
    refine split_step (A := [S]) (x := slashes) (y := Y) (z := []) (by simpa using h2) rfl (by decide) rfl fun st4 h4 => ?_
    refine split_step (A := [S, slashes]) (x := []) (y := Y) (z := []) (by simpa using h4) rfl (by decide) rfl fun st5 h5 => ?_
    refine put_mid (A := [S, slashes, []]) [] Y [] (by simpa using h5) (by simp) (by simp) hl2 rfl fun st6 h6 => ?_
    rw [hg]
    exact h6.nHost hv (by simp [HostTo, slashes])
  · rename_i ha
    have ha : st.pt.length2 id_user id_path ≠ 0 := by simpa [has_authority, St.obj] using ha
    rw [w_len2_auth h] at ha
    have ha : ¬ U ++ (W ++ (H ++ P)) = [] := by
      intro e
      simp at e
      simp [e] at ha
    refine resize_step (A := [S, U, W]) h.holds rfl rfl ?_ (n_thrown hv)
    intro hs X' st' t' hl _ hp
    refine put_mid (A := [S, U, W]) [] X' [] hp (by simp) (by simp) hl rfl fun st1 h1 => ?_
    rw [hg]
    exact h1.nHost hv (by rw [HostTo, if_neg ha]; simp)

theorem n_store_host' {txt : Str} {k : HostType} {g : Unit → M Unit}
    (hg : ∀ e s, g () e s = .ret () { s with pt := { s.pt with host := k } }) (hv : V) :
    NOut env st V (HostTo S U W H P pa q f txt) ((do
      if !(← M.ask fun o => .ok (has_authority o)) then
        let r ← Base.addHost txt
        g r
      else
        let dest ← Base.resize id_host txt.length
        M.put dest txt
        g ()) env st) := by
  have := n_store_host (txt := txt) (g := g) h rfl hg hv
  rw [run_bind_ret run_ask_auth] at this ⊢
  split at this
  · rename_i ha
    rw [if_pos ha]
    rw [← addHost_bind] at this
    exact this
  · rename_i ha
    rw [if_neg ha]
    exact this

theorem n_clear_host (hd : env.dbg = false) : NOut env st True (HostOff S U W H P pa q f) (Base.set_host [] env st) := by
  unfold Base.set_host
  simp only [List.isEmpty_nil, if_true]
  rw [run_bind_ret run_pt, run_bind_ret run_pt]
  have h1 : st.pt.length2 id_user id_host = (U ++ W).length := by
    unfold Parts.length2
    rw [h.holds.rep, h.holds.rep]
    simp [plen, id_user, id_host]
  have h2 : st.pt.length id_port = P.length := by rw [w_len h]; simp [id_port]
  rw [h1, h2]
  split
  · rename_i hc
    rw [List.length_eq_zero_iff] at hc
    rw [assert_bind hd]
    exact n_cut (A := [S]) (Xs := [U, W, H, P]) (B := [pa, q, f]) (k := 3) (by simpa using h.holds) rfl rfl rfl trivial
      (by rw [HostOff, if_pos hc]; rfl)
  · rename_i hc
    rw [List.length_eq_zero_iff] at hc
    exact n_clear (A := [S, U, W]) h.holds rfl trivial (by rw [HostOff, if_neg hc]; rfl)

theorem n_set_host (hd : env.dbg = false) (s : Str) :
    NOut env st True (fun L => if s = [] then HostOff S U W H P pa q f L else ∃ txt k, PlainHost s txt k ∧ HostTo S U W H P pa q f txt L)
      (Base.set_host s env st) := by
  by_cases hs : s = []
  · subst hs
    exact n_clear_host h hd
  obtain ⟨txt, hp, h1, h2⟩ := plain_hostname_of s
  unfold Base.set_host
  simp only [if_neg hs]
  rw [if_neg (by simpa using hs)]
  simp only [(good_ip_literal (Good.init s)).flt]
  revert hp h1 h2
  generalize parse_plain_hostname s = k
  intro hp h1 h2
  rw [run_bind_ret (run_pure k), assert_bind hd]
  split
  · rename_i hk
    obtain rfl := h1 hk
    exact (n_store_host' (k := k) (g := fun _ => M.setPt fun pt => { pt with host := k }) h (fun _ _ => rfl) trivial).imp Iff.rfl
      fun _ hq => ⟨_, _, hp, hq⟩
  · rename_i hk
    have hk : k = .name := by simpa using hk
    obtain rfl := h2 hk
    refine (n_store_host (txt := reg_name_pct_set.encode s) (k := k) (g := fun _ => M.setPt fun pt => { pt with host := k }) h
        (encoded_size_eq setOf_regName _) (fun _ _ => rfl) trivial).imp Iff.rfl
      fun _ hq => ⟨_, _, hp, ?_⟩
    rw [← encode_eq setOf_regName]
    exact hq

theorem n_set_encoded_host (hd : env.dbg = false) (s : Str) :
    NOut env st (Host lib s) (fun L => if s = [] then HostOff S U W H P pa q f L else HostTo S U W H P pa q f s L)
      (Base.set_encoded_host s env st) := by
  unfold Base.set_encoded_host
  by_cases hs : s = []
  · subst hs
    exact (n_clear_host h hd).imp ⟨fun _ => .inr .nil, fun _ => trivial⟩ fun _ h => h
  · simp only [if_neg hs]
    rw [if_neg (by simpa using hs)]
    exact n_parsedAll (good_hostname (Good.init s)).flt hostname_all.2 fun h1 h2 => n_store_host' h (fun _ _ => rfl) (hostname_all.1 ⟨h1, h2⟩)

/-- the port set to `txt` -/
def PortTo (S U W H P pa q f : List Cell) (txt : Str) (L : List (List Cell)) : Prop :=
  L = [S, (if U ++ (W ++ (H ++ P)) = [] then b!"//".map some else U), W, H, (b!":" ++ txt).map some, pa, q, f]

/-- the port removed -/
def PortOff (S U W H _P pa q f : List Cell) (L : List (List Cell)) : Prop :=
  L = if (U ++ (W ++ H)).length = 2 then [S, [], [], [], [], pa, q, f] else [S, U, W, H, [], pa, q, f]

theorem n_set_port (hd : env.dbg = false) (s : Str) :
    NOut env st (s.all isDigit = true) (fun L => if s = [] then PortOff S U W H P pa q f L else PortTo S U W H P pa q f s L)
      (Base.set_port s env st) := by
  unfold Base.set_port
  by_cases hs : s = []
  · subst hs
    simp only [List.isEmpty_nil, if_true]
    rw [run_bind_ret run_pt]
    have h1 : st.pt.length2 id_user id_port = (U ++ (W ++ H)).length := by
      unfold Parts.length2
      rw [h.holds.rep, h.holds.rep]
      simp [plen, id_user, id_port]
    rw [h1]
    split
    · rename_i hc
      rw [assert_bind hd]
      exact n_cut (A := [S]) (Xs := [U, W, H, P]) (B := [pa, q, f]) (k := 3) (by simpa using h.holds) rfl rfl rfl (by simp)
        (by rw [PortOff, if_pos hc]; rfl)
    · rename_i hc
      exact n_clear (A := [S, U, W, H]) h.holds rfl (by simp) (by rw [PortOff, if_neg hc]; rfl)
  · simp only [if_neg hs]
    rw [if_neg (by simpa using hs)]
    refine n_require match_port_iff.2 fun v => ?_
    have hv := match_port_iff.1 v
    rw [run_bind_ret run_ask_auth]
    split
    · rename_i ha
      have ha : st.pt.length2 id_user id_path = 0 := by simpa [has_authority, St.obj] using ha
      rw [w_len2_auth h] at ha
      obtain rfl := List.length_eq_zero_iff.1 (show U.length = 0 by omega)
      obtain rfl := List.length_eq_zero_iff.1 (show W.length = 0 by omega)
      obtain rfl := List.length_eq_zero_iff.1 (show H.length = 0 by omega)
      obtain rfl := List.length_eq_zero_iff.1 (show P.length = 0 by omega)
      refine resize_step (A := [S]) h.holds rfl rfl ?_ (n_thrown hv)
      intro hs X' st' t' hl _ hp
      obtain ⟨a, Y, rfl, hl1⟩ := len_succ (n := s.length + 1 + 1) (by omega : X'.length = _)
      obtain ⟨b, Y, rfl, hl2⟩ := len_succ hl1
      obtain ⟨c, Y, rfl, hl3⟩ := len_succ hl2
      refine put_mid (A := [S]) [] [a] (b :: c :: Y) hp (by simp) rfl rfl rfl fun st1 h1 => ?_
      refine put_mid (A := [S]) [some c!"/"] [b] (c :: Y) h1 (by simp) rfl rfl rfl fun st2 h2 => ?_
      refine put_mid (A := [S]) slashes [c] Y h2 (by simp) rfl rfl rfl fun st3 h3 => ?_
      refine split_step (A := [S]) (x := slashes) (y := some c!":" :: Y) (z := []) (by simpa using h3) rfl (by decide) rfl fun st4 h4 => ?_
      refine split_step (A := [S, slashes]) (x := []) (y := some c!":" :: Y) (z := []) (by simpa using h4) rfl (by decide) rfl fun st5 h5 => ?_
      refine split_step (A := [S, slashes, []]) (x := []) (y := some c!":" :: Y) (z := []) (by simpa using h5) rfl (by decide) rfl fun st6 h6 => ?_
      refine last_step (put_mid (A := [S, slashes, [], []]) [some c!":"] Y [] (by simpa using h6) (by simp) (by simp) hl3 rfl fun st7 h7 => ?_)
      exact h7.n hv (by simp [PortTo, slashes])
    · rename_i ha
      have ha : st.pt.length2 id_user id_path ≠ 0 := by simpa [has_authority, St.obj] using ha
      rw [w_len2_auth h] at ha
      have ha : ¬ U ++ (W ++ (H ++ P)) = [] := by
        intro e
        simp at e
        simp [e] at ha
      exact n_delim (A := [S, U, W, H]) rfl h.holds rfl hv (by rw [PortTo, if_neg ha]; simp)

theorem n_set_port_part (hd : env.dbg = false) (s : Str) :
    NOut env st (s = [] ∨ ∃ p, s = c!":" :: p ∧ p.all isDigit = true)
      (fun L => if s = [] then PortOff S U W H P pa q f L else if s.length = 1 then L = [S, U, W, H, b!":".map some, pa, q, f] else
        PortTo S U W H P pa q f (s.drop 1) L) (Base.set_port_part s env st) := by
  unfold Base.set_port_part
  match s with
  | [] => exact (n_set_port h hd []).imp ⟨fun _ => .inl rfl, fun _ => by simp⟩ fun _ h => h
  | a :: r =>
    simp only [List.isEmpty_cons, Bool.false_eq_true, if_false, List.length_cons, List.drop_one, List.tail_cons, List.cons_ne_nil, false_or]
    refine n_require (fun v => ?_) fun v => ?_
    · obtain ⟨p, e, -⟩ := v
      cases e; rfl
    obtain rfl : a = c!":" := by simpa using v
    cases r with
    | nil => exact n_write (A := [S, U, W, H]) rfl h.holds rfl ⟨[], rfl, rfl⟩ rfl
    | cons b r =>
      refine (n_set_port h hd (b :: r)).imp ⟨fun v => ⟨_, rfl, v⟩, ?_⟩ fun L hl => ?_
      · rintro ⟨_, e, v⟩
        cases e; exact v
      · simpa using hl

theorem n_port_number (hd : env.dbg = false) (n : UInt32) :
    NOut env st True (fun L => ∃ s, Decimal n.toNat s ∧ PortTo S U W H P pa q f s L) (Base.set_port_number n env st) := by
  unfold Base.set_port_number
  obtain ⟨s, hs, hdec, -⟩ := port_string_of n
  rw [run_bind_ret (run_ask (a := s) hs)]
  refine (n_set_port h hd s).imp ⟨fun _ => trivial, fun _ => hdec.2.1⟩ fun L hq => ⟨s, hdec, ?_⟩
  simpa only [if_neg hdec.1] using hq

theorem n_set_encoded_path (s : Str) :
    NOut env st (PathOk lib (decide (S ≠ [])) (decide (U ++ (W ++ (H ++ P)) ≠ [])) false s) (fun L => L = [S, U, W, H, P, s.map some, q, f])
      (Base.set_encoded_path s env st) := by
  generalize hV : PathOk lib (decide (S ≠ [])) (decide (U ++ (W ++ (H ++ P)) ≠ [])) false s = V
  unfold Base.set_encoded_path
  have fin : V → NOut env st V (fun L => L = [S, U, W, H, P, s.map some, q, f]) ((Base.resize id_path s.length >>= fun dest => M.put dest s) env st) :=
    fun hv => n_write (A := [S, U, W, H, P]) rfl h.holds rfl hv rfl
  have key : ∀ {v : Prop} {ps : PS}, ps.flt = none → ((ps.ec = none ∧ ps.p = []) ↔ v) → (v ↔ V) →
      NOut env st V (fun L => L = [S, U, W, H, P, s.map some, q, f])
        ((Base.parsedAll ps >>= fun _ => Base.resize id_path s.length >>= fun dest => M.put dest s) env st) :=
    fun hf h1 h2 => n_parsedAll hf (fun v => h1.2 (h2.2 v)) fun a b => fin (h2.1 (h1.1 ⟨a, b⟩))
  by_cases hs : s = []
  · subst hs
    refine n_clear (A := [S, U, W, H, P]) h.holds rfl ?_ rfl
    rw [← hV]
    unfold PathOk
    split
    · exact ⟨[], by simp, rfl⟩
    · split <;> exact .inl rfl
  · rw [if_neg (by simpa using hs), run_bind_ret run_ask_auth]
    have hau : has_authority (st.obj env.dbg) = decide (U ++ (W ++ (H ++ P)) ≠ []) := by
      have h1 : st.pt.length2 id_user id_path = (U ++ (W ++ (H ++ P))).length := by
        rw [w_len2_auth h]; simp; omega
      unfold has_authority
      rw [show (st.obj env.dbg).pt = st.pt from rfl, h1]
      by_cases e : U ++ (W ++ (H ++ P)) = []
      · rw [e]; rfl
      · rw [decide_eq_true e]
        simp at e ⊢
        exact e
    rw [hau]
    unfold PathOk at hV
    by_cases ha : U ++ (W ++ (H ++ P)) = []
    · have ha : decide (U ++ (W ++ (H ++ P)) ≠ []) = false := by simpa using ha
      rw [ha] at hV ⊢
      simp only [Bool.false_eq_true, if_false] at hV ⊢
      by_cases hh : s.head? = some c!"/"
      · have : (s.head? == some c!"/") = true := by simp [hh]
        simp only [this, if_true]
        refine key (good_absolute (Good.init s)).flt absolute_all ?_
        rw [← hV]
        split
        · exact ⟨fun x => .inr (.inl x), fun x => x.elim (absurd · hs) (·.elim id fun y => absurd hh (rootless_head y).2)⟩
        · exact ⟨fun x => .inr (.inl x), fun x => x.elim (absurd · hs) (·.elim id fun y => absurd hh (noscheme_head y).2)⟩
      · have : (s.head? == some c!"/") = false := by simp [hh]
        simp only [this, if_false, Bool.false_eq_true]
        rw [run_bind_ret run_pt]
        have hl : st.pt.length id_scheme = S.length := by rw [w_len h]; simp [id_scheme]
        rw [hl]
        by_cases hS : S = []
        · rw [if_pos (by simp [hS])]
          refine key (good_first (Good.init s) pchar_nc_pct_set).flt noscheme_all ?_
          rw [← hV, if_neg (by simpa using hS)]
          exact ⟨fun x => .inr (.inr x), fun x => x.elim (absurd · hs) (·.elim (fun y => absurd (loose_head y) hh) id)⟩
        · rw [if_neg (by simpa using hS)]
          refine key (good_first (Good.init s) pchar_pct_set).flt rootless_all ?_
          rw [← hV, if_pos (by simpa using hS)]
          exact ⟨fun x => .inr (.inr x), fun x => x.elim (absurd · hs) (·.elim (fun y => absurd (loose_head y) hh) id)⟩
    · have ha : decide (U ++ (W ++ (H ++ P)) ≠ []) = true := decide_eq_true ha
      rw [ha] at hV ⊢
      rw [if_pos rfl]
      exact key (good_abempty (Good.init s)).flt abempty_all (by rw [← hV]; simp; rfl)

end

section
variable {A B : List (List Cell)} {X : List Cell} {id : Nat} {d : Byte} {e : PctSet} {ok : Byte → Bool} {s : Str}
  (h : Holds env st (A ++ X :: B) t) (hid : id = A.length)
include h hid

theorem n_plain (hn : e.encoded_size s = (e.encode s).length) :
    NOut env st True (fun L => L = A ++ (if s = [] then [] else d :: e.encode s).map some :: B) (Base.setPlain id d e s env st) := by
  unfold Base.setPlain
  by_cases hs : s = []
  · subst hs
    simp only [List.isEmpty_nil, if_true]
    exact n_clear h hid trivial rfl
  · simp only [if_neg hs]
    rw [if_neg (by simpa using hs)]
    exact n_delim hn h hid trivial rfl

theorem n_encoded (he : SetOf e ok) :
    NOut env st (Escaped isUpperHex ok s) (fun L => L = A ++ (if s = [] then [] else d :: s).map some :: B) (Base.setEncoded id d e s env st) := by
  unfold Base.setEncoded
  by_cases hs : s = []
  · subst hs
    simp only [List.isEmpty_nil, if_true]
    exact n_clear h hid .nil rfl
  · simp only [if_neg hs]
    rw [if_neg (by simpa using hs)]
    exact n_require (check_iff he s).2 fun v => n_delim rfl h hid ((check_iff he s).1 v) rfl

theorem n_part (he : SetOf e ok) :
    NOut env st (s = [] ∨ ∃ x, s = d :: x ∧ Escaped isUpperHex ok x) (fun L => L = A ++ s.map some :: B) (Base.setPart id d e s env st) := by
  unfold Base.setPart
  cases s with
  | nil => exact n_clear h hid (.inl rfl) rfl
  | cons a r =>
    rw [if_neg (by simp)]
    refine n_require (fun v => ?_) fun v1 => n_require (fun v => ?_) fun v2 => ?_
    · rcases v with v | ⟨x, v, -⟩
      · cases v
      · cases v; simp
    · rcases v with v | ⟨x, v, h⟩
      · cases v
      · cases v; exact (check_iff he r).2 h
    · obtain rfl : a = d := by simpa using v1
      exact n_delim rfl h hid (.inr ⟨r, rfl, (check_iff he r).1 v2⟩) rfl

end

section
variable (h : Part8 env st S U W H P pa q f t)
include h

theorem n_normalize (hd : env.dbg = false) {s : Str} (hs : S = s.map some) :
    NOut env st True (fun L => L = [(s.dropLast.map lower ++ s.drop (s.length - 1)).map some, U, W, H, P, pa, q, f]) (Base.normalize_scheme env st) := by
  unfold Base.normalize_scheme
  subst hs
  rw [run_bind_ret run_pt]
  have hlen : st.pt.length id_scheme = s.length := by rw [w_len h]; simp [id_scheme]
  rw [hlen]
  rcases List.eq_nil_or_concat s with rfl | ⟨s, a, rfl⟩
  · exact h.holds.n trivial rfl
  · rw [if_neg (by simp), assert_bind hd, run_bind_ret run_pt]
    have hoff : st.pt.off id_scheme = 0 := by rw [h.holds.rep]; simp [id_scheme]
    rw [hoff]
    have : (s.concat a).length - 1 = s.length := by simp
    rw [this]
    have hh : Holds env st ([] ++ ([] ++ (s ++ [a])).map some :: [U, W, H, P, pa, q, f]) t := by simpa using h.holds
    refine lowerLoop_of (st₀ := st) s [] [a] hh.start fun st' h' => ?_
    exact h'.n trivial (by simp)

theorem n_url (s : Str) :
    NOutOf env (fun st' => Nul st' ↔ s ≠ [] ∨ Mended st st') (s = [] ∨ UriReference lib s)
      (fun L => if s = [] then L = [[], [], [], [], [], [], [], []] else ∃ c : Components, c.Valid lib ∧ c.render = s ∧ L = cells c) (Base.set_encoded_url s env st) := by
  by_cases hs : s = []
  · subst hs
    unfold Base.set_encoded_url
    simp only [List.isEmpty_nil, if_true]
    rw [run_bind_ret run_isNull]
    by_cases hb : st.buf = none
    · rcases h.holds.buf with ⟨-, h2, -⟩ | ⟨junk, hb', -⟩
      · simp only [hb, Option.isNone_none]
        refine ⟨.inl trivial, by simp [(Mended.same (rfl : st.cap = st.cap))], _, _, h.holds, ?_⟩
        simp at h2
        simp [h2]
      · rw [hb] at hb'; simp at hb'
    · have : st.buf.isNone = false := by cases h : st.buf <;> simp_all
      simp only [this]
      simp only [ne_eq, not_true_eq_false, false_or]
      exact n_cut (A := []) (Xs := [S, U, W, H, P, pa, q, f]) (B := []) (k := 7) (by simpa using h.holds) rfl rfl rfl (.inl trivial) rfl
  · simp only [if_neg hs]
    by_cases hv : UriReference lib s
    · obtain ⟨c', hv, rfl⟩ := hv
      have hV : c'.render = [] ∨ UriReference lib c'.render := .inr ⟨c', hv, rfl⟩
      rcases base_set_url_holds h.holds hv hs with ⟨hs', st', e, h⟩ | ⟨hs', st', e, h2⟩
      · rw [e]
        obtain ⟨t', h'⟩ := h.rep
        exact ⟨hV, by simp [hs, h.nul], _, _, h', c', hv, rfl, rfl⟩
      · rw [e]; exact n_throws hV (.inl rfl)
    · rw [base_set_url_bad s hs hv]
      exact n_bad fun v => v.elim hs hv

theorem n_origin (s : Str) :
    NOut env st (s = [] ∨ (parse_origin s).ec = none)
      (fun L => if s = [] then L = [[], [], [], [], [], pa, q, f] else
        ∃ sch a p r k, Scheme lib sch ∧ (∀ a', a = some a' → a'.Valid lib) ∧ (if a.isSome then Slashed isUpperHex p else PathNoAuth isPchar (!r.isEmpty) p) ∧
          s = sch ++ b!":" ++ ((authTexts a).flatten ++ (p ++ r)) ∧
          At (parse_origin s) ([sch ++ b!":"] ++ authTexts a ++ [p]) [] r (pathSegments p).length 0 k ∧
          L = (sch ++ b!":").map some :: ((authTexts a).map (·.map some) ++ [(p ++ r).map some ++ pa, q, f]))
      (Base.set_encoded_origin s env st) := by
  by_cases hs : s = []
  · subst hs
    exact n_cut (A := []) (Xs := [S, U, W, H, P]) (B := [pa, q, f]) (k := 4) (by simpa using h.holds) rfl rfl rfl (.inl rfl) rfl
  · cases he : (parse_origin s).ec with
    | some x =>
      have hp : Base.parsed (parse_origin s) env st = .throw .invalid_part st := by
        simp [Base.parsed, (good_origin s).flt, he]
      rw [Base.set_encoded_origin, if_neg (by simpa using hs), run_bind_throw hp]
      exact n_bad (by simp [hs])
    | none =>
      simp only [if_neg hs]
      obtain ⟨sch, a, p, r, k, h1, h2, h3, h4, -, hat⟩ := origin_sound he
      have hv : s = [] ∨ True := .inr trivial
      refine origin_step hs hat h4 h.holds rfl (fun _ st' t' hp => ?_) (n_thrown hv)
      exact hp.n hv ⟨sch, a, p, r, k, h1, h2, h3, h4, hat, rfl⟩

end

end Url
