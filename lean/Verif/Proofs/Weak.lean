import Verif.Proofs.Origin
import Verif.Proofs.Strong

/-!
A build without assertions: no modifying call reads or writes outside the buffer, whatever calls came before,
and every part except the user stays initialised.
-/

set_option linter.unusedSimpArgs false
attribute [-simp] List.length_flatten

namespace Url
open Spec

variable {env : Env} {st : St}

/-- every cell was written -/
def Init (X : List Cell) : Prop := none ∉ X

@[simp] theorem init_nil : Init [] := by simp [Init]
@[simp] theorem init_some (s : Str) : Init (s.map some) := by simp [Init]
@[simp] theorem init_append (X Y : List Cell) : Init (X ++ Y) ↔ Init X ∧ Init Y := by simp [Init]
@[simp] theorem init_cons (a : Byte) (Y : List Cell) : Init (some a :: Y) ↔ Init Y := by simp [Init]

theorem init_iff {X : List Cell} : Init X ↔ ∃ s : Str, X = s.map some := by
  constructor
  · intro h
    induction X with
    | nil => exact ⟨[], rfl⟩
    | cons a X ih =>
      cases a with
      | none => simp [Init] at h
      | some a =>
        obtain ⟨s, rfl⟩ := ih (by simpa using h)
        exact ⟨a :: s, rfl⟩
  · rintro ⟨s, rfl⟩; simp

/-- nothing, or a text that starts with `d` -/
def Lead (d : Byte) (X : List Cell) : Prop := X = [] ∨ ∃ s : Str, X = (d :: s).map some

@[simp] theorem lead_nil (d : Byte) : Lead d [] := .inl rfl
@[simp] theorem lead_cons (d : Byte) (s : Str) : Lead d (some d :: s.map some) := .inr ⟨s, rfl⟩
@[simp] theorem lead_tail (d : Byte) (s : Str) : Lead d (some d :: (s.map some).tail) := .inr ⟨s.tail, by simp⟩
@[simp] theorem lead_query (q : Option Str) : Lead c!"?" ((queryText q).map some) := by
  cases q <;> simp [queryText]
@[simp] theorem lead_frag (f : Option Str) : Lead c!"#" ((fragText f).map some) := by
  cases f <;> simp [fragText]

theorem Lead.init {d : Byte} {X : List Cell} (h : Lead d X) : Init X := by
  rcases h with rfl | ⟨s, rfl⟩ <;> simp

/-- the text in cells, if all were written -/
def readCells (X : List Cell) : R Str :=
  match X.mapM id with
  | some s => .ok s
  | none => .error .ub

theorem readCells_some (s : Str) : readCells (s.map some) = .ok s := by
  unfold readCells
  rw [mapM_some]

theorem Holds.get2 {L t} (h : Holds env st L t) {b e : Nat} (hbe : b ≤ e) (dbg : Bool) :
    (st.obj dbg).get2 b e = readCells ((L.take e).drop b).flatten := by
  have e1 := plen_mono L hbe
  have hL : L = L.take b ++ ((L.take e).drop b ++ L.drop e) := by
    have h1 : L.take b = (L.take e).take b := by rw [List.take_take, Nat.min_eq_left hbe]
    rw [h1, ← List.append_assoc, List.take_append_drop, List.take_append_drop]
  have hf : L.flatten = (L.take b).flatten ++ (((L.take e).drop b).flatten ++ (L.drop e).flatten) := by
    conv => lhs; rw [hL]
    simp [-List.take_append_drop]
  unfold Obj.get2
  rw [show (st.obj dbg).pt = st.pt from rfl, h.rep, h.rep, if_pos (by omega),
    show plen L e - plen L b = ((L.take e).drop b).flatten.length by omega]
  unfold plen Obj.read
  generalize (L.take b).flatten = A at *
  generalize ((L.take e).drop b).flatten = B at *
  split
  · rename_i h0
    rw [List.length_eq_zero_iff.1 h0]
    rfl
  · rename_i h0
    rcases h.buf with ⟨-, h2, -⟩ | ⟨junk, hb, -⟩
    · rw [hf] at h2
      simp only [List.append_eq_nil_iff] at h2
      rw [h2.2.1] at h0
      exact absurd rfl h0
    · rw [show (st.obj dbg).mem = (L.flatten ++ t :: junk) by simp [St.obj, hb], hf, if_pos (by simp)]
      simp only [List.append_assoc, List.drop_left, List.take_left]
      rfl

theorem Holds.get {L t} (h : Holds env st L t) (id : Nat) (dbg : Bool) :
    (st.obj dbg).get id = readCells (L.getD id []) := by
  unfold Obj.get
  rw [h.get2 (Nat.le_succ id)]
  exact congrArg _ (take_drop_one L id)

/-- what a call may do to a part -/
inductive Touch
  /-- it keeps its text -/
  | keep
  /-- it has a new text -/
  | set
  /-- it has a new text, which is empty or starts with `d` -/
  | lead (d : Byte)
  /-- it has new cells -/
  | any
deriving DecidableEq

/-- the parts before and after a call -/
def Touched : List Touch → List (List Cell) → List (List Cell) → Prop
  | m :: ms, x :: xs, y :: ys => (match m with | .keep => y = x | .set => Init y | .lead d => Lead d y | .any => True) ∧ Touched ms xs ys
  | _, _, _ => True

/-- A call that ends in a proper state or throws. -/
def WOut (env : Env) (L : List (List Cell)) (mask : List Touch) : Out Unit → Prop
  | .ret _ st' => ∃ L' t', Holds env st' L' t' ∧ Touched mask L L'
  | .throw _ _ => True
  | .fault _ => False

theorem Prog.w {L L' mask m st' t'} (h : Prog env st m L' st' t') (ht : Touched mask L L') :
    WOut env L mask (.ret () st') := ⟨L', t', h.holds, ht⟩

theorem Holds.w {L L' mask st' t'} (h : Holds env st' L' t') (ht : Touched mask L L') :
    WOut env L mask (.ret () st') := ⟨L', t', h, ht⟩

theorem w_thrown {L mask} {p : Prop} (_ : p) (e : Exc) (st' : St) (_ : e = .bad_alloc ∨ e = .too_large) (_ : Same st st') :
    WOut env L mask (.throw e st') := trivial

theorem assert_off {c : Obj → R Bool} (hd : env.dbg = false) : M.assert c env st = .ret () st := by
  unfold M.assert
  refine run_ask ?_
  simp [Obj.assert, St.obj, hd]

/-- `BOOST_ASSERT` in a build without assertions -/
theorem assert_bind {β : Type} {c : Obj → R Bool} {f : Unit → M β} (hd : env.dbg = false) :
    (M.assert c >>= f) env st = f () env st := run_bind_ret (assert_off hd)

theorem run_ask_auth : M.ask (fun o => .ok (has_authority o)) env st = .ret (has_authority (st.obj env.dbg)) st := rfl

/-- the touched parts of each call -/
def Op.touch : Op → List Touch
  | .set_encoded_url _ => [.set, .set, .set, .set, .set, .set, .lead c!"?", .lead c!"#"]
  | .set_encoded_origin _ => [.set, .set, .set, .set, .set, .set, .keep, .keep]
  | .set_scheme _ | .normalize_scheme | .normalize => [.set, .keep, .keep, .keep, .keep, .keep, .keep, .keep]
  | .set_encoded_authority _ => [.keep, .set, .set, .set, .set, .keep, .keep, .keep]
  | .set_encoded_userinfo _ | .set_userinfo_part _ | .set_user _ | .set_encoded_user _ | .set_password _
  | .set_encoded_password _ | .set_password_part _ => [.keep, .any, .set, .keep, .keep, .keep, .keep, .keep]
  | .set_host _ | .set_encoded_host _ | .set_port _ | .set_port_number _ | .set_port_part _ =>
    [.keep, .any, .set, .set, .set, .keep, .keep, .keep]
  | .set_encoded_path _ => [.keep, .keep, .keep, .keep, .keep, .set, .keep, .keep]
  | .set_query _ | .set_encoded_query _ | .set_query_part _ => [.keep, .keep, .keep, .keep, .keep, .keep, .lead c!"?", .keep]
  | .set_fragment _ | .set_encoded_fragment _ | .set_fragment_part _ => [.keep, .keep, .keep, .keep, .keep, .keep, .keep, .lead c!"#"]

section
variable {A B : List (List Cell)} {X : List Cell} {t : Cell} {id : Nat} {L : List (List Cell)} {mask : List Touch}

/-- `resize(id, 0)` -/
theorem w_clear (h : Holds env st (A ++ X :: B) t) (hid : id = A.length) (ht : Touched mask L (A ++ [] :: B)) :
    WOut env L mask ((Base.resize id 0 >>= fun _ => pure ()) env st) := by
  refine resize_step h hid rfl ?_ w_thrown
  intro hs X' st' t' hl _ hp
  obtain rfl := List.length_eq_zero_iff.1 hl
  exact hp.w ht

/-- `resize(id, n)` and writing `n` bytes -/
theorem w_write {s : Str} {n : Nat} (hn : n = s.length) (h : Holds env st (A ++ X :: B) t) (hid : id = A.length)
    (ht : Touched mask L (A ++ s.map some :: B)) :
    WOut env L mask ((Base.resize id n >>= fun dest => M.put dest s) env st) := by
  subst hn
  refine resize_step h hid rfl ?_ w_thrown
  intro hs X' st' t' hl _ hp
  refine last_step (put_step hp (k := 0) (by simp) (by omega) ?_)
  intro st1 h1
  rw [ow_all hl] at h1
  exact h1.w ht

/-- `resize(id, 1 + n)`, writing a delimiter and `n` bytes -/
theorem w_delim {d : Byte} {s : Str} {n : Nat} (hn : n = s.length) (h : Holds env st (A ++ X :: B) t) (hid : id = A.length)
    (ht : Touched mask L (A ++ (d :: s).map some :: B)) :
    WOut env L mask
      ((Base.resize id (1 + n) >>= fun dest => M.put dest [d] >>= fun _ => M.put (dest + 1) s) env st) := by
  subst hn
  refine resize_step h hid rfl ?_ w_thrown
  intro hs X' st' t' hl _ hp
  obtain ⟨x, Y, rfl, hy⟩ := len_succ (X := X') (n := s.length) (by omega)
  refine put_mid [] [x] Y hp rfl rfl rfl rfl ?_
  intro st1 h1
  refine last_step (put_mid [some d] Y [] h1 rfl (by simp) hy rfl ?_)
  intro st2 h2
  exact h2.w (by simpa using ht)

/-- `resize(first, last, n)` with nothing written -/
theorem w_cut {Xs : List (List Cell)} {first last k n : Nat} (h : Holds env st (A ++ (Xs ++ B)) t) (hk : Xs.length = k + 1)
    (hfirst : first = A.length) (hlast : last = A.length + (k + 1))
    (ht : ∀ X', X'.length = n → Touched mask L (A ++ (X' :: List.replicate k [] ++ B))) :
    WOut env L mask ((Base.resize2 first last n >>= fun _ => pure ()) env st) := by
  refine resize2_step h hk hfirst hlast rfl ?_ w_thrown
  intro hs X' st' t' hl _ hp
  exact hp.w (ht X' hl)

end

theorem w_require {L mask} {b : Bool} {f : Unit → M Unit} (h : b = true → WOut env L mask (f () env st)) :
    WOut env L mask ((Base.require b >>= f) env st) := by
  cases b with
  | true => rw [run_bind_ret (run_require rfl)]; exact h rfl
  | false => rw [run_bind_throw (run_require_false rfl)]; trivial

theorem w_validate {L mask} {e : PctSet} {s : Str} {f : Unit → M Unit} (h : WOut env L mask (f () env st)) :
    WOut env L mask ((Base.validate e s >>= f) env st) := w_require fun _ => h

theorem w_parsedAll {L mask} {ps : PS} {f : Parts → M Unit} (hf : ps.flt = none)
    (h : ps.ec = none → ps.p = [] → WOut env L mask (f ps.pt env st)) :
    WOut env L mask ((Base.parsedAll ps >>= f) env st) := by
  by_cases hp : ps.ec = none ∧ ps.p = []
  · rw [run_bind_ret (parsedAll_ok hf hp.1 hp.2)]; exact h hp.1 hp.2
  · rw [run_bind_throw (parsedAll_bad hf hp)]; trivial

theorem w_bind {L mask} {m : M Unit} {f : Unit → M Unit} (h : WOut env L mask (m env st))
    (hf : ∀ st' L' t', Holds env st' L' t' → Touched mask L L' → WOut env L mask (f () env st')) :
    WOut env L mask ((m >>= f) env st) := by
  rw [run_bind]
  cases hm : m env st with
  | ret a st' => rw [hm] at h; obtain ⟨L', t', h1, h2⟩ := h; exact hf st' L' t' h1 h2
  | throw e st' => trivial
  | fault x => rw [hm] at h; exact h.elim

/-! ### one call -/

section
variable {S U W H P pa q f : List Cell} {t : Cell}

/-- the parts of a state in which only the user may contain bytes that were never written -/
structure Part8 (env : Env) (st : St) (S U W H P pa q f : List Cell) (t : Cell) : Prop where
  holds : Holds env st [S, U, W, H, P, pa, q, f] t
  S : Init S
  W : Init W
  H : Init H
  P : Init P
  pa : Init pa
  q : Lead c!"?" q
  f : Lead c!"#" f

variable (h : Part8 env st S U W H P pa q f t)
include h

theorem w_len (id : Nat) : st.pt.length id = ([S, U, W, H, P, pa, q, f].getD id []).length := h.holds.rep.length id

theorem w_len2_auth : st.pt.length2 id_user id_path = U.length + W.length + H.length + P.length := by
  unfold Parts.length2
  rw [h.holds.rep, h.holds.rep]
  simp [plen, id_user, id_path]; omega

theorem w_url (s : Str) : WOut env [S, U, W, H, P, pa, q, f] (Op.touch (.set_encoded_url s)) (Base.set_encoded_url s env st) := by
  by_cases hs : s = []
  · subst hs
    unfold Base.set_encoded_url
    simp only [List.isEmpty_nil, if_true]
    rw [run_bind_ret run_isNull]
    by_cases hb : st.buf = none
    · rcases h.holds.buf with ⟨-, h2, -⟩ | ⟨junk, hb', -⟩
      · simp only [hb, Option.isNone_none]
        refine h.holds.w ?_
        simp at h2
        simp [Touched, Op.touch, h2]
      · rw [hb] at hb'; simp at hb'
    · have : st.buf.isNone = false := by cases h : st.buf <;> simp_all
      simp only [this]
      refine w_cut (A := []) (Xs := [S, U, W, H, P, pa, q, f]) (B := []) (k := 7) (by simpa using h.holds) rfl rfl rfl ?_
      intro X' hl
      obtain rfl := List.length_eq_zero_iff.1 hl
      simp [Touched, Op.touch]
  · by_cases hv : UriReference lib s
    · obtain ⟨c', hv, rfl⟩ := hv
      rcases base_set_url_holds h.holds hv hs with ⟨hs', st', e, h⟩ | ⟨hs', st', e, h2⟩
      · rw [e]
        obtain ⟨t', h'⟩ := h.rep
        refine h'.w ?_
        obtain ⟨x, w, hst, pt, e⟩ := authTexts_four c'.auth
        simp [cells_eq, e, Touched, Op.touch]
      · rw [e]; trivial
    · rw [base_set_url_bad s hs hv]; trivial

theorem w_origin (s : Str) : WOut env [S, U, W, H, P, pa, q, f] (Op.touch (.set_encoded_origin s)) (Base.set_encoded_origin s env st) := by
  by_cases hs : s = []
  · subst hs
    unfold Base.set_encoded_origin
    simp only [List.isEmpty_nil, if_true]
    refine w_cut (A := []) (Xs := [S, U, W, H, P]) (B := [pa, q, f]) (k := 4) (by simpa using h.holds) rfl rfl rfl ?_
    intro X' hl
    obtain rfl := List.length_eq_zero_iff.1 hl
    simp [Touched, Op.touch, h.pa]
  · by_cases hv : (parse_origin s).ec = none
    · obtain ⟨sch, a, p, r, k, -, -, -, e, -, b⟩ := origin_sound hv
      refine origin_step hs b e h.holds rfl ?_ w_thrown
      intro _ st' t' h'
      refine h'.w ?_
      obtain ⟨x, w, hst, pt, e⟩ := authTexts_four a
      simp [e, Touched, Op.touch, ← List.map_append, h.pa]
    · unfold Base.set_encoded_origin
      have he : s.isEmpty = false := by simpa using hs
      simp only [he, Bool.false_eq_true, if_false]
      have hp : Base.parsed (parse_origin s) env st = .throw .invalid_part st := by
        have : (parse_origin s).ec.isSome = true := by simpa [Option.isSome_iff_ne_none] using hv
        simp [Base.parsed, (good_origin s).flt, this]
      rw [run_bind_throw hp]; trivial

theorem w_scheme (s : Str) : WOut env [S, U, W, H, P, pa, q, f] (Op.touch (.set_scheme s)) (Base.set_scheme s env st) := by
  unfold Base.set_scheme
  split
  · exact w_clear (A := []) h.holds rfl (by simp [Touched, Op.touch])
  · refine w_require fun _ => w_require fun _ => ?_
    refine resize_step (A := []) h.holds rfl rfl ?_ w_thrown
    intro hs X' st' t' hl _ hp
    obtain ⟨Y, x, rfl, hy⟩ := len_snoc hl
    refine put_mid [] Y [x] hp rfl rfl hy rfl ?_
    intro st1 h1
    refine last_step (put_mid (s.map some) [x] [] h1 (by simp) (by simp) rfl rfl ?_)
    intro st2 h2
    exact h2.w (by simp [Touched, Op.touch])

theorem w_authority (hd : env.dbg = false) (s : Str) :
    WOut env [S, U, W, H, P, pa, q, f] (Op.touch (.set_encoded_authority s)) (Base.set_encoded_authority s env st) := by
  by_cases hs : s = []
  · subst hs
    unfold Base.set_encoded_authority
    simp only [List.isEmpty_nil, if_true]
    refine w_cut (A := [S]) (Xs := [U, W, H, P]) (B := [pa, q, f]) (k := 3) (by simpa using h.holds) rfl rfl rfl ?_
    intro X' hl
    obtain rfl := List.length_eq_zero_iff.1 hl
    simp [Touched, Op.touch]
  · by_cases hv : ∃ a, IsAuth a s
    · obtain ⟨a, ha, rfl⟩ := hv
      unfold Base.set_encoded_authority
      have he : a.render.isEmpty = false := by simpa using hs
      simp only [he, Bool.false_eq_true, if_false]
      obtain ⟨k, b, -⟩ := authority_parts ha
      rw [run_bind_ret (parsedAll_ok b.flt b.ec b.p)]
      have hlen : ∀ id, (parse_authority (PS.init a.render)).pt.length id = (([[]] ++ authParts [] a).getD id []).length := b.rep.length
      simp only [hlen]
      have hr := authParts_render a
      obtain ⟨u, hst, pt⟩ := a
      obtain ⟨x, w, -, e2, e3⟩ := userParts_two [] u
      simp only [authParts, e2] at hr hlen ⊢
      generalize hR : Auth.render ⟨u, hst, pt⟩ = s at *
      simp only [id_user, id_password, id_host, id_port, List.cons_append, List.nil_append, List.getD_cons_succ, List.getD_cons_zero]
      have hs : s = x ++ (w ++ (hst ++ portText pt)) := by rw [← hr]; simp
      refine resize2_step (A := [_]) (Xs := [U, W, _, _]) (k := 3) h.holds rfl rfl rfl rfl ?_ w_thrown
      intro hsto X' st' t' hl _ hp
      obtain ⟨a, Y, rfl, hl1⟩ := len_succ (n := s.length + 1) (by omega : X'.length = _)
      obtain ⟨b, Y, rfl, hl2⟩ := len_succ hl1
      refine put_mid (A := [_]) [] [a] (b :: Y) hp (by simp) rfl rfl rfl fun st1 h1 => ?_
      refine put_mid (A := [_]) [some c!"/"] [b] Y h1 (by simp) rfl rfl rfl fun st2 h2 => ?_
      refine put_mid (A := [_]) slashes Y [] h2 (by simp) (by simp) hl2 rfl fun st3 h3 => ?_
      rw [hs] at h3
      refine split_step (A := [_]) (x := slashes ++ x.map some) (y := (w ++ (hst ++ portText pt)).map some) (z := [])
        (by simpa using h3) rfl (by decide) (by simp; omega) fun st4 h4 => ?_
      refine split_step (A := [_, _]) (x := w.map some) (y := (hst ++ portText pt).map some) (z := [])
        (by simpa using h4) rfl (by decide) (by simp) fun st5 h5 => ?_
      refine split_step (A := [_, _, _]) (x := hst.map some) (y := (portText pt).map some) (z := [])
        (by simpa using h5) rfl (by decide) (by simp) fun st6 h6 => ?_
      rw [assert_off hd]
      exact h6.w (by simp [Touched, Op.touch])
    · rw [base_set_authority_bad s hs hv]; trivial

theorem w_set_encoded_userinfo (s : Str) :
    WOut env [S, U, W, H, P, pa, q, f] (Op.touch (.set_encoded_userinfo s)) (Base.set_encoded_userinfo s env st) := by
  unfold Base.set_encoded_userinfo
  split
  · rw [run_bind_ret run_pt]
    split
    · refine w_cut (A := [S]) (Xs := [U, W]) (B := [H, P, pa, q, f]) (k := 1) (by simpa using h.holds) rfl rfl rfl ?_
      intro X' hl
      simp [Touched, Op.touch]
    · refine w_cut (A := [S]) (Xs := [U, W]) (B := [H, P, pa, q, f]) (k := 1) (by simpa using h.holds) rfl rfl rfl ?_
      intro X' hl
      simp [Touched, Op.touch]
  · refine w_parsedAll (good_userinfo (Good.init s)).flt fun h1 h2 => ?_
    obtain ⟨u, hu⟩ := userinfoText_exists (userinfo_all ⟨h1, h2⟩)
    have b := parse_userinfo_at hu
    have hlen : (parse_userinfo (PS.init s)).pt.length id_user = u.1.length := b.rep.length id_user
    rw [hlen]
    have hle : u.1.length ≤ s.length := by
      rw [← hu.2.2, userinfoText_eq]; simp
    refine resize2_step (A := [S]) (Xs := [U, W]) (B := [H, P, pa, q, f]) (k := 1) h.holds rfl rfl rfl rfl ?_ w_thrown
    intro hsto X' st' t' hl _ hp
    obtain ⟨a, Y, rfl, hl1⟩ := len_succ (n := s.length + 2) (by omega : X'.length = _)
    obtain ⟨b, Y, rfl, hl2⟩ := len_succ hl1
    obtain ⟨Y, z, rfl, hl3⟩ := len_snoc hl2
    refine put_mid (A := [_]) [] [a] (b :: (Y ++ [z])) hp (by simp) rfl rfl rfl fun st1 h1 => ?_
    refine put_mid (A := [_]) [some c!"/"] [b] (Y ++ [z]) h1 (by simp) rfl rfl rfl fun st2 h2 => ?_
    refine put_mid (A := [_]) slashes Y [z] h2 (by simp) (by simp) hl3 rfl fun st3 h3 => ?_
    have hx : ((b!"//" ++ s).take u.1.length).map some ++ (((b!"//" ++ s).drop u.1.length).map some ++ [z]) =
        slashes ++ (s.map some ++ [z]) := by
      rw [← List.append_assoc, ← List.map_append, List.take_append_drop]; simp
    refine split_step (A := [_]) (x := ((b!"//" ++ s).take u.1.length).map some)
      (y := ((b!"//" ++ s).drop u.1.length).map some ++ [z]) (z := [])
      (by rw [hx]; simpa using h3) rfl (by decide) (by simp; omega) fun st4 h4 => ?_
    refine last_step (put_mid (A := [_, _]) (((b!"//" ++ s).drop u.1.length).map some) [z] [] h4 (by simp; omega) (by simp) rfl rfl fun st5 h5 => ?_)
    exact h5.w (by simp [Touched, Op.touch, ← List.map_drop])

theorem w_userinfo_part (s : Str) :
    WOut env [S, U, W, H, P, pa, q, f] (Op.touch (.set_userinfo_part s)) (Base.set_userinfo_part s env st) := by
  unfold Base.set_userinfo_part
  split
  · exact w_set_encoded_userinfo h s
  · exact w_require fun _ => w_set_encoded_userinfo h _

/-- storing a non-empty user -/
theorem w_store_user {n : Nat} {txt : Str} (hd : env.dbg = false) (hn : n = txt.length) :
    WOut env [S, U, W, H, P, pa, q, f] (Op.touch (.set_user txt)) ((do
    if (← M.pt).length id_password ≠ 0 then
      M.assert fun o => do backIs (← o.get id_password) c!"@"
      let dest ← Base.resize id_user (2 + n)
      M.put (dest + 2) txt
    else
      let dest ← Base.resize id_user (2 + n + 1)
      M.put dest b!"/"
      M.put (dest + 1) b!"/"
      M.put (dest + (2 + n)) b!"@"
      Base.split id_user (2 + n)
      M.put (dest + 2) txt) env st) := by
  subst hn
  rw [run_bind_ret run_pt]
  split
  · rw [assert_bind hd]
    refine resize_step (A := [S]) h.holds rfl rfl ?_ w_thrown
    intro hs X' st' t' hl htake hp
    obtain ⟨a, Y, rfl, hl1⟩ := len_succ (n := txt.length + 1) (by omega : X'.length = _)
    obtain ⟨b, Y, rfl, hl2⟩ := len_succ hl1
    refine last_step (put_mid (A := [S]) [a, b] Y [] hp (by simp) (by simp) hl2 rfl ?_)
    intro st2 h2
    exact h2.w (by simp [Touched, Op.touch, h.W])
  · refine resize_step (A := [S]) h.holds rfl rfl ?_ w_thrown
    intro hs X' st' t' hl _ hp
    obtain ⟨a, Y, rfl, hl1⟩ := len_succ (n := txt.length + 1 + 1) (by omega : X'.length = _)
    obtain ⟨b, Y, rfl, hl2⟩ := len_succ hl1
    obtain ⟨Y, z, rfl, hl3⟩ := len_snoc hl2
    refine put_mid (A := [S]) [] [a] (b :: (Y ++ [z])) hp (by simp) rfl rfl rfl fun st1 h1 => ?_
    refine put_mid (A := [S]) [some c!"/"] [b] (Y ++ [z]) h1 (by simp) rfl rfl rfl fun st2 h2 => ?_
    refine put_mid (A := [S]) (slashes ++ Y) [z] [] h2 (by simp; omega) (by simp) rfl rfl fun st3 h3 => ?_
    refine split_step (A := [S]) (x := slashes ++ Y) (y := [some c!"@"]) (z := W) (by simpa using h3) rfl (by decide)
      (by simp; omega) fun st4 h4 => ?_
    refine last_step (put_mid (A := [S]) slashes Y [] h4 (by simp) (by simp) hl3 rfl fun st5 h5 => ?_)
    exact h5.w (by simp [Touched, Op.touch, h.W])

theorem w_set_user (hd : env.dbg = false) (s : Str) :
    WOut env [S, U, W, H, P, pa, q, f] (Op.touch (.set_user s)) (Base.set_user s env st) := by
  unfold Base.set_user
  split
  · rw [run_bind_ret run_pt]
    split
    · exact h.holds.w (by simp [Touched, Op.touch, h.W])
    · have ha : Base.assertUserinfo env st = .ret () st := by
        unfold Base.assertUserinfo
        rw [assert_bind hd, assert_bind hd, assert_bind hd, assert_off hd]
      rw [run_bind_ret ha, run_bind_ret run_pt]
      split
      · refine w_cut (A := [S]) (Xs := [U, W]) (B := [H, P, pa, q, f]) (k := 1) (by simpa using h.holds) rfl rfl rfl ?_
        intro X' hl
        simp [Touched, Op.touch]
      · refine resize_step (A := [S]) h.holds rfl rfl ?_ w_thrown
        intro hs X' st' t' hl htake hp
        exact hp.w (by simp [Touched, Op.touch, h.W])
  · exact w_store_user h hd (encoded_size_eq setOf_userinfo_nc _)

theorem w_set_encoded_user (hd : env.dbg = false) (s : Str) :
    WOut env [S, U, W, H, P, pa, q, f] (Op.touch (.set_encoded_user s)) (Base.set_encoded_user s env st) := by
  unfold Base.set_encoded_user
  split
  · exact w_set_user h hd s
  · exact w_validate (w_store_user h hd rfl)

/-- storing a non-empty password -/
theorem w_store_password {n : Nat} {txt : Str} (hn : n = txt.length) :
    WOut env [S, U, W, H, P, pa, q, f] (Op.touch (.set_password txt)) ((do
    if (← M.pt).length id_user ≠ 0 then
      let dest ← Base.resize id_password (1 + n + 1)
      M.put dest b!":"
      M.put (dest + (n + 1)) b!"@"
      M.put (dest + 1) txt
    else
      let dest ← Base.resize2 id_user id_host (2 + 1 + n + 1)
      M.put dest b!"/"
      M.put (dest + 1) b!"/"
      M.put (dest + 2) b!":"
      M.put (dest + (2 + n + 1)) b!"@"
      M.put (dest + 3) txt
      Base.split id_user 2) env st) := by
  subst hn
  rw [run_bind_ret run_pt]
  split
  · refine resize_step (A := [S, U]) h.holds rfl rfl ?_ w_thrown
    intro hs X' st' t' hl _ hp
    obtain ⟨a, Y, rfl, hl1⟩ := len_succ (n := txt.length + 1) (by omega : X'.length = _)
    obtain ⟨Y, z, rfl, hl2⟩ := len_snoc hl1
    refine put_mid (A := [S, U]) [] [a] (Y ++ [z]) hp (by simp) rfl rfl rfl fun st1 h1 => ?_
    refine put_mid (A := [S, U]) (some c!":" :: Y) [z] [] h1 (by simp; omega) (by simp) rfl rfl fun st2 h2 => ?_
    refine last_step (put_mid (A := [S, U]) [some c!":"] Y [some c!"@"] h2 (by simp) (by simp) hl2 rfl fun st3 h3 => ?_)
    exact h3.w (by simp [Touched, Op.touch])
  · refine resize2_step (A := [S]) (Xs := [U, W]) (k := 1) h.holds rfl rfl rfl rfl ?_ w_thrown
    intro hs X' st' t' hl _ hp
    obtain ⟨a, Y, rfl, hl1⟩ := len_succ (n := txt.length + 1 + 1 + 1) (by omega : X'.length = _)
    obtain ⟨b, Y, rfl, hl2⟩ := len_succ hl1
    obtain ⟨c, Y, rfl, hl3⟩ := len_succ hl2
    obtain ⟨Y, z, rfl, hl4⟩ := len_snoc hl3
    refine put_mid (A := [S]) [] [a] (b :: c :: (Y ++ [z])) hp (by simp) rfl rfl rfl fun st1 h1 => ?_
    refine put_mid (A := [S]) [some c!"/"] [b] (c :: (Y ++ [z])) h1 (by simp) rfl rfl rfl fun st2 h2 => ?_
    refine put_mid (A := [S]) slashes [c] (Y ++ [z]) h2 (by simp) rfl rfl rfl fun st3 h3 => ?_
    refine put_mid (A := [S]) (slashes ++ some c!":" :: Y) [z] [] h3 (by simp; omega) (by simp) rfl rfl fun st4 h4 => ?_
    refine put_mid (A := [S]) (slashes ++ [some c!":"]) Y [some c!"@"] h4 (by simp) (by simp) hl4 rfl fun st5 h5 => ?_
    refine last_step (split_step (A := [S]) (x := slashes) (y := some c!":" :: txt.map some ++ [some c!"@"]) (z := [])
      (by simpa using h5) rfl (by decide) rfl fun st6 h6 => ?_)
    exact h6.w (by simp [Touched, Op.touch])

theorem w_set_password (hd : env.dbg = false) (s : Str) :
    WOut env [S, U, W, H, P, pa, q, f] (Op.touch (.set_password s)) (Base.set_password s env st) := by
  unfold Base.set_password
  split
  · rw [run_bind_ret run_pt]
    split
    · exact h.holds.w (by simp [Touched, Op.touch, h.W])
    · have ha : Base.assertUserinfo env st = .ret () st := by
        unfold Base.assertUserinfo
        rw [assert_bind hd, assert_bind hd, assert_bind hd, assert_off hd]
      rw [run_bind_ret ha, run_bind_ret run_pt]
      split
      · exact w_clear (A := [S, U]) h.holds rfl (by simp [Touched, Op.touch])
      · exact w_write (A := [S, U]) rfl h.holds rfl (by simp [Touched, Op.touch])
  · exact w_store_password h (encoded_size_eq setOf_userinfo _)

theorem w_set_encoded_password (hd : env.dbg = false) (s : Str) :
    WOut env [S, U, W, H, P, pa, q, f] (Op.touch (.set_encoded_password s)) (Base.set_encoded_password s env st) := by
  unfold Base.set_encoded_password
  split
  · exact w_set_password h hd s
  · exact w_require fun _ => w_validate (w_store_password h rfl)

omit h in
theorem w_again {U' W' : List Cell} {o : Out Unit}
    (h : WOut env [S, U', W', H, P, pa, q, f] [.keep, .any, .set, .keep, .keep, .keep, .keep, .keep] o) :
    WOut env [S, U, W, H, P, pa, q, f] [.keep, .any, .set, .keep, .keep, .keep, .keep, .keep] o := by
  cases o with
  | ret a st' =>
    obtain ⟨L', t', h1, h2⟩ := h
    refine ⟨L', t', h1, ?_⟩
    have hl := h1.len
    match L' with
    | [_, _, _, _, _, _, _, _] => simpa [Touched] using h2
    | [] | [_] | [_, _] | [_, _, _] | [_, _, _, _] | [_, _, _, _, _] | [_, _, _, _, _, _] | [_, _, _, _, _, _, _]
    | _ :: _ :: _ :: _ :: _ :: _ :: _ :: _ :: _ :: _ => simp at hl
  | throw => trivial
  | fault => exact h.elim

theorem w_set_password_part (hd : env.dbg = false) (s : Str) :
    WOut env [S, U, W, H, P, pa, q, f] (Op.touch (.set_password_part s)) (Base.set_password_part s env st) := by
  unfold Base.set_password_part
  split
  · exact w_set_password h hd s
  · split
    · refine w_require fun _ => ?_
      rw [run_bind_ret run_pt]
      split
      · refine resize_step (A := [S, U]) h.holds rfl rfl ?_ w_thrown
        intro hs X' st' t' hl _ hp
        obtain ⟨a, Y, rfl, hl1⟩ := len_succ hl
        obtain ⟨b, Y, rfl, hl2⟩ := len_succ hl1
        obtain rfl := List.length_eq_zero_iff.1 hl2
        refine put_mid (A := [S, U]) [] [a] [b] hp (by simp) rfl rfl rfl fun st1 h1 => ?_
        refine last_step (put_mid (A := [S, U]) [some c!":"] [b] [] h1 (by simp) (by simp) rfl rfl fun st2 h2 => ?_)
        exact h2.w (by simp [Touched, Op.touch])
      · refine resize2_step (A := [S]) (Xs := [U, W]) (k := 1) h.holds rfl rfl rfl rfl ?_ w_thrown
        intro hs X' st' t' hl _ hp
        obtain ⟨a, Y, rfl, hl1⟩ := len_succ hl
        obtain ⟨b, Y, rfl, hl2⟩ := len_succ hl1
        obtain ⟨c, Y, rfl, hl3⟩ := len_succ hl2
        obtain ⟨d, Y, rfl, hl4⟩ := len_succ hl3
        obtain rfl := List.length_eq_zero_iff.1 hl4
        refine put_mid (A := [S]) [] [a] [b, c, d] hp (by simp) rfl rfl rfl fun st1 h1 => ?_
        refine put_mid (A := [S]) [some c!"/"] [b] [c, d] h1 (by simp) rfl rfl rfl fun st2 h2 => ?_
        refine put_mid (A := [S]) slashes [c] [d] h2 (by simp) rfl rfl rfl fun st3 h3 => ?_
        refine put_mid (A := [S]) (slashes ++ [some c!":"]) [d] [] h3 (by simp) rfl rfl rfl fun st4 h4 => ?_
        refine split_step (A := [S]) (x := slashes) (y := [some c!":", some c!"@"]) (z := [])
          (by simpa using h4) rfl (by decide) rfl fun st5 h5 => ?_
        refine w_again (U' := slashes) (W' := [some c!":", some c!"@"]) ?_
        exact w_set_encoded_password ⟨by simpa using h5.holds, h.S, by simp, h.H, h.P, h.pa, h.q, h.f⟩ hd _
    · exact w_set_encoded_password h hd _

/-- storing a non-empty host -/
theorem w_store_host {n : Nat} {txt : Str} {k : HostType} {g : Unit → M Unit} (hn : n = txt.length)
    (hg : ∀ e s, g () e s = .ret () { s with pt := { s.pt with host := k } }) :
    WOut env [S, U, W, H, P, pa, q, f] (Op.touch (.set_host txt)) ((do
      if !(← M.ask fun o => .ok (has_authority o)) then
        let dest ← Base.resize id_user (2 + n)
        M.put dest b!"/"
        M.put (dest + 1) b!"/"
        Base.split id_user 2
        Base.split id_password 0
        M.put (dest + 2) txt
        g ()
      else
        let dest ← Base.resize id_host n
        M.put dest txt
        g ()) env st) := by
  subst hn
  rw [run_bind_ret run_ask_auth]
  split
  · rename_i ha
    have ha : st.pt.length2 id_user id_path = 0 := by simpa [has_authority, St.obj] using ha
    rw [w_len2_auth h] at ha
    obtain rfl := List.length_eq_zero_iff.1 (show U.length = 0 by omega)
    obtain rfl := List.length_eq_zero_iff.1 (show W.length = 0 by omega)
    obtain rfl := List.length_eq_zero_iff.1 (show H.length = 0 by omega)
    refine resize_step (A := [S]) h.holds rfl rfl ?_ w_thrown
    intro hs X' st' t' hl _ hp
    obtain ⟨a, Y, rfl, hl1⟩ := len_succ (n := txt.length + 1) (by omega : X'.length = _)
    obtain ⟨b, Y, rfl, hl2⟩ := len_succ hl1
    refine put_mid (A := [S]) [] [a] (b :: Y) hp (by simp) rfl rfl rfl fun st1 h1 => ?_
    refine put_mid (A := [S]) [some c!"/"] [b] Y h1 (by simp) rfl rfl rfl fun st2 h2 => ?_
    refine split_step (A := [S]) (x := slashes) (y := Y) (z := []) (by simpa using h2) rfl (by decide) rfl fun st4 h4 => ?_
    refine split_step (A := [S, slashes]) (x := []) (y := Y) (z := []) (by simpa using h4) rfl (by decide) rfl fun st5 h5 => ?_
    refine put_mid (A := [S, slashes, []]) [] Y [] (by simpa using h5) (by simp) (by simp) hl2 rfl fun st6 h6 => ?_
    rw [hg]
    exact h6.holds.setHost.w (by simp [Touched, Op.touch, h.P])
  · refine resize_step (A := [S, U, W]) h.holds rfl rfl ?_ w_thrown
    intro hs X' st' t' hl _ hp
    refine put_mid (A := [S, U, W]) [] X' [] hp (by simp) (by simp) hl rfl fun st1 h1 => ?_
    rw [hg]
    exact h1.holds.setHost.w (by simp [Touched, Op.touch, h.W, h.P])

theorem w_store_host' {txt : Str} {k : HostType} {g : Unit → M Unit}
    (hg : ∀ e s, g () e s = .ret () { s with pt := { s.pt with host := k } }) :
    WOut env [S, U, W, H, P, pa, q, f] (Op.touch (.set_host txt)) ((do
      if !(← M.ask fun o => .ok (has_authority o)) then
        let r ← Base.addHost txt
        g r
      else
        let dest ← Base.resize id_host txt.length
        M.put dest txt
        g ()) env st) := by
  have := w_store_host (txt := txt) (g := g) h rfl hg
  rw [run_bind_ret run_ask_auth] at this ⊢
  split at this
  · rename_i ha
    rw [if_pos ha]
    rw [← addHost_bind] at this
    exact this
  · rename_i ha
    rw [if_neg ha]
    exact this

theorem w_set_host (hd : env.dbg = false) (s : Str) :
    WOut env [S, U, W, H, P, pa, q, f] (Op.touch (.set_host s)) (Base.set_host s env st) := by
  unfold Base.set_host
  split
  · rw [run_bind_ret run_pt, run_bind_ret run_pt]
    split
    · rw [assert_bind hd]
      refine w_cut (A := [S]) (Xs := [U, W, H, P]) (B := [pa, q, f]) (k := 3) (by simpa using h.holds) rfl rfl rfl ?_
      intro X' hl
      obtain rfl := List.length_eq_zero_iff.1 hl
      simp [Touched, Op.touch]
    · exact w_clear (A := [S, U, W]) h.holds rfl (by simp [Touched, Op.touch, h.W, h.P])
  · simp only [(good_ip_literal (Good.init s)).flt]
    generalize parse_plain_hostname s = k
    rw [run_bind_ret (run_pure k), assert_bind hd]
    split
    · exact w_store_host' (k := k) (g := fun _ => M.setPt fun pt => { pt with host := k }) h fun _ _ => rfl
    · exact w_store_host (k := k) (g := fun _ => M.setPt fun pt => { pt with host := k }) h
        (encoded_size_eq setOf_regName _) fun _ _ => rfl

theorem w_set_encoded_host (hd : env.dbg = false) (s : Str) :
    WOut env [S, U, W, H, P, pa, q, f] (Op.touch (.set_encoded_host s)) (Base.set_encoded_host s env st) := by
  unfold Base.set_encoded_host
  split
  · exact w_set_host h hd s
  · exact w_parsedAll (good_hostname (Good.init s)).flt fun _ _ => w_store_host' h fun _ _ => rfl

theorem w_set_port (hd : env.dbg = false) (s : Str) :
    WOut env [S, U, W, H, P, pa, q, f] (Op.touch (.set_port s)) (Base.set_port s env st) := by
  unfold Base.set_port
  split
  · rw [run_bind_ret run_pt]
    split
    · rw [assert_bind hd]
      refine w_cut (A := [S]) (Xs := [U, W, H, P]) (B := [pa, q, f]) (k := 3) (by simpa using h.holds) rfl rfl rfl ?_
      intro X' hl
      obtain rfl := List.length_eq_zero_iff.1 hl
      simp [Touched, Op.touch]
    · exact w_clear (A := [S, U, W, H]) h.holds rfl (by simp [Touched, Op.touch, h.W, h.H])
  · refine w_require fun _ => ?_
    rw [run_bind_ret run_ask_auth]
    split
    · rename_i ha
      have ha : st.pt.length2 id_user id_path = 0 := by simpa [has_authority, St.obj] using ha
      rw [w_len2_auth h] at ha
      obtain rfl := List.length_eq_zero_iff.1 (show U.length = 0 by omega)
      obtain rfl := List.length_eq_zero_iff.1 (show W.length = 0 by omega)
      obtain rfl := List.length_eq_zero_iff.1 (show H.length = 0 by omega)
      obtain rfl := List.length_eq_zero_iff.1 (show P.length = 0 by omega)
      refine resize_step (A := [S]) h.holds rfl rfl ?_ w_thrown
      intro hs X' st' t' hl _ hp
      obtain ⟨a, Y, rfl, hl1⟩ := len_succ (n := s.length + 1 + 1) (by omega : X'.length = _)
      obtain ⟨b, Y, rfl, hl2⟩ := len_succ hl1
      obtain ⟨c, Y, rfl, hl3⟩ := len_succ hl2
      refine put_mid (A := [S]) [] [a] (b :: c :: Y) hp (by simp) rfl rfl rfl fun st1 h1 => ?_
      refine put_mid (A := [S]) [some c!"/"] [b] (c :: Y) h1 (by simp) rfl rfl rfl fun st2 h2 => ?_
      refine put_mid (A := [S]) slashes [c] Y h2 (by simp) rfl rfl rfl fun st3 h3 => ?_
      refine split_step (A := [S]) (x := slashes) (y := some c!":" :: Y) (z := []) (by simpa using h3) rfl (by decide) rfl fun st4 h4 => ?_
      refine split_step (A := [S, slashes]) (x := []) (y := some c!":" :: Y) (z := []) (by simpa using h4) rfl (by decide) rfl fun st5 h5 => ?_
      refine split_step (A := [S, slashes, []]) (x := []) (y := some c!":" :: Y) (z := []) (by simpa using h5) rfl (by decide) rfl fun st6 h6 => ?_
      refine last_step (put_mid (A := [S, slashes, [], []]) [some c!":"] Y [] (by simpa using h6) (by simp) (by simp) hl3 rfl fun st7 h7 => ?_)
      exact h7.w (by simp [Touched, Op.touch])
    · exact w_delim (A := [S, U, W, H]) rfl h.holds rfl (by simp [Touched, Op.touch, h.W, h.H])

theorem w_set_port_part (hd : env.dbg = false) (s : Str) :
    WOut env [S, U, W, H, P, pa, q, f] (Op.touch (.set_port_part s)) (Base.set_port_part s env st) := by
  unfold Base.set_port_part
  split
  · exact w_set_port h hd s
  · refine w_require fun _ => ?_
    split
    · exact w_set_port h hd _
    · exact w_write (A := [S, U, W, H]) rfl h.holds rfl (by simp [Touched, Op.touch, h.W, h.H])

theorem w_set_encoded_path (s : Str) :
    WOut env [S, U, W, H, P, pa, q, f] (Op.touch (.set_encoded_path s)) (Base.set_encoded_path s env st) := by
  unfold Base.set_encoded_path
  have fin : WOut env [S, U, W, H, P, pa, q, f] (Op.touch (.set_encoded_path s))
      ((Base.resize id_path s.length >>= fun dest => M.put dest s) env st) :=
    w_write (A := [S, U, W, H, P]) rfl h.holds rfl (by simp [Touched, Op.touch])
  split
  · exact w_clear (A := [S, U, W, H, P]) h.holds rfl (by simp [Touched, Op.touch])
  · rw [run_bind_ret run_ask_auth]
    split
    · exact w_parsedAll (good_abempty (Good.init s)).flt fun _ _ => fin
    · split
      · exact w_parsedAll (good_absolute (Good.init s)).flt fun _ _ => fin
      · rw [run_bind_ret run_pt]
        split
        · exact w_parsedAll (good_first (Good.init s) _).flt fun _ _ => fin
        · exact w_parsedAll (good_first (Good.init s) _).flt fun _ _ => fin

theorem w_normalize (hd : env.dbg = false) :
    WOut env [S, U, W, H, P, pa, q, f] (Op.touch .normalize) (Base.normalize_scheme env st) := by
  unfold Base.normalize_scheme
  obtain ⟨s, rfl⟩ := init_iff.1 h.S
  rw [run_bind_ret run_pt]
  have hlen : st.pt.length id_scheme = s.length := by rw [w_len h]; simp [id_scheme]
  rw [hlen]
  rcases List.eq_nil_or_concat s with rfl | ⟨s, a, rfl⟩
  · exact h.holds.w (by simp [Touched, Op.touch])
  · rw [if_neg (by simp), assert_bind hd, run_bind_ret run_pt]
    have hoff : st.pt.off id_scheme = 0 := by rw [h.holds.rep]; simp [id_scheme]
    rw [hoff]
    have : (s.concat a).length - 1 = s.length := by simp
    rw [this]
    have hh : Holds env st ([] ++ ([] ++ (s ++ [a])).map some :: [U, W, H, P, pa, q, f]) t := by simpa using h.holds
    refine lowerLoop_of (st₀ := st) s [] [a] hh.start fun st' h' => ?_
    exact h'.w (by simp [Touched, Op.touch, Init])

theorem w_setPlain_query (s : Str) : WOut env [S, U, W, H, P, pa, q, f] (Op.touch (.set_query s)) (Base.set_query s env st) := by
  show WOut _ _ _ (Base.setPlain _ _ _ _ env st)
  unfold Base.setPlain
  split
  · exact w_clear (A := [S, U, W, H, P, pa]) h.holds rfl (by simp [Touched, Op.touch])
  · exact w_delim (A := [S, U, W, H, P, pa]) (encoded_size_eq setOf_query _) h.holds rfl (by simp [Touched, Op.touch])

theorem w_setEncoded_query (s : Str) :
    WOut env [S, U, W, H, P, pa, q, f] (Op.touch (.set_encoded_query s)) (Base.set_encoded_query s env st) := by
  show WOut _ _ _ (Base.setEncoded _ _ _ _ env st)
  unfold Base.setEncoded
  split
  · exact w_clear (A := [S, U, W, H, P, pa]) h.holds rfl (by simp [Touched, Op.touch])
  · exact w_validate (w_delim (A := [S, U, W, H, P, pa]) rfl h.holds rfl (by simp [Touched, Op.touch]))

theorem w_setPart_query (s : Str) :
    WOut env [S, U, W, H, P, pa, q, f] (Op.touch (.set_query_part s)) (Base.set_query_part s env st) := by
  show WOut _ _ _ (Base.setPart _ _ _ _ env st)
  unfold Base.setPart
  split
  · exact w_clear (A := [S, U, W, H, P, pa]) h.holds rfl (by simp [Touched, Op.touch])
  · exact w_require fun _ => w_validate (w_delim (A := [S, U, W, H, P, pa]) rfl h.holds rfl (by simp [Touched, Op.touch, ← List.map_tail]))

theorem w_setPlain_frag (s : Str) : WOut env [S, U, W, H, P, pa, q, f] (Op.touch (.set_fragment s)) (Base.set_fragment s env st) := by
  show WOut _ _ _ (Base.setPlain _ _ _ _ env st)
  unfold Base.setPlain
  split
  · exact w_clear (A := [S, U, W, H, P, pa, q]) h.holds rfl (by simp [Touched, Op.touch])
  · exact w_delim (A := [S, U, W, H, P, pa, q]) (encoded_size_eq setOf_frag _) h.holds rfl (by simp [Touched, Op.touch])

theorem w_setEncoded_frag (s : Str) :
    WOut env [S, U, W, H, P, pa, q, f] (Op.touch (.set_encoded_fragment s)) (Base.set_encoded_fragment s env st) := by
  show WOut _ _ _ (Base.setEncoded _ _ _ _ env st)
  unfold Base.setEncoded
  split
  · exact w_clear (A := [S, U, W, H, P, pa, q]) h.holds rfl (by simp [Touched, Op.touch])
  · exact w_validate (w_delim (A := [S, U, W, H, P, pa, q]) rfl h.holds rfl (by simp [Touched, Op.touch]))

theorem w_setPart_frag (s : Str) :
    WOut env [S, U, W, H, P, pa, q, f] (Op.touch (.set_fragment_part s)) (Base.set_fragment_part s env st) := by
  show WOut _ _ _ (Base.setPart _ _ _ _ env st)
  unfold Base.setPart
  split
  · exact w_clear (A := [S, U, W, H, P, pa, q]) h.holds rfl (by simp [Touched, Op.touch])
  · exact w_require fun _ => w_validate (w_delim (A := [S, U, W, H, P, pa, q]) rfl h.holds rfl (by simp [Touched, Op.touch, ← List.map_tail]))

theorem w_set_port_number (hd : env.dbg = false) (n : UInt32) :
    WOut env [S, U, W, H, P, pa, q, f] (Op.touch (.set_port_number n)) (Base.set_port_number n env st) := by
  unfold Base.set_port_number
  obtain ⟨s, hs, -⟩ := port_string_of n
  rw [run_bind_ret (run_ask (a := s) hs)]
  exact w_set_port h hd s

/-- Any call in a build without assertions. -/
theorem w_run (hd : env.dbg = false) (op : Op) : WOut env [S, U, W, H, P, pa, q, f] (Op.touch op) (run op env st) := by
  cases op with
  | set_encoded_url s => exact w_url h s
  | set_encoded_origin s => exact w_origin h s
  | set_scheme s => exact w_scheme h s
  | set_encoded_authority s => exact w_authority h hd s
  | set_encoded_userinfo s => exact w_set_encoded_userinfo h s
  | set_userinfo_part s => exact w_userinfo_part h s
  | set_user s => exact w_set_user h hd s
  | set_encoded_user s => exact w_set_encoded_user h hd s
  | set_password s => exact w_set_password h hd s
  | set_encoded_password s => exact w_set_encoded_password h hd s
  | set_password_part s => exact w_set_password_part h hd s
  | set_host s => exact w_set_host h hd s
  | set_encoded_host s => exact w_set_encoded_host h hd s
  | set_port s => exact w_set_port h hd s
  | set_port_number n => exact w_set_port_number h hd n
  | set_port_part s => exact w_set_port_part h hd s
  | set_encoded_path s => exact w_set_encoded_path h s
  | set_query s => exact w_setPlain_query h s
  | set_encoded_query s => exact w_setEncoded_query h s
  | set_query_part s => exact w_setPart_query h s
  | set_fragment s => exact w_setPlain_frag h s
  | set_encoded_fragment s => exact w_setEncoded_frag h s
  | set_fragment_part s => exact w_setPart_frag h s
  | normalize_scheme => exact w_normalize h hd
  | normalize => exact w_normalize h hd

end

end Url
