import Verif.Proofs.Storage
import Verif.Proofs.Make
import Verif.Proofs.Percent
import Verif.Spec.Edit

/-!
Each setter acts on the components the buffer holds.
-/

set_option linter.unusedSimpArgs false
attribute [-simp] List.length_flatten

namespace Url
open Spec

variable {env : Env} {st : St}

/-- the parts of a URL as memory -/
def cells (c : Components) : List (List Cell) := (compParts c).map (·.map some)

/-- The state holds the components `c`. -/
def Rep (env : Env) (st : St) (c : Components) : Prop := ∃ t, Holds env st (cells c) t

theorem cells_flatten (c : Components) : (cells c).flatten = c.render.map some := by
  unfold cells
  rw [← compParts_flatten, List.map_flatten]

theorem cells_length (c : Components) : (cells c).flatten.length = c.render.length := by
  rw [cells_flatten, List.length_map]

theorem Rep.obj {c} (h : Rep env st c) (dbg : Bool) : ObjRep (st.obj dbg) (compParts c) := by
  obtain ⟨t, h⟩ := h
  refine ⟨ptRep_cells.1 h.rep, ?_⟩
  rcases h.buf with ⟨h1, h2, -⟩ | ⟨junk, hb, -⟩
  · refine ⟨[], ?_⟩
    rw [cells_flatten] at h2
    simp only [St.obj, h1, Option.getD_none, compParts_flatten, h2, List.append_nil]
  · refine ⟨t :: junk, ?_⟩
    simp only [St.obj, hb, Option.getD_some, compParts_flatten, cells_flatten]

/-- A successful edit to the components `c'`. -/
structure SetOk (env : Env) (st : St) (c' : Components) (k : HostType) (st' : St) : Prop where
  rep : Rep env st' c'
  grow : Grow env c'.render.length st st'
  nseg : st'.pt.nseg = st.pt.nseg
  nparam : st'.pt.nparam = st.pt.nparam
  host : st'.pt.host = k
  nul : Nul st' ↔ Mended st st'
  own : st.buf.isSome = true → st'.buf.isSome = true

/-- The call changes the components to `c'` if there is room for them, and otherwise throws and
changes nothing. -/
def SetsTo (env : Env) (st : St) (c' : Components) (k : HostType) (out : Out Unit) : Prop :=
  (Stores env st c'.render.length ∧ ∃ st', out = .ret () st' ∧ SetOk env st c' k st') ∨
  (¬ Stores env st c'.render.length ∧
    ∃ e st', out = .throw e st' ∧ (e = .bad_alloc ∨ e = .too_large) ∧ Same st st')

theorem Prog.done {c' : Components} {L st' t} (h : Prog env st c'.render.length L st' t) (hL : L = cells c')
    (hs : Stores env st c'.render.length) : SetsTo env st c' st.pt.host (.ret () st') := by
  subst hL
  exact .inl ⟨hs, st', rfl, ⟨t, h.holds⟩, h.grow, h.nseg, h.nparam, h.host, h.holds.nul_iff.trans h.nul, h.own⟩

theorem Holds.setHost {L t} {k : HostType} (h : Holds env st L t) :
    Holds env { st with pt := { st.pt with host := k } } L t :=
  ⟨h.rep.congr rfl, h.len, h.buf, h.cap, h.term⟩

theorem Prog.done_host {c' : Components} {L st' t} (k : HostType) (h : Prog env st c'.render.length L st' t)
    (hL : L = cells c') (hs : Stores env st c'.render.length) :
    SetsTo env st c' k (.ret () { st' with pt := { st'.pt with host := k } }) := by
  subst hL
  exact .inl ⟨hs, _, rfl, ⟨t, h.holds.setHost⟩, h.grow, h.nseg, h.nparam, rfl,
    h.holds.setHost.nul_iff.trans h.nul, h.own⟩

theorem SetsTo.thrown {c' : Components} {k} (hs : ¬ Stores env st c'.render.length) (e : Exc) (st' : St)
    (he : e = .bad_alloc ∨ e = .too_large) (hsame : Same st st') : SetsTo env st c' k (.throw e st') :=
  .inr ⟨hs, e, st', rfl, he, hsame⟩

theorem Rep.fits {c} (h : Rep env st c) : c.render.length ≤ st.cap := by
  obtain ⟨t, h⟩ := h
  rw [← cells_length]
  rcases h.buf with ⟨-, h2, h3, -⟩ | ⟨junk, -, hl, h1, h2⟩
  · rw [h2]; simp
  · omega

/-- doing nothing -/
theorem SetsTo.refl {c} (h : Rep env st c) : SetsTo env st c st.pt.host (.ret () st) :=
  .inl ⟨.inl h.fits, st, rfl, h, .inl ⟨h.fits, rfl, rfl⟩, rfl, rfl, rfl, (Mended.same rfl).symm, id⟩

/-- the length condition of `resize_step` -/
theorem cells_len {c' : Components} {A B : List (List Cell)} {Y : List Cell} {n : Nat} (h : cells c' = A ++ Y :: B)
    (hn : Y.length = n) : A.flatten.length + n + B.flatten.length = c'.render.length := by
  rw [← cells_length, h]; simp; omega

theorem cells_len2 {c' : Components} {A Ys B : List (List Cell)} {n : Nat} (h : cells c' = A ++ (Ys ++ B))
    (hn : Ys.flatten.length = n) : A.flatten.length + n + B.flatten.length = c'.render.length := by
  rw [← cells_length, h]; simp; omega

section
variable {A B : List (List Cell)} {X : List Cell} {t : Cell} {id : Nat} {c' : Components}

/-- `resize(id, 0)` -/
theorem clear_of (h : Holds env st (A ++ X :: B) t) (hid : id = A.length) (hc : cells c' = A ++ [] :: B) :
    SetsTo env st c' st.pt.host ((Base.resize id 0 >>= fun _ => pure ()) env st) := by
  refine resize_step h hid (cells_len hc rfl) ?_ SetsTo.thrown
  intro hs X' st' t' hl _ hp
  obtain rfl := List.length_eq_zero_iff.1 hl
  exact hp.done hc.symm hs

/-- `resize(id, n)` and writing `n` bytes -/
theorem write_of {s : Str} {n : Nat} (hn : n = s.length) (h : Holds env st (A ++ X :: B) t) (hid : id = A.length)
    (hc : cells c' = A ++ s.map some :: B) :
    SetsTo env st c' st.pt.host ((Base.resize id n >>= fun dest => M.put dest s) env st) := by
  subst hn
  refine resize_step h hid (cells_len hc (by simp)) ?_ SetsTo.thrown
  intro hs X' st' t' hl _ hp
  refine last_step (put_step hp (k := 0) (by simp) (by omega) ?_)
  intro st1 h1
  rw [ow_all hl] at h1
  exact h1.done hc.symm hs

/-- writing over the middle of a part -/
theorem put_mid {β : Type} {Y : List Cell} {i m : Nat} {s : Str} {f : Unit → M β}
    {G : Out β → Prop} {st₀ : St} (P Q R : List Cell) (h : Prog env st₀ m (A ++ X :: B) st t) (hi : i = A.flatten.length + P.length)
    (hX : X = P ++ (Q ++ R)) (hq : Q.length = s.length) (hY : P ++ (s.map some ++ R) = Y)
    (hok : ∀ st', Prog env st₀ m (A ++ Y :: B) st' t → G (f () env st')) :
    G ((M.put i s >>= f) env st) := by
  subst hX hY
  refine put_step h (k := P.length) hi (by simp; omega) ?_
  intro st1 h1
  have e1 := ow_right P (Q ++ R) 0 s
  rw [ow_left hq, Nat.add_zero] at e1
  rw [e1] at h1
  exact hok st1 h1

theorem len_succ {α : Type} {X : List α} {n : Nat} (h : X.length = n + 1) : ∃ x Y, X = x :: Y ∧ Y.length = n := by
  cases X with
  | nil => simp at h
  | cons x Y => exact ⟨x, Y, rfl, by simpa using h⟩

theorem len_snoc {α : Type} {X : List α} {n : Nat} (h : X.length = n + 1) : ∃ Y x, X = Y ++ [x] ∧ Y.length = n := by
  refine ⟨X.take n, X[n], ?_, by simp; omega⟩
  have := List.take_append_drop n X
  rw [List.drop_eq_getElem_cons (by omega), List.drop_of_length_le (by omega)] at this
  exact this.symm

/-- `resize(id, 1 + n)`, writing a delimiter and `n` bytes -/
theorem writeDelim_of {d : Byte} {s : Str} {n : Nat} (hn : n = s.length) (h : Holds env st (A ++ X :: B) t) (hid : id = A.length)
    (hc : cells c' = A ++ (d :: s).map some :: B) :
    SetsTo env st c' st.pt.host
      ((Base.resize id (1 + n) >>= fun dest => M.put dest [d] >>= fun _ => M.put (dest + 1) s) env st) := by
  subst hn
  refine resize_step h hid (cells_len hc (by simp; omega)) ?_ SetsTo.thrown
  intro hs X' st' t' hl _ hp
  obtain ⟨x, Y, rfl, hy⟩ := len_succ (X := X') (n := s.length) (by omega)
  refine put_mid [] [x] Y hp rfl rfl rfl rfl ?_
  intro st1 h1
  refine last_step (put_mid [some d] Y [] h1 rfl (by simp) hy rfl ?_)
  intro st2 h2
  exact h2.done (by simp [hc]) hs

end

/-! ### scheme, path, query, fragment -/

theorem cells_eq (c : Components) : cells c =
    (schemeText c.scheme).map some :: ((authTexts c.auth).map (·.map some) ++
      [c.path.map some, (queryText c.query).map some, (fragText c.fragment).map some]) := by
  simp [cells, compParts]

theorem cells_query (c : Components) : cells c =
    ((schemeText c.scheme).map some :: (authTexts c.auth).map (·.map some) ++ [c.path.map some]) ++
      (queryText c.query).map some :: [(fragText c.fragment).map some] := by
  simp [cells, compParts]

theorem cells_frag (c : Components) : cells c =
    ((schemeText c.scheme).map some :: (authTexts c.auth).map (·.map some) ++
      [c.path.map some, (queryText c.query).map some]) ++ (fragText c.fragment).map some :: [] := by
  simp [cells, compParts]

theorem cells_path (c : Components) : cells c =
    ((schemeText c.scheme).map some :: (authTexts c.auth).map (·.map some)) ++ c.path.map some ::
      [(queryText c.query).map some, (fragText c.fragment).map some] := by
  simp [cells, compParts]

theorem cells_scheme (c : Components) : cells c =
    [] ++ (schemeText c.scheme).map some :: ((authTexts c.auth).map (·.map some) ++
      [c.path.map some, (queryText c.query).map some, (fragText c.fragment).map some]) := by
  simp [cells, compParts]

section
variable {c : Components}

theorem set_query_of (h : Rep env st c) {txt : Str} {n : Nat} (hn : n = txt.length) :
    SetsTo env st { c with query := some txt } st.pt.host
      ((Base.resize id_query (1 + n) >>= fun dest => M.put dest b!"?" >>= fun _ => M.put (dest + 1) txt) env st) := by
  obtain ⟨t, h⟩ := h
  rw [cells_query] at h
  exact writeDelim_of hn h (by simp [authTexts_length]) (cells_query _)

theorem clear_query_of (h : Rep env st c) :
    SetsTo env st { c with query := none } st.pt.host ((Base.resize id_query 0 >>= fun _ => pure ()) env st) := by
  obtain ⟨t, h⟩ := h
  rw [cells_query] at h
  exact clear_of h (by simp [authTexts_length]) (cells_query _)

theorem set_frag_of (h : Rep env st c) {txt : Str} {n : Nat} (hn : n = txt.length) :
    SetsTo env st { c with fragment := some txt } st.pt.host
      ((Base.resize id_frag (1 + n) >>= fun dest => M.put dest b!"#" >>= fun _ => M.put (dest + 1) txt) env st) := by
  obtain ⟨t, h⟩ := h
  rw [cells_frag] at h
  exact writeDelim_of hn h (by simp [authTexts_length]) (cells_frag _)

theorem clear_frag_of (h : Rep env st c) :
    SetsTo env st { c with fragment := none } st.pt.host ((Base.resize id_frag 0 >>= fun _ => pure ()) env st) := by
  obtain ⟨t, h⟩ := h
  rw [cells_frag] at h
  exact clear_of h (by simp [authTexts_length]) (cells_frag _)

theorem set_path_of (h : Rep env st c) {txt : Str} :
    SetsTo env st { c with path := txt } st.pt.host
      ((Base.resize id_path txt.length >>= fun dest => M.put dest txt) env st) := by
  obtain ⟨t, h⟩ := h
  rw [cells_path] at h
  exact write_of rfl h (by simp [authTexts_length]) (cells_path _)

theorem clear_path_of (h : Rep env st c) :
    SetsTo env st { c with path := [] } st.pt.host ((Base.resize id_path 0 >>= fun _ => pure ()) env st) := by
  obtain ⟨t, h⟩ := h
  rw [cells_path] at h
  exact clear_of h (by simp [authTexts_length]) (cells_path _)

theorem clear_scheme_of (h : Rep env st c) :
    SetsTo env st { c with scheme := none } st.pt.host ((Base.resize id_scheme 0 >>= fun _ => pure ()) env st) := by
  obtain ⟨t, h⟩ := h
  rw [cells_scheme] at h
  exact clear_of h rfl (cells_scheme _)

theorem set_scheme_of (h : Rep env st c) {s : Str} :
    SetsTo env st { c with scheme := some s } st.pt.host
      ((Base.resize id_scheme (s.length + 1) >>= fun dest => M.put dest s >>= fun _ => M.put (dest + s.length) b!":") env st) := by
  obtain ⟨t, h⟩ := h
  rw [cells_scheme] at h
  refine resize_step h rfl (cells_len (c' := { c with scheme := some s }) (cells_scheme _) (by simp [schemeText])) ?_ SetsTo.thrown
  intro hs X' st' t' hl _ hp
  obtain ⟨Y, x, rfl, hy⟩ := len_snoc hl
  refine put_mid [] Y [x] hp rfl rfl hy rfl ?_
  intro st1 h1
  refine last_step (put_mid (s.map some) [x] [] h1 (by simp) (by simp) rfl rfl ?_)
  intro st2 h2
  exact h2.done (by simp [cells_scheme, schemeText]) hs

end

/-! ### arguments -/

theorem run_require {c : Bool} (h : c = true) : Base.require c env st = .ret () st := by
  subst h; rfl

theorem run_require_false {c : Bool} (h : c = false) : Base.require c env st = .throw .invalid_part st := by
  subst h; rfl

/-- the outcome of a setter whose argument is checked first -/
def Checked (valid : Prop) (env : Env) (st : St) (c' : Components) (k : HostType) (out : Out Unit) : Prop :=
  (valid ∧ SetsTo env st c' k out) ∨ (¬ valid ∧ out = .throw .invalid_part st)

theorem Checked.congr {v v' : Prop} {c' k out} (h : Checked v env st c' k out) (hv : v ↔ v') : Checked v' env st c' k out := by
  unfold Checked at h ⊢
  rwa [hv] at h

theorem Checked.of {v : Prop} {c' k out} (hv : v) (h : SetsTo env st c' k out) : Checked v env st c' k out := .inl ⟨hv, h⟩

theorem require_of {v : Bool} {f : Unit → M Unit} {c' k} (h : v = true → SetsTo env st c' k (f () env st)) :
    Checked (v = true) env st c' k ((Base.require v >>= f) env st) := by
  cases v with
  | true => exact .inl ⟨rfl, by rw [run_bind_ret (run_require rfl)]; exact h rfl⟩
  | false => exact .inr ⟨by simp, by rw [run_bind_throw (run_require_false rfl)]⟩

theorem validate_of {e : PctSet} {ok} (he : SetOf e ok) {s : Str} {f : Unit → M Unit} {c' k}
    (h : SetsTo env st c' k (f () env st)) :
    Checked (Escaped isUpperHex ok s) env st c' k ((Base.validate e s >>= f) env st) := by
  refine Checked.congr (require_of (f := f) fun _ => h) (check_iff he s)

theorem encode_nonempty {e : PctSet} {ok} (he : SetOf e ok) {s : Str} (h : s ≠ []) : pctEncode ok s ≠ [] := by
  rw [← encode_eq he]
  cases s with
  | nil => exact absurd rfl h
  | cons a s =>
    unfold PctSet.encode
    split <;> simp [encodeChar]

theorem checked_part {e : PctSet} {ok} (he : SetOf e ok) {s : Str} {d : Byte} {f : Unit → M Unit} {c' k}
    (h : SetsTo env st c' k (f () env st)) :
    Checked (∃ q, s = d :: q ∧ Escaped isUpperHex ok q) env st c' k
      ((Base.require (s.head? == some d) >>= fun _ => Base.validate e (s.drop 1) >>= f) env st) := by
  cases hb : s.head? == some d with
  | false =>
    refine .inr ⟨?_, by rw [run_bind_throw (run_require_false rfl)]⟩
    rintro ⟨q, rfl, -⟩
    simp at hb
  | true =>
    rw [run_bind_ret (run_require rfl)]
    refine Checked.congr (validate_of he h) ?_
    cases s with
    | nil => simp at hb
    | cons a s =>
      obtain rfl : a = d := by simpa using hb
      simp

section
variable {c : Components}

theorem base_set_query (h : Rep env st c) (s : Str) :
    SetsTo env st (c.withQuery (pctEncode isQueryFrag s)) st.pt.host (Base.set_query s env st) := by
  unfold Base.set_query Base.setPlain Components.withQuery present
  cases s with
  | nil => exact clear_query_of h
  | cons a s =>
    rw [if_neg (encode_nonempty setOf_query (by simp)), ← encode_eq setOf_query]
    exact set_query_of h (encoded_size_eq setOf_query _)

theorem base_set_encoded_query (h : Rep env st c) (s : Str) :
    Checked (Escaped isUpperHex isQueryFrag s) env st (c.withQuery s) st.pt.host (Base.set_encoded_query s env st) := by
  unfold Base.set_encoded_query Base.setEncoded Components.withQuery present
  cases s with
  | nil => exact .inl ⟨.nil, clear_query_of h⟩
  | cons a s => exact validate_of setOf_query (set_query_of h rfl)

theorem base_set_query_part (h : Rep env st c) (s : Str) :
    Checked (s = [] ∨ ∃ q, s = c!"?" :: q ∧ Escaped isUpperHex isQueryFrag q) env st
      { c with query := if s = [] then none else some (s.drop 1) } st.pt.host (Base.set_query_part s env st) := by
  unfold Base.set_query_part Base.setPart
  cases s with
  | nil => exact .inl ⟨.inl rfl, clear_query_of h⟩
  | cons a s => exact Checked.congr (checked_part setOf_query (set_query_of h rfl)) (by simp)

theorem base_set_fragment (h : Rep env st c) (s : Str) :
    SetsTo env st (c.withFragment (pctEncode isQueryFrag s)) st.pt.host (Base.set_fragment s env st) := by
  unfold Base.set_fragment Base.setPlain Components.withFragment present
  cases s with
  | nil => exact clear_frag_of h
  | cons a s =>
    rw [if_neg (encode_nonempty setOf_frag (by simp)), ← encode_eq setOf_frag]
    exact set_frag_of h (encoded_size_eq setOf_frag _)

theorem base_set_encoded_fragment (h : Rep env st c) (s : Str) :
    Checked (Escaped isUpperHex isQueryFrag s) env st (c.withFragment s) st.pt.host (Base.set_encoded_fragment s env st) := by
  unfold Base.set_encoded_fragment Base.setEncoded Components.withFragment present
  cases s with
  | nil => exact .inl ⟨.nil, clear_frag_of h⟩
  | cons a s => exact validate_of setOf_frag (set_frag_of h rfl)

theorem base_set_fragment_part (h : Rep env st c) (s : Str) :
    Checked (s = [] ∨ ∃ q, s = c!"#" :: q ∧ Escaped isUpperHex isQueryFrag q) env st
      { c with fragment := if s = [] then none else some (s.drop 1) } st.pt.host (Base.set_fragment_part s env st) := by
  unfold Base.set_fragment_part Base.setPart
  cases s with
  | nil => exact .inl ⟨.inl rfl, clear_frag_of h⟩
  | cons a s => exact Checked.congr (checked_part setOf_frag (set_frag_of h rfl)) (by simp)

theorem match_scheme_iff {s : Str} : ((match_scheme s).1 = true ∧ (match_scheme s).2 = []) ↔ Scheme lib s := by
  constructor
  · rintro ⟨h1, h2⟩
    obtain ⟨x, hx, hs, -⟩ := match_scheme_inv (p := s) (q := (match_scheme s).2) (by rw [← h1])
    rw [h2] at hs
    simp at hs
    rwa [hs]
  · intro h
    have := match_scheme_of (r := []) h trivial
    rw [List.append_nil] at this
    rw [this]
    simp

theorem base_set_scheme (h : Rep env st c) (s : Str) :
    Checked (s = [] ∨ Scheme lib s) env st (c.withScheme s) st.pt.host (Base.set_scheme s env st) := by
  unfold Base.set_scheme Components.withScheme present
  by_cases hs : s = []
  · subst hs; exact .inl ⟨.inl rfl, clear_scheme_of h⟩
  · have he : s.isEmpty = false := by simpa using hs
    simp only [he, Bool.false_eq_true, if_false, hs, false_or]
    by_cases hv : Scheme lib s
    · obtain ⟨h1, h2⟩ := match_scheme_iff.2 hv
      refine .inl ⟨hv, ?_⟩
      rw [run_bind_ret (run_require h1), run_bind_ret (run_require (by simp [h2]))]
      exact set_scheme_of h
    · refine .inr ⟨hv, ?_⟩
      rw [← match_scheme_iff] at hv
      cases h1 : (match_scheme s).1 with
      | false => rw [run_bind_throw (run_require_false rfl)]
      | true =>
        rw [run_bind_ret (run_require rfl), run_bind_throw (run_require_false (by simpa [h1] using hv))]

end

end Url
