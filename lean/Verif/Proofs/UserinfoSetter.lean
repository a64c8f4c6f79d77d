import Verif.Proofs.Op

/-!
What `set_encoded_userinfo` does with a non-empty userinfo: the text is right, the boundary between the
user and the password is two characters too early.
-/

set_option linter.unusedSimpArgs false
attribute [-simp] List.length_flatten

namespace Url
open Spec

variable {env : Env} {st st' : St} {c : Components}

/-- the password with its colon -/
def pwText : Option Str → Str
  | none => []
  | some p => c!":" :: p

theorem userinfoText_eq (u : Str × Option Str) : userinfoText (some u) = u.1 ++ pwText u.2 := by
  obtain ⟨u, _ | p⟩ := u <;> simp [userinfoText, pwText]

/-- a user contains no colon -/
theorem escaped_noColon {s : Str} (h : Escaped isUpperHex isRegName s) : c!":" ∉ s := by
  have hr : ∀ a, isRegName a = true → c!":" ≠ a := forall_byte (by decide +kernel)
  have hx : ∀ a, isUpperHex a = true → c!":" ≠ a := forall_byte (by decide +kernel)
  induction h with
  | nil => simp
  | char ha _ ih => simp [ih, hr _ ha]
  | pct h1 h2 _ ih => simp [ih, hx _ h1, hx _ h2]

/-- every userinfo has a user that extends to the first colon -/
theorem userinfoText_exists {s : Str} (h : Escaped isUpperHex isUserinfo s) : ∃ u, UserinfoText u s := by
  have hb : ∀ a, isUserinfo a = true → a = c!":" ∨ isRegName a = true := forall_byte (by decide +kernel)
  induction h with
  | nil => exact ⟨([], none), .nil, by simp, rfl⟩
  | @char a s ha hs ih =>
    rcases hb a ha with rfl | ha
    · exact ⟨([], some s), .nil, by rintro p ⟨⟩; exact hs, rfl⟩
    · obtain ⟨⟨u, p⟩, h1, h2, rfl⟩ := ih
      refine ⟨(a :: u, p), .char ha h1, h2, ?_⟩
      simp [userinfoText_eq]
  | @pct x y s hx hy hs ih =>
    obtain ⟨⟨u, p⟩, h1, h2, rfl⟩ := ih
    refine ⟨(c!"%" :: x :: y :: u, p), .pct hx hy h1, h2, ?_⟩
    simp [userinfoText_eq]

/-- the parts after the misplaced split: `n` is where the user should have ended -/
def badParts (c : Components) (s : Str) (n : Nat) : List Str :=
  [schemeText c.scheme, (b!"//" ++ s).take n, (b!"//" ++ s).drop n ++ b!"@", c.host, portText c.port, c.path,
    queryText c.query, fragText c.fragment]

/-- a state after a misplaced split -/
structure BadSplit (env : Env) (c : Components) (s : Str) (n : Nat) (st st' : St) : Prop where
  holds : ∃ t, Holds env st' ((badParts c s n).map (·.map some)) t
  grow : Grow env (badParts c s n).flatten.length st st'
  host : st'.pt.host = st.pt.host

theorem parse_userinfo_at {u : Str × Option Str} {s : Str} (hu : UserinfoText u s) :
    At (parse_userinfo (PS.init s)) [[], u.1, pwText u.2] [] [] 0 0 .none := by
  obtain ⟨h1, h2, rfl⟩ := hu
  have hw : Escaped isUpperHex isUserinfo (pwText u.2) := by
    obtain ⟨u, _ | p⟩ := u
    · exact .nil
    · exact .char (by decide) (h2 p rfl)
  have hstop : Stop isRegName (pwText u.2 ++ []) := by
    obtain ⟨u, _ | p⟩ := u
    · trivial
    · exact ⟨by decide, by decide⟩
  have h0 : At (PS.init (userinfoText (some u))) [[]] [] (u.1 ++ (pwText u.2 ++ [])) 0 0 .none := by
    rw [List.append_nil, ← userinfoText_eq]
    exact At.fresh 1 _
  exact userinfo_of (L := [[]]) (pend := []) h1 hw hstop trivial rfl h0

/-- how `set_encoded_userinfo` ends -/
inductive UserinfoOut (env : Env) (c : Components) (s : Str) (n : Nat) (st : St) : Out Unit → Prop
  | ret {x : St} : BadSplit env c s n st x → UserinfoOut env c s n st (.ret () x)
  | full {e : Exc} {x : St} : (e = .bad_alloc ∨ e = .too_large) → UserinfoOut env c s n st (.throw e x)

theorem base_set_userinfo_of (h : Rep env st c) {u : Str × Option Str} {s : Str} (hs : s ≠ []) (hu : UserinfoText u s) :
    UserinfoOut env c s u.1.length st (Base.set_encoded_userinfo s env st) := by
  unfold Base.set_encoded_userinfo
  have he : s.isEmpty = false := by simpa using hs
  simp only [he, Bool.false_eq_true, if_false]
  have b := parse_userinfo_at hu
  rw [run_bind_ret (parsedAll_ok b.flt b.ec b.p)]
  have hlen : (parse_userinfo (PS.init s)).pt.length id_user = u.1.length := b.rep.length id_user
  rw [hlen]
  obtain ⟨t, h⟩ := h
  obtain ⟨X, W, e, -, -⟩ := cells_auth c
  rw [e] at h
  have hle : u.1.length ≤ s.length := by
    rw [← hu.2.2, userinfoText_eq]; simp
  have hpos : s.length ≠ 0 := by simpa using hs
  have hm : (badParts c s u.1.length).flatten.length = (schemeText c.scheme).length + (2 + s.length + 1) +
      ((c.host.map some :: (portText c.port).map some ::
      [c.path.map some, (queryText c.query).map some, (fragText c.fragment).map some]) : List (List Cell)).flatten.length := by
    simp [badParts]; omega
  refine resize2_step (A := [_]) (Xs := [X, W]) (k := 1) (n := 2 + s.length + 1) h rfl rfl rfl (m := (badParts c s u.1.length).flatten.length) (by rw [hm]; simp) ?_ ?_
  rotate_left
  · intro _ e st' he _
    exact .full he
  intro hsto X' st' t' hl _ hp
  obtain ⟨a, Y, rfl, hl1⟩ := len_succ (n := s.length + 1 + 1) (by omega : X'.length = _)
  obtain ⟨b, Y, rfl, hl2⟩ := len_succ hl1
  obtain ⟨Y, z, rfl, hl3⟩ := len_snoc hl2
  refine put_mid (A := [_]) [] [a] (b :: (Y ++ [z])) hp (by simp) rfl rfl rfl fun st1 h1 => ?_
  refine put_mid (A := [_]) [some c!"/"] [b] (Y ++ [z]) h1 (by simp) rfl rfl rfl fun st2 h2 => ?_
  refine put_mid (A := [_]) slashes Y [z] h2 (by simp) (by simp) hl3 rfl fun st3 h3 => ?_
  have hx : slashes ++ (s.map some ++ [z]) = ((b!"//" ++ s).take u.1.length).map some ++ (((b!"//" ++ s).drop u.1.length).map some ++ [z]) := by
    rw [← List.append_assoc (List.map _ _), ← List.map_append, List.take_append_drop]; simp
  rw [hx] at h3
  refine split_step (A := [_]) (x := ((b!"//" ++ s).take u.1.length).map some) (y := ((b!"//" ++ s).drop u.1.length).map some ++ [z]) (z := [])
    (by simpa using h3) rfl (by decide) (by simp; omega) fun st4 h4 => ?_
  rw [List.append_nil] at h4
  refine last_step ?_
  refine put_mid (A := [_, _]) (((b!"//" ++ s).drop u.1.length).map some) [z] [] h4 (by simp; omega) (by simp) rfl rfl fun st5 h5 => ?_
  have hL : (badParts c s u.1.length).map (·.map some) = [(schemeText c.scheme).map some, ((b!"//" ++ s).take u.1.length).map some] ++
      (((b!"//" ++ s).drop u.1.length).map some ++ (b!"@".map some ++ [])) :: (List.replicate 0 [] ++ (c.host.map some :: (portText c.port).map some ::
      [c.path.map some, (queryText c.query).map some, (fragText c.fragment).map some])) := by
    simp [badParts]
  refine .ret ⟨⟨t', ?_⟩, h5.grow, h5.host⟩
  rw [hL]
  exact h5.holds

theorem BadSplit.obj {s : Str} {n : Nat} (h : BadSplit env c s n st st') (dbg : Bool) : ObjRep (st'.obj dbg) (badParts c s n) := by
  obtain ⟨t, h⟩ := h.holds
  refine ⟨ptRep_cells.1 h.rep, ?_⟩
  rcases h.buf with ⟨h1, h2, -⟩ | ⟨junk, hb, -⟩
  · refine ⟨[], ?_⟩
    simp only [St.obj, h1, Option.getD_none, List.map_flatten, h2, List.append_nil]
  · refine ⟨t :: junk, ?_⟩
    simp only [St.obj, hb, Option.getD_some, List.map_flatten]

end Url
