import Verif.Proofs.UserinfoSetter
import Verif.Proofs.Origin

/-!
What the calls do that `Op.Defective` leaves out: a lone colon where there is no authority, and removing a user
that is not there.
-/

set_option linter.unusedSimpArgs false
attribute [-simp] List.length_flatten

namespace Url
open Spec

variable {env : Env} {st st' : St} {c : Components}

/-- the parts with a port but without an authority -/
def colonParts (c : Components) : List Str :=
  [schemeText c.scheme, [], [], [], b!":", c.path, queryText c.query, fragText c.fragment]

structure LoneColon (env : Env) (c : Components) (st st' : St) : Prop where
  holds : ∃ t, Holds env st' ((colonParts c).map (·.map some)) t
  grow : Grow env (colonParts c).flatten.length st st'
  host : st'.pt.host = st.pt.host

inductive ColonOut (env : Env) (c : Components) (st : St) : Out Unit → Prop
  | ret {x : St} : LoneColon env c st x → ColonOut env c st (.ret () x)
  | full {e : Exc} {x : St} : (e = .bad_alloc ∨ e = .too_large) → Same st x → ColonOut env c st (.throw e x)

/-- `set_port_part(":")` without an authority -/
theorem base_set_port_colon (h : Rep env st c) (ha : c.auth = none) : ColonOut env c st (Base.set_port_part b!":" env st) := by
  unfold Base.set_port_part
  simp only [List.isEmpty_cons, Bool.false_eq_true, if_false]
  rw [run_bind_ret (run_require (by simp))]
  simp only [List.length_singleton, Nat.lt_irrefl, if_false, gt_iff_lt]
  obtain ⟨t, h⟩ := h
  have e : cells c = [(schemeText c.scheme).map some, [], [], []] ++ [] :: [c.path.map some, (queryText c.query).map some, (fragText c.fragment).map some] := by
    simp [cells_eq, authTexts, ha]
  rw [e] at h
  have hL : (colonParts c).map (·.map some) = [(schemeText c.scheme).map some, [], [], []] ++ [some c!":"] ::
      [c.path.map some, (queryText c.query).map some, (fragText c.fragment).map some] := by simp [colonParts]
  refine resize_step (n := 1) h rfl (m := (colonParts c).flatten.length) (by simp [colonParts]; omega) ?_ (fun _ e st' he hs => .full he hs)
  intro hsto X' st' t' hl _ hp
  refine last_step (put_mid [] X' [] hp (by simp) (by simp) hl rfl fun st1 h1 => ?_)
  refine .ret ⟨⟨t', ?_⟩, h1.grow, h1.host⟩
  rw [hL]
  exact h1.holds

theorem LoneColon.obj (h : LoneColon env c st st') (dbg : Bool) : ObjRep (st'.obj dbg) (colonParts c) := by
  obtain ⟨t, h⟩ := h.holds
  refine ⟨ptRep_cells.1 h.rep, ?_⟩
  rcases h.buf with ⟨h1, h2, -⟩ | ⟨junk, hb, -⟩
  · refine ⟨[], ?_⟩
    simp only [St.obj, h1, Option.getD_none, List.map_flatten, h2, List.append_nil]
  · refine ⟨t :: junk, ?_⟩
    simp only [St.obj, hb, Option.getD_some, List.map_flatten]

/-- It gives components `c'`, or fails for lack of memory. -/
inductive Gives (env : Env) (st : St) (c' : Components) : Out Unit → Prop
  | ret {x : St} : Rep env x c' → Gives env st c' (.ret () x)
  | full {e : Exc} {x : St} : (e = .bad_alloc ∨ e = .too_large) → Same st x → Gives env st c' (.throw e x)

/-- `set_password_part(":")` without an authority creates an empty one. -/
theorem base_set_password_colon (h : Rep env st c) (ha : c.auth = none) :
    Gives env st { c with auth := some ⟨none, [], none⟩ } (Base.set_password_part b!":" env st) := by
  unfold Base.set_password_part
  simp only [List.isEmpty_cons, Bool.false_eq_true, if_false, List.length_singleton, if_true]
  rw [run_bind_ret (run_require (by simp)), run_bind_ret run_pt, if_neg (by
    rw [h.length]
    simp [compParts, authTexts, ha, id_user])]
  obtain ⟨t, h⟩ := h
  have e : cells c = [(schemeText c.scheme).map some] ++ ([[], []] ++ [[], [], c.path.map some, (queryText c.query).map some, (fragText c.fragment).map some]) := by
    simp [cells_eq, authTexts, ha]
  rw [e] at h
  have hc : cells { c with auth := some ⟨some ([], some []), [], none⟩ } = [(schemeText c.scheme).map some] ++ slashes :: ([some c!":", some c!"@"] ++ []) ::
      [[], [], c.path.map some, (queryText c.query).map some, (fragText c.fragment).map some] := by
    simp [cells_eq, authTexts, authParts, userParts, portText, slashes]
  refine resize2_step (k := 1) (n := 4) h rfl rfl rfl rfl ?_ ?_
  rotate_left
  · intro _ e st' he hs; exact .full he hs
  intro hsto X' st1 t' hl _ hp
  match X', hl with
  | [a, b, d, f], _ =>
  refine put_mid (A := [_]) [] [a] [b, d, f] hp (by simp) rfl rfl rfl fun st1 h1 => ?_
  refine put_mid (A := [_]) [some c!"/"] [b] [d, f] h1 (by simp) rfl rfl rfl fun st2 h2 => ?_
  refine put_mid (A := [_]) slashes [d] [f] h2 (by simp) rfl rfl rfl fun st3 h3 => ?_
  refine put_mid (A := [_]) (slashes ++ [some c!":"]) [f] [] h3 (by simp) rfl rfl rfl fun st4 h4 => ?_
  refine split_step (A := [_]) (x := slashes) (y := [some c!":", some c!"@"]) (z := []) (by simpa using h4) rfl (by decide) rfl fun st5 h5 => ?_
  have hrep : Rep env st5 { c with auth := some ⟨some ([], some []), [], none⟩ } := ⟨t', hc ▸ h5.holds⟩
  show Gives env st _ (Base.set_password [] env st5)
  rcases base_clear_password hrep with ⟨-, x, e, hok⟩ | ⟨hns, -⟩
  · rw [e]
    exact .ret hok.rep
  · refine absurd (.inl (Nat.le_trans ?_ hrep.fits)) hns
    simp [Components.clearPassword, Components.withAuth, Components.render, Auth.render, userinfoText, withPrefix, withSuffix]

/-- `set_user("")` where there is an authority without a userinfo: the assertion looks at the last character of an
empty string; without assertions nothing happens. -/
theorem base_clear_user_missing (h : Rep env st c) (ha : c.auth.isSome = true) (hu : c.userinfo = none) :
    Base.set_user [] env st = if env.dbg then .fault .ub else .ret () st := by
  unfold Base.set_user
  simp only [List.isEmpty_nil, if_true]
  rw [run_bind_ret run_pt, h.length]
  obtain ⟨sc, a, p, q, f⟩ := c
  rcases a with _ | ⟨_ | u, hst, pt⟩
  · simp at ha
  · rw [if_neg (by simp [compParts, authTexts, authParts, userParts, id_user])]
    have hp : (compParts ⟨sc, some ⟨none, hst, pt⟩, p, q, f⟩).getD id_password [] = [] := by
      simp [compParts, authTexts, authParts, userParts, id_password]
    cases hd : env.dbg with
    | true =>
      have h0 : M.assert (fun o => do backIs (← o.get id_password) c!"@") env st = .fault .ub := by
        unfold M.assert M.ask
        dsimp only
        rw [h.get, hp]
        simp [Obj.assert, St.obj, hd, backIs, bind, Except.bind]
      have h1 : Base.assertUserinfo env st = .fault .ub := by
        unfold Base.assertUserinfo
        rw [run_bind, h0]
      rw [run_bind, h1]
      rfl
    | false =>
      have ha : ∀ q : Obj → R Bool, M.assert q env st = .ret () st := by
        intro q
        simp [M.assert, M.ask, Obj.assert, St.obj, hd]
      have h1 : Base.assertUserinfo env st = .ret () st := by
        unfold Base.assertUserinfo
        rw [run_bind_ret (ha _), run_bind_ret (ha _), run_bind_ret (ha _)]
        exact ha _
      rw [run_bind_ret h1, run_bind_ret run_pt, h.length, hp, if_neg (by simp)]
      unfold Base.resize
      have h2 : (st.pt.length id_user) = 2 := by
        rw [h.length]
        simp [compParts, authTexts, authParts, userParts, id_user]
      rw [run_bind]
      rw [run_bind_ret run_pt, h2]
      rfl
  · simp [Components.userinfo] at hu

end Url
