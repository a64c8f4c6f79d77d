import Verif.Props.Edits
import Verif.Proofs.Frame8

/-!
C17 for all histories: what a call does to the components it does not set, after any calls whatsoever.
-/

set_option linter.unusedSimpArgs false
set_option autoImplicit false

namespace Url.Props
open Url Spec
variable {env : Env} {st st' : St}

/-- The calls that remove the whole authority although they set one part of it: clearing the host when the offsets say that
user and password take two characters and that there is no port, and clearing the port when they say that user, password
and host take two characters. -/
def Drops (st : St) : Op → Prop
  | .set_host s | .set_encoded_host s => s = [] ∧ st.pt.length2 id_user id_host = 2 ∧ st.pt.length id_port = 0
  | .set_port s | .set_port_part s => s = [] ∧ st.pt.length2 id_user id_port = 2
  | _ => False

theorem text_user (h : (st.obj false).get id_user = .ok [] ∨ (st.obj false).get id_user = .ok b!"//") (dbg : Bool) :
    Part.user.text (st.obj dbg) = .ok [] := by
  have h : (st.obj dbg).get id_user = .ok [] ∨ (st.obj dbg).get id_user = .ok b!"//" := h
  show encoded_user _ = _
  unfold encoded_user
  rcases h with h | h
  · simp [h]
  · simp only [h, bind_ok]
    cases dbg <;> rfl

theorem text_password (h : (st.obj false).get id_password = .ok [] ∨ ∃ x, (st.obj false).get id_password = .ok [x]) (dbg : Bool) :
    Part.password.text (st.obj dbg) = .ok [] := by
  show password_part (st.obj false) = _
  unfold password_part
  rcases h with h | ⟨x, h⟩
  · simp [h]
  · simp only [h, bind_ok]
    rfl

theorem text_port (h : (st.obj false).get id_port = .ok []) (dbg : Bool) : Part.port.text (st.obj dbg) = .ok [] := by
  have h : (st.obj dbg).get id_port = .ok [] := h
  show port_part _ = _
  unfold port_part
  simp [h]

theorem assert_holds {α : Type} {c : Obj → R Bool} {g : Unit → M α} {o : Out α} (hd : env.dbg = true)
    (h : (M.assert c >>= g) env st = o) (hf : ∀ f, o ≠ .fault f) : c (st.obj true) = .ok true := by
  rw [run_bind] at h
  unfold M.assert M.ask Obj.assert at h
  simp only [St.obj, hd] at h ⊢
  cases hc : c { dbg := true, pt := st.pt, mem := st.buf.getD [] } with
  | error f =>
    rw [hc] at h
    exact absurd h.symm (hf _)
  | ok b =>
    cases b with
    | true => rfl
    | false =>
      rw [hc] at h
      exact absurd h.symm (hf _)

/-- With assertions, a call that drops the authority and returns found it to be `//`. -/
theorem drops_checked {op : Op} (hd : env.dbg = true) (h : run op env st = .ret () st') (hp : Drops st op) :
    ∃ x, (st.obj false).get id_user = .ok (b!"//" ++ x) := by
  have key : ∀ s : Str, s.take 2 = b!"//" → ∃ x, s = b!"//" ++ x := fun s e => ⟨s.drop 2, by rw [← e, List.take_append_drop]⟩
  have host : st.pt.length2 id_user id_host = 2 ∧ st.pt.length id_port = 0 → Base.set_host [] env st = .ret () st' →
      ∃ x, (st.obj false).get id_user = .ok (b!"//" ++ x) := by
    intro hc h
    unfold Base.set_host at h
    simp only [List.isEmpty_nil, if_true] at h
    rw [run_bind_ret run_pt, run_bind_ret run_pt, if_pos hc] at h
    have := assert_holds hd h (by intro f e; cases e)
    cases hg : (st.obj true).get id_user with
    | error f => rw [hg] at this; cases this
    | ok s =>
      rw [hg] at this
      have : s = b!"//" := by simpa [bind, Except.bind, pure, Except.pure] using this
      exact ⟨[], by rw [show (st.obj false).get id_user = _ from hg, this]; simp⟩
  have port : st.pt.length2 id_user id_port = 2 → Base.set_port [] env st = .ret () st' →
      ∃ x, (st.obj false).get id_user = .ok (b!"//" ++ x) := by
    intro hc h
    unfold Base.set_port at h
    simp only [List.isEmpty_nil, if_true] at h
    rw [run_bind_ret run_pt, if_pos hc] at h
    have := assert_holds hd h (by intro f e; cases e)
    cases hg : (st.obj true).get id_user with
    | error f => rw [hg] at this; cases this
    | ok s =>
      rw [hg] at this
      have : s.take 2 = b!"//" := by simpa [bind, Except.bind, pure, Except.pure] using this
      obtain ⟨x, hx⟩ := key s this
      exact ⟨x, by rw [show (st.obj false).get id_user = _ from hg, hx]⟩
  cases op with
  | set_host s => obtain ⟨rfl, hp⟩ := hp; exact host hp h
  | set_encoded_host s =>
    obtain ⟨rfl, hp⟩ := hp
    exact host hp (by simpa [run, Base.set_encoded_host] using h)
  | set_port s => obtain ⟨rfl, hp⟩ := hp; exact port hp h
  | set_port_part s =>
    obtain ⟨rfl, hp⟩ := hp
    exact port hp (by simpa [run, Base.set_port_part] using h)
  | _ => exact hp.elim

theorem _root_.Url.Part8.kept_get {S U W H P pa q g : List Cell} {t : Cell} {op : Op} (hw : Part8 env.release st S U W H P pa q g t)
    (h : run op env.release st = .ret () st') (p : Part) (hp : p ∉ disturbs op) : (st'.obj false).get p.id = (st.obj false).get p.id := by
  obtain ⟨S', U', W', H', P', pa', q', g', t', hw', ht⟩ := w_next hw rfl h
  rw [hw'.holds.get, hw.holds.get]
  cases op <;> simp only [Op.touch, Touched] at ht <;> cases p <;>
    first
      | (simp [disturbs, sets] at hp; done)
      | simp only [Part.id, id_scheme, id_user, id_password, id_host, id_port, id_path, id_query, id_frag, List.getD, ht,
          List.getElem?_cons_zero, List.getElem?_cons_succ]

/-- What is left of a component that a call does not set. -/
def Left (env : Env) (st st' : St) (op : Op) (p : Part) (dbg : Bool) : Prop :=
  p.text (st'.obj dbg) = p.text (st.obj dbg) ∨
  (env.dbg = false ∧ Drops st op ∧ p.text (st'.obj dbg) = .ok []) ∨
  (p = .path ∧ ∃ s rest old : Str, op = .set_encoded_origin s ∧ s ≠ [] ∧ rest <:+ s ∧ p.text (st.obj dbg) = .ok old ∧ p.text (st'.obj dbg) = .ok (rest ++ old))

theorem two_some {U : List Cell} {x : Str} (h : readCells U = .ok (b!"//" ++ x)) : U = slashes ++ x.map some := by
  have inv : ∀ (U : List Cell) (s : Str), U.mapM id = some s → U = s.map some := by
    intro U
    induction U with
    | nil => intro s h; simp at h; simp [← h]
    | cons a U ih =>
      intro s h
      cases a with
      | none => simp at h
      | some a =>
        simp only [List.mapM_cons, id_eq, Option.bind_eq_bind, Option.bind_some, Option.pure_def, Option.bind_eq_some_iff] at h
        obtain ⟨r, h1, h2⟩ := h
        cases h2
        rw [ih r h1]; rfl
  unfold readCells at h
  split at h
  · rename_i s hs
    cases h
    rw [inv _ _ hs]; simp
  · cases h

section
variable {S U W H P pa q g U' W' H' P' : List Cell} {t t' : Cell} {op : Op}
  (hw : Part8 env.release st S U W H P pa q g t) (hh : Holds env.release st' [S, U', W', H', P', pa, q, g] t')
include hw hh

theorem left_same (p : Part) (hp : [S, U', W', H', P', pa, q, g].getD p.id [] = [S, U, W, H, P, pa, q, g].getD p.id []) (dbg : Bool) :
    Left env st st' op p dbg := by
  refine .inl (Part.text_congr p rfl ?_)
  rw [hh.get, hw.holds.get, hp]

theorem left_user (hu : UserKept U U') (dbg : Bool) : Left env st st' op .user dbg := by
  rcases hu with rfl | ⟨rfl, rfl⟩
  · exact left_same hw hh .user rfl dbg
  · refine .inl ?_
    rw [text_user (.inr ((hh.get id_user false).trans rfl)), text_user (.inl ((hw.holds.get id_user false).trans rfl))]

theorem left_password (hu : PasswordKept W W') (dbg : Bool) : Left env st st' op .password dbg := by
  rcases hu with rfl | ⟨hl, h'⟩
  · exact left_same hw hh .password rfl dbg
  · refine .inl ?_
    obtain ⟨W, rfl⟩ := init_iff.1 hw.W
    have e : (st.obj false).get id_password = .ok W := (hw.holds.get id_password false).trans (readCells_some W)
    rw [text_password ?_, text_password ?_]
    · match W, hl with
      | [], _ => exact .inl e
      | [x], _ => exact .inr ⟨x, e⟩
      | _ :: _ :: _, h => simp at h
    · rcases h' with rfl | rfl
      · exact .inl ((hh.get id_password false).trans rfl)
      · exact .inr ⟨_, (hh.get id_password false).trans rfl⟩

theorem left_port (h1 : P = []) (h2 : P' = []) (dbg : Bool) : Left env st st' op .port dbg := by
  subst h1 h2
  exact left_same hw hh .port rfl dbg

/-- all of the authority is gone -/
theorem left_dropped (hrun : run op env st = .ret () st') (hd : Drops st op) (p : Part)
    (hz : 2 ≤ U.length → p = .user ∧ U.length = 2 ∨ p ≠ .user ∧ [S, U, W, H, P, pa, q, g].getD p.id [] = [])
    (hn : [S, U', W', H', P', pa, q, g].getD p.id [] = []) (hp : p = .user ∨ p = .password ∨ p = .host ∨ p = .port) (dbg : Bool) :
    Left env st st' op p dbg := by
  have hnew : (st'.obj false).get p.id = .ok [] := by rw [hh.get, hn]; rfl
  have text : ∀ st : St, (st.obj false).get p.id = .ok [] → p.text (st.obj dbg) = .ok [] := by
    intro st hg
    rcases hp with rfl | rfl | rfl | rfl
    · exact text_user (.inl hg) dbg
    · exact text_password (.inl hg) dbg
    · exact hg
    · exact text_port hg dbg
  cases hb : env.dbg with
  | false => exact .inr (.inl ⟨hb, hd, text st' hnew⟩)
  | true =>
    refine .inl ?_
    rw [text st' hnew]
    obtain ⟨x, hx⟩ := drops_checked hb hrun hd
    rw [hw.holds.get] at hx
    have hU : U = slashes ++ x.map some := two_some hx
    rcases hz (by rw [hU]; simp) with ⟨rfl, hl⟩ | ⟨-, h0⟩
    · obtain rfl : x = [] := by
        rw [hU] at hl
        simpa using hl
      subst hU
      exact (text_user (.inr ((hw.holds.get id_user false).trans rfl)) dbg).symm
    · exact (text st (by rw [hw.holds.get, h0]; rfl)).symm
end

/-- C17: whatever calls and edits came before and whatever the argument, a call that returns leaves the text of every component it
does not set as it was, with two exceptions: without assertions, clearing the host or the port when the offsets of the
parts before it span two characters erases all of the authority; and what follows the origin in the argument of
`set_encoded_origin` ends up in front of the path. -/
theorem C17_used {op : Op} (hu : Worked env st) (h : run op env st = .ret () st') (p : Part) (hp : p ∉ sets op) (dbg : Bool) :
    Left env st st' op p dbg := by
  have h1 : run op env.release st = .ret () st' := by
    rcases run_sim op env st with ⟨f, h'⟩ | h'
    · rw [h] at h'; cases h'
    · rw [← h', h]
  obtain ⟨S, U, W, H, P, q, g, t, pa, hw⟩ := hu.release.parts rfl
  generalize pa.map some = pa at hw
  by_cases hp' : p ∉ disturbs op
  · exact .inl (Part.text_congr p rfl (hw.kept_get h1 p hp'))
  have hp' : p ∈ disturbs op := Decidable.not_not.1 hp'
  have user : ∀ {Q}, AOut env.release S pa q g Q (run op env.release st) →
      ∃ U' W' H' P' t', Holds env.release st' [S, U', W', H', P', pa, q, g] t' ∧ Q U' W' H' P' := by
    intro Q ho
    rw [h1] at ho
    exact ho
  have host : ∀ s : Str, (s = [] → ∀ hl : U.length + W.length = 2 ∧ P = [], Drops st op) → (p = .user ∨ p = .password ∨ p = .port) →
      AOut env.release S pa q g (HostKept U W H P (s = [])) (run op env.release st) → Left env st st' op p dbg := by
    intro s hd hp ho
    obtain ⟨U', W', H', P', t', hh, ⟨rfl, rfl, rfl⟩ | ⟨rfl, rfl, rfl, rfl, rfl, rfl, rfl⟩ | ⟨hs, hl, rfl, rfl, rfl, rfl⟩⟩ := user ho
    · rcases hp with rfl | rfl | rfl <;> exact left_same hw hh _ rfl dbg
    · rcases hp with rfl | rfl | rfl
      · exact left_user hw hh (.inr ⟨rfl, rfl⟩) dbg
      · exact left_same hw hh _ rfl dbg
      · exact left_same hw hh _ rfl dbg
    · refine left_dropped hw hh h (hd hs ⟨hl, rfl⟩) p ?_ ?_ (by rcases hp with h | h | h <;> simp [h]) dbg
      · intro h2
        have : W = [] := List.length_eq_zero_iff.1 (by omega)
        rcases hp with rfl | rfl | rfl
        · exact .inl ⟨rfl, by omega⟩
        · exact .inr ⟨by decide, this⟩
        · exact .inr ⟨by decide, rfl⟩
      · rcases hp with rfl | rfl | rfl <;> rfl
  have port : ∀ c : Prop, (c → U.length + W.length + H.length = 2 → Drops st op) → (p = .user ∨ p = .password ∨ p = .host) →
      AOut env.release S pa q g (PortKept U W H P c) (run op env.release st) → Left env st st' op p dbg := by
    intro c hd hp ho
    obtain ⟨U', W', H', P', t', hh, ⟨rfl, rfl, rfl⟩ | ⟨rfl, rfl, rfl, rfl, rfl, rfl, rfl⟩ | ⟨hs, hl, rfl, rfl, rfl⟩⟩ := user ho
    · rcases hp with rfl | rfl | rfl <;> exact left_same hw hh _ rfl dbg
    · rcases hp with rfl | rfl | rfl
      · exact left_user hw hh (.inr ⟨rfl, rfl⟩) dbg
      · exact left_same hw hh _ rfl dbg
      · exact left_same hw hh _ rfl dbg
    · refine left_dropped hw hh h (hd hs hl) p ?_ ?_ (by rcases hp with h | h | h <;> simp [h]) dbg
      · intro h2
        have h3 : W = [] := List.length_eq_zero_iff.1 (by omega)
        have h4 : H = [] := List.length_eq_zero_iff.1 (by omega)
        rcases hp with rfl | rfl | rfl
        · exact .inl ⟨rfl, by omega⟩
        · exact .inr ⟨by decide, h3⟩
        · exact .inr ⟨by decide, h4⟩
      · rcases hp with rfl | rfl | rfl <;> rfl
  have l2 : st.pt.length2 id_user id_host = U.length + W.length := a_len2_host hw
  have l3 : st.pt.length2 id_user id_port = U.length + W.length + H.length := a_len2_port hw
  have lp : st.pt.length id_port = P.length := w_len hw id_port
  cases op with
  | set_encoded_origin s =>
    obtain rfl : p = .path := by revert hp hp'; cases p <;> simp [disturbs, sets]
    obtain ⟨S', U', W', H', P', t', r, hh, h0, hsuf⟩ := a_origin hw h1
    obtain ⟨path, rfl⟩ := init_iff.1 hw.pa
    have e1 : Part.path.text (st.obj dbg) = .ok path := (hw.holds.get id_path dbg).trans (readCells_some path)
    have e2 : Part.path.text (st'.obj dbg) = .ok (r ++ path) := by
      refine (hh.get id_path dbg).trans ?_
      rw [← readCells_some (r ++ path)]
      simp [id_path]
    by_cases hs : s = []
    · left; rw [e1, e2, h0 hs]; rfl
    · exact .inr (.inr ⟨rfl, s, r, path, rfl, hs, hsuf, e1, e2⟩)
  | set_user s =>
    obtain rfl : p = .password := by revert hp hp'; cases p <;> simp [disturbs, sets]
    obtain ⟨U', W', H', P', t', hh, hk, -⟩ := user (a_set_user hw rfl s)
    exact left_password hw hh hk dbg
  | set_encoded_user s =>
    obtain rfl : p = .password := by revert hp hp'; cases p <;> simp [disturbs, sets]
    obtain ⟨U', W', H', P', t', hh, hk, -⟩ := user (a_set_encoded_user hw rfl s)
    exact left_password hw hh hk dbg
  | set_password s =>
    obtain rfl : p = .user := by revert hp hp'; cases p <;> simp [disturbs, sets]
    obtain ⟨U', W', H', P', t', hh, hk, -⟩ := user (a_set_password hw rfl s)
    exact left_user hw hh hk dbg
  | set_encoded_password s =>
    obtain rfl : p = .user := by revert hp hp'; cases p <;> simp [disturbs, sets]
    obtain ⟨U', W', H', P', t', hh, hk, -⟩ := user (a_set_encoded_password hw rfl s)
    exact left_user hw hh hk dbg
  | set_password_part s =>
    obtain rfl : p = .user := by revert hp hp'; cases p <;> simp [disturbs, sets]
    obtain ⟨U', W', H', P', t', hh, hk, -⟩ := user (a_set_password_part hw rfl s)
    exact left_user hw hh hk dbg
  | set_host s =>
    exact host s (fun hs hl => ⟨hs, l2.trans hl.1, lp.trans (by rw [hl.2]; rfl)⟩) (by revert hp hp'; cases p <;> simp [disturbs, sets]) (a_set_host hw rfl s)
  | set_encoded_host s =>
    exact host s (fun hs hl => ⟨hs, l2.trans hl.1, lp.trans (by rw [hl.2]; rfl)⟩) (by revert hp hp'; cases p <;> simp [disturbs, sets]) (a_set_encoded_host hw rfl s)
  | set_port s =>
    exact port (s = []) (fun hs hl => ⟨hs, l3.trans hl⟩) (by revert hp hp'; cases p <;> simp [disturbs, sets]) (a_set_port hw rfl s)
  | set_port_part s =>
    exact port (s = []) (fun hs hl => ⟨hs, l3.trans hl⟩) (by revert hp hp'; cases p <;> simp [disturbs, sets]) (a_set_port_part hw rfl s)
  | set_port_number n =>
    exact port False (fun hs _ => hs.elim) (by revert hp hp'; cases p <;> simp [disturbs, sets]) (a_port_number hw rfl n)
  | _ => exact absurd hp' hp

/-- A path and a user are left as they were. -/
example : Worked env1 (afterRelease (staleCalls ++ [.set_encoded_path b!"/p"])) ∧ Part.user ∉ sets (.set_password b!"w") ∧
    returns (run (.set_password b!"w") env1 (afterRelease (staleCalls ++ [.set_encoded_path b!"/p"]))) = true ∧
    Part.path.text ((afterRelease (staleCalls ++ [.set_encoded_path b!"/p", .set_password b!"w"])).obj false) = .ok b!"/p" ∧
    Part.user.text ((afterRelease [.set_host b!"h", .set_password b!"w", .set_user b!"u"]).obj false) = .ok b!"u" :=
  ⟨(afterRelease_used (by decide +kernel)).worked, by decide, by decide +kernel, by decide +kernel, by decide +kernel⟩

theorem runAll_snoc {ops : List Op} {op : Op} {s : St} (h : runAll ops env s = .ret () st) (h' : runAll (ops ++ [op]) env s = .ret () st') :
    run op env st = .ret () st' := by
  induction ops generalizing s with
  | nil =>
    cases h
    rw [List.nil_append, runAll, run_bind] at h'
    split at h'
    · rename_i hm; rw [hm]; cases h'; rfl
    · cases h'
    · cases h'
  | cons o ops ih =>
    rw [runAll, run_bind] at h
    rw [List.cons_append, runAll, run_bind] at h'
    split at h
    · rename_i hm; rw [hm] at h'; exact ih h h'
    · cases h
    · cases h

/-- The calls of the next theorem. -/
def portFirst : List Op := [.set_port_part b!":", .set_host b!"ab"]

/-- C17 is false without assertions: setting the port part of an empty url to `:` and then the host gives `ab:` instead of
`//ab:`, and clearing the port then erases the host as well. -/
theorem C17_used_false :
    Used env1 (afterRelease portFirst) ∧ Drops (afterRelease portFirst) (.set_port []) ∧
    Part.host.text ((afterRelease portFirst).obj false) = .ok b!"ab" ∧
    run (.set_port []) env1 (afterRelease portFirst) = .ret () (afterRelease (portFirst ++ [.set_port []])) ∧
    Part.host.text ((afterRelease (portFirst ++ [.set_port []])).obj false) = .ok [] := by
  refine ⟨afterRelease_used (by decide +kernel), ⟨rfl, by decide +kernel⟩, by decide +kernel, ?_, by decide +kernel⟩
  have h1 := afterRelease_eq (ops := portFirst) (by decide +kernel)
  have h2 := afterRelease_eq (ops := portFirst ++ [.set_port []]) (by decide +kernel)
  exact runAll_snoc h1 h2

/-- With assertions the same call stops. -/
example : faultOf (run (.set_port []) env0 (afterRelease portFirst)) = some .assert := by decide +kernel

end Url.Props
