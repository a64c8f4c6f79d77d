import Verif.Props.Authority
import Verif.Props.SegEdit
import Verif.Proofs.Weak
import Verif.Proofs.Ndebug

/-!
All histories: C17, C23 and C32 for sequences of calls that may contain the calls left out of `Reach`, and C49.
-/

set_option linter.unusedSimpArgs false
set_option autoImplicit false

namespace Url.Props
open Url Spec
variable {env : Env} {st st' : St}

/-! ### C49 -/

/-- `f`, called in a build with assertions, faults or gives what it gives in a build without. -/
def Agrees {α : Type} (f : Obj → R α) : Prop :=
  ∀ st : St, (∃ e, f (st.obj true) = .error e) ∨ f (st.obj true) = f (st.obj false)

/-- `m`, run in a build with assertions, faults or does what it does in a build without. -/
def AgreesM {α : Type} (m : M α) : Prop :=
  ∀ (env env' : Env) (st : St), env.dbg = true → env' = { env with dbg := false } →
    (∃ e, m env st = .fault e) ∨ m env st = m env' st

/-- C49: compiling the assertions out changes no call that does not fault. -/
theorem C49_calls (op : Op) : AgreesM (run op) := by
  rintro env env' st - rfl
  exact run_sim op env st

/-- C49 for the calls that edit segments. -/
theorem C49_edits (e : SegOp) : AgreesM (runSeg e) := by
  rintro env env' st - rfl
  exact runSeg_sim e env st

theorem _root_.Url.RSim.agrees {α : Type} {f : Obj → R α} (h : RSim f) : Agrees f := fun st => h (st.obj true)

/-- C49 for the accessors. -/
theorem C49_accessors : Agrees encoded_url ∧ Agrees encoded_origin ∧ Agrees scheme ∧ Agrees encoded_authority ∧
    Agrees Base.has_userinfo ∧ Agrees Base.encoded_userinfo ∧ Agrees userinfo_part ∧ Agrees encoded_user ∧ Agrees user ∧
    Agrees Base.encoded_password ∧ Agrees Base.password ∧ Agrees password_part ∧ Agrees encoded_host ∧ Agrees host ∧
    Agrees encoded_host_and_port ∧ Agrees port ∧ Agrees port_part ∧ Agrees encoded_path ∧ Agrees encoded_query ∧
    Agrees query_part ∧ Agrees query ∧ Agrees encoded_fragment ∧ Agrees fragment_part ∧ Agrees fragment :=
  ⟨(rsim_get2 _ _).agrees, (rsim_get2 _ _).agrees, rsim_scheme.agrees, rsim_authority.agrees, (rsim_hasUserinfoTo _).agrees,
    rsim_userinfo.agrees, rsim_userinfo_part.agrees, rsim_user.agrees, (rsim_decode rsim_user).agrees, rsim_password.agrees,
    (rsim_decode rsim_password).agrees, rsim_password_part.agrees, (rsim_get _).agrees, rsim_host.agrees, (rsim_get2 _ _).agrees,
    rsim_port.agrees, rsim_port_part.agrees, (rsim_get _).agrees, rsim_query.agrees, (rsim_delimited _ _).agrees,
    (rsim_decode rsim_query).agrees, rsim_fragment.agrees, (rsim_delimited _ _).agrees, (rsim_decode rsim_fragment).agrees⟩

/-- Both alternatives occur: `set_host` agrees, `set_user("")` faults only with assertions. -/
example : textOf (run (.set_host b!"x") env0 sampleSt) = textOf (run (.set_host b!"x") env1 sampleSt) ∧
    textOf (run (.set_host b!"x") env0 sampleSt) = some b!"http://us%20er:p:w@x:80/a//b;c?k=v&l#f%2F" ∧
    faultOf (run (.set_user []) env0 (after [.set_host b!"h"])) = some .ub ∧
    textOf (run (.set_user []) env1 (after [.set_host b!"h"])) = some b!"//h" := by decide +kernel

/-! ### All calls -/

/-- The states of a `url` object that was modified by calls of its own, whatever they were. A call that throws is
included. (Edits of segments are not.) -/
inductive Used (env : Env) : St → Prop
  | empty : Used env Base.empty
  | call {st st' : St} (op : Op) : Used env st → (run op env st = .ret () st' ∨ ∃ e, run op env st = .throw e st') → Used env st'

theorem Used.release (h : Used env st) : Used env.release st := by
  induction h with
  | empty => exact .empty
  | @call st st' op _ hrun ih =>
    refine .call op ih ?_
    rcases run_sim op env st with ⟨f, h⟩ | h
    · rw [h] at hrun
      rcases hrun with h | ⟨_, h⟩ <;> cases h
    · rwa [← h]

theorem w8 {L : List (List Cell)} (h : L.length = 8) : ∃ S U W H P pa q f, L = [S, U, W, H, P, pa, q, f] := by
  match L with
  | [S, U, W, H, P, pa, q, f] => exact ⟨S, U, W, H, P, pa, q, f, rfl⟩
  | [] | [_] | [_, _] | [_, _, _] | [_, _, _, _] | [_, _, _, _, _] | [_, _, _, _, _, _] | [_, _, _, _, _, _, _]
  | _ :: _ :: _ :: _ :: _ :: _ :: _ :: _ :: _ :: _ => simp at h

/-- a call leaves a proper state -/
theorem w_next {S U W H P pa q f : List Cell} {t : Cell} (h : Part8 env st S U W H P pa q f t) (hd : env.dbg = false) {op : Op}
    (hrun : run op env st = .ret () st') :
    ∃ S' U' W' H' P' pa' q' f' t', Part8 env st' S' U' W' H' P' pa' q' f' t' ∧
      Touched (Op.touch op) [S, U, W, H, P, pa, q, f] [S', U', W', H', P', pa', q', f'] := by
  have ho := w_run h hd op
  rw [hrun] at ho
  obtain ⟨L, t', h1, h2⟩ := ho
  obtain ⟨S', U', W', H', P', pa', q', f', rfl⟩ := w8 h1.len
  refine ⟨S', U', W', H', P', pa', q', f', t', ⟨h1, ?_, ?_, ?_, ?_, ?_, ?_, ?_⟩, h2⟩ <;>
    (cases op <;> simp only [Op.touch, Touched] at h2 <;>
      simp only [h2, h.S, h.W, h.H, h.P, h.pa, h.q, h.f])

theorem Used.parts (h : Used env st) (hd : env.dbg = false) : ∃ S U W H P pa q f t, Part8 env st S U W H P pa q f t := by
  induction h with
  | empty =>
    refine ⟨[], [], [], [], [], [], [], [], some 0, ⟨?_, rfl, .inl ⟨rfl, rfl, rfl, rfl⟩, .inl rfl, .inr rfl⟩, ?_, ?_, ?_, ?_, ?_, ?_, ?_⟩
    · intro i; rcases i with _ | _ | _ | _ | _ | _ | _ | _ | _ | i <;> rfl
    all_goals simp
  | @call st st' op _ hrun ih =>
    obtain ⟨S, U, W, H, P, pa, q, f, t, ih⟩ := ih
    rcases hrun with hrun | ⟨e, hrun⟩
    · obtain ⟨S', U', W', H', P', pa', q', f', t', h1, -⟩ := w_next ih hd hrun
      exact ⟨_, _, _, _, _, _, _, _, _, h1⟩
    · obtain ⟨h1, h2, h3, h4⟩ := C18_strong hrun
      refine ⟨S, U, W, H, P, pa, q, f, t, ⟨?_, rfl, ?_, ?_, ih.holds.term⟩, ih.S, ih.W, ih.H, ih.P, ih.pa, ih.q, ih.f⟩
      · rw [h1]; exact ih.holds.rep
      · have := ih.holds.buf
        unfold BufHolds at this ⊢
        rwa [h2, h3, h4]
      · have := ih.holds.cap
        unfold CapOk at this ⊢
        rwa [h4]

/-- C23: in a build without assertions no call whatsoever reads or writes outside the buffer, uses an indeterminate
byte or shifts an offset out of order, after any calls whatsoever. -/
theorem C23_release (hd : env.dbg = false) (hu : Used env st) (op : Op) (f : Flt) : run op env st ≠ .fault f := by
  obtain ⟨S, U, W, H, P, pa, q, g, t, h⟩ := hu.parts hd
  have ho := w_run h hd op
  intro he
  rw [he] at ho
  exact ho

theorem _root_.Url.Part8.accessors {S U W H P pa q g : List Cell} {t : Cell} (h : Part8 env st S U W H P pa q g t) (f : Flt) :
    scheme (st.obj false) ≠ .error f ∧ Base.has_userinfo (st.obj false) ≠ .error f ∧ password_part (st.obj false) ≠ .error f ∧
    encoded_host (st.obj false) ≠ .error f ∧ encoded_host_and_port (st.obj false) ≠ .error f ∧ port (st.obj false) ≠ .error f ∧
    port_part (st.obj false) ≠ .error f ∧ encoded_path (st.obj false) ≠ .error f ∧ encoded_query (st.obj false) ≠ .error f ∧
    query_part (st.obj false) ≠ .error f ∧ encoded_fragment (st.obj false) ≠ .error f ∧ fragment_part (st.obj false) ≠ .error f := by
  obtain ⟨S, rfl⟩ := init_iff.1 h.S
  obtain ⟨W, rfl⟩ := init_iff.1 h.W
  obtain ⟨H, rfl⟩ := init_iff.1 h.H
  obtain ⟨P, rfl⟩ := init_iff.1 h.P
  obtain ⟨pa, rfl⟩ := init_iff.1 h.pa
  obtain ⟨q, rfl⟩ := init_iff.1 h.q.init
  obtain ⟨g, rfl⟩ := init_iff.1 h.f.init
  have hg := fun id => h.holds.get id false
  have e0 : (st.obj false).get id_scheme = .ok S := (hg 0).trans (readCells_some S)
  have e2 : (st.obj false).get id_password = .ok W := (hg 2).trans (readCells_some W)
  have e3 : (st.obj false).get id_host = .ok H := (hg 3).trans (readCells_some H)
  have e4 : (st.obj false).get id_port = .ok P := (hg 4).trans (readCells_some P)
  have e5 : (st.obj false).get id_path = .ok pa := (hg 5).trans (readCells_some pa)
  have e6 : (st.obj false).get id_query = .ok q := (hg 6).trans (readCells_some q)
  have e7 : (st.obj false).get id_frag = .ok g := (hg 7).trans (readCells_some g)
  have e34 : (st.obj false).get2 id_host id_path = .ok (H ++ P) := by
    rw [h.holds.get2 (by decide), ← readCells_some (H ++ P)]
    simp [id_host, id_path]
  have ha : ∀ c, (st.obj false).assert c = .ok () := fun c => rfl
  have hp : ∀ s : Str, s.isEmpty = false → removePrefix s 1 ≠ .error f := by
    intro s hs
    cases s with
    | nil => simp at hs
    | cons a s => simp [removePrefix]
  have hs : ∀ s : Str, s.isEmpty = false → removeSuffix s 1 ≠ .error f := by
    intro s hs
    cases s with
    | nil => simp at hs
    | cons a s => simp [removeSuffix]
  refine ⟨?_, ?_, ?_, ?_, ?_, ?_, ?_, ?_, ?_, ?_, ?_, ?_⟩
  · unfold scheme
    simp only [e0, bind_ok, ha]
    split
    · simp
    · rename_i h0; exact hs S (by simpa using h0)
  · unfold Base.has_userinfo hasUserinfoTo
    simp only [ha, bind_ok]
    repeat' split
    all_goals simp
  · unfold password_part
    simp only [e2, bind_ok, ha]
    split
    · rename_i h0; exact hs W (by simpa using h0)
    · simp
  · unfold encoded_host; simp [e3]
  · unfold encoded_host_and_port; simp [e34]
  · unfold port
    simp only [e4, bind_ok, ha]
    split
    · rename_i h0; exact hp P (by simpa using h0)
    · simp
  · unfold port_part; simp [e4, ha]
  · unfold encoded_path; simp [e5]
  · unfold encoded_query delimited
    simp only [e6, bind_ok, ha]
    split <;> simp
  · unfold query_part delimited
    simp only [e6, bind_ok, ha]
    split <;> simp
  · unfold encoded_fragment delimited
    simp only [e7, bind_ok, ha]
    split <;> simp
  · unfold fragment_part delimited
    simp only [e7, bind_ok, ha]
    split <;> simp

/-- C23: after any calls, in a build without assertions, the text of everything but the user can be read. -/
theorem C23_release_accessors (hd : env.dbg = false) (hu : Used env st) (f : Flt) :
    scheme (st.obj false) ≠ .error f ∧ Base.has_userinfo (st.obj false) ≠ .error f ∧ password_part (st.obj false) ≠ .error f ∧
    encoded_host (st.obj false) ≠ .error f ∧ encoded_host_and_port (st.obj false) ≠ .error f ∧ port (st.obj false) ≠ .error f ∧
    port_part (st.obj false) ≠ .error f ∧ encoded_path (st.obj false) ≠ .error f ∧ encoded_query (st.obj false) ≠ .error f ∧
    query_part (st.obj false) ≠ .error f ∧ encoded_fragment (st.obj false) ≠ .error f ∧ fragment_part (st.obj false) ≠ .error f := by
  obtain ⟨S, U, W, H, P, pa, q, g, t, h⟩ := hu.parts hd
  exact h.accessors f

/-- The state after calls in a build without assertions. -/
def afterRelease (ops : List Op) : St :=
  match runAll ops env1 Base.empty with
  | .ret () st => st
  | _ => Base.empty

theorem Used.all {ops : List Op} (h : Used env st) (hr : runAll ops env st = .ret () st') : Used env st' := by
  induction ops generalizing st with
  | nil => cases hr; exact h
  | cons op ops ih =>
    rw [runAll, run_bind] at hr
    split at hr
    · rename_i hm; exact ih (h.call op (.inl hm)) hr
    · cases hr
    · cases hr

/-- the call returns -/
def returns {α : Type} (out : Out α) : Bool :=
  match out with
  | .ret _ _ => true
  | _ => false

theorem afterRelease_eq {ops : List Op} (h : returns (runAll ops env1 Base.empty) = true) :
    runAll ops env1 Base.empty = .ret () (afterRelease ops) := by
  unfold afterRelease
  revert h
  cases runAll ops env1 Base.empty <;> simp [returns]

theorem afterRelease_used {ops : List Op} (h : returns (runAll ops env1 Base.empty) = true) : Used env1 (afterRelease ops) :=
  Used.empty.all (afterRelease_eq h)

/-- The calls of the next theorem. -/
def staleCalls : List Op := [.set_encoded_userinfo b!":b", .set_password [], .set_user b!"x"]

/-- C23 is false: these three calls return in a build without assertions, and the first bytes of the text were never
written. -/
theorem C23_uninitialised_false :
    runAll staleCalls env1 Base.empty = .ret () (afterRelease staleCalls) ∧
    (afterRelease staleCalls).buf.map (·.take 4) = some [some c!"@", none, some c!"x", some c!"@"] ∧
    size ((afterRelease staleCalls).obj false) = 4 ∧
    encoded_url ((afterRelease staleCalls).obj false) = .error .ub ∧ encoded_user ((afterRelease staleCalls).obj false) = .error .ub :=
  ⟨afterRelease_eq (by decide +kernel), by decide +kernel, by decide +kernel, by decide +kernel, by decide +kernel⟩

/-- The host can be set and read nevertheless. -/
example : Used env1 (afterRelease staleCalls) ∧
    encoded_host ((afterRelease (staleCalls ++ [.set_host b!"h"])).obj false) = .ok b!"h" :=
  ⟨afterRelease_used (by decide +kernel), by decide +kernel⟩

/-! ### C17 for all calls -/

/-- The components a call may change in some state: those of the authority it has to go through, and the path if the
argument of `set_encoded_origin` contains more than an origin. -/
def disturbs : Op → List Part
  | .set_encoded_origin _ => [.scheme, .user, .password, .host, .port, .path]
  | .set_encoded_userinfo _ | .set_userinfo_part _ | .set_user _ | .set_encoded_user _ | .set_password _
  | .set_encoded_password _ | .set_password_part _ => [.user, .password]
  | .set_host _ | .set_encoded_host _ | .set_port _ | .set_port_number _ | .set_port_part _ => [.user, .password, .host, .port]
  | op => sets op

/-- the number of a part -/
def Part.id : Part → Nat
  | .scheme => id_scheme | .user => id_user | .password => id_password | .host => id_host
  | .port => id_port | .path => id_path | .query => id_query | .fragment => id_frag

theorem Part.text_congr {o o' : Obj} (p : Part) (hd : o.dbg = o'.dbg) (h : o.get p.id = o'.get p.id) : p.text o = p.text o' := by
  have ha : ∀ c, o.assert c = o'.assert c := by
    intro c
    unfold Obj.assert
    rw [hd]
  have ha' : ∀ c, ({ o with dbg := false } : Obj).assert c = ({ o' with dbg := false } : Obj).assert c := fun c => rfl
  cases p <;> simp only [Part.id] at h <;> unfold Part.text
  · show Url.scheme o = Url.scheme o'
    unfold Url.scheme; simp only [h, ha]
  · unfold encoded_user; simp only [h, ha]
  · unfold password_part
    rw [show ({ o with dbg := false } : Obj).get id_password = o.get id_password from rfl,
      show ({ o' with dbg := false } : Obj).get id_password = o'.get id_password from rfl]
    simp only [h, ha']
  · exact h
  · unfold port_part; simp only [h, ha]
  · exact h
  · unfold query_part delimited; simp only [h, ha]
  · unfold fragment_part delimited; simp only [h, ha]

theorem _root_.Url.Part8.kept {S U W H P pa q g : List Cell} {t : Cell} {op : Op} (hw : Part8 env.release st S U W H P pa q g t)
    (h : run op env st = .ret () st') (p : Part) (hp : p ∉ disturbs op) : p.text (st'.obj false) = p.text (st.obj false) := by
  have h1 : run op env.release st = .ret () st' := by
    rcases run_sim op env st with ⟨f, h'⟩ | h'
    · rw [h] at h'; cases h'
    · rw [← h', h]
  obtain ⟨S', U', W', H', P', pa', q', g', t', hw', ht⟩ := w_next hw rfl h1
  refine Part.text_congr p rfl ?_
  rw [hw'.holds.get, hw.holds.get]
  cases op <;> simp only [Op.touch, Touched] at ht <;> cases p <;>
    first
      | (simp [disturbs, sets] at hp; done)
      | simp only [Part.id, id_scheme, id_user, id_password, id_host, id_port, id_path, id_query, id_frag, List.getD, ht,
          List.getElem?_cons_zero, List.getElem?_cons_succ]

/-- C17: whatever calls came before and whatever the argument, a call that returns leaves the text of the components
outside the authority as it was, unless it sets them; and calls for the userinfo leave the host and the port alone. (What
is missing is the rest of the authority in states that only the calls left out of `Reach` lead to.) -/
theorem C17_used_partial {op : Op} (hu : Used env st) (h : run op env st = .ret () st') (p : Part) (hp : p ∉ disturbs op) :
    p.text (st'.obj false) = p.text (st.obj false) := by
  obtain ⟨S, U, W, H, P, pa, q, g, t, hw⟩ := hu.release.parts rfl
  exact hw.kept h p hp

example : Used env1 (afterRelease (staleCalls ++ [.set_encoded_path b!"/p"])) ∧
    Part.path.text ((afterRelease (staleCalls ++ [.set_encoded_path b!"/p", .set_user b!"yy"])).obj false) = .ok b!"/p" ∧
    Part.path ∉ disturbs (.set_user b!"yy") :=
  ⟨afterRelease_used (by decide +kernel), by decide +kernel, by decide⟩

/-! ### C32 -/

/-- C32: the effect of `set_encoded_origin` for every argument it accepts: the argument is the new scheme, the new
authority, and a rest that ends up in front of the path; query and fragment are as before. (A rest that is not empty
is a defect, see `C32_false`.) -/
theorem C32_effect_partial {s : Str} (hr : Reach env st) (hs : s ≠ []) (h : Base.set_encoded_origin s env st = .ret () st') (dbg : Bool) :
    ∃ sch auth rest path : Str, s = sch ++ b!":" ++ (if has_authority (st'.obj dbg) then b!"//" ++ auth else []) ++ rest ∧
      scheme (st'.obj dbg) = .ok sch ∧ encoded_authority (st'.obj dbg) = .ok auth ∧
      encoded_path (st.obj dbg) = .ok path ∧ encoded_path (st'.obj dbg) = .ok (rest ++ path) ∧
      query_part (st'.obj dbg) = query_part (st.obj dbg) ∧ fragment_part (st'.obj dbg) = fragment_part (st.obj dbg) := by
  obtain ⟨c, hrep, -⟩ := hr.rep
  have ho : (parse_origin s).ec = none := by
    rw [Base.set_encoded_origin, if_neg (by simpa using hs)] at h
    cases he : (parse_origin s).ec with
    | none => rfl
    | some x =>
      have hp : Base.parsed (parse_origin s) env st = .throw .invalid_part st := by
        simp [Base.parsed, (good_origin s).flt, he]
      rw [run_bind_throw hp] at h
      cases h
  obtain ⟨sch, a, rest, -, -, e, hset⟩ := base_set_origin_any hrep hs ho
  rcases hset with ⟨-, st1, h1, hok⟩ | ⟨-, _, st1, h1, -⟩
  · rw [h] at h1
    cases h1
    have b := hrep.reports dbg
    have b' := hok.rep.reports dbg
    rw [b'.has_authority, b'.scheme, b'.authority, b'.path, b'.query_part, b'.fragment_part, b.path, b.query_part, b.fragment_part]
    refine ⟨sch, _, rest, _, ?_, rfl, rfl, rfl, rfl, rfl, rfl⟩
    rw [e, authTexts_flatten]
    cases a <;> simp [Components.authority]
  · rw [h] at h1
    cases h1

example : Reach env0 sampleSt ∧ textOf (Base.set_encoded_origin b!"x:///y?" env0 sampleSt) = some b!"x:///y?/a//b;c?k=v&l#f%2F" :=
  ⟨sampleSt_reach, by decide +kernel⟩

end Url.Props
