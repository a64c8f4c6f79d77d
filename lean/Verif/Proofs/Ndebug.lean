import Verif.Model.Op
import Verif.Model.Params

/-!
Leaving out the assertions does not change what a call does that does not fault.
-/

set_option linter.unusedSimpArgs false

namespace Url
open Spec M

variable {α β : Type}

/-- the same object in a build without assertions -/
def Obj.release (o : Obj) : Obj := { o with dbg := false }

/-- the same environment in a build without assertions -/
def Env.release (env : Env) : Env := { env with dbg := false }

/-- A member that only reads faults, or gives the same result in a build without assertions. -/
def RSim (f : Obj → R α) : Prop := ∀ o, (∃ e, f o = .error e) ∨ f o = f o.release

/-- A modifying call faults, or has the same outcome in a build without assertions. -/
def Sim (m : M α) : Prop := ∀ env st, (∃ e, m env st = .fault e) ∨ m env st = m env.release st

theorem RSim.same {f : Obj → R α} (h : ∀ o, f o = f o.release) : RSim f := fun o => .inr (h o)

theorem RSim.bind {f : Obj → R α} {g : Obj → α → R β} (hf : RSim f) (hg : ∀ a, RSim fun o => g o a) :
    RSim fun o => f o >>= g o := by
  intro o
  rcases hf o with ⟨e, h⟩ | h
  · exact .inl ⟨e, by dsimp only; rw [h]; rfl⟩
  · dsimp only
    rw [← h]
    cases f o with
    | error e => exact .inl ⟨e, rfl⟩
    | ok a => exact hg a o

theorem RSim.assert {c : Obj → R Bool} : RSim fun o => o.assert (c o) := by
  intro o
  by_cases hd : o.dbg = true
  · cases hc : c o with
    | error e => exact .inl ⟨e, by simp [Obj.assert, hd, hc]⟩
    | ok b =>
      cases b with
      | false => exact .inl ⟨.assert, by simp [Obj.assert, hd, hc]⟩
      | true => exact .inr (by simp [Obj.assert, hd, hc, Obj.release])
  · exact .inr (by simp [Obj.assert, hd, Obj.release])

theorem RSim.ite {p : Prop} [Decidable p] {f g : Obj → R α} (hf : RSim f) (hg : RSim g) : RSim fun o => if p then f o else g o := by
  split
  · exact hf
  · exact hg

theorem RSim.iteO {p : Obj → Prop} [∀ o, Decidable (p o)] {f g : Obj → R α} (hp : ∀ o, p o ↔ p o.release) (hf : RSim f) (hg : RSim g) :
    RSim fun o => if p o then f o else g o := by
  intro o
  dsimp only
  by_cases h : p o
  · rw [if_pos h, if_pos ((hp o).1 h)]; exact hf o
  · rw [if_neg h, if_neg (fun h' => h ((hp o).2 h'))]; exact hg o

theorem RSim.const (a : R α) : RSim fun _ => a := fun _ => .inr rfl

theorem Sim.bind {m : M α} {f : α → M β} (hm : Sim m) (hf : ∀ a, Sim (f a)) : Sim (m >>= f) := by
  intro env st
  rcases hm env st with ⟨e, h⟩ | h
  · exact .inl ⟨e, by rw [show (m >>= f) env st = _ from rfl]; simp only [Bind.bind, h]⟩
  · simp only [Bind.bind]
    rw [← h]
    cases m env st with
    | ret a st' => exact hf a env st'
    | throw e st' => exact .inr rfl
    | fault e => exact .inl ⟨e, rfl⟩

theorem Sim.free {m : M α} (h : ∀ env st, m env st = m env.release st) : Sim m := fun env st => .inr (h env st)
theorem Sim.pure (a : α) : Sim (pure a : M α) := .free fun _ _ => rfl
theorem Sim.raise (e : Exc) : Sim (M.raise e : M α) := .free fun _ _ => rfl
theorem Sim.fault (f : Flt) : Sim (fun _ _ => .fault f : M α) := .free fun _ _ => rfl
theorem Sim.undefined : Sim (M.undefined : M α) := .free fun _ _ => rfl
theorem Sim.pt : Sim M.pt := .free fun _ _ => rfl
theorem Sim.setPt (f : Parts → Parts) : Sim (M.setPt f) := .free fun _ _ => rfl
theorem Sim.sizeMax : Sim M.sizeMax := .free fun _ _ => rfl
theorem Sim.isNull : Sim M.isNull := .free fun _ _ => rfl
theorem Sim.stored : Sim M.stored := .free fun _ _ => rfl
theorem Sim.capacity : Sim M.capacity := .free fun _ _ => rfl
theorem Sim.put (i : Nat) (s : Str) : Sim (M.put i s) := .free fun _ _ => rfl
theorem Sim.move (a b n : Nat) : Sim (M.move a b n) := .free fun _ _ => rfl
theorem Sim.storage_reserve (n : Nat) : Sim (Storage.reserve n) := .free fun _ _ => rfl
theorem Sim.storage_resize (n : Nat) : Sim (Storage.resize n) := .free fun _ _ => rfl

theorem Sim.ask {f : Obj → R α} (hf : RSim f) : Sim (M.ask f) := by
  intro env st
  unfold M.ask
  rcases hf (st.obj env.dbg) with ⟨e, h⟩ | h
  · exact .inl ⟨e, by rw [h]⟩
  · right
    rw [h]
    rfl

theorem Sim.assert (c : Obj → R Bool) : Sim (M.assert c) := .ask .assert

theorem Sim.require (c : Bool) : Sim (Base.require c) := .free fun _ _ => by unfold Base.require; split <;> rfl
theorem Sim.validate (e : PctSet) (s : Str) : Sim (Base.validate e s) := .require _
theorem Sim.parsed (ps : PS) : Sim (Base.parsed ps) := by
  unfold Base.parsed
  split
  · exact .fault _
  · split
    · exact .raise _
    · exact .pure _
theorem Sim.parsedAll (ps : PS) : Sim (Base.parsedAll ps) := by
  unfold Base.parsedAll
  refine .bind (.parsed _) fun _ => ?_
  split
  · exact .pure _
  · exact .raise _

/-- a step that is the same in both builds or an assertion -/
macro "sim1" : tactic => `(tactic| with_reducible first
  | exact Sim.pt | exact Sim.assert _ | exact Sim.require _ | exact Sim.validate _ _ | exact Sim.parsed _
  | exact Sim.parsedAll _ | exact Sim.isNull | exact Sim.pure _ | exact Sim.fault _ | exact Sim.put _ _ | exact Sim.setPt _
  | exact Sim.move _ _ _ | exact Sim.sizeMax | exact Sim.raise _ | exact Sim.storage_resize _ | exact Sim.storage_reserve _
  | exact Sim.stored | exact Sim.capacity | exact Sim.undefined
  | (refine Sim.ask ?_; with_unfolding_all exact RSim.same fun _ => rfl))

/-- decompose a call into steps -/
macro "sim" : tactic => `(tactic| repeat' first
  | sim1
  | (with_reducible assumption)
  | (with_reducible refine Sim.bind ?_ fun _ => ?_)
  | split
  | dsimp only)

theorem Sim.resize (id n : Nat) : Sim (Base.resize id n) := by unfold Base.resize; sim
theorem Sim.resize2 (a b n : Nat) : Sim (Base.resize2 a b n) := by unfold Base.resize2; sim
theorem Sim.split (id n : Nat) : Sim (Base.split id n) := by unfold Base.split; sim
theorem Sim.assertUserinfo : Sim Base.assertUserinfo := by unfold Base.assertUserinfo; sim

/-- decompose a setter into steps -/
macro "simm" : tactic => `(tactic| repeat' first
  | (with_reducible first | exact Sim.resize _ _ | exact Sim.resize2 _ _ _ | exact Sim.split _ _ | exact Sim.assertUserinfo)
  | sim1
  | (with_reducible assumption)
  | (with_reducible refine Sim.bind ?_ fun _ => ?_)
  | split
  | dsimp only)

theorem sim_set_user (s : Str) : Sim (Base.set_user s) := by unfold Base.set_user; simm
theorem sim_set_password (s : Str) : Sim (Base.set_password s) := by unfold Base.set_password; simm
theorem sim_set_encoded_password (s : Str) : Sim (Base.set_encoded_password s) := by
  have := sim_set_password s
  unfold Base.set_encoded_password; simm
theorem sim_addHost (s : Str) : Sim (Base.addHost s) := by unfold Base.addHost; simm
theorem sim_set_host (s : Str) : Sim (Base.set_host s) := by
  have := sim_addHost s
  unfold Base.set_host; simm
theorem sim_set_encoded_host (s : Str) : Sim (Base.set_encoded_host s) := by
  have := sim_addHost s
  have := sim_set_host s
  unfold Base.set_encoded_host; simm
theorem sim_set_port (s : Str) : Sim (Base.set_port s) := by unfold Base.set_port; simm
theorem sim_set_encoded_userinfo (s : Str) : Sim (Base.set_encoded_userinfo s) := by unfold Base.set_encoded_userinfo; simm
theorem sim_lowerLoop (i n : Nat) : Sim (Base.lowerLoop i n) := by
  induction n generalizing i with
  | zero => exact .pure _
  | succ n ih =>
    have := ih (i + 1)
    unfold Base.lowerLoop; simm
theorem sim_normalize : Sim Base.normalize_scheme := by
  unfold Base.normalize_scheme
  simm
  exact sim_lowerLoop _ _

/-- Every modifying call faults, or does the same in a build without assertions. -/
theorem run_sim (op : Op) : Sim (run op) := by
  cases op with
  | set_encoded_url s => show Sim (Base.set_encoded_url s); unfold Base.set_encoded_url; simm
  | set_encoded_origin s => show Sim (Base.set_encoded_origin s); unfold Base.set_encoded_origin; simm
  | set_scheme s => show Sim (Base.set_scheme s); unfold Base.set_scheme; simm
  | set_encoded_authority s => show Sim (Base.set_encoded_authority s); unfold Base.set_encoded_authority; simm
  | set_encoded_userinfo s => exact sim_set_encoded_userinfo s
  | set_userinfo_part s =>
    have := sim_set_encoded_userinfo s
    have := sim_set_encoded_userinfo (s.take (s.length - 1))
    show Sim (Base.set_userinfo_part s); unfold Base.set_userinfo_part; simm
  | set_user s => exact sim_set_user s
  | set_encoded_user s =>
    have := sim_set_user s
    show Sim (Base.set_encoded_user s); unfold Base.set_encoded_user; simm
  | set_password s => exact sim_set_password s
  | set_encoded_password s => exact sim_set_encoded_password s
  | set_password_part s =>
    have := sim_set_password s
    have := sim_set_encoded_password (s.drop 1)
    show Sim (Base.set_password_part s); unfold Base.set_password_part; simm
  | set_host s => exact sim_set_host s
  | set_encoded_host s => exact sim_set_encoded_host s
  | set_port s => exact sim_set_port s
  | set_port_number n =>
    refine .bind (.ask (.const _)) fun s => sim_set_port s
  | set_port_part s =>
    have := sim_set_port s
    have := sim_set_port (s.drop 1)
    show Sim (Base.set_port_part s); unfold Base.set_port_part; simm
  | set_encoded_path s => show Sim (Base.set_encoded_path s); unfold Base.set_encoded_path; simm
  | set_query s => show Sim (Base.setPlain _ _ _ s); unfold Base.setPlain; simm
  | set_encoded_query s => show Sim (Base.setEncoded _ _ _ s); unfold Base.setEncoded; simm
  | set_query_part s => show Sim (Base.setPart _ _ _ s); unfold Base.setPart; simm
  | set_fragment s => show Sim (Base.setPlain _ _ _ s); unfold Base.setPlain; simm
  | set_encoded_fragment s => show Sim (Base.setEncoded _ _ _ s); unfold Base.setEncoded; simm
  | set_fragment_part s => show Sim (Base.setPart _ _ _ s); unfold Base.setPart; simm
  | normalize_scheme => exact sim_normalize
  | normalize => exact sim_normalize

/-! ### members that only read -/

theorem rsim_read (i n : Nat) : RSim fun o => o.read i n := .same fun _ => rfl
theorem rsim_byte (i : Nat) : RSim fun o => o.byte i := .same fun _ => rfl
theorem rsim_get2 (b e : Nat) : RSim fun o => o.get2 b e := .same fun _ => rfl
theorem rsim_get (id : Nat) : RSim fun o => o.get id := .same fun _ => rfl

/-- decompose a member that only reads -/
macro "rsim" : tactic => `(tactic| repeat' first
  | exact RSim.const _
  | exact RSim.assert
  | exact RSim.same fun _ => rfl
  | (with_reducible assumption)
  | (refine RSim.bind ?_ fun _ => ?_)
  | refine RSim.ite ?_ ?_
  | refine RSim.iteO (fun _ => Iff.rfl) ?_ ?_
  | split
  | dsimp only)

theorem rsim_scheme : RSim scheme := by unfold scheme; rsim
theorem rsim_authority : RSim encoded_authority := by unfold encoded_authority; rsim
theorem rsim_hasUserinfoTo (e : Nat) : RSim (hasUserinfoTo e) := by unfold hasUserinfoTo; rsim
theorem rsim_userinfo_part : RSim userinfo_part := by unfold userinfo_part; rsim
theorem rsim_userinfo_view : RSim View.encoded_userinfo := by unfold View.encoded_userinfo; rsim
theorem rsim_userinfo : RSim Base.encoded_userinfo := by
  have := rsim_userinfo_part
  unfold Base.encoded_userinfo; rsim
theorem rsim_user : RSim encoded_user := by unfold encoded_user; rsim
theorem rsim_password_view : RSim View.encoded_password := by unfold View.encoded_password; rsim
theorem rsim_password : RSim Base.encoded_password := by unfold Base.encoded_password; rsim
theorem rsim_password_part : RSim password_part := by unfold password_part; rsim
theorem rsim_port : RSim port := by unfold port; rsim
theorem rsim_port_part : RSim port_part := by unfold port_part; rsim
theorem rsim_delimited (id : Nat) (c : Byte) : RSim fun o => delimited o id c := by unfold delimited; rsim
theorem rsim_query : RSim encoded_query := .bind (rsim_delimited id_query c!"?") fun a => .const (.ok (a.drop 1))
theorem rsim_fragment : RSim encoded_fragment := .bind (rsim_delimited id_frag c!"#") fun a => .const (.ok (a.drop 1))
theorem rsim_decode {f : Obj → R Str} (h : RSim f) : RSim (fun o => f o >>= decodeR) := .bind h fun _ => .const _
theorem rsim_host : RSim host := by unfold host encoded_host; rsim

/-! ### segments -/

theorem rsim_scan (k p : Nat) : RSim fun o => Seg.scan o k p := .same fun o => by
  induction k generalizing p with
  | zero => rfl
  | succ k ih => unfold Seg.scan; rw [funext fun p => ih p]; rfl
theorem rsim_parse (lim : Nat) (it : SegIt) : RSim fun o => Seg.parse lim o it := by
  unfold Seg.parse
  refine .bind .assert fun _ => .bind (rsim_byte _) fun c => ?_
  dsimp only
  refine .bind ?_ fun _ => .const _
  intro o
  exact rsim_scan (o.pt.off lim - (if c == c!"/" then it.off + 1 else it.off)) (if c == c!"/" then it.off + 1 else it.off) o
theorem rsim_first (lim : Nat) : RSim fun o => Seg.first lim o := by
  unfold Seg.first
  refine .iteO (fun _ => Iff.rfl) (.same fun _ => rfl) ?_
  intro o
  exact rsim_parse lim { off := o.pt.off id_path, n := 0 } o
theorem rsim_next (lim : Nat) (it : SegIt) : RSim fun o => Seg.next lim o it := by
  unfold Seg.next
  refine .bind .assert fun _ => ?_
  dsimp only
  exact .iteO (fun _ => Iff.rfl) (.const _) (rsim_parse _ _)
theorem rsim_nth (lim k : Nat) : RSim fun o => Seg.nth lim o k := by
  induction k with
  | zero => exact rsim_first lim
  | succ k ih => exact .bind ih fun it => rsim_next lim it

/-- decompose a call that edits segments -/
macro "sims" : tactic => `(tactic| repeat' first
  | (with_reducible first | exact Sim.ask (rsim_parse _ _) | exact Sim.ask (rsim_next _ _) | exact Sim.ask (rsim_nth _ _))
  | sim1
  | (with_reducible assumption)
  | (with_reducible refine Sim.bind ?_ fun _ => ?_)
  | split
  | dsimp only)

theorem sim_erase_range (a b : SegIt) : Sim (Base.seg_erase_range a b) := by unfold Base.seg_erase_range; sims
theorem sim_erase (a : SegIt) : Sim (Base.seg_erase a) := by
  have := sim_erase_range a
  unfold Base.seg_erase
  exact .bind (.ask (rsim_next _ _)) fun b => this b
theorem sim_put (a : SegIt) (n : Nat) (s : Str) : Sim (Base.seg_put a n s) := by unfold Base.seg_put; sims
theorem sim_insert_encoded_impl (a : SegIt) (s : Str) : Sim (Base.seg_insert_encoded_impl a s) := by
  unfold Base.seg_insert_encoded_impl
  exact .bind (.assert _) fun _ => sim_put _ _ _
theorem sim_insert_impl (a : SegIt) (s : Str) (n : Nat) : Sim (Base.seg_insert_impl a s n) := by
  unfold Base.seg_insert_impl
  exact .bind (.assert _) fun _ => sim_put _ _ _
theorem sim_swap (a : SegIt) (n : Nat) {ins : SegIt → M SegIt} (h : ∀ it, Sim (ins it)) : Sim (Base.seg_swap a n ins) := by
  have := sim_erase a
  unfold Base.seg_swap
  sims
  all_goals exact h _

/-- Every call that edits segments faults, or does the same in a build without assertions. -/
theorem runSeg_sim (e : SegOp) : Sim (runSeg e) := by
  cases e with
  | erase i => exact .bind (.ask (rsim_nth _ _)) fun a => sim_erase a
  | erase_range i j => exact .bind (.ask (rsim_nth _ _)) fun a => .bind (.ask (rsim_nth _ _)) fun b => sim_erase_range a b
  | insert i s => exact .bind (.ask (rsim_nth _ _)) fun a => sim_insert_impl a s _
  | insert_encoded i s => exact .bind (.ask (rsim_nth _ _)) fun a => .bind (.validate _ _) fun _ => sim_insert_encoded_impl a s
  | replace i s => exact .bind (.ask (rsim_nth _ _)) fun a => sim_swap _ _ fun it => sim_insert_impl it s _
  | replace_encoded i s =>
    exact .bind (.ask (rsim_nth _ _)) fun a => .bind (.validate _ _) fun _ => sim_swap _ _ fun it => sim_insert_encoded_impl it s

end Url
