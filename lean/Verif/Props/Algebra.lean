import Verif.Props.History
import Verif.Proofs.Algebra

/-!
Properties of sequences of modifications: C25 - C27.
-/

set_option linter.unusedSimpArgs false
set_option autoImplicit false

namespace Url.Props
open Url Spec

variable {env : Env} {st a b : St}

/-- The two objects have the same text and the same component boundaries. -/
def SameUrl (a b : St) : Prop :=
  (∀ dbg, encoded_url (a.obj dbg) = encoded_url (b.obj dbg)) ∧ ∀ i, i ≤ 8 → a.pt.off i = b.pt.off i

/-- Each call of the sequence can be made in the state the calls before it lead to. -/
def CallableAll (env : Env) : St → List Op → Prop
  | _, [] => True
  | st, op :: ops => Callable env st op ∧ ∀ st', run op env st = .ret () st' → CallableAll env st' ops

theorem CallableAll.fine {ops : List Op} (h : ∀ op, op ∈ ops → Op.Fine op) : CallableAll env st ops := by
  induction ops generalizing st with
  | nil => trivial
  | cons op ops ih => exact ⟨(h op (by simp)).callable, fun st' _ => ih fun o ho => h o (by simp [ho])⟩

theorem _root_.Url.Rep.sameUrl {c : Components} (h : Rep env a c) (h' : Rep env b c) : SameUrl a b := by
  refine ⟨fun dbg => ?_, fun i _ => ?_⟩
  · rw [(h.reports dbg).url, (h'.reports dbg).url]
  · have e1 : a.pt.off i = plen (compParts c) i := (h.obj true).rep i
    have e2 : b.pt.off i = plen (compParts c) i := (h'.obj true).rep i
    rw [e1, e2]

/-- the effect of one call after another -/
theorem returned_one {op : Op} {c : Components} {out : St} (hrep : Rep env st c) (hc : Callable env st op) (h : run op env st = .ret () out) :
    ∃ c', op.Effect c c' ∧ Rep env out c' := by
  have ho := op_correct hrep op (callable hrep hc)
  rw [h] at ho
  cases ho with
  | ret c' _ he _ hok => exact ⟨c', he, hok.rep⟩

theorem returned_two {op1 op2 : Op} {c : Components} {out : St} (hrep : Rep env st c) (hc : CallableAll env st [op1, op2])
    (h : runAll [op1, op2] env st = .ret () out) : ∃ c1 c2, op1.Effect c c1 ∧ op2.Effect c1 c2 ∧ Rep env out c2 := by
  have ho := op_correct hrep op1 (callable hrep hc.1)
  generalize hout : run op1 env st = x at ho
  rw [runAll] at h
  cases ho with
  | ret c1 st1 he _ hok =>
    rw [run_bind_ret hout] at h
    have ho2 := op_correct hok.rep op2 (callable hok.rep (hc.2 st1 hout).1)
    generalize hout2 : run op2 env st1 = y at ho2
    rw [runAll] at h
    cases ho2 with
    | ret c2 st2 he2 _ hok2 =>
      rw [run_bind_ret hout2] at h
      cases h
      exact ⟨c1, c2, he, he2, hok2.rep⟩
    | full c2 e st2 => rw [run_bind_throw hout2] at h; cases h
    | invalid => rw [run_bind_throw hout2] at h; cases h
  | full c2 e st2 => rw [run_bind_throw hout] at h; cases h
  | invalid => rw [run_bind_throw hout] at h; cases h

/-! ### C25 -/

/-- C25: two calls that set different top-level components can be exchanged. -/
theorem C25_fields_partial {op1 op2 : Op} {f g : Field} (hr : Reach env st) (h1 : op1.field = some f) (h2 : op2.field = some g) (hfg : f ≠ g)
    (hc : CallableAll env st [op1, op2]) (hc' : CallableAll env st [op2, op1])
    (ha : runAll [op1, op2] env st = .ret () a) (hb : runAll [op2, op1] env st = .ret () b) : SameUrl a b := by
  obtain ⟨c, hrep, -⟩ := hr.rep
  obtain ⟨c1, c12, e1, e12, ra⟩ := returned_two hrep hc ha
  obtain ⟨c2, c21, e2, e21, rb⟩ := returned_two hrep hc' hb
  obtain rfl := effect_comm h1 h2 hfg e1 e12 e2 e21
  exact ra.sameUrl rb

/-- C25: two calls that set different parts of the authority can be exchanged, except when one clears the user or
password and the other one clears the host or port: see `C25_false`. -/
theorem C25_authority_partial {op1 op2 : Op} {p q : AuthPart} (hr : Reach env st) (h1 : op1.authPart = some p) (h2 : op2.authPart = some q)
    (hpq : p ≠ q) (hcl : op1.clears = true → op2.clears = true → p.info = q.info)
    (hc : CallableAll env st [op1, op2]) (hc' : CallableAll env st [op2, op1])
    (ha : runAll [op1, op2] env st = .ret () a) (hb : runAll [op2, op1] env st = .ret () b) : SameUrl a b := by
  obtain ⟨c, hrep, -⟩ := hr.rep
  obtain ⟨c1, c12, e1, e12, ra⟩ := returned_two hrep hc ha
  obtain ⟨c2, c21, e2, e21, rb⟩ := returned_two hrep hc' hb
  obtain rfl := effect_comm_auth h1 h2 hpq hcl e1 e12 e2 e21
  exact ra.sameUrl rb

example : CallableAll env0 sampleSt [.set_encoded_path b!"/x/y", .set_scheme b!"ftp"] ∧
    CallableAll env0 sampleSt [.set_scheme b!"ftp", .set_encoded_path b!"/x/y"] ∧
    textOf (runAll [.set_encoded_path b!"/x/y", .set_scheme b!"ftp"] env0 sampleSt) = some b!"ftp://us%20er:p:w@h%41.x:80/x/y?k=v&l#f%2F" ∧
    textOf (runAll [.set_scheme b!"ftp", .set_encoded_path b!"/x/y"] env0 sampleSt) = some b!"ftp://us%20er:p:w@h%41.x:80/x/y?k=v&l#f%2F" := by
  refine ⟨.fine ?_, .fine ?_, by decide +kernel, by decide +kernel⟩ <;>
  · intro op ho
    simp only [List.mem_cons, List.not_mem_nil, or_false] at ho
    rcases ho with rfl | rfl <;> exact fun _ _ h => h

example : textOf (runAll [.set_user b!"x", .set_host []] env0 sampleSt) = textOf (runAll [.set_host [], .set_user b!"x"] env0 sampleSt) ∧
    textOf (runAll [.set_user b!"x", .set_host []] env0 sampleSt) = some b!"http://x:p:w@:80/a//b;c?k=v&l#f%2F" := by decide +kernel

/-- C25 is false: clearing the user and clearing the host, in the two orders. -/
theorem C25_false :
    textOf (runAll [.set_user [], .set_host []] env0 (after [.set_encoded_url b!"//u@h"])) = some [] ∧
    textOf (runAll [.set_host [], .set_user []] env0 (after [.set_encoded_url b!"//u@h"])) = some b!"//" := by decide +kernel

/-! ### C26 -/

/-- C26: a call that sets a top-level component overwrites what another call did to it. -/
theorem C26_fields_partial {op1 op2 : Op} {f : Field} (hr : Reach env st) (h1 : op1.field = some f) (h2 : op2.field = some f)
    (h3 : op2.absolute = true) (hc : CallableAll env st [op1, op2])
    (ha : runAll [op1, op2] env st = .ret () a) (hb : run op2 env st = .ret () b) : SameUrl a b := by
  obtain ⟨c, hrep, -⟩ := hr.rep
  obtain ⟨c1, c12, e1, e12, ra⟩ := returned_two hrep hc ha
  have hc2 : Callable env st op2 := by
    intro i _ hd
    cases op2 <;> first | exact hd | simp [Op.absolute] at h3
  obtain ⟨c2, e2, rb⟩ := returned_one hrep hc2 hb
  obtain rfl := effect_twice h1 h2 h3 e1 e12 e2
  exact ra.sameUrl rb

/-- C26: the same for a part of the authority. When the second call clears the user or the password there must
have been an authority in the first place: see `C26_false`. -/
theorem C26_authority_partial {op1 op2 : Op} {p : AuthPart} (hr : Reach env st) (h1 : op1.authPart = some p) (h2 : op2.authPart = some p)
    (hcl : op2.clears = true → p.info = true → has_authority (st.obj env.dbg) = true)
    (hc : CallableAll env st [op1, op2]) (hc' : Callable env st op2)
    (ha : runAll [op1, op2] env st = .ret () a) (hb : run op2 env st = .ret () b) : SameUrl a b := by
  obtain ⟨c, hrep, -⟩ := hr.rep
  obtain ⟨c1, c12, e1, e12, ra⟩ := returned_two hrep hc ha
  obtain ⟨c2, e2, rb⟩ := returned_one hrep hc' hb
  rw [(hrep.reports _).has_authority] at hcl
  obtain rfl := effect_twice_auth h1 h2 hcl e1 e12 e2
  exact ra.sameUrl rb

/-- C26: `set_encoded_url` overwrites everything. -/
theorem C26_url_partial {op1 : Op} {s : Str} (hr : Reach env st) (hc : CallableAll env st [op1, .set_encoded_url s])
    (ha : runAll [op1, .set_encoded_url s] env st = .ret () a) (hb : Base.set_encoded_url s env st = .ret () b) : SameUrl a b := by
  obtain ⟨c, hrep, -⟩ := hr.rep
  obtain ⟨c1, c12, e1, e12, ra⟩ := returned_two hrep hc ha
  obtain ⟨c2, e2, rb⟩ := returned_one (op := .set_encoded_url s) hrep (fun _ _ h => h) hb
  obtain rfl := effect_url e12 e2
  exact ra.sameUrl rb

example : textOf (runAll [.set_password b!"x", .set_encoded_password []] env0 sampleSt) = some b!"http://us%20er@h%41.x:80/a//b;c?k=v&l#f%2F" ∧
    textOf (run (.set_encoded_password []) env0 sampleSt) = some b!"http://us%20er@h%41.x:80/a//b;c?k=v&l#f%2F" ∧
    textOf (runAll [.set_encoded_authority b!"x", .set_encoded_authority b!"u@y:1"] env0 sampleSt) = some b!"http://u@y:1/a//b;c?k=v&l#f%2F" ∧
    textOf (run (.set_encoded_authority b!"u@y:1") env0 sampleSt) = some b!"http://u@y:1/a//b;c?k=v&l#f%2F" := by decide +kernel

/-- C26 is false: clearing a user that was set before leaves an empty authority. -/
theorem C26_false :
    textOf (runAll [.set_user b!"u", .set_user []] env0 Base.empty) = some b!"//" ∧
    textOf (run (.set_user []) env0 Base.empty) = some [] := by decide +kernel

/-! ### C27 -/

/-- Calls that build a URL from its components. -/
def build (c : Components) : List Op :=
  (match c.scheme with | none => [] | some s => [.set_scheme s]) ++
  ((match c.auth with
    | none => []
    | some a => if a.render = [] then [.set_user b!"x", .set_user []] else [.set_encoded_authority a.render]) ++
  ([.set_encoded_path c.path] ++
  ((match c.query with | none => [] | some q => [.set_query_part (c!"?" :: q)]) ++
  (match c.fragment with | none => [] | some f => [.set_fragment_part (c!"#" :: f)]))))

theorem pathOk_follows {x y f : Bool} {p : Str} (h : PathOk lib x y f p) : PathOk lib x y false p := by
  unfold PathOk at h ⊢
  cases f
  · exact h
  · split
    · rename_i hy; rw [if_pos hy] at h; exact h
    · rename_i hy
      rw [if_neg hy] at h
      have key : LoosePathAbsolute p true → LoosePathAbsolute p false := by
        rintro (⟨-, h⟩ | h)
        · cases h
        · exact .inr h
      split <;> rename_i hx <;> simp only [hx, if_true, if_false] at h <;>
      · rcases h with h | h | h
        · exact .inl h
        · exact .inr (.inl (key h))
        · exact .inr (.inr h)

theorem auth_empty {a : Auth} (h : a.render = []) : a = ⟨none, [], none⟩ := by
  rcases a with ⟨_ | ⟨u, _ | p⟩, hh, _ | pt⟩ <;> simp [Auth.render, withPrefix, withSuffix, userinfoText] at h ⊢ <;> simp_all

theorem build_leads {c : Components} (hc : c.Valid lib) : Leads (c.render.length + 2) Components.empty (build c) c := by
  obtain ⟨sc, au, pa, qu, fr⟩ := c
  have hn : ∀ s a p q f, (s = none ∨ s = sc) → (a = none ∨ a = au) → (p = [] ∨ p = pa) → (q = none ∨ q = qu) → (f = none ∨ f = fr) →
      (⟨s, a, p, q, f⟩ : Components).render.length ≤ (⟨sc, au, pa, qu, fr⟩ : Components).render.length := by
    rintro s a p q f (rfl | rfl) (rfl | rfl) (rfl | rfl) (rfl | rfl) (rfl | rfl) <;>
      simp only [Components.render, List.length_append, List.length_nil, withPrefix, withSuffix, Option.map_none] <;> omega
  obtain ⟨h1, h2, h3, h4, h5⟩ := hc
  refine Leads.append (c1 := ⟨sc, none, [], none, none⟩) ?_ (Leads.append (c1 := ⟨sc, au, [], none, none⟩) ?_
    (Leads.append (c1 := ⟨sc, au, pa, none, none⟩) ?_ (Leads.append (c1 := ⟨sc, au, pa, qu, none⟩) ?_ ?_)))
  · cases sc with
    | none => exact .nil
    | some s =>
      refine .cons (f := .scheme) rfl (fun h => h) ⟨.inr (h1 s rfl), ?_⟩ ?_ .nil
      · have : s ≠ [] := by
          obtain ⟨x, y, rfl, -⟩ := h1 s rfl
          simp
        simp [Components.withScheme, Components.empty, present, this]
      · have := hn (some s) none [] none none (.inr rfl) (.inl rfl) (.inl rfl) (.inl rfl) (.inl rfl)
        omega
  · cases au with
    | none => exact .nil
    | some a =>
      simp only
      have hl := hn sc (some a) [] none none (.inr rfl) (.inr rfl) (.inl rfl) (.inl rfl) (.inl rfl)
      split
      · rename_i he
        obtain rfl := auth_empty he
        refine .cons (c1 := ⟨sc, some ⟨some (b!"x", none), [], none⟩, [], none, none⟩) (f := .auth) rfl (by simp [Op.Defective]) ?_ ?_
          (.cons (f := .auth) rfl (by simp [Op.Defective, Components.userinfo]) ?_ ?_ .nil)
        · rfl
        · simp [Components.render, Auth.render, withPrefix, withSuffix, userinfoText] at hl ⊢
        · rfl
        · omega
      · rename_i he
        exact .cons (f := .auth) rfl (fun h => h) (.inr ⟨he, a, ⟨h2 a rfl, rfl⟩, rfl⟩) (Nat.le_trans hl (Nat.le_add_right _ _)) .nil
  · have hl := hn sc au pa none none (.inr rfl) (.inr rfl) (.inr rfl) (.inl rfl) (.inl rfl)
    exact .cons (f := .path) rfl (fun h => h) ⟨pathOk_follows h3, rfl⟩ (Nat.le_trans hl (Nat.le_add_right _ _)) .nil
  · cases qu with
    | none => exact .nil
    | some q =>
      have hl := hn sc au pa (some q) none (.inr rfl) (.inr rfl) (.inr rfl) (.inr rfl) (.inl rfl)
      exact .cons (f := .query) rfl (fun h => h) (.inr ⟨q, rfl, h4 q rfl, rfl⟩) (Nat.le_trans hl (Nat.le_add_right _ _)) .nil
  · cases fr with
    | none => exact .nil
    | some f => exact .cons (f := .fragment) rfl (fun h => h) (.inr ⟨f, rfl, h5 f rfl, rfl⟩) (Nat.le_add_right _ _) .nil

theorem _root_.Url.Leads.fields {n : Nat} {c c' : Components} {ops : List Op} (h : Leads n c ops c') : ∀ op, op ∈ ops → op.field ≠ none := by
  induction h with
  | nil => simp
  | cons hf _ _ _ _ ih =>
    intro o ho
    rcases List.mem_cons.1 ho with rfl | ho
    · rw [hf]; simp
    · exact ih o ho

/-- C27: whatever the parser accepts can be built from an empty object by calls that each set one component, given
memory; the result has the text and the component boundaries the parser finds. -/
theorem C27_build {s : Str} {v : View} (h : View.make s = .ret v) :
    ∃ ops : List Op, (∀ op, op ∈ ops → op.field ≠ none) ∧ ∀ env : Env, Plenty env (s.length + 2) →
      ∃ st, runAll ops env Base.empty = .ret () st ∧ (∀ dbg, encoded_url (st.obj dbg) = .ok s) ∧ ∀ i, i ≤ 8 → st.pt.off i = v.pt.off i := by
  obtain ⟨c, hc, rfl, r⟩ := make_inv h
  have hb := build_leads hc
  refine ⟨build c, ?_, fun env hp => ?_⟩
  · exact hb.fields
  · obtain ⟨st, hs, hrep⟩ := hb.run hp Rep.empty
    refine ⟨st, hs, fun dbg => (hrep.reports dbg).url, fun i _ => ?_⟩
    have e1 : st.pt.off i = plen (compParts c) i := (hrep.obj true).rep i
    have e2 : v.pt.off i = plen (compParts c) i := (r.obj true).rep i
    omega

example : Plenty env0 1000 := ⟨by decide, fun _ _ _ => rfl⟩

example : textOf (runAll [.set_scheme b!"x", .set_user b!"x", .set_user [], .set_encoded_path b!"//p", .set_query_part b!"?", .set_fragment_part b!"#"]
    env0 Base.empty) = some b!"x:////p?#" := by decide +kernel

end Url.Props
