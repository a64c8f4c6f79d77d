import Verif.Proofs.AuthSetters

/-!
The setters of the whole URL and of the origin.
-/

set_option linter.unusedSimpArgs false
attribute [-simp] List.length_flatten

namespace Url
open Spec

variable {env : Env} {st : St} {c : Components}

/-- A buffer of the right size. -/
def BufOk (st : St) : Prop :=
  (st.buf = none ∧ st.cap = 0 ∧ st.size = 0) ∨ (∃ b, st.buf = some b ∧ b.length = st.cap + 1 ∧ st.size ≤ st.cap)

theorem Holds.bufOk {L t} (h : Holds env st L t) : BufOk st := by
  rcases h.buf with ⟨h1, -, h3, h4⟩ | ⟨junk, hb, hl, -, h2⟩
  · exact .inl ⟨h1, h3, h4⟩
  · exact .inr ⟨_, hb, hl, h2⟩

/-- `resize` of the storage to a length that may be smaller than the present text -/
theorem storage_resize_any {m : Nat} (h : BufOk st) (hm : 0 < m) (hs : Stores env st m) :
    ∃ b st', Storage.resize m env st = .ret () st' ∧ st' = ⟨some b, m, st'.cap, st'.tick, st.pt, st'.addr, st'.log⟩ ∧
      b.length = st'.cap + 1 ∧ m ≤ st'.cap ∧ b[m]? = some (some 0) ∧ Grow env m st st' ∧
      (st'.cap = st.cap ∨ st'.cap + 1 ≤ env.maxSize) := by
  have fin : ∀ st1 : St, ∀ b, st1.buf = some b → b.length = st1.cap + 1 → m ≤ st1.cap → st1.pt = st.pt →
      Storage.reserve m env st = .ret () st1 → Grow env m st st1 → (st1.cap = st.cap ∨ st1.cap + 1 ≤ env.maxSize) →
      ∃ b st', Storage.resize m env st = .ret () st' ∧ st' = ⟨some b, m, st'.cap, st'.tick, st.pt, st'.addr, st'.log⟩ ∧
      b.length = st'.cap + 1 ∧ m ≤ st'.cap ∧ b[m]? = some (some 0) ∧ Grow env m st st' ∧
      (st'.cap = st.cap ∨ st'.cap + 1 ≤ env.maxSize) := by
    intro st1 b hb hl hle hpt hr hg hcap
    refine ⟨b.set m (some 0), { st1 with size := m, buf := some (b.set m (some 0)) }, ?_, ?_, ?_, hle, ?_, hg, hcap⟩
    · unfold Storage.resize
      simp only [hr, hb]
      rw [if_pos (by omega)]
    · rw [hpt]
    · simpa using hl
    · simp [List.getElem?_set]; omega
  by_cases hle : m ≤ st.cap
  · rcases h with ⟨h1, h3, h4⟩ | ⟨b, hb, hl, h2⟩
    · omega
    · refine fin st b hb hl hle rfl ?_ (.inl ⟨hle, rfl, rfl⟩) (.inl rfl)
      unfold Storage.reserve; rw [if_pos hle]
  · have hg : Storage.newCap env.maxSize st.cap m + 1 ≤ env.maxSize ∧
        env.alloc st.tick (Storage.newCap env.maxSize st.cap m + 1) = true := hs.resolve_left hle
    have hge := (newCap_ge hg.1)
    generalize hN : Storage.newCap env.maxSize st.cap m = N at *
    have ha : Storage.allocate (N + 1) env st = .ret st.tick { st with tick := st.tick + 1, log := st.log ++ [.alloc st.tick (N + 1)] } := by
      unfold Storage.allocate; rw [if_pos hg]
    rcases h with ⟨h1, h3, h4⟩ | ⟨b, hb, hl, h2⟩
    · refine fin { st with buf := some (List.replicate (N + 1) none), cap := N, tick := st.tick + 1, addr := st.tick, log := st.log ++ [.alloc st.tick (N + 1)] } _ rfl (by simp) hge.1 rfl ?_
        (.inr ⟨by omega, hN.symm, rfl⟩) (.inr hg.1)
      unfold Storage.reserve
      rw [if_neg hle]
      simp only [hN, ha, h1]
    · refine fin { st with buf := some ((b.take (st.size + 1) ++ List.replicate (N + 1 - (st.size + 1)) none).set st.size (some 0)), cap := N, tick := st.tick + 1, addr := st.tick, log := st.log ++ [.alloc st.tick (N + 1)] ++ [.free st.addr (st.cap + 1)] }
        _ rfl (by simp; omega) hge.1 rfl ?_ (.inr ⟨by omega, hN.symm, rfl⟩) (.inr hg.1)
      unfold Storage.reserve
      rw [if_neg hle]
      simp only [hN, ha, hb]
      rw [if_pos (by omega)]

/-- the state after a URL was parsed into the container -/
structure UrlOk (env : Env) (st : St) (c : Components) (st' : St) : Prop where
  rep : Rep env st' c
  grow : Grow env c.render.length st st'
  nseg : st'.pt.nseg = (pathSegments c.path).length
  nparam : st'.pt.nparam = paramCount c.query
  host : HostKind c.host st'.pt.host
  nul : Nul st'
  size : st'.size = c.render.length

/-- The call stores the URL `c` if there is room for it, and otherwise throws and changes nothing. -/
def UrlTo (env : Env) (st : St) (c' : Components) (out : Out Unit) : Prop :=
  (Stores env st c'.render.length ∧ ∃ st', out = .ret () st' ∧ UrlOk env st c' st') ∨
  (¬ Stores env st c'.render.length ∧ ∃ st', out = .throw .bad_alloc st' ∧ Same st st')

theorem base_set_url_holds {L t} (h : Holds env st L t) (hc : c.Valid lib) (hne : c.render ≠ []) :
    UrlTo env st c (Base.set_encoded_url c.render env st) := by
  unfold Base.set_encoded_url
  have he : c.render.isEmpty = false := by simpa using hne
  simp only [he, Bool.false_eq_true, if_false]
  obtain ⟨k, a, hk⟩ := parse_url_complete hc
  have hp : Base.parsed (parse_url c.render) env st = .ret (parse_url c.render).pt st := by
    simp [Base.parsed, a.flt, a.ec]
  rw [run_bind_ret hp]
  by_cases hs : Stores env st c.render.length
  · obtain ⟨b, st', e, hst, hl, hle, hb, hg, hcap⟩ := storage_resize_any h.bufOk (List.length_pos_iff.2 hne) hs
    refine .inl ⟨hs, ?_⟩
    rw [run_bind_ret e, run_bind_ret (run_setPt _)]
    have hbuf : st'.buf = some b := by rw [hst]
    obtain ⟨junk, hj⟩ : ∃ junk, b.drop c.render.length = some 0 :: junk := by
      obtain ⟨hlt, hb⟩ := List.getElem?_eq_some_iff.1 hb
      rw [List.drop_eq_getElem_cons hlt, hb]
      exact ⟨_, rfl⟩
    refine ⟨{ st' with buf := some (c.render.map some ++ some 0 :: junk), pt := (parse_url c.render).pt }, ?_, ?_⟩
    · unfold M.put
      simp only [he, Bool.false_eq_true, if_false, hbuf, Nat.zero_add, List.take_zero, List.nil_append, hj]
      rw [if_pos (by omega)]
    · have hrep : Holds env { st' with buf := some (c.render.map some ++ some 0 :: junk), pt := (parse_url c.render).pt }
          (cells c) (some 0) := by
        refine ⟨ptRep_cells.2 a.rep, ?_, .inr ⟨junk, ?_, ?_, ?_, ?_⟩, ?_, .inr rfl⟩
        · simp [cells, compParts_length]
        · rw [cells_flatten]
        · rw [cells_flatten]
          have : (b.drop c.render.length).length = b.length - c.render.length := List.length_drop
          rw [hj] at this
          simp at this ⊢
          omega
        · rw [cells_length]
          show _ ≤ st'.size
          rw [hst]; exact Nat.le_refl _
        · show st'.size ≤ st'.cap
          rw [hst]; exact hle
        · rcases hcap with h1 | h1
          · exact (h.cap.imp (fun x => h1.trans x) (fun x => by show st'.cap + 1 ≤ _; omega))
          · exact .inr h1
      refine ⟨⟨_, hrep⟩, hg, a.nseg, a.nparam, ?_, hrep.nul_iff.2 ⟨rfl, rfl⟩, by show st'.size = _; rw [hst]⟩
      rw [← host_eq]
      show HostKind _ (parse_url c.render).pt.host
      rw [a.host]; exact hk
  · refine .inr ⟨hs, { st with tick := st.tick + 1 }, ?_, ?_⟩
    · rw [run_bind_throw (storage_resize_throw hs)]
    · rfl

theorem base_set_url_of {c₀ : Components} (h : Rep env st c₀) (hc : c.Valid lib) (hne : c.render ≠ []) :
    UrlTo env st c (Base.set_encoded_url c.render env st) := by
  obtain ⟨t, h⟩ := h
  exact base_set_url_holds h hc hne

theorem base_set_url_bad (s : Str) (hs : s ≠ []) (hbad : ¬ UriReference lib s) :
    Base.set_encoded_url s env st = .throw .invalid_part st := by
  unfold Base.set_encoded_url
  have he : s.isEmpty = false := by simpa using hs
  simp only [he, Bool.false_eq_true, if_false]
  have : (parse_url s).ec.isSome = true := by
    rw [← parse_url_iff] at hbad
    cases h : (parse_url s).ec <;> simp_all
  have hp : Base.parsed (parse_url s) env st = .throw .invalid_part st := by
    simp [Base.parsed, (good_url s).flt, this]
  rw [run_bind_throw hp]

theorem render_nil {c : Components} (h : c.render = []) : c = Components.empty := by
  obtain ⟨sc, a, p, q, f⟩ := c
  cases sc <;> cases a <;> cases q <;> cases f <;> simp [Components.render, Components.empty] at h ⊢
  exact h

theorem base_clear_url (h : Rep env st c) :
    SetsTo env st Components.empty st.pt.host (Base.set_encoded_url [] env st) := by
  unfold Base.set_encoded_url
  simp only [List.isEmpty_nil, if_true]
  rw [run_bind_ret run_isNull]
  have h' := h
  obtain ⟨t, hh⟩ := h'
  by_cases hb : st.buf = none
  · have : c = Components.empty := by
      refine render_nil ?_
      rcases hh.buf with ⟨-, h2, -⟩ | ⟨junk, hb', -⟩
      · rw [cells_flatten] at h2; simpa using h2
      · rw [hb] at hb'; simp at hb'
    subst this
    simp only [hb, Option.isNone_none]
    exact SetsTo.refl h
  · have : st.buf.isNone = false := by cases h : st.buf <;> simp_all
    simp only [this]
    have hc : cells Components.empty = [] ++ ([] :: List.replicate 7 [] ++ []) := rfl
    refine resize2_step (A := []) (Xs := cells c) (B := []) (k := 7) (m := Components.empty.render.length)
      (by simpa using hh) (by simp [cells, compParts_length]) rfl rfl rfl ?_ SetsTo.thrown
    intro hs X' st' t' hl _ hp
    obtain rfl := List.length_eq_zero_iff.1 hl
    exact hp.done hc.symm hs

/-! ### origin -/

theorem origin_parts {s : Str} {a : Auth} (hs : Scheme lib s) (ha : a.Valid lib) :
    ∃ k, At (parse_origin (s ++ b!":" ++ (b!"//" ++ a.render))) ([s ++ b!":"] ++ authParts b!"//" a ++ [[]]) [] [] 0 0 k := by
  generalize hw : s ++ b!":" ++ (b!"//" ++ a.render) = w
  have hm : match_scheme (PS.init w).p = (true, c!":" :: (b!"//" ++ a.render)) := by
    have := match_scheme_of hs (colon_notScheme (b!"//" ++ a.render))
    rw [← hw]
    simpa [PS.init] using this
  have a0 : At ({ PS.init w with p := b!"//" ++ a.render } : PS) [] (s ++ b!":") (b!"//" ++ a.render) 0 0 .none := by
    have := At.init w
    rw [← hw] at this ⊢
    simpa using (this.advance (x := s ++ b!":"))
  have a1 := a0.mark (id := id_scheme) rfl
  obtain ⟨k, a2, -⟩ := part_of_auth (e := pchar_pct_set) (p := []) (r := []) ha ⟨[], by simp, rfl⟩ (.inl rfl) rfl
    (by simpa using a1)
  refine ⟨k, ?_⟩
  have : parse_origin w = parse_part pchar_pct_set (({ PS.init w with p := b!"//" ++ a.render } : PS).mark id_scheme) := by
    unfold parse_origin
    simp only [hm, literal_one_of, hier_eq]
    have hp := a2.p
    have : match_literal b!"//" (parse_part pchar_pct_set (({ PS.init w with p := b!"//" ++ a.render } : PS).mark id_scheme)).p = none := by
      rw [show (parse_part pchar_pct_set (({ PS.init w with p := b!"//" ++ a.render } : PS).mark id_scheme)).p = [] from hp]; rfl
    simp only [this]
  rw [this]
  simpa [pathSegments] using a2

/-- setting a valid origin; the host type is left as it was -/
theorem base_set_origin_of {s : Str} {a : Auth} (h : Rep env st c) (hsc : Scheme lib s) (ha : a.Valid lib) :
    SetsTo env st { c with scheme := some s, auth := some a } st.pt.host
      (Base.set_encoded_origin (s ++ b!":" ++ (b!"//" ++ a.render)) env st) := by
  unfold Base.set_encoded_origin
  obtain ⟨k, b⟩ := origin_parts hsc ha
  generalize hw : s ++ b!":" ++ (b!"//" ++ a.render) = w at *
  have he : w.isEmpty = false := by rw [← hw]; simp
  simp only [he, Bool.false_eq_true, if_false]
  have hp : Base.parsed (parse_origin w) env st = .ret (parse_origin w).pt st := by
    simp [Base.parsed, b.flt, b.ec]
  rw [run_bind_ret hp]
  have hlen : ∀ id, (parse_origin w).pt.length id = (([s ++ b!":"] ++ authParts b!"//" a ++ [[]]).getD id []).length := b.rep.length
  simp only [hlen]
  have hr := authParts_render a
  obtain ⟨u, hst, pt⟩ := a
  obtain ⟨x, w', -, e2, e3⟩ := userParts_two [] u
  simp only [authParts, e2, e3] at hr ⊢
  simp only [id_scheme, id_user, id_password, id_host, id_port, List.cons_append, List.nil_append, List.getD_cons_succ, List.getD_cons_zero]
  obtain ⟨t, h⟩ := h
  obtain ⟨X, W, e, -, -⟩ := cells_auth c
  rw [e] at h
  have hc : cells { c with scheme := some s, auth := some ⟨u, hst, pt⟩ } = (s ++ b!":").map some :: (slashes ++ x.map some) :: w'.map some ::
      hst.map some :: (portText pt).map some :: [c.path.map some, (queryText c.query).map some, (fragText c.fragment).map some] := by
    simp [cells_eq, authTexts, authParts, e3, schemeText]
  have hs : w = (s ++ b!":") ++ ((b!"//" ++ x) ++ (w' ++ (hst ++ portText pt))) := by rw [← hw, ← hr]; simp
  refine resize2_step (A := []) (Xs := [_, X, W, _, _]) (k := 4) h rfl rfl rfl
    (m := (Components.render { c with scheme := some s, auth := some ⟨u, hst, pt⟩ }).length) ?_ ?_ SetsTo.thrown
  · rw [← cells_length, hc, hs]; simp; omega
  intro hsto X' st' t' hl _ hp
  refine put_mid (A := []) [] X' [] hp (by simp) (by simp) hl rfl fun st1 h1 => ?_
  rw [hs] at h1
  refine split_step (A := []) (x := (s ++ b!":").map some) (y := ((b!"//" ++ x) ++ (w' ++ (hst ++ portText pt))).map some) (z := [])
    (by simpa using h1) rfl (by decide) (by simp) fun st2 h2 => ?_
  refine split_step (A := [_]) (x := (b!"//" ++ x).map some) (y := (w' ++ (hst ++ portText pt)).map some) (z := [])
    (by simpa using h2) rfl (by decide) (by simp) fun st3 h3 => ?_
  refine split_step (A := [_, _]) (x := w'.map some) (y := (hst ++ portText pt).map some) (z := [])
    (by simpa using h3) rfl (by decide) (by simp) fun st4 h4 => ?_
  refine split_step (A := [_, _, _]) (x := hst.map some) (y := (portText pt).map some) (z := [])
    (by simpa using h4) rfl (by decide) (by simp) fun st5 h5 => ?_
  refine last_step (split_step (A := [_, _, _, _]) (x := (portText pt).map some) (y := []) (z := c.path.map some)
    (by simpa using h5) rfl (by decide) (by simp) fun st6 h6 => ?_)
  exact h6.done (by rw [hc]; simp) hsto

theorem base_clear_origin (h : Rep env st c) :
    SetsTo env st { c with scheme := none, auth := none } st.pt.host (Base.set_encoded_origin [] env st) := by
  unfold Base.set_encoded_origin
  simp only [List.isEmpty_nil, if_true]
  obtain ⟨t, h⟩ := h
  obtain ⟨X, W, e, -, -⟩ := cells_auth c
  rw [e] at h
  have hc : cells { c with scheme := none, auth := none } = [] :: [] :: [] :: [] :: [] ::
      [c.path.map some, (queryText c.query).map some, (fragText c.fragment).map some] := by
    simp [cells_eq, authTexts, schemeText]
  refine resize2_step (A := []) (Xs := [_, X, W, _, _]) (k := 4) h rfl rfl rfl
    (m := (Components.render { c with scheme := none, auth := none }).length) ?_ ?_ SetsTo.thrown
  · rw [← cells_length, hc]; simp
  intro hs X' st' t' hl _ hp
  obtain rfl := List.length_eq_zero_iff.1 hl
  exact hp.done hc.symm hs

end Url
