import Verif.Props.Texts
import Verif.Props.Chars
import Verif.Props.Exposed

/-!
C63 after any calls and edits: in which parts of a url only the characters of its grammar can be.
-/

set_option autoImplicit false

namespace Url.Props
open Url Spec

variable {env : Env} {st st' : St}

/-- The scheme, host, port, query and fragment of eight parts are well formed, each with its delimiter. -/
structure Lettered (L : List (List Cell)) : Prop where
  scheme : ∃ s : Str, L.getD 0 [] = s.map some ∧ (s = [] ∨ ∃ x, Scheme lib x ∧ s = x ++ b!":")
  host : ∃ s : Str, L.getD 3 [] = s.map some ∧ Host lib s
  port : ∃ s : Str, L.getD 4 [] = s.map some ∧ (s = [] ∨ ∃ x, x.all isDigit = true ∧ s = c!":" :: x)
  query : ∃ s : Str, L.getD 6 [] = s.map some ∧ (s = [] ∨ ∃ x, Escaped isUpperHex isQueryFrag x ∧ s = c!"?" :: x)
  fragment : ∃ s : Str, L.getD 7 [] = s.map some ∧ (s = [] ∨ ∃ x, Escaped isUpperHex isQueryFrag x ∧ s = c!"#" :: x)

section
variable {S U W H P pa q f U' W' H' P' pa' q' f' S' : List Cell}

theorem host_nil : Host lib [] := .inr .nil

/-- parts that agree where it matters -/
theorem Lettered.of (h : Lettered [S, U, W, H, P, pa, q, f]) (h1 : S' = S) (h2 : H' = H ∨ H' = []) (h3 : P' = P ∨ P' = []) (h4 : q' = q) (h5 : f' = f) :
    Lettered [S', U', W', H', P', pa', q', f'] := by
  subst h1 h4 h5
  refine ⟨h.scheme, ?_, ?_, h.query, h.fragment⟩
  · rcases h2 with rfl | rfl
    · exact h.host
    · exact ⟨[], rfl, host_nil⟩
  · rcases h3 with rfl | rfl
    · exact h.port
    · exact ⟨[], rfl, .inl rfl⟩

theorem Lettered.withHost (h : Lettered [S, U, W, H, P, pa, q, f]) {s : Str} (hs : Host lib s) : Lettered [S, U', W', s.map some, P, pa', q, f] :=
  ⟨h.scheme, ⟨s, rfl, hs⟩, h.port, h.query, h.fragment⟩

theorem Lettered.withPort (h : Lettered [S, U, W, H, P, pa, q, f]) {s : Str} (hs : s.all isDigit = true) :
    Lettered [S, U', W', H, (b!":" ++ s).map some, pa', q, f] :=
  ⟨h.scheme, h.host, ⟨_, rfl, .inr ⟨s, hs, rfl⟩⟩, h.query, h.fragment⟩

theorem Lettered.withQuery (h : Lettered [S, U, W, H, P, pa, q, f]) {s : Str} (hs : s = [] ∨ ∃ x, Escaped isUpperHex isQueryFrag x ∧ s = c!"?" :: x) :
    Lettered [S, U, W, H, P, pa, s.map some, f] :=
  ⟨h.scheme, h.host, h.port, ⟨s, rfl, hs⟩, h.fragment⟩

theorem Lettered.withFragment (h : Lettered [S, U, W, H, P, pa, q, f]) {s : Str} (hs : s = [] ∨ ∃ x, Escaped isUpperHex isQueryFrag x ∧ s = c!"#" :: x) :
    Lettered [S, U, W, H, P, pa, q, s.map some] :=
  ⟨h.scheme, h.host, h.port, h.query, ⟨s, rfl, hs⟩⟩

theorem Lettered.withScheme (h : Lettered [S, U, W, H, P, pa, q, f]) {s : Str} (hs : s = [] ∨ ∃ x, Scheme lib x ∧ s = x ++ b!":") :
    Lettered [s.map some, U, W, H, P, pa, q, f] :=
  ⟨⟨s, rfl, hs⟩, h.host, h.port, h.query, h.fragment⟩

theorem auth_lettered {a : Auth} (ha : a.Valid lib) : ∃ u w h p : Str, (authTexts (some a)).map (·.map some) = [u.map some, w.map some, h.map some, p.map (some : Byte → Cell)] ∧
    Host lib h ∧ (p = [] ∨ ∃ x, x.all isDigit = true ∧ p = c!":" :: x) := by
  obtain ⟨u, h, p⟩ := a
  obtain ⟨-, h2, h3⟩ := ha
  have hp : portText p = [] ∨ ∃ x, x.all isDigit = true ∧ portText p = c!":" :: x := by
    cases p with
    | none => exact .inl rfl
    | some p => exact .inr ⟨p, h3 p rfl, rfl⟩
  rcases u with _ | ⟨u, _ | w⟩ <;> exact ⟨_, _, _, _, rfl, h2, hp⟩

theorem Lettered.withAuth (h : Lettered [S, U, W, H, P, pa, q, f]) {a : Option Auth} (ha : ∀ a', a = some a' → a'.Valid lib) {s : Str}
    (hs : s = [] ∨ ∃ x, Scheme lib x ∧ s = x ++ b!":") :
    Lettered (s.map some :: ((authTexts a).map (·.map some) ++ [pa', q, f])) := by
  cases a with
  | none => exact ⟨⟨s, rfl, hs⟩, ⟨[], rfl, host_nil⟩, ⟨[], rfl, .inl rfl⟩, h.query, h.fragment⟩
  | some a =>
    obtain ⟨u, w, x, p, e, h1, h2⟩ := auth_lettered (ha a rfl)
    rw [e]
    exact ⟨⟨s, rfl, hs⟩, ⟨x, rfl, h1⟩, ⟨p, rfl, h2⟩, h.query, h.fragment⟩

theorem comp_lettered {c : Components} (hc : c.Valid lib) : Lettered (cells c) := by
  have hp := PartsOk.of_valid hc
  obtain ⟨sc, a, pa, q, f⟩ := c
  have h0 : Lettered [[], [], [], [], [], [], (queryText q).map some, (fragText f).map some] := by
    refine ⟨⟨[], rfl, .inl rfl⟩, ⟨[], rfl, host_nil⟩, ⟨[], rfl, .inl rfl⟩, ⟨_, rfl, ?_⟩, ⟨_, rfl, ?_⟩⟩
    · cases q with
      | none => exact .inl rfl
      | some x => exact .inr ⟨x, hp.query x rfl, rfl⟩
    · cases f with
      | none => exact .inl rfl
      | some x => exact .inr ⟨x, hp.fragment x rfl, rfl⟩
  have := h0.withAuth (a := a) (pa' := pa.map some) (s := schemeText sc) hp.auth (by
    cases sc with
    | none => exact .inl rfl
    | some x => exact .inr ⟨x, hp.scheme x rfl, rfl⟩)
  simpa [cells, compParts] using this

/-- Each call leaves these parts well formed. -/
theorem lettered_run {t : Cell} (h : Part8 env st S U W H P pa q f t) (hd : env.dbg = false) (hl : Lettered [S, U, W, H, P, pa, q, f]) {op : Op}
    (hrun : run op env st = .ret () st') : ∃ L t', Holds env st' L t' ∧ Lettered L := by
  have go : ∀ {N : St → Prop} {V : Prop} {Q : List (List Cell) → Prop}, NOutOf env N V Q (run op env st) → (∀ L, V → Q L → Lettered L) →
      ∃ L t', Holds env st' L t' ∧ Lettered L := by
    intro N V Q hn hq
    rw [hrun] at hn
    obtain ⟨hv, -, L, t', h1, h2⟩ := hn
    exact ⟨L, t', h1, hq L hv h2⟩
  have userTo : ∀ {x L}, UserTo S U W H P pa q f x L → Lettered L := by
    rintro x L (⟨-, d, -, rfl⟩ | ⟨-, rfl⟩) <;> exact hl.of rfl (.inl rfl) (.inl rfl) rfl rfl
  have userOff : ∀ {L}, UserOff S U W H P pa q f L → Lettered L := by
    rintro L (⟨-, rfl⟩ | ⟨-, d, -, rfl⟩) <;> exact hl.of rfl (.inl rfl) (.inl rfl) rfl rfl
  have passTo : ∀ {x L}, PasswordTo S U W H P pa q f x L → Lettered L := by
    rintro x L rfl; exact hl.of rfl (.inl rfl) (.inl rfl) rfl rfl
  have passOff : ∀ {L}, PasswordOff S U W H P pa q f L → Lettered L := by
    rintro L rfl; exact hl.of rfl (.inl rfl) (.inl rfl) rfl rfl
  have infoOff : ∀ {L}, UserinfoOff S U W H P pa q f L → Lettered L := by
    rintro L (⟨-, rfl⟩ | ⟨-, d, -, rfl⟩) <;> exact hl.of rfl (.inl rfl) (.inl rfl) rfl rfl
  have hostOff : ∀ {L}, HostOff S U W H P pa q f L → Lettered L := by
    rintro L rfl
    split
    · exact hl.of rfl (.inr rfl) (.inr rfl) rfl rfl
    · exact hl.of rfl (.inr rfl) (.inl rfl) rfl rfl
  have hostTo : ∀ {x L}, Host lib x → HostTo S U W H P pa q f x L → Lettered L := by
    rintro x L hx rfl; exact hl.withHost hx
  have portOff : ∀ {L}, PortOff S U W H P pa q f L → Lettered L := by
    rintro L rfl
    split
    · exact hl.of rfl (.inr rfl) (.inr rfl) rfl rfl
    · exact hl.of rfl (.inl rfl) (.inr rfl) rfl rfl
  have portTo : ∀ {x L}, x.all isDigit = true → PortTo S U W H P pa q f x L → Lettered L := by
    rintro x L hx rfl; exact hl.withPort hx
  obtain ⟨s0, hs0⟩ := init_iff.1 h.S
  have norm : ∀ L, L = [(s0.dropLast.map lower ++ s0.drop (s0.length - 1)).map some, U, W, H, P, pa, q, f] → Lettered L := by
    rintro L rfl
    refine hl.withScheme ?_
    obtain ⟨s, e, hs⟩ := hl.scheme
    have e : s0.map (some : Byte → Cell) = s.map some := hs0.symm.trans e
    obtain rfl := map_some_inj e
    rcases hs with rfl | ⟨x, hx, rfl⟩
    · exact .inl rfl
    · refine .inr ⟨x.map lower, scheme_lower hx, ?_⟩
      simp
  cases op with
  | set_encoded_url s =>
    refine go (n_url h s) fun L _ hq => ?_
    split at hq
    · rw [hq]
      exact ⟨⟨[], rfl, .inl rfl⟩, ⟨[], rfl, host_nil⟩, ⟨[], rfl, .inl rfl⟩, ⟨[], rfl, .inl rfl⟩, ⟨[], rfl, .inl rfl⟩⟩
    · obtain ⟨c, hc, -, rfl⟩ := hq
      exact comp_lettered hc
  | set_encoded_origin s =>
    refine go (n_origin h s) fun L _ hq => ?_
    split at hq
    · rw [hq]
      exact ⟨⟨[], rfl, .inl rfl⟩, ⟨[], rfl, host_nil⟩, ⟨[], rfl, .inl rfl⟩, hl.query, hl.fragment⟩
    · obtain ⟨sch, a, p, r, k, h1, h2, -, -, -, rfl⟩ := hq
      exact hl.withAuth h2 (.inr ⟨sch, h1, rfl⟩)
  | set_scheme s =>
    refine go (n_scheme h s) fun L hv hq => ?_
    subst hq
    refine hl.withScheme ?_
    by_cases hs : s = []
    · rw [if_pos hs]; exact .inl rfl
    · rw [if_neg hs]; exact .inr ⟨s, hv.resolve_left hs, rfl⟩
  | set_encoded_authority s =>
    refine go (n_authority h s) fun L _ hq => ?_
    split at hq
    · subst hq
      exact hl.of rfl (.inr rfl) (.inr rfl) rfl rfl
    · obtain ⟨a, ha, rfl⟩ := hq
      obtain ⟨s, e, hs⟩ := hl.scheme
      have e : S = s.map some := e
      subst e
      exact hl.withAuth (a := some a) (fun a' e => by cases e; exact ha.1) hs
  | set_encoded_userinfo s =>
    refine go (n_set_encoded_userinfo h s) fun L _ hq => ?_
    split at hq
    · exact infoOff hq
    · obtain ⟨u, -, rfl⟩ := hq
      exact hl.of rfl (.inl rfl) (.inl rfl) rfl rfl
  | set_userinfo_part s =>
    refine go (n_set_userinfo_part h s) fun L _ hq => ?_
    split at hq
    · exact infoOff hq
    · obtain ⟨u, -, rfl⟩ := hq
      exact hl.of rfl (.inl rfl) (.inl rfl) rfl rfl
  | set_user s =>
    refine go (n_set_user h hd s) fun L _ hq => ?_
    split at hq
    · exact userOff hq
    · exact userTo hq
  | set_encoded_user s =>
    refine go (n_set_encoded_user h hd s) fun L _ hq => ?_
    split at hq
    · exact userOff hq
    · exact userTo hq
  | set_password s =>
    refine go (n_set_password h hd s) fun L _ hq => ?_
    split at hq
    · exact passOff hq
    · exact passTo hq
  | set_encoded_password s =>
    refine go (n_set_encoded_password h hd s) fun L _ hq => ?_
    split at hq
    · exact passOff hq
    · exact passTo hq
  | set_password_part s =>
    refine go (n_set_password_part h hd s) fun L _ hq => ?_
    split at hq
    · exact passOff hq
    · split at hq
      · subst hq
        exact hl.of rfl (.inl rfl) (.inl rfl) rfl rfl
      · exact passTo hq
  | set_host s =>
    refine go (n_set_host h hd s) fun L _ hq => ?_
    split at hq
    · exact hostOff hq
    · obtain ⟨txt, k, h1, h2⟩ := hq
      exact hostTo (plainHost_valid h1) h2
  | set_encoded_host s =>
    refine go (n_set_encoded_host h hd s) fun L hv hq => ?_
    split at hq
    · exact hostOff hq
    · exact hostTo hv hq
  | set_port s =>
    refine go (n_set_port h hd s) fun L hv hq => ?_
    split at hq
    · exact portOff hq
    · exact portTo hv hq
  | set_port_number n =>
    refine go (n_port_number h hd n) fun L _ hq => ?_
    obtain ⟨s, h1, h2⟩ := hq
    exact portTo h1.2.1 h2
  | set_port_part s =>
    refine go (n_set_port_part h hd s) fun L hv hq => ?_
    split at hq
    · exact portOff hq
    · split at hq
      · subst hq
        exact hl.withPort (s := []) rfl
      · rcases hv with rfl | ⟨p, rfl, hp⟩
        · contradiction
        · exact portTo hp hq
  | set_encoded_path s =>
    refine go (n_set_encoded_path h s) fun L _ hq => ?_
    subst hq
    exact hl.of rfl (.inl rfl) (.inl rfl) rfl rfl
  | set_query s =>
    refine go (n_plain (A := [S, U, W, H, P, pa]) (B := [f]) h.holds rfl (encoded_size_eq setOf_query s)) fun L _ hq => ?_
    subst hq
    refine hl.withQuery ?_
    split
    · exact .inl rfl
    · exact .inr ⟨_, by rw [encode_eq setOf_query]; exact pctEncode_escaped setOf_query s, rfl⟩
  | set_encoded_query s =>
    refine go (n_encoded (A := [S, U, W, H, P, pa]) (B := [f]) h.holds rfl setOf_query) fun L hv hq => ?_
    subst hq
    refine hl.withQuery ?_
    split
    · exact .inl rfl
    · exact .inr ⟨_, hv, rfl⟩
  | set_query_part s =>
    refine go (n_part (A := [S, U, W, H, P, pa]) (B := [f]) h.holds rfl setOf_query) fun L hv hq => ?_
    subst hq
    exact hl.withQuery (hv.imp id fun ⟨x, e, hx⟩ => ⟨x, hx, e⟩)
  | set_fragment s =>
    refine go (n_plain (A := [S, U, W, H, P, pa, q]) (B := []) h.holds rfl (encoded_size_eq setOf_frag s)) fun L _ hq => ?_
    subst hq
    refine hl.withFragment ?_
    split
    · exact .inl rfl
    · exact .inr ⟨_, by rw [encode_eq setOf_frag]; exact pctEncode_escaped setOf_frag s, rfl⟩
  | set_encoded_fragment s =>
    refine go (n_encoded (A := [S, U, W, H, P, pa, q]) (B := []) h.holds rfl setOf_frag) fun L hv hq => ?_
    subst hq
    refine hl.withFragment ?_
    split
    · exact .inl rfl
    · exact .inr ⟨_, hv, rfl⟩
  | set_fragment_part s =>
    refine go (n_part (A := [S, U, W, H, P, pa, q]) (B := []) h.holds rfl setOf_frag) fun L hv hq => ?_
    subst hq
    exact hl.withFragment (hv.imp id fun ⟨x, e, hx⟩ => ⟨x, hx, e⟩)
  | normalize_scheme => exact go (n_normalize h hd hs0) fun L _ hq => norm L hq
  | normalize => exact go (n_normalize h hd hs0) fun L _ hq => norm L hq

/-- two descriptions of the same memory -/
theorem Lettered.transfer {L : List (List Cell)} {t t' : Cell} (hl : Lettered L) (h1 : Holds env st L t')
    (h2 : Part8 env st S U W H P pa q f t) : Lettered [S, U, W, H, P, pa, q, f] := by
  have e : ∀ id, Init ([S, U, W, H, P, pa, q, f].getD id []) → L.getD id [] = [S, U, W, H, P, pa, q, f].getD id [] := fun id hi =>
    readCells_inj ((h1.get id false).symm.trans (h2.holds.get id false)) hi
  have hq : Init q := by
    rcases h2.q with rfl | ⟨s, rfl⟩
    · exact init_iff.2 ⟨[], rfl⟩
    · exact init_iff.2 ⟨c!"?" :: s, rfl⟩
  have hf : Init f := by
    rcases h2.f with rfl | ⟨s, rfl⟩
    · exact init_iff.2 ⟨[], rfl⟩
    · exact init_iff.2 ⟨c!"#" :: s, rfl⟩
  exact ⟨e 0 h2.S ▸ hl.scheme, e 3 h2.H ▸ hl.host, e 4 h2.P ▸ hl.port, e 6 hq ▸ hl.query, e 7 hf ▸ hl.fragment⟩

end

theorem Worked.lettered (hw : Worked env st) (hd : env.dbg = false) :
    ∃ S U W H P q f t, ∃ pa : Str, Part8 env st S U W H P (pa.map some) q f t ∧ Lettered [S, U, W, H, P, pa.map some, q, f] := by
  have ⟨S, U, W, H, P, q, f, t, pa, hp⟩ := hw.parts hd
  refine ⟨S, U, W, H, P, q, f, t, pa, hp, ?_⟩
  suffices h : ∃ L t', Holds env st L t' ∧ Lettered L by
    obtain ⟨L, t', h1, h2⟩ := h
    exact h2.transfer h1 hp
  clear hp S U W H P q f t pa
  induction hw with
  | empty =>
    obtain ⟨S, U, W, H, P, pa, q, f, t, h⟩ := (Used.empty (env := env)).parts hd
    have hl : ∀ id, ([S, U, W, H, P, pa, q, f].getD id []) = [] := by
      intro id
      refine List.length_eq_zero_iff.1 ?_
      rw [← w_len h id]
      simp [Parts.length, Base.empty]
    refine ⟨_, _, h.holds, ?_⟩
    exact ⟨⟨[], hl 0, .inl rfl⟩, ⟨[], hl 3, host_nil⟩, ⟨[], hl 4, .inl rfl⟩, ⟨[], hl 6, .inl rfl⟩, ⟨[], hl 7, .inl rfl⟩⟩
  | @call st st' op hw' hrun ih =>
    obtain ⟨S, U, W, H, P, q, f, t, pa, hp⟩ := hw'.parts hd
    obtain ⟨L, t', h1, h2⟩ := ih
    have hl := h2.transfer h1 hp
    rcases hrun with hrun | ⟨e, hrun⟩
    · exact lettered_run hp hd hl hrun
    · obtain ⟨h1, h2, h3, h4⟩ := C18_strong hrun
      exact ⟨_, _, (hp.thrown h1 h2 h3 h4).holds, hl⟩
  | @edit st st' e hw' hin hrun ih =>
    obtain ⟨S, U, W, H, P, q, f, t, pa, hp⟩ := hw'.parts hd
    obtain ⟨L, t', h1, h2⟩ := ih
    have hl := h2.transfer h1 hp
    rcases hp.edit hd hin with ⟨-, h⟩ | ⟨-, h⟩
    · rw [h] at hrun
      rcases hrun with ⟨_, h⟩ | ⟨_, h⟩
      · cases h
      · cases h
        exact ⟨_, _, hp.holds, hl⟩
    · rcases hrun with ⟨it, hrun⟩ | ⟨x, hrun⟩
      · rw [hrun] at h
        obtain ⟨-, -, -, ⟨t', h⟩, -⟩ := h
        exact ⟨_, _, h, hl.of rfl (.inl rfl) (.inl rfl) rfl rfl⟩
      · rw [hrun] at h
        obtain ⟨-, rfl⟩ := h
        exact ⟨_, _, (hp.thrown (st' := { st with tick := st.tick + 1 }) rfl rfl rfl rfl).holds, hl⟩

section
variable {o : Obj} {s x : Str}

theorem port_reads (h : o.get id_port = .ok s) (hs : s = [] ∨ s = c!":" :: x) : port o = .ok (s.drop 1) := by
  unfold port
  rw [h]
  rcases hs with rfl | rfl
  · simp [bind_ok, Obj.assert]
  · simp [bind_ok, Obj.assert, frontIs, removePrefix]

theorem delimited_reads {id : Nat} {d : Byte} (h : o.get id = .ok s) (hs : s = [] ∨ s = d :: x) : _root_.Url.delimited o id d = .ok s := by
  unfold _root_.Url.delimited
  rw [h]
  rcases hs with rfl | rfl
  · rfl
  · simp [bind_ok, Obj.assert, frontIs]

end

/-- C63: whatever calls and edits came before, with assertions or without, the scheme, host, port, query and fragment can be read
and are in their grammars. -/
theorem C63_worked (hw : Worked env st) (dbg : Bool) : ∃ sch hst prt qry frag,
    scheme (st.obj dbg) = .ok sch ∧ encoded_host (st.obj dbg) = .ok hst ∧ port (st.obj dbg) = .ok prt ∧
    encoded_query (st.obj dbg) = .ok qry ∧ encoded_fragment (st.obj dbg) = .ok frag ∧
    (sch = [] ∨ Scheme lib sch) ∧ Host lib hst ∧ prt.all isDigit = true ∧
    Escaped isUpperHex isQueryFrag qry ∧ Escaped isUpperHex isQueryFrag frag := by
  obtain ⟨S, U, W, H, P, q, f, t, pa, hp, hl⟩ := hw.release.lettered rfl
  obtain ⟨⟨s0, e0, h0⟩, ⟨s3, e3, h3⟩, ⟨s4, e4, h4⟩, ⟨s6, e6, h6⟩, ⟨s7, e7, h7⟩⟩ := hl
  have g : ∀ {id : Nat} {s : Str}, [S, U, W, H, P, pa.map some, q, f].getD id [] = s.map some → (st.obj dbg).get id = .ok s := by
    intro id s e
    rw [hp.holds.get id dbg, e, readCells_some]
  have g0 := g e0; have g3 := g e3; have g4 := g e4; have g6 := g e6; have g7 := g e7
  have k4 : s4 = [] ∨ s4 = c!":" :: s4.drop 1 := h4.imp id fun ⟨x, _, e⟩ => by rw [e]; rfl
  have k6 : s6 = [] ∨ s6 = c!"?" :: s6.drop 1 := h6.imp id fun ⟨x, _, e⟩ => by rw [e]; rfl
  have k7 : s7 = [] ∨ s7 = c!"#" :: s7.drop 1 := h7.imp id fun ⟨x, _, e⟩ => by rw [e]; rfl
  have hq : encoded_query (st.obj dbg) = .ok (s6.drop 1) := by
    unfold encoded_query
    rw [delimited_reads g6 k6]
    rfl
  have hf : encoded_fragment (st.obj dbg) = .ok (s7.drop 1) := by
    unfold encoded_fragment
    rw [delimited_reads g7 k7]
    rfl
  have hsch : ∃ sch, scheme (st.obj dbg) = .ok sch ∧ (sch = [] ∨ Scheme lib sch) := by
    rcases h0 with rfl | ⟨x, hx, rfl⟩
    · exact ⟨[], scheme_of g0, .inl rfl⟩
    · refine ⟨x, scheme_of ?_, .inr hx⟩
      rw [g0, if_neg]
      rintro rfl
      obtain ⟨a, u, e, -⟩ := hx
      cases e
  obtain ⟨sch, hs1, hs2⟩ := hsch
  refine ⟨sch, s3, _, _, _, hs1, g3, port_reads g4 k4, hq, hf, hs2, h3, ?_, ?_, ?_⟩
  · rcases h4 with rfl | ⟨x, hx, rfl⟩
    · rfl
    · exact hx
  · rcases h6 with rfl | ⟨x, hx, rfl⟩
    · exact .nil
    · exact hx
  · rcases h7 with rfl | ⟨x, hx, rfl⟩
    · exact .nil
    · exact hx

/-- C63: so none of them contains a delimiter that would end it, whatever calls and edits came before. -/
theorem C63_worked_delimiters (hw : Worked env st) (dbg : Bool) : ∃ sch hst prt qry frag,
    scheme (st.obj dbg) = .ok sch ∧ encoded_host (st.obj dbg) = .ok hst ∧ port (st.obj dbg) = .ok prt ∧
    encoded_query (st.obj dbg) = .ok qry ∧ encoded_fragment (st.obj dbg) = .ok frag ∧ Delimited sch [] [] hst prt qry frag := by
  obtain ⟨sch, hst, prt, qry, frag, h1, h2, h3, h4, h5, h6, h7, h8, h9, h10⟩ := C63_worked hw dbg
  refine ⟨sch, hst, prt, qry, frag, h1, h2, h3, h4, h5, ?_⟩
  have hp : PartsOk ⟨if sch = [] then none else some sch, some ⟨none, hst, some prt⟩, [], some qry, some frag⟩ := by
    refine ⟨?_, ?_, fun _ e => by cases e; exact h9, fun _ e => by cases e; exact h10⟩
    · intro s e
      by_cases hs : sch = []
      · rw [if_pos hs] at e; cases e
      · rw [if_neg hs] at e
        cases e
        exact h6.resolve_left hs
    · intro a e
      cases e
      exact ⟨fun _ _ e => (by cases e), h7, fun _ e => by cases e; exact h8⟩
  have hd := Url.Props.delimited hp
  have e : (if sch = [] then none else some sch : Option Str).getD [] = sch := by
    by_cases hs : sch = []
    · rw [if_pos hs, hs]; rfl
    · rw [if_neg hs]; rfl
  rw [e] at hd
  exact hd

/-- C14: whatever calls and edits came before, decoding the host, query or fragment is safe and gives what the escapes stand for (for a
host which is not known to be a name, its text). -/
theorem C14_worked (hw : Worked env st) (dbg : Bool) : ∃ eh eq ef dh dq df : Str,
    encoded_host (st.obj dbg) = .ok eh ∧ host (st.obj dbg) = .ok dh ∧ (if host_type (st.obj dbg) = .name then Decoded eh dh else dh = eh) ∧
    encoded_query (st.obj dbg) = .ok eq ∧ query (st.obj dbg) = .ok dq ∧ Decoded eq dq ∧
    encoded_fragment (st.obj dbg) = .ok ef ∧ fragment (st.obj dbg) = .ok df ∧ Decoded ef df := by
  obtain ⟨sch, hst, prt, qry, frag, -, h2, -, h4, h5, -, h7, -, h9, h10⟩ := C63_worked hw dbg
  obtain ⟨dq, q1, q2⟩ := decodeR_of (by decide) h9
  obtain ⟨df, f1, f2⟩ := decodeR_of (by decide) h10
  have hh : ∃ dh, host (st.obj dbg) = .ok dh ∧ (if host_type (st.obj dbg) = .name then Decoded hst dh else dh = hst) := by
    unfold host host_type
    by_cases hn : (st.obj dbg).pt.host = .name
    · rw [if_neg (not_not_intro hn), h2]
      suffices h : ∃ dh, decodeR hst = .ok dh ∧ Decoded hst dh by
        obtain ⟨dh, h, h'⟩ := h
        exact ⟨dh, h, by rw [if_pos hn]; exact h'⟩
      rcases h7 with ⟨x, hx, rfl⟩ | h7
      · exact decodeR_of (ok := (· != c!"%")) (by decide) (escaped_all (by
          simp only [List.all_append, lib_ipLiteral_noPct hx]
          decide))
      · exact decodeR_of (by decide) h7
    · rw [if_pos hn]
      exact ⟨hst, h2, by rw [if_neg hn]⟩
  obtain ⟨dh, hh1, hh2⟩ := hh
  refine ⟨hst, qry, frag, dh, dq, df, h2, hh1, hh2, h4, ?_, q2, h5, ?_, f2⟩
  · unfold query
    rw [h4]
    exact q1
  · unfold fragment
    rw [h5]
    exact f1

/-- C63 and C14 are false for the userinfo: `set_encoded_userinfo` divides its argument two characters too early, so the password
gets a slash, and an escape can be divided, which `user()` then reads beyond its end. -/
theorem C63_userinfo_false :
    ((Base.encoded_password ((after [.set_encoded_userinfo b!"a:b"]).obj true)) = .ok b!"/a:b" ∧
    encoded_url ((after [.set_encoded_userinfo b!"a:b"]).obj true) = .ok b!"//a:b@") ∧
    encoded_user ((after [.set_encoded_userinfo b!"%41b:c"]).obj true) = .ok b!"%4" ∧
    user ((after [.set_encoded_userinfo b!"%41b:c"]).obj true) = .error .ub ∧
    user ((afterRelease [.set_encoded_userinfo b!"%41b:c"]).obj false) = .error .ub := by decide +kernel

/-- a url after calls that are not among those of `Reach`, and its parts -/
example : Worked env1 (afterRelease [.set_encoded_userinfo b!"%41b:c", .set_port_part b!":", .set_query b!"a b"]) ∧
    encoded_query ((afterRelease [.set_encoded_userinfo b!"%41b:c", .set_port_part b!":", .set_query b!"a b"]).obj false) = .ok b!"a%20b" ∧
    query ((afterRelease [.set_encoded_userinfo b!"%41b:c", .set_port_part b!":", .set_query b!"a b"]).obj false) = .ok b!"a b" :=
  ⟨(afterRelease_used (by decide +kernel)).worked, by decide +kernel, by decide +kernel⟩

end Url.Props
