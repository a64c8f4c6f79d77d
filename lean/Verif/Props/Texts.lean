import Verif.Props.Stored
import Verif.Proofs.Texts
import Verif.Spec.Texts

/-!
C71: the eight texts after a call are those `Op.Turns` makes of the eight texts before it, whatever calls and edits came before.
-/

set_option linter.unusedSimpArgs false
set_option autoImplicit false

namespace Url.Props
open Url Spec
variable {env : Env} {st st' : St}

/-- The texts between the offsets of the table of parts, as written bytes. -/
def texts (o : Obj) : R Texts := do
  return ⟨← o.get id_scheme, ← o.get id_user, ← o.get id_password, ← o.get id_host, ← o.get id_port, ← o.get id_path, ← o.get id_query,
    ← o.get id_frag⟩

/-- the cells of texts -/
def _root_.Url.Spec.Texts.cells (x : Texts) : List (List Cell) :=
  [x.scheme.map some, x.user.map some, x.password.map some, x.host.map some, x.port.map some, x.path.map some, x.query.map some,
    x.fragment.map some]

theorem readCells_eq {X : List Cell} {s : Str} (h : readCells X = .ok s) : X = s.map some := by
  obtain ⟨x, rfl⟩ := init_iff.1 (readCells_init.1 ⟨s, h⟩)
  rw [readCells_some] at h
  cases h; rfl

theorem texts_cells {S U W H P pa q g : List Cell} {t : Cell} {dbg : Bool} {x : Texts} (h : Holds env st [S, U, W, H, P, pa, q, g] t)
    (hx : texts (st.obj dbg) = .ok x) : [S, U, W, H, P, pa, q, g] = x.cells := by
  unfold texts at hx
  rw [h.get, h.get, h.get, h.get, h.get, h.get, h.get, h.get] at hx
  simp only [id_scheme, id_user, id_password, id_host, id_port, id_path, id_query, id_frag, List.getD_cons_zero, List.getD_cons_succ] at hx
  simp only [bind, Except.bind] at hx
  cases h0 : readCells S <;> rw [h0] at hx <;> try (cases hx; done)
  cases h1 : readCells U <;> rw [h1] at hx <;> try (cases hx; done)
  cases h2 : readCells W <;> rw [h2] at hx <;> try (cases hx; done)
  cases h3 : readCells H <;> rw [h3] at hx <;> try (cases hx; done)
  cases h4 : readCells P <;> rw [h4] at hx <;> try (cases hx; done)
  cases h5 : readCells pa <;> rw [h5] at hx <;> try (cases hx; done)
  cases h6 : readCells q <;> rw [h6] at hx <;> try (cases hx; done)
  cases h7 : readCells g <;> rw [h7] at hx <;> try (cases hx; done)
  cases hx
  rw [readCells_eq h0, readCells_eq h1, readCells_eq h2, readCells_eq h3, readCells_eq h4, readCells_eq h5, readCells_eq h6, readCells_eq h7]
  rfl

theorem map_some_inj {a b : Str} (h : a.map some = b.map some) : a = b := by
  have := congrArg readCells h
  rw [readCells_some, readCells_some] at this
  cases this; rfl

theorem cells_inj {x y : Texts} (h : x.cells = y.cells) : x = y := by
  cases x; cases y
  simp only [Texts.cells, List.cons.injEq, and_true] at h
  obtain ⟨h0, h1, h2, h3, h4, h5, h6, h7⟩ := h
  cases map_some_inj h0; cases map_some_inj h1; cases map_some_inj h2; cases map_some_inj h3
  cases map_some_inj h4; cases map_some_inj h5; cases map_some_inj h6; cases map_some_inj h7
  rfl

theorem of_cells (c : Components) : cells c = (Texts.of c).cells := by
  obtain ⟨sch, a, p, q, f⟩ := c
  rcases sch with _ | s <;> rcases a with _ | ⟨_ | ⟨u, _ | w⟩, h, _ | pt⟩ <;> rcases q with _ | q <;> rcases f with _ | f <;>
    simp [cells, compParts, Texts.of, Texts.cells, schemeText, authTexts, authParts, userParts, portText, queryText, fragText]

/-- what a call leaves: texts, or bytes never written -/
def Turned (op : Op) (x : Texts) (L : List (List Cell)) : Prop :=
  (∃ y : Texts, L = y.cells ∧ op.Turns x y) ∨ (x.behind.length = 1 ∧ x.authority ≠ [] ∧ L.length = 8 ∧ ∃ A B : List Cell, L.flatten = A ++ none :: B)

theorem turned {op : Op} {x y : Texts} {L : List (List Cell)} (e : L = y.cells) (h : op.Turns x y) : Turned op x L := .inl ⟨y, e, h⟩

/-- two cells in front that were kept -/
theorem kept_cases {x : Texts} {d : List Cell} (hn : x.behind ≠ [])
    (h : Kept d (x.user.map some ++ (x.password.map some ++ (x.host.map some ++ (x.port.map some ++
      (x.path.map some ++ (x.query.map some ++ x.fragment.map some))))))) :
    (∃ d', d = d'.map some ∧ x.Opens d') ∨ (x.behind.length = 1 ∧ ∃ b, d = [b, none]) := by
  obtain ⟨hl, hk⟩ := h
  simp only [← List.map_append] at hk
  have hk : ∀ j, j < 2 → j < x.behind.length → d[j]? = (x.behind.map some)[j]? := by
    intro j h1 h2; exact hk j h1 (by simpa [Texts.behind] using h2)
  unfold Texts.Opens
  match d, hl with
  | [d0, d1], _ =>
  match hb : x.behind, hn with
  | [b], _ =>
    rw [hb] at hk
    have := hk 0 (by omega) (by simp)
    simp at this
    subst this
    cases d1 with
    | none => exact .inr ⟨rfl, _, rfl⟩
    | some v => exact .inl ⟨[b, v], rfl, rfl, [v], rfl⟩
  | b :: b' :: r, _ =>
    rw [hb] at hk
    have h0 := hk 0 (by omega) (by simp)
    have h1 := hk 1 (by omega) (by simp)
    simp at h0 h1
    subst h0 h1
    exact .inl ⟨[b, b'], rfl, rfl, [], rfl⟩

theorem userTo {op : Op} {x : Texts} {s : Str} {L : List (List Cell)} (ho : ∀ y, x.UserTo s y → op.Turns x y)
    (h : UserTo (x.scheme.map some) (x.user.map some) (x.password.map some) (x.host.map some) (x.port.map some) (x.path.map some)
      (x.query.map some) (x.fragment.map some) s L) : Turned op x L := by
  rcases h with ⟨h, d, hd, rfl⟩ | ⟨h, rfl⟩
  · have hw : x.password ≠ [] := by simpa using h
    rcases kept_cases (by simp [Texts.behind, hw]) hd with ⟨d', rfl, hd'⟩ | ⟨hb, b, rfl⟩
    · exact turned (y := { x with user := d' ++ s }) (by simp [Texts.cells]) (ho _ (.inl ⟨hw, d', hd', rfl⟩))
    · exact .inr ⟨hb, by simp [Texts.authority, hw], rfl, x.scheme.map some ++ [b], _, by simp; rfl⟩
  · have hw : x.password = [] := by simpa using h
    exact turned (y := { x with user := b!"//" ++ s, password := b!"@" }) (by simp [Texts.cells]) (ho _ (.inr ⟨hw, rfl⟩))

theorem userOff {op : Op} {x : Texts} {L : List (List Cell)} (ho : ∀ y, x.UserOff y → op.Turns x y)
    (h : UserOff (x.scheme.map some) (x.user.map some) (x.password.map some) (x.host.map some) (x.port.map some) (x.path.map some)
      (x.query.map some) (x.fragment.map some) L) : Turned op x L := by
  rcases h with ⟨h, rfl⟩ | ⟨h, d, hd, rfl⟩
  · exact turned rfl (ho _ (.inl ⟨by simpa using h, rfl⟩))
  · have hw : x.user ≠ [] := by simpa using h
    rcases kept_cases (by simp [Texts.behind, hw]) hd with ⟨d', rfl, hd'⟩ | ⟨hb, b, rfl⟩
    · refine turned (y := { x with user := d', password := if x.password.length = 1 then [] else x.password }) ?_ (ho _ (.inr ⟨hw, d', hd', rfl⟩))
      simp only [Texts.cells, List.length_map]
      split <;> rfl
    · exact .inr ⟨hb, by simp [Texts.authority, hw], rfl, x.scheme.map some ++ [b], _, by simp; rfl⟩

theorem userinfoOff {op : Op} {x : Texts} {L : List (List Cell)} (ho : ∀ y, x.UserinfoOff y → op.Turns x y)
    (h : UserinfoOff (x.scheme.map some) (x.user.map some) (x.password.map some) (x.host.map some) (x.port.map some) (x.path.map some)
      (x.query.map some) (x.fragment.map some) L) : Turned op x L := by
  rcases h with ⟨h, rfl⟩ | ⟨h, d, hd, rfl⟩
  · exact turned (y := { x with user := [], password := [] }) rfl (ho _ (.inl ⟨by simpa using h, rfl⟩))
  · have hw : x.host ++ x.port ≠ [] := by simpa using h
    rcases kept_cases (x := x) (by intro e; apply hw; simp [Texts.behind] at e; simp [e]) hd with ⟨d', rfl, hd'⟩ | ⟨hb, b, rfl⟩
    · exact turned (y := { x with user := d', password := [] }) (by simp [Texts.cells]) (ho _ (.inr ⟨hw, d', hd', rfl⟩))
    · exact .inr ⟨hb, by intro e; apply hw; simp [Texts.authority] at e; simp [e], rfl, x.scheme.map some ++ [b], _, by simp; rfl⟩

theorem map_if {p : Prop} [Decidable p] {a b : Str} : (if p then a else b).map some = if p then a.map some else b.map some := by split <;> rfl

theorem passwordOff {x : Texts} : [x.scheme.map some, x.user.map some,
    (if x.password.map some = [] ∨ (x.user.map some).length = 2 then [] else b!"@".map some), x.host.map some, x.port.map some, x.path.map some,
    x.query.map some, x.fragment.map some] = x.passwordOff.cells := by
  simp only [Texts.passwordOff, Texts.cells, map_if, List.map_eq_nil_iff, List.length_map, List.map_nil]

theorem passwordTo {x : Texts} {s : Str} : [x.scheme.map some, (if x.user.map some = [] then b!"//".map some else x.user.map some),
    (b!":" ++ s ++ b!"@").map some, x.host.map some, x.port.map some, x.path.map some,
    x.query.map some, x.fragment.map some] = (x.passwordTo s).cells := by
  simp only [Texts.passwordTo, Texts.cells, map_if, List.map_eq_nil_iff]

theorem authority_nil {x : Texts} : x.user.map some ++ (x.password.map some ++ (x.host.map some ++ x.port.map some)) = [] ↔ x.authority = [] := by
  simp [Texts.authority]

theorem begun {x : Texts} : (if x.user.map some ++ (x.password.map some ++ (x.host.map some ++ x.port.map some)) = [] then b!"//".map some
    else x.user.map some) = x.begun.map some := by
  simp only [Texts.begun, map_if, authority_nil]

theorem hostOff {x : Texts} : (if (x.user.map some ++ x.password.map some).length = 2 ∧ x.port.map some = [] then
    [x.scheme.map some, [], [], [], [], x.path.map some, x.query.map some, x.fragment.map some] else
    [x.scheme.map some, x.user.map some, x.password.map some, [], x.port.map some, x.path.map some, x.query.map some, x.fragment.map some]) =
    x.hostOff.cells := by
  simp only [Texts.hostOff, ← List.map_append, List.length_map, List.map_eq_nil_iff]
  split <;> rfl

theorem portOff {x : Texts} : (if (x.user.map some ++ (x.password.map some ++ x.host.map some)).length = 2 then
    [x.scheme.map some, [], [], [], [], x.path.map some, x.query.map some, x.fragment.map some] else
    [x.scheme.map some, x.user.map some, x.password.map some, x.host.map some, [], x.path.map some, x.query.map some, x.fragment.map some]) =
    x.portOff.cells := by
  simp only [Texts.portOff, ← List.map_append, List.length_map]
  split <;> rfl

theorem authCells {a : Option Auth} {S pa q g : Str} : S.map some :: ((authTexts a).map (·.map some) ++ [pa.map some, q.map some, g.map some]) =
    Texts.cells { Texts.of ⟨none, a, [], none, none⟩ with scheme := S, path := pa, query := q, fragment := g } := by
  rcases a with _ | ⟨_ | ⟨u, _ | w⟩, h, _ | pt⟩ <;> simp [Texts.of, Texts.cells, authTexts, authParts, userParts, portText]

/-- not an origin to be parsed -/
def _root_.Url.Spec.Op.Judged (op : Op) : Prop := ∀ s, op = .set_encoded_origin s → s = []

theorem turns_out {x : Texts} {t : Cell} (op : Op) (hd : env.dbg = false)
    (h : Part8 env st (x.scheme.map some) (x.user.map some) (x.password.map some) (x.host.map some) (x.port.map some) (x.path.map some)
      (x.query.map some) (x.fragment.map some) t) (he : EndsIn c!":" (x.scheme.map some)) :
    ∃ N V, (V → op.Takes x) ∧ (op.Judged → (V ↔ op.Takes x)) ∧ NOutOf env N V (Turned op x) (run op env st) := by
  have same : ∀ {N : St → Prop} {V : Prop} {Q : List (List Cell) → Prop}, (V ↔ op.Takes x) → NOutOf env N V Q (run op env st) → (∀ L, Q L → Turned op x L) →
      ∃ N V, (V → op.Takes x) ∧ (op.Judged → (V ↔ op.Takes x)) ∧ NOutOf env N V (Turned op x) (run op env st) :=
    fun hv hn hq => ⟨_, _, hv.1, fun _ => hv, hn.imp .rfl hq⟩
  have norm : ∃ L, L = [(x.scheme.dropLast.map lower ++ x.scheme.drop (x.scheme.length - 1)).map some, x.user.map some, x.password.map some,
      x.host.map some, x.port.map some, x.path.map some, x.query.map some, x.fragment.map some] ∧
      L = ({ x with scheme := x.scheme.map lower } : Texts).cells := by
    refine ⟨_, rfl, ?_⟩
    have : x.scheme.dropLast.map lower ++ x.scheme.drop (x.scheme.length - 1) = x.scheme.map lower := by
      rcases he with e | ⟨Y, e⟩
      · have : x.scheme = [] := by simpa using e
        simp [this]
      · obtain ⟨a, b, e1, -, e2⟩ := List.map_eq_append_iff.1 e
        obtain ⟨c, rfl, e3⟩ : ∃ c, b = [c] ∧ c = c!":" := by
          cases b with
          | nil => cases e2
          | cons c b => cases b with
            | nil => simp at e2; exact ⟨c, rfl, e2⟩
            | cons d b => simp at e2
        subst e3
        rw [e1]
        simp [show lower c!":" = c!":" by decide]
    rw [this]; rfl
  obtain ⟨N, n1, n2⟩ := norm
  cases op with
  | set_encoded_url s =>
    refine same .rfl (n_url h s) fun L hL => ?_
    split at hL
    · exact turned (y := Texts.empty) hL (.inl ⟨‹_›, rfl⟩)
    · obtain ⟨c, hc, hr, rfl⟩ := hL
      exact turned (of_cells c) (.inr ⟨‹_›, c, hc, hr, rfl⟩)
  | set_encoded_origin s =>
    refine ⟨_, _, ?_, ?_, (n_origin h s).imp .rfl fun L hL => ?_⟩
    · rintro (hs | hs)
      · exact .inl hs
      · obtain ⟨sch, a, p, r, k, h1, h2, h3, h4, -, hat⟩ := origin_sound hs
        exact .inr ⟨sch, _, h1, h4⟩
    · intro hj
      have := hj s rfl
      simp [this, Op.Takes]
    · split at hL
      · exact turned (y := { x.noAuthority with scheme := [] }) hL (.inl ⟨‹_›, rfl⟩)
      · obtain ⟨sch, a, p, r, k, h1, h2, -, h4, -, rfl⟩ := hL
        rw [← List.map_append, authCells]
        refine turned rfl (.inr ⟨‹_›, sch, a, p ++ r, h1, h2, ?_, rfl⟩)
        rw [h4, ← compParts_flatten]
        simp [compParts, schemeText, queryText, fragText]
  | set_scheme s =>
    refine same .rfl (n_scheme h s) fun L hL => ?_
    exact turned (y := { x with scheme := if s = [] then [] else s ++ b!":" }) hL rfl
  | set_encoded_authority s =>
    refine same .rfl (n_authority h s) fun L hL => ?_
    split at hL
    · exact turned (y := x.noAuthority) hL (.inl ⟨‹_›, rfl⟩)
    · obtain ⟨a, ha, rfl⟩ := hL
      exact turned authCells (.inr ⟨‹_›, a, ha, rfl⟩)
  | set_encoded_userinfo s =>
    refine same .rfl (n_set_encoded_userinfo h s) fun L hL => ?_
    by_cases hs : s = []
    · rw [if_pos hs] at hL
      exact userinfoOff (fun y hy => by simpa only [Op.Turns, if_pos hs] using hy) hL
    · rw [if_neg hs] at hL
      obtain ⟨u, hu, rfl⟩ := hL
      refine turned (y := { x with user := (b!"//" ++ s).take u.1.length, password := (b!"//" ++ s).drop u.1.length ++ b!"@" }) rfl ?_
      simp only [Op.Turns, if_neg hs]
      exact ⟨u, hu, rfl⟩
  | set_userinfo_part s =>
    refine same .rfl (n_set_userinfo_part h s) fun L hL => ?_
    by_cases hs : s = [] ∨ s = b!"@"
    · rw [if_pos hs] at hL
      exact userinfoOff (fun y hy => by simpa only [Op.Turns, if_pos hs] using hy) hL
    · rw [if_neg hs] at hL
      obtain ⟨u, hu, rfl⟩ := hL
      refine turned (y := { x with user := (b!"//" ++ s.dropLast).take u.1.length, password := (b!"//" ++ s.dropLast).drop u.1.length ++ b!"@" }) rfl ?_
      simp only [Op.Turns, if_neg hs]
      exact ⟨u, hu, rfl⟩
  | set_user s =>
    refine same .rfl (n_set_user h hd s) fun L hL => ?_
    by_cases hs : s = []
    · rw [if_pos hs] at hL
      exact userOff (fun y hy => by simpa only [Op.Turns, if_pos hs] using hy) hL
    · rw [if_neg hs, encode_eq setOf_userinfo_nc] at hL
      exact userTo (fun y hy => by simpa only [Op.Turns, if_neg hs] using hy) hL
  | set_encoded_user s =>
    refine same .rfl (n_set_encoded_user h hd s) fun L hL => ?_
    by_cases hs : s = []
    · rw [if_pos hs] at hL
      exact userOff (fun y hy => by simpa only [Op.Turns, if_pos hs] using hy) hL
    · rw [if_neg hs] at hL
      exact userTo (fun y hy => by simpa only [Op.Turns, if_neg hs] using hy) hL
  | set_password s =>
    refine same .rfl (n_set_password h hd s) fun L hL => ?_
    by_cases hs : s = []
    · rw [if_pos hs] at hL
      exact turned (hL.trans passwordOff) (by simp only [Op.Turns, if_pos hs])
    · rw [if_neg hs, encode_eq setOf_userinfo] at hL
      exact turned (hL.trans passwordTo) (by simp only [Op.Turns, if_neg hs])
  | set_encoded_password s =>
    refine same .rfl (n_set_encoded_password h hd s) fun L hL => ?_
    by_cases hs : s = []
    · rw [if_pos hs] at hL
      exact turned (hL.trans passwordOff) (by simp only [Op.Turns, if_pos hs])
    · rw [if_neg hs] at hL
      exact turned (hL.trans passwordTo) (by simp only [Op.Turns, if_neg hs])
  | set_password_part s =>
    refine same .rfl (n_set_password_part h hd s) fun L hL => ?_
    by_cases hs : s = []
    · rw [if_pos hs] at hL
      exact turned (hL.trans passwordOff) (by simp only [Op.Turns, if_pos hs])
    · rw [if_neg hs] at hL
      by_cases h1 : s.length = 1
      · rw [if_pos h1] at hL
        refine turned (y := if x.user = [] then { x with user := b!"//", password := [] } else { x with password := b!":@" }) ?_
          (by simp only [Op.Turns, if_neg hs, if_pos h1])
        rw [PasswordColon] at hL
        rw [hL]
        simp only [List.map_eq_nil_iff]
        split <;> rfl
      · rw [if_neg h1] at hL
        exact turned (hL.trans passwordTo) (by simp only [Op.Turns, if_neg hs, if_neg h1])
  | set_host s =>
    refine same .rfl (n_set_host h hd s) fun L hL => ?_
    by_cases hs : s = []
    · rw [if_pos hs] at hL
      exact turned (hL.trans hostOff) (.inl ⟨hs, rfl⟩)
    · rw [if_neg hs] at hL
      obtain ⟨txt, k, hp, hL⟩ := hL
      refine turned (y := x.hostTo txt) ?_ (.inr ⟨hs, txt, k, hp, rfl⟩)
      rw [HostTo, begun] at hL
      exact hL
  | set_encoded_host s =>
    refine same .rfl (n_set_encoded_host h hd s) fun L hL => ?_
    by_cases hs : s = []
    · rw [if_pos hs] at hL
      exact turned (hL.trans hostOff) (by simp only [Op.Turns, if_pos hs])
    · rw [if_neg hs, HostTo, begun] at hL
      exact turned (y := x.hostTo s) hL (by simp only [Op.Turns, if_neg hs])
  | set_port s =>
    refine same .rfl (n_set_port h hd s) fun L hL => ?_
    by_cases hs : s = []
    · rw [if_pos hs] at hL
      exact turned (hL.trans portOff) (by simp only [Op.Turns, if_pos hs])
    · rw [if_neg hs, PortTo, begun] at hL
      exact turned (y := x.portTo s) hL (by simp only [Op.Turns, if_neg hs])
  | set_port_number n =>
    refine same .rfl (n_port_number h hd n) fun L hL => ?_
    obtain ⟨s, hs, hL⟩ := hL
    rw [PortTo, begun] at hL
    exact turned (y := x.portTo s) hL ⟨s, hs, rfl⟩
  | set_port_part s =>
    refine same .rfl (n_set_port_part h hd s) fun L hL => ?_
    by_cases hs : s = []
    · rw [if_pos hs] at hL
      exact turned (hL.trans portOff) (by simp only [Op.Turns, if_pos hs])
    · rw [if_neg hs] at hL
      by_cases h1 : s.length = 1
      · rw [if_pos h1] at hL
        exact turned (y := { x with port := b!":" }) hL (by simp only [Op.Turns, if_neg hs, if_pos h1])
      · rw [if_neg h1, PortTo, begun] at hL
        exact turned (y := x.portTo (s.drop 1)) hL (by simp only [Op.Turns, if_neg hs, if_neg h1])
  | set_encoded_path s =>
    refine same ?_ (n_set_encoded_path h s) fun L hL => ?_
    · rw [Op.Takes]
      simp only [ne_eq, authority_nil, List.map_eq_nil_iff]
    · exact turned (y := { x with path := s }) hL rfl
  | set_query s =>
    refine same .rfl (n_plain (A := [_, _, _, _, _, _]) (B := [_]) h.holds rfl (encoded_size_eq setOf_query s)) fun L hL => ?_
    rw [encode_eq setOf_query] at hL
    exact turned (y := { x with query := if s = [] then [] else b!"?" ++ pctEncode isQueryFrag s }) hL rfl
  | set_encoded_query s =>
    refine same .rfl (n_encoded (A := [_, _, _, _, _, _]) (B := [_]) h.holds rfl setOf_query) fun L hL => ?_
    exact turned (y := { x with query := if s = [] then [] else b!"?" ++ s }) hL rfl
  | set_query_part s =>
    refine same .rfl (n_part (A := [_, _, _, _, _, _]) (B := [_]) h.holds rfl setOf_query) fun L hL => ?_
    exact turned (y := { x with query := s }) hL rfl
  | set_fragment s =>
    refine same .rfl (n_plain (A := [_, _, _, _, _, _, _]) (B := []) h.holds rfl (encoded_size_eq setOf_frag s)) fun L hL => ?_
    rw [encode_eq setOf_frag] at hL
    exact turned (y := { x with fragment := if s = [] then [] else b!"#" ++ pctEncode isQueryFrag s }) hL rfl
  | set_encoded_fragment s =>
    refine same .rfl (n_encoded (A := [_, _, _, _, _, _, _]) (B := []) h.holds rfl setOf_frag) fun L hL => ?_
    exact turned (y := { x with fragment := if s = [] then [] else b!"#" ++ s }) hL rfl
  | set_fragment_part s =>
    refine same .rfl (n_part (A := [_, _, _, _, _, _, _]) (B := []) h.holds rfl setOf_frag) fun L hL => ?_
    exact turned (y := { x with fragment := s }) hL rfl
  | normalize_scheme =>
    exact same .rfl (n_normalize h hd rfl) fun L hL => turned (y := { x with scheme := x.scheme.map lower }) (hL.trans (n1.symm.trans n2)) rfl
  | normalize =>
    exact same .rfl (n_normalize h hd rfl) fun L hL => turned (y := { x with scheme := x.scheme.map lower }) (hL.trans (n1.symm.trans n2)) rfl

theorem cells_init {y : Texts} {A B : List Cell} (h : y.cells.flatten = A ++ none :: B) : False := by
  have : none ∈ y.cells.flatten := by rw [h]; simp
  simp [Texts.cells] at this

theorem _root_.Url.Holds.texts {y : Texts} {t : Cell} {dbg : Bool} (h : Holds env st y.cells t) : texts (st.obj dbg) = .ok y := by
  unfold Props.texts
  unfold Texts.cells at h
  rw [h.get, h.get, h.get, h.get, h.get, h.get, h.get, h.get]
  simp only [id_scheme, id_user, id_password, id_host, id_port, id_path, id_query, id_frag, List.getD_cons_zero, List.getD_cons_succ, readCells_some]
  rfl

/-- The table of parts and the texts of an object after any calls and edits. -/
theorem Worked.texts {x : Texts} {dbg : Bool} (hw : Worked env st) (hd : env.dbg = false) (hx : texts (st.obj dbg) = .ok x) :
    ∃ t, Part8 env st (x.scheme.map some) (x.user.map some) (x.password.map some) (x.host.map some) (x.port.map some) (x.path.map some)
      (x.query.map some) (x.fragment.map some) t ∧ EndsIn c!":" (x.scheme.map some) := by
  obtain ⟨S, U, W, H, P, pa, q, g, t, h, h1, -⟩ := hw.ends hd
  have e := texts_cells h.holds hx
  simp only [Texts.cells, List.cons.injEq, and_true] at e
  obtain ⟨rfl, rfl, rfl, rfl, rfl, rfl, rfl, rfl⟩ := e
  exact ⟨t, h, h1⟩

/-- C71: if a call returns, after any calls and edits, then its argument is one it takes, and the texts are what it makes of
the texts before. Unless one character was behind the scheme and it was part of the authority, in which case some may never have been
written. -/
theorem C71_texts {op : Op} {x : Texts} {dbg : Bool} (hw : Worked env st) (hx : texts (st.obj dbg) = .ok x) (hr : run op env st = .ret () st') :
    op.Takes x ∧ ((∃ y, texts (st'.obj dbg) = .ok y ∧ op.Turns x y) ∨ (x.behind.length = 1 ∧ x.authority ≠ [] ∧ ∀ y, texts (st'.obj dbg) ≠ .ok y)) := by
  obtain ⟨t, h, he⟩ := hw.release.texts rfl hx
  obtain ⟨N, V, hv, -, hn⟩ := turns_out op rfl h he
  rw [released hr] at hn
  obtain ⟨hV, -, L, t', hL, hq⟩ := hn
  refine ⟨hv hV, ?_⟩
  rcases hq with ⟨y, rfl, hy⟩ | ⟨h1, h2, h8, A, B, hf⟩
  · exact .inl ⟨y, hL.texts, hy⟩
  · refine .inr ⟨h1, h2, fun y hy => ?_⟩
    match L, h8 with
    | [_, _, _, _, _, _, _, _], _ =>
      rw [texts_cells hL hy] at hf
      exact cells_init hf

/-- C71: a call that rejects its argument does not take it; and if it does not take it, it rejects it, or an assertion fails
before that. -/
theorem C71_rejects {op : Op} {x : Texts} {dbg : Bool} (hw : Worked env st) (hx : texts (st.obj dbg) = .ok x) :
    (op.Judged → Rejects op env st → ¬ op.Takes x) ∧
    (¬ op.Takes x → Rejects op env st ∨ env.dbg = true ∧ ∃ f, run op env st = .fault f) := by
  obtain ⟨t, h, he⟩ := hw.release.texts rfl hx
  obtain ⟨N, V, hv, hj, hn⟩ := turns_out op rfl h he
  have hs := run_sim op env st
  constructor
  · rintro hJ ⟨st', hr⟩ ht
    rcases hs with ⟨f, h'⟩ | h'
    · rw [hr] at h'; cases h'
    · rw [← h', hr] at hn
      exact (hn.1 rfl) ((hj hJ).2 ht)
  · intro ht
    have key : Rejects op env.release st := by
      generalize ho : run op env.release st = o at hn
      cases o with
      | ret _ st' => exact absurd (hv hn.1) ht
      | throw e st' => exact ⟨st', by rw [ho, hn.2 fun v => ht (hv v)]⟩
      | fault f => exact hn.elim
    rcases hs with ⟨f, h'⟩ | h'
    · by_cases hd : env.dbg = true
      · exact .inr ⟨hd, f, h'⟩
      · have : env.release = env := by cases env; simp_all [Env.release]
        rw [this] at key
        exact .inl key
    · obtain ⟨st', hr⟩ := key
      exact .inl ⟨st', h'.trans hr⟩

theorem opens_unique {x : Texts} {d d' : Str} (hb : x.behind.length ≠ 1) (hn : x.behind ≠ []) (h : x.Opens d) (h' : x.Opens d') : d = d' := by
  have : 2 ≤ x.behind.length := by
    have := List.length_pos_iff.2 hn
    omega
  have hl : (x.behind.take 2).length = 2 := by simp; omega
  rw [← h.2.eq_of_length (by rw [hl, h.1]), ← h'.2.eq_of_length (by rw [hl, h'.1])]

theorem userTo_unique {x y y' : Texts} {s : Str} (hb : x.authority ≠ [] → x.behind.length ≠ 1) (h : x.UserTo s y) (h' : x.UserTo s y') : y = y' := by
  rcases h with ⟨h1, d, hd, rfl⟩ | ⟨h1, rfl⟩ <;> rcases h' with ⟨h2, d', hd', rfl⟩ | ⟨h2, rfl⟩
  · rw [opens_unique (hb (by simp [Texts.authority, h1])) (by simp [Texts.behind, h1]) hd hd']
  · exact absurd h2 h1
  · exact absurd h1 h2
  · rfl

theorem userOff_unique {x y y' : Texts} (hb : x.authority ≠ [] → x.behind.length ≠ 1) (h : x.UserOff y) (h' : x.UserOff y') : y = y' := by
  rcases h with ⟨h1, rfl⟩ | ⟨h1, d, hd, rfl⟩ <;> rcases h' with ⟨h2, rfl⟩ | ⟨h2, d', hd', rfl⟩
  · rfl
  · exact absurd h1 h2
  · exact absurd h2 h1
  · rw [opens_unique (hb (by simp [Texts.authority, h1])) (by simp [Texts.behind, h1]) hd hd']

theorem userinfoOff_unique {x y y' : Texts} (hb : x.authority ≠ [] → x.behind.length ≠ 1) (h : x.UserinfoOff y) (h' : x.UserinfoOff y') : y = y' := by
  rcases h with ⟨h1, rfl⟩ | ⟨h1, d, hd, rfl⟩ <;> rcases h' with ⟨h2, rfl⟩ | ⟨h2, d', hd', rfl⟩
  · rfl
  · exact absurd h1 h2
  · exact absurd h2 h1
  · rw [opens_unique (hb (by intro e; apply h1; simp [Texts.authority] at e; simp [e])) (by intro e; apply h1; simp [Texts.behind] at e; simp [e]) hd hd']

theorem userinfoTo_unique {x y y' : Texts} {s : Str} (h : x.UserinfoTo s y) (h' : x.UserinfoTo s y') : y = y' := by
  obtain ⟨u, hu, rfl⟩ := h
  obtain ⟨u', hu', rfl⟩ := h'
  rw [userinfoText_unique hu hu']

/-- C71: the texts after a call that is not `set_encoded_origin` are determined by the texts before it, unless there is one character
behind the scheme, which is part of the authority, and the call sets the user or removes the userinfo. -/
theorem C71_determined {op : Op} {x y y' : Texts} (hj : op.Judged) (hb : Op.Unwritten op → x.authority ≠ [] → x.behind.length ≠ 1) (h : op.Turns x y) (h' : op.Turns x y') : y = y' := by
  cases op with
  | set_encoded_url s =>
    rcases h with ⟨h1, rfl⟩ | ⟨h1, c, hc, hr, rfl⟩ <;> rcases h' with ⟨h2, rfl⟩ | ⟨h2, c', hc', hr', rfl⟩
    · rfl
    · exact absurd h1 h2
    · exact absurd h2 h1
    · rw [decomposition_unique hc hc' (hr.trans hr'.symm)]
  | set_encoded_origin s =>
    have hs := hj s rfl
    rcases h with ⟨-, rfl⟩ | ⟨h1, -⟩
    · rcases h' with ⟨-, rfl⟩ | ⟨h1, -⟩
      · rfl
      · exact absurd hs h1
    · exact absurd hs h1
  | set_encoded_authority s =>
    rcases h with ⟨h1, rfl⟩ | ⟨h1, a, ha, rfl⟩ <;> rcases h' with ⟨h2, rfl⟩ | ⟨h2, a', ha', rfl⟩
    · rfl
    · exact absurd h1 h2
    · exact absurd h2 h1
    · rw [authText_unique ha ha']
  | set_encoded_userinfo s =>
    simp only [Op.Turns] at h h'
    split at h
    · rw [if_pos ‹_›] at h'; exact userinfoOff_unique (hb ‹_›) h h'
    · rw [if_neg ‹_›] at h'; exact userinfoTo_unique h h'
  | set_userinfo_part s =>
    simp only [Op.Turns] at h h'
    split at h
    · rw [if_pos ‹_›] at h'; exact userinfoOff_unique (hb ‹_›) h h'
    · rw [if_neg ‹_›] at h'; exact userinfoTo_unique h h'
  | set_user s =>
    simp only [Op.Turns] at h h'
    split at h
    · rw [if_pos ‹_›] at h'; exact userOff_unique (hb trivial) h h'
    · rw [if_neg ‹_›] at h'; exact userTo_unique (hb trivial) h h'
  | set_encoded_user s =>
    simp only [Op.Turns] at h h'
    split at h
    · rw [if_pos ‹_›] at h'; exact userOff_unique (hb trivial) h h'
    · rw [if_neg ‹_›] at h'; exact userTo_unique (hb trivial) h h'
  | set_host s =>
    rcases h with ⟨h1, rfl⟩ | ⟨h1, a, k, ha, rfl⟩ <;> rcases h' with ⟨h2, rfl⟩ | ⟨h2, a', k', ha', rfl⟩
    · rfl
    · exact absurd h1 h2
    · exact absurd h2 h1
    · rw [plainHost_unique ha ha']
  | set_port_number n =>
    obtain ⟨s, hs, rfl⟩ := h
    obtain ⟨s', hs', rfl⟩ := h'
    rw [decimal_unique hs hs']
  | _ => exact Eq.trans h (Eq.symm h')

/-- C71: what the texts are after a call depends on the texts before it and the argument only: two objects with the same texts
after any calls and edits, in any builds, have the same texts after the same call. -/
theorem C71_alike {env' : Env} {a b a' b' : St} {op : Op} {x y z : Texts} {dbg dbg' : Bool} (hw : Worked env a) (hw' : Worked env' b)
    (hx : texts (a.obj dbg) = .ok x) (hx' : texts (b.obj dbg') = .ok x) (hb : Op.Unwritten op → x.authority ≠ [] → x.behind.length ≠ 1)
    (hr : run op env a = .ret () a') (hr' : run op env' b = .ret () b')
    (hy : texts (a'.obj dbg) = .ok y) (hz : texts (b'.obj dbg') = .ok z) : y = z := by
  by_cases hj : op.Judged
  · obtain ⟨y', e1, e2⟩ := (C71_texts hw hx hr).2.resolve_right fun e => e.2.2 _ hy
    obtain ⟨z', e3, e4⟩ := (C71_texts hw' hx' hr').2.resolve_right fun e => e.2.2 _ hz
    rw [hy] at e1; rw [hz] at e3
    cases e1; cases e3
    exact C71_determined hj hb e2 e4
  · obtain ⟨s, rfl, hs⟩ : ∃ s, op = .set_encoded_origin s ∧ s ≠ [] := by
      unfold Op.Judged at hj
      simpa using hj
    obtain ⟨t, h, -⟩ := hw.release.texts rfl hx
    obtain ⟨t', h', -⟩ := hw'.release.texts rfl hx'
    have n := n_origin h s
    have n' := n_origin h' s
    rw [show Base.set_encoded_origin s env.release a = .ret () a' from released hr] at n
    rw [show Base.set_encoded_origin s env'.release b = .ret () b' from released hr'] at n'
    obtain ⟨-, -, L, t1, k1, k2⟩ := n
    obtain ⟨-, -, L', t2, k1', k2'⟩ := n'
    rw [if_neg hs] at k2 k2'
    obtain ⟨sch, au, p, r, k, -, -, -, -, hat, rfl⟩ := k2
    obtain ⟨sch', au', p', r', k', -, -, -, -, hat', rfl⟩ := k2'
    have e := parts_unique (by simp [authTexts_length]) (by
      have := hat.inp.symm.trans hat'.inp
      have hp := hat.p.symm.trans hat'.p
      rw [hp, List.nil_append] at this
      exact List.append_cancel_right this) (fun i => (hat.rep i).symm.trans (hat'.rep i))
    have hrr := hat.p.symm.trans hat'.p
    simp only [List.cons_append, List.nil_append, List.cons.injEq] at e
    obtain ⟨e1, e2⟩ := e
    obtain ⟨e4, e3⟩ := List.append_inj e2 (by rw [authTexts_length, authTexts_length])
    simp only [List.cons.injEq, and_true] at e3
    subst e3 hrr
    rw [e1, e4] at k1
    rw [← List.map_append, authCells] at k1 k1'
    have q1 := k1.texts (dbg := dbg)
    have q2 := k1'.texts (dbg := dbg')
    rw [hy] at q1; rw [hz] at q2
    cases q1; cases q2; rfl

theorem rejects_of {op : Op} (h : (match run op env st with | .throw .invalid_part _ => true | _ => false) = true) : Rejects op env st := by
  unfold Rejects
  split at h
  · exact ⟨_, ‹_›⟩
  · cases h

/-- the calls that leave a lone `:`, and a path behind it -/
def colonPath : List Op := oneLeft ++ [.set_encoded_path b!"/p"]

/-- A case of `C71_texts`: the texts are not the parts of a URL, and the user becomes the two characters there were. -/
example : Worked env0 (after colonPath) ∧ texts ((after colonPath).obj true) = .ok ⟨[], [], [], [], b!":", b!"/p", [], []⟩ ∧
    returns (run (.set_encoded_userinfo []) env0 (after colonPath)) = true ∧
    texts ((after (colonPath ++ [.set_encoded_userinfo []])).obj true) = .ok ⟨[], b!":/", [], [], b!":", b!"/p", [], []⟩ :=
  ⟨(after_used (by decide +kernel)).worked, by decide +kernel, by decide +kernel, by decide +kernel⟩

/-- A case of `C71_texts` in a build without assertions. -/
example : Worked env1 (afterRelease (staleCalls.take 2 ++ [.set_encoded_query b!"q"])) ∧
    texts ((afterRelease (staleCalls.take 2 ++ [.set_encoded_query b!"q"])).obj false) = .ok ⟨[], [], b!"@", [], [], [], b!"?q", []⟩ ∧
    texts ((afterRelease (staleCalls.take 2 ++ [.set_encoded_query b!"q", .set_user b!"x"])).obj false) =
      .ok ⟨[], b!"@?x", b!"@", [], [], [], b!"?q", []⟩ :=
  ⟨(afterRelease_used (by decide +kernel)).worked, by decide +kernel, by decide +kernel⟩

/-- A case of the exception: one character behind the scheme. -/
example : texts ((after oneLeft).obj true) = .ok ⟨[], [], [], [], b!":", [], [], []⟩ ∧
    returns (run (.set_encoded_userinfo []) env0 (after oneLeft)) = true ∧
    ∀ y, texts ((after (oneLeft ++ [.set_encoded_userinfo []])).obj true) ≠ .ok y := by
  refine ⟨by decide +kernel, by decide +kernel, fun y h => ?_⟩
  have : (texts ((after (oneLeft ++ [.set_encoded_userinfo []])).obj true)).toOption = none := by decide +kernel
  rw [h] at this
  cases this

/-- Cases of `C71_rejects`: whether a path is acceptable depends on the texts before it. -/
example : (∃ st, run (.set_encoded_path b!"p") env0 (after colonPath) = .throw .invalid_part st) ∧
    ¬ (Op.set_encoded_path b!"p").Takes ⟨[], [], [], [], b!":", b!"/p", [], []⟩ ∧
    returns (run (.set_encoded_path b!"p") env0 Base.empty) = true ∧ (Op.set_encoded_path b!"p").Takes Texts.empty := by
  have h1 : Rejects (.set_encoded_path b!"p") env0 (after colonPath) := rejects_of (by decide +kernel)
  have h2 : returns (run (.set_encoded_path b!"p") env0 Base.empty) = true := by decide +kernel
  refine ⟨h1, ?_, h2, ?_⟩
  · exact (C71_rejects (dbg := true) (after_used (by decide +kernel)).worked (by decide +kernel)).1 (fun s h => by cases h) h1
  · cases ho : run (.set_encoded_path b!"p") env0 Base.empty with
    | ret _ st' => exact (C71_texts (dbg := true) .empty (by decide +kernel) ho).1
    | throw e st' => rw [ho] at h2; cases h2
    | fault f => rw [ho] at h2; cases h2

/-- A case of `C71_alike`: the texts are the same, the objects are not. -/
example : texts ((after [.set_encoded_url b!"s://h/p", .set_encoded_query b!"q", .set_encoded_query []]).obj true) =
      texts ((after [.set_encoded_url b!"s://h/p"]).obj true) ∧
    after [.set_encoded_url b!"s://h/p", .set_encoded_query b!"q", .set_encoded_query []] ≠ after [.set_encoded_url b!"s://h/p"] ∧
    texts ((after [.set_encoded_url b!"s://h/p", .set_encoded_origin b!"t://i/j"]).obj true) =
      .ok ⟨b!"t:", b!"//", [], b!"i", [], b!"/j/p", [], []⟩ := by
  refine ⟨by decide +kernel, ?_, by decide +kernel⟩
  intro h
  have := congrArg St.cap h
  revert this
  decide +kernel

end Url.Props
