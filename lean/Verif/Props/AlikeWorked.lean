import Verif.Proofs.Keep
import Verif.Props.Exact
import Verif.Props.Terminator
import Verif.Props.OriginExact

/-!
C33 and C54 for all histories: what a call makes of the cached values, and objects with the same text and the same table of parts.
-/

set_option autoImplicit false

namespace Url.Props
open Url Spec

variable {env env' : Env} {st st' a b a' b' : St}

/-! ### The cached values -/

theorem Out.Has.ret {α β : Type} {v : Parts → β} {m : M α} {x : α} (h : Keep v m) (hr : m env st = .ret x st') : v st'.pt = v st.pt := by
  have := h env st
  rw [hr] at this
  exact this

/-- the table after a url was stored -/
theorem stored_pt {s : Str} (hs : s ≠ []) (h : run (.set_encoded_url s) env st = .ret () st') : ∃ v, View.make s = .ret v ∧ st'.pt = v.pt := by
  have h : Base.set_encoded_url s env st = .ret () st' := h
  unfold Base.set_encoded_url at h
  rw [if_neg (by simpa using hs)] at h
  obtain ⟨pt, s1, e1, h⟩ := Alias.bind_ret h
  obtain ⟨_, s2, e2, h⟩ := Alias.bind_ret h
  obtain ⟨_, s3, e3, h⟩ := Alias.bind_ret h
  have e4 := Out.Has.ret (v := id) (Keep.put 0 s) h
  cases e3
  unfold Base.parsed at e1
  unfold View.make
  dsimp only
  cases hf : (parse_url s).flt with
  | some f => rw [hf] at e1; cases e1
  | none =>
    rw [hf] at e1
    dsimp only at e1 ⊢
    by_cases he : (parse_url s).ec.isSome = true
    · rw [if_pos he] at e1; cases e1
    · rw [if_neg he] at e1 ⊢
      cases e1
      exact ⟨_, rfl, e4⟩

/-- when it returns, the value `v` is `w` -/
def Last {α β : Type} (v : Parts → β) (w : β) (m : M α) : Prop := ∀ env st x st', m env st = .ret x st' → v st'.pt = w

theorem Last.right {α γ β : Type} {v : Parts → β} {w : β} {m : M α} {f : α → M γ} (h : ∀ x, Last v w (f x)) : Last v w (m >>= f) := by
  intro env st x st' hr
  obtain ⟨y, s1, -, h2⟩ := Alias.bind_ret hr
  exact h y _ _ _ _ h2

theorem Last.value {α γ β : Type} {v : Parts → β} {w : β} {m : M α} {f : α → M γ} {y : α} (hm : ∀ env st x st', m env st = .ret x st' → x = y)
    (h : Last v w (f y)) : Last v w (m >>= f) := by
  intro env st x st' hr
  obtain ⟨z, s1, h1, h2⟩ := Alias.bind_ret hr
  rw [hm _ _ _ _ h1] at h2
  exact h _ _ _ _ h2

theorem Last.setPt {β : Type} {v : Parts → β} {w : β} {f : Parts → Parts} (h : ∀ p, v (f p) = w) : Last v w (M.setPt f) := by
  intro env st x st' hr
  cases hr
  exact h _

theorem set_host_kind {s : Str} (hs : s ≠ []) : Last Parts.host (parse_plain_hostname s) (Base.set_host s) := by
  unfold Base.set_host
  rw [if_neg (by simpa using hs)]
  refine Last.value (y := parse_plain_hostname s) ?_ ?_
  · intro env st x st' h
    cases hf : (parse_ip_literal (PS.init s)).flt with
    | some f => rw [hf] at h; cases h
    | none => rw [hf] at h; cases h; rfl
  · refine Last.right fun _ => ?_
    dsimp only
    repeat' first
      | exact Last.setPt fun _ => rfl
      | refine Last.right fun _ => ?_
      | split
      | dsimp only

theorem parsedAll_ret {ps : PS} {pt : Parts} (h : Base.parsedAll ps env st = .ret pt st') : ps.ec = none ∧ ps.p = [] ∧ pt = ps.pt := by
  unfold Base.parsedAll at h
  obtain ⟨pt', s1, h1, h2⟩ := Alias.bind_ret h
  unfold Base.parsed at h1
  cases hf : ps.flt with
  | some f => rw [hf] at h1; cases h1
  | none =>
    rw [hf] at h1
    dsimp only at h1
    by_cases he : ps.ec.isSome = true
    · rw [if_pos he] at h1; cases h1
    · rw [if_neg he] at h1
      cases h1
      by_cases hp : ps.done = true
      · rw [if_pos hp] at h2
        cases h2
        exact ⟨by simpa using he, by simpa [PS.done] using hp, rfl⟩
      · rw [if_neg hp] at h2; cases h2

theorem set_encoded_host_kind {s : Str} (hs : s ≠ []) (h : Base.set_encoded_host s env st = .ret () st') :
    Host lib s ∧ st'.pt.host = (parse_hostname (PS.init s)).pt.host := by
  constructor
  · unfold Base.set_encoded_host at h
    rw [if_neg (by simpa using hs)] at h
    obtain ⟨pt, s1, h1, h2⟩ := Alias.bind_ret h
    obtain ⟨e1, e2, -⟩ := parsedAll_ret h1
    exact hostname_all.1 ⟨e1, e2⟩
  · revert h
    suffices Last Parts.host (parse_hostname (PS.init s)).pt.host (Base.set_encoded_host s) from fun h => this _ _ _ _ h
    unfold Base.set_encoded_host
    rw [if_neg (by simpa using hs)]
    refine Last.value (y := (parse_hostname (PS.init s)).pt) (fun _ _ _ _ h => (parsedAll_ret h).2.2) ?_
    repeat' first
      | exact Last.setPt fun _ => rfl
      | refine Last.right fun _ => ?_
      | split
      | dsimp only

/-- C33, whatever the state is: what the cached values are after a call that returns. Those of the url that it stored; or the counts are
as they were before, and so is the host type, unless the call stored a host, in which case it is that of the host. -/
theorem C33_cached {op : Op} (h : run op env st = .ret () st') :
    (∃ s v, s ≠ [] ∧ op = .set_encoded_url s ∧ View.make s = .ret v ∧ st'.pt = v.pt) ∨
    (¬ Loads op ∧ st'.pt.nseg = st.pt.nseg ∧ st'.pt.nparam = st.pt.nparam ∧
      ((∃ s, s ≠ [] ∧ op = .set_host s ∧ ∃ txt, PlainHost s txt st'.pt.host) ∨
       (∃ s, s ≠ [] ∧ op = .set_encoded_host s ∧ HostKind s st'.pt.host) ∨
       (¬ StoresHost op ∧ st'.pt.host = st.pt.host))) := by
  by_cases hl : Loads op
  · obtain ⟨s, hs, rfl⟩ := hl
    obtain ⟨v, h1, h2⟩ := stored_pt hs h
    exact .inl ⟨s, v, hs, rfl, h1, h2⟩
  have hl' : ∀ s, op = .set_encoded_url s → s = [] := fun s e => Classical.byContradiction fun hs => hl ⟨s, hs, e⟩
  have hc := Out.Has.ret (keep_run off_counts op hl' fun _ _ _ _ _ => rfl) h
  simp only [Parts.counts, Prod.mk.injEq] at hc
  refine .inr ⟨hl, hc.1, hc.2, ?_⟩
  by_cases hh : StoresHost op
  · obtain ⟨s, hs, rfl | rfl⟩ := hh
    · left
      obtain ⟨txt, k, -⟩ := plain_hostname_of s
      rw [set_host_kind hs _ _ _ _ h]
      exact ⟨s, hs, rfl, txt, k⟩
    · right; left
      obtain ⟨h1, h2⟩ := set_encoded_host_kind hs h
      rw [h2]
      exact ⟨s, hs, rfl, hostname_kind h1⟩
  · have hk := Out.Has.ret (keep_run off_cached op hl' fun s hs e => absurd ⟨s, hs, e⟩ hh) h
    simp only [Parts.cached, Prod.mk.injEq] at hk
    exact .inr (.inr ⟨hh, hk.2.2⟩)

/-- The parts tables of two objects after the same call agree in what is cached, if they did before. -/
theorem cached_alike {op : Op} (hc : a.pt.cached = b.pt.cached) (h : run op env a = .ret () a') (h' : run op env' b = .ret () b') :
    a'.pt.cached = b'.pt.cached := by
  simp only [Parts.cached, Prod.mk.injEq] at hc ⊢
  rcases C33_cached h with ⟨s, v, hs, rfl, h1, h2⟩ | ⟨hl, h1, h2, h3⟩
  · rcases C33_cached h' with ⟨s', v', -, e, h1', h2'⟩ | ⟨hl', -⟩
    · cases e
      rw [h1] at h1'
      cases h1'
      rw [h2, h2']; exact ⟨rfl, rfl, rfl⟩
    · exact absurd ⟨s, hs, rfl⟩ hl'
  · rcases C33_cached h' with ⟨s', v', hs', rfl, -⟩ | ⟨-, h1', h2', h3'⟩
    · exact absurd ⟨s', hs', rfl⟩ hl
    · refine ⟨by rw [h1, h1', hc.1], by rw [h2, h2', hc.2.1], ?_⟩
      rcases h3 with ⟨s, hs, rfl, txt, k⟩ | ⟨s, hs, rfl, k⟩ | ⟨hn, k⟩
      · rcases h3' with ⟨s', hs', e, txt', k'⟩ | ⟨s', hs', e, k'⟩ | ⟨hn', k'⟩
        · cases e
          exact (k.kind hs).unique ((plainHost_unique k k') ▸ k'.kind hs)
        · cases e
        · exact absurd ⟨s, hs, .inl rfl⟩ hn'
      · rcases h3' with ⟨s', hs', e, txt', k'⟩ | ⟨s', hs', e, k'⟩ | ⟨hn', k'⟩
        · cases e
        · cases e; exact k.unique k'
        · exact absurd ⟨s, hs, .inr rfl⟩ hn'
      · rcases h3' with ⟨s', hs', e, txt', k'⟩ | ⟨s', hs', e, k'⟩ | ⟨hn', k'⟩
        · exact absurd ⟨s', hs', .inl e⟩ hn
        · exact absurd ⟨s', hs', .inr e⟩ hn
        · rw [k, k', hc.2.2]

/-! ### Objects with the same text and parts -/

theorem Holds.url {env : Env} {st : St} {x : Texts} {t : Cell} (h : Holds env st x.cells t) (dbg : Bool) :
    encoded_url (st.obj dbg) = readCells x.cells.flatten := by
  show (st.obj dbg).get2 id_scheme id_end = _
  rw [h.get2 (by decide)]
  rfl

/-- the texts can be read if the whole text can -/
theorem texts_read {s : Str} {dbg : Bool} (hw : Worked env st) (hs : encoded_url (st.obj dbg) = .ok s) : ∃ x, texts (st.obj dbg) = .ok x := by
  obtain ⟨S, U, W, H, P, q, g, t, pa, h⟩ := hw.release.parts rfl
  generalize hpa : pa.map some = pc at h
  obtain ⟨u, rfl⟩ := init_iff.1 (h.url_iff.1 ⟨s, hs⟩)
  obtain ⟨sc, rfl⟩ := init_iff.1 h.S
  obtain ⟨w, rfl⟩ := init_iff.1 h.W
  obtain ⟨ho, rfl⟩ := init_iff.1 h.H
  obtain ⟨p, rfl⟩ := init_iff.1 h.P
  obtain ⟨qq, rfl⟩ := init_iff.1 h.q.init
  obtain ⟨ff, rfl⟩ := init_iff.1 h.f.init
  subst hpa
  exact ⟨⟨sc, u, w, ho, p, pa, qq, ff⟩, Holds.texts (env := env.release) (t := t) h.holds⟩

theorem texts_holds {x : Texts} {dbg : Bool} (hw : Worked env st) (hx : texts (st.obj dbg) = .ok x) :
    ∃ t, Holds env.release st x.cells t := by
  obtain ⟨t, h, -⟩ := hw.release.texts rfl hx
  exact ⟨t, h.holds⟩

theorem texts_url {x : Texts} {dbg dbg' : Bool} (hw : Worked env st) (hx : texts (st.obj dbg) = .ok x) :
    ∃ s, encoded_url (st.obj dbg') = .ok s := by
  obtain ⟨t, h⟩ := texts_holds hw hx
  rw [Props.Holds.url h]
  refine readCells_init.2 fun hm => ?_
  simp [Texts.cells] at hm

theorem alike_texts {s : Str} (ha : Worked env a) (hb : Worked env' b) (hs : Alike a b) (hr : encoded_url (a.obj false) = .ok s) :
    ∃ x, texts (a.obj false) = .ok x ∧ texts (b.obj false) = .ok x := by
  obtain ⟨x, hx⟩ := texts_read ha hr
  obtain ⟨y, hy⟩ := texts_read hb (hs.text ▸ hr)
  obtain ⟨t, h⟩ := texts_holds ha hx
  obtain ⟨t', h'⟩ := texts_holds hb hy
  have e : x.cells = y.cells := by
    refine parts_unique rfl ?_ fun i => ?_
    · have := hs.text
      rw [Props.Holds.url h, Props.Holds.url h'] at this
      rw [Props.Holds.url h] at hr
      rw [hr] at this
      rw [readCells_eq hr, readCells_eq this.symm]
    · rw [← h.rep i, ← h'.rep i, hs.pt]
  rw [cells_inj e] at hx
  exact ⟨y, hx, hy⟩

theorem texts_alike {x : Texts} (ha : Worked env a) (hb : Worked env' b) (hx : texts (a.obj false) = .ok x) (hy : texts (b.obj false) = .ok x)
    (hc : a.pt.cached = b.pt.cached) : Alike a b := by
  obtain ⟨t, h⟩ := texts_holds ha hx
  obtain ⟨t', h'⟩ := texts_holds hb hy
  refine ⟨by rw [Props.Holds.url h, Props.Holds.url h'], ?_⟩
  simp only [Parts.cached, Prod.mk.injEq] at hc
  have ho : a.pt.off = b.pt.off := funext fun i => (h.rep i).trans (h'.rep i).symm
  generalize a.pt = p at *
  generalize b.pt = q at *
  cases p; cases q
  simp_all

theorem behind_length {x : Texts} {dbg : Bool} (hw : Worked env st) (hx : texts (st.obj dbg) = .ok x) :
    x.behind.length = st.pt.length2 id_user id_end := by
  obtain ⟨t, h⟩ := texts_holds hw hx
  unfold Parts.length2
  rw [h.rep, h.rep]
  simp [id_end, id_user, plen, Texts.cells, Texts.behind]

theorem authority_length {x : Texts} {dbg : Bool} (hw : Worked env st) (hx : texts (st.obj dbg) = .ok x) :
    has_authority (st.obj dbg) = true ↔ x.authority ≠ [] := by
  obtain ⟨t, h⟩ := texts_holds hw hx
  unfold has_authority Parts.length2 St.obj
  rw [h.rep, h.rep]
  simp only [id_path, id_user, plen, Texts.cells, Texts.authority]
  simp

/-- The text is still one of written bytes after a call, unless the call is one of those that may make room without writing to all of
it, and the text has one character behind the scheme, which is part of the authority. -/
theorem C23_readable {op : Op} {s : Str} (hw : Worked env st) (hs : encoded_url (st.obj env.dbg) = .ok s)
    (hu : Op.Unwritten op → has_authority (st.obj env.dbg) = true → st.pt.length2 id_user id_end ≠ 1) (h : run op env st = .ret () st') :
    ∃ s', encoded_url (st'.obj env.dbg) = .ok s' := by
  obtain ⟨x, hx⟩ := texts_read hw hs
  obtain ⟨-, ⟨y, hy, -⟩ | ⟨h1, h2, -⟩⟩ := C71_texts hw hx h
  · exact texts_url (.call op hw (.inl h)) hy
  cases he : encoded_url (st'.obj env.dbg) with
  | ok s' => exact ⟨s', rfl⟩
  | error f =>
    obtain ⟨h3, h4⟩ := C23_exposes hw h hs he
    exact absurd h4 (hu h3 ((authority_length hw hx).2 h2))

/-- C54 after any calls and edits, in any builds, with any allocators: two objects that have the same text and the same table of parts
do after the same call, if it returns for both. The text consists of written bytes; one character behind the scheme that is part of the
authority is excepted where the call may leave bytes unwritten. -/
theorem C54_calls_worked {op : Op} {s : Str} (ha : Worked env a) (hb : Worked env' b) (hs : Alike a b) (hr : encoded_url (a.obj false) = .ok s)
    (hu : Op.Unwritten op → has_authority (a.obj false) = true → a.pt.length2 id_user id_end ≠ 1) (h : run op env a = .ret () a') (h' : run op env' b = .ret () b') :
    Alike a' b' ∧ ∃ s', encoded_url (a'.obj false) = .ok s' := by
  obtain ⟨x, hx, hy⟩ := alike_texts ha hb hs hr
  have hl : Op.Unwritten op → x.authority ≠ [] → x.behind.length ≠ 1 := fun k k' => by
    rw [behind_length ha hx]; exact hu k ((authority_length ha hx).2 k')
  have hr1 : encoded_url (a.obj env.dbg) = .ok s := hr
  obtain ⟨s1, e1⟩ := C23_readable ha hr hu h
  obtain ⟨s2, e2⟩ := C23_readable (s := s) hb (hs.text ▸ hr) (fun k k' => by
    rw [← hs.pt]; exact hu k (by unfold has_authority St.obj at k' ⊢; rw [hs.pt]; exact k')) h'
  have ha' : Worked env a' := .call op ha (.inl h)
  have hb' : Worked env' b' := .call op hb (.inl h')
  have e1 : encoded_url (a'.obj false) = .ok s1 := e1
  have e2 : encoded_url (b'.obj false) = .ok s2 := e2
  obtain ⟨y, hy1⟩ := texts_read ha' e1
  obtain ⟨z, hz1⟩ := texts_read hb' e2
  obtain rfl := C71_alike ha hb hx hy hl h h' hy1 hz1
  exact ⟨texts_alike ha' hb' hy1 hz1 (cached_alike (by rw [hs.pt]) h h'), s1, e1⟩

/-- C54: and if the one rejects its argument, then so does the other, unless an assertion stops it. -/
theorem C54_rejects_worked {op : Op} {s : Str} (ha : Worked env a) (hb : Worked env' b) (hs : Alike a b) (hr : encoded_url (a.obj false) = .ok s)
    (h : Rejects op env a) : Rejects op env' b ∨ env'.dbg = true ∧ ∃ f, run op env' b = .fault f := by
  obtain ⟨x, hx, hy⟩ := alike_texts ha hb hs hr
  exact (C71_accepts hb hy).2 ((C71_accepts ha hx).1 h)

/-- C54 for edits through iterators into the path: they leave objects that agree again, and the same iterator. (Where the counts wrap
depends on the size of `std::size_t`.) -/
theorem C54_edits_worked {e : ItOp} {it it' : SegIt} {s : Str} (ha : Worked env a) (hb : Worked env' b) (hs : Alike a b)
    (hr : encoded_url (a.obj false) = .ok s) (hm : env.sizeMax = env'.sizeMax) (hin : e.InPath a)
    (h : runIt e env a = .ret it a') (h' : runIt e env' b = .ret it' b') :
    it = it' ∧ Alike a' b' ∧ ∃ s', encoded_url (a'.obj false) = .ok s' := by
  obtain ⟨x, hx, hy⟩ := alike_texts ha hb hs hr
  obtain ⟨t, hp, -⟩ := ha.release.texts rfl hx
  obtain ⟨t', hp', -⟩ := hb.release.texts rfl hy
  have hin' : e.InPath b := by
    unfold ItOp.InPath at hin ⊢
    rw [← hs.pt]; exact hin
  have key : ∀ {env : Env} {st st' : St} {it : SegIt}, runIt e env st = .ret it st' → runIt e env.release st = .ret it st' := by
    intro env st st' it h
    rcases runIt_sim e env st with ⟨f, h'⟩ | h'
    · rw [h] at h'; cases h'
    · rw [← h', h]
  have o := hp.edit rfl hin
  have o' := hp'.edit rfl hin'
  rw [key h] at o
  rw [key h'] at o'
  rcases o with ⟨-, o⟩ | ⟨hv, o⟩
  · cases o
  rcases o' with ⟨-, o'⟩ | ⟨-, o'⟩
  · cases o'
  obtain ⟨g1, g2, g3, ⟨u, g4⟩, g5, g6, g7, -⟩ := o
  obtain ⟨k1, k2, k3, ⟨u', k4⟩, k5, k6, k7, -⟩ := o'
  rw [hs.pt] at g1 g2 g3 g4 g5 g6 g7
  have ha' : Worked env a' := .edit e ha hin (.inl ⟨it, h⟩)
  have hb' : Worked env' b' := .edit e hb hin' (.inl ⟨it', h'⟩)
  have t1 : texts (a'.obj false) = .ok { x with path := e.path (b.pt.off id_path) x.path } :=
    Holds.texts (env := env.release) (t := u) g4
  have t2 : texts (b'.obj false) = .ok { x with path := e.path (b.pt.off id_path) x.path } :=
    Holds.texts (env := env'.release) (t := u') k4
  refine ⟨?_, texts_alike ha' hb' t1 t2 ?_, texts_url ha' t1⟩
  · by_cases hi : e.text = [] ∧ e.removed (b.pt.off id_path) x.path = []
    · rw [(g3 hi).1, (k3 hi).1]
    · have e1 : it.off = it'.off := by omega
      have e2 : it.n = it'.n := (g2 hi).trans (k2 hi).symm
      cases it; cases it'
      simp_all
  · simp only [Parts.cached, Prod.mk.injEq]
    refine ⟨?_, by rw [g5, k5], by rw [g6, k6]⟩
    rw [g7, k7]
    show (if _ then Base.modSub env.sizeMax _ _ else Base.modAdd env.sizeMax (Base.modSub env.sizeMax _ _) 1) = _
    rw [hm]
    rfl

/-- a call, or an edit through iterators -/
inductive Step where
  | call (op : Op)
  | edit (e : ItOp)

/-- the step returns -/
def Step.Leads (env : Env) (st st' : St) : Step → Prop
  | .call op => run op env st = .ret () st'
  | .edit e => e.InPath st ∧ ∃ it, runIt e env st = .ret it st'

/-- the steps return, one after the other -/
inductive Leads (env : Env) : St → List Step → St → Prop
  | done {st : St} : Leads env st [] st
  | step {st st1 st' : St} {x : Step} {xs : List Step} : x.Leads env st st1 → Leads env st1 xs st' → Leads env st (x :: xs) st'

/-- the step writes to all the room it makes -/
def Step.Writes : Step → Prop
  | .call op => ¬ Op.Unwritten op
  | .edit _ => True

theorem Worked.leads {xs : List Step} (hw : Worked env st) (h : Leads env st xs st') : Worked env st' := by
  induction h with
  | done => exact hw
  | @step st st1 st' x xs h _ ih =>
    cases x with
    | call op => exact ih (.call op hw (.inl h))
    | edit e => exact ih (.edit e hw h.1 (.inl h.2))

/-- C23: the text of a url that has only been modified by edits and by calls other than those that set the user or remove the userinfo
consists of written bytes. -/
theorem C23_written {xs : List Step} (hx : ∀ x ∈ xs, x.Writes) (h : Leads env Base.empty xs st') : ∃ s, encoded_url (st'.obj env.dbg) = .ok s := by
  suffices ∀ {st : St}, Worked env st → (∃ s, encoded_url (st.obj env.dbg) = .ok s) → Leads env st xs st' →
      ∃ s, encoded_url (st'.obj env.dbg) = .ok s by
    exact this .empty ⟨[], rfl⟩ h
  clear h
  intro st hw hs h
  induction h with
  | done => exact hs
  | @step st st1 st' x xs h _ ih =>
    obtain ⟨s, hs⟩ := hs
    have hx1 := hx x (by simp)
    cases x with
    | call op => exact ih (fun y hy => hx y (by simp [hy])) (.call op hw (.inl h)) (C23_readable hw hs (fun k => absurd k hx1) h)
    | edit e =>
      obtain ⟨hin, it, h⟩ := h
      have hw' : Worked env st1 := .edit e hw hin (.inl ⟨it, h⟩)
      exact ih (fun y hy => hx y (by simp [hy])) hw' (C54_edits_worked hw hw .refl hs rfl hin h h).2.2

/-- C54 for sequences of calls and edits: after any histories, in any builds, with any allocators, two objects with the same text and the
same table of parts stay so as long as the same calls and edits return for both; calls that may leave bytes unwritten are left out. -/
theorem C54_histories {xs : List Step} {s : Str} (ha : Worked env a) (hb : Worked env' b) (hs : Alike a b)
    (hr : encoded_url (a.obj false) = .ok s) (hm : env.sizeMax = env'.sizeMax) (hx : ∀ x ∈ xs, x.Writes)
    (h : Leads env a xs a') (h' : Leads env' b xs b') : Alike a' b' ∧ ∃ s', encoded_url (a'.obj false) = .ok s' := by
  induction h generalizing b s with
  | done => cases h'; exact ⟨hs, s, hr⟩
  | @step a a1 a' x xs h _ ih =>
    cases h' with
    | @step _ b1 _ _ _ k k2 =>
    have hx1 := hx x (by simp)
    have hxs : ∀ y ∈ xs, y.Writes := fun y hy => hx y (by simp [hy])
    cases x with
    | call op =>
      obtain ⟨h1, s1, h2⟩ := C54_calls_worked ha hb hs hr (fun k => absurd k hx1) h k
      exact ih (.call op ha (.inl h)) (.call op hb (.inl k)) h1 h2 hxs k2
    | edit e =>
      obtain ⟨hin, it, h⟩ := h
      obtain ⟨hin', it', k⟩ := k
      obtain ⟨-, h1, s1, h2⟩ := C54_edits_worked ha hb hs hr hm hin h k
      exact ih (.edit e ha hin (.inl ⟨it, h⟩)) (.edit e hb hin' (.inl ⟨it', k⟩)) h1 h2 hxs k2

/-! ### Cases -/

/-- two ways to a lone `:` -/
def colonOne : List Op := [.set_fragment b!"abcdefgh", .set_fragment []] ++ oneLeft

def colonTwo : List Op := [.set_encoded_fragment b!"abcdefgh", .set_scheme b!"x", .set_fragment [], .set_scheme []] ++ oneLeft

/-- where the steps lead -/
def follow (env : Env) : List Step → St → Option St
  | [], st => some st
  | .call op :: xs, st =>
    match run op env st with
    | .ret () st1 => follow env xs st1
    | _ => none
  | .edit e :: xs, st =>
    if e.InPath st then
      match runIt e env st with
      | .ret _ st1 => follow env xs st1
      | _ => none
    else none

theorem follow_leads {xs : List Step} (h : follow env xs st = some st') : Leads env st xs st' := by
  induction xs generalizing st with
  | nil => cases h; exact .done
  | cons x xs ih =>
    cases x with
    | call op =>
      rw [follow] at h
      cases hr : run op env st with
      | ret u s1 => rw [hr] at h; exact .step hr (ih h)
      | throw e s1 => rw [hr] at h; cases h
      | fault f => rw [hr] at h; cases h
    | edit e =>
      rw [follow] at h
      split at h
      · rename_i hin
        cases hr : runIt e env st with
        | ret it s1 => rw [hr] at h; exact .step ⟨hin, it, hr⟩ (ih h)
        | throw e s1 => rw [hr] at h; cases h
        | fault f => rw [hr] at h; cases h
      · cases h

/-- the text the steps lead to -/
def followed (env : Env) (xs : List Step) (st : St) : Option Str := (follow env xs st).bind fun st => (encoded_url (st.obj false)).toOption

theorem texts_alike_of {x : Texts} (ha : Worked env a) (hb : Worked env' b)
    (h : texts (a.obj false) = .ok x ∧ texts (b.obj false) = .ok x ∧ a.pt.cached = b.pt.cached) : Alike a b :=
  texts_alike ha hb h.1 h.2.1 h.2.2

/-- C54 does not hold for one character behind the scheme: the objects agree, the call returns for both, and leaves the byte behind the
text in the text: a null character in the one, a byte that was never written in the other. -/
theorem C54_unwritten_false : Worked env0 (after colonOne) ∧ Worked env0 (after colonTwo) ∧ Alike (after colonOne) (after colonTwo) ∧
    encoded_url ((after colonOne).obj false) = .ok b!":" ∧
    returns (run (.set_encoded_userinfo []) env0 (after colonOne)) = true ∧
    returns (run (.set_encoded_userinfo []) env0 (after colonTwo)) = true ∧
    encoded_url ((after (colonOne ++ [.set_encoded_userinfo []])).obj false) = .error .ub ∧
    encoded_url ((after (colonTwo ++ [.set_encoded_userinfo []])).obj false) = .ok [58, 0, 58] :=
  have ha : Worked env0 (after colonOne) := (after_used (by decide +kernel)).worked
  have hb : Worked env0 (after colonTwo) := (after_used (by decide +kernel)).worked
  ⟨ha, hb, texts_alike_of (x := ⟨[], [], [], [], b!":", [], [], []⟩) ha hb (by decide +kernel), by decide +kernel, by decide +kernel,
    by decide +kernel, by decide +kernel, by decide +kernel⟩

/-- A case of `C54_calls_worked` that `C54_calls` does not have: the texts are not the parts of a URL. -/
example : Worked env0 (after (colonOne ++ [.set_encoded_path b!"/p"])) ∧ Worked env1 (afterRelease (colonTwo ++ [.set_encoded_path b!"/p"])) ∧
    Alike (after (colonOne ++ [.set_encoded_path b!"/p"])) (afterRelease (colonTwo ++ [.set_encoded_path b!"/p"])) ∧
    encoded_url ((after (colonOne ++ [.set_encoded_path b!"/p"])).obj false) = .ok b!":/p" ∧
    (after (colonOne ++ [.set_encoded_path b!"/p"])).pt.length2 id_user id_end ≠ 1 ∧
    textOf (run (.set_encoded_userinfo []) env0 (after (colonOne ++ [.set_encoded_path b!"/p"]))) = some b!":/:/p" ∧
    textOf (run (.set_encoded_userinfo []) env1 (afterRelease (colonTwo ++ [.set_encoded_path b!"/p"]))) = some b!":/:/p" :=
  have ha : Worked env0 (after (colonOne ++ [.set_encoded_path b!"/p"])) := (after_used (by decide +kernel)).worked
  have hb : Worked env1 (afterRelease (colonTwo ++ [.set_encoded_path b!"/p"])) := (afterRelease_used (by decide +kernel)).worked
  ⟨ha, hb, texts_alike_of (x := ⟨[], [], [], [], b!":", b!"/p", [], []⟩) ha hb (by decide +kernel), by decide +kernel, by decide +kernel,
    by decide +kernel, by decide +kernel⟩

/-- A case of `C33_cached`: the path and the host have changed, the number of segments has not. -/
example : returns (run (.set_encoded_host b!"1.2.3.4") env0 (after [.set_encoded_url b!"//h/p"])) = true ∧
    (after [.set_encoded_url b!"//h/p"]).pt.cached = (1, 0, .name) ∧
    (after [.set_encoded_url b!"//h/p", .set_encoded_host b!"1.2.3.4"]).pt.cached = (1, 0, .ipv4) ∧
    (after [.set_encoded_url b!"//h/p", .set_encoded_path b!"/p/q"]).pt.cached = (1, 0, .name) ∧
    (after [.set_encoded_url b!"//h/p", .set_encoded_url b!"/p/q?x"]).pt.cached = (2, 1, .none) := by decide +kernel

/-- the steps of the case below -/
def editSteps : List Step := [.call (.set_encoded_query b!"q"), .edit (.insert ⟨1, 2⟩ b!"z"), .call (.set_scheme b!"s")]

/-- A case of `C54_histories`: the texts are not the parts of a URL, the builds are different, and so are the objects. -/
example : (∀ x ∈ editSteps, x.Writes) ∧
    Alike (afterRelease (colonOne ++ [.set_encoded_path b!"/p"])) (after (colonTwo ++ [.set_encoded_path b!"/p"])) ∧
    (afterRelease (colonOne ++ [.set_encoded_path b!"/p"])).cap ≠ (after (colonTwo ++ [.set_encoded_path b!"/p"])).cap ∧
    followed env1 editSteps (afterRelease (colonOne ++ [.set_encoded_path b!"/p"])) = some b!"s::/z/p?q" ∧
    followed env0 editSteps (after (colonTwo ++ [.set_encoded_path b!"/p"])) = some b!"s::/z/p?q" := by
  refine ⟨?_, texts_alike_of (env := env1) (env' := env0) (x := ⟨[], [], [], [], b!":", b!"/p", [], []⟩) (afterRelease_used (by decide +kernel)).worked
    (after_used (by decide +kernel)).worked (by decide +kernel), by decide +kernel, by decide +kernel, by decide +kernel⟩
  intro x hx
  simp only [editSteps, List.mem_cons, List.not_mem_nil, or_false] at hx
  rcases hx with rfl | rfl | rfl
  · exact fun h => h
  · trivial
  · exact fun h => h

end Url.Props
