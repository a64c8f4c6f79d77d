import Verif.Props.Exposed
import Verif.Proofs.Stored
import Verif.Proofs.Algebra

/-!
C15 and C16 for all histories: what a component reads as after it was set, whatever calls and edits came before.
-/

set_option linter.unusedSimpArgs false
set_option autoImplicit false

namespace Url.Props
open Url Spec
variable {env : Env} {st st' : St}

/-- The setters of plain text and the accessors that return it. -/
inductive PlainPair : Op → (Obj → R Str) → Str → Prop
  | password (s : Str) : PlainPair (.set_password s) Base.password s
  | host (s : Str) : PlainPair (.set_host s) Url.host s
  | query (s : Str) : PlainPair (.set_query s) Url.query s
  | fragment (s : Str) : PlainPair (.set_fragment s) Url.fragment s

/-- The setters of encoded text and the accessors that return it. `set_password_part` does not look at the first character of
an argument of two or more. -/
inductive EncodedPair : Op → (Obj → R Str) → Str → Prop
  | url (s : Str) : EncodedPair (.set_encoded_url s) encoded_url s
  | scheme (s : Str) : EncodedPair (.set_scheme s) Url.scheme s
  | authority (s : Str) : EncodedPair (.set_encoded_authority s) encoded_authority s
  | userinfo (s : Str) : s ≠ [] → EncodedPair (.set_encoded_userinfo s) Base.encoded_userinfo s
  | userinfo_part (s : Str) : s ≠ [] → EncodedPair (.set_userinfo_part (s ++ b!"@")) Url.userinfo_part (s ++ b!"@")
  | password (s : Str) : EncodedPair (.set_encoded_password s) Base.encoded_password s
  | password_view (s : Str) : EncodedPair (.set_encoded_password s) View.encoded_password s
  | password_none : EncodedPair (.set_password_part []) Base.encoded_password []
  | password_part (d : Byte) (s : Str) : EncodedPair (.set_password_part (d :: s)) Base.encoded_password s
  | host (s : Str) : EncodedPair (.set_encoded_host s) encoded_host s
  | port (s : Str) : EncodedPair (.set_port s) Url.port s
  | port_number (n : UInt32) (s : Str) : Decimal n.toNat s → EncodedPair (.set_port_number n) Url.port s
  | port_part (s : Str) : EncodedPair (.set_port_part s) Url.port_part s
  | path (s : Str) : EncodedPair (.set_encoded_path s) encoded_path s
  | query (s : Str) : EncodedPair (.set_encoded_query s) encoded_query s
  | query_part (s : Str) : EncodedPair (.set_query_part s) Url.query_part s
  | fragment (s : Str) : EncodedPair (.set_encoded_fragment s) encoded_fragment s
  | fragment_part (s : Str) : EncodedPair (.set_fragment_part s) Url.fragment_part s

theorem released {op : Op} (h : run op env st = .ret () st') : run op env.release st = .ret () st' := by
  rcases run_sim op env st with ⟨f, h'⟩ | h'
  · rw [h] at h'; cases h'
  · rw [← h', h]

theorem _root_.Url.SOut.get {Q : St → List (List Cell) → Prop} {o : Out Unit} (ho : SOut env Q o) (h : o = .ret () st') :
    ∃ L t', Holds env st' L t' ∧ Q st' L := by
  subst h; exact ho

theorem _root_.Url.SOut.slot {id : Nat} {s : Str} {o : Out Unit} (ho : SOut env (Slot id s) o) (h : o = .ret () st') (dbg : Bool) :
    (st'.obj dbg).get id = .ok s := by
  obtain ⟨L, t', h1, h2⟩ := ho.get h
  rw [h1.get, h2, readCells_some]

section
variable {o : Obj} {s : Str}

theorem scheme_of (h : o.get id_scheme = .ok (if s = [] then [] else s ++ b!":")) : scheme o = .ok s := by
  unfold scheme
  rw [h]
  by_cases hs : s = []
  · subst hs; rfl
  · rw [if_neg hs]
    simp [bind, Except.bind, pure, Except.pure, backIs, removeSuffix, Obj.assert]

theorem port_of (h : o.get id_port = .ok (if s = [] then [] else b!":" ++ s)) : port o = .ok s := by
  unfold port
  rw [h]
  by_cases hs : s = []
  · subst hs; simp [bind, Except.bind, pure, Except.pure, Obj.assert]
  · rw [if_neg hs]
    simp [bind, Except.bind, pure, Except.pure, frontIs, atIs, removePrefix, Obj.assert]

theorem delimited_of {id : Nat} {d : Byte} (h : o.get id = .ok s) (hs : s = [] ∨ ∃ r, s = d :: r) : delimited o id d = .ok s := by
  unfold delimited
  rw [h]
  rcases hs with rfl | ⟨r, rfl⟩
  · rfl
  · simp [bind, Except.bind, pure, Except.pure, frontIs, atIs, Obj.assert]

theorem password_of {x : Str} (h : o.get id_password = .ok x) (hx : s = [] ∧ (x = [] ∨ x = b!"@") ∨ x = b!":" ++ s ++ b!"@") :
    Base.encoded_password o = .ok s ∧ View.encoded_password o = .ok s := by
  unfold Base.encoded_password View.encoded_password
  rw [h]
  rcases hx with ⟨rfl, rfl | rfl⟩ | rfl
  · exact ⟨rfl, rfl⟩
  · simp [bind, Except.bind, pure, Except.pure, frontIs, backIs, removeSuffix, Obj.assert]
  · simp [bind, Except.bind, pure, Except.pure, frontIs, backIs, removePrefix, removeSuffix, Obj.assert, List.getLast?_cons]

theorem encoded_authority_of (h : o.get2 id_user id_path = .ok (if s = [] then [] else b!"//" ++ s)) : encoded_authority o = .ok s := by
  unfold encoded_authority
  rw [h]
  by_cases hs : s = []
  · subst hs; rfl
  · rw [if_neg hs]
    simp [bind, Except.bind, pure, Except.pure, removePrefix, Obj.assert]

theorem userinfo_of (h : o.get2 id_user id_host = .ok (b!"//" ++ s ++ b!"@")) :
    userinfo_part o = .ok (s ++ b!"@") ∧ Base.encoded_userinfo o = .ok s := by
  have h1 : userinfo_part o = .ok (s ++ b!"@") := by
    unfold userinfo_part
    rw [h]
    simp [bind, Except.bind, pure, Except.pure, backIs, removePrefix, Obj.assert]
  refine ⟨h1, ?_⟩
  unfold Base.encoded_userinfo
  rw [h1]
  simp [bind, Except.bind, pure, Except.pure, backIs, removeSuffix, Obj.assert]

end

theorem _root_.Url.SOut.password {s : Option Str} {o : Out Unit} (ho : SOut env (PasswordSlot s) o) (h : o = .ret () st') (dbg : Bool) :
    Base.encoded_password (st'.obj dbg) = .ok (s.getD []) ∧ View.encoded_password (st'.obj dbg) = .ok (s.getD []) := by
  obtain ⟨L, t', h1, h2⟩ := ho.get h
  have hg := h1.get id_password dbg
  cases s with
  | none =>
    rcases h2 with h2 | h2
    · rw [h2] at hg
      exact password_of (x := []) hg (.inl ⟨rfl, .inl rfl⟩)
    · rw [h2] at hg
      exact password_of (x := b!"@") hg (.inl ⟨rfl, .inr rfl⟩)
  | some s =>
    have h2 : L.getD id_password [] = (b!":" ++ s ++ b!"@").map some := h2
    rw [h2, readCells_some] at hg
    exact password_of hg (.inr rfl)

theorem setPart_head {id : Nat} {d : Byte} {e : PctSet} {s : Str} (h : Base.setPart id d e s env st = .ret () st') : s = [] ∨ ∃ r, s = d :: r := by
  cases s with
  | nil => exact .inl rfl
  | cons a s =>
    unfold Base.setPart at h
    rw [if_neg (by simp)] at h
    by_cases hn : a = d
    · exact .inr ⟨s, by rw [hn]⟩
    · rw [run_bind_throw (run_require_false (by simpa using hn))] at h
      cases h

/-- C16: whatever calls and edits came before, with assertions or without, after a setter of encoded text returned the
component reads as the text it was given. -/
theorem C16_worked {op : Op} {acc : Obj → R Str} {s : Str} (hu : Worked env st) (h : run op env st = .ret () st')
    (hp : EncodedPair op acc s) (dbg : Bool) : acc (st'.obj dbg) = .ok s := by
  have h1 := released h
  obtain ⟨S, U, W, H, P, q, g, t, pa, hw⟩ := hu.release.parts rfl
  cases hp with
  | url s =>
    obtain ⟨L, t', hh, hl, hf⟩ := (s_url hw s).get h1
    refine (hh.get2 (Nat.zero_le _) dbg).trans ?_
    rw [show ((L.take id_end).drop id_scheme) = L from by rw [List.take_of_length_le (by rw [hl]; decide)]; rfl, hf, readCells_some]
  | scheme s => exact scheme_of ((s_scheme hw s).slot h1 dbg)
  | authority s =>
    refine encoded_authority_of ?_
    by_cases hs : s = []
    · subst hs
      have : SOut env.release (fun _ L => ((L.take id_path).drop id_user).flatten = []) (Base.set_encoded_authority [] env.release st) :=
        s_cut (A := [S]) (Xs := [U, W, H, P]) (B := [_, q, g]) (k := 3) (by simpa using hw.holds) rfl rfl rfl fun _ X' hl => by
          rw [List.length_eq_zero_iff.1 hl]; rfl
      obtain ⟨L, t', hh, hf⟩ := this.get h1
      rw [hh.get2 (by decide), hf]; rfl
    · rw [if_neg hs]
      obtain ⟨L, t', hh, hf⟩ := (s_authority hw s hs).get h1
      rw [hh.get2 (by decide), hf, readCells_some]
  | userinfo s hs =>
    refine (userinfo_of ?_).2
    obtain ⟨L, t', hh, hf⟩ := (s_userinfo hw s hs).get h1
    rw [hh.get2 (by decide), hf, readCells_some]
  | userinfo_part s hs =>
    refine (userinfo_of ?_).1
    have e : Base.set_userinfo_part (s ++ b!"@") env.release st = Base.set_encoded_userinfo s env.release st := by
      unfold Base.set_userinfo_part
      rw [if_neg (by simp), run_bind_ret (run_require (by simp))]
      simp
    obtain ⟨L, t', hh, hf⟩ := (s_userinfo hw s hs).get (e.symm.trans h1)
    rw [hh.get2 (by decide), hf, readCells_some]
  | password s =>
    have := ((s_set_encoded_password hw rfl s).password h1 dbg).1
    rwa [show (if s = [] then none else some s).getD [] = s from by split <;> simp_all] at this
  | password_view s =>
    have := ((s_set_encoded_password hw rfl s).password h1 dbg).2
    rwa [show (if s = [] then none else some s).getD [] = s from by split <;> simp_all] at this
  | password_none => exact ((s_set_password_part hw rfl []).password h1 dbg).1
  | password_part d s =>
    have := ((s_set_password_part hw rfl (d :: s)).password h1 dbg).1
    rw [this]
    split
    · rename_i hc
      obtain rfl : s = [] := by simpa using (hc.resolve_left (by simp)).1
      rfl
    · rfl
  | host s => exact (s_set_encoded_host hw rfl s).slot h1 dbg
  | port s => exact port_of ((s_set_port hw rfl s).slot h1 dbg)
  | port_number n s hn =>
    obtain ⟨L, t', hh, s', hdec, hl⟩ := (s_port_number hw rfl n).get h1
    obtain rfl := decimal_unique hn hdec
    refine port_of ?_
    rw [if_neg hn.1, hh.get, hl, readCells_some]
  | port_part s =>
    have hg := (s_set_port_part hw rfl s).slot h1 dbg
    show Url.port_part _ = _
    unfold Url.port_part
    rw [hg]
    by_cases hs : s = []
    · subst hs; simp [bind, Except.bind, pure, Except.pure, Obj.assert]
    · have : s.head? = some c!":" := by
        have h1 : Base.set_port_part s env.release st = .ret () st' := h1
        unfold Base.set_port_part at h1
        rw [if_neg (by simpa using hs)] at h1
        apply Decidable.byContradiction
        intro hn
        rw [run_bind_throw (run_require_false (by simpa using hn))] at h1
        cases h1
      cases s with
      | nil => cases this
      | cons a s =>
        obtain rfl : a = c!":" := by simpa using this
        simp [bind, Except.bind, pure, Except.pure, frontIs, Obj.assert]
  | path s => exact (s_set_encoded_path hw s).slot h1 dbg
  | query s =>
    have := (s_encoded (A := [S, U, W, H, P, _]) (X := q) (B := [g]) hw.holds rfl).slot (id := id_query) h1 dbg
    unfold encoded_query
    rw [delimited_of this (by split <;> simp)]
    by_cases hs : s = [] <;> simp [hs, bind, Except.bind, pure, Except.pure]
  | query_part s =>
    have := (s_part (A := [S, U, W, H, P, _]) (X := q) (B := [g]) hw.holds rfl).slot (id := id_query) h1 dbg
    exact delimited_of this (setPart_head h1)
  | fragment s =>
    have := (s_encoded (A := [S, U, W, H, P, _, q]) (X := g) (B := []) hw.holds rfl).slot (id := id_frag) h1 dbg
    unfold encoded_fragment
    rw [delimited_of this (by split <;> simp)]
    by_cases hs : s = [] <;> simp [hs, bind, Except.bind, pure, Except.pure]
  | fragment_part s =>
    have := (s_part (A := [S, U, W, H, P, _, q]) (X := g) (B := []) hw.holds rfl).slot (id := id_frag) h1 dbg
    exact delimited_of this (setPart_head h1)

theorem decodeR_nil : decodeR [] = .ok [] := rfl

/-- C15: whatever calls and edits came before, with assertions or without, after a setter of plain text returned the component
decodes to the text it was given. -/
theorem C15_worked {op : Op} {acc : Obj → R Str} {s : Str} (hu : Worked env st) (h : run op env st = .ret () st')
    (hp : PlainPair op acc s) (dbg : Bool) : acc (st'.obj dbg) = .ok s := by
  have h1 := released h
  obtain ⟨S, U, W, H, P, q, g, t, pa, hw⟩ := hu.release.parts rfl
  cases hp with
  | password s =>
    have := ((s_set_password hw rfl s).password h1 dbg).1
    unfold Base.password
    rw [this]
    by_cases hs : s = []
    · subst hs; rfl
    · rw [if_neg hs, encode_eq setOf_userinfo]
      exact decode_pctEncode setOf_userinfo s
  | host s =>
    by_cases hs : s = []
    · subst hs
      have hg : (st'.obj dbg).get id_host = .ok [] := (s_clear_host hw rfl).slot h1 dbg
      unfold Url.host encoded_host
      rw [hg]
      split <;> rfl
    · obtain ⟨L, t', hh, txt, k, hp, hl, hk⟩ := (s_set_host hw rfl s hs).get h1
      have hg : (st'.obj dbg).get id_host = .ok txt := by rw [hh.get, hl, readCells_some]
      have hkk : (st'.obj dbg).pt.host = k := hk
      unfold Url.host encoded_host
      rw [hkk, hg]
      clear hl hg hk hkk
      cases hp with
      | ipv4 => simp
      | literal => simp
      | name => simpa [bind, Except.bind] using decode_pctEncode setOf_regName s
  | query s =>
    have := (s_plain (A := [S, U, W, H, P, _]) (X := q) (B := [g]) hw.holds rfl (encoded_size_eq setOf_query s)).slot (id := id_query) h1 dbg
    unfold Url.query encoded_query
    rw [delimited_of this (by split <;> simp)]
    by_cases hs : s = []
    · subst hs; rfl
    · rw [if_neg hs, encode_eq setOf_query]
      exact decode_pctEncode setOf_query s
  | fragment s =>
    have := (s_plain (A := [S, U, W, H, P, _, q]) (X := g) (B := []) hw.holds rfl (encoded_size_eq setOf_frag s)).slot (id := id_frag) h1 dbg
    unfold Url.fragment encoded_fragment
    rw [delimited_of this (by split <;> simp)]
    by_cases hs : s = []
    · subst hs; rfl
    · rw [if_neg hs, encode_eq setOf_frag]
      exact decode_pctEncode setOf_frag s

/-- C15, C16: the kind of a host set as plain text, and its encoding. -/
theorem C15_worked_host {s : Str} (hu : Worked env st) (hs : s ≠ []) (h : Base.set_host s env st = .ret () st') (dbg : Bool) :
    ∃ txt, encoded_host (st'.obj dbg) = .ok txt ∧ PlainHost s txt (host_type (st'.obj dbg)) := by
  obtain ⟨S, U, W, H, P, q, g, t, pa, hw⟩ := hu.release.parts rfl
  obtain ⟨L, t', hh, txt, k, hp, hl, hk⟩ := (s_set_host hw rfl s hs).get (released (op := .set_host s) h)
  refine ⟨txt, ?_, ?_⟩
  · show (st'.obj dbg).get id_host = _
    rw [hh.get, hl, readCells_some]
  · rw [show host_type (st'.obj dbg) = k from hk]; exact hp

/-- The user can be read: with assertions, when it is empty or starts with `//`; without, when all of its bytes were written. -/
def UserReadable (st : St) (dbg : Bool) : Prop :=
  ∃ x, (st.obj dbg).get id_user = .ok x ∧ (dbg = true → x = [] ∨ x.take 2 = b!"//")

theorem user_of {s : Str} {o : Out Unit} (ho : SOut env (UserSlot s) o) (h : o = .ret () st') {dbg : Bool} (hr : UserReadable st' dbg) :
    encoded_user (st'.obj dbg) = .ok s := by
  obtain ⟨L, t', hh, hq⟩ := ho.get h
  obtain ⟨x, hx, hd⟩ := hr
  have hg := hh.get id_user dbg
  unfold encoded_user
  rcases hq with ⟨a, b, e⟩ | ⟨e, rfl⟩
  · rw [e, hx] at hg
    have hi : Init (a :: b :: s.map some) := readCells_init.1 ⟨x, hg.symm⟩
    obtain ⟨y, hy⟩ := init_iff.1 hi
    rw [hy, readCells_some] at hg
    have hxy : x = y := by simpa using hg
    rw [hxy] at hx hd
    clear hg hxy
    match y, hy with
    | [], hy => simp at hy
    | [_], hy => simp at hy
    | c :: d :: y, hy =>
      obtain ⟨rfl, rfl, hsy⟩ : a = some c ∧ b = some d ∧ s = y := by
        simp only [List.map_cons, List.cons.injEq] at hy
        refine ⟨hy.1, hy.2.1, ?_⟩
        have := hy.2.2
        rwa [List.map_inj_right (by intro x y h; cases h; rfl)] at this
      subst hsy
      rw [hx]
      cases dbg with
      | false => simp [bind, Except.bind, pure, Except.pure, removePrefix, Obj.assert, St.obj]
      | true =>
        have := (hd rfl).resolve_left (by simp)
        have : c = 47 ∧ d = 47 := by simpa using this
        simp [bind, Except.bind, pure, Except.pure, removePrefix, Obj.assert, St.obj, this.1, this.2]
  · rw [hg, e]; rfl

/-- C16: the user reads as the text it was set to, if it can be read. -/
theorem C16_worked_user {s : Str} (hu : Worked env st) (h : Base.set_encoded_user s env st = .ret () st') {dbg : Bool}
    (hr : UserReadable st' dbg) : encoded_user (st'.obj dbg) = .ok s := by
  obtain ⟨S, U, W, H, P, q, g, t, pa, hw⟩ := hu.release.parts rfl
  exact user_of (s_set_encoded_user hw rfl s) (released (op := .set_encoded_user s) h) hr

/-- C15: the user decodes to the text it was set to, if it can be read. -/
theorem C15_worked_user {s : Str} (hu : Worked env st) (h : Base.set_user s env st = .ret () st') {dbg : Bool}
    (hr : UserReadable st' dbg) : encoded_user (st'.obj dbg) = .ok (pctEncode isRegName s) ∧ user (st'.obj dbg) = .ok s := by
  obtain ⟨S, U, W, H, P, q, g, t, pa, hw⟩ := hu.release.parts rfl
  have := user_of (s_set_user hw rfl s) (released (op := .set_user s) h) hr
  rw [encode_eq setOf_userinfo_nc] at this
  refine ⟨this, ?_⟩
  unfold user
  rw [this]
  exact decode_pctEncode setOf_regName s

/-- C28: whatever calls and edits came before, the scheme can be read, and normalizing it lowers its letters. -/
theorem C28_worked {op : Op} (hu : Worked env st) (ho : op = .normalize_scheme ∨ op = .normalize)
    (h : run op env st = .ret () st') (dbg : Bool) :
    ∃ s, scheme (st.obj dbg) = .ok s ∧ scheme (st'.obj dbg) = .ok (s.map lower) := by
  have h1 : Base.normalize_scheme env.release st = .ret () st' := by
    rcases ho with rfl | rfl <;> exact released h
  obtain ⟨S, U, W, H, P, pa, q, g, t, hw, hS, -⟩ := hu.release.ends rfl
  obtain ⟨x, rfl⟩ := init_iff.1 hw.S
  have hg : (st.obj dbg).get id_scheme = .ok x := (hw.holds.get id_scheme dbg).trans (readCells_some x)
  have hg' := (s_normalize hw rfl rfl).slot h1 dbg
  have colon : ∀ {st : St} {a : Str}, (st.obj dbg).get id_scheme = .ok (a ++ b!":") → scheme (st.obj dbg) = .ok a := by
    intro st a hg
    unfold scheme
    rw [hg]
    simp [bind, Except.bind, pure, Except.pure, backIs, removeSuffix, Obj.assert]
  rcases hS with hS | ⟨Y, hS⟩
  · obtain rfl : x = [] := by simpa using hS
    exact ⟨[], scheme_of hg, scheme_of hg'⟩
  · obtain ⟨a, b, rfl, -, hb⟩ := List.map_eq_append_iff.1 hS
    obtain rfl : b = b!":" := by
      match b, hb with
      | [a], hb => simpa using hb
    refine ⟨a, colon hg, colon (hg'.trans ?_)⟩
    simp

/-- The first bytes of the text were never written, and still host, userinfo and scheme read as they were set. -/
example : Worked env1 (afterRelease staleCalls) ∧ encoded_url ((afterRelease staleCalls).obj false) = .error .ub ∧
    returns (run (.set_host b!"a b") env1 (afterRelease staleCalls)) = true ∧
    host ((afterRelease (staleCalls ++ [.set_host b!"a b"])).obj true) = .ok b!"a b" ∧
    encoded_host ((afterRelease (staleCalls ++ [.set_host b!"a b"])).obj true) = .ok b!"a%20b" ∧
    returns (run (.set_encoded_userinfo b!"u:p") env1 (afterRelease staleCalls)) = true ∧
    Base.encoded_userinfo ((afterRelease (staleCalls ++ [.set_encoded_userinfo b!"u:p"])).obj true) = .ok b!"u:p" ∧
    returns (run .normalize env1 (afterRelease (staleCalls ++ [.set_scheme b!"HtTp"]))) = true ∧
    scheme ((afterRelease (staleCalls ++ [.set_scheme b!"HtTp", .normalize])).obj true) = .ok b!"http" :=
  ⟨(afterRelease_used (by decide +kernel)).worked, by decide +kernel, by decide +kernel, by decide +kernel, by decide +kernel,
    by decide +kernel, by decide +kernel, by decide +kernel, by decide +kernel⟩

/-- A user that can be read although there were no slashes in front of the host, -/
example : Worked env1 (afterRelease portFirst) ∧ returns (run (.set_user b!"u") env1 (afterRelease portFirst)) = true ∧
    UserReadable (afterRelease (portFirst ++ [.set_user b!"u"])) true ∧
    encoded_user ((afterRelease (portFirst ++ [.set_user b!"u"])).obj true) = .ok b!"u" :=
  ⟨(afterRelease_used (by decide +kernel)).worked, by decide +kernel, ⟨b!"//u", by decide +kernel, fun _ => .inr rfl⟩, by decide +kernel⟩

/-- and one that cannot: the last of these calls set the user to `x`. -/
example : ¬ UserReadable (afterRelease staleCalls) false ∧ encoded_user ((afterRelease staleCalls).obj false) = .error .ub := by
  refine ⟨?_, by decide +kernel⟩
  rintro ⟨x, hx, -⟩
  have : (afterRelease staleCalls |>.obj false).get id_user = .error .ub := by decide +kernel
  rw [this] at hx; cases hx

end Url.Props
