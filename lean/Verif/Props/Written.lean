import Verif.Props.Growth
import Verif.Props.Exposed
import Verif.Proofs.CountedEdits
import Verif.Proofs.CountedLeast

/-!
C72: how many characters a modification writes.
-/

set_option autoImplicit false

namespace Url.Props
open Url Spec

variable {env : Env} {st st' : St}

/-- The number of characters a call stores for its argument: an argument that is not encoded is stored as its encoding, and
a port number has at most ten digits. -/
def stores : Op → Nat
  | .set_user s | .set_host s => (pctEncode isRegName s).length
  | .set_password s => (pctEncode isUserinfo s).length
  | .set_query s | .set_fragment s => (pctEncode isQueryFrag s).length
  | .set_port_number _ => 10
  | op => Machine.argLength op

/-- C72: the counted calls are the calls. -/
theorem C72_counts (op : Op) (env : Env) (st : St) : (runCounted op env st).2 = run op env st := forget_run op env st

/-- C72: the counted edits are the edits. -/
theorem C72_counts_edit (e : ItOp) (env : Env) (st : St) : (runItCounted e env st).2 = runIt e env st := forget_runIt e env st

theorem worked_fits (h : Worked env st) : st.size ≤ st.cap ∧ Fits (size (st.obj false)) st := by
  obtain ⟨S, U, W, H, P, q, f, t, pa, hp⟩ := h.release.parts rfl
  obtain ⟨-, h2, h3⟩ := part8_off (pa := pa) hp.holds
  exact ⟨h3, h3, Nat.le_refl _, Nat.le_trans h2 h3⟩

theorem l_password_part_other {s : Str} (h : s ≠ b!":") : Lin (Counted.set_password_part s) 2 (2 * s.length + 11) (s.length + 4) := by
  unfold Counted.set_password_part
  refine .ite (fun h => ?_) fun _ => .ite (fun h1 => ?_) fun _ => ?_
  · obtain rfl := List.isEmpty_iff.mp h
    exact l_set_password []
  · have : (s.head? == some c!":") = false := by
      rw [beq_eq_false_iff_ne]
      intro h2
      match s, h1 with
      | [c], _ => cases h2; exact h rfl
    rw [this]
    exact fun env st hs => ⟨Nat.zero_le _, fun a st' e => by cases e⟩
  · exact (l_set_encoded_password _).mono (by omega) (by rw [List.length_drop]; omega) (by rw [List.length_drop]; omega)

theorem encodedLength {e : PctSet} {ok : Byte → Bool} (he : SetOf e ok) (s : Str) : e.encoded_size s = (pctEncode ok s).length := by
  rw [encoded_size_eq he, encode_eq he]

/-- C72: an encoding has at most three times as many characters. -/
theorem C72_stores (op : Op) : stores op ≤ 3 * Machine.argLength op + 10 := by
  have h : ∀ {e : PctSet} {ok : Byte → Bool}, SetOf e ok → ∀ s : Str, (pctEncode ok s).length ≤ 3 * s.length + 10 := fun he s => by
    rw [← encodedLength he]
    have := (encoded_le he s).2.2
    omega
  cases op <;> simp only [stores, Machine.argLength] <;>
    first | exact h setOf_regName _ | exact h setOf_userinfo _ | exact h setOf_frag _ | omega

/-- C72: every call but one writes at most twice as many characters as there are in the URL, plus twice those of the argument,
plus eleven. -/
theorem C72_calls {op : Op} (h : Worked env st) (hop : op ≠ .set_password_part b!":") :
    (runCounted op env st).1 ≤ 2 * size (st.obj false) + 2 * stores op + 11 := by
  obtain ⟨hs, -⟩ := worked_fits h
  have e8 : size (st.obj false) = st.pt.off 8 := rfl
  have use : ∀ {c : CM Unit} {b g m : Nat}, Lin c 2 b g → b ≤ 2 * m + 11 → (c env st).1 ≤ 2 * size (st.obj false) + 2 * m + 11 := fun hc hb => by
    have := (hc env st hs).1
    omega
  have low : (Counted.normalize_scheme env st).1 ≤ size (st.obj false) := by
    refine Nat.le_trans (w_normalize_scheme env st) ?_
    have ho := (worked_proper h).ord
    have o1 : st.pt.off 1 ≤ st.pt.off 2 := ho 1 (by omega)
    have o2 : st.pt.off 2 ≤ st.pt.off 3 := ho 2 (by omega)
    have o3 : st.pt.off 3 ≤ st.pt.off 4 := ho 3 (by omega)
    have o4 : st.pt.off 4 ≤ st.pt.off 5 := ho 4 (by omega)
    have o5 : st.pt.off 5 ≤ st.pt.off 6 := ho 5 (by omega)
    have o6 : st.pt.off 6 ≤ st.pt.off 7 := ho 6 (by omega)
    have o7 : st.pt.off 7 ≤ st.pt.off 8 := ho 7 (by omega)
    rw [e8]
    show st.pt.off 1 - st.pt.off 0 ≤ _
    omega
  cases op <;> simp only [stores, runCounted, Machine.argLength]
  case set_encoded_url s =>
    have := w_set_encoded_url s env st hs
    split at this <;> omega
  case set_encoded_origin s => exact use (l_set_encoded_origin s) (by omega)
  case set_scheme s => exact use (l_set_scheme s) (by omega)
  case set_encoded_authority s => exact use (l_set_encoded_authority s) (by omega)
  case set_encoded_userinfo s => exact use (l_set_encoded_userinfo s) (by omega)
  case set_userinfo_part s => exact use (l_set_userinfo_part s) (by omega)
  case set_user s => exact use (l_set_user s) (by rw [encodedLength setOf_userinfo_nc]; omega)
  case set_encoded_user s => exact use (l_set_encoded_user s) (by omega)
  case set_password s => exact use (l_set_password s) (by rw [encodedLength setOf_userinfo]; omega)
  case set_encoded_password s => exact use (l_set_encoded_password s) (by omega)
  case set_password_part s => exact use (l_password_part_other fun e => hop (by rw [e])) (by omega)
  case set_host s => exact use (l_set_host s) (by rw [encodedLength setOf_regName]; omega)
  case set_encoded_host s => exact use (l_set_encoded_host s) (by omega)
  case set_port s => exact use (l_set_port s) (by omega)
  case set_port_number n => exact use (m := 10) (l_set_port_number n) (by omega)
  case set_port_part s => exact use (l_set_port_part s) (by omega)
  case set_encoded_path s => exact use (l_set_encoded_path s) (by omega)
  case set_query s => exact use (l_setPlain (by decide) _ setOf_query s) (by rw [encodedLength setOf_query]; omega)
  case set_encoded_query s => exact use (l_setEncoded (by decide) _ _ s) (by omega)
  case set_query_part s => exact use (l_setPart (by decide) _ _ s) (by omega)
  case set_fragment s => exact use (l_setPlain (by decide) _ setOf_frag s) (by rw [encodedLength setOf_frag]; omega)
  case set_encoded_fragment s => exact use (l_setEncoded (by decide) _ _ s) (by omega)
  case set_fragment_part s => exact use (l_setPart (by decide) _ _ s) (by omega)
  case normalize_scheme => omega
  case normalize => exact Nat.le_trans low (by omega)

/-- C72 for the call that remains, which changes the text twice. -/
theorem C72_password_part (h : Worked env st) : (runCounted (.set_password_part b!":") env st).1 ≤ 3 * size (st.obj false) + 19 := by
  have := (l_set_password_part b!":" env st (worked_fits h).1).1
  exact this

/-- C72: an edit of a segment, through any iterators, writes at most twice as many characters as there are in the URL, plus
twice those that are inserted, plus four. A replacement may also copy all characters of the storage. -/
theorem C72_edits (e : ItOp) (h : Worked env st) : (runItCounted e env st).1 ≤
    match e with
    | .replace _ _ | .replace_encoded _ _ => st.size + 3 * size (st.obj false) + 2 * e.text.length + 8
    | _ => 2 * size (st.obj false) + 2 * e.text.length + 4 := by
  obtain ⟨-, hf⟩ := worked_fits h
  have hl := encodedLength setOf_pchar
  cases e <;> simp only [runItCounted, ItOp.text, List.length_cons, List.length_nil, ← hl]
  case erase p => have := (w_erase (pos := p) (env := env) hf).1; omega
  case erase_range a b => have := (w_erase_range (first := a) (last := b) (env := env) hf).1; omega
  case insert p s => have := w_insert_impl (pos := p) (s := s) (env := env) hf; unfold Counted.seg_insert; omega
  case insert_encoded p s => have := w_insert_encoded (pos := p) (s := s) (env := env) hf; omega
  case replace p s => have := w_replace (pos := p) (s := s) (env := env) hf; omega
  case replace_encoded p s => have := w_replace_encoded (pos := p) (s := s) (env := env) hf; omega

/-- C72 from below: a call has written at least as many characters as there are values in the memory afterwards that were not
there before, because they are others or in another block; also when it throws, and in any state. -/
theorem C72_least {op : Op} (n : Nat) (h : run op env st = .ret () st' ∨ ∃ x, run op env st = .throw x st') :
    fresh n st st' ≤ (runCounted op env st).1 := by
  refine k_run op env st st' n ?_
  rw [C72_counts]
  rcases h with h | ⟨x, h⟩ <;> rw [h] <;> rfl

/-- The same for an edit. -/
theorem C72_least_edit {e : ItOp} (n : Nat) (h : (∃ it, runIt e env st = .ret it st') ∨ ∃ x, runIt e env st = .throw x st') :
    fresh n st st' ≤ (runItCounted e env st).1 := by
  refine k_runIt e env st st' n ?_
  rw [C72_counts_edit]
  rcases h with ⟨it, h⟩ | ⟨x, h⟩ <;> rw [h] <;> rfl

theorem fresh_all {n : Nat} (h : ∀ i, i < n → Fresh st st' i) : fresh n st st' = n := by
  unfold fresh
  rw [List.countP_eq_length.mpr fun i hi => by simpa using h i (List.mem_range.mp hi), List.length_range]

theorem reach_cell (h : Reach env st) {i : Nat} (hi : i < size (st.obj false)) : st.cell i ≠ none := by
  obtain ⟨c, ⟨t, h⟩, -⟩ := h.rep
  have e8 : size (st.obj false) = st.pt.off 8 := rfl
  rw [e8, h.rep 8, plen_of_le (Nat.le_of_eq h.len)] at hi
  unfold St.cell
  rcases h.buf with ⟨-, h2, -, -⟩ | ⟨junk, h2, -, -, -⟩
  · rw [h2] at hi; exact absurd hi (Nat.not_lt_zero _)
  · rw [h2, Option.getD_some, List.getElem?_append_left hi]
    rw [cells_flatten, List.length_map] at hi
    rw [cells_flatten, List.getElem?_map, List.getElem?_eq_getElem hi]
    simp

/-- C72: a call or edit that allocates a new block writes the whole text. -/
theorem C72_copies {op : Op} (hr : Reach env st') (ha : st'.addr ≠ st.addr)
    (h : run op env st = .ret () st' ∨ ∃ x, run op env st = .throw x st') : size (st'.obj false) ≤ (runCounted op env st).1 := by
  have := C72_least (size (st'.obj false)) h
  rwa [fresh_all fun i hi => ⟨reach_cell hr hi, .inl ha⟩] at this

/-- the fresh values among the first `n` after a call -/
def freshAfter (n : Nat) (op : Op) (st : St) : Option Nat := (run op env0 st).left.map (fresh n st)

/-- A text that is moved within its block: 27 values are others, and 29 were written. -/
example : Worked env0 (after [.set_encoded_path b!"/abcdefghijklmnopqrstuvwxyz", .set_encoded_path b!"/abcdefghijklmnopqrstuvwx"]) ∧
    freshAfter 100 (.set_scheme b!"x") (after [.set_encoded_path b!"/abcdefghijklmnopqrstuvwxyz", .set_encoded_path b!"/abcdefghijklmnopqrstuvwx"]) = some 27 ∧
    (runCounted (.set_scheme b!"x") env0 (after [.set_encoded_path b!"/abcdefghijklmnopqrstuvwxyz", .set_encoded_path b!"/abcdefghijklmnopqrstuvwx"])).1 = 29 :=
  ⟨(after_used (by decide +kernel)).worked, by decide +kernel, by decide +kernel⟩

/-- A text that does not fit: all 29 characters and the terminator are in a new block. -/
example : freshAfter 100 (.set_scheme b!"x") (after [.set_encoded_path b!"/abcdefghijklmnopqrstuvwxyz"]) = some 30 := by decide +kernel

/-- The factor two is needed: the text is copied into a new block, and then moved. -/
example : Worked env0 (after [.set_encoded_path b!"/abcdefghijklmnopqrstuvwxyz"]) ∧
    size ((after [.set_encoded_path b!"/abcdefghijklmnopqrstuvwxyz"]).obj false) = 27 ∧
    (runCounted (.set_scheme b!"x") env0 (after [.set_encoded_path b!"/abcdefghijklmnopqrstuvwxyz"])).1 = 60 :=
  ⟨(after_used (by decide +kernel)).worked, by decide +kernel, by decide +kernel⟩

/-- So is the factor three for the other call. -/
example : Worked env0 (after [.set_encoded_path b!"/abcdefghijklmnopqrstuvwxyz"]) ∧
    (runCounted (.set_password_part b!":") env0 (after [.set_encoded_path b!"/abcdefghijklmnopqrstuvwxyz"])).1 = 90 :=
  ⟨(after_used (by decide +kernel)).worked, by decide +kernel⟩

example : Worked env0 (after [.set_encoded_url b!"/a/abcdefghijklmnopqrstuvwxyz"]) ∧
    (runItCounted (.erase ⟨0, 2⟩) env0 (after [.set_encoded_url b!"/a/abcdefghijklmnopqrstuvwxyz"])).1 = 29 ∧
    (runItCounted (.insert ⟨0, 2⟩ b!"b c") env0 (after [.set_encoded_url b!"/a/abcdefghijklmnopqrstuvwxyz"])).1 = 68 ∧
    (runItCounted (.replace ⟨0, 2⟩ b!"bcd") env0 (after [.set_encoded_url b!"/a/abcdefghijklmnopqrstuvwxyz"])).1 = 93 :=
  ⟨(after_used (by decide +kernel)).worked, by decide +kernel, by decide +kernel, by decide +kernel⟩

/-- the iterator an edit returns -/
def itOf : Out SegIt → Option SegIt
  | .ret it _ => some it
  | _ => none

theorem givenIt {o : Out SegIt} {it : SegIt} (h : itOf o = some it) : ∃ st', o = .ret it st' := by
  cases o with
  | ret i s => cases h; exact ⟨_, rfl⟩
  | throw e s => cases h
  | fault f => cases h

/-- The calls of the next theorem. -/
def shortened : List Op := [.set_encoded_path b!"/abcdefghijklmnopqrstuvwxyzabcdefghijklmnopqrstuvwxyz", .set_encoded_path b!"/a"]

/-- C72 in terms of the text alone is false for a replacement, in a build without assertions: the storage keeps the size of
a longer text that was replaced by a shorter one, and a replacement copies all of it. Here it writes more than ten times as
many characters as there are in the URL and in the argument together. -/
theorem C72_replace_false : Worked env1 (afterRelease shortened) ∧ (ItOp.replace ⟨0, 2⟩ b!"bc").InPath (afterRelease shortened) ∧
    size ((afterRelease shortened).obj false) = 2 ∧
    (∃ st', runIt (.replace ⟨0, 2⟩ b!"bc") env1 (afterRelease shortened) = .ret ⟨3, 0⟩ st') ∧
    10 * (size ((afterRelease shortened).obj false) + (ItOp.replace ⟨0, 2⟩ b!"bc").text.length) <
      (runItCounted (.replace ⟨0, 2⟩ b!"bc") env1 (afterRelease shortened)).1 := by
  refine ⟨(afterRelease_used (by decide +kernel)).worked, by decide +kernel, by decide +kernel, ?_, by decide +kernel⟩
  exact givenIt (by decide +kernel)

end Url.Props
