import Verif.Props.Params

/-!
C39 for all queries, also those whose loop over the parameters does not end.
-/

set_option linter.unusedSimpArgs false
set_option autoImplicit false

namespace Url
open Spec

variable {o : Obj} {A F : Str} {L : List Pair}

/-- With assertions a last pair without a value is not parsed if a fragment follows. -/
theorem QCtx.parse_assert (h : QCtx o A L F) (hd : o.dbg = true) {k : Nat} {p : Pair} (hp : L[k]? = some p) (hv : p.2 = none) (hF : F ≠ [])
    (nk nv : Nat) : Params.parse o ⟨(before A L k).length, nk, nv⟩ = .error .assert := by
  obtain ⟨⟨Y, rest, hY, hm⟩, hend, -⟩ := h.cut hp
  have hmem : p ∈ L := List.mem_of_getElem? hp
  have hkey := h.ok.keys p hmem
  obtain ⟨t, rfl⟩ : ∃ t, F = c!"#" :: t := h.stop.resolve_left hF
  have hlast : L.drop (k + 1) = [] := by
    apply List.drop_eq_nil_iff.2
    apply Classical.byContradiction
    intro hlt
    exact h.ok.mid k (by omega) p hp hv
  have htext : pairText p = p.1 := by simp [pairText, hv]
  rw [hlast, htext] at hm hend
  simp only [pairTexts, List.flatten_nil, List.nil_append, List.length_nil, Nat.add_zero] at hm hend
  unfold Params.parse
  rw [assert_not h.n, h.leadAssert hp]
  have h1 := skip_of (o := o) setOf_qkey (B := Y ++ [some (lead k)]) (x := p.1) (r := c!"#" :: t) (rest := rest) (by rw [hm]; simp) hkey
    ⟨by decide, by decide⟩ (by simp [hend, hY])
  rw [List.length_append, List.length_singleton, hY] at h1
  have hne : (before A L k).length + 1 + p.1.length ≠ o.pt.off id_end := by
    rw [hend, List.length_cons]; omega
  have e : o.assert (.ok (Option.isNone (none : Option Err))) = .ok () := by simp [Obj.assert]
  have hb := byte_at (o := o) (A := Y ++ (some (lead k) :: p.1.map some)) (c := c!"#") (rest := t.map some ++ rest) (by rw [hm]; simp)
  have e3 : (Y ++ (some (lead k) :: p.1.map some)).length = (before A L k).length + 1 + p.1.length := by
    simp only [List.length_append, List.length_cons, List.length_map, hY]; omega
  rw [e3] at hb
  have : o.assert (.ok ((c!"#" : Byte) == c!"=")) = .error .assert := by simp [Obj.assert, hd]
  simp only [bind, Except.bind, h1, if_neg hne, e, hb, pure, Except.pure, this]

theorem QCtx.next_assert (h : QCtx o A L F) (hd : o.dbg = true) {k : Nat} (hk : k < L.length) {p : Pair} (hp : L[k + 1]? = some p) (hv : p.2 = none)
    (hF : F ≠ []) : Params.next o (posP A L k) = .error .assert := by
  obtain ⟨q, hq⟩ : ∃ q, L[k]? = some q := ⟨_, List.getElem?_eq_getElem hk⟩
  have hne : (posP A L k).off ≠ o.pt.off id_frag := by
    rw [h.frag_before]
    exact Nat.ne_of_lt (before_lt hk (Nat.le_refl _))
  have hk' : k + 1 < L.length := (List.getElem?_eq_some_iff.1 hp).1
  unfold Params.next
  rw [assert_not h.n, assert_not hne]
  simp only [bind, Except.bind, posP_sum hq]
  have : (before A L (k + 1)).length ≠ o.pt.off id_frag := by
    rw [h.frag_before]
    exact Nat.ne_of_lt (before_lt hk' (Nat.le_refl _))
  rw [if_neg this]
  exact h.parse_assert hd hp hv hF _ _

theorem QCtx.first_assert (h : QCtx o A L F) (hd : o.dbg = true) {p : Pair} (hp : L[0]? = some p) (hv : p.2 = none) (hF : F ≠ []) :
    Params.first o = .error .assert := by
  unfold Params.first
  rw [if_neg (by have := h.n; omega), h.query]
  have := h.parse_assert hd hp hv hF 0 0
  rwa [before_zero] at this

/-- the loops from a pair that is not the last one -/
theorem QCtx.lost (h : QCtx o A L F) (hd : o.dbg = true) {p : Pair} (hl : L.getLast? = some p) (hv : p.2 = none) (hF : F ≠ []) (key : Str)
    {k fuel : Nat} (hk : k + 1 < L.length) (hf : L.length - k ≤ fuel + 1) :
    Params.collect o fuel (posP A L k) = .error .assert ∧ (∀ n, Params.countLoop o key fuel (posP A L k) n = .error .assert) ∧
    ((∀ j, k ≤ j → j + 1 < L.length → ∀ q, L[j]? = some q → decodeRaw q.1 ≠ some key) →
      Params.findLoop o key fuel (posP A L k) = .error .assert ∧ Params.containsLoop o key fuel (posP A L k) = .error .assert) := by
  induction fuel generalizing k with
  | zero => omega
  | succ f ih =>
    have hk' : k < L.length := by omega
    obtain ⟨q, hq⟩ : ∃ q, L[k]? = some q := ⟨_, List.getElem?_eq_getElem hk'⟩
    rw [Params.findLoop, Params.containsLoop, Params.collect, h.eq_last hk']
    simp only [Params.countLoop, h.eq_last hk', bind, Except.bind, Bool.false_eq_true, if_false]
    rw [h.deref_pos hq]
    simp only [key_equal_pair h.ok (List.mem_of_getElem? hq)]
    by_cases he : k + 2 = L.length
    · have hp : L[k + 1]? = some p := by
        rw [← hl, List.getLast?_eq_getElem?, show L.length - 1 = k + 1 by omega]
      rw [h.next_assert hd hk' hp hv hF]
      refine ⟨rfl, fun n => rfl, fun hno => ?_⟩
      simp only [hno k (Nat.le_refl _) hk q hq, decide_false, Bool.false_eq_true, if_false]
      exact ⟨trivial, trivial⟩
    · have hg : ∀ p, L[k + 1]? = some p → p.2 = none → F = [] := fun p hp hn => absurd hn (h.ok.mid (k + 1) (by omega) p hp)
      rw [h.next_pos hk' hg]
      obtain ⟨i1, i2, i3⟩ := ih (k := k + 1) (by omega) (by omega)
      simp only [i1, i2]
      refine ⟨trivial, fun _ => trivial, fun hno => ?_⟩
      simp only [hno k (Nat.le_refl _) hk q hq, decide_false, Bool.false_eq_true, if_false]
      exact i3 fun j hj => hno j (by omega)

end Url

namespace Url.Props
open Url Spec

variable {o : Obj}

/-- C39, a key that occurs: if `p` is the first pair of the query whose key decodes to `key`, then all lookups use it, unless
it has no `=` and there is a fragment. -/
theorem C39_hit (h : Readable o) {q fr : Str} (hq : query_part o = .ok (c!"?" :: q)) (hfr : fragment_part o = .ok fr) {key : Str} {i : Nat}
    {p : Str × Option Str} (hp : (libPairs q)[i]? = some p) (hk : Decoded p.1 key)
    (hfirst : ∀ j < i, ∀ r, (libPairs q)[j]? = some r → ¬ Decoded r.1 key) (hv : p.2 = none → fr = []) {fuel : Nat} (hf : i < fuel) :
    Params.contains o key fuel = .ok true ∧
    (∃ it, Params.nth o i = .ok it ∧ Params.find o key fuel = .ok it ∧ Params.deref o it = .ok ⟨p.1, p.2.getD []⟩) ∧
    ∃ v, Decoded (p.2.getD []) v ∧ Params.index o key fuel = .ok v ∧ Params.atKey o key fuel = .ok (some v) := by
  rcases h.cases with ⟨h1, -⟩ | ⟨q', A, F, h1, h1', h2, hqc, ctx⟩
  · rw [hq] at h1; cases h1
  rw [hq] at h1
  cases h1
  rw [hfr] at h2
  cases h2
  have hxm := List.mem_of_getElem? hp
  have hi : i < (libPairs q).length := (List.getElem?_eq_some_iff.1 hp).1
  have hv' : ∀ j ≤ i, ∀ r : Pair, (libPairs q)[j]? = some r → r.2 = none → fr = [] := fun j hj r hr hn => by
    by_cases e : j = i
    · subst e
      rw [hp] at hr
      cases hr
      exact hv hn
    · exact absurd hn (ctx.ok.mid j (by omega) r hr)
  have hnth := ctx.nth_pos (libPairs_ne q) (Nat.le_of_lt hi) hv'
  have hfst := ctx.first_pos (libPairs_ne q) (hv' 0 (Nat.zero_le _))
  obtain ⟨h1, h2⟩ := ctx.find_hit hp ((key_decoded ctx.ok hxm).2 hk) (Nat.zero_le i)
    (fun j _ hj y hy hd => hfirst j hj y hy ((key_decoded ctx.ok (List.mem_of_getElem? hy)).1 hd)) hv' (fuel := fuel) (by omega)
  obtain ⟨d, d1, d2⟩ := value_decoded ctx.ok hxm
  have hfind : Params.find o key fuel = .ok (posP A (libPairs q) i) := by rw [Params.find, hfst]; exact h1
  have hd : Params.deref o (posP A (libPairs q) i) = .ok (asParam p) := ctx.deref_pos hp
  refine ⟨by rw [Params.contains, hfst]; exact h2, ⟨_, hnth, hfind, hd⟩, d, d2, ?_, ?_⟩
  · rw [Params.index, hfind]
    simp only [bind, Except.bind, ctx.eq_last hi, hd, Bool.false_eq_true, if_false]
    exact d1
  · rw [Params.atKey, hfind]
    simp only [bind, Except.bind, ctx.eq_last hi, hd, Bool.false_eq_true, if_false]
    rw [show decodeR (asParam p).value = .ok d from d1]
    rfl

/-- C39 and C38, the remaining case: the last pair has no `=` and there is a fragment. Then with assertions walking over the
parameters and counting a key fail, and so do the lookups of keys that no earlier pair has. -/
theorem C39_lost (h : Readable o) (hd : o.dbg = true) {q fr k : Str} (hq : query_part o = .ok (c!"?" :: q)) (hfr : fragment_part o = .ok fr)
    (hne : fr ≠ []) (hl : (libPairs q).getLast? = some (k, none)) {fuel : Nat} (hf : (libPairs q).length ≤ fuel) (key : Str) :
    Params.walk o fuel = .error .assert ∧ Params.count o key fuel = .error .assert ∧
    ((∀ p ∈ (libPairs q).dropLast, ¬ Decoded p.1 key) →
      Params.contains o key fuel = .error .assert ∧ Params.find o key fuel = .error .assert ∧
      Params.index o key fuel = .error .assert ∧ Params.atKey o key fuel = .error .assert) := by
  rcases h.cases with ⟨h1, -⟩ | ⟨q', A, F, h1, h1', h2, hqc, ctx⟩
  · rw [hq] at h1; cases h1
  rw [hq] at h1
  cases h1
  rw [hfr] at h2
  cases h2
  have hL := List.length_pos_iff.2 (libPairs_ne q)
  by_cases h1 : (libPairs q).length = 1
  · have hp : (libPairs q)[0]? = some (k, none) := by rw [← hl, List.getLast?_eq_getElem?, h1]
    have hfst := ctx.first_assert hd hp rfl hne
    simp [Params.walk, Params.count, Params.contains, Params.find, Params.index, Params.atKey, hfst, bind, Except.bind]
  · have hfst := ctx.first_pos (libPairs_ne q) fun p hp hn => absurd hn (ctx.ok.mid 0 (by omega) p hp)
    obtain ⟨i1, i2, i3⟩ := ctx.lost hd hl rfl hne key (k := 0) (fuel := fuel) (by omega) (by omega)
    refine ⟨?_, ?_, fun hno => ?_⟩
    · rw [Params.walk, hfst]; exact i1
    · rw [Params.count, hfst]; exact i2 0
    · obtain ⟨e1, e2⟩ := i3 fun j _ hj r hr hdec => hno r (by
          rw [List.mem_iff_getElem?]
          refine ⟨j, ?_⟩
          rw [List.getElem?_dropLast, if_pos (by omega), hr]) ((key_decoded ctx.ok (List.mem_of_getElem? hr)).1 hdec)
      have hfind : Params.find o key fuel = .error .assert := by rw [Params.find, hfst]; exact e1
      refine ⟨by rw [Params.contains, hfst]; exact e2, hfind, ?_, ?_⟩
      · rw [Params.index, hfind]; rfl
      · rw [Params.atKey, hfind]; rfl

/-- the first element with a property -/
theorem first_with {α : Type} {P : α → Prop} {l : List α} (h : ∃ x ∈ l, P x) :
    ∃ (i : Nat) (x : α), l[i]? = some x ∧ P x ∧ ∀ j < i, ∀ y, l[j]? = some y → ¬ P y := by
  induction l with
  | nil => obtain ⟨x, hx, -⟩ := h; cases hx
  | cons a l ih =>
    by_cases ha : P a
    · exact ⟨0, a, rfl, ha, fun j hj => absurd hj (Nat.not_lt_zero j)⟩
    · obtain ⟨x, hx, hP⟩ := h
      have hx' : x ∈ l := by
        rcases List.mem_cons.1 hx with rfl | h
        · exact absurd hP ha
        · exact h
      obtain ⟨i, y, h1, h2, h3⟩ := ih ⟨x, hx', hP⟩
      refine ⟨i + 1, y, h1, h2, fun j hj z hz => ?_⟩
      cases j with
      | zero => cases hz; exact ha
      | succ j => exact h3 j (by omega) z hz

open Classical in
/-- C39: with assertions no lookup gives a wrong answer, whatever the query and the fragment. -/
theorem C39_asserted (h : Readable o) (hd : o.dbg = true) {q : Str} (hq : query_part o = .ok (c!"?" :: q)) {fuel : Nat}
    (hf : (libPairs q).length < fuel) (key : Str) :
    (∀ b, Params.contains o key fuel = .ok b → (b = true ↔ ∃ p ∈ libPairs q, Decoded p.1 key)) ∧
    (∀ n, Params.count o key fuel = .ok n → n = (libPairs q).countP fun p => decide (Decoded p.1 key)) ∧
    (∀ v, Params.atKey o key fuel = .ok (some v) → ∃ (i : Nat) (p : Str × Option Str), (libPairs q)[i]? = some p ∧ Decoded p.1 key ∧ Decoded (p.2.getD []) v ∧
      ∀ j < i, ∀ r, (libPairs q)[j]? = some r → ¬ Decoded r.1 key) ∧
    (Params.atKey o key fuel = .ok none → ∀ p ∈ libPairs q, ¬ Decoded p.1 key) := by
  obtain ⟨fr, hfr⟩ : ∃ fr, fragment_part o = .ok fr := by
    rcases h.cases with ⟨h1, -⟩ | ⟨q', A, F, -, -, h2, -⟩
    · rw [hq] at h1; cases h1
    · exact ⟨F, h2⟩
  by_cases hbad : fr ≠ [] ∧ ∃ k, (libPairs q).getLast? = some (k, none)
  · obtain ⟨hne, k, hl⟩ := hbad
    obtain ⟨-, l2, l3⟩ := C39_lost h hd hq hfr hne hl (Nat.le_of_lt hf) key
    by_cases hocc : ∃ p ∈ (libPairs q).dropLast, Decoded p.1 key
    · obtain ⟨i, p, h1, h2, h3⟩ := first_with hocc
      rw [List.getElem?_dropLast] at h1
      split at h1
      case isFalse => cases h1
      rename_i hi
      have h3' : ∀ j < i, ∀ r, (libPairs q)[j]? = some r → ¬ Decoded r.1 key := fun j hj r hr =>
        h3 j hj r (by rw [List.getElem?_dropLast, if_pos (by omega), hr])
      have hmem := List.mem_of_getElem? h1
      obtain ⟨c1, -, v, c2, c3, c4⟩ := C39_hit h hq hfr h1 h2 h3' (fun hn => by
        rcases h.cases with ⟨h1, -⟩ | ⟨q', A, F, e, -, -, -, ctx⟩
        · rw [hq] at h1; cases h1
        · rw [hq] at e
          cases e
          exact absurd hn (ctx.ok.mid i (by omega) p h1)) (fuel := fuel) (by omega)
      refine ⟨fun b hb => ?_, fun n hn => by (rw [l2] at hn; cases hn), fun w hw => ?_, fun hw => by (rw [c4] at hw; cases hw)⟩
      · rw [c1] at hb
        cases hb
        exact ⟨fun _ => ⟨p, hmem, h2⟩, fun _ => rfl⟩
      · rw [c4] at hw
        cases hw
        exact ⟨i, p, h1, h2, c2, h3'⟩
    · obtain ⟨m1, -, -, m4⟩ := l3 fun p hp hx => hocc ⟨p, hp, hx⟩
      refine ⟨fun b hb => ?_, fun n hn => ?_, fun w hw => ?_, fun hw => ?_⟩
      · rw [m1] at hb; cases hb
      · rw [l2] at hn; cases hn
      · rw [m4] at hw; cases hw
      · rw [m4] at hw; cases hw
  · have hw := C38_pairs_partial h hq (fuel := fuel) (by
      by_cases hne : fr = []
      · exact .inl (hne ▸ hfr)
      · refine .inr fun p hp hn => hbad ⟨hne, p.1, ?_⟩
        rw [hp, ← hn]) hf
    have hcount := C39_count_partial h hw key
    have hcnt : ∀ n, Params.count o key fuel = .ok n → n = (libPairs q).countP fun p => decide (Decoded p.1 key) := fun n hn => by
      rw [hcount, shown, List.countP_map] at hn
      exact (Except.ok.inj hn).symm
    by_cases hocc : ∃ p ∈ libPairs q, Decoded p.1 key
    · obtain ⟨i, p, h1, h2, h3⟩ := first_with hocc
      obtain ⟨c1, -, v, c2, c3, c4⟩ := C39_hit h hq hfr h1 h2 h3 (fun hn => by
        by_cases hne : fr = []
        · exact hne
        · refine absurd ⟨hne, p.1, ?_⟩ hbad
          have hi := (List.getElem?_eq_some_iff.1 h1).1
          rcases h.cases with ⟨h1, -⟩ | ⟨q', A, F, e, -, -, -, ctx⟩
          · rw [hq] at h1; cases h1
          · rw [hq] at e
            cases e
            have : ¬ i + 1 < (libPairs q).length := fun hlt => ctx.ok.mid i hlt p h1 hn
            rw [List.getLast?_eq_getElem?, show (libPairs q).length - 1 = i by omega, h1, ← hn]) (fuel := fuel)
        (by have := (List.getElem?_eq_some_iff.1 h1).1; omega)
      refine ⟨fun b hb => ?_, hcnt, fun w hw => ?_, fun hw => by (rw [c4] at hw; cases hw)⟩
      · rw [c1] at hb
        cases hb
        exact ⟨fun _ => hocc, fun _ => rfl⟩
      · rw [c4] at hw
        cases hw
        exact ⟨i, p, h1, h2, c2, h3⟩
    · obtain ⟨m1, -, -, m4⟩ := C39_miss_partial h hw (key := key) fun p hp hx => by
        obtain ⟨r, hr, rfl⟩ := List.mem_map.1 hp
        exact hocc ⟨r, hr, hx⟩
      refine ⟨fun b hb => ?_, hcnt, fun w hw => ?_, fun _ p hp hx => hocc ⟨p, hp, hx⟩⟩
      · rw [m1] at hb
        cases hb
        exact ⟨nofun, fun h => absurd h hocc⟩
      · rw [m4] at hw; cases hw

-- a key before the last one, the last one, and one that does not occur, in a url whose last parameter has no `=`
example : Readable ((made env0 b!"?a=1&k#f").obj true) ∧ libPairs b!"a=1&k" = [(b!"a", some b!"1"), (b!"k", none)] ∧
    Params.index ((made env0 b!"?a=1&k#f").obj true) b!"a" 3 = .ok b!"1" ∧
    Params.contains ((made env0 b!"?a=1&k#f").obj true) b!"k" 3 = .error .assert ∧
    Params.contains ((made env0 b!"?a=1&k#f").obj true) b!"z" 3 = .error .assert ∧
    Params.count ((made env0 b!"?a=1&k#f").obj true) b!"a" 3 = .error .assert ∧
    Params.count ((made env0 b!"?a=1&k").obj true) b!"k" 3 = .ok 1 :=
  ⟨readable_make (env := env0) (st := Base.empty) (s := b!"?a=1&k#f") rfl true, by decide +kernel, by decide +kernel, by decide +kernel, by decide +kernel, by decide +kernel,
    by decide +kernel⟩

end Url.Props
