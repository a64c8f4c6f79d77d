import Verif.Props.Ranges

/-!
Properties of the parameters of a query: C38 - C40.

The code of `url_view` and `url` is the same. `Readable` are the objects of both classes.
-/

set_option linter.unusedSimpArgs false
set_option autoImplicit false

namespace Url.Props
open Url Spec

/-- An accepted `url_view`, or a `url` after any calls and edits that knows whether it has parameters. (Setting the query
of a `url` does not update the number of parameters, see `C33_counts_false`.) -/
inductive Readable : Obj → Prop
  | view {s : Str} {v : View} (dbg : Bool) : View.make s = .ret v → Readable (v.obj dbg)
  | url {env : Env} {st : St} (dbg : Bool) : Worked env st → (st.pt.nparam = 0 ↔ query_part (st.obj dbg) = .ok []) → Readable (st.obj dbg)

variable {o : Obj}

theorem paramCount_zero {q : Option Str} : paramCount q = 0 ↔ q = none := by
  cases q with
  | none => simp [paramCount]
  | some q => simp [paramCount, libPairs_ne]

theorem withPrefix_nil {q : Option Str} {a : Byte} : withPrefix [a] q = [] ↔ q = none := by
  cases q <;> simp [withPrefix]

/-- A `url` constructed from a string is one of these objects, and knows the number of its parameters. -/
theorem readable_make {env : Env} {st st' : St} {s : Str} (h : Base.make s env st = .ret () st') (dbg : Bool) : Readable (st'.obj dbg) := by
  obtain ⟨c, hv, -, hrep, -, hn⟩ := make_url h
  refine .url (env := env) dbg (.call (.set_encoded_url s) .empty (.inl h)) ?_
  rw [(hrep.reports dbg).query_part, Except.ok.injEq, withPrefix_nil, hn, paramCount_zero]

/-- The pairs of a query as a caller sees them. -/
def shown (l : List (Str × Option Str)) : List Param := l.map fun p => ⟨p.1, p.2.getD []⟩

/-- the three cases: no query, one that can be walked, one that cannot -/
theorem Readable.cases (h : Readable o) :
    (query_part o = .ok [] ∧ o.pt.nparam = 0) ∨
    ∃ q A F, query_part o = .ok (c!"?" :: q) ∧ encoded_query o = .ok q ∧ fragment_part o = .ok F ∧ QChars q ∧ QCtx o A (libPairs q) F := by
  cases h with
  | @view s v dbg hv =>
    obtain ⟨c, hc, -, r⟩ := make_inv hv
    have hrep := r.obj dbg
    have hn : (v.obj dbg).pt.nparam = 0 ↔ c.query = none := by
      rw [show (v.obj dbg).pt.nparam = _ from r.nparam, paramCount_zero]
    cases hc' : c.query with
    | none => exact .inl ⟨by rw [acc_query_part hrep, hc']; rfl, hn.2 hc'⟩
    | some q =>
      have hq := hc.2.2.2.1 q hc'
      refine .inr ⟨q, _, _, by rw [acc_query_part hrep, hc']; rfl, by rw [acc_query hrep, hc']; rfl, ?_, hq, params_ctx hrep hc' hq ?_⟩
      · rw [acc_fragment_part hrep]; cases c.fragment <;> rfl
      · intro h0
        rw [hn.1 h0] at hc'
        cases hc'
  | @url env st dbg hw hn =>
    obtain ⟨A, p, q, f, r⟩ := hw.ranged dbg
    rw [r.part, Except.ok.injEq] at hn
    rcases r.qok with rfl | ⟨x, hx, rfl⟩
    · exact .inl ⟨r.part, hn.2 rfl⟩
    · exact .inr ⟨x, A ++ p, f, r.part, r.query, r.fragment, hx, r.params hx fun h0 => nomatch hn.1 h0⟩

theorem walk_none (h : o.pt.nparam = 0) {fuel : Nat} (hf : 0 < fuel) : Params.walk o fuel = .ok [] := by
  obtain ⟨f, rfl⟩ : ∃ f, fuel = f + 1 := ⟨fuel - 1, by omega⟩
  rw [Params.walk, Params.first, if_pos h]
  simp only [bind, Except.bind]
  rw [Params.collect, params_eq_self]
  rfl

/-! ### C38 -/

/-- C38: the loop over the parameters visits the pairs of the query, as the library delimits them, unless the last
has no `=` and there is a fragment. The full claim is about the pieces between ampersands and has no conditions; see
`C38_irregular_false` and `C38_fragment_false`. -/
theorem C38_pairs_partial (h : Readable o) {q : Str} (hq : query_part o = .ok (c!"?" :: q))
    (hf : fragment_part o = .ok [] ∨ ∀ p, (libPairs q).getLast? = some p → p.2 ≠ none) {fuel : Nat} (hfu : (libPairs q).length < fuel) :
    Params.walk o fuel = .ok (shown (libPairs q)) := by
  rcases h.cases with ⟨h1, -⟩ | ⟨q', A, F, h1, -, h2, hqc, ctx⟩
  · rw [hq] at h1; cases h1
  · rw [hq] at h1
    cases h1
    refine ctx.walk_good (libPairs_ne q) ?_ hfu
    intro p hp hn
    rcases hf with hf | hf
    · rw [h2] at hf; cases hf; rfl
    · obtain ⟨k, hk, rfl⟩ := List.mem_iff_getElem.1 hp
      by_cases hlt : k + 1 < (libPairs q).length
      · exact absurd hn (ctx.ok.mid k hlt _ (List.getElem?_eq_getElem hk))
      · refine absurd hn (hf _ ?_)
        rw [List.getLast?_eq_getElem?, show (libPairs q).length - 1 = k by omega, List.getElem?_eq_getElem hk]

/-- C38: these are the pairs between ampersands, each split at its first `=`, if every piece but the last contains
`=`. -/
theorem C38_partial (h : Readable o) {q : Str} (hq : query_part o = .ok (c!"?" :: q)) (hr : Regular q)
    (hf : fragment_part o = .ok [] ∨ ∀ p, (queryPairs q).getLast? = some p → p.2 ≠ none) {fuel : Nat} (hfu : (queryPairs q).length < fuel) :
    Params.walk o fuel = .ok (shown (queryPairs q)) := by
  have hqc : QChars q := by
    rcases h.cases with ⟨h1, -⟩ | ⟨q', A, F, h1, -, -, hqc, -⟩
    · rw [hq] at h1; cases h1
    · rw [hq] at h1; cases h1; exact hqc
  rw [← libPairs_regular hqc hr] at hf hfu ⊢
  exact C38_pairs_partial h hq hf hfu

/-- C38: without a query there is nothing to visit. -/
theorem C38_none (h : Readable o) (hq : query_part o = .ok []) {fuel : Nat} (hf : 0 < fuel) :
    Params.size o = 0 ∧ Params.walk o fuel = .ok [] := by
  rcases h.cases with ⟨-, h1⟩ | ⟨q', A, F, h1, -⟩
  · exact ⟨h1, walk_none h1 hf⟩
  · rw [hq] at h1; cases h1

/-- C38: the number of parameters of an accepted URL is the number of pairs the library finds. -/
theorem C38_size {s : Str} {v : View} (h : View.make s = .ret v) (dbg : Bool) {q : Str} (hq : query_part (v.obj dbg) = .ok (c!"?" :: q)) :
    Params.size (v.obj dbg) = (libPairs q).length := by
  obtain ⟨c, -, -, r⟩ := make_inv h
  rw [acc_query_part (r.obj dbg)] at hq
  cases hc : c.query with
  | none => rw [hc] at hq; cases hq
  | some q' =>
    rw [hc] at hq
    cases hq
    show v.pt.nparam = _
    rw [r.nparam, hc]
    rfl

/-- C38: the same for a `url` constructed from a string. -/
theorem C38_size_url {env : Env} {st st' : St} {s : Str} (h : Base.make s env st = .ret () st') (dbg : Bool) {q : Str}
    (hq : query_part (st'.obj dbg) = .ok (c!"?" :: q)) : Params.size (st'.obj dbg) = (libPairs q).length := by
  obtain ⟨c, -, -, hrep, -, hn⟩ := make_url h
  rw [(hrep.reports dbg).query_part] at hq
  cases hc : c.query with
  | none => rw [hc] at hq; cases hq
  | some q' =>
    rw [hc] at hq
    cases hq
    show st'.pt.nparam = _
    rw [hn, hc]
    rfl

/-- C38 is false: if a piece other than the last contains no `=`, fewer pairs than pieces are visited. -/
theorem C38_irregular_false (h : Readable o) {q : Str} (hq : query_part o = .ok (c!"?" :: q)) (hr : ¬ Regular q) {fuel : Nat} {l : List Param}
    (hw : Params.walk o fuel = .ok l) : l.length < (splitAt c!"&" q).length := by
  rcases h.cases with ⟨h1, -⟩ | ⟨q', A, F, h1, -, h2, hqc, ctx⟩
  · rw [hq] at h1; cases h1
  · rw [hq] at h1
    cases h1
    obtain ⟨h3, h4⟩ := libPairs_irregular hqc
    have hlt : (libPairs q).length < (splitAt c!"&" q).length := by
      apply Classical.byContradiction
      intro hge
      exact hr (h4 (by omega))
    obtain ⟨rfl, -, -⟩ := ctx.walk_inv (libPairs_ne q) hw
    rw [List.length_map]
    exact hlt

/-- C38 is false: if the last pair has no `=` and there is a fragment, the loop never ends properly. -/
theorem C38_fragment_false (h : Readable o) {q f : Str} (hq : query_part o = .ok (c!"?" :: q)) (hf : fragment_part o = .ok (c!"#" :: f))
    {k : Str} (hl : (libPairs q).getLast? = some (k, none)) (fuel : Nat) (l : List Param) : Params.walk o fuel ≠ .ok l := by
  rcases h.cases with ⟨h1, -⟩ | ⟨q', A, F, h1, -, h2, hqc, ctx⟩
  · rw [hq] at h1; cases h1
  · rw [hq] at h1
    cases h1
    rw [hf] at h2
    cases h2
    exact ctx.walk_bad hl rfl (by simp) fuel l

/-- The cases of C38: an escaped pair is kept, `=` in a value is kept, a value may be missing at the end. -/
example : Params.size ((made env0 b!"/p?a=1&%41=b=c&k").obj true) = 3 ∧
    Params.walk ((made env0 b!"/p?a=1&%41=b=c&k").obj true) 4 = .ok [⟨b!"a", b!"1"⟩, ⟨b!"%41", b!"b=c"⟩, ⟨b!"k", []⟩] ∧
    Params.walk ((made env0 b!"?a=1&b=2#f").obj true) 4 = .ok [⟨b!"a", b!"1"⟩, ⟨b!"b", b!"2"⟩] ∧
    Params.walk ((made env0 b!"?").obj true) 4 = .ok [⟨[], []⟩] ∧
    Params.walk ((made env0 b!"/p#f").obj true) 4 = .ok [] := by
  refine ⟨?_, ?_, ?_, ?_, ?_⟩ <;> decide +kernel

/-- C38 is false for `?a&b=1`: the library sees one parameter, with the key `a&b`. -/
theorem C38_irregular_case_false : ¬ Regular b!"a&b=1" ∧ queryPairs b!"a&b=1" = [(b!"a", none), (b!"b", some b!"1")] ∧
    Params.size ((made env0 b!"?a&b=1").obj true) = 1 ∧ Params.walk ((made env0 b!"?a&b=1").obj true) 2 = .ok [⟨b!"a&b", b!"1"⟩] := by
  refine ⟨?_, ?_, ?_, ?_⟩ <;> decide +kernel

/-- C38 is false for `?k#a`: with assertions the loop aborts before its first step; without, it visits the
fragment and then leaves the string. -/
theorem C38_fragment_case_false : Params.size ((made env0 b!"?k#a").obj true) = 1 ∧
    Params.walk ((made env0 b!"?k#a").obj true) 2 = .error .assert ∧
    (do Params.deref ((made env1 b!"?k#a").obj false) (← Params.first ((made env1 b!"?k#a").obj false))) = .ok ⟨b!"k", b!"a"⟩ ∧
    Params.walk ((made env1 b!"?k#a").obj false) 9 = .error .ub := by
  refine ⟨?_, ?_, ?_, ?_⟩ <;> decide +kernel

/-! ### C39

The full claim is for every accepted URL. What is missing are those for which the loop over the parameters does not
end, see `C38_fragment_false` and `C39_fragment_false`. -/

/-- the two cases in which the loop ends -/
theorem Readable.walked (h : Readable o) {fuel : Nat} {ps : List Param} (hw : Params.walk o fuel = .ok ps) :
    (o.pt.nparam = 0 ∧ ps = [] ∧ 0 < fuel) ∨
    ∃ q A F, QCtx o A (libPairs q) F ∧ ps = (libPairs q).map asParam ∧ (libPairs q).length < fuel ∧ ∀ p ∈ libPairs q, p.2 = none → F = [] := by
  rcases h.cases with ⟨-, h1⟩ | ⟨q, A, F, -, -, -, -, ctx⟩
  · cases fuel with
    | zero =>
      rw [Params.walk, Params.first, if_pos h1] at hw
      cases hw
    | succ f =>
      rw [walk_none h1 (Nat.succ_pos f)] at hw
      cases hw
      exact .inl ⟨h1, rfl, Nat.succ_pos f⟩
  · obtain ⟨h1, h2, h3⟩ := ctx.walk_inv (libPairs_ne q) hw
    exact .inr ⟨q, A, F, ctx, h1, h2, h3⟩

theorem key_decoded {L : List Pair} (h : Pairs L) {p : Pair} (hp : p ∈ L) {key : Str} : decodeRaw p.1 = some key ↔ Decoded p.1 key := by
  rw [← decode_eq]
  exact decode_iff (ok := isQkey) (by decide) (h.keys p hp)

theorem value_decoded {L : List Pair} (h : Pairs L) {p : Pair} (hp : p ∈ L) : ∃ d, decodeR (p.2.getD []) = .ok d ∧ Decoded (p.2.getD []) d := by
  cases hv : p.2 with
  | none => exact ⟨[], rfl, .nil⟩
  | some v => exact decodeR_of (ok := isQval) (by decide) (h.vals p hp v hv)

/-- C39, a key that occurs: all lookups use the first parameter whose decoded key is the argument. -/
theorem C39_hit_partial (h : Readable o) {fuel : Nat} {ps : List Param} (hw : Params.walk o fuel = .ok ps) {key : Str} {i : Nat} {p : Param}
    (hp : ps[i]? = some p) (hk : Decoded p.key key) (hfirst : ∀ j < i, ∀ q, ps[j]? = some q → ¬ Decoded q.key key) :
    Params.contains o key fuel = .ok true ∧
    (∃ it, Params.nth o i = .ok it ∧ Params.find o key fuel = .ok it ∧ Params.deref o it = .ok p) ∧
    ∃ v, Decoded p.value v ∧ Params.index o key fuel = .ok v ∧ Params.atKey o key fuel = .ok (some v) := by
  rcases h.walked hw with ⟨-, rfl, -⟩ | ⟨q, A, F, ctx, rfl, hf, hv⟩
  · cases hp
  · rw [List.getElem?_map] at hp
    cases hx : (libPairs q)[i]? with
    | none => rw [hx] at hp; cases hp
    | some x =>
      rw [hx] at hp
      cases hp
      have hxm := List.mem_of_getElem? hx
      have hi : i < (libPairs q).length := (List.getElem?_eq_some_iff.1 hx).1
      have hv' : ∀ j, ∀ p : Pair, (libPairs q)[j]? = some p → p.2 = none → F = [] := fun j p hp => hv p (List.mem_of_getElem? hp)
      have hnth := ctx.nth_pos (libPairs_ne q) (Nat.le_of_lt hi) fun j _ => hv' j
      have hfst := ctx.first_pos (libPairs_ne q) (hv' 0)
      obtain ⟨h1, h2⟩ := ctx.find_hit hx ((key_decoded ctx.ok hxm).2 hk) (Nat.zero_le i)
        (fun j _ hj y hy hd => hfirst j hj (asParam y) (by rw [List.getElem?_map, hy]; rfl) ((key_decoded ctx.ok (List.mem_of_getElem? hy)).1 hd))
        (fun j _ => hv' j) (fuel := fuel) (by omega)
      obtain ⟨d, d1, d2⟩ := value_decoded ctx.ok hxm
      have hfind : Params.find o key fuel = .ok (posP A (libPairs q) i) := by rw [Params.find, hfst]; exact h1
      have hd : Params.deref o (posP A (libPairs q) i) = .ok (asParam x) := ctx.deref_pos hx
      refine ⟨by rw [Params.contains, hfst]; exact h2, ⟨_, hnth, hfind, hd⟩, d, d2, ?_, ?_⟩
      · rw [Params.index, hfind]
        simp only [bind, Except.bind, ctx.eq_last hi, hd, Bool.false_eq_true, if_false]
        exact d1
      · rw [Params.atKey, hfind]
        simp only [bind, Except.bind, ctx.eq_last hi, hd, Bool.false_eq_true, if_false]
        rw [show decodeR (asParam x).value = .ok d from d1]
        rfl

/-- C39, a key that does not occur: `find` gives `end()`, `[]` gives an empty string and `at` throws. -/
theorem C39_miss_partial (h : Readable o) {fuel : Nat} {ps : List Param} (hw : Params.walk o fuel = .ok ps) {key : Str}
    (hno : ∀ q ∈ ps, ¬ Decoded q.key key) :
    Params.contains o key fuel = .ok false ∧ Params.find o key fuel = .ok (Params.last o) ∧
    Params.index o key fuel = .ok [] ∧ Params.atKey o key fuel = .ok none := by
  have key' : Params.find o key fuel = .ok (Params.last o) ∧ Params.contains o key fuel = .ok false := by
    rcases h.walked hw with ⟨h1, rfl, hf⟩ | ⟨q, A, F, ctx, rfl, hf, hv⟩
    · obtain ⟨f, rfl⟩ : ∃ f, fuel = f + 1 := ⟨fuel - 1, by omega⟩
      rw [Params.find, Params.contains, Params.first, if_pos h1]
      simp only [bind, Except.bind]
      rw [Params.findLoop, Params.containsLoop, params_eq_self]
      exact ⟨rfl, rfl⟩
    · have hfst := ctx.first_pos (libPairs_ne q) fun p hp => hv p (List.mem_of_getElem? hp)
      rw [Params.find, Params.contains, hfst]
      exact ctx.find_miss (fun y hy hd => hno (asParam y) (List.mem_map_of_mem hy) ((key_decoded ctx.ok hy).1 hd)) hv (Nat.zero_le _) (by omega)
  refine ⟨key'.2, key'.1, ?_, ?_⟩
  · rw [Params.index, key'.1]
    simp only [bind, Except.bind, params_eq_self, if_true]
    rfl
  · rw [Params.atKey, key'.1]
    simp only [bind, Except.bind, params_eq_self, if_true]
    rfl

open Classical in
/-- C39: `count` is the number of parameters whose decoded key is the argument. -/
theorem C39_count_partial (h : Readable o) {fuel : Nat} {ps : List Param} (hw : Params.walk o fuel = .ok ps) (key : Str) :
    Params.count o key fuel = .ok (ps.countP fun p => decide (Decoded p.key key)) := by
  rcases h.walked hw with ⟨h1, rfl, hf⟩ | ⟨q, A, F, ctx, rfl, hf, hv⟩
  · obtain ⟨f, rfl⟩ : ∃ f, fuel = f + 1 := ⟨fuel - 1, by omega⟩
    rw [Params.count, Params.first, if_pos h1]
    simp only [bind, Except.bind]
    rw [Params.countLoop, params_eq_self]
    rfl
  · have hfst := ctx.first_pos (libPairs_ne q) fun p hp => hv p (List.mem_of_getElem? hp)
    rw [Params.count, hfst]
    simp only [bind, Except.bind]
    rw [ctx.count_good hv (Nat.zero_le _) (by omega), List.drop_zero, Nat.zero_add, List.countP_map]
    congr 1
    apply List.countP_congr
    intro p hp
    simp only [key_decoded ctx.ok hp, asParam, Function.comp, decide_eq_true_eq]
    exact decide_eq_true_iff.symm

/-- The cases of C39: an escaped key is found by its decoded name. -/
example : Params.count ((made env0 b!"?a=1&%61=%42&b=2").obj true) b!"a" 4 = .ok 2 ∧
    Params.index ((made env0 b!"?x=1&%61=%42&a=2").obj true) b!"a" 4 = .ok b!"B" ∧
    Params.atKey ((made env0 b!"?x=1&%61=%42&a=2").obj true) b!"%61" 4 = .ok none ∧
    Params.contains ((made env0 b!"?x=1&%61=%42&a=2").obj true) b!"a" 4 = .ok true := by
  refine ⟨?_, ?_, ?_, ?_⟩ <;> decide +kernel

/-- C39 is false beside a loop that does not end: with `?k#a&z=1` the release build finds the key `z`, although
it is part of the fragment, and reports `a` as the value of `k`. -/
theorem C39_fragment_false : Params.size ((made env1 b!"?k#a&z=1").obj false) = 1 ∧
    Params.contains ((made env1 b!"?k#a&z=1").obj false) b!"z" 9 = .ok true ∧
    Params.index ((made env1 b!"?k#a&z=1").obj false) b!"k" 9 = .ok b!"a" ∧
    Params.contains ((made env0 b!"?k#a&z=1").obj true) b!"k" 9 = .error .assert := by
  refine ⟨?_, ?_, ?_, ?_⟩ <;> decide +kernel

/-! ### C40 -/

/-- C40: decrementing leads back to the parameter before, unless that is the first one or its key contains `&`.

The full claim has neither condition: see `C40_first_false` and `C40_amp_false`. -/
theorem C40_partial (h : Readable o) {fuel : Nat} {ps : List Param} (hw : Params.walk o fuel = .ok ps) {k : Nat} (hk : 0 < k) {p : Param}
    (hp : ps[k]? = some p) (ha : c!"&" ∉ p.key) :
    ∃ a b, Params.nth o k = .ok a ∧ Params.nth o (k + 1) = .ok b ∧ Params.next o a = .ok b ∧ Params.prev o b = .ok a := by
  rcases h.walked hw with ⟨-, rfl, -⟩ | ⟨q, A, F, ctx, rfl, hf, hv⟩
  · cases hp
  · rw [List.getElem?_map] at hp
    cases hx : (libPairs q)[k]? with
    | none => rw [hx] at hp; cases hp
    | some x =>
      rw [hx] at hp
      cases hp
      have hxm := List.mem_of_getElem? hx
      have hi : k < (libPairs q).length := (List.getElem?_eq_some_iff.1 hx).1
      have hv' : ∀ j, ∀ p : Pair, (libPairs q)[j]? = some p → p.2 = none → F = [] := fun j p hp => hv p (List.mem_of_getElem? hp)
      exact ⟨_, _, ctx.nth_pos (libPairs_ne q) (Nat.le_of_lt hi) fun j _ => hv' j, ctx.nth_pos (libPairs_ne q) hi fun j _ => hv' j,
        ctx.next_pos hi (hv' _), ctx.prev_pos hx hk ha (hv x hxm)⟩

/-- C40 is false for the first parameter: decrementing gives the position of `begin()`, but with the lengths of the
key and of the value of the second parameter. -/
theorem C40_first_false (h : Readable o) {fuel : Nat} {ps : List Param} (hw : Params.walk o fuel = .ok ps) {p : Param}
    (hp : ps[0]? = some p) (ha : c!"&" ∉ p.key) :
    ∃ a b, Params.nth o 0 = .ok a ∧ Params.nth o 1 = .ok b ∧ Params.prev o b = .ok ⟨a.off, b.nk, b.nv⟩ := by
  rcases h.walked hw with ⟨-, rfl, -⟩ | ⟨q, A, F, ctx, rfl, hf, hv⟩
  · cases hp
  · rw [List.getElem?_map] at hp
    cases hx : (libPairs q)[0]? with
    | none => rw [hx] at hp; cases hp
    | some x =>
      rw [hx] at hp
      cases hp
      have hi : 0 < (libPairs q).length := (List.getElem?_eq_some_iff.1 hx).1
      have hv' : ∀ j, ∀ p : Pair, (libPairs q)[j]? = some p → p.2 = none → F = [] := fun j p hp => hv p (List.mem_of_getElem? hp)
      refine ⟨_, _, ctx.nth_pos (libPairs_ne q) (Nat.le_of_lt hi) fun j _ => hv' j, ctx.nth_pos (libPairs_ne q) hi fun j _ => hv' j, ?_⟩
      rw [ctx.prev_first hx ha, show (posP A (libPairs q) 0).off = A.length by rw [posP, before_zero]]

/-- C40 is false if a key contains `&`: decrementing does not lead to the position of the parameter. -/
theorem C40_amp_false (h : Readable o) {fuel : Nat} {ps : List Param} (hw : Params.walk o fuel = .ok ps) {k : Nat} {p : Param}
    (hp : ps[k]? = some p) (ha : c!"&" ∈ p.key) :
    ∃ a b, Params.nth o k = .ok a ∧ Params.nth o (k + 1) = .ok b ∧ Params.next o a = .ok b ∧ ∀ it, Params.prev o b = .ok it → it.off ≠ a.off := by
  rcases h.walked hw with ⟨-, rfl, -⟩ | ⟨q, A, F, ctx, rfl, hf, hv⟩
  · cases hp
  · rw [List.getElem?_map] at hp
    cases hx : (libPairs q)[k]? with
    | none => rw [hx] at hp; cases hp
    | some x =>
      rw [hx] at hp
      cases hp
      have hi : k < (libPairs q).length := (List.getElem?_eq_some_iff.1 hx).1
      have hv' : ∀ j, ∀ p : Pair, (libPairs q)[j]? = some p → p.2 = none → F = [] := fun j p hp => hv p (List.mem_of_getElem? hp)
      exact ⟨_, _, ctx.nth_pos (libPairs_ne q) (Nat.le_of_lt hi) fun j _ => hv' j, ctx.nth_pos (libPairs_ne q) hi fun j _ => hv' j,
        ctx.next_pos hi (hv' _), fun it hit => ctx.prev_amp hx ha hit⟩

/-- the parameter found by going `n` forwards and one back -/
def backFrom (o : Obj) (n : Nat) : R Param := do Params.deref o (← Params.prev o (← Params.nth o n))

/-- The cases of C40: back to the second and to the third parameter; back to the first of `?a=1&bcd=2` yields what
is not a parameter, and comparing it with `begin()` fails an assertion; back to `c&d` ends in the middle of the key. -/
theorem C40_case_false : backFrom ((made env0 b!"?a=1&b=22&c=3").obj true) 2 = .ok ⟨b!"b", b!"22"⟩ ∧
    backFrom ((made env0 b!"?a=1&b=22&c=3").obj true) 3 = .ok ⟨b!"c", b!"3"⟩ ∧
    backFrom ((made env1 b!"?a=1&bcd=2").obj false) 1 = .ok ⟨b!"a=1", b!"b"⟩ ∧
    (do let o := (made env0 b!"?a=1&bcd=2").obj true
        Params.eq o (← Params.prev o (← Params.nth o 1)) (← Params.first o)) = .error .assert ∧
    backFrom ((made env1 b!"?a=1&c&d=2").obj false) 2 = .ok ⟨b!"d", b!"2"⟩ ∧
    Params.walk ((made env1 b!"?a=1&c&d=2").obj false) 3 = .ok [⟨b!"a", b!"1"⟩, ⟨b!"c&d", b!"2"⟩] := by
  refine ⟨?_, ?_, ?_, ?_, ?_, ?_⟩ <;> decide +kernel

end Url.Props
