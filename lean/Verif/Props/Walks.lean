import Verif.Proofs.CostWalk
import Verif.Props.Sharper
import Verif.Props.Segments

/-!
C68. Walking over the parameters or the segments, and looking for a key, take linear time: a loop over the parameters
reads each character of the query at most four times, a lookup at most five times, however long the key is; a loop over
the segments reads each character of the path once, and two more for each segment.

The reads are counted in `Verif/Model/CostWalk.lean`.
-/

set_option autoImplicit false

namespace Url.Props

open Url Spec

variable {o : Obj}

/-- C68, the counting loops over the parameters compute what the loops of the library compute, for every object, key
and number of steps: the results and the faults are the same. -/
theorem C68_same (o : Obj) (key : Str) (fuel : Nat) : (Params.n_walk o fuel).val = Params.walk o fuel ∧
    (Params.n_contains o key fuel).val = Params.contains o key fuel ∧ (Params.n_count o key fuel).val = Params.count o key fuel ∧
    (Params.n_find o key fuel).val = Params.find o key fuel :=
  ⟨Params.walk_erase .., Params.contains_erase .., Params.count_erase .., Params.find_erase ..⟩

/-- C68, so do the counting loops over the segments, of a `url_view` and of a `url`. -/
theorem C68_same_segments (o : Obj) (fuel : Nat) : (Seg.n_walk id_frag o fuel).val = View.segments o fuel ∧
    (Seg.n_walk id_query o fuel).val = Base.segments o fuel := ⟨Seg.walk_erase .., Seg.walk_erase ..⟩

/-- C68, whatever the object, and whether the loop returns, fails an assertion or leaves the memory: there is a bound
that is linear in the number of bytes from the query on, and that does not depend on the key or on the number of
steps. -/
theorem C68_all (o : Obj) (key : Str) (fuel : Nat) :
    (Params.n_walk o fuel).reads ≤ 4 * (o.mem.length - o.pt.off id_query) + 4 ∧
    (Params.n_contains o key fuel).reads ≤ 5 * (o.mem.length - o.pt.off id_query) + 4 ∧
    (Params.n_count o key fuel).reads ≤ 5 * (o.mem.length - o.pt.off id_query) + 4 ∧
    (Params.n_find o key fuel).reads ≤ 5 * (o.mem.length - o.pt.off id_query) + 4 :=
  ⟨Params.reads_all (.inl rfl) (Params.walk_bd ..), Params.reads_all (.inr rfl) (Params.contains_bd ..),
    Params.reads_all (.inr rfl) (Params.count_bd ..), Params.reads_all (.inr rfl) (Params.find_bd ..)⟩

/-- C68, in particular for every accepted text: the bound is linear in its size. This includes the texts for which
the loop faults. -/
theorem C68_view {s : Str} {v : View} (h : View.make s = .ret v) (dbg : Bool) (key : Str) (fuel : Nat) :
    (Params.n_walk (v.obj dbg) fuel).reads ≤ 4 * s.length + 4 ∧
    (Params.n_contains (v.obj dbg) key fuel).reads ≤ 5 * s.length + 4 ∧
    (Params.n_count (v.obj dbg) key fuel).reads ≤ 5 * s.length + 4 ∧
    (Params.n_find (v.obj dbg) key fuel).reads ≤ 5 * s.length + 4 := by
  have hm : (v.obj dbg).mem.length = s.length := by
    obtain ⟨c, hc, rfl, r⟩ := make_inv h
    simp [View.obj, r.s]
  obtain ⟨h1, h2, h3, h4⟩ := C68_all (v.obj dbg) key fuel
  rw [hm] at h1 h2 h3 h4
  exact ⟨by omega, by omega, by omega, by omega⟩

theorem get_size {id : Nat} {s : Str} (h : o.get id = .ok s) : s.length = o.pt.off (id + 1) - o.pt.off id := by
  unfold Obj.get Obj.get2 at h
  split at h
  · exact Obj.read_size h
  · cases h

theorem query_size {q : Str} (h : query_part o = .ok q) :
    o.pt.off id_query ≤ o.pt.off id_frag ∧ q.length = o.pt.off id_frag - o.pt.off id_query := by
  unfold query_part Url.delimited at h
  obtain ⟨s, hs, h⟩ := Params.bind_ok h
  have hq : s = q := by
    split at h
    · cases h; rfl
    · obtain ⟨-, -, h⟩ := Params.bind_ok h
      cases h
      rfl
  subst hq
  refine ⟨?_, get_size hs⟩
  unfold Obj.get Obj.get2 at hs
  split at hs
  · assumption
  · cases hs

/-- Where the loop returns, the lookups return. -/
theorem lookups_return (h : Readable o) {fuel : Nat} {ps : List Param} (hw : Params.walk o fuel = .ok ps) (key : Str) :
    (∃ b, Params.contains o key fuel = .ok b) ∧ ∃ it, Params.find o key fuel = .ok it := by
  classical
  by_cases hk : ∀ q ∈ ps, ¬ Decoded q.key key
  · obtain ⟨h1, h2, -⟩ := C39_miss_partial h hw hk
    exact ⟨⟨_, h1⟩, _, h2⟩
  · have hx : ∃ i : Nat, ∃ p : Param, ps[i]? = some p ∧ Decoded p.key key := by
      refine Classical.byContradiction fun hn => hk fun q hq hd => hn ?_
      obtain ⟨i, hi⟩ := List.getElem?_of_mem hq
      exact ⟨i, q, hi, hd⟩
    have hmin : ∃ i : Nat, (∃ p : Param, ps[i]? = some p ∧ Decoded p.key key) ∧ ∀ j < i, ¬ ∃ p : Param, ps[j]? = some p ∧ Decoded p.key key := by
      obtain ⟨i, hi⟩ := hx
      induction i using Nat.strongRecOn with
      | ind i ih =>
        by_cases hj : ∃ j < i, ∃ p : Param, ps[j]? = some p ∧ Decoded p.key key
        · obtain ⟨j, hj, hp⟩ := hj
          exact ih j hj hp
        · exact ⟨i, hi, fun j hj' hp => hj ⟨j, hj', hp⟩⟩
    obtain ⟨i, ⟨p, hp, hd⟩, hf⟩ := hmin
    obtain ⟨h1, ⟨it, -, h2, -⟩, -⟩ := C39_hit_partial h hw hp hd fun j hj q hq hd => hf j hj ⟨q, hq, hd⟩
    exact ⟨⟨_, h1⟩, _, h2⟩

/-- C68, for an accepted view, or a url after any calls that knows whether it has parameters: where the loop over the
parameters returns, it reads each character of the query at most four times, and a lookup at most five times. -/
theorem C68_query (h : Readable o) {q : Str} (hq : query_part o = .ok q) {fuel : Nat} {ps : List Param}
    (hw : Params.walk o fuel = .ok ps) (key : Str) :
    (Params.n_walk o fuel).reads ≤ 4 * q.length ∧ (Params.n_contains o key fuel).reads ≤ 5 * q.length ∧
    (Params.n_count o key fuel).reads ≤ 5 * q.length ∧ (Params.n_find o key fuel).reads ≤ 5 * q.length := by
  have hs : q.length = o.pt.off id_frag - o.pt.off id_query := (query_size hq).2
  have hn : o.pt.nparam ≠ 0 → o.pt.off id_query ≠ o.pt.off id_frag := by
    intro hn he
    rcases h.cases with ⟨-, h0⟩ | ⟨q', A, F, h1, -⟩
    · exact hn h0
    · rw [hq] at h1
      cases h1
      simp only [List.length_cons] at hs
      omega
  obtain ⟨⟨b, hb⟩, it, hi⟩ := lookups_return h hw key
  rw [hs]
  exact ⟨Params.reads_query (.inl rfl) (Params.walk_bd ..) ((Params.walk_erase ..).trans hw) hn hw,
    Params.reads_query (.inr rfl) (Params.contains_bd ..) ((Params.contains_erase ..).trans hb) hn hw,
    Params.reads_query (.inr rfl) (Params.count_bd ..) ((Params.count_erase ..).trans (C39_count_partial h hw key)) hn hw,
    Params.reads_query (.inr rfl) (Params.find_bd ..) ((Params.find_erase ..).trans hi) hn hw⟩

/-- C68, the factors are the smallest ones: a loop with assertions over a query of eight characters reads 30, and
a lookup in a query of 18 characters reads 86. -/
theorem C68_factor :
    (Readable ((made env0 b!"?=&=&=&=").obj true) ∧ query_part ((made env0 b!"?=&=&=&=").obj true) = .ok b!"?=&=&=&=" ∧
      (Params.walk ((made env0 b!"?=&=&=&=").obj true) 5).isOk ∧
      3 * (b!"?=&=&=&=").length < (Params.n_walk ((made env0 b!"?=&=&=&=").obj true) 5).reads) ∧
    (Readable ((made env0 b!"?aaaaaaaaaaaaaaaa=").obj true) ∧
      query_part ((made env0 b!"?aaaaaaaaaaaaaaaa=").obj true) = .ok b!"?aaaaaaaaaaaaaaaa=" ∧
      (Params.walk ((made env0 b!"?aaaaaaaaaaaaaaaa=").obj true) 2).isOk ∧
      4 * (b!"?aaaaaaaaaaaaaaaa=").length <
        (Params.n_find ((made env0 b!"?aaaaaaaaaaaaaaaa=").obj true) b!"aaaaaaaaaaaaaaaa" 2).reads) := by
  refine ⟨⟨?_, ?_, ?_, ?_⟩, ?_, ?_, ?_, ?_⟩
  · exact made_readable (by decide +kernel) _
  · decide +kernel
  · decide +kernel
  · decide +kernel
  · exact made_readable (by decide +kernel) _
  · decide +kernel
  · decide +kernel
  · decide +kernel

/-- A query with escapes: 22 characters, 45 reads by the loop and 57 by a lookup. -/
example : Readable ((made env0 b!"?k=v&long=%41%42%43&e=").obj true) ∧
    Params.walk ((made env0 b!"?k=v&long=%41%42%43&e=").obj true) 4 = .ok [⟨b!"k", b!"v"⟩, ⟨b!"long", b!"%41%42%43"⟩, ⟨b!"e", []⟩] ∧
    (Params.n_walk ((made env0 b!"?k=v&long=%41%42%43&e=").obj true) 4).reads = 45 ∧
    (Params.n_count ((made env0 b!"?k=v&long=%41%42%43&e=").obj true) b!"long" 4).reads = 57 :=
  ⟨made_readable (by decide +kernel) _, by decide +kernel, by decide +kernel, by decide +kernel⟩

/-- C68, the loop over the segments of a `url` after any calls: if it returns the segments `ss`, it reads as many
characters as the path has, and two more for each segment, and two more. -/
theorem C68_segments {p : Str} (hp : encoded_path o = .ok p) {fuel : Nat} {ss : List Str} (h : Base.segments o fuel = .ok ss) :
    (Seg.n_walk id_query o fuel).reads ≤ p.length + 2 * ss.length + 2 := by
  have hs : p.length = o.pt.off id_query - o.pt.off id_path := get_size hp
  rw [hs]
  exact Seg.walk_reads rfl h

example : encoded_path ((made env0 b!"a/b//c?q").obj true) = .ok b!"a/b//c" ∧
    Base.segments ((made env0 b!"a/b//c?q").obj true) 5 = .ok [b!"a", b!"b", [], b!"c"] ∧
    (Seg.n_walk id_query ((made env0 b!"a/b//c?q").obj true) 5).reads = 6 + 2 * 4 + 1 := by decide +kernel

/-- C68, the loop over the segments of a `url_view` or of a `const` `url` without a query. (With a query it does not
return, see `C35_false`.) -/
theorem C68_segments_view {p : Str} (hp : encoded_path o = .ok p) (hq : query_part o = .ok []) {fuel : Nat} {ss : List Str}
    (h : View.segments o fuel = .ok ss) : (Seg.n_walk id_frag o fuel).reads ≤ p.length + 2 * ss.length + 2 := by
  have hs : p.length = o.pt.off id_query - o.pt.off id_path := get_size hp
  obtain ⟨h1, h0⟩ := query_size hq
  simp only [List.length_nil] at h0
  rw [hs]
  exact Seg.walk_reads (Nat.le_antisymm (by omega) h1) h

example : encoded_path ((made env0 b!"a/b//c#f").obj true) = .ok b!"a/b//c" ∧ query_part ((made env0 b!"a/b//c#f").obj true) = .ok [] ∧
    View.segments ((made env0 b!"a/b//c#f").obj true) 5 = .ok [b!"a", b!"b", [], b!"c"] ∧
    (Seg.n_walk id_frag ((made env0 b!"a/b//c#f").obj true) 5).reads = 6 + 2 * 4 := by decide +kernel

end Url.Props
