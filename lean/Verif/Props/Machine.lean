import Verif.Props.Capacity
import Verif.Proofs.MachineEdit

/-!
C52: sizes are computed modulo the largest `std::size_t`, and this makes no difference as long as the arguments are
far shorter than that.
-/

set_option autoImplicit false

namespace Url.Props
open Url Spec

variable {env : Env} {st st' : St} {op : Op} {b n : Nat}

theorem arg_length (op : Op) : (Alias.arg op).length = Machine.argLength op := by cases op <;> rfl

theorem segArg_length (e : SegOp) : (Machine.segArg e).length = Machine.segArgLength e := by cases e <;> rfl

theorem granted_reach (h : Reach env st) : st.cap = 0 ∨ Alias.Granted env (st.cap + 1) := by
  induction h with
  | empty => exact .inl rfl
  | @call st st' op _ _ hrun ih =>
    have hg := Alias.grows_run op env st st' (hrun.imp_left fun h => ⟨(), h⟩)
    rcases Nat.lt_or_ge st.cap st'.cap with h | h
    · exact .inr (hg.2.2.1 h).2
    · rw [show st'.cap = st.cap by omega]; exact ih
  | @edit st st' e _ _ hrun ih =>
    have hg := Capacity.grows_seg e env st st' hrun
    rcases Nat.lt_or_ge st.cap st'.cap with h | h
    · exact .inr (hg.2.2.1 h).2
    · rw [show st'.cap = st.cap by omega]; exact ih

theorem granted_used (h : Used env st) : st.cap = 0 ∨ Alias.Granted env (st.cap + 1) := by
  induction h with
  | empty => exact .inl rfl
  | @call st st' op _ hrun ih =>
    have hg := Alias.grows_run op env st st' (hrun.imp_left fun h => ⟨(), h⟩)
    rcases Nat.lt_or_ge st.cap st'.cap with h | h
    · exact .inr (hg.2.2.1 h).2
    · rw [show st'.cap = st.cap by omega]; exact ih

theorem machine_inv (hr : Reach env st ∨ Used env st) (hb : Machine.Bound env b) : Machine.Inv env b st := by
  have hg : st.cap = 0 ∨ st.cap + 1 ≤ b := by
    have : st.cap = 0 ∨ Alias.Granted env (st.cap + 1) := hr.elim granted_reach granted_used
    exact this.imp_right fun ⟨h, t, h'⟩ => hb.granted t _ h h'
  rcases hr with h | h
  · obtain ⟨c, ⟨t, h⟩, -⟩ := h.rep
    exact Machine.inv_of_holds h hb hg
  · obtain ⟨S, U, W, H, P, pa, q, f, t, h⟩ := h.release.parts rfl
    obtain ⟨i1, i2, i3, i4, i5, i6, -⟩ := Machine.inv_of_holds (B := b) h.holds ⟨hb.granted, hb.half⟩ hg
    exact ⟨i1, i2, i3, i4, i5, i6, hb⟩

/-- C52: a call does exactly what the model says if three times its argument, and a little more, can be added to the
largest allocation without exceeding a `std::size_t`. (Missing: longer arguments, see `C52_wrap_false` and
`C52_zero_false`.) -/
theorem C52_calls_partial (hr : Reach env st ∨ Used env st) (hb : Machine.Bound env b)
    (hl : b + 3 * Machine.argLength op + 16 < env.sizeMax) : Machine.run op env st = run op env st :=
  Machine.run_eq (machine_inv hr hb) (by rw [arg_length]; unfold Machine.Lim; omega)

/-- A common 64 bit machine: an allocation has at most half of the largest size. -/
def machine64 : Env := { dbg := false, alloc := fun _ _ => true, maxSize := 2 ^ 63 - 1, sizeMax := 2 ^ 64 - 1, max_le := by decide }

/-- A 32 bit machine with an allocator that has 4096 bytes but does not say so, such as the one of a `static_pool`. -/
def machinePool : Env := { dbg := false, alloc := fun _ n => n ≤ 4096, maxSize := 2 ^ 32 - 1, sizeMax := 2 ^ 32 - 1, max_le := by decide }

theorem bound64 : Machine.Bound machine64 (2 ^ 63 - 1) := ⟨fun _ _ h _ => h, .inr (by decide)⟩

theorem boundPool : Machine.Bound machinePool 4096 := ⟨fun _ _ _ h => of_decide_eq_true h, .inl (by decide)⟩

example (hr : Reach machine64 st ∨ Used machine64 st) (hl : Machine.argLength op ≤ 2 ^ 61) : Machine.run op machine64 st = run op machine64 st :=
  C52_calls_partial hr bound64 (by show 2 ^ 63 - 1 + 3 * Machine.argLength op + 16 < 2 ^ 64 - 1; omega)

example (hr : Reach machinePool st ∨ Used machinePool st) (hl : Machine.argLength op ≤ 2 ^ 30) : Machine.run op machinePool st = run op machinePool st :=
  C52_calls_partial hr boundPool (by show 4096 + 3 * Machine.argLength op + 16 < 2 ^ 32 - 1; omega)

example : textOf (Machine.run (.set_host b!"a b") machine64 (made machine64 b!"http://u@h:8/p?q")) = some b!"http://u@a%20b:8/p?q" := by
  decide +kernel

/-- C52: the same for the edits of segments. -/
theorem C52_edits_partial {e : SegOp} (hr : Reach env st) (he : Editable env st e) (hb : Machine.Bound env b)
    (hl : b + 3 * Machine.segArgLength e + 16 < env.sizeMax) : Machine.runSeg e env st = runSeg e env st := by
  obtain ⟨c, h, -⟩ := hr.rep
  obtain ⟨p, hp, hn, hf, -⟩ := he
  rw [(h.reports env.dbg).path] at hp
  cases hp
  exact Machine.runSeg_eq (machine_inv (.inl hr) hb) h hn hf (by rw [segArg_length]; unfold Machine.Lim; omega)

example : Reach env0 (made env0 b!"/a/b") ∧ Editable env0 (made env0 b!"/a/b") (.insert 1 b!"x y") ∧
    Machine.Bound env0 1000000 ∧ 1000000 + 3 * Machine.segArgLength (.insert 1 b!"x y") + 16 < env0.sizeMax ∧
    (match Machine.runSeg (.insert 1 b!"x y") env0 (made env0 b!"/a/b") with
      | .ret _ st' => (encoded_url (st'.obj true)).toOption
      | _ => none) = some b!"/a/x%20y/b" := by
  refine ⟨(made_ok (env := env0) (s := b!"/a/b") (by decide) rfl).1, ⟨b!"/a/b", ?_, ?_, ?_, ?_⟩, ⟨fun _ _ h _ => h, .inr (by decide)⟩, by decide, ?_⟩ <;>
    decide +kernel

/-- C52: so the histories on a machine are those of the model, and what is proved about them holds for a machine. -/
theorem C52_histories_partial (h : Machine.Reach env n st) (hb : Machine.Bound env b) (hl : b + 3 * n + 16 < env.sizeMax) : Reach env st := by
  induction h with
  | empty => exact .empty
  | @call st st' op _ hn hd hrun ih =>
    rw [C52_calls_partial (.inl ih) hb (by omega)] at hrun
    exact .call op ih hd hrun
  | @edit st st' e _ hn he hrun ih =>
    rw [C52_edits_partial ih he hb (by omega)] at hrun
    exact .edit e ih he hrun

example (h : Machine.Reach machine64 (2 ^ 61) st) : Reach machine64 st := C52_histories_partial h bound64 (by decide)

example : Machine.Reach machine64 (2 ^ 61) (made machine64 b!"http://h/") ∧ textOf (.ret () (made machine64 b!"http://h/")) = some b!"http://h/" :=
  ⟨.call (.set_encoded_url b!"http://h/") .empty (by decide) (fun _ _ => id) (.inl (by rfl)), by decide +kernel⟩

/-- C52: the same for histories with any calls. -/
theorem C52_used_partial (h : Machine.Used env n st) (hb : Machine.Bound env b) (hl : b + 3 * n + 16 < env.sizeMax) : Used env st := by
  induction h with
  | empty => exact .empty
  | @call st st' op _ hn hrun ih =>
    rw [C52_calls_partial (.inr ih) hb (by omega)] at hrun
    exact .call op ih hrun

example (h : Machine.Used machinePool (2 ^ 30) st) : Used machinePool st := C52_used_partial h boundPool (by decide)

example : Machine.Used machinePool (2 ^ 30) (made machinePool b!"http://h/") ∧
    textOf (.ret () (made machinePool b!"http://h/")) = some b!"http://h/" :=
  ⟨.call (.set_encoded_url b!"http://h/") .empty (by decide) (.inl (by rfl)), by decide +kernel⟩

theorem encodedFrom_replicate {k : Nat} {e : PctSet} {c : Byte} (h : e.needed c = 3) :
    ∀ (n m : Nat), m ≤ k → Machine.encodedFrom k e m (List.replicate n c) = (m + 3 * n) % (k + 1)
  | 0, m, hm => by rw [Nat.mul_zero, Nat.add_zero, Nat.mod_eq_of_lt (by omega)]; rfl
  | n + 1, m, hm => by
    rw [List.replicate_succ]
    show Machine.encodedFrom k e (Machine.add k m (e.needed c)) (List.replicate n c) = _
    have hlt : (m + 3) % (k + 1) < k + 1 := Nat.mod_lt _ (by omega)
    rw [h, Machine.add, encodedFrom_replicate h n _ (by omega), Nat.mod_add_mod]
    congr 1
    omega

theorem encode_replicate {e : PctSet} {c : Byte} (h : e.is_special c = true) (n : Nat) : (e.encode (List.replicate n c)).length = 3 * n := by
  induction n with
  | zero => rfl
  | succ n ih =>
    rw [List.replicate_succ]
    show (if e.is_special c then encodeChar c ++ e.encode (List.replicate n c) else _).length = _
    rw [if_pos h, List.length_append, ih]
    show 3 + 3 * n = _
    omega

theorem storage_empty {k n : Nat} (h0 : 0 < n) (hk : n < k) (hm : n + 1 ≤ env.maxSize) (hl : env.maxSize ≤ k) (ha : env.alloc 0 (n + 1) = true) :
    Machine.storage k n env Base.empty =
      .ret () { buf := some ((List.replicate (n + 1) none).set n (some 0)), size := n, cap := n, tick := 1, log := [.alloc 0 (n + 1)] } := by
  have e1 : Machine.sub k env.maxSize 0 = env.maxSize := Machine.sub_eq (Nat.zero_le _) hl
  have e2 : Machine.add k 0 0 = 0 := Machine.add_eq (Nat.zero_le _)
  have e3 : Machine.add k n 1 = n + 1 := Machine.add_eq hk
  have hr : Machine.reserve k n env Base.empty = .ret () { buf := some (List.replicate (n + 1) none), cap := n, tick := 1, log := [.alloc 0 (n + 1)] } := by
    unfold Machine.reserve
    have c0 : ¬ n ≤ Base.empty.cap := by show ¬ n ≤ 0; omega
    rw [if_neg c0]
    show (match Storage.allocate (Machine.add k (if 0 < Machine.sub k env.maxSize 0 then
      (if Machine.add k 0 0 < n then n else Machine.add k 0 0) else env.maxSize) 1) env Base.empty with
      | .throw e st => _ | .fault f => _ | .ret id st => _) = _
    rw [e1, e2, if_pos (by omega : 0 < env.maxSize), if_pos h0, e3]
    have : Storage.allocate (n + 1) env Base.empty = .ret 0 { tick := 1, log := [.alloc 0 (n + 1)] } := by
      unfold Storage.allocate
      exact if_pos ⟨hm, ha⟩
    rw [this]
    show Out.ret () _ = _
    rw [show Base.empty.cap = 0 from rfl, e1, e2, if_pos (by omega : 0 < env.maxSize), if_pos h0, e3]
  unfold Machine.storage
  rw [hr]
  dsimp only
  rw [if_pos (by rw [List.length_replicate]; omega)]

/-- What a part of the size `n` needs in an empty `url`. -/
theorem resize_empty {k id n : Nat} (h0 : 0 < n) (hk : n < k) (hm : n + 1 ≤ env.maxSize) (hl : env.maxSize ≤ k) (ha : env.alloc 0 (n + 1) = true) :
    ∃ st b, Machine.resize k id n env Base.empty = .ret 0 st ∧ st.buf = some b ∧ b.length = n + 1 := by
  have e0 : Machine.sub k 0 0 = 0 := Machine.sub_eq (Nat.le_refl _) (Nat.zero_le _)
  have e1 : Machine.sub k k 0 = k := Machine.sub_eq (Nat.zero_le _) (Nat.le_refl _)
  have e2 : Machine.sub k n 0 = n := Machine.sub_eq (Nat.zero_le _) (by omega)
  have e3 : Machine.add k 0 n = n := by rw [Machine.add_eq (by omega)]; omega
  have e4 : Machine.add k 0 1 = 1 := Machine.add_eq (by omega)
  refine ⟨{ buf := some (((List.replicate (n + 1) none).set n (some 0)).take (0 + n) ++ (((List.replicate (n + 1) none).set n (some 0)).drop 0).take 1 ++ ((List.replicate (n + 1) none).set n (some 0)).drop (0 + n + 1)), size := n, cap := n, tick := 1, log := [.alloc 0 (n + 1)], pt := ({} : Parts).shift id (Machine.add k · n) }, _, ?_, rfl, ?_⟩
  · unfold Machine.resize
    rw [run_bind_ret run_pt]
    dsimp only
    have e5 : Machine.length k Base.empty.pt id = 0 := e0
    rw [show Base.empty.pt.off id_end = 0 from rfl, show Base.empty.pt.off (id + 1) = 0 from rfl, show Base.empty.pt.off id = 0 from rfl,
      e5, e0, e1, e2, e3, e4, if_neg (by omega), if_neg (by omega), if_neg (by omega),
      run_bind_ret (storage_empty h0 hk hm hl ha)]
    have hmv : M.move (0 + n) 0 1 env { buf := some ((List.replicate (n + 1) none).set n (some 0)), size := n, cap := n, tick := 1, log := [.alloc 0 (n + 1)] } =
      .ret () { buf := some (((List.replicate (n + 1) none).set n (some 0)).take (0 + n) ++ (((List.replicate (n + 1) none).set n (some 0)).drop 0).take 1 ++ ((List.replicate (n + 1) none).set n (some 0)).drop (0 + n + 1)), size := n, cap := n, tick := 1, log := [.alloc 0 (n + 1)] } := by
      unfold M.move
      rw [if_neg (by omega)]
      exact if_pos (by rw [List.length_set, List.length_replicate]; omega)
    rw [run_bind_ret hmv, run_bind_ret (run_setPt _)]
    rfl
  · simp

theorem run_set_query (s : Str) : Machine.run (.set_query s) env st = Machine.setPlain env.sizeMax id_query c!"?" query_pct_set s env st := rfl

theorem run_set_query' (s : Str) : run (.set_query s) env st = Base.setPlain id_query c!"?" query_pct_set s env st := rfl

/-- C52 fails for long arguments: escaping a third of what a size can count, and one byte more, asks for at most three
bytes, and writes behind them. The model, with sizes that do not wrap, throws. -/
theorem C52_wrap_false (hk : 8 ≤ env.sizeMax) (hm : 5 ≤ env.maxSize) (ha : ∀ n, n ≤ 5 → env.alloc 0 n = true) :
    Machine.run (.set_query (List.replicate ((env.sizeMax + 1) / 3 + 1) c!"#")) env Base.empty = .fault .ub ∧
    run (.set_query (List.replicate ((env.sizeMax + 1) / 3 + 1) c!"#")) env Base.empty = .throw .too_large Base.empty := by
  have hneed : query_pct_set.needed c!"#" = 3 := by decide +kernel
  have hspec : query_pct_set.is_special c!"#" = true := by decide +kernel
  have hlen := encode_replicate hspec ((env.sizeMax + 1) / 3 + 1)
  have hne : (List.replicate ((env.sizeMax + 1) / 3 + 1) c!"#").isEmpty = false := rfl
  constructor
  · obtain ⟨m, hm0, hm1, hm2⟩ : ∃ m, Machine.encoded_size env.sizeMax query_pct_set (List.replicate ((env.sizeMax + 1) / 3 + 1) c!"#") = m ∧ 1 ≤ m ∧ m ≤ 3 := by
      refine ⟨_, rfl, ?_⟩
      unfold Machine.encoded_size
      rw [encodedFrom_replicate hneed _ _ (Nat.zero_le _)]
      rw [show 0 + 3 * ((env.sizeMax + 1) / 3 + 1) = (3 * ((env.sizeMax + 1) / 3 + 1) - (env.sizeMax + 1)) + (env.sizeMax + 1) by omega,
        Nat.add_mod_right, Nat.mod_eq_of_lt (by omega)]
      omega
    obtain ⟨st, b, h1, h2, h3⟩ := resize_empty (env := env) (k := env.sizeMax) (id := id_query) (n := 1 + m) (by omega) (by omega) (by omega)
      env.max_le (ha _ (by omega))
    rw [run_set_query]
    unfold Machine.setPlain
    rw [hne, if_neg (by decide), hm0]
    unfold Machine.storeTail
    rw [Machine.add_eq (by omega), run_bind_ret h1]
    have hp : M.put 0 [c!"?"] env st = .ret () { st with buf := some (b.take 0 ++ [some c!"?"] ++ b.drop (0 + 1)) } := by
      unfold M.put
      rw [h2]
      have : 0 + [c!"?"].length ≤ b.length := by rw [h3]; show 0 + 1 ≤ _; omega
      exact if_pos this
    rw [run_bind_ret hp]
    unfold M.put
    rw [if_neg (by rw [List.isEmpty_iff_length_eq_zero, hlen]; omega)]
    refine if_neg ?_
    rw [hlen]
    simp only [List.length_append, List.length_take, List.length_drop, List.length_cons, List.length_nil, h3]
    omega
  · rw [run_set_query']
    unfold Base.setPlain
    have hsz : 1 + query_pct_set.encoded_size (List.replicate ((env.sizeMax + 1) / 3 + 1) c!"#") = 1 + 3 * ((env.sizeMax + 1) / 3 + 1) := by
      rw [encoded_size_eq setOf_query, hlen]
    have hr : Base.resize id_query (1 + 3 * ((env.sizeMax + 1) / 3 + 1)) env Base.empty = .throw .too_large Base.empty := by
      unfold Base.resize
      rw [run_bind_ret run_pt]
      dsimp only
      rw [show Base.empty.pt.length id_query = 0 from rfl, show Base.empty.pt.off id_end = 0 from rfl, if_neg (by omega), if_neg (by omega),
        run_bind_ret run_sizeMax, if_pos (by omega)]
      rfl
    rw [hne, if_neg (by decide), hsz, run_bind, hr]

example : Machine.run (.set_query (List.replicate 1431655766 c!"#")) machinePool Base.empty = .fault .ub ∧
    run (.set_query (List.replicate 1431655766 c!"#")) machinePool Base.empty = .throw .too_large Base.empty :=
  C52_wrap_false (env := machinePool) (by decide) (by decide) fun n h => decide_eq_true (by omega)

theorem run_set_user (s : Str) : Machine.run (.set_user s) env st = Machine.set_user env.sizeMax s env st := rfl

theorem run_set_user' (s : Str) : run (.set_user s) env st = Base.set_user s env st := rfl

/-- C52 fails for long arguments: a result with as many bytes as a size can count passes the check for the largest size, the room for it
and the null behind it is then no bytes, and the null is written there. -/
theorem C52_zero_false (h3 : env.sizeMax % 3 = 0) (hk : 6 ≤ env.sizeMax) (hm : 0 < env.maxSize) (ha : env.alloc 0 0 = true) :
    Machine.run (.set_user (List.replicate ((env.sizeMax - 3) / 3) c!":")) env Base.empty = .fault .ub ∧
    run (.set_user (List.replicate ((env.sizeMax - 3) / 3) c!":")) env Base.empty = .throw .bad_alloc { tick := 1 } := by
  have hneed : userinfo_nc_pct_set.needed c!":" = 3 := by decide +kernel
  have hspec : userinfo_nc_pct_set.is_special c!":" = true := by decide +kernel
  have hlen := encode_replicate hspec ((env.sizeMax - 3) / 3)
  have hne : (List.replicate ((env.sizeMax - 3) / 3) c!":").isEmpty = false := by
    rw [show (env.sizeMax - 3) / 3 = (env.sizeMax - 3) / 3 - 1 + 1 by omega]
    rfl
  constructor
  · have hsz : Machine.encoded_size env.sizeMax userinfo_nc_pct_set (List.replicate ((env.sizeMax - 3) / 3) c!":") = env.sizeMax - 3 := by
      unfold Machine.encoded_size
      rw [encodedFrom_replicate hneed _ _ (Nat.zero_le _), Nat.mod_eq_of_lt (by omega)]
      omega
    have e0 : Machine.sub env.sizeMax 0 0 = 0 := Machine.sub_eq (Nat.le_refl _) (Nat.zero_le _)
    have e1 : Machine.sub env.sizeMax env.sizeMax 0 = env.sizeMax := Machine.sub_eq (Nat.zero_le _) (Nat.le_refl _)
    have e2 : Machine.add env.sizeMax 0 env.sizeMax = env.sizeMax := by rw [Machine.add_eq (by omega)]; omega
    have hr : Machine.reserve env.sizeMax env.sizeMax env Base.empty = .ret () { buf := some [], cap := env.sizeMax, tick := 1, log := [.alloc 0 0] } := by
      have f1 : Machine.sub env.sizeMax env.maxSize 0 = env.maxSize := Machine.sub_eq (Nat.zero_le _) env.max_le
      have f2 : Machine.add env.sizeMax 0 0 = 0 := Machine.add_eq (Nat.zero_le _)
      have f3 : Machine.add env.sizeMax env.sizeMax 1 = 0 := Nat.mod_self _
      have f4 : Storage.allocate 0 env Base.empty = .ret 0 { tick := 1, log := [.alloc 0 0] } := if_pos ⟨Nat.zero_le _, ha⟩
      have c0 : ¬ env.sizeMax ≤ Base.empty.cap := by show ¬ env.sizeMax ≤ 0; omega
      unfold Machine.reserve
      rw [if_neg c0]
      dsimp only
      rw [show Base.empty.cap = 0 from rfl, f1, f2, if_pos hm, if_pos (by omega), f3, f4]
      rfl
    have hs : Machine.storage env.sizeMax env.sizeMax env Base.empty = .fault .ub := by
      unfold Machine.storage
      rw [hr]
      exact if_neg (Nat.not_lt_zero _)
    have hz : Machine.resize env.sizeMax id_user env.sizeMax env Base.empty = .fault .ub := by
      unfold Machine.resize
      rw [run_bind_ret run_pt]
      dsimp only
      rw [show Machine.length env.sizeMax Base.empty.pt id_user = 0 from e0, show Base.empty.pt.off id_end = 0 from rfl, e0, e1, e2,
        if_neg (by omega), if_neg (by omega), if_neg (by omega), run_bind, hs]
    rw [run_set_user]
    unfold Machine.set_user
    rw [hne, if_neg (by decide), hsz]
    unfold Machine.storeUser
    rw [run_bind_ret run_pt, show Machine.length env.sizeMax Base.empty.pt id_password = 0 from e0, if_neg (by omega),
      Machine.add_eq (a := 2) (by omega), Machine.add_eq (by omega), show 2 + (env.sizeMax - 3) + 1 = env.sizeMax by omega, run_bind, hz]
  · have hsz : 2 + userinfo_nc_pct_set.encoded_size (List.replicate ((env.sizeMax - 3) / 3) c!":") + 1 = env.sizeMax := by
      rw [encoded_size_eq setOf_userinfo_nc, hlen]
      omega
    have hr : Storage.resize env.sizeMax env Base.empty = .throw .bad_alloc { tick := 1 } := by
      have hml := env.max_le
      have f4 : Storage.allocate (env.sizeMax + 1) env Base.empty = .throw .bad_alloc { tick := 1 } := if_neg (by omega)
      have c0 : ¬ env.sizeMax ≤ Base.empty.cap := by show ¬ env.sizeMax ≤ 0; omega
      have f5 : Storage.newCap env.maxSize Base.empty.cap env.sizeMax = env.sizeMax := by
        unfold Storage.newCap
        rw [show Base.empty.cap = 0 from rfl, if_pos (by omega), if_pos (by omega)]
      unfold Storage.resize Storage.reserve
      rw [if_neg c0]
      dsimp only
      rw [f5, f4]
    have hz : Base.resize id_user env.sizeMax env Base.empty = .throw .bad_alloc { tick := 1 } := by
      unfold Base.resize
      rw [run_bind_ret run_pt]
      dsimp only
      rw [show Base.empty.pt.length id_user = 0 from rfl, show Base.empty.pt.off id_end = 0 from rfl, if_neg (by omega), if_neg (by omega),
        run_bind_ret run_sizeMax, if_neg (by omega), run_bind, show 0 - 0 + env.sizeMax = env.sizeMax by omega, hr]
    rw [run_set_user']
    unfold Base.set_user
    rw [hne, if_neg (by decide)]
    dsimp only
    rw [run_bind_ret run_pt, show Base.empty.pt.length id_password = 0 from rfl, if_neg (by omega), hsz, run_bind, hz]

example : Machine.run (.set_user (List.replicate 1431655764 c!":")) machinePool Base.empty = .fault .ub ∧
    run (.set_user (List.replicate 1431655764 c!":")) machinePool Base.empty = .throw .bad_alloc { tick := 1 } :=
  C52_zero_false (env := machinePool) (by decide) (by decide) (by decide) (by decide)

end Url.Props
