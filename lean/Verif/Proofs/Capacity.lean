import Verif.Proofs.Alias

/-!
Every call but one makes room once, for the size of its result.
-/

set_option linter.unusedSimpArgs false

namespace Url.Capacity
open M Base Spec Alias

variable {α β : Type} {env : Env} {st : St}

/-- A step that does not make room or change the size. -/
def Tail (m : M α) : Prop := ∀ env st a st', m env st = .ret a st' →
  st'.cap = st.cap ∧ st'.tick = st.tick ∧ st'.pt.off 8 = st.pt.off 8

/-- room was made for `n` characters, once, if there was not enough -/
def Room (env : Env) (st : St) (n : Nat) (st' : St) : Prop :=
  (n ≤ st.cap ∧ st'.cap = st.cap ∧ st'.tick = st.tick) ∨
  (st.cap < n ∧ st'.tick = st.tick + 1 ∧ st'.cap = Storage.newCap env.maxSize st.cap n ∧ st'.cap + 1 ≤ env.maxSize)

/-- the offsets are in order and within the capacity -/
structure Proper (st : St) : Prop where
  ord : Ordered st.pt
  cap : st.pt.off 8 ≤ st.cap

/-- A call that makes room only for a result that does not fit, and once. -/
def Fit (m : M α) : Prop := ∀ env st a st', Proper st → m env st = .ret a st' → Room env st (st'.pt.off 8) st'

theorem Tail.reads {m : M α} (h : Reads m) : Tail m := by
  intro env st a st' hr
  rcases h env st with ⟨b, h⟩ | ⟨f, h⟩ | ⟨e, h⟩ <;> rw [h] at hr <;> cases hr
  exact ⟨rfl, rfl, rfl⟩

theorem Tail.bind {m : M α} {f : α → M β} (hm : Tail m) (hf : ∀ a, Tail (f a)) : Tail (m >>= f) := by
  intro env st b st' h
  rw [run_bind] at h
  cases hx : m env st with
  | ret a st1 =>
    rw [hx] at h
    have h1 := hm env st a st1 hx
    have h2 := hf a env st1 b st' h
    omega
  | throw e st1 => rw [hx] at h; cases h
  | fault x => rw [hx] at h; cases h

theorem Tail.put (i : Nat) (s : Str) : Tail (M.put i s) := by
  intro env st a st' h
  unfold M.put at h
  split at h
  · cases h; exact ⟨rfl, rfl, rfl⟩
  · split at h
    · cases h
    · split at h
      · cases h; exact ⟨rfl, rfl, rfl⟩
      · cases h

theorem Tail.move (a b n : Nat) : Tail (M.move a b n) := by
  intro env st x st' h
  unfold M.move at h
  split at h
  · cases h; exact ⟨rfl, rfl, rfl⟩
  · split at h
    · cases h
    · split at h
      · cases h; exact ⟨rfl, rfl, rfl⟩
      · cases h

theorem Tail.host (k : HostType) : Tail (M.setPt fun pt => { pt with host := k }) := by
  intro env st x st' h
  cases h
  exact ⟨rfl, rfl, rfl⟩

theorem Tail.split {id n : Nat} (hid : id < 7) : Tail (Base.split id n) := by
  unfold Base.split
  refine .bind (.reads (.assert _)) fun _ => .bind (.reads (.assert _)) fun _ => ?_
  intro env st x st' h
  cases h
  refine ⟨rfl, rfl, ?_⟩
  simp only [Parts.split]
  rw [if_neg (by omega)]

theorem Fit.tail {m : M α} (h : Tail m) : Fit m := by
  intro env st a st' ho hr
  obtain ⟨h1, h2, h3⟩ := h env st a st' hr
  exact .inl ⟨by rw [h3]; exact ho.cap, h1, h2⟩

theorem Fit.read {m : M α} {f : α → M β} (hm : Reads m) (hf : ∀ a, Fit (f a)) : Fit (m >>= f) := by
  intro env st b st' ho h
  rw [run_bind] at h
  rcases hm env st with ⟨a, h1⟩ | ⟨x, h1⟩ | ⟨e, h1⟩ <;> rw [h1] at h
  · exact hf a env st b st' ho h
  · cases h
  · cases h

theorem Fit.bind {m : M α} {f : α → M β} (hm : Fit m) (hf : ∀ a, Tail (f a)) : Fit (m >>= f) := by
  intro env st b st' ho h
  rw [run_bind] at h
  cases hx : m env st with
  | ret a st1 =>
    rw [hx] at h
    have h1 := hm env st a st1 ho hx
    obtain ⟨h2, h3, h4⟩ := hf a env st1 b st' h
    unfold Room at h1 ⊢
    rw [h2, h3, h4]
    exact h1
  | throw e st1 => rw [hx] at h; cases h
  | fault x => rw [hx] at h; cases h

/-- what `Storage.resize` does to the capacity -/
theorem storage_resize_fit {n : Nat} {st' : St} (h : Storage.resize n env st = .ret () st') :
    st'.pt = st.pt ∧ Room env st n st' := by
  refine ⟨(storage_resize_grow h).1, ?_⟩
  have hx : ∃ st1, Storage.reserve n env st = .ret () st1 ∧ st'.cap = st1.cap ∧ st'.tick = st1.tick := by
    unfold Storage.resize at h
    cases hr : Storage.reserve n env st with
    | throw e st1 => rw [hr] at h; cases h
    | fault f => rw [hr] at h; cases h
    | ret u st1 =>
      rw [hr] at h
      dsimp only at h
      refine ⟨st1, rfl, ?_⟩
      cases hb : st1.buf with
      | none => rw [hb] at h; cases h; exact ⟨rfl, rfl⟩
      | some b =>
        rw [hb] at h; dsimp only at h
        split at h
        · cases h; exact ⟨rfl, rfl⟩
        · cases h
  obtain ⟨st1, hr, e1, e2⟩ := hx
  unfold Room
  rw [e1, e2]
  clear e1 e2 h
  unfold Storage.reserve at hr
  by_cases hn : n ≤ st.cap
  · rw [if_pos hn] at hr; cases hr; exact .inl ⟨hn, rfl, rfl⟩
  · rw [if_neg hn] at hr
    right
    dsimp only at hr
    unfold Storage.allocate at hr
    by_cases ha : Storage.newCap env.maxSize st.cap n + 1 ≤ env.maxSize ∧
        env.alloc st.tick (Storage.newCap env.maxSize st.cap n + 1) = true
    · rw [if_pos ha] at hr
      dsimp only at hr
      cases hb : st.buf with
      | none => rw [hb] at hr; dsimp only at hr; cases hr; exact ⟨by omega, rfl, rfl, ha.1⟩
      | some b =>
        rw [hb] at hr; dsimp only at hr
        split at hr
        · cases hr; exact ⟨by omega, rfl, rfl, ha.1⟩
        · cases hr
    · rw [if_neg ha] at hr; cases hr

theorem Ordered.le {pt : Parts} (h : Ordered pt) {i j : Nat} (hij : i ≤ j) (hj : j ≤ 8) : pt.off i ≤ pt.off j := by
  induction j with
  | zero => obtain rfl : i = 0 := by omega
            exact Nat.le_refl _
  | succ j ih =>
    rcases Nat.lt_or_ge i (j + 1) with h1 | h1
    · exact Nat.le_trans (ih (by omega) (by omega)) (h j (by omega))
    · obtain rfl : i = j + 1 := by omega
      exact Nat.le_refl _

theorem move_pt {a b c : Nat} {u : Unit} {st' : St} (h : M.move a b c env st = .ret u st') : st'.pt = st.pt := by
  unfold M.move at h
  split at h
  · cases h; rfl
  · split at h
    · cases h
    · split at h
      · cases h; rfl
      · cases h

/-- making room, moving, and shifting the offsets -/
theorem grow_fit {k a b c x : Nat} {g : Parts → Parts} {r : Nat} {st' : St}
    (hg : (g st.pt).off 8 = k)
    (h : (Storage.resize k >>= fun _ => M.move a b c >>= fun _ => M.setPt g >>= fun _ => (pure r : M Nat)) env st = .ret x st') :
    Room env st (st'.pt.off 8) st' := by
  rw [run_bind] at h
  cases h1 : Storage.resize k env st with
  | throw e st1 => rw [h1] at h; cases h
  | fault f => rw [h1] at h; cases h
  | ret u st1 =>
    rw [h1] at h
    dsimp only at h
    rw [run_bind] at h
    cases h2 : M.move a b c env st1 with
    | throw e st1 => rw [h2] at h; cases h
    | fault f => rw [h2] at h; cases h
    | ret u2 st2 =>
      rw [h2] at h
      cases h
      obtain ⟨hp, hf⟩ := storage_resize_fit h1
      have hp2 := move_pt h2
      obtain ⟨t1, t2, -⟩ := Tail.move a b c env st1 u2 st2 h2
      unfold Room at hf ⊢
      dsimp only
      rw [hp2, hp, hg, t1, t2]
      exact hf

/-- moving back and shifting the offsets -/
theorem shrink_fit {a b c x : Nat} {g : Parts → Parts} {r : Nat} {st' : St}
    (h : (M.move a b c >>= fun _ => M.setPt g >>= fun _ => (pure r : M Nat)) env st = .ret x st') :
    st'.cap = st.cap ∧ st'.tick = st.tick ∧ st'.pt = g st.pt := by
  rw [run_bind] at h
  cases h2 : M.move a b c env st with
  | throw e st1 => rw [h2] at h; cases h
  | fault f => rw [h2] at h; cases h
  | ret u2 st2 =>
    rw [h2] at h
    cases h
    obtain ⟨t1, t2, -⟩ := Tail.move a b c env st u2 st2 h2
    exact ⟨t1, t2, by rw [move_pt h2]⟩

theorem Fit.resize {id n : Nat} (hid : id < 8) : Fit (Base.resize id n) := by
  intro env st a st' ho h
  have h1 := Ordered.le ho.ord (i := id) (j := id + 1) (by omega) (by omega)
  have h2 := Ordered.le ho.ord (i := id + 1) (j := 8) (by omega) (by omega)
  unfold Base.resize at h
  rw [run_bind_ret run_pt] at h
  dsimp only at h
  split at h
  · cases h; exact .inl ⟨ho.cap, rfl, rfl⟩
  · have hc := ho.cap
    split at h
    · obtain ⟨t1, t2, t3⟩ := shrink_fit h
      refine .inl ⟨?_, t1, t2⟩
      rw [t3]
      simp only [Parts.shift, Parts.length, id_end] at *
      rw [if_pos (by omega)]
      omega
    · rw [run_bind_ret (a := env.sizeMax) (st' := st) rfl] at h
      split at h
      · cases h
      · refine grow_fit ?_ h
        simp only [Parts.shift, Parts.length, id_end] at *
        rw [if_pos (by omega)]
        omega

theorem Fit.resize2 {b e n : Nat} (hbe : b ≤ e) (he : e ≤ 8) : Fit (Base.resize2 b e n) := by
  intro env st a st' ho h
  have h1 := Ordered.le ho.ord (i := b) (j := e) (by omega) (by omega)
  have h2 := Ordered.le ho.ord (i := e) (j := 8) (by omega) (by omega)
  unfold Base.resize2 at h
  rw [run_bind_ret run_pt] at h
  dsimp only at h
  split at h
  · cases h; exact .inl ⟨ho.cap, rfl, rfl⟩
  · have hc := ho.cap
    split at h
    · obtain ⟨t1, t2, t3⟩ := shrink_fit h
      refine .inl ⟨?_, t1, t2⟩
      rw [t3]
      simp only [Parts.shift2, Parts.length2, id_end] at *
      rw [if_pos (by omega)]
      omega
    · rw [run_bind_ret (a := env.sizeMax) (st' := st) rfl] at h
      split at h
      · cases h
      · refine grow_fit ?_ h
        simp only [Parts.shift2, Parts.length2, id_end] at *
        rw [if_pos (by omega)]
        omega

/-- the offsets after `resize(first, last, new)` -/
theorem resize2_pt {b e n a : Nat} {st' : St} (hbe : b < e) (he : e ≤ 8) (hn : 0 < n) (ho : st.pt.off b ≤ st.pt.off e)
    (ho' : st.pt.off e ≤ st.pt.off 8) (h : Base.resize2 b e n env st = .ret a st') :
    a = st.pt.off b ∧ st'.pt.off b = st.pt.off b ∧ st'.pt.off e = st.pt.off b + n ∧
      st'.pt.off 8 + st.pt.length2 b e = st.pt.off 8 + n := by
  unfold Base.resize2 at h
  rw [run_bind_ret run_pt] at h
  dsimp only at h
  rw [if_neg (by omega)] at h
  split at h
  · rename_i hle
    obtain ⟨_, st1, h1, h⟩ := bind_ret h
    cases h
    rw [Parts.length2] at hle
    simp only [move_pt h1, Parts.shift2, Parts.length2]
    rw [if_neg (by omega), if_neg (by omega), if_pos (by omega), if_pos (by omega)]
    refine ⟨trivial, rfl, ?_, ?_⟩
    · omega
    · omega
  · rename_i hle
    rw [run_bind_ret (a := env.sizeMax) (st' := st) rfl] at h
    split at h
    · cases h
    · obtain ⟨_, st1, h1, h⟩ := bind_ret h
      obtain ⟨_, st2, h2, h⟩ := bind_ret h
      cases h
      rw [Parts.length2] at hle
      simp only [move_pt h2, (storage_resize_grow h1).1, Parts.shift2, Parts.length2]
      rw [if_neg (by omega), if_neg (by omega), if_pos (by omega), if_pos (by omega)]
      refine ⟨trivial, rfl, ?_, ?_⟩
      · omega
      · omega

/-- the offsets after `resize(id, 0)` -/
theorem resize_zero {id a : Nat} {st' : St} (hid : id < 8) (ho : st.pt.off id ≤ st.pt.off (id + 1)) 
    (ho' : st.pt.off (id + 1) ≤ st.pt.off 8) (h : Base.resize id 0 env st = .ret a st') :
    st'.cap = st.cap ∧ st'.tick = st.tick ∧ st'.pt.off 8 + st.pt.length id = st.pt.off 8 := by
  unfold Base.resize at h
  rw [run_bind_ret run_pt] at h
  dsimp only at h
  split at h
  · rename_i hz
    cases h; exact ⟨rfl, rfl, by rw [hz]; rfl⟩
  · rw [if_pos (by omega)] at h
    obtain ⟨t1, t2, -⟩ := shrink_fit h
    refine ⟨t1, t2, ?_⟩
    obtain ⟨_, st1, h1, h⟩ := bind_ret h
    cases h
    simp only [move_pt h1, Parts.shift, Parts.length]
    rw [if_pos (by omega)]
    omega

theorem put_still {i : Nat} {s : Str} {u : Unit} {st' : St} (h : M.put i s env st = .ret u st') :
    st'.pt = st.pt ∧ st'.cap = st.cap ∧ st'.tick = st.tick := by
  unfold M.put at h
  split at h
  · cases h; exact ⟨rfl, rfl, rfl⟩
  · split at h
    · cases h
    · split at h
      · cases h; exact ⟨rfl, rfl, rfl⟩
      · cases h

theorem reads_ret {m : M α} (hm : Reads m) {a : α} {st' : St} (h : m env st = .ret a st') : st' = st := by
  rcases hm env st with ⟨b, h'⟩ | ⟨f, h'⟩ | ⟨e, h'⟩ <;> rw [h'] at h <;> cases h
  rfl

/-- decompose a call -/
macro "fits" : tactic => `(tactic| repeat' (with_reducible first
  | assumption
  | exact Fit.resize (by decide)
  | exact Fit.resize2 (by decide) (by decide)
  | exact Tail.put _ _
  | exact Tail.split (by decide)
  | exact Tail.host _
  | exact Tail.reads (Reads.pure _)
  | exact Tail.reads (Reads.raise _)
  | exact Tail.reads (Reads.fault _)
  | exact Tail.reads (Reads.assert _)
  | exact Fit.tail (Tail.reads (Reads.pure _))
  | refine Tail.bind ?_ fun _ => ?_
  | refine Fit.read Reads.pt fun _ => ?_
  | refine Fit.read (Reads.ask _) fun _ => ?_
  | refine Fit.read (Reads.assert _) fun _ => ?_
  | refine Fit.read (Reads.require _) fun _ => ?_
  | refine Fit.read (Reads.validate _ _) fun _ => ?_
  | refine Fit.read (Reads.parsed _) fun _ => ?_
  | refine Fit.read (Reads.parsedAll _) fun _ => ?_
  | refine Fit.read Reads.assertUserinfo fun _ => ?_
  | refine Fit.read Reads.isNull fun _ => ?_
  | refine Fit.bind (Fit.resize (by decide)) fun _ => ?_
  | refine Fit.bind (Fit.resize2 (by decide) (by decide)) fun _ => ?_
  | split
  | dsimp only))

theorem fit_set_user (s : Str) : Fit (Base.set_user s) := by unfold Base.set_user; fits
theorem fit_set_password (s : Str) : Fit (Base.set_password s) := by unfold Base.set_password; fits
theorem fit_set_port (s : Str) : Fit (Base.set_port s) := by unfold Base.set_port; fits
theorem fit_set_encoded_userinfo (s : Str) : Fit (Base.set_encoded_userinfo s) := by unfold Base.set_encoded_userinfo; fits
theorem fit_set_encoded_password (s : Str) : Fit (Base.set_encoded_password s) := by
  have := fit_set_password s
  unfold Base.set_encoded_password; fits
theorem fit_addHost (s : Str) : Fit (Base.addHost s) := by unfold Base.addHost; fits
theorem reads_hostname (s : Str) : Reads (match (parse_ip_literal (PS.init s)).flt with
      | some f => fun _ _ => .fault f
      | none => pure (parse_plain_hostname s) : M HostType) := by
  split
  · exact .fault _
  · exact .pure _

theorem fit_set_host (s : Str) : Fit (Base.set_host s) := by
  have h1 := fit_addHost s
  unfold Base.set_host
  dsimp only
  split
  · fits
  · refine Fit.read (reads_hostname s) fun k => ?_
    refine Fit.read (Reads.assert _) fun _ => ?_
    split
    · refine Fit.read (Reads.ask _) fun _ => ?_
      split
      · exact Fit.bind h1 fun _ => Tail.host _
      · fits
    · fits

theorem tail_lowerLoop : ∀ n i, Tail (Base.lowerLoop i n)
  | 0, _ => .reads (.pure _)
  | n + 1, i => by
    have := tail_lowerLoop n (i + 1)
    unfold Base.lowerLoop
    refine .bind (.reads (.ask _)) fun c => ?_
    fits

theorem tail_normalize_scheme : Tail Base.normalize_scheme := by
  unfold Base.normalize_scheme
  dsimp only
  refine .bind (.reads .pt) fun _ => ?_
  split
  · exact .reads (.pure _)
  · exact .bind (.reads (.assert _)) fun _ => .bind (.reads .pt) fun _ => tail_lowerLoop _ _

theorem parse_url_end {s : Str} (h : (parse_url s).ec = none) : (parse_url s).pt.off 8 = s.length := by
  obtain ⟨c, hc, rfl⟩ := parse_url_sound h
  obtain ⟨k, ha, -⟩ := parse_url_complete hc
  rw [ha.rep 8, ← compParts_flatten, plen, List.take_of_length_le (by unfold compParts authTexts; split <;> simp [authParts, userParts] <;> split <;> simp)]

theorem fit_set_encoded_url (s : Str) : Fit (Base.set_encoded_url s) := by
  unfold Base.set_encoded_url
  split
  · refine Fit.read .isNull fun _ => ?_
    split
    · exact Fit.bind (.resize2 (by decide) (by decide)) fun _ => .reads (.pure _)
    · exact .tail (.reads (.pure _))
  · intro env st a st' ho h
    obtain ⟨pt, st1, h1, h⟩ := bind_ret h
    obtain ⟨_, st2, h2, h⟩ := bind_ret h
    obtain ⟨_, st3, h3, h⟩ := bind_ret h
    have h1' : st1 = st ∧ pt.off 8 = s.length := by
      cases hf : (parse_url s).flt with
      | some f => simp only [Base.parsed, hf] at h1; cases h1
      | none =>
        simp only [Base.parsed, hf] at h1
        cases hn : (parse_url s).ec with
        | some e => simp only [hn, Option.isSome_some, if_true] at h1; cases h1
        | none =>
          simp only [hn, Option.isSome_none, Bool.false_eq_true, if_false] at h1
          cases h1
          exact ⟨rfl, parse_url_end hn⟩
    obtain ⟨rfl, he⟩ := h1'
    cases h3
    obtain ⟨t1, t2, t3⟩ := Tail.put _ _ _ _ _ _ h
    dsimp only at t1 t2 t3
    have h4 := (storage_resize_fit h2).2
    unfold Room at h4 ⊢
    rw [t1, t2, t3, he]
    exact h4

theorem fit_run {op : Op} (hop : op ≠ .set_password_part b!":") : Fit (Url.run op) := by
  cases op <;> unfold Url.run <;> dsimp only
  case set_encoded_url s => exact fit_set_encoded_url s
  case set_encoded_origin s => unfold Base.set_encoded_origin; fits
  case set_scheme s => unfold Base.set_scheme; fits
  case set_encoded_authority s => unfold Base.set_encoded_authority; fits
  case set_encoded_userinfo s => exact fit_set_encoded_userinfo s
  case set_userinfo_part s =>
    have := fit_set_encoded_userinfo s
    have := fit_set_encoded_userinfo (s.take (s.length - 1))
    unfold Base.set_userinfo_part; fits
  case set_user s => exact fit_set_user s
  case set_encoded_user s =>
    have := fit_set_user s
    unfold Base.set_encoded_user; fits
  case set_password s => exact fit_set_password s
  case set_encoded_password s => exact fit_set_encoded_password s
  case set_password_part s =>
    have h1 := fit_set_password s
    have h2 := fit_set_encoded_password (s.drop 1)
    unfold Base.set_password_part
    split
    · exact h1
    · split
      · rename_i hl
        obtain ⟨x, rfl⟩ := List.length_eq_one_iff.1 hl
        have hx : x ≠ c!":" := fun h => hop (by rw [h])
        intro env st a st' _ h
        simp [Base.require, hx] at h
        cases h
      · exact h2
  case set_host s => exact fit_set_host s
  case set_encoded_host s =>
    have h1 := fit_set_host s
    have h2 := fit_addHost s
    unfold Base.set_encoded_host
    split
    · exact h1
    · refine Fit.read (Reads.parsedAll _) fun _ => ?_
      refine Fit.read (Reads.ask _) fun _ => ?_
      split
      · exact Fit.bind h2 fun _ => Tail.host _
      · fits
  case set_port s => exact fit_set_port s
  case set_port_number n =>
    unfold Base.set_port_number
    exact .read (Reads.ask _) fun s => fit_set_port s
  case set_port_part s =>
    have := fit_set_port s
    have := fit_set_port (s.drop 1)
    unfold Base.set_port_part; fits
  case set_encoded_path s => unfold Base.set_encoded_path; fits
  case set_query s => unfold Base.set_query Base.setPlain; fits
  case set_encoded_query s => unfold Base.set_encoded_query Base.setEncoded; fits
  case set_query_part s => unfold Base.set_query_part Base.setPart; fits
  case set_fragment s => unfold Base.set_fragment Base.setPlain; fits
  case set_encoded_fragment s => unfold Base.set_encoded_fragment Base.setEncoded; fits
  case set_fragment_part s => unfold Base.set_fragment_part Base.setPart; fits
  case normalize_scheme => exact .tail tail_normalize_scheme
  case normalize => exact .tail tail_normalize_scheme

theorem colon_split {st' : St} (ho : Proper st) (hu : st.pt.off 1 = st.pt.off 2) (h : Base.set_password_part b!":" env st = .ret () st') :
    ∃ dest st1, Base.resize2 id_user id_host 4 env st = .ret dest st1 ∧ st1.pt.off 8 = st'.pt.off 8 + 2 ∧ st'.cap = st1.cap ∧
      st'.tick = st1.tick := by
  unfold Base.set_password_part at h
  rw [if_neg (by decide), if_pos (by decide), run_bind_ret (a := ()) (st' := st) (by rfl)] at h
  rw [run_bind_ret run_pt, if_neg (by simp only [Parts.length, id_user, Nat.reduceAdd]; omega)] at h
  have h13 := Ordered.le ho.ord (i := 1) (j := 3) (by omega) (by omega)
  obtain ⟨dest, st1, h1, h⟩ := bind_ret h
  have h38 := Ordered.le ho.ord (i := 3) (j := 8) (by omega) (by omega)
  obtain ⟨-, hp1, hp3, hp8⟩ := resize2_pt (by decide) (by decide) (by decide) h13 h38 h1
  obtain ⟨_, st2, h2, h⟩ := bind_ret h
  obtain ⟨_, st3, h3, h⟩ := bind_ret h
  obtain ⟨_, st4, h4, h⟩ := bind_ret h
  obtain ⟨_, st5, h5, h⟩ := bind_ret h
  obtain ⟨_, st6, h6, h⟩ := bind_ret h
  obtain ⟨p2, c2, t2⟩ := put_still h2
  obtain ⟨p3, c3, t3⟩ := put_still h3
  obtain ⟨p4, c4, t4⟩ := put_still h4
  obtain ⟨p5, c5, t5⟩ := put_still h5
  have p51 : st5.pt = st1.pt := by rw [p5, p4, p3, p2]
  have c51 : st5.cap = st1.cap := by rw [c5, c4, c3, c2]
  have t51 : st5.tick = st1.tick := by rw [t5, t4, t3, t2]
  have h6' : st6 = { st5 with pt := st5.pt.split 1 2 } := by
    unfold Base.split at h6
    obtain ⟨_, sa, ha, h6⟩ := bind_ret h6
    obtain ⟨_, sb, hb, h6⟩ := bind_ret h6
    cases reads_ret (Reads.assert _) ha
    cases reads_ret (Reads.assert _) hb
    cases h6
    rfl
  have e8 : st6.pt.off 8 = st1.pt.off 8 := by rw [h6']; simp [Parts.split, p51]
  have e3 : st6.pt.off 3 = st.pt.off 1 + 4 := by rw [h6']; simp [Parts.split, p51, hp3]
  have e2 : st6.pt.off 2 = st.pt.off 1 + 2 := by rw [h6']; simp [Parts.split, p51, hp1]
  have e1 : st6.pt.off 1 = st.pt.off 1 := by rw [h6']; simp [Parts.split, p51, hp1]
  have c61 : st6.cap = st1.cap := by rw [h6', ← c51]
  have t61 : st6.tick = st1.tick := by rw [h6', ← t51]
  simp only [Parts.length2] at hp8
  -- the second call
  change Base.set_encoded_password [] env st6 = _ at h
  rw [Base.set_encoded_password, if_pos (by rfl), Base.set_password, if_pos (by rfl), run_bind_ret run_pt, if_neg (by
    simp only [Parts.length, id_password, Nat.reduceAdd]; omega)] at h
  obtain ⟨_, st7, h7, h⟩ := bind_ret h
  cases reads_ret Reads.assertUserinfo h7
  rw [run_bind_ret run_pt, if_pos (by simp only [Parts.length, id_user, Nat.reduceAdd]; omega)] at h
  obtain ⟨_, st8, h8, h⟩ := bind_ret h
  cases h
  obtain ⟨c9, t9, e9⟩ := resize_zero (by decide) (by simp only [id_password, Nat.reduceAdd]; omega)
    (by simp only [id_password, Nat.reduceAdd]; omega) h8
  simp only [Parts.length, id_password, Nat.reduceAdd] at e9
  have e9' : st1.pt.off 8 = st'.pt.off 8 + 2 := by omega
  exact ⟨dest, st1, h1, e9', by rw [c9, c61], by rw [t9, t61]⟩

/-- a url with a user part or without: what `set_password_part(":")` makes room for -/
theorem colon_fit {st' : St} (ho : Proper st) (h : Base.set_password_part b!":" env st = .ret () st') :
    Room env st (if st.pt.off 1 = st.pt.off 2 then st'.pt.off 8 + 2 else st'.pt.off 8) st' := by
  have h0 := h
  unfold Base.set_password_part at h
  rw [if_neg (by decide), if_pos (by decide), run_bind_ret (a := ()) (st' := st) (by rfl)] at h
  rw [run_bind_ret run_pt] at h
  have h12 := Ordered.le ho.ord (i := 1) (j := 2) (by omega) (by omega)
  split at h
  · rename_i hl
    have hf : Fit (do
      let dest ← Base.resize id_password 2
      M.put dest b!":"
      M.put (dest + 1) b!"@") := by fits
    rw [if_neg (by simp only [Parts.length, id_user, Nat.reduceAdd] at hl; omega)]
    exact hf env st () st' ho h
  · rename_i hl
    have hu : st.pt.off 1 = st.pt.off 2 := by simp only [Parts.length, id_user, Nat.reduceAdd, ne_eq, Decidable.not_not] at hl; omega
    obtain ⟨dest, st1, h1, h2, h3, h4⟩ := colon_split ho hu h0
    have hfit := (Fit.resize2 (by decide) (by decide)) env st dest st1 ho h1
    unfold Room at hfit ⊢
    rw [h3, h4, if_pos hu, ← h2]
    exact hfit

/-! ### edits of segments -/

theorem grows_reserve (n : Nat) : Grows (Storage.reserve n) := by
  intro env st st' h
  rcases h with ⟨a, hr⟩ | ⟨e, h⟩
  · have h2 := reserve_granted hr
    rcases storage_reserve_grow hr with ⟨-, rfl⟩ | h1
    · exact ⟨Nat.le_refl _, Nat.le_refl _, fun h => absurd h (Nat.lt_irrefl _), id, reserve_moves hr⟩
    · exact ⟨by omega, by omega, fun h3 => ⟨by omega, h2.resolve_left (by omega)⟩, reserve_owned hr, reserve_moves hr⟩
  · obtain ⟨h1, h2, h3⟩ := storage_reserve_throw h
    exact ⟨by omega, by omega, fun h => by omega, h3.owned h1 (by omega), h3.moves h1⟩

theorem reads_stored : Reads M.stored := fun _ _ => .inl ⟨_, rfl⟩
theorem reads_capacity : Reads M.capacity := fun _ _ => .inl ⟨_, rfl⟩
theorem reads_undefined : Reads (M.undefined : M α) := .fault _

macro "grows3" : tactic => `(tactic| repeat' (with_reducible first
  | exact Still.grows (Reads.still reads_stored)
  | exact Still.grows (Reads.still reads_capacity)
  | exact Still.grows (Reads.still reads_undefined)
  | exact grows_reserve _
  | grows2))

theorem grows_erase_range (a b : SegIt) : Grows (Base.seg_erase_range a b) := by unfold Base.seg_erase_range; grows3
theorem grows_erase (a : SegIt) : Grows (Base.seg_erase a) := .bind (Reads.ask _).still.grows fun _ => grows_erase_range _ _
theorem grows_seg_put (a : SegIt) (n : Nat) (s : Str) : Grows (Base.seg_put a n s) := by unfold Base.seg_put; grows3
theorem grows_insert_encoded_impl (a : SegIt) (s : Str) : Grows (Base.seg_insert_encoded_impl a s) :=
  .bind (Reads.assert _).still.grows fun _ => grows_seg_put _ _ _
theorem grows_insert_impl (a : SegIt) (s : Str) (n : Nat) : Grows (Base.seg_insert_impl a s n) :=
  .bind (Reads.assert _).still.grows fun _ => grows_seg_put _ _ _
theorem grows_swap (a : SegIt) (n : Nat) {ins : SegIt → M SegIt} (h : ∀ a, Grows (ins a)) : Grows (Base.seg_swap a n ins) := by
  unfold Base.seg_swap
  dsimp only
  refine .bind reads_stored.still.grows fun _ => .bind (Reads.assert _).still.grows fun _ => ?_
  have rest : Grows (M.capacity >>= fun cap => Base.seg_erase a >>= fun x => ins x >>= fun r => M.capacity >>= fun cap' =>
      M.assert (fun _ => .ok (cap' = cap)) >>= fun _ => (pure r : M SegIt)) :=
    .bind reads_capacity.still.grows fun _ => .bind (grows_erase a) fun _ => .bind (h _) fun _ =>
      .bind reads_capacity.still.grows fun _ => .bind (Reads.assert _).still.grows fun _ => (Reads.pure _).still.grows
  split
  · exact .bind reads_stored.still.grows fun _ => .bind (grows_reserve _) fun _ => rest
  · exact rest

theorem grows_seg (e : SegOp) : Grows (runSeg e) := by
  cases e <;> unfold runSeg <;> dsimp only <;> refine .bind (Reads.ask _).still.grows fun _ => ?_
  · exact grows_erase _
  · exact .bind (Reads.ask _).still.grows fun _ => grows_erase_range _ _
  · exact grows_insert_impl _ _ _
  · exact .bind (Reads.validate _ _).still.grows fun _ => grows_insert_encoded_impl _ _
  · exact grows_swap _ _ fun _ => grows_insert_impl _ _ _
  · exact .bind (Reads.validate _ _).still.grows fun _ => grows_swap _ _ fun _ => grows_insert_encoded_impl _ _

end Url.Capacity
