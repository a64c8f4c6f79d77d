import Verif.Model.Pool

/-!
Properties of the fixed buffer allocator: C43.
-/

set_option autoImplicit false

namespace Url.Props
open Url

/-- A buffer that lies in the address space, and from which nothing or something has been taken. -/
structure PoolOk (p : Pool) : Prop where
  fits : p.base + p.capacity < wordSize
  low : p.base ≤ p.top
  high : p.top ≤ p.base + p.capacity

/-- The least multiple of `align` that is not below `top`. -/
def IsUp (top align u : Nat) : Prop := align ∣ u ∧ top ≤ u ∧ ∀ v, align ∣ v → top ≤ v → u ≤ v

theorem isUp (top : Nat) {align : Nat} (h : 0 < align) : IsUp top align (align * ((top + align - 1) / align)) := by
  have h1 := Nat.div_add_mod (top + align - 1) align
  have h2 := Nat.mod_lt (top + align - 1) h
  refine ⟨Nat.dvd_mul_right .., by omega, ?_⟩
  rintro v ⟨k, rfl⟩ hv
  apply Nat.mul_le_mul_left
  rw [Nat.div_le_iff_le_mul_add_pred h]
  have : align * k = k * align := Nat.mul_comm ..
  omega

theorem IsUp.eq {top align u : Nat} (h : IsUp top align u) (ha : 0 < align) : u = align * ((top + align - 1) / align) := by
  have h' := isUp top ha
  exact Nat.le_antisymm (h.2.2 _ h'.1 h'.2.1) (h'.2.2 _ h.1 h.2.1)

theorem word_pos : 1 < wordSize := by decide +kernel

theorem wadd_eq {a b : Nat} (h : a + b < wordSize) : wadd a b = a + b := Nat.mod_eq_of_lt h

theorem wsub_eq {a b : Nat} (h : b ≤ a) (ha : a < wordSize) : wsub a b = a - b := by
  rw [wsub, show a + (wordSize - b) = (a - b) + wordSize by omega, Nat.add_mod_right, Nat.mod_eq_of_lt (by omega)]

theorem wsub_wrap {a b : Nat} (h : a < b) (hb : b < wordSize) : wsub a b = wordSize - (b - a) := by
  rw [wsub, Nat.mod_eq_of_lt (by omega)]
  omega

theorem sum_eq {top align : Nat} (ha : 0 < align) : wsub (wadd top align) 1 = (top + align - 1) % wordSize := by
  have hw := word_pos
  have h1 := Nat.div_add_mod (top + align) wordSize
  have h2 := Nat.mod_lt (top + align) (show 0 < wordSize by omega)
  unfold wadd
  generalize hr : (top + align) % wordSize = r at *
  generalize hq : (top + align) / wordSize = q at *
  by_cases h0 : r = 0
  · subst h0
    obtain ⟨q, rfl⟩ : ∃ q', q = q' + 1 := ⟨q - 1, by cases q <;> simp at h1 ⊢; omega⟩
    rw [show top + align - 1 = (wordSize - 1) + wordSize * q by rw [Nat.mul_add] at h1; omega, Nat.add_mul_mod_self_left,
      Nat.mod_eq_of_lt (by omega), wsub, Nat.zero_add, Nat.mod_eq_of_lt (by omega)]
  · rw [wsub_eq (by omega) h2, show top + align - 1 = (r - 1) + wordSize * q by omega, Nat.add_mul_mod_self_left, Nat.mod_eq_of_lt (by omega)]

/-- what the code computes, if it does not wrap around -/
theorem up_eq {top align u : Nat} (hu : IsUp top align u) (ha : 0 < align) (hw : top + align ≤ wordSize) : Pool.up top align = u ∧ u < wordSize := by
  have he := hu.eq ha
  have hle : u ≤ top + align - 1 := by rw [he]; exact Nat.mul_div_le ..
  unfold Pool.up
  rw [sum_eq ha, Nat.mod_eq_of_lt (by omega : top + align - 1 < wordSize), wmul, ← he, Nat.mod_eq_of_lt (by omega)]
  exact ⟨rfl, by omega⟩

/-- and if it does -/
theorem up_wrap {top align : Nat} (ha : align < wordSize) (ht : top < wordSize) (hw : wordSize < top + align) : Pool.up top align < top := by
  unfold Pool.up
  rw [sum_eq (by omega), show top + align - 1 = (top + align - 1 - wordSize) + wordSize by omega, Nat.add_mod_right, Nat.mod_eq_of_lt (by omega)]
  have := Nat.mul_div_le (top + align - 1 - wordSize) align
  have h2 := Nat.mod_le (align * ((top + align - 1 - wordSize) / align)) wordSize
  unfold wmul
  omega

/-- An alignment: in C++ they are powers of two. -/
def IsAlign (align : Nat) : Prop := ∃ k < 64, align = 2 ^ k

theorem IsAlign.pos {align : Nat} (h : IsAlign align) : 0 < align := by
  obtain ⟨k, -, rfl⟩ := h
  exact Nat.pow_pos (by decide)

theorem IsAlign.room {align u : Nat} (h : IsAlign align) (hu : align ∣ u) (hw : u < wordSize) : u + align ≤ wordSize := by
  have hd : align ∣ wordSize := by
    obtain ⟨k, hk, rfl⟩ := h
    rw [wordSize]
    exact Nat.pow_dvd_pow 2 (Nat.le_of_lt hk)
  have : align ∣ wordSize - u := Nat.dvd_sub hd hu
  have := Nat.le_of_dvd (by omega) this
  omega

/-! ### C43, one request -/

/-- C43: if the next aligned address is not beyond the end of the buffer, a request is granted there exactly if it
fits. -/
theorem C43_request_partial {p : Pool} (h : PoolOk p) {bytes align u : Nat} (ha : IsAlign align) (hu : IsUp p.top align u)
    (hin : u ≤ p.base + p.capacity) :
    p.allocate bytes align = if u + bytes ≤ p.base + p.capacity then some (u, { p with top := u + bytes }) else none := by
  have hf := h.fits
  have hl := h.low
  have htop := hu.2.1
  have hroom := ha.room hu.1 (by omega)
  obtain ⟨e, -⟩ := up_eq hu ha.pos (by omega)
  rw [Pool.allocate, e, wsub_eq (show p.base ≤ u by omega) (by omega), wsub_eq (show u - p.base ≤ p.capacity by omega) (by omega)]
  by_cases hfit : u + bytes ≤ p.base + p.capacity
  · rw [if_neg (by omega), if_pos hfit, wadd_eq (by omega)]
  · rw [if_pos (by omega), if_neg hfit]

/-- C43 is false: if the next aligned address is beyond the end of the buffer, the number of bytes left wraps around
and almost every request is granted, outside of the buffer. -/
theorem C43_false {p : Pool} (h : PoolOk p) {bytes align u : Nat} (ha : IsAlign align) (hu : IsUp p.top align u)
    (hout : p.base + p.capacity < u) (hw : u < wordSize) (hb : bytes + (u - (p.base + p.capacity)) ≤ wordSize) :
    ∃ p', p.allocate bytes align = some (u, p') := by
  have hf := h.fits
  have hl := h.low
  have htop := hu.2.1
  have hroom := ha.room hu.1 (by omega)
  obtain ⟨e, -⟩ := up_eq hu ha.pos (by omega)
  rw [Pool.allocate, e, wsub_eq (show p.base ≤ u by omega) (by omega), wsub_wrap (show p.capacity < u - p.base by omega) (by omega),
    if_neg (by omega)]
  exact ⟨_, rfl⟩

/-- C43: if there is no aligned address up to the end of the address space, the request is refused. With
`C43_request_partial` and `C43_false` these are all cases. -/
theorem C43_wrap {p : Pool} (h : PoolOk p) {bytes align u : Nat} (ha : IsAlign align) (hu : IsUp p.top align u)
    (hw : wordSize ≤ u) : p.allocate bytes align = none := by
  have hf := h.fits
  have hh := h.high
  have he := hu.eq ha.pos
  have hle : u ≤ p.top + align - 1 := by rw [he]; exact Nat.mul_div_le ..
  have hp := ha.pos
  have hlt : align < wordSize := by
    obtain ⟨k, hk, rfl⟩ := ha
    rw [wordSize]
    exact Nat.pow_lt_pow_right (by decide) hk
  rw [Pool.allocate, if_pos (.inl (up_wrap hlt (by omega) (by omega)))]

-- ten bytes at the end of the address space, nine of them in use
example : PoolOk ⟨2 ^ 64 - 11, 10, 2 ^ 64 - 2⟩ ∧ IsUp (2 ^ 64 - 2) 8 (2 ^ 64) ∧ wordSize ≤ 2 ^ 64 ∧
    Pool.run (Pool.make (2 ^ 64 - 11) 10) [⟨9, 1⟩, ⟨1, 8⟩, ⟨1, 1⟩] = [some ⟨2 ^ 64 - 11, 9⟩, none, some ⟨2 ^ 64 - 2, 1⟩] := by
  refine ⟨⟨by decide +kernel, by decide, by decide⟩, isUp (2 ^ 64 - 2) (by decide : 0 < 8), by decide +kernel, by decide +kernel⟩

/-- C43 is false for a buffer of 10 bytes, the first 9 of which are in use: 100 bytes at a multiple of 8 are granted,
at 6 bytes behind the end. -/
theorem C43_case_false : Pool.run (Pool.make 4096 10) [⟨9, 1⟩, ⟨100, 8⟩, ⟨100, 1⟩] = [some ⟨4096, 9⟩, some ⟨4112, 100⟩, some ⟨4212, 100⟩] := by
  decide +kernel

/-- C43 is false if the size of a request wraps around: 2 ^ 61 objects of 8 bytes are granted from 16 bytes. -/
theorem C43_size_false : (Pool.make 4096 16).allocateT (2 ^ 61 + 1) 8 8 = some (4096, ⟨4096, 16, 4104⟩) := by decide +kernel

/-! ### C43, sequences of requests -/

/-- the end of the last block, or else the start of the buffer -/
def usedUpTo (base : Nat) (bs : List (Option Block)) : Nat := ((bs.filterMap id).getLast?.map fun b => b.addr + b.size).getD base

/-- What C43 says about a buffer of `size` bytes at `base`, the requests and the results. -/
structure Served (base size : Nat) (rs : List Pool.Request) (bs : List (Option Block)) : Prop where
  /-- every request has a result -/
  count : bs.length = rs.length
  /-- a block lies inside the buffer, is aligned and has the size asked for -/
  inside : ∀ (i : Nat) r b, rs[i]? = some r → bs[i]? = some (some b) →
    b.size = r.bytes ∧ r.align ∣ b.addr ∧ base ≤ b.addr ∧ b.addr + b.size ≤ base + size
  /-- blocks do not overlap -/
  apart : ∀ (i j : Nat) a b, i < j → bs[i]? = some (some a) → bs[j]? = some (some b) → a.addr + a.size ≤ b.addr
  /-- an exception is thrown exactly if there is no room behind the last block -/
  full : ∀ (i : Nat) r u, rs[i]? = some r → IsUp (usedUpTo base (bs.take i)) r.align u → (bs[i]? = some none ↔ base + size < u + r.bytes)

theorem usedUpTo_none {base : Nat} (bs : List (Option Block)) : usedUpTo base (none :: bs) = usedUpTo base bs := by
  simp [usedUpTo]

theorem usedUpTo_some {base : Nat} (b : Block) (bs : List (Option Block)) : usedUpTo base (some b :: bs) = usedUpTo (b.addr + b.size) bs := by
  simp only [usedUpTo, List.filterMap_cons, id]
  cases h : (bs.filterMap id).getLast? with
  | none =>
    rw [List.getLast?_eq_none_iff.1 h]
    simp
  | some x => rw [List.getLast?_cons, h]; rfl

theorem served_from {p : Pool} (h : PoolOk p) {rs : List Pool.Request} (hrs : ∀ r ∈ rs, IsAlign r.align ∧ r.align ∣ p.base + p.capacity) :
    (p.run rs).length = rs.length ∧
    (∀ (i : Nat) r b, rs[i]? = some r → (p.run rs)[i]? = some (some b) →
      b.size = r.bytes ∧ r.align ∣ b.addr ∧ p.top ≤ b.addr ∧ b.addr + b.size ≤ p.base + p.capacity) ∧
    (∀ (i j : Nat) a b, i < j → (p.run rs)[i]? = some (some a) → (p.run rs)[j]? = some (some b) → a.addr + a.size ≤ b.addr) ∧
    (∀ (i : Nat) r u, rs[i]? = some r → IsUp (usedUpTo p.top ((p.run rs).take i)) r.align u →
      ((p.run rs)[i]? = some none ↔ p.base + p.capacity < u + r.bytes)) := by
  induction rs generalizing p with
  | nil =>
    rw [Pool.run]
    refine ⟨rfl, ?_, ?_, ?_⟩
    · intro i r b h1
      rw [List.getElem?_nil] at h1
      cases h1
    · intro i j a b _ h1
      rw [List.getElem?_nil] at h1
      cases h1
    · intro i r u h1
      rw [List.getElem?_nil] at h1
      cases h1
  | cons r rs ih =>
    obtain ⟨hal, hd⟩ := hrs r (List.mem_cons_self ..)
    have hup := isUp p.top hal.pos
    generalize hu : r.align * ((p.top + r.align - 1) / r.align) = u at hup
    have hin : u ≤ p.base + p.capacity := hup.2.2 _ hd h.high
    have hreq := C43_request_partial h (bytes := r.bytes) hal hup hin
    have huniq : ∀ v, IsUp p.top r.align v → v = u := fun v hv => by rw [hv.eq hal.pos, hu]
    by_cases hfit : u + r.bytes ≤ p.base + p.capacity
    · rw [if_pos hfit] at hreq
      have hp' : PoolOk { p with top := u + r.bytes } := ⟨h.fits, Nat.le_trans h.low (Nat.le_trans hup.2.1 (Nat.le_add_right ..)), hfit⟩
      obtain ⟨i1, i2, i3, i4⟩ := ih hp' (fun x hx => hrs x (List.mem_cons_of_mem _ hx))
      have hrun : p.run (r :: rs) = some ⟨u, r.bytes⟩ :: Pool.run { p with top := u + r.bytes } rs := by rw [Pool.run, Pool.step, hreq]; rfl
      rw [hrun]
      have htop := hup.2.1
      refine ⟨by simp [i1], ?_, ?_, ?_⟩
      · rintro (_ | i) r' b h1 h2
        · cases h1; cases h2
          exact ⟨rfl, hup.1, hup.2.1, hfit⟩
        · obtain ⟨j1, j2, j3, j4⟩ := i2 i r' b h1 h2
          exact ⟨j1, j2, by simp only at j3; omega, j4⟩
      · rintro (_ | i) (_ | j) a b hij h1 h2
        · omega
        · cases h1
          obtain ⟨hj, -⟩ := List.getElem?_eq_some_iff.1 h2
          simp only [List.length_cons] at hj
          exact (i2 j _ b (List.getElem?_eq_getElem (by omega)) h2).2.2.1
        · omega
        · exact i3 i j a b (by omega) h1 h2
      · rintro (_ | i) r' v h1 h2
        · cases h1
          rw [huniq v h2]
          simp
          omega
        · rw [List.take_succ_cons, usedUpTo_some] at h2
          exact i4 i r' v h1 h2
    · rw [if_neg hfit] at hreq
      obtain ⟨i1, i2, i3, i4⟩ := ih h (fun x hx => hrs x (List.mem_cons_of_mem _ hx))
      have hrun : p.run (r :: rs) = none :: p.run rs := by rw [Pool.run, Pool.step, hreq]; rfl
      rw [hrun]
      refine ⟨by simp [i1], ?_, ?_, ?_⟩
      · rintro (_ | i) r' b h1 h2
        · cases h2
        · exact i2 i r' b h1 h2
      · rintro (_ | i) (_ | j) a b hij h1 h2
        · omega
        · cases h1
        · omega
        · exact i3 i j a b (by omega) h1 h2
      · rintro (_ | i) r' v h1 h2
        · cases h1
          rw [huniq v h2]
          simp
          omega
        · rw [List.take_succ_cons, usedUpTo_none] at h2
          exact i4 i r' v h1 h2

/-- C43: the pool serves every sequence of requests, if the address behind the buffer is a multiple of each
alignment. The full claim is for all alignments; `C43_false` shows what happens otherwise. -/
theorem C43_partial {base size : Nat} (h : base + size < wordSize) {rs : List Pool.Request}
    (hrs : ∀ r ∈ rs, IsAlign r.align ∧ r.align ∣ base + size) : Served base size rs ((Pool.make base size).run rs) := by
  obtain ⟨h1, h2, h3, h4⟩ := served_from (p := Pool.make base size) ⟨h, Nat.le_refl _, Nat.le_add_right ..⟩ hrs
  exact ⟨h1, h2, h3, h4⟩

/-- C43 for `allocator_type<char>`, the only use the library makes of the pool: no condition is left. -/
theorem C43_char {base size : Nat} (h : base + size < wordSize) (ns : List Nat) :
    Served base size (ns.map fun n => ⟨n, 1⟩) ((Pool.make base size).run (ns.map fun n => ⟨n, 1⟩)) := by
  refine C43_partial h fun r hr => ?_
  obtain ⟨n, -, rfl⟩ := List.mem_map.1 hr
  exact ⟨⟨0, by decide, rfl⟩, Nat.one_dvd _⟩

/-- The case of C43: a request that does not fit is refused, and a later one that does is granted. -/
example : Pool.run (Pool.make 4100 28) [⟨3, 1⟩, ⟨8, 8⟩, ⟨20, 1⟩, ⟨4, 4⟩] = [some ⟨4100, 3⟩, some ⟨4104, 8⟩, none, some ⟨4112, 4⟩] := by decide +kernel

end Url.Props
