import Verif.Proofs.Lex
import Verif.Spec.Percent

/-!
The formatter for numeric ports.
-/

namespace Url
open Spec

theorem decVal_snoc (s : Str) (c : Byte) : decVal (s ++ [c]) = 10 * decVal s + (c.toNat - 48) := by
  simp [decVal, List.foldl_append]

theorem digit_ofNat {k : Nat} (h : k < 10) :
    isDigit (UInt8.ofNat (48 + k)) = true ∧ (UInt8.ofNat (48 + k)).toNat = 48 + k := by
  have : (UInt8.ofNat (48 + k)).toNat = 48 + k := by rw [UInt8.toNat_ofNat']; omega
  exact ⟨isDigit_iff.2 (by omega), this⟩

theorem decimal_snoc {n : Nat} {s : Str} (hn : 0 < n / 10) (h : Decimal (n / 10) s) :
    Decimal n (s ++ [UInt8.ofNat (48 + n % 10)]) := by
  obtain ⟨h1, h2, h3, h4⟩ := h
  obtain ⟨d1, d2⟩ := digit_ofNat (k := n % 10) (by omega)
  refine ⟨by simp, by rw [List.all_append, h2, List.all_cons, d1]; rfl, ?_, ?_⟩
  · rw [decVal_snoc, d2, h3]; omega
  · intro h0
    have h0' : s.head? = some c!"0" := by
      cases s with
      | nil => exact absurd rfl h1
      | cons c t => simpa using h0
    rw [h4 h0'] at h3
    simp [decVal] at h3
    omega

theorem portStringLoop_of (fuel : Nat) {buf : List (Option Byte)} {len n : Nat} {d : Str}
    (hb : buf.length = 10) (h1 : 1 ≤ len) (hl : len ≤ 10) (hn : n < 10 ^ (11 - len)) (hf : n < 10 ^ fuel) (hf0 : 0 < fuel)
    (hd : buf.drop (11 - len) = d.map some) :
    ∃ buf' len' s, portStringLoop fuel buf len n = .ok (buf', len') ∧ len' ≤ 10 ∧
      buf'.drop (10 - len') = (s ++ d).map some ∧ Decimal n s ∧ (s ++ d).length = len' := by
  induction fuel generalizing buf len n d with
  | zero => omega
  | succ fuel ih =>
    have hdl : d.length = len - 1 := by
      have := congrArg List.length hd
      simp [hb] at this
      omega
    obtain ⟨d1, d2⟩ := digit_ofNat (k := n % 10) (by omega)
    have hset : (buf.set (10 - len) (some (UInt8.ofNat (48 + n % 10)))).drop (10 - len) =
        (UInt8.ofNat (48 + n % 10) :: d).map some := by
      rw [List.drop_set, if_neg (by omega)]
      rw [List.drop_eq_getElem_cons (by omega)]
      rw [show 10 - len + 1 = 11 - len by omega, hd]
      simp
    unfold portStringLoop
    rw [if_neg (by omega)]
    simp only
    split
    · rename_i h0
      refine ⟨_, _, [UInt8.ofNat (48 + n % 10)], rfl, hl, hset, ⟨by simp, by rw [List.all_cons, d1]; rfl, ?_, ?_⟩, ?_⟩
      · simp [decVal]; omega
      · intro h
        simp only [List.head?_cons, Option.some.injEq] at h
        rw [h]
      · simp [hdl]; omega
    · rename_i h0
      have hlt : len < 10 := by
        rcases Nat.lt_or_ge len 10 with h | h
        · exact h
        · have : len = 10 := by omega
          subst this
          simp at hn
          omega
      have e1 : 10 ^ (11 - len) = 10 * 10 ^ (11 - (len + 1)) := by
        rw [show 11 - len = (11 - (len + 1)) + 1 by omega, Nat.pow_succ, Nat.mul_comm]
      have e2 : 10 ^ (fuel + 1) = 10 * 10 ^ fuel := by rw [Nat.pow_succ, Nat.mul_comm]
      have hf1 : 0 < fuel := by
        rcases Nat.eq_zero_or_pos fuel with h | h
        · subst h; simp at hf; omega
        · exact h
      obtain ⟨buf', len', s, r1, r2, r3, r4, r5⟩ := ih (buf := buf.set (10 - len) (some (UInt8.ofNat (48 + n % 10))))
        (len := len + 1) (n := n / 10) (d := UInt8.ofNat (48 + n % 10) :: d) (by simp [hb]) (by omega) (by omega)
        (by omega) (by omega) hf1 (by rw [← hset]; congr 1; omega)
      refine ⟨buf', len', s ++ [UInt8.ofNat (48 + n % 10)], r1, r2, by rw [r3]; simp, decimal_snoc (by omega) r4, ?_⟩
      rw [← r5]; simp

theorem mapM_id_map (s : Str) : (s.map some).mapM (m := Option) id = some s := by
  induction s with
  | nil => rfl
  | cons c t ih => simp [List.mapM_cons, ih]

theorem port_string_of (n : UInt32) : ∃ s, port_string n = .ok s ∧ Decimal n.toNat s ∧ s.length ≤ 10 := by
  have hn : n.toNat < 4294967296 := n.toNat_lt
  obtain ⟨buf, len, s, h1, h2, h3, h4, h5⟩ := portStringLoop_of 33 (buf := List.replicate 10 none) (len := 1)
    (n := n.toNat) (d := []) (by simp) (by omega) (by omega) (by simp; omega)
    (by have : (4294967296 : Nat) < 10 ^ 33 := by decide
        omega) (by omega) (by simp)
  refine ⟨s, ?_, h4, by simp at h5; omega⟩
  unfold port_string
  simp only [h1, h3, List.append_nil, mapM_id_map]

end Url
