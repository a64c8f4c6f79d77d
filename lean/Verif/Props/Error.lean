import Verif.Model.Error
import Verif.Model.Bytes

/-!
The error codes: C48.
-/

set_option autoImplicit false

namespace Url.Props
open Url

/-- C48: every error is a parse error; no other value is. -/
theorem C48_condition (ev : Int) : errorCondition ev = .parse_error ↔ 1 ≤ ev ∧ ev ≤ 15 := by
  unfold errorCondition
  split <;> simp_all

/-- C48: different errors have different messages. -/
theorem C48_messages {a b : Int} (ha : 1 ≤ a ∧ a ≤ 15) (hb : 1 ≤ b ∧ b ≤ 15) (h : errorMessage a = errorMessage b) : a = b := by
  have key : ∀ i j : Fin 15, errorMessage (i.val + 1 : Nat) = errorMessage (j.val + 1 : Nat) → i = j := by decide
  obtain ⟨n, rfl⟩ : ∃ n : Nat, a = n := ⟨a.toNat, by omega⟩
  obtain ⟨m, rfl⟩ : ∃ m : Nat, b = m := ⟨b.toNat, by omega⟩
  have := key ⟨n - 1, by omega⟩ ⟨m - 1, by omega⟩ (by
    rw [show (n - 1 + 1) = n by omega, show (m - 1 + 1) = m by omega]
    exact h)
  have := congrArg Fin.val this
  simp only at this
  omega

/-- C48: the same for the errors of the parser. -/
theorem C48_parser (e e' : Err) : errorCondition e.value = .parse_error ∧ (errorMessage e.value = errorMessage e'.value → e = e') := by
  refine ⟨?_, ?_⟩
  · cases e <;> decide
  · cases e <;> cases e' <;> decide

end Url.Props
