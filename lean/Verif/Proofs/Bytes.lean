import Verif.Model.Parse
import Verif.Spec.LibDialect

/-!
Byte tables against character classes. Each statement ranges over all 256 bytes and is checked by
kernel evaluation of the whole table.
-/

namespace Url

/-- A decidable statement about all bytes follows from its 256 instances. -/
theorem forall_byte {P : Byte → Prop} (h : ∀ n : Fin 256, P (UInt8.ofNat n.val)) (c : Byte) : P c := by
  have := h ⟨c.toNat, c.toNat_lt⟩
  simpa using this

open Spec

theorem is_alpha_eq (c : Byte) : is_alpha c = isAlpha c := by
  revert c; exact forall_byte (by decide +kernel)

theorem is_scheme_char_eq (c : Byte) : is_scheme_char c = lib.schemeChar c := by
  revert c; exact forall_byte (by decide +kernel)

theorem notHex_eq (c : Byte) : notHex c = !isUpperHex c := by
  revert c; exact forall_byte (by decide +kernel)

theorem digitOf_lt (c : Byte) : decide (digitOf c < 10) = isDigit c := by
  revert c; exact forall_byte (by decide +kernel)

/-- The table of `e` describes the alphabet `ok`: entry 1 for permitted, 3 for all other bytes. -/
structure SetOf (e : PctSet) (ok : Byte → Bool) : Prop where
  needed : ∀ c, e.needed c = if ok c then 1 else 3
  pct : ok c!"%" = false

theorem SetOf.special {e ok} (h : SetOf e ok) (c : Byte) : e.is_special c = !ok c := by
  have := h.needed c
  unfold PctSet.needed at this
  unfold PctSet.is_special
  rw [this]
  cases ok c <;> rfl

theorem setOf_regName : SetOf reg_name_pct_set isRegName :=
  ⟨fun c => forall_byte (P := fun c => reg_name_pct_set.needed c = if isRegName c then 1 else 3)
    (by decide +kernel) c, by decide⟩
theorem setOf_userinfo : SetOf userinfo_pct_set isUserinfo :=
  ⟨fun c => forall_byte (P := fun c => userinfo_pct_set.needed c = if isUserinfo c then 1 else 3)
    (by decide +kernel) c, by decide⟩
theorem setOf_userinfo_nc : SetOf userinfo_nc_pct_set isRegName := setOf_regName
theorem setOf_pchar : SetOf pchar_pct_set isPchar :=
  ⟨fun c => forall_byte (P := fun c => pchar_pct_set.needed c = if isPchar c then 1 else 3)
    (by decide +kernel) c, by decide⟩
theorem setOf_pchar_nc : SetOf pchar_nc_pct_set isPcharNc :=
  ⟨fun c => forall_byte (P := fun c => pchar_nc_pct_set.needed c = if isPcharNc c then 1 else 3)
    (by decide +kernel) c, by decide⟩
theorem setOf_frag : SetOf frag_pct_set isQueryFrag :=
  ⟨fun c => forall_byte (P := fun c => frag_pct_set.needed c = if isQueryFrag c then 1 else 3)
    (by decide +kernel) c, by decide⟩
theorem setOf_query : SetOf query_pct_set isQueryFrag := setOf_frag

/-- the characters of a query key: no `=` -/
def isQkey (c : Byte) : Bool := isQueryFrag c && c != c!"="
/-- the characters of a query value: no `&` -/
def isQval (c : Byte) : Bool := isQueryFrag c && c != c!"&"

theorem setOf_qkey : SetOf qkey_pct_set isQkey :=
  ⟨fun c => forall_byte (P := fun c => qkey_pct_set.needed c = if isQkey c then 1 else 3)
    (by decide +kernel) c, by decide⟩
theorem setOf_qval : SetOf qval_pct_set isQval :=
  ⟨fun c => forall_byte (P := fun c => qval_pct_set.needed c = if isQval c then 1 else 3)
    (by decide +kernel) c, by decide⟩

/-! Escapes written by `encode`. -/

theorem encodeChar_shape (c : Byte) :
    ∃ a b, encodeChar c = [c!"%", a, b] ∧ isUpperHex a ∧ isUpperHex b ∧ unescape a b = c := by
  have := forall_byte (P := fun c =>
    isUpperHex (hexChars.getD (c.toNat / 16) 0) = true ∧
    isUpperHex (hexChars.getD (c.toNat % 16) 0) = true ∧
    unescape (hexChars.getD (c.toNat / 16) 0) (hexChars.getD (c.toNat % 16) 0) = c)
    (by decide +kernel) c
  exact ⟨_, _, rfl, this.1, this.2.1, this.2.2⟩

end Url
