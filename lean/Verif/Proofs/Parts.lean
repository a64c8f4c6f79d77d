import Verif.Model.Parts

/-!
The offset table as a list of part texts.
-/

namespace Url

variable {α : Type}

/-- The length of the first `i` parts. -/
def plen (L : List (List α)) (i : Nat) : Nat := ((L.take i).flatten).length

/-- The offsets of `pt` are those of consecutive parts with the texts `L` (parts beyond the list are
empty). -/
def PtRep (pt : Parts) (L : List (List α)) : Prop := ∀ i, pt.off i = plen L i

@[simp] theorem plen_zero (L : List (List α)) : plen L 0 = 0 := by simp [plen]
@[simp] theorem plen_nil (i : Nat) : plen ([] : List (List α)) i = 0 := by simp [plen]
@[simp] theorem plen_cons (x : List α) (L : List (List α)) (i : Nat) :
    plen (x :: L) (i + 1) = x.length + plen L i := by simp [plen]

theorem plen_append_left (A B : List (List α)) {i : Nat} (h : i ≤ A.length) :
    plen (A ++ B) i = plen A i := by
  simp [plen, List.take_append_of_le_length h]

theorem plen_append_right (A B : List (List α)) (i : Nat) :
    plen (A ++ B) (A.length + i) = A.flatten.length + plen B i := by
  simp [plen, List.take_append, List.length_append]
  simp [List.take_of_length_le]

theorem plen_of_le {L : List (List α)} {i : Nat} (h : L.length ≤ i) : plen L i = L.flatten.length := by
  simp [plen, List.take_of_length_le h]

theorem PtRep.nil : PtRep {} ([] : List (List α)) := fun i => by simp

theorem PtRep.snoc_nil {pt} {L : List (List α)} (h : PtRep pt L) : PtRep pt (L ++ [[]]) := by
  intro i
  rw [h i]
  by_cases hi : i ≤ L.length
  · rw [plen_append_left _ _ hi]
  · rw [plen_of_le (by omega), plen_of_le (by simp; omega)]; simp

/-- Changing the length of one part. -/
theorem PtRep.resize {pt : Parts} {A B : List (List α)} {x : List α} (x' : List α) {id n : Nat}
    (h : PtRep pt (A ++ x :: B)) (hid : id = A.length) (hn : n = x'.length) :
    PtRep (pt.resize id n) (A ++ x' :: B) := by
  subst hid hn
  intro i
  have hid1 : pt.length A.length = x.length := by
    unfold Parts.length
    rw [h, h, plen_append_right A (x :: B) 1]
    have := plen_append_right A (x :: B) 0
    simp only [Nat.add_zero] at this
    rw [this]
    simp
  simp only [Parts.resize, hid1]
  split
  · rename_i hi
    obtain ⟨k, rfl⟩ : ∃ k, i = A.length + (k + 1) := ⟨i - A.length - 1, by omega⟩
    rw [h, plen_append_right, plen_append_right, plen_cons, plen_cons]
    omega
  · rename_i hi
    rw [h, plen_append_left _ _ (by omega), plen_append_left _ _ (by omega)]

/-- Moving text from a part to the next one. -/
theorem PtRep.split {pt : Parts} {A B : List (List α)} {x y z : List α} {id n : Nat}
    (h : PtRep pt (A ++ (x ++ y) :: z :: B)) (hid : id = A.length) (hn : n = x.length) :
    PtRep (pt.split id n) (A ++ x :: (y ++ z) :: B) := by
  subst hid hn
  intro i
  simp only [Parts.split]
  split
  · rename_i hi
    subst hi
    have := plen_append_right A ((x ++ y) :: z :: B) 0
    simp only [Nat.add_zero] at this
    rw [h, this, plen_append_right]
    simp
  · rename_i hi
    rw [h]
    by_cases hle : i ≤ A.length
    · rw [plen_append_left _ _ hle, plen_append_left _ _ hle]
    · obtain ⟨k, rfl⟩ : ∃ k, i = A.length + (k + 2) := ⟨i - A.length - 2, by omega⟩
      rw [plen_append_right, plen_append_right]
      simp
      omega

theorem PtRep.congr {pt pt' : Parts} {L : List (List α)} (h : PtRep pt L) (ho : pt'.off = pt.off) : PtRep pt' L := by
  intro i; rw [ho]; exact h i

end Url
