import Mathlib.Algebra.BigOperators.Group.Finset.Basic
import Mathlib.Data.Fintype.BigOperators

/-!
# NumPy 2-D arrays

A model of the fragment of NumPy's 2-D arrays used by falco: shape, Python slice bounds,
slice reading and slice assignment.  (NumPy itself is not in /repo; these definitions are the model
of the external library and belong to the trusted base.)
-/

namespace Verif

/-- Exceptions raised by the modelled code.  -/
inductive PyErr
  | typeError | valueError | indexError | attributeError | keyError | nameError | unboundLocal | linAlgError | zeroDivision | syntaxError | systemExit
  deriving DecidableEq, Repr

/-- A 2-D array: `h` rows, `w` columns. -/
structure Img (α : Type*) where
  h : ℕ
  w : ℕ
  px : Fin h → Fin w → α

namespace Img
variable {α β : Type*}

/-- Mathematical read access at integer position: `none` outside the array (no Python wrap-around). -/
def get? (A : Img α) (i j : ℤ) : Option α :=
  if hi : 0 ≤ i ∧ i < A.h then
    if hj : 0 ≤ j ∧ j < A.w then
      some (A.px ⟨i.toNat, by omega⟩ ⟨j.toNat, by omega⟩)
    else none
  else none

/-- An array filled with one value, `v*np.ones((h,w))`. -/
def full (h w : ℕ) (v : α) : Img α := ⟨h, w, fun _ _ => v⟩

/-- Elementwise map. -/
def map (f : α → β) (A : Img α) : Img β := ⟨A.h, A.w, fun i j => f (A.px i j)⟩

/-- `np.sum(A)` -/
def sum [AddCommMonoid α] (A : Img α) : α := ∑ i, ∑ j, A.px i j

end Img

/-- Python's normalisation of one slice bound `a` for a sequence of length `n`:
negative values count from the end and everything is clamped to `[0, n]`. -/
def pyBound (n : ℕ) (a : ℤ) : ℕ := if a < 0 then (a + n).toNat else min a.toNat n

namespace Img
variable {α β : Type*}

/-- `A[r0:r1, c0:c1]` (step 1) with Python slice semantics. -/
def slice (A : Img α) (r0 r1 c0 c1 : ℤ) : Img α where
  h := pyBound A.h r1 - pyBound A.h r0
  w := pyBound A.w c1 - pyBound A.w c0
  px := fun i j =>
    A.px ⟨pyBound A.h r0 + i, by
            have := i.isLt
            have h2 : pyBound A.h r1 ≤ A.h := by unfold pyBound; split <;> omega
            omega⟩
         ⟨pyBound A.w c0 + j, by
            have := j.isLt
            have h2 : pyBound A.w c1 ≤ A.w := by unfold pyBound; split <;> omega
            omega⟩

/-- `A[r0:r1, c0:c1] = B`.  Raises `ValueError` on a shape mismatch.  (NumPy would also broadcast a
length-1 source axis; that is not modelled - every use in the model is proved to have equal shapes.) -/
def setSlice (A : Img α) (r0 r1 c0 c1 : ℤ) (B : Img α) : Except PyErr (Img α) :=
  if hB : B.h = pyBound A.h r1 - pyBound A.h r0 ∧ B.w = pyBound A.w c1 - pyBound A.w c0 then
    .ok { h := A.h, w := A.w
          px := fun i j =>
            if hi : pyBound A.h r0 ≤ i.val ∧ i.val < pyBound A.h r1 then
              if hj : pyBound A.w c0 ≤ j.val ∧ j.val < pyBound A.w c1 then
                B.px ⟨i.val - pyBound A.h r0, by omega⟩ ⟨j.val - pyBound A.w c0, by omega⟩
              else A.px i j
            else A.px i j }
  else .error .valueError

end Img
end Verif
