import Verif.Model.Arr
import Mathlib.Tactic.SplitIfs

namespace Verif
variable {α : Type*}

theorem pyBound_of_mem {n : ℕ} {a : ℤ} (h0 : 0 ≤ a) (h1 : a ≤ n) : pyBound n a = a.toNat := by
  unfold pyBound; split <;> omega

namespace Img

theorem get?_eq_some {A : Img α} {i j : ℤ} (hi : 0 ≤ i ∧ i < A.h) (hj : 0 ≤ j ∧ j < A.w) :
    A.get? i j = some (A.px ⟨i.toNat, by omega⟩ ⟨j.toNat, by omega⟩) := by
  unfold get?; rw [dif_pos hi, dif_pos hj]

theorem get?_eq_none {A : Img α} {i j : ℤ} (h : ¬ (0 ≤ i ∧ i < A.h ∧ 0 ≤ j ∧ j < A.w)) :
    A.get? i j = none := by
  unfold get?; split_ifs with h1 h2
  · exact absurd ⟨h1.1, h1.2, h2.1, h2.2⟩ h
  · rfl
  · rfl

theorem get?_isSome_iff {A : Img α} {i j : ℤ} :
    (A.get? i j).isSome ↔ (0 ≤ i ∧ i < A.h ∧ 0 ≤ j ∧ j < A.w) := by
  unfold get?; split_ifs with h1 h2 <;> simp <;> omega

theorem get?_px (A : Img α) (i : Fin A.h) (j : Fin A.w) : A.get? i j = some (A.px i j) := by
  rw [get?_eq_some ⟨by omega, by have := i.isLt; omega⟩ ⟨by omega, by have := j.isLt; omega⟩]
  congr

/-- Two arrays with the same shape and the same reads are equal. -/
theorem ext_get? {A B : Img α} (hh : A.h = B.h) (hw : A.w = B.w)
    (h : ∀ i j : ℤ, 0 ≤ i → i < A.h → 0 ≤ j → j < A.w → A.get? i j = B.get? i j) : A = B := by
  obtain ⟨ah, aw, apx⟩ := A
  obtain ⟨bh, bw, bpx⟩ := B
  simp only at hh hw
  subst hh; subst hw
  congr 1
  funext i j
  have := h i j (by omega) (by have := i.isLt; simp) (by omega) (by have := j.isLt; simp)
  have h1 := get?_px (⟨ah, aw, apx⟩ : Img α) i j
  have h2 := get?_px (⟨ah, aw, bpx⟩ : Img α) i j
  simp only at h1 h2
  rw [h1, h2] at this
  exact Option.some.inj this

/-- Reading an in-range slice. -/
theorem get?_slice (A : Img α) {r0 r1 c0 c1 : ℤ} (hr0 : 0 ≤ r0) (hr : r0 ≤ r1) (hr1 : r1 ≤ A.h)
    (hc0 : 0 ≤ c0) (hc : c0 ≤ c1) (hc1 : c1 ≤ A.w) {i j : ℤ} (hi : 0 ≤ i) (hi' : i < r1 - r0)
    (hj : 0 ≤ j) (hj' : j < c1 - c0) :
    (A.slice r0 r1 c0 c1).get? i j = A.get? (r0 + i) (c0 + j) := by
  have e1 := pyBound_of_mem hr0 (le_trans hr hr1)
  have e2 := pyBound_of_mem (le_trans hr0 hr) hr1
  have e3 := pyBound_of_mem hc0 (le_trans hc hc1)
  have e4 := pyBound_of_mem (le_trans hc0 hc) hc1
  rw [get?_eq_some (A := A) ⟨by omega, by omega⟩ ⟨by omega, by omega⟩]
  rw [get?_eq_some (by simp only [slice, e1, e2]; omega) (by simp only [slice, e3, e4]; omega)]
  simp only [slice, e1, e3]
  congr 3 <;> omega

theorem slice_h (A : Img α) {r0 r1 c0 c1 : ℤ} (hr0 : 0 ≤ r0) (hr : r0 ≤ r1) (hr1 : r1 ≤ A.h) :
    (A.slice r0 r1 c0 c1).h = (r1 - r0).toNat := by
  simp only [slice, pyBound_of_mem hr0 (le_trans hr hr1), pyBound_of_mem (le_trans hr0 hr) hr1]; omega

theorem slice_w (A : Img α) {r0 r1 c0 c1 : ℤ} (hr0 : 0 ≤ c0) (hr : c0 ≤ c1) (hr1 : c1 ≤ A.w) :
    (A.slice r0 r1 c0 c1).w = (c1 - c0).toNat := by
  simp only [slice, pyBound_of_mem hr0 (le_trans hr hr1), pyBound_of_mem (le_trans hr0 hr) hr1]; omega

/-- Assigning an in-range slice of matching shape succeeds and behaves pixelwise as expected. -/
theorem setSlice_spec (A B : Img α) {r0 r1 c0 c1 : ℤ} (hr0 : 0 ≤ r0) (hr : r0 ≤ r1) (hr1 : r1 ≤ A.h)
    (hc0 : 0 ≤ c0) (hc : c0 ≤ c1) (hc1 : c1 ≤ A.w)
    (hBh : (B.h : ℤ) = r1 - r0) (hBw : (B.w : ℤ) = c1 - c0) :
    ∃ C, A.setSlice r0 r1 c0 c1 B = .ok C ∧ C.h = A.h ∧ C.w = A.w ∧
      ∀ i j : ℤ, 0 ≤ i → i < A.h → 0 ≤ j → j < A.w →
        C.get? i j = if r0 ≤ i ∧ i < r1 ∧ c0 ≤ j ∧ j < c1 then B.get? (i - r0) (j - c0) else A.get? i j := by
  have e1 := pyBound_of_mem hr0 (le_trans hr hr1)
  have e2 := pyBound_of_mem (le_trans hr0 hr) hr1
  have e3 := pyBound_of_mem hc0 (le_trans hc hc1)
  have e4 := pyBound_of_mem (le_trans hc0 hc) hc1
  unfold setSlice
  rw [dif_pos (by rw [e1, e2, e3, e4]; omega)]
  refine ⟨_, rfl, rfl, rfl, ?_⟩
  intro i j hi hi' hj hj'
  rw [get?_eq_some ⟨hi, by simpa using hi'⟩ ⟨hj, by simpa using hj'⟩]
  rw [get?_eq_some (A := A) ⟨hi, hi'⟩ ⟨hj, hj'⟩]
  simp only
  by_cases hin : r0 ≤ i ∧ i < r1 ∧ c0 ≤ j ∧ j < c1
  · rw [if_pos hin, dif_pos (by rw [e1, e2]; omega), dif_pos (by rw [e3, e4]; omega),
      get?_eq_some (A := B) ⟨by omega, by omega⟩ ⟨by omega, by omega⟩]
    simp only [e1, e3]
    congr 3 <;> omega
  · rw [if_neg hin]
    split_ifs with h1 h2
    · exfalso; rw [e1, e2] at h1; rw [e3, e4] at h2; omega
    · rfl
    · rfl

end Img
end Verif
