import Verif.Model.Pinv
import Mathlib.Tactic

namespace Verif.Pinv
open Matrix

variable {m n : Type*} [Fintype m] [Fintype n] [DecidableEq n]

/-- The four Moore–Penrose equations. -/
structure IsPinv (H : Matrix m n ℝ) (P : Matrix n m ℝ) : Prop where
  hph : H * P * H = H
  php : P * H * P = P
  hp_sym : (H * P)ᵀ = H * P
  ph_sym : (P * H)ᵀ = P * H

theorem IsPinv_pinv (H : Matrix m n ℝ) : IsPinv H (pinv H) := by
  have h := gram_hermitian H
  obtain ⟨U, D, Di, hU1, hU2, hA, hp, hD1, hD2, hD3⟩ : ∃ (U D Di : Matrix n n ℝ), star U * U = 1 ∧ U * star U = 1 ∧ Hᵀ * H = U * D * star U ∧
      pinv H = U * Di * star U * Hᵀ ∧ D * Di * D = D ∧ Di * D * Di = Di ∧ (D * Di = Di * D ∧ Dᵀ = D ∧ Diᵀ = Di) := by
    refine ⟨(h.eigenvectorUnitary : Matrix n n ℝ), diagonal h.eigenvalues, diagonal (fun i => (h.eigenvalues i)⁻¹), ?_, ?_, ?_, rfl, ?_, ?_, ?_, ?_, ?_⟩
    · exact Unitary.coe_star_mul_self _
    · exact Unitary.coe_mul_star_self _
    · have := h.spectral_theorem
      rw [Unitary.conjStarAlgAut_apply] at this
      exact this
    · simp only [diagonal_mul_diagonal]; congr 1; funext i
      by_cases hz : h.eigenvalues i = 0 <;> simp [hz]
    · simp only [diagonal_mul_diagonal]; congr 1; funext i
      by_cases hz : h.eigenvalues i = 0 <;> simp [hz]
    · simp only [diagonal_mul_diagonal]; congr 1; funext i; ring
    · simp
    · simp
  have hsU : star U = Uᵀ := by rw [star_eq_conjTranspose, conjTranspose_eq_transpose_of_trivial]
  rw [hsU] at hU1 hU2 hA hp
  rw [hp]
  set B := U * Di * Uᵀ with hB
  have hBt : Bᵀ = B := by simp [hB, transpose_mul, hD3.2.2, Matrix.mul_assoc]
  have key : ∀ X Y : Matrix n n ℝ, (U * X * Uᵀ) * (U * Y * Uᵀ) = U * (X * Y) * Uᵀ := by
    intro X Y
    calc (U * X * Uᵀ) * (U * Y * Uᵀ) = U * X * (Uᵀ * U) * Y * Uᵀ := by simp only [Matrix.mul_assoc]
      _ = _ := by rw [hU1]; simp only [Matrix.mul_one, Matrix.mul_assoc]
  have hAB : (Hᵀ * H) * B = B * (Hᵀ * H) := by rw [hA, hB, key, key, hD3.1]
  have hABA : (Hᵀ * H) * B * (Hᵀ * H) = Hᵀ * H := by rw [hA, hB, key, key, hD1]
  have hBAB : B * (Hᵀ * H) * B = B := by rw [hA, hB, key, key, hD2]
  have h1 : H * (B * Hᵀ) * H = H := by
    have h0 : Hᴴ * H * (B * (Hᵀ * H) - 1) = 0 := by
      rw [conjTranspose_eq_transpose_of_trivial, Matrix.mul_sub, ← Matrix.mul_assoc, hABA]; simp
    have := (conjTranspose_mul_self_mul_eq_zero H _).1 h0
    rw [Matrix.mul_sub, Matrix.mul_one, sub_eq_zero] at this
    simpa only [Matrix.mul_assoc] using this
  refine ⟨h1, ?_, ?_, ?_⟩
  · calc B * Hᵀ * H * (B * Hᵀ) = B * (Hᵀ * H) * B * Hᵀ := by simp only [Matrix.mul_assoc]
      _ = _ := by rw [hBAB]
  · simp only [transpose_mul, transpose_transpose, hBt, Matrix.mul_assoc]
  · have : (B * Hᵀ * H)ᵀ = Hᵀ * H * B := by simp only [transpose_mul, transpose_transpose, hBt, Matrix.mul_assoc]
    exact this.trans (hAB.trans (Matrix.mul_assoc B Hᵀ H).symm)

omit [DecidableEq n] in
/-- The four equations determine the inverse. -/
theorem IsPinv.unique {H : Matrix m n ℝ} {P Q : Matrix n m ℝ} (hP : IsPinv H P) (hQ : IsPinv H Q) : P = Q := by
  have e1 : H * P = H * Q := by
    calc H * P = (H * P)ᵀ := hP.hp_sym.symm
      _ = ((H * Q * H) * P)ᵀ := by rw [hQ.hph]
      _ = ((H * Q) * (H * P))ᵀ := by simp only [Matrix.mul_assoc]
      _ = (H * P)ᵀ * (H * Q)ᵀ := transpose_mul _ _
      _ = (H * P) * (H * Q) := by rw [hP.hp_sym, hQ.hp_sym]
      _ = (H * P * H) * Q := by simp only [Matrix.mul_assoc]
      _ = H * Q := by rw [hP.hph]
  have e2 : P * H = Q * H := by
    calc P * H = (P * H)ᵀ := hP.ph_sym.symm
      _ = (P * (H * Q * H))ᵀ := by rw [hQ.hph]
      _ = ((P * H) * (Q * H))ᵀ := by simp only [Matrix.mul_assoc]
      _ = (Q * H)ᵀ * (P * H)ᵀ := transpose_mul _ _
      _ = (Q * H) * (P * H) := by rw [hP.ph_sym, hQ.ph_sym]
      _ = Q * (H * P * H) := by simp only [Matrix.mul_assoc]
      _ = Q * H := by rw [hP.hph]
  calc P = P * H * P := hP.php.symm
    _ = Q * (H * P) := by rw [e2, Matrix.mul_assoc]
    _ = Q * H * Q := by rw [e1, Matrix.mul_assoc]
    _ = Q := hQ.php

/-- On a matrix with trivial kernel the pseudo-inverse is a left inverse. -/
theorem pinv_mulVec (H : Matrix m n ℝ) (hinj : ∀ v, H *ᵥ v = 0 → v = 0) (x : n → ℝ) : pinv H *ᵥ (H *ᵥ x) = x := by
  have h := (IsPinv_pinv H).hph
  have : H *ᵥ (pinv H *ᵥ (H *ᵥ x) - x) = 0 := by
    rw [mulVec_sub, mulVec_mulVec, mulVec_mulVec, h, sub_self]
  exact sub_eq_zero.1 (hinj _ this)

/-- Normal equations of `x = pinv(H) z`. -/
theorem pinv_normal (H : Matrix m n ℝ) (z : m → ℝ) : Hᵀ *ᵥ (H *ᵥ (pinv H *ᵥ z) - z) = 0 := by
  have h := IsPinv_pinv H
  rw [mulVec_sub, mulVec_mulVec, mulVec_mulVec]
  have : Hᵀ * (H * pinv H) = Hᵀ := by
    calc Hᵀ * (H * pinv H) = Hᵀ * (H * pinv H)ᵀ := by rw [h.hp_sym]
      _ = (H * pinv H * H)ᵀ := (transpose_mul _ _).symm
      _ = Hᵀ := by rw [h.hph]
  rw [Matrix.mul_assoc, this, sub_self]

end Verif.Pinv
