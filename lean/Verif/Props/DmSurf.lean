import Verif.Lemmas.Dm
import Mathlib.LinearAlgebra.Matrix.Determinant.Basic
import Mathlib.Algebra.Order.BigOperators.Group.Finset
import Mathlib.Algebra.BigOperators.Fin
import Mathlib.Algebra.BigOperators.Ring.Finset
import Mathlib.Tactic.FinCases
import Mathlib.Tactic.LinearCombination
import Verif.Lemmas.Util

/-!
# Properties of DM surface generation (C16 - C18, C59, C60)
-/

namespace Verif.Dm
open Verif

/-! ## C16 -/

/-- Specification: the contribution of one actuator of unit height at pixel `(y,x)`: its influence stamp where the stamp covers
the pixel, 0 elsewhere. -/
noncomputable def stamp {Nbox : ℕ} (lo : ℤ × ℤ) (inf : Fin Nbox → Fin Nbox → ℝ) (y x : ℤ) : ℝ :=
  if h : (lo.2 ≤ y ∧ y < lo.2 + Nbox) ∧ (lo.1 ≤ x ∧ x < lo.1 + Nbox) then
    inf ⟨(y - lo.2).toNat, by omega⟩ ⟨(x - lo.1).toNat, by omega⟩ else 0

/-- C16. The surface is the superposition, over the actuators whose stamp has total |influence| > 1e-12, of
command × gain × stamp - for any (also overlapping) stamp positions. -/
theorem C16_superposition {nAct Nbox NdmPad : ℕ} (lo : Fin nAct → ℤ × ℤ) (inf : Fin nAct → Fin Nbox → Fin Nbox → ℝ)
    (VtoH V : Fin nAct → ℝ) (y x : Fin NdmPad) :
    surfFromCube lo inf VtoH V y x =
      ∑ k, if 1e-12 < ∑ a, ∑ b, |inf k a b| then V k * VtoH k * stamp (lo k) (inf k) y x else 0 := by
  have key : ∀ (l : List (Fin nAct)) (s0 : Fin NdmPad → Fin NdmPad → ℝ),
      l.foldl (fun surf iact =>
        if 1e-12 < ∑ a, ∑ b, |inf iact a b| then
          fun (y x : Fin NdmPad) =>
            if h : 0 ≤ (y : ℤ) - (lo iact).2 ∧ (y : ℤ) - (lo iact).2 < Nbox ∧
                   0 ≤ (x : ℤ) - (lo iact).1 ∧ (x : ℤ) - (lo iact).1 < Nbox then
              surf y x + V iact * VtoH iact *
                inf iact ⟨((y : ℤ) - (lo iact).2).toNat, by omega⟩ ⟨((x : ℤ) - (lo iact).1).toNat, by omega⟩
            else surf y x
        else surf) s0 y x = s0 y x + (l.map fun k =>
          if 1e-12 < ∑ a, ∑ b, |inf k a b| then V k * VtoH k * stamp (lo k) (inf k) y x else 0).sum := by
    intro l
    induction l with
    | nil => intro s0; simp
    | cons k t ih =>
      intro s0
      rw [List.foldl_cons, ih, List.map_cons, List.sum_cons, ← add_assoc]
      congr 1
      by_cases hk : 1e-12 < ∑ a, ∑ b, |inf k a b|
      · rw [if_pos hk, if_pos hk]
        unfold stamp
        by_cases hb : 0 ≤ (y : ℤ) - (lo k).2 ∧ (y : ℤ) - (lo k).2 < Nbox ∧
                   0 ≤ (x : ℤ) - (lo k).1 ∧ (x : ℤ) - (lo k).1 < Nbox
        · rw [dif_pos hb, dif_pos (by omega)]
        · rw [dif_neg hb, dif_neg (by omega)]; ring
      · rw [if_neg hk, if_neg hk]; ring
  unfold surfFromCube
  rw [key, zero_add, ← List.sum_ofFn, List.ofFn_eq_map]

/-- C16. The surface is additive and homogeneous in the command, and flat for the zero command. -/
theorem C16_linear {nAct Nbox NdmPad : ℕ} (lo : Fin nAct → ℤ × ℤ) (inf : Fin nAct → Fin Nbox → Fin Nbox → ℝ)
    (VtoH V W : Fin nAct → ℝ) (a : ℝ) (y x : Fin NdmPad) :
    surfFromCube lo inf VtoH (fun k => V k + W k) y x = surfFromCube lo inf VtoH V y x + surfFromCube lo inf VtoH W y x ∧
    surfFromCube lo inf VtoH (fun k => a * V k) y x = a * surfFromCube lo inf VtoH V y x ∧
    surfFromCube lo inf VtoH (fun _ => 0) y x = 0 := by
  simp only [C16_superposition]
  refine ⟨?_, ?_, ?_⟩
  · rw [← Finset.sum_add_distrib]
    exact Finset.sum_congr rfl fun k _ => by split <;> ring
  · rw [Finset.mul_sum]
    exact Finset.sum_congr rfl fun k _ => by split <;> ring
  · exact Finset.sum_eq_zero fun k _ => by simp

/-- C16. Skipping the negligible actuators changes no pixel by more than `1e-12 · Σ |V·gain|` compared with the full
superposition. -/
theorem C16_skip_error {nAct Nbox NdmPad : ℕ} (lo : Fin nAct → ℤ × ℤ) (inf : Fin nAct → Fin Nbox → Fin Nbox → ℝ)
    (VtoH V : Fin nAct → ℝ) (y x : Fin NdmPad) :
    |surfFromCube lo inf VtoH V y x - ∑ k, V k * VtoH k * stamp (lo k) (inf k) y x| ≤ 1e-12 * ∑ k, |V k * VtoH k| := by
  rw [C16_superposition, ← Finset.sum_sub_distrib, Finset.mul_sum]
  refine (Finset.abs_sum_le_sum_abs _ _).trans (Finset.sum_le_sum fun k _ => ?_)
  split
  · simp only [sub_self, abs_zero]; positivity
  · next h =>
    push Not at h
    rw [zero_sub, abs_neg, abs_mul, mul_comm]
    apply mul_le_mul_of_nonneg_right _ (abs_nonneg _)
    unfold stamp
    split
    · next hb =>
      refine le_trans ?_ h
      refine le_trans ?_ (Finset.single_le_sum (f := fun a => ∑ b, |inf k a b|)
        (fun a _ => Finset.sum_nonneg fun b _ => abs_nonneg _)
        (Finset.mem_univ (⟨((y:ℤ) - (lo k).2).toNat, by omega⟩ : Fin Nbox)))
      exact Finset.single_le_sum (f := fun b => |inf k ⟨((y:ℤ) - (lo k).2).toNat, by omega⟩ b|)
        (fun b _ => abs_nonneg _) (Finset.mem_univ _)
    · rw [abs_zero]; norm_num

example : surfFromCube (nAct := 2) (Nbox := 1) (NdmPad := 2) (fun _ => (1, 0)) (fun _ _ _ => 1)
    (fun _ => 2) (fun k => k.val + 1) 0 1 = 6 := by
  rw [C16_superposition, Fin.sum_univ_two]
  norm_num [stamp]

/-! ## C17 -/

/-- The documented height curves: `height = p1 V² + p2 V + p3` and the 2-term Fourier fit (error messages at
falco/dm.py:1577-1579,1589-1591). -/
noncomputable def quadCurve (c : FitCoef) (v : ℝ) : ℝ := c.p1 * v * v + c.p2 * v + c.p3
/-- see `quadCurve` -/
noncomputable def fourierCurve (c : FitCoef) (v : ℝ) : ℝ :=
  c.a0 + c.a1 * Real.cos (v * c.w) + c.b1 * Real.sin (v * c.w) + c.a2 * Real.cos (2 * v * c.w) + c.b2 * Real.sin (2 * v * c.w)

/-- C17. For the quadratic fit types the new gain is the derivative of the documented quadratic at the total voltage. -/
theorem C17_quadratic (s : String) (hs : s.toLower = "quadratic" ∨ s.toLower = "poly2") (c : FitCoef) (g0 V bias : ℝ) :
    ∃ g, updateGain s c g0 V bias = .ok g ∧ HasDerivAt (quadCurve c) g (V + bias) := by
  refine ⟨2 * c.p1 * (V + bias) + c.p2, ?_, ?_⟩
  · unfold updateGain
    rcases hs with hs | hs <;> simp [hs]
  · have h := (((hasDerivAt_id (V + bias)).const_mul c.p1).mul (hasDerivAt_id (V + bias))).add
      (((hasDerivAt_id (V + bias)).const_mul c.p2)) |>.add_const c.p3
    refine (h.congr_deriv ?_)
    simp; ring

/-- C17. For the `fourier2` fit type likewise. -/
theorem C17_fourier (s : String) (hs : s.toLower = "fourier2") (c : FitCoef) (g0 V bias : ℝ) :
    ∃ g, updateGain s c g0 V bias = .ok g ∧ HasDerivAt (fourierCurve c) g (V + bias) := by
  refine ⟨c.w * (-c.a1 * Real.sin ((V + bias) * c.w) + c.b1 * Real.cos ((V + bias) * c.w)
      + -2 * c.a2 * Real.sin (2 * (V + bias) * c.w) + 2 * c.b2 * Real.cos (2 * (V + bias) * c.w)),
    by unfold updateGain; simp [hs], ?_⟩
  have h1 : HasDerivAt (fun v : ℝ => v * c.w) c.w (V + bias) := by
    simpa using (hasDerivAt_id (V + bias)).mul_const c.w
  have h2 : HasDerivAt (fun v : ℝ => 2 * v * c.w) (2 * c.w) (V + bias) := by
    simpa using ((hasDerivAt_id (V + bias)).const_mul 2).mul_const c.w
  have h := ((((hasDerivAt_const (V + bias) c.a0).add (h1.cos.const_mul c.a1)).add (h1.sin.const_mul c.b1)).add
    (h2.cos.const_mul c.a2)).add (h2.sin.const_mul c.b2)
  refine h.congr_deriv ?_
  ring

/-- C17. For the linear fit types the gain is kept, so it stays the slope of `height = gain·V`; unknown types raise. -/
theorem C17_linear_and_unknown (s : String) (c : FitCoef) (g0 V bias : ℝ) :
    (s.toLower = "linear" ∨ s.toLower = "poly1" → updateGain s c g0 V bias = .ok g0) ∧
    (s.toLower ∉ ["linear", "poly1", "quadratic", "poly2", "fourier2"] →
      updateGain s c g0 V bias = .error .valueError) := by
  constructor
  · intro h; unfold updateGain; simp [h]
  · intro h; simp at h; unfold updateGain; simp [h]

example : "Quadratic".toLower = "quadratic" ∧ "FOURIER2".toLower = "fourier2" ∧ "poly1".toLower = "poly1" := by
  decide +kernel

/-! ## C18 -/

open Matrix in
/-- A proper rotation of 3-space. -/
def IsRotation (M : Matrix (Fin 3) (Fin 3) ℝ) : Prop := M * Mᵀ = 1 ∧ M.det = 1

theorem isRotation_Rx (a : ℝ) : IsRotation (Rx a) := by
  have h := Real.sin_sq_add_cos_sq a
  constructor
  · ext i j
    fin_cases i <;> fin_cases j <;> simp [Rx, Matrix.mul_apply, Fin.sum_univ_three] <;> linarith
  · simp [Rx, Matrix.det_fin_three]; linarith

theorem isRotation_Ry (a : ℝ) : IsRotation (Ry a) := by
  have h := Real.sin_sq_add_cos_sq a
  constructor
  · ext i j
    fin_cases i <;> fin_cases j <;> simp [Ry, Matrix.mul_apply, Fin.sum_univ_three] <;> linarith
  · simp [Ry, Matrix.det_fin_three]; linarith

theorem isRotation_Rz (a : ℝ) : IsRotation (Rz a) := by
  have h := Real.sin_sq_add_cos_sq a
  constructor
  · ext i j
    fin_cases i <;> fin_cases j <;> simp [Rz, Matrix.mul_apply, Fin.sum_univ_three] <;> linarith
  · simp [Rz, Matrix.det_fin_three]; linarith

theorem IsRotation.mul {M N : Matrix (Fin 3) (Fin 3) ℝ} (hM : IsRotation M) (hN : IsRotation N) : IsRotation (M * N) := by
  constructor
  · rw [Matrix.transpose_mul, Matrix.mul_assoc, ← Matrix.mul_assoc N, hN.1, Matrix.one_mul, hM.1]
  · rw [Matrix.det_mul, hM.2, hN.2, mul_one]

/-- C18. The closed forms used in `propcustom_dm`, `derotate_resize_surface` and `gen_poke_cube` are the products of elementary
rotations, in the stated order. -/
theorem C18_closed_forms (a b g : ℝ) :
    mXYZ a b g = Rx a * Ry b * Rz g ∧ mZYX a b g = Rz g * Ry b * Rx a ∧
    mrotXYZ a b g = Rz g * Ry b * Rx a ∧ mrotZYX a b g = Rx a * Ry b * Rz g := by
  refine ⟨?_, ?_, ?_, ?_⟩ <;>
  · ext i j
    fin_cases i <;> fin_cases j <;>
      simp [mXYZ, mZYX, mrotXYZ, mrotZYX, Rx, Ry, Rz, Matrix.mul_apply, Fin.sum_univ_three] <;> ring

/-- C18. All of them, and both matrices of `make_rotation_matrix`, are proper rotations for every angle. -/
theorem C18_rotations (a b g : ℝ) (z : Bool) :
    IsRotation (mXYZ a b g) ∧ IsRotation (mZYX a b g) ∧ IsRotation (mrotXYZ a b g) ∧ IsRotation (mrotZYX a b g) ∧
    IsRotation (makeRotationMatrix g b a z) := by
  obtain ⟨h1, h2, h3, h4⟩ := C18_closed_forms a b g
  rw [h1, h2, h3, h4]
  have p1 := ((isRotation_Rx a).mul (isRotation_Ry b)).mul (isRotation_Rz g)
  have p2 := ((isRotation_Rz g).mul (isRotation_Ry b)).mul (isRotation_Rx a)
  refine ⟨p1, p2, p2, p1, ?_⟩
  unfold makeRotationMatrix
  cases z
  · exact p2
  · exact p1

/-- C18. The back-projection formula inverts the forward projection `(xs,ys) ↦ (xs,ys,0)·m` whenever the two diagonal slopes
and the projected determinant are non-zero. -/
theorem C18_back_projection (m : Matrix (Fin 3) (Fin 3) ℝ) (h0 : m 0 0 ≠ 0) (h1 : m 1 1 ≠ 0)
    (hd : m 0 0 * m 1 1 - m 0 1 * m 1 0 ≠ 0) (xs ys : ℝ) :
    backProject m (xs * m 0 0 + ys * m 1 0) (xs * m 0 1 + ys * m 1 1) = (xs, ys) := by
  have e00 : (-m 0 0 - m 1 0 - (m 0 0 - m 1 0)) / (-1 - 1) = m 0 0 := by ring
  have e10 : (m 0 0 - m 1 0 - (m 0 0 + m 1 0)) / (-1 - 1) = m 1 0 := by ring
  have e01 : (-m 0 1 - m 1 1 - (m 0 1 - m 1 1)) / (-1 - 1) = m 0 1 := by ring
  have e11 : (m 0 1 - m 1 1 - (m 0 1 + m 1 1)) / (-1 - 1) = m 1 1 := by ring
  have v : ∀ (p q : ℝ) (j : Fin 3), Matrix.vecMul ![p, q, 0] m j = p * m 0 j + q * m 1 j := by
    intro p q j; simp [Matrix.vecMul, dotProduct, Fin.sum_univ_three]
  unfold backProject
  simp only [v]
  simp only [Matrix.cons_val_zero, Matrix.cons_val_one]
  have f00 : (-1 * m 0 0 + -1 * m 1 0 - (1 * m 0 0 + -1 * m 1 0)) / (-1 - 1) = m 0 0 := by ring
  have f10 : (1 * m 0 0 + -1 * m 1 0 - (1 * m 0 0 + 1 * m 1 0)) / (-1 - 1) = m 1 0 := by ring
  have f01 : (-1 * m 0 1 + -1 * m 1 1 - (1 * m 0 1 + -1 * m 1 1)) / (-1 - 1) = m 0 1 := by ring
  have f11 : (1 * m 0 1 + -1 * m 1 1 - (1 * m 0 1 + 1 * m 1 1)) / (-1 - 1) = m 1 1 := by ring
  rw [f00, f10, f01, f11]
  have hD : 1 - m 0 1 * m 1 0 / (m 0 0 * m 1 1) ≠ 0 := by
    intro h
    apply hd
    field_simp at h
    linarith
  have hD' : 1 - m 1 0 * m 0 1 / (m 0 0 * m 1 1) ≠ 0 := by rwa [mul_comm (m 1 0)]
  refine Prod.ext ?_ ?_
  · rw [div_eq_iff hD]; field_simp; ring
  · rw [div_eq_iff hD']; field_simp; ring

/-- C18. The poke cube and the surface generator project an actuator to the same place, for both rotation orders: the screen
point which `gen_poke_cube` computes (with angle −zrot and column vectors) is back-projected by `propcustom_dm` (angle zrot, row
vectors) to exactly the actuator's own coordinates. -/
theorem C18_poke_agrees_with_surface (a b g x y : ℝ) :
    (mXYZ a b g 0 0 ≠ 0 → mXYZ a b g 1 1 ≠ 0 → mXYZ a b g 0 0 * mXYZ a b g 1 1 - mXYZ a b g 0 1 * mXYZ a b g 1 0 ≠ 0 →
      backProject (mXYZ a b g) (pokeProject (mrotXYZ a b (-g)) x y).1 (pokeProject (mrotXYZ a b (-g)) x y).2 = (x, y)) ∧
    (mZYX a b g 0 0 ≠ 0 → mZYX a b g 1 1 ≠ 0 → mZYX a b g 0 0 * mZYX a b g 1 1 - mZYX a b g 0 1 * mZYX a b g 1 0 ≠ 0 →
      backProject (mZYX a b g) (pokeProject (mrotZYX a b (-g)) x y).1 (pokeProject (mrotZYX a b (-g)) x y).2 = (x, y)) := by
  constructor
  · intro h0 h1 hd
    rw [← C18_back_projection (mXYZ a b g) h0 h1 hd x y]
    congr 1 <;>
    · simp [pokeProject, mrotXYZ, mXYZ, Matrix.mulVec, dotProduct, Fin.sum_univ_three]
      ring
  · intro h0 h1 hd
    rw [← C18_back_projection (mZYX a b g) h0 h1 hd x y]
    congr 1 <;>
    · simp [pokeProject, mrotZYX, mZYX, Matrix.mulVec, dotProduct, Fin.sum_univ_three]
      ring

example : mXYZ 0 0 0 0 0 ≠ 0 ∧ mXYZ 0 0 0 1 1 ≠ 0 ∧
    mXYZ 0 0 0 0 0 * mXYZ 0 0 0 1 1 - mXYZ 0 0 0 0 1 * mXYZ 0 0 0 1 0 ≠ 0 := by
  simp [mXYZ]

/-! ## C59 -/

/-- The influence function is symmetric under point reflection. -/
def PointSym {p q : ℕ} (w : Fin (2*p+1) → Fin (2*q+1) → ℝ) : Prop := ∀ i j, w i.rev j.rev = w i j

theorem buildPrefilter_apply {R C p q : ℕ} (w : Fin (2*p+1) → Fin (2*q+1) → ℝ) (j i : Fin R × Fin C) :
    buildPrefilter w j i =
      if h : 0 ≤ (i.1 : ℤ) - j.1 + p ∧ (i.1 : ℤ) - j.1 + p < 2*p+1 ∧ 0 ≤ (i.2 : ℤ) - j.2 + q ∧
          (i.2 : ℤ) - j.2 + q < 2*q+1 then
        w ⟨((i.1 : ℤ) - j.1 + p).toNat, by omega⟩ ⟨((i.2 : ℤ) - j.2 + q).toNat, by omega⟩ else 0 := by
  unfold buildPrefilter convolve
  rw [Finset.sum_eq_single j]
  · split <;> simp
  · intro k _ hk; split <;> simp [Pi.single_eq_of_ne hk]
  · simp

/-- C59. For a point-symmetric influence function, any solution of the linear system solved by `fit_surf_with_dm_lsq` with the
matrix of `build_prefilter` renders (by convolution with the influence function) exactly the requested surface. -/
theorem C59_fit_reproduces_surface {R C p q : ℕ} (w : Fin (2*p+1) → Fin (2*q+1) → ℝ) (hw : PointSym w)
    (x surf : Fin R × Fin C → ℝ) (hx : (buildPrefilter w).mulVec x = surf) : convolve w x = surf := by
  rw [← hx]
  funext i
  unfold convolve Matrix.mulVec dotProduct
  refine Finset.sum_congr rfl fun k _ => ?_
  change _ = (buildPrefilter w : Matrix _ _ ℝ) i k * x k
  rw [buildPrefilter_apply]
  by_cases h : 0 ≤ (i.1 : ℤ) - k.1 + p ∧ (i.1 : ℤ) - k.1 + p < 2*p+1 ∧ 0 ≤ (i.2 : ℤ) - k.2 + q ∧
          (i.2 : ℤ) - k.2 + q < 2*q+1
  · have h' : 0 ≤ (k.1 : ℤ) - i.1 + p ∧ (k.1 : ℤ) - i.1 + p < 2*p+1 ∧ 0 ≤ (k.2 : ℤ) - i.2 + q ∧
          (k.2 : ℤ) - i.2 + q < 2*q+1 := by omega
    rw [dif_pos h, dif_pos h', ← hw, mul_comm]
    congr 2
    · ext; simp only [Fin.val_rev]; omega
    · ext; simp only [Fin.val_rev]; omega
  · rw [dif_neg h, dif_neg (by omega), zero_mul]

/-- C59. In general the matrix is the transpose of the rendering operator. -/
theorem C59_transpose {R C p q : ℕ} (w : Fin (2*p+1) → Fin (2*q+1) → ℝ) (x : Fin R × Fin C → ℝ) :
    (buildPrefilter w).transpose.mulVec x = convolve w x := by
  funext i
  unfold Matrix.mulVec dotProduct
  simp only [Matrix.transpose_apply]
  conv_rhs => unfold convolve
  refine Finset.sum_congr rfl fun k _ => ?_
  rw [buildPrefilter_apply]
  split_ifs with h
  · rw [mul_comm]
  · rw [zero_mul]

/-- C59. On a DM with more actuators per side than the kernel radius, the matrix acts as the rendering operator on all commands if and only if the
influence function is point-symmetric. -/
theorem C59_iff {R C p q : ℕ} (hp : p < R) (hq : q < C) (w : Fin (2*p+1) → Fin (2*q+1) → ℝ) :
    (∀ x : Fin R × Fin C → ℝ, (buildPrefilter w).mulVec x = convolve w x) ↔ PointSym w := by
  refine ⟨fun h => ?_, fun hw x => (C59_fit_reproduces_surface w hw x _ rfl).symm⟩
  intro i j
  have hs : ∀ a b : Fin R × Fin C, buildPrefilter w a b = buildPrefilter w b a := by
    intro a b
    have h1 := congrFun (h (Pi.single b 1)) a
    rw [← C59_transpose] at h1
    simpa [Matrix.mulVec_single] using h1
  -- actuator pair whose offset is `(i - p, j - q)`
  have hi := i.2
  have hj := j.2
  let a : Fin R × Fin C := (⟨p - i, by omega⟩, ⟨q - j, by omega⟩)
  let b : Fin R × Fin C := (⟨i - p, by omega⟩, ⟨j - q, by omega⟩)
  have := hs a b
  rw [buildPrefilter_apply, buildPrefilter_apply] at this
  have ha1 : ((a.1 : ℕ) : ℤ) = ((p - i : ℕ) : ℤ) := rfl
  have ha2 : ((a.2 : ℕ) : ℤ) = ((q - j : ℕ) : ℤ) := rfl
  have hb1 : ((b.1 : ℕ) : ℤ) = ((i - p : ℕ) : ℤ) := rfl
  have hb2 : ((b.2 : ℕ) : ℤ) = ((j - q : ℕ) : ℤ) := rfl
  rw [dif_pos (by omega), dif_pos (by omega)] at this
  rw [eq_comm]
  convert this using 2
  · ext; simp only; omega
  · ext; simp only; omega
  · ext; simp only [Fin.val_rev]; omega
  · ext; simp only [Fin.val_rev]; omega

/-- C59. Without the symmetry the fit is wrong: rows and columns of the matrix are exchanged.  For a 1×2 DM and a kernel
`[0, 1, 1]` the solution of the solved system renders a different surface. -/
theorem C59_violated : ∃ (w : Fin (2*0+1) → Fin (2*1+1) → ℝ) (x surf : Fin 1 × Fin 2 → ℝ),
    (buildPrefilter w).mulVec x = surf ∧ convolve w x ≠ surf := by
  refine ⟨fun _ => ![0, 1, 1], fun k => if k.2 = 0 then 1 else 0, _, rfl, ?_⟩
  intro h
  have := congrFun h (0, 0)
  simp only [Matrix.mulVec, dotProduct, buildPrefilter_apply] at this
  simp [convolve, Fintype.sum_prod_type, Fin.sum_univ_two] at this
  have h2 := congrFun h (0, 1)
  simp only [Matrix.mulVec, dotProduct, buildPrefilter_apply] at h2
  simp [convolve, Fintype.sum_prod_type, Fin.sum_univ_two] at h2

example : PointSym (p := 1) (q := 0) (fun i _ => ![1, 2, 1] i) := by
  intro i j; fin_cases i <;> rfl

/-! ## C60 -/

/-- C60. Every influence-function stamp lies inside the padded DM array, on both axes: for any stamp size `Nbox ≤ NboxAS`
(both even), any pixel density and any actuator whose coordinate is at most the maximum `M` used for the padding, the first
index is a non-negative integer and the last one is below `NdmPad`; the same holds for the enlarged stamp of size `NboxAS`
used by the Jacobian. -/
theorem C60_boxes_in_bounds (Nbox NboxAS : ℤ) (hb : Even Nbox) (hba : Even NboxAS) (hle : Nbox ≤ NboxAS)
    (M ppa c : ℝ) (hppa : 0 ≤ ppa) (hc : |c| ≤ M) :
    ∃ lo : ℤ, boxLowerLeft (ndmPad NboxAS M ppa) Nbox c ppa = lo ∧
      0 ≤ lo - (NboxAS - Nbox) / 2 ∧ lo - (NboxAS - Nbox) / 2 + NboxAS ≤ ndmPad NboxAS M ppa ∧
      0 ≤ lo ∧ lo + Nbox ≤ ndmPad NboxAS M ppa := by
  have hpad : Even (ndmPad NboxAS M ppa) := ⟨⌈(0.5:ℝ) * (NboxAS + 2 * (1 + (M + 0.5) * ppa))⌉, by
    unfold ndmPad Util.ceilEven; ring⟩
  have hge : (NboxAS : ℝ) + 2 * (1 + (M + 0.5) * ppa) ≤ ndmPad NboxAS M ppa := by
    unfold ndmPad Util.ceilEven
    push_cast
    linarith [Int.le_ceil ((0.5:ℝ) * (NboxAS + 2 * (1 + (M + 0.5) * ppa)))]
  obtain ⟨P, hP⟩ := hpad
  obtain ⟨B, hB⟩ := hb
  obtain ⟨A, hA⟩ := hba
  have hr := npRound_bounds (c * ppa + 0.5)
  have hc' := abs_le.1 hc
  have hcp1 : -(M * ppa) ≤ c * ppa := by nlinarith [hc'.1]
  have hcp2 : c * ppa ≤ M * ppa := by nlinarith [hc'.2]
  set r := npRound (c * ppa + 0.5) with hrdef
  have hPA : (A : ℝ) + 1 + M * ppa ≤ P := by
    rw [hP, hA] at hge
    push_cast at hge
    nlinarith
  have k1 : 0 ≤ r + (P - A) := by
    have : (0:ℝ) ≤ r + (P - A) := by linarith [hr.1]
    exact_mod_cast this
  have k2 : r ≤ P - A := by
    have : (r:ℝ) ≤ P - A := by linarith [hr.2]
    exact_mod_cast this
  refine ⟨r + (P - B), ?_, ?_, ?_, ?_, ?_⟩
  · unfold boxLowerLeft
    rw [← hrdef, hP, hB]; push_cast; ring
  all_goals omega

example : Even (4:ℤ) ∧ Even (10:ℤ) ∧ (4:ℤ) ≤ 10 ∧ (0:ℝ) ≤ 3.5 ∧ |(-2:ℝ)| ≤ 2 := by
  refine ⟨by decide, by decide, by decide, by norm_num, by norm_num⟩

/-! ## C61 -/

theorem cropDiff_large (A : Img ℝ) (k : ℕ) (hk : A.h ≤ k) (hk0 : 0 < k) : cropDiff A k = A.sum := by
  unfold cropDiff
  have hz : (A.slice k (-k) k (-k)).h = 0 := by
    simp only [Img.slice, pyBound]
    split <;> split <;> omega
  have : ((A.slice k (-k) k (-k)).map abs).sum = 0 := by
    unfold Img.sum
    apply Finset.sum_eq_zero
    intro i _
    exact absurd i.isLt (by change ¬ i.val < (A.slice k (-k) k (-k)).h; rw [hz]; omega)
  rw [this, sub_zero]

theorem cropLoop_spec (A : Img ℝ) (fuel k r : ℕ) (h : cropLoop A fuel k = some r) :
    k ≤ r ∧ 1e-7 < |cropDiff A (r + 1)| ∧ ∀ i, k < i → i ≤ r → |cropDiff A i| ≤ 1e-7 := by
  induction fuel generalizing k with
  | zero => simp [cropLoop] at h
  | succ fuel ih =>
    unfold cropLoop at h
    split at h
    · next hc =>
      obtain ⟨h1, h2, h3⟩ := ih (k + 1) h
      refine ⟨by omega, h2, fun i hi hi' => ?_⟩
      rcases Nat.lt_or_ge (k + 1) i with h4 | h4
      · exact h3 i h4 hi'
      · have : i = k + 1 := by omega
        rw [this]; exact hc
    · next hc =>
      injection h with h; subst h
      exact ⟨le_rfl, not_le.1 hc, fun i hi hi' => by omega⟩

/-- C61. If the influence function's total exceeds 1e-7 in absolute value, the cropping loop stops (within `h+1` steps), and
every amount of cropping it accepted lost at most 1e-7 of the total. -/
theorem C61_crop_loop_terminates (A : Img ℝ) (hs : 1e-7 < |A.sum|) :
    ∃ r, cropLoop A (A.h + 1) 0 = some r ∧ r ≤ A.h ∧
      ∀ i, 0 < i → i ≤ r → |A.sum - ((A.slice i (-i) i (-i)).map abs).sum| ≤ 1e-7 := by
  have key : ∀ fuel k, A.h + 1 ≤ fuel + k → k ≤ A.h → ∃ r, cropLoop A fuel k = some r ∧ r ≤ A.h := by
    intro fuel
    induction fuel with
    | zero => intro k h1 h2; omega
    | succ fuel ih =>
      intro k h1 h2
      unfold cropLoop
      split
      · next hc =>
        by_cases hk : k + 1 ≤ A.h
        · exact ih (k + 1) (by omega) hk
        · exfalso
          rw [cropDiff_large A (k + 1) (by omega) (by omega)] at hc
          linarith
      · exact ⟨k, rfl, h2⟩
  obtain ⟨r, h1, h2⟩ := key (A.h + 1) 0 (by omega) (by omega)
  exact ⟨r, h1, h2, (cropLoop_spec A _ 0 r h1).2.2⟩

/-- C61. An all-zero influence function makes the loop run forever. -/
theorem C61_zero_influence_violated (h w fuel k : ℕ) : cropLoop (Img.full h w 0) fuel k = none := by
  induction fuel generalizing k with
  | zero => rfl
  | succ fuel ih =>
    unfold cropLoop
    rw [if_pos]
    · exact ih _
    · have : cropDiff (Img.full h w (0:ℝ)) (k + 1) = 0 := by
        simp [cropDiff, Img.sum, Img.full, Img.slice, Img.map]
      rw [this]; norm_num

example : (1e-7:ℝ) < |(Img.full 3 3 (1:ℝ)).sum| := by
  have : (Img.full 3 3 (1:ℝ)).sum = 9 := by
    change ∑ _ : Fin 3, ∑ _ : Fin 3, (1:ℝ) = 9
    norm_num
  rw [this]; norm_num

end Verif.Dm
