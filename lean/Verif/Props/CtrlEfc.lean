import Verif.Model.Ctrl
import Mathlib.Tactic.Linarith
import Mathlib.Tactic.NormNum
import Mathlib.Tactic.LinearCombination
import Mathlib.Tactic.Positivity
import Mathlib.LinearAlgebra.Matrix.ToLinearEquiv
import Mathlib.Data.Fin.VecNotation

/-!
# C19, C20: the EFC command

Specification: `predicted pr u` is the field the linear model predicts after command `u`, `cost` the weighted intensity plus the
penalty on the command, `strength pr i` the weighted response of actuator `i` and `penalty pr reg = 10^reg · max strength`.
-/

namespace Verif.Ctrl
open Verif Complex

set_option linter.unusedSectionVars false
variable {P ι Md St : Type*} [Fintype P] [Fintype ι] [Fintype Md]

/-- Spatially weighted field predicted by the linear model after the command `u`. -/
noncomputable def predicted (pr : Problem P ι Md St) (u : ι → ℝ) (p : P) (m : Md) : ℂ :=
  (pr.W p (pr.star m) : ℂ) * (pr.E p m + ∑ j, pr.G p j m * (u j : ℂ))

/-- Weighted response of one actuator. -/
noncomputable def strength (pr : Problem P ι Md St) (i : ι) : ℝ :=
  ∑ m, pr.w m * ∑ p, normSq ((pr.W p (pr.star m) : ℂ) * pr.G p i m)

/-- Penalty coefficient: `10^reg` times the largest response. -/
noncomputable def penalty [Nonempty ι] (pr : Problem P ι Md St) (reg : ℝ) : ℝ :=
  (10 : ℝ) ^ reg * Finset.univ.sup' Finset.univ_nonempty (strength pr)

/-- The cost EFC is meant to minimise. -/
noncomputable def cost [Nonempty ι] (pr : Problem P ι Md St) (reg : ℝ) (u : ι → ℝ) : ℝ :=
  ∑ m, pr.w m * ∑ p, normSq (predicted pr u p m) + penalty pr reg * ∑ j, u j ^ 2

/-! ### helper lemmas -/

/-- field produced by a command through a Jacobian -/
noncomputable def resp (G : P → ι → Md → ℂ) (u : ι → ℝ) (p : P) (m : Md) : ℂ := ∑ j, G p j m * (u j : ℂ)

theorem gstarG_bilin (w : Md → ℝ) (G : P → ι → Md → ℂ) (u v : ι → ℝ) :
    ∑ i, u i * (gstarG w G).mulVec v i = ∑ m, w m * ∑ p, (starRingEnd ℂ (resp G u p m) * resp G v p m).re := by
  unfold Matrix.mulVec dotProduct gstarG resp
  have h : ∀ m p, (starRingEnd ℂ (∑ j, G p j m * (u j : ℂ)) * ∑ j, G p j m * (v j : ℂ)).re
      = ∑ i, ∑ j, u i * ((starRingEnd ℂ (G p i m) * G p j m).re * v j) := by
    intro m p
    rw [map_sum, Finset.sum_mul, Complex.re_sum]
    refine Finset.sum_congr rfl fun i _ => ?_
    rw [Finset.mul_sum, Complex.re_sum]
    refine Finset.sum_congr rfl fun j _ => ?_
    rw [map_mul, conj_ofReal]
    have : starRingEnd ℂ (G p i m) * (u i : ℂ) * (G p j m * (v j : ℂ))
        = ((u i * v j : ℝ) : ℂ) * (starRingEnd ℂ (G p i m) * G p j m) := by push_cast; ring
    rw [this, re_ofReal_mul]; ring
  simp only [h]
  simp only [Complex.re_sum, Finset.mul_sum, Finset.sum_mul]
  calc _ = ∑ i, ∑ m, ∑ j, ∑ p, u i * (w m * (starRingEnd ℂ (G p i m) * G p j m).re * v j) := by
        refine Finset.sum_congr rfl fun i _ => ?_
        rw [Finset.sum_comm]
    _ = ∑ m, ∑ i, ∑ j, ∑ p, _ := Finset.sum_comm
    _ = _ := by
        refine Finset.sum_congr rfl fun m _ => ?_
        rw [Finset.sum_congr rfl fun i _ => Finset.sum_comm, Finset.sum_comm]
        refine Finset.sum_congr rfl fun p _ => Finset.sum_congr rfl fun i _ => Finset.sum_congr rfl fun j _ => ?_
        ring

theorem realGstarE_lin (pr : Problem P ι Md St) (G : P → ι → Md → ℂ) (u : ι → ℝ) :
    ∑ i, u i * realGstarE pr G i
      = ∑ m, pr.w m * ∑ p, (starRingEnd ℂ (resp G u p m) * ((pr.W p (pr.star m) : ℂ) * pr.E p m)).re := by
  unfold realGstarE resp
  have h : ∀ m p, (starRingEnd ℂ (∑ j, G p j m * (u j : ℂ)) * ((pr.W p (pr.star m) : ℂ) * pr.E p m)).re
      = ∑ i, u i * (starRingEnd ℂ (G p i m) * ((pr.W p (pr.star m) : ℂ) * pr.E p m)).re := by
    intro m p
    rw [map_sum, Finset.sum_mul, Complex.re_sum]
    refine Finset.sum_congr rfl fun i _ => ?_
    rw [map_mul, conj_ofReal, mul_comm (starRingEnd ℂ (G p i m)) (u i : ℂ), mul_assoc, re_ofReal_mul]
  simp only [h, Complex.re_sum, Finset.mul_sum]
  rw [Finset.sum_comm]
  refine Finset.sum_congr rfl fun m _ => ?_
  rw [Finset.sum_comm]
  refine Finset.sum_congr rfl fun p _ => Finset.sum_congr rfl fun i _ => ?_
  ring

theorem predicted_eq (pr : Problem P ι Md St) (u : ι → ℝ) (p : P) (m : Md) :
    predicted pr u p m = (pr.W p (pr.star m) : ℂ) * pr.E p m + resp (weightJac pr.star pr.W pr.G) u p m := by
  unfold predicted resp weightJac
  rw [mul_add, Finset.mul_sum]
  congr 1
  exact Finset.sum_congr rfl fun j _ => by ring

theorem normSq_add_re (a b : ℂ) : normSq (a + b) = normSq a + normSq b + 2 * (starRingEnd ℂ b * a).re := by
  simp only [normSq_apply, add_re, add_im, mul_re, conj_re, conj_im]; ring

theorem gstarG_diag (pr : Problem P ι Md St) (i : ι) :
    gstarG pr.w (weightJac pr.star pr.W pr.G) i i = strength pr i := by
  unfold gstarG strength weightJac
  refine Finset.sum_congr rfl fun m _ => ?_
  congr 1
  rw [Complex.re_sum]
  refine Finset.sum_congr rfl fun p _ => ?_
  simp only [normSq_apply, mul_re, conj_re, conj_im, ofReal_re, ofReal_im, mul_im]; ring

theorem maxDiag_eq [Nonempty ι] (pr : Problem P ι Md St) :
    maxDiag (gstarG pr.w (weightJac pr.star pr.W pr.G)) = Finset.univ.sup' Finset.univ_nonempty (strength pr) := by
  unfold maxDiag
  congr 1
  funext i
  exact gstarG_diag pr i

open Classical in
/-- the matrix of the EFC equation -/
noncomputable def hess [Nonempty ι] (pr : Problem P ι Md St) (reg : ℝ) : Matrix ι ι ℝ :=
  (10 : ℝ) ^ reg • Matrix.diagonal (fun _ => maxDiag (gstarG pr.w (weightJac pr.star pr.W pr.G))) +
    gstarG pr.w (weightJac pr.star pr.W pr.G)

theorem hess_bilin [Nonempty ι] (pr : Problem P ι Md St) (reg : ℝ) (u v : ι → ℝ) :
    ∑ i, u i * (hess pr reg).mulVec v i = penalty pr reg * ∑ j, u j * v j +
      ∑ m, pr.w m * ∑ p, (starRingEnd ℂ (resp (weightJac pr.star pr.W pr.G) u p m) *
        resp (weightJac pr.star pr.W pr.G) v p m).re := by
  classical
  unfold hess penalty
  rw [Matrix.add_mulVec, ← gstarG_bilin, maxDiag_eq, Finset.mul_sum, ← Finset.sum_add_distrib]
  refine Finset.sum_congr rfl fun i _ => ?_
  rw [Pi.add_apply, Matrix.smul_mulVec, Pi.smul_apply, Matrix.mulVec_diagonal, smul_eq_mul]
  ring

theorem hess_quad [Nonempty ι] (pr : Problem P ι Md St) (reg : ℝ) (u : ι → ℝ) :
    ∑ i, u i * (hess pr reg).mulVec u i = penalty pr reg * ∑ j, u j ^ 2 +
      ∑ m, pr.w m * ∑ p, normSq (resp (weightJac pr.star pr.W pr.G) u p m) := by
  rw [hess_bilin]
  congr 1
  · congr 1; exact Finset.sum_congr rfl fun j _ => by ring
  · refine Finset.sum_congr rfl fun m _ => ?_
    congr 1
    refine Finset.sum_congr rfl fun p _ => ?_
    simp only [normSq_apply, mul_re, conj_re, conj_im]; ring

theorem cost_expand [Nonempty ι] (pr : Problem P ι Md St) (reg : ℝ) (u : ι → ℝ) :
    cost pr reg u = cost pr reg 0 + 2 * ∑ i, u i * realGstarE pr (weightJac pr.star pr.W pr.G) i +
      ∑ i, u i * (hess pr reg).mulVec u i := by
  rw [hess_quad, realGstarE_lin]
  unfold cost
  have h0 : ∀ p m, predicted pr 0 p m = (pr.W p (pr.star m) : ℂ) * pr.E p m := by
    intro p m; unfold predicted; simp
  simp only [predicted_eq pr u, h0, normSq_add_re]
  simp only [Finset.sum_add_distrib, mul_add, ← Finset.mul_sum]
  simp only [Pi.zero_apply, ne_eq, OfNat.ofNat_ne_zero, not_false_eq_true, zero_pow, Finset.sum_const_zero, mul_zero, add_zero]
  have : ∀ (f : Md → ℝ), ∑ m, pr.w m * (2 * f m) = 2 * ∑ m, pr.w m * f m := by
    intro f; rw [Finset.mul_sum]; exact Finset.sum_congr rfl fun m _ => by ring
  rw [this]; ring

theorem penalty_pos [Nonempty ι] (pr : Problem P ι Md St) (reg : ℝ) (h : ∃ i, 0 < strength pr i) : 0 < penalty pr reg := by
  obtain ⟨i, hi⟩ := h
  unfold penalty
  have := Finset.le_sup' (strength pr) (Finset.mem_univ i)
  have h10 : (0:ℝ) < 10 ^ reg := Real.rpow_pos_of_pos (by norm_num) _
  exact mul_pos h10 (by linarith)

omit [Fintype ι] in
theorem pow_pos_of_ne {x : ℝ} {i : ι} (h : x ≠ (0 : ι → ℝ) i) : 0 < x ^ 2 := by
  have : x ≠ 0 := h
  positivity

theorem hess_pos [Nonempty ι] (pr : Problem P ι Md St) (reg : ℝ) (hw : ∀ m, 0 ≤ pr.w m) (h : ∃ i, 0 < strength pr i)
    (u : ι → ℝ) (hu : u ≠ 0) : 0 < ∑ i, u i * (hess pr reg).mulVec u i := by
  rw [hess_quad]
  have h1 : 0 < ∑ j, u j ^ 2 := by
    obtain ⟨j, hj⟩ := Function.ne_iff.1 hu
    exact Finset.sum_pos' (fun i _ => sq_nonneg _) ⟨j, Finset.mem_univ j, pow_pos_of_ne hj⟩
  have h2 : 0 ≤ ∑ m, pr.w m * ∑ p, normSq (resp (weightJac pr.star pr.W pr.G) u p m) :=
    Finset.sum_nonneg fun m _ => mul_nonneg (hw m) (Finset.sum_nonneg fun p _ => normSq_nonneg _)
  have := mul_pos (penalty_pos pr reg h) h1
  linarith

theorem hess_unit [Nonempty ι] [DecidableEq ι] (pr : Problem P ι Md St) (reg : ℝ) (hw : ∀ m, 0 ≤ pr.w m)
    (h : ∃ i, 0 < strength pr i) : IsUnit (hess pr reg).det := by
  rw [isUnit_iff_ne_zero]
  intro hdet
  obtain ⟨v, hv, hz⟩ := Matrix.exists_mulVec_eq_zero_iff.2 hdet
  have := hess_pos pr reg hw h v hv
  rw [hz] at this
  simp at this

theorem efc_eq [Nonempty ι] (pr : Problem P ι Md St) (reg fac : ℝ) (hw : ∀ m, 0 ≤ pr.w m) (h : ∃ i, 0 < strength pr i) :
    ∃ u : ι → ℝ, (hess pr reg).mulVec u = (fun i => -realGstarE pr (weightJac pr.star pr.W pr.G) i) ∧
      efc pr reg fac = .ok (fun i => fac * u i) := by
  classical
  have hu := hess_unit pr reg hw h
  refine ⟨fun i => -((hess pr reg)⁻¹.mulVec (realGstarE pr (weightJac pr.star pr.W pr.G)) i), ?_, ?_⟩
  · have : (fun i => -((hess pr reg)⁻¹.mulVec (realGstarE pr (weightJac pr.star pr.W pr.G)) i))
        = -((hess pr reg)⁻¹.mulVec (realGstarE pr (weightJac pr.star pr.W pr.G))) := rfl
    rw [this, Matrix.mulVec_neg, Matrix.mulVec_mulVec, Matrix.mul_nonsing_inv _ hu, Matrix.one_mulVec]
    rfl
  · unfold efc solve
    have e : ((10:ℝ) ^ reg • Matrix.diagonal (fun _ => maxDiag (gstarG pr.w (weightJac pr.star pr.W pr.G))) +
      gstarG pr.w (weightJac pr.star pr.W pr.G) : Matrix ι ι ℝ) = hess pr reg := by unfold hess; congr!
    simp only [e]
    have hu' : IsUnit (@Matrix.det ι (fun a b => Classical.propDecidable (a = b)) _ ℝ _ (hess pr reg)) := by convert hu
    rw [if_pos hu']
    change Except.ok _ = _
    congr 1
    funext i
    have : (@Inv.inv _ (@Matrix.inv ι ℝ _ (fun a b => Classical.propDecidable (a = b)) _) (hess pr reg)) = (hess pr reg)⁻¹ := by
      congr!
    rw [this]; ring

theorem cost_complete_square [Nonempty ι] (pr : Problem P ι Md St) (reg : ℝ) (u v : ι → ℝ)
    (hn : (hess pr reg).mulVec u = fun i => -realGstarE pr (weightJac pr.star pr.W pr.G) i) :
    cost pr reg v = cost pr reg u + ∑ i, (v i - u i) * (hess pr reg).mulVec (fun j => v j - u j) i := by
  have hb : ∀ i, realGstarE pr (weightJac pr.star pr.W pr.G) i = -(hess pr reg).mulVec u i := by
    intro i; rw [hn]; ring
  have hsym : ∑ i, v i * (hess pr reg).mulVec u i = ∑ i, u i * (hess pr reg).mulVec v i := by
    rw [hess_bilin, hess_bilin]
    congr 1
    · congr 1; exact Finset.sum_congr rfl fun j _ => by ring
    · refine Finset.sum_congr rfl fun m _ => ?_
      congr 1
      refine Finset.sum_congr rfl fun p _ => ?_
      simp only [mul_re, conj_re, conj_im]; ring
  have hsub : (hess pr reg).mulVec (fun j => v j - u j) = fun i => (hess pr reg).mulVec v i - (hess pr reg).mulVec u i := by
    have := Matrix.mulVec_sub (hess pr reg) v u
    exact this
  rw [cost_expand pr reg v, cost_expand pr reg u, hsub]
  simp only [hb]
  simp only [mul_sub, sub_mul, Finset.sum_sub_distrib, mul_neg, Finset.sum_neg_distrib]
  linarith

/-! ### C19 -/

/-- C19. With non-negative mode weights and at least one responsive actuator, the EFC command (gain 1) exists and is the unique real
minimiser of the weighted predicted intensity plus `10^reg·(largest response)·|u|²`, over all real command vectors. -/
theorem C19_unique_minimiser [Nonempty ι] (pr : Problem P ι Md St) (reg : ℝ) (hw : ∀ m, 0 ≤ pr.w m)
    (h : ∃ i, 0 < strength pr i) :
    ∃ u : ι → ℝ, efc pr reg 1 = .ok u ∧ ∀ v : ι → ℝ, v ≠ u → cost pr reg u < cost pr reg v := by
  obtain ⟨u, hn, he⟩ := efc_eq pr reg 1 hw h
  refine ⟨u, by rw [he]; simp, fun v hv => ?_⟩
  rw [cost_complete_square pr reg u v hn]
  have := hess_pos pr reg hw h (fun j => v j - u j) (fun e => hv (by
    funext j; have := congrFun e j; simp only [Pi.zero_apply] at this; linarith))
  linarith

/-- C19. When no actuator has any response (all weights non-negative) the controller fails with `LinAlgError` for every
regularisation: the penalty vanishes too. -/
theorem C19_no_response [Nonempty ι] (pr : Problem P ι Md St) (reg fac : ℝ) (hw : ∀ m, 0 ≤ pr.w m)
    (h : ∀ i, strength pr i = 0) : efc pr reg fac = .error .linAlgError := by
  classical
  have hmax : maxDiag (gstarG pr.w (weightJac pr.star pr.W pr.G)) = 0 := by
    rw [maxDiag_eq]
    have : strength pr = fun _ => 0 := funext h
    rw [this]; simp
  have hz : ∀ i m p, pr.w m * normSq ((pr.W p (pr.star m) : ℂ) * pr.G p i m) = 0 := by
    intro i m p
    have h1 := (Finset.sum_eq_zero_iff_of_nonneg (fun m _ =>
      mul_nonneg (hw m) (Finset.sum_nonneg fun p _ => normSq_nonneg ((pr.W p (pr.star m) : ℂ) * pr.G p i m)))).1 (h i) m (Finset.mem_univ m)
    rw [Finset.mul_sum] at h1
    exact (Finset.sum_eq_zero_iff_of_nonneg (fun p _ => mul_nonneg (hw m) (normSq_nonneg _))).1 h1 p (Finset.mem_univ p)
  have hA : gstarG pr.w (weightJac pr.star pr.W pr.G) = 0 := by
    funext i j
    unfold gstarG
    apply Finset.sum_eq_zero
    intro m _
    by_cases e : pr.w m = 0
    · rw [e]; ring
    · have : (∑ p, starRingEnd ℂ (weightJac pr.star pr.W pr.G p i m) * weightJac pr.star pr.W pr.G p j m) = 0 := by
        apply Finset.sum_eq_zero
        intro p _
        have h2 := hz j m p
        rcases mul_eq_zero.1 h2 with h3 | h3
        · exact absurd h3 e
        · have h4 : (pr.W p (pr.star m) : ℂ) * pr.G p j m = 0 := normSq_eq_zero.1 h3
          have h5 : weightJac pr.star pr.W pr.G p j m = 0 := by unfold weightJac; rw [mul_comm]; exact h4
          rw [h5, mul_zero]
      rw [this]; simp
  rw [hA] at hmax
  unfold efc solve
  simp only [hA, hmax]
  rw [if_neg]
  · rfl
  · have e : ((10:ℝ) ^ reg • Matrix.diagonal (fun _ : ι => (0:ℝ)) + 0 : Matrix ι ι ℝ) = 0 := by
      rw [add_zero, Matrix.diagonal_zero, smul_zero]
    rw [e, Matrix.det_zero]
    simp

/-! ### C20 -/

/-- C20. With gain `fac` the cost after the command is the old cost minus `fac(2-fac)` times the largest achievable decrease. -/
theorem C20_gain_formula [Nonempty ι] (pr : Problem P ι Md St) (reg fac : ℝ) (hw : ∀ m, 0 ≤ pr.w m)
    (h : ∃ i, 0 < strength pr i) :
    ∃ u v : ι → ℝ, efc pr reg 1 = .ok u ∧ efc pr reg fac = .ok v ∧
      cost pr reg v = cost pr reg 0 - fac * (2 - fac) * (cost pr reg 0 - cost pr reg u) := by
  obtain ⟨u, hn, -⟩ := efc_eq pr reg 1 hw h
  have e : ∀ f, efc pr reg f = .ok (fun i => f * u i) := by
    intro f
    obtain ⟨u', hn', he'⟩ := efc_eq pr reg f hw h
    classical
    have hu := hess_unit pr reg hw h
    have : u' = u := by
      have h1 : (hess pr reg)⁻¹.mulVec ((hess pr reg).mulVec u') = (hess pr reg)⁻¹.mulVec ((hess pr reg).mulVec u) := by rw [hn, hn']
      rwa [Matrix.mulVec_mulVec, Matrix.mulVec_mulVec, Matrix.nonsing_inv_mul _ hu, Matrix.one_mulVec, Matrix.one_mulVec] at h1
    rw [he', this]
  refine ⟨u, _, by rw [e 1]; simp, e fac, ?_⟩
  rw [cost_complete_square pr reg u (fun i => fac * u i) hn, cost_complete_square pr reg u 0 hn]
  have h1 : (fun j => fac * u j - u j) = (fac - 1) • u := by funext j; simp only [Pi.smul_apply, smul_eq_mul]; ring
  have h2 : (fun j => (0 : ι → ℝ) j - u j) = (-1 : ℝ) • u := by
    funext j; simp only [Pi.smul_apply, smul_eq_mul, Pi.zero_apply]; ring
  rw [h1, h2, Matrix.mulVec_smul, Matrix.mulVec_smul]
  simp only [Pi.smul_apply, smul_eq_mul, Pi.zero_apply]
  have h3 : ∑ i, (fac * u i - u i) * ((fac - 1) * (hess pr reg).mulVec u i)
      = (fac - 1) ^ 2 * ∑ i, u i * (hess pr reg).mulVec u i := by
    rw [Finset.mul_sum]; exact Finset.sum_congr rfl fun i _ => by ring
  have h4 : ∑ i, (0 - u i) * (-1 * (hess pr reg).mulVec u i) = ∑ i, u i * (hess pr reg).mulVec u i := by
    exact Finset.sum_congr rfl fun i _ => by ring
  rw [h3, h4]; ring

/-- C20. For gains between 0 and 2 the cost never increases, and no gain does better than 1. -/
theorem C20_never_increases [Nonempty ι] (pr : Problem P ι Md St) (reg fac : ℝ) (hw : ∀ m, 0 ≤ pr.w m)
    (h : ∃ i, 0 < strength pr i) :
    ∃ u v : ι → ℝ, efc pr reg 1 = .ok u ∧ efc pr reg fac = .ok v ∧ cost pr reg u ≤ cost pr reg v ∧
      (0 ≤ fac → fac ≤ 2 → cost pr reg v ≤ cost pr reg 0) := by
  obtain ⟨u, hu, hmin⟩ := C19_unique_minimiser pr reg hw h
  obtain ⟨u', v, hu', hv, hf⟩ := C20_gain_formula pr reg fac hw h
  have : u' = u := by rw [hu] at hu'; exact (Except.ok.inj hu').symm
  subst this
  have hle : ∀ x, cost pr reg u' ≤ cost pr reg x := by
    intro x
    by_cases e : x = u'
    · rw [e]
    · exact (hmin x e).le
  refine ⟨u', v, hu, hv, hle v, fun h0 h2 => ?_⟩
  rw [hf]
  have := hle 0
  have : 0 ≤ fac * (2 - fac) * (cost pr reg 0 - cost pr reg u') := by
    apply mul_nonneg (mul_nonneg h0 (by linarith)); linarith
  linarith

/-- a concrete problem with a responsive actuator: 1 pixel, 2 actuators, 1 mode, complex entries -/
example : ∃ pr : Problem (Fin 1) (Fin 2) (Fin 1) (Fin 1), (∀ m, 0 ≤ pr.w m) ∧ ∃ i, 0 < strength pr i := by
  refine ⟨⟨fun _ j _ => if j = 0 then I else 0, fun _ _ => 1, fun _ => 1, fun _ => 0, fun _ _ => 1⟩, fun _ => by norm_num, 0, ?_⟩
  simp [strength]

end Verif.Ctrl
