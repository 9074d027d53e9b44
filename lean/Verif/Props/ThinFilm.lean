import Verif.Model.ThinFilm
import Mathlib.Analysis.SpecialFunctions.Pow.Real
import Mathlib.Analysis.Calculus.Deriv.MeanValue
import Mathlib.Analysis.Calculus.Deriv.Star
import Mathlib.Analysis.SpecialFunctions.ExpDeriv
import Mathlib.Analysis.SpecialFunctions.Trigonometric.Bounds
import Mathlib.Analysis.Complex.RealDeriv
import Mathlib.Tactic.FieldSimp
import Mathlib.Tactic.IntervalCases
import Mathlib.Tactic.LinearCombination

/-! # C55: the thin-film solver obeys energy conservation

`R + T = 1` for lossless stacks and `R + T ≤ 1` for absorbing ones, for both polarisations, every angle of incidence below grazing and every number of layers. -/

namespace Verif.ThinFilm
open Verif Complex ComplexConjugate

/-- Power flow of a field with forward and backward amplitudes `v0`, `v1` and admittance `c` (up to sign). -/
noncomputable def flow (c v0 v1 : ℂ) : ℝ := (conj (v0 + v1) * (c * (v0 - v1))).re

/-- The field after going back by a distance `x`. -/
noncomputable def back (k c v0 v1 : ℂ) (x : ℝ) : ℝ := flow c (exp (-I * k * x) * v0) (exp (I * k * x) * v1)

theorem back_hasDeriv (k c v0 v1 : ℂ) (x : ℝ) :
    HasDerivAt (back k c v0 v1) (-(conj k * c).im * ‖exp (-I * k * x) * v0 - exp (I * k * x) * v1‖ ^ 2 + (c * k).im * ‖exp (-I * k * x) * v0 + exp (I * k * x) * v1‖ ^ 2) x := by
  have hx : HasDerivAt (fun y : ℝ => (y : ℂ)) 1 x := Complex.ofRealCLM.hasDerivAt
  have h0 : HasDerivAt (fun y : ℝ => exp (-I * k * y) * v0) (exp (-I * k * x) * (-I * k * 1) * v0) x := ((hx.const_mul _).cexp).mul_const _
  have h1 : HasDerivAt (fun y : ℝ => exp (I * k * y) * v1) (exp (I * k * x) * (I * k * 1) * v1) x := ((hx.const_mul _).cexp).mul_const _
  have hs := (h0.add h1).star
  have hd := (h0.sub h1).const_mul c
  have hm := hs.mul hd
  have hr := Complex.reCLM.hasFDerivAt.comp_hasDerivAt x hm
  have : back k c v0 v1 = fun y => Complex.reCLM ((star fun y : ℝ => (exp (-I * k * y) * v0 + exp (I * k * y) * v1)) y * (c * (exp (-I * k * y) * v0 - exp (I * k * y) * v1))) := by
    funext y; rfl
  rw [this]
  refine hr.congr_deriv ?_
  clear hr hm hd hs h0 h1 hx this
  simp only [Pi.add_apply, Pi.sub_apply, Complex.reCLM_apply, Complex.star_def]
  generalize exp (-I * k * x) = p
  generalize exp (I * k * x) = q
  rw [← Complex.normSq_eq_norm_sq, ← Complex.normSq_eq_norm_sq]
  simp only [Complex.normSq_apply, map_add, map_mul, map_neg, Complex.conj_I, map_one, Complex.mul_re, Complex.mul_im, Complex.add_re, Complex.add_im, Complex.sub_re, Complex.sub_im, Complex.neg_re, Complex.neg_im, Complex.conj_re, Complex.conj_im, Complex.I_re, Complex.I_im, Complex.one_re, Complex.one_im]
  ring

theorem back_zero (k c v0 v1 : ℂ) : back k c v0 v1 0 = flow c v0 v1 := by simp [back]

theorem back_le (k c v0 v1 : ℂ) (h1 : 0 ≤ (conj k * c).im) (h2 : (c * k).im ≤ 0) (x : ℝ) (hx : 0 ≤ x) : back k c v0 v1 x ≤ flow c v0 v1 := by
  rw [← back_zero k]
  refine antitone_of_hasDerivAt_nonpos (back_hasDeriv k c v0 v1) (fun y => ?_) hx
  have := mul_nonneg h1 (sq_nonneg ‖exp (-I * k * y) * v0 - exp (I * k * y) * v1‖)
  have := mul_nonneg (neg_nonneg.2 h2) (sq_nonneg ‖exp (-I * k * y) * v0 + exp (I * k * y) * v1‖)
  show _ ≤ (0 : ℝ)
  linarith

theorem back_eq (k c v0 v1 : ℂ) (h1 : (conj k * c).im = 0) (h2 : (c * k).im = 0) (x : ℝ) : back k c v0 v1 x = flow c v0 v1 := by
  rw [← back_zero k]
  refine is_const_of_deriv_eq_zero (fun y => (back_hasDeriv k c v0 v1 y).differentiableAt) (fun y => ?_) x 0
  rw [(back_hasDeriv k c v0 v1 y).deriv, h1, h2]; ring

/-- A medium of the stack: index `a - i b` with `a > 0`, `b ≥ 0`, that absorbs or in which the wave propagates; absorbing layers have nonnegative thickness. -/
def Stack.Passive (s : Stack) : Prop :=
  0 < s.lam ∧ 0 ≤ s.theta ∧ s.theta < Real.pi / 2 ∧ (s.n 0).im = 0 ∧
  ∀ i < s.N, 0 < (s.n i).re ∧ (s.n i).im ≤ 0 ∧ ((s.n i).im < 0 ∨ (s.n 0).re * Real.sin s.theta < (s.n i).re) ∧ ((s.n i).im < 0 → 0 ≤ s.d i)

/-- All refractive indices are real. -/
def Stack.Lossless (s : Stack) : Prop := ∀ i < s.N, (s.n i).im = 0

variable {s : Stack}

theorem kx_eq (h : (s.n 0).im = 0) : kx s = ((2 * Real.pi * (s.n 0).re * Real.sin s.theta / s.lam : ℝ) : ℂ) := by
  have : s.n 0 = ((s.n 0).re : ℂ) := by apply Complex.ext <;> simp [h]
  unfold kx; rw [this]; push_cast; simp

theorem kz_sq (i : ℕ) : kz s i ^ 2 = (2 * Real.pi * s.n i / s.lam) ^ 2 - kx s * kx s := by
  unfold kz
  rw [neg_sq]
  exact Complex.cpow_ofNat_inv_pow _ 2

theorem kz_re_neg (hp : s.Passive) {i : ℕ} (hi : i < s.N) : (kz s i).re < 0 := by
  obtain ⟨hl, ht0, ht1, h0, h⟩ := hp
  obtain ⟨ha, hb, hc, -⟩ := h i hi
  have hsin : 0 ≤ Real.sin s.theta := Real.sin_nonneg_of_nonneg_of_le_pi ht0 (by linarith [Real.pi_pos])
  have hN : 0 < s.N := by omega
  have ha0 := (h 0 hN).1
  unfold kz
  rw [Complex.neg_re, Complex.cpow_inv_two_re, neg_lt_zero]
  apply Real.sqrt_pos.2
  rw [kx_eq h0]
  set x : ℂ := (2 * Real.pi * s.n i / s.lam) ^ 2 - ((2 * Real.pi * (s.n 0).re * Real.sin s.theta / s.lam : ℝ) : ℂ) * ((2 * Real.pi * (s.n 0).re * Real.sin s.theta / s.lam : ℝ) : ℂ) with hx
  have e : (2 * Real.pi * s.n i / s.lam : ℂ) = ((2 * Real.pi / s.lam : ℝ) : ℂ) * s.n i := by push_cast; ring
  have hC : 0 < 2 * Real.pi / s.lam := by positivity
  have him : x.im = (2 * Real.pi / s.lam) ^ 2 * (2 * ((s.n i).re * (s.n i).im)) := by
    rw [hx, e]; simp only [pow_two, Complex.sub_im, Complex.mul_im, Complex.mul_re, Complex.ofReal_re, Complex.ofReal_im]; ring
  have hre : x.re = (2 * Real.pi / s.lam) ^ 2 * ((s.n i).re ^ 2 - (s.n i).im ^ 2 - ((s.n 0).re * Real.sin s.theta) ^ 2) := by
    rw [hx, e]; simp only [pow_two, Complex.sub_re, Complex.mul_im, Complex.mul_re, Complex.ofReal_re, Complex.ofReal_im]; ring
  have key : 0 < ‖x‖ + x.re := by
    by_cases hi0 : (s.n i).im = 0
    · have hc' : (s.n 0).re * Real.sin s.theta < (s.n i).re := by rcases hc with hc | hc; (· linarith); exact hc
      have : 0 < x.re := by
        rw [hre, hi0]
        apply mul_pos (by positivity)
        have := mul_nonneg ha0.le hsin
        nlinarith
      have := norm_nonneg x
      linarith
    · have hne : x.im ≠ 0 := by
        rw [him]
        have : (s.n i).re ≠ 0 := ha.ne'
        positivity
      have : |x.re| < ‖x‖ := (Complex.abs_re_lt_norm).2 hne
      have := neg_abs_le x.re
      linarith
  linarith

theorem kzz_im {i : ℕ} (hp : s.Passive) (hi : i < s.N) (tm : Bool) : 0 ≤ (conj (kz s i) * kzz s tm i).im ∧ (kzz s tm i * kz s i).im ≤ 0 ∧ (kzz s tm i).re < 0 ∧
    ((s.n i).im = 0 → (conj (kz s i) * kzz s tm i).im = 0 ∧ (kzz s tm i * kz s i).im = 0) := by
  have hre := kz_re_neg hp hi
  have hsq := kz_sq (s := s) i
  obtain ⟨hl, ht0, ht1, h0, h⟩ := hp
  obtain ⟨ha, hb, hc, -⟩ := h i hi
  rw [kx_eq h0] at hsq
  have e : (2 * Real.pi * s.n i / s.lam : ℂ) = ((2 * Real.pi / s.lam : ℝ) : ℂ) * s.n i := by push_cast; ring
  rw [e] at hsq
  have hC : 0 < 2 * Real.pi / s.lam := by have := Real.pi_pos; positivity
  generalize (2 * Real.pi / s.lam : ℝ) = C at hsq hC
  generalize 2 * Real.pi * (s.n 0).re * Real.sin s.theta / s.lam = S at hsq
  have hw : (s.n i * s.n i).im = 2 * ((s.n i).re * (s.n i).im) := by rw [Complex.mul_im]; ring
  have hwle : (s.n i * s.n i).im ≤ 0 := by rw [hw]; nlinarith
  have hw0 : (s.n i).im = 0 → (s.n i * s.n i).im = 0 := by intro h; rw [hw, h]; ring
  have hne : s.n i ≠ 0 := by intro h; rw [h] at ha; simp at ha
  have hmpos : 0 < Complex.normSq (s.n i * s.n i) := Complex.normSq_pos.2 (mul_ne_zero hne hne)
  have hsq' : kz s i ^ 2 = (C : ℂ) ^ 2 * (s.n i * s.n i) - (S : ℂ) * (S : ℂ) := by rw [hsq]; ring
  have hk : kzz s true i = kz s i / (s.n i * s.n i) := rfl
  clear hsq hw
  generalize s.n i * s.n i = w at *
  cases tm
  · simp only [kzz, Bool.false_eq_true, if_false]
    have a1 : (conj (kz s i) * kz s i).im = 0 := by simp only [Complex.mul_im, Complex.conj_re, Complex.conj_im]; ring
    have a2 : (kz s i * kz s i).im = C ^ 2 * w.im := by
      rw [← pow_two, hsq']; simp only [pow_two, Complex.sub_im, Complex.mul_im, Complex.mul_re, Complex.ofReal_re, Complex.ofReal_im]; ring
    refine ⟨a1.ge, ?_, hre, fun h => ⟨a1, ?_⟩⟩
    · rw [a2]; exact mul_nonpos_of_nonneg_of_nonpos (by positivity) hwle
    · rw [a2, hw0 h, mul_zero]
  · rw [hk]
    generalize kz s i = k at *
    have e1 : conj k * (k / w) = (((Complex.normSq w)⁻¹ * Complex.normSq k : ℝ) : ℂ) * conj w := by
      rw [div_eq_mul_inv, Complex.inv_def, ← mul_assoc, mul_comm (conj k) k, Complex.mul_conj]; push_cast; ring
    have e2 : k / w * k = (((Complex.normSq w)⁻¹ : ℝ) : ℂ) * (((C ^ 2 * Complex.normSq w : ℝ) : ℂ) - ((S ^ 2 : ℝ) : ℂ) * conj w) := by
      have : k / w * k = k ^ 2 * conj w * (((Complex.normSq w)⁻¹ : ℝ) : ℂ) := by rw [div_eq_mul_inv, Complex.inv_def]; ring
      rw [this, hsq', sub_mul, mul_assoc ((C : ℂ) ^ 2), Complex.mul_conj]; push_cast; ring
    have e3 : ((C ^ 2 : ℝ) : ℂ) * (k / w) = (((Complex.normSq w)⁻¹ : ℝ) : ℂ) * (((Complex.normSq k : ℝ) : ℂ) * conj k + ((S ^ 2 : ℝ) : ℂ) * k) := by
      have hcw : ((C ^ 2 : ℝ) : ℂ) * conj w = conj k ^ 2 + (S : ℂ) * S := by
        have := congrArg conj hsq'
        simp only [map_pow, map_sub, map_mul, Complex.conj_ofReal] at this
        rw [this]; push_cast; ring
      have : ((C ^ 2 : ℝ) : ℂ) * (k / w) = k * (((C ^ 2 : ℝ) : ℂ) * conj w) * (((Complex.normSq w)⁻¹ : ℝ) : ℂ) := by rw [div_eq_mul_inv, Complex.inv_def]; ring
      rw [this, hcw, ← Complex.mul_conj k]; push_cast; ring
    have b1 : (conj k * (k / w)).im = -((Complex.normSq w)⁻¹ * Complex.normSq k * w.im) := by
      rw [e1, Complex.im_ofReal_mul, Complex.conj_im]; ring
    have b2 : (k / w * k).im = (Complex.normSq w)⁻¹ * S ^ 2 * w.im := by
      rw [e2, Complex.im_ofReal_mul, Complex.sub_im, Complex.ofReal_im, Complex.im_ofReal_mul, Complex.conj_im]; ring
    have b3 : C ^ 2 * (k / w).re = (Complex.normSq w)⁻¹ * ((Complex.normSq k + S ^ 2) * k.re) := by
      have := congrArg Complex.re e3
      rw [Complex.re_ofReal_mul, Complex.re_ofReal_mul, Complex.add_re, Complex.re_ofReal_mul, Complex.re_ofReal_mul, Complex.conj_re] at this
      rw [this]; ring
    have hm := inv_pos.2 hmpos
    have hk0 : 0 < Complex.normSq k := Complex.normSq_pos.2 (by intro h; rw [h] at hre; simp at hre)
    refine ⟨?_, ?_, ?_, fun h => ⟨?_, ?_⟩⟩
    · rw [b1]; have := mul_nonneg (mul_nonneg hm.le hk0.le) (neg_nonneg.2 hwle); linarith
    · rw [b2]; have := mul_nonneg (mul_nonneg hm.le (sq_nonneg S)) (neg_nonneg.2 hwle); linarith
    · have : C ^ 2 * (k / w).re < 0 := by
        rw [b3]
        have := mul_pos hm (mul_pos (add_pos_of_pos_of_nonneg hk0 (sq_nonneg S)) (neg_pos.2 hre))
        linarith
      by_contra hcon
      push Not at hcon
      have := mul_nonneg (sq_nonneg C) hcon
      linarith
    · rw [b1, hw0 h]; ring
    · rw [b2, hw0 h]; ring

theorem layer_flow (c c' : ℂ) (hc : c ≠ 0) (v0 v1 : ℂ) (hs : c + c' ≠ 0) :
    flow c ((1 / 2) * (c + c') / c * (v0 + (c - c') / (c + c') * v1)) ((1 / 2) * (c + c') / c * ((c - c') / (c + c') * v0 + v1)) = flow c' v0 v1 := by
  unfold flow
  have e1 : (1 / 2) * (c + c') / c * (v0 + (c - c') / (c + c') * v1) + (1 / 2) * (c + c') / c * ((c - c') / (c + c') * v0 + v1) = v0 + v1 := by
    field_simp; ring
  have e2 : c * ((1 / 2) * (c + c') / c * (v0 + (c - c') / (c + c') * v1) - (1 / 2) * (c + c') / c * ((c - c') / (c + c') * v0 + v1)) = c' * (v0 - v1) := by
    field_simp; ring
  rw [e1, e2]

/-- The flow in medium 0 of the field continued back through the first `k` layers. -/
noncomputable def partialA (s : Stack) (tm : Bool) (k : ℕ) : Matrix (Fin 2) (Fin 2) ℂ := (List.range k).foldl (fun A i => A * layer s tm i) 1

theorem partialA_succ (tm : Bool) (k : ℕ) : partialA s tm (k + 1) = partialA s tm k * layer s tm k := by
  simp [partialA, List.range_succ]

theorem layer_mulVec (tm : Bool) (k : ℕ) (v : Fin 2 → ℂ) (j : Fin 2) : (layer s tm k).mulVec v j =
    let tin := (1 / 2) * (kzz s tm k + kzz s tm (k + 1)) / kzz s tm k
    let ri := (kzz s tm k - kzz s tm (k + 1)) / (kzz s tm k + kzz s tm (k + 1))
    if j = 0 then exp (-I * kz s k * s.d k) * (tin * (v 0 + ri * v 1)) else exp (I * kz s k * s.d k) * (tin * (ri * v 0 + v 1)) := by
  fin_cases j <;> simp [layer, Matrix.mulVec, dotProduct, Fin.sum_univ_two] <;> ring

theorem flow_step (hp : s.Passive) (tm : Bool) {k : ℕ} (hk : k + 1 < s.N) (v : Fin 2 → ℂ) :
    flow (kzz s tm k) ((layer s tm k).mulVec v 0) ((layer s tm k).mulVec v 1) ≤ flow (kzz s tm (k + 1)) (v 0) (v 1) ∧
    ((s.n k).im = 0 → flow (kzz s tm k) ((layer s tm k).mulVec v 0) ((layer s tm k).mulVec v 1) = flow (kzz s tm (k + 1)) (v 0) (v 1)) := by
  obtain ⟨h1, h2, h3, h4⟩ := kzz_im hp (show k < s.N by omega) tm
  obtain ⟨-, -, h3', -⟩ := kzz_im hp hk tm
  have hc : kzz s tm k ≠ 0 := by intro h; rw [h] at h3; simp at h3
  have hs : kzz s tm k + kzz s tm (k + 1) ≠ 0 := by
    intro h; have := congrArg Complex.re h; rw [Complex.add_re, Complex.zero_re] at this; linarith
  rw [layer_mulVec, layer_mulVec]
  simp only [if_true, Fin.isValue, one_ne_zero, if_false]
  have key := layer_flow (kzz s tm k) (kzz s tm (k + 1)) hc (v 0) (v 1) hs
  have heq : (s.n k).im = 0 → ∀ u0 u1, flow (kzz s tm k) (exp (-I * kz s k * s.d k) * u0) (exp (I * kz s k * s.d k) * u1) = flow (kzz s tm k) u0 u1 :=
    fun h0 u0 u1 => back_eq _ _ u0 u1 (h4 h0).1 (h4 h0).2 (s.d k)
  refine ⟨?_, fun h0 => by rw [← key, heq h0]⟩
  by_cases h0 : (s.n k).im = 0
  · rw [← key, heq h0]
  · have hk' := hp.2.2.2.2 k (by omega)
    have hd : 0 ≤ s.d k := hk'.2.2.2 (lt_of_le_of_ne hk'.2.1 h0)
    rw [← key]
    exact back_le _ _ _ _ h1 h2 _ hd

theorem flow_total (hp : s.Passive) (tm : Bool) : ∀ k, k < s.N → ∀ v : Fin 2 → ℂ,
    flow (kzz s tm 0) ((partialA s tm k).mulVec v 0) ((partialA s tm k).mulVec v 1) ≤ flow (kzz s tm k) (v 0) (v 1) ∧
    (s.Lossless → flow (kzz s tm 0) ((partialA s tm k).mulVec v 0) ((partialA s tm k).mulVec v 1) = flow (kzz s tm k) (v 0) (v 1)) := by
  intro k
  induction k with
  | zero => intro hk v; simp [partialA]
  | succ k ih =>
    intro hk v
    rw [partialA_succ, ← Matrix.mulVec_mulVec]
    obtain ⟨i1, i2⟩ := ih (by omega) ((layer s tm k).mulVec v)
    obtain ⟨j1, j2⟩ := flow_step hp tm hk v
    exact ⟨i1.trans j1, fun hl => (i2 hl).trans (j2 (hl k (by omega)))⟩

theorem kzz0_im (hp : s.Passive) (hN : 2 ≤ s.N) (tm : Bool) : (kzz s tm 0).im = 0 := by
  obtain ⟨h1, h2, h3, h4⟩ := kzz_im hp (show 0 < s.N by omega) tm
  have hre := kz_re_neg hp (show 0 < s.N by omega)
  obtain ⟨h5, h6⟩ := h4 hp.2.2.2.1
  rw [Complex.mul_im, Complex.conj_re, Complex.conj_im] at h5
  rw [Complex.mul_im] at h6
  have : 2 * ((kz s 0).re * (kzz s tm 0).im) = 0 := by linarith
  have h7 := mul_eq_zero.1 this
  rcases h7 with h | h
  · norm_num at h
  · exact (mul_eq_zero.1 h).resolve_left hre.ne

theorem Pn_eq (hp : s.Passive) (hN : 2 ≤ s.N) (tm : Bool) :
    (if tm then ((kz s (s.N - 1) / s.n (s.N - 1) ^ 2) / (kz s 0 / s.n 0 ^ 2)).re else (kz s (s.N - 1) / kz s 0).re) = (kzz s tm (s.N - 1)).re / (kzz s tm 0).re := by
  have : (if tm then ((kz s (s.N - 1) / s.n (s.N - 1) ^ 2) / (kz s 0 / s.n 0 ^ 2)).re else (kz s (s.N - 1) / kz s 0).re) = (kzz s tm (s.N - 1) / kzz s tm 0).re := by
    cases tm <;> simp [kzz, pow_two]
  rw [this]
  have e : kzz s tm 0 = ((kzz s tm 0).re : ℂ) := by apply Complex.ext <;> simp [kzz0_im hp hN]
  conv_lhs => rw [e]
  rw [Complex.div_ofReal_re]

theorem energy (hp : s.Passive) (hN : 2 ≤ s.N) (tm : Bool) :
    0 < (kzz s tm (s.N - 1)).re / (kzz s tm 0).re ∧
    (kzz s tm (s.N - 1)).re / (kzz s tm 0).re ≤ ‖transfer s tm 0 0‖ ^ 2 - ‖transfer s tm 1 0‖ ^ 2 ∧
    (s.Lossless → (kzz s tm (s.N - 1)).re / (kzz s tm 0).re = ‖transfer s tm 0 0‖ ^ 2 - ‖transfer s tm 1 0‖ ^ 2) := by
  obtain ⟨-, -, r0, -⟩ := kzz_im hp (show 0 < s.N by omega) tm
  obtain ⟨-, -, r1, -⟩ := kzz_im hp (show s.N - 1 < s.N by omega) tm
  obtain ⟨f1, f2⟩ := flow_total hp tm (s.N - 1) (by omega) ![1, 0]
  have im0 := kzz0_im hp hN tm
  have eA : partialA s tm (s.N - 1) = transfer s tm := rfl
  rw [eA] at f1 f2
  have e0 : (transfer s tm).mulVec ![1, 0] 0 = transfer s tm 0 0 := by simp [Matrix.mulVec, dotProduct, Fin.sum_univ_two]
  have e1 : (transfer s tm).mulVec ![1, 0] 1 = transfer s tm 1 0 := by simp [Matrix.mulVec, dotProduct, Fin.sum_univ_two]
  rw [e0, e1] at f1 f2
  have g0 : flow (kzz s tm 0) (transfer s tm 0 0) (transfer s tm 1 0) = (kzz s tm 0).re * (‖transfer s tm 0 0‖ ^ 2 - ‖transfer s tm 1 0‖ ^ 2) := by
    unfold flow
    rw [← Complex.normSq_eq_norm_sq, ← Complex.normSq_eq_norm_sq]
    simp only [Complex.normSq_apply, map_add, Complex.mul_re, Complex.mul_im, Complex.add_re, Complex.add_im, Complex.sub_re, Complex.sub_im, Complex.conj_re, Complex.conj_im, im0]
    ring
  have g1 : flow (kzz s tm (s.N - 1)) ((![1, 0] : Fin 2 → ℂ) 0) ((![1, 0] : Fin 2 → ℂ) 1) = (kzz s tm (s.N - 1)).re := by
    simp [flow]
  rw [g0, g1] at f1 f2
  refine ⟨div_pos_of_neg_of_neg r1 r0, ?_, fun hl => ?_⟩
  · rw [div_le_iff_of_neg r0]; linarith
  · rw [div_eq_iff r0.ne]; linarith [f2 hl]

/-- **C55** For every passive stack (any number of layers, any angle below grazing, either polarisation): powers are nonnegative and reflected plus transmitted power is at most 1. -/
theorem C55_passive (hp : s.Passive) (hN : 2 ≤ s.N) (tm : Bool) :
    0 ≤ (solver s tm).R ∧ 0 < (solver s tm).T ∧ (solver s tm).R + (solver s tm).T ≤ 1 := by
  obtain ⟨h0, h1, -⟩ := energy hp hN tm
  rw [← Pn_eq hp hN tm] at h0 h1
  have hA : 0 < ‖transfer s tm 0 0‖ ^ 2 := by have := sq_nonneg ‖transfer s tm 1 0‖; linarith
  simp only [solver, norm_div, norm_one, div_pow, one_pow]
  refine ⟨by positivity, mul_pos h0 (by positivity), ?_⟩
  rw [mul_one_div, ← add_div, div_le_one hA]
  linarith

/-- **C55** For real refractive indices reflected plus transmitted power is exactly 1. -/
theorem C55_lossless (hp : s.Passive) (hl : s.Lossless) (hN : 2 ≤ s.N) (tm : Bool) : (solver s tm).R + (solver s tm).T = 1 := by
  obtain ⟨h0, h1, h2⟩ := energy hp hN tm
  rw [← Pn_eq hp hN tm] at h0 h1 h2
  have hA : 0 < ‖transfer s tm 0 0‖ ^ 2 := by have := sq_nonneg ‖transfer s tm 1 0‖; linarith
  simp only [solver, norm_div, norm_one, div_pow, one_pow]
  rw [mul_one_div, ← add_div, div_eq_one_iff_eq hA.ne']
  linarith [h2 hl]

/-- The amplitude coefficients returned carry the same power: `R = |rr|²`, `T = |tt|²`. -/
theorem C55_amplitudes (hp : s.Passive) (hN : 2 ≤ s.N) (tm : Bool) : ‖(solver s tm).rr‖ ^ 2 = (solver s tm).R ∧ ‖(solver s tm).tt‖ ^ 2 = (solver s tm).T := by
  obtain ⟨h0, -, -⟩ := energy hp hN tm
  rw [← Pn_eq hp hN tm] at h0
  refine ⟨rfl, ?_⟩
  simp only [solver]
  rw [norm_mul, mul_pow, Complex.norm_real, Real.norm_eq_abs, sq_abs, Real.sq_sqrt h0.le]

/-- Physical material constants and thicknesses of a table entry. The vacuum gap `d0 - ...` may have either sign. -/
def Entry.Physical (e : Entry) : Prop :=
  0 < e.lam ∧ 0 ≤ e.theta ∧ e.theta < Real.pi / 2 ∧ Real.sin e.theta < e.nSub ∧
  (0 < e.nDiel ∧ 0 ≤ e.kDiel ∧ (0 < e.kDiel ∨ Real.sin e.theta < e.nDiel)) ∧
  (0 < e.nMetal ∧ 0 ≤ e.kMetal ∧ (0 < e.kMetal ∨ Real.sin e.theta < e.nMetal)) ∧
  (0 < e.nTi ∧ 0 ≤ e.kTi ∧ (0 < e.kTi ∨ Real.sin e.theta < e.nTi)) ∧
  0 ≤ e.tDiel ∧ 0 ≤ e.tMetal ∧ 0 ≤ e.tTi

theorem Entry.passive {e : Entry} (h : e.Physical) : e.stack.Passive := by
  obtain ⟨h1, h2, h3, h4, ⟨a1, a2, a3⟩, ⟨b1, b2, b3⟩, ⟨c1, c2, c3⟩, d1, d2, d3⟩ := h
  have hs0 : 0 ≤ Real.sin e.theta := Real.sin_nonneg_of_nonneg_of_le_pi h2 (by linarith [Real.pi_pos])
  have hs : Real.sin e.theta < 1 := by
    have := Real.sin_lt_sin_of_lt_of_le_pi_div_two (by linarith [Real.pi_pos]) le_rfl h3
    rwa [Real.sin_pi_div_two] at this
  refine ⟨h1, h2, h3, by simp [Entry.stack], fun i hi => ?_⟩
  have hi : i < 6 := hi
  interval_cases i
  · simp [Entry.stack]; exact hs
  · simp [Entry.stack]; exact hs
  · simp [Entry.stack]; exact ⟨a1, a2, a3, fun _ => d1⟩
  · simp [Entry.stack]; exact ⟨b1, b2, b3, fun _ => d2⟩
  · simp [Entry.stack]; exact ⟨c1, c2, c3, fun _ => d3⟩
  · simp [Entry.stack]; exact ⟨by linarith, h4⟩

theorem half_sq_le (a b : ℂ) : ‖(a + b) / 2‖ ^ 2 ≤ (‖a‖ ^ 2 + ‖b‖ ^ 2) / 2 := by
  rw [norm_div, div_pow]
  have h := norm_add_le a b
  have h2 : ‖a + b‖ ^ 2 ≤ (‖a‖ + ‖b‖) ^ 2 := pow_le_pow_left₀ (norm_nonneg _) h 2
  have : ‖(2 : ℂ)‖ = 2 := by norm_num
  rw [this]
  nlinarith [sq_nonneg (‖a‖ - ‖b‖)]

/-- **C55** Every entry of the complex transmission and reflection tables of a physical mask carries at most the incident power, for each polarisation choice and phase convention. -/
theorem C55_table {e : Entry} (h : e.Physical) (pol : ℤ) (opd : Bool) {t r : ℂ} (hc : e.coefs pol opd = .ok (t, r)) : ‖t‖ ^ 2 + ‖r‖ ^ 2 ≤ 1 := by
  have hp := Entry.passive h
  have hN : 2 ≤ e.stack.N := by show 2 ≤ 6; omega
  have key : ∀ tm, ‖(solver e.stack tm).tt‖ ^ 2 + ‖(solver e.stack tm).rr‖ ^ 2 ≤ 1 := by
    intro tm
    obtain ⟨e1, e2⟩ := C55_amplitudes hp hN tm
    rw [e1, e2]
    linarith [(C55_passive hp hN tm).2.2]
  have k0 := key false
  have k1 := key true
  simp only [Entry.coefs] at hc
  clear key hp hN h
  generalize solver e.stack false = s0 at *
  generalize solver e.stack true = s1 at *
  have conjn : ∀ p : ℂ × ℂ, (if opd = true then p else (conj p.1, conj p.2)) = (t, r) → ‖p.1‖ ^ 2 + ‖p.2‖ ^ 2 ≤ 1 → ‖t‖ ^ 2 + ‖r‖ ^ 2 ≤ 1 := by
    intro p hp1 hp2
    cases opd
    · simp only [Bool.false_eq_true, if_false, Prod.mk.injEq] at hp1
      rw [← hp1.1, ← hp1.2, Complex.norm_conj, Complex.norm_conj]; exact hp2
    · simp only [if_true] at hp1; rw [hp1] at hp2; exact hp2
  by_cases h2 : pol = 2
  · rw [if_pos h2] at hc
    refine conjn _ (Except.ok.inj hc) ?_
    have := half_sq_le s0.tt s1.tt
    have := half_sq_le s0.rr s1.rr
    simp only
    linarith
  · rw [if_neg h2] at hc
    by_cases h0 : pol = 0
    · rw [if_pos h0] at hc
      exact conjn _ (Except.ok.inj hc) k0
    · rw [if_neg h0] at hc
      by_cases h1 : pol = 1
      · rw [if_pos h1] at hc
        exact conjn _ (Except.ok.inj hc) k1
      · rw [if_neg h1] at hc; cases hc

/-- The hypotheses hold for 3 nm of titanium under 95 nm of nickel under 500 nm of PMGI at 550 nm and 5.5 degrees. -/
example : Entry.Physical { nDiel := 1.5, kDiel := 0, nMetal := 1.8, kMetal := 3.2, nTi := 2.4, kTi := 3.3, nSub := 1.46, d0 := 4 * 550e-9, tDiel := 500e-9, tMetal := 95e-9, tTi := 3e-9, theta := 5.5 * Real.pi / 180, lam := 550e-9 } := by
  have hp := Real.pi_pos
  have hs := Real.sin_le_one (5.5 * Real.pi / 180)
  refine ⟨by norm_num, by positivity, by linarith, ?_, ⟨by norm_num, by norm_num, Or.inr ?_⟩, ⟨by norm_num, by norm_num, Or.inl (by norm_num)⟩, ⟨by norm_num, by norm_num, Or.inl (by norm_num)⟩, by norm_num, by norm_num, by norm_num⟩ <;> norm_num at hs ⊢ <;> linarith

/-- A polarisation other than 0, 1, 2 is rejected. -/
theorem C55_pol_error (e : Entry) (pol : ℤ) (opd : Bool) : (e.coefs pol opd = .error .valueError) ↔ pol ≠ 0 ∧ pol ≠ 1 ∧ pol ≠ 2 := by
  simp only [Entry.coefs]
  split_ifs with h2 h0 h1 <;> simp [Except.map, *]

/-- The stack without its layer `j`. -/
def Stack.remove (s : Stack) (j : ℕ) : Stack where
  N := s.N - 1
  n := fun i => if i < j then s.n i else s.n (i + 1)
  d := fun i => if i < j then s.d i else s.d (i + 1)
  theta := s.theta
  lam := s.lam

theorem remove_kz {j : ℕ} (hj : 0 < j) (i : ℕ) : kz (s.remove j) i = if i < j then kz s i else kz s (i + 1) := by
  have : kx (s.remove j) = kx s := by simp [kx, Stack.remove, hj]
  unfold kz
  rw [this]
  simp only [Stack.remove]
  split_ifs <;> rfl

theorem remove_kzz {j : ℕ} (hj : 0 < j) (tm : Bool) (i : ℕ) : kzz (s.remove j) tm i = if i < j then kzz s tm i else kzz s tm (i + 1) := by
  unfold kzz
  rw [remove_kz hj]
  simp only [Stack.remove]
  split_ifs <;> rfl

theorem layer_zero {j : ℕ} (tm : Bool) (hd : s.d (j + 1) = 0) (h0 : kzz s tm j ≠ 0) (h1 : kzz s tm (j + 1) ≠ 0)
    (h01 : kzz s tm j + kzz s tm (j + 1) ≠ 0) (h12 : kzz s tm (j + 1) + kzz s tm (j + 2) ≠ 0) (h02 : kzz s tm j + kzz s tm (j + 2) ≠ 0) :
    layer s tm j * layer s tm (j + 1) = layer (s.remove (j + 1)) tm j := by
  have hk : kz (s.remove (j + 1)) j = kz s j := by rw [remove_kz (by omega)]; simp
  have hkz : kzz (s.remove (j + 1)) tm j = kzz s tm j := by rw [remove_kzz (by omega)]; simp
  have hkz1 : kzz (s.remove (j + 1)) tm (j + 1) = kzz s tm (j + 2) := by rw [remove_kzz (by omega)]; simp
  have hdd : (s.remove (j + 1)).d j = s.d j := by simp [Stack.remove]
  simp only [layer, hk, hkz, hkz1, hdd, hd]
  simp only [Complex.ofReal_zero, mul_zero, Complex.exp_zero, mul_one, show j + 1 + 1 = j + 2 from rfl]
  generalize kzz s tm j = c at *
  generalize kzz s tm (j + 1) = c' at *
  generalize kzz s tm (j + 2) = c'' at *
  generalize exp (-I * kz s j * s.d j) = p
  generalize exp (I * kz s j * s.d j) = q
  ext a b
  fin_cases a <;> fin_cases b <;> simp [Matrix.mul_apply, Fin.sum_univ_two] <;> field_simp <;> ring

theorem layer_remove_lt {j i : ℕ} (tm : Bool) (h : i < j) : layer (s.remove (j + 1)) tm i = layer s tm i := by
  have hk : kz (s.remove (j + 1)) i = kz s i := by rw [remove_kz (by omega), if_pos (by omega)]
  have hkz : kzz (s.remove (j + 1)) tm i = kzz s tm i := by rw [remove_kzz (by omega), if_pos (by omega)]
  have hkz1 : kzz (s.remove (j + 1)) tm (i + 1) = kzz s tm (i + 1) := by rw [remove_kzz (by omega), if_pos (by omega)]
  have hdd : (s.remove (j + 1)).d i = s.d i := by simp only [Stack.remove, if_pos (show i < j + 1 by omega)]
  simp only [layer, hk, hkz, hkz1, hdd]

theorem layer_remove_ge {j i : ℕ} (tm : Bool) (h : j < i) : layer (s.remove (j + 1)) tm i = layer s tm (i + 1) := by
  have hk : kz (s.remove (j + 1)) i = kz s (i + 1) := by rw [remove_kz (by omega), if_neg (by omega)]
  have hkz : kzz (s.remove (j + 1)) tm i = kzz s tm (i + 1) := by rw [remove_kzz (by omega), if_neg (by omega)]
  have hkz1 : kzz (s.remove (j + 1)) tm (i + 1) = kzz s tm (i + 1 + 1) := by rw [remove_kzz (by omega), if_neg (by omega)]
  have hdd : (s.remove (j + 1)).d i = s.d (i + 1) := by simp only [Stack.remove, if_neg (show ¬ i < j + 1 by omega)]
  simp only [layer, hk, hkz, hkz1, hdd]

theorem transfer_eq (s : Stack) (tm : Bool) : transfer s tm = partialA s tm (s.N - 1) := rfl

theorem remove_N (s : Stack) (j : ℕ) : (s.remove j).N = s.N - 1 := rfl

theorem solver_congr (s s' : Stack) (tm : Bool) (hT : transfer s tm = transfer s' tm) (hk0 : kz s 0 = kz s' 0) (hkN : kz s (s.N - 1) = kz s' (s'.N - 1))
    (hn0 : s.n 0 = s'.n 0) (hnN : s.n (s.N - 1) = s'.n (s'.N - 1)) : solver s tm = solver s' tm := by
  simp only [solver, hT, hk0, hkN, hn0, hnN]

theorem partialA_remove_le (tm : Bool) {j : ℕ} : ∀ k ≤ j, partialA (s.remove (j + 1)) tm k = partialA s tm k := by
  intro k
  induction k with
  | zero => intro _; simp only [partialA, List.range_zero, List.foldl_nil]
  | succ k ih => intro hk; rw [partialA_succ, partialA_succ, ih (by omega), layer_remove_lt tm (by omega)]

theorem partialA_remove_ge (tm : Bool) {j : ℕ} (hz : layer s tm j * layer s tm (j + 1) = layer (s.remove (j + 1)) tm j) (k : ℕ) :
    partialA (s.remove (j + 1)) tm (j + 1 + k) = partialA s tm (j + 2 + k) := by
  induction k with
  | zero =>
    have e : partialA s tm (j + 2) = partialA s tm j * (layer s tm j * layer s tm (j + 1)) := by
      rw [← Matrix.mul_assoc, ← partialA_succ, ← partialA_succ]
    rw [Nat.add_zero, Nat.add_zero, e, hz, partialA_succ, partialA_remove_le tm j le_rfl]
  | succ k ih =>
    have e : j + 1 + k + 1 = j + 2 + k := by omega
    rw [← Nat.add_assoc, ← Nat.add_assoc, partialA_succ, partialA_succ, ih, layer_remove_ge tm (by omega), e]

/-- **C70** A layer of zero thickness has no effect on any of the results: removing it from the stack gives the same reflected and transmitted powers and amplitudes. -/
theorem C70_zero_layer (hp : s.Passive) {j : ℕ} (hj : j + 2 < s.N) (hd : s.d (j + 1) = 0) (tm : Bool) : solver (s.remove (j + 1)) tm = solver s tm := by
  have hre : ∀ i < s.N, (kzz s tm i).re < 0 := fun i hi => (kzz_im hp hi tm).2.2.1
  have hne : ∀ i < s.N, kzz s tm i ≠ 0 := fun i hi h => by have := hre i hi; rw [h] at this; simp at this
  have hadd : ∀ i < s.N, ∀ k < s.N, kzz s tm i + kzz s tm k ≠ 0 := fun i hi k hk h => by
    have h1 := congrArg Complex.re h; rw [Complex.add_re, Complex.zero_re] at h1; linarith [hre i hi, hre k hk]
  have hhigh := partialA_remove_ge (s := s) tm (layer_zero tm hd (hne j (by omega)) (hne (j + 1) (by omega)) (hadd j (by omega) (j + 1) (by omega)) (hadd (j + 1) (by omega) (j + 2) (by omega)) (hadd j (by omega) (j + 2) (by omega)))
  have hT : transfer (s.remove (j + 1)) tm = transfer s tm := by
    have := hhigh (s.N - 3 - j)
    have e1 : j + 1 + (s.N - 3 - j) = s.N - 1 - 1 := by omega
    have e2 : j + 2 + (s.N - 3 - j) = s.N - 1 := by omega
    rw [e1, e2] at this
    rw [transfer_eq, transfer_eq, remove_N, this]
  have hk0 : kz (s.remove (j + 1)) 0 = kz s 0 := by rw [remove_kz (by omega), if_pos (by omega)]
  have hkN : kz (s.remove (j + 1)) ((s.remove (j + 1)).N - 1) = kz s (s.N - 1) := by
    rw [remove_N, remove_kz (by omega), if_neg (by omega)]; congr 1; omega
  have hn0 : (s.remove (j + 1)).n 0 = s.n 0 := by simp [Stack.remove]
  have hnN : (s.remove (j + 1)).n ((s.remove (j + 1)).N - 1) = s.n (s.N - 1) := by
    rw [remove_N]
    simp only [Stack.remove, if_neg (show ¬ (s.N - 1 - 1 < j + 1) by omega)]; congr 1; omega
  exact solver_congr _ _ _ hT hk0 hkN hn0 hnN

/-- **C70** Where there is no metal (so no titanium either) a table entry does not depend on the constants of the metals, i.e. it is that of the stack vacuum, dielectric, substrate. -/
theorem C70_no_metal {e e' : Entry} (h : e.Physical) (h' : e'.Physical) (hm : e.tMetal = 0) (ht : e.tTi = 0)
    (he : e' = { e with nMetal := e'.nMetal, kMetal := e'.kMetal, nTi := e'.nTi, kTi := e'.kTi }) (pol : ℤ) (opd : Bool) : e'.coefs pol opd = e.coefs pol opd := by
  have key : ∀ tm, solver e'.stack tm = solver e.stack tm := by
    intro tm
    have r1 : ∀ f : Entry, f.Physical → f.tMetal = 0 → f.tTi = 0 → solver ((f.stack.remove 4).remove 3) tm = solver f.stack tm := by
      intro f hf hfm hft
      have p0 := Entry.passive hf
      have s1 := C70_zero_layer (j := 3) p0 (by show 5 < 6; omega) (by simpa [Entry.stack] using hft) tm
      have p1 : (f.stack.remove 4).Passive := by
        refine ⟨p0.1, p0.2.1, p0.2.2.1, p0.2.2.2.1, fun i hi => ?_⟩
        have hi : i < 5 := hi
        interval_cases i
        · exact p0.2.2.2.2 0 (by show 0 < 6; omega)
        · exact p0.2.2.2.2 1 (by show 1 < 6; omega)
        · exact p0.2.2.2.2 2 (by show 2 < 6; omega)
        · exact p0.2.2.2.2 3 (by show 3 < 6; omega)
        · exact p0.2.2.2.2 5 (by show 5 < 6; omega)
      have s2 := C70_zero_layer (s := f.stack.remove 4) (j := 2) p1 (by show 4 < 5; omega) (by simpa [Entry.stack, Stack.remove] using hfm) tm
      exact s2.trans s1
    rw [← r1 e' h' (by rw [he]; exact hm) (by rw [he]; exact ht), ← r1 e h hm ht]
    congr 1
    have hN : ((e'.stack.remove 4).remove 3).N = ((e.stack.remove 4).remove 3).N := rfl
    have hn : ((e'.stack.remove 4).remove 3).n = ((e.stack.remove 4).remove 3).n := by
      funext i; rw [he]
      match i with
      | 0 => rfl
      | 1 => rfl
      | 2 => rfl
      | (i + 3) =>
        have a : ¬ (i + 3 < 3) := by omega
        have b : ¬ (i + 3 + 1 < 4) := by omega
        simp only [Stack.remove, if_neg a, if_neg b]; rfl
    have hd : ((e'.stack.remove 4).remove 3).d = ((e.stack.remove 4).remove 3).d := by funext i; rw [he]; rfl
    have hth : ((e'.stack.remove 4).remove 3).theta = ((e.stack.remove 4).remove 3).theta := by rw [he]; rfl
    have hl : ((e'.stack.remove 4).remove 3).lam = ((e.stack.remove 4).remove 3).lam := by rw [he]; rfl
    revert hN hn hd hth hl
    generalize (e'.stack.remove 4).remove 3 = x
    generalize (e.stack.remove 4).remove 3 = y
    cases x; cases y
    simp only
    rintro rfl rfl rfl rfl rfl
    rfl
  simp only [Entry.coefs, key]

/-- **C87** A slab of the incident medium in front of a stack only moves the reference plane: it multiplies the transmission amplitude by `exp(i kz d)` and the reflection amplitude by
`exp(2 i kz d)` (`kz` the code's, with its sign convention), for every stack, angle and polarisation. -/
theorem C87_slab (hp : s.Passive) (hN : 3 ≤ s.N) (hn : s.n 1 = s.n 0) (hd0 : s.d 0 = 0) (tm : Bool) :
    (solver s tm).tt = exp (I * kz s 0 * s.d 1) * (solver (s.remove 1) tm).tt ∧
    (solver s tm).rr = exp (2 * (I * kz s 0 * s.d 1)) * (solver (s.remove 1) tm).rr := by
  have hre : ∀ i < s.N, (kzz s tm i).re < 0 := fun i hi => (kzz_im hp hi tm).2.2.1
  have hne : ∀ i < s.N, kzz s tm i ≠ 0 := fun i hi h => by have := hre i hi; rw [h] at this; simp at this
  have hk1 : kz s 1 = kz s 0 := by unfold kz; rw [hn]
  have hkz1 : kzz s tm 1 = kzz s tm 0 := by unfold kzz; rw [hk1, hn]
  set D : Matrix (Fin 2) (Fin 2) ℂ := !![exp (-I * kz s 0 * s.d 1), 0; 0, exp (I * kz s 0 * s.d 1)] with hD
  have h0 : layer s tm 0 = 1 := by
    unfold layer
    rw [hd0]
    simp only [Nat.zero_add, hkz1]
    have := hne 0 (by omega)
    ext a b
    fin_cases a <;> fin_cases b <;> simp <;> field_simp <;> norm_num
  have hrk : kz (s.remove 1) 0 = kz s 0 := by rw [remove_kz (by omega)]; simp
  have hrkz : kzz (s.remove 1) tm 0 = kzz s tm 0 := by rw [remove_kzz (by omega)]; simp
  have hrkz1 : kzz (s.remove 1) tm 1 = kzz s tm 2 := by rw [remove_kzz (by omega)]; simp
  have hrd : (s.remove 1).d 0 = 0 := by simp [Stack.remove, hd0]
  have h1 : layer s tm 1 = D * layer (s.remove 1) tm 0 := by
    unfold layer
    simp only [Nat.zero_add, show 1 + 1 = 2 from rfl, hrk, hrkz, hrkz1, hrd, hkz1, hk1]
    simp only [Complex.ofReal_zero, mul_zero, Complex.exp_zero, mul_one]
    ext a b
    fin_cases a <;> fin_cases b <;> simp [hD, Matrix.mul_apply, Fin.sum_univ_two] <;> ring
  have hall : ∀ k, partialA s tm (k + 2) = D * partialA (s.remove 1) tm (k + 1) := by
    intro k
    induction k with
    | zero =>
      have e0 : ∀ s' : Stack, partialA s' tm 0 = 1 := fun s' => by simp only [partialA, List.range_zero, List.foldl_nil]
      rw [partialA_succ, partialA_succ, partialA_succ, e0, e0, h0, h1]
      simp only [one_mul]
    | succ k ih =>
      have e := partialA_succ (s := s.remove 1) tm (k + 1)
      rw [partialA_succ (s := s) tm (k + 2), ih, e, Matrix.mul_assoc, layer_remove_ge (j := 0) (i := k + 1) tm (by omega)]
  have hT : transfer s tm = D * transfer (s.remove 1) tm := by
    rw [transfer_eq, transfer_eq, remove_N]
    have := hall (s.N - 3)
    rw [show s.N - 3 + 2 = s.N - 1 by omega, show s.N - 3 + 1 = s.N - 1 - 1 by omega] at this
    exact this
  have hkN : kz (s.remove 1) ((s.remove 1).N - 1) = kz s (s.N - 1) := by
    rw [remove_N, remove_kz (by omega), if_neg (by omega)]; congr 1; omega
  have hn0 : (s.remove 1).n 0 = s.n 0 := by simp [Stack.remove]
  have hnN : (s.remove 1).n ((s.remove 1).N - 1) = s.n (s.N - 1) := by
    rw [remove_N]
    simp only [Stack.remove, if_neg (show ¬ (s.N - 1 - 1 < 1) by omega)]; congr 1; omega
  have a00 : transfer s tm 0 0 = exp (-I * kz s 0 * s.d 1) * transfer (s.remove 1) tm 0 0 := by
    rw [hT]; simp [hD, Matrix.mul_apply, Fin.sum_univ_two]
  have a10 : transfer s tm 1 0 = exp (I * kz s 0 * s.d 1) * transfer (s.remove 1) tm 1 0 := by
    rw [hT]; simp [hD, Matrix.mul_apply, Fin.sum_univ_two]
  have hexp : (exp (-I * kz s 0 * s.d 1))⁻¹ = exp (I * kz s 0 * s.d 1) := by rw [← exp_neg]; congr 1; ring
  constructor
  · simp only [solver, a00, hrk, hkN, hn0, hnN]
    rw [one_div, mul_inv, hexp]
    ring
  · simp only [solver, a00, a10]
    rw [mul_div_mul_comm, div_eq_mul_inv (exp (I * kz s 0 * s.d 1)), hexp, two_mul, exp_add]

/-- The films of an entry, without the gap in front: vacuum, dielectric, metal, titanium, substrate. -/
noncomputable def Entry.films (e : Entry) : Stack where
  N := 5
  n := fun i => match i with
    | 0 => 1
    | 1 => e.nDiel - I * e.kDiel
    | 2 => e.nMetal - I * e.kMetal
    | 3 => e.nTi - I * e.kTi
    | _ => e.nSub
  d := fun i => match i with
    | 1 => e.tDiel
    | 2 => e.tMetal
    | 3 => e.tTi
    | _ => 0
  theta := e.theta
  lam := e.lam

theorem films_eq (e : Entry) : e.stack.remove 1 = e.films := by
  have hn : (e.stack.remove 1).n = e.films.n := by
    funext i
    match i with
    | 0 => rfl
    | 1 => rfl
    | 2 => rfl
    | 3 => rfl
    | (i + 4) => rfl
  have hd : (e.stack.remove 1).d = e.films.d := by
    funext i
    match i with
    | 0 => rfl
    | 1 => rfl
    | 2 => rfl
    | 3 => rfl
    | (i + 4) => rfl
  have hN : (e.stack.remove 1).N = e.films.N := rfl
  have ht : (e.stack.remove 1).theta = e.films.theta := rfl
  have hl : (e.stack.remove 1).lam = e.films.lam := rfl
  revert hN hn hd ht hl
  generalize e.stack.remove 1 = x
  generalize e.films = y
  cases x; cases y
  simp only
  rintro rfl rfl rfl rfl rfl
  rfl

theorem kz_normal (hp : s.Passive) (h0 : s.theta = 0) {i : ℕ} (hi : i < s.N) : kz s i = -(2 * Real.pi * s.n i / s.lam) := by
  have hkx : kx s = 0 := by simp [kx, h0]
  unfold kz
  rw [hkx, mul_zero, sub_zero, Complex.sq_cpow_two_inv]
  have e : (2 * Real.pi * s.n i / s.lam : ℂ) = ((2 * Real.pi / s.lam : ℝ) : ℂ) * s.n i := by push_cast; ring
  rw [e, Complex.re_ofReal_mul]
  have := hp.1
  have := Real.pi_pos
  exact mul_pos (by positivity) (hp.2.2.2.2 i hi).1

/-- **C87** The transmission of a table entry is that of its films alone, referred to the plane at the height `d0` above the substrate: at normal incidence the phase is retarded by
`2π/λ` times what is left of `d0` above dielectric, metal and titanium (OPD convention), and the conjugate in the other convention. -/
theorem C87_reference_plane {e : Entry} (h : e.Physical) (h0 : e.theta = 0) :
    e.coefs 0 true = .ok (exp (-(2 * Real.pi * I * (e.d0 - e.tDiel - e.tMetal - e.tTi : ℝ) / e.lam)) * (solver e.films false).tt,
      exp (-(4 * Real.pi * I * (e.d0 - e.tDiel - e.tMetal - e.tTi : ℝ) / e.lam)) * (solver e.films false).rr) ∧
    e.coefs 0 false = (e.coefs 0 true).map fun p => ((starRingEnd ℂ) p.1, (starRingEnd ℂ) p.2) := by
  have hp := Entry.passive h
  obtain ⟨h1, h2⟩ := C87_slab hp (by show 3 ≤ 6; omega) rfl rfl false
  rw [films_eq] at h1 h2
  have hk : kz e.stack 0 = -(2 * Real.pi / e.lam) := by
    rw [kz_normal hp h0 (by show 0 < 6; omega)]
    change -(2 * (Real.pi : ℂ) * 1 / e.lam) = _
    rw [mul_one]
  have hd : e.stack.d 1 = e.d0 - e.tDiel - e.tMetal - e.tTi := rfl
  rw [hk, hd] at h1 h2
  constructor
  · unfold Entry.coefs
    simp only [show ¬ ((0 : ℤ) = 2) by decide, if_false, if_true, Except.map]
    rw [h1, h2]
    congr 3
    · congr 1; ring
    · congr 1; ring
  · unfold Entry.coefs
    simp [Except.map]

theorem n_ne (hp : s.Passive) {i : ℕ} (hi : i < s.N) : s.n i ≠ 0 := by
  intro h; have := (hp.2.2.2.2 i hi).1; rw [h] at this; simp at this

theorem layer_normal (hp : s.Passive) (h0 : s.theta = 0) {i : ℕ} (hi : i + 1 < s.N) (a b : Fin 2) :
    layer s true i a b = s.n i / s.n (i + 1) * (if a = b then 1 else -1) * layer s false i a b := by
  have n0 := n_ne hp (show i < s.N by omega)
  have n1 := n_ne hp hi
  have hs : s.n i + s.n (i + 1) ≠ 0 := by
    intro h; have := congrArg Complex.re h; rw [Complex.add_re, Complex.zero_re] at this
    linarith [(hp.2.2.2.2 i (by omega)).1, (hp.2.2.2.2 (i + 1) hi).1]
  have hs' : s.n (i + 1) + s.n i ≠ 0 := by rwa [add_comm]
  have hl : (s.lam : ℂ) ≠ 0 := by exact_mod_cast hp.1.ne'
  have hpi : (Real.pi : ℂ) ≠ 0 := by exact_mod_cast Real.pi_pos.ne'
  have hC : (2 * Real.pi / s.lam : ℂ) ≠ 0 := by simp [hl, hpi]
  simp only [layer, kzz, if_true, Bool.false_eq_true, if_false]
  generalize exp (-I * kz s i * s.d i) = p
  generalize exp (I * kz s i * s.d i) = q
  rw [kz_normal hp h0 (show i < s.N by omega), kz_normal hp h0 hi]
  have e : ∀ x : ℂ, -(2 * Real.pi * x / s.lam) = -((2 * Real.pi / s.lam) * x) := fun x => by ring
  rw [e, e]
  generalize (2 * Real.pi / s.lam : ℂ) = C at *
  generalize s.n i = x at *
  generalize s.n (i + 1) = y at *
  have f1 : -(C * x) / (x * x) = -C * x⁻¹ := by field_simp
  have f2 : -(C * y) / (y * y) = -C * y⁻¹ := by field_simp
  have f3 : -(C * x) = -C * x := by ring
  have f4 : -(C * y) = -C * y := by ring
  rw [f1, f2, f3, f4]
  have hC' : -C ≠ 0 := neg_ne_zero.2 hC
  generalize -C = D at *
  have t1 : (1 / 2 : ℂ) * (D * x⁻¹ + D * y⁻¹) / (D * x⁻¹) = (x + y) / (2 * y) := by field_simp; ring
  have t2 : (1 / 2 : ℂ) * (D * x + D * y) / (D * x) = (x + y) / (2 * x) := by field_simp
  have t3 : (D * x⁻¹ - D * y⁻¹) / (D * x⁻¹ + D * y⁻¹) = -((x - y) / (x + y)) := by
    rw [← mul_sub, ← mul_add, mul_div_mul_left _ _ hC']
    rw [inv_sub_inv n0 n1, inv_add_inv n0 n1, div_div_div_cancel_right₀ (mul_ne_zero n0 n1)]
    rw [← neg_div]; congr 1; ring
  have t4 : (D * x - D * y) / (D * x + D * y) = (x - y) / (x + y) := by rw [← mul_sub, ← mul_add, mul_div_mul_left _ _ hC']
  rw [t1, t2, t3, t4]
  fin_cases a <;> fin_cases b <;> simp <;> field_simp

theorem partialA_normal (hp : s.Passive) (h0 : s.theta = 0) : ∀ k, k < s.N → ∀ a b : Fin 2,
    partialA s true k a b = s.n 0 / s.n k * (if a = b then 1 else -1) * partialA s false k a b := by
  intro k
  induction k with
  | zero =>
    intro hk a b
    rw [div_self (n_ne hp hk)]
    simp only [partialA, List.range_zero, List.foldl_nil, Matrix.one_apply]
    split_ifs <;> simp
  | succ k ih =>
    intro hk a b
    have n0 := n_ne hp (show k < s.N by omega)
    have n1 := n_ne hp hk
    rw [partialA_succ, partialA_succ, Matrix.mul_apply, Matrix.mul_apply, Fin.sum_univ_two, Fin.sum_univ_two,
      ih (by omega) a 0, ih (by omega) a 1, layer_normal hp h0 hk 0 b, layer_normal hp h0 hk 1 b]
    fin_cases a <;> fin_cases b <;> simp <;> field_simp <;> ring

/-- **C71** At normal incidence the two polarisations have the same transmission amplitude and powers, and opposite reflection amplitudes (the solver follows the electric field for one and the magnetic field for the other). -/
theorem C71_normal (hp : s.Passive) (h0 : s.theta = 0) (hN : 2 ≤ s.N) (hr : (s.n (s.N - 1)).im = 0) :
    (solver s true).tt = (solver s false).tt ∧ (solver s true).T = (solver s false).T ∧ (solver s true).R = (solver s false).R ∧ (solver s true).rr = -(solver s false).rr := by
  have hA := fun a b => partialA_normal hp h0 (s.N - 1) (by omega) a b
  have a0 := (hp.2.2.2.2 0 (by omega)).1
  have aN := (hp.2.2.2.2 (s.N - 1) (by omega)).1
  have e0 : s.n 0 = ((s.n 0).re : ℂ) := by apply Complex.ext <;> simp [hp.2.2.2.1]
  have eN : s.n (s.N - 1) = ((s.n (s.N - 1)).re : ℂ) := by apply Complex.ext <;> simp [hr]
  have hl := hp.1
  have hpi := Real.pi_pos
  have A00 : transfer s true 0 0 = s.n 0 / s.n (s.N - 1) * transfer s false 0 0 := by
    rw [transfer_eq, transfer_eq, hA]; simp
  have A10 : transfer s true 1 0 = -(s.n 0 / s.n (s.N - 1) * transfer s false 1 0) := by
    rw [transfer_eq, transfer_eq, hA]; simp
  simp only [solver, if_true, Bool.false_eq_true, if_false, A00, A10]
  rw [kz_normal hp h0 (show 0 < s.N by omega), kz_normal hp h0 (show s.N - 1 < s.N by omega)]
  rw [e0, eN]
  generalize (s.n 0).re = x at *
  generalize (s.n (s.N - 1)).re = y at *
  generalize transfer s false 0 0 = A
  generalize transfer s false 1 0 = B
  have hx : (x : ℂ) ≠ 0 := by exact_mod_cast a0.ne'
  have hy : (y : ℂ) ≠ 0 := by exact_mod_cast aN.ne'
  have hlc : (s.lam : ℂ) ≠ 0 := by exact_mod_cast hl.ne'
  have hpc : (Real.pi : ℂ) ≠ 0 := by exact_mod_cast hpi.ne'
  have r1 : -(2 * (Real.pi : ℂ) * y / s.lam) / (y : ℂ) ^ 2 / (-(2 * (Real.pi : ℂ) * x / s.lam) / (x : ℂ) ^ 2) = ((x / y : ℝ) : ℂ) := by
    push_cast; field_simp
  have r2 : -(2 * (Real.pi : ℂ) * y / s.lam) / (-(2 * (Real.pi : ℂ) * x / s.lam)) = ((y / x : ℝ) : ℂ) := by
    push_cast; field_simp
  rw [r1, r2, Complex.ofReal_re, Complex.ofReal_re]
  have hxy : (x : ℂ) / y ≠ 0 := div_ne_zero hx hy
  have hrr : -((x : ℂ) / y * B) / ((x : ℂ) / y * A) = -(B / A) := by rw [neg_div, mul_div_mul_left _ _ hxy]
  have hn : ‖(x : ℂ) / y‖ = x / y := by rw [norm_div, Complex.norm_real, Complex.norm_real, Real.norm_of_nonneg a0.le, Real.norm_of_nonneg aN.le]
  refine ⟨?_, ?_, ?_, hrr⟩
  · have hs : (Real.sqrt (x / y) : ℂ) = ((x / y : ℝ) : ℂ) * (Real.sqrt (y / x) : ℝ) := by
      rw [← Complex.ofReal_mul]; congr 1
      rw [Real.sqrt_eq_iff_mul_self_eq (by positivity) (by positivity)]
      rw [mul_mul_mul_comm, Real.mul_self_sqrt (by positivity)]
      field_simp
    rw [hs]; push_cast
    by_cases hA0 : A = 0
    · simp [hA0]
    · field_simp
  · rw [norm_div, norm_mul, hn, norm_one, norm_div, norm_one]
    by_cases hA0 : ‖A‖ = 0
    · simp [hA0]
    · field_simp
  · rw [hrr, norm_neg]

/-- What the two-polarisation table promises: the mean over polarisations at normal incidence, where polarisation makes no difference, is the value for either one. -/
def MeanConsistent (e : Entry) (opd : Bool) : Prop := e.coefs 2 opd = e.coefs 0 opd

/-- **C71** At normal incidence the mean transmission is that of each polarisation, but the mean reflection is 0 whatever the stack. -/
theorem C71_mean {e : Entry} (h : e.Physical) (h0 : e.theta = 0) (opd : Bool) :
    ∃ t r, e.coefs 0 opd = .ok (t, r) ∧ e.coefs 2 opd = .ok (t, 0) := by
  obtain ⟨ht, -, -, hr⟩ := C71_normal (Entry.passive h) h0 (by show 2 ≤ 6; omega) (by simp [Entry.stack])
  have e1 : (solver e.stack false).tt + (solver e.stack false).tt = 2 * (solver e.stack false).tt := by ring
  cases opd <;> refine ⟨_, _, rfl, ?_⟩ <;> simp [Entry.coefs, ht, hr, Except.map, e1]

/-- A bare substrate of index `y` in vacuum, everything else of thickness 0. -/
noncomputable def bare : Entry where
  nDiel := 1
  kDiel := 0
  nMetal := 1
  kMetal := 0
  nTi := 1
  kTi := 0
  nSub := 3 / 2
  d0 := 0
  tDiel := 0
  tMetal := 0
  tTi := 0
  theta := 0
  lam := 1

theorem bare_physical : bare.Physical := by
  have := Real.pi_pos
  refine ⟨?_, ?_, ?_, ?_, ⟨?_, ?_, Or.inr ?_⟩, ⟨?_, ?_, Or.inr ?_⟩, ⟨?_, ?_, Or.inr ?_⟩, ?_, ?_, ?_⟩ <;> simp [bare]
  all_goals linarith

/-- **C70** One interface at normal incidence: Fresnel's amplitudes `r = (n0 - n1)/(n0 + n1)`, `t = 2 √(n0 n1)/(n0 + n1)` (the latter normalised to power). -/
theorem C70_fresnel (hp : s.Passive) (h0 : s.theta = 0) (hN : s.N = 2) (hd : s.d 0 = 0) (hr : (s.n 1).im = 0) :
    (solver s false).rr = (s.n 0 - s.n 1) / (s.n 0 + s.n 1) ∧ (solver s false).tt = 2 * Real.sqrt ((s.n 0).re * (s.n 1).re) / (s.n 0 + s.n 1) := by
  have a0 := (hp.2.2.2.2 0 (by omega)).1
  have a1 := (hp.2.2.2.2 1 (by omega)).1
  have e0 : s.n 0 = ((s.n 0).re : ℂ) := by apply Complex.ext <;> simp [hp.2.2.2.1]
  have e1 : s.n 1 = ((s.n 1).re : ℂ) := by apply Complex.ext <;> simp [hr]
  have hT : transfer s false = layer s false 0 := by rw [transfer_eq, hN, show 2 - 1 = 0 + 1 from rfl, partialA_succ]; simp [partialA]
  have hl := hp.1
  have hpi := Real.pi_pos
  simp only [solver, hT, layer, hd, hN, kzz, Bool.false_eq_true, if_false, zero_add, show 2 - 1 = 1 from rfl]
  rw [kz_normal hp h0 (show 0 < s.N by omega), kz_normal hp h0 (show 1 < s.N by omega)]
  rw [e0, e1]
  simp only [Complex.ofReal_re]
  generalize (s.n 0).re = x at *
  generalize (s.n 1).re = y at *
  have hx : (x : ℂ) ≠ 0 := by exact_mod_cast a0.ne'
  have hy : (y : ℂ) ≠ 0 := by exact_mod_cast a1.ne'
  have hxy : (x : ℂ) + y ≠ 0 := by exact_mod_cast (add_pos a0 a1).ne'
  have hlc : (s.lam : ℂ) ≠ 0 := by exact_mod_cast hl.ne'
  have hpc : (Real.pi : ℂ) ≠ 0 := by exact_mod_cast hpi.ne'
  have r2 : -(2 * (Real.pi : ℂ) * y / s.lam) / (-(2 * (Real.pi : ℂ) * x / s.lam)) = ((y / x : ℝ) : ℂ) := by
    push_cast; field_simp
  have r3 : (1 / 2 : ℂ) * (-(2 * (Real.pi : ℂ) * x / s.lam) + -(2 * (Real.pi : ℂ) * y / s.lam)) / (-(2 * (Real.pi : ℂ) * x / s.lam)) = (x + y) / (2 * x) := by
    field_simp; ring
  have r4 : (-(2 * (Real.pi : ℂ) * x / s.lam) - -(2 * (Real.pi : ℂ) * y / s.lam)) / (-(2 * (Real.pi : ℂ) * x / s.lam) + -(2 * (Real.pi : ℂ) * y / s.lam)) = (x - y) / (x + y) := by
    have c : -(2 * (Real.pi : ℂ) / s.lam) ≠ 0 := by simp [hpc, hlc]
    have g1 : -(2 * (Real.pi : ℂ) * x / s.lam) - -(2 * (Real.pi : ℂ) * y / s.lam) = -(2 * (Real.pi : ℂ) / s.lam) * (x - y) := by ring
    have g2 : -(2 * (Real.pi : ℂ) * x / s.lam) + -(2 * (Real.pi : ℂ) * y / s.lam) = -(2 * (Real.pi : ℂ) / s.lam) * (x + y) := by ring
    rw [g1, g2, mul_div_mul_left _ _ c]
  rw [r2, r3, r4, Complex.ofReal_re]
  constructor
  · simp; field_simp
  · have hs : (Real.sqrt (y / x) : ℝ) = Real.sqrt (x * y) / x := by
      rw [Real.sqrt_eq_iff_mul_self_eq (by positivity) (by positivity), div_mul_div_comm, Real.mul_self_sqrt (by positivity)]
      field_simp
    rw [hs]
    have hm : ((((x : ℂ) + y) / (2 * x)) • !![exp (-I * -(2 * (Real.pi : ℂ) * x / s.lam) * ((0 : ℝ) : ℂ)), (x - y) / (x + y) * exp (-I * -(2 * (Real.pi : ℂ) * x / s.lam) * ((0 : ℝ) : ℂ));
        (x - y) / (x + y) * exp (I * -(2 * (Real.pi : ℂ) * x / s.lam) * ((0 : ℝ) : ℂ)), exp (I * -(2 * (Real.pi : ℂ) * x / s.lam) * ((0 : ℝ) : ℂ))]) 0 0 = ((x : ℂ) + y) / (2 * x) := by simp
    rw [hm]
    push_cast
    field_simp

theorem bare_rr : (solver bare.stack false).rr ≠ 0 := by
  have hp := Entry.passive bare_physical
  have hn : ∀ i, i < 5 → bare.stack.n i = 1 := by intro i hi; interval_cases i <;> simp [Entry.stack, bare]
  have hn5 : bare.stack.n 5 = 3 / 2 := by simp [Entry.stack, bare]
  have hd : ∀ i, bare.stack.d i = 0 := by
    intro i
    match i with
    | 0 | 1 | 2 | 3 | 4 => simp [Entry.stack, bare]
    | (i + 5) => simp [Entry.stack]
  have hl : bare.stack.lam = 1 := rfl
  have hk : ∀ i, i < 6 → kzz bare.stack false i = -(2 * Real.pi) * bare.stack.n i := by
    intro i hi
    simp only [kzz, Bool.false_eq_true, if_false]
    rw [kz_normal hp rfl hi, hl]; push_cast; ring
  have hpc : (Real.pi : ℂ) ≠ 0 := by exact_mod_cast Real.pi_pos.ne'
  have h1 : ∀ i, i < 4 → layer bare.stack false i = 1 := by
    intro i hi
    simp only [layer, hk i (by omega), hk (i + 1) (by omega), hn i (by omega), hn (i + 1) (by omega), hd]
    have e : (1 / 2 : ℂ) * (-(2 * Real.pi) * 1 + -(2 * Real.pi) * 1) / (-(2 * Real.pi) * 1) = 1 := by field_simp; ring
    rw [e]
    ext a b; fin_cases a <;> fin_cases b <;> simp
  have hT : transfer bare.stack false = layer bare.stack false 4 := by
    rw [transfer_eq, show bare.stack.N - 1 = 4 + 1 from rfl, partialA_succ]
    have : partialA bare.stack false 4 = 1 := by simp [partialA, List.range_succ, h1]
    rw [this, Matrix.one_mul]
  simp only [solver, hT, layer, hk 4 (by omega), hk (4 + 1) (by omega), hn 4 (by omega), show 4 + 1 = 5 from rfl, hn5, hd]
  have e : (1 / 2 : ℂ) * (-(2 * Real.pi) * 1 + -(2 * Real.pi) * (3 / 2)) / (-(2 * Real.pi) * 1) = 5 / 4 := by field_simp; ring
  have e2 : (-(2 * Real.pi) * 1 - -(2 * Real.pi) * (3 / 2)) / (-(2 * Real.pi) * 1 + -(2 * Real.pi) * (3 / 2) : ℂ) = -1 / 5 := by
    have c : -(2 * (Real.pi : ℂ)) ≠ 0 := by simp [hpc]
    rw [← mul_sub, ← mul_add, mul_div_mul_left _ _ c]; norm_num
  rw [e, e2]
  simp

/-- **C71** violated: for a bare glass substrate, which reflects, the mean reflection entry is 0 and the two tables differ. -/
theorem C71_violated (opd : Bool) : ¬ MeanConsistent bare opd := by
  obtain ⟨t, r, h0, h2⟩ := C71_mean bare_physical rfl opd
  intro h
  unfold MeanConsistent at h
  rw [h0, h2] at h
  have hr : r = 0 := by injection h with h; exact (congrArg Prod.snd h).symm
  have : (solver bare.stack false).rr = 0 := by
    cases opd
    · simp [Entry.coefs, Except.map] at h0; exact (map_eq_zero (starRingEnd ℂ)).1 (h0.2.trans hr)
    · simp [Entry.coefs, Except.map] at h0; rw [h0.2, hr]
  exact bare_rr this

end Verif.ThinFilm
