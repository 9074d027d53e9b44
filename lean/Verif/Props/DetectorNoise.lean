import Verif.Props.Detector
import Mathlib.Probability.Moments.Variance

/-!
# C104: how large the detector noise is
-/

namespace Verif.Detector
open Verif MeasureTheory ProbabilityTheory

variable {P : Type}

/-- The draws of a pixel: photo-electrons (0), dark electrons (1) and read noise (2) of each exposure. -/
def draw (r : Draws P) (x : P) : Fin 3 × ℕ → ℝ
  | (0, e) => r.shot e x
  | (1, e) => r.dark e x
  | (2, e) => r.gauss e x

theorem noise_sum (d : Det) (r : Draws P) (x : P) (N : ℕ) :
    ∑ e ∈ Finset.range N, ((r.shot e x : ℝ) + r.dark e x + d.readNoiseStd * r.gauss e x) =
      ∑ i ∈ Finset.univ ×ˢ Finset.range N, (if i.1 = 2 then d.readNoiseStd else 1) * draw r x i := by
  rw [Finset.sum_product_right]
  refine Finset.sum_congr rfl fun e _ => ?_
  rw [Fin.sum_univ_three]
  simp [draw]

/-- **C104 (size of the noise).** Over uncorrelated draws with the requested means and with the variances of Poisson draws and of a standard deviate (or less), the root mean square deviation of
a pixel from the input image plus the dark level is at most `√((electrons + dark electrons + readNoiseStd²) / Nexp)` in units of the peak electrons, plus half a count: the noise falls with the
square root of the number of exposures, down to the quantisation. -/
theorem C104_noise {Ω : Type*} [MeasurableSpace Ω] (μ : Measure Ω) [IsProbabilityMeasure μ] (d : Det) (r : Ω → Draws P) (image : P → ℝ) (si : ℕ) (flux t : ℝ)
    (hf : d.peakFluxVec[si]? = some flux) (ht : d.tExpVec[si]? = some t) (hp : 0 < flux * t) (hg : 0 < d.gain) (hN : 0 < d.Nexp) (him : ∀ x, 0 ≤ image x) (hd : 0 ≤ d.darkCurrentRate * t)
    (hL : ∀ x i, MemLp (fun ω => draw (r ω) x i) 2 μ) (hcov : ∀ x i j, i ≠ j → cov[fun ω => draw (r ω) x i, fun ω => draw (r ω) x j; μ] = 0)
    (hs : ∀ e x, ∫ ω, ((r ω).shot e x : ℝ) ∂μ = d.gain * (flux * t) * image x ∧ Var[fun ω => ((r ω).shot e x : ℝ); μ] ≤ d.gain * (flux * t) * image x)
    (hdk : ∀ e x, ∫ ω, ((r ω).dark e x : ℝ) ∂μ = d.darkCurrentRate * t ∧ Var[fun ω => ((r ω).dark e x : ℝ); μ] ≤ d.darkCurrentRate * t)
    (hr : ∀ e x, ∫ ω, (r ω).gauss e x ∂μ = 0 ∧ Var[fun ω => (r ω).gauss e x; μ] ≤ 1) :
    ∃ out : Ω → P → ℝ, (∀ ω, addNoise d (r ω) image si = .ok (out ω)) ∧
      ∀ x, Real.sqrt (∫ ω, (out ω x - (image x + d.darkCurrentRate * t / (d.gain * (flux * t)))) ^ 2 ∂μ) ≤
        Real.sqrt ((d.gain * (flux * t) * image x + d.darkCurrentRate * t + d.readNoiseStd ^ 2) / d.Nexp) / (d.gain * (flux * t)) + 1 / (2 * (flux * t)) := by
  choose out hout hq using fun ω => C104_quantised d (r ω) image si flux t hf ht hp hg hN him hd
  refine ⟨out, hout, fun x => ?_⟩
  have hN' : (0 : ℝ) < d.Nexp := by exact_mod_cast hN
  have hG : 0 < d.gain * (flux * t) := mul_pos hg hp
  set G := d.gain * (flux * t) with hGdef
  set q := 1 / (2 * (flux * t)) with hqdef
  have hq0 : 0 ≤ q := by positivity
  set m := image x + d.darkCurrentRate * t / G with hm
  -- the electrons before rounding
  let U : Ω → ℝ := fun ω => unrounded d (r ω) (flux * t) x
  let X : Fin 3 × ℕ → Ω → ℝ := fun i ω => (if i.1 = 2 then d.readNoiseStd else 1) * draw (r ω) x i
  let s : Finset (Fin 3 × ℕ) := Finset.univ ×ˢ Finset.range d.Nexp
  have hX : ∀ i ∈ s, MemLp (X i) 2 μ := fun i _ => (hL x i).const_mul _
  let S : Ω → ℝ := fun ω => ∑ i ∈ s, X i ω
  have hS : MemLp S 2 μ := memLp_finsetSum s hX
  have hU : U = fun ω => (1 / d.Nexp / G) * S ω := by
    funext ω
    show unrounded d (r ω) (flux * t) x = _
    unfold unrounded
    rw [noise_sum]
    show (∑ i ∈ s, X i ω) / d.Nexp / (d.gain * (flux * t)) = (1 / d.Nexp / G) * ∑ i ∈ s, X i ω
    rw [← hGdef]
    ring
  have hUL : MemLp U 2 μ := by rw [hU]; exact hS.const_mul _
  -- its mean
  have hmean : ∫ ω, U ω ∂μ = m := by
    rw [hU, integral_const_mul]
    have h1 : ∫ ω, S ω ∂μ = ∑ i ∈ s, ∫ ω, X i ω ∂μ := integral_finsetSum s fun i hi => (hX i hi).integrable one_le_two
    have h2 : ∑ i ∈ s, ∫ ω, X i ω ∂μ = d.Nexp * (G * image x + d.darkCurrentRate * t) := by
      rw [Finset.sum_product_right]
      have : ∀ e ∈ Finset.range d.Nexp, ∑ k : Fin 3, ∫ ω, X (k, e) ω ∂μ = G * image x + d.darkCurrentRate * t := by
        intro e _
        rw [Fin.sum_univ_three]
        have a0 : ∫ ω, X (0, e) ω ∂μ = G * image x := by
          rw [← (hs e x).1]; exact integral_congr_ae (Filter.Eventually.of_forall fun ω => by simp [X, draw])
        have a1 : ∫ ω, X (1, e) ω ∂μ = d.darkCurrentRate * t := by
          rw [← (hdk e x).1]; exact integral_congr_ae (Filter.Eventually.of_forall fun ω => by simp [X, draw])
        have a2 : ∫ ω, X (2, e) ω ∂μ = 0 := by
          have : ∫ ω, X (2, e) ω ∂μ = d.readNoiseStd * ∫ ω, (r ω).gauss e x ∂μ := by
            rw [← integral_const_mul]; exact integral_congr_ae (Filter.Eventually.of_forall fun ω => by simp [X, draw])
          rw [this, (hr e x).1, mul_zero]
        rw [a0, a1, a2, add_zero]
      rw [Finset.sum_congr rfl this, Finset.sum_const, Finset.card_range, nsmul_eq_mul]
    rw [h1, h2, hm]
    have := hG.ne'
    field_simp
  -- its variance
  have hvar : Var[U; μ] ≤ (G * image x + d.darkCurrentRate * t + d.readNoiseStd ^ 2) / d.Nexp / G ^ 2 := by
    rw [hU, variance_const_mul]
    have h1 : Var[S; μ] = ∑ i ∈ s, ∑ j ∈ s, cov[X i, X j; μ] := variance_fun_sum' hX
    have h2 : ∀ i ∈ s, ∑ j ∈ s, cov[X i, X j; μ] = (if i.1 = 2 then d.readNoiseStd else 1) ^ 2 * Var[fun ω => draw (r ω) x i; μ] := by
      intro i hi
      rw [Finset.sum_eq_single i]
      · rw [covariance_self (hX i hi).aestronglyMeasurable.aemeasurable]
        exact variance_const_mul _ _ _
      · intro j _ hj
        show cov[fun ω => (if i.1 = 2 then d.readNoiseStd else 1) * draw (r ω) x i, fun ω => (if j.1 = 2 then d.readNoiseStd else 1) * draw (r ω) x j; μ] = 0
        rw [covariance_const_mul_left, covariance_const_mul_right, hcov x i j (Ne.symm hj), mul_zero, mul_zero]
      · intro h; exact absurd hi h
    have h3 : Var[S; μ] ≤ d.Nexp * (G * image x + d.darkCurrentRate * t + d.readNoiseStd ^ 2) := by
      rw [h1, Finset.sum_congr rfl h2, Finset.sum_product_right]
      have : ∀ e ∈ Finset.range d.Nexp, ∑ k : Fin 3, (if k = 2 then d.readNoiseStd else 1) ^ 2 * Var[fun ω => draw (r ω) x (k, e); μ] ≤
          G * image x + d.darkCurrentRate * t + d.readNoiseStd ^ 2 := by
        intro e _
        rw [Fin.sum_univ_three]
        have b0 : Var[fun ω => draw (r ω) x (0, e); μ] ≤ G * image x := (hs e x).2
        have b1 : Var[fun ω => draw (r ω) x (1, e); μ] ≤ d.darkCurrentRate * t := (hdk e x).2
        have b2 : Var[fun ω => draw (r ω) x (2, e); μ] ≤ 1 := (hr e x).2
        have b3 := mul_le_mul_of_nonneg_left b2 (sq_nonneg d.readNoiseStd)
        have e0 : ((0 : Fin 3) = 2) = False := by decide
        have e1 : ((1 : Fin 3) = 2) = False := by decide
        simp only [e0, e1, if_false, if_true, one_pow, one_mul]
        linarith
      refine (Finset.sum_le_sum this).trans ?_
      rw [Finset.sum_const, Finset.card_range, nsmul_eq_mul]
    calc (1 / d.Nexp / G) ^ 2 * Var[S; μ] ≤ (1 / d.Nexp / G) ^ 2 * (d.Nexp * (G * image x + d.darkCurrentRate * t + d.readNoiseStd ^ 2)) :=
          mul_le_mul_of_nonneg_left h3 (sq_nonneg _)
      _ = _ := by field_simp
  -- rounding
  set V := (G * image x + d.darkCurrentRate * t + d.readNoiseStd ^ 2) / d.Nexp with hV
  let Y : Ω → ℝ := fun ω => |U ω - m|
  have hYL : MemLp Y 2 μ := (hUL.sub (memLp_const m)).abs
  have hY2 : ∫ ω, Y ω ^ 2 ∂μ = Var[U; μ] := by
    rw [variance_eq_integral hUL.aestronglyMeasurable.aemeasurable, hmean]
    exact integral_congr_ae (Filter.Eventually.of_forall fun ω => sq_abs _)
  have hY1 : (∫ ω, Y ω ∂μ) ^ 2 ≤ Var[U; μ] := by
    have := variance_nonneg Y μ
    rw [variance_eq_sub hYL] at this
    have h' : ∫ ω, (Y ^ 2) ω ∂μ = Var[U; μ] := hY2
    linarith
  have hYint : Integrable Y μ := hYL.integrable one_le_two
  have hY2int : Integrable (fun ω => Y ω ^ 2) μ := hYL.integrable_sq
  have hY0 : 0 ≤ ∫ ω, Y ω ∂μ := integral_nonneg fun ω => abs_nonneg _
  have hle : ∫ ω, (out ω x - m) ^ 2 ∂μ ≤ ∫ ω, (Y ω ^ 2 + 2 * q * Y ω + q ^ 2) ∂μ := by
    refine integral_mono_of_nonneg (Filter.Eventually.of_forall fun ω => sq_nonneg _) ((hY2int.add (hYint.const_mul _)).add (integrable_const _)) (Filter.Eventually.of_forall fun ω => ?_)
    have h1 : |out ω x - m| ≤ Y ω + q := by
      have h2 := (hq ω x).2
      have h3 : out ω x - m = (out ω x - U ω) + (U ω - m) := by ring
      rw [h3]
      refine (abs_add_le _ _).trans ?_
      have : |out ω x - U ω| ≤ q := h2
      show _ ≤ |U ω - m| + q
      linarith
    have h4 : (out ω x - m) ^ 2 ≤ (Y ω + q) ^ 2 := by
      rw [← sq_abs (out ω x - m)]
      exact pow_le_pow_left₀ (abs_nonneg _) h1 2
    show (out ω x - m) ^ 2 ≤ Y ω ^ 2 + 2 * q * Y ω + q ^ 2
    linarith [h4]
  have hI : ∫ ω, (Y ω ^ 2 + 2 * q * Y ω + q ^ 2) ∂μ = Var[U; μ] + 2 * q * ∫ ω, Y ω ∂μ + q ^ 2 := by
    have i1 : Integrable (fun ω => 2 * q * Y ω) μ := hYint.const_mul _
    have i2 : Integrable (fun ω => Y ω ^ 2 + 2 * q * Y ω) μ := hY2int.add i1
    rw [integral_add i2 (integrable_const _), integral_add hY2int i1, integral_const_mul, hY2]
    simp
  have hsd : ∫ ω, Y ω ∂μ ≤ Real.sqrt (Var[U; μ]) := by
    rw [← Real.sqrt_sq hY0]; exact Real.sqrt_le_sqrt hY1
  have hv0 : 0 ≤ Var[U; μ] := variance_nonneg _ _
  have hfin : ∫ ω, (out ω x - m) ^ 2 ∂μ ≤ (Real.sqrt (Var[U; μ]) + q) ^ 2 := by
    rw [hI] at hle
    have := mul_le_mul_of_nonneg_left hsd (by positivity : 0 ≤ 2 * q)
    have h5 := Real.sq_sqrt hv0
    nlinarith
  calc Real.sqrt (∫ ω, (out ω x - m) ^ 2 ∂μ) ≤ Real.sqrt ((Real.sqrt (Var[U; μ]) + q) ^ 2) := Real.sqrt_le_sqrt hfin
    _ = Real.sqrt (Var[U; μ]) + q := Real.sqrt_sq (add_nonneg (Real.sqrt_nonneg _) hq0)
    _ ≤ Real.sqrt V / G + q := by
      have : Real.sqrt (Var[U; μ]) ≤ Real.sqrt (V / G ^ 2) := Real.sqrt_le_sqrt hvar
      rw [Real.sqrt_div' _ (sq_nonneg G), Real.sqrt_sq hG.le] at this
      linarith

/-- A fair coin. -/
noncomputable def coin : Measure Bool := (2⁻¹ : ENNReal) • (Measure.dirac true + Measure.dirac false)

instance : IsProbabilityMeasure coin := ⟨by simp [coin, ENNReal.inv_two_add_inv_two]⟩

theorem coin_integral (f : Bool → ℝ) : ∫ b, f b ∂coin = (f true + f false) / 2 := by
  unfold coin
  rw [integral_smul_measure, integral_add_measure (Integrable.of_finite) (Integrable.of_finite), integral_dirac, integral_dirac]
  simp
  ring

/-- A detector with read noise of two electrons, an image of one pixel with three electrons, and read noise decided by a coin: the hypotheses are met. -/
example : ∃ out : Bool → Unit → ℝ,
    (∀ ω, addNoise ⟨1, 0, 2, 0, [3], [1], 1⟩ ⟨fun _ _ => 3, fun _ _ => 0, fun e _ => if e = 0 then (if ω then 1 else -1) else 0⟩ (fun _ : Unit => 1) 0 = .ok (out ω)) ∧
    Real.sqrt (∫ ω, (out ω () - 1) ^ 2 ∂coin) ≤ Real.sqrt 7 / 3 + 1 / 6 := by
  let r : Bool → Draws Unit := fun ω => ⟨fun _ _ => 3, fun _ _ => 0, fun e _ => if e = 0 then (if ω then 1 else -1) else 0⟩
  have hvar : ∀ f : Bool → ℝ, Var[f; coin] = ((f true - (f true + f false) / 2) ^ 2 + (f false - (f true + f false) / 2) ^ 2) / 2 := fun f => by
    rw [variance_eq_integral (measurable_of_finite f).aemeasurable, coin_integral, coin_integral]
  have hcov : ∀ i j, i ≠ j → cov[fun ω => draw (r ω) () i, fun ω => draw (r ω) () j; coin] = 0 := by
    intro i j hij
    unfold covariance
    rw [coin_integral, coin_integral, coin_integral]
    have hc : ∀ k : Fin 3 × ℕ, k ≠ (2, 0) → draw (r true) () k = draw (r false) () k := by
      rintro ⟨k, e⟩ h
      fin_cases k
      · rfl
      · rfl
      · have he : e ≠ 0 := fun h' => h (by rw [h']; rfl)
        simp [draw, r, he]
    by_cases hi : i = (2, 0)
    · simp only [hc j (fun hj => hij (hi.trans hj.symm))]; ring
    · simp only [hc i hi]; ring
  obtain ⟨out, h1, h2⟩ := C104_noise coin ⟨1, 0, 2, 0, [3], [1], 1⟩ r (fun _ : Unit => 1) 0 3 1 rfl rfl (by norm_num) (by norm_num) (by norm_num) (by intro _; norm_num) (by norm_num)
    (fun x i => MemLp.of_bound (measurable_of_finite _).aestronglyMeasurable (|draw (r true) x i| + |draw (r false) x i|) (Filter.Eventually.of_forall fun ω => by
      rw [Real.norm_eq_abs]
      cases ω
      · linarith [abs_nonneg (draw (r true) x i)]
      · linarith [abs_nonneg (draw (r false) x i)]))
    (fun _ i j h => hcov i j h)
    (fun e x => by rw [hvar, coin_integral]; norm_num [r])
    (fun e x => by rw [hvar, coin_integral]; norm_num [r])
    (fun e x => by
      rw [hvar, coin_integral]
      by_cases he : e = 0
      · norm_num [r, he]
      · norm_num [r, he])
  refine ⟨out, h1, ?_⟩
  have := h2 ()
  norm_num at this
  convert this using 2

end Verif.Detector
