import Verif.Model.Detector
import Verif.Props.Ellipse
import Mathlib.MeasureTheory.Integral.Bochner.Basic
import Mathlib.MeasureTheory.Constructions.BorelSpace.Order

/-!
# C104: detector noise
-/

namespace Verif.Detector
open Verif MeasureTheory

variable {P : Type}

/-- The noisy image before rounding: the mean over the exposures of the electrons, in units of the peak. -/
noncomputable def unrounded (d : Det) (r : Draws P) (peakCounts : ℝ) (x : P) : ℝ :=
  (∑ e ∈ Finset.range d.Nexp, ((r.shot e x : ℝ) + r.dark e x + d.readNoiseStd * r.gauss e x)) / d.Nexp / (d.gain * peakCounts)

theorem foldl_eq (d : Det) (r : Draws P) (x : P) (n : ℕ) :
    (List.range n).foldl (fun c e => c + exposure d r e x / d.Nexp) 0 = ∑ e ∈ Finset.range n, exposure d r e x / d.Nexp := by
  induction n with
  | zero => simp
  | succ n ih => rw [List.range_succ, List.foldl_append, ih, Finset.sum_range_succ]; rfl

/-- What a call that is accepted returns. -/
theorem addNoise_ok (d : Det) (r : Draws P) (image : P → ℝ) (si : ℕ) (flux t : ℝ) (hf : d.peakFluxVec[si]? = some flux) (ht : d.tExpVec[si]? = some t)
    (him : ∀ x, 0 ≤ d.gain * (flux * t) * image x) (hd : 0 ≤ d.darkCurrentRate * t) :
    addNoise d r image si = .ok fun x => (∑ e ∈ Finset.range d.Nexp, exposure d r e x / d.Nexp) / (flux * t) := by
  unfold addNoise
  rw [hf, ht]
  dsimp only
  rw [if_neg]
  · congr 1; funext x; rw [foldl_eq]
  · rintro ⟨-, ⟨x, hx⟩ | ⟨-, hx⟩⟩
    · exact absurd (him x) (not_le.mpr hx)
    · exact absurd hd (not_le.mpr hx)

/-- **C104 (quantisation).** Whatever the random draws, every pixel is an integer number of counts summed over the exposures, divided by the number of exposures and the peak counts, and it
differs from the mean of the electrons actually drawn by at most half a count. -/
theorem C104_quantised (d : Det) (r : Draws P) (image : P → ℝ) (si : ℕ) (flux t : ℝ) (hf : d.peakFluxVec[si]? = some flux) (ht : d.tExpVec[si]? = some t)
    (hp : 0 < flux * t) (hg : 0 < d.gain) (hN : 0 < d.Nexp) (him : ∀ x, 0 ≤ image x) (hd : 0 ≤ d.darkCurrentRate * t) :
    ∃ out, addNoise d r image si = .ok out ∧ ∀ x, (∃ k : ℤ, out x * (d.Nexp * (flux * t)) = k) ∧ |out x - unrounded d r (flux * t) x| ≤ 1 / (2 * (flux * t)) := by
  refine ⟨_, addNoise_ok d r image si flux t hf ht (fun x => mul_nonneg (mul_pos hg hp).le (him x)) hd, fun x => ⟨?_, ?_⟩⟩
  · have hN' : (d.Nexp : ℝ) ≠ 0 := by exact_mod_cast hN.ne'
    refine ⟨∑ e ∈ Finset.range d.Nexp, Dm.npRound ((r.shot e x + r.dark e x + d.readNoiseStd * r.gauss e x) / d.gain), ?_⟩
    rw [← Finset.sum_div]
    push_cast
    have : ∀ S : ℝ, S / d.Nexp / (flux * t) * (d.Nexp * (flux * t)) = S := by
      intro S
      have hp' := hp.ne'
      generalize flux * t = q at hp'
      field_simp
    rw [this]
    rfl
  · have hN' : (0 : ℝ) < d.Nexp := by exact_mod_cast hN
    have e1 : unrounded d r (flux * t) x = (∑ e ∈ Finset.range d.Nexp, ((r.shot e x : ℝ) + r.dark e x + d.readNoiseStd * r.gauss e x) / d.gain / d.Nexp) / (flux * t) := by
      unfold unrounded
      rw [← Finset.sum_div, ← Finset.sum_div]
      field_simp
    rw [e1, ← sub_div, ← Finset.sum_sub_distrib, abs_div, abs_of_pos hp]
    have h2 : |∑ e ∈ Finset.range d.Nexp, (exposure d r e x / d.Nexp - ((r.shot e x : ℝ) + r.dark e x + d.readNoiseStd * r.gauss e x) / d.gain / d.Nexp)| ≤
        ∑ e ∈ Finset.range d.Nexp, 1 / 2 / (d.Nexp : ℝ) := by
      refine (Finset.abs_sum_le_sum_abs _ _).trans (Finset.sum_le_sum fun e _ => ?_)
      rw [← sub_div, abs_div, abs_of_pos hN']
      refine div_le_div_of_nonneg_right ?_ hN'.le
      have h := Dm.npRound_bounds (((r.shot e x : ℝ) + r.dark e x + d.readNoiseStd * r.gauss e x) / d.gain)
      unfold exposure
      rw [abs_le]
      constructor <;> dsimp only <;> linarith [h.1, h.2]
    rw [Finset.sum_const, Finset.card_range, nsmul_eq_mul] at h2
    have h3 : (d.Nexp : ℝ) * (1 / 2 / d.Nexp) = 1 / 2 := by field_simp
    rw [h3] at h2
    calc _ ≤ 1 / 2 / (flux * t) := div_le_div_of_nonneg_right h2 hp.le
      _ = 1 / (2 * (flux * t)) := by rw [div_div]

theorem npRound_measurable : Measurable fun y : ℝ => ((Dm.npRound y : ℤ) : ℝ) := by
  apply Monotone.measurable
  intro a b h
  have := Shape.npRound_mono h
  show ((Dm.npRound a : ℤ) : ℝ) ≤ ((Dm.npRound b : ℤ) : ℝ)
  exact_mod_cast this

/-- **C104 (mean).** Over any random draws whose means are the requested ones - photo-electrons `gain · peakCounts · image`, dark electrons `darkCurrentRate · tExp`, read noise 0 -
the mean of the noisy image is the input image plus the dark level, up to half a count: the noise does not bias the image otherwise. (The dark level is not subtracted.) -/
theorem C104_mean {Ω : Type*} [MeasurableSpace Ω] (μ : Measure Ω) [IsProbabilityMeasure μ] (d : Det) (r : Ω → Draws P) (image : P → ℝ) (si : ℕ) (flux t : ℝ)
    (hf : d.peakFluxVec[si]? = some flux) (ht : d.tExpVec[si]? = some t) (hp : 0 < flux * t) (hg : 0 < d.gain) (hN : 0 < d.Nexp) (him : ∀ x, 0 ≤ image x) (hd : 0 ≤ d.darkCurrentRate * t)
    (hs : ∀ e x, Integrable (fun ω => ((r ω).shot e x : ℝ)) μ ∧ ∫ ω, ((r ω).shot e x : ℝ) ∂μ = d.gain * (flux * t) * image x)
    (hdk : ∀ e x, Integrable (fun ω => ((r ω).dark e x : ℝ)) μ ∧ ∫ ω, ((r ω).dark e x : ℝ) ∂μ = d.darkCurrentRate * t)
    (hr : ∀ e x, Integrable (fun ω => (r ω).gauss e x) μ ∧ ∫ ω, (r ω).gauss e x ∂μ = 0) :
    ∃ out : Ω → P → ℝ, (∀ ω, addNoise d (r ω) image si = .ok (out ω)) ∧
      ∀ x, |∫ ω, out ω x ∂μ - (image x + d.darkCurrentRate * t / (d.gain * (flux * t)))| ≤ 1 / (2 * (flux * t)) := by
  choose out hout hq using fun ω => C104_quantised d (r ω) image si flux t hf ht hp hg hN him hd
  refine ⟨out, hout, fun x => ?_⟩
  have hN' : (0 : ℝ) < d.Nexp := by exact_mod_cast hN
  have hie : ∀ e, Integrable (fun ω => ((r ω).shot e x : ℝ) + (r ω).dark e x + d.readNoiseStd * (r ω).gauss e x) μ :=
    fun e => ((hs e x).1.add (hdk e x).1).add ((hr e x).1.const_mul _)
  have hint : Integrable (fun ω => unrounded d (r ω) (flux * t) x) μ := by
    unfold unrounded
    exact ((integrable_finsetSum _ fun e _ => hie e).div_const _).div_const _
  have hmean : ∫ ω, unrounded d (r ω) (flux * t) x ∂μ = image x + d.darkCurrentRate * t / (d.gain * (flux * t)) := by
    unfold unrounded
    rw [integral_div, integral_div, integral_finsetSum _ fun e _ => hie e]
    have : ∀ e ∈ Finset.range d.Nexp, ∫ ω, (((r ω).shot e x : ℝ) + (r ω).dark e x + d.readNoiseStd * (r ω).gauss e x) ∂μ = d.gain * (flux * t) * image x + d.darkCurrentRate * t := by
      intro e _
      have h12 : Integrable (fun ω => ((r ω).shot e x : ℝ) + (r ω).dark e x) μ := (hs e x).1.add (hdk e x).1
      have h3 : Integrable (fun ω => d.readNoiseStd * (r ω).gauss e x) μ := (hr e x).1.const_mul _
      rw [integral_add h12 h3, integral_add (hs e x).1 (hdk e x).1, integral_const_mul, (hs e x).2, (hdk e x).2, (hr e x).2]
      ring
    rw [Finset.sum_congr rfl this, Finset.sum_const, Finset.card_range, nsmul_eq_mul]
    have hg' := hg.ne'
    have hp' := hp.ne'
    generalize flux * t = q at hp'
    field_simp
  have hmeas : AEStronglyMeasurable (fun ω => out ω x) μ := by
    have e1 : (fun ω => out ω x) = fun ω => (∑ e ∈ Finset.range d.Nexp, ((Dm.npRound ((((r ω).shot e x : ℝ) + (r ω).dark e x + d.readNoiseStd * (r ω).gauss e x) / d.gain) : ℤ) : ℝ) / d.Nexp) / (flux * t) := by
      funext ω
      have h1 := hout ω
      rw [addNoise_ok d (r ω) image si flux t hf ht (fun x => mul_nonneg (mul_pos hg hp).le (him x)) hd] at h1
      have := congrFun (Except.ok.inj h1) x
      rw [← this]; rfl
    rw [e1]
    refine AEMeasurable.aestronglyMeasurable ?_
    refine AEMeasurable.div_const ?_ _
    refine Finset.aemeasurable_fun_sum _ fun e _ => AEMeasurable.div_const ?_ _
    exact npRound_measurable.comp_aemeasurable (((hie e).aestronglyMeasurable.aemeasurable).div_const _)
  have hdiff : Integrable (fun ω => out ω x - unrounded d (r ω) (flux * t) x) μ := by
    refine Integrable.mono' (integrable_const (1 / (2 * (flux * t)))) (hmeas.sub hint.aestronglyMeasurable) (Filter.Eventually.of_forall fun ω => ?_)
    rw [Real.norm_eq_abs]
    exact (hq ω x).2
  have hout' : Integrable (fun ω => out ω x) μ := by
    have := hdiff.add hint
    refine this.congr (Filter.Eventually.of_forall fun ω => ?_)
    simp
  rw [← hmean, ← integral_sub hout' hint, ← Real.norm_eq_abs]
  refine (norm_integral_le_of_norm_le_const (C := 1 / (2 * (flux * t))) (Filter.Eventually.of_forall fun ω => ?_)).trans ?_
  · rw [Real.norm_eq_abs]; exact (hq ω x).2
  · simp

/-- **C104 (refusals).** A sub-band without an entry in the flux or exposure-time vector is an IndexError, a negative intensity a ValueError. -/
theorem C104_refusals (d : Det) (r : Draws P) (image : P → ℝ) (si : ℕ) :
    (d.peakFluxVec.length ≤ si ∨ d.tExpVec.length ≤ si → addNoise d r image si = .error .indexError) ∧
    (∀ flux t, d.peakFluxVec[si]? = some flux → d.tExpVec[si]? = some t → 0 < flux * t → 0 < d.gain → 0 < d.Nexp → ∀ x, image x < 0 → addNoise d r image si = .error .valueError) := by
  refine ⟨fun h => ?_, fun flux t hf ht hp hg hN x hx => ?_⟩
  · unfold addNoise
    rcases h with h | h
    · rw [List.getElem?_eq_none h]
    · rw [List.getElem?_eq_none h]; cases d.peakFluxVec[si]? <;> rfl
  · unfold addNoise
    rw [hf, ht]
    dsimp only
    rw [if_pos ⟨hN, .inl ⟨x, mul_neg_of_pos_of_neg (mul_pos hg hp) hx⟩⟩]

/-- The default detector (falco/setup.py:415-428) with one sub-band. -/
noncomputable def default : Det := ⟨1, 0.015, 1.7, 3e4, [1e8], [1], 1⟩

/-- **C104 (saturation).** Violated: the well depth is never applied. With the default detector (30000 electrons deep) an on-axis star drawn at its mean of `1e8` electrons per pixel is
returned as it is. -/
theorem C104_saturation_violated : ∃ (r : Draws Unit) (out : Unit → ℝ), addNoise default r (fun _ => 1) 0 = .ok out ∧
    out () * 1e8 * default.gain = 1e8 ∧ default.wellDepth < out () * 1e8 * default.gain := by
  have h := addNoise_ok default (P := Unit) ⟨fun _ _ => 100000000, fun _ _ => 0, fun _ _ => 0⟩ (fun _ => 1) 0 1e8 1 rfl rfl (fun _ => by simp only [default]; norm_num)
    (by simp only [default]; norm_num)
  refine ⟨_, _, h, ?_⟩
  have hr : Dm.npRound ((((100000000 : ℕ) : ℝ) + ((0 : ℕ) : ℝ) + 1.7 * 0) / 1) = 100000000 := by
    have e : (((100000000 : ℕ) : ℝ) + ((0 : ℕ) : ℝ) + 1.7 * 0) / 1 = ((100000000 : ℤ) : ℝ) := by push_cast; ring
    rw [e]
    have := Dm.npRound_bounds ((100000000 : ℤ) : ℝ)
    have h1 : ((Dm.npRound ((100000000 : ℤ) : ℝ) : ℤ) : ℝ) < ((100000001 : ℤ) : ℝ) := by push_cast; push_cast at this; linarith [this.2]
    have h2 : ((99999999 : ℤ) : ℝ) < ((Dm.npRound ((100000000 : ℤ) : ℝ) : ℤ) : ℝ) := by push_cast; push_cast at this; linarith [this.1]
    have h1' : Dm.npRound ((100000000 : ℤ) : ℝ) < 100000001 := by exact_mod_cast h1
    have h2' : 99999999 < Dm.npRound ((100000000 : ℤ) : ℝ) := by exact_mod_cast h2
    omega
  have hv : ∑ e ∈ Finset.range default.Nexp, exposure default (P := Unit) ⟨fun _ _ => 100000000, fun _ _ => 0, fun _ _ => 0⟩ e () / default.Nexp = 1e8 := by
    show ∑ e ∈ Finset.range 1, _ / ((1 : ℕ) : ℝ) = 1e8
    rw [Finset.sum_range_one]
    unfold exposure
    show ((Dm.npRound ((((100000000 : ℕ) : ℝ) + ((0 : ℕ) : ℝ) + 1.7 * 0) / 1) : ℤ) : ℝ) / ((1 : ℕ) : ℝ) = 1e8
    rw [hr]; norm_num
  rw [hv]
  simp only [default]
  norm_num

/-- The hypotheses of `C104_mean` are met by draws that always equal their means. -/
example : ∃ (d : Det) (r : Unit → Draws Unit), (∀ e x, ∫ ω, ((r ω).shot e x : ℝ) ∂(Measure.dirac ()) = d.gain * (100 * 1) * 0.5) ∧ 0 < d.Nexp :=
  ⟨⟨2, 3, 1, 1e4, [100], [1], 2⟩, fun _ => ⟨fun _ _ => 100, fun _ _ => 3, fun _ _ => 0⟩, fun e x => by simp; norm_num, by norm_num⟩

end Verif.Detector
