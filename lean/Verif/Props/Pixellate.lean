import Verif.Model.Pixellate
import Verif.Props.Szoom
import Verif.Props.DiffDm
import Mathlib.Analysis.SpecialFunctions.Integrals.Basic
import Mathlib.Analysis.SpecialFunctions.Trigonometric.Sinc

/-!
# C130: integration of an image over detector pixels (prop_pixellate)
-/

namespace Verif.Pixellate
open Verif Complex Verif.Optics

variable {n : ℕ} [NeZero n]

/-! ## Specification -/

/-- The periodic, band-limited function of two real variables with coefficients `a`: frequencies from `-(n//2)` to `n - n//2 - 1`, period `n` pixels. -/
noncomputable def bandLimited (n : ℕ) (a : ℤ → ℤ → ℂ) (Y X : ℝ) : ℂ :=
  ∑ f ∈ Finset.Ico (-((n / 2 : ℕ) : ℤ)) ((n : ℤ) - (n / 2 : ℕ)), ∑ g ∈ Finset.Ico (-((n / 2 : ℕ) : ℤ)) ((n : ℤ) - (n / 2 : ℕ)),
    a f g * exp (2 * Real.pi * I * f / n * Y) * exp (2 * Real.pi * I * g / n * X)

/-- The image consists of the samples of `F` at the pixel centres. -/
def SampledFrom (image : ZMod n → ZMod n → ℝ) (F : ℝ → ℝ → ℂ) : Prop := ∀ i j, (image i j : ℂ) = F i.val j.val

/-- The integral of `F` over the square of side `p` centred on pixel `(i, j)`. -/
noncomputable def overPixel (F : ℝ → ℝ → ℂ) (p : ℝ) (i j : ZMod n) : ℂ :=
  ∫ Y in ((i.val : ℝ) - p / 2)..((i.val : ℝ) + p / 2), ∫ X in ((j.val : ℝ) - p / 2)..((j.val : ℝ) + p / 2), F Y X

/-! ## Lemmas -/

/-- the signed frequency of entry `k` -/
def frq (n : ℕ) (k : ZMod n) : ℤ := ((k + ((n / 2 : ℕ) : ZMod n)).val : ℤ) - (n / 2 : ℕ)

theorem frq_cast (k : ZMod n) : ((frq n k : ℤ) : ZMod n) = k := by
  unfold frq
  generalize n / 2 = H
  push_cast
  rw [ZMod.natCast_val, ZMod.cast_id]
  ring

theorem sum_frq {α : Type} [AddCommMonoid α] (φ : ℤ → α) : ∑ f ∈ Finset.Ico (-((n / 2 : ℕ) : ℤ)) ((n : ℤ) - (n / 2 : ℕ)), φ f = ∑ k : ZMod n, φ (frq n k) := by
  symm
  refine Finset.sum_bij (fun k _ => frq n k) ?_ ?_ ?_ (fun _ _ => rfl)
  · intro k _
    have := ZMod.val_lt (k + ((n / 2 : ℕ) : ZMod n))
    rw [Finset.mem_Ico]
    unfold frq
    omega
  · intro k _ l _ h
    rw [← frq_cast k, ← frq_cast l, h]
  · intro f hf
    rw [Finset.mem_Ico] at hf
    refine ⟨(f : ZMod n), Finset.mem_univ _, ?_⟩
    unfold frq
    have e : ((f : ZMod n) + ((n / 2 : ℕ) : ZMod n)) = (((f + (n / 2 : ℕ)).toNat : ℕ) : ZMod n) := by
      have : (((f + (n / 2 : ℕ)).toNat : ℕ) : ℤ) = f + (n / 2 : ℕ) := Int.toNat_of_nonneg (by omega)
      calc ((f : ZMod n) + ((n / 2 : ℕ) : ZMod n)) = (((f + (n / 2 : ℕ) : ℤ)) : ZMod n) := by generalize n / 2 = H; push_cast; ring
        _ = (((((f + (n / 2 : ℕ)).toNat : ℕ) : ℤ)) : ZMod n) := by rw [this]
        _ = _ := by push_cast; rfl
    rw [e, ZMod.val_natCast, Nat.mod_eq_of_lt (by omega)]
    omega

theorem char_frq (k i : ZMod n) : exp (2 * Real.pi * I * (frq n k : ℤ) / n * (i.val : ℝ)) = ZMod.stdAddChar (i * k) := by
  have : (i * k : ZMod n) = ((frq n k * (i.val : ℤ) : ℤ) : ZMod n) := by
    push_cast
    rw [frq_cast, ZMod.natCast_val, ZMod.cast_id, mul_comm]
  rw [this, ZMod.stdAddChar_coe]
  congr 1
  push_cast
  ring

theorem ifft2_sum (X : ZMod n → ZMod n → ℂ) (i j : ZMod n) :
    ifft2 X i j = ((n : ℂ) * n)⁻¹ * ∑ k, ∑ l, ZMod.stdAddChar (i * k) * ZMod.stdAddChar (j * l) * X k l := by
  simp only [ifft2, ifft1, exp_eq_char, Finset.mul_sum]
  refine Finset.sum_congr rfl fun k _ => Finset.sum_congr rfl fun l _ => ?_
  rw [mul_inv]
  ring

theorem sampled (a : ℤ → ℤ → ℂ) (i j : ZMod n) :
    bandLimited n a i.val j.val = ((n : ℂ) * n) * ifft2 (fun k l : ZMod n => a (frq n k) (frq n l)) i j := by
  have hn : (n : ℂ) ≠ 0 := Nat.cast_ne_zero.mpr (NeZero.ne n)
  rw [ifft2_sum, ← mul_assoc, mul_inv_cancel₀ (mul_ne_zero hn hn), one_mul]
  unfold bandLimited
  rw [sum_frq]
  refine Finset.sum_congr rfl fun k _ => ?_
  rw [sum_frq]
  refine Finset.sum_congr rfl fun l _ => ?_
  rw [char_frq, char_frq]
  ring

/-- The convolution multiplies the coefficients by the transfer function. -/
theorem convolved_eq (a : ℤ → ℤ → ℂ) (image : ZMod n → ZMod n → ℝ) (h : SampledFrom image (bandLimited n a)) (sIn sOut : ℝ) (i j : ZMod n) :
    convolved image sIn sOut i j = ‖∑ k, ∑ l, ZMod.stdAddChar (i * k) * ZMod.stdAddChar (j * l) * (a (frq n k) (frq n l) * ((y n (sOut / sIn) k * y n (sOut / sIn) l : ℝ) : ℂ))‖ / (sIn / sOut) ^ 2 := by
  have hn : (n : ℂ) ≠ 0 := Nat.cast_ne_zero.mpr (NeZero.ne n)
  have hnn : (n : ℂ) * n ≠ 0 := mul_ne_zero hn hn
  have himg : roll2 (fun i j => (image i j : ℂ)) (-(n / 2 : ℕ)) (-(n / 2 : ℕ))
      = ifft2 fun k l : ZMod n => ((n : ℂ) * n) * (ZMod.stdAddChar (((n / 2 : ℕ) : ZMod n) * k) * ZMod.stdAddChar (((n / 2 : ℕ) : ZMod n) * l) * a (frq n k) (frq n l)) := by
    funext i j
    simp only [roll2]
    rw [h, sampled, ifft2_smul, ifft2_sum]
    show _ = ((n : ℂ) * n) * ifft2 _ i j
    rw [ifft2_sum]
    congr 2
    refine Finset.sum_congr rfl fun k _ => Finset.sum_congr rfl fun l _ => ?_
    rw [show i - ((-((n / 2 : ℕ) : ℤ) : ℤ) : ZMod n) = i + ((n / 2 : ℕ) : ZMod n) by generalize n / 2 = H; push_cast; ring, show j - ((-((n / 2 : ℕ) : ℤ) : ℤ) : ZMod n) = j + ((n / 2 : ℕ) : ZMod n) by generalize n / 2 = H; push_cast; ring,
      add_mul, add_mul, AddChar.map_add_eq_mul, AddChar.map_add_eq_mul]
    ring
  unfold convolved
  simp only [himg, fft2_ifft2]
  simp only [roll2]
  congr 2
  rw [ifft2_sum, mul_comm, ← mul_assoc, mul_inv_cancel₀ hnn, one_mul]
  refine Finset.sum_congr rfl fun k _ => Finset.sum_congr rfl fun l _ => ?_
  rw [mul_div_cancel_left₀ _ hnn]
  have e1 : ∀ i k : ZMod n, (ZMod.stdAddChar (i * k) : ℂ) = ZMod.stdAddChar ((i - (((n / 2 : ℕ) : ℤ) : ZMod n)) * k) * ZMod.stdAddChar (((n / 2 : ℕ) : ZMod n) * k) := by
    intro i k
    rw [← AddChar.map_add_eq_mul]
    congr 1
    generalize n / 2 = H
    push_cast
    ring
  rw [e1 i k, e1 j l]
  ring

/-- Integral of a harmonic over an interval of length `q` around `x`. -/
theorem integral_harmonic (w q x : ℝ) : ∫ X in (x - q / 2)..(x + q / 2), exp (I * w * X) = ((q * Real.sinc (w * q / 2) : ℝ) : ℂ) * exp (I * w * x) := by
  by_cases hw : w = 0
  · subst hw
    simp
  · have hc : I * (w : ℂ) ≠ 0 := mul_ne_zero I_ne_zero (ofReal_ne_zero.mpr hw)
    rw [integral_exp_mul_complex hc]
    by_cases hq : q = 0
    · subst hq; simp
    · have hs : w * q / 2 ≠ 0 := by positivity
      rw [Real.sinc_of_ne_zero hs]
      have e1 : I * (w : ℂ) * ((x + q / 2 : ℝ) : ℂ) = I * w * x + ((w * q / 2 : ℝ) : ℂ) * I := by push_cast; ring
      have e2 : I * (w : ℂ) * ((x - q / 2 : ℝ) : ℂ) = I * w * x + -(((w * q / 2 : ℝ) : ℂ) * I) := by push_cast; ring
      rw [e1, e2, exp_add, exp_add]
      have hsin : exp (((w * q / 2 : ℝ) : ℂ) * I) - exp (-(((w * q / 2 : ℝ) : ℂ) * I)) = 2 * I * ((Real.sin (w * q / 2) : ℝ) : ℂ) := by
        rw [ofReal_sin, Complex.sin]
        ring_nf
        rw [I_sq]
        ring
      have : exp (I * w * x) * exp (((w * q / 2 : ℝ) : ℂ) * I) - exp (I * w * x) * exp (-(((w * q / 2 : ℝ) : ℂ) * I)) = exp (I * w * x) * (2 * I * ((Real.sin (w * q / 2) : ℝ) : ℂ)) := by
        rw [← hsin]; ring
      rw [this]
      have hw' : (w : ℂ) ≠ 0 := ofReal_ne_zero.mpr hw
      have hq' : (q : ℂ) ≠ 0 := ofReal_ne_zero.mpr hq
      push_cast
      field_simp

theorem y_eq (hn : 2 ≤ n) {p : ℝ} (hp : p ≠ 0) (k : ZMod n) : y n p k = Real.sinc (2 * Real.pi * frq n k / n * (p * n / (2 * (n / 2 : ℕ))) / 2) := by
  have hh : ((n / 2 : ℕ) : ℝ) ≠ 0 := by
    have : 0 < n / 2 := by omega
    positivity
  have hn' : (n : ℝ) ≠ 0 := by positivity
  have e : 2 * Real.pi * frq n k / n * (p * n / (2 * (n / 2 : ℕ))) / 2 = tArg n p k := by
    unfold tArg frq
    generalize n / 2 = H at *
    push_cast
    field_simp
    ring
  rw [e]
  unfold y
  by_cases hk : k = 0
  · rw [if_pos hk]
    have : tArg n p k = 0 := by
      unfold tArg
      rw [hk, zero_add, ZMod.val_natCast, Nat.mod_eq_of_lt (by omega)]
      simp
    rw [this, Real.sinc_zero]
  · rw [if_neg hk]
    have hne : frq n k ≠ 0 := by
      intro h0
      apply hk
      rw [← frq_cast k, h0, Int.cast_zero]
    have hne' : ((frq n k : ℤ) : ℝ) ≠ 0 := Int.cast_ne_zero.mpr hne
    have ht : tArg n p k ≠ 0 := by
      rw [← e]
      positivity
    rw [Real.sinc_of_ne_zero ht]

theorem overPixel_eq (a : ℤ → ℤ → ℂ) (q : ℝ) (i j : ZMod n) : overPixel (bandLimited n a) q i j
    = ∑ k, ∑ l, ZMod.stdAddChar (i * k) * ZMod.stdAddChar (j * l) *
      (a (frq n k) (frq n l) * ((q * Real.sinc (2 * Real.pi * frq n k / n * q / 2) : ℝ) : ℂ) * ((q * Real.sinc (2 * Real.pi * frq n l / n * q / 2) : ℝ) : ℂ)) := by
  unfold overPixel
  have hb : ∀ Y X : ℝ, bandLimited n a Y X = ∑ k : ZMod n, ∑ l : ZMod n, a (frq n k) (frq n l) * exp (I * ((2 * Real.pi * frq n k / n : ℝ) : ℂ) * Y) * exp (I * ((2 * Real.pi * frq n l / n : ℝ) : ℂ) * X) := by
    intro Y X
    unfold bandLimited
    rw [sum_frq]
    refine Finset.sum_congr rfl fun k _ => ?_
    rw [sum_frq]
    refine Finset.sum_congr rfl fun l _ => ?_
    congr 2
    · congr 1
      congr 1
      push_cast
      ring
    · congr 1
      push_cast
      ring
  have hin : ∀ Y : ℝ, (∫ X in ((j.val : ℝ) - q / 2)..((j.val : ℝ) + q / 2), bandLimited n a Y X)
      = ∑ k : ZMod n, ∑ l : ZMod n, (a (frq n k) (frq n l) * (((q * Real.sinc (2 * Real.pi * frq n l / n * q / 2) : ℝ) : ℂ) * ZMod.stdAddChar (j * l))) * exp (I * ((2 * Real.pi * frq n k / n : ℝ) : ℂ) * Y) := by
    intro Y
    simp only [hb]
    rw [intervalIntegral.integral_finset_sum (fun k _ => Continuous.intervalIntegrable (by fun_prop) _ _)]
    refine Finset.sum_congr rfl fun k _ => ?_
    rw [intervalIntegral.integral_finset_sum (fun k _ => Continuous.intervalIntegrable (by fun_prop) _ _)]
    refine Finset.sum_congr rfl fun l _ => ?_
    rw [intervalIntegral.integral_const_mul, integral_harmonic]
    have := char_frq l j
    rw [← this]
    have e : I * ((2 * Real.pi * frq n l / n : ℝ) : ℂ) * ((j.val : ℝ) : ℂ) = 2 * Real.pi * I * (frq n l : ℤ) / n * ((j.val : ℝ) : ℂ) := by
      push_cast
      ring
    rw [e]
    ring
  simp only [hin]
  rw [intervalIntegral.integral_finset_sum (fun k _ => Continuous.intervalIntegrable (by fun_prop) _ _)]
  refine Finset.sum_congr rfl fun k _ => ?_
  rw [intervalIntegral.integral_finset_sum (fun k _ => Continuous.intervalIntegrable (by fun_prop) _ _)]
  refine Finset.sum_congr rfl fun l _ => ?_
  rw [intervalIntegral.integral_const_mul, integral_harmonic]
  have := char_frq k i
  rw [← this]
  have e : I * ((2 * Real.pi * frq n k / n : ℝ) : ℂ) * ((i.val : ℝ) : ℂ) = 2 * Real.pi * I * (frq n k : ℤ) / n * ((i.val : ℝ) : ℂ) := by
    push_cast
    ring
  rw [e]
  ring

theorem side_even (hn : n % 2 = 0) (h2 : 2 ≤ n) (p : ℝ) : p * n / (2 * (n / 2 : ℕ)) = p := by
  have e : (n : ℝ) = 2 * ((n / 2 : ℕ) : ℝ) := by
    have h : n = 2 * (n / 2) := by omega
    exact_mod_cast h
  have hh : ((n / 2 : ℕ) : ℝ) ≠ 0 := by
    have : 0 < n / 2 := by omega
    positivity
  generalize ((n / 2 : ℕ) : ℝ) = H at *
  rw [e]
  field_simp

theorem side_odd (h : ℕ) (p : ℝ) : p * ((2 * h + 1 : ℕ) : ℝ) / (2 * ((2 * h + 1) / 2 : ℕ)) = p * (2 * h + 1) / (2 * h) := by
  rw [show (2 * h + 1) / 2 = h by omega]
  push_cast
  rfl

theorem convolved_side (h2 : 2 ≤ n) {sIn sOut : ℝ} (h1 : 0 < sIn) (h3 : 0 < sOut) (a : ℤ → ℤ → ℂ) (image : ZMod n → ZMod n → ℝ) (h : SampledFrom image (bandLimited n a)) (i j : ZMod n) :
    convolved image sIn sOut i j = ‖overPixel (bandLimited n a) (sOut / sIn * n / (2 * (n / 2 : ℕ))) i j‖ * (2 * ((n / 2 : ℕ) : ℝ) / n) ^ 2 := by
  have hp : sOut / sIn ≠ 0 := by positivity
  have hh : ((n / 2 : ℕ) : ℝ) ≠ 0 := by
    have : 0 < n / 2 := by omega
    positivity
  have hn' : (n : ℝ) ≠ 0 := by positivity
  rw [convolved_eq a image h, overPixel_eq]
  simp only [y_eq h2 hp]
  have key : ∀ S : ZMod n → ℝ, ∀ q : ℝ, ∑ k, ∑ l, ZMod.stdAddChar (i * k) * ZMod.stdAddChar (j * l) * (a (frq n k) (frq n l) * ((q * S k : ℝ) : ℂ) * ((q * S l : ℝ) : ℂ))
      = ((q ^ 2 : ℝ) : ℂ) * ∑ k, ∑ l, ZMod.stdAddChar (i * k) * ZMod.stdAddChar (j * l) * (a (frq n k) (frq n l) * ((S k * S l : ℝ) : ℂ)) := by
    intro S q
    rw [Finset.mul_sum]
    refine Finset.sum_congr rfl fun k _ => ?_
    rw [Finset.mul_sum]
    refine Finset.sum_congr rfl fun l _ => ?_
    push_cast
    ring
  rw [key (fun k => Real.sinc (2 * Real.pi * frq n k / n * (sOut / sIn * n / (2 * (n / 2 : ℕ))) / 2)), norm_mul, norm_real, Real.norm_of_nonneg (sq_nonneg _)]
  generalize ‖(_ : ℂ)‖ = N
  field_simp

/-! ## Theorems -/

/-- **C130 (integration).** On an even number of pixels, before the resampling each pixel holds the absolute value of the integral, over the detector pixel centred on it (side `sOut / sIn` in input pixels), of the band-limited function of which the image is a sample. -/
theorem C130_integral (hn : n % 2 = 0) {sIn sOut : ℝ} (h1 : 0 < sIn) (h3 : 0 < sOut) (a : ℤ → ℤ → ℂ) (image : ZMod n → ZMod n → ℝ)
    (h : SampledFrom image (bandLimited n a)) (i j : ZMod n) :
    convolved image sIn sOut i j = ‖overPixel (bandLimited n a) (sOut / sIn) i j‖ := by
  have h2 : 2 ≤ n := by have := NeZero.ne n; omega
  rw [convolved_side h2 h1 h3 a image h, side_even hn h2]
  have e : (2 * ((n / 2 : ℕ) : ℝ) / n) = 1 := by
    have hn' : (n : ℝ) ≠ 0 := by positivity
    rw [div_eq_one_iff_eq hn']
    have h : 2 * (n / 2) = n := by omega
    exact_mod_cast h
  rw [e]
  ring

/-- Every image is a sample of such a function. -/
theorem C130_every_image (image : ZMod n → ZMod n → ℝ) : ∃ a, SampledFrom image (bandLimited n a) := by
  have hn : (n : ℂ) ≠ 0 := Nat.cast_ne_zero.mpr (NeZero.ne n)
  refine ⟨fun f g => ((n : ℂ) * n)⁻¹ * fft2 (fun i j => (image i j : ℂ)) (f : ZMod n) (g : ZMod n), fun i j => ?_⟩
  rw [sampled]
  simp only [frq_cast]
  rw [ifft2_smul, ifft2_fft2]
  field_simp

/-- **C130 (violated for odd sizes).** On `2h + 1` pixels the square has the side `(2h + 1)/(2h)` times that of the detector pixel (the integral is scaled to the area of the detector pixel). -/
theorem C130_odd_violated (h : ℕ) (hh : 0 < h) {sIn sOut : ℝ} (h1 : 0 < sIn) (h3 : 0 < sOut) (a : ℤ → ℤ → ℂ) (image : ZMod (2 * h + 1) → ZMod (2 * h + 1) → ℝ)
    (hs : SampledFrom image (bandLimited (2 * h + 1) a)) (i j : ZMod (2 * h + 1)) :
    convolved image sIn sOut i j = ‖overPixel (bandLimited (2 * h + 1) a) (sOut / sIn * (2 * h + 1) / (2 * h)) i j‖ * (2 * h / (2 * h + 1)) ^ 2 := by
  rw [convolved_side (by omega) h1 h3 a image hs, side_odd, show (2 * h + 1) / 2 = h by omega]
  push_cast
  rfl

theorem sumZ3 (φ : ZMod 3 → ℂ) : ∑ k, φ k = φ 0 + φ 1 + φ 2 := Fin.sum_univ_three φ

/-- **C130 (violated for odd sizes, example).** Three pixels, detector pixels twice as large, an image that varies as `cos(2πx/3)`: the program returns 0 on pixel `(0, 0)`, the integral over the detector pixel is not 0. -/
theorem C130_odd_example_violated : ∃ (a : ℤ → ℤ → ℂ) (image : ZMod 3 → ZMod 3 → ℝ), SampledFrom image (bandLimited 3 a) ∧
    convolved image 1 2 0 0 = 0 ∧ overPixel (n := 3) (bandLimited 3 a) 2 0 0 ≠ 0 := by
  let a : ℤ → ℤ → ℂ := fun f g => if f = 0 ∧ (g = 1 ∨ g = -1) then 1 / 2 else 0
  have f0 : frq 3 0 = 0 := by decide
  have f1 : frq 3 1 = 1 := by decide
  have f2 : frq 3 2 = -1 := by decide
  have hp : ∀ q : ℝ, overPixel (n := 3) (bandLimited 3 a) q 0 0 = ((q ^ 2 * Real.sinc (Real.pi * q / 3) : ℝ) : ℂ) := by
    intro q
    rw [overPixel_eq]
    simp only [sumZ3, f0, f1, f2, a, zero_mul, AddChar.map_zero_eq_one]
    norm_num
    have e1 : 2 * Real.pi / 3 * q / 2 = Real.pi * q / 3 := by ring
    have e2 : -(2 * Real.pi) / 3 * q / 2 = -(Real.pi * q / 3) := by ring
    rw [e1, e2, Real.sinc_neg]
    push_cast
    ring
  have hreal : ∀ i j : ZMod 3, ∃ x : ℝ, (x : ℂ) = bandLimited 3 a (i.val : ℝ) (j.val : ℝ) := by
    intro i j
    refine ⟨Real.cos (2 * Real.pi / 3 * j.val), ?_⟩
    unfold bandLimited
    rw [sum_frq]
    simp only [sum_frq, sumZ3, f0, f1, f2, a]
    generalize (j.val : ℝ) = J
    norm_num
    rw [Complex.cos]
    have e1 : 2 * (Real.pi : ℂ) * I / 3 * (J : ℂ) = 2 * Real.pi / 3 * (J : ℂ) * I := by ring
    have e2 : -(2 * (Real.pi : ℂ) * I) / 3 * (J : ℂ) = -(2 * Real.pi / 3 * (J : ℂ)) * I := by ring
    rw [e1, e2]
    ring
  choose image himg using hreal
  refine ⟨a, image, himg, ?_, ?_⟩
  · have := C130_odd_violated 1 one_pos (sIn := 1) (sOut := 2) one_pos two_pos a image himg 0 0
    rw [this, show (2 : ℝ) / 1 * (2 * (1 : ℕ) + 1) / (2 * (1 : ℕ)) = 3 by norm_num]
    have h3 := hp 3
    rw [show Real.pi * 3 / 3 = Real.pi by ring, Real.sinc_of_ne_zero Real.pi_ne_zero, Real.sin_pi] at h3
    have h3' : overPixel (n := 2 * 1 + 1) (bandLimited (2 * 1 + 1) a) 3 0 0 = 0 := h3.trans (by simp)
    rw [h3']
    simp
  · rw [hp, ofReal_ne_zero]
    have hs : Real.sinc (Real.pi * 2 / 3) ≠ 0 := by
      rw [Real.sinc_of_ne_zero (by positivity)]
      have : 0 < Real.sin (Real.pi * 2 / 3) := Real.sin_pos_of_pos_of_lt_pi (by positivity) (by linarith [Real.pi_pos])
      positivity
    positivity

/-- **C130 (constant image).** A constant image `c ≥ 0` becomes `c` times the area of the detector pixel in input pixels, for every size. -/
theorem C130_constant (h2 : 2 ≤ n) {sIn sOut : ℝ} (h1 : 0 < sIn) (h3 : 0 < sOut) (c : ℝ) (hc : 0 ≤ c) (i j : ZMod n) :
    convolved (fun _ _ : ZMod n => c) sIn sOut i j = c * (sOut / sIn) ^ 2 := by
  let a : ℤ → ℤ → ℂ := fun f g => if f = 0 ∧ g = 0 then c else 0
  have hz : ∀ k : ZMod n, frq n k = 0 ↔ k = 0 := by
    intro k
    constructor
    · intro h; rw [← frq_cast k, h, Int.cast_zero]
    · rintro rfl
      unfold frq
      rw [zero_add, ZMod.val_natCast, Nat.mod_eq_of_lt (by omega)]
      omega
  have hs : SampledFrom (fun _ _ : ZMod n => c) (bandLimited n a) := by
    intro i j
    unfold bandLimited
    rw [sum_frq, Finset.sum_eq_single 0, sum_frq, Finset.sum_eq_single 0]
    · have h0 := (hz 0).mpr rfl
      simp [a, h0]
    · intro l _ hl
      simp [a, hz, hl]
    · simp
    · intro k _ hk
      rw [sum_frq]
      simp [a, hz, hk]
    · simp
  rw [convolved_eq a _ hs, Finset.sum_eq_single 0, Finset.sum_eq_single 0]
  · have h0 := (hz 0).mpr rfl
    simp only [a, h0, y]
    simp [abs_of_nonneg hc]
    field_simp
  · intro l _ hl
    simp [a, hz, hl]
  · simp
  · intro k _ hk
    simp [a, hz, hk]
  · simp

omit [NeZero n] in
theorem size_eq (mag : ℝ) (nOut : ℕ) : Szoom.sizeOut n mag (if nOut ≠ 0 then ⌊n * mag⌋₊ else nOut) = ⌊n * mag⌋₊ := by
  unfold Szoom.sizeOut
  by_cases h : nOut = 0
  · simp [h]
  · simp only [ne_eq, h, not_false_eq_true, if_true]
    split_ifs <;> simp_all

/-- **C130 (resampling).** The output has `⌊n·sIn/sOut⌋` rows and columns; each pixel is the damped sinc interpolation of the integrated image at the corresponding place (C111), or 0 near the border. -/
theorem C130_resampled (useC : Bool) (image : ZMod n → ZMod n → ℝ) (sIn sOut : ℝ) (nOut : ℕ) (h : ⌊n * (sIn / sOut)⌋₊ ≠ 0) :
    ∃ out, pixellate useC image sIn sOut nOut = .ok (⌊n * (sIn / sOut)⌋₊, out) ∧ ∀ j i,
      (Szoom.fits useC n ⌊n * (sIn / sOut)⌋₊ (sIn / sOut) j ∧ Szoom.fits useC n ⌊n * (sIn / sOut)⌋₊ (sIn / sOut) i →
        out j i = Szoom.damped n (fun j i => convolved image sIn sOut (j : ZMod n) (i : ZMod n)) (Szoom.place n ⌊n * (sIn / sOut)⌋₊ (sIn / sOut) i) (Szoom.place n ⌊n * (sIn / sOut)⌋₊ (sIn / sOut) j)) ∧
      (¬ (Szoom.fits useC n ⌊n * (sIn / sOut)⌋₊ (sIn / sOut) j ∧ Szoom.fits useC n ⌊n * (sIn / sOut)⌋₊ (sIn / sOut) i) → out j i = 0) := by
  have := Szoom.C111_real useC n (fun j i => convolved image sIn sOut (j : ZMod n) (i : ZMod n)) (sIn / sOut) (if nOut ≠ 0 then ⌊n * (sIn / sOut)⌋₊ else nOut) .none (by rw [size_eq]; exact h)
  rw [size_eq] at this
  obtain ⟨out, ho, hv⟩ := this
  refine ⟨out, ?_, fun j i => ⟨fun hf => ?_, (hv j i).2⟩⟩
  · unfold pixellate
    rw [dif_pos rfl]
    exact ho
  · rw [(hv j i).1 hf]
    simp [Szoom.factor]

/-- **C130 (centre).** On an even number of at least 13 pixels the centre pixel of the output is the integral over the detector pixel in the centre of the image. -/
theorem C130_centre (useC : Bool) (hn : n % 2 = 0) (h13 : 13 ≤ n) {sIn sOut : ℝ} (h1 : 0 < sIn) (h3 : 0 < sOut) (a : ℤ → ℤ → ℂ) (image : ZMod n → ZMod n → ℝ)
    (hs : SampledFrom image (bandLimited n a)) (nOut : ℕ) (h : ⌊n * (sIn / sOut)⌋₊ ≠ 0) :
    ∃ out, pixellate useC image sIn sOut nOut = .ok (⌊n * (sIn / sOut)⌋₊, out) ∧
      out (⌊n * (sIn / sOut)⌋₊ / 2) (⌊n * (sIn / sOut)⌋₊ / 2) = ‖overPixel (bandLimited n a) (sOut / sIn) ((n / 2 : ℕ) : ZMod n) ((n / 2 : ℕ) : ZMod n)‖ := by
  rw [← C130_integral hn h1 h3 a image hs]
  refine ⟨fun j i => Szoom.szoom useC n (fun j i => convolved image sIn sOut (j : ZMod n) (i : ZMod n)) ⌊n * (sIn / sOut)⌋₊ (sIn / sOut) (fun _ _ => 0) j i / Szoom.factor false (sIn / sOut) .none, ?_, ?_⟩
  · unfold pixellate
    rw [dif_pos rfl]
    unfold Szoom.magnifyReal
    simp only [size_eq]
    rw [if_neg (by tauto)]
  · dsimp only
    rw [Szoom.C111_centre useC n _ _ _ _ h13]
    simp [Szoom.factor]

/-- **C130 (violated: the requested size).** The argument `n_out` has no influence on the result: an image of another size than the one computed from the samplings cannot be requested. -/
theorem C130_size_violated (useC : Bool) {m : ℕ} (image : ZMod n → ZMod m → ℝ) (sIn sOut : ℝ) (n1 n2 : ℕ) : pixellate useC image sIn sOut n1 = pixellate useC image sIn sOut n2 := by
  unfold pixellate Szoom.magnifyReal
  simp only [size_eq]

/-- **C130 (shape).** Images that are not square are refused. -/
theorem C130_shape (useC : Bool) {m : ℕ} (image : ZMod n → ZMod m → ℝ) (sIn sOut : ℝ) (nOut : ℕ) (h : m ≠ n) : pixellate useC image sIn sOut nOut = .error .valueError := by
  unfold pixellate
  rw [dif_neg h]

/-- The hypotheses are met: 16 pixels onto detector pixels twice as large. -/
example : ⌊((16 : ℕ) : ℝ) * (1 / 2)⌋₊ = 8 := by norm_num

end Verif.Pixellate
