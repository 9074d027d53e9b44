import Verif.Model.Prop
import Verif.Lemmas.Util
import Mathlib.Analysis.Fourier.ZMod
import Mathlib.Tactic.LinearCombination

namespace Verif.Optics
open Verif Complex

variable {N : ℕ} [NeZero N]

theorem val_cast (j : ZMod N) : ((j.val : ℤ) : ZMod N) = j := by
  rw [Int.cast_natCast, ZMod.natCast_zmod_val]

/-- exponentials in the model are the standard additive character -/
theorem exp_eq_char (j k : ZMod N) :
    exp (2 * Real.pi * I * (j.val * k.val) / N) = ZMod.stdAddChar (j * k) := by
  have h : (j * k : ZMod N) = (((j.val : ℤ) * (k.val : ℤ) : ℤ) : ZMod N) := by
    push_cast; rw [ZMod.natCast_zmod_val, ZMod.natCast_zmod_val]
  rw [h, ZMod.stdAddChar_coe]
  push_cast; rfl

theorem exp_neg_eq_char (j k : ZMod N) :
    exp (-(2 * Real.pi * I * (j.val * k.val) / N)) = ZMod.stdAddChar (-(j * k)) := by
  rw [exp_neg, exp_eq_char, AddChar.map_neg_eq_inv]

theorem fft1_eq (x : ZMod N → ℂ) : fft1 x = ZMod.dft x := by
  funext k
  rw [ZMod.dft_apply]
  unfold fft1
  exact Finset.sum_congr rfl fun j _ => by rw [exp_neg_eq_char, smul_eq_mul]

theorem ifft1_eq (X : ZMod N → ℂ) : ifft1 X = ZMod.dft.symm X := by
  funext j
  rw [ZMod.invDFT_apply]
  unfold ifft1
  rw [smul_eq_mul]
  congr 1
  exact Finset.sum_congr rfl fun k _ => by rw [exp_eq_char, smul_eq_mul, mul_comm j k]

theorem ifft1_fft1 (x : ZMod N → ℂ) : ifft1 (fft1 x) = x := by rw [fft1_eq, ifft1_eq]; simp
theorem fft1_ifft1 (x : ZMod N → ℂ) : fft1 (ifft1 x) = x := by rw [fft1_eq, ifft1_eq]; simp

variable {M : ℕ} [NeZero M]

theorem ifft1_sum_comm (E : ZMod M → ZMod N → ℂ) (k : ZMod M) (l : ZMod N) :
    ifft1 (fun i => ifft1 (E i) l) k = ifft1 (fun j => ifft1 (fun i => E i j) k) l := by
  unfold ifft1
  simp only [Finset.mul_sum]
  rw [Finset.sum_comm]
  refine Finset.sum_congr rfl fun j _ => Finset.sum_congr rfl fun i _ => ?_
  ring

theorem fft1_sum_comm (E : ZMod M → ZMod N → ℂ) (k : ZMod M) (l : ZMod N) :
    fft1 (fun i => fft1 (E i) l) k = fft1 (fun j => fft1 (fun i => E i j) k) l := by
  unfold fft1
  simp only [Finset.mul_sum]
  rw [Finset.sum_comm]
  refine Finset.sum_congr rfl fun j _ => Finset.sum_congr rfl fun i _ => ?_
  ring

theorem ifft2_fft2 (E : ZMod M → ZMod N → ℂ) : ifft2 (fft2 E) = E := by
  funext k l
  unfold ifft2 fft2
  rw [ifft1_sum_comm]
  have h : (fun j => ifft1 (fun i => fft1 (fun i => fft1 (E i) j) i) k) = fft1 (E k) := by
    funext j
    exact congrFun (ifft1_fft1 (fun i => fft1 (E i) j)) k
  rw [h, ifft1_fft1]

theorem fft2_ifft2 (E : ZMod M → ZMod N → ℂ) : fft2 (ifft2 E) = E := by
  funext k l
  unfold ifft2 fft2
  rw [fft1_sum_comm]
  have h : (fun j => fft1 (fun i => ifft1 (fun i => ifft1 (E i) j) i) k) = ifft1 (E k) := by
    funext j
    exact congrFun (fft1_ifft1 (fun i => ifft1 (E i) j)) k
  rw [h, fft1_ifft1]

omit [NeZero N] [NeZero M] in
theorem ifftshift_fftshift {α : Type*} (E : ZMod M → ZMod N → α) : ifftshift (fftshift E) = E := by
  funext i j; unfold ifftshift fftshift roll2; push_cast; congr 1 <;> ring
omit [NeZero N] [NeZero M] in
theorem fftshift_ifftshift {α : Type*} (E : ZMod M → ZMod N → α) : fftshift (ifftshift E) = E := by
  funext i j; unfold ifftshift fftshift roll2; push_cast; congr 1 <;> ring

theorem fft2_add (E F : ZMod M → ZMod N → ℂ) :
    fft2 (fun i j => E i j + F i j) = fun k l => fft2 E k l + fft2 F k l := by
  funext k l; unfold fft2 fft1
  simp only [mul_add, Finset.sum_add_distrib]
theorem fft2_smul (c : ℂ) (E : ZMod M → ZMod N → ℂ) :
    fft2 (fun i j => c * E i j) = fun k l => c * fft2 E k l := by
  funext k l; unfold fft2 fft1
  simp only [Finset.mul_sum]
  exact Finset.sum_congr rfl fun i _ => Finset.sum_congr rfl fun j _ => by ring
theorem ifft2_add (E F : ZMod M → ZMod N → ℂ) :
    ifft2 (fun i j => E i j + F i j) = fun k l => ifft2 E k l + ifft2 F k l := by
  funext k l; unfold ifft2 ifft1
  simp only [mul_add, Finset.sum_add_distrib]
theorem ifft2_smul (c : ℂ) (E : ZMod M → ZMod N → ℂ) :
    ifft2 (fun i j => c * E i j) = fun k l => c * ifft2 E k l := by
  funext k l; unfold ifft2 ifft1
  simp only [Finset.mul_sum]
  exact Finset.sum_congr rfl fun i _ => Finset.sum_congr rfl fun j _ => by ring

/-- Parseval for one axis. -/
theorem parseval1 (x : ZMod N → ℂ) : ∑ k, starRingEnd ℂ (fft1 x k) * fft1 x k = N * ∑ j, starRingEnd ℂ (x j) * x j := by
  have h : ∀ k, starRingEnd ℂ (fft1 x k)
      = ∑ j, exp (2 * Real.pi * I * (j.val * k.val) / N) * starRingEnd ℂ (x j) := by
    intro k
    unfold fft1
    rw [map_sum]
    refine Finset.sum_congr rfl fun j _ => ?_
    rw [map_mul, ← exp_conj]
    congr 2
    simp only [map_neg, map_div₀, map_mul, map_ofNat, conj_ofReal, conj_I, Complex.conj_natCast]
    ring
  simp only [h, Finset.sum_mul]
  rw [Finset.sum_comm, Finset.mul_sum]
  refine Finset.sum_congr rfl fun j _ => ?_
  have h2 : ∑ k, exp (2 * Real.pi * I * (j.val * k.val) / N) * fft1 x k = N * x j := by
    have := congrFun (ifft1_fft1 x) j
    unfold ifft1 at this
    have hN : (N : ℂ) ≠ 0 := by exact_mod_cast NeZero.ne N
    rw [inv_mul_eq_iff_eq_mul₀ hN] at this
    exact this
  calc _ = starRingEnd ℂ (x j) * ∑ k, exp (2 * Real.pi * I * (j.val * k.val) / N) * fft1 x k := by
        rw [Finset.mul_sum]; exact Finset.sum_congr rfl fun k _ => by ring
    _ = _ := by rw [h2]; ring

theorem normSq_eq (z : ℂ) : ((normSq z : ℝ) : ℂ) = starRingEnd ℂ z * z := by rw [mul_comm, mul_conj]

/-- Parseval on a 2-D array. -/
theorem parseval2 (E : ZMod M → ZMod N → ℂ) :
    ∑ k, ∑ l, normSq (fft2 E k l) = M * N * ∑ i, ∑ j, normSq (E i j) := by
  have h : ((∑ k, ∑ l, normSq (fft2 E k l) : ℝ) : ℂ) = ((M * N * ∑ i, ∑ j, normSq (E i j) : ℝ) : ℂ) := by
    push_cast
    simp only [normSq_eq]
    rw [Finset.sum_comm]
    have h1 : ∀ l, ∑ k, starRingEnd ℂ (fft2 E k l) * fft2 E k l
        = M * ∑ i, starRingEnd ℂ (fft1 (E i) l) * fft1 (E i) l := fun l => parseval1 (fun i => fft1 (E i) l)
    simp only [h1]
    rw [← Finset.mul_sum, Finset.sum_comm]
    simp only [parseval1]
    rw [← Finset.mul_sum]; ring
  exact_mod_cast h

theorem sum_roll2 {β : Type*} [AddCommMonoid β] (f : ZMod M → ZMod N → β) (a b : ℤ) :
    ∑ i, ∑ j, roll2 f a b i j = ∑ i, ∑ j, f i j := by
  unfold roll2
  refine (Fintype.sum_equiv (Equiv.subRight (a : ZMod M)) _ (fun i => ∑ j, f i (j - b)) (fun i => rfl)).trans ?_
  refine Finset.sum_congr rfl fun i _ => ?_
  exact Fintype.sum_equiv (Equiv.subRight (b : ZMod N)) _ (fun j => f i j) (fun j => rfl)

/-- cyclic shift in the frequency domain is a phase ramp -/
theorem ifft1_shift (X : ZMod N → ℂ) (s m : ZMod N) :
    ifft1 (fun k => X (k - s)) m = ZMod.stdAddChar (s * m) * ifft1 X m := by
  unfold ifft1
  simp only [exp_eq_char]
  have e : ∑ k, ZMod.stdAddChar (m * k) * X (k - s) = ∑ k, ZMod.stdAddChar (m * (k + s)) * X k :=
    (Fintype.sum_equiv (Equiv.addRight s) (fun k => ZMod.stdAddChar (m * (k + s)) * X k)
      (fun k => ZMod.stdAddChar (m * k) * X (k - s)) (fun k => by simp [Equiv.coe_addRight])).symm
  have e2 : ∑ k, ZMod.stdAddChar (m * (k + s)) * X k = ZMod.stdAddChar (s * m) * ∑ k, ZMod.stdAddChar (m * k) * X k := by
    rw [Finset.mul_sum]
    refine Finset.sum_congr rfl fun k _ => ?_
    rw [mul_add, AddChar.map_add_eq_mul, mul_comm m s]; ring
  rw [e, e2]; ring

theorem ifft1_const_mul (c : ℂ) (X : ZMod N → ℂ) (m : ZMod N) : ifft1 (fun k => c * X k) m = c * ifft1 X m := by
  unfold ifft1; rw [Finset.mul_sum, Finset.mul_sum, Finset.mul_sum]
  exact Finset.sum_congr rfl fun k _ => by ring

theorem ifft2_shift (X : ZMod M → ZMod N → ℂ) (s m : ZMod M) (t n : ZMod N) :
    ifft2 (fun k l => X (k - s) (l - t)) m n = ZMod.stdAddChar (s * m) * ZMod.stdAddChar (t * n) * ifft2 X m n := by
  unfold ifft2
  have h : (fun i => ifft1 (fun l => X (i - s) (l - t)) n)
      = fun i => ZMod.stdAddChar (t * n) * (fun k => ifft1 (X k) n) (i - s) := by
    funext i; exact ifft1_shift (X (i - s)) t n
  rw [h, ifft1_const_mul, ifft1_shift (fun k => ifft1 (X k) n)]; ring

/-- entries of the coordinate axis -/
theorem ax_eq {N : ℕ} (step : ℝ) (c : Util.Centering) (i : Fin N) :
    ax N step c i = ((i.val : ℝ) - ((N / 2 : ℕ) : ℝ) + (if N % 2 = 0 ∧ c = .interpixel then 0.5 else 0)) * step := by
  unfold ax
  rw [Util.createAxis_eq]
  simp only [List.getD_eq_getElem?_getD, List.getElem?_map, List.getElem?_range i.isLt, Option.map_some, Option.getD_some]
  split <;> ring

/-- geometric sum of roots of unity, shifted by any real offset -/
theorem sum_roots {N : ℕ} (hN : 0 < N) (m : ℤ) (t : ℝ) :
    ∑ k : Fin N, exp (-(2 * Real.pi * I * (((k.val : ℝ) + t : ℝ) * m) / N))
      = if (N : ℤ) ∣ m then N * exp (-(2 * Real.pi * I * (t * m) / N)) else 0 := by
  have hN' : (N : ℂ) ≠ 0 := by exact_mod_cast hN.ne'
  have h1 : ∀ k : Fin N, exp (-(2 * Real.pi * I * (((k.val : ℝ) + t : ℝ) * m) / N))
      = exp (-(2 * Real.pi * I * (t * m) / N)) * (exp (-(2 * Real.pi * I * m / N))) ^ k.val := by
    intro k
    rw [← exp_nat_mul, ← exp_add]
    congr 1
    push_cast; ring
  simp only [h1]
  rw [← Finset.mul_sum, Fin.sum_univ_eq_sum_range (fun k => (exp (-(2 * Real.pi * I * m / N))) ^ k)]
  have hpi : (2 * Real.pi * I : ℂ) ≠ 0 := by simp [Real.pi_ne_zero]
  have hone : exp (-(2 * Real.pi * I * m / N)) = 1 ↔ (N : ℤ) ∣ m := by
    rw [exp_eq_one_iff]
    constructor
    · rintro ⟨n, hn⟩
      refine ⟨-n, ?_⟩
      field_simp at hn
      have : (m : ℂ) = ((N * -n : ℤ) : ℂ) := by push_cast; linear_combination -hn
      exact_mod_cast this
    · rintro ⟨n, rfl⟩
      refine ⟨-n, ?_⟩
      push_cast; field_simp
  split
  · next h => rw [hone.2 h]; simp [mul_comm]
  · next h =>
    have hne : exp (-(2 * Real.pi * I * m / N)) ≠ 1 := fun e => h (hone.1 e)
    rw [geom_sum_eq hne, ← exp_nat_mul]
    have : (N : ℂ) * -(2 * Real.pi * I * m / N) = ((-m : ℤ) : ℂ) * (2 * Real.pi * I) := by
      push_cast; field_simp
    rw [this, exp_int_mul_two_pi_mul_I]; simp

end Verif.Optics
