import Verif.Props.Prop
import Mathlib.Analysis.SpecialFunctions.Complex.Circle
import Mathlib.RingTheory.RootsOfUnity.Complex

/-! # C62: what `mft_p2v2p` computes (falco/prop.py:260-390) -/

namespace Verif.Optics
open Complex Matrix

/-- Position of pupil sample `a` of `A`, in beam diameters. -/
noncomputable def pupX (A : ℕ) (D : ℝ) (a : Fin A) : ℝ := ((a : ℝ) - A / 2) / D

/-- Field at the focal-plane point `(u, v)` (units of lambda/D): the Fourier integral of the pupil field by the midpoint rule with the pupil spacing `1/D`. -/
noncomputable def focalAt {A : ℕ} (D : ℝ) (P : Fin A → Fin A → ℂ) (u v : ℝ) : ℂ :=
  ∑ a, ∑ b, P a b * exp (-2 * Real.pi * I * (u * pupX A D a + v * pupX A D b)) * ((1 / D : ℝ) : ℂ) ^ 2

/-- Pupil field made by the focal field `F` restricted by the weight `W`, by the midpoint rule on an `NB × NB` grid of spacing `h`. -/
noncomputable def toPupil {A : ℕ} (D : ℝ) (NB : ℕ) (h : ℝ) (F : ℝ → ℝ → ℂ) (W : Fin NB → Fin NB → ℂ) (a b : Fin A) : ℂ :=
  ∑ p : Fin NB, ∑ q : Fin NB, (h : ℂ) ^ 2 * (W p q * F (((p : ℝ) - NB / 2) * h) (((q : ℝ) - NB / 2) * h) *
    exp (-2 * Real.pi * I * (((((p : ℝ) - NB / 2) * h : ℝ) : ℂ) * pupX A D a + ((((q : ℝ) - NB / 2) * h : ℝ) : ℂ) * pupX A D b)))

theorem vortexBranch_quadrature {A B : ℕ} (D h : ℝ) (FPM : Fin B → Fin B → ℂ) (w : Fin B → Fin B → ℝ) (P : Matrix (Fin A) (Fin A) ℂ) (a b : Fin A) :
    vortexBranch false (1 / D * h) (pupX A D) (fun p => ((p : ℝ) - B / 2) * h) FPM w P a b =
      toPupil D B h (focalAt D P) (fun p q => FPM p q * (w p q : ℂ)) a b := by
  have hdef : vortexBranch false (1 / D * h) (pupX A D) (fun p => ((p : ℝ) - B / 2) * h) FPM w P a b =
      ((1 / D * h : ℝ) : ℂ) * ∑ q : Fin B, (∑ p : Fin B, exp (-I * 1 * 2 * Real.pi * ((pupX A D a : ℂ) * ((((p : ℝ) - B / 2) * h : ℝ) : ℂ))) *
        ((((1 / D * h : ℝ) : ℂ) * ∑ d : Fin A, (∑ c : Fin A, exp (-I * 1 * 2 * Real.pi * (((((p : ℝ) - B / 2) * h : ℝ) : ℂ) * (pupX A D c : ℂ))) * P c d) *
          exp (-I * 1 * 2 * Real.pi * ((pupX A D d : ℂ) * ((((q : ℝ) - B / 2) * h : ℝ) : ℂ)))) * FPM p q * (w p q : ℂ))) *
        exp (-I * 1 * 2 * Real.pi * (((((q : ℝ) - B / 2) * h : ℝ) : ℂ) * (pupX A D b : ℂ))) := rfl
  rw [hdef]
  simp only [toPupil, focalAt]
  simp only [Finset.sum_mul, Finset.mul_sum]
  rw [Finset.sum_comm]
  refine Finset.sum_congr rfl fun p _ => Finset.sum_congr rfl fun q _ => ?_
  rw [Finset.sum_comm]
  refine Finset.sum_congr rfl fun c _ => Finset.sum_congr rfl fun d _ => ?_
  have e1 : ∀ x y : ℂ, exp (-2 * Real.pi * I * (x + y)) = exp (-I * 1 * 2 * Real.pi * x) * exp (-I * 1 * 2 * Real.pi * y) := by
    intro x y; rw [← Complex.exp_add]; congr 1; ring
  rw [e1, e1]
  have c1 : ∀ x y : ℂ, x * y = y * x := mul_comm
  rw [c1 ((pupX A D a : ℝ) : ℂ), c1 ((pupX A D d : ℝ) : ℂ)]
  push_cast
  ring

/-- **C62 (meaning).** Forward propagation is the sum of two midpoint-rule evaluations of the same integral over the focal plane, each with its own grid (spacings `1/lambdaOverD`
and `2·outVal/NB`), the coarse one weighted by the mask times one minus the first window, the fine one by the mask times the second window: for every field, size and window. -/
theorem C62_two_quadratures {A : ℕ} (D lambdaOverD outVal : ℝ) (NB : ℕ) (vortexMask : (n : ℕ) → Fin n → Fin n → ℂ)
    (tukey : ℝ → Fin NB → Fin NB → ℝ) (P : Matrix (Fin A) (Fin A) ℂ) (a b : Fin A) :
    mftP2v2pOf false D lambdaOverD outVal NB vortexMask tukey P a b =
      toPupil D NB (1 / lambdaOverD) (focalAt D P) (fun p q => vortexMask NB p q * ((1 - tukey (2 * outVal * lambdaOverD) p q : ℝ) : ℂ)) a b +
      toPupil D NB (2 * outVal / NB) (focalAt D P) (fun p q => vortexMask NB p q * (tukey NB p q : ℂ)) a b := by
  rw [← vortexBranch_quadrature, ← vortexBranch_quadrature]
  unfold mftP2v2pOf mftP2v2p
  have h1 : 1 / (D * lambdaOverD) = 1 / D * (1 / lambdaOverD) := by rw [one_div_mul_one_div]
  have h2 : 2 * outVal / (D * NB) = 1 / D * (2 * outVal / NB) := by rw [div_mul_div_comm, one_mul]
  have h3 : (fun b : Fin NB => ((b : ℝ) - NB / 2) / lambdaOverD) = fun p : Fin NB => ((p : ℝ) - NB / 2) * (1 / lambdaOverD) := by
    funext p; ring
  have h4 : (fun b : Fin NB => ((b : ℝ) - NB / 2) * 2 * outVal / NB) = fun p : Fin NB => ((p : ℝ) - NB / 2) * (2 * outVal / NB) := by
    funext p; ring
  rw [h1, h2, h3, h4]
  rfl

/-- A geometric sum over a full period. -/
theorem geom_period (n : ℕ) (hn : 0 < n) (hev : Even n) (m : ℤ) (hm : |m| < n) :
    ∑ p : Fin n, exp (-2 * Real.pi * I * ((((p : ℝ) - n / 2) * m / n : ℝ) : ℂ)) = if m = 0 then (n : ℂ) else 0 := by
  have hn0 : (n : ℂ) ≠ 0 := by exact_mod_cast hn.ne'
  split_ifs with h0
  · subst h0; simp
  obtain ⟨k, hk⟩ := hev
  set z : ℂ := exp (2 * Real.pi * I / n) ^ (-m) with hz
  have hterm : ∀ p : Fin n, exp (-2 * Real.pi * I * ((((p : ℝ) - n / 2) * m / n : ℝ) : ℂ)) = exp (Real.pi * I * m) * z ^ (p : ℕ) := by
    intro p
    rw [hz, ← Complex.exp_int_mul, ← Complex.exp_nat_mul, ← Complex.exp_add]
    congr 1
    push_cast
    field_simp
    ring
  rw [Finset.sum_congr rfl fun p _ => hterm p, ← Finset.mul_sum]
  have hz1 : z ≠ 1 := by
    rw [hz, ← Complex.exp_int_mul]
    intro h
    obtain ⟨j, hj⟩ := Complex.exp_eq_one_iff.mp h
    have hpi : (2 * Real.pi * I : ℂ) ≠ 0 := by simp [Real.pi_ne_zero]
    have h2 : (((-m : ℤ) : ℂ)) = j * n := by
      have : (2 * Real.pi * I : ℂ) * ((-m : ℤ) : ℂ) = (2 * Real.pi * I) * (j * n) := by
        have h3 := congrArg (· * (n : ℂ)) hj
        field_simp at h3 ⊢
        linear_combination h3
      exact mul_left_cancel₀ hpi this
    have h3 : -m = j * n := by exact_mod_cast h2
    have h4 : (n : ℤ) ∣ m := ⟨-j, by linarith⟩
    have := Int.eq_zero_of_abs_lt_dvd h4 hm
    exact h0 this
  have hzn : z ^ n = 1 := by
    rw [hz, ← zpow_natCast, ← zpow_mul, mul_comm (-m), zpow_mul, zpow_natCast, ← Complex.exp_nat_mul]
    have : (n : ℂ) * (2 * Real.pi * I / n) = 2 * Real.pi * I := by field_simp
    rw [this, Complex.exp_two_pi_mul_I, one_zpow]
  have hs : ∑ p : Fin n, z ^ (p : ℕ) = 0 := by
    rw [Fin.sum_univ_eq_sum_range (fun k => z ^ k) n, geom_sum_eq hz1, hzn]; simp
  rw [hs, mul_zero]

/-- Full, unweighted grid whose spacing is the inverse of the extent of an `NB`-sample pupil: the pupil is turned by half a turn. -/
theorem toPupil_unit {A : ℕ} (NB : ℕ) (hNB : 0 < NB) (hev : Even NB) (hA : A < NB) (D lam : ℝ) (hD : 0 < D) (hlam : 0 < lam) (hDl : lam * D = NB)
    (P : Matrix (Fin A) (Fin A) ℂ) (a b : Fin A) :
    toPupil D NB (1 / lam) (focalAt D P) (fun _ _ => 1) a b = ∑ c : Fin A, ∑ d : Fin A, if (a : ℕ) + c = A ∧ (b : ℕ) + d = A then P c d else 0 := by
  have key : ∀ (c d : Fin A), ∑ p : Fin NB, ∑ q : Fin NB, ((1 / lam : ℝ) : ℂ) ^ 2 * (1 * (P c d * exp (-2 * Real.pi * I *
        (((((p : ℝ) - NB / 2) * (1 / lam) : ℝ) : ℂ) * pupX A D c + ((((q : ℝ) - NB / 2) * (1 / lam) : ℝ) : ℂ) * pupX A D d)) * ((1 / D : ℝ) : ℂ) ^ 2) *
        exp (-2 * Real.pi * I * (((((p : ℝ) - NB / 2) * (1 / lam) : ℝ) : ℂ) * pupX A D a + ((((q : ℝ) - NB / 2) * (1 / lam) : ℝ) : ℂ) * pupX A D b)))
      = if (a : ℕ) + c = A ∧ (b : ℕ) + d = A then P c d else 0 := by
    intro c d
    have hterm : ∀ p q : Fin NB, ((1 / lam : ℝ) : ℂ) ^ 2 * (1 * (P c d * exp (-2 * Real.pi * I *
        (((((p : ℝ) - NB / 2) * (1 / lam) : ℝ) : ℂ) * pupX A D c + ((((q : ℝ) - NB / 2) * (1 / lam) : ℝ) : ℂ) * pupX A D d)) * ((1 / D : ℝ) : ℂ) ^ 2) *
        exp (-2 * Real.pi * I * (((((p : ℝ) - NB / 2) * (1 / lam) : ℝ) : ℂ) * pupX A D a + ((((q : ℝ) - NB / 2) * (1 / lam) : ℝ) : ℂ) * pupX A D b)))
        = P c d / (NB : ℂ) ^ 2 * (exp (-2 * Real.pi * I * ((((p : ℝ) - NB / 2) * (((a : ℤ) + c - A : ℤ) : ℝ) / NB : ℝ) : ℂ)) *
          exp (-2 * Real.pi * I * ((((q : ℝ) - NB / 2) * (((b : ℤ) + d - A : ℤ) : ℝ) / NB : ℝ) : ℂ))) := by
      intro p q
      have hDc : (D : ℂ) ≠ 0 := by exact_mod_cast hD.ne'
      have hlc : (lam : ℂ) ≠ 0 := by exact_mod_cast hlam.ne'
      have e : (NB : ℂ) = lam * D := by exact_mod_cast hDl.symm
      have hx : ∀ (p : Fin NB) (x y : Fin A), ((((p : ℝ) - NB / 2) * (1 / lam) : ℝ) : ℂ) * pupX A D x + ((((p : ℝ) - NB / 2) * (1 / lam) : ℝ) : ℂ) * pupX A D y
          = ((((p : ℝ) - NB / 2) * (((y : ℤ) + x - A : ℤ) : ℝ) / NB : ℝ) : ℂ) := by
        intro p x y
        rw [← Complex.ofReal_mul, ← Complex.ofReal_mul, ← Complex.ofReal_add]
        congr 1
        rw [← hDl]
        simp only [pupX]
        push_cast
        field_simp
        ring
      rw [← hx p c a, ← hx q d b, ← Complex.exp_add, e]
      have : ∀ x y z w : ℂ, exp (-2 * Real.pi * I * (x + y)) * exp (-2 * Real.pi * I * (z + w)) = exp (-2 * Real.pi * I * (x + z) + -2 * Real.pi * I * (y + w)) := by
        intro x y z w; rw [← Complex.exp_add]; congr 1; ring
      rw [← this]
      push_cast
      field_simp
    simp only [hterm]
    have ha : |(a : ℤ) + c - A| < NB := by
      have := a.isLt; have := c.isLt
      rw [abs_lt]; constructor <;> omega
    have hb : |(b : ℤ) + d - A| < NB := by
      have := b.isLt; have := d.isLt
      rw [abs_lt]; constructor <;> omega
    simp only [← Finset.mul_sum, ← Finset.sum_mul]
    rw [geom_period NB hNB hev _ ha, geom_period NB hNB hev _ hb]
    have hn0 : (NB : ℂ) ≠ 0 := by exact_mod_cast hNB.ne'
    by_cases h1 : (a : ℕ) + c = A
    · by_cases h2 : (b : ℕ) + d = A
      · rw [if_pos (by omega), if_pos (by omega), if_pos ⟨h1, h2⟩]; field_simp
      · rw [if_neg (by omega : ¬ (b : ℤ) + d - A = 0), if_neg (fun h : _ ∧ _ => h2 h.2)]; simp
    · rw [if_neg (by omega : ¬ (a : ℤ) + c - A = 0), if_neg (fun h : _ ∧ _ => h1 h.1)]; simp
  simp only [← key]
  simp only [toPupil, focalAt]
  simp only [Finset.mul_sum, Finset.sum_mul]
  rw [Finset.sum_congr rfl fun p _ => Finset.sum_comm]
  rw [Finset.sum_comm]
  refine Finset.sum_congr rfl fun c _ => ?_
  rw [Finset.sum_congr rfl fun p _ => Finset.sum_congr rfl fun q _ => rfl]
  rw [Finset.sum_congr rfl fun p _ => Finset.sum_comm]
  rw [Finset.sum_comm]

/-- **C62 (no mask).** Without a phase mask (charge 0: the mask is 1 everywhere), on a beam whose diameter makes `lambdaOverD·D` an even number of samples and with the outer window radius
at the edge of the grid (`2·outVal·lambdaOverD = NB`), the propagation returns the pupil field turned by half a turn about pixel `A/2`, for every window function: row and column `a`
receive row and column `A - a`, and the first row and column, which have no partner, receive 0. -/
theorem C62_unit_mask {A : ℕ} (NB : ℕ) (hNB : 0 < NB) (hev : Even NB) (hA : A < NB) (D lambdaOverD outVal : ℝ) (hD : 0 < D) (hl : 0 < lambdaOverD)
    (hDl : lambdaOverD * D = NB) (hout : 2 * outVal * lambdaOverD = NB) (vortexMask : (n : ℕ) → Fin n → Fin n → ℂ) (h1 : ∀ p q, vortexMask NB p q = 1)
    (tukey : ℝ → Fin NB → Fin NB → ℝ) (P : Matrix (Fin A) (Fin A) ℂ) (a b : Fin A) :
    mftP2v2pOf false D lambdaOverD outVal NB vortexMask tukey P a b = ∑ c : Fin A, ∑ d : Fin A, if (a : ℕ) + c = A ∧ (b : ℕ) + d = A then P c d else 0 := by
  rw [C62_two_quadratures, ← toPupil_unit NB hNB hev hA D lambdaOverD hD hl hDl P a b, hout]
  have hn0 : (NB : ℝ) ≠ 0 := by exact_mod_cast hNB.ne'
  have h2 : 2 * outVal / NB = 1 / lambdaOverD := by rw [div_eq_div_iff hn0 hl.ne', hout, one_mul]
  rw [h2]
  simp only [toPupil, ← Finset.sum_add_distrib, h1]
  refine Finset.sum_congr rfl fun p _ => Finset.sum_congr rfl fun q _ => ?_
  push_cast
  ring

/-- A 16-pixel beam in an 18-pixel array, 4 samples per lambda/D: the hypotheses of `C62_unit_mask` are met. -/
example (tukey : ℝ → Fin 64 → Fin 64 → ℝ) (P : Matrix (Fin 18) (Fin 18) ℂ) :
    mftP2v2pOf false 16 4 8 64 (fun _ _ _ => 1) tukey P 9 3 = P 9 15 := by
  rw [C62_unit_mask 64 (by norm_num) (by decide) (by norm_num) 16 4 8 (by norm_num) (by norm_num) (by norm_num) (by norm_num) _ (fun _ _ => rfl)]
  rw [Finset.sum_eq_single 9, Finset.sum_eq_single 15]
  · exact if_pos ⟨rfl, rfl⟩
  · intro d _ hd
    rw [if_neg]
    rintro ⟨-, h⟩
    apply hd; apply Fin.ext; have h3 : ((3 : Fin 18) : ℕ) = 3 := rfl
    have h15 : ((15 : Fin 18) : ℕ) = 15 := rfl
    omega
  · simp
  · intro c _ hc
    refine Finset.sum_eq_zero fun d _ => ?_
    rw [if_neg]
    rintro ⟨h, -⟩
    apply hc; apply Fin.ext; have h9 : ((9 : Fin 18) : ℕ) = 9 := rfl
    omega
  · simp

end Verif.Optics
