import Verif.Model.VortexMask
import Verif.Props.VortexMft
import Verif.Props.Util
import Mathlib.Analysis.SpecialFunctions.Trigonometric.Bounds

/-! # C114: the vortex mask and its windows -/

namespace Verif.VortexMask
open Verif Verif.Optics Complex

/-! ## Specification -/

/-- The point of the focal plane, in samples, in row `r` and column `c` of an `N` by `N` array: `x` to the right, `y` down the rows, the origin at `N/2`. -/
noncomputable def point (N r c : ℕ) : ℂ := ⟨(c : ℝ) - N / 2, (r : ℝ) - N / 2⟩

/-- The cosine taper from 0 to 1. -/
noncomputable def taper (s : ℝ) : ℝ := (1 - Real.cos (Real.pi * max 0 (min 1 s))) / 2

/-- The radial window that is 1 up to the radius `inR`, 0 from the radius `outR`, with a cosine taper between. -/
noncomputable def radialWindow (inR outR q : ℝ) : ℝ := taper ((outR - q) / (outR - inR))

/-! ## The mask -/

theorem point_eq (N r c : ℕ) : (⟨axis N c, axis N r⟩ : ℂ) = point N r c := by
  unfold point axis
  congr 1 <;> ring

/-- The mask changes the phase only, for every real charge. -/
theorem C114_phase_only (charge : ℝ) (N r c : ℕ) : ‖mask charge N r c‖ = 1 := by
  unfold mask
  rw [Complex.norm_exp]
  simp

theorem unit_dir {z : ℂ} (hz : z ≠ 0) : exp (arg z * I) = z / ‖z‖ := by
  have := Complex.norm_mul_exp_arg_mul_I z
  have hn : (‖z‖ : ℂ) ≠ 0 := by exact_mod_cast norm_ne_zero_iff.2 hz
  rw [eq_div_iff hn, mul_comm]; exact this

theorem mask_pow (m : ℤ) (N r c : ℕ) : mask m N r c = exp (arg (point N r c) * I) ^ m := by
  unfold mask azimuth
  rw [point_eq, ← Complex.exp_int_mul]
  congr 1
  push_cast
  ring

/-- For an integer charge `m`, the mask is the `m`-th power of the direction of each point. -/
theorem C114_vortex (m : ℤ) (N r c : ℕ) (h : point N r c ≠ 0) : mask m N r c = (point N r c / ‖point N r c‖) ^ m := by
  rw [mask_pow, unit_dir h]

/-- The point on the axis gets the value 1, whatever the charge. -/
theorem C114_on_axis (charge : ℝ) (H : ℕ) : mask charge (2 * H) H H = 1 := by
  have : point (2 * H) H H = 0 := by
    unfold point
    apply Complex.ext <;> simp
  unfold mask azimuth
  rw [point_eq, this]
  simp

/-- Without charge there is no mask. -/
theorem C114_no_charge (N r c : ℕ) : mask 0 N r c = 1 := by
  unfold mask; simp

/-- The mask of the opposite charge is the conjugate; charges add. -/
theorem C114_charges_add (p q : ℝ) (N r c : ℕ) : mask (-p) N r c = starRingEnd ℂ (mask p N r c) ∧ mask (p + q) N r c = mask p N r c * mask q N r c := by
  unfold mask
  constructor
  · rw [← Complex.exp_conj]
    congr 1
    simp [Complex.conj_ofReal]
  · rw [← Complex.exp_add]
    congr 1
    push_cast
    ring

theorem point_half_turn (N r c : ℕ) (hr : r ≤ N) (hc : c ≤ N) : point N (N - r) (N - c) = -point N r c := by
  unfold point
  apply Complex.ext <;> simp <;> push_cast [Nat.cast_sub hr, Nat.cast_sub hc] <;> ring

theorem point_quarter_turn (N r c : ℕ) (hr : r ≤ N) : point N c (N - r) = I * point N r c := by
  unfold point
  apply Complex.ext <;> simp <;> push_cast [Nat.cast_sub hr] <;> ring

/-- Turned by half a turn about the axis, the mask of an integer charge `m` gets the factor `(-1)^m`: it is point symmetric for even charges. Turned by a quarter turn it gets
the factor `i^m`. The point on the axis is excepted. -/
theorem C114_turns (m : ℤ) (N r c : ℕ) (hr : r ≤ N) (hc : c ≤ N) (h : point N r c ≠ 0) :
    mask m N (N - r) (N - c) = (-1) ^ m * mask m N r c ∧ mask m N c (N - r) = I ^ m * mask m N r c := by
  constructor
  · rw [C114_vortex m N _ _ (by rw [point_half_turn N r c hr hc]; exact neg_ne_zero.2 h), C114_vortex m N r c h, point_half_turn N r c hr hc, norm_neg, neg_div,
      ← neg_one_mul, mul_zpow]
  · rw [C114_vortex m N _ _ (by rw [point_quarter_turn N r c hr]; exact mul_ne_zero I_ne_zero h), C114_vortex m N r c h, point_quarter_turn N r c hr, norm_mul, norm_I, one_mul,
      mul_div_assoc, mul_zpow]

/-- A charge 2 vortex on a 4 by 4 array: one sample to the right of the axis 1, one sample below -1, on the diagonal `i`. -/
example : mask ((2 : ℤ) : ℝ) 4 2 3 = 1 ∧ mask ((2 : ℤ) : ℝ) 4 3 2 = -1 := by
  have p1 : point 4 2 3 = 1 := by unfold point; apply Complex.ext <;> norm_num
  have p2 : point 4 3 2 = I := by unfold point; apply Complex.ext <;> norm_num
  rw [C114_vortex 2 4 2 3 (by rw [p1]; norm_num), C114_vortex 2 4 3 2 (by rw [p2]; exact I_ne_zero), p1, p2]
  constructor
  · simp
  · simp

/-! ## The window -/

theorem taper_range (s : ℝ) : 0 ≤ taper s ∧ taper s ≤ 1 := by
  unfold taper
  have h1 := Real.cos_le_one (Real.pi * max 0 (min 1 s))
  have h2 := Real.neg_one_le_cos (Real.pi * max 0 (min 1 s))
  constructor <;> linarith

theorem taper_low {s : ℝ} (h : s ≤ 0) : taper s = 0 := by
  unfold taper
  rw [max_eq_left (le_trans (min_le_right _ _) h)]
  simp

theorem taper_high {s : ℝ} (h : 1 ≤ s) : taper s = 1 := by
  unfold taper
  rw [min_eq_left h, max_eq_right zero_le_one]
  simp

theorem taper_mid {s : ℝ} (h0 : 0 ≤ s) (h1 : s ≤ 1) : taper s = (1 - Real.cos (Real.pi * s)) / 2 := by
  unfold taper
  rw [min_eq_right h1, max_eq_right h0]

theorem taper_lip (s t : ℝ) : |taper s - taper t| ≤ Real.pi / 2 * |s - t| := by
  unfold taper
  have h1 : |Real.cos (Real.pi * max 0 (min 1 t)) - Real.cos (Real.pi * max 0 (min 1 s))| ≤ |Real.pi * max 0 (min 1 t) - Real.pi * max 0 (min 1 s)| := 
    Real.abs_cos_sub_cos_le _ _
  have h2 : |max 0 (min 1 t) - max 0 (min 1 s)| ≤ |t - s| := by
    calc |max 0 (min 1 t) - max 0 (min 1 s)| ≤ |min 1 t - min 1 s| := by
          have := abs_max_sub_max_le_max 0 (min 1 t) 0 (min 1 s)
          simpa using this
      _ ≤ |t - s| := by
          have := abs_min_sub_min_le_max 1 t 1 s
          simpa using this
  have e : (1 - Real.cos (Real.pi * max 0 (min 1 s))) / 2 - (1 - Real.cos (Real.pi * max 0 (min 1 t))) / 2
      = (Real.cos (Real.pi * max 0 (min 1 t)) - Real.cos (Real.pi * max 0 (min 1 s))) / 2 := by ring
  rw [e, abs_div, abs_two]
  have h3 : |Real.pi * max 0 (min 1 t) - Real.pi * max 0 (min 1 s)| ≤ Real.pi * |t - s| := by
    rw [← mul_sub, abs_mul, abs_of_pos Real.pi_pos]
    exact mul_le_mul_of_nonneg_left h2 Real.pi_pos.le
  rw [abs_sub_comm s t]
  linarith

/-- The window of width `W` as a function of the position: taper of the distance to the border over the length of the taper. -/
noncomputable def T (W alpha x : ℝ) : ℝ := taper ((W / 2 - |x|) / (min alpha 1 * (W / 2)))

/-- The table holds the window at its nodes. -/
theorem tukey_node {M : ℕ} (hM : 2 ≤ M) {W alpha : ℝ} (hW : 0 < W) (ha : 0 < alpha) {n : ℕ} (hn : n < M) :
    tukey M alpha n = T W alpha (linspace (-W / 2) (W / 2) M n) := by
  have hM1 : (0 : ℝ) < (M : ℝ) - 1 := by
    have : (2 : ℝ) ≤ M := by exact_mod_cast hM
    linarith
  set K : ℝ := (M : ℝ) - 1 with hK
  set x : ℝ := linspace (-W / 2) (W / 2) M n with hx
  have hxe : x = -W / 2 + n * (W / K) := by
    rw [hx]; unfold linspace
    rw [if_neg (by omega), ← hK]
    ring_nf
  have hnK : (n : ℝ) ≤ K := by
    have : (n : ℝ) + 1 ≤ M := by exact_mod_cast hn
    rw [hK]; linarith
  have hd : W / 2 - |x| = W / K * min (n : ℝ) (K - n) := by
    have e1 : x + W / 2 = W / K * n := by rw [hxe]; ring
    have e2 : W / 2 - x = W / K * (K - n) := by rw [hxe]; field_simp; ring
    have hp : 0 < W / K := by positivity
    rw [mul_min_of_nonneg _ _ hp.le, ← e1, ← e2]
    rcases le_total 0 x with h | h
    · rw [abs_of_nonneg h, min_eq_right (by linarith)]
    · rw [abs_of_nonpos h, min_eq_left (by linarith)]; ring
  have hs : (W / 2 - |x|) / (min alpha 1 * (W / 2)) = 2 * min (n : ℝ) (K - n) / (min alpha 1 * K) := by
    rw [hd]
    have : 0 < min alpha 1 := lt_min ha one_pos
    field_simp
  unfold T
  rw [hs]
  unfold tukey
  rw [if_neg (by omega), if_neg (by linarith)]
  simp only [← hK]
  have hmin0 : 0 ≤ min (n : ℝ) (K - n) := le_min (by positivity) (by linarith)
  split_ifs with h1 h2 h3
  · rw [min_eq_right h1, one_mul]
    have hle : 2 * min (n : ℝ) (K - n) / K ≤ 1 := by
      rw [div_le_one hM1]
      have := min_le_left (n : ℝ) (K - n)
      have := min_le_right (n : ℝ) (K - n)
      linarith
    rw [taper_mid (by positivity) hle]
    rcases le_total (n : ℝ) (K - n) with h | h
    · rw [min_eq_left h]
      have : Real.pi * (2 * (n : ℝ) / K) = 2 * Real.pi * n / K := by ring
      rw [this]; ring
    · rw [min_eq_right h]
      have : Real.pi * (2 * (K - n) / K) = 2 * Real.pi - 2 * Real.pi * n / K := by field_simp
      rw [this, Real.cos_two_pi_sub]; ring
  all_goals
    push Not at h1
    rw [min_eq_left h1.le]
  · have hw : (n : ℝ) ≤ alpha * K / 2 := by
      have : n ≤ ⌊alpha * K / 2⌋₊ := by omega
      exact le_trans (by exact_mod_cast this) (Nat.floor_le (by positivity))
    have hnn : (n : ℝ) ≤ K - n := by nlinarith
    have hle : 2 * (n : ℝ) / (alpha * K) ≤ 1 := by rw [div_le_one (by positivity)]; linarith
    rw [min_eq_left hnn, taper_mid (by positivity) hle]
    have : Real.pi * (-1 + 2 * (n : ℝ) / alpha / K) = -(Real.pi - Real.pi * (2 * n / (alpha * K))) := by field_simp; ring
    rw [this, Real.cos_neg, Real.cos_pi_sub]; ring
  · have hw : alpha * K / 2 < n := by
      have h4 := Nat.lt_floor_add_one (alpha * K / 2)
      have h5 : ((⌊alpha * K / 2⌋₊ : ℕ) : ℝ) + 1 ≤ n := by exact_mod_cast (by omega : ⌊alpha * K / 2⌋₊ + 1 ≤ n)
      linarith
    have hw2 : alpha * K / 2 < K - n := by
      have h4 := Nat.lt_floor_add_one (alpha * K / 2)
      have h5 : ((⌊alpha * K / 2⌋₊ : ℕ) : ℝ) + 1 + n + 1 ≤ M := by exact_mod_cast (by omega : ⌊alpha * K / 2⌋₊ + 1 + n + 1 ≤ M)
      rw [hK] at *
      linarith
    rw [taper_high]
    rw [le_div_iff₀ (by positivity)]
    have := lt_min hw hw2
    linarith
  · have hw : K - n ≤ alpha * K / 2 := by
      have h4 : ((⌊alpha * K / 2⌋₊ : ℕ) : ℝ) ≤ alpha * K / 2 := Nat.floor_le (by positivity)
      have h5 : (M : ℝ) ≤ ((⌊alpha * K / 2⌋₊ : ℕ) : ℝ) + 1 + n := by exact_mod_cast (by omega : M ≤ ⌊alpha * K / 2⌋₊ + 1 + n)
      rw [hK] at *
      linarith
    have hnn : K - n ≤ (n : ℝ) := by nlinarith
    have hle : 2 * (K - n) / (alpha * K) ≤ 1 := by rw [div_le_one (by positivity)]; linarith
    have h0 : 0 ≤ 2 * (K - n) / (alpha * K) := div_nonneg (by linarith) (by positivity)
    rw [min_eq_right hnn, taper_mid h0 hle]
    have : Real.pi * (-2 / alpha + 1 + 2 * (n : ℝ) / alpha / K) = Real.pi - Real.pi * (2 * (K - n) / (alpha * K)) := by field_simp; ring
    rw [this, Real.cos_pi_sub]; ring

/-- between two nodes `np.interp` mixes their values -/
theorem interp_mix {M : ℕ} (hM : 2 ≤ M) {W : ℝ} (hW : 0 < W) (fp : ℕ → ℝ) {x : ℝ} (h0 : -W / 2 < x) (h1 : x < W / 2) :
    ∃ (j : ℕ) (t : ℝ), j + 1 < M ∧ 0 ≤ t ∧ t ≤ 1 ∧ x = linspace (-W / 2) (W / 2) M j + t * (W / ((M : ℝ) - 1)) ∧
      linspace (-W / 2) (W / 2) M (j + 1) = linspace (-W / 2) (W / 2) M j + W / ((M : ℝ) - 1) ∧
      interp M (linspace (-W / 2) (W / 2) M) fp x = (1 - t) * fp j + t * fp (j + 1) := by
  classical
  have hM1 : (0 : ℝ) < (M : ℝ) - 1 := by
    have : (2 : ℝ) ≤ M := by exact_mod_cast hM
    linarith
  set d : ℝ := W / ((M : ℝ) - 1) with hd
  have hdp : 0 < d := by rw [hd]; positivity
  have hl : ∀ i, linspace (-W / 2) (W / 2) M i = -W / 2 + i * d := by
    intro i; unfold linspace
    rw [if_neg (by omega), hd]; ring_nf
  have hlast : linspace (-W / 2) (W / 2) M (M - 1) = W / 2 := by
    rw [hl, hd, Nat.cast_sub (by omega)]; push_cast; field_simp; ring
  set j := Nat.findGreatest (fun j => linspace (-W / 2) (W / 2) M j ≤ x) (M - 1) with hj
  have hjle : j ≤ M - 1 := Nat.findGreatest_le _
  have hP0 : linspace (-W / 2) (W / 2) M 0 ≤ x := by rw [hl]; push_cast; linarith
  have hPj : linspace (-W / 2) (W / 2) M j ≤ x := by
    rw [hj]
    exact Nat.findGreatest_spec (P := fun j => linspace (-W / 2) (W / 2) M j ≤ x) (Nat.zero_le _) hP0
  have hjlt : j < M - 1 := by
    rcases lt_or_eq_of_le hjle with h | h
    · exact h
    · rw [h, hlast] at hPj; linarith
  have hPj1 : x < linspace (-W / 2) (W / 2) M (j + 1) := by
    have := Nat.findGreatest_is_greatest (P := fun j => linspace (-W / 2) (W / 2) M j ≤ x) (n := M - 1) (k := j + 1) (by rw [hj]; omega) (by omega)
    push Not at this
    exact this
  have hstep : linspace (-W / 2) (W / 2) M (j + 1) = linspace (-W / 2) (W / 2) M j + d := by
    rw [hl, hl]; push_cast; ring
  refine ⟨j, (x - linspace (-W / 2) (W / 2) M j) / d, by omega, ?_, ?_, ?_, hstep, ?_⟩
  · exact div_nonneg (by linarith) hdp.le
  · rw [div_le_one hdp]; linarith
  · field_simp; ring
  · unfold interp
    rw [if_neg (by rw [hl]; push_cast; linarith), if_neg (by rw [hlast]; linarith)]
    simp only
    rw [← hj, hstep]
    have hdn := hdp.ne'
    clear_value d
    generalize linspace (-W / 2) (W / 2) M j = xj
    rw [add_sub_cancel_left]
    field_simp
    ring

theorem T_lip {W alpha : ℝ} (hW : 0 < W) (ha : 0 < alpha) (x y : ℝ) : |T W alpha x - T W alpha y| ≤ Real.pi / (min alpha 1 * W) * |x - y| := by
  unfold T
  refine le_trans (taper_lip _ _) ?_
  have hm : 0 < min alpha 1 := lt_min ha one_pos
  have e : (W / 2 - |x|) / (min alpha 1 * (W / 2)) - (W / 2 - |y|) / (min alpha 1 * (W / 2)) = (|y| - |x|) / (min alpha 1 * (W / 2)) := by
    field_simp; ring
  rw [e, abs_div, abs_of_pos (by positivity : 0 < min alpha 1 * (W / 2))]
  have h := abs_abs_sub_abs_le y x
  rw [abs_sub_comm y x] at h
  have e2 : Real.pi / 2 * (|(|y| - |x|)| / (min alpha 1 * (W / 2))) = Real.pi / (min alpha 1 * W) * |(|y| - |x|)| := by field_simp
  rw [e2]
  exact mul_le_mul_of_nonneg_left h (by have := Real.pi_pos; positivity)

theorem table_ends {M : ℕ} (hM : 2 ≤ M) {W : ℝ} (hW : 0 < W) : linspace (-W / 2) (W / 2) M 0 = -W / 2 ∧ linspace (-W / 2) (W / 2) M (M - 1) = W / 2 := by
  have hM1 : (0 : ℝ) < (M : ℝ) - 1 := by
    have : (2 : ℝ) ≤ M := by exact_mod_cast hM
    linarith
  unfold linspace
  rw [if_neg (by omega), if_neg (by omega), Nat.cast_sub (by omega)]
  push_cast
  constructor
  · ring
  · field_simp; ring

/-- outside of the table -/
theorem window_outside {W alpha x : ℝ} (hM : 2 ≤ nLut W) (hW : 0 < W) (ha : 0 < alpha) (hx : W / 2 ≤ |x|) : windowAt W alpha x = 0 := by
  obtain ⟨e0, e1⟩ := table_ends hM hW
  have hT : ∀ y : ℝ, |y| = W / 2 → T W alpha y = 0 := by
    intro y hy; unfold T; rw [hy]; simp [taper_low]
  have hh : 0 < W / 2 := by positivity
  unfold windowAt interp
  rw [e0, e1]
  split_ifs with h1 h2
  · rw [tukey_node hM hW ha (by omega), e0]
    apply hT
    rw [neg_div, abs_neg, abs_of_pos hh]
  · rw [tukey_node hM hW ha (by omega), e1]
    exact hT _ (abs_of_pos hh)
  · push Not at h1 h2
    have : |x| < W / 2 := abs_lt.2 ⟨by linarith, h2⟩
    linarith

theorem tukey_range (M : ℕ) (alpha : ℝ) (n : ℕ) : 0 ≤ tukey M alpha n ∧ tukey M alpha n ≤ 1 := by
  have hc : ∀ z : ℝ, 0 ≤ 0.5 * (1 + Real.cos z) ∧ 0.5 * (1 + Real.cos z) ≤ 1 := by
    intro z
    have h1 := Real.cos_le_one z
    have h2 := Real.neg_one_le_cos z
    constructor <;> linarith
  unfold tukey
  simp only
  split_ifs
  · norm_num
  · norm_num
  · have h1 := Real.cos_le_one (2 * Real.pi * n / ((M : ℝ) - 1))
    have h2 := Real.neg_one_le_cos (2 * Real.pi * n / ((M : ℝ) - 1))
    constructor <;> linarith
  · exact hc _
  · norm_num
  · exact hc _

/-- The window lies between 0 and 1, for every width (at least a fifth of a sample), every parameter and every radius. -/
theorem C114_window_range {W : ℝ} (hW : 0.2 ≤ W) (alpha x : ℝ) : 0 ≤ windowAt W alpha x ∧ windowAt W alpha x ≤ 1 := by
  have hWp : 0 < W := by linarith
  have hM : 2 ≤ nLut W := Nat.le_floor (by push_cast; linarith)
  obtain ⟨e0, e1⟩ := table_ends hM hWp
  by_cases h0 : x ≤ -W / 2
  · unfold windowAt interp
    rw [e0, if_pos h0]
    exact tukey_range _ _ _
  by_cases h1 : W / 2 ≤ x
  · unfold windowAt interp
    rw [e0, e1, if_neg h0, if_pos h1]
    exact tukey_range _ _ _
  push Not at h0 h1
  obtain ⟨j, t, -, t0, t1, -, -, he⟩ := interp_mix hM hWp (tukey (nLut W) alpha) h0 h1
  unfold windowAt
  rw [he]
  have a := tukey_range (nLut W) alpha j
  have b := tukey_range (nLut W) alpha (j + 1)
  constructor
  · have := mul_nonneg (sub_nonneg.2 t1) a.1
    have := mul_nonneg t0 b.1
    linarith
  · have := mul_le_mul_of_nonneg_left a.2 (sub_nonneg.2 t1)
    have := mul_le_mul_of_nonneg_left b.2 t0
    linarith

/-- For the width `2·outR` and the parameter `1 - inR/outR`, the window is the radial window from `inR` to `outR` up to the error of the table, which is at most
`π/2` over the number of table steps in the taper (twice its length). -/
theorem C114_window_accuracy {inR outR q : ℝ} (hin : 0 < inR) (hio : inR < outR) (hout : 0.1 ≤ outR) (hq : 0 ≤ q) :
    |windowAt (2 * outR) (1 - inR / outR) q - radialWindow inR outR q| ≤ Real.pi / (2 * (1 - inR / outR) * ((nLut (2 * outR) : ℝ) - 1)) := by
  have ho : 0 < outR := by linarith
  set W := 2 * outR with hWd
  set alpha := 1 - inR / outR with had
  have hWp : 0 < W := by positivity
  have ha : 0 < alpha := by rw [had, sub_pos, div_lt_one ho]; exact hio
  have ha1 : alpha ≤ 1 := by rw [had]; have : 0 < inR / outR := by positivity
                             linarith
  have hM : 2 ≤ nLut W := Nat.le_floor (by push_cast; linarith)
  have hM1 : (0 : ℝ) < (nLut W : ℝ) - 1 := by
    have : (2 : ℝ) ≤ nLut W := by exact_mod_cast hM
    linarith
  have hT : T W alpha q = radialWindow inR outR q := by
    unfold T radialWindow
    rw [abs_of_nonneg hq, min_eq_left ha1]
    congr 1
    rw [hWd, had]
    have : outR - inR ≠ 0 := by linarith
    field_simp
  rw [← hT]
  by_cases hqo : W / 2 ≤ q
  · rw [window_outside hM hWp ha (by rwa [abs_of_nonneg hq])]
    have : T W alpha q = 0 := by
      unfold T; rw [abs_of_nonneg hq]
      exact taper_low (div_nonpos_of_nonpos_of_nonneg (by linarith) (by have := lt_min ha one_pos; positivity))
    rw [this]
    simp
    have := Real.pi_pos
    positivity
  push Not at hqo
  obtain ⟨j, t, hj, t0, t1, hx, hs, he⟩ := interp_mix hM hWp (tukey (nLut W) alpha) (by linarith : -W / 2 < q) hqo
  unfold windowAt
  rw [he, tukey_node hM hWp ha (by omega : j < nLut W), tukey_node hM hWp ha hj, hs]
  set xj := linspace (-W / 2) (W / 2) (nLut W) j
  set d := W / ((nLut W : ℝ) - 1) with hd
  have hdp : 0 < d := by rw [hd]; positivity
  have l1 := T_lip hWp ha xj q
  have l2 := T_lip hWp ha (xj + d) q
  rw [min_eq_left ha1] at l1 l2
  have x1 : |xj - q| = t * d := by rw [hx, abs_sub_comm]; rw [add_sub_cancel_left, abs_of_nonneg (by positivity)]
  have x2 : |xj + d - q| = (1 - t) * d := by
    rw [hx, show xj + d - (xj + t * d) = (1 - t) * d by ring, abs_of_nonneg (mul_nonneg (by linarith) hdp.le)]
  rw [x1] at l1
  rw [x2] at l2
  have e : (1 - t) * T W alpha xj + t * T W alpha (xj + d) - T W alpha q = (1 - t) * (T W alpha xj - T W alpha q) + t * (T W alpha (xj + d) - T W alpha q) := by ring
  rw [e]
  have hL : 0 < Real.pi / (alpha * W) := by have := Real.pi_pos; positivity
  calc _ ≤ |(1 - t) * (T W alpha xj - T W alpha q)| + |t * (T W alpha (xj + d) - T W alpha q)| := abs_add_le _ _
    _ = (1 - t) * |T W alpha xj - T W alpha q| + t * |T W alpha (xj + d) - T W alpha q| := by
        rw [abs_mul, abs_mul, abs_of_nonneg t0, abs_of_nonneg (by linarith : 0 ≤ 1 - t)]
    _ ≤ (1 - t) * (Real.pi / (alpha * W) * (t * d)) + t * (Real.pi / (alpha * W) * ((1 - t) * d)) := by
        gcongr
    _ = Real.pi / (alpha * W) * d * (2 * (t * (1 - t))) := by ring
    _ ≤ Real.pi / (alpha * W) * d * (1 / 2) := by
        apply mul_le_mul_of_nonneg_left _ (by positivity)
        nlinarith [sq_nonneg (t - 1 / 2)]
    _ = Real.pi / (2 * alpha * ((nLut W : ℝ) - 1)) := by rw [hd]; field_simp

/-- The window is exactly 0 from the outer radius on, and exactly 1 up to one table step inside of the inner radius. -/
theorem C114_window_exact {inR outR q : ℝ} (hin : 0 < inR) (hio : inR < outR) (hout : 0.1 ≤ outR) (hq : 0 ≤ q) :
    (outR ≤ q → windowAt (2 * outR) (1 - inR / outR) q = 0) ∧
    (q + 2 * outR / ((nLut (2 * outR) : ℝ) - 1) ≤ inR → windowAt (2 * outR) (1 - inR / outR) q = 1) := by
  have ho : 0 < outR := by linarith
  have hWp : 0 < 2 * outR := by positivity
  have ha : 0 < 1 - inR / outR := by rw [sub_pos, div_lt_one ho]; exact hio
  have ha1 : 1 - inR / outR ≤ 1 := by have : 0 < inR / outR := by positivity
                                      linarith
  have hM : 2 ≤ nLut (2 * outR) := Nat.le_floor (by push_cast; linarith)
  have hM1 : (0 : ℝ) < (nLut (2 * outR) : ℝ) - 1 := by
    have : (2 : ℝ) ≤ nLut (2 * outR) := by exact_mod_cast hM
    linarith
  constructor
  · intro h
    exact window_outside hM hWp ha (by rw [abs_of_nonneg hq]; linarith)
  · intro h
    have hdp : 0 < 2 * outR / ((nLut (2 * outR) : ℝ) - 1) := by positivity
    obtain ⟨j, t, hj, t0, t1, hx, hs, he⟩ := interp_mix hM hWp (tukey (nLut (2 * outR)) (1 - inR / outR)) (by linarith : -(2 * outR) / 2 < q) (by linarith)
    have hone : ∀ y : ℝ, |y| ≤ inR → T (2 * outR) (1 - inR / outR) y = 1 := by
      intro y hy
      unfold T
      rw [min_eq_left ha1]
      apply taper_high
      rw [le_div_iff₀ (by positivity)]
      have : (1 - inR / outR) * (2 * outR / 2) = outR - inR := by field_simp
      rw [this]; linarith
    unfold windowAt
    rw [he, tukey_node hM hWp ha (by omega : j < nLut (2 * outR)), tukey_node hM hWp ha hj, hs]
    set xj := linspace (-(2 * outR) / 2) (2 * outR / 2) (nLut (2 * outR)) j
    set d := 2 * outR / ((nLut (2 * outR) : ℝ) - 1)
    have b1 : t * d ≤ d := mul_le_of_le_one_left hdp.le t1
    have b2 : 0 ≤ t * d := by positivity
    rw [hone xj (abs_le.2 ⟨by linarith, by linarith⟩), hone (xj + d) (abs_le.2 ⟨by linarith, by linarith⟩)]
    ring

/-- When the inner radius is not smaller than the outer radius, the window is 1 everywhere, also outside of the outer radius. -/
theorem C114_no_taper {inR outR : ℝ} (hio : outR ≤ inR) (ho : 0 < outR) (W q : ℝ) : windowAt W (1 - inR / outR) q = 1 := by
  have ha : 1 - inR / outR ≤ 0 := by rw [sub_nonpos, one_le_div ho]; exact hio
  have ht : ∀ M n, tukey M (1 - inR / outR) n = 1 := by
    intro M n; unfold tukey
    split_ifs <;> rfl
  unfold windowAt interp
  simp only [ht]
  split_ifs <;> simp

/-! ## Propagation through the vortex -/

/-- The table of positive widths below a tenth of a sample is empty, which is refused; others give the window. -/
theorem C114_table {W : ℝ} (_hW : 0 < W) (alpha q : ℝ) :
    (W < 0.1 → genTukey W alpha q = .error .valueError) ∧ (0.1 ≤ W → genTukey W alpha q = .ok (windowAt W alpha q)) := by
  unfold genTukey
  constructor
  · intro h
    rw [if_pos]
    unfold nLut
    rw [Nat.floor_eq_zero]; linarith
  · intro h
    rw [if_neg]
    unfold nLut
    have : 1 ≤ ⌊10 * W⌋₊ := Nat.le_floor (by push_cast; linarith)
    omega

/-- The two windows of the propagation, seen at the same radius `q` (in λ/D) of the focal plane - `4·q` samples in the coarse array and `q·NB/(2·outVal)` samples in the fine
one - are the same radial window from `inVal` to `outVal`, up to the errors of the two tables. -/
theorem C114_two_windows {NB : ℕ} (hNB : 0 < NB) {inVal outVal q : ℝ} (hin : 0 < inVal) (hio : inVal < outVal) (hout : 0.1 ≤ 4 * outVal) (hq : 0 ≤ q) :
    |windowAt (2 * outVal * 4) (1 - inVal / outVal) (4 * q) - radialWindow inVal outVal q| ≤ Real.pi / (2 * (1 - inVal / outVal) * ((nLut (2 * outVal * 4) : ℝ) - 1)) ∧
    |windowAt NB (1 - inVal / outVal) (q * NB / (2 * outVal)) - radialWindow inVal outVal q| ≤ Real.pi / (2 * (1 - inVal / outVal) * ((nLut NB : ℝ) - 1)) := by
  have ho : 0 < outVal := by linarith
  have hN : (1 : ℝ) ≤ NB := by exact_mod_cast hNB
  have hd : outVal - inVal ≠ 0 := by linarith
  have sc : ∀ k : ℝ, 0 < k → radialWindow (k * inVal) (k * outVal) (k * q) = radialWindow inVal outVal q := by
    intro k hk
    unfold radialWindow
    rw [← mul_sub, ← mul_sub, mul_div_mul_left _ _ hk.ne']
  constructor
  · have := C114_window_accuracy (inR := 4 * inVal) (outR := 4 * outVal) (q := 4 * q) (by linarith) (by linarith) hout (by linarith)
    rw [sc 4 (by norm_num), mul_div_mul_left _ _ (by norm_num : (4 : ℝ) ≠ 0), show 2 * (4 * outVal) = 2 * outVal * 4 by ring] at this
    exact this
  · have hk : 0 < (NB : ℝ) / (2 * outVal) := by positivity
    have := C114_window_accuracy (inR := NB / (2 * outVal) * inVal) (outR := NB / (2 * outVal) * outVal) (q := NB / (2 * outVal) * q) (by positivity) (by gcongr)
      (by have : (NB : ℝ) / (2 * outVal) * outVal = NB / 2 := by field_simp
          rw [this]; linarith) (by positivity)
    rw [sc _ hk, mul_div_mul_left _ _ hk.ne', show 2 * ((NB : ℝ) / (2 * outVal) * outVal) = NB by field_simp, show (NB : ℝ) / (2 * outVal) * q = q * NB / (2 * outVal) by ring] at this
    exact this

/-- The reverse gradient propagation is the conjugate of the forward propagation of the conjugate field, for every charge, beam and window. -/
theorem C114_reverse {A : ℕ} (charge : ℤ) (beamRadius inVal outVal : ℝ) (P : Matrix (Fin A) (Fin A) ℂ) :
    mftP2v2pCharge true charge beamRadius inVal outVal P =
      fun a b => starRingEnd ℂ (mftP2v2pCharge false charge beamRadius inVal outVal (P.map (starRingEnd ℂ)) a b) := by
  have br : ∀ {B : ℕ} (s : ℝ) (x : Fin A → ℝ) (u : Fin B → ℝ) (F : Fin B → Fin B → ℂ) (w : Fin B → Fin B → ℝ) (a b : Fin A),
      vortexBranch true s x u F w P a b = starRingEnd ℂ (vortexBranch false s x u F w (P.map (starRingEnd ℂ)) a b) := by
    intro B s x u F w a b
    have hdef : ∀ (rg : Bool) (Q : Matrix (Fin A) (Fin A) ℂ), vortexBranch rg s x u F w Q a b =
        (s : ℂ) * ∑ q : Fin B, (∑ p : Fin B, exp (-I * (if rg then -1 else 1) * 2 * Real.pi * (x a * u p)) *
          (((s : ℂ) * ∑ d : Fin A, (∑ c : Fin A, exp (-I * (if rg then -1 else 1) * 2 * Real.pi * (u p * x c)) * Q c d) *
            exp (-I * (if rg then -1 else 1) * 2 * Real.pi * (x d * u q))) * (if rg then starRingEnd ℂ (F p q) else F p q) * (w p q : ℂ))) *
          exp (-I * (if rg then -1 else 1) * 2 * Real.pi * (u q * x b)) := fun _ _ => rfl
    have ec : ∀ y z : ℝ, starRingEnd ℂ (exp (-I * 1 * 2 * Real.pi * (y * z))) = exp (-I * -1 * 2 * Real.pi * (y * z)) := by
      intro y z
      rw [← Complex.exp_conj]
      congr 1
      have : starRingEnd ℂ 2 = 2 := Complex.conj_ofReal 2
      simp [this]
    rw [hdef, hdef]
    simp only [Matrix.map_apply, map_mul, map_sum, conj_ofReal, if_true, Bool.false_eq_true, if_false, Complex.conj_conj, ec]
  funext a b
  exact (congrArg₂ (· + ·) (br _ _ _ _ _ a b) (br _ _ _ _ _ a b)).trans (map_add (starRingEnd ℂ) _ _).symm

/-- With charge 0, a beam for which `8·beamRadius` is an even number of samples larger than the pupil array, and `8·outVal` equal to that number, the propagation is the turn by
half a turn of the pupil. -/
theorem C114_charge_zero {A : ℕ} (NB : ℕ) (hNB : 0 < NB) (hev : Even NB) (hA : A < NB) (beamRadius inVal outVal : ℝ) (hD : 8 * beamRadius = NB) (hout : 8 * outVal = NB)
    (P : Matrix (Fin A) (Fin A) ℂ) (a b : Fin A) :
    mftP2v2pCharge false 0 beamRadius inVal outVal P a b = ∑ c : Fin A, ∑ d : Fin A, if (a : ℕ) + c = A ∧ (b : ℕ) + d = A then P c d else 0 := by
  have hNBr : (0 : ℝ) < NB := by exact_mod_cast hNB
  have e : (Util.ceilEven (4 * (2 * beamRadius))).toNat = NB := by
    obtain ⟨k, hk⟩ := hev
    unfold Util.ceilEven
    have : (0.5 : ℝ) * (4 * (2 * beamRadius)) = (k : ℤ) := by
      have : (NB : ℝ) = k + k := by exact_mod_cast hk
      push_cast; linarith
    rw [this, Int.ceil_intCast]; omega
  have hd : ∀ n, n = NB → mftP2v2pOf false (2 * beamRadius) 4 outVal n (fun n r c => mask ((0 : ℤ) : ℝ) n r c)
      (fun width r c => windowAt width (1 - inVal / outVal) (rho n r c)) P a b = ∑ c : Fin A, ∑ d : Fin A, if (a : ℕ) + c = A ∧ (b : ℕ) + d = A then P c d else 0 := by
    rintro n rfl
    exact C62_unit_mask n hNB hev hA (2 * beamRadius) 4 outVal (by linarith) (by norm_num) (by linarith) (by linarith) _ (fun p q => by simpa using C114_no_charge n p q) _ P a b
  exact hd _ e

/-- FALCO's own values, windows from 0.3 to 5 λ/D: 1 on the axis and 0 from 20 coarse samples on. -/
example : windowAt (2 * 20) (1 - 1.2 / 20) 0 = 1 ∧ windowAt (2 * 20) (1 - 1.2 / 20) 21 = 0 := by
  have h : nLut (2 * 20) = 400 := by unfold nLut; norm_num
  refine ⟨(C114_window_exact (by norm_num) (by norm_num) (by norm_num) le_rfl).2 ?_, (C114_window_exact (by norm_num) (by norm_num) (by norm_num) (by norm_num)).1 (by norm_num)⟩
  rw [h]; norm_num

/-- A beam of 4 pixels diameter in a 10 by 10 array with `outVal = 2`. -/
example (P : Matrix (Fin 10) (Fin 10) ℂ) : mftP2v2pCharge false 0 2 0.3 2 P 5 6 = P 5 4 := by
  rw [C114_charge_zero 16 (by norm_num) (by decide) (by norm_num) 2 0.3 2 (by norm_num) (by norm_num)]
  rw [Finset.sum_eq_single 5, Finset.sum_eq_single 4]
  · simp
  · intro d _ hd
    rw [if_neg]
    rintro ⟨-, h⟩
    apply hd; ext
    have : ((6 : Fin 10) : ℕ) = 6 := rfl
    have : ((4 : Fin 10) : ℕ) = 4 := rfl
    omega
  · simp
  · intro c _ hc
    refine Finset.sum_eq_zero fun d _ => ?_
    rw [if_neg]
    rintro ⟨h, -⟩
    apply hc; ext
    have : ((5 : Fin 10) : ℕ) = 5 := rfl
    omega
  · simp

end Verif.VortexMask
