import Verif.Model.Mask8
import Verif.Props.FieldOps
import Mathlib.Analysis.Complex.Exponential
import Mathlib.Analysis.SpecialFunctions.Trigonometric.Sinc
import Mathlib.Order.Bounds.Basic

/-!
# C129: the 8th-order occulter (prop_8th_order_mask)
-/

namespace Verif.Mask8
open Verif Verif.Proper

variable {n : ℕ} [NeZero n]

/-! ## Specification -/

/-- Distance of pixel `(i, j)` from the centre of the mask along the axis or axes it varies in, in units of pixels: columns (or rows with Y_AXIS) for the linear mask. -/
noncomputable def distance (k : Kind) (i j : ZMod n) : ℝ :=
  match k with
  | .linear false => |off n j|
  | .linear true => |off n i|
  | .circular => Real.sqrt (off n j ^ 2 + off n i ^ 2)
  | .elliptical q => Real.sqrt (off n j ^ 2 + (off n i / q) ^ 2)

/-- The amplitude profile of Kuchner, Crepp & Ge (2005) for an 8th-order mask: `2/3 - sinc³(u/3) + sinc(u)/3` with `u = π e x`. -/
noncomputable def profile (e x : ℝ) : ℝ := 2 / 3 - Real.sinc (Real.pi * e * x / 3) ^ 3 + Real.sinc (Real.pi * e * x) / 3

/-! ## Lemmas -/

theorem sinc_eq (x : ℝ) : sinc x = Real.sinc x := by
  unfold sinc Real.sinc
  split_ifs <;> rfl

theorem raw_eq (e x : ℝ) : raw e x = profile e x := by
  unfold raw profile
  rw [sinc_eq, sinc_eq]
  rw [show x * (Real.pi * e / 3) = Real.pi * e * x / 3 by ring, show x * (Real.pi * e / 1) = Real.pi * e * x by ring]
  ring

theorem profile_abs (e x : ℝ) : profile e |x| = profile e x := by
  rcases abs_choice x with h | h
  · rw [h]
  · rw [h]
    unfold profile
    rw [show Real.pi * e * -x / 3 = -(Real.pi * e * x / 3) by ring, show Real.pi * e * -x = -(Real.pi * e * x) by ring, Real.sinc_neg, Real.sinc_neg]

theorem profile_zero (e : ℝ) : profile e 0 = 0 := by
  unfold profile
  simp
  norm_num

theorem profile_mul_abs (e c x : ℝ) : profile e (|x| * c) = profile e (x * c) := by
  rw [← profile_abs e (|x| * c), ← profile_abs e (x * c), abs_mul, abs_mul, abs_abs]

/-- `sin x = x - x³/6` up to `|x|⁵/100`, for `|x| ≤ 1`. -/
theorem sin_near {x : ℝ} (hx : |x| ≤ 1) : |Real.sin x - (x - x ^ 3 / 6)| ≤ |x| ^ 5 / 100 := by
  have h := Complex.exp_bound (x := (x : ℂ) * Complex.I) (by simpa using hx) (n := 5) (by norm_num)
  have hn : ‖(x : ℂ) * Complex.I‖ = |x| := by simp
  rw [hn] at h
  have him := (Complex.abs_im_le_norm _).trans h
  rw [Complex.sub_im, Complex.exp_ofReal_mul_I_im] at him
  have hs : (∑ m ∈ Finset.range 5, ((x : ℂ) * Complex.I) ^ m / (m.factorial : ℂ)).im = x - x ^ 3 / 6 := by
    have e : ∑ m ∈ Finset.range 5, ((x : ℂ) * Complex.I) ^ m / (m.factorial : ℂ) = ((1 - x ^ 2 / 2 + x ^ 4 / 24 : ℝ) : ℂ) + ((x - x ^ 3 / 6 : ℝ) : ℂ) * Complex.I := by
      have i2 : Complex.I ^ 2 = -1 := Complex.I_sq
      have i3 : Complex.I ^ 3 = -Complex.I := Complex.I_pow_three
      have i4 : Complex.I ^ 4 = 1 := Complex.I_pow_four
      simp only [Finset.sum_range_succ, Finset.sum_range_zero, mul_pow, i2, i3, i4, Nat.factorial]
      push_cast
      ring
    rw [e, Complex.add_im, Complex.ofReal_im, Complex.mul_I_im, Complex.ofReal_re, zero_add]
  rw [hs] at him
  refine him.trans (le_of_eq ?_)
  norm_num [Nat.factorial]
  ring

theorem sinc_near {x : ℝ} (hx : |x| ≤ 1) : |Real.sinc x - (1 - x ^ 2 / 6)| ≤ x ^ 4 / 100 := by
  by_cases h0 : x = 0
  · subst h0; simp
  · have h := sin_near hx
    have hp : 0 < |x| := abs_pos.mpr h0
    have e : Real.sinc x - (1 - x ^ 2 / 6) = (Real.sin x - (x - x ^ 3 / 6)) / x := by
      rw [Real.sinc_of_ne_zero h0]
      field_simp
    rw [e, abs_div, div_le_iff₀ hp]
    refine h.trans (le_of_eq ?_)
    have : x ^ 4 = |x| ^ 4 := by rw [← abs_pow, abs_of_nonneg (by positivity)]
    rw [this]
    ring

theorem profile_le (e x : ℝ) : |profile e x| ≤ 2 * (Real.pi * e * x) ^ 4 := by
  unfold profile
  generalize Real.pi * e * x = u
  by_cases hu : |u| ≤ 1
  · have h1 := sinc_near hu
    have h2 := sinc_near (x := u / 3) (by rw [abs_div]; norm_num; linarith [abs_nonneg u])
    obtain ⟨r, hr⟩ : ∃ r, r = Real.sinc u - (1 - u ^ 2 / 6) := ⟨_, rfl⟩
    obtain ⟨t, ht⟩ : ∃ t, t = 1 - Real.sinc (u / 3) := ⟨_, rfl⟩
    rw [← hr] at h1
    have hr' : Real.sinc u = 1 - u ^ 2 / 6 + r := by rw [hr]; ring
    have ht' : Real.sinc (u / 3) = 1 - t := by rw [ht]; ring
    rw [ht'] at h2 ⊢
    rw [hr']
    have hv : 0 ≤ u ^ 2 := sq_nonneg u
    have hv1 : u ^ 2 ≤ 1 := by rw [← sq_abs]; exact pow_le_one₀ (abs_nonneg u) hu
    obtain ⟨v, hvv⟩ : ∃ v, v = u ^ 2 := ⟨_, rfl⟩
    have e4 : u ^ 4 = v ^ 2 := by rw [hvv]; ring
    have e2 : (u / 3) ^ 2 = v / 9 := by rw [hvv]; ring
    have e44 : (u / 3) ^ 4 = v ^ 2 / 81 := by rw [hvv]; ring
    rw [e4] at h1 ⊢
    rw [e2, e44] at h2
    rw [← hvv] at hv hv1 ⊢
    obtain ⟨a1, a2⟩ := abs_le.mp h1
    obtain ⟨b1, b2⟩ := abs_le.mp h2
    have hvs : v ^ 2 ≤ v := by nlinarith
    have t0 : 0 ≤ t := by nlinarith
    have t1 : t ≤ v / 9 := by nlinarith
    have ts : t ^ 2 ≤ (v / 9) ^ 2 := pow_le_pow_left₀ t0 t1 2
    have t1' : t ≤ 1 := by linarith
    have tc0 : 0 ≤ t ^ 3 := by positivity
    have tc : t ^ 3 ≤ t ^ 2 := by nlinarith [sq_nonneg t]
    have hs : 0 ≤ t ^ 2 := sq_nonneg t
    have hvv0 : 0 ≤ v ^ 2 := sq_nonneg v
    have ex : 2 / 3 - (1 - t) ^ 3 + (1 - v / 6 + r) / 3 = 3 * (t - v / 54) - 3 * t ^ 2 + t ^ 3 + r / 3 := by ring
    rw [ex, abs_le]
    constructor <;> nlinarith
  · have h1 := abs_le.mp (Real.abs_sinc_le_one u)
    have h2 := Real.abs_sinc_le_one (u / 3)
    have h3 : |Real.sinc (u / 3) ^ 3| ≤ 1 := by
      rw [abs_pow]; exact pow_le_one₀ (abs_nonneg _) h2
    have h3' := abs_le.mp h3
    have h4 : 1 ≤ u ^ 4 := by
      have : u ^ 4 = |u| ^ 4 := by rw [← abs_pow, abs_of_nonneg (by positivity)]
      rw [this]
      exact one_le_pow₀ (le_of_not_ge hu)
    rw [abs_le]
    constructor <;> linarith [h1.1, h1.2, h3'.1, h3'.2]

theorem normalise_value {ι : Type} [Fintype ι] [Nonempty ι] (m : ι → ℝ) (lo hi mn mx : ℝ)
    (hmn : IsLeast (Set.range fun i => m i ^ 2) mn) (hmx : IsGreatest (Set.range fun i => m i ^ 2) mx) (i : ι) :
    normalise m lo hi i = Real.sqrt ((m i ^ 2 - mn) / (mx - mn) * (hi - lo) + lo) := by
  have e1 : Finset.univ.inf' Finset.univ_nonempty (fun i => m i ^ 2) = mn := by
    apply le_antisymm
    · obtain ⟨k, hk⟩ := hmn.1
      rw [← hk]
      exact Finset.inf'_le (fun i => m i ^ 2) (Finset.mem_univ k)
    · exact Finset.le_inf' _ _ fun k _ => hmn.2 ⟨k, rfl⟩
  have e2 : Finset.univ.sup' Finset.univ_nonempty (fun i => m i ^ 2 - mn) = mx - mn := by
    apply le_antisymm
    · refine Finset.sup'_le _ _ fun k _ => ?_
      have : m k ^ 2 ≤ mx := hmx.2 ⟨k, rfl⟩
      linarith
    · obtain ⟨k, hk⟩ := hmx.1
      have hk' : m k ^ 2 = mx := hk
      have := Finset.le_sup' (fun i => m i ^ 2 - mn) (Finset.mem_univ k)
      rw [hk'] at this
      exact this
  unfold normalise
  simp only [e1, e2]

/-- **C129 (value).** With `P` the profile at the pixel's distance from the centre and `mn`, `mx` the least and greatest values of `P²` on the grid, the mask is `√((P² - mn)/(mx - mn)·(hi - lo) + lo)`. -/
theorem C129_value (k : Kind) (c e lo hi mn mx : ℝ)
    (hmn : IsLeast {b | ∃ p q : ZMod n, b = profile e (distance k p q * c) ^ 2} mn)
    (hmx : IsGreatest {b | ∃ p q : ZMod n, b = profile e (distance k p q * c) ^ 2} mx) (i j : ZMod n) :
    mask n c e lo hi k i j = Real.sqrt ((profile e (distance k i j * c) ^ 2 - mn) / (mx - mn) * (hi - lo) + lo) := by
  cases k with
  | linear y =>
    have hr : {b | ∃ p q : ZMod n, b = profile e (distance (.linear y) p q * c) ^ 2} = Set.range fun j : ZMod n => raw e (off n j * c) ^ 2 := by
      ext b
      simp only [Set.mem_range, Set.mem_ofPred_eq]
      constructor
      · rintro ⟨p, q, rfl⟩
        cases y
        · exact ⟨q, by simp only [distance, raw_eq, profile_mul_abs]⟩
        · exact ⟨p, by simp only [distance, raw_eq, profile_mul_abs]⟩
      · rintro ⟨p, rfl⟩
        refine ⟨p, p, ?_⟩
        cases y <;> simp only [distance, raw_eq, profile_mul_abs]
    rw [hr] at hmn hmx
    cases y
    · refine (normalise_value _ lo hi mn mx hmn hmx _).trans ?_
      simp only [distance, raw_eq, profile_mul_abs]
    · refine (normalise_value _ lo hi mn mx hmn hmx _).trans ?_
      simp only [distance, raw_eq, profile_mul_abs]
  | circular =>
    have hr : {b | ∃ p q : ZMod n, b = profile e (distance .circular p q * c) ^ 2} = Set.range fun p : ZMod n × ZMod n => raw e (Real.sqrt (off n p.2 ^ 2 + off n p.1 ^ 2) * c) ^ 2 := by
      ext b
      simp only [Set.mem_range, Set.mem_ofPred_eq, Prod.exists, raw_eq, distance]
      exact ⟨fun ⟨p, q, h⟩ => ⟨p, q, h.symm⟩, fun ⟨p, q, h⟩ => ⟨p, q, h.symm⟩⟩
    rw [hr] at hmn hmx
    refine (normalise_value _ lo hi mn mx hmn hmx _).trans ?_
    simp only [distance, raw_eq]
  | elliptical r =>
    have hr : {b | ∃ p q : ZMod n, b = profile e (distance (.elliptical r) p q * c) ^ 2} = Set.range fun p : ZMod n × ZMod n => raw e (Real.sqrt (off n p.2 ^ 2 + (off n p.1 / r) ^ 2) * c) ^ 2 := by
      ext b
      simp only [Set.mem_range, Set.mem_ofPred_eq, Prod.exists, raw_eq, distance]
      exact ⟨fun ⟨p, q, h⟩ => ⟨p, q, h.symm⟩, fun ⟨p, q, h⟩ => ⟨p, q, h.symm⟩⟩
    rw [hr] at hmn hmx
    refine (normalise_value _ lo hi mn mx hmn hmx _).trans ?_
    simp only [distance, raw_eq]

/-- The least and the greatest brightness exist. -/
theorem extremes (k : Kind) (c e : ℝ) : ∃ mn mx,
    IsLeast {b | ∃ p q : ZMod n, b = profile e (distance k p q * c) ^ 2} mn ∧
      IsGreatest {b | ∃ p q : ZMod n, b = profile e (distance k p q * c) ^ 2} mx := by
  obtain ⟨a, -, ha⟩ := Finset.exists_min_image Finset.univ (fun p : ZMod n × ZMod n => profile e (distance k p.1 p.2 * c) ^ 2) Finset.univ_nonempty
  obtain ⟨b, -, hb⟩ := Finset.exists_max_image Finset.univ (fun p : ZMod n × ZMod n => profile e (distance k p.1 p.2 * c) ^ 2) Finset.univ_nonempty
  refine ⟨_, _, ⟨⟨a.1, a.2, rfl⟩, ?_⟩, ⟨⟨b.1, b.2, rfl⟩, ?_⟩⟩
  · rintro _ ⟨p, q, rfl⟩
    exact ha (p, q) (Finset.mem_univ _)
  · rintro _ ⟨p, q, rfl⟩
    exact hb (p, q) (Finset.mem_univ _)

/-- **C129 (range).** Unless the profile has the same brightness everywhere, the intensity of the mask (its square) lies between the requested minimum and maximum, and takes both values. -/
theorem C129_range (k : Kind) (c e lo hi : ℝ) (hlo : 0 ≤ lo) (hhi : lo ≤ hi)
    (hne : ∃ p q p' q' : ZMod n, profile e (distance k p q * c) ^ 2 ≠ profile e (distance k p' q' * c) ^ 2) :
    (∀ i j : ZMod n, lo ≤ mask n c e lo hi k i j ^ 2 ∧ mask n c e lo hi k i j ^ 2 ≤ hi ∧ 0 ≤ mask n c e lo hi k i j) ∧
      (∃ i j : ZMod n, mask n c e lo hi k i j ^ 2 = lo) ∧ ∃ i j : ZMod n, mask n c e lo hi k i j ^ 2 = hi := by
  obtain ⟨mn, mx, hmn, hmx⟩ := extremes (n := n) k c e
  have hlt : mn < mx := by
    obtain ⟨p, q, p', q', h⟩ := hne
    have a1 := hmn.2 ⟨p, q, rfl⟩
    have a2 := hmn.2 ⟨p', q', rfl⟩
    have b1 := hmx.2 ⟨p, q, rfl⟩
    have b2 := hmx.2 ⟨p', q', rfl⟩
    rcases lt_or_gt_of_ne h with h | h <;> linarith
  have hd : 0 < mx - mn := by linarith
  have key : ∀ i j : ZMod n, mask n c e lo hi k i j ^ 2 = (profile e (distance k i j * c) ^ 2 - mn) / (mx - mn) * (hi - lo) + lo := by
    intro i j
    rw [C129_value k c e lo hi mn mx hmn hmx, Real.sq_sqrt]
    have : 0 ≤ (profile e (distance k i j * c) ^ 2 - mn) / (mx - mn) := div_nonneg (by linarith [hmn.2 ⟨i, j, rfl⟩]) hd.le
    have := mul_nonneg this (sub_nonneg.mpr hhi)
    linarith
  refine ⟨fun i j => ?_, ?_, ?_⟩
  · have h0 : 0 ≤ (profile e (distance k i j * c) ^ 2 - mn) / (mx - mn) := div_nonneg (by linarith [hmn.2 ⟨i, j, rfl⟩]) hd.le
    have h1 : (profile e (distance k i j * c) ^ 2 - mn) / (mx - mn) ≤ 1 := by
      rw [div_le_one hd]
      linarith [hmx.2 ⟨i, j, rfl⟩]
    rw [key]
    refine ⟨by nlinarith, by nlinarith, ?_⟩
    rw [C129_value k c e lo hi mn mx hmn hmx]
    exact Real.sqrt_nonneg _
  · obtain ⟨i, j, h⟩ := hmn.1
    refine ⟨i, j, ?_⟩
    rw [key, ← h]; simp
  · obtain ⟨i, j, h⟩ := hmx.1
    refine ⟨i, j, ?_⟩
    rw [key, ← h, div_self hd.ne']; ring

theorem off_centre (hn : n % 2 = 0) : off n (((n / 2 : ℕ) : ZMod n)) = 0 := by
  have hp := Nat.pos_of_ne_zero (NeZero.ne n)
  unfold off
  rw [ZMod.val_natCast, Nat.mod_eq_of_lt (by omega)]
  have : (n : ℝ) = 2 * ((n / 2 : ℕ) : ℝ) := by
    have h : n = 2 * (n / 2) := by omega
    exact_mod_cast h
  generalize ((n / 2 : ℕ) : ℝ) = H at *
  rw [this]
  ring

theorem distance_centre (hn : n % 2 = 0) (k : Kind) : distance k (((n / 2 : ℕ) : ZMod n)) (((n / 2 : ℕ) : ZMod n)) = 0 := by
  cases k with
  | linear y => cases y <;> simp [distance, off_centre hn]
  | circular => simp [distance, off_centre hn]
  | elliptical r => simp [distance, off_centre hn]

theorem least_zero (hn : n % 2 = 0) (k : Kind) (c e : ℝ) : IsLeast {b | ∃ p q : ZMod n, b = profile e (distance k p q * c) ^ 2} 0 := by
  refine ⟨⟨((n / 2 : ℕ) : ZMod n), ((n / 2 : ℕ) : ZMod n), ?_⟩, ?_⟩
  · rw [distance_centre hn, zero_mul, profile_zero]; norm_num
  · rintro _ ⟨p, q, rfl⟩
    exact sq_nonneg _

/-- **C129 (centre).** On an even grid the mask is darkest, at the requested minimum, on the central pixel. -/
theorem C129_centre (hn : n % 2 = 0) (k : Kind) (c e lo hi : ℝ) :
    mask n c e lo hi k ((n / 2 : ℕ) : ZMod n) ((n / 2 : ℕ) : ZMod n) = Real.sqrt lo := by
  obtain ⟨mn, mx, hmn, hmx⟩ := extremes (n := n) k c e
  obtain rfl := hmn.unique (least_zero hn k c e)
  rw [C129_value k c e lo hi 0 mx hmn hmx, distance_centre hn, zero_mul, profile_zero]
  simp

/-- **C129 (eighth order).** On an even grid with transmission from 0 to 1, the intensity at a pixel times the brightness of the profile at any pixel is at most `4 (π e x)⁸` with `x` the pixel's distance from the centre in λ/D: near the centre the mask's intensity falls with the eighth power of the distance. The intensities are in the proportion of the profile's. -/
theorem C129_eighth_order (hn : n % 2 = 0) (k : Kind) (c e : ℝ) (hne : ∃ p q : ZMod n, profile e (distance k p q * c) ≠ 0) (i j : ZMod n) :
    (∀ p q : ZMod n, mask n c e 0 1 k i j ^ 2 * profile e (distance k p q * c) ^ 2 ≤ 4 * (Real.pi * e * (distance k i j * c)) ^ 8) ∧
      ∀ p q : ZMod n, mask n c e 0 1 k i j ^ 2 * profile e (distance k p q * c) ^ 2 = mask n c e 0 1 k p q ^ 2 * profile e (distance k i j * c) ^ 2 := by
  obtain ⟨mn, mx, hmn, hmx⟩ := extremes (n := n) k c e
  obtain rfl := hmn.unique (least_zero hn k c e)
  have hpos : 0 < mx := by
    obtain ⟨p, q, h⟩ := hne
    have := hmx.2 ⟨p, q, rfl⟩
    have := pow_pos (abs_pos.mpr h) 2
    rw [sq_abs] at this
    linarith
  have key : ∀ i j : ZMod n, mask n c e 0 1 k i j ^ 2 = profile e (distance k i j * c) ^ 2 / mx := by
    intro i j
    rw [C129_value k c e 0 1 0 mx hmn hmx, Real.sq_sqrt]
    · ring
    · have : 0 ≤ (profile e (distance k i j * c) ^ 2 - 0) / (mx - 0) := by
        rw [sub_zero, sub_zero]; positivity
      linarith
  constructor
  · intro p q
    rw [key]
    have h1 : profile e (distance k p q * c) ^ 2 ≤ mx := hmx.2 ⟨p, q, rfl⟩
    have h2 : profile e (distance k i j * c) ^ 2 ≤ 4 * (Real.pi * e * (distance k i j * c)) ^ 8 := by
      rw [← sq_abs]
      refine (pow_le_pow_left₀ (abs_nonneg _) (profile_le e _) 2).trans (le_of_eq (by ring))
    refine le_trans ?_ h2
    rw [div_mul_eq_mul_div, div_le_iff₀ hpos]
    exact mul_le_mul_of_nonneg_left h1 (sq_nonneg _)
  · intro p q
    rw [key, key]
    ring

/-- **C129 (shape).** Pixels at the same distance from the centre have the same value; the linear mask is constant along its other axis, and an ellipse of ratio 1 is the circle. -/
theorem C129_shape (c e lo hi : ℝ) :
    (∀ (k : Kind) (i j p q : ZMod n), distance k i j = distance k p q → mask n c e lo hi k i j = mask n c e lo hi k p q) ∧
      (∀ i i' j : ZMod n, mask n c e lo hi (.linear false) i j = mask n c e lo hi (.linear false) i' j ∧
        mask n c e lo hi (.linear true) j i = mask n c e lo hi (.linear true) j i' ∧
          mask n c e lo hi (.linear true) i j = mask n c e lo hi (.linear false) j i) ∧
      mask n c e lo hi (.elliptical 1) = mask n c e lo hi .circular := by
  refine ⟨fun k i j p q h => ?_, fun i i' j => ⟨rfl, rfl, rfl⟩, ?_⟩
  · obtain ⟨mn, mx, hmn, hmx⟩ := extremes (n := n) k c e
    rw [C129_value k c e lo hi mn mx hmn hmx, C129_value k c e lo hi mn mx hmn hmx, h]
  · funext i j
    simp only [mask, div_one]

/-- **C129 (field).** On an even grid the field seen in the output array is the field before times the returned mask, for every kind; nothing else of the wavefront changes. The half width in metres is the same as that many `f/D·λ`. -/
theorem C129_field (hn : n % 2 = 0) (s : WF n) (fratio hwhm lo hi : ℝ) (meters : Bool) (k : Kind) (hw : hwhm ≠ 0) :
    ∃ s' m, mask8 s fratio hwhm lo hi meters k = .ok (s', m) ∧ SameButField s s' ∧
      m = mask n (s.dx / (fratio * s.lam)) (1.788 / (if meters then hwhm / (fratio * s.lam) else hwhm)) lo hi k ∧
      ∀ i j, getWavefront s' i j = getWavefront s i j * (m i j : ℂ) := by
  refine ⟨{ s with arr := fun i j => s.arr i j * shiftCenter (fun i j => ((mask n (s.dx / (fratio * s.lam)) (1.788 / (if meters then hwhm / (fratio * s.lam) else hwhm)) lo hi k i j : ℝ) : ℂ)) i j }, mask n (s.dx / (fratio * s.lam)) (1.788 / (if meters then hwhm / (fratio * s.lam) else hwhm)) lo hi k, ?_, rfl, rfl, ?_⟩
  · unfold mask8
    rw [if_neg hw]
    cases meters <;> rfl
  · intro i j
    exact congrArg (getWavefront s i j * ·) (congrFun (congrFun (C58_twice_even (Nat.even_iff.mpr hn) (Nat.even_iff.mpr hn) (fun i j => ((mask n (s.dx / (fratio * s.lam)) (1.788 / (if meters then hwhm / (fratio * s.lam) else hwhm)) lo hi k i j : ℝ) : ℂ))) i) j)

/-- **C129 (violated on odd grids).** On a grid of odd size `2h + 1` the centre of the mask falls between pixels `h` and `h + 1`, so the pixel PROPER treats as the centre of the beam, `h`, is no darker than its neighbour. -/
theorem C129_odd_violated (h : ℕ) (hh : 0 < h) (c e lo hi : ℝ) (i : ZMod (2 * h + 1)) :
    mask (2 * h + 1) c e lo hi (.linear false) i (h : ℕ) = mask (2 * h + 1) c e lo hi (.linear false) i ((h + 1 : ℕ) : ZMod (2 * h + 1)) ∧
      distance (n := 2 * h + 1) (.linear false) i (h : ℕ) = 1 / 2 := by
  have e1 : distance (n := 2 * h + 1) (.linear false) i (h : ℕ) = 1 / 2 := by
    show |off _ _| = _
    unfold off
    rw [ZMod.val_natCast, Nat.mod_eq_of_lt (by omega)]
    push_cast
    rw [show (h : ℝ) - (2 * h + 1) / 2 = -(1 / 2) by ring, abs_neg, abs_of_pos (by norm_num)]
  have e2 : distance (n := 2 * h + 1) (.linear false) i ((h + 1 : ℕ) : ZMod (2 * h + 1)) = 1 / 2 := by
    show |off _ _| = _
    unfold off
    rw [ZMod.val_natCast, Nat.mod_eq_of_lt (by omega)]
    push_cast
    rw [show (h : ℝ) + 1 - (2 * h + 1) / 2 = 1 / 2 by ring, abs_of_pos (by norm_num)]
  exact ⟨(C129_shape c e lo hi).1 _ _ _ _ _ (e1.trans e2.symm), e1⟩

/-- A half width of 0 λ/D is refused with ZeroDivisionError. -/
theorem C129_zero (s : WF n) (fratio lo hi : ℝ) (k : Kind) : mask8 s fratio 0 lo hi false k = .error .zeroDivision := by
  unfold mask8
  rw [if_pos rfl]

/-- The hypotheses are met: two pixels, `c·e = 3`: the profile is 2/3 on pixel 0 and 0 on the central pixel. -/
example : ∃ p q : ZMod 2, profile 1 (distance (.linear false) p q * 3) ≠ 0 := by
  refine ⟨0, 0, ?_⟩
  have e : distance (n := 2) (.linear false) 0 0 = 1 := by
    show |off 2 0| = 1
    unfold off
    simp
  rw [e, one_mul]
  unfold profile
  rw [show Real.pi * 1 * 3 / 3 = Real.pi by ring, show Real.pi * 1 * 3 = ((3 : ℕ) : ℝ) * Real.pi by push_cast; ring,
    Real.sinc_of_ne_zero Real.pi_ne_zero, Real.sinc_of_ne_zero (by positivity), Real.sin_pi, Real.sin_nat_mul_pi]
  norm_num

end Verif.Mask8
