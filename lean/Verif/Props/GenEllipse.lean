import Verif.Props.Ellipse

/-!
# C102: `falco_gen_ellipse` (falco/mask.py)

Specification: `coverage` and `ellSet` of Props/Ellipse.lean, in units of the beam diameter: the pixel in row `i`, column `j` is the square of width `1/Nbeam` around
`(coord j, coord i)`.
-/

namespace Verif.Shape
open Verif

namespace GenEll
variable (g : GenEll)

/-- `nu` as a norm. -/
noncomputable def vec (X Y : ℝ) : ℂ := ⟨(Real.cos g.clock * X + Real.sin g.clock * Y) / g.radX, (Real.sin g.clock * X - Real.cos g.clock * Y) / g.radY⟩

theorem nu_eq (X Y : ℝ) : g.nu X Y = ‖g.vec X Y‖ / 2 := by
  unfold nu vec
  rw [Complex.norm_eq_sqrt_sq_add_sq]
  have : 1 / g.radX ^ 2 * (Real.cos g.clock * X + Real.sin g.clock * Y) ^ 2 + 1 / g.radY ^ 2 * (Real.sin g.clock * X - Real.cos g.clock * Y) ^ 2 =
      ((Real.cos g.clock * X + Real.sin g.clock * Y) / g.radX) ^ 2 + ((Real.sin g.clock * X - Real.cos g.clock * Y) / g.radY) ^ 2 := by
    rw [div_pow, div_pow]; ring
  rw [this]; ring

theorem vec_add (X Y X' Y' : ℝ) : g.vec (X + X') (Y + Y') = g.vec X Y + g.vec X' Y' := by
  unfold vec
  apply Complex.ext <;> simp only [Complex.add_re, Complex.add_im] <;> ring

theorem nu_nonneg (X Y : ℝ) : 0 ≤ g.nu X Y := by rw [nu_eq]; positivity

theorem nu_le_add (X Y X' Y' : ℝ) : g.nu (X + X') (Y + Y') ≤ g.nu X Y + g.nu X' Y' := by
  rw [nu_eq, nu_eq, nu_eq, vec_add]; linarith [norm_add_le (g.vec X Y) (g.vec X' Y')]

theorem nu_neg (X Y : ℝ) : g.nu (-X) (-Y) = g.nu X Y := by
  unfold nu; congr 2; ring

/-- Inside the ellipse. -/
theorem mem_ellSet_iff (X Y : ℝ) : (X, Y) ∈ ellSet g.xShear g.yShear g.radX g.radY g.clock 0 ↔ g.nu (X - g.xShear) (Y - g.yShear) ≤ 0.5 := by
  have h : g.nu (X - g.xShear) (Y - g.yShear) ≤ 0.5 ↔ ‖g.vec (X - g.xShear) (Y - g.yShear)‖ ≤ 1 := by
    rw [nu_eq]; constructor <;> intro h <;> linarith
  rw [h, Complex.norm_eq_sqrt_sq_add_sq, Real.sqrt_le_left zero_le_one, one_pow]
  simp only [ellSet, Set.mem_ofPred_eq, vec]
  have : ((X - g.xShear) * Real.cos g.clock + (Y - g.yShear) * Real.sin g.clock) / g.radX = (Real.cos g.clock * (X - g.xShear) + Real.sin g.clock * (Y - g.yShear)) / g.radX := by ring
  have h2 : ((-(X - g.xShear) * Real.sin g.clock + (Y - g.yShear) * Real.cos g.clock) / g.radY) ^ 2 = ((Real.sin g.clock * (X - g.xShear) - Real.cos g.clock * (Y - g.yShear)) / g.radY) ^ 2 := by
    rw [div_pow, div_pow]; ring
  rw [this, h2, add_zero]

theorem dx_eq (hb : g.nbeam ≠ 0) : g.dx = 1 / g.nbeam := by
  unfold dx coord
  cases g.centering <;> simp only <;> push_cast <;> field_simp <;> ring

theorem gray_eq (hb : 0 < g.nbeam) (i j : ℕ) :
    g.gray i j = coverage 101 (ellSet g.xShear g.yShear g.radX g.radY g.clock 0) (1 / g.nbeam) (g.coord j) (g.coord i) := by
  classical
  unfold gray coverage
  rw [g.dx_eq hb.ne']
  have hd : ((101 : ℕ) : ℝ) * ((101 : ℕ) : ℝ) = (101 : ℝ) ^ 2 := by norm_num
  rw [hd]
  have e : ∀ (q : Fin 101) (c s : ℝ), (-50 + ((q : ℕ) : ℝ)) * (1 / g.nbeam / 101) + (c - s) = c - 1 / g.nbeam / 2 + (((q : ℕ) : ℝ) + 1 / 2) * (1 / g.nbeam / ((101 : ℕ) : ℝ)) - s := by
    intro q c s; push_cast; ring
  simp only [e, mem_ellSet_iff]

end GenEll

/-- **C102.** When the grey-edge window is wide enough for the sub-pixel grid (`hwin`), every pixel of `falco_gen_ellipse` is the fraction of its 101 × 101 points lying in
the ellipse of the given radii and shear, turned counter-clockwise by the clocking angle. -/
theorem C102_coverage (g : GenEll) (hN : 2 ≤ g.N) (hb : 0 < g.nbeam) (hm : g.magFac = 1)
    (hwin : ∀ u v : ℝ, |u| ≤ 50 / 101 / g.nbeam → |v| ≤ 50 / 101 / g.nbeam → g.nu u v ≤ g.hww) :
    ∃ img, genEllipse g = .ok img ∧ ∀ i j, img i j = coverage 101 (ellSet g.xShear g.yShear g.radX g.radY g.clock 0) (1 / g.nbeam) (g.coord j.val) (g.coord i.val) := by
  classical
  unfold genEllipse
  rw [if_neg (by omega)]
  refine ⟨_, rfl, fun i j => ?_⟩
  generalize i.val = i
  generalize j.val = j
  have hrho : g.rho i j = g.nu (g.coord j - g.xShear) (g.coord i - g.yShear) := by unfold GenEll.rho; rw [hm]; ring
  have hh : 0 ≤ g.hww := le_max_of_le_left (abs_nonneg _)
  have habs : |g.rho i j| = g.nu (g.coord j - g.xShear) (g.coord i - g.yShear) := by rw [hrho, abs_of_nonneg (g.nu_nonneg _ _)]
  have hoff : ∀ q : Fin 101, |((-50 : ℝ) + (q : ℕ)) * (1 / g.nbeam / 101)| ≤ 50 / 101 / g.nbeam := by
    intro q
    have h1 : ((q : ℕ) : ℝ) ≤ 100 := by exact_mod_cast Nat.le_of_lt_succ q.isLt
    have h0 : (0 : ℝ) ≤ ((q : ℕ) : ℝ) := Nat.cast_nonneg _
    have e : 50 / 101 / g.nbeam = 50 * (1 / g.nbeam / 101) := by ring
    have hp : 0 < 1 / g.nbeam / 101 := by positivity
    rw [e, abs_mul, abs_of_pos hp]
    exact mul_le_mul_of_nonneg_right (abs_le.mpr ⟨by linarith, by linarith⟩) hp.le
  have hpt : ∀ (q : Fin 101) (c s : ℝ), c - 1 / g.nbeam / 2 + (((q : ℕ) : ℝ) + 1 / 2) * (1 / g.nbeam / ((101 : ℕ) : ℝ)) - s = (c - s) + (-50 + ((q : ℕ) : ℝ)) * (1 / g.nbeam / 101) := by
    intro q c s; push_cast; ring
  unfold GenEll.pixel
  dsimp only
  rw [habs]
  by_cases h1 : g.nu (g.coord j - g.xShear) (g.coord i - g.yShear) > 0.5 + g.hww
  · rw [if_pos h1, if_neg (by norm_num)]
    symm
    unfold coverage
    rw [div_eq_zero_iff]; left
    rw [Nat.cast_eq_zero, Finset.card_eq_zero, Finset.filter_eq_empty_iff]
    intro p _ hmem
    rw [GenEll.mem_ellSet_iff, hpt, hpt] at hmem
    have h2 := hwin _ _ (hoff p.2) (hoff p.1)
    have h3 := g.nu_le_add (g.coord j - g.xShear + (-50 + ((p.2 : ℕ) : ℝ)) * (1 / g.nbeam / 101)) (g.coord i - g.yShear + (-50 + ((p.1 : ℕ) : ℝ)) * (1 / g.nbeam / 101))
      (-((-50 + ((p.2 : ℕ) : ℝ)) * (1 / g.nbeam / 101))) (-((-50 + ((p.1 : ℕ) : ℝ)) * (1 / g.nbeam / 101)))
    rw [g.nu_neg, add_neg_cancel_right, add_neg_cancel_right] at h3
    linarith
  · rw [if_neg h1]
    by_cases h0 : g.nu (g.coord j - g.xShear) (g.coord i - g.yShear) < 0.5 - g.hww
    · rw [if_pos h0, if_neg (by norm_num)]
      symm
      unfold coverage
      rw [Finset.filter_true_of_mem]
      · simp only [Finset.card_univ, Fintype.card_prod, Fintype.card_fin]; norm_num
      · intro p _
        rw [GenEll.mem_ellSet_iff, hpt, hpt]
        have h2 := hwin _ _ (hoff p.2) (hoff p.1)
        have h3 := g.nu_le_add (g.coord j - g.xShear) (g.coord i - g.yShear) ((-50 + ((p.2 : ℕ) : ℝ)) * (1 / g.nbeam / 101)) ((-50 + ((p.1 : ℕ) : ℝ)) * (1 / g.nbeam / 101))
        linarith
    · rw [if_neg h0, if_pos rfl, g.gray_eq hb]

/-! ## When the window is wide enough -/

/-- The step of the norm along the first axis, from a point `A ≥ 26` steps away. -/
theorem step_ge (p q A B : ℝ) (hp : 0 < p) (hq : 0 ≤ q) (hpq : q ≤ p) (hA : 26 ≤ A) (hB : |B| ≤ A) :
    50 / 101 * Real.sqrt (p + q) ≤ Real.sqrt (p * A ^ 2 + q * B ^ 2) - Real.sqrt (p * (A - 1) ^ 2 + q * B ^ 2) := by
  set R := Real.sqrt (p + q) with hR
  set S := Real.sqrt (p * A ^ 2 + q * B ^ 2) with hS
  set T := Real.sqrt (p * (A - 1) ^ 2 + q * B ^ 2) with hT
  have hR2 : R ^ 2 = p + q := Real.sq_sqrt (by linarith)
  have hS2 : S ^ 2 = p * A ^ 2 + q * B ^ 2 := Real.sq_sqrt (by positivity)
  have hT2 : T ^ 2 = p * (A - 1) ^ 2 + q * B ^ 2 := Real.sq_sqrt (by positivity)
  have hR0 : 0 < R := Real.sqrt_pos.mpr (by linarith)
  have hS0 : 0 < S := Real.sqrt_pos.mpr (by positivity)
  have hT0 : 0 ≤ T := Real.sqrt_nonneg _
  have hB2 : B ^ 2 ≤ A ^ 2 := by rw [← sq_abs B]; exact pow_le_pow_left₀ (abs_nonneg _) hB 2
  have hSle : S ≤ A * R := by
    rw [hS, Real.sqrt_le_left (by positivity)]
    rw [mul_pow, hR2]; nlinarith
  have hlam : 0 < A - 1 / 2 := by linarith
  -- T R ≤ (λ R² + T²/λ)/2
  have hTR : 2 * (A - 1 / 2) * (T * R) ≤ (A - 1 / 2) ^ 2 * (p + q) + (p * (A - 1) ^ 2 + q * A ^ 2) := by
    have h1 := sq_nonneg ((A - 1 / 2) * R - T)
    have h2 : T ^ 2 ≤ p * (A - 1) ^ 2 + q * A ^ 2 := by rw [hT2]; nlinarith
    nlinarith
  have hST : (S - T) * (S + T) = (2 * A - 1) * p := by nlinarith
  have key : 50 / 101 * R * (S + T) ≤ (2 * A - 1) * p := by
    have hSR : S * R ≤ A * (p + q) := by rw [← hR2]; nlinarith
    have h3 : 2 * (A - 1 / 2) * (50 / 101 * R * (S + T)) ≤ 50 / 101 * (2 * (A - 1 / 2) * (A * (p + q)) + ((A - 1 / 2) ^ 2 * (p + q) + (p * (A - 1) ^ 2 + q * A ^ 2))) := by
      nlinarith
    have h4 : 50 / 101 * (2 * (A - 1 / 2) * (A * (p + q)) + ((A - 1 / 2) ^ 2 * (p + q) + (p * (A - 1) ^ 2 + q * A ^ 2))) ≤ 2 * (A - 1 / 2) * ((2 * A - 1) * p) := by
      nlinarith [mul_nonneg (sub_nonneg.mpr hpq) (sub_nonneg.mpr hA), mul_nonneg hp.le (sub_nonneg.mpr hA), mul_nonneg hq (sub_nonneg.mpr hA),
        mul_nonneg (mul_nonneg hp.le (sub_nonneg.mpr hA)) (sub_nonneg.mpr hA), mul_nonneg (mul_nonneg (sub_nonneg.mpr hpq) (sub_nonneg.mpr hA)) (sub_nonneg.mpr hA)]
    exact le_of_mul_le_mul_left (h3.trans h4) (by linarith)
  rw [← hST] at key
  exact le_of_mul_le_mul_right key (by linarith)

namespace GenEll
variable (g : GenEll)

/-- The axes of the figure are those of the array: no clocking, or a circle. -/
theorem nu_axes (h : g.clock = 0 ∨ g.radX = g.radY) (X Y : ℝ) : g.nu X Y = 0.5 * Real.sqrt (1 / g.radX ^ 2 * X ^ 2 + 1 / g.radY ^ 2 * Y ^ 2) := by
  unfold nu
  rcases h with h | h
  · rw [h, Real.cos_zero, Real.sin_zero]; congr 2; ring
  · rw [h]; congr 2
    have := Real.cos_sq_add_sin_sq g.clock
    linear_combination (1 / g.radY ^ 2 * (X ^ 2 + Y ^ 2)) * this

theorem coord_one (hb : g.nbeam ≠ 0) : g.coord 1 = g.coord 0 + 1 / g.nbeam := by
  have := g.dx_eq hb; unfold dx at this; linarith

/-- A lower bound of one step of `sqrt (p A² + q B²)` in physical units. -/
theorem window_aux (b p q X Y : ℝ) (hb : 0 < b) (hp : 0 < p) (hq : 0 ≤ q) (hpq : q ≤ p) (hA : 26 / b ≤ -X) (hB : |Y| ≤ -X) (u v : ℝ) (hu : |u| ≤ 50 / 101 / b) (hv : |v| ≤ 50 / 101 / b) :
    Real.sqrt (p * u ^ 2 + q * v ^ 2) ≤ |Real.sqrt (p * (X + 1 / b) ^ 2 + q * Y ^ 2) - Real.sqrt (p * X ^ 2 + q * Y ^ 2)| := by
  have hA' : 26 ≤ -X * b := by rw [div_le_iff₀ hb] at hA; exact hA
  have hB' : |Y * b| ≤ -X * b := by rw [abs_mul, abs_of_pos hb]; exact mul_le_mul_of_nonneg_right hB hb.le
  have h := step_ge p q (-X * b) (Y * b) hp hq hpq hA' hB'
  have hs : ∀ x : ℝ, 0 ≤ x → Real.sqrt (x / b ^ 2) = Real.sqrt x / b := fun x hx => by rw [Real.sqrt_div hx, Real.sqrt_sq hb.le]
  have e1 : p * X ^ 2 + q * Y ^ 2 = (p * (-X * b) ^ 2 + q * (Y * b) ^ 2) / b ^ 2 := by field_simp
  have e2 : p * (X + 1 / b) ^ 2 + q * Y ^ 2 = (p * (-X * b - 1) ^ 2 + q * (Y * b) ^ 2) / b ^ 2 := by field_simp; ring
  have h3 : Real.sqrt (p * u ^ 2 + q * v ^ 2) ≤ 50 / 101 * Real.sqrt (p + q) / b := by
    rw [Real.sqrt_le_left (by positivity), div_pow, mul_pow, Real.sq_sqrt (by linarith)]
    have hu2 : u ^ 2 ≤ (50 / 101 / b) ^ 2 := by rw [← sq_abs u]; exact pow_le_pow_left₀ (abs_nonneg _) hu 2
    have hv2 : v ^ 2 ≤ (50 / 101 / b) ^ 2 := by rw [← sq_abs v]; exact pow_le_pow_left₀ (abs_nonneg _) hv 2
    have e3 : (50 / 101) ^ 2 * (p + q) / b ^ 2 = p * (50 / 101 / b) ^ 2 + q * (50 / 101 / b) ^ 2 := by rw [div_pow (50 / 101) b]; ring
    rw [e3]
    exact add_le_add (mul_le_mul_of_nonneg_left hu2 hp.le) (mul_le_mul_of_nonneg_left hv2 hq)
  rw [e1, e2, hs _ (by positivity), hs _ (by positivity), abs_sub_comm]
  refine h3.trans (le_trans ?_ (le_abs_self _))
  rw [← sub_div]
  exact div_le_div_of_nonneg_right h hb.le

end GenEll

/-- What is asked of the array: its first column lies at least 26 pixels left of the centre of the ellipse and the first row no further from it than the first column — or the
same with rows and columns exchanged. -/
def FarCorner (N : ℕ) (c : Util.Centering) (nbeam xs ys : ℝ) : Prop :=
  let c0 : ℝ := match c with | .pixel => -(N : ℝ) / 2 / nbeam | .interpixel => -((N : ℝ) - 1) / 2 / nbeam
  26 / nbeam ≤ xs - c0 ∧ |c0 - ys| ≤ xs - c0

theorem farCorner_iff (g : GenEll) : FarCorner g.N g.centering g.nbeam g.xShear g.yShear ↔ 26 / g.nbeam ≤ g.xShear - g.coord 0 ∧ |g.coord 0 - g.yShear| ≤ g.xShear - g.coord 0 := by
  unfold FarCorner GenEll.coord
  cases g.centering <;> simp

theorem window_x (g : GenEll) (hb : 0 < g.nbeam) (hm : g.magFac = 1) (hx : 0 < g.radX) (hy : 0 < g.radY) (hax : g.clock = 0 ∨ g.radX = g.radY) (hle : g.radX ≤ g.radY)
    (hf : 26 / g.nbeam ≤ g.xShear - g.coord 0 ∧ |g.coord 0 - g.yShear| ≤ g.xShear - g.coord 0) (u v : ℝ) (hu : |u| ≤ 50 / 101 / g.nbeam) (hv : |v| ≤ 50 / 101 / g.nbeam) :
    g.nu u v ≤ g.hww := by
  refine le_trans ?_ (le_max_right _ _)
  unfold GenEll.rho
  rw [hm, div_one, one_mul, one_mul, g.nu_axes hax, g.nu_axes hax, g.nu_axes hax, ← mul_sub, abs_mul, abs_of_pos (by norm_num : (0 : ℝ) < 0.5), g.coord_one hb.ne']
  refine mul_le_mul_of_nonneg_left ?_ (by norm_num)
  have h := GenEll.window_aux g.nbeam (1 / g.radX ^ 2) (1 / g.radY ^ 2) (g.coord 0 - g.xShear) (g.coord 0 - g.yShear) hb (by positivity) (by positivity)
    (one_div_le_one_div_of_le (by positivity) (pow_le_pow_left₀ hx.le hle 2)) (by linarith [hf.1]) (by linarith [hf.2]) u v hu hv
  rw [show g.coord 0 + 1 / g.nbeam - g.xShear = g.coord 0 - g.xShear + 1 / g.nbeam by ring]
  exact h

theorem window_y (g : GenEll) (hb : 0 < g.nbeam) (hm : g.magFac = 1) (hx : 0 < g.radX) (hy : 0 < g.radY) (hax : g.clock = 0 ∨ g.radX = g.radY) (hle : g.radY ≤ g.radX)
    (hf : 26 / g.nbeam ≤ g.yShear - g.coord 0 ∧ |g.coord 0 - g.xShear| ≤ g.yShear - g.coord 0) (u v : ℝ) (hu : |u| ≤ 50 / 101 / g.nbeam) (hv : |v| ≤ 50 / 101 / g.nbeam) :
    g.nu u v ≤ g.hww := by
  refine le_trans ?_ (le_max_left _ _)
  unfold GenEll.rho
  rw [hm, div_one, one_mul, one_mul, g.nu_axes hax, g.nu_axes hax, g.nu_axes hax, ← mul_sub, abs_mul, abs_of_pos (by norm_num : (0 : ℝ) < 0.5), g.coord_one hb.ne']
  refine mul_le_mul_of_nonneg_left ?_ (by norm_num)
  have h := GenEll.window_aux g.nbeam (1 / g.radY ^ 2) (1 / g.radX ^ 2) (g.coord 0 - g.yShear) (g.coord 0 - g.xShear) hb (by positivity) (by positivity)
    (one_div_le_one_div_of_le (by positivity) (pow_le_pow_left₀ hy.le hle 2)) (by linarith [hf.1]) (by linarith [hf.2]) v u hv hu
  rw [show g.coord 0 + 1 / g.nbeam - g.yShear = g.coord 0 - g.yShear + 1 / g.nbeam by ring]
  rw [add_comm (1 / g.radX ^ 2 * u ^ 2), add_comm (1 / g.radX ^ 2 * _), add_comm (1 / g.radX ^ 2 * _)]
  exact h

/-- **C102.** A circle of any radius, clocking and shear, on an array whose first column (or row) is at least 26 pixels from its centre: every pixel is its exact 101 × 101
coverage. -/
theorem C102_circle (g : GenEll) (hN : 2 ≤ g.N) (hb : 0 < g.nbeam) (hm : g.magFac = 1) (hr : 0 < g.radX) (he : g.radX = g.radY)
    (hf : FarCorner g.N g.centering g.nbeam g.xShear g.yShear ∨ FarCorner g.N g.centering g.nbeam g.yShear g.xShear) :
    ∃ img, genEllipse g = .ok img ∧ ∀ i j, img i j = coverage 101 (ellSet g.xShear g.yShear g.radX g.radY g.clock 0) (1 / g.nbeam) (g.coord j.val) (g.coord i.val) := by
  refine C102_coverage g hN hb hm fun u v hu hv => ?_
  rcases hf with hf | hf
  · exact window_x g hb hm hr (he ▸ hr) (.inr he) he.le ((farCorner_iff g).mp hf) u v hu hv
  · refine window_y g hb hm hr (he ▸ hr) (.inr he) he.ge ?_ u v hu hv
    have := (farCorner_iff { g with xShear := g.yShear, yShear := g.xShear }).mp hf
    exact this

/-- **C102.** An unclocked, unsheared ellipse of any aspect ratio on an array of at least 53 pixels (52 when centred on a pixel): every pixel is its exact 101 × 101 coverage. -/
theorem C102_unclocked (g : GenEll) (hN : (match g.centering with | .pixel => 52 | .interpixel => 53) ≤ g.N) (hb : 0 < g.nbeam) (hm : g.magFac = 1) (hx : 0 < g.radX) (hy : 0 < g.radY)
    (hc : g.clock = 0) (hxs : g.xShear = 0) (hys : g.yShear = 0) :
    ∃ img, genEllipse g = .ok img ∧ ∀ i j, img i j = coverage 101 (ellSet 0 0 g.radX g.radY 0 0) (1 / g.nbeam) (g.coord j.val) (g.coord i.val) := by
  have h26 : 26 / g.nbeam ≤ -g.coord 0 := by
    unfold GenEll.coord
    cases h : g.centering <;> rw [h] at hN <;> simp only at hN ⊢ <;> rw [← neg_div] <;> refine div_le_div_of_nonneg_right ?_ hb.le <;> push_cast
    · have : (52 : ℝ) ≤ g.N := by exact_mod_cast hN
      linarith
    · have : (53 : ℝ) ≤ g.N := by exact_mod_cast hN
      linarith
  have hneg : g.coord 0 ≤ 0 := by have : 0 < 26 / g.nbeam := by positivity
                                  linarith
  have hN2 : 2 ≤ g.N := by revert hN; cases g.centering <;> simp only <;> omega
  have hfar : 26 / g.nbeam ≤ 0 - g.coord 0 ∧ |g.coord 0 - 0| ≤ 0 - g.coord 0 := ⟨by linarith, by rw [sub_zero, abs_of_nonpos hneg]; linarith⟩
  have := C102_coverage g hN2 hb hm fun u v hu hv => by
    rcases le_total g.radX g.radY with h | h
    · exact window_x g hb hm hx hy (.inl hc) h (by rw [hxs, hys]; exact hfar) u v hu hv
    · exact window_y g hb hm hx hy (.inl hc) h (by rw [hxs, hys]; exact hfar) u v hu hv
  rwa [hc, hxs, hys] at this

/-- **C102.** Whatever the inputs, the mask stays between 0 and 1, and an array of fewer than two pixels is an IndexError. -/
theorem C102_range (g : GenEll) : (g.N < 2 → genEllipse g = .error .indexError) ∧ (2 ≤ g.N → ∃ img, genEllipse g = .ok img ∧ ∀ i j, 0 ≤ img i j ∧ img i j ≤ 1) := by
  classical
  refine ⟨fun h => by unfold genEllipse; rw [if_pos h], fun h => ?_⟩
  unfold genEllipse
  rw [if_neg (by omega)]
  refine ⟨_, rfl, fun i j => ?_⟩
  have hg : 0 ≤ g.gray i.val j.val ∧ g.gray i.val j.val ≤ 1 := by
    unfold GenEll.gray
    refine ⟨div_nonneg (Nat.cast_nonneg _) (by norm_num), ?_⟩
    have hc : (Finset.univ : Finset (Fin 101 × Fin 101)).card = 101 ^ 2 := by
      simp only [Finset.card_univ, Fintype.card_prod, Fintype.card_fin]; norm_num
    rw [div_le_one (by norm_num), show (101 : ℝ) ^ 2 = ((101 ^ 2 : ℕ) : ℝ) by norm_num, Nat.cast_le, ← hc]
    exact Finset.card_filter_le _ _
  unfold GenEll.pixel
  dsimp only
  split_ifs with h1 h2 h3 h4 h5 <;> first | exact hg | exact absurd rfl ‹_› | constructor <;> norm_num

theorem coverage_lt_one (k : ℕ) (S : Set (ℝ × ℝ)) (w x y : ℝ) (p : Fin k × Fin k)
    (hp : (x - w / 2 + (((p.2 : ℕ) : ℝ) + 1 / 2) * (w / k), y - w / 2 + (((p.1 : ℕ) : ℝ) + 1 / 2) * (w / k)) ∉ S) : coverage k S w x y < 1 := by
  classical
  unfold coverage
  have hk : (0 : ℝ) < k := by exact_mod_cast (Nat.zero_le _).trans_lt p.1.isLt
  have hc : (Finset.univ : Finset (Fin k × Fin k)).card = k * k := by simp only [Finset.card_univ, Fintype.card_prod, Fintype.card_fin]
  rw [div_lt_one (by positivity), ← Nat.cast_mul, Nat.cast_lt, ← hc]
  exact Finset.card_lt_card (Finset.filter_ssubset.mpr ⟨p, Finset.mem_univ _, hp⟩)

/-- A clocked ellipse: semi-axes √2/2 and √2/20 beam diameters, clocked by 45°, on 28 × 28 pixels. -/
noncomputable def clocked : GenEll := ⟨28, 28, Real.sqrt 2 / 2, Real.sqrt 2 / 20, Real.pi / 4, 0, 0, 1, .pixel⟩

theorem clocked_nu (X Y : ℝ) : clocked.nu X Y = 0.5 * Real.sqrt ((X + Y) ^ 2 + 100 * (X - Y) ^ 2) := by
  unfold clocked GenEll.nu
  simp only [Real.cos_pi_div_four, Real.sin_pi_div_four]
  have h2 : Real.sqrt 2 ^ 2 = 2 := Real.sq_sqrt (by norm_num)
  congr 2
  rw [div_pow, div_pow, h2, ← mul_add, ← mul_sub, mul_pow, mul_pow, div_pow, h2]
  ring

/-- **C102.** Violated for clocked ellipses: the width of the grey band is measured at one corner of the array, where the elliptical radius of this ellipse hardly changes; a pixel
crossed by the edge is left at 1. -/
theorem C102_clocked_violated : ∃ g : GenEll, g.magFac = 1 ∧ g.xShear = 0 ∧ g.yShear = 0 ∧ ∃ img, genEllipse g = .ok img ∧ ∃ i j, img i j = 1 ∧
    coverage 101 (ellSet 0 0 g.radX g.radY g.clock 0) (1 / g.nbeam) (g.coord j.val) (g.coord i.val) < 1 := by
  classical
  refine ⟨clocked, rfl, rfl, rfl, _, by unfold genEllipse; rw [if_neg (by decide)], ((13 : ℕ) : ZMod 28), ((15 : ℕ) : ZMod 28), ?_, ?_⟩
  · have v1 : ((13 : ℕ) : ZMod clocked.N).val = 13 := by decide
    have v2 : ((15 : ℕ) : ZMod clocked.N).val = 15 := by decide
    show clocked.pixel ((13 : ℕ) : ZMod clocked.N).val ((15 : ℕ) : ZMod clocked.N).val = 1
    rw [v1, v2]
    have c : ∀ k : ℕ, clocked.coord k = (-14 + k) / 28 := by intro k; simp only [clocked, GenEll.coord]; norm_num
    have hr : ∀ i j, clocked.rho i j = clocked.nu (clocked.coord j) (clocked.coord i) := by
      intro i j; unfold GenEll.rho; simp only [clocked]; norm_num
    have r00 : clocked.rho 0 0 = 0.5 := by
      rw [hr, clocked_nu, c]
      have : (((-14 + ((0 : ℕ) : ℝ)) / 28 + (-14 + ((0 : ℕ) : ℝ)) / 28) ^ 2 + 100 * ((-14 + ((0 : ℕ) : ℝ)) / 28 - (-14 + ((0 : ℕ) : ℝ)) / 28) ^ 2) = 1 := by norm_num
      rw [this, Real.sqrt_one]; norm_num
    have rb : ∀ x : ℝ, x = 829 / 784 → |0.5 * Real.sqrt x - 0.5| ≤ 0.02 := by
      intro x hx
      have h1 : 1 ≤ Real.sqrt x := by rw [Real.one_le_sqrt, hx]; norm_num
      have h2 : Real.sqrt x ≤ 1.04 := by rw [Real.sqrt_le_left (by norm_num), hx]; norm_num
      rw [abs_le]; constructor <;> linarith
    have hw : clocked.hww ≤ 0.02 := by
      unfold GenEll.hww
      rw [r00, hr, hr, clocked_nu, clocked_nu, c, c]
      refine max_le (rb _ (by norm_num)) (rb _ (by norm_num))
    have hc : clocked.rho 13 15 ≤ 0.4 := by
      rw [hr, clocked_nu, c, c]
      have : Real.sqrt (((-14 + ((15 : ℕ) : ℝ)) / 28 + (-14 + ((13 : ℕ) : ℝ)) / 28) ^ 2 + 100 * ((-14 + ((15 : ℕ) : ℝ)) / 28 - (-14 + ((13 : ℕ) : ℝ)) / 28) ^ 2) ≤ 0.8 := by
        rw [Real.sqrt_le_left (by norm_num)]; norm_num
      linarith
    have hc0 : 0 ≤ clocked.rho 13 15 := by rw [hr]; exact clocked.nu_nonneg _ _
    unfold GenEll.pixel
    dsimp only
    have hw0 : 0 ≤ clocked.hww := le_max_of_le_left (abs_nonneg _)
    have hA : ¬ clocked.rho 13 15 > 0.5 + clocked.hww := by linarith
    have hB : clocked.rho 13 15 < 0.5 - clocked.hww := by linarith
    rw [abs_of_nonneg hc0, if_neg hA, if_pos hB, if_neg (by norm_num)]
  · have v1 : ((13 : ℕ) : ZMod clocked.N).val = 13 := by decide
    have v2 : ((15 : ℕ) : ZMod clocked.N).val = 15 := by decide
    have c : ∀ k : ℕ, clocked.coord k = (-14 + k) / 28 := by intro k; simp only [clocked, GenEll.coord]; norm_num
    show coverage 101 (ellSet 0 0 clocked.radX clocked.radY clocked.clock 0) (1 / clocked.nbeam) (clocked.coord ((15 : ℕ) : ZMod clocked.N).val) (clocked.coord ((13 : ℕ) : ZMod clocked.N).val) < 1
    rw [v1, v2, c, c]
    refine coverage_lt_one 101 _ _ _ _ (⟨0, by norm_num⟩, ⟨100, by norm_num⟩) ?_
    have := clocked.mem_ellSet_iff ((-14 + ((15 : ℕ) : ℝ)) / 28 - 1 / clocked.nbeam / 2 + (((100 : ℕ) : ℝ) + 1 / 2) * (1 / clocked.nbeam / ((101 : ℕ) : ℝ)))
      ((-14 + ((13 : ℕ) : ℝ)) / 28 - 1 / clocked.nbeam / 2 + (((0 : ℕ) : ℝ) + 1 / 2) * (1 / clocked.nbeam / ((101 : ℕ) : ℝ)))
    intro hmem
    have h := this.mp hmem
    rw [clocked_nu] at h
    have hgt : (1 : ℝ) < Real.sqrt (((-14 + ((15 : ℕ) : ℝ)) / 28 - 1 / clocked.nbeam / 2 + (((100 : ℕ) : ℝ) + 1 / 2) * (1 / clocked.nbeam / ((101 : ℕ) : ℝ)) - clocked.xShear +
        ((-14 + ((13 : ℕ) : ℝ)) / 28 - 1 / clocked.nbeam / 2 + (((0 : ℕ) : ℝ) + 1 / 2) * (1 / clocked.nbeam / ((101 : ℕ) : ℝ)) - clocked.yShear)) ^ 2 +
        100 * ((-14 + ((15 : ℕ) : ℝ)) / 28 - 1 / clocked.nbeam / 2 + (((100 : ℕ) : ℝ) + 1 / 2) * (1 / clocked.nbeam / ((101 : ℕ) : ℝ)) - clocked.xShear -
        ((-14 + ((13 : ℕ) : ℝ)) / 28 - 1 / clocked.nbeam / 2 + (((0 : ℕ) : ℝ) + 1 / 2) * (1 / clocked.nbeam / ((101 : ℕ) : ℝ)) - clocked.yShear)) ^ 2) := by
      rw [Real.lt_sqrt (by norm_num)]
      simp only [clocked]; norm_num
    linarith

/-- A circle of radius 1 beam diameter magnified by 2, one pixel per beam diameter. -/
noncomputable def magnified : GenEll := ⟨8, 1, 1, 1, 0, 0, 0, 2, .pixel⟩

/-- **C102.** Violated for `magFac ≠ 1`: the sub-pixels of the grey pixels are compared with the unmagnified figure, so a pixel whose centre lies in the magnified disc gets 0. -/
theorem C102_magfac_violated : ∃ g : GenEll, 0 < g.radX ∧ g.radX = g.radY ∧ 1 < g.magFac ∧ ∃ img, genEllipse g = .ok img ∧ ∃ i j, img i j = 0 ∧
    (g.coord j.val, g.coord i.val) ∈ ellSet g.xShear g.yShear (g.magFac * g.radX) (g.magFac * g.radY) g.clock 0 := by
  classical
  have hnu : ∀ X Y : ℝ, magnified.nu X Y = 0.5 * Real.sqrt (X ^ 2 + Y ^ 2) := by
    intro X Y; rw [magnified.nu_axes (.inl rfl)]; simp [magnified]
  have c : ∀ k : ℕ, magnified.coord k = -4 + k := by intro k; simp only [magnified, GenEll.coord]; norm_num
  have v1 : ((4 : ℕ) : ZMod magnified.N).val = 4 := by decide
  have v2 : ((6 : ℕ) : ZMod magnified.N).val = 6 := by decide
  refine ⟨magnified, one_pos, rfl, one_lt_two, _, by unfold genEllipse; rw [if_neg (by decide)], ((4 : ℕ) : ZMod magnified.N), ((6 : ℕ) : ZMod magnified.N), ?_, ?_⟩
  · show magnified.pixel ((4 : ℕ) : ZMod magnified.N).val ((6 : ℕ) : ZMod magnified.N).val = 0
    rw [v1, v2]
    have hr : magnified.rho 4 6 = 0.5 := by
      unfold GenEll.rho
      rw [hnu, c, c]
      simp only [magnified]
      have : (-4 + ((6 : ℕ) : ℝ) - 0) ^ 2 + (-4 + ((4 : ℕ) : ℝ) - 0) ^ 2 = 2 ^ 2 := by norm_num
      rw [this, Real.sqrt_sq (by norm_num)]; norm_num
    have hw0 : 0 ≤ magnified.hww := le_max_of_le_left (abs_nonneg _)
    have hg : magnified.gray 4 6 = 0 := by
      rw [magnified.gray_eq one_pos]
      unfold coverage
      rw [div_eq_zero_iff]; left
      rw [Nat.cast_eq_zero, Finset.card_eq_zero, Finset.filter_eq_empty_iff]
      intro p _ hmem
      rw [GenEll.mem_ellSet_iff, hnu, c, c] at hmem
      have h1 : ∀ X Y : ℝ, 1 < X → ¬ 0.5 * Real.sqrt (X ^ 2 + Y ^ 2) ≤ 0.5 := by
        intro X Y hX h
        have : (1 : ℝ) < Real.sqrt (X ^ 2 + Y ^ 2) := by rw [Real.lt_sqrt (by norm_num)]; nlinarith [sq_nonneg Y]
        linarith
      refine h1 _ _ ?_ hmem
      have : (0 : ℝ) ≤ ((p.2 : ℕ) : ℝ) := Nat.cast_nonneg _
      simp only [magnified]
      push_cast
      linarith
    unfold GenEll.pixel
    dsimp only
    have hA : ¬ (0.5 : ℝ) > 0.5 + magnified.hww := by linarith
    have hB : ¬ (0.5 : ℝ) < 0.5 - magnified.hww := by linarith
    rw [hr, abs_of_nonneg (by norm_num : (0 : ℝ) ≤ 0.5), if_neg hA, if_neg hB, if_pos rfl, hg]
  · rw [v1, v2, c, c]
    simp only [ellSet, Set.mem_ofPred_eq, magnified, Real.cos_zero, Real.sin_zero]
    norm_num

/-- The hypotheses of `C102_circle`: a sheared, clocked annulus edge of 0.4 beam diameters on 64 × 64 pixels. -/
example : FarCorner 64 .pixel 60 (0.01 : ℝ) (-0.02 : ℝ) := by
  unfold FarCorner
  norm_num [abs_le]

end Verif.Shape
