import Verif.Model.Shape
import Verif.Lemmas.Dm

/-!
# C98: antialiased ellipses (prop_ellipse)

Specification: the pixel in row `i`, column `j` is the unit square around `(j, i)`; it is cut into `k × k` equal squares, and its value is the fraction of their centres lying in the
figure.
-/

namespace Verif.Shape
open Verif

open Classical in
/-- Fraction of the centres of the `k × k` equal sub-squares of the square of width `w` around `(x, y)` that lie in `S`. -/
noncomputable def coverage (k : ℕ) (S : Set (ℝ × ℝ)) (w x y : ℝ) : ℝ :=
  (((Finset.univ : Finset (Fin k × Fin k)).filter fun p =>
    (x - w / 2 + (((p.2 : ℕ) : ℝ) + 1 / 2) * (w / k), y - w / 2 + (((p.1 : ℕ) : ℝ) + 1 / 2) * (w / k)) ∈ S).card : ℝ) / ((k : ℝ) * k)

/-- The closed figure: semi-axes `a` and `b`, centre `(xc, yc)`, turned by the angle `phi` counter-clockwise (`x` to the right, `y` up), and `eps` added to the
limit of the quadratic form. -/
def ellSet (xc yc a b phi eps : ℝ) : Set (ℝ × ℝ) :=
  {p | (((p.1 - xc) * Real.cos phi + (p.2 - yc) * Real.sin phi) / a) ^ 2 + ((-(p.1 - xc) * Real.sin phi + (p.2 - yc) * Real.cos phi) / b) ^ 2 ≤ 1 + eps}

/-- A sub-pixel offset along one axis. -/
noncomputable def subOff (k : ℕ) (p : Fin k) : ℝ := ((p : ℕ) - ((k / 2 : ℕ) : ℝ)) / k

theorem subOff_eq (k : ℕ) (hk : Odd k) (p : Fin k) : subOff k p = -(1 / 2) + (((p : ℕ) : ℝ) + 1 / 2) * (1 / k) := by
  obtain ⟨m, rfl⟩ := hk
  have h : (2 * m + 1) / 2 = m := by omega
  have h1 : ((2 * m + 1 : ℕ) : ℝ) ≠ 0 := by positivity
  unfold subOff
  rw [h]
  field_simp
  push_cast
  ring

theorem subOff_abs (k : ℕ) (hk : Odd k) (p : Fin k) : |subOff k p| ≤ ((k : ℝ) - 1) / (2 * k) := by
  obtain ⟨m, rfl⟩ := hk
  have h : (2 * m + 1) / 2 = m := by omega
  have h1 : (0 : ℝ) < ((2 * m + 1 : ℕ) : ℝ) := by positivity
  have hp : (p : ℕ) ≤ 2 * m := by omega
  have hp' : ((p : ℕ) : ℝ) ≤ 2 * m := by exact_mod_cast hp
  have hp0 : (0 : ℝ) ≤ ((p : ℕ) : ℝ) := by positivity
  unfold subOff
  rw [h, abs_div, abs_of_pos h1, div_le_div_iff₀ h1 (by positivity)]
  have : |((p : ℕ) : ℝ) - m| ≤ m := abs_le.mpr ⟨by linarith, by linarith⟩
  push_cast
  nlinarith

/-- The linear form of the ellipse as a complex number. -/
noncomputable def Ell.z (e : Ell) (x y : ℝ) : ℂ :=
  ⟨(x * Real.cos e.t - y * Real.sin e.t) / e.a, (x * Real.sin e.t + y * Real.cos e.t) / e.b⟩

theorem Ell.norm_z (e : Ell) (x y : ℝ) : ‖e.z x y‖ = e.r x y := by
  rw [Complex.norm_def, Complex.normSq_apply]; rfl

theorem Ell.z_add (e : Ell) (x y u v : ℝ) : e.z (x + u) (y + v) = e.z x y + e.z u v := by
  apply Complex.ext
  · simp only [Ell.z, Complex.add_re]; ring
  · simp only [Ell.z, Complex.add_im]; ring

theorem Ell.z_neg (e : Ell) (x y : ℝ) : e.z (-x) (-y) = -e.z x y := by
  apply Complex.ext
  · simp only [Ell.z, Complex.neg_re]; ring
  · simp only [Ell.z, Complex.neg_im]; ring

theorem Ell.r_add (e : Ell) (x y u v : ℝ) : e.r (x + u) (y + v) ≤ e.r x y + e.r u v := by
  rw [← e.norm_z, ← e.norm_z, ← e.norm_z, e.z_add]; exact norm_add_le _ _

theorem Ell.r_sub (e : Ell) (x y u v : ℝ) : e.r x y - e.r u v ≤ e.r (x + u) (y + v) := by
  rw [← e.norm_z, ← e.norm_z, ← e.norm_z, e.z_add]
  have := norm_sub_norm_le (e.z x y) (-e.z u v)
  rw [norm_neg, sub_neg_eq_add] at this; exact this

theorem Ell.r_nonneg (e : Ell) (x y : ℝ) : 0 ≤ e.r x y := Real.sqrt_nonneg _

theorem Ell.r_sq (e : Ell) (x y : ℝ) :
    e.r x y ^ 2 = ((x * Real.cos e.t - y * Real.sin e.t) / e.a) ^ 2 + ((x * Real.sin e.t + y * Real.cos e.t) / e.b) ^ 2 := by
  unfold Ell.r
  dsimp only
  rw [Real.sq_sqrt (by nlinarith [mul_self_nonneg ((x * Real.cos e.t - y * Real.sin e.t) / e.a), mul_self_nonneg ((x * Real.sin e.t + y * Real.cos e.t) / e.b)])]
  ring

theorem Ell.dr_nonneg (e : Ell) : 0 ≤ e.dr := le_trans (abs_nonneg _) (le_max_left _ _)

/-- The edge region is at least as wide as half the diagonal form. -/
theorem Ell.dr_sq (e : Ell) : ((1 / e.a) ^ 2 + (1 / e.b) ^ 2) / 2 ≤ e.dr ^ 2 := by
  have h1 : (1 / e.a * Real.cos e.t - 1 / e.b * Real.sin e.t) ^ 2 ≤ e.dr ^ 2 := by
    rw [← sq_abs]; exact pow_le_pow_left₀ (abs_nonneg _) (le_max_left _ _) 2
  have h2 : (1 / e.a * Real.sin e.t + 1 / e.b * Real.cos e.t) ^ 2 ≤ e.dr ^ 2 := by
    rw [← sq_abs (1 / e.a * Real.sin e.t + 1 / e.b * Real.cos e.t)]; exact pow_le_pow_left₀ (abs_nonneg _) (le_max_right _ _) 2
  have h3 : (1 / e.a * Real.cos e.t - 1 / e.b * Real.sin e.t) ^ 2 + (1 / e.a * Real.sin e.t + 1 / e.b * Real.cos e.t) ^ 2 = (1 / e.a) ^ 2 + (1 / e.b) ^ 2 := by
    linear_combination ((1 / e.a) ^ 2 + (1 / e.b) ^ 2) * Real.cos_sq_add_sin_sq e.t
  linarith

/-- A sub-pixel point deviates from the pixel centre by less than the width of the edge region. -/
theorem Ell.r_off (e : Ell) (h u v : ℝ) (hu : |u| ≤ h) (hv : |v| ≤ h) : e.r u v ≤ 2 * h * e.dr := by
  have hh : 0 ≤ h := le_trans (abs_nonneg _) hu
  have hu2 : u ^ 2 ≤ h ^ 2 := by rw [← sq_abs u]; exact pow_le_pow_left₀ (abs_nonneg _) hu 2
  have hv2 : v ^ 2 ≤ h ^ 2 := by rw [← sq_abs v]; exact pow_le_pow_left₀ (abs_nonneg _) hv 2
  set A := u * Real.cos e.t - v * Real.sin e.t
  set B := u * Real.sin e.t + v * Real.cos e.t
  have hAB : A ^ 2 + B ^ 2 = u ^ 2 + v ^ 2 := by
    simp only [A, B]; linear_combination (u ^ 2 + v ^ 2) * Real.cos_sq_add_sin_sq e.t
  have hd := e.dr_sq
  have key : e.r u v ^ 2 ≤ (2 * h * e.dr) ^ 2 := by
    rw [e.r_sq]
    change (A / e.a) ^ 2 + (B / e.b) ^ 2 ≤ _
    have e1 : (A / e.a) ^ 2 = A ^ 2 * (1 / e.a) ^ 2 := by ring
    have e2 : (B / e.b) ^ 2 = B ^ 2 * (1 / e.b) ^ 2 := by ring
    rw [e1, e2]
    have ha := sq_nonneg (1 / e.a)
    have hb := sq_nonneg (1 / e.b)
    have hA : A ^ 2 ≤ 2 * h ^ 2 := by nlinarith [sq_nonneg B]
    have hB : B ^ 2 ≤ 2 * h ^ 2 := by nlinarith [sq_nonneg A]
    nlinarith [mul_le_mul_of_nonneg_right hA ha, mul_le_mul_of_nonneg_right hB hb, mul_le_mul_of_nonneg_left hd (sq_nonneg h)]
  exact (pow_le_pow_iff_left₀ (e.r_nonneg _ _) (by have := e.dr_nonneg; positivity) two_ne_zero).mp key

theorem Ell.subpix_eq (e : Ell) (k : ℕ) (hk : Odd k) (cx cy : ℝ) :
    e.subpix k (cx - e.xc) (cy - e.yc) = coverage k (ellSet e.xc e.yc e.a e.b (-e.t) 1e-10) 1 cx cy := by
  classical
  unfold Ell.subpix coverage
  congr 2
  congr 1
  apply Finset.filter_congr
  intro p _
  dsimp only
  have h1 := subOff_eq k hk p.2
  have h2 := subOff_eq k hk p.1
  unfold subOff at h1 h2
  rw [h1, h2]
  simp only [ellSet, Set.mem_setOf_eq, Real.cos_neg, Real.sin_neg]
  refine iff_of_eq (congrArg (· ≤ (1 : ℝ) + 1e-10) ?_)
  ring

/-- Every sub-pixel point is `subOff` away from the centre. -/
theorem Ell.pixel_eq (e : Ell) (ha : 0 < e.a) (hb : 0 < e.b) (k : ℕ) (hk : Odd k) (hka : k * e.a ≤ 1e10) (x y : ℝ) : e.pixel k x y = e.subpix k x y := by
  classical
  have hk0 : (0 : ℝ) < k := by exact_mod_cast hk.pos
  have hdr := e.dr_nonneg
  -- the norm of a sub-pixel offset
  have hoff : ∀ p : Fin k × Fin k, e.r (subOff k p.2) (subOff k p.1) ≤ ((k : ℝ) - 1) / k * e.dr := by
    intro p
    have := e.r_off (((k : ℝ) - 1) / (2 * k)) _ _ (subOff_abs k hk p.2) (subOff_abs k hk p.1)
    refine this.trans (le_of_eq ?_)
    field_simp
  have hsq : ∀ p : Fin k × Fin k, e.r (x + subOff k p.2) (y + subOff k p.1) ^ 2 =
      (((subOff k p.2 + x) * Real.cos e.t - (subOff k p.1 + y) * Real.sin e.t) / e.a) ^ 2 + (((subOff k p.2 + x) * Real.sin e.t + (subOff k p.1 + y) * Real.cos e.t) / e.b) ^ 2 := by
    intro p; rw [e.r_sq]; ring
  unfold Ell.pixel
  dsimp only
  by_cases h1 : e.r x y ≤ 1 - e.dr
  · rw [if_pos h1, if_neg (by norm_num)]
    symm
    unfold Ell.subpix
    rw [Finset.filter_true_of_mem]
    · simp only [Finset.card_univ, Fintype.card_prod, Fintype.card_fin]
      push_cast
      field_simp
    · intro p _
      dsimp only
      have hle : e.r (x + subOff k p.2) (y + subOff k p.1) ≤ 1 := by
        have := e.r_add x y (subOff k p.2) (subOff k p.1)
        have h3 := hoff p
        have h4 : ((k : ℝ) - 1) / k * e.dr ≤ e.dr := by
          have : ((k : ℝ) - 1) / k ≤ 1 := by rw [div_le_one hk0]; linarith
          nlinarith
        linarith
      have h5 : e.r (x + subOff k p.2) (y + subOff k p.1) ^ 2 ≤ 1 := by
        have := e.r_nonneg (x + subOff k p.2) (y + subOff k p.1)
        nlinarith
      rw [hsq p] at h5
      unfold subOff at h5
      rw [← sq, ← sq]
      linarith
  · rw [if_neg h1]
    by_cases h2 : e.r x y > 1 + e.dr
    · rw [if_pos h2, if_neg (by norm_num)]
      symm
      unfold Ell.subpix
      rw [Finset.filter_false_of_mem]
      · simp
      · intro p _
        dsimp only
        have hge : 1 + e.dr / k < e.r (x + subOff k p.2) (y + subOff k p.1) := by
          have := e.r_sub x y (subOff k p.2) (subOff k p.1)
          have h3 := hoff p
          have h4 : ((k : ℝ) - 1) / k * e.dr = e.dr - e.dr / k := by field_simp
          linarith
        -- dr is not too small
        have hda : 1 / e.a ≤ 2 * e.dr := by
          have h6 := e.dr_sq
          have h7 : (1 / e.a) ^ 2 ≤ (2 * e.dr) ^ 2 := by nlinarith [sq_nonneg (1 / e.b), sq_nonneg e.dr]
          exact (pow_le_pow_iff_left₀ (by positivity) (by positivity) two_ne_zero).mp h7
        have hdk : 1e-10 ≤ 2 * (e.dr / k) := by
          have h8 : 1e-10 * k ≤ 1 / e.a := by
            rw [le_div_iff₀ ha]; norm_num at hka ⊢; linarith
          have h9 : 1e-10 * k ≤ 2 * e.dr := h8.trans hda
          rw [mul_div_assoc', le_div_iff₀ hk0]; exact h9
        have h5 : 1 + 1e-10 < e.r (x + subOff k p.2) (y + subOff k p.1) ^ 2 := by
          have hq : 0 ≤ e.dr / k := by positivity
          have hr : 0 < 1 + e.dr / k := by positivity
          nlinarith [pow_lt_pow_left₀ hge hr.le two_ne_zero, sq_nonneg (e.dr / k)]
        rw [hsq p] at h5
        unfold subOff at h5
        rw [← sq, ← sq]
        linarith
    · rw [if_neg h2, if_pos rfl]

/-! ## The box -/

theorem lmin4 (a b c d : ℝ) : lmin [a, b, c, d] = min (min (min a b) c) d := rfl
theorem lmax4 (a b c d : ℝ) : lmax [a, b, c, d] = max (max (max a b) c) d := rfl

/-- Half width of the box. -/
noncomputable def Ell.hx (e : Ell) : ℝ := e.a * |Real.cos e.t| + e.b * |Real.sin e.t|
/-- Half height of the box. -/
noncomputable def Ell.hy (e : Ell) : ℝ := e.a * |Real.sin e.t| + e.b * |Real.cos e.t|

theorem four_min (u v c : ℝ) : min (min (min (-u + v + c) (u + v + c)) (u - v + c)) (-u - v + c) = c - (|u| + |v|) := by
  set m := min (min (min (-u + v + c) (u + v + c)) (u - v + c)) (-u - v + c) with hm
  have h4 : m ≤ -u - v + c := min_le_right _ _
  have h3 : m ≤ u - v + c := (min_le_left _ _).trans (min_le_right _ _)
  have h2 : m ≤ u + v + c := ((min_le_left _ _).trans (min_le_left _ _)).trans (min_le_right _ _)
  have h1 : m ≤ -u + v + c := ((min_le_left _ _).trans (min_le_left _ _)).trans (min_le_left _ _)
  refine le_antisymm ?_ (le_min (le_min (le_min ?_ ?_) ?_) ?_) <;>
  rcases abs_cases u with ⟨e, _⟩ | ⟨e, _⟩ <;> rcases abs_cases v with ⟨f, _⟩ | ⟨f, _⟩ <;> rw [e, f] <;> linarith

theorem four_max (u v c : ℝ) : max (max (max (-u + v + c) (u + v + c)) (u - v + c)) (-u - v + c) = c + (|u| + |v|) := by
  set m := max (max (max (-u + v + c) (u + v + c)) (u - v + c)) (-u - v + c) with hm
  have h4 : -u - v + c ≤ m := le_max_right _ _
  have h3 : u - v + c ≤ m := (le_max_right _ _).trans (le_max_left _ _)
  have h2 : u + v + c ≤ m := ((le_max_right _ _).trans (le_max_left _ _)).trans (le_max_left _ _)
  have h1 : -u + v + c ≤ m := ((le_max_left _ _).trans (le_max_left _ _)).trans (le_max_left _ _)
  refine le_antisymm (max_le (max_le (max_le ?_ ?_) ?_) ?_) ?_ <;>
  rcases abs_cases u with ⟨e, _⟩ | ⟨e, _⟩ <;> rcases abs_cases v with ⟨f, _⟩ | ⟨f, _⟩ <;> rw [e, f] <;> linarith

theorem Ell.xbox_min (e : Ell) (ha : 0 < e.a) (hb : 0 < e.b) : lmin e.xbox = e.xc - e.hx := by
  have := four_min (e.a * Real.cos e.t) (e.b * Real.sin e.t) e.xc
  rw [abs_mul, abs_mul, abs_of_pos ha, abs_of_pos hb] at this
  rw [Ell.hx, ← this]
  simp only [Ell.xbox, List.map_cons, List.map_nil, lmin4]
  congr 1
  · congr 1
    · congr 1 <;> ring
  · ring

theorem Ell.xbox_max (e : Ell) (ha : 0 < e.a) (hb : 0 < e.b) : lmax e.xbox = e.xc + e.hx := by
  have := four_max (e.a * Real.cos e.t) (e.b * Real.sin e.t) e.xc
  rw [abs_mul, abs_mul, abs_of_pos ha, abs_of_pos hb] at this
  rw [Ell.hx, ← this]
  simp only [Ell.xbox, List.map_cons, List.map_nil, lmax4]
  congr 1
  · congr 1
    · congr 1 <;> ring
  · ring

theorem Ell.ybox_min (e : Ell) (ha : 0 < e.a) (hb : 0 < e.b) : lmin e.ybox = e.yc - e.hy := by
  have := four_min (e.a * Real.sin e.t) (-(e.b * Real.cos e.t)) e.yc
  rw [abs_neg, abs_mul, abs_mul, abs_of_pos ha, abs_of_pos hb] at this
  rw [Ell.hy, ← this]
  simp only [Ell.ybox, List.map_cons, List.map_nil, lmin4]
  congr 1
  · congr 1
    · congr 1 <;> ring
    · ring
  · ring

theorem Ell.ybox_max (e : Ell) (ha : 0 < e.a) (hb : 0 < e.b) : lmax e.ybox = e.yc + e.hy := by
  have := four_max (e.a * Real.sin e.t) (-(e.b * Real.cos e.t)) e.yc
  rw [abs_neg, abs_mul, abs_mul, abs_of_pos ha, abs_of_pos hb] at this
  rw [Ell.hy, ← this]
  simp only [Ell.ybox, List.map_cons, List.map_nil, lmax4]
  congr 1
  · congr 1
    · congr 1 <;> ring
    · ring
  · ring

theorem Ell.hx_pos (e : Ell) (ha : 0 < e.a) (hb : 0 < e.b) : 0 < e.hx := by
  unfold Ell.hx
  by_cases h : Real.cos e.t = 0
  · have h2 := Real.cos_sq_add_sin_sq e.t
    have : 0 < |Real.sin e.t| := abs_pos.mpr (fun h0 => by rw [h, h0] at h2; norm_num at h2)
    have := mul_pos hb this
    have := mul_nonneg ha.le (abs_nonneg (Real.cos e.t))
    linarith
  · have := mul_pos ha (abs_pos.mpr h)
    have := mul_nonneg hb.le (abs_nonneg (Real.sin e.t))
    linarith

theorem Ell.hy_pos (e : Ell) (ha : 0 < e.a) (hb : 0 < e.b) : 0 < e.hy := by
  unfold Ell.hy
  by_cases h : Real.cos e.t = 0
  · have h2 := Real.cos_sq_add_sin_sq e.t
    have : 0 < |Real.sin e.t| := abs_pos.mpr (fun h0 => by rw [h, h0] at h2; norm_num at h2)
    have := mul_pos ha this
    have := mul_nonneg hb.le (abs_nonneg (Real.cos e.t))
    linarith
  · have := mul_pos hb (abs_pos.mpr h)
    have := mul_nonneg ha.le (abs_nonneg (Real.sin e.t))
    linarith

/-- A point of the (slightly enlarged) ellipse is in the (slightly enlarged) box. -/
theorem Ell.in_box (e : Ell) (ha : 0 < e.a) (hb : 0 < e.b) (x y : ℝ) (h : e.r x y ^ 2 ≤ 1 + 1e-10) :
    |x| ≤ e.hx * (1 + 1e-10) ∧ |y| ≤ e.hy * (1 + 1e-10) := by
  have hr : e.r x y ≤ 1 + 1e-10 := by
    by_contra hc
    push Not at hc
    nlinarith [e.r_nonneg x y]
  rw [e.r_sq] at h
  set A := x * Real.cos e.t - y * Real.sin e.t with hA
  set B := x * Real.sin e.t + y * Real.cos e.t with hB
  have hAle : |A| ≤ e.a * (1 + 1e-10) := by
    have : (A / e.a) ^ 2 ≤ (1 + 1e-10) ^ 2 := by nlinarith [sq_nonneg (B / e.b)]
    have := sq_le_sq.mp this
    rw [abs_div, abs_of_pos ha, abs_of_pos (by norm_num : (0 : ℝ) < 1 + 1e-10), div_le_iff₀ ha] at this
    linarith
  have hBle : |B| ≤ e.b * (1 + 1e-10) := by
    have : (B / e.b) ^ 2 ≤ (1 + 1e-10) ^ 2 := by nlinarith [sq_nonneg (A / e.a)]
    have := sq_le_sq.mp this
    rw [abs_div, abs_of_pos hb, abs_of_pos (by norm_num : (0 : ℝ) < 1 + 1e-10), div_le_iff₀ hb] at this
    linarith
  have hx : x = A * Real.cos e.t + B * Real.sin e.t := by
    rw [hA, hB]; linear_combination (-x) * Real.cos_sq_add_sin_sq e.t
  have hy : y = -A * Real.sin e.t + B * Real.cos e.t := by
    rw [hA, hB]; linear_combination (-y) * Real.cos_sq_add_sin_sq e.t
  constructor
  · rw [hx]
    refine (abs_add_le _ _).trans ?_
    rw [abs_mul, abs_mul, Ell.hx]
    nlinarith [mul_le_mul_of_nonneg_right hAle (abs_nonneg (Real.cos e.t)), mul_le_mul_of_nonneg_right hBle (abs_nonneg (Real.sin e.t))]
  · rw [hy]
    refine (abs_add_le _ _).trans ?_
    rw [abs_mul, abs_mul, abs_neg, Ell.hy]
    nlinarith [mul_le_mul_of_nonneg_right hAle (abs_nonneg (Real.sin e.t)), mul_le_mul_of_nonneg_right hBle (abs_nonneg (Real.cos e.t))]

/-- On one axis: the pixels outside the box are more than one and a half pixels from the figure. -/
theorem outside_box (n : ℕ) (c h : ℝ) (box : List ℝ) (hmin : lmin box = c - h) (hmax : lmax box = c + h) (j : ℕ) (hj : j < n)
    (hout : (j : ℤ) < (boxRange n box).1 ∨ (boxRange n box).2 < (j : ℤ)) : h + 3 / 2 ≤ |(j : ℝ) - c| := by
  rcases hout with hout | hout
  · have h1 := Dm.npRound_bounds (lmin box)
    rw [hmin] at h1
    have h2 : (j : ℤ) ≤ Dm.npRound (c - h) - 2 := by
      simp only [boxRange, clip, hmin] at hout
      rcases lt_min_iff.mp hout with ⟨h3, _⟩
      rcases lt_max_iff.mp h3 with h4 | h4 <;> omega
    have h3 : (j : ℝ) ≤ (Dm.npRound (c - h) : ℝ) - 2 := by exact_mod_cast h2
    have := neg_abs_le ((j : ℝ) - c)
    linarith [h1.2]
  · have h1 := Dm.npRound_bounds (lmax box)
    rw [hmax] at h1
    have h2 : Dm.npRound (c + h) + 2 ≤ (j : ℤ) := by
      simp only [boxRange, clip, hmax] at hout
      rcases min_lt_iff.mp hout with h3 | h3
      · rcases max_lt_iff.mp h3 with ⟨h4, _⟩; omega
      · omega
    have h3 : (Dm.npRound (c + h) : ℝ) + 2 ≤ (j : ℝ) := by exact_mod_cast h2
    have := le_abs_self ((j : ℝ) - c)
    linarith [h1.1]

/-- The pixels outside the box have no point in the ellipse. -/
theorem Ell.outside (e : Ell) (ha : 0 < e.a) (hb : 0 < e.b) (ha' : e.a ≤ 1e9) (hb' : e.b ≤ 1e9) (k : ℕ) (hk : Odd k) (x y : ℝ)
    (h : e.hx + 3 / 2 ≤ |x| ∨ e.hy + 3 / 2 ≤ |y|) : e.subpix k x y = 0 := by
  classical
  have hk0 : (0 : ℝ) < k := by exact_mod_cast hk.pos
  unfold Ell.subpix
  rw [Finset.filter_false_of_mem]
  · simp
  · intro p _ hp
    dsimp only at hp
    have hoff : ∀ q : Fin k, |subOff k q| ≤ 1 / 2 := by
      intro q
      refine (subOff_abs k hk q).trans ?_
      rw [div_le_div_iff₀ (by positivity) (by norm_num)]; linarith
    have hin := e.in_box ha hb (subOff k p.2 + x) (subOff k p.1 + y) (by
      rw [e.r_sq]; unfold subOff; rw [← sq, ← sq] at hp; exact hp)
    have hc1 := Real.abs_cos_le_one e.t
    have hs1 := Real.abs_sin_le_one e.t
    have hx2 : e.hx ≤ 2e9 := by
      unfold Ell.hx
      nlinarith [abs_nonneg (Real.cos e.t), abs_nonneg (Real.sin e.t)]
    have hy2 : e.hy ≤ 2e9 := by
      unfold Ell.hy
      nlinarith [abs_nonneg (Real.cos e.t), abs_nonneg (Real.sin e.t)]
    rcases h with h | h
    · have h1 := abs_sub_abs_le_abs_sub x (-(subOff k p.2))
      rw [sub_neg_eq_add, abs_neg, add_comm x] at h1
      have := hoff p.2
      norm_num at hx2 hin
      linarith [hin.1]
    · have h1 := abs_sub_abs_le_abs_sub y (-(subOff k p.1))
      rw [sub_neg_eq_add, abs_neg, add_comm y] at h1
      have := hoff p.1
      norm_num at hy2 hin
      linarith [hin.2]


/-! ## The claims -/

/-- Which pixels of the row or column of the box exist: the figure reaches the array. -/
def OnGrid (n : ℕ) (c h : ℝ) : Prop := 0 ≤ Dm.npRound (c + h) ∧ Dm.npRound (c - h) < n

theorem npRound_mono {x y : ℝ} (h : x ≤ y) : Dm.npRound x ≤ Dm.npRound y := by
  by_contra hc
  push Not at hc
  have h1 := Dm.npRound_bounds x
  have h2 := Dm.npRound_bounds y
  have h3 : (Dm.npRound y : ℝ) + 1 ≤ Dm.npRound x := by exact_mod_cast hc
  have hxy : x = y := by linarith [h1.2, h2.1]
  rw [hxy] at hc
  exact lt_irrefl _ hc

theorem box_small_iff (n : ℕ) (c h : ℝ) (hh : 0 < h) (box : List ℝ) (hmin : lmin box = c - h) (hmax : lmax box = c + h) :
    (boxRange n box).2 - (boxRange n box).1 + 1 < 2 ↔ n ≤ 1 ∨ ¬ OnGrid n c h := by
  have hm : Dm.npRound (c - h) ≤ Dm.npRound (c + h) := npRound_mono (by linarith)
  simp only [boxRange, hmin, hmax, clip, OnGrid]
  omega

/-- **C98 (error).** `prop_ellipse` fails exactly when the array has at most one pixel or the box of the ellipse lies beyond the array; the failure is an IndexError. -/
theorem C98_error_iff (n k : ℕ) (e : Ell) (ha : 0 < e.a) (hb : 0 < e.b) (dark : Bool) :
    (ellipse n k e dark = .error .indexError ↔ n ≤ 1 ∨ ¬ OnGrid n e.xc e.hx ∨ ¬ OnGrid n e.yc e.hy) ∧
    ((∃ img, ellipse n k e dark = .ok img) ↔ 2 ≤ n ∧ OnGrid n e.xc e.hx ∧ OnGrid n e.yc e.hy) := by
  have h1 := box_small_iff n e.xc e.hx (e.hx_pos ha hb) e.xbox (e.xbox_min ha hb) (e.xbox_max ha hb)
  have h2 := box_small_iff n e.yc e.hy (e.hy_pos ha hb) e.ybox (e.ybox_min ha hb) (e.ybox_max ha hb)
  by_cases hc : (boxRange n e.xbox).2 - (boxRange n e.xbox).1 + 1 < 2 ∨ (boxRange n e.ybox).2 - (boxRange n e.ybox).1 + 1 < 2
  · have hE : ellipse n k e dark = .error .indexError := by simp only [ellipse]; rw [if_pos hc]
    rw [h1, h2] at hc
    generalize OnGrid n e.xc e.hx = A at hc ⊢
    generalize OnGrid n e.yc e.hy = B at hc ⊢
    refine ⟨⟨fun _ => ?_, fun _ => hE⟩, ⟨fun ⟨img, h⟩ => (by rw [hE] at h; cases h), fun h => ?_⟩⟩
    · rcases hc with (h | h) | (h | h)
      · exact Or.inl h
      · exact Or.inr (Or.inl h)
      · exact Or.inl h
      · exact Or.inr (Or.inr h)
    · exfalso
      obtain ⟨h1, h2, h3⟩ := h
      rcases hc with (h | h) | (h | h)
      · omega
      · exact h h2
      · omega
      · exact h h3
  · have hE : ∃ img, ellipse n k e dark = .ok img := by simp only [ellipse]; rw [if_neg hc]; exact ⟨_, rfl⟩
    rw [h1, h2] at hc
    generalize OnGrid n e.xc e.hx = A at hc ⊢
    generalize OnGrid n e.yc e.hy = B at hc ⊢
    obtain ⟨img, hE⟩ := hE
    refine ⟨⟨fun h => (by rw [hE] at h; cases h), fun h => ?_⟩, ⟨fun _ => ?_, fun _ => ⟨img, hE⟩⟩⟩
    · exfalso
      rcases h with h | h | h
      · exact hc (Or.inl (Or.inl h))
      · exact hc (Or.inl (Or.inr h))
      · exact hc (Or.inr (Or.inr h))
    · refine ⟨by by_contra h; exact hc (Or.inl (Or.inl (by omega))), ?_, ?_⟩
      · by_contra h; exact hc (Or.inl (Or.inr h))
      · by_contra h; exact hc (Or.inr (Or.inr h))

/-- **C98.** Every pixel of the image of `prop_ellipse` is the fraction of its `nsub × nsub` points lying in the ellipse of the given centre and radii, turned *clockwise* by ROTATION
(limit of the quadratic form `1 + 1e-10`); with DARK it is one minus that fraction.  For every size, centre, orientation and aspect ratio: neither the edge-region shortcut nor the
bounding box changes any pixel.  (Radii up to ten million pixels and `nsub ≤ 1000`.) -/
theorem C98_coverage (n k : ℕ) (hk : Odd k) (hk3 : k ≤ 1000) (e : Ell) (ha : 0 < e.a) (hb : 0 < e.b) (ha' : e.a ≤ 1e7) (hb' : e.b ≤ 1e7) (dark : Bool)
    (img : ZMod n → ZMod n → ℝ) (h : ellipse n k e dark = .ok img) (i j : ZMod n) :
    img i j = if dark then 1 - coverage k (ellSet e.xc e.yc e.a e.b (-e.t) 1e-10) 1 j.val i.val
      else coverage k (ellSet e.xc e.yc e.a e.b (-e.t) 1e-10) 1 j.val i.val := by
  have hn : 2 ≤ n := ((C98_error_iff n k e ha hb dark).2.mp ⟨img, h⟩).1
  have : NeZero n := ⟨by omega⟩
  have hkr : (k : ℝ) ≤ 1000 := by exact_mod_cast hk3
  rw [← e.subpix_eq k hk]
  have hpix := e.pixel_eq ha hb k hk (by norm_num at ha' ⊢; nlinarith) ((j.val : ℝ) - e.xc) ((i.val : ℝ) - e.yc)
  unfold ellipse at h
  dsimp only at h
  by_cases hc : (boxRange n e.xbox).2 - (boxRange n e.xbox).1 + 1 < 2 ∨ (boxRange n e.ybox).2 - (boxRange n e.ybox).1 + 1 < 2
  · rw [if_pos hc] at h; cases h
  rw [if_neg hc, Except.ok.injEq] at h
  rw [← h]
  by_cases h1 : (boxRange n e.ybox).1 ≤ (i.val : ℤ) ∧ (i.val : ℤ) ≤ (boxRange n e.ybox).2 ∧ (boxRange n e.xbox).1 ≤ (j.val : ℤ) ∧ (j.val : ℤ) ≤ (boxRange n e.xbox).2
  · simp only [if_pos h1, hpix]
  · have ho : e.subpix k ((j.val : ℝ) - e.xc) ((i.val : ℝ) - e.yc) = 0 := by
      apply e.outside ha hb (by norm_num at ha' ⊢; linarith) (by norm_num at hb' ⊢; linarith) k hk
      by_cases hx : (j.val : ℤ) < (boxRange n e.xbox).1 ∨ (boxRange n e.xbox).2 < (j.val : ℤ)
      · exact Or.inl (outside_box n e.xc e.hx e.xbox (e.xbox_min ha hb) (e.xbox_max ha hb) j.val (ZMod.val_lt j) hx)
      · refine Or.inr (outside_box n e.yc e.hy e.ybox (e.ybox_min ha hb) (e.ybox_max ha hb) i.val (ZMod.val_lt i) ?_)
        by_contra hy
        push Not at hx hy
        exact h1 ⟨hy.1, hy.2, hx.1, hx.2⟩
    simp only [if_neg h1, ho, sub_zero]

theorem coverage_nonneg (k : ℕ) (S : Set (ℝ × ℝ)) (w x y : ℝ) : 0 ≤ coverage k S w x y := by unfold coverage; positivity

theorem coverage_le_one (k : ℕ) (S : Set (ℝ × ℝ)) (w x y : ℝ) : coverage k S w x y ≤ 1 := by
  classical
  unfold coverage
  rcases Nat.eq_zero_or_pos k with rfl | hk
  · simp
  · rw [div_le_one (by positivity)]
    have := Finset.card_le_univ ((Finset.univ : Finset (Fin k × Fin k)).filter fun p =>
      (x - w / 2 + (((p.2 : ℕ) : ℝ) + 1 / 2) * (w / k), y - w / 2 + (((p.1 : ℕ) : ℝ) + 1 / 2) * (w / k)) ∈ S)
    simp only [Fintype.card_prod, Fintype.card_fin] at this
    exact_mod_cast this

theorem coverage_mono (k : ℕ) {S T : Set (ℝ × ℝ)} (h : S ⊆ T) (w x y : ℝ) : coverage k S w x y ≤ coverage k T w x y := by
  classical
  unfold coverage
  apply div_le_div_of_nonneg_right _ (by positivity)
  exact_mod_cast Finset.card_le_card (Finset.monotone_filter_right _ fun p _ hp => h hp)

theorem coverage_full (k : ℕ) (hk : 0 < k) (S : Set (ℝ × ℝ)) (w x y : ℝ) (hw : 0 ≤ w)
    (h : ∀ u v, |u - x| ≤ w / 2 → |v - y| ≤ w / 2 → (u, v) ∈ S) : coverage k S w x y = 1 := by
  classical
  have hk0 : (0 : ℝ) < k := by exact_mod_cast hk
  have key : ∀ q : Fin k, ∀ c : ℝ, |c - w / 2 + (((q : ℕ) : ℝ) + 1 / 2) * (w / k) - c| ≤ w / 2 := by
    intro q c
    have h0 : (0 : ℝ) ≤ ((q : ℕ) : ℝ) := by positivity
    have h1 : ((q : ℕ) : ℝ) + 1 ≤ k := by exact_mod_cast q.2
    have h2 : (((q : ℕ) : ℝ) + 1 / 2) * (w / k) ≤ w := by
      rw [mul_div_assoc', div_le_iff₀ hk0]; nlinarith
    have h3 : 0 ≤ (((q : ℕ) : ℝ) + 1 / 2) * (w / k) := by positivity
    rw [abs_le]; constructor <;> linarith
  unfold coverage
  rw [Finset.filter_true_of_mem]
  · simp only [Finset.card_univ, Fintype.card_prod, Fintype.card_fin]; push_cast; field_simp
  · intro p _; exact h _ _ (key _ _) (key _ _)

theorem coverage_empty (k : ℕ) (S : Set (ℝ × ℝ)) (w x y : ℝ) (hw : 0 ≤ w)
    (h : ∀ u v, |u - x| ≤ w / 2 → |v - y| ≤ w / 2 → (u, v) ∉ S) : coverage k S w x y = 0 := by
  classical
  rcases Nat.eq_zero_or_pos k with rfl | hk
  · simp [coverage]
  have hk0 : (0 : ℝ) < k := by exact_mod_cast hk
  have key : ∀ q : Fin k, ∀ c : ℝ, |c - w / 2 + (((q : ℕ) : ℝ) + 1 / 2) * (w / k) - c| ≤ w / 2 := by
    intro q c
    have h0 : (0 : ℝ) ≤ ((q : ℕ) : ℝ) := by positivity
    have h1 : ((q : ℕ) : ℝ) + 1 ≤ k := by exact_mod_cast q.2
    have h2 : (((q : ℕ) : ℝ) + 1 / 2) * (w / k) ≤ w := by
      rw [mul_div_assoc', div_le_iff₀ hk0]; nlinarith
    have h3 : 0 ≤ (((q : ℕ) : ℝ) + 1 / 2) * (w / k) := by positivity
    rw [abs_le]; constructor <;> linarith
  unfold coverage
  rw [Finset.filter_false_of_mem]
  · simp
  · intro p _; exact h _ _ (key _ _) (key _ _)

/-- Point reflection of the figure reflects the coverage. -/
theorem coverage_reflect (k : ℕ) (S : Set (ℝ × ℝ)) (w x y cx cy : ℝ) (hS : ∀ u v, (u, v) ∈ S ↔ (2 * cx - u, 2 * cy - v) ∈ S) :
    coverage k S w (2 * cx - x) (2 * cy - y) = coverage k S w x y := by
  classical
  unfold coverage
  congr 2
  refine Finset.card_bij' (fun p _ => (p.1.rev, p.2.rev)) (fun p _ => (p.1.rev, p.2.rev)) ?_ ?_ ?_ ?_
  · intro p hp
    simp only [Finset.mem_filter, Finset.mem_univ, true_and] at hp ⊢
    rw [hS] at hp
    have hk0 : (k : ℝ) ≠ 0 := by have := p.1.pos; positivity
    have e1 : ∀ q : Fin k, ((q.rev : ℕ) : ℝ) = k - 1 - ((q : ℕ) : ℝ) := by
      intro q; rw [Fin.val_rev, Nat.cast_sub q.2]; push_cast; ring
    rw [e1, e1]
    convert hp using 2 <;> field_simp <;> ring
  · intro p hp
    simp only [Finset.mem_filter, Finset.mem_univ, true_and] at hp ⊢
    rw [hS]
    have hk0 : (k : ℝ) ≠ 0 := by have := p.1.pos; positivity
    have e1 : ∀ q : Fin k, ((q.rev : ℕ) : ℝ) = k - 1 - ((q : ℕ) : ℝ) := by
      intro q; rw [Fin.val_rev, Nat.cast_sub q.2]; push_cast; ring
    rw [e1, e1]
    convert hp using 2 <;> field_simp <;> ring
  · intro p _; simp
  · intro p _; simp

/-- Moving the figure moves the coverage. -/
theorem coverage_shift (k : ℕ) (S : Set (ℝ × ℝ)) (w x y dx dy : ℝ) :
    coverage k {p | (p.1 - dx, p.2 - dy) ∈ S} w (x + dx) (y + dy) = coverage k S w x y := by
  classical
  unfold coverage
  congr 2
  apply congrArg
  apply Finset.filter_congr
  intro p _
  simp only [Set.mem_setOf_eq]
  refine iff_of_eq (congrArg (· ∈ S) (Prod.ext ?_ ?_)) <;> simp only <;> ring

/-- **C98 (range).** All values are between 0 and 1, and DARK gives exactly the complement. -/
theorem C98_range (n k : ℕ) (hk : Odd k) (hk3 : k ≤ 1000) (e : Ell) (ha : 0 < e.a) (hb : 0 < e.b) (ha' : e.a ≤ 1e7) (hb' : e.b ≤ 1e7) (bright darkImg : ZMod n → ZMod n → ℝ)
    (h : ellipse n k e false = .ok bright) (h' : ellipse n k e true = .ok darkImg) (i j : ZMod n) :
    0 ≤ bright i j ∧ bright i j ≤ 1 ∧ bright i j + darkImg i j = 1 := by
  rw [C98_coverage n k hk hk3 e ha hb ha' hb' false bright h, C98_coverage n k hk hk3 e ha hb ha' hb' true darkImg h']
  simp only [Bool.false_eq_true, if_false, if_true]
  exact ⟨coverage_nonneg .., coverage_le_one .., by ring⟩

/-- **C98 (interior and exterior).** A pixel wholly inside the ellipse is exactly 1, a pixel wholly outside exactly 0. -/
theorem C98_solid (n k : ℕ) (hk : Odd k) (hk3 : k ≤ 1000) (e : Ell) (ha : 0 < e.a) (hb : 0 < e.b) (ha' : e.a ≤ 1e7) (hb' : e.b ≤ 1e7) (img : ZMod n → ZMod n → ℝ)
    (h : ellipse n k e false = .ok img) (i j : ZMod n) :
    ((∀ u v, |u - (j.val : ℝ)| ≤ 1 / 2 → |v - (i.val : ℝ)| ≤ 1 / 2 → (u, v) ∈ ellSet e.xc e.yc e.a e.b (-e.t) 0) → img i j = 1) ∧
    ((∀ u v, |u - (j.val : ℝ)| ≤ 1 / 2 → |v - (i.val : ℝ)| ≤ 1 / 2 → (u, v) ∉ ellSet e.xc e.yc e.a e.b (-e.t) 1e-10) → img i j = 0) := by
  rw [C98_coverage n k hk hk3 e ha hb ha' hb' false img h]
  simp only [Bool.false_eq_true, if_false]
  refine ⟨fun hin => coverage_full k hk.pos _ 1 _ _ (by norm_num) fun u v hu hv => ?_, fun hout => coverage_empty k _ 1 _ _ (by norm_num) hout⟩
  have := hin u v hu hv
  simp only [ellSet, Set.mem_setOf_eq] at this ⊢
  linarith

/-- **C98 (symmetry).** The image is symmetric about the centre: pixels placed symmetrically to it are equal. -/
theorem C98_symmetric (n k : ℕ) (hk : Odd k) (hk3 : k ≤ 1000) (e : Ell) (ha : 0 < e.a) (hb : 0 < e.b) (ha' : e.a ≤ 1e7) (hb' : e.b ≤ 1e7) (dark : Bool) (img : ZMod n → ZMod n → ℝ)
    (h : ellipse n k e dark = .ok img) (i j i' j' : ZMod n) (hi : (i.val : ℝ) + i'.val = 2 * e.yc) (hj : (j.val : ℝ) + j'.val = 2 * e.xc) : img i j = img i' j' := by
  rw [C98_coverage n k hk hk3 e ha hb ha' hb' dark img h, C98_coverage n k hk hk3 e ha hb ha' hb' dark img h]
  have hi' : (i'.val : ℝ) = 2 * e.yc - i.val := by linarith
  have hj' : (j'.val : ℝ) = 2 * e.xc - j.val := by linarith
  rw [hi', hj', coverage_reflect]
  intro u v
  simp only [ellSet, Set.mem_setOf_eq]
  refine iff_of_eq (congrArg (· ≤ (1 : ℝ) + 1e-10) ?_)
  ring

/-- **C98 (translation).** Moving the centre by whole pixels moves the image by whole pixels. -/
theorem C98_translate (n k : ℕ) (hk : Odd k) (hk3 : k ≤ 1000) (e : Ell) (ha : 0 < e.a) (hb : 0 < e.b) (ha' : e.a ≤ 1e7) (hb' : e.b ≤ 1e7) (dark : Bool) (p q : ℤ)
    (img img' : ZMod n → ZMod n → ℝ) (h : ellipse n k e dark = .ok img) (h' : ellipse n k { e with xc := e.xc + p, yc := e.yc + q } dark = .ok img') (i j i' j' : ZMod n)
    (hi : (i'.val : ℤ) = i.val + q) (hj : (j'.val : ℤ) = j.val + p) : img' i' j' = img i j := by
  rw [C98_coverage n k hk hk3 _ ha hb ha' hb' dark img h, C98_coverage n k hk hk3 { e with xc := e.xc + p, yc := e.yc + q } ha hb ha' hb' dark img' h']
  have hi' : (i'.val : ℝ) = i.val + q := by exact_mod_cast hi
  have hj' : (j'.val : ℝ) = j.val + p := by exact_mod_cast hj
  have := coverage_shift k (ellSet e.xc e.yc e.a e.b (-e.t) 1e-10) 1 j.val i.val p q
  rw [hi', hj', ← this]
  have hS : {x : ℝ × ℝ | (x.1 - p, x.2 - q) ∈ ellSet e.xc e.yc e.a e.b (-e.t) 1e-10} = ellSet (e.xc + p) (e.yc + q) e.a e.b (-e.t) 1e-10 := by
    ext x
    simp only [ellSet, Set.mem_setOf_eq]
    refine iff_of_eq (congrArg (· ≤ (1 : ℝ) + 1e-10) ?_)
    ring
  rw [hS]

/-- **C98 (monotone).** A larger ellipse of the same centre and orientation covers every pixel at least as much. -/
theorem C98_monotone (n k : ℕ) (hk : Odd k) (hk3 : k ≤ 1000) (e : Ell) (ha : 0 < e.a) (hb : 0 < e.b) (a' b' : ℝ) (haa : e.a ≤ a') (hbb : e.b ≤ b') (ha' : a' ≤ 1e7) (hb' : b' ≤ 1e7)
    (img img' : ZMod n → ZMod n → ℝ) (h : ellipse n k e false = .ok img) (h' : ellipse n k { e with a := a', b := b' } false = .ok img') (i j : ZMod n) : img i j ≤ img' i j := by
  rw [C98_coverage n k hk hk3 e ha hb (haa.trans ha') (hbb.trans hb') false img h,
    C98_coverage n k hk hk3 { e with a := a', b := b' } (lt_of_lt_of_le ha haa) (lt_of_lt_of_le hb hbb) ha' hb' false img' h']
  simp only [Bool.false_eq_true, if_false]
  apply coverage_mono
  intro x hx
  simp only [ellSet, Set.mem_setOf_eq] at hx ⊢
  refine le_trans (add_le_add ?_ ?_) hx
  · rw [div_pow, div_pow]; apply div_le_div_of_nonneg_left (sq_nonneg _) (by positivity); exact pow_le_pow_left₀ ha.le haa 2
  · rw [div_pow, div_pow]; apply div_le_div_of_nonneg_left (sq_nonneg _) (by positivity); exact pow_le_pow_left₀ hb.le hbb 2

/-- **C98 (violated).** An ellipse beyond the edge of the array is not drawn as nothing: `prop_ellipse` (and so every aperture and obscuration made with it) raises IndexError,
although no pixel of the array meets the ellipse. -/
theorem C98_off_grid_violated (n k : ℕ) (hk : Odd k) (e : Ell) (ha : 0 < e.a) (hb : 0 < e.b) (ha' : e.a ≤ 1e7) (hb' : e.b ≤ 1e7) (dark : Bool)
    (hoff : (n : ℝ) + 1 < e.xc - e.hx) :
    ellipse n k e dark = .error .indexError ∧ ∀ i j : ℕ, i < n → j < n → coverage k (ellSet e.xc e.yc e.a e.b (-e.t) 1e-10) 1 j i = 0 := by
  constructor
  · rw [(C98_error_iff n k e ha hb dark).1]
    right; left
    intro h
    have h1 := (Dm.npRound_bounds (e.xc - e.hx)).1
    have h2 : (Dm.npRound (e.xc - e.hx) : ℝ) + 1 ≤ n := by exact_mod_cast h.2
    linarith
  · intro i j _ hj
    rw [← e.subpix_eq k hk]
    apply e.outside ha hb (by norm_num at ha' ⊢; linarith) (by norm_num at hb' ⊢; linarith) k hk
    left
    have hj' : (j : ℝ) + 1 ≤ n := by exact_mod_cast hj
    have := neg_abs_le ((j : ℝ) - e.xc)
    linarith

/-- The hypotheses hold: a 3 × 2 ellipse at the centre of a 10 × 10 array is drawn. -/
example : ∃ img, ellipse 10 11 ⟨5, 5, 3, 2, Real.pi / 6⟩ false = .ok img := by
  rw [(C98_error_iff 10 11 ⟨5, 5, 3, 2, Real.pi / 6⟩ (by norm_num) (by norm_num) false).2]
  have hx := Ell.hx_pos ⟨5, 5, 3, 2, Real.pi / 6⟩ (by norm_num) (by norm_num)
  have hy := Ell.hy_pos ⟨5, 5, 3, 2, Real.pi / 6⟩ (by norm_num) (by norm_num)
  refine ⟨by norm_num, ⟨?_, ?_⟩, ⟨?_, ?_⟩⟩
  all_goals
    first
    | (have h5 : ((5 : ℤ) : ℝ) ≤ 5 + Ell.hx ⟨5, 5, 3, 2, Real.pi / 6⟩ := by push_cast; linarith
       have := npRound_mono h5
       rw [Dm.npRound_intCast] at this
       have : (5 : ℤ) ≤ Dm.npRound (5 + Ell.hx ⟨5, 5, 3, 2, Real.pi / 6⟩) := this
       change 0 ≤ Dm.npRound (5 + Ell.hx ⟨5, 5, 3, 2, Real.pi / 6⟩)
       omega)
    | (have h5 : 5 - Ell.hx ⟨5, 5, 3, 2, Real.pi / 6⟩ ≤ ((5 : ℤ) : ℝ) := by push_cast; linarith
       have := npRound_mono h5
       rw [Dm.npRound_intCast] at this
       change Dm.npRound (5 - Ell.hx ⟨5, 5, 3, 2, Real.pi / 6⟩) < ((10 : ℕ) : ℤ)
       push_cast
       omega)
    | (have h5 : ((5 : ℤ) : ℝ) ≤ 5 + Ell.hy ⟨5, 5, 3, 2, Real.pi / 6⟩ := by push_cast; linarith
       have := npRound_mono h5
       rw [Dm.npRound_intCast] at this
       change 0 ≤ Dm.npRound (5 + Ell.hy ⟨5, 5, 3, 2, Real.pi / 6⟩)
       omega)
    | (have h5 : 5 - Ell.hy ⟨5, 5, 3, 2, Real.pi / 6⟩ ≤ ((5 : ℤ) : ℝ) := by push_cast; linarith
       have := npRound_mono h5
       rw [Dm.npRound_intCast] at this
       change Dm.npRound (5 - Ell.hy ⟨5, 5, 3, 2, Real.pi / 6⟩) < ((10 : ℕ) : ℤ)
       push_cast
       omega)

end Verif.Shape
