import Verif.Model.RomanPupil
import Mathlib.Analysis.SpecialFunctions.Complex.Arg
import Mathlib.Analysis.SpecialFunctions.Complex.Log
import Mathlib.Tactic.Linarith
import Mathlib.Tactic.FieldSimp
import Mathlib.Tactic.Ring
import Mathlib.Tactic.NormNum

/-!
C149: the pupils of the Roman telescope.

Specification: a point `p` of the pupil plane (a complex number) is moved by the bulk changes to
`shear + magFac * exp(i * clocking) * p`; a direction `th` lies between two angles if some turn of it
does.
-/

namespace Verif.RomanPupil

open Verif.Util (Centering ceilEven)
open Real (pi)

/-- Some turn of the direction `th` lies between `a1` and `a2`. -/
def Between (a1 a2 th : ℝ) : Prop := ∃ k : ℤ, a1 ≤ th + 2 * Real.pi * k ∧ th + 2 * Real.pi * k ≤ a2

theorem turnsDown_spec (a1 a2 : ℝ) : ∃ n : ℕ, turnsDown a1 a2 = (a1 - 2 * pi * n, a2 - 2 * pi * n) ∧
    (a1 - 2 * pi * n ≤ 2 * pi ∨ a2 - 2 * pi * n ≤ 2 * pi) := by
  induction a1, a2 using turnsDown.induct with
  | case1 a1 a2 h ih =>
    obtain ⟨n, hn, hb⟩ := ih
    refine ⟨n + 1, ?_, ?_⟩
    · rw [turnsDown, if_pos h, hn]
      push_cast
      ext <;> simp only <;> ring
    · push_cast
      rcases hb with hb | hb
      · left; linarith
      · right; linarith
  | case2 a1 a2 h =>
    refine ⟨0, ?_, ?_⟩
    · rw [turnsDown, if_neg h]; simp
    · by_contra hc
      push Not at hc
      exact h ⟨by simpa using hc.2, by simpa using hc.1⟩

theorem turnsUp_spec (a1 a2 : ℝ) : ∃ n : ℕ, turnsUp a1 a2 = (a1 + 2 * pi * n, a2 + 2 * pi * n) ∧
    (-2 * pi ≤ a1 + 2 * pi * n ∨ -2 * pi ≤ a2 + 2 * pi * n) ∧ (n = 0 ∨ a2 + 2 * pi * n < 0) := by
  induction a1, a2 using turnsUp.induct with
  | case1 a1 a2 h ih =>
    obtain ⟨n, hn, hb, hc⟩ := ih
    refine ⟨n + 1, ?_, ?_, ?_⟩
    · rw [turnsUp, if_pos h, hn]
      push_cast
      ext <;> simp only <;> ring
    · push_cast
      rcases hb with hb | hb
      · left; linarith
      · right; linarith
    · right
      push_cast
      rcases hc with hc | hc
      · subst hc; push_cast; linarith [h.1]
      · linarith
  | case2 a1 a2 h =>
    refine ⟨0, ?_, ?_, Or.inl rfl⟩
    · rw [turnsUp, if_neg h]; simp
    · by_contra hc
      push Not at hc
      exact h ⟨by simpa using hc.2, by simpa using hc.1⟩

theorem int_zero_of_small (k : ℤ) (h1 : -(2 * pi) < 2 * pi * k) (h2 : 2 * pi * k < 2 * pi) : k = 0 := by
  have hpi := Real.pi_pos
  have h3 : (-1 : ℝ) < k := by nlinarith
  have h4 : (k : ℝ) < 1 := by nlinarith
  have h5 : (-1 : ℤ) < k := by exact_mod_cast h3
  have h6 : k < 1 := by exact_mod_cast h4
  omega

/-- The tabs and the turns. For every clocking at which neither angle of a tab is a multiple of `π`,
a pixel is taken into the sector of the tab exactly if its direction lies between the two angles. -/
theorem C149_sector (a1 a2 th : ℝ) (h12 : a1 ≤ a2) (hw : a2 - a1 < pi) (hth : -pi < th ∧ th ≤ pi)
    (h1 : ∀ k : ℤ, a1 ≠ pi * k) (h2 : ∀ k : ℤ, a2 ≠ pi * k) :
    between a1 a2 th ↔ Between a1 a2 th := by
  have hpi := Real.pi_pos
  unfold between Between
  obtain ⟨n, hn, hnb⟩ := turnsDown_spec a1 a2
  rw [hn]
  obtain ⟨m, hm, hmb, hmc⟩ := turnsUp_spec (a1 - 2 * pi * n) (a2 - 2 * pi * n)
  simp only [hm]
  obtain ⟨b1, hb1⟩ : ∃ b1, b1 = a1 - 2 * pi * n + 2 * pi * m := ⟨_, rfl⟩
  obtain ⟨b2, hb2⟩ : ∃ b2, b2 = a2 - 2 * pi * n + 2 * pi * m := ⟨_, rfl⟩
  rw [← hb1, ← hb2] at hmb
  rw [← hb2] at hmc
  rw [← hb1, ← hb2]
  have hlow : -2 * pi ≤ b2 := by rcases hmb with h | h <;> linarith
  have hhigh : b1 ≤ 2 * pi := by
    rcases hmc with h | h
    · subst h
      push_cast at hb1 hb2
      rcases hnb with h | h <;> linarith
    · linarith
  have hb12 : b1 ≤ b2 := by linarith
  have hbw : b2 - b1 < pi := by linarith
  have e1 : ∀ k : ℤ, b1 ≠ pi * k := by
    intro k hk
    refine h1 (k + 2 * n - 2 * m) ?_
    push_cast
    linarith
  have e2 : ∀ k : ℤ, b2 ≠ pi * k := by
    intro k hk
    refine h2 (k + 2 * n - 2 * m) ?_
    push_cast
    linarith
  have n1 : b1 ≠ 2 * pi := by have := e1 2; push_cast at this; intro h; apply this; linarith
  have n2 : b2 ≠ 2 * pi := by have := e2 2; push_cast at this; intro h; apply this; linarith
  have n3 : b1 ≠ -pi := by have := e1 (-1); push_cast at this; intro h; apply this; linarith
  have n4 : b2 ≠ -pi := by have := e2 (-1); push_cast at this; intro h; apply this; linarith
  -- the spec, in terms of `b1`, `b2` and of any representative of the direction
  have key : ∀ (t : ℝ) (j : ℤ), t = th + 2 * pi * j → (∀ k : ℤ, b1 ≤ t + 2 * pi * k →
      t + 2 * pi * k ≤ b2 → -(2 * pi) < 2 * pi * k ∧ 2 * pi * k < 2 * pi) →
      ((t ≤ b2 ∧ b1 ≤ t) ↔ ∃ k : ℤ, a1 ≤ th + 2 * pi * k ∧ th + 2 * pi * k ≤ a2) := by
    intro t j hj hu
    constructor
    · rintro ⟨ht2, ht1⟩
      refine ⟨j + n - m, ?_, ?_⟩ <;> push_cast <;> linarith
    · rintro ⟨k, hk1, hk2⟩
      have c1 : b1 ≤ t + 2 * pi * ((k - j - n + m : ℤ) : ℝ) := by push_cast; linarith
      have c2 : t + 2 * pi * ((k - j - n + m : ℤ) : ℝ) ≤ b2 := by push_cast; linarith
      obtain ⟨d1, d2⟩ := hu _ c1 c2
      have h0 := int_zero_of_small _ d1 d2
      rw [h0] at c1 c2
      push_cast at c1 c2
      exact ⟨by linarith, by linarith⟩
  unfold sameTurn
  obtain ⟨t1, t2⟩ := hth
  by_cases hA : (b2 < 2 * pi ∧ pi < b2) ∧ (b1 < pi ∨ 0 < b1)
  · rw [if_pos hA]
    by_cases hneg : th < 0
    · rw [if_pos hneg]
      refine key _ 1 (by push_cast; ring) ?_
      intro k k1 k2
      constructor <;> linarith [hA.1.1, hA.1.2]
    · rw [if_neg hneg]
      refine key _ 0 (by push_cast; ring) ?_
      intro k k1 k2
      constructor <;> linarith [hA.1.1, hA.1.2]
  rw [if_neg hA]
  have hA' : ¬ (b2 < 2 * pi ∧ pi < b2) := by
    intro h
    refine hA ⟨h, ?_⟩
    rcases lt_or_ge b1 pi with h' | h'
    · exact Or.inl h'
    · exact Or.inr (by linarith)
  by_cases hB : 2 * pi < b2 ∧ (pi < b1 ∧ b1 < 2 * pi)
  · rw [if_pos hB]
    refine key _ 1 (by push_cast; ring) ?_
    intro k k1 k2
    constructor <;> linarith [hB.1, hB.2.1, hB.2.2]
  rw [if_neg hB]
  have hle : b2 ≤ pi := by
    by_contra hc
    push Not at hc
    rcases lt_trichotomy b2 (2 * pi) with h | h | h
    · exact hA' ⟨h, hc⟩
    · exact n2 h
    · exact hB ⟨h, by linarith, lt_of_le_of_ne hhigh n1⟩
  by_cases hC : b1 < -pi ∧ -pi < b2
  · rw [if_pos hC]
    by_cases hpos : 0 < th
    · rw [if_pos hpos]
      refine key _ (-1) (by push_cast; ring) ?_
      intro k k1 k2
      constructor <;> linarith [hC.1, hC.2]
    · rw [if_neg hpos]
      refine key _ 0 (by push_cast; ring) ?_
      intro k k1 k2
      constructor <;> linarith [hC.1, hC.2]
  rw [if_neg hC]
  by_cases hD : b1 < -pi ∧ b2 < -pi
  · rw [if_pos hD]
    refine key _ (-1) (by push_cast; ring) ?_
    intro k k1 k2
    constructor <;> linarith [hD.1, hD.2]
  rw [if_neg hD]
  have hge : -pi < b1 := by
    rcases lt_trichotomy b1 (-pi) with h | h | h
    · rcases lt_trichotomy b2 (-pi) with h' | h' | h'
      · exact absurd ⟨h, h'⟩ hD
      · exact absurd h' n4
      · exact absurd ⟨h, h'⟩ hC
    · exact absurd h n3
    · exact h
  refine key _ 0 (by push_cast; ring) ?_
  intro k k1 k2
  constructor <;> linarith

/-- Violated at an exact multiple: a tab that ends exactly at a whole turn is not drawn at all. -/
theorem C149_violated_whole_turn (w th : ℝ) (hw : 0 < w) (hw' : w < pi) (hth : -pi < th ∧ th ≤ pi) :
    ¬ between (2 * pi - w) (2 * pi) th ∧ Between (2 * pi - w) (2 * pi) 0 := by
  have hpi := Real.pi_pos
  constructor
  · have hd : turnsDown (2 * pi - w) (2 * pi) = (2 * pi - w, 2 * pi) := by
      rw [turnsDown, if_neg (by intro h; linarith [h.1])]
    have hu : turnsUp (2 * pi - w) (2 * pi) = (2 * pi - w, 2 * pi) := by
      rw [turnsUp, if_neg (by intro h; linarith [h.1])]
    simp only [between, hd, hu, sameTurn]
    rw [if_neg (by intro h; linarith [h.1.1]), if_neg (by intro h; linarith [h.1]),
      if_neg (by intro h; linarith [h.1]), if_neg (by intro h; linarith [h.1])]
    intro h
    linarith [h.2, hth.2]
  · exact ⟨1, by push_cast; linarith, by push_cast; linarith⟩

/-! ## The pupil moves as one body -/

/-- Where the bulk changes move a point. -/
noncomputable def moved (shear : ℂ) (mag clockDeg : ℝ) (p : ℂ) : ℂ :=
  shear + mag * (Complex.exp ((clockDeg * (Real.pi / 180) : ℝ) * Complex.I) * p)

/-- The same pupil without the bulk changes. -/
def Changes.atRest (c : Changes) : Changes :=
  { c with xShear := none, yShear := none, magFac := none, clockDeg := none }

/-- For the proofs: parameters without the bulk changes. -/
def Par.rest (P : Par) : Par := { P with shear := 0, mag := 1, clock := 0 }

theorem rotated_exp (t : ℝ) (z : ℂ) : rotated t z = Complex.exp (t * Complex.I) * z := by
  rw [Complex.exp_mul_I]
  apply Complex.ext
  · simp [rotated, Complex.cos_ofReal_re, Complex.sin_ofReal_re]
  · simp [rotated, Complex.cos_ofReal_re, Complex.sin_ofReal_re]; ring

theorem scaled (m : ℝ) (z : ℂ) : (⟨m * z.re, m * z.im⟩ : ℂ) = m * z := by
  apply Complex.ext <;> simp

theorem moved_sub (P : Par) (p c : ℂ) :
    moved P.shear P.mag P.clock p - (rotated (rad P.clock) ⟨P.mag * c.re, P.mag * c.im⟩ + P.shear) =
      P.mag * rotated (rad P.clock) (p - c) := by
  rw [rotated_exp, rotated_exp, scaled, moved, rad]
  ring

theorem rest_sub (P : Par) (p c : ℂ) :
    p - (rotated (rad P.rest.clock) ⟨P.rest.mag * c.re, P.rest.mag * c.im⟩ + P.rest.shear) = p - c := by
  rw [rotated_exp, scaled]
  simp [Par.rest, rad]

theorem strut_moves (P : Par) (hm : 0 < P.mag) (s : Strut) (w : ℝ) (p : ℂ) :
    (strutCall P s w).clear (moved P.shear P.mag P.clock p) ↔ (strutCall P.rest s w).clear p := by
  simp only [Call.clear, strutCall, if_true, moved_sub, rest_sub]
  refine not_congr ?_
  simp only [Shape.has]
  have hadd : ∀ u, rotated (rad (s.angle + P.clock)) u = rotated (rad P.clock) (rotated (rad s.angle) u) := by
    intro u
    rw [rotated_exp, rotated_exp, rotated_exp, ← mul_assoc, ← Complex.exp_add]
    congr 2
    simp only [rad]
    push_cast
    ring
  have h0 : rad (s.angle + P.rest.clock) = rad s.angle := by simp [Par.rest]
  have hinj : ∀ a b : ℂ, rotated (rad P.clock) a = rotated (rad P.clock) b → a = b := by
    intro a b h
    rw [rotated_exp, rotated_exp] at h
    exact mul_left_cancel₀ (Complex.exp_ne_zero _) h
  have hsc : ∀ u : ℂ, rotated (rad s.angle) (P.mag * u) = P.mag * rotated (rad s.angle) u := by
    intro u; rw [rotated_exp, rotated_exp]; ring
  have hsc2 : ∀ u : ℂ, rotated (rad P.clock) (P.mag * u) = P.mag * rotated (rad P.clock) u := by
    intro u; rw [rotated_exp, rotated_exp]; ring
  have hmc : (P.mag : ℂ) ≠ 0 := by exact_mod_cast hm.ne'
  rw [h0]
  have hpad : P.rest.padStrut = P.padStrut := rfl
  have hmag : P.rest.mag = 1 := rfl
  rw [hpad, hmag]
  constructor
  · rintro ⟨u, h1, h2, h3⟩
    refine ⟨(P.mag : ℂ)⁻¹ * u, ?_, ?_, ?_⟩
    · rw [← Complex.ofReal_inv, Complex.re_ofReal_mul, abs_mul, abs_of_pos (inv_pos.2 hm)]
      rw [inv_mul_le_iff₀ hm]
      linarith
    · rw [← Complex.ofReal_inv, Complex.im_ofReal_mul, abs_mul, abs_of_pos (inv_pos.2 hm)]
      rw [inv_mul_le_iff₀ hm]
      linarith
    · rw [hadd] at h3
      have hu : u = P.mag * ((P.mag : ℂ)⁻¹ * u) := by field_simp
      rw [hu, hsc, hsc2] at h3
      exact hinj _ _ (mul_left_cancel₀ hmc h3)
  · rintro ⟨u, h1, h2, h3⟩
    refine ⟨P.mag * u, ?_, ?_, ?_⟩
    · rw [Complex.re_ofReal_mul, abs_mul, abs_of_pos hm]
      nlinarith
    · rw [Complex.im_ofReal_mul, abs_mul, abs_of_pos hm]
      nlinarith
    · rw [hadd, hsc, hsc2, h3]

theorem ell_moves (P : Par) (hm : 0 < P.mag) (dark : Bool) (xr yr : ℝ) (c p : ℂ) :
    (ellCall P dark xr yr c).clear (moved P.shear P.mag P.clock p) ↔
      (ellCall P.rest dark xr yr c).clear p := by
  simp only [Call.clear, ellCall, moved_sub, rest_sub]
  have h : (Shape.ell (P.mag * xr) (P.mag * yr) (-P.clock)).has (P.mag * rotated (rad P.clock) (p - c)) ↔
      (Shape.ell (P.rest.mag * xr) (P.rest.mag * yr) (-P.rest.clock)).has (p - c) := by
    simp only [Shape.has, Par.rest, Complex.re_ofReal_mul, Complex.im_ofReal_mul, rotated]
    have hr : rad (-P.clock) = -rad P.clock := by simp [rad]
    have h0 : rad (-0) = 0 := by simp [rad]
    rw [hr, h0, Real.cos_neg, Real.sin_neg, Real.cos_zero, Real.sin_zero]
    have hcs := Real.sin_sq_add_cos_sq (rad P.clock)
    generalize Real.cos (rad P.clock) = C at *
    generalize Real.sin (rad P.clock) = S at *
    have e1 : P.mag * (C * (p - c).re - S * (p - c).im) * C -
        P.mag * (S * (p - c).re + C * (p - c).im) * -S = P.mag * (p - c).re := by
      linear_combination (P.mag * (p - c).re) * hcs
    have e2 : P.mag * (C * (p - c).re - S * (p - c).im) * -S +
        P.mag * (S * (p - c).re + C * (p - c).im) * C = P.mag * (p - c).im := by
      linear_combination (P.mag * (p - c).im) * hcs
    rw [e1, e2, mul_div_mul_left _ _ hm.ne', mul_div_mul_left _ _ hm.ne']
    simp
  cases dark
  · simpa using h
  · simpa using not_congr h

theorem circ_moves (P : Par) (hm : 0 < P.mag) (dark : Bool) (r : ℝ) (c p : ℂ) :
    (circCall P dark r c).clear (moved P.shear P.mag P.clock p) ↔ (circCall P.rest dark r c).clear p := by
  simp only [Call.clear, circCall, moved_sub, rest_sub]
  have h : (Shape.ell (P.mag * r) (P.mag * r) 0).has (P.mag * rotated (rad P.clock) (p - c)) ↔
      (Shape.ell (P.rest.mag * r) (P.rest.mag * r) 0).has (p - c) := by
    simp only [Shape.has, Par.rest, Complex.re_ofReal_mul, Complex.im_ofReal_mul, rotated]
    have h0 : rad 0 = 0 := by simp [rad]
    rw [h0, Real.cos_zero, Real.sin_zero]
    have hcs := Real.sin_sq_add_cos_sq (rad P.clock)
    generalize Real.cos (rad P.clock) = C at *
    generalize Real.sin (rad P.clock) = S at *
    simp only [mul_one, mul_zero, sub_zero, zero_add, one_mul]
    rw [mul_div_mul_left _ _ hm.ne', mul_div_mul_left _ _ hm.ne']
    have e : ((C * (p - c).re - S * (p - c).im) / r) ^ 2 + ((S * (p - c).re + C * (p - c).im) / r) ^ 2 =
        ((p - c).re / r) ^ 2 + ((p - c).im / r) ^ 2 := by
      simp only [div_eq_mul_inv]
      linear_combination (((p - c).re * r⁻¹) ^ 2 + ((p - c).im * r⁻¹) ^ 2) * hcs
    rw [e]
  cases dark
  · simpa using h
  · simpa using not_congr h

theorem sector_moves (P : Par) (hm : 0 < P.mag) (t : Tab) (p : ℂ) (h12 : t.a1 ≤ t.a2)
    (hw : t.a2 - t.a1 < pi)
    (h1 : ∀ k : ℤ, t.a1 + P.clock * (pi / 180) ≠ pi * k)
    (h2 : ∀ k : ℤ, t.a2 + P.clock * (pi / 180) ≠ pi * k)
    (h1' : ∀ k : ℤ, t.a1 ≠ pi * k) (h2' : ∀ k : ℤ, t.a2 ≠ pi * k) (hp : p ≠ -t.centre) :
    inSector P t (moved P.shear P.mag P.clock p) ↔ inSector P.rest t p := by
  have hz : p + t.centre ≠ 0 := fun h => hp (eq_neg_of_add_eq_zero_left h)
  have e0 : (⟨p.re + P.rest.mag * (rotated (rad P.rest.clock) t.centre).re - P.rest.shear.re,
      p.im + P.rest.mag * (rotated (rad P.rest.clock) t.centre).im - P.rest.shear.im⟩ : ℂ) = p + t.centre := by
    rw [rotated_exp]
    apply Complex.ext <;> simp [Par.rest, rad]
  have e1 : (⟨(moved P.shear P.mag P.clock p).re + P.mag * (rotated (rad P.clock) t.centre).re - P.shear.re,
      (moved P.shear P.mag P.clock p).im + P.mag * (rotated (rad P.clock) t.centre).im - P.shear.im⟩ : ℂ) =
      P.mag * (Complex.exp ((rad P.clock : ℝ) * Complex.I) * (p + t.centre)) := by
    have e2 : (P.mag * (Complex.exp ((rad P.clock : ℝ) * Complex.I) * (p + t.centre)) : ℂ) =
        moved P.shear P.mag P.clock p + P.mag * rotated (rad P.clock) t.centre - P.shear := by
      rw [rotated_exp, moved, rad]; ring
    rw [e2]
    apply Complex.ext
    · simp only [Complex.sub_re, Complex.add_re, Complex.re_ofReal_mul]
    · simp only [Complex.sub_im, Complex.add_im, Complex.im_ofReal_mul]
  unfold inSector
  simp only
  rw [e0, e1, Complex.arg_real_mul _ hm]
  obtain ⟨j, hj⟩ : ∃ j : ℤ, Complex.arg (Complex.exp ((rad P.clock : ℝ) * Complex.I) * (p + t.centre)) =
      rad P.clock + Complex.arg (p + t.centre) + 2 * pi * j := by
    have ha : (Complex.arg (Complex.exp ((rad P.clock : ℝ) * Complex.I) * (p + t.centre)) : Real.Angle) =
        ((rad P.clock + Complex.arg (p + t.centre) : ℝ) : Real.Angle) := by
      rw [Complex.arg_mul_coe_angle (Complex.exp_ne_zero _) hz, Real.Angle.coe_add]
      congr 1
      rw [Complex.exp_mul_I, ← Complex.ofReal_cos, ← Complex.ofReal_sin]
      have := Complex.arg_cos_add_sin_mul_I_coe_angle (rad P.clock : Real.Angle)
      simpa using this
    obtain ⟨j, hj⟩ := Real.Angle.angle_eq_iff_two_pi_dvd_sub.1 ha
    exact ⟨j, by linarith⟩
  have hr0 : rad P.rest.clock = 0 := by simp [Par.rest, rad]
  rw [hr0, add_zero, add_zero]
  rw [C149_sector (t.a1 + rad P.clock) (t.a2 + rad P.clock) _ (by linarith) (by linarith)
      ⟨Complex.neg_pi_lt_arg _, Complex.arg_le_pi _⟩ h1 h2,
    C149_sector _ _ _ h12 hw ⟨Complex.neg_pi_lt_arg _, Complex.arg_le_pi _⟩ h1' h2']
  rw [hj]
  constructor
  · rintro ⟨k, k1, k2⟩
    exact ⟨k + j, by push_cast; linarith, by push_cast; linarith⟩
  · rintro ⟨k, k1, k2⟩
    exact ⟨k - j, by push_cast; linarith, by push_cast; linarith⟩

theorem struts_move (P : Par) (hm : 0 < P.mag) (p : ℂ) (ss : List Strut) :
    ∀ ws l, strutCalls P ss ws = .ok l → ∃ l0, strutCalls P.rest ss ws = .ok l0 ∧
      ((∀ c ∈ l, c.clear (moved P.shear P.mag P.clock p)) ↔ ∀ c ∈ l0, c.clear p) := by
  induction ss with
  | nil =>
    intro ws l h
    simp only [strutCalls, Except.ok.injEq] at h
    subst h
    exact ⟨[], rfl, by simp⟩
  | cons s ss ih =>
    intro ws l h
    cases ws with
    | nil => simp [strutCalls] at h
    | cons w ws =>
      simp only [strutCalls] at h ⊢
      cases hr : strutCalls P ss ws with
      | error e => rw [hr] at h; cases h
      | ok l' =>
        rw [hr] at h
        simp only [Except.map, Except.ok.injEq] at h
        subst h
        obtain ⟨l0, h0, hiff⟩ := ih ws l' hr
        refine ⟨strutCall P.rest s w :: l0, by rw [h0]; rfl, ?_⟩
        simp only [List.forall_mem_cons]
        rw [hiff, strut_moves P hm]

theorem mirrors_move (P : Par) (hm : 0 < P.mag) (p : ℂ) :
    (∀ c ∈ romanMirrors P, c.clear (moved P.shear P.mag P.clock p)) ↔
      ∀ c ∈ romanMirrors P.rest, c.clear p := by
  simp only [romanMirrors, List.forall_mem_cons]
  rw [ell_moves P hm, ell_moves P hm]
  simp [Par.rest]

theorem lyot_moves (P : Par) (hm : 0 < P.mag) (i o : ℝ) (p : ℂ) :
    (∀ c ∈ lyotCircles P i o, c.clear (moved P.shear P.mag P.clock p)) ↔
      ∀ c ∈ lyotCircles P.rest i o, c.clear p := by
  simp only [lyotCircles, List.forall_mem_cons]
  rw [circ_moves P hm, circ_moves P hm]
  simp

theorem not_multiple (a : ℝ) (h : (0 < a ∧ a < pi) ∨ (-pi < a ∧ a < 0)) : ∀ k : ℤ, a ≠ pi * k := by
  intro k hk
  have hpi := Real.pi_pos
  rcases h with ⟨h1, h2⟩ | ⟨h1, h2⟩
  · have k1 : (0 : ℝ) < k := by rw [hk] at h1; exact pos_of_mul_pos_right h1 hpi.le
    have k2 : (k : ℝ) < 1 := by rw [hk] at h2; nlinarith
    have k1' : 0 < k := by exact_mod_cast k1
    have k2' : k < 1 := by exact_mod_cast k2
    omega
  · have k1 : (-1 : ℝ) < k := by rw [hk] at h1; nlinarith
    have k2 : (k : ℝ) < 0 := by rw [hk] at h2; nlinarith
    have k1' : -1 < k := by exact_mod_cast k1
    have k2' : k < 0 := by exact_mod_cast k2
    omega

theorem romanTabs_ok : ∀ t ∈ romanTabs, t.a1 ≤ t.a2 ∧ t.a2 - t.a1 < pi ∧
    (∀ k : ℤ, t.a1 ≠ pi * k) ∧ (∀ k : ℤ, t.a2 ≠ pi * k) := by
  have h1 : (314 / 100 : ℝ) < pi := by have := Real.pi_gt_d2; norm_num at this ⊢; linarith
  have h2 : pi < (315 / 100 : ℝ) := by have := Real.pi_lt_d2; norm_num at this ⊢; linarith
  intro t ht
  simp only [romanTabs, List.mem_cons, List.not_mem_nil, or_false] at ht
  have hd : deltaAngle / 2 = 5 / 64 * pi := by rw [deltaAngle]; norm_num; ring
  rcases ht with rfl | rfl | rfl
  · simp only [hd]
    norm_num only
    refine ⟨by linarith, by linarith, not_multiple _ (Or.inl ⟨by linarith, by linarith⟩),
      not_multiple _ (Or.inl ⟨by linarith, by linarith⟩)⟩
  · simp only [hd]
    norm_num only
    refine ⟨by linarith, by linarith, not_multiple _ (Or.inl ⟨by linarith, by linarith⟩),
      not_multiple _ (Or.inl ⟨by linarith, by linarith⟩)⟩
  · simp only [hd]
    norm_num only
    refine ⟨by linarith, by linarith, not_multiple _ (Or.inr ⟨by linarith, by linarith⟩),
      not_multiple _ (Or.inr ⟨by linarith, by linarith⟩)⟩

/-- The numbers that the function works with, for given changes. -/
noncomputable abbrev romanPar (c : Changes) : Par := Par.ofChanges c (widths c romanWidths)

theorem romanPar_rest (c : Changes) : romanPar c.atRest = (romanPar c).rest := rfl

/-- The pupil of 2020 moves as one body. For all changes with a positive magnification, and every
clocking that brings no angle of a tab to a multiple of `π` (in the Lyot stop mode: every clocking):
a point is clear in the pupil at rest exactly if the point where the changes move it is clear in the
changed pupil (the vertices of the three sectors, which are inside the secondary mirror, are left
out). -/
theorem C149_rigid (c : Changes) (hm : 0 < c.magFac.getD 1) (d : Drawing)
    (hd : romanDrawing c = .ok d) (p : ℂ)
    (hang : c.flagLyot.getD false = false → ∀ t ∈ romanTabs, ∀ k : ℤ,
      t.a1 + c.clockDeg.getD 0 * (pi / 180) ≠ pi * k ∧ t.a2 + c.clockDeg.getD 0 * (pi / 180) ≠ pi * k)
    (hp : ∀ t ∈ romanTabs, p ≠ -t.centre) :
    ∃ d0, romanDrawing c.atRest = .ok d0 ∧
      (d.open (romanPar c)
          (moved ⟨c.xShear.getD 0, c.yShear.getD 0⟩ (c.magFac.getD 1) (c.clockDeg.getD 0) p) ↔
        d0.open (romanPar c.atRest) p) := by
  have hm' : 0 < (romanPar c).mag := hm
  have hmv : moved ⟨c.xShear.getD 0, c.yShear.getD 0⟩ (c.magFac.getD 1) (c.clockDeg.getD 0) p =
      moved (romanPar c).shear (romanPar c).mag (romanPar c).clock p := rfl
  rw [hmv]
  have hl : lyotOf c.atRest = lyotOf c := rfl
  unfold romanDrawing at hd ⊢
  rw [hl]
  cases hly : lyotOf c with
  | error e => rw [hly] at hd; cases hd
  | ok l =>
    rw [hly] at hd
    simp only [Except.bind] at hd ⊢
    cases hs : strutCalls (romanPar c) romanStruts (romanPar c).width with
    | error e => rw [hs] at hd; cases hd
    | ok ss =>
      obtain ⟨l0, h0, hiff⟩ := struts_move (romanPar c) hm' p romanStruts _ ss hs
      rw [hs] at hd
      have h0' : strutCalls (romanPar c.atRest) romanStruts (romanPar c.atRest).width = .ok l0 := h0
      rw [h0']
      simp only [Except.map, Except.ok.injEq] at hd ⊢
      refine ⟨_, rfl, ?_⟩
      cases l with
      | none =>
        have hfl : c.flagLyot.getD false = false := by
          unfold lyotOf at hly
          cases hb : c.flagLyot.getD false with
          | false => rfl
          | true =>
            rw [hb, if_pos rfl] at hly
            cases hi : c.ID with
            | none => rw [hi] at hly; cases hly
            | some i =>
              cases ho : c.OD with
              | none => rw [hi, ho] at hly; cases hly
              | some o => rw [hi, ho] at hly; cases hly
        subst hd
        simp only [Drawing.open, List.forall_mem_append]
        refine and_congr (and_congr hiff (mirrors_move (romanPar c) hm' p)) ?_
        refine forall_congr' fun t => forall_congr' fun ht => not_congr ?_
        obtain ⟨o1, o2, o3, o4⟩ := romanTabs_ok t ht
        rw [sector_moves _ hm' t p o1 o2 (fun k => (hang hfl t ht k).1) (fun k => (hang hfl t ht k).2)
          o3 o4 (hp t ht)]
        rw [tabCall, ell_moves _ hm']
        rfl
      | some io =>
        obtain ⟨i, o⟩ := io
        subst hd
        simp only [Drawing.open, List.forall_mem_append]
        exact and_congr (and_congr hiff (lyot_moves (romanPar c) hm' i o p)) (by simp)

/-! ## Values, place and size of the image -/

theorem prod_unit {A : Type} (l : List A) (f : A → ℝ) (h : ∀ a ∈ l, 0 ≤ f a ∧ f a ≤ 1) :
    0 ≤ (l.map f).prod ∧ (l.map f).prod ≤ 1 := by
  induction l with
  | nil => simp
  | cons a l ih =>
    obtain ⟨h1, h2⟩ := h a (by simp)
    obtain ⟨h3, h4⟩ := ih (fun b hb => h b (by simp [hb]))
    simp only [List.map_cons, List.prod_cons]
    exact ⟨mul_nonneg h1 h3, mul_le_one₀ h2 h3 h4⟩

/-- Every pixel of the pupil is between 0 and 1, if the images of the shapes are. -/
theorem C149_range (draw : Shape → Bool → ℂ → ℝ) (hdraw : ∀ s b z, 0 ≤ draw s b z ∧ draw s b z ≤ 1)
    (ce : Centering) (nbeam : ℝ) (N : ℤ) (P : Par) (d : Drawing) (i j : ℤ) :
    0 ≤ image draw ce nbeam N P d i j ∧ image draw ce nbeam N P d i j ≤ 1 := by
  have key : ∀ i j : ℤ,
      let cs := cshift ce P.rot180 nbeam
      0 ≤ (d.tabs.map (tabFactor draw P cs (place N nbeam i j) (gridAt ce N nbeam i j))).prod *
        |(d.calls.map (factor draw cs (place N nbeam i j))).prod| ∧
      (d.tabs.map (tabFactor draw P cs (place N nbeam i j) (gridAt ce N nbeam i j))).prod *
        |(d.calls.map (factor draw cs (place N nbeam i j))).prod| ≤ 1 := by
    intro i j
    obtain ⟨h1, h2⟩ := prod_unit d.tabs
      (tabFactor draw P (cshift ce P.rot180 nbeam) (place N nbeam i j) (gridAt ce N nbeam i j)) (by
        intro t _
        obtain ⟨f1, f2⟩ := hdraw (tabCall P t).shape (tabCall P t).dark
          (place N nbeam i j - ((tabCall P t).centre + cshift ce P.rot180 nbeam))
        unfold tabFactor factor
        split_ifs
        · constructor <;> linarith
        · norm_num)
    obtain ⟨h3, h4⟩ := prod_unit d.calls
      (factor draw (cshift ce P.rot180 nbeam) (place N nbeam i j)) (fun c _ => hdraw _ _ _)
    simp only
    rw [abs_of_nonneg h3]
    exact ⟨mul_nonneg h1 h3, mul_le_one₀ h2 h3 h4⟩
  unfold image
  simp only
  split_ifs
  · exact key _ _
  · exact key _ _

/-- A pixel of value 1 or 0 where all the shapes agree: where the image of each shape is 1 or 0
according to whether the shape leaves the pixel's place clear, the pupil is 1 at a pixel that the
shapes leave clear and 0 at another. -/
theorem C149_image_of_open (draw : Shape → Bool → ℂ → ℝ) (ce : Centering) (nbeam : ℝ) (hn : 0 < nbeam)
    (N : ℤ) (P : Par) (hrot : P.rot180 = false) (d : Drawing) (i j : ℤ)
    (hcall : ∀ c : Call, (c ∈ d.calls ∨ ∃ t ∈ d.tabs, c = tabCall P t) →
      (c.clear (gridAt ce N nbeam i j) → draw c.shape c.dark (gridAt ce N nbeam i j - c.centre) = 1) ∧
      (¬ c.clear (gridAt ce N nbeam i j) → draw c.shape c.dark (gridAt ce N nbeam i j - c.centre) = 0)) :
    (d.open P (gridAt ce N nbeam i j) → image draw ce nbeam N P d i j = 1) ∧
    (¬ d.open P (gridAt ce N nbeam i j) → image draw ce nbeam N P d i j = 0) := by
  have hg : ∀ c : ℂ, place N nbeam i j - (c + cshift ce P.rot180 nbeam) = gridAt ce N nbeam i j - c := by
    intro c
    have : place N nbeam i j - cshift ce P.rot180 nbeam = gridAt ce N nbeam i j := by
      rw [hrot]
      cases ce <;> apply Complex.ext <;> simp [place, cshift, gridAt] <;> field_simp <;> ring
    rw [← this]; ring
  have hf : ∀ c, factor draw (cshift ce P.rot180 nbeam) (place N nbeam i j) c =
      draw c.shape c.dark (gridAt ce N nbeam i j - c.centre) := by
    intro c; rw [factor, hg]
  have hone : ∀ {A : Type} (l : List A) (f : A → ℝ), (∀ a ∈ l, f a = 1) → (l.map f).prod = 1 := by
    intro A l f h
    induction l with
    | nil => rfl
    | cons a l ih =>
      rw [List.map_cons, List.prod_cons, h a (by simp), ih (fun b hb => h b (by simp [hb])), one_mul]
  have hzero : ∀ {A : Type} (l : List A) (f : A → ℝ), (∃ a ∈ l, f a = 0) → (l.map f).prod = 0 := by
    rintro A l f ⟨a, ha, h⟩
    exact List.prod_eq_zero (List.mem_map.2 ⟨a, ha, h⟩)
  unfold image
  simp only [hrot, Bool.false_eq_true, if_false]
  rw [hrot] at hf
  constructor
  · rintro ⟨h1, h2⟩
    rw [hone d.calls _ (fun c hc => (hf c).trans ((hcall c (Or.inl hc)).1 (h1 c hc))), abs_one, mul_one]
    refine hone _ _ ?_
    intro t ht
    unfold tabFactor
    rw [hf]
    by_cases hs : inSector P t (gridAt ce N nbeam i j)
    · have hcl : (tabCall P t).clear (gridAt ce N nbeam i j) := by
        by_contra hc
        exact h2 t ht ⟨hs, hc⟩
      rw [(hcall _ (Or.inr ⟨t, ht, rfl⟩)).1 hcl]
      ring
    · rw [if_neg hs]; ring
  · intro h
    unfold Drawing.open at h
    rw [not_and_or] at h
    rcases h with h | h
    · push Not at h
      obtain ⟨c, hc, hcl⟩ := h
      rw [hzero d.calls _ ⟨c, hc, (hf c).trans ((hcall c (Or.inl hc)).2 hcl)⟩]
      simp
    · push Not at h
      obtain ⟨t, ht, hs, hcl⟩ := h
      rw [hzero d.tabs _ ⟨t, ht, ?_⟩]
      · simp
      · unfold tabFactor
        rw [hf, if_pos hs, (hcall _ (Or.inr ⟨t, ht, rfl⟩)).2 hcl]
        ring

/-- The turned pupil, with the centre between pixels: the same image turned by 180 degrees about the
centre of the beam. -/
theorem C149_rot180_interpixel (draw : Shape → Bool → ℂ → ℝ) (nbeam : ℝ) (hn : 0 < nbeam) (N : ℤ) (P : Par)
    (hP : P.rot180 = false) (d : Drawing) (i j i' j' : ℤ)
    (hij : gridAt .interpixel N nbeam i' j' = - gridAt .interpixel N nbeam i j) :
    image draw .interpixel nbeam N { P with rot180 := true } d i j =
      image draw .interpixel nbeam N P d i' j' := by
  have h1 := congrArg Complex.re hij
  have h2 := congrArg Complex.im hij
  simp only [gridAt, Complex.neg_re, Complex.neg_im] at h1 h2
  have hj : (j' : ℝ) = N - 1 - j := by field_simp at h1; linarith
  have hi : (i' : ℝ) = N - 1 - i := by field_simp at h2; linarith
  have hj' : j' = N - 1 - j := by exact_mod_cast hj
  have hi' : i' = N - 1 - i := by exact_mod_cast hi
  subst hj' hi'
  simp only [image, hP, if_true, Bool.false_eq_true, if_false]
  rfl

/-- The turned pupil, with the centre on a pixel: the mirrors and the struts are turned by 180
degrees about the centre of the beam (in the Lyot stop mode this is all). -/
theorem C149_rot180_pixel_lyot (draw : Shape → Bool → ℂ → ℝ) (nbeam : ℝ) (hn : 0 < nbeam) (N : ℤ) (P : Par)
    (hP : P.rot180 = false) (calls : List Call) (i j i' j' : ℤ)
    (hij : gridAt .pixel N nbeam i' j' = - gridAt .pixel N nbeam i j) :
    image draw .pixel nbeam N { P with rot180 := true } ⟨calls, []⟩ i j =
      image draw .pixel nbeam N P ⟨calls, []⟩ i' j' := by
  have h1 := congrArg Complex.re hij
  have h2 := congrArg Complex.im hij
  simp only [gridAt, Complex.neg_re, Complex.neg_im] at h1 h2
  have hj : (j' : ℝ) = N - j := by field_simp at h1; linarith
  have hi : (i' : ℝ) = N - i := by field_simp at h2; linarith
  simp only [image, hP, if_true, Bool.false_eq_true, if_false, List.map_nil, List.prod_nil, one_mul]
  congr 2
  refine List.map_congr_left ?_
  intro c _
  unfold factor
  congr 1
  have : place N nbeam (N - 1 - i) (N - 1 - j) - cshift .pixel true nbeam =
      place N nbeam i' j' - cshift .pixel false nbeam := by
    apply Complex.ext <;> simp [place, cshift, hj, hi] <;> field_simp <;> ring
  linear_combination this

/-- Violated: with the centre on a pixel the sectors of the tabs do not take part. A pixel of the
turned pupil takes the mirrors, the struts and the ellipses of the tabs from the opposite pixel
`(N - i, N - j)`, and the sectors of the tabs from the pixel one row and one column before it. -/
theorem C149_violated_rot180_pixel (draw : Shape → Bool → ℂ → ℝ) (nbeam : ℝ) (hn : 0 < nbeam) (N : ℤ)
    (P : Par) (hP : P.rot180 = false) (d : Drawing) (i j : ℤ) :
    image draw .pixel nbeam N { P with rot180 := true } d i j =
      (d.tabs.map (tabFactor draw P 0 (place N nbeam (N - i) (N - j))
        (gridAt .pixel N nbeam (N - i - 1) (N - j - 1)))).prod *
        |(d.calls.map (factor draw 0 (place N nbeam (N - i) (N - j)))).prod| ∧
    image draw .pixel nbeam N P d (N - i) (N - j) =
      (d.tabs.map (tabFactor draw P 0 (place N nbeam (N - i) (N - j))
        (gridAt .pixel N nbeam (N - i) (N - j)))).prod *
        |(d.calls.map (factor draw 0 (place N nbeam (N - i) (N - j)))).prod| := by
  have hfac : ∀ c : Call, factor draw (cshift .pixel true nbeam) (place N nbeam (N - 1 - i) (N - 1 - j)) c =
      factor draw 0 (place N nbeam (N - i) (N - j)) c := by
    intro c
    unfold factor
    congr 1
    have : place N nbeam (N - 1 - i) (N - 1 - j) - cshift .pixel true nbeam =
        place N nbeam (N - i) (N - j) := by
      apply Complex.ext <;> simp [place, cshift] <;> field_simp <;> ring
    linear_combination this
  constructor
  · simp only [image, if_true]
    congr 1
    · congr 1
      refine List.map_congr_left ?_
      intro t _
      unfold tabFactor
      rw [show tabCall { P with rot180 := true } t = tabCall P t from rfl, hfac]
      rw [show (N - 1 - i : ℤ) = N - i - 1 by ring, show (N - 1 - j : ℤ) = N - j - 1 by ring]
      rfl
    · congr 2
      exact List.map_congr_left (fun c _ => hfac c)
  · simp only [image, hP, Bool.false_eq_true, if_false]
    rfl

/-- The same parameters with another shear. -/
def Par.withShear (P : Par) (z : ℂ) : Par := { P with shear := z }

theorem strutCalls_shear (P : Par) (z : ℂ) (ss : List Strut) : ∀ ws,
    strutCalls (P.withShear (P.shear + z)) ss ws =
      (strutCalls P ss ws).map fun l => l.map fun c => { c with centre := c.centre + z } := by
  induction ss with
  | nil => intro ws; rfl
  | cons s ss ih =>
    intro ws
    cases ws with
    | nil => rfl
    | cons w ws =>
      simp only [strutCalls]
      rw [ih]
      cases strutCalls P ss ws with
      | error e => rfl
      | ok l =>
        simp only [Except.map, List.map_cons, Except.ok.injEq, List.cons.injEq, and_true]
        simp only [strutCall, Par.withShear]
        congr 1
        ring

/-- A shear moves the image. Adding `(dx, dy)` to the shear changes the pupil only in that the value
at a pixel is found at the pixel `(dx, dy)` further, in whatever array that pixel lies; every value,
not only those of the shape. -/
theorem C149_shear (draw : Shape → Bool → ℂ → ℝ) (ce : Centering) (nbeam : ℝ) (hn : 0 < nbeam)
    (c : Changes) (hrot : c.flagRot180.getD false = false) (dx dy : ℝ) (d : Drawing)
    (hd : romanDrawing c = .ok d) :
    let c' : Changes := { c with xShear := some (c.xShear.getD 0 + dx), yShear := some (c.yShear.getD 0 + dy) }
    ∃ d', romanDrawing c' = .ok d' ∧ ∀ (N N' i j i' j' : ℤ),
      (gridAt ce N' nbeam i' j' = gridAt ce N nbeam i j + ⟨dx, dy⟩) →
      image draw ce nbeam N' (romanPar c') d' i' j' = image draw ce nbeam N (romanPar c) d i j := by
  intro c'
  have hP' : romanPar c' = (romanPar c).withShear ((romanPar c).shear + ⟨dx, dy⟩) := by
    simp only [c', romanPar, Par.ofChanges, widths, Par.withShear, Option.getD_some]
    congr 1
  have hl : lyotOf c' = lyotOf c := rfl
  have hplace : ∀ (N : ℤ) (i j : ℤ), place N nbeam i j - cshift ce false nbeam = gridAt ce N nbeam i j := by
    intro N i j
    cases ce <;> apply Complex.ext <;> simp [place, cshift, gridAt] <;> field_simp <;> ring
  have hcalls : ∃ d', romanDrawing c' = .ok d' ∧ d'.calls = d.calls.map (fun c => { c with centre := c.centre + ⟨dx, dy⟩ }) ∧
      d'.tabs = d.tabs := by
    unfold romanDrawing at hd ⊢
    rw [hl]
    cases hly : lyotOf c with
    | error e => rw [hly] at hd; cases hd
    | ok l =>
      rw [hly] at hd
      simp only [Except.bind] at hd ⊢
      cases hs : strutCalls (romanPar c) romanStruts (romanPar c).width with
      | error e => rw [hs] at hd; cases hd
      | ok ss =>
        have hs' : strutCalls (romanPar c') romanStruts (romanPar c').width =
            .ok (ss.map fun c => { c with centre := c.centre + ⟨dx, dy⟩ }) := by
          rw [hP', strutCalls_shear]
          have : ((romanPar c).withShear ((romanPar c).shear + ⟨dx, dy⟩)).width = (romanPar c).width := rfl
          rw [this, hs]
          rfl
        rw [hs'] 
        rw [hs] at hd
        simp only [Except.map, Except.ok.injEq] at hd ⊢
        refine ⟨_, rfl, ?_⟩
        subst hd
        have hmir : romanMirrors (romanPar c') = (romanMirrors (romanPar c)).map
            (fun c => { c with centre := c.centre + ⟨dx, dy⟩ }) := by
          rw [hP']
          simp only [romanMirrors, ellCall, Par.withShear, List.map_cons, List.map_nil, List.cons.injEq,
            and_true]
          refine ⟨?_, ?_⟩ <;> (congr 1; ring)
        have hlyc : ∀ i o, lyotCircles (romanPar c') i o = (lyotCircles (romanPar c) i o).map
            (fun c => { c with centre := c.centre + ⟨dx, dy⟩ }) := by
          intro i o
          rw [hP']
          simp only [lyotCircles, circCall, Par.withShear, List.map_cons, List.map_nil, List.cons.injEq,
            and_true]
          refine ⟨?_, ?_⟩ <;> (congr 1; ring)
        cases l with
        | none => simp only [List.map_append]; exact ⟨by rw [← hmir], trivial⟩
        | some io =>
          obtain ⟨i, o⟩ := io
          simp only [List.map_append]
          exact ⟨by rw [← hlyc], trivial⟩
  obtain ⟨d', hd', hc', ht'⟩ := hcalls
  refine ⟨d', hd', ?_⟩
  intro N N' i j i' j' hij
  have hr : (romanPar c).rot180 = false := hrot
  have hr' : (romanPar c').rot180 = false := hrot
  simp only [image, hr, hr', Bool.false_eq_true, if_false]
  have hpp : place N' nbeam i' j' = place N nbeam i j + ⟨dx, dy⟩ := by
    have e1 := hplace N' i' j'
    have e2 := hplace N i j
    rw [hij] at e1
    linear_combination e1 - e2
  rw [ht', hc']
  congr 1
  · congr 1
    refine List.map_congr_left ?_
    intro t _
    have hsec : inSector (romanPar c') t (gridAt ce N' nbeam i' j') ↔
        inSector (romanPar c) t (gridAt ce N nbeam i j) := by
      rw [hP', hij]
      unfold inSector
      simp only [Par.withShear, Complex.add_re, Complex.add_im]
      have a1 : (gridAt ce N nbeam i j).re + dx +
          (romanPar c).mag * (rotated (rad (romanPar c).clock) t.centre).re - ((romanPar c).shear.re + dx) =
          (gridAt ce N nbeam i j).re + (romanPar c).mag * (rotated (rad (romanPar c).clock) t.centre).re -
            (romanPar c).shear.re := by ring
      have a2 : (gridAt ce N nbeam i j).im + dy +
          (romanPar c).mag * (rotated (rad (romanPar c).clock) t.centre).im - ((romanPar c).shear.im + dy) =
          (gridAt ce N nbeam i j).im + (romanPar c).mag * (rotated (rad (romanPar c).clock) t.centre).im -
            (romanPar c).shear.im := by ring
      rw [a1, a2]
    have hfac : factor draw (cshift ce false nbeam) (place N' nbeam i' j') (tabCall (romanPar c') t) =
        factor draw (cshift ce false nbeam) (place N nbeam i j) (tabCall (romanPar c) t) := by
      rw [hP', hpp]
      simp only [factor, tabCall, ellCall, Par.withShear]
      congr 1
      ring
    unfold tabFactor
    rw [hfac]
    by_cases h : inSector (romanPar c) t (gridAt ce N nbeam i j)
    · rw [if_pos (hsec.2 h), if_pos h]
    · rw [if_neg (fun h' => h (hsec.1 h')), if_neg h]
  · congr 2
    rw [List.map_map]
    refine List.map_congr_left ?_
    intro cl _
    simp only [Function.comp, factor, hpp]
    congr 1
    ring

/-! ## The array holds the pupil -/

/-- For the proof of `C149_fits`: one pixel more with the centre on a pixel. -/
def extra : Centering → ℝ
  | .pixel => 1
  | .interpixel => 0

theorem in_cell (N : ℤ) (hN : 1 ≤ N) (y : ℝ) (h0 : 0 ≤ y) (h1 : y ≤ N) :
    ∃ j : ℤ, 0 ≤ j ∧ j < N ∧ (j : ℝ) ≤ y ∧ y ≤ j + 1 := by
  rcases lt_or_ge y N with h | h
  · refine ⟨⌊y⌋, Int.floor_nonneg.2 h0, ?_, Int.floor_le y, (Int.lt_floor_add_one y).le⟩
    exact Int.floor_lt.2 h
  · refine ⟨N - 1, by omega, by omega, ?_, ?_⟩ <;> push_cast <;> linarith

theorem primary_bound (P : Par) (hm : 0 < P.mag) (h0 : 0 ≤ P.padOd) (h1 : P.padOd < 49 / 100) (p : ℂ)
    (h : (ellCall P false (3990 / od - P.padOd) (4027.25 / od - P.padOd) 0).clear p) :
    |p.re - P.shear.re| ≤ P.mag / 2 ∧ |p.im - P.shear.im| ≤ P.mag / 2 := by
  have hc0 : rotated (rad P.clock) ⟨P.mag * (0 : ℂ).re, P.mag * (0 : ℂ).im⟩ = 0 := by
    rw [rotated_exp, scaled]; simp
  simp only [Call.clear, ellCall, Bool.false_eq_true, if_false, Shape.has, hc0, zero_add] at h
  obtain ⟨x, hx⟩ : ∃ x, x = (p - P.shear).re := ⟨_, rfl⟩
  obtain ⟨y, hy⟩ : ∃ y, y = (p - P.shear).im := ⟨_, rfl⟩
  rw [← hx, ← hy] at h
  have hcs := Real.sin_sq_add_cos_sq (rad (-P.clock))
  generalize Real.cos (rad (-P.clock)) = C at *
  generalize Real.sin (rad (-P.clock)) = S at *
  have ha : 0 < 3990 / od - P.padOd ∧ 3990 / od - P.padOd ≤ 1 / 2 := by
    have : (3990 / od : ℝ) = 3990 / 8054.5 := by norm_num [od]
    rw [this]
    constructor <;> norm_num <;> linarith
  have hb : 0 < 4027.25 / od - P.padOd ∧ 4027.25 / od - P.padOd ≤ 1 / 2 := by
    have : (4027.25 / od : ℝ) = 1 / 2 := by norm_num [od]
    rw [this]
    constructor <;> linarith
  generalize 3990 / od - P.padOd = a at *
  generalize 4027.25 / od - P.padOd = b at *
  have hA : 0 < P.mag * a := mul_pos hm ha.1
  have hB : 0 < P.mag * b := mul_pos hm hb.1
  have hA' : P.mag * a ≤ P.mag / 2 := by nlinarith [ha.2]
  have hB' : P.mag * b ≤ P.mag / 2 := by nlinarith [hb.2]
  have e1 : (x * C - y * S) ^ 2 / (P.mag / 2) ^ 2 ≤ ((x * C - y * S) / (P.mag * a)) ^ 2 := by
    rw [div_pow _ (P.mag * a)]
    exact div_le_div_of_nonneg_left (sq_nonneg _) (pow_pos hA 2) (pow_le_pow_left₀ hA.le hA' 2)
  have e2 : (x * S + y * C) ^ 2 / (P.mag / 2) ^ 2 ≤ ((x * S + y * C) / (P.mag * b)) ^ 2 := by
    rw [div_pow _ (P.mag * b)]
    exact div_le_div_of_nonneg_left (sq_nonneg _) (pow_pos hB 2) (pow_le_pow_left₀ hB.le hB' 2)
  have e3 : (x ^ 2 + y ^ 2) / (P.mag / 2) ^ 2 ≤ 1 := by
    have : x ^ 2 + y ^ 2 = (x * C - y * S) ^ 2 + (x * S + y * C) ^ 2 := by
      linear_combination -(x ^ 2 + y ^ 2) * hcs
    rw [this, add_div]
    linarith
  rw [div_le_one (by positivity)] at e3
  have hx' : p.re - P.shear.re = x := by rw [hx]; simp
  have hy' : p.im - P.shear.im = y := by rw [hy]; simp
  rw [hx', hy']
  constructor
  · exact abs_le_of_sq_le_sq (by nlinarith [sq_nonneg y]) (by linarith)
  · exact abs_le_of_sq_le_sq (by nlinarith [sq_nonneg x]) (by linarith)

/-- The array holds the whole pupil: outside the Lyot stop mode, for every sampling, shear,
magnification, clocking and padding of the outer edge up to 0.49, every clear point lies in a pixel
of the array (within half a pixel of its centre, for the array before it is turned). -/
theorem C149_fits (ce : Centering) (nbeam : ℝ) (hn : 0 < nbeam) (c : Changes) (hm : 0 < c.magFac.getD 1)
    (h0 : 0 ≤ c.padOd.getD 0 + c.padAll.getD 0) (h1 : c.padOd.getD 0 + c.padAll.getD 0 < 49 / 100)
    (hl : c.flagLyot.getD false = false) (d : Drawing) (hd : romanDrawing c = .ok d) (p : ℂ)
    (hp : d.open (romanPar c) p) :
    ∃ i j : ℤ, 0 ≤ i ∧ i < romanSize ce nbeam (romanPar c) ∧ 0 ≤ j ∧ j < romanSize ce nbeam (romanPar c) ∧
      |p.re - (gridAt ce (romanSize ce nbeam (romanPar c)) nbeam i j).re| ≤ 1 / nbeam / 2 ∧
      |p.im - (gridAt ce (romanSize ce nbeam (romanPar c)) nbeam i j).im| ≤ 1 / nbeam / 2 := by
  have hcl : (ellCall (romanPar c) false (3990 / od - (romanPar c).padOd) (4027.25 / od - (romanPar c).padOd) 0).clear p := by
    unfold romanDrawing lyotOf at hd
    rw [hl] at hd
    simp only [Bool.false_eq_true, if_false, Except.bind] at hd
    cases hs : strutCalls (romanPar c) romanStruts (romanPar c).width with
    | error e => rw [hs] at hd; cases hd
    | ok ss =>
      rw [hs] at hd
      simp only [Except.map, Except.ok.injEq] at hd
      subst hd
      refine hp.1 _ ?_
      simp [romanMirrors]
  obtain ⟨b1, b2⟩ := primary_bound (romanPar c) hm h0 h1 p hcl
  obtain ⟨N, hN⟩ : ∃ N, N = romanSize ce nbeam (romanPar c) := ⟨_, rfl⟩
  rw [← hN]
  -- half the array, in beam diameters
  have hsz : nbeam * max (2 * |(romanPar c).shear.re|) (2 * |(romanPar c).shear.im|) +
      nbeam * max (romanPar c).mag 1 + extra ce ≤ N := by
    rw [hN]
    have hceil : ∀ x : ℝ, x ≤ (ceilEven x : ℤ) := by
      intro x
      have := Int.le_ceil ((0.5 : ℝ) * x)
      unfold ceilEven
      push_cast
      norm_num at this ⊢
      linarith
    cases ce with
    | pixel => exact hceil _
    | interpixel =>
      show _ + (0 : ℝ) ≤ _
      rw [add_zero]
      exact hceil _
  have hmx : |p.re| * (2 * nbeam) ≤ nbeam * max (2 * |(romanPar c).shear.re|) (2 * |(romanPar c).shear.im|) +
      nbeam * max (romanPar c).mag 1 := by
    have t1 : |p.re| ≤ |(romanPar c).shear.re| + (romanPar c).mag / 2 := by
      have := abs_sub_abs_le_abs_sub p.re (romanPar c).shear.re
      linarith
    have t2 := le_max_left (2 * |(romanPar c).shear.re|) (2 * |(romanPar c).shear.im|)
    have t3 := le_max_left (romanPar c).mag 1
    nlinarith
  have hmy : |p.im| * (2 * nbeam) ≤ nbeam * max (2 * |(romanPar c).shear.re|) (2 * |(romanPar c).shear.im|) +
      nbeam * max (romanPar c).mag 1 := by
    have t1 : |p.im| ≤ |(romanPar c).shear.im| + (romanPar c).mag / 2 := by
      have := abs_sub_abs_le_abs_sub p.im (romanPar c).shear.im
      linarith
    have t2 := le_max_right (2 * |(romanPar c).shear.re|) (2 * |(romanPar c).shear.im|)
    have t3 := le_max_left (romanPar c).mag 1
    nlinarith
  have hpos : 0 < (N : ℝ) := by
    have t3 := le_max_right (romanPar c).mag 1
    have t4 : 0 ≤ max (2 * |(romanPar c).shear.re|) (2 * |(romanPar c).shear.im|) :=
      le_trans (by positivity) (le_max_left _ _)
    have t5 : 0 ≤ nbeam * max (2 * |(romanPar c).shear.re|) (2 * |(romanPar c).shear.im|) := by positivity
    have t6 : 0 < nbeam * max (romanPar c).mag 1 := by positivity
    cases ce <;> simp only [extra] at hsz <;> linarith
  have hN1 : 1 ≤ N := by exact_mod_cast (by exact_mod_cast hpos : 0 < N)
  have cell : ∀ x : ℝ, |x| * (2 * nbeam) + extra ce ≤ N →
      ∃ j : ℤ, 0 ≤ j ∧ j < N ∧ ∀ i : ℤ, |x - (gridAt ce N nbeam i j).re| ≤ 1 / nbeam / 2 ∧
        |x - (gridAt ce N nbeam j i).im| ≤ 1 / nbeam / 2 := by
    intro x hx
    have ab := abs_le.1 (le_refl |x|)
    cases ce with
    | pixel =>
      simp only [extra] at hx
      obtain ⟨j, j0, j1, j2, j3⟩ := in_cell N hN1 (x * nbeam + N / 2 + 1 / 2)
        (by nlinarith [ab.1]) (by nlinarith [ab.2])
      refine ⟨j, j0, j1, fun i => ?_⟩
      have hb : |x - (-((N : ℝ) / 2) + j) / nbeam| ≤ 1 / nbeam / 2 := by
        rw [abs_le]
        have e : x - (-((N : ℝ) / 2) + j) / nbeam = (x * nbeam + N / 2 - j) / nbeam := by field_simp; ring
        rw [e, div_div, ← neg_div, div_le_div_iff₀ (by positivity) hn, div_le_div_iff₀ hn (by positivity)]
        constructor <;> nlinarith
      exact ⟨hb, hb⟩
    | interpixel =>
      simp only [extra] at hx
      obtain ⟨j, j0, j1, j2, j3⟩ := in_cell N hN1 (x * nbeam + N / 2)
        (by nlinarith [ab.1]) (by nlinarith [ab.2])
      refine ⟨j, j0, j1, fun i => ?_⟩
      have hb : |x - (-((N : ℝ) - 1) / 2 + j) / nbeam| ≤ 1 / nbeam / 2 := by
        rw [abs_le]
        have e : x - (-((N : ℝ) - 1) / 2 + j) / nbeam = (x * nbeam + N / 2 - 1 / 2 - j) / nbeam := by
          field_simp; ring
        rw [e, div_div, ← neg_div, div_le_div_iff₀ (by positivity) hn, div_le_div_iff₀ hn (by positivity)]
        constructor <;> nlinarith
      exact ⟨hb, hb⟩
  obtain ⟨j, j0, j1, j2⟩ := cell p.re (by linarith)
  obtain ⟨i, i0, i1, i2⟩ := cell p.im (by linarith)
  exact ⟨i, j, i0, i1, j0, j1, (j2 i).1, (i2 j).2⟩

/-! ## Paddings only block -/

theorem ell_grows (a a' b b' r : ℝ) (ha : 0 < a) (hb : 0 < b) (haa : a ≤ a') (hbb : b ≤ b') (z : ℂ)
    (h : (Shape.ell a b r).has z) : (Shape.ell a' b' r).has z := by
  simp only [Shape.has] at h ⊢
  refine le_trans (add_le_add ?_ ?_) h
  · rw [div_pow, div_pow]
    exact div_le_div_of_nonneg_left (sq_nonneg _) (pow_pos ha 2) (pow_le_pow_left₀ ha.le haa 2)
  · rw [div_pow, div_pow]
    exact div_le_div_of_nonneg_left (sq_nonneg _) (pow_pos hb 2) (pow_le_pow_left₀ hb.le hbb 2)

theorem struts_grow (P P' : Par) (hm : 0 < P.mag) (h1 : P'.shear = P.shear) (h2 : P'.mag = P.mag)
    (h3 : P'.clock = P.clock) (h4 : P.padStrut ≤ P'.padStrut) (p : ℂ) (ss : List Strut) :
    ∀ ws l, strutCalls P ss ws = .ok l → ∃ l', strutCalls P' ss ws = .ok l' ∧
      ((∀ c ∈ l', c.clear p) → ∀ c ∈ l, c.clear p) := by
  induction ss with
  | nil =>
    intro ws l h
    simp only [strutCalls, Except.ok.injEq] at h
    subst h
    exact ⟨[], rfl, fun h => h⟩
  | cons s ss ih =>
    intro ws l h
    cases ws with
    | nil => simp [strutCalls] at h
    | cons w ws =>
      simp only [strutCalls] at h ⊢
      cases hr : strutCalls P ss ws with
      | error e => rw [hr] at h; cases h
      | ok l' =>
        rw [hr] at h
        simp only [Except.map, Except.ok.injEq] at h
        subst h
        obtain ⟨l0, h0, hiff⟩ := ih ws l' hr
        refine ⟨strutCall P' s w :: l0, by rw [h0]; rfl, ?_⟩
        simp only [List.forall_mem_cons]
        rintro ⟨g1, g2⟩
        refine ⟨?_, hiff g2⟩
        simp only [Call.clear, strutCall, if_true, Shape.has, h1, h2, h3] at g1 ⊢
        rintro ⟨u, u1, u2, u3⟩
        exact g1 ⟨u, u1, by nlinarith, u3⟩

/-- Paddings only block: with larger paddings (those of the secondary mirror and of the tabs not
negative before, that of the outer edge below 0.49 after), in either mode, no point becomes clear. -/
theorem C149_padding (c : Changes) (hm : 0 < c.magFac.getD 1) (all strut cobs tabs outer : ℝ)
    (hs : c.padStrut.getD 0 + c.padAll.getD 0 ≤ strut + all)
    (hc : 0 ≤ c.padCobs.getD 0 + c.padAll.getD 0) (hc' : c.padCobs.getD 0 + c.padAll.getD 0 ≤ cobs + all)
    (ht : 0 ≤ c.padCobsTabs.getD 0 + c.padAll.getD 0)
    (ht' : c.padCobsTabs.getD 0 + c.padAll.getD 0 ≤ tabs + all)
    (ho : c.padOd.getD 0 + c.padAll.getD 0 ≤ outer + all) (ho' : outer + all < 49 / 100)
    (d : Drawing) (hd : romanDrawing c = .ok d) :
    let c' : Changes := { c with padAll := some all, padStrut := some strut, padCobs := some cobs,
                                 padCobsTabs := some tabs, padOd := some outer }
    ∃ d', romanDrawing c' = .ok d' ∧ ∀ p, d'.open (romanPar c') p → d.open (romanPar c) p := by
  intro c'
  have hm' : 0 < (romanPar c).mag := hm
  have hl : lyotOf c' = lyotOf c := rfl
  have hod : (3990 / od : ℝ) = 3990 / 8054.5 ∧ (4027.25 / od : ℝ) = 1 / 2 ∧ (1209.65 / od : ℝ) = 1209.65 / 8054.5 ∧
      (1220 / od : ℝ) = 1220 / 8054.5 := by
    refine ⟨?_, ?_, ?_, ?_⟩ <;> norm_num [od]
  have hw : (romanPar c').width = (romanPar c).width := rfl
  unfold romanDrawing at hd ⊢
  rw [hl]
  cases hly : lyotOf c with
  | error e => rw [hly] at hd; cases hd
  | ok l =>
    rw [hly] at hd
    simp only [Except.bind] at hd ⊢
    cases hss : strutCalls (romanPar c) romanStruts (romanPar c).width with
    | error e => rw [hss] at hd; cases hd
    | ok ss =>
      have hgrow := fun p => struts_grow (romanPar c) (romanPar c') hm' rfl rfl rfl hs p romanStruts _ ss hss
      obtain ⟨l0, h0, _⟩ := hgrow 0
      rw [hss] at hd
      have h0' : strutCalls (romanPar c') romanStruts (romanPar c').width = .ok l0 := by rw [hw]; exact h0
      rw [h0']
      simp only [Except.map, Except.ok.injEq] at hd ⊢
      refine ⟨_, rfl, ?_⟩
      intro p
      obtain ⟨l1, h1, himp⟩ := hgrow p
      rw [h0] at h1
      cases h1
      cases l with
      | some io =>
        obtain ⟨i, o⟩ := io
        subst hd
        simp only [Drawing.open, List.forall_mem_append]
        rintro ⟨⟨g1, g2⟩, _⟩
        exact ⟨⟨himp g1, g2⟩, by simp⟩
      | none =>
        subst hd
        simp only [Drawing.open, List.forall_mem_append]
        rintro ⟨⟨g1, g2⟩, g3⟩
        refine ⟨⟨himp g1, ?_⟩, ?_⟩
        · simp only [romanMirrors, List.forall_mem_cons] at g2 ⊢
          obtain ⟨a1, a2, _⟩ := g2
          refine ⟨?_, ?_, by simp⟩
          · simp only [Call.clear, ellCall, Bool.false_eq_true, if_false] at a1 ⊢
            refine ell_grows _ _ _ _ _ ?_ ?_ ?_ ?_ _ a1
            · refine mul_pos hm' ?_
              rw [hod.1]
              show 0 < (3990 / 8054.5 : ℝ) - (outer + all)
              norm_num; linarith
            · refine mul_pos hm' ?_
              rw [hod.2.1]
              show 0 < (1 / 2 : ℝ) - (outer + all)
              linarith
            · refine mul_le_mul_of_nonneg_left ?_ hm'.le
              exact sub_le_sub_left ho _
            · refine mul_le_mul_of_nonneg_left ?_ hm'.le
              exact sub_le_sub_left ho _
          · simp only [Call.clear, ellCall, if_true] at a2 ⊢
            intro h
            refine a2 (ell_grows _ _ _ _ _ ?_ ?_ ?_ ?_ _ h)
            · refine mul_pos hm' (add_pos_of_pos_of_nonneg ?_ hc)
              rw [hod.2.2.1]; norm_num
            · refine mul_pos hm' (add_pos_of_pos_of_nonneg ?_ hc)
              rw [hod.2.2.2]; norm_num
            · exact mul_le_mul_of_nonneg_left (add_le_add_right hc' _) hm'.le
            · exact mul_le_mul_of_nonneg_left (add_le_add_right hc' _) hm'.le
        · intro t hti hb
          refine g3 t hti ⟨hb.1, ?_⟩
          intro hcl
          refine hb.2 ?_
          have hpos : 0 < t.xr ∧ 0 < t.yr := by
            have hod' : (0 : ℝ) < od := by norm_num [od]
            simp only [romanTabs, List.mem_cons, List.not_mem_nil, or_false] at hti
            rcases hti with rfl | rfl | rfl <;> constructor <;> simp only <;> positivity
          simp only [Call.clear, tabCall, ellCall, if_true] at hcl ⊢
          intro h
          refine hcl (ell_grows _ _ _ _ _ ?_ ?_ ?_ ?_ _ h)
          · exact mul_pos hm' (add_pos_of_pos_of_nonneg hpos.1 ht)
          · exact mul_pos hm' (add_pos_of_pos_of_nonneg hpos.2 ht)
          · exact mul_le_mul_of_nonneg_left (add_le_add_right ht' _) hm'.le
          · exact mul_le_mul_of_nonneg_left (add_le_add_right ht' _) hm'.le

/-! ## When the call succeeds -/

/-- The call succeeds exactly if a Lyot stop is given both diameters (otherwise ValueError) and the
list of widths, if given, has six of them or more (otherwise IndexError). -/
theorem C149_errors (c : Changes) :
    (c.flagLyot.getD false = true ∧ (c.ID = none ∨ c.OD = none) → romanDrawing c = .error .valueError) ∧
    (¬ (c.flagLyot.getD false = true ∧ (c.ID = none ∨ c.OD = none)) →
      (∀ v, c.wStrutVec = some v → 6 ≤ v.length) → ∃ d, romanDrawing c = .ok d) ∧
    (¬ (c.flagLyot.getD false = true ∧ (c.ID = none ∨ c.OD = none)) →
      (∃ v, c.wStrutVec = some v ∧ v.length < 6) → romanDrawing c = .error .indexError) := by
  have hok : ∀ (P : Par) (ss : List Strut) (ws : List ℝ), ss.length ≤ ws.length →
      ∃ l, strutCalls P ss ws = .ok l := by
    intro P ss
    induction ss with
    | nil => intro ws _; exact ⟨[], rfl⟩
    | cons s ss ih =>
      intro ws h
      cases ws with
      | nil => simp at h
      | cons w ws =>
        obtain ⟨l, hl⟩ := ih ws (by simpa using h)
        exact ⟨_, by rw [strutCalls, hl]; rfl⟩
  have herr : ∀ (P : Par) (ss : List Strut) (ws : List ℝ), ws.length < ss.length →
      strutCalls P ss ws = .error .indexError := by
    intro P ss
    induction ss with
    | nil => intro ws h; simp at h
    | cons s ss ih =>
      intro ws h
      cases ws with
      | nil => rfl
      | cons w ws =>
        rw [strutCalls, ih ws (by simpa using h)]
        rfl
  have hlyot : ¬ (c.flagLyot.getD false = true ∧ (c.ID = none ∨ c.OD = none)) → ∃ l, lyotOf c = .ok l := by
    intro h
    unfold lyotOf
    cases hf : c.flagLyot.getD false with
    | false => exact ⟨none, rfl⟩
    | true =>
      rw [hf] at h
      push Not at h
      obtain ⟨h1, h2⟩ := h rfl
      obtain ⟨i, hi⟩ := Option.ne_none_iff_exists'.1 h1
      obtain ⟨o, ho⟩ := Option.ne_none_iff_exists'.1 h2
      exact ⟨some (i, o), by simp [hi, ho]⟩
  refine ⟨?_, ?_, ?_⟩
  · rintro ⟨hf, h⟩
    have : lyotOf c = .error .valueError := by
      unfold lyotOf
      rw [hf, if_pos rfl]
      cases hi : c.ID with
      | none => rfl
      | some i =>
        cases ho : c.OD with
        | none => rfl
        | some o => rw [hi, ho] at h; simp at h
    unfold romanDrawing
    rw [this]
    rfl
  · intro hn hv
    obtain ⟨l, hl⟩ := hlyot hn
    have hlen : romanStruts.length ≤ (romanPar c).width.length := by
      show 6 ≤ (widths c romanWidths).length
      unfold widths
      cases hw : c.wStrutVec with
      | some v => exact hv v hw
      | none => cases c.wStrut <;> simp [romanWidths]
    obtain ⟨ss, hss⟩ := hok (romanPar c) romanStruts _ hlen
    unfold romanDrawing
    rw [hl]
    simp only [Except.bind]
    rw [hss]
    exact ⟨_, rfl⟩
  · rintro hn ⟨v, hv, hlt⟩
    obtain ⟨l, hl⟩ := hlyot hn
    have hlen : (romanPar c).width.length < romanStruts.length := by
      show (widths c romanWidths).length < 6
      unfold widths
      rw [hv]
      exact hlt
    unfold romanDrawing
    rw [hl]
    simp only [Except.bind]
    rw [herr _ _ _ hlen]
    rfl

/-! ## The pupil of 2018 -/

/-- Its parameters. -/
noncomputable abbrev wfirstPar (c : Changes) : Par := Par.ofChanges c (widths c wfirstWidths)

/-- The mirrors and the struts of the pupil of 2018 move as one body, for every positive
magnification, shear and clocking. -/
theorem C149_wfirst_body (c : Changes) (hm : 0 < c.magFac.getD 1) (calls : List Call)
    (hc : wfirstCalls c (wfirstPar c) = .ok calls) (p : ℂ) :
    ∃ calls0, wfirstCalls c.atRest (wfirstPar c.atRest) = .ok calls0 ∧
      ((∀ cl ∈ calls,
          cl.clear (moved ⟨c.xShear.getD 0, c.yShear.getD 0⟩ (c.magFac.getD 1) (c.clockDeg.getD 0) p)) ↔
        ∀ cl ∈ calls0, cl.clear p) := by
  have hm' : 0 < (wfirstPar c).mag := hm
  have hmv : moved ⟨c.xShear.getD 0, c.yShear.getD 0⟩ (c.magFac.getD 1) (c.clockDeg.getD 0) p =
      moved (wfirstPar c).shear (wfirstPar c).mag (wfirstPar c).clock p := rfl
  rw [hmv]
  unfold wfirstCalls at hc ⊢
  cases hs : strutCalls (wfirstPar c) wfirstStruts (wfirstPar c).width with
  | error e => rw [hs] at hc; cases hc
  | ok ss =>
    rw [hs] at hc
    obtain ⟨l0, h0, hiff⟩ := struts_move (wfirstPar c) hm' p wfirstStruts _ ss hs
    have h0' : strutCalls (wfirstPar c.atRest) wfirstStruts (wfirstPar c.atRest).width = .ok l0 := h0
    rw [h0']
    simp only [Except.map, Except.ok.injEq] at hc ⊢
    refine ⟨_, rfl, ?_⟩
    subst hc
    simp only [List.forall_mem_append, List.forall_mem_cons]
    rw [circ_moves _ hm', circ_moves _ hm', hiff]
    simp only [List.not_mem_nil, false_implies, implies_true]
    exact Iff.rfl

/-- Violated: the tabs of the pupil of 2018 do not move with it. Turned by 180 degrees (with no other
change), the tab at the top is lost: the point `0.1446i` of the pupil at rest, just outside the
secondary mirror, is blocked by that tab, and the point where the clocking moves it is not in any of
the sectors. -/
theorem C149_violated_wfirst_clock :
    let c : Changes := { clockDeg := some 180 }
    let p : ℂ := ⟨-tabCentre.re, 0.14466 - tabCentre.im⟩
    (wfirstSector (wfirstPar c.atRest) p ∧ ¬ (wfirstTabCall (wfirstPar c.atRest)).clear p) ∧
    ¬ wfirstSector (wfirstPar c) (moved 0 1 180 p) := by
  intro c p
  have hpi1 : (314 / 100 : ℝ) < pi := by have := Real.pi_gt_d2; norm_num at this ⊢; linarith
  have hpi2 : pi < (315 / 100 : ℝ) := by have := Real.pi_lt_d2; norm_num at this ⊢; linarith
  refine ⟨⟨?_, ?_⟩, ?_⟩
  · unfold wfirstSector
    have hz : (⟨p.re + tabCentre.re - (wfirstPar c.atRest).shear.re,
        p.im + tabCentre.im - (wfirstPar c.atRest).shear.im⟩ : ℂ) = ⟨0, 0.14466⟩ := by
      apply Complex.ext <;> simp [p, c, Changes.atRest, Par.ofChanges]
    simp only
    rw [hz]
    have harg : Complex.arg ⟨0, 0.14466⟩ = pi / 2 :=
      Complex.arg_eq_pi_div_two_iff.2 ⟨rfl, by norm_num⟩
    refine ⟨?_, (1.344727938801013, 1.815774989921760), by simp [wfirstAngles], ?_, ?_⟩
    · have hre : p.re + tabCentre.re = 0 := by simp [p]
      have him : p.im + tabCentre.im = 0.14466 := by simp [p]
      simp only [c, Changes.atRest, Par.ofChanges, Option.getD_none, idTabs]
      norm_num
      rw [hre, him]
      norm_num
    · rw [harg]
      simp only [c, Changes.atRest, Par.ofChanges, Option.getD_none, rad, zero_mul, add_zero]
      norm_num; linarith
    · rw [harg]
      simp only [c, Changes.atRest, Par.ofChanges, Option.getD_none, rad, zero_mul, add_zero]
      norm_num; linarith
  · have hc0 : rotated (rad (wfirstPar c.atRest).clock)
        ⟨(wfirstPar c.atRest).mag * tabCentre.re, (wfirstPar c.atRest).mag * tabCentre.im⟩ +
          (wfirstPar c.atRest).shear = tabCentre := by
      rw [rotated_exp, scaled]
      simp only [c, Changes.atRest, Par.ofChanges, Option.getD_none, rad]
      apply Complex.ext <;> simp
    simp only [wfirstTabCall, circCall, Call.clear, if_true, hc0, not_not, Shape.has]
    simp only [p, c, Changes.atRest, Par.ofChanges, Option.getD_none, rad, zero_mul, Real.cos_zero,
      Real.sin_zero, tabCentre, idTabs, Complex.sub_re, Complex.sub_im]
    norm_num
  · have hrad : rad (wfirstPar c).clock = pi := by
      simp only [c, Par.ofChanges, Option.getD_some, rad]
      ring
    have hmv : moved 0 1 180 p = -p := by
      unfold moved
      have : (((180 : ℝ) * (pi / 180) : ℝ) : ℂ) = (pi : ℂ) := by
        push_cast; ring
      rw [this, Complex.exp_pi_mul_I]
      push_cast
      ring
    rw [hmv]
    unfold wfirstSector
    have hz : (⟨(-p).re + tabCentre.re - (wfirstPar c).shear.re,
        (-p).im + tabCentre.im - (wfirstPar c).shear.im⟩ : ℂ) =
        ⟨2 * tabCentre.re, 2 * tabCentre.im - 0.14466⟩ := by
      apply Complex.ext
      · simp [p, c, Par.ofChanges]; ring
      · simp [p, c, Par.ofChanges]; ring
    simp only
    rw [hz, hrad]
    rintro ⟨_, a, ha, h1, h2⟩
    have hneg : Complex.arg ⟨2 * tabCentre.re, 2 * tabCentre.im - 0.14466⟩ < 0 := by
      rw [Complex.arg_neg_iff]
      simp only [tabCentre]
      norm_num
    simp only [wfirstAngles, List.mem_cons, List.not_mem_nil, or_false] at ha
    rcases ha with rfl | rfl | rfl
    · simp only at h1; norm_num at h1; linarith
    · simp only at h1; norm_num at h1; linarith
    · simp only at h1; norm_num at h1; linarith

/-- Violated: with the centre between pixels, the pupil of 2018 is made only for an integer and even
number of pixels, with no shear and no magnification: a float raises TypeError, and an integer that
is not the size of the array raises IndexError (an odd one always does, at rest). -/
theorem C149_violated_wfirst_interpixel (c : Changes) (hw : ∃ calls, wfirstCalls c (wfirstPar c) = .ok calls) :
    (∀ x : ℝ, wfirstDrawing c .interpixel (.float x) = .error .typeError) ∧
    (∀ n : ℕ, (n : ℤ) ≠ wfirstSize .interpixel n (wfirstPar c) →
      wfirstDrawing c .interpixel (.int n) = .error .indexError) ∧
    (∀ n : ℕ, Odd n → wfirstDrawing c .interpixel (.int n) = .error .indexError) ∧
    (∀ n : ℕ, Even n → c.xShear = none → c.yShear = none → c.magFac = none →
      ∃ d, wfirstDrawing c .interpixel (.int n) = .ok d) := by
  obtain ⟨calls, hcalls⟩ := hw
  have hidx : ∀ n : ℕ, (n : ℤ) ≠ wfirstSize .interpixel n (wfirstPar c) →
      wfirstDrawing c .interpixel (.int n) = .error .indexError := by
    intro n hn
    unfold wfirstDrawing
    simp only [wfirstGrid, Except.bind]
    rw [hcalls]
    exact if_neg hn
  refine ⟨fun x => rfl, hidx, ?_, ?_⟩
  · intro n hodd
    refine hidx n ?_
    intro h
    have h2 : Even (wfirstSize .interpixel (n : ℝ) (wfirstPar c)) := by
      simp only [wfirstSize, ceilEven]
      exact even_two_mul _
    rw [← h] at h2
    have : Even n := by exact_mod_cast h2
    exact (Nat.not_even_iff_odd.2 hodd) this
  · intro n hev hx hy hmag
    have hN : (n : ℤ) = wfirstSize .interpixel (n : ℝ) (wfirstPar c) := by
      obtain ⟨k, hk⟩ := hev
      simp only [wfirstSize, ceilEven, Par.ofChanges, hx, hy, hmag, Option.getD_none]
      simp only [abs_zero, mul_zero, max_self, zero_add, one_mul]
      have : ((0.5 : ℝ) * (n : ℝ)) = ((k : ℤ) : ℝ) := by rw [hk]; push_cast; ring
      rw [this, Int.ceil_intCast, hk]
      push_cast; ring
    unfold wfirstDrawing
    simp only [wfirstGrid, Except.bind]
    rw [hcalls]
    exact ⟨_, if_pos hN⟩

/-- Violated: the dictionary of the caller is written to. After a call of the pupil of 2018 with an
empty dictionary (or with none: it is the default object of the function) the dictionary has ten
keys. What either function makes of it is the same, so only the caller's dictionary shows it. -/
theorem C149_violated_wfirst_dict (c : Changes) (ce : Centering) (b : Beam) :
    wfirstAfter {} ≠ {} ∧ (wfirstAfter c = c ↔ c.xShear ≠ none ∧ c.yShear ≠ none ∧ c.magFac ≠ none ∧
      c.clockDeg ≠ none ∧ c.flagRot180 ≠ none ∧ c.padAll ≠ none ∧ c.padStrut ≠ none ∧ c.padCobs ≠ none ∧
      c.padCobsTabs ≠ none ∧ c.padOd ≠ none) ∧
    wfirstDrawing (wfirstAfter c) ce b = wfirstDrawing c ce b ∧
    romanDrawing (wfirstAfter c) = romanDrawing c := by
  refine ⟨?_, ?_, ?_, ?_⟩
  · intro h
    have := congrArg Changes.xShear h
    simp [wfirstAfter] at this
  · have hg : ∀ {A : Type} (o : Option A) (a : A), some (o.getD a) = o ↔ o ≠ none := by
      intro A o a
      cases o <;> simp
    obtain ⟨a1, a2, a3, a4, a5, a6, a7, a8, a9, a10, _, _, _, _, _⟩ := c
    simp only [wfirstAfter, Changes.mk.injEq, and_true, hg]
    
  · rfl
  · rfl

/-- The hypotheses are met: turned by 10 degrees, sheared and magnified, the pupil is drawn, has an
array, and no angle of a tab is a multiple of `π`. -/
example : ∃ d, romanDrawing { xShear := some 0.01, magFac := some 0.9, clockDeg := some 10 } = .ok d :=
  (C149_errors _).2.1 (by simp) (by simp)

example : ∀ t ∈ romanTabs, ∀ k : ℤ,
    t.a1 + 10 * (pi / 180) ≠ pi * k ∧ t.a2 + 10 * (pi / 180) ≠ pi * k := by
  have h1 : (314 / 100 : ℝ) < pi := by have := Real.pi_gt_d2; norm_num at this ⊢; linarith
  have h2 : pi < (315 / 100 : ℝ) := by have := Real.pi_lt_d2; norm_num at this ⊢; linarith
  have hd : deltaAngle / 2 = 5 / 64 * pi := by rw [deltaAngle]; norm_num; ring
  intro t ht k
  simp only [romanTabs, List.mem_cons, List.not_mem_nil, or_false] at ht
  rcases ht with rfl | rfl | rfl
  · simp only [hd]
    exact ⟨not_multiple _ (Or.inl ⟨by norm_num; linarith, by norm_num; linarith⟩) k,
      not_multiple _ (Or.inl ⟨by norm_num; linarith, by norm_num; linarith⟩) k⟩
  · simp only [hd]
    exact ⟨not_multiple _ (Or.inl ⟨by norm_num; linarith, by norm_num; linarith⟩) k,
      not_multiple _ (Or.inl ⟨by norm_num; linarith, by norm_num; linarith⟩) k⟩
  · simp only [hd]
    exact ⟨not_multiple _ (Or.inr ⟨by norm_num; linarith, by norm_num; linarith⟩) k,
      not_multiple _ (Or.inr ⟨by norm_num; linarith, by norm_num; linarith⟩) k⟩

end Verif.RomanPupil
