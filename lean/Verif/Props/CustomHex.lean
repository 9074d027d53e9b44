import Verif.Model.CustomHex
import Verif.Props.HexDraw
import Mathlib.Analysis.Real.Pi.Bounds

/-!
# C140: pupils of custom hexagonal segments

What a user expects: the segments within the circle of diameter `OD`, outside of the circle of diameter `ID`, and dark in straight radial struts. `cart2pol` returns (distance, angle), but the
pupil takes its results as (angle, distance).
-/

namespace Verif.CustomHex
open Verif Verif.Hlc Verif.Util Verif.HexDraw

/-- Angle of a pixel about the centre `N/2` of the array, in `(-π, π]`. -/
noncomputable def angle (N i j : ℕ) : ℝ := Complex.arg ⟨(j : ℝ) - N / 2, (i : ℝ) - N / 2⟩
/-- Distance of a pixel from the centre of the array, in pixels. -/
noncomputable def dist (N i j : ℕ) : ℝ := Real.sqrt (((j : ℝ) - N / 2) ^ 2 + ((i : ℝ) - N / 2) ^ 2)

theorem RHO_eq (N i j : ℕ) : RHO N i j = angle N i j := by
  unfold RHO cart2pol xy angle
  rw [show -(N : ℝ) / 2 + j = j - N / 2 by ring, show -(N : ℝ) / 2 + i = i - N / 2 by ring]

theorem THETA_eq (N i j : ℕ) : THETA N i j = dist N i j := by
  unfold THETA cart2pol xy dist
  rw [show -(N : ℝ) / 2 + j = j - N / 2 by ring, show -(N : ℝ) / 2 + i = i - N / 2 by ring]

theorem angle_le (N i j : ℕ) : |angle N i j| ≤ Real.pi := Complex.abs_arg_le_pi _

theorem pow_le (a b : ℝ) (hb : 0 < b) (ha : |a| ≤ Real.pi) (m : ℕ) : 0 ≤ (a / b) ^ (2 * m) ∧ (a / b) ^ (2 * m) ≤ (Real.pi / b) ^ (2 * m) := by
  have e : (a / b) ^ (2 * m) = (|a| / b) ^ (2 * m) := by
    rw [pow_mul, pow_mul (|a| / b), div_pow a, div_pow |a|, sq_abs]
  rw [e]
  exact ⟨by positivity, by gcongr⟩

/-- `exp` of the disc of "radius" `R` in the angle. -/
theorem disc_bounds (N i j : ℕ) (R : ℝ) (hR : 0 < R) (m : ℕ) :
    1 - (Real.pi / R) ^ (2 * m) ≤ Real.exp (-(angle N i j / R) ^ (2 * m)) ∧ Real.exp (-(angle N i j / R) ^ (2 * m)) ≤ 1 := by
  obtain ⟨h0, h1⟩ := pow_le (angle N i j) R hR (angle_le N i j) m
  constructor
  · have := Real.add_one_le_exp (-(angle N i j / R) ^ (2 * m))
    linarith
  · rw [Real.exp_le_one_iff]; linarith

theorem pupil_plain (q : Inputs) (hs : q.struts = none) (OUT : ℕ → ℕ → ℝ) (h : q.pupil0 = .ok OUT) : pupil q = .ok fun i j => q.circles i j * OUT i j := by
  unfold pupil
  rw [hs, h]
  rfl

/-- C140: the part that holds: without central obscuration and struts, the pupil is the picture of the segments (C135), up to the factor `1 - (2π/(Nbeam OD))^1000` (which is 1 up to rounding
once `Nbeam OD` is 7 pixels or more). -/
theorem C140_segments (q : Inputs) (hs : q.struts = none) (hID : q.ID ≤ 0) (hR : 0 < q.Nbeam * q.OD) (OUT : ℕ → ℕ → ℝ) (h : q.pupil0 = .ok OUT) (h0 : ∀ i j, 0 ≤ OUT i j) :
    ∃ M, pupil q = .ok M ∧ ∀ i j, (1 - (Real.pi / (q.Nbeam * q.OD / 2)) ^ 1000) * OUT i j ≤ M i j ∧ M i j ≤ OUT i j := by
  refine ⟨_, pupil_plain q hs OUT h, fun i j => ?_⟩
  unfold Inputs.circles
  dsimp only
  rw [if_neg (not_lt.mpr hID), RHO_eq, show q.Nbeam / 2 * q.OD = q.Nbeam * q.OD / 2 by ring]
  obtain ⟨a, b⟩ := disc_bounds q.Npad i j (q.Nbeam * q.OD / 2) (by positivity) 500
  rw [show 2 * 500 = 1000 by norm_num] at a b
  exact ⟨mul_le_mul_of_nonneg_right a (h0 i j), mul_le_of_le_one_left (h0 i j) b⟩

/-- C140 (violated): `OD` does not limit the pupil: two pupils that differ in `OD` alone, both of 8 pixels or more, agree up to `10^-100` of the segments' picture, however far the pixel is
outside of one of the circles. -/
theorem C140_outer_violated (q q' : Inputs) (hq : q' = { q with OD := q'.OD }) (hs : q.struts = none) (hID : q.ID ≤ 0) (h8 : 8 ≤ q.Nbeam * q.OD) (h8' : 8 ≤ q.Nbeam * q'.OD)
    (OUT : ℕ → ℕ → ℝ) (h : q.pupil0 = .ok OUT) (h0 : ∀ i j, 0 ≤ OUT i j) :
    ∃ M M', pupil q = .ok M ∧ pupil q' = .ok M' ∧ ∀ i j, |M i j - M' i j| ≤ (1 / 10) ^ 100 * OUT i j := by
  have hsmall : ∀ R : ℝ, 8 ≤ R → (Real.pi / (R / 2)) ^ 1000 ≤ (1 / 10) ^ 100 := by
    intro R hR
    have hp : Real.pi / (R / 2) ≤ 3.1416 / 4 := by
      apply div_le_div₀ (by norm_num) (le_of_lt Real.pi_lt_d4) (by norm_num) (by linarith)
    have h1 : (Real.pi / (R / 2)) ^ 1000 ≤ (3.1416 / 4) ^ 1000 := by
      have : 0 ≤ Real.pi / (R / 2) := by have := Real.pi_pos; positivity
      gcongr
    have h2 : ((3.1416 / 4 : ℝ)) ^ 10 ≤ 1 / 10 := by norm_num
    have h3 : ((3.1416 / 4 : ℝ)) ^ 1000 = ((3.1416 / 4 : ℝ) ^ 10) ^ 100 := by rw [← pow_mul]
    rw [h3] at h1
    exact h1.trans (pow_le_pow_left₀ (by positivity) h2 100)
  have hs' : q'.struts = none := by rw [hq]; exact hs
  have hN : q'.Nbeam = q.Nbeam := by rw [hq]
  have hID' : q'.ID ≤ 0 := by rw [hq]; exact hID
  have h' : q'.pupil0 = .ok OUT := by rw [hq]; exact h
  obtain ⟨M, e, b⟩ := C140_segments q hs hID (by linarith) OUT h h0
  obtain ⟨M', e', b'⟩ := C140_segments q' hs' hID' (by rw [hN]; linarith) OUT h' h0
  refine ⟨M, M', e, e', fun i j => ?_⟩
  obtain ⟨b1, b2⟩ := b i j
  obtain ⟨b3, b4⟩ := b' i j
  rw [hN] at b3
  have k1 := mul_le_mul_of_nonneg_right (hsmall _ h8) (h0 i j)
  have k2 := mul_le_mul_of_nonneg_right (hsmall _ h8') (h0 i j)
  generalize (Real.pi / (q.Nbeam * q.OD / 2)) ^ 1000 = u at *
  generalize (Real.pi / (q.Nbeam * q'.OD / 2)) ^ 1000 = v at *
  rw [abs_le]
  constructor <;> linarith

/-- C140 (violated): with a central obscuration of 8 pixels or more (and not larger than `OD`) the whole pupil is dark: no pixel exceeds `10^-100` of the segments' picture. -/
theorem C140_obscured_violated (q : Inputs) (hs : q.struts = none) (h8 : 8 ≤ q.Nbeam * q.ID) (hID : 0 < q.ID) (hle : q.ID ≤ q.OD) (hN : 0 < q.Nbeam)
    (OUT : ℕ → ℕ → ℝ) (h : q.pupil0 = .ok OUT) (h0 : ∀ i j, 0 ≤ OUT i j) :
    ∃ M, pupil q = .ok M ∧ ∀ i j, 0 ≤ M i j ∧ M i j ≤ (1 / 10) ^ 100 * OUT i j := by
  refine ⟨_, pupil_plain q hs OUT h, fun i j => ?_⟩
  have hR : 0 < q.Nbeam / 2 * q.ID := by positivity
  have hRO : q.Nbeam / 2 * q.ID ≤ q.Nbeam / 2 * q.OD := by gcongr
  unfold Inputs.circles
  dsimp only
  rw [if_pos hID, RHO_eq]
  obtain ⟨a, b⟩ := disc_bounds q.Npad i j (q.Nbeam / 2 * q.ID) hR 500
  obtain ⟨c, d⟩ := disc_bounds q.Npad i j (q.Nbeam / 2 * q.OD) (lt_of_lt_of_le hR hRO) 500
  rw [show 2 * 500 = 1000 by norm_num] at a b c d
  have hmono : Real.exp (-(angle q.Npad i j / (q.Nbeam / 2 * q.ID)) ^ 1000) ≤ Real.exp (-(angle q.Npad i j / (q.Nbeam / 2 * q.OD)) ^ 1000) := by
    rw [Real.exp_le_exp, neg_le_neg_iff]
    have e : ∀ b : ℝ, (angle q.Npad i j / b) ^ 1000 = (|angle q.Npad i j| / b) ^ 1000 := by
      intro b
      rw [show 1000 = 2 * 500 by norm_num, pow_mul, pow_mul (|angle q.Npad i j| / b), div_pow (angle q.Npad i j), div_pow |angle q.Npad i j|, sq_abs]
    rw [e, e]
    have : |angle q.Npad i j| / (q.Nbeam / 2 * q.OD) ≤ |angle q.Npad i j| / (q.Nbeam / 2 * q.ID) := div_le_div_of_nonneg_left (abs_nonneg _) hR hRO
    have h0 : 0 ≤ |angle q.Npad i j| / (q.Nbeam / 2 * q.OD) := by have := lt_of_lt_of_le hR hRO; positivity
    exact pow_le_pow_left₀ h0 this _
  have hsm : (Real.pi / (q.Nbeam / 2 * q.ID)) ^ 1000 ≤ (1 / 10) ^ 100 := by
    have hp : Real.pi / (q.Nbeam / 2 * q.ID) ≤ 3.1416 / 4 := by
      apply div_le_div₀ (by norm_num) (le_of_lt Real.pi_lt_d4) (by norm_num) (by linarith)
    have h1 : (Real.pi / (q.Nbeam / 2 * q.ID)) ^ 1000 ≤ (3.1416 / 4) ^ 1000 := by
      have : 0 ≤ Real.pi / (q.Nbeam / 2 * q.ID) := by have := Real.pi_pos; positivity
      gcongr
    have h2 : ((3.1416 / 4 : ℝ)) ^ 10 ≤ 1 / 10 := by norm_num
    have h3 : ((3.1416 / 4 : ℝ)) ^ 1000 = ((3.1416 / 4 : ℝ) ^ 10) ^ 100 := by rw [← pow_mul]
    rw [h3] at h1
    exact h1.trans (pow_le_pow_left₀ (by positivity) h2 100)
  generalize (Real.pi / (q.Nbeam / 2 * q.ID)) ^ 1000 = u at *
  generalize Real.exp (-(angle q.Npad i j / (q.Nbeam / 2 * q.ID)) ^ 1000) = x at *
  generalize Real.exp (-(angle q.Npad i j / (q.Nbeam / 2 * q.OD)) ^ 1000) = z at *
  exact ⟨mul_nonneg (by linarith) (h0 i j), mul_le_mul_of_nonneg_right (by linarith) (h0 i j)⟩

/-- The factors of the struts are between 0 and 1. -/
theorem strut_range (q : Inputs) (w ang : ℝ) (i j : ℕ) : 0 ≤ q.strut w ang i j ∧ q.strut w ang i j ≤ 1 := by
  unfold Inputs.strut
  dsimp only
  have h1 : Real.exp (-(RHO q.Npad i j * Real.sin (THETA q.Npad i j - ang * Real.pi / 180) / (w * 2 * (q.Nbeam / 2))) ^ 100) ≤ 1 := by
    rw [Real.exp_le_one_iff]
    have : 0 ≤ (RHO q.Npad i j * Real.sin (THETA q.Npad i j - ang * Real.pi / 180) / (w * 2 * (q.Nbeam / 2))) ^ 100 := Even.pow_nonneg (by decide) _
    linarith
  have h2 := Real.exp_nonneg (-(RHO q.Npad i j * Real.sin (THETA q.Npad i j - ang * Real.pi / 180) / (w * 2 * (q.Nbeam / 2))) ^ 100)
  split_ifs <;> constructor <;> linarith

theorem struts_fold (q : Inputs) (w : ℝ) (angs : List ℝ) : ∀ (p : ℕ → ℕ → ℝ) (i j : ℕ),
    angs.foldl (fun (p : ℕ → ℕ → ℝ) ang i j => p i j * q.strut w ang i j) p i j = p i j * (angs.map fun ang => q.strut w ang i j).prod := by
  induction angs with
  | nil => intro p i j; simp
  | cons a l ih => intro p i j; rw [List.foldl_cons, ih, List.map_cons, List.prod_cons, mul_assoc]

/-- C140 (violated): struts of 8 pixels or more do not darken straight lines but whole rings: above the horizontal axis every pixel for whose distance `r` from the centre, taken for an angle
in radians, `cos(r - ang)` is positive is dark (at most `10^-10` of the picture), in every direction; below the axis those with `cos(r - ang)` negative. -/
theorem C140_struts_violated (q : Inputs) (w : ℝ) (angs : List ℝ) (hs : q.struts = some (w, angs)) (hw : 8 ≤ w * q.Nbeam) (hN : 0 < q.Nbeam) (hID : q.ID ≤ 0)
    (OUT : ℕ → ℕ → ℝ) (h : q.pupil0 = .ok OUT) (h0 : ∀ i j, 0 ≤ OUT i j) :
    ∃ M, pupil q = .ok M ∧ ∀ i j, ∀ ang ∈ angs, 0 < angle q.Npad i j * Real.cos (dist q.Npad i j - ang * Real.pi / 180) → 0 ≤ M i j ∧ M i j ≤ (1 / 10) ^ 10 * OUT i j := by
  have hw0 : 0 < w := by
    by_contra hh
    push Not at hh
    nlinarith
  refine ⟨fun i j => (q.circles i j * OUT i j) * (angs.map fun ang => q.strut w ang i j).prod, ?_, ?_⟩
  · unfold pupil
    rw [hs, h]
    simp only [if_neg (not_lt.mpr hw0.le), Except.map, if_pos hw0]
    congr 1
    funext i j
    exact struts_fold q w angs _ i j
  · intro i j ang hang hpos
    have hc0 : 0 ≤ q.circles i j ∧ q.circles i j ≤ 1 := by
      unfold Inputs.circles
      dsimp only
      rw [if_neg (not_lt.mpr hID)]
      refine ⟨Real.exp_nonneg _, ?_⟩
      rw [Real.exp_le_one_iff]
      have : 0 ≤ (RHO q.Npad i j / (q.Nbeam / 2 * q.OD)) ^ 1000 := Even.pow_nonneg (by decide) _
      linarith
    have hone : q.strut w ang i j ≤ (1 / 10) ^ 10 := by
      unfold Inputs.strut
      dsimp only
      rw [RHO_eq, THETA_eq, if_pos hpos]
      have hle : |angle q.Npad i j * Real.sin (dist q.Npad i j - ang * Real.pi / 180)| ≤ Real.pi := by
        rw [abs_mul]
        calc |angle q.Npad i j| * |Real.sin (dist q.Npad i j - ang * Real.pi / 180)| ≤ |angle q.Npad i j| * 1 := by gcongr; exact Real.abs_sin_le_one _
          _ ≤ Real.pi := by rw [mul_one]; exact angle_le _ _ _
      have hb : 0 < w * 2 * (q.Nbeam / 2) := by positivity
      obtain ⟨a, b⟩ := pow_le _ _ hb hle 50
      rw [show 2 * 50 = 100 by norm_num] at a b
      have hp : Real.pi / (w * 2 * (q.Nbeam / 2)) ≤ 3.1416 / 8 := by
        apply div_le_div₀ (by norm_num) (le_of_lt Real.pi_lt_d4) (by norm_num) (by linarith)
      have h1 : (Real.pi / (w * 2 * (q.Nbeam / 2))) ^ 100 ≤ (3.1416 / 8) ^ 100 := by
        have : 0 ≤ Real.pi / (w * 2 * (q.Nbeam / 2)) := by have := Real.pi_pos; positivity
        gcongr
      have h2 : ((3.1416 / 8 : ℝ)) ^ 100 ≤ (1 / 10) ^ 10 := by
        rw [show ((3.1416 / 8 : ℝ)) ^ 100 = ((3.1416 / 8 : ℝ) ^ 10) ^ 10 by rw [← pow_mul]]
        exact pow_le_pow_left₀ (by positivity) (by norm_num) 10
      have h3 := Real.add_one_le_exp (-(angle q.Npad i j * Real.sin (dist q.Npad i j - ang * Real.pi / 180) / (w * 2 * (q.Nbeam / 2))) ^ 100)
      generalize (angle q.Npad i j * Real.sin (dist q.Npad i j - ang * Real.pi / 180) / (w * 2 * (q.Nbeam / 2))) ^ 100 = x at *
      linarith
    have hprod : 0 ≤ (angs.map fun ang => q.strut w ang i j).prod ∧ (angs.map fun ang => q.strut w ang i j).prod ≤ q.strut w ang i j := by
      clear hs
      induction angs with
      | nil => simp at hang
      | cons a l ih =>
        rw [List.map_cons, List.prod_cons]
        have hl : 0 ≤ (l.map fun ang => q.strut w ang i j).prod ∧ (l.map fun ang => q.strut w ang i j).prod ≤ 1 := by
          clear ih hang
          induction l with
          | nil => simp
          | cons b l ih =>
            rw [List.map_cons, List.prod_cons]
            have := strut_range q w b i j
            exact ⟨mul_nonneg this.1 ih.1, mul_le_one₀ this.2 ih.1 ih.2⟩
        have ha := strut_range q w a i j
        refine ⟨mul_nonneg ha.1 hl.1, ?_⟩
        rcases List.mem_cons.mp hang with rfl | hmem
        · exact mul_le_of_le_one_right ha.1 hl.2
        · exact (mul_le_of_le_one_left (ih hmem).1 ha.2).trans (ih hmem).2
    constructor
    · exact mul_nonneg (mul_nonneg hc0.1 (h0 i j)) hprod.1
    · calc q.circles i j * OUT i j * (angs.map fun ang => q.strut w ang i j).prod
          ≤ OUT i j * (1 / 10) ^ 10 := mul_le_mul (mul_le_of_le_one_left (h0 i j) hc0.2) (hprod.2.trans hone) hprod.1 (h0 i j)
        _ = (1 / 10) ^ 10 * OUT i j := by ring

/-- C140 (violated): with pistons (and no list of missing segments) the pupil is dark everywhere, whatever its segments. -/
theorem C140_pistons_violated (q : Inputs) (p tx ty : List ℝ) (hp : q.pistons = some (p, tx, ty)) (hm : q.missing = none) (hs : q.struts = none) (hN : 0 < q.Npad) :
    ∃ M, pupil q = .ok M ∧ ∀ i j : ℕ, i < q.Npad → j < q.Npad → M i j = 0 := by
  obtain ⟨F, e, -, -, hF⟩ := C135_field_empty_violated q.Nbeam q.wGap q.numRings q.Npad hN p tx ty
  refine ⟨_, pupil_plain q hs (fun i j => (F.get? i j).getD 0) ?_, fun i j hi hj => ?_⟩
  · unfold Inputs.pupil0
    rw [hp, hm]
    dsimp only
    rw [e]
    rfl
  · rw [hF i j hi hj]
    simp

/-- A pupil of two rings, 200 pixels across. -/
noncomputable def demo (ID : ℝ) (s : Option (ℝ × List ℝ)) : Inputs := ⟨250, 200, 1, ID, 2, 2, some (List.replicate 19 1), (0, 0), s, none⟩

theorem demo_ok (ID : ℝ) (s : Option (ℝ × List ℝ)) : ∃ OUT, (demo ID s).pupil0 = .ok OUT ∧ ∀ i j, 0 ≤ OUT i j := by
  have hd : 0 < flatDiam 200 2 2 := by unfold flatDiam; norm_num
  obtain ⟨OUT, h, -⟩ := C135_mirror 200 2 2 250 (List.replicate 19 1) (by decide +kernel) (0, 0) hd (by norm_num)
  refine ⟨OUT, h, fun i j => ?_⟩
  unfold getSupport at h
  simp only at h
  cases hdr : drawn 1 ((some (List.replicate 19 1)).getD (List.replicate (countSegments 2) 1)) 0 (visitsAt (0, 0) (flatDiam 200 2 2 + 2) 2) with
  | error e => rw [hdr] at h; cases h
  | ok cs =>
    rw [hdr] at h
    simp only [Except.map, Except.ok.injEq] at h
    rw [← h]
    have key : ∀ (cs : List (ℝ × ℝ)) (A : ℕ → ℕ → ℝ), (∀ i j, 0 ≤ A i j) → 0 ≤ cs.foldl (addHex 250 (flatDiam 200 2 2)) A i j := by
      intro cs
      induction cs with
      | nil => intro A hA; exact hA i j
      | cons c l ih =>
        intro A hA
        exact ih _ fun i j => add_nonneg (hA i j) ((C135_hexagon _ _ _ hd).1.1.le)
    exact key cs _ fun _ _ => le_rfl

example : ∃ M, pupil (demo 0 none) = .ok M := by
  obtain ⟨OUT, h, h0⟩ := demo_ok 0 none
  obtain ⟨M, e, -⟩ := C140_segments (demo 0 none) rfl le_rfl (by norm_num [demo]) OUT h h0
  exact ⟨M, e⟩
example : ∃ M, pupil (demo 0.1 none) = .ok M := by
  obtain ⟨OUT, h, h0⟩ := demo_ok 0.1 none
  obtain ⟨M, e, -⟩ := C140_obscured_violated (demo 0.1 none) rfl (by norm_num [demo]) (by norm_num [demo]) (by norm_num [demo]) (by norm_num [demo]) OUT h h0
  exact ⟨M, e⟩
example : ∃ M, pupil (demo 0 (some (0.05, [0, 90]))) = .ok M := by
  obtain ⟨OUT, h, h0⟩ := demo_ok 0 (some (0.05, [0, 90]))
  obtain ⟨M, e, -⟩ := C140_struts_violated (demo 0 (some (0.05, [0, 90]))) 0.05 [0, 90] rfl (by norm_num [demo]) (by norm_num [demo]) le_rfl OUT h h0
  exact ⟨M, e⟩

end Verif.CustomHex
