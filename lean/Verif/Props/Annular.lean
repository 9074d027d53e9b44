import Verif.Model.ZernMap
import Verif.Props.NollOrtho
import Mathlib.Tactic.IntervalCases

/-!
# C94: Zernike polynomials of an obscured aperture

The docstrings of propcustom_zernikes and prop_zernikes promise that the first 22 Zernikes are available normalised for a centrally obscured region. The specification is the integral over the
annulus `eps < r < 1` in polar coordinates.
-/

namespace Verif.ZernMap
open Verif Verif.Noll Finset

/-! ### Radial and angular parts -/

/-- Angular part of index `k`. -/
def angOf : ℕ → Option (ℕ × Bool)
  | 2 => some (1, true) | 8 => some (1, true) | 16 => some (1, true)
  | 3 => some (1, false) | 7 => some (1, false) | 17 => some (1, false)
  | 6 => some (2, true) | 12 => some (2, true) | 5 => some (2, false) | 13 => some (2, false)
  | 10 => some (3, true) | 18 => some (3, true) | 9 => some (3, false) | 19 => some (3, false)
  | 14 => some (4, true) | 15 => some (4, false) | 20 => some (5, true) | 21 => some (5, false)
  | _ => none

/-- Azimuthal order and rank among the polynomials of that order. -/
def radOf : ℕ → ℕ × ℕ
  | 1 => (0, 0) | 4 => (0, 1) | 11 => (0, 2) | 22 => (0, 3)
  | 2 => (1, 0) | 3 => (1, 0) | 8 => (1, 1) | 7 => (1, 1) | 16 => (1, 2) | 17 => (1, 2)
  | 6 => (2, 0) | 5 => (2, 0) | 12 => (2, 1) | 13 => (2, 1)
  | 10 => (3, 0) | 9 => (3, 0) | 18 => (3, 1) | 19 => (3, 1)
  | 14 => (4, 0) | 15 => (4, 0) | 20 => (5, 0) | 21 => (5, 0)
  | _ => (6, 0)

/-- Coefficients (of `r^m, r^(m+2), r^(m+4), r^(m+6)`). -/
def coef (e : ℝ) : ℕ × ℕ → ℕ → ℝ
  | (0, 1) => fun | 0 => 1 + e ^ 2 | 1 => -2 | _ => 0
  | (0, 2) => fun | 0 => 1 + 4 * e ^ 2 + e ^ 4 | 1 => -6 - 6 * e ^ 2 | 2 => 6 | _ => 0
  | (0, 3) => fun | 0 => 1 + 9 * e ^ 2 + 9 * e ^ 4 + e ^ 6 | 1 => -12 - 36 * e ^ 2 - 12 * e ^ 4 | 2 => 30 + 30 * e ^ 2 | 3 => -20 | _ => 0
  | (1, 1) => fun | 0 => 2 + 2 * e ^ 2 + 2 * e ^ 4 | 1 => -3 - 3 * e ^ 2 | _ => 0
  | (1, 2) => fun | 0 => 3 + 12 * e ^ 2 + 30 * e ^ 4 + 12 * e ^ 6 + 3 * e ^ 8 | 1 => -12 - 48 * e ^ 2 - 48 * e ^ 4 - 12 * e ^ 6 | 2 => 10 + 40 * e ^ 2 + 10 * e ^ 4 | _ => 0
  | (2, 1) => fun | 0 => 3 + 3 * e ^ 2 + 3 * e ^ 4 + 3 * e ^ 6 | 1 => -4 - 4 * e ^ 2 - 4 * e ^ 4 | _ => 0
  | (3, 1) => fun | 0 => 4 + 4 * e ^ 2 + 4 * e ^ 4 + 4 * e ^ 6 + 4 * e ^ 8 | 1 => -5 - 5 * e ^ 2 - 5 * e ^ 4 - 5 * e ^ 6 | _ => 0
  | _ => fun | 0 => 1 | _ => 0

/-- Normalising factor. -/
noncomputable def scale (e : ℝ) : ℕ × ℕ → ℝ
  | (0, 0) => 1
  | (0, 1) => Real.sqrt 3 / (-1 + e ^ 2)
  | (0, 2) => Real.sqrt 5 / (-1 + e ^ 2) ^ 2
  | (0, 3) => Real.sqrt 7 / (-1 + e ^ 2) ^ 3
  | (1, 0) => 2 / Real.sqrt (1 + e ^ 2)
  | (1, 1) => 2 * Real.sqrt 2 / ((-1 + e ^ 2) * Real.sqrt (1 + 5 * e ^ 2 + 5 * e ^ 4 + e ^ 6))
  | (1, 2) => 2 * Real.sqrt 3 / ((-1 + e ^ 2) ^ 2 * Real.sqrt ((1 + 4 * e ^ 2 + e ^ 4) * (1 + 9 * e ^ 2 + 9 * e ^ 4 + e ^ 6)))
  | (2, 0) => Real.sqrt 6 / Real.sqrt (1 + e ^ 2 + e ^ 4)
  | (2, 1) => Real.sqrt 10 / ((-1 + e ^ 2) * Real.sqrt ((1 + e ^ 2 + e ^ 4) * (1 + 4 * e ^ 2 + 10 * e ^ 4 + 4 * e ^ 6 + e ^ 8)))
  | (3, 0) => 2 * Real.sqrt 2 / Real.sqrt (1 + e ^ 2 + e ^ 4 + e ^ 6)
  | (3, 1) => 2 * Real.sqrt 3 / ((-1 + e ^ 2) * Real.sqrt ((1 + e ^ 2 + e ^ 4 + e ^ 6) * (1 + 4 * e ^ 2 + 10 * e ^ 4 + 20 * e ^ 6 + 10 * e ^ 8 + 4 * e ^ 10 + e ^ 12)))
  | (4, 0) => Real.sqrt 10 / Real.sqrt (1 + e ^ 2 + e ^ 4 + e ^ 6 + e ^ 8)
  | (5, 0) => 2 * Real.sqrt 3 / Real.sqrt (1 + e ^ 2 + e ^ 4 + e ^ 6 + e ^ 8 + e ^ 10)
  | _ => 0

/-- Radial polynomial without the factor. -/
noncomputable def radP (e : ℝ) (p : ℕ × ℕ) (r : ℝ) : ℝ := ∑ u ∈ range 4, coef e p u * r ^ (p.1 + 2 * u)

theorem annular_factor (e r t : ℝ) (k : ℕ) (h1 : 1 ≤ k) (h2 : k ≤ 22) : annular e r t k = some (scale e (radOf k) * radP e (radOf k) r * angF (angOf k) t) := by
  interval_cases k <;> simp only [annular, radOf, angOf, scale, radP, coef, angF, sum_range_succ, range_zero, sum_empty] <;> congr 1 <;>
    simp only [ann1, ann2, ann3, ann4, ann5, ann6, ann7, ann8, ann9, ann10, ann11, ann12, ann13, ann14, ann15, ann16, ann17, ann18, ann19, ann20, ann21, ann22] <;> norm_num <;> ring

theorem radP_int (e : ℝ) (p p' : ℕ × ℕ) : ∫ r in e..1, radP e p r * radP e p' r * r =
    ∑ u ∈ range 4, ∑ v ∈ range 4, coef e p u * coef e p' v * ((1 - e ^ (p.1 + p'.1 + 2 * u + 2 * v + 2)) / ((p.1 + p'.1 + 2 * u + 2 * v + 2 : ℕ) : ℝ)) := by
  have h : ∀ r : ℝ, radP e p r * radP e p' r * r = ∑ u ∈ range 4, ∑ v ∈ range 4, coef e p u * coef e p' v * r ^ (p.1 + p'.1 + 2 * u + 2 * v + 1) := by
    intro r
    unfold radP
    rw [sum_mul_sum, sum_mul]
    refine sum_congr rfl fun u _ => ?_
    rw [sum_mul]
    refine sum_congr rfl fun v _ => ?_
    ring
  simp only [h]
  rw [intervalIntegral.integral_finset_sum fun u _ => by apply Continuous.intervalIntegrable; fun_prop]
  refine sum_congr rfl fun u _ => ?_
  rw [intervalIntegral.integral_finset_sum fun u _ => by apply Continuous.intervalIntegrable; fun_prop]
  refine sum_congr rfl fun v _ => ?_
  rw [intervalIntegral.integral_const_mul, integral_pow]
  push_cast
  ring

/-- Products of different polynomials of the same azimuthal order have no mean over the annulus. -/
theorem radP_cross (e : ℝ) (i j : ℕ) (hi1 : 1 ≤ i) (hi2 : i ≤ 22) (hj1 : 1 ≤ j) (hj2 : j ≤ 22) (hm : (radOf i).1 = (radOf j).1) (hb : (radOf i).2 < (radOf j).2) :
    ∫ r in e..1, radP e (radOf i) r * radP e (radOf j) r * r = 0 := by
  rw [radP_int]
  have hi : (radOf i).2 ≤ 2 := by interval_cases i <;> simp [radOf] at * <;> interval_cases j <;> simp [radOf] at *
  obtain ⟨hp, hp'⟩ : (radOf i ∈ [(0, 0), (0, 1), (0, 2), (1, 0), (1, 1), (2, 0), (3, 0), (4, 0), (5, 0), (0, 3), (1, 2), (2, 1), (3, 1)]) ∧
      radOf j ∈ [(0, 0), (0, 1), (0, 2), (1, 0), (1, 1), (2, 0), (3, 0), (4, 0), (5, 0), (0, 3), (1, 2), (2, 1), (3, 1)] := by
    constructor
    · interval_cases i <;> simp [radOf]
    · interval_cases j <;> simp [radOf]
  generalize radOf i = a at *
  generalize radOf j = b at *
  simp only [List.mem_cons, List.not_mem_nil, or_false] at hp hp'
  rcases hp with rfl | rfl | rfl | rfl | rfl | rfl | rfl | rfl | rfl | rfl | rfl | rfl | rfl <;>
  rcases hp' with rfl | rfl | rfl | rfl | rfl | rfl | rfl | rfl | rfl | rfl | rfl | rfl | rfl <;> simp only [Nat.lt_irrefl, Nat.not_lt_zero] at hb hm <;> try omega
  all_goals
    simp only [sum_range_succ, range_zero, sum_empty, coef]
    norm_num
    try ring

set_option maxHeartbeats 2000000 in
theorem radP_self (e : ℝ) (h0 : 0 ≤ e) (h1 : e < 1) (i : ℕ) (hi1 : 1 ≤ i) (hi2 : i ≤ 22) :
    scale e (radOf i) * scale e (radOf i) * ∫ r in e..1, radP e (radOf i) r * radP e (radOf i) r * r = (1 - e ^ 2) / (if angOf i = none then 2 else 1) := by
  rw [radP_int]
  have hne : -1 + e ^ 2 ≠ 0 := by nlinarith
  have p1 : 0 < 1 + e ^ 2 := by positivity
  have p2 : 0 < 1 + e ^ 2 + e ^ 4 := by positivity
  have p3 : 0 < 1 + e ^ 2 + e ^ 4 + e ^ 6 := by positivity
  have p4 : 0 < 1 + e ^ 2 + e ^ 4 + e ^ 6 + e ^ 8 := by positivity
  have p5 : 0 < 1 + e ^ 2 + e ^ 4 + e ^ 6 + e ^ 8 + e ^ 10 := by positivity
  have p6 : 0 < 1 + 5 * e ^ 2 + 5 * e ^ 4 + e ^ 6 := by positivity
  have p7 : 0 < (1 + 4 * e ^ 2 + e ^ 4) * (1 + 9 * e ^ 2 + 9 * e ^ 4 + e ^ 6) := by positivity
  have p8 : 0 < (1 + e ^ 2 + e ^ 4) * (1 + 4 * e ^ 2 + 10 * e ^ 4 + 4 * e ^ 6 + e ^ 8) := by positivity
  have p9 : 0 < (1 + e ^ 2 + e ^ 4 + e ^ 6) * (1 + 4 * e ^ 2 + 10 * e ^ 4 + 20 * e ^ 6 + 10 * e ^ 8 + 4 * e ^ 10 + e ^ 12) := by positivity
  have q1 := Real.sq_sqrt p1.le
  have q2 := Real.sq_sqrt p2.le
  have q3 := Real.sq_sqrt p3.le
  have q4 := Real.sq_sqrt p4.le
  have q5 := Real.sq_sqrt p5.le
  have q6 := Real.sq_sqrt p6.le
  have q7 := Real.sq_sqrt p7.le
  have q8 := Real.sq_sqrt p8.le
  have q9 := Real.sq_sqrt p9.le
  have s2 : Real.sqrt 2 ^ 2 = 2 := Real.sq_sqrt (by norm_num)
  have s3 : Real.sqrt 3 ^ 2 = 3 := Real.sq_sqrt (by norm_num)
  have s5 : Real.sqrt 5 ^ 2 = 5 := Real.sq_sqrt (by norm_num)
  have s6 : Real.sqrt 6 ^ 2 = 6 := Real.sq_sqrt (by norm_num)
  have s7 : Real.sqrt 7 ^ 2 = 7 := Real.sq_sqrt (by norm_num)
  have s10 : Real.sqrt 10 ^ 2 = 10 := Real.sq_sqrt (by norm_num)
  have hsq : ∀ a b : ℝ, a / b * (a / b) = a ^ 2 / b ^ 2 := by intro a b; ring
  interval_cases i <;> simp only [radOf, angOf, scale, hsq, mul_pow, s2, s3, s5, s6, s7, s10, q1, q2, q3, q4, q5, q6, q7, q8, q9]
  all_goals simp only [reduceCtorEq, if_true, if_false, sum_range_succ, range_zero, sum_empty, coef]
  all_goals norm_num
  all_goals try field_simp
  all_goals try ring

/-! ### The results -/

/-- C94: the 22 formulas used for an aperture with central obscuration `eps` (`0 ≤ eps < 1`) are orthonormal on the annulus `eps < r < 1`: the average over the annulus of the product of
formula `i` and formula `j` is 1 if `i = j` and 0 otherwise. -/
theorem C94_orthonormal (eps : ℝ) (h0 : 0 ≤ eps) (h1 : eps < 1) (i j : ℕ) (hi1 : 1 ≤ i) (hi2 : i ≤ 22) (hj1 : 1 ≤ j) (hj2 : j ≤ 22) :
    ∃ zi zj : ℝ → ℝ → ℝ, (∀ r t, annular eps r t i = some (zi r t)) ∧ (∀ r t, annular eps r t j = some (zj r t)) ∧
      1 / (Real.pi * (1 - eps ^ 2)) * ∫ t in (0 : ℝ)..(2 * Real.pi), ∫ r in eps..1, zi r t * zj r t * r = if i = j then 1 else 0 := by
  refine ⟨_, _, fun r t => annular_factor eps r t i hi1 hi2, fun r t => annular_factor eps r t j hj1 hj2, ?_⟩
  have e : ∀ r t : ℝ, scale eps (radOf i) * radP eps (radOf i) r * angF (angOf i) t * (scale eps (radOf j) * radP eps (radOf j) r * angF (angOf j) t) * r =
      (scale eps (radOf i) * scale eps (radOf j) * (angF (angOf i) t * angF (angOf j) t)) * (radP eps (radOf i) r * radP eps (radOf j) r * r) := by
    intro r t; ring
  simp only [e]
  have e2 : ∀ t : ℝ, ∫ r in eps..1, (scale eps (radOf i) * scale eps (radOf j) * (angF (angOf i) t * angF (angOf j) t)) * (radP eps (radOf i) r * radP eps (radOf j) r * r) =
      (scale eps (radOf i) * scale eps (radOf j) * (∫ r in eps..1, radP eps (radOf i) r * radP eps (radOf j) r * r)) * (angF (angOf i) t * angF (angOf j) t) := by
    intro t; rw [intervalIntegral.integral_const_mul]; ring
  simp only [e2]
  rw [intervalIntegral.integral_const_mul]
  have ok : ∀ k, AngOk (angOf k) := by
    intro k
    unfold angOf
    split <;> simp [AngOk]
  rw [ang_ortho _ _ (ok i) (ok j)]
  have hpi : Real.pi ≠ 0 := Real.pi_ne_zero
  have hne : 1 - eps ^ 2 ≠ 0 := by nlinarith
  by_cases hij : i = j
  · subst hij
    rw [radP_self eps h0 h1 i hi1 hi2, if_pos rfl, if_pos rfl]
    by_cases ha : angOf i = none
    · rw [if_pos ha, if_pos ha]; field_simp
    · rw [if_neg ha, if_neg ha]; field_simp
  · rw [if_neg hij]
    by_cases hang : angOf i = angOf j
    · have hm : (radOf i).1 = (radOf j).1 ∧ (radOf i).2 ≠ (radOf j).2 := by
        have key : ∀ a ∈ List.range 23, ∀ b ∈ List.range 23, 1 ≤ a → 1 ≤ b → a ≠ b → angOf a = angOf b → (radOf a).1 = (radOf b).1 ∧ (radOf a).2 ≠ (radOf b).2 := by decide +kernel
        exact key i (by simp; omega) j (by simp; omega) hi1 hj1 hij hang
      rcases lt_or_gt_of_ne hm.2 with h | h
      · rw [radP_cross eps i j hi1 hi2 hj1 hj2 hm.1 h]; ring
      · have := radP_cross eps j i hj1 hj2 hi1 hi2 hm.1.symm h
        simp only [mul_comm (radP eps (radOf j) _) (radP eps (radOf i) _)] at this
        rw [this]; ring
    · rw [if_neg hang]; ring

/-- C94: without obscuration the formulas are the Noll polynomials that the unobscured branch uses. -/
theorem C94_unobscured (k : ℕ) (h1 : 1 ≤ k) (h2 : k ≤ 22) : ∃ s z, noll 22 = .ok s ∧ s.zl k = some z ∧ ∀ r t, annular 0 r t k = some (zernVal z r t) := by
  obtain ⟨s, hs, _, _, hsl⟩ := C54_index 22
  have slot : Slot k ((radOf k).1 + 2 * (radOf k).2) (radOf k).1 := by
    interval_cases k <;> simp [Slot, radOf, T]
  obtain ⟨b, hn, ha, hv, hz⟩ := entry_spec slot
  have hb : b = (radOf k).2 := by omega
  subst hb
  refine ⟨s, _, hs, hsl k _ _ h1 h2 slot, fun r t => ?_⟩
  rw [annular_factor 0 r t k h1 h2, hz]
  congr 1
  have h8 : Real.sqrt 8 = 2 * Real.sqrt 2 := by
    rw [show (8 : ℝ) = 2 ^ 2 * 2 by norm_num, Real.sqrt_mul (by norm_num), Real.sqrt_sq (by norm_num)]
  have h12 : Real.sqrt 12 = 2 * Real.sqrt 3 := by
    rw [show (12 : ℝ) = 2 ^ 2 * 3 by norm_num, Real.sqrt_mul (by norm_num), Real.sqrt_sq (by norm_num)]
  have h4 : Real.sqrt 4 = 2 := by
    rw [show (4 : ℝ) = 2 ^ 2 by norm_num, Real.sqrt_sq (by norm_num)]
  rw [ha, hv]
  clear hz ha hv hsl slot hn
  interval_cases k <;> simp only [radOf, angOf, scale, radP, coef, rad, angF, sum_range_succ, range_zero, sum_empty] <;> norm_num [Nat.choose, h8, h12, h4, angF] <;> (try ring_nf) <;> (try simp)

/-- A list of requested modes, all of them available for an obscured aperture. -/
def Valid (qs : List (ℕ × ℝ)) : Prop := qs ≠ [] ∧ ∀ q ∈ qs, 1 ≤ q.1 ∧ q.1 ≤ 22

theorem foldl_max_le (qs : List (ℕ × ℝ)) (b : ℕ) (h : ∀ q ∈ qs, q.1 ≤ b) (m : ℕ) (hm : m ≤ b) : qs.foldl (fun m p => max m p.1) m ≤ b := by
  induction qs generalizing m with
  | nil => exact hm
  | cons q qs ih => exact ih (fun p hp => h p (List.mem_cons_of_mem _ hp)) _ (max_le hm (h q List.mem_cons_self))

theorem le_foldl_max (qs : List (ℕ × ℝ)) (m : ℕ) : m ≤ qs.foldl (fun m p => max m p.1) m ∧ ∀ q ∈ qs, q.1 ≤ qs.foldl (fun m p => max m p.1) m := by
  induction qs generalizing m with
  | nil => simp
  | cons q qs ih =>
    rw [List.foldl_cons]
    have := ih (max m q.1)
    refine ⟨(le_max_left _ _).trans this.1, ?_⟩
    intro p hp
    rcases List.mem_cons.mp hp with rfl | hp
    · exact (le_max_right _ _).trans this.1
    · exact this.2 p hp

theorem maxIndex_ok (qs : List (ℕ × ℝ)) (h : qs ≠ []) : ∃ m, maxIndex qs = .ok m ∧ (∀ q ∈ qs, q.1 ≤ m) ∧ ∀ b, (∀ q ∈ qs, q.1 ≤ b) → m ≤ b := by
  rcases qs with _ | ⟨q, qs⟩
  · exact absurd rfl h
  refine ⟨_, rfl, ?_, ?_⟩
  · intro p hp
    rcases List.mem_cons.mp hp with rfl | hp
    · exact (le_foldl_max qs _).1
    · exact (le_foldl_max qs _).2 p hp
  · intro b hb
    exact foldl_max_le qs b (fun p hp => hb p (List.mem_cons_of_mem _ hp)) _ (hb q List.mem_cons_self)

theorem pixel_obscured (obs : ℝ → ℝ → ℝ → List (ℕ × ℝ) → Except PyErr ℝ) (qs : List (ℕ × ℝ)) (hq : Valid qs) (eps x y : ℝ) (he : eps ≠ 0) :
    pixel obs qs eps x y = obs eps (radius x y) (angle x y) qs := by
  obtain ⟨m, hm, _, hle⟩ := maxIndex_ok qs hq.1
  have : m ≤ 22 := hle 22 fun q h => (hq.2 q h).2
  unfold pixel
  simp only [hm, bind, Except.bind]
  rw [if_neg (by omega), if_neg he]

/-- C94: prop_zernikes on an obscured aperture returns, at every pixel, the sum over the requested modes of coefficient times formula. -/
theorem C94_proper_sum (n : ℕ) (dx : ℝ) (qs : List (ℕ × ℝ)) (hq : Valid qs) (eps : ℝ) (he : eps ≠ 0) (j i : Fin n) :
    properMap n dx qs eps j i = .ok (qs.map fun q => q.2 * (annular eps (radius (coord n dx 0 i) (coord n dx 0 j)) (angle (coord n dx 0 i) (coord n dx 0 j)) q.1).getD 0).sum := by
  unfold properMap
  rw [pixel_obscured _ _ hq _ _ _ he]
  generalize radius (coord n dx 0 i) (coord n dx 0 j) = r
  generalize angle (coord n dx 0 i) (coord n dx 0 j) = t
  have : ∀ (qs : List (ℕ × ℝ)) (ab : Option ℝ), (∀ q ∈ qs, 1 ≤ q.1 ∧ q.1 ≤ 22) →
      properObscured eps r t ab qs = .ok (qs.map fun q => q.2 * (annular eps r t q.1).getD 0).sum := by
    intro qs
    induction qs with
    | nil => intro _ _; rfl
    | cons q qs ih =>
      intro ab h
      unfold properObscured
      have hq := annular_factor eps r t q.1 (h q List.mem_cons_self).1 (h q List.mem_cons_self).2
      rw [hq]
      simp only [Option.some_or, ih _ fun p hp => h p (List.mem_cons_of_mem _ hp), Except.map, List.map_cons, List.sum_cons, hq, Option.getD_some]
  exact this qs none hq.2

/-- C94: propcustom_zernikes on an obscured aperture returns only the last requested mode: the line that adds to the map stands after the loop. -/
theorem C94_custom_last (n : ℕ) (dx : ℝ) (c : Util.Centering) (qs : List (ℕ × ℝ)) (q : ℕ × ℝ) (hq : Valid (qs ++ [q])) (eps : ℝ) (he : eps ≠ 0) (j i : Fin n) :
    ∃ off, off = (if c = .interpixel then dx / 2 else 0) ∧ customMap n dx c (qs ++ [q]) eps j i =
      .ok (q.2 * (annular eps (radius (coord n dx off i) (coord n dx off j)) (angle (coord n dx off i) (coord n dx off j)) q.1).getD 0) := by
  refine ⟨_, rfl, ?_⟩
  unfold customMap
  dsimp only
  rw [pixel_obscured _ _ hq _ _ _ he]
  generalize radius _ _ = r
  generalize angle _ _ = t
  have hk := hq.2 q (by simp)
  have hf := annular_factor eps r t q.1 hk.1 hk.2
  unfold customObscured lastAb
  rw [List.foldl_append, List.foldl_cons, List.foldl_nil, hf]
  simp

/-- C94: an index above 22 is refused by both functions on an obscured aperture. -/
theorem C94_refused (n : ℕ) (dx : ℝ) (c : Util.Centering) (qs : List (ℕ × ℝ)) (eps : ℝ) (he : eps ≠ 0) (q : ℕ × ℝ) (hq : q ∈ qs) (h : 22 < q.1) (j i : Fin n) :
    properMap n dx qs eps j i = .error .valueError ∧ customMap n dx c qs eps j i = .error .valueError := by
  obtain ⟨m, hm, hle, _⟩ := maxIndex_ok qs (List.ne_nil_of_mem hq)
  have : 22 < m := lt_of_lt_of_le h (hle q hq)
  constructor
  · unfold properMap pixel
    simp only [hm, bind, Except.bind]
    rw [if_pos ⟨he, this⟩]
  · unfold customMap pixel
    simp only [hm, bind, Except.bind]
    rw [if_pos ⟨he, this⟩]

/-- C94 is violated by propcustom_zernikes: on a 2 x 2 grid with `eps = 1/2`, asking for one metre of piston and one metre of focus returns the map of focus alone, which differs from the sum
at every pixel. -/
theorem C94_custom_violated : ∃ (n : ℕ) (dx : ℝ) (qs : List (ℕ × ℝ)), 0 < n ∧ Valid qs ∧ ∀ (j i : Fin n) (v : ℝ), customMap n dx .pixel qs (1 / 2) j i = .ok v →
    v ≠ (qs.map fun q => q.2 * (annular (1 / 2) (radius (coord n dx 0 i) (coord n dx 0 j)) (angle (coord n dx 0 i) (coord n dx 0 j)) q.1).getD 0).sum := by
  refine ⟨2, 1, [(1, 1), (4, 1)], by norm_num, ⟨by simp, by simp⟩, ?_⟩
  intro j i v hv
  obtain ⟨off, ho, h⟩ := C94_custom_last 2 1 .pixel [(1, 1)] (4, 1) ⟨by simp, by simp⟩ (1 / 2) (by norm_num) j i
  rw [if_neg (by simp)] at ho
  subst ho
  rw [List.singleton_append] at h
  rw [h] at hv
  obtain rfl := Except.ok.inj hv
  simp [annular, ann1]

/-- Requests meet the hypotheses: piston, focus and spherical aberration. -/
example : Valid [(1, 2), (4, -1), (11, 1 / 2)] := ⟨by simp, by simp⟩

end Verif.ZernMap
