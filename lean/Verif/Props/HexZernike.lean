import Verif.Model.HexZernike
import Mathlib.Analysis.SpecialFunctions.Integrals.Basic
import Mathlib.Analysis.SpecialFunctions.Trigonometric.Deriv

/-!
# C125: hexagonal Zernike polynomials

Specification: the mean of a function over the regular hexagon with vertices at distance 1 from its centre, one of them on the x-axis, as an iterated integral.
-/

namespace Verif.HexZ
open Verif MeasureTheory

/-- The mean over the hexagon `{|y| ≤ √3/2, |x| ≤ 1 - |y|/√3}`, whose area is `3√3/2`. -/
noncomputable def hexMean (f : ℝ → ℝ → ℝ) : ℝ := (∫ y in (-(√3 / 2))..(√3 / 2), ∫ x in (-(1 - |y| / √3))..(1 - |y| / √3), f x y) / (3 * √3 / 2)

/-- The 22 polynomials without their constant factors, as lists of terms `c · x^a · y^b` (written out from `hexZ`; `hexZ_eq` proves them right). -/
def pol : ℕ → List (ℕ × ℕ × ℚ)
  | 1 => [(0, 0, 1)]
  | 2 => [(1, 0, 1)]
  | 3 => [(0, 1, 1)]
  | 4 => [(2, 0, 12), (0, 2, 12), (0, 0, -5)]
  | 5 => [(1, 1, 2)]
  | 6 => [(2, 0, 1), (0, 2, -1)]
  | 7 => [(2, 1, 25), (0, 3, 25), (0, 1, -14)]
  | 8 => [(3, 0, 25), (1, 2, 25), (1, 0, -14)]
  | 9 => [(2, 1, 3), (0, 3, -1)]
  | 10 => [(3, 0, 1), (1, 2, -3)]
  | 11 => [(4, 0, 6020), (2, 2, 12040), (2, 0, -5140), (0, 4, 6020), (0, 2, -5140), (0, 0, 737)]
  | 12 => [(4, 0, 392), (2, 0, -249), (0, 4, -392), (0, 2, 249)]
  | 13 => [(3, 1, 784), (1, 3, 784), (1, 1, -498)]
  | 14 => [(4, 0, -567), (2, 2, -32478), (2, 0, 2970), (0, 4, 11393), (0, 2, -2970)]
  | 15 => [(3, 1, 33612), (1, 3, -9692), (1, 1, -5940)]
  | 16 => [(5, 0, 309540), (3, 2, 619080), (3, 0, -322280), (1, 4, 309540), (1, 2, -322280), (1, 0, 70369)]
  | 17 => [(4, 1, 309540), (2, 3, 619080), (2, 1, -322280), (0, 5, 309540), (0, 3, -322280), (0, 1, 70369)]
  | 18 => [(5, 0, 4365), (3, 2, -8730), (3, 0, -3322), (1, 4, -13095), (1, 2, 9966)]
  | 19 => [(4, 1, 105), (2, 3, 70), (2, 1, -66), (0, 5, -35), (0, 3, 22)]
  | 20 => [(5, 0, -1019604833 / 100000000), (3, 2, -4595178131 / 50000000), (3, 0, 330887969 / 25000000), (1, 4, 1364110699 / 100000000), (1, 2, 330887969 / 25000000), (1, 0, -27200031 / 12500000)]
  | 21 => [(4, 1, 4595178131 / 100000000), (2, 3, -1364110699 / 50000000), (2, 1, -330887969 / 25000000), (0, 5, 2211462599 / 100000000), (0, 3, -330887969 / 25000000), (0, 1, 27200031 / 12500000)]
  | 22 => [(6, 0, 28006997 / 400000), (4, 2, 84020991 / 400000), (4, 0, -1861593289 / 20000000), (2, 4, 84020991 / 400000), (2, 2, -1861593289 / 10000000), (2, 0, 1657390387 / 50000000), (0, 6, 28006997 / 400000), (0, 4, -1861593289 / 20000000), (0, 2, 1657390387 / 50000000), (0, 0, -247059083 / 100000000)]
  | _ => []

/-- The value of a list of terms. -/
def evalP (p : List (ℕ × ℕ × ℚ)) (x y : ℝ) : ℝ := (p.map fun q => (q.2.2 : ℝ) * (x ^ q.1 * y ^ q.2.1)).sum

/-- The constant factors. -/
noncomputable def cst : ℕ → ℝ
  | 2 => 2 * √(6 / 5)
  | 3 => 2 * √(6 / 5)
  | 4 => √(5 / 43)
  | 5 => 2 * √(15 / 7)
  | 6 => 2 * √(15 / 7)
  | 7 => 4 * √(42 / 3685)
  | 8 => 4 * √(42 / 3685)
  | 9 => (4 / 3) * √10
  | 10 => 4 * √(70 / 103)
  | 11 => 3 / √1072205
  | 12 => 30 / √492583
  | 13 => 30 / √492583
  | 14 => (10 / 3) * √(7 / 99258181)
  | 15 => (10 / 3) * √(7 / 99258181)
  | 16 => 2 * √(6 / 1089382547)
  | 17 => 2 * √(6 / 1089382547)
  | 18 => 4 * √(385 / 295894589)
  | 19 => 4 * √(5 / 97)
  | _ => 1

/-- The squares of the constant factors. -/
def cst2 : ℕ → ℚ
  | 2 => 4 * (6 / 5)
  | 3 => 4 * (6 / 5)
  | 4 => 5 / 43
  | 5 => 4 * (15 / 7)
  | 6 => 4 * (15 / 7)
  | 7 => 16 * (42 / 3685)
  | 8 => 16 * (42 / 3685)
  | 9 => 160 / 9
  | 10 => 16 * (70 / 103)
  | 11 => 9 / 1072205
  | 12 => 900 / 492583
  | 13 => 900 / 492583
  | 14 => (100 / 9) * (7 / 99258181)
  | 15 => (100 / 9) * (7 / 99258181)
  | 16 => 4 * (6 / 1089382547)
  | 17 => 4 * (6 / 1089382547)
  | 18 => 16 * (385 / 295894589)
  | 19 => 16 * (5 / 97)
  | _ => 1

theorem cst_sq (k : ℕ) (h1 : 1 ≤ k) (h2 : k ≤ 22) : cst k ^ 2 = (cst2 k : ℝ) := by
  interval_cases k <;> simp only [cst, cst2, mul_pow, div_pow, one_pow] <;> push_cast <;> (try rw [Real.sq_sqrt (by norm_num)]) <;> norm_num

/-- The polynomial with index `k` at `(x, y)`. -/
noncomputable def H (k : ℕ) (x y : ℝ) : ℝ := cst k * evalP (pol k) x y

section trig
variable {r t x y : ℝ}

theorem ang_step (k : ℕ) {c s : ℝ} (hx : r * Real.cos t = x) (hy : r * Real.sin t = y) (hc : r ^ k * Real.cos (k * t) = c) (hs : r ^ k * Real.sin (k * t) = s) :
    r ^ (k + 1) * Real.cos ((k + 1 : ℕ) * t) = c * x - s * y ∧ r ^ (k + 1) * Real.sin ((k + 1 : ℕ) * t) = s * x + c * y := by
  have e : ((k + 1 : ℕ) : ℝ) * t = k * t + t := by push_cast; ring
  rw [e, Real.cos_add, Real.sin_add, ← hx, ← hy, ← hc, ← hs, pow_succ]
  constructor <;> ring

theorem ang_all (hx : r * Real.cos t = x) (hy : r * Real.sin t = y) :
    r ^ 2 = x ^ 2 + y ^ 2 ∧ (r ^ 2 * Real.cos (2 * t) = x ^ 2 - y ^ 2 ∧ r ^ 2 * Real.sin (2 * t) = 2 * x * y) ∧
    (r ^ 3 * Real.cos (3 * t) = x ^ 3 - 3 * x * y ^ 2 ∧ r ^ 3 * Real.sin (3 * t) = 3 * x ^ 2 * y - y ^ 3) ∧
    (r ^ 4 * Real.cos (4 * t) = x ^ 4 - 6 * x ^ 2 * y ^ 2 + y ^ 4 ∧ r ^ 4 * Real.sin (4 * t) = 4 * x ^ 3 * y - 4 * x * y ^ 3) ∧
    (r ^ 5 * Real.cos (5 * t) = x ^ 5 - 10 * x ^ 3 * y ^ 2 + 5 * x * y ^ 4 ∧ r ^ 5 * Real.sin (5 * t) = 5 * x ^ 4 * y - 10 * x ^ 2 * y ^ 3 + y ^ 5) := by
  have h1 := ang_step 1 hx hy (c := x) (s := y) (by simpa using hx) (by simpa using hy)
  have h2 := ang_step 2 hx hy h1.1 h1.2
  have h3 := ang_step 3 hx hy h2.1 h2.2
  have h4 := ang_step 4 hx hy h3.1 h3.2
  norm_num at h1 h2 h3 h4
  refine ⟨?_, ⟨?_, ?_⟩, ⟨?_, ?_⟩, ⟨?_, ?_⟩, ?_, ?_⟩
  · rw [← hx, ← hy]; linear_combination (-(r ^ 2)) * Real.sin_sq_add_cos_sq t
  · rw [h1.1]; ring
  · rw [h1.2]; ring
  · rw [h2.1]; ring
  · rw [h2.2]; ring
  · rw [h3.1]; ring
  · rw [h3.2]; ring
  · rw [h4.1]; ring
  · rw [h4.2]; ring

/-- The branch of the code with index `k` computes the polynomial `H k` of the Cartesian coordinates. -/
theorem hexZ_eq (k : ℕ) (h1 : 1 ≤ k) (h2 : k ≤ 22) (hx : r * Real.cos t = x) (hy : r * Real.sin t = y) : hexZ k r t = some (H k x y) := by
  obtain ⟨hr, ⟨c2, s2⟩, ⟨c3, s3⟩, ⟨c4, s4⟩, c5, s5⟩ := ang_all hx hy
  interval_cases k <;> simp only [hexZ, Nat.cast_ofNat, Nat.cast_one, H, cst, pol, evalP, List.map_cons, List.map_nil, List.sum_cons, List.sum_nil, Option.some.injEq] <;> push_cast
  · ring
  · linear_combination (2 * √(6 / 5)) * hx
  · linear_combination (2 * √(6 / 5)) * hy
  · linear_combination (√(5 / 43) * 12) * hr
  · linear_combination (2 * √(15 / 7)) * s2
  · linear_combination (2 * √(15 / 7)) * c2
  · linear_combination (4 * √(42 / 3685) * (25 * r ^ 2 - 14)) * hy + (4 * √(42 / 3685) * 25 * y) * hr
  · linear_combination (4 * √(42 / 3685) * (25 * r ^ 2 - 14)) * hx + (4 * √(42 / 3685) * 25 * x) * hr
  · linear_combination (4 / 3 * √10) * s3
  · linear_combination (4 * √(70 / 103)) * c3
  · linear_combination (3 / √1072205 * (6020 * (r ^ 2 + x ^ 2 + y ^ 2) - 5140)) * hr
  · linear_combination (30 / √492583 * (392 * r ^ 2 - 249)) * c2 + (30 / √492583 * 392 * (x ^ 2 - y ^ 2)) * hr
  · linear_combination (30 / √492583 * (392 * r ^ 2 - 249)) * s2 + (30 / √492583 * 392 * (2 * x * y)) * hr
  · linear_combination (10 / 3 * √(7 / 99258181) * 10 * (297 - 598 * r ^ 2)) * c2 + (10 / 3 * √(7 / 99258181) * 10 * (-598) * (x ^ 2 - y ^ 2)) * hr + (10 / 3 * √(7 / 99258181) * 5413) * c4
  · linear_combination (10 / 3 * √(7 / 99258181) * (-10) * (297 - 598 * r ^ 2)) * s2 + (10 / 3 * √(7 / 99258181) * (-10) * (-598) * (2 * x * y)) * hr + (10 / 3 * √(7 / 99258181) * 5413) * s4
  · linear_combination (2 * √(6 / 1089382547) * (70369 - 322280 * r ^ 2 + 309540 * r ^ 4)) * hx + (2 * √(6 / 1089382547) * x * (-322280 + 309540 * (r ^ 2 + x ^ 2 + y ^ 2))) * hr
  · linear_combination (2 * √(6 / 1089382547) * (70369 - 322280 * r ^ 2 + 309540 * r ^ 4)) * hy + (2 * √(6 / 1089382547) * y * (-322280 + 309540 * (r ^ 2 + x ^ 2 + y ^ 2))) * hr
  · linear_combination (4 * √(385 / 295894589) * (4365 * r ^ 2 - 3322)) * c3 + (4 * √(385 / 295894589) * 4365 * (x ^ 3 - 3 * x * y ^ 2)) * hr
  · linear_combination (4 * √(5 / 97) * (35 * r ^ 2 - 22)) * s3 + (4 * √(5 / 97) * 35 * (3 * x ^ 2 * y - y ^ 3)) * hr
  · linear_combination (-2.17600248 + 13.23551876 * r ^ 2 - 16.15533716 * r ^ 4) * hx + (x * (13.23551876 - 16.15533716 * (r ^ 2 + x ^ 2 + y ^ 2))) * hr + 5.95928883 * c5
  · linear_combination (2.17600248 - 13.23551876 * r ^ 2 + 16.15533716 * r ^ 4) * hy + (y * (-13.23551876 + 16.15533716 * (r ^ 2 + x ^ 2 + y ^ 2))) * hr + 5.95928883 * s5
  · linear_combination (70.01749250 * (r ^ 4 + r ^ 2 * (x ^ 2 + y ^ 2) + (x ^ 2 + y ^ 2) ^ 2) - 93.07966445 * (r ^ 2 + x ^ 2 + y ^ 2) + 33.14780774) * hr

end trig

/-- half width -/
noncomputable def halfW (y : ℝ) : ℝ := 1 - |y| / √3

theorem halfW_cont : Continuous halfW := by unfold halfW; fun_prop

/-- The inner integral of a term. -/
noncomputable def inner (a b : ℕ) (y : ℝ) : ℝ := y ^ b * ((halfW y ^ (a + 1) - (-halfW y) ^ (a + 1)) / (a + 1))

theorem inner_cont (a b : ℕ) : Continuous (inner a b) := by
  have := halfW_cont
  unfold inner
  fun_prop

theorem inner_eval (p : List (ℕ × ℕ × ℚ)) (y : ℝ) :
    ∫ x in (-halfW y)..(halfW y), evalP p x y = (p.map fun q => (q.2.2 : ℝ) * inner q.1 q.2.1 y).sum := by
  induction p with
  | nil => simp [evalP]
  | cons q p ih =>
    have hc : ∀ p : List (ℕ × ℕ × ℚ), Continuous fun x => evalP p x y := by
      intro p
      induction p with
      | nil => simpa [evalP] using continuous_const
      | cons q p ih =>
        have : (fun x => evalP (q :: p) x y) = fun x => (q.2.2 : ℝ) * (x ^ q.1 * y ^ q.2.1) + evalP p x y := by funext x; simp [evalP]
        rw [this]
        fun_prop
    have e : (fun x => evalP (q :: p) x y) = fun x => (q.2.2 : ℝ) * (x ^ q.1 * y ^ q.2.1) + evalP p x y := by funext x; simp [evalP]
    rw [e, intervalIntegral.integral_add ((by fun_prop : Continuous fun x : ℝ => (q.2.2 : ℝ) * (x ^ q.1 * y ^ q.2.1)).intervalIntegrable _ _) ((hc p).intervalIntegrable _ _), ih]
    rw [List.map_cons, List.sum_cons, intervalIntegral.integral_const_mul, intervalIntegral.integral_mul_const, integral_pow]
    unfold inner
    ring

theorem outer_eval (p : List (ℕ × ℕ × ℚ)) (l u : ℝ) :
    ∫ y in l..u, (p.map fun q => (q.2.2 : ℝ) * inner q.1 q.2.1 y).sum = (p.map fun q => (q.2.2 : ℝ) * ∫ y in l..u, inner q.1 q.2.1 y).sum := by
  induction p with
  | nil => simp
  | cons q p ih =>
    have hc : ∀ p : List (ℕ × ℕ × ℚ), Continuous fun y => (p.map fun q => (q.2.2 : ℝ) * inner q.1 q.2.1 y).sum := by
      intro p
      induction p with
      | nil => simpa using continuous_const
      | cons q p ih =>
        have := inner_cont q.1 q.2.1
        simp only [List.map_cons, List.sum_cons]
        fun_prop
    simp only [List.map_cons, List.sum_cons]
    rw [intervalIntegral.integral_add (((inner_cont q.1 q.2.1).const_mul _).intervalIntegrable _ _) ((hc p).intervalIntegrable _ _), ih, intervalIntegral.integral_const_mul]

/-- `∫_0^{1/2} v^b (1-v)^m` -/
def beta : ℕ → ℕ → ℚ
  | b, 0 => (1 / 2) ^ (b + 1) / (b + 1)
  | b, m + 1 => beta b m - beta (b + 1) m

theorem beta_eq (b m : ℕ) : ∫ v in (0 : ℝ)..(1 / 2), v ^ b * (1 - v) ^ m = (beta b m : ℝ) := by
  induction m generalizing b with
  | zero =>
    simp only [pow_zero, mul_one, integral_pow, beta]
    push_cast
    simp
  | succ m ih =>
    have e : (fun v : ℝ => v ^ b * (1 - v) ^ (m + 1)) = fun v => v ^ b * (1 - v) ^ m - v ^ (b + 1) * (1 - v) ^ m := by funext v; ring
    rw [e, intervalIntegral.integral_sub ((by fun_prop : Continuous fun v : ℝ => v ^ b * (1 - v) ^ m).intervalIntegrable _ _)
      ((by fun_prop : Continuous fun v : ℝ => v ^ (b + 1) * (1 - v) ^ m).intervalIntegrable _ _), ih, ih, beta]
    push_cast
    rfl

/-- The moments in general. -/
def mom (a b : ℕ) : ℚ := if a % 2 = 0 ∧ b % 2 = 0 then 8 / 3 * 3 ^ (b / 2) / (a + 1) * beta b (a + 1) else 0

theorem inner_odd_a (a b : ℕ) (h : a % 2 = 1) (y : ℝ) : inner a b y = 0 := by
  have : Even (a + 1) := Nat.even_iff.mpr (by omega)
  unfold inner
  rw [this.neg_pow]
  simp

theorem moment (a b : ℕ) : (∫ y in (-(√3 / 2))..(√3 / 2), inner a b y) / (3 * √3 / 2) = (mom a b : ℝ) := by
  have h3 : 0 < √3 := Real.sqrt_pos.mpr (by norm_num)
  have hq : √3 ^ 2 = 3 := Real.sq_sqrt (by norm_num)
  by_cases ha : a % 2 = 0
  swap
  · rw [mom, if_neg (fun h => ha h.1)]
    simp [inner_odd_a a b (by omega)]
  have hneg : ∀ y, inner a b (-y) = (-1) ^ b * inner a b y := by
    intro y
    unfold inner halfW
    rw [abs_neg, neg_pow y b]
    ring
  have split : ∫ y in (-(√3 / 2))..(√3 / 2), inner a b y = (1 + (-1) ^ b) * ∫ y in (0 : ℝ)..(√3 / 2), inner a b y := by
    rw [← intervalIntegral.integral_add_adjacent_intervals ((inner_cont a b).intervalIntegrable _ 0) ((inner_cont a b).intervalIntegrable 0 _)]
    have := intervalIntegral.integral_comp_neg (a := 0) (b := √3 / 2) (inner a b)
    rw [neg_zero] at this
    rw [← this]
    simp only [hneg]
    rw [intervalIntegral.integral_const_mul]
    ring
  rw [split]
  by_cases hb : b % 2 = 0
  swap
  · rw [mom, if_neg (fun h => hb h.2), Odd.neg_one_pow (Nat.odd_iff.mpr (by omega))]
    simp
  rw [Even.neg_one_pow (Nat.even_iff.mpr hb), mom, if_pos ⟨ha, hb⟩]
  have e1 : ∫ y in (0 : ℝ)..(√3 / 2), inner a b y = √3 * ∫ v in (0 : ℝ)..(1 / 2), inner a b (√3 * v) := by
    have := intervalIntegral.mul_integral_comp_mul_left (a := 0) (b := 1 / 2) (f := inner a b) √3
    rw [this]
    congr 1 <;> ring
  have e2 : ∫ v in (0 : ℝ)..(1 / 2), inner a b (√3 * v) = ∫ v in (0 : ℝ)..(1 / 2), (2 * √3 ^ b / (a + 1)) * (v ^ b * (1 - v) ^ (a + 1)) := by
    apply intervalIntegral.integral_congr
    intro v hv
    rw [Set.uIcc_of_le (by norm_num)] at hv
    have ho : Odd (a + 1) := Nat.odd_iff.mpr (by omega)
    show inner a b (√3 * v) = _
    unfold inner halfW
    rw [abs_mul, abs_of_pos h3, abs_of_nonneg hv.1, mul_div_cancel_left₀ _ h3.ne', ho.neg_pow, mul_pow]
    ring
  rw [e1, e2, intervalIntegral.integral_const_mul, beta_eq]
  have hp : √3 ^ b = 3 ^ (b / 2) := by
    conv_lhs => rw [show b = 2 * (b / 2) by omega, pow_mul, hq]
  rw [hp]
  have ha1 : ((a : ℝ) + 1) ≠ 0 := by positivity
  push_cast
  field_simp
  ring

/-- The mean of a polynomial given by its terms. -/
def meanP (p : List (ℕ × ℕ × ℚ)) : ℚ := (p.map fun q => q.2.2 * mom q.1 q.2.1).sum

theorem hexMean_eval (p : List (ℕ × ℕ × ℚ)) : hexMean (evalP p) = (meanP p : ℝ) := by
  unfold hexMean
  have e : ∀ y : ℝ, ∫ x in (-(1 - |y| / √3))..(1 - |y| / √3), evalP p x y = (p.map fun q => (q.2.2 : ℝ) * inner q.1 q.2.1 y).sum := fun y => inner_eval p y
  simp only [e]
  rw [outer_eval, meanP, Rat.cast_list_sum, List.map_map, div_eq_mul_inv, ← List.sum_map_mul_right]
  congr 1
  apply List.map_congr_left
  intro q _
  simp only [Function.comp]
  push_cast
  rw [← moment]
  ring


/-- The product of two lists of terms. -/
def mulP (p q : List (ℕ × ℕ × ℚ)) : List (ℕ × ℕ × ℚ) := p.flatMap fun s => q.map fun t => (s.1 + t.1, s.2.1 + t.2.1, s.2.2 * t.2.2)

theorem evalP_append (p q : List (ℕ × ℕ × ℚ)) (x y : ℝ) : evalP (p ++ q) x y = evalP p x y + evalP q x y := by
  unfold evalP
  rw [List.map_append, List.sum_append]

theorem evalP_mul (p q : List (ℕ × ℕ × ℚ)) (x y : ℝ) : evalP (mulP p q) x y = evalP p x y * evalP q x y := by
  induction p with
  | nil => simp [mulP, evalP]
  | cons s p ih =>
    have e : mulP (s :: p) q = (q.map fun t => (s.1 + t.1, s.2.1 + t.2.1, s.2.2 * t.2.2)) ++ mulP p q := rfl
    rw [e, evalP_append, ih]
    have e2 : evalP (s :: p) x y = (s.2.2 : ℝ) * (x ^ s.1 * y ^ s.2.1) + evalP p x y := by simp [evalP]
    rw [e2, add_mul]
    congr 1
    unfold evalP
    rw [List.map_map, ← List.sum_map_mul_left]
    congr 1
    apply List.map_congr_left
    intro t _
    simp only [Function.comp]
    push_cast
    ring

theorem hexMean_mul_H (j k : ℕ) : hexMean (fun x y => H j x y * H k x y) = cst j * cst k * (meanP (mulP (pol j) (pol k)) : ℝ) := by
  rw [← hexMean_eval]
  have : (fun x y => H j x y * H k x y) = fun x y => (cst j * cst k) * evalP (mulP (pol j) (pol k)) x y := by
    funext x y
    rw [evalP_mul]
    unfold H
    ring
  rw [this]
  unfold hexMean
  simp only [intervalIntegral.integral_const_mul]
  ring

set_option maxRecDepth 10000 in
theorem gram_zero : ∀ j ∈ List.range 20, ∀ k ∈ List.range 20, j ≠ k → j ≠ 18 → k ≠ 18 → meanP (mulP (pol j) (pol k)) = 0 := by
  decide +kernel

set_option maxRecDepth 10000 in
theorem gram_one : ∀ k ∈ List.range 20, 1 ≤ k → k ≠ 18 → cst2 k * meanP (mulP (pol k) (pol k)) = 1 := by
  decide +kernel

set_option maxRecDepth 10000 in
/-- The squares of the remaining entries, for the indices 20 to 22. -/
theorem gram_near : ∀ j ∈ List.range 23, ∀ k ∈ List.range 23, 1 ≤ j → 1 ≤ k → j ≠ 18 → k ≠ 18 → j ≠ k → cst2 j * cst2 k * meanP (mulP (pol j) (pol k)) ^ 2 ≤ (1 / 10 ^ 8) ^ 2 := by
  decide +kernel

set_option maxRecDepth 10000 in
theorem gram_near_one : ∀ k ∈ List.range 23, 1 ≤ k → k ≠ 18 → |cst2 k * meanP (mulP (pol k) (pol k)) - 1| ≤ 1 / 10 ^ 8 := by
  decide +kernel

set_option maxRecDepth 10000 in
theorem gram_18 : cst2 18 * meanP (mulP (pol 18) (pol 18)) = 283639733 / 295894589 ∧ meanP (mulP (pol 10) (pol 18)) < 0 ∧
    (267 / 1000) ^ 2 < cst2 10 * cst2 18 * meanP (mulP (pol 10) (pol 18)) ^ 2 := by
  decide +kernel

/-- C125: the polynomials 1 to 17 and 19 are orthonormal over the hexagon: the mean of the product of two different ones is 0 and the mean square of each is 1. -/
theorem C125_orthonormal (j k : ℕ) (hj : 1 ≤ j ∧ j ≤ 19 ∧ j ≠ 18) (hk : 1 ≤ k ∧ k ≤ 19 ∧ k ≠ 18) :
    hexMean (fun x y => H j x y * H k x y) = if j = k then 1 else 0 := by
  rw [hexMean_mul_H]
  split_ifs with h
  · subst h
    have := gram_one j (List.mem_range.mpr (by omega)) hj.1 hj.2.2
    rw [← pow_two, cst_sq j hj.1 (by omega)]
    exact_mod_cast this
  · rw [gram_zero j (List.mem_range.mpr (by omega)) k (List.mem_range.mpr (by omega)) h hj.2.2 hk.2.2]
    simp

/-- C125: with 20 to 22, whose coefficients are rounded to eight decimals, all means are within 1e-8 of that. -/
theorem C125_near_orthonormal (j k : ℕ) (hj : 1 ≤ j ∧ j ≤ 22 ∧ j ≠ 18) (hk : 1 ≤ k ∧ k ≤ 22 ∧ k ≠ 18) :
    |hexMean (fun x y => H j x y * H k x y) - if j = k then 1 else 0| ≤ 1 / 10 ^ 8 := by
  rw [hexMean_mul_H]
  split_ifs with h
  · subst h
    have := gram_near_one j (List.mem_range.mpr (by omega)) hj.1 hj.2.2
    rw [← pow_two, cst_sq j hj.1 (by omega)]
    have h := (Rat.cast_le (K := ℝ)).mpr this
    push_cast at h
    exact h
  · have := gram_near j (List.mem_range.mpr (by omega)) k (List.mem_range.mpr (by omega)) hj.1 hk.1 hj.2.2 hk.2.2 h
    rw [sub_zero]
    apply abs_le_of_sq_le_sq _ (by norm_num)
    rw [mul_pow, mul_pow, cst_sq j hj.1 (by omega), cst_sq k hk.1 (by omega)]
    have h := (Rat.cast_le (K := ℝ)).mpr this
    push_cast at h
    exact h

/-- C125, violated: number 18 is neither normalised (mean square 0.9586, an RMS 2.1 % too small, where the docstring promises 1.5 %) nor orthogonal to number 10 (mean product below -0.267). -/
theorem C125_z18_violated : hexMean (fun x y => H 18 x y * H 18 x y) = 283639733 / 295894589 ∧ √(hexMean fun x y => H 18 x y * H 18 x y) < 0.98 ∧
    hexMean (fun x y => H 10 x y * H 18 x y) < -0.267 := by
  obtain ⟨h1, h2, h3⟩ := gram_18
  have e1 : hexMean (fun x y => H 18 x y * H 18 x y) = 283639733 / 295894589 := by
    rw [hexMean_mul_H, ← pow_two, cst_sq 18 (by norm_num) (by norm_num)]
    have h := congrArg (fun q : ℚ => (q : ℝ)) h1
    push_cast at h
    exact h
  refine ⟨e1, ?_, ?_⟩
  · rw [e1, Real.sqrt_lt' (by norm_num)]
    norm_num
  · rw [hexMean_mul_H]
    have hp : 0 < cst 10 * cst 18 := by simp only [cst]; positivity
    have hm : (meanP (mulP (pol 10) (pol 18)) : ℝ) < 0 := by exact_mod_cast h2
    have hs : (267 / 1000 : ℝ) ^ 2 < (cst 10 * cst 18 * (meanP (mulP (pol 10) (pol 18)) : ℝ)) ^ 2 := by
      rw [mul_pow, mul_pow, cst_sq 10 (by norm_num) (by norm_num), cst_sq 18 (by norm_num) (by norm_num)]
      have h := (Rat.cast_lt (K := ℝ)).mpr h3
      push_cast at h
      exact h
    have hneg := mul_neg_of_pos_of_neg hp hm
    have := abs_lt_of_sq_lt_sq' (a := cst 10 * cst 18 * (meanP (mulP (pol 10) (pol 18)) : ℝ)) (b := 267 / 1000)
    by_contra hcon
    push Not at hcon
    nlinarith

theorem H_cont (k : ℕ) : Continuous fun p : ℝ × ℝ => H k p.1 p.2 := by
  have : ∀ l : List (ℕ × ℕ × ℚ), Continuous fun p : ℝ × ℝ => evalP l p.1 p.2 := by
    intro l
    induction l with
    | nil => simpa [evalP] using continuous_const
    | cons q l ih =>
      have : (fun p : ℝ × ℝ => evalP (q :: l) p.1 p.2) = fun p => (q.2.2 : ℝ) * (p.1 ^ q.1 * p.2 ^ q.2.1) + evalP l p.1 p.2 := by funext p; simp [evalP]
      rw [this]
      fun_prop
  unfold H
  exact (this _).const_mul _

end Verif.HexZ
