import Verif.Model.Polar
import Mathlib.Analysis.SpecialFunctions.Trigonometric.Basic
import Mathlib.Tactic.Ring
import Mathlib.Tactic.FieldSimp
import Mathlib.Tactic.Linarith
import Mathlib.Tactic.LinearCombination

/-!
# C161: the polar coordinates

Specification: `IsPolar x y ρ θ` - the point `(x, y)` has the polar coordinates `ρ` and `θ`.
-/

namespace Verif.Polar

/-- `ρ ≥ 0` and `θ` in `(-π, π]` are polar coordinates of the point `(x, y)`. -/
structure IsPolar (x y ρ θ : ℝ) : Prop where
  nonneg : 0 ≤ ρ
  range : -Real.pi < θ ∧ θ ≤ Real.pi
  x_eq : ρ * Real.cos θ = x
  y_eq : ρ * Real.sin θ = y

theorem norm_eq (x y : ℝ) : ‖(⟨x, y⟩ : ℂ)‖ = Real.sqrt (x ^ 2 + y ^ 2) := by
  rw [Complex.norm_def, Complex.normSq_mk]; congr 1; ring

theorem polar_arctan2 (x y : ℝ) : IsPolar x y (Real.sqrt (x ^ 2 + y ^ 2)) (arctan2 y x) := by
  refine ⟨Real.sqrt_nonneg _, ⟨Complex.neg_pi_lt_arg _, Complex.arg_le_pi _⟩, ?_, ?_⟩
  · rw [← norm_eq]; exact Complex.norm_mul_cos_arg _
  · rw [← norm_eq]; exact Complex.norm_mul_sin_arg _

/-- C161. The polar coordinates of a point are unique, except the angle of the origin. -/
theorem C161_unique {x y ρ θ ρ' θ' : ℝ} (h : IsPolar x y ρ θ) (h' : IsPolar x y ρ' θ') : ρ = ρ' ∧ (x ≠ 0 ∨ y ≠ 0 → θ = θ') := by
  have hr : ρ = ρ' := by
    have e : ρ ^ 2 = ρ' ^ 2 := by
      have a1 : ρ ^ 2 = x ^ 2 + y ^ 2 := by
        rw [← h.x_eq, ← h.y_eq]; linear_combination -(ρ ^ 2) * Real.sin_sq_add_cos_sq θ
      have a2 : ρ' ^ 2 = x ^ 2 + y ^ 2 := by
        rw [← h'.x_eq, ← h'.y_eq]; linear_combination -(ρ' ^ 2) * Real.sin_sq_add_cos_sq θ'
      rw [a1, a2]
    exact (pow_left_inj₀ h.nonneg h'.nonneg two_ne_zero).mp e
  refine ⟨hr, fun hne => ?_⟩
  have hpos : 0 < ρ := by
    rcases h.nonneg.lt_or_eq with q | q
    · exact q
    · exfalso
      have := h.x_eq; have := h.y_eq
      rw [← q, zero_mul] at *
      rcases hne with w | w <;> exact w (by simp_all)
  have key : ∀ {r t : ℝ}, 0 < r → IsPolar x y r t → Complex.arg ⟨x, y⟩ = t := by
    intro r t hr q
    have : (⟨x, y⟩ : ℂ) = r * (Complex.cos t + Complex.sin t * Complex.I) := by
      apply Complex.ext
      · simp [← Complex.ofReal_cos, ← Complex.ofReal_sin, ← q.x_eq]
      · simp [← Complex.ofReal_cos, ← Complex.ofReal_sin, ← q.y_eq]
    rw [this]
    exact Complex.arg_mul_cos_add_sin_mul_I hr ⟨q.range.1, q.range.2⟩
  rw [← key hpos h, ← key (hr ▸ hpos) h']

/-- The entry of a value at an index; a number has that value at each index. -/
def Arg.at' : Arg → List ℕ → ℝ
  | .num x, _ => x
  | .list l, i => l.getD (i.getD 0 0) 0
  | .arr a, i => a.entry i

/-- Numbers, or arrays of one shape, or one of each: never a list. -/
def Accepted : Arg → Arg → Prop
  | .num _, .num _ => True
  | .num _, .arr _ => True
  | .arr _, .num _ => True
  | .arr a, .arr b => a.shape = b.shape
  | _, _ => False

/-- C161. `cart2pol` returns the polar coordinates, the radius first, of each point, in the shape of the arrays. -/
theorem C161_cart2pol (x y : Arg) (h : Accepted x y) : ∃ rho theta, cart2pol x y = .ok (rho, theta) ∧
    (∀ i, IsPolar (x.at' i) (y.at' i) (rho.at' i) (theta.at' i)) ∧
    ((∃ a b, x = .num a ∧ y = .num b) → (∃ r t, rho = .num r ∧ theta = .num t)) ∧
    (∀ a, x = .arr a ∨ y = .arr a → ∃ r t : ND, rho = .arr r ∧ theta = .arr t ∧ r.shape = a.shape ∧ t.shape = a.shape) := by
  cases x with
  | list l => exact absurd h (by cases y <;> simp [Accepted])
  | num x =>
    cases y with
    | list l => exact absurd h (by simp [Accepted])
    | num y => exact ⟨_, _, rfl, fun i => polar_arctan2 _ _, fun _ => ⟨_, _, rfl, rfl⟩, by simp⟩
    | arr b => exact ⟨_, _, rfl, fun i => polar_arctan2 _ _, by simp, fun a q => ⟨_, _, rfl, rfl, by simp_all, by simp_all⟩⟩
  | arr a =>
    cases y with
    | list l => exact absurd h (by simp [Accepted])
    | num y => exact ⟨_, _, rfl, fun i => polar_arctan2 _ _, by simp, fun a q => ⟨_, _, rfl, rfl, by simp_all, by simp_all⟩⟩
    | arr b =>
      have hs : a.shape = b.shape := h
      refine ⟨.arr ⟨a.shape, fun i => Real.sqrt (a.entry i ^ 2 + b.entry i ^ 2)⟩, .arr ⟨a.shape, fun i => arctan2 (b.entry i) (a.entry i)⟩, ?_, fun i => polar_arctan2 _ _, by simp, fun c q => ⟨_, _, rfl, rfl, ?_, ?_⟩⟩
      · have : shapesAgree (.arr a) (.arr b) = true := decide_eq_true hs
        rw [cart2pol, if_neg (by rw [this]; simp)]
        rfl
      all_goals rcases q with q | q <;> simp_all

/-- C161. What is refused: two arrays of different shapes, even those that numpy would broadcast, with ValueError; a list with TypeError. -/
theorem C161_refused (x y : Arg) : (∀ a b, x = .arr a → y = .arr b → a.shape ≠ b.shape → cart2pol x y = .error .valueError) ∧
    ((∃ l, x = .list l) ∨ (∃ l, y = .list l) → cart2pol x y = .error .typeError) := by
  constructor
  · rintro a b rfl rfl h
    simp [cart2pol, shapesAgree, h]
  · rintro (⟨l, rfl⟩ | ⟨l, rfl⟩)
    · cases y <;> simp [cart2pol, shapesAgree, elementwise, bind, Except.bind]
    · cases x <;> simp [cart2pol, shapesAgree, elementwise, bind, Except.bind]

/-- C161. For an array of one dimension with `N` entries the three grids have `N` rows and `N` columns; the entry in row `i` and column `j` has the coordinate `axis[j] / xStretch` along x and
`axis[i] / yStretch` along y: the radius and the angle are its polar coordinates, and the third grid is the square of the radius. -/
theorem C161_grids (a : ND) (N : ℕ) (ha : a.shape = [N]) (xs ys : ℝ) (_hx : xs ≠ 0) (_hy : ys ≠ 0) : ∃ r t q : ND,
    radialGrid (.arr a) (.num xs) (.num ys) = .ok r ∧ azimuthalGrid (.arr a) (.num xs) (.num ys) = .ok t ∧
    radialGridSquared (.arr a) (.num xs) (.num ys) = .ok q ∧ r.shape = [N, N] ∧ t.shape = [N, N] ∧ q.shape = [N, N] ∧
    ∀ i j, i < N → j < N → IsPolar (a.entry [j] / xs) (a.entry [i] / ys) (r.entry [i, j]) (t.entry [i, j]) ∧ q.entry [i, j] = r.entry [i, j] ^ 2 := by
  obtain ⟨s, e⟩ := a
  subst ha
  refine ⟨_, _, _, rfl, rfl, rfl, rfl, rfl, rfl, fun i j _ _ => ⟨polar_arctan2 _ _, ?_⟩⟩
  show _ = Real.sqrt _ ^ 2
  rw [Real.sq_sqrt (by positivity)]
  rfl

/-- C161 (violated: the documentation accepts any array_like axis, and the check accepts a list). A list is always refused, with TypeError. -/
theorem C161_list_violated (l : List ℝ) (xs ys : Arg) : oneD (.list l) = .ok () ∧ radialGrid (.list l) xs ys = .error .typeError ∧
    azimuthalGrid (.list l) xs ys = .error .typeError ∧ radialGridSquared (.list l) xs ys = .error .typeError := by
  refine ⟨rfl, ?_, ?_, ?_⟩ <;> cases xs <;> cases ys <;> rfl

/-- C161. Anything else than an array of one dimension and two numbers is refused with TypeError. -/
theorem C161_grids_refused (axis xs ys : Arg) (h : ¬ ∃ a N x y, axis = .arr a ∧ a.shape = [N] ∧ xs = .num x ∧ ys = .num y) :
    radialGrid axis xs ys = .error .typeError ∧ azimuthalGrid axis xs ys = .error .typeError ∧ radialGridSquared axis xs ys = .error .typeError := by
  have key : ∀ f, grid f axis xs ys = .error .typeError := by
    intro f
    cases axis with
    | num x => rfl
    | list l => cases xs <;> cases ys <;> rfl
    | arr a =>
      by_cases hs : a.shape.length = 1
      · cases xs <;> cases ys <;> simp only [grid, oneD, hs, if_true, realScalar, bind, Except.bind]
        obtain ⟨N, hN⟩ := List.length_eq_one_iff.mp hs
        exact absurd ⟨a, N, _, _, rfl, hN, rfl, rfl⟩ h
      · simp [grid, oneD, hs, bind, Except.bind]
  exact ⟨key _, key _, key _⟩

/-- C161. `sind` and `cosd` of a number: the point at that angle in degrees on the unit circle; a whole turn is 360, and 90 degrees exchange them. -/
theorem C161_degrees (x : ℝ) : ∃ s c, sind (.num x) = .ok s ∧ cosd (.num x) = .ok c ∧ s ^ 2 + c ^ 2 = 1 ∧
    sind (.num (x + 360)) = .ok s ∧ cosd (.num (x + 360)) = .ok c ∧ sind (.num (x + 90)) = .ok c ∧ cosd (.num (x + 90)) = .ok (-s) ∧
    sind (.num (-x)) = .ok (-s) ∧ cosd (.num (-x)) = .ok c := by
  refine ⟨_, _, rfl, rfl, Real.sin_sq_add_cos_sq _, ?_, ?_, ?_, ?_, ?_, ?_⟩
  · show Except.ok (Real.sin _) = _
    rw [show (x + 360) * Real.pi / 180 = x * Real.pi / 180 + 2 * Real.pi by ring, Real.sin_add_two_pi]
  · show Except.ok (Real.cos _) = _
    rw [show (x + 360) * Real.pi / 180 = x * Real.pi / 180 + 2 * Real.pi by ring, Real.cos_add_two_pi]
  · show Except.ok (Real.sin _) = _
    rw [show (x + 90) * Real.pi / 180 = x * Real.pi / 180 + Real.pi / 2 by ring, Real.sin_add_pi_div_two]
  · show Except.ok (Real.cos _) = _
    rw [show (x + 90) * Real.pi / 180 = x * Real.pi / 180 + Real.pi / 2 by ring, Real.cos_add_pi_div_two]
  · show Except.ok (Real.sin _) = _
    rw [show -x * Real.pi / 180 = -(x * Real.pi / 180) by ring, Real.sin_neg]
  · show Except.ok (Real.cos _) = _
    rw [show -x * Real.pi / 180 = -(x * Real.pi / 180) by ring, Real.cos_neg]

/-- C161. The usual values. -/
theorem C161_degrees_values : sind (.num 0) = .ok 0 ∧ cosd (.num 0) = .ok 1 ∧ sind (.num 30) = .ok (1 / 2) ∧ cosd (.num 60) = .ok (1 / 2) := by
  refine ⟨?_, ?_, ?_, ?_⟩
  · show Except.ok (Real.sin _) = _
    rw [zero_mul, zero_div, Real.sin_zero]
  · show Except.ok (Real.cos _) = _
    rw [zero_mul, zero_div, Real.cos_zero]
  · show Except.ok (Real.sin _) = _
    rw [show 30 * Real.pi / 180 = Real.pi / 6 by ring, Real.sin_pi_div_six]
  · show Except.ok (Real.cos _) = _
    rw [show 60 * Real.pi / 180 = Real.pi / 3 by ring, Real.cos_pi_div_three]

/-- C161 (violated: documented for a float or an array). `sind` and `cosd` refuse every array that does not have exactly one entry, with TypeError. -/
theorem C161_degrees_array_violated (a : ND) (h : a.shape.prod ≠ 1) : sind (.arr a) = .error .typeError ∧ cosd (.arr a) = .error .typeError := by
  simp [sind, cosd, radians, h, bind, Except.bind]

/-- An axis of three samples is accepted, and the angle of the sample in the middle row on the right is 0. -/
example : ∃ t, azimuthalGrid (.arr ⟨[3], fun i => (i.getD 0 0 : ℝ) - 1⟩) (.num 1) (.num 1) = .ok t ∧ t.entry [1, 2] = 0 := by
  refine ⟨_, rfl, ?_⟩
  show arctan2 (_ / 1) (_ / 1) = 0
  unfold arctan2
  rw [Complex.arg_eq_zero_iff]
  constructor <;> norm_num

example : Accepted (.num 3) (.arr ⟨[2, 2], fun _ => 1⟩) := trivial

end Verif.Polar
