import Mathlib.Analysis.SpecialFunctions.Complex.Arg

/-!
# Model of the polar coordinates of falco/util.py: `cart2pol`, `sind`, `cosd`, `broadcast`, `azimuthal_grid`, `radial_grid`, `radial_grid_squared`

Simplifications: numbers are real (no complex arguments, NaN, infinities or signed zeros); a division by a stretch of 0 (infinities and warnings in numpy) is outside the model, the theorems assume
stretches that are not 0; the values that are passed are numbers, lists of numbers and arrays.
-/

namespace Verif.Polar

/-- An array of numpy: its shape and its entries (only the indices within the shape matter). -/
structure ND where
  shape : List ℕ
  entry : List ℕ → ℝ

/-- A value that a caller passes. -/
inductive Arg
  | num (x : ℝ)
  | list (l : List ℝ)
  | arr (a : ND)

inductive Exc | typeError | valueError
  deriving DecidableEq

/-- numpy's `arctan2(y, x)`: the angle of the point `(x, y)`, in `(-π, π]`. -/
noncomputable def arctan2 (y x : ℝ) : ℝ := Complex.arg ⟨x, y⟩

/-- The result of an expression of a number and an array, or of two arrays of one shape: the expression entry by entry (numpy's broadcasting).  A list cannot be raised to a power
(`x**2`, util.py:66). -/
def elementwise (f : ℝ → ℝ → ℝ) : Arg → Arg → Except Exc Arg
  | .num x, .num y => .ok (.num (f x y))
  | .num x, .arr b => .ok (.arr ⟨b.shape, fun i => f x (b.entry i)⟩)
  | .arr a, .num y => .ok (.arr ⟨a.shape, fun i => f (a.entry i) y⟩)
  | .arr a, .arr b => .ok (.arr ⟨a.shape, fun i => f (a.entry i) (b.entry i)⟩)
  | _, _ => .error .typeError

/-- util.py:62-64: two arrays must have one shape. -/
def shapesAgree : Arg → Arg → Bool
  | .arr a, .arr b => a.shape = b.shape
  | _, _ => true

/-- util.py:44-69 `cart2pol(x, y)`: the pair `(rho, theta)`. -/
noncomputable def cart2pol (x y : Arg) : Except Exc (Arg × Arg) :=
  if shapesAgree x y = false then .error .valueError
  else do
    let rho ← elementwise (fun x y => Real.sqrt (x ^ 2 + y ^ 2)) x y
    let theta ← elementwise (fun x y => arctan2 y x) x y
    pure (rho, theta)

/-- `math.radians`: a number, or an array with one entry, which Python converts to a number. -/
noncomputable def radians : Arg → Except Exc ℝ
  | .num x => .ok (x * Real.pi / 180)
  | .arr a => if a.shape.prod = 1 then .ok (a.entry (a.shape.map fun _ => 0) * Real.pi / 180) else .error .typeError
  | .list _ => .error .typeError

/-- util.py:72-86 `sind`. -/
noncomputable def sind (a : Arg) : Except Exc ℝ := do return Real.sin (← radians a)

/-- util.py:89-103 `cosd`. -/
noncomputable def cosd (a : Arg) : Except Exc ℝ := do return Real.cos (← radians a)

/-- check.py:155-176 `oneD_array(axis, 'axis', TypeError)`: `np.asarray` of the value must have one dimension; the converted value is not kept. -/
def oneD : Arg → Except Exc Unit
  | .num _ => .error .typeError
  | .list _ => .ok ()
  | .arr a => if a.shape.length = 1 then .ok () else .error .typeError

/-- check.py:255-275 `real_scalar(var, name, TypeError)`: the number. -/
def realScalar : Arg → Except Exc ℝ
  | .num x => .ok x
  | _ => .error .typeError

/-- util.py:322-350 `broadcast(axis)`: the views `axis[None, :]` and `axis[:, None]`; a list does not take these indices. -/
def broadcast : Arg → Except Exc (ND × ND)
  | .arr a => .ok (⟨1 :: a.shape, fun i => a.entry (i.drop 1)⟩, ⟨a.shape ++ [1], fun i => a.entry (i.take 1)⟩)
  | _ => .error .typeError

/-- An expression of a row and a column, entry by entry (numpy's broadcasting of the shapes `(1, N)` and `(N, 1)`). -/
def outer (f : ℝ → ℝ → ℝ) (x y : ND) : ND :=
  ⟨[y.shape.getD 0 0, x.shape.getD 1 0], fun i => f (x.entry [0, i.getD 1 0]) (y.entry [i.getD 0 0, 0])⟩

/-- The beginning of the three functions (util.py:367-370, 388-392, 410-413): the checks and the views, and the expression of the grid. -/
def grid (f : ℝ → ℝ → ℝ → ℝ → ℝ) (axis xStretch yStretch : Arg) : Except Exc ND := do
  oneD axis
  let xs ← realScalar xStretch
  let ys ← realScalar yStretch
  let (x, y) ← broadcast axis
  pure (outer (f xs ys) x y)

/-- util.py:353-371 `azimuthal_grid`. -/
noncomputable def azimuthalGrid : Arg → Arg → Arg → Except Exc ND := grid fun xs ys x y => arctan2 (y / ys) (x / xs)

/-- util.py:374-393 `radial_grid`. -/
noncomputable def radialGrid : Arg → Arg → Arg → Except Exc ND := grid fun xs ys x y => Real.sqrt ((x / xs) ^ 2 + (y / ys) ^ 2)

/-- util.py:396-415 `radial_grid_squared`. -/
noncomputable def radialGridSquared : Arg → Arg → Arg → Except Exc ND := grid fun xs ys x y => (x / xs) ^ 2 + (y / ys) ^ 2

end Verif.Polar
