import Verif.Model.ZernMap
import Verif.Model.Pinv
import Mathlib.Logic.Equiv.Fin.Basic

/-!
# Model of falco/proper/prop_fit_zernikes.py

Real arithmetic. The map and the pupil have the same shape; `np.linalg.lstsq` is the least-squares solution of least norm (its cut-off of tiny singular values is left out).
-/

namespace Verif.FitZern
open Verif Matrix

/-- prop_fit_zernikes.py:113-116: the columns of `ab`, as functions of radius and angle: column `k` holds Zernike `k + 1`. With obscuration the formula of index 22 is used only if `nzer == 22`, and columns
without a formula stay zero. Without it, `eval` of the strings of prop_noll_zernikes for `k ≥ 1` (a string that cannot be evaluated raises). -/
noncomputable def column (s : Noll.St) (eps : ℝ) (nzer k : ℕ) (r t : ℝ) : Except PyErr ℝ :=
  open Classical in
  if k = 0 then .ok 1
  else if eps ≠ 0 then .ok (if k = 21 ∧ nzer ≠ 22 then 0 else (ZernMap.annular eps r t (k + 1)).getD 0)
  else match s.zl (k + 1) with
    | none => .error .syntaxError
    | some z => Noll.evalStr z r t

variable {nx ny : ℕ}

/-- prop_fit_zernikes.py:94-97: the coordinates that the code gives to flat element `f`: `xx, yy = np.meshgrid(x, y)` has `ny` rows and `nx` columns. -/
def coords (nx ny : ℕ) (f : Fin (nx * ny)) : ℝ × ℝ := ((((f : ℕ) % nx : ℕ) : ℝ) - ((nx / 2 : ℕ) : ℝ), (((f : ℕ) / nx : ℕ) : ℝ) - ((ny / 2 : ℕ) : ℝ))

/-- prop_fit_zernikes.py:98. -/
noncomputable def rad (nx ny : ℕ) (R : ℝ) (f : Fin (nx * ny)) : ℝ := ZernMap.radius (coords nx ny f).1 (coords nx ny f).2 / R

/-- prop_fit_zernikes.py:99. -/
noncomputable def ang (nx ny : ℕ) (f : Fin (nx * ny)) : ℝ := ZernMap.angle (coords nx ny f).1 (coords nx ny f).2

/-- `.ravel()` of an array with `nx` rows and `ny` columns. -/
def ravel {α : Type} (A : Fin nx → Fin ny → α) (f : Fin (nx * ny)) : α := A (finProdFinEquiv.symm f).1 (finProdFinEquiv.symm f).2

/-- prop_fit_zernikes.py:117-190: the first error in filling the columns, if any (whether a string can be evaluated does not depend on `r` and `t`). -/
noncomputable def checkColumns (s : Noll.St) (eps : ℝ) (nzer : ℕ) : Except PyErr Unit := (List.range nzer).forM fun k => (column s eps nzer k 0 0).map fun _ => ()

/-- The value of a column that has one. -/
noncomputable def columnVal (s : Noll.St) (eps : ℝ) (nzer k : ℕ) (r t : ℝ) : ℝ :=
  match column s eps nzer k r t with
  | .ok v => v
  | .error _ => 0

/-- `prop_fit_zernikes(wavefront0, pupil0, pupilradius0, nzer, OBSCURATION_RATIO=eps, FIT=fit)`; `given` tells whether XC or YC is given (then `xc` or `yc` is never assigned: line 84-85).
Returns the coefficients and, with FIT, the fitted map. -/
noncomputable def fitZernikes (W pupil : Fin nx → Fin ny → ℝ) (R : ℝ) (nzer : ℕ) (eps : ℝ) (given fit : Bool) :
    Except PyErr ((Fin nzer → ℝ) × Option (Fin nx → Fin ny → ℝ)) :=
  open Classical in
  if eps > 0 ∧ nzer > 22 then .error .valueError
  else if given then .error .unboundLocal
  else if nzer = 0 then .error .indexError
  else
    (Noll.noll nzer).bind fun s =>
    let valid : Fin (nx * ny) → Prop := fun f => rad nx ny R f < 1 ∧ ravel pupil f ≠ 0
    (checkColumns s eps nzer).map fun _ =>
    let ab : Matrix {f // valid f} (Fin nzer) ℝ := Matrix.of fun f k => columnVal s eps nzer k (rad nx ny R f) (ang nx ny f)
    let zcoeff := Pinv.pinv ab *ᵥ fun f => ravel W f.1
    (zcoeff, if fit then some fun i j => ∑ k : Fin nzer, zcoeff k * columnVal s eps nzer k (rad nx ny R (finProdFinEquiv (i, j))) (ang nx ny (finProdFinEquiv (i, j))) else none)

end Verif.FitZern
