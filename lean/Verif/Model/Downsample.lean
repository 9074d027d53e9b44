import Verif.Model.Prop
import Verif.Model.Arr

/-!
# Model of falco/mask.py:1736-1806 `rotate_shift_downsample_pupil_mask`

Simplifications: real arithmetic; the input is a square array of real numbers (given as a function of row and column); the type checks of the arguments are not
modelled. `scipy.ndimage.rotate` and `scipy.interpolate.RectBivariateSpline` are parameters: what is assumed of them is stated where it is used.
-/

namespace Verif.Downsample
open Verif Verif.Optics

/-- The two SciPy functions: `rotate n A deg` is `scipy.ndimage.rotate(A, deg, reshape=False)` of an `n` by `n` array; `spline n x A y1 x1` is the value at `(y1, x1)`
of `RectBivariateSpline(x, x, A)`, the nodes `x` along rows and columns being `x 0, …, x (n-1)`. -/
structure Scipy where
  rotate : (n : ℕ) → (ZMod n → ZMod n → ℝ) → ℝ → ZMod n → ZMod n → ℝ
  spline : (n : ℕ) → (ℕ → ℝ) → (ZMod n → ZMod n → ℝ) → ℝ → ℝ → ℝ

/-- mask.py:1769-1771, 1776: number of rows after the crop. -/
def nIn (N : ℕ) : ℕ := if N % 2 = 0 then N - 1 else N
/-- mask.py:1769-1771: `arrayIn[1::, 1::]` of an array of even size. -/
def crop (N : ℕ) (a : ℕ → ℕ → ℝ) : ℕ → ℕ → ℝ := fun i j => if N % 2 = 0 then a (i + 1) (j + 1) else a i j

/-- mask.py:1777-1778 `nArrayOut` -/
noncomputable def nOut (n : ℕ) (nBeamIn nBeamOut xOffset yOffset : ℝ) : ℤ :=
  Util.ceilOdd (n * (1 / nBeamIn) / (1 / nBeamOut) + 2 + 2 * max |xOffset| |yOffset|)

/-- mask.py:1783: element `i` of `x0 = np.arange(-(nArrayIn-1.)/2., (nArrayIn)/2., 1)*dxIn` -/
noncomputable def x0 (n : ℕ) (nBeamIn : ℝ) (i : ℕ) : ℝ := (-((n : ℝ) - 1) / 2 + i) * (1 / nBeamIn)

open Classical in
/-- mask.py:1784-1787: the disc before its normalisation. -/
noncomputable def disc (n : ℕ) (nBeamIn nBeamOut : ℝ) (i j : ZMod n) : ℝ :=
  if Real.sqrt (x0 n nBeamIn j.val ^ 2 + x0 n nBeamIn i.val ^ 2) ≤ 1 / nBeamOut / 2 then 1 else 0

variable (n : ℕ) [NeZero n]

/-- mask.py:1788 `Window` -/
noncomputable def window (nBeamIn nBeamOut : ℝ) (i j : ZMod n) : ℝ := disc n nBeamIn nBeamOut i j / ∑ k, ∑ l, disc n nBeamIn nBeamOut k l

/-- mask.py:1792-1795 `A` -/
noncomputable def blurred (nBeamIn nBeamOut : ℝ) (a : ℕ → ℕ → ℝ) (i j : ZMod n) : ℝ :=
  (fftshift (fft2 fun k l : ZMod n => (ifft2 (ifftshift fun i j : ZMod n => (window n nBeamIn nBeamOut i j : ℂ)) k l * n) *
    (ifft2 (ifftshift fun i j : ZMod n => (a i.val j.val : ℂ)) k l * n)) i j).re

open Classical in
/-- mask.py:1797-1798 -/
noncomputable def rotated (S : Scipy) (rotDeg : ℝ) (A : ZMod n → ZMod n → ℝ) : ZMod n → ZMod n → ℝ :=
  if rotDeg = 0 then A else S.rotate n A (-rotDeg)

/-- mask.py:1800-1801: element `i` of `x1` or `y1` for `m = nArrayOut`. -/
noncomputable def x1 (m : ℤ) (nBeamOut offset : ℝ) (i : ℕ) : ℝ := (-((m : ℝ) - 1) / 2 + i - offset) * (1 / nBeamOut)

/-- The array returned: number of rows (and of columns), and the value in row `r` and column `c`. -/
structure Out where
  size : ℕ
  pix : ℕ → ℕ → ℝ

open Classical in
/-- mask.py:1736-1806 `rotate_shift_downsample_pupil_mask(arrayIn, …)` for an `N` by `N` array. Fewer than four nodes are refused by `RectBivariateSpline` (the class
of that exception is not modelled faithfully). -/
noncomputable def run (S : Scipy) (N : ℕ) (a : ℕ → ℕ → ℝ) (nBeamIn nBeamOut xOffset yOffset rotDeg : ℝ) : Except PyErr Out :=
  if nBeamIn ≤ nBeamOut then .error .valueError
  else if h : nIn N < 4 then .error .valueError
  else
    haveI : NeZero (nIn N) := ⟨by omega⟩
    let A := rotated (nIn N) S rotDeg (blurred (nIn N) nBeamIn nBeamOut (crop N a))
    let m := nOut (nIn N) nBeamIn nBeamOut xOffset yOffset
    .ok { size := m.toNat + 1
          pix := fun r c =>
            if r = 0 ∨ c = 0 then 0
            else S.spline (nIn N) (x0 (nIn N) nBeamIn) A (x1 m nBeamOut yOffset (r - 1)) (x1 m nBeamOut xOffset (c - 1)) }

end Verif.Downsample
