import Verif.Model.Arr
import Mathlib.Data.Real.Basic
import Mathlib.Algebra.BigOperators.Group.Finset.Basic
import Mathlib.Algebra.Order.Round
import Mathlib.Order.Interval.Finset.Nat
import Mathlib.Algebra.Order.Archimedean.Real.Basic

/-!
# Model of the cubic convolution interpolation: falco/proper/prop_cubic_conv.py and its C libraries falco/proper/cubic_conv_c.c, cubic_conv_threaded_c.c

Simplifications: real arithmetic (C `double`); images of integer type (their result is truncated, prop_cubic_conv.py:138-139) are not modelled.
-/

namespace Verif.Cubic
open Verif

/-- cubic_conv_c.c:13-19 and cubic_conv_threaded_c.c:31-37 `roundval` -/
noncomputable def roundval (x : ℝ) : ℤ := if x > 0 then ⌊x + 1 / 2⌋ else -⌊-x + 1 / 2⌋

/-- cubic_conv_c.c:44-51, 77-84 (threaded 59-66, 92-99): the pixel is moved into `2 … size - 2` (a size below 4 gives `size - 2` or 2). -/
def clampPix (size p : ℤ) : ℤ := if p < 2 then 2 else if p > size - 2 then size - 2 else p

/-- cubic_conv_c.c:58-72, 91-105: `kx0`, `ky0` -/
noncomputable def k0 (d : ℝ) : ℝ := if d ≤ 1 then d * d * (2 * d - 3) + 1 else 0

/-- cubic_conv_c.c:58-72, 91-105: `kx1`, `ky1` -/
noncomputable def k1 (d : ℝ) : ℝ := if d ≤ 1 then d * d * (d - 1) else if d ≤ 2 then d * (d * d - 5 * d + 8) - 4 else 0

/-- cubic_conv_c.c:53-57, 86-90: tap `i` (0 to 4) of the kernel for a coordinate: `d = fabs(xc + j)` with `j = i - 2`, `xc = roundval(x) - x`. -/
noncomputable def tap (x : ℝ) (i : ℕ) : ℝ := |(roundval x : ℝ) - x + ((i : ℝ) - 2)|

/-- cubic_conv_c.c:40-128, one output point: `x0` is the coordinate the kernel in x is made from (`x` itself in cubic_conv_c.c). `buf` is the memory of the image, `sx`, `sy` the sizes passed. -/
noncomputable def point (buf : ℕ → ℝ) (sx sy : ℕ) (x0 x y : ℝ) : ℝ :=
  let a : ℝ := -(1 / 2)
  let ypix := clampPix sy (roundval y)
  let xpix := clampPix sx (roundval x)
  ∑ j ∈ Finset.range 5, ∑ i ∈ Finset.range 5,
    let yoff := ypix + j - 2
    let xoff := xpix + i - 2
    if yoff < 0 ∨ yoff ≥ sy then 0 else if xoff < 0 ∨ xoff ≥ sx then 0 else
      (k0 (tap x0 i) * k0 (tap y j) + a * (k0 (tap x0 i) * k1 (tap y j) + k1 (tap x0 i) * k0 (tap y j)) + a * a * k1 (tap x0 i) * k1 (tap y j)) * buf (yoff * sx + xoff).toNat

/-- cubic_conv_c.c: output element number `ii` (all elements are computed, `x`, `y` are the flat coordinate vectors). -/
noncomputable def serialC (buf : ℕ → ℝ) (sx sy : ℕ) (x y : ℕ → ℝ) (ii : ℕ) : ℝ := point buf sx sy (x ii) (x ii) (y ii)

/-- cubic_conv_threaded_c.c:57-122, 149-178: as before, but the kernels in x are computed once per column of the output, from the first `x_size_out` coordinates. -/
noncomputable def threadedC (buf : ℕ → ℝ) (sx sy xSizeOut : ℕ) (x y : ℕ → ℝ) (ii : ℕ) : ℝ := point buf sx sy (x (ii % xSizeOut)) (x ii) (y ii)

/-- cubic_conv_threaded_c.c:193-195: rows per thread. -/
def rowsPerThread (ySizeOut threads : ℕ) : ℕ := if ySizeOut / threads * threads ≠ ySizeOut then ySizeOut / threads + 1 else ySizeOut / threads

/-- cubic_conv_threaded_c.c:201-204, 53: thread `t` computes row `r` (`start_row ≤ r ≤ end_row`). -/
def handles (ySizeOut threads t : ℕ) (r : ℤ) : Prop :=
  let dy : ℤ := rowsPerThread ySizeOut threads
  let last := (t + 1) * dy - 1
  t * dy ≤ r ∧ r ≤ if last ≥ ySizeOut then (ySizeOut : ℤ) - 1 else last

/-- A 2-D NumPy array with its memory layout: row-major, or column-major as for a transposed array (`astype(np.double)` and `np.copy` keep the layout). -/
structure Img where
  rows : ℕ
  cols : ℕ
  val : ℕ → ℕ → ℝ
  rowMajor : Bool

/-- The memory `image_in.ctypes.data` points to. -/
noncomputable def Img.buf (A : Img) (k : ℕ) : ℝ := if A.rowMajor then A.val (k / A.cols) (k % A.cols) else A.val (k % A.rows) (k / A.rows)

/-- `A.T` (no data are moved) -/
def Img.T (A : Img) : Img := ⟨A.cols, A.rows, fun i j => A.val j i, !A.rowMajor⟩

/-- prop_cubic_conv.py:80-136 with coordinates as flat vectors `x`, `y` for an output of `ydim × xdim`: the sizes passed to C are `shape[0]`, `shape[1]` for the x- and y-size. Element `(r, c)` of the result. -/
noncomputable def cubicConv (threaded : Bool) (A : Img) (ydim xdim : ℕ) (x y : ℕ → ℝ) (r c : ℕ) : ℝ :=
  if threaded then threadedC A.buf A.rows A.cols ydim x y (r * xdim + c) else serialC A.buf A.rows A.cols x y (r * xdim + c)

/-- prop_cubic_conv.py:84-88, GRID=True: `np.tile(xval, ny)`, `np.repeat(yval, nx)`. -/
noncomputable def conv (threaded : Bool) (A : Img) (xval yval : List ℝ) : ℕ → ℕ → ℝ :=
  cubicConv threaded A yval.length xval.length (fun ii => xval.getD (ii % xval.length) 0) (fun ii => yval.getD (ii / xval.length) 0)

/-- prop_cubic_conv.py:90-97, GRID=False with 2-D coordinate arrays of shape `ydim × xdim`. -/
noncomputable def convAt (threaded : Bool) (A : Img) (ydim xdim : ℕ) (xv yv : ℕ → ℕ → ℝ) : ℕ → ℕ → ℝ :=
  cubicConv threaded A ydim xdim (fun ii => xv (ii / xdim) (ii % xdim)) (fun ii => yv (ii / xdim) (ii % xdim))

/-- prop_cubic_conv.py:92-94, 141-142, GRID=False with coordinate vectors: an output of one row, reshaped to a vector. -/
noncomputable def convVec (threaded : Bool) (A : Img) (xv yv : List ℝ) (c : ℕ) : ℝ :=
  cubicConv threaded A 1 xv.length (fun ii => xv.getD ii 0) (fun ii => yv.getD ii 0) 0 c

end Verif.Cubic
