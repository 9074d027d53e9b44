import Verif.Model.Cubic
import Mathlib.Analysis.SpecialFunctions.Trigonometric.Basic

/-!
# Model of the magnification of images: falco/proper/prop_magnify.py, prop_szoom.py and the C library falco/proper/prop_szoom_c.c

Simplifications: real arithmetic; `3.141592653589793` is π; square images of floating type; the magnification is positive.
-/

namespace Verif.Szoom
open Verif

/-- prop_szoom.py:16-33 `round` -/
noncomputable def pyRound (v : ℝ) : ℤ := if v < 0 then ⌊v⌋ else ⌈v⌉

/-- `roundval` of prop_szoom_c.c:9-15 (the same as in cubic_conv_c.c), or `round` of prop_szoom.py -/
noncomputable def rnd (useC : Bool) (v : ℝ) : ℤ := if useC then Cubic.roundval v else pyRound v

/-- prop_szoom.py:79, 97, 104, 117; prop_szoom_c.c:38, 61, 71: position relative to the centre of the input image. -/
noncomputable def xIn (nOut : ℕ) (mag : ℝ) (i : ℕ) : ℝ := ((i : ℝ) - (nOut / 2 : ℕ)) / mag

/-- prop_szoom.py:77-88, prop_szoom_c.c:36-57: element `k` (0 to 12) of the kernel for output number `i`. -/
noncomputable def table (useC : Bool) (nOut : ℕ) (mag : ℝ) (i k : ℕ) : ℝ :=
  let xi := xIn nOut mag i
  let x := ((k : ℝ) - 6) - (xi - rnd useC xi)
  if |x| ≤ 6 then (if x ≠ 0 then Real.sin (x * Real.pi) / (x * Real.pi) * Real.sin (x * Real.pi / 6) / (x * Real.pi / 6) else 1) else 0

/-- prop_szoom.py:98-100, 105-107; prop_szoom_c.c:62-64, 72-74: first pixel of the window. -/
noncomputable def start (useC : Bool) (nIn nOut : ℕ) (mag : ℝ) (i : ℕ) : ℤ := rnd useC (xIn nOut mag i) + (nIn / 2 : ℕ) - 6

/-- prop_szoom.py:101-102 (`y1 < 0 or y2 > n_in`, `y2 = y1 + 13`), prop_szoom_c.c:65-66 (`y2 >= size_in`, `y2 = y1 + 12`): the window lies in the image. -/
def fits (useC : Bool) (nIn nOut : ℕ) (mag : ℝ) (i : ℕ) : Prop := 0 ≤ start useC nIn nOut mag i ∧ start useC nIn nOut mag i + 13 ≤ nIn

open Classical in
/-- prop_szoom.py:96-131, prop_szoom_c.c:59-91: output pixel in row `j` and column `i`; `init` is what the output array contains before. -/
noncomputable def szoom (useC : Bool) (nIn : ℕ) (img : ℕ → ℕ → ℝ) (nOut : ℕ) (mag : ℝ) (init : ℕ → ℕ → ℝ) (j i : ℕ) : ℝ :=
  if ¬ fits useC nIn nOut mag j then init j i
  else if ¬ fits useC nIn nOut mag i then init j i
  else ∑ ky ∈ Finset.range 13, ∑ kx ∈ Finset.range 13,
    img ((start useC nIn nOut mag j).toNat + ky) ((start useC nIn nOut mag i).toNat + kx) * table useC nOut mag j ky * table useC nOut mag i kx

/-- prop_magnify.py:73-76: size of the output. -/
noncomputable def sizeOut (nIn : ℕ) (mag : ℝ) (size0 : ℕ) : ℕ := if size0 = 0 then ⌊nIn * mag⌋₊ else size0

/-- The scaling switches of prop_magnify. -/
inductive Scale
  | none | conserve | ampConserve

/-- prop_magnify.py:136-144: CONSERVE goes first; an intensity image (real) is divided by `mag ** 2`. -/
noncomputable def factor (isComplex : Bool) (mag : ℝ) : Scale → ℝ
  | .none => 1
  | .conserve => if isComplex then mag else mag ^ 2
  | .ampConserve => mag

/-- prop_magnify.py:97-134 on a real image (row-major; `image_in.T.ctypes.data` is the memory of `image_in`), without QUICK: the output array is made by `np.zeros` with and without the library.
With an output size of 0 and no library, prop_szoom takes a size of `fix(nIn * mag) - 13`, which is negative then: `np.zeros` raises ValueError. -/
noncomputable def magnifyReal (useC : Bool) (nIn : ℕ) (img : ℕ → ℕ → ℝ) (mag : ℝ) (size0 : ℕ) (s : Scale) : Except PyErr (ℕ × (ℕ → ℕ → ℝ)) :=
  let n := sizeOut nIn mag size0
  if n = 0 ∧ useC = false then .error .valueError
  else .ok (n, fun j i => szoom useC nIn img n mag (fun _ _ => 0) j i / factor false mag s)

/-- prop_magnify.py:97-134 on a complex image, without QUICK. With the library both parts go through one array made by `np.empty`: `junk` is its content, which the second call finds again where the
first has not written. -/
noncomputable def magnifyComplex (useC : Bool) (nIn : ℕ) (re im : ℕ → ℕ → ℝ) (mag : ℝ) (size0 : ℕ) (s : Scale) (junk : ℕ → ℕ → ℝ) : Except PyErr (ℕ × (ℕ → ℕ → ℝ × ℝ)) :=
  let n := sizeOut nIn mag size0
  if n = 0 ∧ useC = false then .error .valueError
  else
    let init : ℕ → ℕ → ℝ := if useC then junk else fun _ _ => 0
    let first := szoom useC nIn re n mag init
    let second := szoom useC nIn im n mag (if useC then first else fun _ _ => 0)
    .ok (n, fun j i => (first j i / factor true mag s, second j i / factor true mag s))

/-- prop_magnify.py:83-88, 136-144 on a real image with QUICK and the cubic convolution library. -/
noncomputable def magnifyQuick (A : Cubic.Img) (mag : ℝ) (size0 : ℕ) (s : Scale) : ℕ × (ℕ → ℕ → ℝ) :=
  let n := sizeOut A.rows mag size0
  let x := (List.range n).map fun i => xIn n mag i + (A.rows / 2 : ℕ)
  (n, fun j i => Cubic.conv true A x x j i / factor false mag s)

end Verif.Szoom
