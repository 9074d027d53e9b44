import Verif.Model.Hlc
import Verif.Model.Util
import Mathlib.Analysis.SpecialFunctions.Complex.Arg

/-!
# Model of the drawing of segmented mirrors: `add_hex`, `add_hex_segment`, `get_support`, `get_field` of falco/hexsegmirror.py

Real arithmetic. `np.arctan2(y, x)` is the argument of `x + iy`. The centres and which of them are drawn are in Model/Hlc.lean.
-/

namespace Verif.HexDraw
open Verif Verif.Hlc Verif.Util

/-- falco/hexsegmirror.py:22-30 and 63-70: the hexagon of flat-to-flat width `d` at the point `(x, y)` (column, row) from its centre; `power = 1000`. -/
noncomputable def hex (d x y : ℝ) : ℝ :=
  let rho := Real.sqrt (x ^ 2 + y ^ 2)
  let theta := Complex.arg ⟨x, y⟩
  let a := Real.exp (-(rho * Real.sin theta / (d / 2)) ^ 1000)
  let b := Real.exp (-(rho * Real.cos (theta - Real.pi / 6) / (d / 2)) ^ 1000)
  let c := Real.exp (-(rho * Real.cos (theta + Real.pi / 6) / (d / 2)) ^ 1000)
  a * b * c

/-- hexsegmirror.py:20-32 and 61-78: pixel `(i, j)` of `N × N` (`np.arange(-N/2., N/2.)` has `N` entries), the hexagon at `cen` = (row, column) added to the array `A`.
`add_hex_segment` sets its phase factor to 1 (line 76): piston and tilts are not used. -/
noncomputable def addHex (N : ℕ) (d : ℝ) (A : ℕ → ℕ → ℝ) (cen : ℝ × ℝ) : ℕ → ℕ → ℝ := fun i j =>
  A i j + hex d ((j : ℝ) - N / 2 - cen.2) ((i : ℝ) - N / 2 - cen.1)

/-- hexsegmirror.py:171, 109, 55: `hexFlatDiam`. -/
noncomputable def flatDiam (apDia wGap : ℝ) (numRings : ℕ) : ℝ := (apDia - numRings * 2 * wGap) / (2 * numRings + 1)

/-- hexsegmirror.py:174-208 with `offset`: added to the first centre of every ring. -/
noncomputable def visitsAt (off : ℝ × ℝ) (hexSep : ℝ) (numRings : ℕ) : List (ℝ × ℝ) :=
  (List.range (numRings + 1)).flatMap fun (r : ℕ) => (r * hexSep + off.1, 0 + off.2) :: facesLoop hexSep r 6 1 (r * hexSep + off.1, 0 + off.2)

/-- hexsegmirror.py:148-210 `get_support`; `off` is `(0, 0)` if not given. -/
noncomputable def getSupport (apDia wGap : ℝ) (numRings N : ℕ) (missing : Option (List ℕ)) (off : ℝ × ℝ) : Except PyErr (ℕ → ℕ → ℝ) :=
  let d := flatDiam apDia wGap numRings
  (drawn 1 (missing.getD (List.replicate (countSegments numRings) 1)) 0 (visitsAt off (d + wGap) numRings)).map fun cs => cs.foldl (addHex N d) fun _ _ => 0

/-- hexsegmirror.py:81-145 `get_field`: drawn in `N1 = 2**nextpow2(apDia)` pixels (`1 ≤ apDia`), then padded or cropped to `N`. Pistons and tilts are lists that are indexed
and passed on but not used (lines 76, 118-120, 138-140); they are taken to be long enough. -/
noncomputable def getField (apDia wGap : ℝ) (numRings N : ℕ) (_pistons _tiltxs _tiltys : List ℝ) (missing : Option (List ℕ)) : Except PyErr (Img ℝ) :=
  let d := flatDiam apDia wGap numRings
  let N1 := 2 ^ (nextpow2 apDia).toNat
  (drawn 0 (missing.getD (List.replicate (countSegments numRings) 1)) 0 (visits (d + wGap) numRings)).bind fun cs =>
    padCrop ⟨N1, N1, fun i j => cs.foldl (addHex N1 d) (fun _ _ => 0) i.val j.val⟩ (.one (.int N)) 0

end Verif.HexDraw
