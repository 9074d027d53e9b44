import Verif.Model.Util
import Verif.Model.Dm
import Mathlib.Data.Real.Basic
import Mathlib.Algebra.BigOperators.Fin

/-!
# Model of the layer profiles of an HLC mask: `gen_fpm_surf_from_cube` and `fpm_inf_cube_3x3` (falco/hlc.py)

Simplifications: real arithmetic.  The 2-D arrays `V` and `VtoH` are taken flattened (`flatten()`, hlc.py:222, 229).
-/

namespace Verif.HlcSurf
open Verif Verif.Util

/-- What `gen_fpm_surf_from_cube` reads of a DM (or of its part `compact`): falco/hlc.py:219-230.  `lowerLeft 0 i` is the first column, `lowerLeft 1 i` the first row
of stamp `i`; `arange(..., dtype=int)` of these (whole) numbers. -/
structure Cube where
  NactTotal : ℕ
  NdmPad : ℕ
  Nbox : ℕ
  lowerLeft : Fin 2 → Fin NactTotal → ℤ
  inf : ℕ → ℕ → Fin NactTotal → ℝ
  V : Fin NactTotal → ℝ
  VtoH : Fin NactTotal → ℝ

/-- falco/hlc.py:221-222: whether the actuator is used. -/
def Cube.used (d : Cube) (i : Fin d.NactTotal) : Prop :=
  (1e-8 : ℝ) ≤ ∑ a ∈ Finset.range d.Nbox, ∑ b ∈ Finset.range d.Nbox, |d.inf a b i| ∧ (1e-12 : ℝ) ≤ |d.VtoH i|

/-- NumPy indexing with `arange(lo, lo + Nbox)` on an axis of length `N`: an index below `-N` or not below `N` raises. -/
def indexOk (N Nbox : ℕ) (lo : ℤ) : Prop := Nbox = 0 ∨ (-(N : ℤ) ≤ lo ∧ lo + Nbox ≤ N)

/-- The entry of `arange(lo, lo + Nbox)` that addresses position `p` (negative indices count from the end); the last one if there are two, as `A[ix] += B` writes
each position with the last of its values. -/
def hit (N Nbox : ℕ) (lo : ℤ) (p : ℕ) : Option ℕ := (List.range Nbox).reverse.find? fun (a : ℕ) => (lo + a == (p : ℤ)) || (lo + a == (p : ℤ) - N)

/-- falco/hlc.py:223-230: what actuator `i` adds at pixel `(y, x)`. -/
noncomputable def Cube.add (d : Cube) (i : Fin d.NactTotal) (y x : ℕ) : ℝ :=
  match hit d.NdmPad d.Nbox (d.lowerLeft 1 i) y, hit d.NdmPad d.Nbox (d.lowerLeft 0 i) x with
  | some a, some b => d.V i * d.VtoH i * d.inf a b i
  | _, _ => 0

open Classical in
/-- falco/hlc.py:183-235 `gen_fpm_surf_from_cube`: the `NdmPad × NdmPad` profile. -/
noncomputable def surf (d : Cube) : Except PyErr (ℕ → ℕ → ℝ) :=
  if ∀ i, d.used i → indexOk d.NdmPad d.Nbox (d.lowerLeft 0 i) ∧ indexOk d.NdmPad d.Nbox (d.lowerLeft 1 i) then
    .ok fun y x =>
      let s := ∑ i, if d.used i then d.add i y x else 0
      if s < 0 then 0 else s
  else .error .indexError

/-- The DM before `fpm_inf_cube_3x3` (falco/hlc.py:999): `inf0` is `K × K`. -/
structure Dm3 where
  K : ℕ
  inf0 : ℕ → ℕ → ℝ
  Nact : ℕ
  xcent : ℝ
  ycent : ℝ
  spacing : ℝ
  dxi : ℝ
  pixel : Bool
  V : ℕ → ℕ → ℝ
  VtoH : ℕ → ℕ → ℝ

/-- falco/hlc.py:1039: `dm.NdmPad`. -/
noncomputable def Dm3.NdmPad (d : Dm3) : ℤ := ceilEven ((d.Nact + 2) * (d.spacing / d.dxi))

/-- falco/hlc.py:1042-1043: `dm.x_pupPad[k]` for centering 'pixel' (metres). -/
noncomputable def Dm3.xPupPad (d : Dm3) (k : ℕ) : ℝ := (-(d.NdmPad : ℝ) / 2 + k) * d.dxi

/-- falco/hlc.py:1052-1061: first pixel of the stamp of an actuator with coordinate `c` (in actuator widths), one axis. -/
noncomputable def Dm3.lower (d : Dm3) (c : ℝ) : ℤ :=
  let box := Dm.npRound (c * (d.spacing / d.dxi))
  if d.K % 2 = 0 then box + (d.NdmPad - d.K) / 2 else box + d.NdmPad / 2 - (d.K / 2 : ℕ)

/-- falco/hlc.py:1013-1075: what `fpm_inf_cube_3x3` puts into the DM; actuator `r * Nact + c` is the one in row `r`, column `c` (1016-1018, `flatten`). -/
noncomputable def Dm3.cube (d : Dm3) : Cube where
  NactTotal := d.Nact * d.Nact
  NdmPad := d.NdmPad.toNat
  Nbox := d.K
  lowerLeft := fun ax i => if ax = 0 then d.lower ((i.val % d.Nact : ℕ) - d.xcent) else d.lower ((i.val / d.Nact : ℕ) - d.ycent)
  inf := fun a b _ => d.inf0 a b
  V := fun i => d.V (i.val / d.Nact) (i.val % d.Nact)
  VtoH := fun i => d.VtoH (i.val / d.Nact) (i.val % d.Nact)

/-- falco/hlc.py:999-1077 `fpm_inf_cube_3x3`. -/
noncomputable def cube3 (d : Dm3) : Except PyErr Cube := if d.pixel then .ok d.cube else .error .valueError

/-- falco/hlc.py:545-546 (`inf0name` '3x3'): `1/4 * [[1, 2, 1], [2, 4, 2], [1, 2, 1]]`. -/
noncomputable def inf3x3 (a b : ℕ) : ℝ := 1 / 4 * (match a, b with
  | 0, 0 => 1 | 0, 1 => 2 | 0, 2 => 1
  | 1, 0 => 2 | 1, 1 => 4 | 1, 2 => 2
  | 2, 0 => 1 | 2, 1 => 2 | 2, 2 => 1
  | _, _ => 0)

/-- falco/hlc.py:543-550, 583-602: the DM 9 that `setup_fpm` makes for `inf0name` '3x3': `actres` actuators per λ0/D, mask of radius `Rin`, `w = fl·λ0/D` in metres. -/
noncomputable def dm9For (actres Rin w : ℝ) (pixel : Bool) (V VtoH : ℕ → ℕ → ℝ) : Dm3 :=
  let Nact := (ceilEven (2 * Rin * actres)).toNat
  { K := 3, inf0 := inf3x3, Nact := Nact, xcent := Nact / 2 - 1 / 2, ycent := Nact / 2 - 1 / 2, spacing := 1 / actres * w, dxi := w / (actres / (1 / 2)),
    pixel := pixel, V := V, VtoH := VtoH }

end Verif.HlcSurf
