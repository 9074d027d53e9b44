import Verif.Model.Masks
import Verif.Model.Polygon

/-!
# Model of `gen_bowtie_fpm` (falco/mask.py)

Simplifications: real arithmetic; `centering` is 'pixel' or 'interpixel'; `inputs` is a dictionary with the required keys.
-/

namespace Verif.Masks
open Verif Verif.Shape Verif.Proper Verif.Polygon

/-- The inputs of `gen_bowtie_fpm` (falco/mask.py:729-741); angles in degrees. -/
structure Bowtie where
  ang : ℝ
  pixres : ℝ
  rhoInner : ℝ
  rhoOuter : ℝ
  xOffset : ℝ
  yOffset : ℝ
  centering : Util.Centering
  clocking : ℝ
  narray : Option ℕ

/-- falco/mask.py:743-754: array size. -/
noncomputable def Bowtie.size (a : Bowtie) : ℕ :=
  let dx := 1 / a.pixres
  let off := max |a.xOffset| |a.yOffset|
  a.narray.getD (match a.centering with
    | .interpixel => (Util.ceilEven (2 * a.rhoOuter / dx + 2 * off / dx)).toNat
    | .pixel => (Util.ceilEven (2 * a.rhoOuter / dx + 2 * off / dx + 1)).toNat)

/-- falco/mask.py:786-787, 799-800: `xTop`, `xBottom` before the rotation. -/
noncomputable def houseX (L ang : ℝ) : ℕ → ℝ
  | 0 => 0
  | 1 => L * cosd (ang / 2)
  | 2 => L * cosd (ang / 2)
  | _ => -L * cosd (ang / 2)

/-- falco/mask.py:788-789, 801-802: `yTop` (`sign = 1`), `yBottom` (`sign = -1`) before the rotation. -/
noncomputable def houseY (L ang sign : ℝ) : ℕ → ℝ
  | 0 => sign * 0
  | 1 => sign * (L * sind (ang / 2))
  | 2 => sign * L
  | 3 => sign * L
  | _ => sign * (L * sind (ang / 2))

/-- falco/mask.py:784-795, 803-808: the vertices turned by `clocking` and shifted. -/
noncomputable def Bowtie.vertX (a : Bowtie) (cs sign : ℝ) (k : ℕ) : ℝ :=
  cs + a.xOffset + (cosd a.clocking * houseX (2 * a.rhoOuter) a.ang k + -sind a.clocking * houseY (2 * a.rhoOuter) a.ang sign k)
/-- falco/mask.py:784-795, 803-808 -/
noncomputable def Bowtie.vertY (a : Bowtie) (cs sign : ℝ) (k : ℕ) : ℝ :=
  cs + a.yOffset + (sind a.clocking * houseX (2 * a.rhoOuter) a.ang k + cosd a.clocking * houseY (2 * a.rhoOuter) a.ang sign k)

open Classical in
/-- falco/mask.py:715-817 `gen_bowtie_fpm`.  The sub-sampling factor is that of the process. -/
noncomputable def bowtie (a : Bowtie) (p : Proc) : Except PyErr (ZMod a.size → ZMod a.size → ℝ) := do
  let n := a.size
  let dx := 1 / a.pixres
  let Dmask := 2 * a.pixres * a.rhoOuter
  let Darray := n * dx
  let bdf := Dmask / Darray
  let cs : ℝ := cshift (Darray / n) a.centering      -- -Darray / 2 / Narray
  let wf : WF n := begin_ n Dmask 1e-6 bdf
  let wf ← circularAperture p.nsub wf a.rhoOuter (0 + cs + a.xOffset) (0 + cs + a.yOffset) false
  let spot ← ellipse n p.nsub (Ell.ofArgs n wf.dx (beamradius wf) false a.rhoInner a.rhoInner (0 + cs + a.xOffset) (0 + cs + a.yOffset) 0) true
  if a.ang < 180 then
    let top ← irregularPolygon n p.nsub wf.dx (beamradius wf) false true 5 (a.vertX cs 1) (a.vertY cs 1)
    let bottom ← irregularPolygon n p.nsub wf.dx (beamradius wf) false true 5 (a.vertX cs (-1)) (a.vertY cs (-1))
    return fun i j => readOut wf i j * spot i j * top i j * bottom i j
  else return fun i j => readOut wf i j * spot i j * 1 * 1

end Verif.Masks
