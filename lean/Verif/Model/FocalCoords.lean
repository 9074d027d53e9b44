import Verif.Model.Region
import Verif.Model.Prop
import Verif.Model.VortexMask

/-!
# Model of falco/setup.py:902-1011: coordinates and sampling of the focal planes

Simplification: real arithmetic; a `centering` that is neither of the two words (which leaves the coordinates undefined) is not modelled.
-/

namespace Verif.FocalCoords
open Verif Verif.Util

/-- Element `i` of `np.arange(-N/2, N/2)` -/
noncomputable def halfRange (N i : ℕ) : ℝ := -(N : ℝ) / 2 + i
/-- Element `i` of `np.linspace(-(N-1)/2, (N-1)/2, N)` -/
noncomputable def spread (N i : ℕ) : ℝ := VortexMask.linspace (-((N : ℝ) - 1) / 2) (((N : ℝ) - 1) / 2) N i

/-- The focal-plane mask as far as the coordinates go: the shape of the mask array and the resolution in pixels per λ₀/D; `Nxi` and `Neta` when they were set before. -/
structure Plane where
  rows : ℕ
  cols : ℕ
  res : ℝ
  Nxi : Option ℕ
  Neta : Option ℕ

/-- falco/setup.py:914-915, 957-958 -/
def Plane.nxi (p : Plane) : ℕ := p.Nxi.getD p.cols
/-- falco/setup.py:916-917, 959-960 -/
def Plane.neta (p : Plane) : ℕ := p.Neta.getD p.rows
/-- falco/setup.py:920-921, 963-964: `dxi` (and `deta`) for `fLamD = fl*lambda0/P2.D` -/
noncomputable def Plane.dxi (p : Plane) (fLamD : ℝ) : ℝ := fLamD / p.res

/-- falco/setup.py:925-933: element `i` of `F3.compact.xis` -/
noncomputable def Plane.xis (p : Plane) (c : Centering) (fLamD : ℝ) (i : ℕ) : ℝ :=
  if c = .interpixel ∨ p.nxi % 2 = 1 then spread p.nxi i * p.dxi fLamD else halfRange p.nxi i * p.dxi fLamD
/-- falco/setup.py:936-944: element `i` of `F3.compact.etas` -/
noncomputable def Plane.etas (p : Plane) (c : Centering) (fLamD : ℝ) (i : ℕ) : ℝ :=
  if c = .interpixel ∨ p.neta % 2 = 1 then spread p.neta i * p.dxi fLamD else halfRange p.neta i * p.dxi fLamD
/-- falco/setup.py:947 -/
noncomputable def Plane.xisDL (p : Plane) (c : Centering) (fLamD : ℝ) (i : ℕ) : ℝ := p.xis c fLamD i / fLamD
/-- falco/setup.py:948 -/
noncomputable def Plane.etasDL (p : Plane) (c : Centering) (fLamD : ℝ) (i : ℕ) : ℝ := p.etas c fLamD i / fLamD

/-- falco/setup.py:967-978: element `i` of `F3.full.xisDL` -/
noncomputable def Plane.fullXisDL (p : Plane) (c : Centering) (i : ℕ) : ℝ :=
  if c = .interpixel ∨ p.nxi % 2 = 1 then spread p.nxi i / p.res else halfRange p.nxi i / p.res
/-- falco/setup.py:967-981: element `i` of `F3.full.etasDL`: the choice is made by `Nxi` for both axes. -/
noncomputable def Plane.fullEtasDL (p : Plane) (c : Centering) (i : ℕ) : ℝ :=
  if c = .interpixel ∨ p.nxi % 2 = 1 then spread p.neta i / p.res else halfRange p.neta i / p.res

/-- What falco/setup.py:984-1011 `compute_Fend_resolution` sets. -/
structure Fend where
  dxi : ℝ
  deta : ℝ
  lensletD : ℝ
  xLenslet : ℝ
  yLenslet : ℝ
  f5dxi : ℝ
  evalDxi : ℝ

/-- falco/setup.py:984-1011 (the lenslet fields are only set with `flagFiber`; `fLamD = fl*lambda0/P4.D`). -/
noncomputable def fend (fl lambda0 D res evalRes wavRad x y lensletFL f5res : ℝ) : Fend :=
  let fLamD := fl * lambda0 / D
  let dxi := fLamD / res
  let lensletD := 2 * res * wavRad * dxi
  { dxi := dxi, deta := dxi, lensletD := lensletD, xLenslet := dxi * res * x, yLenslet := dxi * res * y, f5dxi := lensletFL * lambda0 / lensletD / f5res, evalDxi := fLamD / evalRes }

end Verif.FocalCoords
