import Verif.Model.Prop
import Mathlib.Analysis.SpecialFunctions.Complex.Arg

/-!
# Model of the vortex mask (falco/mask.py:1626-1645) and of the Tukey window (falco/prop.py:393-421) used by `mft_p2v2p`

Simplifications: real arithmetic (`np.arctan2(y, x)` is the argument of `x + iy`; no signed zeros occur on the axes used here). `scipy.signal.windows.tukey` and `np.interp`
are modelled after their documented definitions.
-/

namespace Verif.VortexMask
open Verif Verif.Optics Complex

/-- Element `i` of `np.arange(-N/2., N/2.)` -/
noncomputable def axis (N : ℕ) (i : ℕ) : ℝ := -(N : ℝ) / 2 + i

/-- falco/util.py:353-371 `azimuthal_grid(axis)` in row `r` and column `c`: the columns carry x, the rows y. -/
noncomputable def azimuth (N r c : ℕ) : ℝ := Complex.arg ⟨axis N c, axis N r⟩

/-- falco/mask.py:1626-1645 `falco_gen_vortex_mask(charge, N)`: entry in row `r` and column `c`. -/
noncomputable def mask (charge : ℝ) (N r c : ℕ) : ℂ := exp (I * charge * azimuth N r c)

/-- `scipy.signal.windows.tukey(M, alpha)[n]` (symmetric window). For `alpha ≥ 1` it is the Hann window. -/
noncomputable def tukey (M : ℕ) (alpha : ℝ) (n : ℕ) : ℝ :=
  if M ≤ 1 then 1
  else if alpha ≤ 0 then 1
  else if 1 ≤ alpha then 0.5 - 0.5 * Real.cos (2 * Real.pi * n / ((M : ℝ) - 1))
  else
    let width : ℕ := ⌊alpha * ((M : ℝ) - 1) / 2⌋₊
    if n < width + 1 then 0.5 * (1 + Real.cos (Real.pi * (-1 + 2 * n / alpha / ((M : ℝ) - 1))))
    else if n < M - width - 1 then 1
    else 0.5 * (1 + Real.cos (Real.pi * (-2 / alpha + 1 + 2 * n / alpha / ((M : ℝ) - 1))))

/-- `np.linspace(lo, hi, M)[i]` -/
noncomputable def linspace (lo hi : ℝ) (M i : ℕ) : ℝ := if M ≤ 1 then lo else lo + i * ((hi - lo) / ((M : ℝ) - 1))

open Classical in
/-- `np.interp(x, xp, fp)` for `M` points with increasing `xp`: linear between the points, constant outside. -/
noncomputable def interp (M : ℕ) (xp fp : ℕ → ℝ) (x : ℝ) : ℝ :=
  if x ≤ xp 0 then fp 0
  else if xp (M - 1) ≤ x then fp (M - 1)
  else
    let j := Nat.findGreatest (fun j => xp j ≤ x) (M - 1)
    fp j + (fp (j + 1) - fp j) / (xp (j + 1) - xp j) * (x - xp j)

/-- falco/prop.py:416 `Nlut = int(10*Nwindow)` for a positive width (truncation). -/
noncomputable def nLut (Nwindow : ℝ) : ℕ := ⌊10 * Nwindow⌋₊

/-- falco/prop.py:416-419 for one radius: the window, when there is at least one point in the table. -/
noncomputable def windowAt (Nwindow alpha rho : ℝ) : ℝ :=
  interp (nLut Nwindow) (linspace (-Nwindow / 2) (Nwindow / 2) (nLut Nwindow)) (tukey (nLut Nwindow) alpha) rho

/-- falco/prop.py:393-421 `gen_tukey_for_vortex(Nwindow, RHO, alpha)` for one radius and a positive width: `np.interp` refuses an empty table. -/
noncomputable def genTukey (Nwindow alpha rho : ℝ) : Except PyErr ℝ :=
  if nLut Nwindow = 0 then .error .valueError else .ok (windowAt Nwindow alpha rho)

/-- falco/prop.py:324 `RHO = util.radial_grid(np.arange(-NB/2., NB/2.))` in row `r` and column `c`. -/
noncomputable def rho (NB r c : ℕ) : ℝ := Real.sqrt (axis NB c ^ 2 + axis NB r ^ 2)

/-- falco/prop.py:260-390 `mft_p2v2p(pupilPre, charge, beamRadius, inVal, outVal, reverseGradient)` on a square pupil array: `lambdaOverD = 4`, `NB` of line 302, the mask of
line 304, the windows of lines 326-332 (tables of positive length: `2*outVal*4 ≥ 1/10` and `NB ≥ 1`). -/
noncomputable def mftP2v2pCharge {A : ℕ} (rg : Bool) (charge : ℤ) (beamRadius inVal outVal : ℝ) (P : Matrix (Fin A) (Fin A) ℂ) : Matrix (Fin A) (Fin A) ℂ :=
  let D := 2 * beamRadius
  let NB := (Util.ceilEven (4 * D)).toNat
  mftP2v2pOf rg D 4 outVal NB (fun n r c => mask charge n r c) (fun width r c => windowAt width (1 - inVal / outVal) (rho NB r c)) P

end Verif.VortexMask
