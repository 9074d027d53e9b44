import Verif.Model.DmTilt
import Verif.Model.Est

/-!
# Model of fitting the DM to a surface: `fit_surf_to_act`, `derotate_resize_surface`, `resample_inf_func` (falco/dm.py:952-1027, 1077-1350, 1510-1555)

Simplifications: real arithmetic; square surfaces; SciPy's `griddata` and `RectBivariateSpline` are parameters; the influence-function file is the one of the DM
(its header is read from `inf_fn` itself, dm.py:1210), with a whole number `mag` of pixels per actuator; gains are not zero where it matters (`toVolts`).
-/

namespace Verif.SurfFit
open Verif Verif.Dm Verif.Util Verif.DmTilt

/-- `griddata((x.flatten(), y.flatten()), values.flatten(), (xq, yq))` at one query point: points and values are `N × N` arrays. -/
abbrev GridData := ∀ N : ℕ, (Fin N → Fin N → ℝ × ℝ) → (Fin N → Fin N → ℝ) → ℝ × ℝ → ℝ

/-- `RectBivariateSpline(t, t, A)(y, x)`: `t` has `N` entries, rows of `A` go with `y`. -/
abbrev Spline := ∀ N : ℕ, (Fin N → ℝ) → (Fin N → Fin N → ℝ) → ℝ → ℝ → ℝ

variable (gd : GridData) (spl : Spline)

/-- dm.py:1251-1252: coordinate of entry `k` along an axis of the window. -/
noncomputable def winAxis (N : ℕ) (dx : ℝ) (k : ℕ) : ℝ := ((k : ℝ) - ((N / 2 : ℕ) : ℝ)) * dx

/-- dm.py:1291-1309: the points of the subsampled grid seen by the pixels of the window. -/
noncomputable def seen (d : DmTilt.Dm) (N : ℕ) (dx : ℝ) (i j : ℕ) : ℝ × ℝ :=
  let s := backProject d.m (winAxis N dx j) (winAxis N dx i)
  ((s.1 + d.xc * d.spacing) / d.dxInf + d.off, (s.2 + d.yc * d.spacing) / d.dxInf + d.off)

/-- dm.py:1273-1289: the points of the subsampled grid at which the surface is wanted: the same window without rotation (the slopes of `edge` itself), the middle of the actuators
in its centre. -/
noncomputable def wanted (d : DmTilt.Dm) (N : ℕ) (dx : ℝ) (i j : ℕ) : ℝ × ℝ :=
  let s := backProject 1 (winAxis N dx j) (winAxis N dx i)
  ((s.1 + ((d.nact : ℝ) - 1) / 2 * d.spacing) / d.dxInf + d.off, (s.2 + ((d.nact : ℝ) - 1) / 2 * d.spacing) / d.dxInf + d.off)

/-- dm.py:1242-1249, 1320-1322: the surface cropped to the window (`pad_crop` keeps the centre, C01; the window is not larger than the surface) and derotated. -/
noncomputable def derot (d : DmTilt.Dm) (n : ℕ) (dx : ℝ) (surf : ℕ → ℕ → ℝ) (i j : Fin (d.window n dx)) : ℝ :=
  let N := d.window n dx
  gd N (fun i j => seen d N dx i j) (fun i j => surf (n / 2 - N / 2 + i) (n / 2 - N / 2 + j)) (wanted d N dx i j)

/-- dm.py:1332: `int(ceil_odd(spacing/dx))` -/
noncomputable def multiple (d : DmTilt.Dm) (dx : ℝ) : ℕ := (ceilOdd (d.spacing / dx)).toNat

/-- dm.py:1335: `xs1[k]` (`np.linspace(-(N1-1)/2, (N1-1)/2, N1)/N1`) -/
noncomputable def xs1 (d : DmTilt.Dm) (dx : ℝ) (k : ℕ) : ℝ :=
  let N1 : ℝ := d.nact * multiple d dx
  (-(N1 - 1) / 2 + k) / N1

/-- dm.py:1336-1339: `xs2[k]` -/
noncomputable def xs2 (d : DmTilt.Dm) (N2 : ℕ) (dx : ℝ) (k : ℕ) : ℝ :=
  if N2 % 2 = 0 then (-(N2 : ℝ) / 2 + k) / N2 * (N2 * dx / (d.nact * d.spacing)) else (-((N2 : ℝ) - 1) / 2 + k) / N2 * (N2 * dx / (d.nact * d.spacing))

/-- dm.py:1077-1350 `derotate_resize_surface`: the value for the actuator in row `r`, column `c`. -/
noncomputable def derotateResize (d : DmTilt.Dm) (n : ℕ) (dx : ℝ) (surf : ℕ → ℕ → ℝ) (r c : ℕ) : ℝ :=
  let mult := multiple d dx
  spl (d.window n dx) (fun k => xs2 d (d.window n dx) dx k) (derot gd d n dx surf) (xs1 d dx (mult / 2 + r * mult)) (xs1 d dx (mult / 2 + c * mult))

/-- dm.py:1510-1555 `resample_inf_func(inf, ppa_in, ppa_out)` of a `K × K` array (`inf` is zero outside): the number of pixels across and the values. -/
noncomputable def resampleInf (K : ℕ) (inf : ℤ → ℤ → ℝ) (ppaIn ppaOut : ℝ) : ℕ × (ℕ → ℕ → ℝ) :=
  if ppaIn ≠ ppaOut then
    let r0 : ℕ → ℝ := fun k => (-((K : ℝ) - 1) / 2 + k) / ppaIn
    let nr1 : ℕ := (2 * ⌊0.5 * K * ppaOut / ppaIn⌋ + 1).toNat
    let r1 : ℕ → ℝ := fun k => (-((nr1 : ℝ) - 1) / 2 + k) / ppaOut
    (nr1, fun a b => spl K (fun k => r0 k) (fun i j => inf (i : ℕ) (j : ℕ)) (r1 a) (r1 b))
  else (K, fun a b => inf a b)

/-- dm.py:972-986: the influence function at actuator resolution used by the iterative fit: the number of pixels across and the values. -/
noncomputable def fitKernel (K : ℕ) (inf : ℤ → ℤ → ℝ) (actres1 : ℝ) : ℕ × (ℕ → ℕ → ℝ) :=
  let x : ℕ → ℝ := fun k => (-((K : ℝ) - 1) / 2 + k) / actres1
  let N2 : ℕ := (ceilEven (K * 1 / actres1) + 1).toNat
  let xq : ℕ → ℝ := fun k => (-((N2 : ℝ) - 1) / 2 + k) / 1
  (N2, fun a b => spl K (fun k => x k) (fun i j => inf (i : ℕ) (j : ℕ)) (xq a) (xq b))

/-- dm.py:999-1012: the centre passed on, with the shift for the centering (`nSurface` columns, sampling `dm.dx`). -/
noncomputable def shifted (d : DmTilt.Dm) (c : Centering) (n : ℕ) (dx : ℝ) : DmTilt.Dm :=
  { d with xc := d.xc - surfShift c n dx d.spacing, yc := d.yc - surfShift c n dx d.spacing }

/-- dm.py:994-1015: the surface at actuator resolution. -/
noncomputable def atActRes (d : DmTilt.Dm) (c : Centering) (n : ℕ) (dx : ℝ) (surf : ℕ → ℕ → ℝ) : Except PyErr (Fin d.nact × Fin d.nact → ℝ) :=
  if n = d.nact then .ok fun p => surf p.1 p.2
  else if n > d.nact then .ok fun p => derotateResize gd spl (shifted d c n dx) n dx surf p.1 p.2
  else .error .valueError

/-- dm.py:1017-1023; `lsq` is `fit_surf_with_dm_lsq_wrapper`, `prop` is `prop_fit_dm` with the kernel above. -/
def fitHeights {ι : Type} (method : String) (lsq prop : (ι → ℝ) → ι → ℝ) (g : ι → ℝ) : Except PyErr (ι → ℝ) :=
  if method.toLower = "lsq" then .ok (lsq g)
  else if method.toLower = "proper" then .ok (prop g)
  else .error .valueError

/-- dm.py:952-1027 `fit_surf_to_act(dm, surfaceToFit)` for an `n × n` surface. -/
noncomputable def fitSurfToAct (d : DmTilt.Dm) (c : Centering) (method : String) (lsq prop : (Fin d.nact × Fin d.nact → ℝ) → Fin d.nact × Fin d.nact → ℝ)
    (VtoH : Fin d.nact × Fin d.nact → ℝ) (n : ℕ) (dx : ℝ) (surf : ℕ → ℕ → ℝ) : Except PyErr (Fin d.nact × Fin d.nact → ℝ) :=
  (atActRes gd spl d c n dx surf).bind fun g => (fitHeights method lsq prop g).map fun h => Est.toVolts VtoH h

end Verif.SurfFit
