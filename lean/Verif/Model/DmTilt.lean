import Verif.Model.DiffDm
import Verif.Model.Util
import Mathlib.LinearAlgebra.Matrix.NonsingularInverse
import Mathlib.Analysis.Real.Sqrt

/-!
# Model of the placement and the tilt of DM surfaces: `propcustom_dm`, `gen_poke_cube` (falco/dm.py) and the tilted differentiable DM (falco/diff_dm.py)

Simplifications: real arithmetic; square DMs; the interpolations of SciPy (`map_coordinates`, `RectBivariateSpline`, `griddata`) are parameters; the influence
function file has a whole number of pixels per actuator exactly (the code accepts a deviation of 1e-8).
-/

namespace Verif.DmTilt
open Verif Verif.Dm Verif.Util Verif.Optics Verif.Compact

/-- degrees to radians (falco/dm.py:418-420 `* np.pi / 180`, `np.radians`) -/
noncomputable def rad (t : ℝ) : ℝ := t * Real.pi / 180

/-! ## propcustom_dm -/

/-- The arguments of `propcustom_dm` (falco/dm.py:202) and what it reads from the influence-function file: `inf` is the `K × K` array (zero outside), `mag` the pixels
per actuator, `dxInf` the sampling scaled to the actuator spacing (dm.py:364).  Angles in degrees, `xyz` the rotation order. -/
structure Dm where
  nact : ℕ
  mag : ℕ
  K : ℕ
  inf : ℤ → ℤ → ℝ
  dxInf : ℝ
  spacing : ℝ
  xc : ℝ
  yc : ℝ
  xtilt : ℝ
  ytilt : ℝ
  zrot : ℝ
  xyz : Bool

/-- falco/dm.py:389-391: points across the subsampled grid. -/
def Dm.grid (d : Dm) : ℕ := d.nact * d.mag + 2 * (9 * d.mag)

/-- falco/dm.py:392: pixel of the first actuator. -/
def Dm.off (d : Dm) : ℕ := 9 * d.mag + d.mag / 2

/-- falco/dm.py:394-399: the heights at the pixels of the actuators, zero elsewhere. -/
def Dm.poke (d : Dm) (z : Fin d.nact → Fin d.nact → ℝ) (a b : ℕ) : ℝ :=
  if h : (d.off ≤ a ∧ (a - d.off) % d.mag = 0 ∧ (a - d.off) / d.mag < d.nact) ∧ (d.off ≤ b ∧ (b - d.off) % d.mag = 0 ∧ (b - d.off) / d.mag < d.nact) then
    z ⟨(a - d.off) / d.mag, h.1.2.2⟩ ⟨(b - d.off) / d.mag, h.2.2.2⟩
  else 0

/-- falco/dm.py:402: `ss.fftconvolve(dm_grid, inf, mode='same')`: pixel `(y, x)` of the part of the full convolution that starts at `(K-1)//2`. -/
def Dm.surfGrid (d : Dm) (z : Fin d.nact → Fin d.nact → ℝ) (y x : ℕ) : ℝ :=
  ∑ a ∈ Finset.range d.grid, ∑ b ∈ Finset.range d.grid, d.poke z a b * d.inf ((y : ℤ) + ((d.K - 1) / 2 : ℕ) - a) ((x : ℤ) + ((d.K - 1) / 2 : ℕ) - b)

/-- falco/dm.py:407-414: pixels across the part of the output that is computed. -/
noncomputable def Dm.window (d : Dm) (n : ℕ) (dx : ℝ) : ℕ := min (npRound (Real.sqrt 2 * d.grid * d.dxInf / dx)).toNat n

/-- falco/dm.py:422-436: the matrix for the rotation order. -/
noncomputable def Dm.m (d : Dm) : Matrix (Fin 3) (Fin 3) ℝ :=
  if d.xyz then mXYZ (rad d.xtilt) (rad d.ytilt) (rad d.zrot) else mZYX (rad d.xtilt) (rad d.ytilt) (rad d.zrot)

/-- falco/dm.py:416-417, 450-476: pixel `(i, j)` of the `n × n` surface with sampling `dx`; `interp A x y` stands for the interpolation of the subsampled grid `A`
(`map_coordinates(dm_grid.T, [xdm, ydm])`). -/
noncomputable def Dm.surface (d : Dm) (interp : (ℕ → ℕ → ℝ) → ℝ → ℝ → ℝ) (z : Fin d.nact → Fin d.nact → ℝ) (n : ℕ) (dx : ℝ) (i j : ℕ) : ℝ :=
  let xdim := d.window n dx
  let lo := n / 2 - xdim / 2
  if (lo ≤ i ∧ i < lo + xdim) ∧ (lo ≤ j ∧ j < lo + xdim) then
    let x := (((j - lo : ℕ) : ℝ) - ((xdim / 2 : ℕ) : ℝ)) * dx
    let y := (((i - lo : ℕ) : ℝ) - ((xdim / 2 : ℕ) : ℝ)) * dx
    let s := backProject d.m x y
    interp (d.surfGrid z) ((s.1 + d.xc * d.spacing) / d.dxInf + d.off) ((s.2 + d.yc * d.spacing) / d.dxInf + d.off)
  else 0

/-- falco/dm.py:55-62: the shift in actuators for the centering. -/
noncomputable def surfShift (c : Centering) (n : ℕ) (dx spacing : ℝ) : ℝ :=
  match c with
  | .interpixel => -(n * dx) / 2 / n / spacing
  | .pixel => 0

/-- falco/dm.py:128-138: `gen_surf_from_act` (after constraints and orientation) calls `propcustom_dm` with the shifted centre. -/
noncomputable def Dm.fromAct (d : Dm) (c : Centering) (interp : (ℕ → ℕ → ℝ) → ℝ → ℝ → ℝ) (z : Fin d.nact → Fin d.nact → ℝ) (n : ℕ) (dx : ℝ) : ℕ → ℕ → ℝ :=
  { d with xc := d.xc - surfShift c n dx d.spacing, yc := d.yc - surfShift c n dx d.spacing }.surface interp z n dx

/-! ## gen_poke_cube -/

/-- falco/dm.py:590-612: the rotation matrix, with the sign of `zrot` changed. -/
noncomputable def Dm.mrot (d : Dm) : Matrix (Fin 3) (Fin 3) ℝ :=
  if d.xyz then mrotXYZ (rad d.xtilt) (rad d.ytilt) (rad (-d.zrot)) else mrotZYX (rad d.xtilt) (rad d.ytilt) (rad (-d.zrot))

/-- falco/dm.py:574-575, 640-647: centre of the actuator in row `r`, column `c` (orientation aside), in actuator widths. -/
noncomputable def Dm.centre (d : Dm) (r c : ℕ) : ℝ × ℝ := pokeProject d.mrot (c - d.xc) (r - d.yc)

/-- falco/dm.py:775-776, 785-788: coordinate (metres) at which pixel `k` of a stamp samples the influence function, one axis; `c` is the coordinate of the actuator
centre in actuator widths, `ppa = dm_spacing/dx_dm`. -/
noncomputable def stampCoord (Nbox : ℕ) (c ppa dx : ℝ) (k : ℕ) : ℝ :=
  (-((Nbox : ℝ) - 1) / 2 + k) * dx - ((c * ppa + 0.5) - npRound (c * ppa + 0.5)) * dx

/-- falco/dm.py:649-652: points across the padded influence function, and the first and the end of the slice the `N0 × N0` influence function is put into. -/
noncomputable def padSlice (N0 : ℕ) : ℤ × ℤ × ℤ :=
  let Npad := ceilOdd (Real.sqrt 2 * N0)
  (Npad, ⌈(Npad : ℝ) / 2⌉ - ⌊(N0 : ℝ) / 2⌋ - 1, ⌈(Npad : ℝ) / 2⌉ + ⌊(N0 : ℝ) / 2⌋)

/-- falco/dm.py:651-653: the padded influence function.  NumPy cannot put an `N0 × N0` array into a slice of another size (`N0 > 1`). -/
noncomputable def padInf (N0 : ℕ) (inf0 : ℕ → ℕ → ℝ) : Except PyErr (ℤ → ℤ → ℝ) :=
  let s := padSlice N0
  if s.2.2 - s.2.1 = N0 then
    .ok fun i j => if (s.2.1 ≤ i ∧ i < s.2.2) ∧ (s.2.1 ≤ j ∧ j < s.2.2) then inf0 (i - s.2.1).toNat (j - s.2.1).toNat else 0
  else .error .valueError

/-- falco/dm.py:658-661: coordinate (in pixels of the influence function) of pixel `i` of the padded influence function. -/
noncomputable def padCoord (Npad : ℤ) (i : ℤ) : ℝ := (i : ℝ) + 1 - ((npFix ((Npad : ℝ) / 2) : ℝ) + 1)

/-- falco/dm.py:528-537: points across the surface at native resolution, and `dm.Ndm`. -/
noncomputable def ndm (Ninf0 nact : ℕ) (spacing dxInf0 dx zrot : ℝ) : ℤ × ℤ :=
  let Ndm0 := ceilEven (Ninf0 + ((nact : ℝ) - 1) * (spacing / dxInf0))
  (Ndm0, ceilEven (max |Real.sqrt 2 * Real.cos (rad (45 - zrot))| |Real.sqrt 2 * Real.sin (rad (45 - zrot))| * Ndm0 * (dxInf0 / dx)) + 2)

/-! ## The differentiable DM -/

/-- falco/diff_dm.py:238-243 -/
def promote (M : Matrix (Fin 3) (Fin 3) ℝ) : Matrix (Fin 4) (Fin 4) ℝ :=
  !![M 0 0, M 0 1, M 0 2, 0; M 1 0, M 1 1, M 1 2, 0; M 2 0, M 2 1, M 2 2, 0; 0, 0, 0, 1]

/-- falco/diff_dm.py:246-251 -/
def translation (tx ty tz : ℝ) : Matrix (Fin 4) (Fin 4) ℝ := !![1, 0, 0, tx; 0, 1, 0, ty; 0, 0, 1, tz; 0, 0, 0, 1]

/-- falco/diff_dm.py:254-273 -/
def dropZ (M : Matrix (Fin 4) (Fin 4) ℝ) : Matrix (Fin 3) (Fin 3) ℝ := M.submatrix ![0, 1, 3] ![0, 1, 3]

/-- falco/diff_dm.py:330-338 (and 276-296) for one point -/
noncomputable def applyHomography (M : Matrix (Fin 3) (Fin 3) ℝ) (p : ℝ × ℝ) : ℝ × ℝ :=
  let v := M.mulVec ![p.1, p.2, 1]
  (v 0 / v 2, v 1 / v 2)

/-- falco/diff_dm.py:341-354: `Mfwd` for an `s × s` array and the rotation matrix `R`. -/
noncomputable def mFwd (s : ℕ) (R : Matrix (Fin 3) (Fin 3) ℝ) : Matrix (Fin 3) (Fin 3) ℝ :=
  dropZ (translation ((s : ℝ) / 2) ((s : ℝ) / 2) 0 * (promote R * translation (-((s : ℝ) / 2)) (-((s : ℝ) / 2)) 0))

/-- falco/diff_dm.py:355-356: where `render` looks pixel `(x, y)` up. -/
noncomputable def fwdCoord (s : ℕ) (R : Matrix (Fin 3) (Fin 3) ℝ) (p : ℝ × ℝ) : ℝ × ℝ := applyHomography (mFwd s R)⁻¹ p

/-- falco/diff_dm.py:357: where `render_backprop` looks pixel `(x, y)` up. -/
noncomputable def revCoord (s : ℕ) (R : Matrix (Fin 3) (Fin 3) ℝ) (p : ℝ × ℝ) : ℝ × ℝ := applyHomography (mFwd s R) p

/-- falco/diff_dm.py:299-327 `warp`: `interp A y x` stands for `ndimage.map_coordinates(A, (y, x))`. -/
noncomputable def warp {M : ℕ} (interp : Pl M → ℝ → ℝ → ℂ) (coord : ℝ × ℝ → ℝ × ℝ) (A : Pl M) : Pl M := fun i j =>
  let q := coord ((j.val : ℝ), (i.val : ℝ))
  interp A q.2 q.1

/-- Rotation of a differentiable DM (falco/diff_dm.py:503): angles about Z, Y, X in degrees, and the order. -/
structure Tilt where
  z : ℝ
  y : ℝ
  x : ℝ
  zyx : Bool

/-- falco/diff_dm.py:179-235, 345 -/
noncomputable def Tilt.matrix (t : Tilt) : Matrix (Fin 3) (Fin 3) ℝ := makeRotationMatrix (rad t.z) (rad t.y) (rad t.x) t.zyx

/-- falco/diff_dm.py:584 `np.cos(np.radians(np.linalg.norm(rot)))` -/
noncomputable def Tilt.obliquity (t : Tilt) : ℝ := Real.cos (rad (Real.sqrt (t.z ^ 2 + t.y ^ 2 + t.x ^ 2)))

/-- falco/diff_dm.py:599-600: `not np.allclose(rot, [0, 0, 0])` -/
def Tilt.needsRot (t : Tilt) : Prop := ¬ (|t.z| ≤ 1e-8 ∧ |t.y| ≤ 1e-8 ∧ |t.x| ≤ 1e-8)

/-- falco/diff_dm.py:172-175: the rotation given by `dm_init_falco_wrapper`. -/
def Dm.tilt (d : Dm) : Tilt := ⟨-1 * d.zrot, d.ytilt, d.xtilt, !d.xyz⟩

open Classical in
/-- falco/diff_dm.py:650-683 `render(Nout=None…)` after `update(a)` with tilt and without resampling, for an output as large as the influence-function array. -/
noncomputable def render {M n : ℕ} [NeZero M] (interp : Pl M → ℝ → ℝ → ℂ) (d : DiffDm.DM M M n) (t : Tilt) (a : Fin n → Fin n → ℝ) (wfe : Bool) : Pl M :=
  let sfe := DiffDm.applyTf (DiffDm.poke n d.sep a) (DiffDm.tf d.ifn d.shiftx d.shifty)
  let w := if t.needsRot then warp interp (fwdCoord M t.matrix) sfe else sfe
  if wfe then fun i j => w i j * (2 * t.obliquity) else w

open Classical in
/-- falco/diff_dm.py:685-737 `render_backprop` after such a `render`. -/
noncomputable def backprop {M n : ℕ} [NeZero M] (interp : Pl M → ℝ → ℝ → ℂ) (d : DiffDm.DM M M n) (t : Tilt) (g : Pl M) (wfe : Bool) : Fin n → Fin n → ℂ :=
  let g : Pl M := if wfe then fun i j => g i j * (2 * t.obliquity) else g
  let g := if t.needsRot then warp interp (revCoord M t.matrix) g else g
  DiffDm.readLattice n d.sep (DiffDm.applyTf g fun k l => (starRingEnd ℂ) (DiffDm.tf d.ifn d.shiftx d.shifty k l))

end Verif.DmTilt
