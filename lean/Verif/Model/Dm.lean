import Verif.Model.Arr
import Verif.Model.Util
import Mathlib.Data.Real.Basic
import Mathlib.Algebra.Order.Floor.Ring
import Mathlib.LinearAlgebra.Matrix.Notation
import Mathlib.Analysis.SpecialFunctions.Trigonometric.Deriv
import Mathlib.Data.List.FinRange
import Mathlib.Data.Fin.Rev

/-! # Model of falco/dm.py: quantisation, orientation, neighbour rule, superposition, gain map, rotations, poke boxes -/

namespace Verif.Dm
open Verif

/-! ## Quantisation -/

open Classical in
/-- `np.round` on a float: nearest integer, halves to even. -/
noncomputable def npRound (x : ℝ) : ℤ :=
  if Int.fract x < 1 / 2 then ⌊x⌋ else if 1 / 2 < Int.fract x then ⌊x⌋ + 1
  else if Even ⌊x⌋ then ⌊x⌋ else ⌊x⌋ + 1

open Classical in
/-- `np.fix`: towards zero. -/
noncomputable def npFix (x : ℝ) : ℤ := if 0 ≤ x then ⌊x⌋ else ⌈x⌉

/-- Python `sub in s.lower()` (ASCII lower case). -/
def InLower (sub s : String) : Prop := sub.toList <:+: (s.toList.map Char.toLower)

open Classical in
/-- falco/dm.py:184-194: the rounding selected by `HminStepMethod`. -/
noncomputable def stepRounding (method : String) : Except PyErr (ℝ → ℤ) :=
  if InLower "round" method then .ok npRound
  else if InLower "floor" method then .ok (fun x => ⌊x⌋)
  else if InLower "ceil" method then .ok (fun x => ⌈x⌉)
  else if InLower "fix" method then .ok npFix
  else .error .valueError

/-- falco/dm.py:147-199 `discretize_surf` for one actuator with gain `VtoH` and command `V`: the value of
`dm.Vquantized`.  (The isinstance check of the method is done by typing; `VtoH = 0` gives NaN in NumPy, and 0 here.) -/
noncomputable def discretize (method : String) (HminStep VtoH V : ℝ) : Except PyErr ℝ :=
  (stepRounding method).map fun rnd => (rnd (VtoH * V / HminStep) : ℝ) * HminStep / VtoH

/-! ## Orientation -/

variable {α : Type*} {N : ℕ}

/-- `np.fliplr` of a square array. -/
def fliplr (M : Fin N → Fin N → α) : Fin N → Fin N → α := fun i j => M i j.rev

/-- `np.rot90(M, k)` of a square array, following NumPy: `k` modulo 4; 0 copy, 2 flip both axes, 1 flip columns
then transpose, 3 transpose then flip columns. -/
def rot90 (M : Fin N → Fin N → α) (k : ℤ) : Fin N → Fin N → α :=
  let k := k % 4
  if k = 0 then M
  else if k = 2 then fun i j => M i.rev j.rev
  else if k = 1 then fun i j => (fliplr M) j i
  else fliplr (fun i j => M j i)

/-- falco/dm.py:82-100: orientation applied to the height map in `gen_surf_from_act` (the attribute is present). -/
def surfOrient (o : String) (heightMap : Fin N → Fin N → α) : Except PyErr (Fin N → Fin N → α) :=
  let s := o.toLower
  if s = "rot0" then .ok heightMap
  else if s = "rot90" then .ok (rot90 heightMap 1)
  else if s = "rot180" then .ok (rot90 heightMap 2)
  else if s = "rot270" then .ok (rot90 heightMap 3)
  else if s = "flipxrot0" then .ok (fliplr heightMap)
  else if s = "flipxrot90" then .ok (rot90 (fliplr heightMap) 1)
  else if s = "flipxrot180" then .ok (rot90 (fliplr heightMap) 2)
  else if s = "flipxrot270" then .ok (rot90 (fliplr heightMap) 3)
  else .error .valueError

/-- falco/dm.py:621-640: orientation applied to the actuator index matrix in `gen_poke_cube`.  The linear index
`r*Nact + c` of the code is the pair `(r, c)` here. -/
def pokeOrient (N : ℕ) (o : String) : Except PyErr (Fin N → Fin N → Fin N × Fin N) :=
  let actIndMat : Fin N → Fin N → Fin N × Fin N := fun r c => (r, c)
  let s := o.toLower
  if s = "rot0" then .ok actIndMat
  else if s = "rot90" then .ok (rot90 actIndMat (-1))
  else if s = "rot180" then .ok (rot90 actIndMat (-2))
  else if s = "rot270" then .ok (rot90 actIndMat (-3))
  else if s = "flipxrot0" then .ok (fliplr actIndMat)
  else if s = "flipxrot90" then .ok (rot90 (fliplr actIndMat) 1)
  else if s = "flipxrot180" then .ok (rot90 (fliplr actIndMat) 2)
  else if s = "flipxrot270" then .ok (rot90 (fliplr actIndMat) 3)
  else .error .valueError

/-- falco/dm.py:575-582,643-644: un-rotated centre (x, y), in actuator widths, of the actuator with command index `(i,j)`. -/
noncomputable def pokeCentre (A : Fin N → Fin N → Fin N × Fin N) (xc yc : ℝ) (i j : Fin N) : ℝ × ℝ :=
  (((A i j).2 : ℕ) - xc, ((A i j).1 : ℕ) - yc)

/-- falco/dm.py:394-397,456-457 (`propcustom_dm`): un-rotated position (x, y), in actuator widths, of row `r`, column `c` of
the height map handed to the surface generator. -/
noncomputable def surfNode (xc yc : ℝ) (r c : Fin N) : ℝ × ℝ := ((c : ℕ) - xc, (r : ℕ) - yc)

/-! ## Neighbour rule -/

section Nbr
variable {K : Type*} [Field K] [LinearOrder K]

/-- falco/dm.py:829-859: the row/column offsets examined at row `jj`, column `ii`. -/
def nbrOffsets (Nact jj ii : ℕ) : List (ℤ × ℤ) :=
  if jj = 0 then
    if ii = 0 then [(0, 1), (1, 1), (1, 0)]
    else if ii < Nact - 1 then [(0, 1), (1, 1), (1, 0), (1, -1)]
    else [(1, 0), (1, -1)]
  else if jj < Nact - 1 then
    if ii = 0 then [(-1, 1), (0, 1), (1, 1), (1, 0)]
    else if ii < Nact - 1 then [(-1, 1), (0, 1), (1, 1), (1, 0), (1, -1)]
    else [(1, 0), (1, -1)]
  else
    if ii < Nact - 1 then [(-1, 1), (0, 1)] else [(-1, -1)]

/-- All (centre, neighbour) positions in the order in which falco/dm.py:838-868 visits them. -/
def nbrVisits (Nact : ℕ) : List ((ℤ × ℤ) × (ℤ × ℤ)) :=
  (List.range Nact).flatMap fun jj => (List.range Nact).flatMap fun ii =>
    (nbrOffsets Nact jj ii).map fun k => (((jj : ℤ), (ii : ℤ)), ((jj : ℤ) + k.1, (ii : ℤ) + k.2))

/-- A voltage map of `Nact × Nact` entries, addressed by integer positions. -/
abbrev VMap (K : Type*) := ℤ × ℤ → K

/-- falco/dm.py:877-879: the correction applied to a violating pair. -/
def nbrFix (Vlim : K) (V : VMap K) (p q : ℤ × ℤ) : VMap K :=
  let a1 := V p - V q
  let fx := (|a1| - Vlim) / 2
  let s : K := if 0 < a1 then 1 else if a1 < 0 then -1 else 0
  let V1 := Function.update V p (V p - s * fx)
  Function.update V1 q (V1 q + s * fx)

/-- One visit of a pair as the code *intends* it (falco/dm.py:868-879 without the failing line 874). -/
def nbrVisit (Vlim : K) (V : VMap K) (pq : (ℤ × ℤ) × (ℤ × ℤ)) : VMap K :=
  if Vlim < |V pq.1 - V pq.2| then nbrFix Vlim V pq.1 pq.2 else V

/-- The whole sweep as intended. -/
def nbrSweep (Vlim : K) (Nact : ℕ) (V : VMap K) : VMap K := (nbrVisits Nact).foldl (nbrVisit Vlim) V

/-- falco/dm.py:798-881 `apply_neighbor_rule` as it runs with the pinned NumPy (requirements: numpy 2.x): indexing outside the
map raises `IndexError`; at the first violating pair line 874, `np.array([indPair, ...])` of a (0,2) and a (1,2) array, raises
`ValueError` (inhomogeneous shape) before anything is corrected.  Negative indices do not occur (proved). -/
def nbrRun (Vlim : K) (Nact : ℕ) (V : VMap K) : Except PyErr (VMap K) :=
  (nbrVisits Nact).foldlM (fun V pq =>
    if (Nact : ℤ) ≤ pq.2.1 ∨ (Nact : ℤ) ≤ pq.2.2 then .error .indexError
    else if Vlim < |V pq.1 - V pq.2| then .error .valueError else .ok V) V

end Nbr

/-! ## Superposition -/

/-- falco/dm.py:1051-1075 `gen_surf_from_poke_cube` (after the model type has been resolved).  `lo iact = (x, y)` is
`xy_box_lowerLeft[:, iact]`, `inf iact y x` the influence datacube, `V`/`VtoH` the flattened command and gain.
Simplification: a pixel outside the box is not touched; NumPy would wrap negative box indices and raise for too large ones
(`C60_boxes_in_bounds` shows that neither happens for boxes made by `gen_poke_cube`). -/
noncomputable def surfFromCube {nAct Nbox NdmPad : ℕ} (lo : Fin nAct → ℤ × ℤ) (inf : Fin nAct → Fin Nbox → Fin Nbox → ℝ)
    (VtoH V : Fin nAct → ℝ) : Fin NdmPad → Fin NdmPad → ℝ :=
  (List.finRange nAct).foldl (fun surf iact =>
    if 1e-12 < ∑ a, ∑ b, |inf iact a b| then
      fun y x =>
        if h : 0 ≤ (y : ℤ) - (lo iact).2 ∧ (y : ℤ) - (lo iact).2 < Nbox ∧
               0 ≤ (x : ℤ) - (lo iact).1 ∧ (x : ℤ) - (lo iact).1 < Nbox then
          surf y x + V iact * VtoH iact *
            inf iact ⟨((y : ℤ) - (lo iact).2).toNat, by omega⟩ ⟨((x : ℤ) - (lo iact).1).toNat, by omega⟩
        else surf y x
    else surf) (fun _ _ => 0)

/-! ## Gain map -/

/-- Coefficients of the voltage-to-height fits of one actuator. -/
structure FitCoef where
  (p1 p2 p3 a0 a1 a2 b1 b2 w : ℝ)

/-- falco/dm.py:1557-1601 `update_gain_map` for one actuator (coefficients exist): the new `VtoH`. -/
noncomputable def updateGain (fitType : String) (c : FitCoef) (VtoH V bias : ℝ) : Except PyErr ℝ :=
  let s := fitType.toLower
  if s = "linear" ∨ s = "poly1" then .ok VtoH
  else if s = "quadratic" ∨ s = "poly2" then .ok (2 * c.p1 * (V + bias) + c.p2)
  else if s = "fourier2" then
    .ok (c.w * (-c.a1 * Real.sin ((V + bias) * c.w) + c.b1 * Real.cos ((V + bias) * c.w)
      + -2 * c.a2 * Real.sin (2 * (V + bias) * c.w) + 2 * c.b2 * Real.cos (2 * (V + bias) * c.w)))
  else .error .valueError

/-! ## Rotations -/

open Real in
/-- falco/dm.py:423-429 and 1258-1264: matrix `m` for the XYZ order (upper-left 3×3 block; angles in radians). -/
noncomputable def mXYZ (a b g : ℝ) : Matrix (Fin 3) (Fin 3) ℝ :=
  !![cos b * cos g, -cos b * sin g, sin b;
     cos a * sin g + sin a * sin b * cos g, cos a * cos g - sin a * sin b * sin g, -sin a * cos b;
     sin a * sin g - cos a * sin b * cos g, sin a * cos g + cos a * sin b * sin g, cos a * cos b]

open Real in
/-- falco/dm.py:430-436 and 1265-1271: matrix `m` for the ZYX order. -/
noncomputable def mZYX (a b g : ℝ) : Matrix (Fin 3) (Fin 3) ℝ :=
  !![cos b * cos g, cos g * sin a * sin b - cos a * sin g, cos a * cos g * sin b + sin a * sin g;
     cos b * sin g, cos a * cos g + sin a * sin b * sin g, -cos g * sin a + cos a * sin b * sin g;
     -sin b, cos b * sin a, cos a * cos b]

open Real in
/-- falco/dm.py:601-606 (`gen_poke_cube`, XYZ); `g` is the third entry of `tlt`, i.e. minus `dm.zrot`. -/
noncomputable def mrotXYZ (a b g : ℝ) : Matrix (Fin 3) (Fin 3) ℝ :=
  !![cos b * cos g, sin a * sin b * cos g - cos a * sin g, cos a * sin b * cos g + sin a * sin g;
     cos b * sin g, sin a * sin b * sin g + cos a * cos g, cos a * sin b * sin g - sin a * cos g;
     -sin b, sin a * cos b, cos a * cos b]

open Real in
/-- falco/dm.py:607-612 (`gen_poke_cube`, ZYX). -/
noncomputable def mrotZYX (a b g : ℝ) : Matrix (Fin 3) (Fin 3) ℝ :=
  !![cos b * cos g, -cos b * sin g, sin b;
     cos a * sin g + sin a * sin b * cos g, cos a * cos g - sin a * sin b * sin g, -sin a * cos b;
     sin a * sin g - cos a * sin b * cos g, sin a * cos g + cos a * sin b * sin g, cos a * cos b]

open Real in
/-- falco/diff_dm.py:213-217 -/
noncomputable def Rx (a : ℝ) : Matrix (Fin 3) (Fin 3) ℝ := !![1, 0, 0; 0, cos a, -sin a; 0, sin a, cos a]
open Real in
/-- falco/diff_dm.py:218-222 -/
noncomputable def Ry (b : ℝ) : Matrix (Fin 3) (Fin 3) ℝ := !![cos b, 0, sin b; 0, 1, 0; -sin b, 0, cos b]
open Real in
/-- falco/diff_dm.py:223-227 -/
noncomputable def Rz (g : ℝ) : Matrix (Fin 3) (Fin 3) ℝ := !![cos g, -sin g, 0; sin g, cos g, 0; 0, 0, 1]

/-- falco/diff_dm.py:179-235 `make_rotation_matrix` with angles (γ, β, α) already in radians. -/
noncomputable def makeRotationMatrix (gamma beta alpha : ℝ) (useZyxOrder : Bool) : Matrix (Fin 3) (Fin 3) ℝ :=
  if useZyxOrder then Rx alpha * Ry beta * Rz gamma else Rz gamma * Ry beta * Rx alpha

/-- falco/dm.py:438-454: forward projection of a square through `m` (row vectors times `m`), slopes by finite differences,
and the back-projection of a screen point `(x, y)` to DM-surface coordinates `(xs, ys)`. -/
noncomputable def backProject (m : Matrix (Fin 3) (Fin 3) ℝ) (x y : ℝ) : ℝ × ℝ :=
  let e0 : Fin 3 → ℝ := ![-1, -1, 0]
  let e1 : Fin 3 → ℝ := ![1, -1, 0]
  let e2 : Fin 3 → ℝ := ![1, 1, 0]
  let n0 := Matrix.vecMul e0 m
  let n1 := Matrix.vecMul e1 m
  let n2 := Matrix.vecMul e2 m
  let dx_dxs := (n0 0 - n1 0) / (e0 0 - e1 0)
  let dx_dys := (n1 0 - n2 0) / (e1 1 - e2 1)
  let dy_dxs := (n0 1 - n1 1) / (e0 0 - e1 0)
  let dy_dys := (n1 1 - n2 1) / (e1 1 - e2 1)
  ((x / dx_dxs - y * dx_dys / (dx_dxs * dy_dys)) / (1 - dy_dxs * dx_dys / (dx_dxs * dy_dys)),
   (y / dy_dys - x * dy_dxs / (dx_dxs * dy_dys)) / (1 - dx_dys * dy_dxs / (dx_dxs * dy_dys)))

/-- falco/dm.py:643-647: `Mrot @ (x, y, 0)`, first two components. -/
noncomputable def pokeProject (M : Matrix (Fin 3) (Fin 3) ℝ) (x y : ℝ) : ℝ × ℝ :=
  let v := Matrix.mulVec M ![x, y, 0]
  (v 0, v 1)

/-! ## Prefilter -/

/-- `scipy.ndimage.convolve(x, w, mode='constant', cval=0)` on an `R × C` array with a kernel of odd size `(2p+1) × (2q+1)`:
`out[i] = Σ_k x[k] w[i - k + centre]`, terms outside the kernel or the array being zero. -/
def convolve {R C p q : ℕ} (w : Fin (2*p+1) → Fin (2*q+1) → ℝ) (x : Fin R × Fin C → ℝ) : Fin R × Fin C → ℝ :=
  fun i => ∑ k : Fin R × Fin C,
    if h : 0 ≤ (i.1 : ℤ) - k.1 + p ∧ (i.1 : ℤ) - k.1 + p < 2*p+1 ∧ 0 ≤ (i.2 : ℤ) - k.2 + q ∧ (i.2 : ℤ) - k.2 + q < 2*q+1 then
      x k * w ⟨((i.1 : ℤ) - k.1 + p).toNat, by omega⟩ ⟨((i.2 : ℤ) - k.2 + q).toNat, by omega⟩
    else 0

/-- falco/dm.py:1486-1507 `build_prefilter` (after resampling to actuator resolution): row `j` of the matrix is the surface made
by a unit poke of actuator `j`. -/
def buildPrefilter {R C p q : ℕ} (w : Fin (2*p+1) → Fin (2*q+1) → ℝ) : Matrix (Fin R × Fin C) (Fin R × Fin C) ℝ :=
  fun j => convolve w (Pi.single j 1)

/-! ## Boxes of the poke cube -/

/-- falco/dm.py:741-742: `dm.NdmPad`. `M` is `max |xy_cent_act|`, `ppa = dm_spacing/dx_dm`. -/
noncomputable def ndmPad (NboxAS : ℤ) (M ppa : ℝ) : ℤ := Util.ceilEven (NboxAS + 2 * (1 + (M + 0.5) * ppa))

/-- falco/dm.py:766-770: `xy_box_lowerLeft` for one coordinate `c` (in actuator widths) of an actuator centre. -/
noncomputable def boxLowerLeft (NdmPad Nbox : ℤ) (c ppa : ℝ) : ℝ := (npRound (c * ppa + 0.5) : ℝ) + ((NdmPad - Nbox : ℤ) : ℝ) / 2

end Verif.Dm

namespace Verif.Dm
open Verif

/-- falco/dm.py:681,686-687: `infSum - np.sum(abs(infMaster[k:-k, k:-k]))` for `k = counter/2 ≥ 1`. -/
noncomputable def cropDiff (A : Img ℝ) (k : ℕ) : ℝ := A.sum - ((A.slice k (-k) k (-k)).map abs).sum

open Classical in
/-- falco/dm.py:681-690: the `while abs(infDiff) <= 1e-7` loop, with `k = counter/2` and at most `fuel` iterations (`none`: still
running).  The result is the value of `counter/2` after the final `counter - 2`. -/
noncomputable def cropLoop (A : Img ℝ) : ℕ → ℕ → Option ℕ
  | 0, _ => none
  | fuel + 1, k => if |cropDiff A (k + 1)| ≤ 1e-7 then cropLoop A fuel (k + 1) else some k

end Verif.Dm
