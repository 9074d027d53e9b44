import Verif.Model.DmTilt
import Verif.Model.Est
import Verif.Model.Masks

/-!
# Model of the DM calls: `prop_dm` (falco/proper/prop_dm.py) and `propcustom_dm` (falco/dm.py), their options, DMs that are not square, the fit, and what is done to the wavefront

Simplifications: real arithmetic; the interpolation of SciPy (`map_coordinates`) or of the C library (`prop_cubic_conv`) is the parameter `interp`; reading of the FITS
files is left out (the contents are arguments); the number of pixels per actuator is positive; `N_ACT_ACROSS_PUPIL` is not 0.
-/

namespace Verif.PropDm
open Verif Verif.Dm Verif.DmTilt Verif.Proper

/-- Which of the two functions. -/
inductive Fn | proper | custom
  deriving DecidableEq

/-- The keyword arguments; `none` is "not given". -/
structure Opts where
  zyx : Option Bool := none
  xyz : Option Bool := none
  fit : Option Bool := none
  noApply : Option Bool := none
  nAct : Option ℕ := none
  xtilt : ℝ := 0
  ytilt : ℝ := 0
  ztilt : ℝ := 0
  /-- only `propcustom_dm` -/
  infSign : Option String := none

/-- What the influence function file contains: `ny × nx` pixels of width `pix` for actuators `pitch` apart (zero outside of the file). -/
structure Inf where
  ny : ℕ
  nx : ℕ
  inf : ℤ → ℤ → ℝ
  pix : ℝ
  pitch : ℝ

/-- falco/proper/switch_set.py:11-15 -/
def switchSet (o : Option Bool) : Bool := o == some true

/-- A flag as `prop_dm` reads it (`switch_set`) and as `propcustom_dm` does (`"FIT" in kwargs`). -/
def flag (f : Fn) (o : Option Bool) : Bool := match f with
  | .proper => switchSet o
  | .custom => o.isSome

/-- prop_dm.py:111-121 and falco/dm.py:279-290: the variable `XYZ` (`none`: not assigned). -/
def order (f : Fn) (o : Opts) : Except PyErr (Option Bool) :=
  if flag f o.zyx && flag f o.xyz then .error .valueError
  else if o.zyx.isNone && o.xyz.isNone then .ok (some true)
  else if flag f o.zyx then .ok (some false)
  else if flag f o.xyz then .ok (some true)
  else .ok none

/-- falco/dm.py:316-322, 335: the factor of the influence function.  `prop_dm` has no such argument. -/
def sign (f : Fn) (o : Opts) : Except PyErr ℝ := match f with
  | .proper => .ok 1
  | .custom => match o.infSign with
    | none => .ok 1
    | some s => if s = "+" then .ok 1 else if s = "-" then .ok (-1) else .error .unboundLocal

/-- prop_dm.py:154, falco/dm.py:348 -/
noncomputable def Inf.mag (F : Inf) : ℕ := (npRound (F.pitch / F.pix)).toNat

open Classical in
/-- prop_dm.py:158-159 and falco/dm.py:349-350 -/
noncomputable def checkInf (f : Fn) (F : Inf) : Except PyErr Unit := match f with
  | .proper => if F.nx % 2 ≠ 1 ∨ F.ny % 2 ≠ 1 then .error .valueError else .ok ()
  | .custom => if 1e-8 < |(F.mag : ℝ) - F.pitch / F.pix| then .error .valueError else .ok ()

open Classical in
/-- prop_dm.py:164-173, falco/dm.py:352-363: `dx_dm`. -/
noncomputable def spacingOf (spacing beamradius : ℝ) (nAct : Option ℕ) : Except PyErr ℝ := match nAct with
  | some k => if spacing ≠ 0 then .error .valueError else .ok (2 * beamradius / k)
  | none => if spacing = 0 then .error .valueError else .ok spacing

/-- `scipy.ndimage.convolve` at the edges (`mode='reflect'`, the default): index `i` of `n` pixels continued to all integers. -/
def reflect (n : ℕ) (i : ℤ) : ℕ := let m := (i % (2 * n : ℕ)).toNat; if m < n then m else 2 * n - 1 - m

theorem reflect_lt {n : ℕ} (hn : 0 < n) (i : ℤ) : reflect n i < n := by
  unfold reflect
  have h1 : 0 ≤ i % (2 * n : ℕ) := Int.emod_nonneg _ (by omega)
  have h2 : i % (2 * n : ℕ) < (2 * n : ℕ) := Int.emod_lt_of_pos _ (by omega)
  dsimp only
  split_ifs <;> omega

/-- prop_fit_dm.py:50: `scipy.ndimage.convolve(z, kernel)` for a kernel with `2h + 1` rows and columns, `w a b` the entry `a` rows and `b` columns from its middle. -/
noncomputable def convolve (h : ℕ) (w : ℤ → ℤ → ℝ) {ny nx : ℕ} (z : Fin ny × Fin nx → ℝ) (p : Fin ny × Fin nx) : ℝ :=
  ∑ a ∈ Finset.Icc (-h : ℤ) h, ∑ b ∈ Finset.Icc (-h : ℤ) h,
    w a b * z (⟨reflect ny ((p.1.val : ℤ) - a), reflect_lt (Fin.pos p.1) _⟩, ⟨reflect nx ((p.2.val : ℤ) - b), reflect_lt (Fin.pos p.2) _⟩)

/-- prop_dm.py:178-184, falco/dm.py:369-378: the `5 × 5` kernel, the influence function at the neighbouring actuators; `x/dx_inf = (k - 2) dx_dm/dx_inf` with
`dx_inf = pix * dx_dm / pitch`. `interp A x y` is the value of the image `A` at column `x`, row `y`. -/
noncomputable def kernel (interp : (ℤ → ℤ → ℝ) → ℝ → ℝ → ℝ) (F : Inf) (s dxDm : ℝ) (a b : ℤ) : ℝ :=
  let dxInf := F.pix * dxDm / F.pitch
  interp (fun i j => s * F.inf i j) (b * dxDm / dxInf + (F.nx / 2 : ℕ)) (a * dxDm / dxInf + (F.ny / 2 : ℕ))

open Classical in
/-- `prop_fit_dm` (falco/proper/prop_fit_dm.py, modelled in `Est.propFitDm`; some number of rounds is always enough, C64): the commands. -/
noncomputable def fitted {ι : Type} [Fintype ι] (L : (ι → ℝ) → ι → ℝ) (z : ι → ℝ) : ι → ℝ :=
  if h : ∃ fuel r, Est.propFitDm L z fuel = some r then (Classical.choose (Classical.choose_spec h)).1 else z

/-- prop_dm.py:195-208, falco/dm.py:388-402: a rectangular DM with `mag` pixels per actuator. -/
structure Grid where
  mag : ℕ
  ny : ℕ
  nx : ℕ

/-- prop_dm.py:195, 198 -/
def Grid.off (g : Grid) : ℕ := 9 * g.mag + g.mag / 2

/-- prop_dm.py:196-197: points along an axis with `k` actuators. -/
def Grid.size (g : Grid) (k : ℕ) : ℕ := k * g.mag + 2 * (9 * g.mag)

/-- prop_dm.py:200-204: the heights at the pixels of the actuators. -/
def Grid.poke (g : Grid) (z : Fin g.ny × Fin g.nx → ℝ) (a b : ℕ) : ℝ :=
  if h : (g.off ≤ a ∧ (a - g.off) % g.mag = 0 ∧ (a - g.off) / g.mag < g.ny) ∧ (g.off ≤ b ∧ (b - g.off) % g.mag = 0 ∧ (b - g.off) / g.mag < g.nx) then
    z (⟨(a - g.off) / g.mag, h.1.2.2⟩, ⟨(b - g.off) / g.mag, h.2.2.2⟩)
  else 0

/-- prop_dm.py:206-208: `fftconvolve(dm_grid, inf, mode='same')`. -/
def Grid.surf (g : Grid) (F : Inf) (s : ℝ) (z : Fin g.ny × Fin g.nx → ℝ) (y x : ℕ) : ℝ :=
  ∑ a ∈ Finset.range (g.size g.ny), ∑ b ∈ Finset.range (g.size g.nx),
    g.poke z a b * (s * F.inf ((y : ℤ) + ((F.ny - 1) / 2 : ℕ) - a) ((x : ℤ) + ((F.nx - 1) / 2 : ℕ) - b))

/-- prop_dm.py:211-216: `xdim`, `ydim` for an axis with `k` actuators. -/
noncomputable def Grid.dim (g : Grid) (k : ℕ) (dxInf dxSurf : ℝ) (n : ℕ) : ℕ := min (npRound (Real.sqrt 2 * g.size k * dxInf / dxSurf)).toNat n

/-- The array `grid` with its shape. -/
structure Arr2 where
  rows : ℕ
  cols : ℕ
  at_ : ℕ → ℕ → ℝ

/-- prop_dm.py:254, falco/dm.py:464: `grid.reshape([xdm.shape[1], xdm.shape[0]])`, row-major. -/
def Arr2.reshaped (A : Arr2) : Arr2 := ⟨A.cols, A.rows, fun i j => A.at_ ((i * A.rows + j) / A.cols) ((i * A.rows + j) % A.cols)⟩

/-- prop_dm.py:258-262, falco/dm.py:469-473: the array put into the `n × n` map; NumPy cuts slices at the edge and refuses an array whose shape is neither that of the
slice nor 1 along an axis. -/
def put (n xdim ydim : ℕ) (A : Arr2) : Except PyErr (ℕ → ℕ → ℝ) :=
  let xmin := n / 2 - xdim / 2
  let ymin := n / 2 - ydim / 2
  let xmax := min n (xmin + A.rows)
  let ymax := min n (ymin + A.cols)
  if (A.rows = ymax - ymin ∨ A.rows = 1) ∧ (A.cols = xmax - xmin ∨ A.cols = 1) then
    .ok fun i j => if (ymin ≤ i ∧ i < ymax) ∧ (xmin ≤ j ∧ j < xmax) then A.at_ (if A.rows = 1 then 0 else i - ymin) (if A.cols = 1 then 0 else j - xmin) else 0
  else .error .valueError

/-- prop_dm.py:218-256, falco/dm.py:416-467: the projected surface, `ydim × xdim` (SciPy), reshaped with the C library (`cubic`). -/
noncomputable def projected (cubic : Bool) (interp : (ℕ → ℕ → ℝ) → ℝ → ℝ → ℝ) (m : Matrix (Fin 3) (Fin 3) ℝ) (surf : ℕ → ℕ → ℝ) (off : ℕ) (dxDm dxInf dxSurf xc yc : ℝ) (xdim ydim : ℕ) : Arr2 :=
  let A : Arr2 := ⟨ydim, xdim, fun r c =>
    let x := ((c : ℝ) - ((xdim / 2 : ℕ) : ℝ)) * dxSurf
    let y := ((r : ℝ) - ((ydim / 2 : ℕ) : ℝ)) * dxSurf
    let q := backProject m x y
    interp surf ((q.1 + xc * dxDm) / dxInf + off) ((q.2 + yc * dxDm) / dxInf + off)⟩
  if cubic then A.reshaped else A

/-- prop_dm.py:111-262 / falco/dm.py:279-473: the map that is returned. -/
noncomputable def dmap (f : Fn) (cubic : Bool) (interp : (ℕ → ℕ → ℝ) → ℝ → ℝ → ℝ) (interpZ : (ℤ → ℤ → ℝ) → ℝ → ℝ → ℝ) (F : Inf) (n : ℕ) (dxSurf beamradius : ℝ)
    {ny nx : ℕ} (z : Fin ny × Fin nx → ℝ) (xc yc spacing : ℝ) (o : Opts) : Except PyErr (ℕ → ℕ → ℝ) :=
  (order f o).bind fun xyz =>
  (sign f o).bind fun s =>
  (checkInf f F).bind fun _ =>
  (spacingOf spacing beamradius o.nAct).bind fun dxDm =>
    let dxInf := F.pix * dxDm / F.pitch
    let cmd := if flag f o.fit then fitted (convolve 2 (kernel interpZ F s dxDm)) z else z
    let g : Grid := ⟨F.mag, ny, nx⟩
    let surf := g.surf F s cmd
    let xdim := g.dim nx dxInf dxSurf n
    let ydim := g.dim ny dxInf dxSurf n
    match xyz with
    | none => .error .unboundLocal
    | some b =>
      let m := if b then mXYZ (rad o.xtilt) (rad o.ytilt) (rad o.ztilt) else mZYX (rad o.xtilt) (rad o.ytilt) (rad o.ztilt)
      put n xdim ydim (projected cubic interp m surf g.off dxDm dxInf dxSurf xc yc xdim ydim)

/-- prop_dm.py:264-267, falco/dm.py:475-478: the map returned and the wavefront afterwards. -/
noncomputable def dm (f : Fn) (cubic : Bool) (interp : (ℕ → ℕ → ℝ) → ℝ → ℝ → ℝ) (interpZ : (ℤ → ℤ → ℝ) → ℝ → ℝ → ℝ) (F : Inf) {n : ℕ} (w : WF n)
    {ny nx : ℕ} (z : Fin ny × Fin nx → ℝ) (xc yc spacing : ℝ) (o : Opts) : Except PyErr ((ℕ → ℕ → ℝ) × WF n) :=
  (dmap f cubic interp interpZ F n w.dx (Masks.beamradius w) z xc yc spacing o).map fun D =>
    (D, if flag f o.noApply then w else addPhase w fun i j => 2 * D i.val j.val)

end Verif.PropDm
