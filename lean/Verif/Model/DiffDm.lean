import Verif.Model.Compact
import Verif.Model.Dm

/-!
# Model of the differentiable DM (falco/diff_dm.py) and of its use in `gen_surf_from_act` (falco/dm.py:101-125)

A DM is modelled without tilt (`needs_rot = False`), with a square `M × M` influence-function array and `n × n` actuators.  Arrays are
`ZMod M → ZMod M → ℂ` (`Pl M`); real arrays are embedded in the complex ones.
-/

namespace Verif.DiffDm
open Verif Complex Verif.Optics Verif.Compact

variable {M : ℕ} [NeZero M]

/-- falco/diff_dm.py:379-411 `prepare_actuator_lattice`: first index of the slice on one axis; `-Nactx//2` is `(-Nactx)//2` in Python. -/
def latticeStart (M n sep : ℕ) : ℤ := ((M / 2 : ℕ) : ℤ) + (-(n : ℤ)) / 2 * sep + (if n % 2 = 0 then ((sep / 2 : ℕ) : ℤ) else 0)

/-- falco/diff_dm.py:406-407: end of the slice. -/
def latticeStop (M n sep : ℕ) : ℤ := ((M / 2 : ℕ) : ℤ) + ((n / 2 : ℕ) : ℤ) * sep + (if n % 2 = 0 then ((sep / 2 : ℕ) : ℤ) else 0)

/-- Number of elements of `slice(start, stop, step)` for `0 ≤ start` and `stop` inside the array. -/
def sliceLen (start stop step : ℤ) : ℤ := if stop ≤ start then 0 else (stop - start + step - 1) / step

/-- falco/diff_dm.py:640-648 `update`: `poke_arr[iyy, ixx] = actuators` on an array that is zero elsewhere; pixel `i` belongs to actuator `r`
when `i = start + r*sep`.  (No wrap-around of a negative start: see `C86_lattice_inside` for the arrays made by FALCO.) -/
def poke (n sep : ℕ) (a : Fin n → Fin n → ℝ) : Pl M := fun i j =>
  let p : ℤ := (i.val : ℤ) - latticeStart M n sep
  let q : ℤ := (j.val : ℤ) - latticeStart M n sep
  if h : (0 ≤ p ∧ p % sep = 0 ∧ p / sep < n) ∧ (0 ≤ q ∧ q % sep = 0 ∧ q / sep < n) then
    (a ⟨(p / sep).toNat, by have := Int.ediv_nonneg h.1.1 (Int.natCast_nonneg sep); omega⟩
      ⟨(q / sep).toNat, by have := Int.ediv_nonneg h.2.1 (Int.natCast_nonneg sep); omega⟩ : ℂ)
  else 0

/-- falco/diff_dm.py:715 `in_actuator_space[self.iyy, self.ixx]`. -/
def readLattice (n sep : ℕ) (E : Pl M) : Fin n → Fin n → ℂ := fun r c =>
  E ((latticeStart M n sep + (r.val : ℤ) * sep : ℤ) : ZMod M) ((latticeStart M n sep + (c.val : ℤ) * sep : ℤ) : ZMod M)

/-- falco/diff_dm.py:613-630: the transfer function, with the phase ramps of the shift (a ramp of zero shift is 1, so the case distinction of
line 613 has no effect on the value). -/
noncomputable def tf (ifn : Pl M) (shiftx shifty : ℝ) : Pl M := fun k l =>
  fft2 ifn k l * exp (fftfreq M 1 l * (-2 * Real.pi * I * shiftx)) * exp (fftfreq M 1 k * (-2 * Real.pi * I * shifty))

/-- falco/diff_dm.py:350-356 `apply_precomputed_transfer_function`. -/
noncomputable def applyTf (arr t : Pl M) : Pl M := fftshift fun i j => ((ifft2 (fun k l => fft2 arr k l * t k l) i j).re : ℂ)

/-- falco/diff_dm.py:481-500 `setup_mft_matricies_scalars((M', ·), (M, ·), 1, 1)`, one axis: entry for output sample `x` and frequency `k`. -/
noncomputable def mftEntry (M' M : ℕ) (x : Fin M') (k : Fin M) : ℂ :=
  exp (-2 * I * Real.pi * (ax M' 1 .pixel x * ax M (1 / M') .pixel k)) * Real.sqrt (1 / M')

/-- falco/diff_dm.py:420-443 `fourier_resample(f, zoom)` for `zoom ≠ 1`; `M' = round(M*zoom)` is the size of the result. -/
noncomputable def resample (M' : ℕ) [NeZero M'] (zoom : ℝ) (f : Pl M) : Pl M' :=
  let F := toFin (fft2d f)
  ofFin fun Y X => (((∑ k, (starRingEnd ℂ) (mftEntry M' M Y k) * ∑ l, F k l * (starRingEnd ℂ) (mftEntry M' M X l)).re * Real.sqrt (zoom * zoom) : ℝ) : ℂ)

/-- The fixed attributes of a `DM` object (falco/diff_dm.py:560-635); `up = none` is `upsample = 1`, `up = some zoom` another factor. -/
structure DM (M : ℕ) (M' n : ℕ) where
  ifn : Pl M
  sep : ℕ
  shiftx : ℝ
  shifty : ℝ
  obliquity : ℝ
  up : Option ℝ

/-- falco/diff_dm.py:650-683 `render` after `update(a)`, without tilt; `M'` = size after resampling (`= M` if `upsample = 1`). -/
noncomputable def render {M' n : ℕ} [NeZero M'] (d : DM M M' n) (a : Fin n → Fin n → ℝ) (Nout : ℕ) (wfe : Bool) : Pl Nout :=
  let sfe := applyTf (poke n d.sep a) (tf d.ifn d.shiftx d.shifty)
  let w : Pl M := if wfe then fun i j => sfe i j * (2 * d.obliquity) else sfe
  match d.up with
  | none => padF Nout w
  | some zoom => padF Nout (resample M' zoom w)

/-- falco/diff_dm.py:685-715 `render_backprop` after a `render`, without tilt; `self.ifn.shape[0]/protograd.shape[0]` is `M/M'`. -/
noncomputable def backprop {M' n Nout : ℕ} [NeZero M'] (d : DM M M' n) (g : Pl Nout) (wfe : Bool) : Fin n → Fin n → ℂ :=
  let g : Pl M := match d.up with
    | none => padF M g
    | some _ =>
      let u : ℝ := (M : ℝ) / M'
      fun i j => resample M u (padF M' g) i j / (u ^ 2 : ℝ)
  let g : Pl M := if wfe then fun i j => g i j * (2 * d.obliquity) else g
  readLattice n d.sep (applyTf g fun k l => (starRingEnd ℂ) (tf d.ifn d.shiftx d.shifty k l))

/-! ## The cached model in `gen_surf_from_act` -/

/-- What a call of `gen_surf_from_act(dm, dx, Nout)` gives to the differentiable model. -/
structure Call (n : ℕ) where
  dx : ℝ
  Nout : ℕ
  heights : Fin n → Fin n → ℝ

/-- falco/dm.py:101-125: the model object is built with the sampling of the *first* call and only `update`d afterwards.  `build dx` stands for
`dm_init_falco_wrapper(dm, dx, …)`, `rend` for `update` followed by `render(Nout, wfe=False)`.  State: the cached object. -/
def genSurf {n : ℕ} {O S : Type} (build : ℝ → O) (rend : O → (Fin n → Fin n → ℝ) → ℕ → S) (cache : Option O) (c : Call n) : S × Option O :=
  match cache with
  | none => (rend (build c.dx) c.heights c.Nout, some (build c.dx))
  | some o => (rend o c.heights c.Nout, some o)

/-- a history of calls -/
def genSurfs {n : ℕ} {O S : Type} (build : ℝ → O) (rend : O → (Fin n → Fin n → ℝ) → ℕ → S) : Option O → List (Call n) → List S
  | _, [] => []
  | cache, c :: cs => (genSurf build rend cache c).1 :: genSurfs build rend (genSurf build rend cache c).2 cs

/-- falco/diff_dm.py:136-146 and 560-683: `dm_init_falco_wrapper` with the scaled influence-function sampling `dxInf`, followed by a `render`, for the
surface sampling `dx`: the resampling factor is `surf_mag = dxInf/dx` and `fourier_resample` makes `round(M*surf_mag)` samples (`d` holds the other
attributes).  No samples at all (`round = 0`), which NumPy rejects, is outside the model (zero array). -/
noncomputable def renderAt {n : ℕ} (d : DM M M n) (zoom : ℝ) (a : Fin n → Fin n → ℝ) (Nout : ℕ) : Pl Nout :=
  open Classical in
  if zoom = 1 then render (M' := M) { d with up := none } a Nout false
  else if h : (Dm.npRound (M * zoom)).toNat = 0 then 0
  else
    haveI : NeZero (Dm.npRound (M * zoom)).toNat := ⟨h⟩
    render (M' := (Dm.npRound (M * zoom)).toNat)
      { ifn := d.ifn, sep := d.sep, shiftx := d.shiftx, shifty := d.shifty, obliquity := d.obliquity, up := some zoom } a Nout false

/-- falco/diff_dm.py:147-148: shift in pixels given to the model for the beam centre `xc` (actuator coordinates); `int` truncates. -/
noncomputable def wrapShift (n sep : ℕ) (xc : ℝ) : ℤ := -1 * Dm.npFix ((xc - ((n / 2 : ℕ) : ℝ) + 0.5) * sep)

/-- falco/diff_dm.py:132-134: samples across the padded influence function. -/
def gridSize (n sep : ℕ) : ℕ := n * sep + 2 * (9 * sep)

end Verif.DiffDm
