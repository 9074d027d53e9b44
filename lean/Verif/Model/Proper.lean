import Verif.Model.Prop

/-!
# Model of the PROPER propagation core (falco/proper/prop_begin.py, prop_lens.py, prop_propagate.py, prop_select_propagator.py, prop_ptp.py, prop_stw.py, prop_wts.py,
prop_qphase.py, prop_add_phase.py, prop_radius.py, prop_shift_center.py, prop_end.py)

The wavefront object is a record passed through the functions. Strings `"INSIDE_"`/`"OUTSIDE"` and `"PLANAR"`/`"SPHERI"` are Booleans. Printing, tables and the FFTW variant (the same
transform) are left out. `proper.phase_offset` is the parameter `po`; `proper.rayleigh_factor` is 1 (prop_begin.py sets it).
-/

namespace Verif.Proper
open Verif Complex Verif.Optics

variable {n : ℕ}

/-- falco/proper/prop_wavefront.py `WaveFront` (the fields the propagation uses). -/
structure WF (n : ℕ) where
  arr : ZMod n → ZMod n → ℂ
  lam : ℝ
  dx : ℝ
  z : ℝ
  zw0 : ℝ
  w0 : ℝ
  zR : ℝ
  /-- `beam_type_old == "INSIDE_"` -/
  inside : Bool
  /-- `reference_surface == "PLANAR"` -/
  planar : Bool

/-- falco/proper/prop_begin.py:30-63 with prop_wavefront.py:37-53: `WaveFront(diam, ndiam, lamda, grid_n, w0, z_ray)`, `ndiam = grid_n * beam_diam_fraction`. -/
noncomputable def begin_ (n : ℕ) (diam lam frac : ℝ) : WF n where
  arr := fun _ _ => 1
  lam := lam
  dx := diam / (n * frac)
  z := 0
  zw0 := 0
  w0 := diam / 2
  zR := Real.pi * (diam / 2) ^ 2 / lam
  inside := true
  planar := true

variable [NeZero n]

/-- falco/proper/prop_shift_center.py:33 on an `M × N` image: roll by `int(s/2)` on each axis. -/
def shiftCenter {α : Type*} {M N : ℕ} (A : ZMod M → ZMod N → α) : ZMod M → ZMod N → α := roll2 A ((M / 2 : ℕ) : ℤ) ((N / 2 : ℕ) : ℤ)

/-- falco/proper/prop_add_phase.py:37-38, array argument. -/
noncomputable def addPhase (s : WF n) (ph : ZMod n → ZMod n → ℝ) : WF n :=
  { s with arr := fun i j => s.arr i j * exp (2 * Real.pi * I / s.lam * (shiftCenter ph i j : ℝ)) }

/-- falco/proper/prop_radius.py:45-66 without NORM. -/
noncomputable def radius (s : WF n) : ZMod n → ZMod n → ℝ := fun j i =>
  Real.sqrt (((i.val : ℝ) - (n / 2 : ℕ)) ^ 2 + ((j.val : ℝ) - (n / 2 : ℕ)) ^ 2) * s.dx

/-- falco/proper/prop_qphase.py:44-49: the array of squared radii before the roll. -/
noncomputable def rsqr (dx : ℝ) : ZMod n → ZMod n → ℝ := fun i j => (((j.val : ℝ) - n / 2) * dx) ^ 2 + (((i.val : ℝ) - n / 2) * dx) ^ 2

open Classical in
/-- falco/proper/prop_qphase.py:35-54. -/
noncomputable def qphase (s : WF n) (c : ℝ) : WF n :=
  if c = 0 then s
  else { s with arr := fun i j => s.arr i j * exp (I * Real.pi / (s.lam * c) * (roll2 (rsqr s.dx) (-((n / 2 : ℕ) : ℤ)) (-((n / 2 : ℕ) : ℤ)) i j : ℝ)) }

/-- `fft2(wfarr) / np.size(wfarr) * ngrid` (falco/proper/prop_ptp.py:68-74, prop_stw.py:52-60, prop_wts.py:50-57). -/
noncomputable def fwd (a : ZMod n → ZMod n → ℂ) : ZMod n → ZMod n → ℂ := fun i j => fft2 a i j / ((n : ℂ) * n) * n

/-- `ifft2(wfarr) * np.size(wfarr) / ngrid` (prop_ptp.py:83-90, prop_stw.py:61-67, prop_wts.py:58-64). -/
noncomputable def bwd (a : ZMod n → ZMod n → ℂ) : ZMod n → ZMod n → ℂ := fun i j => ifft2 a i j * ((n : ℂ) * n) / n

/-- The optional factor `exp(1j*2*pi*dz/lamda)` (prop_ptp.py:92-93, prop_stw.py:71-72, prop_wts.py:66-67). -/
noncomputable def offset (po : Bool) (lam dz : ℝ) : ℂ := if po then exp (I * 2 * Real.pi * dz / lam) else 1

/-- falco/proper/prop_ptp.py:77-79: squared spatial frequencies. -/
noncomputable def rhosqr (dx : ℝ) : ZMod n → ZMod n → ℝ :=
  shiftCenter fun i j => (((j.val : ℝ) - (n / 2 : ℕ)) / (n * dx)) ^ 2 + (((i.val : ℝ) - (n / 2 : ℕ)) / (n * dx)) ^ 2

open Classical in
/-- falco/proper/prop_ptp.py:51-98. -/
noncomputable def ptp (po : Bool) (s : WF n) (dz : ℝ) : Except PyErr (WF n) :=
  if |dz| < 1e-12 then .ok s
  else if s.planar = false then .error .valueError
  else
    let a := fwd s.arr
    let a := fun i j => a i j * exp (-I * Real.pi * s.lam * dz * (rhosqr s.dx i j : ℝ))
    let a := bwd a
    .ok { s with planar := true, z := s.z + dz, arr := fun i j => a i j * offset po s.lam dz }

open Classical in
/-- falco/proper/prop_stw.py:35-79. -/
noncomputable def stw (po : Bool) (s : WF n) (dz : ℝ) : Except PyErr (WF n) :=
  if s.planar = true then ptp po s dz
  else
    let dz := if dz = 0 then s.zw0 - s.z else dz
    let s := { s with z := s.z + dz, dx := s.lam * |dz| / (n * s.dx) }
    let s := { s with arr := if 0 ≤ dz then fwd s.arr else bwd s.arr }
    let s := qphase s dz
    .ok { s with arr := fun i j => s.arr i j * offset po s.lam dz, planar := true }

open Classical in
/-- falco/proper/prop_wts.py:37-74. -/
noncomputable def wts (po : Bool) (s : WF n) (dz : ℝ) : WF n :=
  let s := { s with planar := false }
  if dz = 0 then s
  else
    let s := { s with z := s.z + dz }
    let s := qphase s dz
    let s := { s with arr := if 0 ≤ dz then fwd s.arr else bwd s.arr }
    { s with arr := fun i j => s.arr i j * offset po s.lam dz, dx := s.lam * |dz| / (n * s.dx) }

open Classical in
/-- falco/proper/prop_propagate.py:49-70 with prop_select_propagator.py:40-54. -/
noncomputable def propagate (po : Bool) (s : WF n) (dz : ℝ) (toPlane : Bool) : Except PyErr (WF n) :=
  let new : Bool := decide (|s.zw0 - (s.z + dz)| < s.zR)
  let old := s.inside
  let s := { s with inside := new }
  let z1 := s.z
  let z2 := z1 + dz
  let target := if toPlane then true else new
  match old, target with
  | true, true => ptp po s dz
  | true, false => do
    let s ← ptp po s (s.zw0 - z1)
    pure (wts po s (z2 - s.zw0))
  | false, true => do
    let s ← stw po s (s.zw0 - z1)
    ptp po s (z2 - s.zw0)
  | false, false => do
    let s ← stw po s (s.zw0 - z1)
    pure (wts po s (z2 - s.zw0))

open Classical in
/-- falco/proper/prop_lens.py:50-71: radius of curvature of the Gaussian beam behind the lens (`none`: infinite, i.e. `gR_beam_inf`). -/
noncomputable def lensR (z zw0 zR fl : ℝ) : Option ℝ :=
  if z - zw0 ≠ 0 then
    let old := (z - zw0) + zR ^ 2 / (z - zw0)
    if old ≠ fl then some (1 / (1 / old - 1 / fl)) else none
  else some (-fl)

/-- falco/proper/prop_lens.py:50-51 (prop_get_beamradius.py:32 is the same number). -/
noncomputable def wAt (s : WF n) : ℝ := s.w0 * Real.sqrt (1 + ((s.z - s.zw0) / (Real.pi * s.w0 ^ 2 / s.lam)) ^ 2)

/-- falco/proper/prop_lens.py:50-87: the beam parameters behind the lens. -/
noncomputable def lensBeam (s : WF n) (fl : ℝ) : WF n :=
  let w := wAt s
  let s := match lensR s.z s.zw0 (Real.pi * s.w0 ^ 2 / s.lam) fl with
    | some g => { s with zw0 := -g / (1 + (s.lam * g / (Real.pi * w ^ 2)) ^ 2) + s.z, w0 := w / Real.sqrt (1 + (Real.pi * w ^ 2 / (s.lam * g)) ^ 2) }
    | none => { s with zw0 := s.z, w0 := w }
  { s with zR := Real.pi * s.w0 ^ 2 / s.lam }

open Classical in
/-- `1./x` for a Python float: raises at 0. -/
noncomputable def pyInv (x : ℝ) : Except PyErr ℝ := if x = 0 then .error .zeroDivision else .ok (1 / x)

open Classical in
/-- falco/proper/prop_lens.py:116-128: the curvature by type of propagation. -/
noncomputable def lensCurv (oldIn newIn : Bool) (fl Rold Rnew : ℝ) : Except PyErr ℝ :=
  match oldIn, newIn with
  | true, true => pyInv fl
  | true, false => do return (← pyInv fl) + (← pyInv Rnew)
  | false, true => do return (← pyInv fl) - (← pyInv Rold)
  | false, false =>
    if Rold = 0 then do return (← pyInv fl) + (← pyInv Rnew)
    else if Rnew = 0 then do return (← pyInv fl) - (← pyInv Rold)
    else do return (← pyInv fl) - (← pyInv Rold) + (← pyInv Rnew)

open Classical in
/-- falco/proper/prop_lens.py:73-133: the curvature added to the array. Divisions of Python floats by 0.0 raise. -/
noncomputable def lensPhase (s s' : WF n) (fl : ℝ) : Except PyErr ℝ :=
  let Rold : ℝ := if s.inside = true ∨ s.planar = true then 0 else s.z - s.zw0
  let newIn : Bool := decide (|s'.zw0 - s'.z| < s'.zR)
  let Rnew : ℝ := if newIn then 0 else s'.z - s'.zw0
  lensCurv s.inside newIn fl Rold Rnew

open Classical in
/-- falco/proper/prop_lens.py:41-146. -/
noncomputable def lens (s : WF n) (fl : ℝ) : Except PyErr (WF n) := do
  let s' := lensBeam s fl
  let p ← lensPhase s s' fl
  let r := radius s
  let s' := addPhase s' fun i j => -(r i j) ^ 2 * (p / 2)
  let newIn : Bool := decide (|s'.zw0 - s'.z| < s'.zR)
  return { s' with planar := newIn, inside := newIn }

/-- The calls of a prescription. -/
inductive Op (n : ℕ) where
  | lens (fl : ℝ)
  | propagate (dz : ℝ) (toPlane : Bool)
  | addPhase (ph : ZMod n → ZMod n → ℝ)

/-- One call. -/
noncomputable def step (po : Bool) (s : WF n) : Op n → Except PyErr (WF n)
  | .lens fl => lens s fl
  | .propagate dz tp => propagate po s dz tp
  | .addPhase ph => .ok (addPhase s ph)

/-- A prescription: a sequence of calls. -/
noncomputable def run (po : Bool) (s : WF n) (ops : List (Op n)) : Except PyErr (WF n) := ops.foldlM (step po) s

end Verif.Proper
