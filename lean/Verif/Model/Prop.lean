import Verif.Model.Util
import Mathlib.Data.ZMod.Basic
import Mathlib.Analysis.SpecialFunctions.Complex.Circle
import Mathlib.Data.Matrix.Mul

/-!
# Model of falco/prop.py (and `angular_spectrum_transfer_function` of falco/util.py)

A 2-D NumPy array with `M` rows and `N` columns (both non-zero) is a function `ZMod M → ZMod N → α`; index `i` is the
residue with `ZMod.val` = `i`, so cyclic rolls are plain subtraction.  The `check.*` calls are done by typing.
-/

namespace Verif.Optics
open Verif Complex

variable {α : Type*} {M N : ℕ}

/-- `np.roll(E, (a, b), axis=(0, 1))`. -/
def roll2 (E : ZMod M → ZMod N → α) (a b : ℤ) : ZMod M → ZMod N → α := fun i j => E (i - a) (j - b)

/-- `E[::-1, ::-1]`: entry `i` is the old entry `M-1-i`, i.e. the residue of `-1-i`. -/
def reverse2 (E : ZMod M → ZMod N → α) : ZMod M → ZMod N → α := fun i j => E (-1 - i) (-1 - j)

/-- falco/prop.py:16-57 `relay`. -/
def relay (E : ZMod M → ZMod N → α) (Nrelay : ℤ) (centering : Util.Centering) : ZMod M → ZMod N → α :=
  if Nrelay % 2 = 1 then
    let E_out := reverse2 E
    if centering = .pixel then roll2 E_out 1 1 else E_out
  else E

/-- `np.fft.fftshift` of a 2-D array: roll by `n//2` on each axis. -/
def fftshift (E : ZMod M → ZMod N → α) : ZMod M → ZMod N → α := roll2 E ((M / 2 : ℕ) : ℤ) ((N / 2 : ℕ) : ℤ)
/-- `np.fft.ifftshift`: roll by `-(n//2)`. -/
def ifftshift (E : ZMod M → ZMod N → α) : ZMod M → ZMod N → α := roll2 E (-((M / 2 : ℕ) : ℤ)) (-((N / 2 : ℕ) : ℤ))

variable [NeZero M] [NeZero N]

/-- `np.fft.fft` of one axis: `X[k] = Σ_j x[j] exp(-2πi jk/N)`. -/
noncomputable def fft1 (x : ZMod N → ℂ) : ZMod N → ℂ :=
  fun k => ∑ j, exp (-(2 * Real.pi * I * (j.val * k.val) / N)) * x j
/-- `np.fft.ifft` of one axis: `x[j] = (1/N) Σ_k X[k] exp(2πi jk/N)`. -/
noncomputable def ifft1 (X : ZMod N → ℂ) : ZMod N → ℂ :=
  fun j => (N : ℂ)⁻¹ * ∑ k, exp (2 * Real.pi * I * (j.val * k.val) / N) * X k
/-- `np.fft.fft2` / `np.fft.fftn` on a 2-D array: one axis after the other. -/
noncomputable def fft2 (E : ZMod M → ZMod N → ℂ) : ZMod M → ZMod N → ℂ := fun k l => fft1 (fun i => fft1 (E i) l) k
/-- `np.fft.ifft2` / `np.fft.ifftn`. -/
noncomputable def ifft2 (E : ZMod M → ZMod N → ℂ) : ZMod M → ZMod N → ℂ := fun k l => ifft1 (fun i => ifft1 (E i) l) k

/-- `fft.fftfreq(n, d)[k]`. -/
noncomputable def fftfreq (n : ℕ) (d : ℝ) (k : ZMod n) : ℝ :=
  (if k.val < (n + 1) / 2 then (k.val : ℝ) else (k.val : ℝ) - n) / (n * d)

/-- falco/util.py:31-41 `angular_spectrum_transfer_function((M, N), wvl, dx, z)`. -/
noncomputable def transferFunction (wvl dx z : ℝ) : ZMod M → ZMod N → ℂ := fun k l =>
  exp (-I * Real.pi * wvl * z * (fftfreq M dx k * fftfreq M dx k)) *
  exp (-I * Real.pi * wvl * z * (fftfreq N dx l * fftfreq N dx l))

open Classical in
/-- falco/prop.py:60-110 `ptp`.  (The undersampling warning has no effect on the result.) -/
noncomputable def ptp (E : ZMod M → ZMod N → ℂ) (fullWidth wvl dz : ℝ) : Except PyErr (ZMod M → ZMod N → ℂ) :=
  if dz = 0 then .ok E
  else if M ≠ N then .error .valueError
  else
    let dx := fullWidth / N
    let kernel : ZMod M → ZMod N → ℂ := transferFunction wvl dx dz
    let intermediate := fft2 (fftshift E)
    .ok (ifftshift (ifft2 fun k l => kernel k l * intermediate k l))

/-- falco/prop.py:250-252 `fft2d` (`norm='ortho'` scales by `1/√(MN)`). -/
noncomputable def fft2d (E : ZMod M → ZMod N → ℂ) : ZMod M → ZMod N → ℂ :=
  fftshift fun k l => (Real.sqrt (M * N) : ℂ)⁻¹ * fft2 (ifftshift E) k l
/-- falco/prop.py:255-257 `ifft2d` (`norm='ortho'` scales the unnormalised inverse sum by `1/√(MN)`, i.e. `ifft2` times `√(MN)`). -/
noncomputable def ifft2d (E : ZMod M → ZMod N → ℂ) : ZMod M → ZMod N → ℂ :=
  ifftshift fun k l => (Real.sqrt (M * N) : ℂ) * ifft2 (fftshift E) k l

/-- Entry `i` of `create_axis(N, step, centering)` (falco/util.py:418-453). -/
noncomputable def ax (N : ℕ) (step : ℝ) (c : Util.Centering) (i : Fin N) : ℝ := (Util.createAxis N step c).getD i 0

/-- falco/prop.py:180-247 `mft_p2f` (square pupil by typing): pupil field to `Neta × Nxi` focal field. -/
noncomputable def mftP2f {N : ℕ} (E : Fin N → Fin N → ℂ) (fl wvl dx dxi : ℝ) (Nxi : ℕ) (deta : ℝ) (Neta : ℕ)
    (c : Util.Centering) : Fin Neta → Fin Nxi → ℂ :=
  let coef : ℂ := -2 * Real.pi * I / (wvl * fl)
  let scaling : ℂ := Real.sqrt (dx * dx * dxi * deta) / (1 * wvl * fl)
  fun e x => scaling * ∑ b, (∑ a, exp (coef * (ax Neta deta c e * ax N dx c a)) * E a b) *
    exp (coef * (ax N dx c b * ax Nxi dxi c x))

/-- falco/prop.py:115-177 `mft_f2p`: `Neta × Nxi` focal field to `N × N` pupil field.  Line 161 builds the vertical focal axis
with the *horizontal* step `dxi`. -/
noncomputable def mftF2p {Neta Nxi : ℕ} (E : Fin Neta → Fin Nxi → ℂ) (fl wvl dxi deta dx : ℝ) (N : ℕ)
    (c : Util.Centering) : Fin N → Fin N → ℂ :=
  let coef : ℂ := -2 * Real.pi * I / (wvl * fl)
  let scaling : ℂ := Real.sqrt (dx * dx * dxi * deta) / (1 * wvl * fl)
  fun a b => scaling * ∑ x, (∑ e, exp (coef * (ax N dx c a * ax Neta dxi c e)) * E e x) *
    exp (coef * (ax Nxi dxi c x * ax N dx c b))

/-- falco/prop.py:336-372 (`mft_p2v2p`): one of the two branches: scale factor `s` (`1/(D·lambdaOverD)` or `2·outVal/(D·NB)`),
DFT vectors `x`, `u`, focal-plane weight `w` (`FPM*(1-windowMask1)` or `FPM*windowMask2`) with `FPM` conjugated in reverse. -/
noncomputable def vortexBranch {A B : ℕ} (rg : Bool) (s : ℝ) (x : Fin A → ℝ) (u : Fin B → ℝ)
    (FPM : Fin B → Fin B → ℂ) (w : Fin B → Fin B → ℝ) (P : Matrix (Fin A) (Fin A) ℂ) : Matrix (Fin A) (Fin A) ℂ :=
  let f : ℂ := if rg then -1 else 1
  let Fxu : Matrix (Fin A) (Fin B) ℂ := fun a b => exp (-I * f * 2 * Real.pi * (x a * u b))
  let Fux : Matrix (Fin B) (Fin A) ℂ := fun b a => exp (-I * f * 2 * Real.pi * (u b * x a))
  let mask : Matrix (Fin B) (Fin B) ℂ := fun p q => if rg then starRingEnd ℂ (FPM p q) else FPM p q
  let FP : Matrix (Fin B) (Fin B) ℂ := (s : ℂ) • (Fux * P * Fxu)
  let G : Matrix (Fin B) (Fin B) ℂ := fun p q => FP p q * mask p q * (w p q : ℂ)
  (s : ℂ) • (Fxu * G * Fux)

/-- falco/prop.py:260-390 `mft_p2v2p`: sum of the two branches; `w1`, `w2` are the Tukey windows, both branches use the same mask. -/
noncomputable def mftP2v2p {A B : ℕ} (rg : Bool) (s1 s2 : ℝ) (x : Fin A → ℝ) (u1 u2 : Fin B → ℝ)
    (FPM : Fin B → Fin B → ℂ) (w1 w2 : Fin B → Fin B → ℝ) (P : Matrix (Fin A) (Fin A) ℂ) : Matrix (Fin A) (Fin A) ℂ :=
  vortexBranch rg s1 x u1 FPM (fun p q => 1 - w1 p q) P + vortexBranch rg s2 x u2 FPM w2 P

/-- falco/prop.py:260-390 `mft_p2v2p` with the arguments Python takes: `NB = ceil_even(lambdaOverD*D)` (line 302), the DFT vectors
of lines 335-337 (`np.arange(-N/2, N/2)` has entry `k - N/2`), scale factors of lines 342, 352, 363, 372.  `vortexMask NB` stands for
`falco_gen_vortex_mask(charge, NB)` and `tukey width` for `gen_tukey_for_vortex(width, RHO, windowKnee)`, both real code left abstract. -/
noncomputable def mftP2v2pOf {A : ℕ} (rg : Bool) (D lambdaOverD outVal : ℝ) (NB : ℕ)
    (vortexMask : (n : ℕ) → Fin n → Fin n → ℂ) (tukey : ℝ → Fin NB → Fin NB → ℝ) (P : Matrix (Fin A) (Fin A) ℂ) :
    Matrix (Fin A) (Fin A) ℂ :=
  mftP2v2p rg (1 / (D * lambdaOverD)) (2 * outVal / (D * NB))
    (fun a => ((a : ℝ) - A / 2) / D) (fun b => ((b : ℝ) - NB / 2) / lambdaOverD) (fun b => ((b : ℝ) - NB / 2) * 2 * outVal / NB)
    (vortexMask NB) (tukey (2 * outVal * lambdaOverD)) (tukey NB) P

end Verif.Optics
