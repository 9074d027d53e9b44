import Verif.Model.ErrorMap

/-!
# Model of `prop_psd_errormap` (falco/proper/prop_psd_errormap.py)

Simplifications: real arithmetic (powers of real numbers where NumPy has NaN for a negative base: `b > 0`); the draw of `np.random.uniform` is the argument `u` (`n` by `n` numbers); a flat map
(`rms_map = 0`) is divided by zero without notice in NumPy, here the quotient is 0: what is proved about maps excludes it.  The FILE is the array and the pixel size in its header (the other cards are
never read again); printing and the FFTW variant (the same transform) are left out.
-/

namespace Verif.PsdMap
open Verif Complex Verif.Proper Verif.Optics

/-- The keyword arguments. FILE is left to `run`. Switches that are not given are false, and an INCLINATION or ROTATION that is not given is 0 (prop_psd_errormap.py:144-152). -/
structure Args where
  MAX_FREQUENCY : Option ℝ := none
  RMS : Bool := false
  TPF : Bool := false
  MIRROR : Bool := false
  AMPLITUDE : Option ℝ := none
  INCLINATION : ℝ := 0
  ROTATION : ℝ := 0
  NO_APPLY : Bool := false

variable {n : ℕ}

/-- prop_psd_errormap.py:154, 157: `xk` in row `j`, column `i` (`yk` is still the transpose of the unrotated grid). -/
noncomputable def xk (a : Args) (j i : ZMod n) : ℝ :=
  ((i.val : ℝ) - (n / 2 : ℕ)) * Real.cos (-(a.ROTATION * Real.pi / 180)) - ((j.val : ℝ) - (n / 2 : ℕ)) * Real.sin (-(a.ROTATION * Real.pi / 180))

/-- prop_psd_errormap.py:155, 158-159: `yk`, computed with the rotated `xk`. -/
noncomputable def yk (a : Args) (j i : ZMod n) : ℝ :=
  (xk a j i * Real.sin (-(a.ROTATION * Real.pi / 180)) + ((j.val : ℝ) - (n / 2 : ℕ)) * Real.cos (-(a.ROTATION * Real.pi / 180))) * Real.cos (-(a.INCLINATION * Real.pi / 180))

/-- prop_psd_errormap.py:142 -/
noncomputable def dk (n : ℕ) (dx : ℝ) : ℝ := 1 / (n * dx)

/-- prop_psd_errormap.py:160 -/
noncomputable def kpsd (a : Args) (dx : ℝ) (j i : ZMod n) : ℝ := Real.sqrt (xk a j i ^ 2 + yk a j i ^ 2) * dk n dx

open Classical in
/-- prop_psd_errormap.py:161-166 -/
noncomputable def psd2d (a : Args) (dx amp b c : ℝ) (j i : ZMod n) : ℝ :=
  if j = ((n / 2 : ℕ) : ZMod n) ∧ i = ((n / 2 : ℕ) : ZMod n) then 0
  else if a.TPF then amp / (1 + (kpsd a dx j i / b) ^ c)
  else amp / (1 + (kpsd a dx j i / b) ^ (2 : ℕ)) ^ ((c + 1) / 2)

variable [NeZero n]

/-- prop_psd_errormap.py:167 -/
noncomputable def rmsPsd (a : Args) (dx amp b c : ℝ) (n : ℕ) [NeZero n] : ℝ := Real.sqrt (∑ j : ZMod n, ∑ i : ZMod n, psd2d a dx amp b c j i) * dk n dx

open Classical in
/-- prop_psd_errormap.py:174-177 -/
noncomputable def cutPsd (a : Args) (dx amp b c : ℝ) (j i : ZMod n) : ℝ :=
  match a.MAX_FREQUENCY with
  | some m => psd2d a dx amp b c j i * (if kpsd a dx j i > m then 0 else kpsd a dx j i)
  | none => psd2d a dx amp b c j i

/-- prop_psd_errormap.py:171, 180, 184: the argument of the transform. -/
noncomputable def spectrum (a : Args) (dx amp b c : ℝ) (u : ZMod n → ZMod n → ℝ) : ZMod n → ZMod n → ℂ :=
  shiftCenter fun j i => ((Real.sqrt (cutPsd a dx amp b c j i) / dk n dx : ℝ) : ℂ) * exp (I * ((2 * Real.pi * u j i - Real.pi : ℝ) : ℂ))

/-- prop_psd_errormap.py:184-185: the map before its normalisation. -/
noncomputable def rawMap (a : Args) (dx amp b c : ℝ) (u : ZMod n → ZMod n → ℝ) (j i : ZMod n) : ℝ :=
  (fft2 (spectrum a dx amp b c u) j i / ((n : ℂ) * n)).re / ((n : ℝ) ^ 2 * dx ^ 2)

/-- `np.mean` -/
noncomputable def mean (m : ZMod n → ZMod n → ℝ) : ℝ := (∑ j, ∑ i, m j i) / ((n : ℝ) * n)
/-- `np.std` -/
noncomputable def std (m : ZMod n → ZMod n → ℝ) : ℝ := Real.sqrt ((∑ j, ∑ i, (m j i - mean m) ^ 2) / ((n : ℝ) * n))

/-- prop_psd_errormap.py:188-193: the new map. -/
noncomputable def newMap (a : Args) (dx amp b c : ℝ) (u : ZMod n → ZMod n → ℝ) (j i : ZMod n) : ℝ :=
  if a.RMS = false ∧ a.AMPLITUDE = none then rawMap a dx amp b c u j i * (rmsPsd a dx amp b c n / std (rawMap a dx amp b c u))
  else rawMap a dx amp b c u j i * (amp / std (rawMap a dx amp b c u))

/-- `np.max` -/
noncomputable def maxMap (m : ZMod n → ZMod n → ℝ) : ℝ := Finset.univ.sup' ⟨(0, 0), Finset.mem_univ _⟩ fun p : ZMod n × ZMod n => m p.1 p.2

/-- prop_psd_errormap.py:205-207 -/
noncomputable def adjusted (a : Args) (m : ZMod n → ZMod n → ℝ) : ZMod n → ZMod n → ℝ :=
  match a.AMPLITUDE with
  | some A => fun j i => m j i + (A - maxMap m)
  | none => m

/-- prop_psd_errormap.py:205-224: the wavefront after the (adjusted) map. -/
noncomputable def apply (a : Args) (wf : WF n) (m : ZMod n → ZMod n → ℝ) : WF n :=
  if a.NO_APPLY then wf
  else match a.AMPLITUDE with
    | some _ => { wf with arr := fun j i => wf.arr j i * ((m j i : ℝ) : ℂ) }
    | none =>
      if a.MIRROR then { wf with arr := fun j i => wf.arr j i * exp (4 * Real.pi * I / wf.lam * (m j i : ℝ)) }
      else { wf with arr := fun j i => wf.arr j i * exp (2 * Real.pi * I / wf.lam * (m j i : ℝ)) }

/-- The keyword FILE. -/
inductive File
  | none
  | missing
  | exists (img : Cubic.Img) (h : ErrorMap.Header)

/-- prop_psd_errormap.py:124-226: the new wavefront, the map returned, and what is written to the FILE. `be` is the interpolation of prop_readmap. -/
noncomputable def run (be : ErrorMap.Backend) (wf : WF n) (amp b c : ℝ) (a : Args) (u : ZMod n → ZMod n → ℝ) (f : File) :
    Except PyErr (WF n × (ZMod n → ZMod n → ℝ) × Option (Cubic.Img × ErrorMap.Header)) :=
  match f with
  | .exists img h => (ErrorMap.readmap be wf img h 0 0 .none .none).map fun m => (apply a wf (adjusted a m), shiftCenter (adjusted a m), .none)
  | .missing =>
    let m := adjusted a (newMap a wf.dx amp b c u)
    .ok (apply a wf m, shiftCenter m, some (ErrorMap.toImg (shiftCenter m), ⟨.none, some wf.dx⟩))
  | .none =>
    let m := adjusted a (newMap a wf.dx amp b c u)
    .ok (apply a wf m, shiftCenter m, .none)

end Verif.PsdMap
