import Verif.Model.Proper
import Mathlib.Analysis.SpecialFunctions.Complex.Arg

/-!
# Model of the PROPER functions that read and change the field (falco/proper/prop_multiply.py, prop_divide.py, prop_add_wavefront.py, prop_add_phase.py, prop_get_wavefront.py,
prop_get_amplitude.py, prop_get_phase.py, prop_get_nyquistsampling.py, prop_get_sampling_radians.py, prop_get_sampling_arcsec.py)

An argument is a Python real number, a Python complex number, or an array. NumPy scalars behave as Python numbers here (`type(value) != np.ndarray`). Strings and other types are left out.
Division of the field by zero (infinities or NaN in NumPy, no exception) is 0 in the model; the theorems about division ask for non-zero values. Overflow and rounding are left out.
-/

namespace Verif.Proper
open Verif Complex Verif.Optics

variable {n : ℕ}

/-- What a user may pass as `value`, `wf` or `phase_error`. `mat` is an `M × N` array or nested list, `nd k` an array with `k ≠ 2` dimensions. -/
inductive Val where
  | real (x : ℝ)
  | cplx (z : ℂ)
  | mat (M N : ℕ) (A : ZMod M → ZMod N → ℂ)
  | nd (k : ℕ)

variable [NeZero n]

/-- NumPy's in-place broadcast of an `M × N` operand to the `n × n` field: each dimension must be `n` or 1; ValueError otherwise. -/
def bcast {M N : ℕ} (A : ZMod M → ZMod N → ℂ) : Except PyErr (ZMod n → ZMod n → ℂ) :=
  if (M = n ∨ M = 1) ∧ (N = n ∨ N = 1) then .ok (fun i j => A (i.val : ℕ) (j.val : ℕ)) else .error .valueError

/-- The operand as an `n × n` array: falco/proper/prop_shift_center.py:26-33 (ValueError unless 2-D), then the broadcast. Used for array arguments only. -/
def operand : Val → Except PyErr (ZMod n → ZMod n → ℂ)
  | .mat _ _ A => bcast (shiftCenter A)
  | _ => .error .valueError

/-- `value = float(value)`: a complex number raises TypeError. -/
def pyFloat : Val → Except PyErr ℝ
  | .real x => .ok x
  | _ => .error .typeError

/-- `type(value) != np.ndarray and type(value) != list`. -/
def isScalar : Val → Bool
  | .real _ => true
  | .cplx _ => true
  | _ => false

/-- falco/proper/prop_multiply.py:32-37. -/
noncomputable def multiply (s : WF n) (v : Val) : Except PyErr (WF n) :=
  if isScalar v then (pyFloat v).map fun x => { s with arr := fun i j => s.arr i j * (x : ℂ) }
  else (operand (n := n) v).map fun A => { s with arr := fun i j => s.arr i j * A i j }

/-- falco/proper/prop_divide.py:34-39. -/
noncomputable def divide (s : WF n) (v : Val) : Except PyErr (WF n) :=
  if isScalar v then (pyFloat v).map fun x => { s with arr := fun i j => s.arr i j / (x : ℂ) }
  else (operand (n := n) v).map fun A => { s with arr := fun i j => s.arr i j / A i j }

/-- The scalar of `wfo.wfarr += wf` (no `float()` here, so complex numbers are fine). -/
def scalarOf : Val → ℂ
  | .real x => x
  | .cplx z => z
  | _ => 0

/-- falco/proper/prop_add_wavefront.py:35-38. -/
noncomputable def addWavefront (s : WF n) (v : Val) : Except PyErr (WF n) :=
  if isScalar v then .ok { s with arr := fun i j => s.arr i j + scalarOf v }
  else (operand (n := n) v).map fun A => { s with arr := fun i j => s.arr i j + A i j }

/-- falco/proper/prop_add_phase.py:31-38. -/
noncomputable def addPhaseV (s : WF n) (v : Val) : Except PyErr (WF n) :=
  if isScalar v then (pyFloat v).map fun x => { s with arr := fun i j => s.arr i j * exp (2 * Real.pi * I / s.lam * (x : ℂ)) }
  else (operand (n := n) v).map fun A => { s with arr := fun i j => s.arr i j * exp (2 * Real.pi * I / s.lam * A i j) }

/-- falco/proper/prop_get_wavefront.py:25. -/
def getWavefront (s : WF n) : ZMod n → ZMod n → ℂ := shiftCenter s.arr

/-- falco/proper/prop_get_amplitude.py:28. -/
noncomputable def getAmplitude (s : WF n) : ZMod n → ZMod n → ℝ := shiftCenter fun i j => ‖s.arr i j‖

/-- falco/proper/prop_get_phase.py:27: `arctan2(imag, real)`, which is `Complex.arg` (with `arctan2(0, 0) = 0`; NumPy's negative zeros are left out). -/
noncomputable def getPhase (s : WF n) : ZMod n → ZMod n → ℝ := shiftCenter fun i j => arg (s.arr i j)

/-- falco/proper/prop_get_nyquistsampling.py:31-34. -/
noncomputable def nyquist (s : WF n) (fratio lamx : ℝ) : ℝ := open Classical in if lamx ≠ 0 then fratio * lamx / 2 else fratio * s.lam / 2

/-- falco/proper/prop_get_sampling_radians.py:28-29 (`fl = fratio * wf.diam`). -/
noncomputable def samplingRadians (s : WF n) (fratio diam : ℝ) : ℝ := s.dx / (fratio * diam)

/-- falco/proper/prop_get_sampling_arcsec.py:31-32. -/
noncomputable def samplingArcsec (s : WF n) (fratio diam : ℝ) : ℝ := s.dx * 360 * 3600 / (2 * Real.pi * (fratio * diam))

end Verif.Proper
