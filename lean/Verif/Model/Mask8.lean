import Verif.Model.FieldOps
import Mathlib.Data.Finset.Lattice.Fold

/-!
# Model of falco/proper/prop_8th_order_mask.py and prop_sinc.py

Real arithmetic. A constant raw mask (0/0, NaN in NumPy) is not modelled faithfully; the theorems ask for one that is not constant.
-/

namespace Verif.Mask8
open Verif Verif.Proper

/-- falco/proper/prop_sinc.py:29-47. -/
noncomputable def sinc (x : ℝ) : ℝ := open Classical in if x = 0 then 1 else Real.sin x / x

/-- The amplitude before normalisation with `ll = 3`, `mm = 1` (prop_8th_order_mask.py:82-83, 92, 97, 103), as a function of the distance `x` in λ/D. -/
noncomputable def raw (e x : ℝ) : ℝ := (3 - 1) / 3 - sinc (x * (Real.pi * e / 3)) ^ 3 + 1 / 3 * sinc (x * (Real.pi * e / 1)) ^ 1

/-- The shape of the mask, from the keywords CIRCULAR, ELLIPTICAL (the docstring says `Elliptical`), Y_AXIS (prop_8th_order_mask.py:76-79, 94, 98-99, 111-115). -/
inductive Kind where
  | linear (yAxis : Bool)
  | circular
  | elliptical (ratio : ℝ)

variable {n : ℕ} [NeZero n]

/-- prop_8th_order_mask.py:88, 91, 96: `i - n/2` (true division: half-integer for odd `n`). -/
noncomputable def off (n : ℕ) (i : ZMod n) : ℝ := (i.val : ℝ) - (n : ℝ) / 2

/-- prop_8th_order_mask.py:105-109: to intensity, shifted and scaled to `[lo, hi]`, and back to amplitude. -/
noncomputable def normalise {ι : Type} [Fintype ι] [Nonempty ι] (m : ι → ℝ) (lo hi : ℝ) (i : ι) : ℝ :=
  let m2 : ι → ℝ := fun i => m i ^ 2
  let m3 : ι → ℝ := fun i => m2 i - Finset.univ.inf' Finset.univ_nonempty m2
  Real.sqrt (m3 i / Finset.univ.sup' Finset.univ_nonempty m3 * (hi - lo) + lo)

/-- prop_8th_order_mask.py:81-115: the mask, first index the row; `c` is the sampling in λ/D. -/
noncomputable def mask (n : ℕ) [NeZero n] (c e lo hi : ℝ) : Kind → ZMod n → ZMod n → ℝ
  | .linear false => fun _ j => normalise (fun j : ZMod n => raw e (off n j * c)) lo hi j
  | .linear true => fun i _ => normalise (fun j : ZMod n => raw e (off n j * c)) lo hi i
  | .circular => fun i j => normalise (fun p : ZMod n × ZMod n => raw e (Real.sqrt (off n p.2 ^ 2 + off n p.1 ^ 2) * c)) lo hi (i, j)
  | .elliptical q => fun i j => normalise (fun p : ZMod n × ZMod n => raw e (Real.sqrt (off n p.2 ^ 2 + (off n p.1 / q) ^ 2) * c)) lo hi (i, j)

/-- falco/proper/prop_8th_order_mask.py:65-119: the new wavefront and the mask; `fratio` is the focal ratio. `1.788 / hwhm` raises ZeroDivisionError for the Python number 0. -/
noncomputable def mask8 (s : WF n) (fratio hwhm lo hi : ℝ) (meters : Bool) (k : Kind) : Except PyErr (WF n × (ZMod n → ZMod n → ℝ)) :=
  open Classical in
  if hwhm = 0 then .error .zeroDivision
  else
    let e := if meters then 1.788 / (hwhm / (fratio * s.lam)) else 1.788 / hwhm
    let m := mask n (s.dx / (fratio * s.lam)) e lo hi k
    .ok ({ s with arr := fun i j => s.arr i j * shiftCenter (fun i j => (m i j : ℂ)) i j }, m)

end Verif.Mask8
