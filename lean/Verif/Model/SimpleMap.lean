import Verif.Model.Prop

/-!
# Model of `gen_simple_psd_errormap` and `smooth` (falco/util.py)

Simplifications: real arithmetic; the draw of `np.random.rand` is the argument `u`.  For even `n` the division by zero at the centre gives `inf` in NumPy (with a warning), which is overwritten by
zero; the value here is overwritten as well.  A map that is zero everywhere is divided by zero without notice in NumPy (NaN), here the quotient is 0: what is proved about maps excludes it.
-/

namespace Verif.SimpleMap
open Verif Complex Verif.Optics

variable {n : ℕ}

/-- falco/util.py:606-607: `x` (by rows) and `y` (by columns). -/
noncomputable def coord (i : ZMod n) : ℝ := (i.val : ℝ) - n / 2

open Classical in
/-- falco/util.py:609-610 -/
noncomputable def envelope (alpha : ℝ) (k l : ZMod n) : ℝ :=
  if k = 0 ∧ l = 0 then 0 else fftshift (fun i j : ZMod n => 1 / (coord i ^ 2 + coord j ^ 2) ^ (alpha / 4)) k l

variable [NeZero n]

/-- falco/util.py:604, 612-613: the map before its normalisation. -/
noncomputable def rawMap (alpha : ℝ) (u : ZMod n → ZMod n → ℝ) (i j : ZMod n) : ℝ :=
  (fftshift (ifft2 fun k l => fft2 (fun a b => ((u a b : ℝ) : ℂ)) k l * (envelope alpha k l : ℂ)) i j).re

/-- falco/util.py:580-617 `gen_simple_psd_errormap`. -/
noncomputable def genMap (alpha figure : ℝ) (u : ZMod n → ZMod n → ℝ) (i j : ZMod n) : ℝ :=
  rawMap alpha u i j / Real.sqrt (∑ a, ∑ b, rawMap alpha u a b ^ 2) * figure * n

/-- Entry `j` of the full convolution of lists: the sum of `a[j-k] v[k]` over the `k` for which both exist. -/
noncomputable def convFull (a v : List ℝ) (j : ℕ) : ℝ := ∑ k ∈ Finset.range v.length, if k ≤ j ∧ j - k < a.length then a.getD (j - k) 0 * v.getD k 0 else 0

/-- `np.convolve(a, v, mode='same')`: the longer one first, the middle of the full convolution. -/
noncomputable def convolveSame (a v : List ℝ) : Except PyErr (List ℝ) :=
  let p := if v.length > a.length then (v, a) else (a, v)
  if p.1.length = 0 ∨ p.2.length = 0 then .error .valueError
  else .ok ((List.range p.1.length).map fun i => convFull p.1 p.2 (i + (p.2.length - 1) / 2))

/-- falco/util.py:620-640 `smooth`. -/
noncomputable def smooth (y : List ℝ) (box : ℤ) : Except PyErr (List ℝ) :=
  if box < 0 then .error .valueError   -- np.ones of a negative length
  else convolveSame y (List.replicate box.toNat (1 / (box : ℝ)))

end Verif.SimpleMap
