import Verif.Model.Szoom
import Verif.Model.Prop

/-!
# Model of falco/proper/prop_pixellate.py

Real arithmetic; a real image of at least 2 rows and columns; positive samplings.
-/

namespace Verif.Pixellate
open Verif Complex Verif.Optics

variable {n : ℕ} [NeZero n]

/-- prop_pixellate.py:53-55: `np.roll(arr, -int(n_in/2), 0) / int(n_in/2) * constant`, with `constant = 0.5 * (sampling_out / sampling_in) * π` (48-50); `p` is the quotient of the samplings. -/
noncomputable def tArg (n : ℕ) (p : ℝ) (k : ZMod n) : ℝ := (((k + ((n / 2 : ℕ) : ZMod n)).val : ℝ) - (n / 2 : ℕ)) / (n / 2 : ℕ) * (0.5 * p * Real.pi)

/-- prop_pixellate.py:56-58 -/
noncomputable def y (n : ℕ) (p : ℝ) (k : ZMod n) : ℝ := if k = 0 then 1 else Real.sin (tArg n p k) / tArg n p k

/-- prop_pixellate.py:61-69: the image integrated over the detector pixels, with the sampling of the input. -/
noncomputable def convolved (image : ZMod n → ZMod n → ℝ) (sIn sOut : ℝ) : ZMod n → ZMod n → ℝ :=
  let mtf : ZMod n → ZMod n → ℂ := fun k l => fft2 (roll2 (fun i j => (image i j : ℂ)) (-(n / 2 : ℕ)) (-(n / 2 : ℕ))) k l / ((n : ℂ) * n) * ((y n (sOut / sIn) k * y n (sOut / sIn) l : ℝ) : ℂ)
  roll2 (fun i j => ‖ifft2 mtf i j * ((n : ℂ) * n)‖ / (sIn / sOut) ^ 2) (n / 2 : ℕ) (n / 2 : ℕ)

/-- falco/proper/prop_pixellate.py:46-78 on an image of `n` rows and `m` columns. The product of the `n` by `m` spectrum with the `n` by `n` transfer function (65) needs `m = n`.  A size `nOut` other than 0 is replaced (73-74). `useC`: the library for prop_magnify. -/
noncomputable def pixellate (useC : Bool) {m : ℕ} (image : ZMod n → ZMod m → ℝ) (sIn sOut : ℝ) (nOut : ℕ) : Except PyErr (ℕ × (ℕ → ℕ → ℝ)) :=
  if h : m = n then
    let conv := convolved (fun i j => image i (h ▸ j)) sIn sOut
    let mag := sIn / sOut
    Szoom.magnifyReal useC n (fun j i => conv (j : ZMod n) (i : ZMod n)) mag (if nOut ≠ 0 then ⌊n * mag⌋₊ else nOut) .none
  else .error .valueError

end Verif.Pixellate
