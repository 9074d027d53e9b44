import Verif.Model.Proper
import Verif.Model.Dm
import Mathlib.Analysis.SpecialFunctions.Complex.Arg

/-!
# Model of falco/proper/prop_hex_zernikes.py

Real arithmetic. `zindex` is a list of integers, `zcoeff` a list of reals; other types are left out.
-/

namespace Verif.HexZ
open Verif

/-- prop_hex_zernikes.py:111-154: the term with index `iz` at normalised radius `r` and angle `t`, without its coefficient; `none` for an index that has no branch. -/
noncomputable def hexZ (iz : ℤ) (r t : ℝ) : Option ℝ :=
  match iz with
  | 1 => some 1
  | 2 => some (2 * √(6 / 5) * r * Real.cos t)
  | 3 => some (2 * √(6 / 5) * r * Real.sin t)
  | 4 => some (√(5 / 43) * (12 * r ^ 2 - 5))
  | 5 => some (2 * √(15 / 7) * r ^ 2 * Real.sin (2 * t))
  | 6 => some (2 * √(15 / 7) * r ^ 2 * Real.cos (2 * t))
  | 7 => some (4 * √(42 / 3685) * (25 * r ^ 3 - 14 * r) * Real.sin t)
  | 8 => some (4 * √(42 / 3685) * (25 * r ^ 3 - 14 * r) * Real.cos t)
  | 9 => some ((4 / 3) * √10 * r ^ 3 * Real.sin (3 * t))
  | 10 => some (4 * √(70 / 103) * r ^ 3 * Real.cos (3 * t))
  | 11 => some ((3 / √1072205) * (6020 * r ^ 4 - 5140 * r ^ 2 + 737))
  | 12 => some ((30 / √492583) * (392 * r ^ 4 - 249 * r ^ 2) * Real.cos (2 * t))
  | 13 => some ((30 / √492583) * (392 * r ^ 4 - 249 * r ^ 2) * Real.sin (2 * t))
  | 14 => some ((10 / 3) * √(7 / 99258181) * (10 * ((297 - 598 * r ^ 2) * r ^ 2 * Real.cos (2 * t)) + 5413 * r ^ 4 * Real.cos (4 * t)))
  | 15 => some ((10 / 3) * √(7 / 99258181) * (-10 * ((297 - 598 * r ^ 2) * r ^ 2 * Real.sin (2 * t)) + 5413 * r ^ 4 * Real.sin (4 * t)))
  | 16 => some (2 * √(6 / 1089382547) * (70369 * r - 322280 * r ^ 3 + 309540 * r ^ 5) * Real.cos t)
  | 17 => some (2 * √(6 / 1089382547) * (70369 * r - 322280 * r ^ 3 + 309540 * r ^ 5) * Real.sin t)
  | 18 => some (4 * √(385 / 295894589) * (4365 * r ^ 5 - 3322 * r ^ 3) * Real.cos (3 * t))
  | 19 => some (4 * √(5 / 97) * (35 * r ^ 5 - 22 * r ^ 3) * Real.sin (3 * t))
  | 20 => some ((-2.17600248 * r + 13.23551876 * r ^ 3 - 16.15533716 * r ^ 5) * Real.cos t + 5.95928883 * r ^ 5 * Real.cos (5 * t))
  | 21 => some ((2.17600248 * r - 13.23551876 * r ^ 3 + 16.15533716 * r ^ 5) * Real.sin t + 5.95928883 * r ^ 5 * Real.sin (5 * t))
  | 22 => some (70.01749250 * r ^ 6 - 93.07966445 * r ^ 4 + 33.14780774 * r ^ 2 - 2.47059083)
  | _ => none

/-- What `zer` is: the Python float `0.`, a NumPy float, or an array over the pixels of the stamp. -/
inductive Zer where
  | pyFloat
  | npFloat (v : ℝ)
  | arr (f : ℤ → ℤ → ℝ)

/-- `zer` as an array of values. -/
def Zer.val : Zer → ℤ → ℤ → ℝ
  | .pyFloat => fun _ _ => 0
  | .npFloat v => fun _ _ => v
  | .arr f => f

/-- prop_hex_zernikes.py:107-154, one round of the loop; `R`, `T` are the arrays `r`, `t`. -/
noncomputable def addTerm (R T : ℤ → ℤ → ℝ) (zer : Zer) (q : ℤ × ℝ) : Zer :=
  if q.1 = 1 then
    match zer with
    | .pyFloat => .npFloat (0 + q.2)
    | .npFloat v => .npFloat (v + q.2)
    | .arr f => .arr fun a b => f a b + q.2
  else if 2 ≤ q.1 ∧ q.1 ≤ 22 then .arr fun a b => zer.val a b + q.2 * (hexZ q.1 (R a b) (T a b)).getD 0
  else zer

/-- `int(np.fix(x))` -/
noncomputable def fix (x : ℝ) : ℤ := if 0 ≤ x then ⌊x⌋ else ⌈x⌉

/-- prop_hex_zernikes.py:156-185: `zery, zerx = zer.shape` (AttributeError for a Python float, ValueError for a NumPy float), then the stamp is copied to the `n × n` map. -/
noncomputable def paste (n : ℕ) (zer : Zer) (dpix x1 y1 : ℤ) : Except PyErr (ZMod n → ZMod n → ℝ) :=
  match zer with
  | .pyFloat => .error .attributeError
  | .npFloat _ => .error .valueError
  | .arr f =>
    let xl := (2 * x1 + n).tdiv 2
    let xright := xl + dpix - 1
    let xa := if xl < 0 then -xl else 0
    let xleft := if xl < 0 then 0 else xl
    let xb := if xright ≥ n then dpix - 2 - xright + n else dpix - 1
    let yb0 := (2 * y1 + n).tdiv 2
    let ytop := yb0 + dpix - 1
    let ya := if yb0 < 0 then -yb0 else 0
    let ybottom := if yb0 < 0 then 0 else yb0
    let yb := if ytop ≥ n then dpix - 2 - ytop + n else dpix - 1
    if xleft < n ∧ ybottom < n ∧ xright ≥ 0 ∧ ytop ≥ 0 then
      if min (xright + 1) n - xleft = min (xb + 1) dpix - xa ∧ min (ytop + 1) n - ybottom = min (yb + 1) dpix - ya then
        .ok fun i j => if ybottom ≤ (i.val : ℤ) ∧ (i.val : ℤ) ≤ ytop ∧ xleft ≤ (j.val : ℤ) ∧ (j.val : ℤ) ≤ xright then f (ya + (i.val - ybottom)) (xa + (j.val - xleft)) else 0
      else .error .valueError
    else .ok fun _ _ => 0

/-- `prop_hex_zernikes(zindex, zcoeff, n, dx, hexrad, xhex, yhex, ROTATION=angle)`, prop_hex_zernikes.py:75-187. `zindex[i]` for `i < len(zcoeff)`: IndexError when there are fewer indices
than coefficients; further indices are ignored. -/
noncomputable def hexZernikes (zindex : List ℤ) (zcoeff : List ℝ) (n : ℕ) (dx hexrad xhex yhex angle : ℝ) : Except PyErr (ZMod n → ZMod n → ℝ) :=
  if zindex.length < zcoeff.length then .error .indexError
  else
    let rpix := fix (hexrad / dx) + 2
    let x1 := Dm.npRound (xhex / dx) - rpix
    let y1 := Dm.npRound (yhex / dx) - rpix
    let x : ℤ → ℝ := fun b => (b + x1) * dx - xhex
    let y : ℤ → ℝ := fun a => (a + y1) * dx - yhex
    let R : ℤ → ℤ → ℝ := fun a b => √(x b ^ 2 + y a ^ 2) / hexrad
    let T : ℤ → ℤ → ℝ := fun a b => Complex.arg ⟨x b, y a⟩ - angle * Real.pi / 180
    paste n ((zindex.zip zcoeff).foldl (addTerm R T) .pyFloat) (2 * rpix + 1) x1 y1

end Verif.HexZ
