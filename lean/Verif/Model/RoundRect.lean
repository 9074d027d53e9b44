import Verif.Model.Shape

/-!
# Model of falco/proper/prop_rounded_rectangle.py

Real arithmetic. All lengths are floating-point numbers in Python (`width/2.` is one whatever the type of `width`), so the bounds of the slices are floats unless they are replaced by 0 or `n`.
-/

namespace Verif.RoundRect
open Verif Verif.Shape

/-- A bound of a slice as Python sees it. -/
inductive Bound where
  | int (k : ℤ)
  | float (x : ℝ)

open Classical in
/-- prop_rounded_rectangle.py:55-58, 65-68, 82-85, 119-122: lower bound towards larger coordinates. -/
noncomputable def lowPlus (p : ℝ) : Bound := if p < 0 then .int 0 else .float p
open Classical in
/-- prop_rounded_rectangle.py:60-63, 70-73, 87-90, 124-127: upper bound towards larger coordinates. -/
noncomputable def highPlus (n : ℕ) (p rad : ℝ) : Bound := if p + rad + 3 > n then .int n else .float (p + rad + 3)
open Classical in
/-- prop_rounded_rectangle.py:92-95, 109-112, 136-139, 146-149: lower bound towards smaller coordinates. -/
noncomputable def lowMinus (p rad : ℝ) : Bound := if p - rad - 2 < 0 then .int 0 else .float (p - rad - 2)
open Classical in
/-- prop_rounded_rectangle.py:97-100, 114-117, 141-144, 151-154: upper bound towards smaller coordinates. -/
noncomputable def highMinus (n : ℕ) (p : ℝ) : Bound := if p > n then .int n else .float (p + 1)

/-- `mask[y1:y2,x1:x2] = circle[y1:y2,x1:x2]` (prop_rounded_rectangle.py:75-76, 102-103, 129-130, 156-157): a bound that is a float raises TypeError. -/
def paste {n : ℕ} (mask circle : ZMod n → ZMod n → ℝ) : Bound → Bound → Bound → Bound → Except PyErr (ZMod n → ZMod n → ℝ)
  | .int y1, .int y2, .int x1, .int x2 => .ok fun i j => if y1 ≤ (i.val : ℤ) ∧ (i.val : ℤ) < y2 ∧ x1 ≤ (j.val : ℤ) ∧ (j.val : ℤ) < x2 then circle i j else mask i j
  | _, _, _, _ => .error .typeError

/-- One corner: `right`, `upper` choose it (prop_rounded_rectangle.py:51-76, 78-103, 105-130, 132-157). -/
noncomputable def corner {n : ℕ} (nsub : ℕ) (dx cr width height xc yc : ℝ) (right upper : Bool) (mask : ZMod n → ZMod n → ℝ) : Except PyErr (ZMod n → ZMod n → ℝ) :=
  let xoff := if right then width / 2 - cr else -(width / 2 - cr)
  let yoff := if upper then height / 2 - cr else -(height / 2 - cr)
  let rad := cr / dx
  (ellipse n nsub (Ell.ofArgs n dx 0 false cr cr (xoff + xc) (yoff + yc) 0) false).bind fun circle =>
  let px := (xoff + xc) / dx + (n / 2 : ℕ)
  let py := (yoff + yc) / dx + (n / 2 : ℕ)
  paste mask circle (if upper then lowPlus py else lowMinus py rad) (if upper then highPlus n py rad else highMinus n py)
    (if right then lowPlus px else lowMinus px rad) (if right then highPlus n px rad else highMinus n px)

/-- falco/proper/prop_rounded_rectangle.py:40-159; `nsub` the antialiasing factor of PROPER. -/
noncomputable def roundedRectangle (n nsub : ℕ) (dx cr width height xc yc : ℝ) : Except PyErr (ZMod n → ZMod n → ℝ) :=
  (corner nsub dx cr width height xc yc true true (rectangle n nsub (Rect.ofArgs n dx 0 false width height (some xc) (some yc) 0) false)).bind fun m1 =>
  (corner nsub dx cr width height xc yc true false m1).bind fun m2 =>
  (corner nsub dx cr width height xc yc false true m2).bind fun m3 =>
  corner nsub dx cr width height xc yc false false m3

end Verif.RoundRect
