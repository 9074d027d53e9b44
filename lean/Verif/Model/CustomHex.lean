import Verif.Model.HexDraw

/-!
# Model of `falco_gen_pupil_customHex` (falco/mask.py:1523-1585)

Real arithmetic. The drawing of the segments is in Model/HexDraw.lean.
-/

namespace Verif.CustomHex
open Verif Verif.Hlc Verif.Util Verif.HexDraw

/-- The entries of the dictionary `inputs`; `struts` is `none` without the key `wStrut`, else `(wStrut, angStrut)`; `pistons` is `none` without that key, else the lists of pistons and tilts. -/
structure Inputs where
  Npad : ℕ
  Nbeam : ℝ
  OD : ℝ
  ID : ℝ
  wGap : ℝ
  numRings : ℕ
  missing : Option (List ℕ)
  offset : ℝ × ℝ
  struts : Option (ℝ × List ℝ)
  pistons : Option (List ℝ × List ℝ × List ℝ)

/-- falco/util.py:44-69 `cart2pol`: the first value is the distance, the second the angle. -/
noncomputable def cart2pol (x y : ℝ) : ℝ × ℝ := (Real.sqrt (x ^ 2 + y ^ 2), Complex.arg ⟨x, y⟩)

/-- mask.py:1557-1558: the pair `(X, Y)` of pixel `(i, j)` (row, column). -/
noncomputable def xy (N i j : ℕ) : ℝ × ℝ := (-(N : ℝ) / 2 + j, -(N : ℝ) / 2 + i)

/-- mask.py:1558: `[THETA, RHO] = cart2pol(X, Y)`, the variable `THETA`. -/
noncomputable def THETA (N i j : ℕ) : ℝ := (cart2pol (xy N i j).1 (xy N i j).2).1
/-- mask.py:1558: the variable `RHO`. -/
noncomputable def RHO (N i j : ℕ) : ℝ := (cart2pol (xy N i j).1 (xy N i j).2).2

/-- mask.py:1560-1564: `inputs["apDia"]` is set to `Nbeam`; then `get_field` or `get_support`. -/
noncomputable def Inputs.pupil0 (q : Inputs) : Except PyErr (ℕ → ℕ → ℝ) := match q.pistons with
  | some (p, tx, ty) => (getField q.Nbeam q.wGap q.numRings q.Npad p tx ty q.missing).map fun F i j => (F.get? i j).getD 0
  | none => getSupport q.Nbeam q.wGap q.numRings q.Npad q.missing q.offset

/-- mask.py:1567-1570 -/
noncomputable def Inputs.circles (q : Inputs) (i j : ℕ) : ℝ :=
  let apRad := q.Nbeam / 2
  open Classical in
  if q.ID > 0 then Real.exp (-(RHO q.Npad i j / (apRad * q.OD)) ^ 1000) - Real.exp (-(RHO q.Npad i j / (apRad * q.ID)) ^ 1000)
  else Real.exp (-(RHO q.Npad i j / (apRad * q.OD)) ^ 1000)

open Classical in
/-- mask.py:1578-1579: the factor for one strut. -/
noncomputable def Inputs.strut (q : Inputs) (wStrut ang : ℝ) (i j : ℕ) : ℝ :=
  let halfwidth := wStrut * 2 * (q.Nbeam / 2)
  1 - Real.exp (-(RHO q.Npad i j * Real.sin (THETA q.Npad i j - ang * Real.pi / 180) / halfwidth) ^ 100) *
    (if RHO q.Npad i j * Real.cos (THETA q.Npad i j - ang * Real.pi / 180) > 0 then 1 else 0)

open Classical in
/-- mask.py:1523-1585 `falco_gen_pupil_customHex`. -/
noncomputable def pupil (q : Inputs) : Except PyErr (ℕ → ℕ → ℝ) :=
  match q.struts with
  | none => q.pupil0.map fun p0 i j => q.circles i j * p0 i j
  | some (w, angs) =>
    if w < 0 then .error .typeError
    else q.pupil0.map fun p0 =>
      let p1 : ℕ → ℕ → ℝ := fun i j => q.circles i j * p0 i j
      if w > 0 then angs.foldl (fun (p : ℕ → ℕ → ℝ) ang i j => p i j * q.strut w ang i j) p1 else p1

end Verif.CustomHex
