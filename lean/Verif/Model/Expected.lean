import Verif.Model.DmConstraints
import Verif.Model.Setup
import Mathlib.Data.Complex.Basic
import Mathlib.Data.Complex.BigOperators

/-!
# Model of falco/imaging.py:496-580 `get_expected_summed_image`

The function is called by the controllers (falco/ctrl.py:856, 1019) with the DM commands already increased by `dDM`.  Every evaluation of the compact model constrains the commands of the DMs in
`mp.dm_ind` (falco/dm.py:68 via models.py:836-848) before it uses them.

Simplification: only DM 1 and DM 2 (not the focal-plane DMs 8, 9).
-/

namespace Verif.Expected
open Verif

/-- What the function reads: which DMs are in `mp.dm_ind`, the number and weights of the sub-bands, the dark-hole mask, and the compact model: the field in sub-band `si` (star 0, piston) is some
function of the commands of the two DMs. -/
structure Cfg (P : Type) (n1 n2 : ℕ) where
  in1 : Bool
  in2 : Bool
  Nsbp : ℕ
  weight : ℕ → ℝ
  corr : P → Bool
  field : ℕ → (Fin n1 → ℝ) → (Fin n2 → ℝ) → P → ℂ

/-- The DM objects of `mp`. -/
structure World (n1 n2 : ℕ) where
  dm1 : Dm.State n1
  dm2 : Dm.State n2

variable {P : Type} {n1 n2 : ℕ}

/-- models.py:836-848: the commands are constrained when the surfaces are made. -/
noncomputable def constrain (c : Cfg P n1 n2) (w : World n1 n2) : World n1 n2 :=
  { dm1 := if c.in1 then Dm.enforce w.dm1 else w.dm1, dm2 := if c.in2 then Dm.enforce w.dm2 else w.dm2 }

/-- imaging.py:536-539 and 554-557: `n` evaluations of the compact model, one per sub-band; the fields and the state afterwards. -/
noncomputable def bands (c : Cfg P n1 n2) : ℕ → World n1 n2 → List (P → ℂ) × World n1 n2
  | 0, w => ([], w)
  | n + 1, w =>
    let (l, w1) := bands c n w
    let w2 := constrain c w1
    (l ++ [c.field n w2.dm1.V w2.dm2.V], w2)

/-- imaging.py:542-545: `mp.dm1.V = mp.dm1.V - dDM.dDM1V`. -/
noncomputable def revert (c : Cfg P n1 n2) (d1 : Fin n1 → ℝ) (d2 : Fin n2 → ℝ) (w : World n1 n2) : World n1 n2 :=
  { dm1 := if c.in1 then { w.dm1 with V := fun i => w.dm1.V i - d1 i } else w.dm1
    dm2 := if c.in2 then { w.dm2 with V := fun i => w.dm2.V i - d2 i } else w.dm2 }

open Classical in
/-- imaging.py:496-580 `get_expected_summed_image`; `Eest p m` is `cvar.Eest[:, m]` at the dark-hole pixel `p`. -/
noncomputable def expected (c : Cfg P n1 n2) (Eest : P → ℕ → ℂ) (d1 : Fin n1 → ℝ) (d2 : Fin n2 → ℝ) (w : World n1 n2) : (P → ℝ) × World n1 n2 :=
  let V1 := w.dm1.V
  let V2 := w.dm2.V
  let (Enew, w1) := bands c c.Nsbp w
  let (Eold, w2) := bands c c.Nsbp (revert c d1 d2 w1)
  let image : P → ℝ := fun p => ((List.range c.Nsbp).map fun si =>
    c.weight si * Complex.normSq (if c.corr p then Eest p si + ((Enew.getD si 0) p - (Eold.getD si 0) p) else 0)).sum
  (image, { dm1 := if c.in1 then { w2.dm1 with V := V1 } else w2.dm1, dm2 := if c.in2 then { w2.dm2 with V := V2 } else w2.dm2 })

end Verif.Expected
