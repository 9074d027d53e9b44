import Verif.Model.Arr
import Mathlib.Data.Complex.Basic
import Mathlib.Data.Complex.BigOperators
import Mathlib.Analysis.SpecialFunctions.Exp
import Mathlib.Analysis.Real.Pi.Bounds

/-!
# Model of falco/zern.py:19-224 `calc_zern_sens` and 227-342 `falco_get_single_sim_Efield_LamPol(Zern)`

For the FALCO full models (`mp.full.flagPROPER = False`).  The Zernike maps (zern.py:56-68, 330-332) are given (`Zmap`, already padded to the pupil array); the full model is a function of the pupil
field at the wavelength, the polarisation state and the DM commands, and an evaluation changes the DM objects (`settle`: constrains the commands, models.py:836-848).
-/

namespace Verif.ZernSens
open Verif

/-- `mp` as far as it is read or written: pupil fields `mp.P1.full.E` per unique wavelength, the DM objects, `mp.full.polaxis`, `mp.full.zindex`, `mp.full.zval_m` (`none` before they are first set). -/
structure World (Pup Dms : Type) where
  E : ℕ → Pup → ℂ
  dm : Dms
  polaxis : ℤ
  zern : Option (List ℕ × List ℝ)

/-- What does not change: numbers of unique wavelengths, the polarisation conditions, Noll indices, wavelengths, the amount `ZrmsVal`, the maps, the masks of the annuli on the `Neta × Nxi` camera and
the full model. -/
structure Cfg (Pup Dms : Type) where
  Nlam : ℕ
  pols : List ℤ
  nolls : List ℕ
  lam : ℕ → ℝ
  zrms : ℝ
  Zmap : ℕ → Pup → ℝ
  Neta : ℕ
  Nxi : ℕ
  annuli : List (Fin Neta → Fin Nxi → Bool)
  full : ℕ → ℤ → (Pup → ℂ) → Dms → Fin Neta → Fin Nxi → ℂ
  settle : Dms → Dms

variable {Pup Dms : Type}

/-- zern.py:227-263 `falco_get_single_sim_Efield_LamPol`. -/
def single (c : Cfg Pup Dms) (ilam ipol : ℕ) (w : World Pup Dms) : (Fin c.Neta → Fin c.Nxi → ℂ) × World Pup Dms :=
  let pol := c.pols.getD ipol 0
  let dm := c.settle w.dm
  (c.full ilam pol (w.E ilam) dm, { w with polaxis := pol, dm := dm })

/-- zern.py:266-342 `falco_get_single_sim_Efield_LamPolZern`: the pupil field is multiplied in place (332-335), the model evaluated, and the saved copy put back (338-340). -/
noncomputable def singleZern (c : Cfg Pup Dms) (ilam ipol iz : ℕ) (w : World Pup Dms) : (Fin c.Neta → Fin c.Nxi → ℂ) × World Pup Dms :=
  let pol := c.pols.getD ipol 0
  let E0 := w.E
  let z0 := w.zern.getD ([], [])
  let E1 : ℕ → Pup → ℂ := fun k => if k = ilam then fun p => Complex.exp (Complex.I * 2 * Real.pi / c.lam ilam * c.zrms * c.Zmap (c.nolls.getD iz 0) p) * w.E ilam p else w.E k
  let dm := c.settle w.dm
  (c.full ilam pol (E1 ilam) dm, { E := E0, dm := dm, polaxis := pol, zern := some z0 })

/-- A loop over a list of index tuples which collects the fields (zern.py:128-131, 186-188). -/
def collect {ι F W : Type} (f : ι → W → F × W) : List ι → W → List F × W
  | [], w => ([], w)
  | i :: t, w =>
    let (x, w1) := f i w
    let (l, w2) := collect f t w1
    (x :: l, w2)

/-- The same with the worker processes of a pool, each starting from a copy of `mp` (zern.py:110-113, 158-163): `mp` of the caller is unchanged. -/
def pooled {ι F W : Type} (f : ι → W → F × W) (l : List ι) (w : W) : List F × W := (l.map fun i => (f i w).1, w)

/-- zern.py:80-81 `inds_list`. -/
def lamPol (c : Cfg Pup Dms) : List (ℕ × ℕ) := (List.range c.Nlam).flatMap fun x => (List.range c.pols.length).map fun y => (x, y)

/-- zern.py:143-144 `inds_list_zern`. -/
def lamPolZern (c : Cfg Pup Dms) : List (ℕ × ℕ × ℕ) :=
  (List.range c.Nlam).flatMap fun x => (List.range c.pols.length).flatMap fun y => (List.range c.nolls.length).map fun z => (x, y, z)

/-- value stored under an index tuple (zern.py:134-138, 191-196) -/
def look {ι F : Type} [DecidableEq ι] [Inhabited F] (keys : List ι) (vals : List F) (k : ι) : F := ((keys.zip vals).lookup k).getD default

/-- `np.mean` over an axis of length at least 1 (there is at least one wavelength and one polarisation state). -/
noncomputable def meanR (l : List ℝ) : ℝ := l.sum / l.length

/-- `np.mean` of the values in a mask; `none` is the NaN of an empty mean. -/
noncomputable def mean (l : List ℝ) : Option ℝ := if l = [] then none else some (l.sum / l.length)

/-- zern.py:19-224 `calc_zern_sens`.  Entry `[iz][ia]` of the result is the sensitivity to Zernike `iz` in annulus `ia`.  `np.squeeze` (200) drops every axis of length 1, after which the
three-index access (203) fails unless there is nothing to access. -/
noncomputable def calcZernSens (c : Cfg Pup Dms) (par : Bool) (w : World Pup Dms) : Except PyErr (List (List (Option ℝ))) × World Pup Dms :=
  let run {ι F : Type} (f : ι → World Pup Dms → F × World Pup Dms) (l : List ι) (w : World Pup Dms) := if par then pooled f l w else collect f l w
  let (Eunab, w1) := run (fun i => single c i.1 i.2) (lamPol c) w
  let (Eab, w2) := run (fun i => singleZern c i.1 i.2.1 i.2.2) (lamPolZern c) w1
  let dE2 (iz : ℕ) (e : Fin c.Neta) (x : Fin c.Nxi) : ℝ := meanR ((List.range c.Nlam).map fun ilam => meanR ((List.range c.pols.length).map fun ipol =>
    Complex.normSq (look (lamPolZern c) Eab (ilam, ipol, iz) e x - look (lamPol c) Eunab (ilam, ipol) e x)))
  if c.nolls.length ≠ 0 ∧ (c.nolls.length = 1 ∨ c.Neta = 1 ∨ c.Nxi = 1) then (.error .indexError, w2)
  else
    (.ok ((List.range c.nolls.length).map fun iz => c.annuli.map fun mask =>
      mean ((List.finRange c.Neta).flatMap fun e => (List.finRange c.Nxi).filterMap fun x => if mask e x then some (dE2 iz e x) else none)), w2)

end Verif.ZernSens
