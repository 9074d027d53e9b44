import Verif.Model.Util
import Verif.Model.Setup

/-!
# Model of the set-up of the DMs and of the input fields (falco/setup.py) and of the end of a run (falco/wfsc.py)

`falco_configure_dm1_and_dm2` (sign of the influence function, dead actuators, starting commands, what is stored in `mp.dm1`), `falco_gen_dm_stops`, `falco_set_initial_Efields`,
`compute_lyot_stop_coordinates`.  The poke cubes are the subject of `Model/DmTilt`, the stops of `Model/Masks`.
-/

namespace Verif.SetupDm
open Verif Verif.Util

/-- falco/setup.py:1204-1209, 1224-1229: whether the influence function is negated (`mp.dm1.inf_sign[0]`). -/
def negated (sign : String) : Except PyErr Bool := match sign.toList with
  | [] => .error .indexError
  | c :: _ => if c ∈ ['-', 'n', 'm'] then .ok true else if c ∈ ['+', 'p'] then .ok false else .error .valueError

/-- NumPy's reading of an index into `n` elements. -/
def pyIndex (n : ℕ) (i : ℤ) : Except PyErr ℕ :=
  if 0 ≤ i ∧ i < n then .ok i.toNat else if -(n : ℤ) ≤ i ∧ i < 0 then .ok (i + n).toNat else .error .indexError

/-- falco/setup.py:1269-1274, falco/dm.py:908-911: the map of the dead actuators; `ravel()` is a view of the rows one after the other. -/
def deadMap (nact : ℕ) (dead : List ℤ) : Except PyErr (ℕ → ℕ → Bool) :=
  (dead.foldlM (fun (m : ℕ → Bool) i => (pyIndex (nact * nact) i).map fun k => Function.update m k true) (fun _ => false)).map
    fun m r c => m (r * nact + c)

/-- falco/model/jacobians.py:233-242, 673-682: whether the column of actuator `iact` is zero because the actuator is dead. -/
def deadColumn (dead : List ℤ) (iact : ℕ) : Bool := decide ((iact : ℤ) ∈ dead)

/-- falco/setup.py:1263-1266: the command to start from. -/
def startCommand (nact : ℕ) (given : Option (ℕ → ℕ → ℝ)) : ℕ → ℕ → ℝ := match given with
  | none => fun _ _ => 0
  | some v => v

/-- The attributes that set-up stores in `mp.dm1` and `mp.dm2`: falco/setup.py:312-344, 393, 1194-1280 and falco/dm.py:517-795 (`gen_poke_cube`). -/
def setupAttrs : List String :=
  ["orientation", "fitType", "dead", "pinned", "Vpinned", "tied", "Vmin", "Vmax", "dVnbrLat", "dVnbrDiag", "biasMap", "facesheetFlatmap", "surfFitMethod", "useDifferentiableModel", "dV",
   "inf0", "dx_inf0", "ppact", "centering", "compact", "dx", "V", "dead_map", "Nele",
   "flag_hex_array", "dx_dm", "NdmMin", "Ndm", "NactTotal", "xy_cent_act", "infMaster", "Nbox", "NboxAS", "r_cent_act", "rmax", "NdmPad", "x_pupPad", "y_pupPad", "act_ele",
   "xy_cent_act_inPix", "xy_cent_act_box", "xy_cent_act_box_inM", "xy_box_lowerLeft", "x_box0", "inf_datacube"]

/-- Reading the attributes `full` and `compact` of an object with the attributes `attrs`. -/
def needFull (attrs : List String) : Except PyErr Unit := if "full" ∈ attrs ∧ "compact" ∈ attrs then .ok () else .error .attributeError

/-- falco/setup.py:1297-1311 `falco_gen_dm_stops`: which stops are stored.  `given1`, `given2` are the attributes that the user's `mp.dm1`, `mp.dm2` have.
`mp.dm2.full` is made if it is missing, `mp.dm1.full` is not. -/
def genDmStops (flag1 flag2 : Bool) (given1 given2 : List String) : Except PyErr (Bool × Bool) :=
  let attrs1 := given1 ++ setupAttrs
  let attrs2 := given2 ++ setupAttrs ++ ["full", "compact"]
  (if flag1 then needFull attrs1 else .ok ()).bind fun _ =>
  (if flag2 then needFull attrs2 else .ok ()).map fun _ => (flag1, flag2)

/-- A stack of fields: `fields[si][wi]` for subband `si` and wavelength `wi` in it, all of `h` by `w` pixels. -/
structure Stack where
  h : ℕ
  w : ℕ
  fields : List (List (Img ℂ))

/-- An element of a list, IndexError outside. -/
def at_ {α : Type*} (l : List α) (i : ℕ) : Except PyErr α := match l[i]? with
  | some a => .ok a
  | none => .error .indexError

/-- falco/setup.py:1356-1369 (`mp.P1.full.E`): `nw` wavelengths in each of `ns` subbands, arrays of `narr` by `narr` pixels. -/
def initialE (given : Option Stack) (narr nw ns : ℕ) : Except PyErr Stack := match given with
  | none => .ok ⟨narr, narr, List.replicate ns (List.replicate nw (Img.full narr narr 1))⟩
  | some E => if E.h ≠ narr then
      ((List.range ns).mapM fun si => (List.range nw).mapM fun wi =>
        (at_ E.fields si).bind fun l => (at_ l wi).bind fun A => padCrop A (.one (.int narr)) 0).map fun f => ⟨narr, narr, f⟩
    else .ok E

/-- falco/setup.py:1371-1381 (`mp.P1.compact.E`): the same with one field in each subband. -/
def initialEcompact (given : Option Stack) (narr ns : ℕ) : Except PyErr Stack := initialE given narr 1 ns

/-- falco/setup.py:816-826: coordinates in the plane of the (cropped) Lyot stop of the compact model. -/
noncomputable def lyotXs (c : Centering) (narr : ℕ) (dx : ℝ) : List ℝ := (match c with
  | .pixel => Setup.linspace (-(narr : ℝ) / 2) ((narr : ℝ) / 2 - 1) narr
  | .interpixel => Setup.linspace (-((narr : ℝ) - 1) / 2) (((narr : ℝ) - 1) / 2) narr).map (· * dx)

/-- What is written at the end of a run. -/
inductive Written where
  | snippet
  | workspace
deriving DecidableEq

/-- falco/wfsc.py:192-243: the files written and how the loop ends.  With `flagSaveWS` the statement `del G` (line 202) names a variable that is never assigned. -/
def finish (saveWS : Bool) : List Written × Except PyErr Unit :=
  let names := ["mp", "out", "cvar", "ev", "jacStruct", "Itr", "thput", "ImSimOffaxis", "fnSnippet", "f"]
  if saveWS then
    if "cvar" ∉ names ∨ "G" ∉ names ∨ "h" ∉ names ∨ "jacStruct" ∉ names then ([.snippet], .error .unboundLocal)
    else ([.snippet, .workspace], .ok ())
  else ([.snippet], .ok ())

end Verif.SetupDm
