import Verif.Model.Ctrl
import Verif.Model.Jac

/-!
# Model of the controlled actuators and the Jacobian of one DM through a run: falco/wfsc.py `loop` lines 52-54, 73-83 with `jacobian` (serial) and `cull_weak_actuators`

Simplifications: one DM (DM1 or DM2; `dms` of a run are independent of each other here); the tied pairs are fixed during the run (see C12 for their growth);
`act_ele` is an array also after line 161-163 of ctrl.py has made it a list.
-/

namespace Verif.Cull
open Verif Verif.Jac

variable {M : ℕ} {P : Type} [Fintype P]

/-- What a run keeps of a DM: `NactTotal`, `tied`, `act_ele`, `Nele`, and its part `jacStruct.G1` of the Jacobian (list of columns). -/
structure DmJ (M : ℕ) (P : Type) where
  Ntot : ℕ
  tied : List (ℕ × ℕ)
  actEle : List ℕ
  Nele : ℕ
  G : List (Col M P)

/-- One iteration as seen by the DM: is it in `mp.dm_ind`, the DMs named for this iteration by `mp.dm_ind_sched`, is the iteration in `mp.relinItrVec`, and the responses
`_jac_middle_layer(mp, m, idm, iact)` of the actuators around the present DM commands. -/
structure Iter (M : ℕ) (P : Type) where
  used : Bool
  sched : List ℕ
  relin : Bool
  col : Fin M → ℕ → P → ℂ

/-- falco/dm.py:756, falco/setup.py:1276-1284: the DM at the start of a run. -/
def start (Ntot : ℕ) (tied : List (ℕ × ℕ)) (used : Bool) : DmJ M P :=
  { Ntot := Ntot, tied := tied, actEle := List.range Ntot, Nele := if used then Ntot else 0, G := [] }

/-- falco/wfsc.py:79-81 with falco/model/models.py:1090-1093, 1187-1240 (serial): the Jacobian is recomputed for the present `act_ele` and `Nele`. -/
def relinearise (d : DmJ M P) (it : Iter M P) : Except PyErr (DmJ M P) := do
  let G ← serial it.used d.Nele d.actEle it.col
  let G ← if it.used then applyTies d.actEle d.tied G else .ok G
  return { d with G := G }

/-- falco/ctrl.py:152-160: `cvar.flagCullAct`; `prev` is the scheduled DM set of the previous iteration (`none` in the first one). -/
def cullFlag (hasSched : Bool) (prev : Option (List ℕ)) (now : List ℕ) : Bool :=
  match prev with
  | none => true
  | some p => hasSched && p.mergeSort (· ≤ ·) != now.mergeSort (· ≤ ·)

/-- falco/ctrl.py:167-192: all actuators are controlled again. -/
def reinclude (d : DmJ M P) (used : Bool) : DmJ M P :=
  if used then { d with actEle := List.range d.Ntot, Nele := d.Ntot } else { d with Nele := 0 }

/-- The Jacobian as `Ctrl.cull` takes it. -/
def asArray (G : List (Col M P)) : P → Fin G.length → Fin M → ℂ := fun p j m => G[j] m p

/-- falco/ctrl.py:196-286: the weak actuators are taken out of `act_ele` and of the Jacobian. -/
noncomputable def weed (d : DmJ M P) (logGmin : ℝ) : Except PyErr (DmJ M P) := do
  let act ← Ctrl.cull (asArray d.G) logGmin d.tied
  return { d with actEle := act, Nele := act.length, G := act.map fun i => d.G.getD i fun _ _ => 0 }

/-- falco/wfsc.py:73-83: one iteration up to the estimator. -/
noncomputable def step (logGmin : ℝ) (hasSched : Bool) (prev : Option (List ℕ)) (it : Iter M P) (d : DmJ M P) : Except PyErr (DmJ M P) := do
  let relin := it.relin || prev.isNone
  let d ← if relin then relinearise d it else .ok d
  let flag := cullFlag hasSched prev it.sched
  let d := if flag then reinclude d it.used else d
  if flag && relin && it.used then weed d logGmin else .ok d

/-- A run: the DM as the estimator and controller find it in each iteration. -/
noncomputable def run (logGmin : ℝ) (hasSched : Bool) : Option (List ℕ) → List (Iter M P) → DmJ M P → Except PyErr (List (DmJ M P))
  | _, [], _ => .ok []
  | prev, it :: its, d => do
    let d ← step logGmin hasSched prev it d
    let ds ← run logGmin hasSched (some it.sched) its d
    return d :: ds

/-- falco/ctrl.py:1054-1061 with 51, 58-73: the controller multiplies the Jacobian of a used DM by weights tiled to `Nele` columns; a different number of columns is a ValueError
(for `Nele = 1` the product is still formed, and adding the square of the Jacobian to an array of the wrong size raises the same exception).  Npix = 1 and a Jacobian of a
single column (also ValueError, by `np.squeeze`) are not modelled. -/
def controlShapes (d : DmJ M P) (used : Bool) : Except PyErr Unit :=
  if used && d.Nele != d.G.length then .error .valueError else .ok ()

end Verif.Cull
