import Verif.Model.Arr
import Mathlib.Data.Real.Basic
import Mathlib.Data.List.FinRange

/-! # Model of the DM command constraints in falco/dm.py -/

namespace Verif.Dm
open Verif

/-- The attributes of a DM object used by `enforce_constraints` (falco/dm.py:884-949).  `n = Nact²` actuators in
flattened order.
Simplifications: indices are in range by typing (NumPy would raise `IndexError` or wrap negative ones);
`pinned`/`Vpinned` are two parallel arrays in the code and one list of pairs here; `dead_map` is already built. -/
structure State (n : ℕ) where
  V : Fin n → ℝ
  biasMap : Fin n → ℝ
  Vmin : ℝ
  Vmax : ℝ
  dead : Fin n → Bool
  pinned : List (Fin n × ℝ)
  tied : List (Fin n × Fin n)

/-- NumPy fancy assignment `x[idx] = vals` (given as index/value pairs): performed left to right, the last of
duplicate indices wins. -/
def scatter {n : ℕ} {α : Type*} (x : Fin n → α) : List (Fin n × α) → (Fin n → α)
  | [] => x
  | (i, v) :: t => scatter (Function.update x i v) t

/-- falco/dm.py:913-914: commands with dead actuators zeroed. -/
def zeroDead {n : ℕ} (d : State n) : Fin n → ℝ := fun i => if d.dead i then 0 else d.V i

open Classical in
/-- falco/dm.py:916-929: the pins added by this call.  Actuators whose total voltage `V + biasMap` is below `Vmin`
are pinned to the command `Vmin`, those above `Vmax` to the command `Vmax` (in index order). -/
noncomputable def newPins {n : ℕ} (d : State n) : List (Fin n × ℝ) :=
  ((List.finRange n).filter fun i => zeroDead d i + d.biasMap i < d.Vmin).map (fun i => (i, d.Vmin)) ++
  ((List.finRange n).filter fun i => zeroDead d i + d.biasMap i > d.Vmax).map (fun i => (i, d.Vmax))

/-- falco/dm.py:884-949 `enforce_constraints`: dead map, min/max pins, pinned values, tied pairs (the right-hand side
`Vflat[tied[:,0]]` is read before any assignment). -/
noncomputable def enforce {n : ℕ} (d : State n) : State n :=
  let V1 := zeroDead d
  let pinned' := d.pinned ++ newPins d
  let V2 := scatter V1 pinned'
  let V3 := scatter V2 (d.tied.map fun p => (p.2, V2 p.1))
  { d with V := V3, pinned := pinned' }

/-- Default actuator limits and bias in simulation, falco/setup.py:322-338
(`Vmin = 0`, `Vmax = 1000`, `biasMap = Vmax/2`, no dead/pinned/tied actuators), with a given command. -/
noncomputable def defaultDm {n : ℕ} (V : Fin n → ℝ) : State n :=
  { V := V, biasMap := fun _ => 500, Vmin := 0, Vmax := 1000, dead := fun _ => false, pinned := [], tied := [] }

/-- What the outside world can do to a DM between model evaluations: write a command (controllers assign `dm.V`),
or evaluate a model that generates the DM surface, which calls `enforce_constraints`
(falco/dm.py:69, falco/model/models.py:1220,1230). -/
inductive Op (n : ℕ)
  | setV (V : Fin n → ℝ)
  | eval

/-- One operation on the DM. -/
noncomputable def step {n : ℕ} (d : State n) : Op n → State n
  | .setV V => { d with V := V }
  | .eval => enforce d

/-- A history of operations. -/
noncomputable def run {n : ℕ} (d : State n) (ops : List (Op n)) : State n := ops.foldl step d

end Verif.Dm
