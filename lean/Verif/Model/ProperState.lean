import Verif.Model.Proper

/-!
# Model of the save-state system (falco/proper/prop_init_savestate.py, prop_savestate.py, prop_is_statesaved.py, prop_state.py, prop_end_savestate.py) and of prop_end.py, prop_define_entrance.py

The module variables of `falco.proper` and the working directory are a record. `allowPickle` is the default of `np.load`: `False` since NumPy 1.16.3 (requirements.txt pins numpy 2.1.3); the model
keeps it as a parameter so that the older behaviour is covered too.
-/

namespace Verif.Proper
open Verif Complex Verif.Optics

variable {n : ℕ}

/-- What a file written by prop_savestate holds. -/
structure Saved (n : ℕ) where
  total : ℝ
  wf : WF n

/-- A file of the working directory: one written by prop_savestate, or any other. -/
inductive File (n : ℕ) where
  | state (d : Saved n)
  | other

/-- Module variables and directory. -/
structure Sys (n : ℕ) where
  on : Bool
  lams : List ℝ
  statefile : String
  /-- `proper.n` -/
  gridN : ℕ
  /-- `proper.total_original_pupil` -/
  total : ℝ
  files : String → Option (File n)

/-- falco/proper/__init__.py:171-174: the module variables after import; `n = 0` is set there too. -/
def importSys (n : ℕ) (files : String → Option (File n)) : Sys n := ⟨true, [], "", 0, 0, files⟩

/-- `str(int(lamda*1.e15)).strip() + proper.statefile` (falco/proper/prop_savestate.py:30, prop_state.py:40). -/
noncomputable def stem (y : Sys n) (lam : ℝ) : String := toString (⌊lam * 1e15⌋) ++ y.statefile

/-- falco/proper/prop_init_savestate.py:24-40; `num` is the number taken from the clock. -/
def initSavestate (y : Sys n) (num : ℕ) : Sys n :=
  { y with on := true, lams := [], statefile := "_" ++ toString num ++ "_prop_savestate" }

open Classical in
/-- falco/proper/prop_savestate.py:26-36; `np.savez` appends `.npz`. -/
noncomputable def savestate (y : Sys n) (wf : WF n) : Sys n :=
  if y.on = false then y
  else { y with files := Function.update y.files (stem y wf.lam ++ ".npz") (some (.state ⟨y.total, wf⟩)), lams := y.lams ++ [wf.lam] }

open Classical in
/-- falco/proper/prop_is_statesaved.py:23-36. -/
noncomputable def isStatesaved (y : Sys n) (wf : WF n) : Bool := y.lams.any fun l => decide (l = wf.lam)

/-- Result of prop_state: module state, the caller's wavefront object afterwards, and the exception if one was raised. -/
structure StateOut (n : ℕ) where
  sys : Sys n
  caller : WF n
  exc : Option PyErr

open Classical in
/-- falco/proper/prop_state.py:32-53. The name `wf` of the function is a local variable: it starts out as the caller's object and is rebound at line 49; only the object it first
referred to is visible to the caller. A missing file raises (`FileNotFoundError`, here `valueError`). -/
noncomputable def propState (allowPickle : Bool) (y : Sys n) (callerObj : WF n) : StateOut n :=
  let wf := callerObj
  if y.on = false then ⟨y, callerObj, none⟩
  else if isStatesaved y wf = false then ⟨savestate y wf, callerObj, none⟩
  else
    let y' := { y with total := 0, gridN := 0 }
    match y.files (stem y wf.lam ++ ".npz") with
    | none => ⟨y', callerObj, some .valueError⟩
    | some .other => ⟨y', callerObj, some .valueError⟩
    | some (.state d) =>
      let y' := { y' with total := d.total }
      if allowPickle = false then ⟨y', callerObj, some .valueError⟩
      else
        let _wf := d.wf
        ⟨{ y' with gridN := n }, callerObj, none⟩

open Classical in
/-- falco/proper/prop_end_savestate.py:26-36: `glob('*' + statefile)` matches the names that end with `statefile` (which holds no wild-card
characters) and do not begin with a dot. (A subdirectory that matches makes `os.remove` raise; not modelled.) -/
noncomputable def endSavestate (y : Sys n) : Sys n :=
  { y with on := false, lams := [], files := fun f => if y.statefile.toList <:+ f.toList ∧ f.toList.head? ≠ some '.' then none else y.files f }

variable [NeZero n]

/-- `np.sum(np.abs(wf.wfarr)**2)`. -/
noncomputable def total (a : ZMod n → ZMod n → ℂ) : ℝ := ∑ i, ∑ j, ‖a i j‖ ^ 2

/-- falco/proper/prop_define_entrance.py:30-33. -/
noncomputable def defineEntrance (s : WF n) : WF n := { s with arr := fun i j => s.arr i j / (Real.sqrt (total s.arr) : ℂ) }

/-- falco/proper/prop_end.py:42-54: intensity (or field with NOABS) moved to the centre. With `EXTRACT` the slice bounds `ny/2-EXTRACT/2` are floats, which NumPy refuses with a TypeError. -/
noncomputable def end_ (s : WF n) (noabs : Bool) (extract : Option ℕ) : Except PyErr ((ZMod n → ZMod n → ℂ) × ℝ) :=
  let a := if noabs then shiftCenter s.arr else shiftCenter fun i j => ((‖s.arr i j‖ ^ 2 : ℝ) : ℂ)
  match extract with
  | none => .ok (a, s.dx)
  | some _ => .error .typeError

end Verif.Proper
