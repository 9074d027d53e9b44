import Verif.Model.Jac
import Verif.Model.Imaging

/-!
# Model of how the work of the control Jacobian is divided: threads and files

falco/model/models.py `jacobian` (thread pool), `_jac_middle_layer`, `write_jac_slices`, `reassemble_jac_from_slices`; the accesses of falco/model/jacobians.py `lyot`, `vortex` and `no_fpm` to the
shared object `mp`.
-/

namespace Verif.JacWork
open Verif Verif.Imaging

/-- The two model functions. -/
inductive Kind where
  | lyot
  | vortex
  deriving DecidableEq

/-- falco/model/models.py:1318-1350 `_jac_middle_layer`, the choice of the model: the layout in lower case, the coronagraph in upper case. A coronagraph without a branch leaves `jacModeAct` unbound. -/
def middle (layout coro : String) : Except PyErr Kind :=
  if layout ∈ ["fourier", "proper", "fpm_scale"] then
    if coro ∈ ["LC", "APLC", "HLC", "FLC", "SPLC"] then .ok .lyot
    else if coro ∈ ["VC", "AVC", "VORTEX"] then .ok .vortex
    else .error .unboundLocal
  else if layout ∈ ["wfirst_phaseb_proper", "roman_phasec_proper"] then
    if coro ∈ ["HLC", "SPC", "SPLC"] then .ok .lyot
    else .error .valueError
  else .error .valueError

/-- falco/model/models.py:1267-1271 `write_jac_slices`, the choice of the model: the layout is not looked at. -/
def sliceKind (coro : String) : Except PyErr Kind :=
  if coro ∈ ["LC", "APLC", "HLC", "FLC", "SPLC"] then .ok .lyot
  else if coro ∈ ["VC", "AVC", "VORTEX"] then .ok .vortex
  else .error .unboundLocal

/-- `mp.dmN.compact.xy_box_lowerLeft_AS`: lower-left corner (x, y) of the box of each actuator. -/
abbrev Boxes := ℕ → ℝ × ℝ

/-- What the Jacobian functions use. `boxes d`, `NboxAS d`, `Nbox d`: `mp.dmN.compact.xy_box_lowerLeft`, `.NboxAS`, `.Nbox`; `dead d`: `mp.dmN.dead`; `field`: the rest of the computation of a column, a function of the
values read from `xy_box_lowerLeft_AS` (everything else in `mp` is only read: C32, C81, C82 model it). -/
structure Mp (M : ℕ) (P : Type) where
  layout : String
  coro : String
  dmInd : List ℕ
  actEle : ℕ → List ℕ
  Nele : ℕ → ℕ
  dead : ℕ → List ℕ
  boxes : ℕ → Boxes
  NboxAS : ℕ → ℕ
  Nbox : ℕ → ℕ
  minimizeNI : Bool
  field : Kind → Fin M → ℕ → ℕ → List Boxes → P → ℂ

variable {M : ℕ} {P : Type}

/-- falco/model/jacobians.py:375-376, 473, 825, 917, 1143, 1200: the value stored in `mp.dmN.compact.xy_box_lowerLeft_AS`. -/
noncomputable def Mp.padded (mp : Mp M P) (d : ℕ) : Boxes := fun a =>
  let s : ℝ := ((mp.NboxAS d : ℝ) - mp.Nbox d) / 2
  ((mp.boxes d a).1 - s, (mp.boxes d a).2 - s)

/-- The accesses to `mp.dmN.compact.xy_box_lowerLeft_AS` of one pass: jacobians.py:375, 396-397 (`lyot`, DM1), 473, 489-490 (`lyot`, DM2), 825, 845-846 and 917, 933-934 (`vortex`), 1143, 1166-1167 and 1200, 1220-1226 (`no_fpm`):
it is stored and then read four times. -/
noncomputable def Mp.pass (mp : Mp M P) (d : ℕ) : List (Step ℕ Boxes) := [.write d (mp.padded d), .read d, .read d, .read d, .read d]

/-- falco/model/jacobians.py:209-643 `lyot` and 646-983 `vortex` as a program over the shared memory: nothing for a dead actuator (lines 233-242, 673-682), one pass, and one more in `no_fpm` with `mp.jac.minimizeNI`
(lines 460, 552, 896, 976). -/
noncomputable def Mp.prog (mp : Mp M P) (d a : ℕ) : List (Step ℕ Boxes) :=
  if a ∈ mp.dead d then [] else if mp.minimizeNI then mp.pass d ++ mp.pass d else mp.pass d

/-- The column returned by `lyot`/`vortex` from the values read: zero for a dead actuator. For DM8 and DM9 no branch defines `Gchunk` (lines 559-641 are commented out). -/
noncomputable def Mp.column (mp : Mp M P) (k : Kind) (m : Fin M) (d a : ℕ) (rds : List Boxes) : Except PyErr (P → ℂ) :=
  if d = 1 ∨ d = 2 then .ok (if a ∈ mp.dead d then fun _ => 0 else mp.field k m d a rds) else .error .unboundLocal

/-- `_jac_middle_layer(mp, imode, idm, iact)` when nothing else runs. -/
noncomputable def Mp.call (mp : Mp M P) (mem : ℕ → Boxes) (m : Fin M) (d a : ℕ) : Except PyErr (P → ℂ) × (ℕ → Boxes) :=
  match middle mp.layout mp.coro with
  | .error e => (.error e, mem)
  | .ok k =>
    let r := runAlone mem (mp.prog d a)
    (mp.column k m d a r.1, r.2)

/-- The Jacobians under construction, `jacStruct.G1` and `jacStruct.G2`. -/
structure JacStruct (M : ℕ) (P : Type) where
  G1 : List (Jac.Col M P)
  G2 : List (Jac.Col M P)

/-- falco/model/models.py:1090-1093 and 1281-1284 -/
def Mp.zeros (mp : Mp M P) : JacStruct M P := ⟨Jac.zeros (mp.Nele 1), Jac.zeros (mp.Nele 2)⟩

/-- `jacStruct.G1[:, j, m] = v` or the same for `G2`; `G8` and `G9` do not exist (lines 1094-1097 are commented out). -/
def JacStruct.set (J : JacStruct M P) (d j : ℕ) (m : Fin M) (v : P → ℂ) : Except PyErr (JacStruct M P) :=
  if d = 1 then
    match Jac.setCol J.G1 j m v with
    | .ok G => .ok { J with G1 := G }
    | .error e => .error e
  else if d = 2 then
    match Jac.setCol J.G2 j m v with
    | .ok G => .ok { J with G2 := G }
    | .error e => .error e
  else .error .attributeError

/-- falco/model/models.py:1190-1205: the calls of the serial branch in their order, with the column each result is stored in. -/
def Mp.serialOrder (mp : Mp M P) : List (Fin M × ℕ × ℕ × ℕ) :=
  (List.finRange M).flatMap fun m => ([1, 2, 8, 9].filter fun d => d ∈ mp.dmInd).flatMap fun d => (mp.actEle d).zipIdx.map fun p => (m, d, p.1, p.2)

/-- falco/model/models.py:1186-1207, serial branch (before the tied actuators, C31). -/
noncomputable def Mp.serial (mp : Mp M P) : List (Fin M × ℕ × ℕ × ℕ) → (ℕ → Boxes) → JacStruct M P → Except PyErr (JacStruct M P)
  | [], _, J => .ok J
  | (m, d, a, j) :: l, mem, J =>
    let r := mp.call mem m d a
    match r.1 with
    | .error e => .error e
    | .ok v =>
      match J.set d j m v with
      | .error e => .error e
      | .ok J' => Mp.serial mp l r.2 J'

/-- falco/model/models.py:1156-1158 `results_order` -/
def Mp.parOrder (mp : Mp M P) : List (Fin M × ℕ × ℕ) :=
  ([1, 2] : List ℕ).flatMap fun d => (mp.actEle d).flatMap fun a => (List.finRange M).map fun m => (m, d, a)

/-- falco/model/models.py:1170-1182: the results are stored in the order of `results_order`, at the actuator's number. -/
def storeAll : List ((Fin M × ℕ × ℕ) × (P → ℂ)) → JacStruct M P → Except PyErr (JacStruct M P)
  | [], J => .ok J
  | ((m, d, a), v) :: l, J =>
    match J.set d a m v with
    | .error e => .error e
    | .ok J' => storeAll l J'

/-- falco/model/models.py:1160-1167: the result of call number `t` of `executor.map`, once finished. -/
noncomputable def Mp.parResult (mp : Mp M P) {k : ℕ} (s : Pool ℕ Boxes k) (t : ℕ) (x : Fin M × ℕ × ℕ) : Option (Except PyErr (P → ℂ)) :=
  (s.results t).map fun rds =>
    match middle mp.layout mp.coro with
    | .error e => .error e
    | .ok kd => mp.column kd x.1 x.2.1 x.2.2 rds

/-- falco/model/models.py:1160-1166: the calls of `executor.map` as programs over the shared memory. Calls that raise in `_jac_middle_layer` do so before any access. -/
noncomputable def Mp.tasks (mp : Mp M P) : List (List (Step ℕ Boxes)) :=
  mp.parOrder.map fun x => match middle mp.layout mp.coro with
    | .error _ => []
    | .ok _ => mp.prog x.2.1 x.2.2

/-- falco/model/models.py:1110-1182, parallel branch with `k` threads, for the schedule `sched`; `none` if the schedule ends before all calls have finished. The first exception in the order of the calls is raised by `tuple(result)`. -/
noncomputable def Mp.parallel (mp : Mp M P) (mem : ℕ → Boxes) (k : ℕ) (sched : List (Fin k)) : Option (Except PyErr (JacStruct M P)) :=
  let s := Pool.run mp.tasks (Pool.init mem k) sched
  (mp.parOrder.zipIdx.mapM fun p => (mp.parResult s p.2 p.1).map fun r => (p.1, r)).map fun rs =>
    match rs.mapM fun p => match p.2 with
      | .error e => Except.error e
      | .ok v => .ok (p.1, v) with
    | .error e => .error e
    | .ok vs => storeAll vs mp.zeros

/-! ## Slices in files -/

/-- falco/model/models.py:1273, 1290, 1294: the file name below `mp.path.jac`. -/
def fileName (m d a : ℕ) : String := "jac_mode" ++ toString m ++ "_dm" ++ toString d ++ "_act" ++ toString a ++ ".npy"

/-- The directory `mp.path.jac`: file contents. Simplification: `np.save` writes a file in one step. -/
abbrev Dir (P : Type) := String → Option (P → ℂ)

/-- A unit of work: mode, DM, actuator. -/
abbrev Combo (M : ℕ) := Fin M × ℕ × ℕ

/-- falco/model/models.py:1264-1274, the body of the loop of `write_jac_slices` in one process (each process has its own copy of `mp`, loaded from the pickle file; `none`: the file could not be read, line 1251-1257 returns None). -/
noncomputable def writeSlice (mp : Option (Mp M P)) (mem : ℕ → Boxes) (c : Combo M) (dir : Dir P) : Except PyErr (Dir P × (ℕ → Boxes)) :=
  match mp with
  | none => .error .attributeError
  | some mp =>
    match sliceKind mp.coro with
    | .error e => .error e
    | .ok k =>
      let r := runAlone mem (mp.prog c.2.1 c.2.2)
      match mp.column k c.1 c.2.1 c.2.2 r.1 with
      | .error e => .error e
      | .ok v => .ok (Function.update dir (fileName c.1 c.2.1 c.2.2) (some v), r.2)

/-- A process running `write_jac_slices`: what is left of its list, its copy of the shared memory, and the exception that ended it. -/
structure Proc (M : ℕ) where
  todo : List (Combo M)
  mem : ℕ → Boxes
  failed : Option PyErr

/-- `n` processes and the directory they write to. -/
structure Farm (M : ℕ) (P : Type) (n : ℕ) where
  procs : Fin n → Proc M
  dir : Dir P

/-- Process `i` handles its next combination. -/
noncomputable def Farm.step {n : ℕ} (mp : Option (Mp M P)) (s : Farm M P n) (i : Fin n) : Farm M P n :=
  match (s.procs i).failed, (s.procs i).todo with
  | none, c :: l =>
    match writeSlice mp (s.procs i).mem c s.dir with
    | .error e => { s with procs := Function.update s.procs i { s.procs i with failed := some e } }
    | .ok (dir, mem) => ⟨Function.update s.procs i ⟨l, mem, none⟩, dir⟩
  | _, _ => s

/-- The processes run in the order `sched`. -/
noncomputable def Farm.run {n : ℕ} (mp : Option (Mp M P)) (s : Farm M P n) (sched : List (Fin n)) : Farm M P n := sched.foldl (Farm.step mp) s

/-- The start: the work lists `work`. -/
def Farm.init {n : ℕ} (work : Fin n → List (Combo M)) (mem : ℕ → Boxes) (dir : Dir P) : Farm M P n := ⟨fun i => ⟨work i, mem, none⟩, dir⟩

/-- falco/model/models.py:1289, 1293: `for index, iact in mp.dmN.act_ele` unpacks an actuator number: TypeError. -/
def unpackLoop (actEle : List ℕ) : Except PyErr Unit := if actEle = [] then .ok () else .error .typeError

/-- falco/model/models.py:1277-1300 `reassemble_jac_from_slices` (before the tied actuators): the bodies of the inner loops are never reached. -/
def Mp.reassemble (mp : Mp M P) (_dir : Dir P) : Except PyErr (JacStruct M P) :=
  match (List.finRange M).mapM fun _ => do
    unpackLoop (mp.actEle 1)
    unpackLoop (mp.actEle 2) with
  | .error e => .error e
  | .ok _ => .ok mp.zeros

end Verif.JacWork
