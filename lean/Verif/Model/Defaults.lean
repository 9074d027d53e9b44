import Verif.Model.Config
import Mathlib.Analysis.Real.Pi.Bounds

/-! # Model of the optional parameters: falco/setup.py:120-460 `set_optional_variables` -/

namespace Verif.Defaults
open Verif Verif.Config

/-- The values of the parameters. `list` is a Python list, `arr` a one-dimensional array, `mat r c v` an `r × c` array with all entries `v`, `obj` a configuration object (its attributes are
separate entries of the configuration, see `Cfg`), `other` any other value. -/
inductive PyVal where
  | bool (b : Bool)
  | int (n : ℤ)
  | num (x : ℝ)
  | str (s : String)
  | list (l : List ℝ)
  | arr (l : List ℝ)
  | mat (r c : ℕ) (v : ℝ)
  | obj
  | probeSchedule
  | other (n : ℕ)

/-- The configuration: an entry for each parameter path below `mp` (`"dm1.Vmax"` is `mp.dm1.Vmax`); parameters can be plain values or lazy expressions (C48). Simplification: paths below an object that
does not exist are missing, and objects themselves are not lazy. -/
abbrev Cfg := String → Item PyVal

/-- What can go wrong. -/
inductive Fault where
  | attribute
  | other (n : ℕ)
  | circular
  | recursion
  | type
  deriving DecidableEq

/-- Reading `mp.c`, with all flags down (they are down again after every read, C48); `limit` is Python's recursion limit. -/
def look (limit : ℕ) (cfg : Cfg) (c : String) : Except Fault PyVal :=
  match (readAttr cfg limit c fun _ => false).1 with
  | .value v => .ok v
  | .error .attribute => .error .attribute
  | .error (.other n) => .error (.other n)
  | .circular => .error .circular
  | .recursion => .error .recursion

/-- `hasattr`: exceptions other than AttributeError propagate. -/
def hasattr (limit : ℕ) (cfg : Cfg) (c : String) : Except Fault Bool :=
  match look limit cfg c with
  | .ok _ => .ok true
  | .error .attribute => .ok false
  | .error e => .error e

/-- Reading several attributes from left to right. -/
def lookAll (limit : ℕ) (cfg : Cfg) : List String → Except Fault (List PyVal)
  | [] => .ok []
  | c :: cs => do
    let v ← look limit cfg c
    let vs ← lookAll limit cfg cs
    return v :: vs

open Classical in
/-- Truth value of `mp.flagSim`. Simplification: arrays and other values count as true. -/
noncomputable def PyVal.truthy : PyVal → Bool
  | .bool b => b
  | .int n => n ≠ 0
  | .num x => x ≠ 0
  | .str s => s ≠ ""
  | .list l => l ≠ []
  | _ => true

open Classical in
/-- `np.any(v == k)`: a Python list is never equal to a number. -/
noncomputable def PyVal.anyEq (k : ℕ) : PyVal → Bool
  | .int n => n = k
  | .num x => x = k
  | .arr l => (k : ℝ) ∈ l
  | .mat r c v => 0 < r ∧ 0 < c ∧ v = k
  | _ => false

/-- The conditions guarding an assignment: `not hasattr(...)`, `hasattr(...)` (the parents are read first), the value of `mp.flagSim` (lines 323-332 and 359-368: an `else` branch has `false`), and
`np.any(mp.dm_ind == k)`. -/
inductive Guard where
  | missing (parents : List String) (name : String)
  | has (parents : List String) (name : String)
  | truthy (name : String) (b : Bool)
  | dmInd (k : ℕ)

/-- The guard holds. -/
noncomputable def Guard.eval (limit : ℕ) (cfg : Cfg) : Guard → Except Fault Bool
  | .missing ps c => do
    let _ ← lookAll limit cfg ps
    let b ← hasattr limit cfg c
    return !b
  | .has ps c => do
    let _ ← lookAll limit cfg ps
    hasattr limit cfg c
  | .truthy c b => do
    let v ← look limit cfg c
    return v.truthy == b
  | .dmInd k => do
    let v ← look limit cfg "dm_ind"
    return v.anyEq k

/-- All guards hold (evaluated from left to right up to the first that does not). -/
noncomputable def guards (limit : ℕ) (cfg : Cfg) : List Guard → Except Fault Bool
  | [] => .ok true
  | g :: gs => do
    let b ← g.eval limit cfg
    if b then guards limit cfg gs else return false

/-- A guarded assignment `mp.name = f(reads)` at line `line` of falco/setup.py. Simplification: the guard `mp.flagSim` is evaluated again for each assignment in its branch. -/
structure Stmt where
  line : ℕ
  conds : List Guard
  parents : List String
  name : String
  reads : List String
  value : List PyVal → Except Fault PyVal

/-- One assignment: guards, right-hand side, object assigned to, assignment. -/
noncomputable def Stmt.exec (limit : ℕ) (s : Stmt) (cfg : Cfg) : Except Fault Cfg := do
  let b ← guards limit cfg s.conds
  if b then
    let vs ← lookAll limit cfg s.reads
    let v ← s.value vs
    let _ ← lookAll limit cfg s.parents
    return Function.update cfg s.name (.plain v)
  else return cfg

/-- A sequence of assignments. -/
noncomputable def exec (limit : ℕ) : List Stmt → Cfg → Except Fault Cfg
  | [], cfg => .ok cfg
  | s :: ss, cfg => do
    let c ← s.exec limit cfg
    exec limit ss c

/-- `if not hasattr(mp.…, 'name'): mp.….name = f(reads)` -/
def dflt (line : ℕ) (parents : List String) (name : String) (reads : List String) (value : List PyVal → Except Fault PyVal) : Stmt :=
  ⟨line, [.missing parents name], parents, name, reads, value⟩

/-! Right-hand sides. -/

/-- A constant. -/
def const (v : PyVal) (_ : List PyVal) : Except Fault PyVal := .ok v
/-- An attribute: the value read last. -/
def last (vs : List PyVal) : Except Fault PyVal := match vs.getLast? with | some v => .ok v | none => .error .type
/-- A scalar of any type. -/
def PyVal.scalar : PyVal → Option ℝ
  | .bool b => some (if b then 1 else 0)
  | .int n => some n
  | .num x => some x
  | _ => none
/-- `os.path.join(mp.path.falco, ...)` -/
def join (parts : List String) (vs : List PyVal) : Except Fault PyVal :=
  match vs.getLast? with
  | some (.str s) => .ok (.str (parts.foldl (fun a b => a ++ "/" ++ b) s))
  | _ => .error .type
/-- `x * np.ones(n)`: `n` has to be a nonnegative integer (TypeError or ValueError otherwise, `type` here). -/
noncomputable def ones (x : ℝ) (vs : List PyVal) : Except Fault PyVal :=
  match vs.getLast? with
  | some (.int n) => if n < 0 then .error .type else .ok (.arr (List.replicate n.toNat x))
  | _ => .error .type
/-- `mp.dmN.Vmax/2*np.ones((mp.dmN.Nact, mp.dmN.Nact))`, lines 338 and 374, for a scalar `Vmax`. -/
noncomputable def halfOnes (vs : List PyVal) : Except Fault PyVal :=
  match vs with
  | [_, vmax, _, .int n, _, .int _] =>
    match vmax.scalar with
    | some x => if n < 0 then .error .type else .ok (.mat n.toNat n.toNat (x / 2))
    | none => .error .type
  | _ => .error .type
/-- `1/(mp.lambda0/mp.P1.D*180/np.pi*3600*1000)`, line 450 (scalars; division by zero not modelled). -/
noncomputable def mas (vs : List PyVal) : Except Fault PyVal :=
  match vs with
  | [a, _, b] =>
    match a.scalar, b.scalar with
    | some x, some y => .ok (.num (1 / (x / y * 180 / Real.pi * 3600 * 1000)))
    | _, _ => .error .type
  | _ => .error .type

/-- What the script takes from outside: `head` is the directory above falco/setup.py (lines 159-160), `cpus` is `psutil.cpu_count(logical=False)`. -/
structure Env where
  head : String
  cpus : PyVal

/-- falco/setup.py:134-458, one entry per assignment with its line (of the `if` for `dflt`), transcribed mechanically from the source. -/
noncomputable def script (env : Env) : List Stmt := [
  dflt 135 [] "compact" [] (const .obj),
  dflt 137 [] "full" [] (const .obj),
  dflt 139 [] "jac" [] (const .obj),
  dflt 141 [] "est" [] (const .obj),
  dflt 143 ["est"] "est.probe" [] (const .obj),
  dflt 145 [] "detector" [] (const .obj),
  dflt 147 [] "star" [] (const .obj),
  dflt 149 ["compact"] "compact.star" [] (const .obj),
  dflt 151 [] "path" [] (const .obj),
  dflt 153 [] "jac" [] (const .obj),
  dflt 155 ["jac"] "jac.star" [] (const .obj),
  ⟨161, [], ["path"], "path.falco", [], const (.str env.head)⟩,
  dflt 164 ["path"] "path.brief" ["path", "path.falco"] (join ["data", "brief"]),
  dflt 166 ["path"] "path.config" ["path", "path.falco"] (join ["data", "config"]),
  dflt 169 ["path"] "path.ws" ["path", "path.falco"] (join ["data", "ws"]),
  dflt 172 ["path"] "path.jac" ["path", "path.falco"] (join ["data", "jac"]),
  dflt 176 [] "flagParallel" [] (const (.bool false)),
  dflt 178 [] "Nthreads" [] (const env.cpus),
  dflt 182 [] "flagSaveWS" [] (const (.bool false)),
  dflt 184 [] "flagSVD" [] (const (.bool false)),
  dflt 188 ["full"] "full.flagPROPER" [] (const (.bool false)),
  dflt 190 [] "flagRotation" [] (const (.bool true)),
  dflt 194 [] "flagTrainModel" [] (const (.bool false)),
  dflt 196 [] "flagUseLearnedJac" [] (const (.bool false)),
  dflt 198 ["est"] "est.flagUseJac" [] (const (.bool false)),
  dflt 200 ["est"] "est.ItrStartKF" [] (const (.int 2)),
  dflt 202 ["ctrl"] "ctrl.flagUseModel" [] (const (.bool false)),
  dflt 206 ["ctrl"] "ctrl.ad" [] (const .obj),
  dflt 208 ["ctrl", "ctrl.ad"] "ctrl.ad.maxiter" [] (const (.int 30)),
  dflt 210 ["ctrl", "ctrl.ad"] "ctrl.ad.maxfun" [] (const (.int 1000000)),
  dflt 212 ["ctrl", "ctrl.ad"] "ctrl.ad.maxcor" [] (const (.int 10)),
  dflt 216 [] "flagFiber" [] (const (.bool false)),
  dflt 218 [] "flagLenslet" [] (const (.bool false)),
  dflt 220 [] "flagDMwfe" [] (const (.bool false)),
  dflt 224 [] "flagApod" [] (const (.bool false)),
  dflt 228 [] "runLabel" [] (const (.str "default_label_")),
  dflt 234 ["star"] "star.count" [] (const (.int 1)),
  dflt 236 ["star"] "star.xiOffsetVec" [] (const (.list [0])),
  dflt 238 ["star"] "star.etaOffsetVec" [] (const (.list [0])),
  dflt 240 ["star"] "star.weights" [] (const (.list [1])),
  dflt 242 ["compact", "compact.star"] "compact.star.count" [] (const (.int 1)),
  dflt 244 ["compact", "compact.star"] "compact.star.xiOffsetVec" [] (const (.list [0])),
  dflt 246 ["compact", "compact.star"] "compact.star.etaOffsetVec" [] (const (.list [0])),
  dflt 248 ["compact", "compact.star"] "compact.star.weights" [] (const (.list [1])),
  dflt 251 ["jac", "jac.star"] "jac.star.weights" ["compact", "compact.star", "compact.star.count"] (ones 1),
  dflt 254 ["full"] "full.pol_conds" [] (const (.arr [0])),
  dflt 258 [] "propMethodPTP" [] (const (.str "fft")),
  dflt 262 ["jac"] "jac.mftToVortex" [] (const (.bool false)),
  dflt 264 ["F3"] "F3.VortexSpotDiam" [] (const (.int 0)),
  dflt 266 ["F3"] "F3.VortexSpotOffsets" [] (const (.list [0, 0])),
  dflt 268 ["F3"] "F3.phaseMaskType" [] (const (.str "vortex")),
  dflt 270 ["F3"] "F3.NstepStaircase" [] (const (.int 6)),
  dflt 272 ["F3"] "F3.clocking" [] (const (.int 0)),
  dflt 274 ["F3"] "F3.phaseScaleFac" [] (const (.int 1)),
  dflt 278 ["full"] "full.ZrmsVal" [] (const (.num (1 / 10 ^ 9))),
  dflt 280 ["full"] "full.Rsens" [] (const (.arr [])),
  dflt 282 ["full"] "full.indsZnoll" [] (const (.arr [2, 3])),
  dflt 286 [] "dm1" [] (const .obj),
  dflt 288 [] "dm2" [] (const .obj),
  dflt 290 [] "dm3" [] (const .obj),
  dflt 292 [] "dm4" [] (const .obj),
  dflt 294 [] "dm5" [] (const .obj),
  dflt 296 [] "dm6" [] (const .obj),
  dflt 298 [] "dm7" [] (const .obj),
  dflt 300 [] "dm8" [] (const .obj),
  dflt 302 [] "dm9" [] (const .obj),
  ⟨306, [], ["dm1"], "dm1.NactTotal", [], const (.int 0)⟩,
  ⟨306, [], ["dm2"], "dm2.NactTotal", [], const (.int 0)⟩,
  ⟨306, [], ["dm3"], "dm3.NactTotal", [], const (.int 0)⟩,
  ⟨306, [], ["dm4"], "dm4.NactTotal", [], const (.int 0)⟩,
  ⟨306, [], ["dm5"], "dm5.NactTotal", [], const (.int 0)⟩,
  ⟨306, [], ["dm6"], "dm6.NactTotal", [], const (.int 0)⟩,
  ⟨306, [], ["dm7"], "dm7.NactTotal", [], const (.int 0)⟩,
  ⟨306, [], ["dm8"], "dm8.NactTotal", [], const (.int 0)⟩,
  ⟨306, [], ["dm9"], "dm9.NactTotal", [], const (.int 0)⟩,
  ⟨307, [], ["dm1"], "dm1.Nele", [], const (.int 0)⟩,
  ⟨307, [], ["dm2"], "dm2.Nele", [], const (.int 0)⟩,
  ⟨307, [], ["dm3"], "dm3.Nele", [], const (.int 0)⟩,
  ⟨307, [], ["dm4"], "dm4.Nele", [], const (.int 0)⟩,
  ⟨307, [], ["dm5"], "dm5.Nele", [], const (.int 0)⟩,
  ⟨307, [], ["dm6"], "dm6.Nele", [], const (.int 0)⟩,
  ⟨307, [], ["dm7"], "dm7.Nele", [], const (.int 0)⟩,
  ⟨307, [], ["dm8"], "dm8.Nele", [], const (.int 0)⟩,
  ⟨307, [], ["dm9"], "dm9.Nele", [], const (.int 0)⟩,
  dflt 311 ["dm1"] "dm1.orientation" [] (const (.str "rot0")),
  dflt 313 ["dm1"] "dm1.fitType" [] (const (.str "linear")),
  dflt 315 ["dm1"] "dm1.dead" [] (const (.list [])),
  dflt 317 ["dm1"] "dm1.pinned" [] (const (.arr [])),
  dflt 319 ["dm1"] "dm1.Vpinned" [] (const (.arr [])),
  dflt 321 ["dm1"] "dm1.tied" [] (const (.mat 0 2 0)),
  ⟨325, [.truthy "flagSim" true, .missing ["dm1"] "dm1.Vmin"], ["dm1"], "dm1.Vmin", [], const (.num (0))⟩,
  ⟨327, [.truthy "flagSim" true, .missing ["dm1"] "dm1.Vmax"], ["dm1"], "dm1.Vmax", [], const (.num (1000))⟩,
  ⟨330, [.truthy "flagSim" false, .missing ["dm1"] "dm1.Vmin"], ["dm1"], "dm1.Vmin", [], const (.num (0))⟩,
  ⟨332, [.truthy "flagSim" false, .missing ["dm1"] "dm1.Vmax"], ["dm1"], "dm1.Vmax", [], const (.num (100))⟩,
  dflt 333 ["dm1"] "dm1.dVnbrLat" ["dm1", "dm1.Vmax"] (last),
  dflt 335 ["dm1"] "dm1.dVnbrDiag" ["dm1", "dm1.Vmax"] (last),
  dflt 337 ["dm1"] "dm1.biasMap" ["dm1", "dm1.Vmax", "dm1", "dm1.Nact", "dm1", "dm1.Nact"] (halfOnes),
  dflt 339 ["dm1"] "dm1.facesheetFlatmap" ["dm1", "dm1.biasMap"] (last),
  dflt 341 ["dm1"] "dm1.surfFitMethod" [] (const (.str "lsq")),
  dflt 343 ["dm1"] "dm1.useDifferentiableModel" [] (const (.bool false)),
  dflt 347 ["dm2"] "dm2.orientation" [] (const (.str "rot0")),
  dflt 349 ["dm2"] "dm2.fitType" [] (const (.str "linear")),
  dflt 351 ["dm2"] "dm2.dead" [] (const (.list [])),
  dflt 353 ["dm2"] "dm2.pinned" [] (const (.arr [])),
  dflt 355 ["dm2"] "dm2.Vpinned" [] (const (.arr [])),
  dflt 357 ["dm2"] "dm2.tied" [] (const (.mat 0 2 0)),
  ⟨361, [.truthy "flagSim" true, .missing ["dm2"] "dm2.Vmin"], ["dm2"], "dm2.Vmin", [], const (.num (0))⟩,
  ⟨363, [.truthy "flagSim" true, .missing ["dm2"] "dm2.Vmax"], ["dm2"], "dm2.Vmax", [], const (.num (1000))⟩,
  ⟨366, [.truthy "flagSim" false, .missing ["dm2"] "dm2.Vmin"], ["dm2"], "dm2.Vmin", [], const (.num (0))⟩,
  ⟨368, [.truthy "flagSim" false, .missing ["dm2"] "dm2.Vmax"], ["dm2"], "dm2.Vmax", [], const (.num (100))⟩,
  dflt 369 ["dm2"] "dm2.dVnbrLat" ["dm2", "dm2.Vmax"] (last),
  dflt 371 ["dm2"] "dm2.dVnbrDiag" ["dm2", "dm2.Vmax"] (last),
  dflt 373 ["dm2"] "dm2.biasMap" ["dm2", "dm2.Vmax", "dm2", "dm2.Nact", "dm2", "dm2.Nact"] (halfOnes),
  dflt 375 ["dm2"] "dm2.facesheetFlatmap" ["dm2", "dm2.biasMap"] (last),
  dflt 377 ["dm2"] "dm2.surfFitMethod" [] (const (.str "lsq")),
  dflt 379 ["dm2"] "dm2.useDifferentiableModel" [] (const (.bool false)),
  ⟨386, [.has [] "dm8", .has ["dm8"] "dm8.V"], [], "DM8V0", ["dm8", "dm8.V"], last⟩,
  ⟨388, [.has [] "dm8", .has ["dm9"] "dm9.V"], [], "DM9V0", ["dm9", "dm9.V"], last⟩,
  ⟨393, [.dmInd 1], ["dm1"], "dm1.dV", [], const (.int 0)⟩,
  ⟨395, [.dmInd 2], ["dm2"], "dm2.dV", [], const (.int 0)⟩,
  ⟨397, [.dmInd 3], ["dm3"], "dm3.dV", [], const (.int 0)⟩,
  ⟨399, [.dmInd 4], ["dm4"], "dm4.dV", [], const (.int 0)⟩,
  ⟨401, [.dmInd 5], ["dm5"], "dm5.dV", [], const (.int 0)⟩,
  ⟨403, [.dmInd 6], ["dm6"], "dm6.dV", [], const (.int 0)⟩,
  ⟨405, [.dmInd 7], ["dm7"], "dm7.dV", [], const (.int 0)⟩,
  ⟨407, [.dmInd 8], ["dm8"], "dm8.dV", [], const (.int 0)⟩,
  ⟨409, [.dmInd 9], ["dm9"], "dm9.dV", [], const (.int 0)⟩,
  dflt 413 [] "flagImageNoise" [] (const (.bool false)),
  dflt 415 ["detector"] "detector.gain" [] (const (.num (1))),
  dflt 417 ["detector"] "detector.darkCurrentRate" [] (const (.num (15 / 1000))),
  dflt 419 ["detector"] "detector.readNoiseStd" [] (const (.num (17 / 10))),
  dflt 421 ["detector"] "detector.wellDepth" [] (const (.num (3 * 10 ^ 4))),
  dflt 423 ["detector"] "detector.peakFluxVec" ["Nsbp"] (ones (10 ^ 8)),
  dflt 425 ["detector"] "detector.tExpVec" ["Nsbp"] (ones 1),
  dflt 427 ["detector"] "detector.Nexp" [] (const (.int 1)),
  dflt 431 [] "WspatialDef" [] (const (.arr [])),
  dflt 433 ["jac"] "jac.minimizeNI" [] (const (.bool false)),
  dflt 435 ["jac"] "jac.zerns" [] (const (.arr [1])),
  dflt 437 ["jac"] "jac.Zcoef" [] (const (.arr [1])),
  dflt 441 ["est"] "est.probeSchedule" [] (const .probeSchedule),
  dflt 443 ["est"] "est.InormProbeMax" [] (const (.num (1 / 10 ^ 4))),
  dflt 445 ["est"] "est.Ithreshold" [] (const (.num (1 / 10 ^ 2))),
  ⟨450, [], [], "mas2lam0D", ["lambda0", "P1", "P1.D"], mas⟩,
  dflt 451 ["Fend"] "Fend.eval" [] (const .obj),
  dflt 453 ["Fend", "Fend.eval"] "Fend.eval.res" [] (const (.int 10)),
  dflt 457 ["P1"] "P1.IDnorm" [] (const (.num (0)))]

/-- falco/setup.py:120-460 `set_optional_variables` -/
noncomputable def setOptional (env : Env) (limit : ℕ) (cfg : Cfg) : Except Fault Cfg := exec limit (script env) cfg

/-- falco/setup.py:467: what `convert_to_one_dim_arrays` later does with `mp.dm_ind`: `np.atleast_1d` (numbers and lists only). -/
def atleast1d : PyVal → PyVal
  | .int n => .arr [n]
  | .num x => .arr [x]
  | .list l => .arr l
  | v => v

end Verif.Defaults
