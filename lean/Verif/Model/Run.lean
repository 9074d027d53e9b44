import Verif.Model.Arr
import Mathlib.Data.Int.Bitwise
import Mathlib.Algebra.Module.Basic
import Mathlib.Data.Real.Basic

/-!
# Model of falco/proper/prop_run.py, prop_run_multi.py, prop_execute_multi.py, switch_set.py

A prescription is user code: an arbitrary function of the module variables of PROPER, the wavelength in metres, the grid size and (if one is passed) the value
PASSVALUE, which returns an image and its sampling, or raises; it may change the module variables.

Simplifications: wavelengths and weights are real numbers; the array a prescription returns is fresh and of a floating type (the code multiplies it in place);
the routine can be imported; printing and timing are left out.
-/

namespace Verif.Run
open Verif

/-- What a run may raise: a Python exception of a known class, the plain `Exception` of the grid size test and of the length test, or `IOError`. -/
inductive RunErr
  | py (e : PyErr) | exception | ioError
  deriving DecidableEq, Repr

/-- The module variables of falco/proper (`__init__.py`) that `prop_run` sets; `rest` stands for all others (antialiasing factor, saved states, tables, …). -/
structure Glob (G : Type) where
  doTable : Bool
  ompThreads : ℕ
  fftThreads : ℕ
  printTotalIntensity : Bool
  n : ℤ
  verbose : Bool
  printIt : Bool
  phaseOffset : Bool
  rest : G

/-- Thread numbers and FFT choice of falco/proper/__init__.py, not changed by `prop_run`. -/
structure FftCfg where
  useFfti : Bool
  useFftw : Bool
  fftiMulti : ℕ
  fftiSingle : ℕ
  fftwMulti : ℕ
  fftwSingle : ℕ

/-- A prescription routine: `func(lam, gridsize)` or `func(lam, gridsize, PASSVALUE)`. -/
def Presc (G P F : Type) : Type := Glob G → ℝ → ℤ → Option P → Except RunErr (F × ℝ) × Glob G

/-- Keyword switches of `prop_run` (switch_set.py: absent or falsy is `false`) and `PASSVALUE`. -/
structure Args (P : Type) where
  table : Bool := false
  isMulti : Bool := false
  printIntensity : Bool := false
  verbose : Bool := false
  quiet : Bool := false
  phaseOffset : Bool := false
  passvalue : Option P := none

/-- The argument `lambda0`: a wavelength in microns, or the name of a file; `none` is a file that cannot be opened, otherwise the (wavelength, weight) rows. -/
inductive Lam
  | value (l : ℝ)
  | file (rows : Option (List (ℝ × ℝ)))

/-- prop_run.py:79-80, prop_run_multi.py:79-80: the test on the grid size. -/
def badGrid (gridsize : ℤ) : Bool := Int.land gridsize (gridsize - 1) != 0

/-- prop_run.py:82-112: the module variables set before the prescription is run. -/
def setGlob {G P : Type} (cfg : FftCfg) (a : Args P) (gridsize : ℤ) (g : Glob G) : Glob G :=
  { g with
    doTable := a.table
    ompThreads := if a.isMulti then cfg.fftiMulti else cfg.fftiSingle
    fftThreads :=
      if a.isMulti then (if cfg.useFfti then cfg.fftiMulti else if cfg.useFftw then cfg.fftwMulti else g.fftThreads)
      else (if cfg.useFfti then cfg.fftiSingle else if cfg.useFftw then cfg.fftwSingle else g.fftThreads)
    printTotalIntensity := a.printIntensity
    n := gridsize
    verbose := a.verbose
    printIt := !a.quiet
    phaseOffset := a.phaseOffset }

/-- prop_run.py:114-123: wavelengths in metres with their weights.  `np.loadtxt(..., unpack=True)` of a file with one row gives two scalars, of which `len` (line
130) raises `TypeError`; an empty file raises too (`ValueError` or, from the last line, `UnboundLocalError`, depending on the version of NumPy). -/
noncomputable def wavelengths : Lam → Except RunErr (List (ℝ × ℝ))
  | .value l => .ok [(l * (1 / 1000000), 1)]
  | .file none => .error .ioError
  | .file (some []) => .error (.py .unboundLocal)
  | .file (some [_]) => .error (.py .typeError)
  | .file (some rows) => .ok (rows.map fun r => (r.1 * (1 / 1000000), r.2))

/-- prop_run.py:130-163: the loop over the wavelengths; `acc` is `(psf, pixscale)` once set. -/
def loop {G P F : Type} [AddCommGroup F] [Module ℝ F] (presc : Presc G P F) (gridsize : ℤ) (pv : Option P) :
    List (ℝ × ℝ) → Option (F × ℝ) → Glob G → Except RunErr (F × ℝ) × Glob G
  | [], none, g => (.error (.py .unboundLocal), g)
  | [], some r, g => (.ok r, g)
  | (lam, thr) :: ls, acc, g =>
    match presc g lam gridsize pv with
    | (.error e, g') => (.error e, g')
    | (.ok (psfI, pix), g') =>
      match acc with
      | none => loop presc gridsize pv ls (some (thr • psfI, pix)) g'
      | some (psf, _) => loop presc gridsize pv ls (some (psf + thr • psfI, pix)) g'

/-- prop_run.py:23-170. -/
noncomputable def propRun {G P F : Type} [AddCommGroup F] [Module ℝ F] (cfg : FftCfg) (presc : Presc G P F) (lambda0 : Lam) (gridsize : ℤ) (a : Args P)
    (g : Glob G) : Except RunErr (F × ℝ) × Glob G :=
  if badGrid gridsize then (.error .exception, g)
  else
    match wavelengths lambda0 with
    | .error e => (.error e, setGlob cfg a gridsize g)
    | .ok ls => loop presc gridsize a.passvalue ls none (setGlob cfg a gridsize g)

/-! ### prop_run_multi -/

/-- The argument `PASSVALUE` of `prop_run_multi`: absent, a dict, a list (or array) of dicts, or something else. -/
inductive PassArg (P : Type)
  | absent
  | dict (v : P)
  | list (vs : List P)
  | other

/-- One entry of `params` (prop_run_multi.py:136). -/
structure Task (P : Type) where
  lam : ℝ
  gridsize : ℤ
  passvalue : P
  quiet : Bool
  phaseOffset : Bool

/-- prop_run_multi.py:82-104: number of wavelengths (a scalar becomes a list of one before the call of this model) and of passed values. -/
def npass {P : Type} : PassArg P → Except RunErr ℕ
  | .absent => .ok 0
  | .dict _ => .ok 1
  | .list vs => .ok vs.length
  | .other => .error (.py .valueError)

/-- prop_run_multi.py:121-134: the value passed to instance `i`; `emp` is the empty dict. -/
def passOf {P : Type} (emp : P) (pa : PassArg P) (np i : ℕ) : Except RunErr P :=
  if np > 1 then
    match pa with
    | .list vs => match vs[i]? with
      | some v => .ok v
      | none => .error (.py .indexError)
    | _ => .error (.py .keyError)
  else if np = 1 then
    match pa with
    | .dict v => .ok v
    | .list vs => match vs[0]? with
      | some v => .ok v
      | none => .error (.py .indexError)
    | _ => .error (.py .keyError)
  else .ok emp

/-- prop_run_multi.py:121-124: the wavelength of instance `i`. -/
def lamOf (lams : List ℝ) (np i : ℕ) : Except RunErr ℝ :=
  match (if lams.length > 1 ∨ lams.length = np then lams[i]? else lams[0]?) with
  | some l => .ok l
  | none => .error (.py .indexError)

/-- prop_run_multi.py:119-136: the list `params`. -/
def params {P : Type} (emp : P) (lams : List ℝ) (pa : PassArg P) (np : ℕ) (gridsize : ℤ) (quiet phaseOffset : Bool) : ℕ → Except RunErr (List (Task P))
  | 0 => .ok []
  | k + 1 =>
    (params emp lams pa np gridsize quiet phaseOffset k).bind fun ps =>
    (lamOf lams np k).bind fun l =>
    (passOf emp pa np k).map fun v => ps ++ [⟨l, gridsize, v, quiet, phaseOffset⟩]

/-- prop_execute_multi.py:35-42: one instance, run in a worker whose module variables are `g`. -/
noncomputable def execute {G P F : Type} [DecidableEq P] [AddCommGroup F] [Module ℝ F] (cfg : FftCfg) (presc : Presc G P F) (emp : P) (t : Task P) (g : Glob G) :
    Except RunErr (F × ℝ) × Glob G :=
  propRun cfg presc (.value t.lam) t.gridsize
    { isMulti := true, quiet := t.quiet, phaseOffset := t.phaseOffset, passvalue := if t.passvalue ≠ emp then some t.passvalue else none } g

/-! ### The pool of processes

`multiprocessing.Pool.map` is not in /repo; this is the model of it used here.  The list is cut into chunks of `chunkSize` tasks that wait in one queue.  Each of the `W`
worker processes has its own module variables.  An event is a worker taking the next chunk, or finishing the chunk it holds; the events occur in any order (the
schedule).  A chunk is run in order and abandoned at its first exception; its results go to the places of its tasks. -/

/-- `Pool._map_async`: `chunksize, extra = divmod(len(iterable), len(pool) * 4)`, plus one if there is a remainder. -/
def chunkSize (len W : ℕ) : ℕ := len / (W * 4) + (if len % (W * 4) = 0 then 0 else 1)

/-- `Pool._get_tasks`: chunk `i` of the list. -/
def chunk {T : Type} (cs : ℕ) (ts : List T) (i : ℕ) : List T := (ts.drop (i * cs)).take cs

/-- Number of chunks (`MapResult._number_left`). -/
def nChunks (cs len : ℕ) : ℕ := len / cs + (if len % cs = 0 then 0 else 1)

/-- `mapstar`: run a chunk in one worker. -/
def runChunk {S T R : Type} (exec : T → S → Except RunErr R × S) : List T → S → Except RunErr (List R) × S
  | [], g => (.ok [], g)
  | t :: ts, g =>
    match exec t g with
    | (.error e, g') => (.error e, g')
    | (.ok r, g') =>
      match runChunk exec ts g' with
      | (.error e, g'') => (.error e, g'')
      | (.ok rs, g'') => (.ok (r :: rs), g'')

/-- The state of the pool: next chunk of the queue, the chunk each worker holds, each worker's module variables, the results stored, the first error received. -/
structure Pool (S R : Type) (W : ℕ) where
  next : ℕ
  busy : Fin W → Option ℕ
  glob : Fin W → S
  store : ℕ → Option R
  failed : Option RunErr

/-- One event of worker `w`. -/
def step {S T R : Type} {W : ℕ} (exec : T → S → Except RunErr R × S) (ts : List T) (cs : ℕ) (p : Pool S R W) (w : Fin W) : Pool S R W :=
  match p.busy w with
  | none =>
    if p.next < nChunks cs ts.length then { p with next := p.next + 1, busy := Function.update p.busy w (some p.next) } else p
  | some i =>
    match runChunk exec (chunk cs ts i) (p.glob w) with
    | (.ok rs, g') =>
      { p with
        busy := Function.update p.busy w none
        glob := Function.update p.glob w g'
        store := fun j => if i * cs ≤ j ∧ j < i * cs + rs.length then rs[j - i * cs]? else p.store j }
    | (.error e, g') =>
      { p with
        busy := Function.update p.busy w none
        glob := Function.update p.glob w g'
        failed := p.failed <|> some e }

/-- The pool when `map` starts: every worker was forked with the module variables `g`. -/
def start {S R : Type} {W : ℕ} (g : S) : Pool S R W := ⟨0, fun _ => none, fun _ => g, fun _ => none, none⟩

/-- The pool after the events of a schedule. -/
def after {S T R : Type} {W : ℕ} (exec : T → S → Except RunErr R × S) (ts : List T) (cs : ℕ) (g : S) (sched : List (Fin W)) : Pool S R W :=
  sched.foldl (step exec ts cs) (start g)

/-- `map` returns when the queue is empty and no worker holds a chunk. -/
def done {S T R : Type} {W : ℕ} (ts : List T) (cs : ℕ) (p : Pool S R W) : Prop := nChunks cs ts.length ≤ p.next ∧ ∀ w, p.busy w = none

/-- The outcome of `pool.map` once done: the list of results in the order of the tasks, or the exception. -/
def collect {S R : Type} {W : ℕ} (len : ℕ) (p : Pool S R W) : Except RunErr (List R) :=
  match p.failed with
  | some e => .error e
  | none => .ok ((List.range len).filterMap p.store)

/-- prop_run_multi.py:138-143: the number of workers. -/
def nWorkers (cpuCount nel : ℕ) (ncpus : Option ℤ) : ℤ :=
  match ncpus with
  | some k => k
  | none => if nel < cpuCount then nel else cpuCount

/-- prop_run_multi.py:79-136: everything before the pool is created, on a list of wavelengths. -/
def prepare {P : Type} (emp : P) (lams : List ℝ) (gridsize : ℤ) (pa : PassArg P) (quiet phaseOffset : Bool) : Except RunErr (List (Task P)) :=
  if badGrid gridsize then .error .exception
  else
    (npass pa).bind fun np =>
    if lams.length > 1 ∧ np > lams.length then .error .exception
    else params emp lams pa np gridsize quiet phaseOffset (if lams.length > np then lams.length else np)

/-- `pool.map(proper.prop_execute_multi, params)` with `W` workers under a schedule: `none` while it has not returned. -/
noncomputable def poolMap {G P F : Type} [DecidableEq P] [AddCommGroup F] [Module ℝ F] (cfg : FftCfg) (presc : Presc G P F) (emp : P) (W : ℕ) (ts : List (Task P)) (g : Glob G)
    (sched : List (Fin W)) : Option (Except RunErr (List (F × ℝ))) :=
  open Classical in
  let p : Pool (Glob G) (F × ℝ) W := after (fun t s => execute cfg presc emp t s) ts (chunkSize ts.length W) g sched
  if done ts (chunkSize ts.length W) p then some (collect ts.length p) else none

/-- prop_run_multi.py:17-162 with `W` workers (line 138-143; `Pool` of no workers raises `ValueError`), up to the stacking of the images (lines 152-161), which needs them all
of one shape: the result is the list of images and the list of samplings. `none` while the pool is still running. -/
noncomputable def propRunMulti {G P F : Type} [DecidableEq P] [AddCommGroup F] [Module ℝ F] (cfg : FftCfg) (presc : Presc G P F) (emp : P) (lams : List ℝ) (gridsize : ℤ)
    (pa : PassArg P) (quiet phaseOffset : Bool) (cpuCount : ℕ) (ncpus : Option ℤ) (g : Glob G) (sched : List ℕ) : Option (Except RunErr (List F × List ℝ)) :=
  match prepare emp lams gridsize pa quiet phaseOffset with
  | .error e => some (.error e)
  | .ok ts =>
    let W := nWorkers cpuCount ts.length ncpus
    if W < 1 then some (.error (.py .valueError))
    else (poolMap cfg presc emp W.toNat ts g (sched.filterMap fun k => if h : k < W.toNat then some ⟨k, h⟩ else none)).map
      fun r => r.map fun rs => (rs.map Prod.fst, rs.map Prod.snd)

end Verif.Run
