import Verif.Model.Setup
import Mathlib.Data.Complex.Basic
import Mathlib.Data.Complex.BigOperators
import Mathlib.Logic.Function.Basic

/-! # Model of falco/imaging.py (simulated images, serial and in a thread pool)

Images are functions from a pixel type `P` to `ℝ`: every operation modelled here acts pixel by pixel. -/

namespace Verif.Imaging
open Verif Verif.Setup

/-! ## Worker programs over the shared `mp` object, and `ThreadPoolExecutor.map` -/

section Pool
variable {R V : Type} [DecidableEq R]

/-- What a worker thread does to the attributes of the one `mp` object that all threads share. -/
inductive Step (R V : Type) where
  | write (r : R) (v : V)
  | read (r : R)

/-- A call made when no other thread runs: the values it reads, and the memory afterwards. -/
def runAlone (m : R → V) : List (Step R V) → List V × (R → V)
  | [] => ([], m)
  | .write r v :: p => runAlone (Function.update m r v) p
  | .read r :: p => let q := runAlone m p; (m r :: q.1, q.2)

/-- A pool thread working on task number `task`: the steps left and the values read so far. -/
structure Worker (R V : Type) where
  task : ℕ
  prog : List (Step R V)
  reads : List V

/-- A `ThreadPoolExecutor` with `k` threads processing the calls of one `map` (falco/imaging.py:302-307, 440-445): the shared memory, the next task
to be handed out (tasks are queued in order), the threads, and the finished results. -/
structure Pool (R V : Type) (k : ℕ) where
  mem : R → V
  next : ℕ
  workers : Fin k → Option (Worker R V)
  results : ℕ → Option (List V)

/-- The thread `w` runs for one step: an idle thread takes the next task, a busy one performs its next memory access, or stores its result. -/
def Pool.step {k : ℕ} (tasks : List (List (Step R V))) (s : Pool R V k) (w : Fin k) : Pool R V k :=
  match s.workers w with
  | none =>
    match tasks[s.next]? with
    | none => s
    | some p => { s with next := s.next + 1, workers := Function.update s.workers w (some ⟨s.next, p, []⟩) }
  | some ⟨t, [], rs⟩ => { s with workers := Function.update s.workers w none, results := Function.update s.results t (some rs) }
  | some ⟨t, .write r v :: p, rs⟩ => { s with mem := Function.update s.mem r v, workers := Function.update s.workers w (some ⟨t, p, rs⟩) }
  | some ⟨t, .read r :: p, rs⟩ => { s with workers := Function.update s.workers w (some ⟨t, p, rs ++ [s.mem r]⟩) }

/-- A fresh pool. -/
def Pool.init (m : R → V) (k : ℕ) : Pool R V k := ⟨m, 0, fun _ => none, fun _ => none⟩

/-- Run the threads in the order chosen by the operating system. -/
def Pool.run {k : ℕ} (tasks : List (List (Step R V))) (s : Pool R V k) (sched : List (Fin k)) : Pool R V k := sched.foldl (Pool.step tasks) s

end Pool

/-! ## The full model as seen by the image functions -/

/-- `mp.layout` -/
inductive Layout where
  | fourier | fpmScale | proper | phase
deriving DecidableEq

/-- The attributes of `mp` that image workers write: `mp.full.polaxis` and `mp.F3.full.mask`. -/
inductive Reg where
  | pol | mask
deriving DecidableEq

/-- The configuration read by the image functions. `maskOf si wi` is the focal-plane mask computed for a hybrid Lyot coronagraph at that sub-band and
wavelength (falco/model/models.py:105-125); `field si wi star reads` is the E-field returned by the rest of `falco.model.full`, an arbitrary
function of the sub-band, wavelength and star indices and of the shared attributes it read. `noise si image` is the noisy image
(falco/imaging.py:12-64, one fixed sequence of random draws); `none` is `mp.flagImageNoise == False`.
Simplification: the DM commands and everything else in `mp` are constant during the call. -/
structure Cfg (P V : Type) where
  band : Band
  nStar : ℕ
  pols : List V
  layout : Layout
  hlc : Bool
  hasCube : Bool
  maskOf : ℕ → ℕ → V
  field : ℕ → ℕ → ℕ → List V → P → ℂ
  noise : Option (ℕ → (P → ℝ) → P → ℝ)

variable {P V : Type}

/-- The shared accesses of one image component: imaging.py:355/484 sets the polarisation; models.py:117-125 sets the mask of an HLC; full_Fourier
reads the mask (models.py:324-325 the corner if there is an `fpmCube`, and 342); the PROPER layouts read the polarisation by copying `vars(mp.full)`
(models.py:136, 165). -/
def prog (c : Cfg P V) (pol : V) (si wi : ℕ) : List (Step Reg V) :=
  .write .pol pol ::
    ((if c.hlc && c.layout != .phase then [.write .mask (c.maskOf si wi)] else []) ++
      match c.layout with
      | .fourier | .fpmScale => if c.hlc then (if c.hasCube then [.read .mask, .read .mask] else [.read .mask]) else []
      | .proper | .phase => [.read .pol])

/-- `np.abs(E)**2` for the field of one component given what was read. -/
noncomputable def inten (c : Cfg P V) (si wi star : ℕ) (reads : List V) (x : P) : ℝ := Complex.normSq (c.field si wi star reads x)

/-- falco/imaging.py:465-493 (`_get_subband_image_component`) called with no other thread running and `mp` in the state `m`. -/
noncomputable def component (c : Cfg P V) (m : Reg → V) (si wi star : ℕ) (pol : V) (x : P) : ℝ :=
  (lambdaWeights c.band).getD wi 0 / c.pols.length * inten c si wi star (runAlone m (prog c pol si wi)).1 x

/-- `(wi, ipol, iStar)` of each component of a sub-band image (falco/imaging.py:418-419), the polarisation given by its value. -/
def combos (c : Cfg P V) : List (ℕ × V × ℕ) :=
  (List.range c.band.Nwpsbp).flatMap fun wi => c.pols.flatMap fun p => (List.range c.nStar).map fun s => (wi, p, s)

/-- falco/imaging.py:395-462 (`get_sim_sbp_image`), serial. `m` gives the state of `mp` at each component. -/
noncomputable def sbpImage (c : Cfg P V) (m : ℕ → ℕ → V → ℕ → Reg → V) (si : ℕ) : P → ℝ :=
  let clean : P → ℝ := fun x => ((combos c).map fun q => component c (m si q.1 q.2.1 q.2.2) si q.1 q.2.2 q.2.1 x).sum
  match c.noise with
  | none => clean
  | some f => f si clean

/-- falco/imaging.py:270-273: `get_summed_image`, serial branch. -/
noncomputable def serialImage (c : Cfg P V) (m : ℕ → ℕ → V → ℕ → Reg → V) : P → ℝ :=
  fun x => ((List.range c.band.Nsbp).map fun si => (sbpWeights c.band).getD si 0 * sbpImage c m si x).sum

/-- falco/imaging.py:278-280: the tasks of the parallel branch: `(ilam, pol)`, with the sub-band and wavelength indices of the unique wavelength
(lines 350-353). -/
noncomputable def parTasks (c : Cfg P V) : List (ℕ × (ℕ × ℕ) × V) :=
  let inds := indsUnique (lambdasFlat c.band)
  (List.range inds.length).flatMap fun il => c.pols.map fun p => (il, (indsLambdaMat c.band).getD (inds.getD il 0) (0, 0), p)

/-- The worker programs of the parallel branch (falco/imaging.py:346-360). -/
noncomputable def parProgs (c : Cfg P V) : List (List (Step Reg V)) := (parTasks c).map fun t => prog c t.2.2 t.2.1.1 t.2.1.2

/-- falco/imaging.py:317-322: the weighted sum of the parallel branch, given what each worker read. -/
noncomputable def parImage (c : Cfg P V) (reads : List (List V)) : P → ℝ :=
  fun x => (List.zipWith (fun t r => (uniqueWeights (lambdasFlat c.band) (weightsFlat c.band)).getD t.1 0 / c.pols.length * inten c t.2.1.1 t.2.1.2 0 r x)
    (parTasks c) reads).sum

/-- The parallel branch of `get_summed_image` under the thread schedule `sched`: `none` while some worker has not finished (`executor.map` waits). -/
noncomputable def parallelImage (c : Cfg P V) (k : ℕ) (m : Reg → V) (sched : List (Fin k)) : Option (P → ℝ) :=
  let s := Pool.run (parProgs c) (Pool.init m k) sched
  ((List.range (parProgs c).length).mapM s.results).map (parImage c)

end Verif.Imaging
