import Verif.Model.Loop

/-!
# Model of the snippet file of a run (falco/wfsc.py:165-189) and of the plots of a trial (falco/plot.py:82-160)

Extends Model/Loop (what an iteration stores).  Memory and the file are changed by a list of actions; a crash leaves what the actions so far have done.
-/

namespace Verif.Snippet
open Verif Verif.Loop

/-- The file `<runLabel>_snippet.pkl`. -/
inductive File (C : Type) where
  | absent
  /-- emptied by `open(fnSnippet, 'wb')`, or partly written -/
  | broken
  | holds (out : Out C)

/-- Memory (`mp`, `ev`, `cvar` and `out`) and the file. -/
structure Sys (S C : Type) where
  s : S
  out : Out C
  file : File C

/-- What the loop does, in terms of `out` and the file. -/
inductive Act where
  /-- wfsc.py:38-163: iteration `k` without saving -/
  | iterate (k : ℕ)
  /-- wfsc.py:177-185: command and throughput after the last iteration -/
  | finish
  /-- wfsc.py:168, 193: `open(fnSnippet, 'wb')` -/
  | truncate
  /-- wfsc.py:169, 194: `pickle.dump(out, f)` and closing the file -/
  | dump

variable {S C : Type}

/-- One action; with an exception memory and the file stay as they are (simplification: what the iteration stored in memory before the exception is dropped with the process). -/
def step (o : Ops S C) (c : Cfg) (y : Sys S C) : Act → Except PyErr (Sys S C)
  | .iterate k =>
    match iteration o c k y.s y.out with
    | .ok (s, out) => .ok { y with s := s, out := out }
    | .error e => .error e.1
  | .finish => do
    let V ← store y.out.V c.Nitr (o.cmd y.s)
    let thput ← store y.out.thput c.Nitr (o.finalThput y.s)
    pure { y with out := { y.out with V := V, thput := thput } }
  | .truncate => .ok { y with file := .broken }
  | .dump => .ok { y with file := .holds y.out }

/-- A list of actions: what they leave, and the exception that ended them. -/
def perform (o : Ops S C) (c : Cfg) : List Act → Sys S C → Sys S C × Option PyErr
  | [], y => (y, none)
  | a :: as, y =>
    match step o c y a with
    | .ok y => perform o c as y
    | .error e => (y, some e)

/-- wfsc.py:38-195: the actions of a run (later statements, wfsc.py:199-237: C46, C142). -/
def program (c : Cfg) : List Act :=
  (List.range c.Nitr).flatMap (fun k => [.iterate k, .truncate, .dump]) ++ [.finish, .truncate, .dump]

/-- The process ends after `n` actions (in action `n + 1`: an interrupted iteration does not change the file, an interrupted dump leaves it broken). -/
def crash (o : Ops S C) (c : Cfg) (s : S) (out0 : Out C) (f0 : File C) (n : ℕ) : Sys S C × Option PyErr := perform o c ((program c).take n) ⟨s, out0, f0⟩

/-! ## Plots of a trial -/

/-- `plt.plot(range(n), h)`: the points, or a ValueError for different lengths.  `none` is a zero that was never overwritten. -/
def curve {α : Type} (n : ℕ) (h : Hist α) : Except PyErr (List (ℕ × Option α)) :=
  if h.length = n then .ok ((List.range n).zip h) else .error .valueError

/-- The figures.  Simplification: those of the RMS surfaces and of DM2 are left out (drawn like `log10reg` and the figures of DM1). -/
structure Figures (C : Type) where
  thput : List (ℕ × Option ℝ)
  inorm : List (ℕ × Option ℝ)
  log10reg : List (ℕ × Option ℝ)
  /-- "Final DM1 Voltages" -/
  finalV : Option C
  /-- "DM1 Voltages at Iteration 1" -/
  firstV : Option C

/-- falco/plot.py:82-136 `plot_trial_output`; `Nitr` is `out.Nitr`. -/
def plotTrial (Nitr : ℕ) (out : Out C) : Except PyErr (Figures C) := do
  let thput ← curve (Nitr + 1) out.thput
  let inorm ← curve (Nitr + 1) out.raw
  let reg ← curve Nitr out.log10reg
  match out.V.getLast?, out.V[1]? with
  | some a, some b => pure { thput := thput, inorm := inorm, log10reg := reg, finalV := a, firstV := b }
  | _, _ => .error .indexError

/-- What `plot_trial_output_from_pickle` can raise: FileNotFoundError, EOFError or UnpicklingError, or an exception of the plots. -/
inductive PlotErr where
  | fileNotFound
  | unreadable
  | plot (e : PyErr)

/-- falco/plot.py:139-160 `plot_trial_output_from_pickle` -/
def plotFile (Nitr : ℕ) : File C → Except PlotErr (Figures C)
  | .absent => .error .fileNotFound
  | .broken => .error .unreadable
  | .holds out =>
    match plotTrial Nitr out with
    | .ok f => .ok f
    | .error e => .error (.plot e)

end Verif.Snippet
