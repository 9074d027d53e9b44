import Verif.Model.Setup
import Mathlib.Data.Complex.Basic
import Mathlib.Algebra.BigOperators.Group.Finset.Basic
import Mathlib.Data.Fintype.Card

/-! # Model of the WFSC loop (falco/wfsc.py) and its history arrays (falco/setup.py:1388-1500) -/

namespace Verif.Loop
open Verif

/-- One entry of a preallocated history array; `none` is the initial zero of `np.zeros`. -/
abbrev Hist (α : Type) := List (Option α)

/-- The history arrays of `out` modelled here. Simplification: DM1 stands for all DMs, and the arrays written exactly like a modelled one (score-region
means, `Vpv`, `Srms`, `serialDate`, `Zsens`) are left out. -/
structure Out (C : Type) where
  /-- `out.dm1.Vall` -/
  V : Hist C
  thput : Hist ℝ
  /-- `out.IrawCorrHist` (and `InormHist`) -/
  raw : Hist ℝ
  /-- `out.IestCorrHist` -/
  est : Hist ℝ
  log10reg : Hist ℝ
  /-- `out.normIntModCorr[Itr, iMode]` -/
  mode : List (Hist ℝ)

/-- The steps of an iteration as functions of the complete state `S` of `mp`, `ev` and `cvar`. -/
structure Ops (S C : Type) where
  /-- `mp.dm1.V` -/
  cmd : S → C
  /-- wfsc.py:50-87: normalisation, throughput, Jacobian weights, Jacobian, culling; returns the throughput -/
  prep : ℕ → S → S × ℝ
  /-- wfsc.py:93: the estimator -/
  estimate : ℕ → S → S
  /-- wfsc.py:368: mean of the measured image `ev.Im` over the dark hole -/
  measured : S → ℝ
  /-- wfsc.py:359: mean estimated intensity -/
  estimated : S → ℝ
  /-- wfsc.py:386: mean estimated intensity of a mode -/
  modeInt : S → ℕ → ℝ
  /-- wfsc.py:118-125: the controller; returns the regularisation used and the mean of `cvar.Im`. -/
  control : ℕ → S → S × ℝ × ℝ
  /-- wfsc.py:135-138 -/
  enforce : S → S
  /-- wfsc.py:183: final throughput -/
  finalThput : S → ℝ

/-- The configuration used by the loop. -/
structure Cfg where
  Nitr : ℕ
  Nsbp : ℕ
  starCount : ℕ
  Nmode : ℕ
  useModel : Bool
  saveWS : Bool

variable {S C : Type}

/-- falco/setup.py:1416-1490: `init_storage_arrays`; `np.zeros((mp.Nitr-1, ...))` (1466) raises a ValueError if `Nitr = 0`. -/
def initOut (c : Cfg) : Except PyErr (Out C) :=
  if c.Nitr = 0 then .error .valueError
  else .ok { V := List.replicate (c.Nitr + 1) none, thput := List.replicate (c.Nitr + 1) none, raw := List.replicate (c.Nitr + 1) none,
             est := List.replicate c.Nitr none, log10reg := List.replicate c.Nitr none,
             mode := List.replicate c.Nitr (List.replicate (c.Nsbp * c.starCount) none) }

/-- `a[i] = v` -/
def store {α : Type} (l : Hist α) (i : ℕ) (v : α) : Except PyErr (Hist α) :=
  if i < l.length then .ok (l.set i (some v)) else .error .indexError

/-- wfsc.py:381-390: one entry per Jacobian mode of row `Itr`. -/
def storeModes (f : ℕ → ℝ) : List ℕ → Hist ℝ → Except PyErr (Hist ℝ)
  | [], row => .ok row
  | i :: is, row => do storeModes f is (← store row i (f i))

/-- wfsc.py:339-392 `store_intensities`. -/
def storeIntensities (o : Ops S C) (c : Cfg) (Itr : ℕ) (s : S) (out : Out C) : Except PyErr (Out C) := do
  let est ← store out.est Itr (o.estimated s)
  let raw ← store out.raw Itr (o.measured s)
  match out.mode[Itr]? with
  | none => .error .indexError
  | some row =>
    let row ← storeModes (o.modeInt s) (List.range c.Nmode) row
    pure { out with est := est, raw := raw, mode := out.mode.set Itr row }

/-- wfsc.py:38-171: one iteration. An exception carries the state of `mp` at that point. -/
def iteration (o : Ops S C) (c : Cfg) (Itr : ℕ) (s : S) (out : Out C) : Except (PyErr × S) (S × Out C) := do
  let at_ {α : Type} (s : S) (x : Except PyErr α) : Except (PyErr × S) α := x.mapError fun e => (e, s)
  let V ← at_ s (store out.V Itr (o.cmd s))
  let out := { out with V := V }
  let (s, th) := o.prep Itr s
  let thput ← at_ s (store out.thput Itr th)
  let out := { out with thput := thput }
  let s := o.estimate Itr s
  let out ← at_ s (storeIntensities o c Itr s out)
  let (s, reg, im) := o.control Itr s
  let lr ← at_ s (store out.log10reg Itr reg)
  let out := { out with log10reg := lr }
  let raw ← at_ s (if c.useModel then .ok out.raw else store out.raw (Itr + 1) im)
  let out := { out with raw := raw }
  pure (o.enforce s, out)

/-- The `for` loop from iteration `Itr` with `n` iterations left. -/
def iterations (o : Ops S C) (c : Cfg) : ℕ → ℕ → S → Out C → Except (PyErr × S) (S × Out C)
  | 0, _, s, out => .ok (s, out)
  | n + 1, Itr, s, out => do
    let (s, out) ← iteration o c Itr s out
    iterations o c n (Itr + 1) s out

/-- falco/wfsc.py:12-240 `loop`. With `flagSaveWS` the statement `del G` (line 202) names a variable that was never assigned. -/
def loop (o : Ops S C) (c : Cfg) (s : S) (out : Out C) : Except (PyErr × S) (S × Out C) := do
  let (s, out) ← iterations o c c.Nitr 0 s out
  if c.Nitr = 0 then .error (.unboundLocal, s)
  else
    let V ← (store out.V c.Nitr (o.cmd s)).mapError fun e => (e, s)
    let thput ← (store out.thput c.Nitr (o.finalThput s)).mapError fun e => (e, s)
    if c.saveWS then .error (.unboundLocal, s)
    else pure (s, { out with V := V, thput := thput })

/-! ## `store_intensities`, numbers (falco/wfsc.py:339-392) -/

section Report
variable {P : Type} [Fintype P]

/-- The estimator output read by the report: E-field and incoherent intensity per dark-hole pixel and mode. -/
structure Ev (P : Type) where
  Eest : P → ℕ → ℂ
  IincoEst : P → ℕ → ℝ

/-- What is reported: band-summed maps and per-mode means. -/
structure Report (P : Type) where
  IestAll : P → ℝ
  IincoAll : P → ℝ
  modCorr : ℕ → ℝ
  unmodCorr : ℕ → ℝ

/-- `np.mean` over the dark hole -/
noncomputable def mean (f : P → ℝ) : ℝ := (∑ p, f p) / Fintype.card P

/-- falco/wfsc.py:343-390. `Iest` is a new array, `Iinco = ev.IincoEst` (345) is not, so weighting it (349) writes to `ev`; the per-mode means (383-390)
are taken afterwards. -/
noncomputable def report (sbpWeight : ℕ → ℝ) (sbpInd : ℕ → ℕ) (Nmode : ℕ) (ev : Ev P) : Ev P × Report P :=
  let ev' : Ev P := { ev with IincoEst := fun p m => if m < Nmode then sbpWeight (sbpInd m) * ev.IincoEst p m else ev.IincoEst p m }
  (ev', { IestAll := fun p => ∑ m ∈ Finset.range Nmode, sbpWeight (sbpInd m) * Complex.normSq (ev.Eest p m)
          IincoAll := fun p => ∑ m ∈ Finset.range Nmode, ev'.IincoEst p m
          modCorr := fun m => mean fun p => Complex.normSq (ev'.Eest p m)
          unmodCorr := fun m => mean fun p => ev'.IincoEst p m })

end Report

end Verif.Loop
