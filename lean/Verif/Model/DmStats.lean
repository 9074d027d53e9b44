import Verif.Model.DmConstraints
import Verif.Model.Util
import Mathlib.Analysis.SpecialFunctions.Sqrt
import Mathlib.Data.ZMod.Basic
import Mathlib.Data.Fintype.BigOperators
import Mathlib.Order.ConditionallyCompleteLattice.Finset

/-!
# Model of the DM command history and DM statistics of a run (falco/wfsc.py:47-61, 135-147, 175-179, 248-336)

Only DM1 and DM2 (commands of `n1` and `n2` actuators).  Everything else that happens to the DMs in an iteration - controllers writing commands and models being
evaluated - is an arbitrary list of such actions.  The history arrays are functions of the iteration, `none` being the initial zero; C46 shows the indices are in range.
-/

namespace Verif.DmStats
open Verif Verif.Util

/-- falco/util.py:322-347, 374-393: `radial_grid(axis)[i, j]`: the column index goes with x, the row index with y; `axis i` is entry `i` of the axis. -/
noncomputable def radialGrid (axis : ℕ → ℝ) (i j : ℕ) : ℝ := Real.sqrt ((axis j) ^ 2 + (axis i) ^ 2)

/-- The parameters of the statistics of one DM. -/
structure Pupil where
  /-- `mp.P2.compact.dx` -/
  dx : ℝ
  /-- `mp.P2.D` -/
  D : ℝ
  /-- `mp.P1.IDnorm` -/
  IDnorm : ℝ
  centering : Centering
  /-- `mp.dm1.compact.Ndm`, `mp.dm2.compact.Ndm` -/
  Ndm1 : ℕ
  Ndm2 : ℕ

/-- wfsc.py:309-312, 322-325: the pixels over which the RMS is taken. -/
noncomputable def rmsEle (q : Pupil) (Ndm : ℕ) (i j : Fin Ndm) : Prop :=
  let RS := radialGrid (fun k => (createAxis Ndm (q.dx / q.D) q.centering).getD k 0) i j
  RS ≥ q.IDnorm / 2 ∧ RS ≤ 1 / 2

/-- `np.max(a)` of a 2-D array -/
noncomputable def max2 {N : ℕ} (S : Fin N → Fin N → ℝ) : ℝ := ⨆ p : Fin N × Fin N, S p.1 p.2
/-- `np.min(a)` of a 2-D array -/
noncomputable def min2 {N : ℕ} (S : Fin N → Fin N → ℝ) : ℝ := ⨅ p : Fin N × Fin N, S p.1 p.2

open Classical in
/-- wfsc.py:316, 329: `np.sqrt(np.mean(np.abs(S[ele])**2))` (NaN when no pixel is selected; here `0`). -/
noncomputable def rms {N : ℕ} (S : Fin N → Fin N → ℝ) (ele : Fin N → Fin N → Prop) : ℝ :=
  let sel := (Finset.univ : Finset (Fin N × Fin N)).filter fun p => ele p.1 p.2
  Real.sqrt ((∑ p ∈ sel, |S p.1 p.2| ^ 2) / sel.card)

/-- The DM part of `mp`. -/
structure Mp (n1 n2 : ℕ) where
  dm1 : Dm.State n1
  dm2 : Dm.State n2
  /-- `mp.dm_ind` -/
  ind : List ℕ

/-- The DM part of `out`. -/
structure Out (n1 n2 : ℕ) where
  Vall1 : ℕ → Option (Fin n1 → ℝ)
  Vall2 : ℕ → Option (Fin n2 → ℝ)
  Vpv1 : ℕ → Option ℝ
  Vpv2 : ℕ → Option ℝ
  Spv1 : ℕ → Option ℝ
  Spv2 : ℕ → Option ℝ
  Srms1 : ℕ → Option ℝ
  Srms2 : ℕ → Option ℝ

/-- setup.py:1419-1449, falco/setup.py: all histories are zero at first. -/
def Out.init (n1 n2 : ℕ) : Out n1 n2 := ⟨fun _ => none, fun _ => none, fun _ => none, fun _ => none, fun _ => none, fun _ => none, fun _ => none, fun _ => none⟩

/-- `a[i] = v` -/
def put {α : Type} (a : ℕ → Option α) (i : ℕ) (v : α) : ℕ → Option α := fun k => if k = i then some v else a k

/-- The surfaces made by `gen_surf_from_act` for DM1 and DM2 from commands that already obey the constraints. -/
structure Surfaces (n1 n2 : ℕ) (q : Pupil) where
  s1 : (Fin n1 → ℝ) → Fin q.Ndm1 → Fin q.Ndm1 → ℝ
  s2 : (Fin n2 → ℝ) → Fin q.Ndm2 → Fin q.Ndm2 → ℝ

variable {n1 n2 : ℕ} {q : Pupil}

/-- wfsc.py:248-277 `store_dm_command_history` -/
def storeCommands (mp : Mp n1 n2) (out : Out n1 n2) (Itr : ℕ) : Out n1 n2 :=
  { out with Vall1 := put out.Vall1 Itr mp.dm1.V, Vall2 := put out.Vall2 Itr mp.dm2.V }

/-- wfsc.py:135-138: constraints after the controller. -/
noncomputable def constrain (mp : Mp n1 n2) : Mp n1 n2 :=
  let mp := if 1 ∈ mp.ind then { mp with dm1 := Dm.enforce mp.dm1 } else mp
  if 2 ∈ mp.ind then { mp with dm2 := Dm.enforce mp.dm2 } else mp

/-- wfsc.py:281-336 `falco_compute_dm_stats`.  `gen_surf_from_act` enforces the constraints once more (falco/dm.py:60) and so may change the command. -/
noncomputable def stats (S : Surfaces n1 n2 q) (mp : Mp n1 n2) (out : Out n1 n2) (Itr : ℕ) : Mp n1 n2 × Out n1 n2 :=
  let out := if 1 ∈ mp.ind then { out with Vpv1 := put out.Vpv1 Itr ((⨆ i, mp.dm1.V i) - ⨅ i, mp.dm1.V i) } else out
  let out := if 2 ∈ mp.ind then { out with Vpv2 := put out.Vpv2 Itr ((⨆ i, mp.dm2.V i) - ⨅ i, mp.dm2.V i) } else out
  let (mp, out) :=
    if 1 ∈ mp.ind then
      let mp := { mp with dm1 := Dm.enforce mp.dm1 }
      let s := S.s1 mp.dm1.V
      (mp, { out with Spv1 := put out.Spv1 Itr (max2 s - min2 s), Srms1 := put out.Srms1 Itr (rms s (rmsEle q q.Ndm1)) })
    else (mp, out)
  if 2 ∈ mp.ind then
    let mp := { mp with dm2 := Dm.enforce mp.dm2 }
    let s := S.s2 mp.dm2.V
    (mp, { out with Spv2 := put out.Spv2 Itr (max2 s - min2 s), Srms2 := put out.Srms2 Itr (rms s (rmsEle q q.Ndm2)) })
  else (mp, out)

/-- What estimators, controllers and models do to the DMs. -/
inductive Act (n1 n2 : ℕ)
  | dm1 (op : Dm.Op n1)
  | dm2 (op : Dm.Op n2)

/-- One action. -/
noncomputable def act (mp : Mp n1 n2) : Act n1 n2 → Mp n1 n2
  | .dm1 op => { mp with dm1 := Dm.step mp.dm1 op }
  | .dm2 op => { mp with dm2 := Dm.step mp.dm2 op }

/-- A run: `sched k = some l` when `mp.dm_ind` is taken from the schedule (controller "plannedEFC"); `work k` are the actions between the storing of the command and the
enforcement of the constraints (wfsc.py:63-125), `later k` the number of model evaluations after the statistics (`calc_zern_sens`, wfsc.py:149-150). -/
structure Run (n1 n2 : ℕ) where
  Nitr : ℕ
  sched : ℕ → Option (List ℕ)
  work : ℕ → List (Act n1 n2)
  later : ℕ → ℕ

/-- wfsc.py:149-150: each model evaluation makes both surfaces. -/
noncomputable def evals (mp : Mp n1 n2) : ℕ → Mp n1 n2
  | 0 => mp
  | m + 1 => evals { mp with dm1 := Dm.enforce mp.dm1, dm2 := Dm.enforce mp.dm2 } m

/-- wfsc.py:38-171: iteration `k` as far as the DMs and their histories are concerned. -/
noncomputable def iteration (S : Surfaces n1 n2 q) (r : Run n1 n2) (k : ℕ) (s : Mp n1 n2 × Out n1 n2) : Mp n1 n2 × Out n1 n2 :=
  let mp : Mp n1 n2 := ⟨s.1.dm1, s.1.dm2, (r.sched k).getD s.1.ind⟩
  let out := storeCommands mp s.2 k
  let mp := (r.work k).foldl act mp
  let mp := constrain mp
  let (mp, out) := stats S mp out k
  (evals mp (r.later k), out)

/-- The iterations `0, …, k - 1`. -/
noncomputable def iterations (S : Surfaces n1 n2 q) (r : Run n1 n2) (mp : Mp n1 n2) : ℕ → Mp n1 n2 × Out n1 n2
  | 0 => (mp, Out.init n1 n2)
  | k + 1 => iteration S r k (iterations S r mp k)

/-- The histories after the run (wfsc.py:175-179: the last command is stored too). -/
noncomputable def histories (S : Surfaces n1 n2 q) (r : Run n1 n2) (mp : Mp n1 n2) : Out n1 n2 :=
  let s := iterations S r mp r.Nitr
  storeCommands s.1 s.2 r.Nitr

end Verif.DmStats
