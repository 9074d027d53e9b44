import Verif.Model.Arr
import Verif.Model.DmConstraints
import Mathlib.Analysis.SpecialFunctions.Pow.Real
import Mathlib.LinearAlgebra.Matrix.NonsingularInverse
import Mathlib.Analysis.Complex.Basic
import Mathlib.Data.Nat.Digits.Defs

/-!
# Model of falco/ctrl.py

Real/complex numbers are exact.  The optical model and the camera are parameters (`trial`, `Jac`): what the controller does
with their results is modelled.
-/

namespace Verif.Ctrl
open Verif Complex

/-! ## The EFC equation -/

/-- The data of one control step: pixels `P`, controlled actuators `ι` (all DMs of `dm_ind`, concatenated), Jacobian modes `Md`,
stars `St`.  `G` is the Jacobian returned by the model, `E` the estimated field (already divided by the peak when
`mp.jac.minimizeNI`, falco/ctrl.py:70-80), `w = mp.jac.weights`, `W = mp.WspatialVec`, `star = mp.jac.star_inds`. -/
structure Problem (P ι Md St : Type*) where
  G : P → ι → Md → ℂ
  E : P → Md → ℂ
  w : Md → ℝ
  star : Md → St
  W : P → St → ℝ

variable {P ι Md St : Type*}

/-- falco/ctrl.py:1039-1069 `apply_spatial_weighting_to_Jacobian` applied once: every slice of star `s` is multiplied by the spatial
weights of star `s`. -/
noncomputable def weightJac (star : Md → St) (W : P → St → ℝ) (G : P → ι → Md → ℂ) : P → ι → Md → ℂ :=
  fun p j m => G p j m * (W p (star m) : ℂ)

variable [Fintype P] [Fintype ι] [Fintype Md]

/-- falco/ctrl.py:48,67: `GstarG_wsum = Σ_m w_m · Re(G_m^H G_m)`. -/
noncomputable def gstarG (w : Md → ℝ) (G : P → ι → Md → ℂ) : Matrix ι ι ℝ :=
  fun i j => ∑ m, w m * (∑ p, starRingEnd ℂ (G p i m) * G p j m).re

/-- falco/ctrl.py:49,82-88: `RealGstarEab_wsum = Σ_m w_m · Re(G_m^H (W ∘ E_m))`. -/
noncomputable def realGstarE (pr : Problem P ι Md St) (G : P → ι → Md → ℂ) : ι → ℝ :=
  fun i => ∑ m, pr.w m * (∑ p, starRingEnd ℂ (G p i m) * ((pr.W p (pr.star m) : ℂ) * pr.E p m)).re

/-- falco/ctrl.py:91: `np.max(np.diag(GstarG_wsum))` (raises on an empty array; `ι` non-empty here). -/
noncomputable def maxDiag [Nonempty ι] (A : Matrix ι ι ℝ) : ℝ := Finset.univ.sup' Finset.univ_nonempty fun i => A i i

open Classical in
/-- `np.linalg.solve(A, b)`: `LinAlgError` for a singular matrix, otherwise the solution. -/
noncomputable def solve (A : Matrix ι ι ℝ) (b : ι → ℝ) : Except PyErr (ι → ℝ) :=
  if IsUnit A.det then .ok (A⁻¹.mulVec b) else .error .linAlgError

open Classical in
/-- falco/ctrl.py:91 and 848-851 (`_efc`): the delta command vector
`-dmfac * solve(10**log10reg * diag(EyeGstarGdiag) + GstarG_wsum, RealGstarEab_wsum)`. -/
noncomputable def efc [Nonempty ι] (pr : Problem P ι Md St) (log10reg dmfac : ℝ) : Except PyErr (ι → ℝ) := do
  let G := weightJac pr.star pr.W pr.G
  let A := gstarG pr.w G
  let reg : Matrix ι ι ℝ := (10 : ℝ) ^ log10reg • Matrix.diagonal fun _ => maxDiag A
  let x ← solve (reg + A) (realGstarE pr G)
  return fun i => -dmfac * x i

/-! ## Grid search -/

/-- falco/ctrl.py:307, 437, 573: `[(x, y) for y in dmfacVec for x in log10regVec]`. -/
def valsList {α β : Type*} (log10regVec : List α) (dmfacVec : List β) : List (α × β) :=
  dmfacVec.flatMap fun y => log10regVec.map fun x => (x, y)

/-- `np.argmin` of a list of reals: index of the first minimum; `ValueError` on the empty array.  Written as the usual scan
`(best index, best value, next index)`. -/
noncomputable def argminScan : List ℝ → ℕ → ℝ → ℕ → ℕ
  | [], bi, _, _ => bi
  | x :: t, bi, bv, k => if x < bv then argminScan t k x (k + 1) else argminScan t bi bv (k + 1)

/-- `np.argmin` -/
noncomputable def argmin : List ℝ → Except PyErr ℕ
  | [] => .error .valueError
  | x :: t => .ok (argminScan t 0 x 1)

/-- The trial loop (falco/ctrl.py:367-383, 622-637): run `trial` on each pair in order, threading the state of `mp` and keeping the
average intensity and the delta command of each. -/
def trialLoop {S C : Type} (trial : ℝ × ℝ → S → (ℝ × C) × S) : List (ℝ × ℝ) → S → List (ℝ × C) × S
  | [], s => ([], s)
  | v :: t, s =>
    let r := trial v s
    let rest := trialLoop trial t r.2
    (r.1 :: rest.1, rest.2)

/-- What a grid search leaves: the command returned, the pair it belongs to, its intensity. -/
structure Best (C : Type) where
  cmd : C
  log10reg : ℝ
  dmfac : ℝ
  inorm : ℝ

/-- falco/ctrl.py:291-420 `_grid_search_efc` (serial branch); lines 399-417 pick `indBest = np.argmin(InormVec)` and return the stored
command and pair of that index.  (`vals_list[indBest]`, `store[..., indBest]` with `indBest` in range; the default is unreachable, see
`C21_best`.) -/
noncomputable def gridSearch {S C : Type} (trial : ℝ × ℝ → S → (ℝ × C) × S) (log10regVec dmfacVec : List ℝ) (s : S) :
    Except PyErr (Best C × S) := do
  let vals := valsList log10regVec dmfacVec
  let (rs, s') := trialLoop trial vals s
  let ind ← argmin (rs.map Prod.fst)
  match vals[ind]?, rs[ind]? with
  | some v, some r => return ({ cmd := r.2, log10reg := v.1, dmfac := v.2, inorm := r.1 }, s')
  | _, _ => .error .indexError

/-- falco/ctrl.py:323-365 `_grid_search_efc`, parallel branch: `multiprocessing.Pool.starmap` pickles the arguments, so every trial runs on its own copy
of the state and the parent's state is not changed. -/
noncomputable def gridSearchPar {S C : Type} (trial : ℝ × ℝ → S → (ℝ × C) × S) (log10regVec dmfacVec : List ℝ) (s : S) :
    Except PyErr (Best C × S) := do
  let vals := valsList log10regVec dmfacVec
  let rs := vals.map fun v => (trial v s).1
  let ind ← argmin (rs.map Prod.fst)
  match vals[ind]?, rs[ind]? with
  | some v, some r => return ({ cmd := r.2, log10reg := v.1, dmfac := v.2, inorm := r.1 }, s)
  | _, _ => .error .indexError

/-- Controller memory kept in `cvar` between iterations (`latestBestlog10reg`, `latestBestDMfac`; absent before first use). -/
structure Memory where
  bestReg : Option ℝ
  bestFac : Option ℝ

/-- One scheduled iteration: entry of `log10regSchedIn` (real, imaginary part) and whether this iteration is in `gridSearchItrVec`. -/
structure Slot where
  re : ℝ
  im : ℝ
  grid : Bool

/-- The outcome of one planned iteration: command, `cvar.log10regUsed`, memory, state. -/
structure PlanOut (S C : Type) where
  cmd : C
  regUsed : ℝ
  mem : Memory
  st : S

open Classical in
/-- Steps 2 and 3 of `_planned_efc` (falco/ctrl.py:681-713): resolve the regularisation, use the remembered gain (1 if none), run once. -/
noncomputable def scheduledStep {S C : Type} (trial : ℝ × ℝ → S → (ℝ × C) × S) (slot : Slot) (mem : Memory) (s : S) :
    Except PyErr (PlanOut S C) := do
  let reg ← (if slot.im ≠ 0 then
      match mem.bestReg with
      | some r => Except.ok (r + slot.re)
      | none => Except.error PyErr.attributeError
    else Except.ok slot.re)
  let fac := mem.bestFac.getD 1
  let r := trial (reg, fac) s
  return { cmd := r.1.2, regUsed := reg, mem := { mem with bestFac := some fac }, st := r.2 }

open Classical in
/-- falco/ctrl.py:559-718 `_planned_efc` (and 423-556 `_planned_ad_efc`, identical but for the trial function). -/
noncomputable def planned {S C : Type} (trial : ℝ × ℝ → S → (ℝ × C) × S) (log10regVec dmfacVec : List ℝ)
    (slot : Slot) (mem : Memory) (s : S) : Except PyErr (PlanOut S C) :=
  if slot.grid then do
    -- Step 1 (lines 588-661)
    let (b, s') ← gridSearch trial log10regVec dmfacVec s
    let mem' : Memory := { bestReg := some b.log10reg, bestFac := some b.dmfac }
    -- lines 665-678
    if slot.im ≠ 0 ∧ slot.re = 0 then return { cmd := b.cmd, regUsed := b.log10reg, mem := mem', st := s' }
    else scheduledStep trial slot mem' s'
  else scheduledStep trial slot mem s

/-- A run of planned iterations; the trial function may change from one iteration to the next (new Jacobian and field estimate).
The outputs of the iterations up to the first error. -/
noncomputable def plannedRun {S C : Type} (log10regVec dmfacVec : List ℝ) :
    List (Slot × (ℝ × ℝ → S → (ℝ × C) × S)) → Memory → S → Except PyErr (List (PlanOut S C))
  | [], _, _ => .ok []
  | (slot, trial) :: t, mem, s => do
    let o ← planned trial log10regVec dmfacVec slot mem s
    let rest ← plannedRun log10regVec dmfacVec t o.mem o.st
    return o :: rest

/-! ## Schedules -/

/-- One row of the schedule matrix after the `int(np.real(.))` conversions of falco/ctrl.py:759-787; the iteration count is a
non-negative integer (simplification: fractional or negative counts are not modelled). -/
structure Row where
  n : ℕ
  log10reg : ℂ
  dm : ℕ
  relin : Bool
  grid : Bool

/-- `x[a:b] = v` on a list (Python slice with `0 ≤ a ≤ b`). -/
def fillSlice {α : Type*} (l : List α) (a b : ℕ) (v : α) : List α :=
  l.mapIdx fun i x => if a ≤ i ∧ i < b then v else x

/-- `[int(c) for c in str(n)]` (falco/ctrl.py:794-797). -/
def decDigits (n : ℕ) : List ℕ := if n = 0 then [0] else (Nat.digits 10 n).reverse

/-- State of the row loop of `efc_schedule_generator`. -/
structure SchedAcc where
  relin : List ℕ
  grid : List ℕ
  reg : List ℂ
  dm : List ℕ
  count : ℕ

/-- falco/ctrl.py:770-787: loop body. -/
def schedRow (a : SchedAcc) (r : Row) : SchedAcc :=
  { relin := if r.relin then a.relin ++ [a.count] else a.relin
    grid := if r.grid then a.grid ++ [a.count] else a.grid
    reg := if r.n ≠ 0 then fillSlice a.reg a.count (a.count + r.n) r.log10reg else a.reg
    dm := if r.n ≠ 0 then fillSlice a.dm a.count (a.count + r.n) r.dm else a.dm
    count := a.count + r.n }

/-- What `efc_schedule_generator` returns. -/
structure Schedule where
  Nitr : ℕ
  relinItrVec : List ℕ
  gridSearchItrVec : List ℕ
  log10regSched : List ℂ
  dm_ind_sched : List (List ℕ)

/-- falco/ctrl.py:721-800 `efc_schedule_generator`. -/
def schedule (rows : List Row) : Schedule :=
  let Nitr := (rows.map Row.n).sum
  let a := rows.foldl schedRow ⟨[], [], List.replicate Nitr 0, List.replicate Nitr 0, 0⟩
  { Nitr := Nitr, relinItrVec := a.relin, gridSearchItrVec := a.grid, log10regSched := a.reg
    dm_ind_sched := a.dm.map decDigits }

/-! ## Packing and unpacking of the command vector -/

/-- What `init`/`wrapup` use of one DM in `dm_ind`: its number, commands (flattened, `NactTotal` entries), controlled actuators, `Nele`
and control weight. -/
structure DmCtl where
  num : ℕ
  V : List ℝ
  actEle : List ℕ
  Nele : ℕ
  weight : ℝ

/-- falco/ctrl.py:1115-1121: `uLegend`, the DM number of each command-vector entry, DMs of `dm_ind` in the order 1, 2, 8, 9. -/
def legend (dms : List DmCtl) : List ℕ := dms.flatMap fun d => List.replicate d.Nele d.num

/-- Boolean-mask indexing `x[legend == k]`; `IndexError` when the lengths differ. -/
def maskSelect (x : List ℝ) (leg : List ℕ) (k : ℕ) : Except PyErr (List ℝ) :=
  if x.length = leg.length then .ok (((x.zip leg).filter fun p => p.2 == k).map Prod.fst) else .error .indexError

/-- `x[idx] = vals`: `IndexError` for an index out of range (indices are non-negative here), `ValueError` when the lengths differ
(length-1 broadcasting is not modelled). -/
def scatterList (x : List ℝ) (idx : List ℕ) (vals : List ℝ) : Except PyErr (List ℝ) :=
  if idx.length ≠ vals.length then .error .valueError
  else if idx.any (fun i => decide (x.length ≤ i)) then .error .indexError
  else .ok ((idx.zip vals).foldl (fun acc p => acc.set p.1 p.2) x)

/-- falco/ctrl.py:1151-1165: the delta command of one DM. -/
noncomputable def deltaOf (dms : List DmCtl) (duVec : List ℝ) (d : DmCtl) : Except PyErr (List ℝ) := do
  let sel ← maskSelect duVec (legend dms) d.num
  scatterList (List.replicate d.V.length 0) d.actEle (sel.map fun u => d.weight * u)

/-- falco/ctrl.py:1126-1184 `wrapup`: delta commands and new commands of every DM in `dm_ind`. -/
noncomputable def wrapup (dms : List DmCtl) (duVec : List ℝ) : Except PyErr (List (List ℝ × List ℝ)) :=
  dms.mapM fun d => do
    let dv ← deltaOf dms duVec d
    return (dv, List.zipWith (· + ·) d.V dv)

/-- falco/ctrl.py:1108-1113 `init`: the vector of present commands at the controlled actuators, DM by DM (for DM 8 line 1110 reads
`mp.dm9.V`; here for DMs 1, 2, 9). -/
def uVec (dms : List DmCtl) : List ℝ := dms.flatMap fun d => d.actEle.map fun i => d.V.getD i 0

/-! ## Culling -/

/-- falco/ctrl.py:199-201: total response of Jacobian column `j`. -/
noncomputable def response {n : ℕ} (G : P → Fin n → Md → ℂ) (j : Fin n) : ℝ :=
  ∑ p, (∑ m, normSq (G p j m)) / (Fintype.card Md : ℝ)

open Classical in
/-- falco/ctrl.py:199-202: indices of the columns whose response, relative to the strongest, is at least `10**logGmin`.  A zero Jacobian
gives `0/0 = nan`, every comparison is false and nothing is kept (hence the first condition). -/
noncomputable def strongColumns {n : ℕ} (G : P → Fin n → Md → ℂ) (logGmin : ℝ) : List ℕ :=
  ((List.finRange n).filter fun j =>
    (∃ k, 0 < response G k) ∧ ∀ k, (10 : ℝ) ^ logGmin * response G k ≤ response G j).map Fin.val

/-- falco/ctrl.py:224-228: append the members of each tied pair that are not yet in the list. -/
def addTied (act : List ℕ) (tied : List (ℕ × ℕ)) : List ℕ :=
  tied.foldl (fun a t =>
    let a := if t.1 ∈ a then a else a ++ [t.1]
    if t.2 ∈ a then a else a ++ [t.2]) act

/-- falco/ctrl.py:196-286 for one DM: new `act_ele` and the cropped Jacobian's column list (positions in the old Jacobian);
`IndexError` if a kept index is not a column of the Jacobian. -/
noncomputable def cull {n : ℕ} (G : P → Fin n → Md → ℂ) (logGmin : ℝ) (tied : List (ℕ × ℕ)) : Except PyErr (List ℕ) :=
  let act := (addTied (strongColumns G logGmin) tied).mergeSort (· ≤ ·)
  if act.any (fun i => decide (n ≤ i)) then .error .indexError else .ok act

/-! ## Sharing of the Jacobian between the loop and the controller -/

/-- falco/wfsc.py:79-81,125 with falco/ctrl.py:1039-1069: one loop iteration as seen by the Jacobian array.  `cell` is the content of the array
referenced by `jacStruct.G1`; `copy(jacStruct)` copies the reference, so the in-place weighting changes the cell.  `fresh` is what
`falco.model.jacobian` returns when this iteration relinearises.  Result: (Jacobian used by the controller, cell afterwards). -/
noncomputable def jacIter (star : Md → St) (W : P → St → ℝ) (cell : P → ι → Md → ℂ) (fresh : Option (P → ι → Md → ℂ)) :
    (P → ι → Md → ℂ) × (P → ι → Md → ℂ) :=
  let cell := fresh.getD cell
  let cell := weightJac star W cell
  (cell, cell)

/-- The Jacobians used by the controller in a run of iterations. -/
noncomputable def jacRun (star : Md → St) (W : P → St → ℝ) : (P → ι → Md → ℂ) → List (Option (P → ι → Md → ℂ)) → List (P → ι → Md → ℂ)
  | _, [] => []
  | cell, f :: t => let r := jacIter star W cell f; r.1 :: jacRun star W r.2 t

/-! ## AD-EFC bounds -/

/-- falco/ctrl.py:940-950 (`_ad_efc`): bounds of the delta command of actuator `i`. -/
noncomputable def adBounds {n : ℕ} (d : Dm.State n) (i : Fin n) : ℝ × ℝ :=
  (d.Vmin - (d.V i + d.biasMap i), d.Vmax - (d.V i + d.biasMap i))

/-- falco/ctrl.py:1153-1170: command of a controlled actuator after `wrapup` with optimiser output `du` and control weight. -/
noncomputable def adNewV {n : ℕ} (d : Dm.State n) (weight : ℝ) (du : Fin n → ℝ) (i : Fin n) : ℝ := d.V i + weight * du i

/-! ## Trial commands and the DM state -/

/-- falco/ctrl.py:803-873 `_efc` as seen by one DM: save `V`, write `Vnom + dV`, take an image (which calls `enforce_constraints`, modelled
by `Dm.enforce`), write the saved `V` back. -/
noncomputable def dmTrial {n : ℕ} (d : Dm.State n) (dV : Fin n → ℝ) : Dm.State n :=
  let V0 := d.V
  let d1 := Dm.enforce { d with V := fun i => d.V i + dV i }
  { d1 with V := V0 }

/-! ## One AD-EFC trial -/

/-- falco/model/models.py:476-485: the change of one DM's flattened command used by `compact_reverse_gradient` (`total = mp.dmN.NactTotal`, no control weight), with the legend `mp.ctrl.uLegend`
made by `init` from the DMs in `mp.dm_ind`. It is evaluated for DM1 and for DM2 whatever `mp.dm_ind` is. -/
def revCommand (leg : List ℕ) (num total : ℕ) (actEle : List ℕ) (command : List ℝ) : Except PyErr (List ℝ) := do
  let sel ← maskSelect command leg num
  scatterList (List.replicate total 0) actEle sel

/-- falco/model/models.py:472-524: one evaluation of the cost by the optimiser as seen by one DM: `V0 = V`, then a model evaluation (which enforces the constraints) at `V0 + dv`, then `V = V0`.
`act i` says whether actuator `i` is in `act_ele`; the others get no change. -/
noncomputable def adCost {n : ℕ} (act : Fin n → Bool) (d : Dm.State n) (du : Fin n → ℝ) : Dm.State n :=
  dmTrial d fun i => if act i then du i else 0

/-- falco/ctrl.py:876-1036 `_ad_efc` as seen by one DM (the optimiser's vector restricted to that DM; `n` actuators). `opt log10reg d` is what `scipy.optimize.minimize` does: the points at which it evaluates
the cost, and the point it returns. The gain `dmfac` (line 912) is not used. `img` is the image average of the state after the constraints were enforced.
Simplification: `mp.Itotal` and the printed report are left out. -/
noncomputable def adTrial {n : ℕ} (opt : ℝ → Dm.State n → List (Fin n → ℝ) × (Fin n → ℝ)) (act : Fin n → Bool) (weight : ℝ) (img : Dm.State n → ℝ)
    (v : ℝ × ℝ) (d : Dm.State n) : (ℝ × (Fin n → ℝ)) × Dm.State n :=
  let V0 := d.V                                                 -- 900-907 and `init` (917): cvar.DMnVnom
  let log10reg := v.1                                           -- 911
  let o := opt log10reg d                                       -- bounds from `d` (931-956)
  let d1 := Dm.enforce d                                        -- 957-975: model at the present command
  let d2 := o.1.foldl (adCost act) d1                           -- 979-994
  let dV := fun i => if act i then weight * o.2 i else 0        -- 995,1015 `wrapup`
  let d3 := Dm.enforce { d2 with V := fun i => V0 i + dV i }    -- 1015-1024: image at the trial command
  ((img d3, dV), { d3 with V := V0 })                           -- 1026-1036

/-! ## Scale of the AD-EFC penalty -/

/-- Shape check of `np.hstack((Gstack, np.squeeze(G[:, :, iMode])))` (falco/ctrl.py:59-66, 1221-1225): `np.squeeze` makes a one-dimensional array of a slice with one pixel or one actuator, which cannot be stacked
with the two-dimensional `Gstack` (`ValueError`). -/
def hstackCheck (Npix Nele : ℕ) : Except PyErr Unit := if Npix = 1 ∨ Nele = 1 then .error .valueError else .ok ()

/-- The attributes of `mp` that `set_utu_scale_fac` writes: `act_ele`, `Nele` of both DMs and `mp.ctrl.ad.utu_scale_fac` (absent before the first call). -/
structure UtuMp where
  act1 : List ℕ
  act2 : List ℕ
  nele1 : ℕ
  nele2 : ℕ
  scale : Option ℝ

/-- falco/ctrl.py:1219-1232: diagonal of the weighted normal matrix of the stacked Jacobian, entry by entry (the off-diagonal part is not used afterwards), with at least one mode. -/
noncomputable def utuDiag (w : Md → ℝ) (cols : List (P → Md → ℂ)) : List ℝ := cols.map fun c => ∑ m, w m * ∑ p, normSq (c p m)

/-- falco/ctrl.py:1187-1247 `set_utu_scale_fac`; `use1`, `use2`: DM in `mp.dm_ind`; `sub1`, `sub2`: the actuators selected by `mp.ctrl.ad.dmN_act_mask_for_jac_norm`; `jac` is `falco.model.jacobian` (response of each
actuator of DM1, DM2), which sees the modified `mp`. Result and state of `mp` afterwards, also when an exception is raised. The normalisation of line 1188 is left out. -/
noncomputable def setUtu {P Md : Type} [Fintype P] [Fintype Md] (use1 use2 : Bool) (sub1 sub2 : List ℕ) (jac : UtuMp → Except PyErr ((ℕ → P → Md → ℂ) × (ℕ → P → Md → ℂ))) (w : Md → ℝ) (s : UtuMp) : Except PyErr Unit × UtuMp :=
  let s1 := if use1 then { s with act1 := sub1, nele1 := sub1.length } else s
  let s2 := if use2 then { s1 with act2 := sub2, nele2 := sub2.length } else s1
  let scale : Except PyErr ℝ := do
    let (G1, G2) ← jac s2
    if use1 then hstackCheck (Fintype.card P) s2.nele1
    if use2 then hstackCheck (Fintype.card P) s2.nele2
    let diag := utuDiag w ((if use1 then s2.act1.map G1 else []) ++ if use2 then s2.act2.map G2 else [])
    match diag.max? with
    | some x => return x
    | none => .error .valueError
  match scale with
  | .error e => (.error e, s2)
  | .ok x =>
    let s3 := if use1 then { s2 with act1 := s.act1, nele1 := s.nele1 } else s2
    let s4 := if use2 then { s3 with act2 := s.act2, nele2 := s.nele2 } else s3
    (.ok (), { s4 with scale := some x })

end Verif.Ctrl
