import Verif.Model.Dm
import Verif.Model.Util
import Mathlib.Data.Finset.Sort

/-! # Model of the configuration step falco/setup.py (spectral properties, Jacobian modes, padding, crops, weights) -/

namespace Verif.Setup
open Verif Verif.Util

/-! ## Spectral properties (falco/setup.py:480-564) -/

/-- The inputs of `falco_set_spectral_properties`. -/
structure Band where
  /-- number of sub-bandpasses -/
  Nsbp : ℕ
  /-- wavelengths per sub-bandpass in the full model -/
  Nwpsbp : ℕ
  flagSim : Bool
  lambda0 : ℝ
  fracBW : ℝ

/-- `np.linspace(a, b, n)` -/
noncomputable def linspace (a b : ℝ) (n : ℕ) : List ℝ := (List.range n).map fun (k : ℕ) => if n = 1 then a else a + k * ((b - a) / (n - 1))

/-- `np.ones((n, 1))` with the first and last entries replaced by 1/2 (falco/setup.py:488,494-495 and 519,524-525). -/
noncomputable def halfEnds (n : ℕ) : List ℝ := (List.range n).map fun (k : ℕ) => if k = 0 ∨ k = n - 1 then 1 / 2 else 1

/-- `x / np.sum(x)` -/
noncomputable def normalise (l : List ℝ) : List ℝ := l.map (· / l.sum)

/-- falco/setup.py:488-505: the weights of the sub-bandpasses. -/
noncomputable def sbpWeights (b : Band) : List ℝ :=
  normalise (if b.Nwpsbp = 1 ∧ b.flagSim = true then (if b.Nsbp = 1 then List.replicate b.Nsbp 1 else halfEnds b.Nsbp) else List.replicate b.Nsbp 1)

/-- falco/setup.py:489-503: the centre wavelengths of the sub-bandpasses. -/
noncomputable def sbpCenters (b : Band) : List ℝ :=
  if b.Nwpsbp = 1 ∧ b.flagSim = true then
    (if b.Nsbp = 1 then [b.lambda0] else (linspace (1 - b.fracBW / 2) (1 + b.fracBW / 2) b.Nsbp).map (b.lambda0 * ·))
  else
    let c2c := b.fracBW * (1 - 1 / (b.Nsbp : ℝ))
    (linspace (1 - c2c / 2) (1 + c2c / 2) b.Nsbp).map (b.lambda0 * ·)

/-- falco/setup.py:518-531: the weights of the wavelengths within a sub-bandpass. -/
noncomputable def lambdaWeights (b : Band) : List ℝ :=
  normalise (if b.Nwpsbp = 1 then List.replicate b.Nwpsbp 1 else halfEnds b.Nwpsbp)

/-- falco/setup.py:519-529: `mp.full.dlam` (`sbp_facs[1] - sbp_facs[0]`, with `sbp_facs` a `linspace` of `Nwpsbp ≥ 2` entries). -/
noncomputable def dlam (b : Band) : ℝ :=
  if b.Nwpsbp = 1 then 0 else
    let bw := b.fracBW / b.Nsbp
    let facs := linspace (1 - bw / 2) (1 + bw / 2) b.Nwpsbp
    (facs.getD 1 0 - facs.getD 0 0) * b.lambda0

/-- falco/setup.py:539-544: `mp.full.lambdasMat[si, wi]`. -/
noncomputable def lambdasMat (b : Band) (si wi : ℕ) : ℝ :=
  if b.Nwpsbp = 1 then (sbpCenters b).getD si 0 else (-((b.Nwpsbp : ℝ) - 1) / 2 + wi) * dlam b + (sbpCenters b).getD si 0

/-- falco/setup.py:538,546-550: `indsLambdaMat`, the order in which the full-model wavelengths are listed. -/
def indsLambdaMat (b : Band) : List (ℕ × ℕ) := (List.range b.Nsbp).flatMap fun si => (List.range b.Nwpsbp).map fun wi => (si, wi)

/-- falco/setup.py:546-550: all wavelengths, with repetitions, and their weights. -/
noncomputable def lambdasFlat (b : Band) : List ℝ := (indsLambdaMat b).map fun p => lambdasMat b p.1 p.2
/-- see `lambdasFlat` -/
noncomputable def weightsFlat (b : Band) : List ℝ := (indsLambdaMat b).map fun p => (sbpWeights b).getD p.1 0 * (lambdaWeights b).getD p.2 0

/-- `np.unique(np.round(1e12*lambdas), return_index=True)[1]` (falco/setup.py:553): for each distinct rounded value, in increasing order, the
first position with that value. -/
noncomputable def indsUnique (lam : List ℝ) : List ℕ :=
  let keys := lam.map fun l => Dm.npRound (10 ^ 12 * l)
  (keys.toFinset.sort (· ≤ ·)).map fun k => keys.idxOf k

/-- falco/setup.py:555 `np.setdiff1d(np.arange(len(lambdas)), inds_unique)`. -/
noncomputable def dupInds (lam : List ℝ) : List ℕ := (List.range lam.length).filter fun i => i ∉ indsUnique lam

/-- One round of the loop falco/setup.py:561-565: the weight of duplicate `d` is added to every listed wavelength within 1e-11 m of it. -/
noncomputable def addDup (lam wt lamU : List ℝ) (ws : List ℝ) (d : ℕ) : List ℝ :=
  List.zipWith (fun l w => if |l - lam.getD d 0| ≤ 1 / 10 ^ 11 then w + wt.getD d 0 else w) lamU ws

/-- falco/setup.py:559: `mp.full.lambdas`. -/
noncomputable def uniqueLambdas (lam : List ℝ) : List ℝ := (indsUnique lam).map fun i => lam.getD i 0

/-- falco/setup.py:560-565: `mp.full.lambda_weights_all`. -/
noncomputable def uniqueWeights (lam wt : List ℝ) : List ℝ :=
  (dupInds lam).foldl (addDup lam wt (uniqueLambdas lam)) ((indsUnique lam).map fun i => wt.getD i 0)

/-! ## Jacobian modes (falco/setup.py:567-654) -/

/-- The inputs of `falco_set_jacobian_modal_weights`: the controlled Zernikes (Noll indices) with their coefficients. `setOrder` is the order in
which CPython iterates over `set(zerns)`. Simplification: `Zcoef` has one entry per Zernike (otherwise NumPy raises an IndexError). -/
structure ModeCfg where
  Nsbp : ℕ
  Nstar : ℕ
  zerns : List (ℕ × ℝ)
  perfect : Bool
  setOrder : List ℕ → List ℕ

/-- A control mode as described by `star_inds`, `sbp_inds`, `zern_inds`, with its weight. -/
structure JMode where
  star : ℕ
  sbp : ℕ
  zern : ℕ
  weight : ℝ

/-- falco/setup.py:590-599: input checks. -/
def zernChecks (c : ModeCfg) : Except PyErr Unit :=
  let z := c.zerns.map (·.1)
  if 1 ∉ z then .error .valueError
  else if z ≠ c.setOrder z then .error .valueError
  else .ok ()

/-- falco/setup.py:601-610: entry `(si, izern)` of `weightMat` before half-weighting. Column 0 is set to ones by *any* piston entry of `zerns`
(`weightMat[:, 0] = ...`, not `[:, izern]`); since the loop runs over `izern` in increasing order and only entry 0 writes column 0 before, the
final value is the one given here. Rows: `si_ref = floor(Nsbp/2)`. -/
noncomputable def weightMat0 (c : ModeCfg) (si iz : ℕ) : ℝ :=
  let z := c.zerns.map (·.1)
  if iz = 0 ∧ 1 ∈ z then 1
  else if z.getD iz 0 = 1 then 0
  else if si = 0 ∨ si = c.Nsbp / 2 ∨ si = c.Nsbp - 1 then 1 else 0

/-- falco/setup.py:615-617: half-weighting of the end wavelengths (twice, hence a quarter, if `Nsbp = 1`). -/
noncomputable def weightMat1 (c : ModeCfg) (si iz : ℕ) : ℝ :=
  let w := weightMat0 c si iz
  if c.perfect then
    let w := if si = 0 then 0.5 * w else w
    if si = c.Nsbp - 1 then 0.5 * w else w
  else w

/-- The column sum used at falco/setup.py:620-622. -/
noncomputable def colSum (c : ModeCfg) (iz : ℕ) : ℝ := ((List.range c.Nsbp).map fun si => weightMat1 c si iz).sum

/-- falco/setup.py:599: the coefficient of Zernike `iz` after the piston entries were reset to 1. -/
noncomputable def zcoef (c : ModeCfg) (iz : ℕ) : ℝ := let p := c.zerns.getD iz (0, 0); if p.1 = 1 then 1 else p.2

open Classical in
/-- falco/setup.py:619-628: the final weight matrix; `none` stands for NaN (`0/0`, an empty column), which fails every comparison. -/
noncomputable def weightMat (c : ModeCfg) (si iz : ℕ) : Option ℝ :=
  if colSum c iz = 0 then none
  else if zcoef c iz = 0 then some 0
  else some (weightMat1 c si iz / colSum c iz)

open Classical in
/-- falco/setup.py:631 `np.nonzero(weightMat > 0)`: positions in row-major order, with the weights. -/
noncomputable def weightMatInd (c : ModeCfg) : List (ℕ × ℕ × ℝ) :=
  (List.range c.Nsbp).flatMap fun si => (List.range c.zerns.length).filterMap fun iz =>
    match weightMat c si iz with
    | some w => if 0 < w then some (si, iz, w) else none
    | none => none

/-- falco/setup.py:633-654: the modes of the control Jacobian, in order (`np.tile` over the stars). -/
noncomputable def jacModes (c : ModeCfg) : Except PyErr (List JMode) := do
  zernChecks c
  pure ((List.range c.Nstar).flatMap fun st => (weightMatInd c).map fun p => { star := st, sbp := p.1, zern := (c.zerns.map (·.1)).getD p.2.1 0, weight := p.2.2 })

end Verif.Setup
