import Verif.Model.Dm
import Verif.Model.Pinv
import Mathlib.Analysis.SpecialFunctions.Complex.Arg
import Mathlib.Analysis.SpecialFunctions.Trigonometric.Basic

/-! # Model of falco/est.py (estimators) and of the DM fit used for probes -/

namespace Verif.Est
open Verif Matrix

/-! ## Probe phases and axes -/

/-- falco/est.py:328-331: integer multiples of `π/Npairs`, built by appending (`probePhaseVec[-1]` is the last entry). -/
def phaseInts (Np : ℕ) : List ℤ :=
  (List.range (Np - 1)).foldl (fun l _ =>
    let l1 := l ++ [l.getLastD 0 - ((Np : ℤ) - 1)]
    l1 ++ [l1.getLastD 0 + Np]) [0, (Np : ℤ)]

/-- falco/est.py:333: `probePhaseVec*np.pi/Npairs` (for `Npairs = 0` NumPy gives nan, here 0). -/
noncomputable def probePhase (Np : ℕ) : List ℝ := (phaseInts Np).map fun (k : ℤ) => (k : ℝ) * Real.pi / Np

/-- falco/est.py:337-369: the axis letter of every probe image. -/
def badAxes (axis : String) (Itr Np : ℕ) : Except PyErr (List Char) :=
  let a := axis.toLower
  if a = "y" then .ok ((List.range (2 * Np)).map fun _ => 'y')
  else if a = "x" then .ok ((List.range (2 * Np)).map fun _ => 'x')
  else if a = "alt" ∨ a = "xy" ∨ a = "alternate" then
    if Itr % 2 = 0 then .ok ((List.range (2 * Np)).map fun i => if (i + 1) % 4 = 1 ∨ (i + 1) % 4 = 2 then 'x' else 'y')
    else .ok ((List.range (2 * Np)).map fun i => if (i + 1) % 4 = 1 ∨ (i + 1) % 4 = 2 then 'y' else 'x')
  else if a = "m" ∨ a = "multi" then .ok ((List.range (2 * Np)).map fun _ => 'm')
  else .error .valueError

/-! ## Probe shapes -/

/-- `np.sinc`: normalised sinc, value 1 at 0. -/
noncomputable def sinc (x : ℝ) : ℝ := if x = 0 then 1 else Real.sin (Real.pi * x) / (Real.pi * x)

/-- falco/est.py:757-760 (`np.arange(-(Nact-1)/2, (Nact+1)/2)/Nact - np.round(off)/Nact`) and 841-844 (the same points by
`np.linspace`; Python's `round` is half-even too). -/
noncomputable def actCoord (Nact : ℕ) (off : ℝ) (i : Fin Nact) : ℝ :=
  (-((Nact : ℝ) - 1) / 2 + i) / Nact - (Dm.npRound off : ℝ) / Nact

/-- falco/est.py:764-769 and 848-853: rotation of one coordinate pair through polar coordinates, skipped for angles (degrees) below
`10*eps`. -/
noncomputable def rotCoord (rotation : ℝ) (x y : ℝ) : ℝ × ℝ :=
  if |rotation| > 10 * 2 ^ (-52 : ℤ) then
    let rs := Real.sqrt (x ^ 2 + y ^ 2)
    let th := Complex.arg ⟨x, y⟩
    let r := rotation * Real.pi / 180
    (rs * Real.cos (th - r), rs * Real.sin (th - r))
  else (x, y)

/-- Settings of the square probe (falco/est.py:720-805): `radius` after the clip of lines 772-773. -/
structure SquareCfg where
  (lambda0 xOffset yOffset rotation radius gainFudge : ℝ)

/-- falco/est.py:776-800: surface height of a square probe at the (rotated) coordinates `x, y`.
Axis `'m'` is not a height: `omegaX(i)` at line 793 calls an array, see `genProbeSquare`. -/
noncomputable def squareSurf (c : SquareCfg) (InormDes psi : ℝ) (badAxis : Char) (x y : ℝ) : ℝ :=
  let magn := 4 * Real.pi * c.lambda0 * Real.sqrt InormDes
  if psi = 0 then magn * sinc (2 * c.radius * x) * sinc (2 * c.radius * y)
  else if badAxis = 'y' then
    magn * sinc (c.radius * x) * sinc (2 * c.radius * y) * Real.cos (2 * Real.pi * (c.radius / 2) * x + psi)
  else
    magn * sinc (2 * c.radius * x) * sinc (c.radius * y) * Real.cos (2 * Real.pi * (c.radius / 2) * y + psi)

/-- Settings of the rectangular probe around one star (falco/est.py:808-877), offsets and sizes in λ/D. -/
structure RectCfg where
  (lambda0 xOffset yOffset rotation xiOffset etaOffset width height gainFudge beamD spacing : ℝ)

/-- falco/est.py:856-872: surface height of a rectangular probe. -/
noncomputable def rectSurf (c : RectCfg) (Nact : ℕ) (InormDes phaseShift x y : ℝ) : ℝ :=
  let lamDIntoAct := (Nact : ℝ) / (c.beamD / c.spacing)
  let surfMax := 4 * Real.pi * c.lambda0 * Real.sqrt InormDes
  surfMax * sinc (c.width * lamDIntoAct * x) * sinc (c.height * lamDIntoAct * y) *
    Real.cos (2 * Real.pi * (c.xiOffset * lamDIntoAct * x + c.etaOffset * lamDIntoAct * y) + phaseShift)

/-! ## Fitting the DM to a surface -/

variable {ι : Type} [Fintype ι]

/-- `np.sqrt(np.sum(diff**2))` (prop_fit_dm.py:52,63) -/
noncomputable def rms (d : ι → ℝ) : ℝ := Real.sqrt (∑ i, d i ^ 2)

/-- State of the iteration in `prop_fit_dm`. -/
structure FitState (ι : Type) where
  e0 : ℝ
  e : ℝ
  cmd : ι → ℝ
  lastGood : ι → ℝ
  surf : ι → ℝ
  diff : ι → ℝ

/-- prop_fit_dm.py:45-52: initial state; `L` is `scipy.ndimage.convolve(·, inf_kernel)`, a linear map of the command. -/
noncomputable def fitInit (L : (ι → ℝ) → ι → ℝ) (z : ι → ℝ) : FitState ι :=
  { e0 := 1000000, e := rms (z - L z), cmd := z, lastGood := z, surf := L z, diff := z - L z }

open Classical in
/-- prop_fit_dm.py:55: the loop condition `e < e0 and (e0-e)/e > 0.01`.  For `e = 0` NumPy's quotient is `inf` (with a warning), so the
condition holds. -/
noncomputable def fitCond (s : FitState ι) : Bool := decide (s.e < s.e0 ∧ (s.e = 0 ∨ (s.e0 - s.e) / s.e > 0.01))

/-- prop_fit_dm.py:55-63 loop with a bound `fuel` on the number of evaluations of the condition; `none` means still running.
The `break` of lines 61-62 leaves `e` as it was. -/
noncomputable def fitLoop (L : (ι → ℝ) → ι → ℝ) (z : ι → ℝ) : ℕ → FitState ι → Option (FitState ι)
  | 0, _ => none
  | fuel + 1, s =>
    if fitCond s then
      let cmd := s.cmd + s.diff
      let surf := L cmd
      let diff := z - surf
      let s' : FitState ι := { e0 := s.e, e := s.e, cmd := cmd, lastGood := s.cmd, surf := surf, diff := diff }
      open Classical in
      if ∀ i, |diff i| < 1e-15 then some s' else fitLoop L z fuel { s' with e := rms diff }
    else some s

/-- prop_fit_dm.py:66-69: the returned pair `(dm_z_command, dm_surface)`. -/
noncomputable def fitResult (s : FitState ι) : (ι → ℝ) × (ι → ℝ) := (if s.e > s.e0 then s.lastGood else s.cmd, s.surf)

/-- prop_fit_dm.py:21-69 with fuel. -/
noncomputable def propFitDm (L : (ι → ℝ) → ι → ℝ) (z : ι → ℝ) (fuel : ℕ) : Option ((ι → ℝ) × (ι → ℝ)) :=
  (fitLoop L z fuel (fitInit L z)).map fitResult

/-- falco/dm.py:1023-1026, the end of `fit_surf_to_act`: heights to volts; an actuator with zero gain gets 0
(Lean's `x / 0 = 0`; NumPy's `inf` is replaced by 0, and for height 0 its `nan` stays, which is not modelled). -/
noncomputable def toVolts (VtoH h : ι → ℝ) : ι → ℝ := fun i => h i / VtoH i

/-- A probe command for an `Nact × Nact` surface: falco/est.py:800-805 / 873-875. `fit` is the surface fit selected by
`dm.surfFitMethod` (falco/dm.py:1015-1021). -/
noncomputable def probeCmd {Nact : ℕ} (fit : (Fin Nact × Fin Nact → ℝ) → Fin Nact × Fin Nact → ℝ) (VtoH : Fin Nact × Fin Nact → ℝ)
    (gain : ℝ) (surf : ℝ → ℝ → ℝ) (xOffset yOffset rotation : ℝ) : Fin Nact × Fin Nact → ℝ :=
  let s : Fin Nact × Fin Nact → ℝ := fun p =>
    let q := rotCoord rotation (actCoord Nact xOffset p.2) (actCoord Nact yOffset p.1)
    surf q.1 q.2
  fun p => gain * toVolts VtoH (fit s) p

/-- falco/est.py:720-805 `gen_pairwise_probe_square`.  Checks: `InormDes` must be positive; `badAxis` one of x, y, m;
for `'m'` the statement `omegaX(i)` raises `TypeError` (with at least one fibre). -/
noncomputable def genProbeSquare {Nact : ℕ} (fit : (Fin Nact × Fin Nact → ℝ) → Fin Nact × Fin Nact → ℝ) (VtoH : Fin Nact × Fin Nact → ℝ)
    (c : SquareCfg) (InormDes psi : ℝ) (badAxis : Char) : Except PyErr (Fin Nact × Fin Nact → ℝ) :=
  if InormDes ≤ 0 then .error .valueError
  else if badAxis = 'm' then .error .typeError
  else if badAxis = 'x' ∨ badAxis = 'y' then
    .ok (probeCmd fit VtoH c.gainFudge (squareSurf c InormDes psi badAxis) c.xOffset c.yOffset c.rotation)
  else .error .valueError

/-- falco/est.py:808-877 `gen_pairwise_probe`. -/
noncomputable def genProbeRect {Nact : ℕ} (fit : (Fin Nact × Fin Nact → ℝ) → Fin Nact × Fin Nact → ℝ) (VtoH : Fin Nact × Fin Nact → ℝ)
    (c : RectCfg) (InormDes phaseShift : ℝ) : Except PyErr (Fin Nact × Fin Nact → ℝ) :=
  if c.xiOffset = 0 ∧ c.etaOffset = 0 then .error .valueError
  else .ok (probeCmd fit VtoH c.gainFudge (rectSurf c Nact InormDes phaseShift) c.xOffset c.yOffset c.rotation)

/-! ## Per-pixel batch estimate -/

/-- falco/est.py:489-491: `amp` of one pixel and pair from the three intensities (`ampSq` clipped at 0). -/
noncomputable def probeAmp (I0 Ip Im : ℝ) : ℝ := Real.sqrt (if (Ip + Im) / 2 - I0 < 0 then 0 else (Ip + Im) / 2 - I0)

/-- falco/est.py:493 `zAll`. -/
noncomputable def zMeas (Ip Im : ℝ) : ℝ := (Ip - Im) / 4

/-- falco/est.py:619-621 `goodProbeInds`: pairs with positive amplitude, in order. -/
noncomputable def goodPairs {Np : ℕ} (amp : Fin Np → ℝ) : List (Fin Np) :=
  open Classical in (List.finRange Np).filter fun k => 0 < amp k

/-- falco/est.py:634-638: observation matrix of the good pairs, row `amp·(cos φ, sin φ)`. -/
noncomputable def obsMatrix {Np : ℕ} (amp ph : Fin Np → ℝ) (good : List (Fin Np)) : Matrix (Fin good.length) (Fin 2) ℝ :=
  fun r => ![amp (good.get r) * Real.cos (ph (good.get r)), amp (good.get r) * Real.sin (ph (good.get r))]

/-- falco/est.py:613-650, the branch without Jacobian, for one pixel: fewer than two good pairs give zero, otherwise
`pinv(H[good]) @ z[good]`. -/
noncomputable def estPixel {Np : ℕ} (amp ph z : Fin Np → ℝ) : ℂ :=
  let good := goodPairs amp
  if good.length < 2 then 0
  else
    let x := Pinv.pinv (obsMatrix amp ph good) *ᵥ fun r => z (good.get r)
    ⟨x 0, x 1⟩

/-- falco/est.py:614-617, the branch with Jacobian, for one pixel: `H = np.array([real, imag])` has shape 2×Npairs, so
`pinv(H) @ z` is a shape error unless `Npairs = 2`; the result is read as `Epix[0] + 1j*Epix[1]`. -/
noncomputable def estPixelJac {Np : ℕ} (dE : Fin Np → ℂ) (z : Fin Np → ℝ) : Except PyErr ℂ :=
  if h : Np = 2 then
    let H : Matrix (Fin 2) (Fin Np) ℝ := ![fun k => (dE k).re, fun k => (dE k).im]
    let x : Fin Np → ℝ := Pinv.pinv H *ᵥ fun i => z (Fin.cast h.symm i)
    .ok ⟨x (Fin.cast h.symm 0), x (Fin.cast h.symm 1)⟩
  else .error .valueError

open Classical in
/-- falco/est.py:653: estimates brighter than the threshold are zeroed. -/
noncomputable def threshold (Ith : ℝ) (E : ℂ) : ℂ := if Complex.normSq E > Ith then 0 else E

/-! ## The probing procedure as a state machine -/

/-- The mutable part of the model parameters: commands of DM 1 and DM 2 and everything else (`R`), e.g. pinned-actuator lists. -/
structure World (n1 n2 : ℕ) (R : Type) where
  V1 : Fin n1 × Fin n1 → ℝ
  V2 : Fin n2 × Fin n2 → ℝ
  rest : R

/-- External evaluations used while probing. Both may change the state (`gen_surf_from_act` calls `enforce_constraints`, falco/dm.py:68).
`image si` is `falco.imaging.get_sbp_image(mp, si)`, `field star si` is `falco.model.compact(mp, modvar)`; `P` = detector pixels. -/
structure Optics (P : Type) (n1 n2 : ℕ) (R : Type) where
  image : ℕ → World n1 n2 R → (P → ℝ) × World n1 n2 R
  field : ℕ → ℕ → World n1 n2 R → (P → ℂ) × World n1 n2 R

/-- Settings used by `pairwise_probing`; `gen1`/`gen2` generate the probe command for the chosen DM from star index, unprobed image and probe
index (falco/est.py:441-452); `corr` enumerates the pixels of the correction mask. -/
structure Cfg (P : Type) (n1 n2 : ℕ) where
  npix : ℕ
  corr : Fin npix → P
  Npairs : ℕ
  Nsbp : ℕ
  Nstar : ℕ
  Ithreshold : ℝ
  whichDM : ℤ
  dmInd : List ℤ
  gen1 : ℕ → (P → ℝ) → ℕ → Except PyErr (Fin n1 × Fin n1 → ℝ)
  gen2 : ℕ → (P → ℝ) → ℕ → Except PyErr (Fin n2 × Fin n2 → ℝ)

variable {P : Type} {n1 n2 : ℕ} {R : Type}

/-- falco/est.py:279-285: `dm_ind` during the call.  `list == 1` is `False`, so the probing DM is always appended. -/
def Cfg.ind (c : Cfg P n1 n2) : List ℤ := if c.whichDM = 1 ∨ c.whichDM = 2 then c.dmInd ++ [c.whichDM] else c.dmInd

/-- falco/est.py:454-462: the probe as commands of both DMs. -/
def Cfg.delta (c : Cfg P n1 n2) (star : ℕ) (I0 : P → ℝ) (k : ℕ) :
    Except PyErr ((Fin n1 × Fin n1 → ℝ) × (Fin n2 × Fin n2 → ℝ)) :=
  if c.whichDM = 1 then (c.gen1 star I0 k).map fun p => (p, 0)
  else (c.gen2 star I0 k).map fun p => (0, p)

/-- falco/est.py:464-467: set the commands of the DMs that are in `dm_ind`. -/
def setV (c : Cfg P n1 n2) (w : World n1 n2 R) (v1 : Fin n1 × Fin n1 → ℝ) (v2 : Fin n2 × Fin n2 → ℝ) : World n1 n2 R :=
  { w with V1 := if 1 ∈ c.ind then v1 else w.V1, V2 := if 2 ∈ c.ind then v2 else w.V2 }

/-- falco/est.py:436-510: take the probed images `k = 0, 1, …` in the given order; returns their dark-hole vectors and probe commands. -/
def probeImages (c : Cfg P n1 n2) (o : Optics P n1 n2 R) (nom1 : Fin n1 × Fin n1 → ℝ) (nom2 : Fin n2 × Fin n2 → ℝ) (star si : ℕ)
    (I0 : P → ℝ) : List ℕ → World n1 n2 R →
    Except PyErr (List ((Fin c.npix → ℝ) × ((Fin n1 × Fin n1 → ℝ) × (Fin n2 × Fin n2 → ℝ))) × World n1 n2 R)
  | [], w => .ok ([], w)
  | k :: ks, w => do
    let d ← c.delta star I0 k
    let r := o.image si (setV c w (nom1 + d.1) (nom2 + d.2))
    let t ← probeImages c o nom1 nom2 star si I0 ks r.2
    pure ((fun i => r.1 (c.corr i), (nom1 + d.1, nom2 + d.2)) :: t.1, t.2)

/-- falco/est.py:560-575: model fields for a list of probe commands (only the probing DM is set). -/
def modelFields (c : Cfg P n1 n2) (o : Optics P n1 n2 R) (star si : ℕ) :
    List ((Fin n1 × Fin n1 → ℝ) × (Fin n2 × Fin n2 → ℝ)) → World n1 n2 R → List (Fin c.npix → ℂ) × World n1 n2 R
  | [], w => ([], w)
  | d :: ds, w =>
    let w' : World n1 n2 R := if c.whichDM = 1 then { w with V1 := d.1 } else { w with V2 := d.2 }
    let r := o.field star si w'
    let t := modelFields c o star si ds r.2
    ((fun i => r.1 (c.corr i)) :: t.1, t.2)

/-- Elements of a list with even (`+` probes) position, falco/est.py:497-510 (`iProbe+1` odd), and with odd position. -/
def evens {α : Type} : List α → List α
  | [] => []
  | [a] => [a]
  | a :: _ :: l => a :: evens l
/-- see `evens` -/
def odds {α : Type} : List α → List α
  | [] => []
  | [_] => []
  | _ :: b :: l => b :: odds l

/-- falco/est.py:488-653, branch without Jacobian: the estimate at the correction pixels from the unprobed image, the probed images (in the
order +,−,+,−,…), the model's unprobed field and the model fields of the same commands (evaluated in the same order). -/
noncomputable def analyse {npix : ℕ} (Np : ℕ) (Ith : ℝ) (I0 : Fin npix → ℝ) (imgs : List (Fin npix → ℝ)) (E0 : Fin npix → ℂ)
    (flds : List (Fin npix → ℂ)) : Fin npix → ℂ := fun i =>
  let ip : Fin Np → ℝ := fun k => ((evens imgs).getD k 0) i
  let im : Fin Np → ℝ := fun k => ((odds imgs).getD k 0) i
  let ep : Fin Np → ℂ := fun k => ((evens flds).getD k 0) i
  let em : Fin Np → ℂ := fun k => ((odds flds).getD k 0) i
  threshold Ith (estPixel (fun k => probeAmp (I0 i) (ip k) (im k)) (fun k => Complex.arg ((ep k - E0 i) - (em k - E0 i)))
    (fun k => zMeas (ip k) (im k)))

/-- falco/est.py:388-700: one star and one sub-band.  The returned pair is the estimated field and the incoherent intensity (line 700) at the
correction pixels.  Simplifications: saved images, histories and printing are dropped; the plotting call needs the two DMs to have the same
number of actuators when probing with DM 2 (line 519: `DM1Vplus[:, :, ii] - DM1Vnom` is stored in an array of DM 2's size). -/
noncomputable def estMode (c : Cfg P n1 n2) (o : Optics P n1 n2 R) (nom1 : Fin n1 × Fin n1 → ℝ) (nom2 : Fin n2 × Fin n2 → ℝ)
    (star si : ℕ) (w : World n1 n2 R) :
    Except PyErr (((Fin c.npix → ℂ) × (Fin c.npix → ℝ)) × World n1 n2 R) := do
  let r0 := o.image si { w with V1 := nom1, V2 := nom2 }
  let pr ← probeImages c o nom1 nom2 star si r0.1 (List.range (2 * c.Npairs)) r0.2
  if c.whichDM = 2 ∧ 0 < c.Npairs ∧ n1 ≠ n2 ∧ n1 ≠ 1 then throw PyErr.valueError
  let f0 := o.field star si (setV c pr.2 nom1 nom2)
  let fs := modelFields c o star si (pr.1.map (·.2)) f0.2
  let Eest := analyse c.Npairs c.Ithreshold (fun i => r0.1 (c.corr i)) (pr.1.map (·.1)) (fun i => f0.1 (c.corr i)) fs.1
  pure ((Eest, fun i => r0.1 (c.corr i) - Complex.normSq (Eest i)), fs.2)

/-- falco/est.py:374-386: the loops over stars and sub-bands (mode order: star-major). -/
noncomputable def estLoop (c : Cfg P n1 n2) (o : Optics P n1 n2 R) (nom1 : Fin n1 × Fin n1 → ℝ) (nom2 : Fin n2 × Fin n2 → ℝ) :
    List (ℕ × ℕ) → World n1 n2 R → Except PyErr (List ((Fin c.npix → ℂ) × (Fin c.npix → ℝ)) × World n1 n2 R)
  | [], w => .ok ([], w)
  | m :: ms, w => do
    let r ← estMode c o nom1 nom2 m.1 m.2 w
    let t ← estLoop c o nom1 nom2 ms r.2
    pure (r.1 :: t.1, t.2)

/-- falco/est.py:374-386: `(iStar, iSubband)` in execution order; `modeIndex = iStar*Nsbp + iSubband` is the position. -/
def Cfg.modes (c : Cfg P n1 n2) : List (ℕ × ℕ) := (List.range c.Nstar).flatMap fun s => (List.range c.Nsbp).map fun b => (s, b)

/-- falco/est.py:222-717 `pairwise_probing` without scheduled probe parameters and without Jacobian: estimates per mode and the final
state. -/
noncomputable def pairwise (c : Cfg P n1 n2) (o : Optics P n1 n2 R) (w : World n1 n2 R) :
    Except PyErr (List ((Fin c.npix → ℂ) × (Fin c.npix → ℝ)) × World n1 n2 R) := do
  if ¬ (c.whichDM = 1 ∨ c.whichDM = 2) then throw PyErr.valueError
  let nom1 := if 1 ∈ c.ind then w.V1 else 0
  let nom2 := if 2 ∈ c.ind then w.V2 else 0
  let r ← estLoop c o nom1 nom2 c.modes w
  pure (r.1, setV c r.2 nom1 nom2)

/-! ## Scheduled probe parameters -/

/-- The optional schedules of falco/est.py:246-276. -/
structure Schedule where
  xOffset : Option (List ℝ)
  yOffset : Option (List ℝ)
  rotation : Option (List ℝ)
  InormProbe : Option (List ℝ)

/-- falco/check.py:155 `oneD_array(var, vname, vexc)` called with `nargs` arguments: all three are required. -/
def callOneDArray (nargs : ℕ) : Except PyErr Unit := if nargs = 3 then .ok () else .error .typeError

/-- One of the four checks at falco/est.py:246-276: `check.oneD_array` is called with one argument. -/
def schedEntry (Nitr Itr : ℕ) (cur : ℝ) : Option (List ℝ) → Except PyErr ℝ
  | none => .ok cur
  | some v => do
    callOneDArray 1
    if v.length < Nitr then throw PyErr.valueError
    match v[Itr]? with
    | some x => pure x
    | none => throw PyErr.indexError

/-- falco/est.py:246-276: offsets and rotation used at iteration `Itr`. -/
def schedApply (s : Schedule) (Nitr Itr : ℕ) (x y rot I : ℝ) : Except PyErr (ℝ × ℝ × ℝ × ℝ) := do
  let x' ← schedEntry Nitr Itr x s.xOffset
  let y' ← schedEntry Nitr Itr y s.yOffset
  let r' ← schedEntry Nitr Itr rot s.rotation
  let I' ← schedEntry Nitr Itr I s.InormProbe
  pure (x', y', r', I')

/-! ## Perfect estimator -/

/-- One Jacobian mode of the perfect estimator (falco/est.py:163-167, 178-181). -/
structure Mode where
  sbp : ℕ
  zern : ℕ
  star : ℕ

/-- falco/est.py:156-160 and 185-189: weighted mean over the wavelengths of a sub-band; `E m w` is the full-model field. -/
noncomputable def subbandField {Q : Type} (weights : List ℝ) (E : Mode → ℕ → Q → ℂ) (m : Mode) : Q → ℂ :=
  fun q => ((List.range weights.length).map fun w => (weights.getD w 0 : ℂ) * E m w q).sum

/-- falco/est.py:176-198, serial branch, one mode: the sub-band image is assigned, the estimate appended. -/
noncomputable def serialStep {Q : Type} (weights : List ℝ) (E : Mode → ℕ → Q → ℂ) (acc : (ℕ → Q → ℝ) × List (Q → ℂ)) (m : Mode) :
    (ℕ → Q → ℝ) × List (Q → ℂ) :=
  ((if m.zern = 1 then Function.update acc.1 m.sbp (fun q => Complex.normSq (subbandField weights E m q)) else acc.1),
    acc.2 ++ [subbandField weights E m])

/-- falco/est.py:151-170, parallel branch, one mode: the sub-band image is accumulated.
Simplification: the intermediate arrays of shape `(Nxi, Neta)` (line 125) are taken to be square. -/
noncomputable def parallelStep {Q : Type} (weights : List ℝ) (E : Mode → ℕ → Q → ℂ) (acc : (ℕ → Q → ℝ) × List (Q → ℂ)) (m : Mode) :
    (ℕ → Q → ℝ) × List (Q → ℂ) :=
  ((if m.zern = 1 then Function.update acc.1 m.sbp (fun q => acc.1 m.sbp q + Complex.normSq (subbandField weights E m q)) else acc.1),
    acc.2 ++ [subbandField weights E m])

/-- falco/est.py:172-198, serial branch: image per sub-band and estimate per mode. -/
noncomputable def perfectSerial {Q : Type} (weights : List ℝ) (E : Mode → ℕ → Q → ℂ) (modes : List Mode) :
    (ℕ → Q → ℝ) × List (Q → ℂ) := modes.foldl (serialStep weights E) (fun _ _ => 0, [])

/-- falco/est.py:84-170, parallel branch (the results are re-ordered by mode before use): image per sub-band and estimate per mode. -/
noncomputable def perfectParallel {Q : Type} (weights : List ℝ) (E : Mode → ℕ → Q → ℂ) (modes : List Mode) :
    (ℕ → Q → ℝ) × List (Q → ℂ) := modes.foldl (parallelStep weights E) (fun _ _ => 0, [])

end Verif.Est
