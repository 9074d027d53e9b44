import Verif.Model.Source
import Verif.Model.Imaging

/-!
# Model of the image normalisation: falco/imaging.py `calc_psf_norm_factor` and `_model_full_norm_wrapper`

The plots at the end (`mp.flagPlot`) are not modelled.  `mp.sumPupil` is in `Verif.Model.Thput`.
-/

namespace Verif.Compact
open Verif Complex Verif.Optics

variable {N N4 Neta Nxi Meta Mxi N3 n : ℕ} [NeZero N] [NeZero N4] [NeZero N3]

/-- What one of the models (compact, compact in evaluation mode, full) reads from `mp` independently of the wavelength: `stars` are position and weight of the stars of that model,
`(xNorm, yNorm)` is `mp.source_x_offset_norm, mp.source_y_offset_norm`. -/
structure Scene (N N3 n : ℕ) where
  layout : Layout
  name : CoroName
  apod : Option (Pl N3)
  lambda0 : ℝ
  X : ZMod n → ZMod n → ℝ
  Y : ZMod n → ZMod n → ℝ
  S1 : ZMod N → ZMod N → ℝ
  S2 : ZMod N → ZMod N → ℝ
  stars : List (ℝ × ℝ × ℝ)
  xNorm : ℝ
  yNorm : ℝ

/-- One wavelength of a model: the optical system (its `normFac` is not used) and the input field at that wavelength. -/
structure Chan (N N4 Neta Nxi Meta Mxi n : ℕ) where
  sys : Sys N N4 Neta Nxi Meta Mxi
  E : Pl n

/-- `S` with the given normalisation factor (models.py:680-687; 0 for `isNorm=False`). -/
def Sys.withNorm (S : Sys N N4 Neta Nxi Meta Mxi) (v : ℝ) : Sys N N4 Neta Nxi Meta Mxi := { S with normFac := v }

/-- The source of star number `iStar` (models.py:68-71, 698-701), optionally displaced (`whichSource = 'offaxis'`), `zernIndex = 1`. -/
def Scene.source (c : Scene N N3 n) (star : ℝ × ℝ × ℝ) (off : Option (ℝ × ℝ)) : Source n :=
  { xi := star.1, eta := star.2.1, weight := star.2.2, offaxis := off, xNorm := c.xNorm, yNorm := c.yNorm, zern := none }

/-- `falco.model.compact(mp, modvar, …)` for star `iStar` with the normalisation factor `v` (0 = `isNorm=False`); an index beyond the stars is an IndexError. -/
noncomputable def evalCompact (c : Scene N N3 n) (ch : Chan N N4 Neta Nxi Meta Mxi n) (v : ℝ) (iStar : ℕ) (off : Option (ℝ × ℝ)) : Except PyErr (Fin Meta → Fin Mxi → ℂ) :=
  match c.stars[iStar]? with
  | none => .error .indexError
  | some star => compact (ch.sys.withNorm v) c.layout c.name c.apod c.lambda0 c.X c.Y ch.E (c.source star off) c.S1 c.S2

/-- `falco.model.full(mp, modvar, …)`, likewise. -/
noncomputable def evalFull (c : Scene N N3 n) (ch : Chan N N4 Neta Nxi Meta Mxi n) (v : ℝ) (iStar : ℕ) (off : Option (ℝ × ℝ)) : Except PyErr (Fin Meta → Fin Mxi → ℂ) :=
  match c.stars[iStar]? with
  | none => .error .indexError
  | some star => full (ch.sys.withNorm v) c.layout c.name c.apod c.lambda0 c.X c.Y ch.E (c.source star off) c.S1 c.S2

/-- `(np.abs(E)**2).max()`; `.max()` of an empty array is a ValueError. -/
noncomputable def peak (E : Fin Meta → Fin Mxi → ℂ) : Except PyErr ℝ :=
  if Meta = 0 ∨ Mxi = 0 then .error .valueError else .ok (⨆ p : Fin Meta × Fin Mxi, ‖E p.1 p.2‖ ^ 2)

/-- imaging.py:151-155 (compact) and 158-161 (evaluation mode): one factor. -/
noncomputable def normCompact (c : Scene N N3 n) (ch : Chan N N4 Neta Nxi Meta Mxi n) : Except PyErr ℝ := do
  let E ← evalCompact c ch 0 0 none
  peak E

/-- imaging.py:193-197 and 232-246 (`_model_full_norm_wrapper`): one factor of the full model. -/
noncomputable def normFull (c : Scene N N3 n) (ch : Chan N N4 Neta Nxi Meta Mxi n) : Except PyErr ℝ := do
  let E ← evalFull c ch 0 0 none
  peak E

/-- `mp.Fend.compact.I00`, `mp.Fend.eval.I00` and `mp.Fend.full.I00`. -/
structure Norms where
  compact : List ℝ
  eval : List ℝ
  full : List (List ℝ)

/-- imaging.py:113-197 `calc_psf_norm_factor`, serial: `bc`, `be` are the sub-bands of the compact model with the two camera samplings, `bf` the wavelengths of the sub-bands of the full model.
Without `mp.flagSim` the factors of the full model stay 1 (line 145). -/
noncomputable def calcNorm {N' N4' Neta' Nxi' Meta' Mxi' N3' n' Meta'' Mxi'' : ℕ} [NeZero N'] [NeZero N4'] [NeZero N3'] (flagSim : Bool)
    (cc : Scene N N3 n) (bc : List (Chan N N4 Neta Nxi Meta Mxi n)) (be : List (Chan N N4 Neta Nxi Meta'' Mxi'' n))
    (cf : Scene N' N3' n') (bf : List (List (Chan N' N4' Neta' Nxi' Meta' Mxi' n'))) : Except PyErr Norms := do
  let c ← bc.mapM (normCompact cc)
  let e ← be.mapM (normCompact cc)
  let f ← if flagSim then bf.mapM fun row => row.mapM (normFull cf) else pure (bf.map fun row => row.map fun _ => 1)
  return ⟨c, e, f⟩

end Verif.Compact

namespace Verif.Imaging
open Verif Verif.Setup

/-- What the parallel branch of `calc_psf_norm_factor` reads: numbers of sub-bands and wavelengths per sub-band, the layout, the masks of an HLC (as in `Cfg`), and the unnormalised field of the
first star as a function of the wavelength and of the shared attributes read (`mp.full.polaxis` is not written here and therefore part of `field`). -/
structure NormCfg (P V : Type) where
  nSbp : ℕ
  nWpsbp : ℕ
  layout : Layout
  hlc : Bool
  hasCube : Bool
  maskOf : ℕ → ℕ → V
  field : ℕ → ℕ → List V → P → ℂ

variable {P V : Type}

/-- imaging.py:167-168: `inds_list`. -/
def normInds (c : NormCfg P V) : List (ℕ × ℕ) := (List.range c.nSbp).flatMap fun x => (List.range c.nWpsbp).map fun y => (x, y)

/-- The accesses of one call of `falco.model.full` to the mask shared by the threads (models.py:117-125; 320-342 for the layouts computed by FALCO). -/
def normProg (c : NormCfg P V) (si wi : ℕ) : List (Step Unit V) :=
  (if c.hlc && c.layout != .phase then [.write () (c.maskOf si wi)] else []) ++
    match c.layout with
    | .fourier | .fpmScale => if c.hlc then (if c.hasCube then [.read (), .read ()] else [.read ()]) else []
    | .proper | .phase => []

/-- `np.max(np.abs(Etemp)**2)` -/
noncomputable def normPeak (c : NormCfg P V) (si wi : ℕ) (reads : List V) : ℝ := ⨆ x : P, ‖c.field si wi reads x‖ ^ 2

/-- imaging.py:193-197: the factor found by the serial branch, `m` being the mask left by the previous call. -/
noncomputable def normSerial (c : NormCfg P V) (m : Unit → V) (si wi : ℕ) : ℝ := normPeak c si wi (runAlone m (normProg c si wi)).1

/-- imaging.py:166-191: the parallel branch under the thread schedule `sched`: the factors in the order of `inds_list`; `none` while some call has not finished. -/
noncomputable def normParallel (c : NormCfg P V) (k : ℕ) (m : Unit → V) (sched : List (Fin k)) : Option (List ℝ) :=
  let s := Pool.run ((normInds c).map fun q => normProg c q.1 q.2) (Pool.init m k) sched
  ((List.range (normInds c).length).mapM s.results).map fun reads => List.zipWith (fun q r => normPeak c q.1 q.2 r) (normInds c) reads

/-- imaging.py:145,186-189: `mp.Fend.full.I00`, ones before, filled with the factors in the order of `inds_list`. -/
def normTable (c : NormCfg P V) (vs : List ℝ) : ℕ → ℕ → ℝ :=
  ((normInds c).zip vs).foldl (fun I p => Function.update I p.1.1 (Function.update (I p.1.1) p.1.2 p.2)) fun _ _ => 1

end Verif.Imaging
