import Verif.Model.FullModel

/-!
# Model of the off-axis throughput: falco/imaging.py `calc_thput`, `get_sim_offaxis_image_compact` and the pupil sum of `calc_psf_norm_factor`

Simplification: `mp.P1.compact.mask` and `mp.P1.compact.E[:, :, si]` have the same (square) shape, `n × n`.
-/

namespace Verif.Compact
open Verif Complex Verif.Optics

variable {N N4 Neta Nxi Meta Mxi N3 n : ℕ} [NeZero N] [NeZero N4] [NeZero N3] [NeZero n]

/-- One sub-band of the evaluation model: the optical system at its centre wavelength with the camera sampling of `mp.Fend.eval` and `normFac = mp.Fend.eval.I00[si]` (models.py:683-684, 831-840),
the input field `mp.P1.compact.E[:, :, si]` and `mp.jac.weightMat[si, 0]`. -/
structure EvalBand (N N4 Neta Nxi Meta Mxi n : ℕ) where
  sys : Sys N N4 Neta Nxi Meta Mxi
  E : Pl n
  weight : ℝ

/-- What `calc_thput` reads from `mp`: layout, coronagraph, apodizer, DM surfaces, pupil coordinates, the telescope aperture, the stars of the compact model `(xi, eta, weight)`, `mp.star.count`,
the sub-bands, `mp.Fend.eval.RHOS`, the metric, the radius and the field point. -/
structure ThputCfg (N N4 Neta Nxi Meta Mxi N3 n : ℕ) where
  layout : Layout
  name : CoroName
  apod : Option (Pl N3)
  lambda0 : ℝ
  X : ZMod n → ZMod n → ℝ
  Y : ZMod n → ZMod n → ℝ
  S1 : ZMod N → ZMod N → ℝ
  S2 : ZMod N → ZMod N → ℝ
  mask : Pl n
  stars : List (ℝ × ℝ × ℝ)
  starCount : ℕ
  bands : List (EvalBand N N4 Neta Nxi Meta Mxi n)
  RHOS : Fin Meta → Fin Mxi → ℝ
  metric : String
  radius : ℝ
  x : ℝ
  y : ℝ

/-- The camera field of one star in one sub-band (imaging.py:621-626): `whichSource = 'offaxis'`, `zernIndex = 1`. -/
noncomputable def offaxisField (c : ThputCfg N N4 Neta Nxi Meta Mxi N3 n) (star : ℝ × ℝ × ℝ) (b : EvalBand N N4 Neta Nxi Meta Mxi n) : Except PyErr (Fin Meta → Fin Mxi → ℂ) :=
  compact b.sys c.layout c.name c.apod c.lambda0 c.X c.Y b.E
    { xi := star.1, eta := star.2.1, weight := star.2.2, offaxis := some (c.x, c.y), xNorm := 0, yNorm := 0, zern := none } c.S1 c.S2

/-- imaging.py:622-627, the inner loop over the sub-bands, added to `Iout`. -/
noncomputable def offaxisBands (c : ThputCfg N N4 Neta Nxi Meta Mxi N3 n) (star : ℝ × ℝ × ℝ) :
    List (EvalBand N N4 Neta Nxi Meta Mxi n) → (Fin Meta → Fin Mxi → ℝ) → Except PyErr (Fin Meta → Fin Mxi → ℝ)
  | [], Iout => .ok Iout
  | b :: bs, Iout => do
    let E2D ← offaxisField c star b
    offaxisBands c star bs fun e x => Iout e x + ‖E2D e x‖ ^ 2 * b.weight

/-- imaging.py:618-627, the outer loop: star indices `iStar, iStar+1, …` (`k` of them); an index beyond the stars of the compact model is an IndexError. -/
noncomputable def offaxisStars (c : ThputCfg N N4 Neta Nxi Meta Mxi N3 n) : ℕ → ℕ → (Fin Meta → Fin Mxi → ℝ) → Except PyErr (Fin Meta → Fin Mxi → ℝ)
  | _, 0, Iout => .ok Iout
  | iStar, k + 1, Iout =>
    match c.stars[iStar]? with
    | none => if c.bands = [] then .ok Iout else .error .indexError
    | some s => do
      let I ← offaxisBands c s c.bands Iout
      offaxisStars c (iStar + 1) k I

/-- imaging.py:583-629 `get_sim_offaxis_image_compact(mp, x, y, isEvalMode=True)`. -/
noncomputable def offaxisImage (c : ThputCfg N N4 Neta Nxi Meta Mxi N3 n) : Except PyErr (Fin Meta → Fin Mxi → ℝ) :=
  offaxisStars c 0 c.starCount fun _ _ => 0

/-- imaging.py:131-133: `mp.sumPupil`. -/
noncomputable def sumPupil (c : ThputCfg N N4 Neta Nxi Meta Mxi N3 n) : ℝ :=
  ∑ i, ∑ j, ‖c.mask i j * ((c.bands.map fun b => b.E i j).sum / c.bands.length)‖ ^ 2

/-- `np.mean(mp.Fend.eval.I00)` -/
noncomputable def meanI00 (c : ThputCfg N N4 Neta Nxi Meta Mxi N3 n) : ℝ := (c.bands.map fun b => b.sys.normFac).sum / c.bands.length

open Classical in
/-- imaging.py:67-110 `calc_thput`: the throughput (the image is returned as well). -/
noncomputable def calcThput (c : ThputCfg N N4 Neta Nxi Meta Mxi N3 n) : Except PyErr ℝ := do
  let I ← offaxisImage c
  if c.metric.toLower = "hmi" then
    return (∑ e, ∑ x, if I e x ≥ 0.5 * ⨆ p : Fin Meta × Fin Mxi, I p.1 p.2 then I e x else 0) / sumPupil c * meanI00 c
  else if c.metric.toLower = "ee" ∨ c.metric.toLower = "e.e." then
    return (∑ e, ∑ x, if c.RHOS e x ≤ c.radius then I e x else 0) / sumPupil c * meanI00 c
  else throw .unboundLocal

end Verif.Compact
