import Verif.Model.Dm

/-! # Model of the detector (falco/imaging.py:12-64) -/

namespace Verif.Detector
open Verif

/-- `mp.detector` (falco/setup.py:415-428). -/
structure Det where
  gain : ℝ
  darkCurrentRate : ℝ
  readNoiseStd : ℝ
  wellDepth : ℝ
  peakFluxVec : List ℝ
  tExpVec : List ℝ
  Nexp : ℕ

/-- The random draws of one call, for each exposure and pixel: photo-electrons (`np.random.poisson`, line 47), dark electrons (line 53) and the standard normal deviate (line 57). -/
structure Draws (P : Type) where
  shot : ℕ → P → ℕ
  dark : ℕ → P → ℕ
  gauss : ℕ → P → ℝ

variable {P : Type}

/-- falco/imaging.py:56-63: one exposure in counts. -/
noncomputable def exposure (d : Det) (r : Draws P) (e : ℕ) (x : P) : ℝ :=
  let readNoise := d.readNoiseStd * r.gauss e x
  (Dm.npRound ((r.shot e x + r.dark e x + readNoise) / d.gain) : ℤ)

open Classical in
/-- falco/imaging.py:12-66 `add_noise_to_subband_image`: the draws are an argument. `np.random.poisson` raises ValueError for a negative mean. Simplification: `gain`, `peakCounts` and `Nexp`
are not 0 where they divide (numpy would give inf or nan). -/
noncomputable def addNoise (d : Det) (r : Draws P) (image : P → ℝ) (si : ℕ) : Except PyErr (P → ℝ) :=
  match d.peakFluxVec[si]?, d.tExpVec[si]? with
  | some flux, some tExp =>
    let peakCounts := flux * tExp
    let peakElectrons := d.gain * peakCounts
    if 0 < d.Nexp ∧ ((∃ x, peakElectrons * image x < 0) ∨ (Nonempty P ∧ d.darkCurrentRate * tExp < 0)) then .error .valueError
    else .ok fun x => (List.range d.Nexp).foldl (fun c e => c + exposure d r e x / d.Nexp) 0 / peakCounts
  | _, _ => .error .indexError

end Verif.Detector
