import Verif.Model.NoFpm

/-!
# Model of the truth model: falco/model/models.py `full` and `full_Fourier`, next to `compact`

The parameters of the full model (`mp.P2.full.dx`, `mp.full.NdmPad`, `mp.F3.full…`, `mp.Fend.full.I00[si, wi]`) are a `Sys` of the same shape as those of the compact model; `Sys.fpmScale` is
`fpmScaleFac`.  Only the layouts computed by FALCO itself (`fourier`, `fpm_scale`) are modelled; the PROPER layouts call user prescriptions.
For an HLC the mask and its outer transmission come from `fpmCube` (`mask[0,0]`), the branch without `fpmCube` is not modelled.  The chromatic vortex (array charge) is not modelled.
-/

namespace Verif.Compact
open Verif Complex Verif.Optics

variable {N N4 Neta Nxi Meta Mxi N3 : ℕ} [NeZero N] [NeZero N4] [NeZero N3]

/-- `mp.coro.upper()` -/
inductive CoroName
  | lc        -- LC, APLC
  | hlc
  | splc      -- SPLC, FLC
  | vortex    -- VORTEX, VC
  | avc
  deriving DecidableEq

/-- The masks given fit the name: `1` outside the occulter of an LC/APLC. -/
def CoroName.Fits (name : CoroName) : Coro Neta Nxi → Prop
  | .babinet _ t => (name = .lc ∧ t = 1) ∨ name = .hlc
  | .flc _ => name = .splc
  | .vortex .. => name = .vortex ∨ name = .avc

/-- models.py:257-306 (`full_Fourier`): from the input field to P2, with `Edm1WFE = Edm2WFE = 1`; with `flagDMwfe` the two arrays are never assigned (258-261). -/
noncomputable def fullToP2 (S : Sys N N4 Neta Nxi Meta Mxi) (Ein : Pl N) (S1 S2 : ZMod N → ZMod N → ℝ) : Except PyErr (Pl N) := do
  let EP1 : Pl N := fun i j => S.pupil i j * Ein i j
  let EP2 := relay EP1 (S.rel S.n12) S.centering
  let Edm1 ← ptp EP2 (S.dx * N) S.wvl S.dP2dm1
  if S.flagDMwfe then throw .unboundLocal
  let Edm1b : Pl N := fun i j => Edm1 i j * 1 * S.stop1 i j * exp (2 * 2 * Real.pi * I * S1 i j / S.wvl)
  let Edm2 ← ptp Edm1b (S.dx * N) S.wvl S.d12
  let Edm2 : Pl N := fun i j => Edm2 i j * (1 * S.stop2 i j * exp (2 * 2 * Real.pi * I * S2 i j / S.wvl))
  ptp Edm2 (S.dx * N) S.wvl (-1 * (S.d12 + S.dP2dm1))

/-- models.py:308-398 (`full_Fourier`): from P3 to P4.  For LC/APLC (320-325) the inverse MFT gets the unscaled vertical step of the mask and a *scaled* pupil sampling; for the vortex the array is
cropped before the relay (389-393). `AVC` is not in the list of names (369). -/
noncomputable def fullP3to4 {M : ℕ} [NeZero M] (S : Sys N N4 Neta Nxi Meta Mxi) (name : CoroName) (EP3 : Pl M) : Except PyErr (Pl N4) :=
  match S.coro with
  | .babinet mask t =>
    let EF3inc := mftP2f (toFin EP3) S.fl S.wvl S.dx (S.fpmScale * S.dxiF3) Nxi (S.fpmScale * S.detaF3) Neta S.centering
    match name with
    | .lc =>
      let EF3 : Fin Neta → Fin Nxi → ℂ := fun e x => (1 - mask e x) * EF3inc e x
      let EP4sub := ofFin (mftF2p EF3 S.fl S.wvl (S.fpmScale * S.dxiF3) S.detaF3 (S.fpmScale * S.dx4) N4 S.centering)
      let EP4noFPM := relay EP3 (S.rel S.n34) S.centering
      let EP4sub := relay EP4sub (S.rel S.n34 - 1) S.centering
      .ok fun i j => padF N4 EP4noFPM i j - EP4sub i j
    | .hlc =>
      let EF3 : Fin Neta → Fin Nxi → ℂ := fun e x => (t - mask e x) * EF3inc e x
      let EP4noFPM := relay EP3 (S.rel S.n34) S.centering
      let EP4noFPM : Pl N4 := fun i j => t * padF N4 EP4noFPM i j
      let EP4sub := ofFin (mftF2p EF3 S.fl S.wvl (S.fpmScale * S.dxiF3) (S.fpmScale * S.detaF3) S.dx4 N4 S.centering)
      let EP4sub := relay EP4sub (S.rel S.n34 - 1) S.centering
      .ok fun i j => EP4noFPM i j - EP4sub i j
    | _ => .error .valueError
  | .flc mask =>
    let EF3inc := mftP2f (toFin EP3) S.fl S.wvl S.dx (S.fpmScale * S.dxiF3) Nxi (S.fpmScale * S.detaF3) Neta S.centering
    let EF3 : Fin Neta → Fin Nxi → ℂ := fun e x => mask e x * EF3inc e x
    let EP4 := ofFin (mftF2p EF3 S.fl S.wvl (S.fpmScale * S.dxiF3) (S.fpmScale * S.detaF3) S.dx4 N4 S.centering)
    .ok (relay EP4 (S.rel S.n34 - 1) S.centering)
  | .vortex D NB vm tk =>
    if name = .avc then .error .valueError
    else
      let EP4 := ofFin (mftP2v2pOf false D 4 5 NB vm tk (toFin EP3))
      let EP4 := padF N4 EP4
      .ok (relay EP4 (S.rel S.n34 - 1) S.centering)

open Classical in
/-- models.py:400-422 (`full_Fourier`): for a vortex the FPM is taken out when the normalisation is being computed (`normFac == 0`); Lyot stop (in place, equivalent), relay, MFT to the camera,
normalisation only for `normFac ≠ 0`. -/
noncomputable def fullP3toEnd {M : ℕ} [NeZero M] (S : Sys N N4 Neta Nxi Meta Mxi) (name : CoroName) (EP3 : Pl M) : Except PyErr (Fin Meta → Fin Mxi → ℂ) := do
  let EP4 ← fullP3to4 S name EP3
  let EP4 : Pl N4 := if S.normFac = 0 ∧ (name = .vortex ∨ name = .avc) then padF N4 (relay EP3 (S.rel S.n34) S.centering) else EP4
  let EP4 : Pl N4 := fun i j => EP4 i j * S.lyot i j
  let EP4 := relay EP4 (S.rel S.nEnd) S.centering
  let EFend := mftP2f (toFin EP4) S.fl S.wvl S.dx4 S.dxi Mxi S.deta Meta S.centering
  return if S.normFac = 0 then EFend else fun e x => EFend e x / Real.sqrt S.normFac

/-- models.py:193-424 `full_Fourier`; `Ein` already zero-padded to `NdmPad`. -/
noncomputable def fullFourier (S : Sys N N4 Neta Nxi Meta Mxi) (name : CoroName) (apod : Option (Pl N3)) (Ein : Pl N) (S1 S2 : ZMod N → ZMod N → ℝ) :
    Except PyErr (Fin Meta → Fin Mxi → ℂ) := do
  let EP2eff ← fullToP2 S Ein S1 S2
  let EP3 := relay EP2eff (S.rel S.n23) S.centering
  match apod with
  | none => fullP3toEnd S name EP3
  | some m => fullP3toEnd S name (fun i j => m i j * padF N3 EP3 i j : Pl N3)

/-- `S` without normalisation (dividing by 1). -/
def Sys.unnorm (S : Sys N N4 Neta Nxi Meta Mxi) : Sys N N4 Neta Nxi Meta Mxi := { S with normFac := 1 }

open Classical in
/-- models.py:770-1040 `compact_general` for any `normFac` (with `normFac = 0` nothing is divided, 1034-1037, and for a vortex the FPM is taken out, 925-927). -/
noncomputable def compactAny (S : Sys N N4 Neta Nxi Meta Mxi) (name : CoroName) (apod : Option (Pl N3)) (Ein : Pl N) (S1 S2 : ZMod N → ZMod N → ℝ) :
    Except PyErr (Fin Meta → Fin Mxi → ℂ) :=
  if S.normFac = 0 then
    if name = .vortex ∨ name = .avc then compactNoFpm S.unnorm apod Ein S1 S2 else compactApod S.unnorm apod Ein S1 S2
  else compactApod S apod Ein S1 S2

/-- `modvar` and the star parameters used for the input field: star position and weight, off-axis source, source offset of the normalisation, Zernike mode (map on the `n × n` grid of P1 and
`mp.jac.Zcoef`; `none` is `zernIndex = 1`). -/
structure Source (n : ℕ) where
  xi : ℝ
  eta : ℝ
  weight : ℝ
  offaxis : Option (ℝ × ℝ)
  xNorm : ℝ
  yNorm : ℝ
  zern : Option (Pl n × ℝ)

/-- `np.exp(1j*TTphase*mp.lambda0/wvl)` with `TTphase = (-1)*(2*np.pi*(x*XsDL + y*YsDL))`. -/
noncomputable def tilt {n : ℕ} (lambda0 wvl : ℝ) (X Y : ZMod n → ZMod n → ℝ) (x y : ℝ) : Pl n := fun i j =>
  exp (I * ((-1) * (2 * Real.pi * (x * X i j + y * Y i j)) : ℝ) * lambda0 / wvl)

open Classical in
/-- The part common to models.py:63-92 (`full`) and 691-717 (`compact`): input field before the Zernike factor. -/
noncomputable def einBase {n : ℕ} (lambda0 wvl : ℝ) (X Y : ZMod n → ZMod n → ℝ) (E : Pl n) (normFac : ℝ) (s : Source n) : Pl n :=
  let Ein : Pl n := fun i j => Real.sqrt s.weight * tilt lambda0 wvl X Y s.xi s.eta i j * E i j
  let Ein : Pl n := match s.offaxis with
    | some (x, y) => fun i j => Ein i j * tilt lambda0 wvl X Y x y i j
    | none => Ein
  if normFac = 0 then fun i j => Ein i j * tilt lambda0 wvl X Y s.xNorm s.yNorm i j else Ein

/-- models.py:94-104 (`full`): Zernike factor `2*np.pi/wvl`, without the imaginary unit. -/
noncomputable def einFull {n : ℕ} (lambda0 wvl : ℝ) (X Y : ZMod n → ZMod n → ℝ) (E : Pl n) (normFac : ℝ) (s : Source n) : Pl n :=
  match s.zern with
  | none => einBase lambda0 wvl X Y E normFac s
  | some (Z, c) => fun i j => einBase lambda0 wvl X Y E normFac s i j * Z i j * (2 * Real.pi / wvl) * c

/-- models.py:719-735 (`compact`): Zernike factor `2*np.pi*1j/wvl`. -/
noncomputable def einComp {n : ℕ} (lambda0 wvl : ℝ) (X Y : ZMod n → ZMod n → ℝ) (E : Pl n) (normFac : ℝ) (s : Source n) : Pl n :=
  match s.zern with
  | none => einBase lambda0 wvl X Y E normFac s
  | some (Z, c) => fun i j => einBase lambda0 wvl X Y E normFac s i j * (Z i j * (2 * Real.pi * I / wvl) * c)

/-- The layouts whose full model FALCO computes itself. -/
inductive Layout
  | fourier
  | fpmScale
  deriving DecidableEq

/-- models.py:125-131 with 237-240: FPM scale factor of the full model. -/
noncomputable def Layout.fullScale (l : Layout) (wvl lambda0 : ℝ) : ℝ := match l with
  | .fourier => 1
  | .fpmScale => wvl / lambda0

/-- models.py:750-767 with 826-829: FPM scale factor of the compact model; scaled for an HLC only. -/
noncomputable def Layout.compactScale (l : Layout) (name : CoroName) (wvl lambda0 : ℝ) : ℝ := match l with
  | .fourier => 1
  | .fpmScale => if name = .hlc then wvl / lambda0 else 1

/-- `S` with the given FPM scale factor. -/
def Sys.withScale (S : Sys N N4 Neta Nxi Meta Mxi) (f : ℝ) : Sys N N4 Neta Nxi Meta Mxi := { S with fpmScale := f }

/-- models.py:22-190 `full` at one wavelength, layouts `fourier` and `fpm_scale`. -/
noncomputable def full {n : ℕ} (S : Sys N N4 Neta Nxi Meta Mxi) (l : Layout) (name : CoroName) (apod : Option (Pl N3)) (lambda0 : ℝ) (X Y : ZMod n → ZMod n → ℝ) (E : Pl n) (s : Source n)
    (S1 S2 : ZMod N → ZMod N → ℝ) : Except PyErr (Fin Meta → Fin Mxi → ℂ) :=
  fullFourier (S.withScale (l.fullScale S.wvl lambda0)) name apod (padF N (einFull lambda0 S.wvl X Y E S.normFac s)) S1 S2

/-- models.py:640-767 `compact` at one wavelength (`isEvalMode = False`, `useFPM = True`), layouts `fourier` and `fpm_scale`. -/
noncomputable def compact {n : ℕ} (S : Sys N N4 Neta Nxi Meta Mxi) (l : Layout) (name : CoroName) (apod : Option (Pl N3)) (lambda0 : ℝ) (X Y : ZMod n → ZMod n → ℝ) (E : Pl n) (s : Source n)
    (S1 S2 : ZMod N → ZMod N → ℝ) : Except PyErr (Fin Meta → Fin Mxi → ℂ) :=
  compactAny (S.withScale (l.compactScale name S.wvl lambda0)) name apod (padF N (einComp lambda0 S.wvl X Y E S.normFac s)) S1 S2

end Verif.Compact
