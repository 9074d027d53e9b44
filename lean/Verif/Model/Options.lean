import Verif.Model.Arr
import Mathlib.Data.Real.Basic

/-!
# Model of the text options of FALCO: `verify_key_values` (falco/setup.py) and every place where they choose what is done
(falco/est.py, falco/ctrl.py, falco/wfsc.py, falco/model/models.py, falco/model/jacobians.py, falco/plot.py)

Python's `str.lower` and `str.upper` are parameters.  Only the choices are modelled here: the work of each branch is the subject of other models, and is taken to succeed.
-/

namespace Verif.Options
open Verif

/-- falco/setup.py:80 -/
def allowedCenterings : List String := ["pixel", "interpixel"]
/-- falco/setup.py:81-82 -/
def allowedCoronagraphTypes : List String := ["VC", "VORTEX", "LC", "APLC", "FLC", "SPLC", "HLC"]
/-- falco/setup.py:83-85 -/
def allowedLayouts : List String := ["fourier", "fpm_scale", "proper", "roman_phasec_proper", "wfirst_phaseb_proper"]
/-- falco/setup.py:86-88 -/
def allowedEstimators : List String := ["perfect", "pairwise", "pairwise-square", "pwp-bp-square", "pairwise-rect", "pwp-bp", "pwp-kf"]
/-- falco/setup.py:89 -/
def allowedControllers : List String := ["gridsearchefc", "plannedefc", "ad-efc"]

/-- The text options of `mp`. -/
structure Keys where
  centering : String
  coro : String
  layout : String
  estimator : String
  controller : String
deriving DecidableEq

/-- falco/setup.py:78-117 `verify_key_values`: how the call ends and the options afterwards (changed in place, also when the call raises). -/
def verify (lower upper : String → String) (k : Keys) : Except PyErr Unit × Keys :=
  let k := { k with centering := lower k.centering }
  if k.centering ∉ allowedCenterings then (.error .valueError, k) else
  let k := { k with coro := upper k.coro }
  if k.coro ∉ allowedCoronagraphTypes then (.error .valueError, k) else
  let k := { k with layout := lower k.layout }
  if k.layout ∉ allowedLayouts then (.error .valueError, k) else
  let k := { k with estimator := lower k.estimator }
  if k.estimator ∉ allowedEstimators then (.error .valueError, k) else
  let k := { k with controller := lower k.controller }
  if k.controller ∉ allowedControllers then (.error .valueError, k) else
  (.ok (), k)

/-! ## Estimation -/

/-- What `est.wrapper` calls; the flag says that the Jacobian is handed over. -/
inductive EstCall where
  | perfect
  | pairwise (withJac : Bool)
deriving DecidableEq

/-- falco/est.py:32-46 `wrapper`: which estimator is run; `none`: none at all, the call just returns. -/
def estWrapper (estimator : String) (useJac : Bool) : Option EstCall :=
  if estimator = "perfect" then some .perfect
  else if estimator ∈ ["pairwise", "pairwise-square", "pairwise-rect", "pwp-bp-square", "pwp-bp", "pwp-kf"] then some (.pairwise useJac)
  else none

/-- Shape of the probes. -/
inductive Probe where
  | square
  | rect
deriving DecidableEq

/-- falco/est.py:435-445: `probeCmd` is not defined for other estimators (UnboundLocalError at 448). -/
def probeKind (estimator : String) : Except PyErr Probe :=
  if estimator ∈ ["pairwise", "pairwise-square", "pwp-bp-square"] then .ok .square
  else if estimator ∈ ["pairwise-rect", "pwp-bp", "pwp-kf"] then .ok .rect
  else .error .unboundLocal

/-- `a[i:j] = v` for a part of `a` with one column and a vector `v` of length `m` (falco/est.py:655-656): the vector must have length one. -/
def assignColumn (m : ℕ) : Except PyErr Unit := if m = 1 then .ok () else .error .valueError

/-- falco/est.py:589-675: the estimate of one subband, from the condition of the batch process to the saving of the estimate. `npix` pixels, iteration `itr`,
`start` is `mp.est.ItrStartKF`. -/
def saveEstimate (estimator : String) (itr start : ℕ) (npix : ℕ) : Except PyErr Unit :=
  if estimator ∈ ["pairwise", "pairwise-square", "pairwise-rect", "pwp-bp", "pwp-bp-square"] ∨ (estimator = "pwp-kf" ∧ itr < start) then
    if estimator = "pwp-kf" then
      -- est.py:653-656: the loop over the pixels; each step assigns two numbers to a slice with one column
      (List.range npix).foldlM (fun _ _ => assignColumn 2) ()
    else .ok ()
  else .error .unboundLocal -- est.py:674: `Eest` is not defined

/-! ## Control -/

/-- Which controller is run. -/
inductive CtrlCall where
  | adEfc
  | planned
  | gridSearch
deriving DecidableEq

/-- falco/ctrl.py:38-103: for another string `dDM` is not defined (UnboundLocalError at 107). -/
def ctrlWrapper (lower : String → String) (controller : String) : Except PyErr CtrlCall :=
  if lower controller = "ad-efc" then .ok .adEfc
  else if lower controller = "plannedefc" then .ok .planned
  else if lower controller = "gridsearchefc" then .ok .gridSearch
  else .error .unboundLocal

/-! ## Coronagraph and layout -/

/-- Which propagation between the apodizer and the Lyot stop. -/
inductive Branch where
  | lyot    -- Babinet's principle with an opaque spot (LC, APLC)
  | hlc     -- Babinet's principle with a complex mask (HLC)
  | flc     -- through the mask (FLC, SPLC)
  | vortex
deriving DecidableEq

/-- falco/model/models.py:300-398 (`full_Fourier`). -/
def fullBranch (upper : String → String) (coro : String) : Except PyErr Branch :=
  if upper coro ∈ ["LC", "APLC"] then .ok .lyot
  else if upper coro = "HLC" then .ok .hlc
  else if upper coro = "SPLC" ∨ upper coro = "FLC" then .ok .flc
  else if upper coro ∈ ["VORTEX", "VC"] then .ok .vortex
  else .error .valueError

/-- falco/model/models.py:930-1001 (`compact_general`, with the mask) and 816-819 (the transmission outside of the mask, that of the HLC). For other strings `EP4` is not
defined (UnboundLocalError at 1004). -/
def compactBranch (upper : String → String) (coro : String) : Except PyErr Branch :=
  if upper coro ∈ ["VORTEX", "VC", "AVC"] then .ok .vortex
  else if upper coro = "FLC" ∨ upper coro = "SPLC" then .ok .flc
  else if upper coro ∈ ["LC", "APLC", "HLC"] then (if upper coro = "HLC" then .ok .hlc else .ok .lyot)
  else .error .unboundLocal

/-- falco/model/models.py:547-591 (`compact_reverse_gradient`) and 463-466. -/
def gradBranch (upper : String → String) (coro : String) : Except PyErr Branch :=
  if upper coro ∈ ["VORTEX", "VC", "AVC"] then .ok .vortex
  else if upper coro = "FLC" ∨ upper coro = "SPLC" then .ok .flc
  else if upper coro ∈ ["LC", "APLC", "HLC"] then (if upper coro = "HLC" then .ok .hlc else .ok .lyot)
  else .error .valueError

/-- falco/model/jacobians.py:268-275, 427-446: the branches of `lyot` (for other strings the mask is not defined). -/
def lyotBranch (upper : String → String) (coro : String) : Except PyErr Branch :=
  if upper coro ∈ ["LC", "APLC", "FLC", "SPLC", "HLC"] then
    if upper coro ∈ ["LC", "APLC", "HLC"] then (if upper coro = "HLC" then .ok .hlc else .ok .lyot) else .ok .flc
  else .error .unboundLocal

/-- falco/model/models.py:1318-1350 `_jac_middle_layer`. -/
def jacBranch (lower upper : String → String) (layout coro : String) : Except PyErr Branch :=
  if lower layout ∈ ["fourier", "proper", "fpm_scale"] then
    if upper coro ∈ ["LC", "APLC", "HLC", "FLC", "SPLC"] then lyotBranch upper coro
    else if upper coro ∈ ["VC", "AVC", "VORTEX"] then .ok .vortex
    else .error .unboundLocal
  else if lower layout ∈ ["wfirst_phaseb_proper", "roman_phasec_proper"] then
    if upper coro ∈ ["HLC", "SPC", "SPLC"] then lyotBranch upper coro else .error .valueError
  else .error .valueError

/-- falco/model/models.py:1260-1275 `write_jac_slices`: the same choice without the layout. -/
def sliceBranch (upper : String → String) (coro : String) : Except PyErr Branch :=
  if upper coro ∈ ["LC", "APLC", "HLC", "FLC", "SPLC"] then lyotBranch upper coro
  else if upper coro ∈ ["VC", "AVC", "VORTEX"] then .ok .vortex
  else .error .unboundLocal

/-- falco/model/models.py:753-766 (`compact`) with 825-829: the factor by which the samples of the focal-plane mask are wider at wavelength `wvl`; for another layout
`Eout` is not defined. -/
noncomputable def compactScale (lower upper : String → String) (layout coro : String) (wvl lambda0 : ℝ) : Except PyErr ℝ :=
  if lower layout = "fourier" then .ok 1
  else if lower layout ∈ ["roman_phasec_proper", "wfirst_phaseb_proper", "proper", "fpm_scale"] then
    (if upper coro = "HLC" then .ok (wvl / lambda0) else .ok 1)
  else .error .unboundLocal

/-- falco/model/jacobians.py:254-261: the same factor in the control Jacobian. -/
noncomputable def jacScale (lower : String → String) (layout : String) (wvl lambda0 : ℝ) : ℝ :=
  if lower layout = "fpm_scale" then wvl / lambda0 else 1

/-- falco/model/models.py:574-588: the same factor in `compact_reverse_gradient`, which uses `mp.F3.compact.dxi` as it is. -/
def gradScale : ℝ := 1

/-! ## One iteration -/

/-- The options that decide how an iteration of `wfsc.loop` goes. -/
structure Opts where
  keys : Keys
  useJac : Bool   -- mp.est.flagUseJac
  svd : Bool      -- mp.flagSVD
  start : ℕ       -- mp.est.ItrStartKF
  npix : ℕ        -- pixels of the dark hole

/-- The attributes of the Jacobian made by falco/model/models.py:1089-1097. -/
def jacAttributes : List String := ["G1", "G2"]

/-- An attribute of the Jacobian (`none` is Python's None). -/
def getAttr (jac : Option (List String)) (name : String) : Except PyErr Unit := match jac with
  | none => .error .attributeError
  | some l => if name ∈ l then .ok () else .error .attributeError

/-- falco/wfsc.py:74-88: the Jacobian of the iteration. -/
def iterJac (lower upper : String → String) (o : Opts) : Except PyErr (Option (List String)) :=
  if lower o.keys.controller ≠ "ad-efc" then (jacBranch lower upper o.keys.layout o.keys.coro).map fun _ => some jacAttributes
  else .ok none

/-- falco/est.py:32-46, 435-448, 528-540, 589-675: the estimation of the iteration (one subband and star; probes on DM 1 or DM 2, `probeDm`). -/
def iterEst (o : Opts) (probeDm itr : ℕ) (jac : Option (List String)) : Except PyErr Unit :=
  match estWrapper o.keys.estimator o.useJac with
  | none => .ok ()
  | some .perfect => .ok ()
  | some (.pairwise withJac) =>
    (probeKind o.keys.estimator).bind fun _ =>
    (if withJac then getAttr jac (if probeDm = 1 then "G1" else "G2") else .ok ()).bind fun _ =>
    saveEstimate o.keys.estimator itr o.start o.npix

/-- falco/wfsc.py:113-115, falco/plot.py:244-247: the singular mode spectrum reads four blocks of the Jacobian. -/
def iterSvd (o : Opts) (jac : Option (List String)) : Except PyErr Unit :=
  if o.svd then ["G1", "G2", "G8", "G9"].forM fun a => getAttr jac a else .ok ()

/-- falco/wfsc.py:37-124: one iteration as far as the options decide it: Jacobian, estimation, singular modes, control. -/
def iteration (lower upper : String → String) (o : Opts) (probeDm itr : ℕ) : Except PyErr CtrlCall :=
  (iterJac lower upper o).bind fun jac =>
  (iterEst o probeDm itr jac).bind fun _ =>
  (iterSvd o jac).bind fun _ =>
  ctrlWrapper lower o.keys.controller

end Verif.Options
