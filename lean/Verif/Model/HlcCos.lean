import Verif.Model.HlcSurf
import Mathlib.Analysis.SpecialFunctions.Complex.Arg

/-!
# Model of the cosine basis of an HLC mask and of the set-up of the mask: `setup_fpm_cosine`, `setup_fpm` (falco/hlc.py), `falco_gen_fpm` (falco/setup.py)

Simplifications: real arithmetic; the parameters that are only copied are left out; every parameter the functions read is taken to be present.
-/

namespace Verif.HlcCos
open Verif Verif.Util Verif.HlcSurf

/-- The parameters `setup_fpm_cosine` reads (falco/hlc.py:245-). -/
structure Cfg where
  resFull : ℝ
  resCompact : ℝ
  actres : ℝ
  Rin : ℝ
  RinA : ℝ
  minAzim : ℝ
  centering : Centering
  V0coef : ℝ
  VtoHavg : ℝ

/-- falco/hlc.py:255-256, 280 -/
noncomputable def Cfg.drSep (c : Cfg) : ℝ := 1 / c.actres / 2
noncomputable def Cfg.Nrad (c : Cfg) : ℕ := ⌈2 * c.actres * c.Rin⌉.toNat

/-- falco/hlc.py:260 -/
noncomputable def Cfg.NdmPad (c : Cfg) : ℕ := (ceilEven (1 + 2 * c.Rin * c.resCompact)).toNat

/-- falco/hlc.py:265-271: `Rc[y, x]`. -/
noncomputable def Cfg.R (c : Cfg) (y x : ℕ) : ℝ :=
  let xc : ℕ → ℝ := fun k => match c.centering with
    | .pixel => (-(c.NdmPad : ℝ) / 2 + k) / c.resCompact
    | .interpixel => (-((c.NdmPad : ℝ) - 1) / 2 + k) / c.resCompact
  Real.sqrt (xc x ^ 2 + xc y ^ 2)

/-- falco/hlc.py:274-278: `windowFull` at radius `R`. -/
noncomputable def Cfg.window (c : Cfg) (R : ℝ) : ℝ :=
  (if R ≤ c.Rin then 1 else 0) * Real.exp (-(R / c.Rin / (c.Rin / (c.Rin + 0.1) * 1)) ^ 44)

/-- falco/hlc.py:302-310: ring `ri` at radius `R`. -/
noncomputable def Cfg.ring (c : Cfg) (ri : ℕ) (R : ℝ) : ℝ :=
  let m := c.window R * (1 + (-1) ^ ((ri + 1) % 2) * Real.cos (2 * Real.pi * (R * c.actres - 0.5))) / 2
  let m := if ri = 1 then (if R < c.drSep then 1 else m) else (if R < c.drSep * ((ri : ℝ) - 1) then 0 else m)
  if R > c.drSep * ((ri : ℝ) + 1) then 0 else m

/-- falco/hlc.py:286-295: the rings with azimuthal modes. -/
noncomputable def Cfg.rings (c : Cfg) : List ℕ :=
  let start := ⌊c.actres / 2⌋.toNat + 1
  List.range' start (c.Nrad + 1 - start)

/-- falco/hlc.py:282, 349-353: number of lobes for ring `ri`: the first of 12, 24, ..., 360 that is not below `powmin`; if there is none `argmin` of an array of
infinities is 0, that is 12. -/
noncomputable def Cfg.lobes (c : Cfg) (ri : ℕ) : ℕ :=
  open Classical in
  let powmin := 2 * Real.pi * (c.drSep * ((ri : ℝ) - 1)) / c.minAzim * 18
  (((List.range 30).map fun k => 12 * (k + 1)).find? fun (p : ℕ) => decide (powmin ≤ (p : ℝ))).getD 12

/-- falco/hlc.py:316-322: `THETA[y, x]`.  For centering 'interpixel' the axis `np.arange((N-1)/2, (N+1)/2)` has a single point, and the 1 × 1 arrays made from it are broadcast. -/
noncomputable def Cfg.theta (c : Cfg) (y x : ℕ) : ℝ := match c.centering with
  | .pixel => Complex.arg ⟨-(c.NdmPad : ℝ) / 2 + x, -(c.NdmPad : ℝ) / 2 + y⟩
  | .interpixel => Complex.arg ⟨((c.NdmPad : ℝ) - 1) / 2, ((c.NdmPad : ℝ) - 1) / 2⟩

/-- falco/hlc.py:327: `THETA6 = np.fliplr(THETA)`. -/
noncomputable def Cfg.theta6 (c : Cfg) (y x : ℕ) : ℝ := c.theta y (c.NdmPad - 1 - x)

/-- `th - dth/2 < t < th + dth/2` -/
def near (t th dth : ℝ) : Prop := t < th + dth / 2 ∧ t > th - dth / 2

open Classical in
/-- falco/hlc.py:354-378: the azimuthal factor of cosine mode `II` with `power` lobes, at a pixel where `THETA` is `t` and `THETA6` is `t6`. -/
noncomputable def cosFactor (power II : ℕ) (t t6 : ℝ) : ℝ :=
  let numdiv : ℝ := (power / 6 : ℕ)
  let dth := 2 * Real.pi / power
  let th := Real.pi / 2 + II * (Real.pi / 3) / numdiv
  let thRev := Real.pi / 2 + Real.pi / 3 - II * (Real.pi / 3) / numdiv
  let tot := near t th dth ∨ near (t + Real.pi / 3 * 2) th dth ∨ near (t + Real.pi / 3 * 4) th dth ∨ near (t + Real.pi / 3) thRev dth ∨
    near (t + Real.pi / 3 * 3) thRev dth ∨ near t6 (th - Real.pi / 2 - Real.pi / 3 / 2) dth
  (Real.cos (t * power) + 1) * (if tot then 1 else 0)

open Classical in
/-- falco/hlc.py:402-419: the azimuthal factor of sine mode `II`. -/
noncomputable def sinFactor (power II : ℕ) (t t6 : ℝ) : ℝ :=
  let dth := 2 * Real.pi / power
  let th := Real.pi / 2 + II * (Real.pi / 3 + Real.pi / 6) / 3 + Real.pi / 12
  let ind := if th < Real.pi then near t th dth else near t6 (Real.pi - th) dth
  let tot := ind ∨ near (t + Real.pi / 3 * 2) th dth ∨ near (t + Real.pi / 3 * 4) th dth
  (-Real.cos (t * power) + 1) * (if tot then 1 else 0)

/-- falco/hlc.py:378: cosine mode `II` of ring `ri`. -/
noncomputable def Cfg.cosMode (c : Cfg) (ri II : ℕ) (y x : ℕ) : ℝ := cosFactor (c.lobes ri) II (c.theta y x) (c.theta6 y x) * c.ring ri (c.R y x) / 2

/-- falco/hlc.py:419: sine mode `II` of ring `ri`. -/
noncomputable def Cfg.sinMode (c : Cfg) (ri II : ℕ) (y x : ℕ) : ℝ := sinFactor (c.lobes ri) II (c.theta y x) (c.theta6 y x) * c.ring ri (c.R y x) / 2

/-- falco/hlc.py:334-380: the cosine modes `(ring, II)` in the order they are made.  `range(numdiv+1)` is evaluated once per ring, and the loop sets `numdiv` for the
following ring; `th_arr[II]` has `power/6 + 1` entries. -/
noncomputable def Cfg.cosList (c : Cfg) : List ℕ → ℕ → Except PyErr (List (ℕ × ℕ))
  | [], _ => .ok []
  | ri :: rs, numdiv =>
    if c.lobes ri / 6 < numdiv then .error .indexError
    else (c.cosList rs (c.lobes ri / 6)).map fun l => ((List.range (numdiv + 1)).map fun II => (ri, II)) ++ l

/-- falco/hlc.py:383-421: the sine modes in order. -/
noncomputable def Cfg.sinList (c : Cfg) : List (ℕ × ℕ) := c.rings.flatMap fun ri => (List.range 4).map fun II => (ri, II)

/-- falco/hlc.py:284-296: `mp.dm9.NactTotal`. -/
noncomputable def Cfg.NactTotal (c : Cfg) : ℕ := c.Nrad + 3 * c.rings.length + 4 * c.rings.length

/-- falco/hlc.py:297-421: `inf_datacube[y, x, i]`.  Writing a mode at or beyond `NactTotal` raises `IndexError`. -/
noncomputable def Cfg.cube (c : Cfg) : Except PyErr (ℕ → ℕ → ℕ → ℝ) :=
  (c.cosList c.rings 2).bind fun cl =>
    if c.NactTotal < c.Nrad + cl.length + c.sinList.length then .error .indexError
    else .ok fun y x i =>
      if i < c.Nrad then c.ring (i + 1) (c.R y x)
      else match cl[i - c.Nrad]? with
        | some p => c.cosMode p.1 p.2 y x
        | none => match c.sinList[i - c.Nrad - cl.length]? with
          | some p => c.sinMode p.1 p.2 y x
          | none => 0

/-- falco/hlc.py:452-453, 466-470, 482-485: DM 9 with the initial commands. -/
noncomputable def Cfg.dm9 (c : Cfg) (inf : ℕ → ℕ → ℕ → ℝ) : Cube where
  NactTotal := c.NactTotal
  NdmPad := c.NdmPad
  Nbox := c.NdmPad
  lowerLeft := fun _ _ => 0
  inf := fun a b i => inf a b i.val
  V := fun i => if i.val < c.Nrad then c.V0coef else 0
  VtoH := fun _ => c.VtoHavg

/-- falco/mask.py:13-1810: the functions of the module `falco.mask`, and (1-10) the names it imports. -/
def maskNames : List String :=
  ["_init_proper", "falco_gen_DM_stop", "falco_gen_pupil_Roman_CGI_20200513", "falco_gen_pupil_WFIRST_CGI_180718", "falco_gen_SW_mask", "falco_gen_bowtie_FPM",
    "gen_bowtie_fpm", "falco_gen_annular_FPM", "gen_annular_fpm", "falco_gen_bowtie_LS", "gen_bowtie_lyot_stop", "falco_gen_pupil_LUVOIR_A_final", "falco_gen_pupil_LUVOIR_B",
    "falco_hex_aperture_LUVOIR_A", "falco_hex_aperture_LUVOIR_B", "falco_gen_pupil_Simple", "falco_gen_pupil_customHex", "falco_gen_vortex_mask", "gen_ellipse",
    "falco_gen_ellipse", "rotate_shift_downsample_pupil_mask", "np", "math", "cos", "sin", "RectBivariateSpline", "rotate", "proper", "falco", "check", "ceil_even", "cosd", "sind"]

/-- `falco.mask.<name>` -/
def maskAttr (name : String) : Except PyErr Unit := if name ∈ maskNames then .ok () else .error .attributeError

/-- falco/hlc.py:241-538 `setup_fpm_cosine`: how it ends, and the `inf_datacube` it leaves in DM 9 (if it came that far).  The mask (527) is the first thing computed after
the cube that can fail besides the test in 509. -/
noncomputable def setupCosine (c : Cfg) : Except PyErr Unit × Option (ℕ → ℕ → ℕ → ℝ) :=
  if c.resFull ≠ c.resCompact then (.error .valueError, none)
  else match c.cube with
    | .error e => (.error e, none)
    | .ok q => (if ¬ (c.Rin = c.RinA) then .error .valueError else maskAttr "gen_annular_FPM", some q)

/-- `a in b` for strings: `a` occurs in `b`. -/
def isIn (a b : String) : Bool := decide (a.toList <:+: b.toList)

/-- The parameters that decide how `setup_fpm` ends: the name of the influence function in lower case, the centering, whether `flagDM9inf3x3` is set, whether the file
of the Xinetics influence function is in the working directory, whether DM 9 has an `inf0` already (number of its rows) and `r_cent_act` from before, and whether Rin = RinA. -/
structure Cfg3 where
  inf0name : String
  centering : Centering
  flag3x3 : Bool
  xineticsFile : Option ℕ
  oldInf0 : Option ℕ
  oldRcent : Bool
  sameRin : Bool

/-- falco/hlc.py:545-572: rows of `mp.dm9.inf0`.  For 'lanczos3' `Lx.T @ Lx` of a vector is a number, which cannot be sliced; `none` for the missing file is
`FileNotFoundError`, which is not among the errors of the model and is given as `keyError`. -/
def Cfg3.inf0 (c : Cfg3) : Except PyErr (Option ℕ) :=
  if isIn c.inf0name "3x3" then .ok (some 3)
  else if isIn c.inf0name "lanczos3" then .error .indexError
  else if isIn c.inf0name "xinetics" then (match c.xineticsFile with | some k => .ok (some k) | none => .error .keyError)
  else .ok c.oldInf0

/-- falco/hlc.py:541-705 `setup_fpm`: how it ends. -/
def setupFpm (c : Cfg3) : Except PyErr Unit :=
  c.inf0.bind fun inf0 =>
    if c.flag3x3 ∧ c.centering = .interpixel then .error .valueError
    else match inf0 with
      | none => .error .attributeError
      | some k =>
        if k = 3 ∧ c.centering = .interpixel then .error .valueError
        else if k ≠ 3 ∧ c.oldRcent = false then .error .attributeError
        else if ¬ c.sameRin then .error .valueError
        else maskAttr "gen_annular_FPM"

/-- falco/setup.py:873-899 `falco_gen_fpm`: how it ends (`ok` means it did not raise).  `upper` is `inf0name.upper()`; the comparison with '3foldZern' can never hold, as that has lower-case letters. -/
noncomputable def genFpm (fourier hlc : Bool) (upper : String) (c : Cfg) (c3 : Cfg3) : Except PyErr Unit :=
  if fourier && hlc then
    if upper = "COS" ∨ upper = "COSINE" then (setupCosine c).1 else setupFpm c3
  else .ok ()

end Verif.HlcCos
