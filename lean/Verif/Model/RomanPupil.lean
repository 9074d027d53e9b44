import Verif.Model.Arr
import Verif.Model.Util
import Mathlib.Analysis.SpecialFunctions.Complex.Arg
import Mathlib.Analysis.Real.Pi.Bounds

/-!
The pupils of the Roman telescope: `falco_gen_pupil_Roman_CGI_20200513` (falco/mask.py 68-331) and
`falco_gen_pupil_WFIRST_CGI_180718` (falco/mask.py 334-563).

A point of the pupil plane is a complex number, in units of the beam diameter. The functions issue a
list of calls of PROPER (a shape, its centre, filled with ones or with zeros); the image of a shape is
given by a function `draw` of the shape and of the place of its centre relative to the pixel, which is
how `prop_ellipse` and `prop_rectangle` compute it (their images are the subject of C101 and C102).
`clear` is the shape itself, without pixels.

Simplified: real numbers in place of floats; the numbers of the fits are kept as in the file; the
errors of the routines of PROPER (shapes outside the array) are not modelled here.
-/

namespace Verif.RomanPupil

open Verif.Util (Centering ceilEven)

/-- The keys that `changes` may have (falco/mask.py 143-180, 408-442). Other keys are not read. -/
structure Changes where
  xShear : Option ℝ := none
  yShear : Option ℝ := none
  magFac : Option ℝ := none
  clockDeg : Option ℝ := none
  flagRot180 : Option Bool := none
  padAll : Option ℝ := none
  padStrut : Option ℝ := none
  padCobs : Option ℝ := none
  padCobsTabs : Option ℝ := none
  padOd : Option ℝ := none
  flagLyot : Option Bool := none
  ID : Option ℝ := none
  OD : Option ℝ := none
  wStrut : Option ℝ := none
  wStrutVec : Option (List ℝ) := none

/-- What both functions work with after reading `changes`. -/
structure Par where
  shear : ℂ
  mag : ℝ
  clock : ℝ
  rot180 : Bool
  padStrut : ℝ
  padCobs : ℝ
  padTabs : ℝ
  padOd : ℝ
  width : List ℝ

/-- The bulk changes and the paddings (falco/mask.py 168-180, 416-442). -/
def Par.ofChanges (c : Changes) (width : List ℝ) : Par where
  shear := ⟨c.xShear.getD 0, c.yShear.getD 0⟩
  mag := c.magFac.getD 1
  clock := c.clockDeg.getD 0
  rot180 := c.flagRot180.getD false
  padStrut := c.padStrut.getD 0 + c.padAll.getD 0
  padCobs := c.padCobs.getD 0 + c.padAll.getD 0
  padTabs := c.padCobsTabs.getD 0 + c.padAll.getD 0
  padOd := c.padOd.getD 0 + c.padAll.getD 0
  width := width

/-- The widths of the struts: `wStrutVec` over `wStrut` over the fit (falco/mask.py 160-163, 410-411). -/
def widths (c : Changes) (fit : List ℝ) : List ℝ :=
  match c.wStrutVec with
  | some v => v
  | none => match c.wStrut with
    | some w => List.replicate 6 w
    | none => fit

/-- Degrees to radians (falco/mask.py 173, 433). -/
noncomputable def rad (deg : ℝ) : ℝ := deg * (Real.pi / 180)

/-- `rotMat @ [x, y]` (falco/mask.py 183-184 and 226-228; 445-446). -/
noncomputable def rotated (t : ℝ) (z : ℂ) : ℂ :=
  ⟨Real.cos t * z.re - Real.sin t * z.im, Real.sin t * z.re + Real.cos t * z.im⟩

/-- The shapes: an ellipse with its two radii and its ROTATION (a circle has two equal radii and no
ROTATION), a rectangle with its two sizes and its ROTATION. -/
inductive Shape
  | ell (xr yr rotation : ℝ)
  | rect (xs ys rotation : ℝ)

/-- One call; `dark`: an obscuration. -/
structure Call where
  shape : Shape
  dark : Bool
  centre : ℂ

/-- The points of a shape, relative to its centre. Ellipse: falco/proper/prop_ellipse.py 81, 105-107
(the point is turned by ROTATION and compared with the radii). Rectangle: the corners
`(±xs/2, ±ys/2)` turned by ROTATION (falco/proper/prop_rectangle.py 106-121). -/
def Shape.has : Shape → ℂ → Prop
  | .ell xr yr r, d =>
    ((d.re * Real.cos (rad r) - d.im * Real.sin (rad r)) / xr) ^ 2 +
      ((d.re * Real.sin (rad r) + d.im * Real.cos (rad r)) / yr) ^ 2 ≤ 1
  | .rect xs ys r, d =>
    ∃ u : ℂ, |u.re| ≤ 0.5 * xs ∧ |u.im| ≤ 0.5 * ys ∧ d = rotated (rad r) u

/-- Does the call leave the point clear? An aperture is clear inside, an obscuration outside. -/
def Call.clear (c : Call) (p : ℂ) : Prop :=
  if c.dark then ¬ c.shape.has (p - c.centre) else c.shape.has (p - c.centre)

/-- A strut of a fit: its centre, its angle in degrees. -/
structure Strut where
  centre : ℂ
  angle : ℝ

/-- The call of one strut of length `0.55` (falco/mask.py 220-230, 498-507). -/
noncomputable def strutCall (P : Par) (s : Strut) (w : ℝ) : Call where
  shape := .rect (P.mag * 0.55) (P.mag * (w + 2 * P.padStrut)) (s.angle + P.clock)
  dark := true
  centre := rotated (rad P.clock) ⟨P.mag * s.centre.re, P.mag * s.centre.im⟩ + P.shear

/-- The loop over the struts: a width that is not there is an IndexError (falco/mask.py 222, 500). -/
noncomputable def strutCalls (P : Par) : List Strut → List ℝ → Except PyErr (List Call)
  | [], _ => .ok []
  | _ :: _, [] => .error .indexError
  | s :: ss, w :: ws => (strutCalls P ss ws).map (strutCall P s w :: ·)

/-- An ellipse about a centre of the fit, with a clocking (falco/mask.py 234-254, 289-302). -/
noncomputable def ellCall (P : Par) (dark : Bool) (xr yr : ℝ) (c : ℂ) : Call where
  shape := .ell (P.mag * xr) (P.mag * yr) (-P.clock)
  dark := dark
  centre := rotated (rad P.clock) ⟨P.mag * c.re, P.mag * c.im⟩ + P.shear

/-- A circle about a centre of the fit (falco/mask.py 314-324 with `c = 0`, 477-495, 542-551). -/
noncomputable def circCall (P : Par) (dark : Bool) (r : ℝ) (c : ℂ) : Call where
  shape := .ell (P.mag * r) (P.mag * r) 0
  dark := dark
  centre := rotated (rad P.clock) ⟨P.mag * c.re, P.mag * c.im⟩ + P.shear

/-! ## The angles of a tab -/

/-- falco/mask.py 272-274: `while (ang2 > 2*np.pi) and (ang1 > 2*np.pi)`. -/
noncomputable def turnsDown (a1 a2 : ℝ) : ℝ × ℝ :=
  if 2 * Real.pi < a2 ∧ 2 * Real.pi < a1 then turnsDown (a1 - 2 * Real.pi) (a2 - 2 * Real.pi)
  else (a1, a2)
termination_by ⌈a1⌉₊
decreasing_by
  rename_i h
  have hpi : (3 : ℝ) < Real.pi := Real.pi_gt_three
  have h1 : ⌈a1 - 2 * Real.pi⌉₊ + 1 = ⌈a1 - 2 * Real.pi + 1⌉₊ := (Nat.ceil_add_one (by linarith [h.2])).symm
  have h2 : ⌈a1 - 2 * Real.pi + 1⌉₊ ≤ ⌈a1⌉₊ := Nat.ceil_mono (by linarith)
  omega

/-- falco/mask.py 275-277: `while (ang2 < -2*np.pi) and (ang1 < -2*np.pi)`. -/
noncomputable def turnsUp (a1 a2 : ℝ) : ℝ × ℝ :=
  if a2 < -2 * Real.pi ∧ a1 < -2 * Real.pi then turnsUp (a1 + 2 * Real.pi) (a2 + 2 * Real.pi)
  else (a1, a2)
termination_by ⌈-a1⌉₊
decreasing_by
  rename_i h
  have hpi : (3 : ℝ) < Real.pi := Real.pi_gt_three
  have h1 : ⌈-(a1 + 2 * Real.pi)⌉₊ + 1 = ⌈-(a1 + 2 * Real.pi) + 1⌉₊ :=
    (Nat.ceil_add_one (by linarith [h.2])).symm
  have h2 : ⌈-(a1 + 2 * Real.pi) + 1⌉₊ ≤ ⌈-a1⌉₊ := Nat.ceil_mono (by linarith)
  omega

/-- falco/mask.py 278-286: the angle of the pixel, brought to the turn of the two angles. -/
noncomputable def sameTurn (a1 a2 th : ℝ) : ℝ :=
  if (a2 < 2 * Real.pi ∧ Real.pi < a2) ∧ (a1 < Real.pi ∨ 0 < a1) then
    (if th < 0 then th + 2 * Real.pi else th)
  else if 2 * Real.pi < a2 ∧ (Real.pi < a1 ∧ a1 < 2 * Real.pi) then th + 2 * Real.pi
  else if a1 < -Real.pi ∧ -Real.pi < a2 then (if 0 < th then th - 2 * Real.pi else th)
  else if a1 < -Real.pi ∧ a2 < -Real.pi then th - 2 * Real.pi
  else th

/-- falco/mask.py 270-288: is a pixel of angle `th` between the two angles of the tab? -/
def between (a1 a2 th : ℝ) : Prop :=
  let b := turnsDown a1 a2
  let e := turnsUp b.1 b.2
  sameTurn e.1 e.2 th ≤ e.2 ∧ e.1 ≤ sameTurn e.1 e.2 th

/-- A tab of the fit: its two angles, the centre and the radii of its ellipse. -/
structure Tab where
  a1 : ℝ
  a2 : ℝ
  centre : ℂ
  xr : ℝ
  yr : ℝ

/-- falco/mask.py 263-288: the sector of a tab at the point `p`. The vertex of the sector is at minus
the centre of the ellipse: `XS + magFac*xyShear[0] - xShear`. -/
def inSector (P : Par) (t : Tab) (p : ℂ) : Prop :=
  let s := rotated (rad P.clock) t.centre
  between (t.a1 + rad P.clock) (t.a2 + rad P.clock)
    (Complex.arg ⟨p.re + P.mag * s.re - P.shear.re, p.im + P.mag * s.im - P.shear.im⟩)

/-- falco/mask.py 290-302: the ellipse of a tab. -/
noncomputable def tabCall (P : Par) (t : Tab) : Call :=
  ellCall P true (t.xr + P.padTabs) (t.yr + P.padTabs) t.centre

/-! ## The fit of 2020-05-13 -/

/-- falco/mask.py 94-95. -/
noncomputable def od : ℝ := 2 * 4027.25

/-- A strut between two ends (falco/mask.py 107-117). -/
noncomputable def strutOfEnds (x1 y1 x2 y2 : ℝ) : Strut where
  centre := ⟨(x1 / od + x2 / od) / 2, (y1 / od + y2 / od) / 2⟩
  angle := Complex.arg ⟨x2 / od - x1 / od, y2 / od - y1 / od⟩ * (180 / Real.pi)

/-- falco/mask.py 107-119. -/
noncomputable def romanStruts : List Strut :=
  [strutOfEnds 843.9 550.85 1579.9 3866.85, strutOfEnds 728 580.35 3988 (-511.65),
   strutOfEnds 47.5 (-970.65) 2429.7 (-3214.65), strutOfEnds (-192) (-1097.15) (-2484) (-3256.15),
   strutOfEnds (-676) 605.55 (-3988) (-504.45), strutOfEnds (-816.65) 458.85 (-1572.65) 3866.85]

/-- falco/mask.py 116. -/
noncomputable def romanWidths : List ℝ :=
  [257 / od, 259 / od, 258 / od, 258 / od, 259 / od, 257 / od]

/-- falco/mask.py 128. -/
noncomputable def deltaAngle : ℝ := 2.5 * Real.pi / 16

/-- falco/mask.py 121-134. -/
noncomputable def romanTabs : List Tab :=
  [⟨0.616 - deltaAngle / 2, 0.616 + deltaAngle / 2, ⟨0, 53.85 / od⟩, 1343 / od, 1353 / od⟩,
   ⟨2.54 - deltaAngle / 2, 2.54 + deltaAngle / 2, ⟨0, 53.85 / od⟩, 1343 / od, 1353 / od⟩,
   ⟨-1.57 - deltaAngle / 2, -1.57 + deltaAngle / 2, ⟨0, 67.6 / od⟩, 1364 / od, 1374 / od⟩]

/-- What the function draws: the calls of the first wavefront and the tabs. -/
structure Drawing where
  calls : List Call
  tabs : List Tab

/-- falco/mask.py 144-157: the Lyot stop mode, with its inner and outer diameter. -/
def lyotOf (c : Changes) : Except PyErr (Option (ℝ × ℝ)) :=
  if c.flagLyot.getD false then
    match c.ID with
    | none => .error .valueError
    | some i => match c.OD with
      | none => .error .valueError
      | some o => .ok (some (i, o))
  else .ok none

/-- falco/mask.py 96-105, 234-254: the primary and the secondary mirror. -/
noncomputable def romanMirrors (P : Par) : List Call :=
  [ellCall P false (3990 / od - P.padOd) (4027.25 / od - P.padOd) 0,
   ellCall P true (1209.65 / od + P.padCobs) (1220 / od + P.padCobs) ⟨0 / od, -2.95 / od⟩]

/-- falco/mask.py 314-324: the two circles of a Lyot stop. -/
noncomputable def lyotCircles (P : Par) (i o : ℝ) : List Call :=
  [circCall P false (o / 2) 0, circCall P true (i / 2) 0]

/-- falco/mask.py 144-326. -/
noncomputable def romanDrawing (c : Changes) : Except PyErr Drawing :=
  (lyotOf c).bind fun l =>
    let P := Par.ofChanges c (widths c romanWidths)
    (strutCalls P romanStruts P.width).map fun ss =>
      match l with
      | none => ⟨ss ++ romanMirrors P, romanTabs⟩
      | some (i, o) => ⟨ss ++ lyotCircles P i o, []⟩

/-- The points that the pupil leaves clear: the shape without pixels. A tab blocks the part of its
ellipse that is in its sector (falco/mask.py 303-310). -/
def Drawing.open (P : Par) (d : Drawing) (p : ℂ) : Prop :=
  (∀ c ∈ d.calls, c.clear p) ∧ ∀ t ∈ d.tabs, ¬ (inSector P t p ∧ ¬ (tabCall P t).clear p)

/-! ## The array -/

/-- falco/mask.py 187-192: the number of pixels across the array. -/
noncomputable def romanSize (c : Centering) (nbeam : ℝ) (P : Par) : ℤ :=
  match c with
  | .pixel => ceilEven (nbeam * max (2 * |P.shear.re|) (2 * |P.shear.im|) + nbeam * max P.mag 1 + 1)
  | .interpixel => ceilEven (nbeam * max (2 * |P.shear.re|) (2 * |P.shear.im|) + nbeam * max P.mag 1)

/-- falco/mask.py 208-213, 467-472: the shift of all the centres; `dx = 1/nbeam`. -/
noncomputable def cshift (c : Centering) (rot180 : Bool) (nbeam : ℝ) : ℂ :=
  match c with
  | .interpixel => ⟨-(1 / nbeam) / 2, -(1 / nbeam) / 2⟩
  | .pixel => if rot180 then ⟨-(1 / nbeam), -(1 / nbeam)⟩ else 0

/-- The place of column `j` and row `i` for the routines of PROPER (falco/proper/prop_ellipse.py
65-66: pixel `N//2` is at zero). -/
noncomputable def place (N : ℤ) (nbeam : ℝ) (i j : ℤ) : ℂ :=
  ⟨((j : ℝ) - (N : ℝ) / 2) / nbeam, ((i : ℝ) - (N : ℝ) / 2) / nbeam⟩

/-- falco/mask.py 194-199: the coordinates `XS`, `YS`, for the tabs. -/
noncomputable def gridAt (c : Centering) (N : ℤ) (nbeam : ℝ) (i j : ℤ) : ℂ :=
  match c with
  | .interpixel => ⟨(-((N : ℝ) - 1) / 2 + j) / nbeam, (-((N : ℝ) - 1) / 2 + i) / nbeam⟩
  | .pixel => ⟨(-((N : ℝ) / 2) + j) / nbeam, (-((N : ℝ) / 2) + i) / nbeam⟩

/-- The factor of one call at a pixel (falco/proper/prop_ellipse.py 99-152): a function of the shape
and of the place of the pixel relative to the centre, shifted by `cs`. -/
noncomputable def factor (draw : Shape → Bool → ℂ → ℝ) (cs q : ℂ) (c : Call) : ℝ :=
  draw c.shape c.dark (q - (c.centre + cs))

open Classical in
/-- The factor of one tab at a pixel (falco/mask.py 288, 303-307): `q` the place of the pixel for
PROPER, `g` its coordinates `XS`, `YS`. -/
noncomputable def tabFactor (draw : Shape → Bool → ℂ → ℝ) (P : Par) (cs q g : ℂ) (t : Tab) : ℝ :=
  1 - (if inSector P t g then 1 else 0) * (1 - factor draw cs q (tabCall P t))

/-- falco/mask.py 216-331, row `i` and column `j`: the pupil before and after `np.rot90(pupil, 2)`. -/
noncomputable def image (draw : Shape → Bool → ℂ → ℝ) (c : Centering) (nbeam : ℝ) (N : ℤ) (P : Par)
    (d : Drawing) (i j : ℤ) : ℝ :=
  let before := fun i j : ℤ =>
    let cs := cshift c P.rot180 nbeam
    (d.tabs.map (tabFactor draw P cs (place N nbeam i j) (gridAt c N nbeam i j))).prod *
      |(d.calls.map (factor draw cs (place N nbeam i j))).prod|
  if P.rot180 then before (N - 1 - i) (N - 1 - j) else before i j

/-! ## The fit of 2018-07-18 -/

/-- falco/mask.py 374-397: centres and angles of the struts. -/
noncomputable def wfirstStruts : List Strut :=
  [⟨⟨1.637164789600492e-01, 2.695837795868052e-01⟩, 4.308638741879215e+01⟩,
   ⟨⟨3.311169704392094e-01, 7.744558909460633e-03⟩, 1.828091850580443e+01⟩,
   ⟨⟨1.542050924925356e-01, -2.885875977555251e-01⟩, -7.736372240624411e+01⟩,
   ⟨⟨-1.556442459316893e-01, -2.874651682155463e-01⟩, 7.746228722667239e+01⟩,
   ⟨⟨-3.075636241385107e-01, -7.319997758726773e-04⟩, -1.833049685311381e+01⟩,
   ⟨⟨-1.712399202747162e-01, 2.748434070552074e-01⟩, -4.310697246349373e+01⟩]

/-- falco/mask.py 366-373. -/
noncomputable def wfirstWidths : List ℝ :=
  [3.219259259259259e-02, 3.219259259259259e-02, 3.219259259259259e-02, 3.219259259259258e-02,
   3.219259259259259e-02, 3.219259259259259e-02]

/-- falco/mask.py 398-405, 524-529: the angles of the tabs (`angTabStart[0] > angTabEnd[0]`, so the
first branch runs), as (end, start). -/
noncomputable def wfirstAngles : List (ℝ × ℝ) :=
  [(1.344727938801013, 1.815774989921760), (-7.527300509955320e-01, -3.487710035839058e-01),
   (-2.822938064533701, -2.416523875732038)]

/-- falco/mask.py 363-364. -/
noncomputable def tabCentre : ℂ := ⟨-1.973684210526340e-04, -6.250000000000000e-03⟩

/-- falco/mask.py 362. -/
noncomputable def idTabs : ℝ := 3.144078947368421e-01

/-- falco/mask.py 356-361, 408-409, 477-507: the mirrors and the struts. -/
noncomputable def wfirstCalls (c : Changes) (P : Par) : Except PyErr (List Call) :=
  (strutCalls P wfirstStruts P.width).map fun ss =>
    [circCall P false (c.OD.getD 1.000130208333333 / 2 - P.padOd)
        ⟨8.680555555555557e-06, 8.680555555555557e-06⟩,
     circCall P true (c.ID.getD 3.030133333333332e-01 / 2 + P.padCobs)
        ⟨-1.155555555555556e-04, -6.133333333333334e-04⟩] ++ ss

/-- falco/mask.py 515-529: the mask of the tabs at the point `p`: the centre is neither turned nor
magnified, and the angles are not brought to the turn of the pixel. -/
def wfirstSector (P : Par) (p : ℂ) : Prop :=
  let z : ℂ := ⟨p.re + tabCentre.re - P.shear.re, p.im + tabCentre.im - P.shear.im⟩
  z.re ^ 2 + z.im ^ 2 ≤ (1.3 * P.mag * idTabs / 2) ^ 2 ∧
    ∃ a ∈ wfirstAngles, a.1 + rad P.clock ≤ Complex.arg z ∧ Complex.arg z ≤ a.2 + rad P.clock

/-- falco/mask.py 542-551: the circle of the tabs. -/
noncomputable def wfirstTabCall (P : Par) : Call := circCall P true (idTabs / 2 + P.padTabs) tabCentre

/-- The points that the pupil of 2018 leaves clear (falco/mask.py 553-559). -/
def wfirstOpen (P : Par) (calls : List Call) (p : ℂ) : Prop :=
  (∀ c ∈ calls, c.clear p) ∧ ¬ (wfirstSector P p ∧ ¬ (wfirstTabCall P).clear p)

/-- falco/mask.py 449-452: the number of pixels across the array. -/
noncomputable def wfirstSize (c : Centering) (nbeam : ℝ) (P : Par) : ℤ :=
  match c with
  | .pixel => ceilEven (nbeam * max (2 * |P.shear.re|) (2 * |P.shear.im|) + P.mag * (nbeam + 1))
  | .interpixel => ceilEven (nbeam * max (2 * |P.shear.re|) (2 * |P.shear.im|) + P.mag * nbeam)

/-- The argument `Nbeam`: an integer or a float. -/
inductive Beam
  | int (n : ℕ)
  | float (x : ℝ)

/-- Its value. -/
def Beam.val : Beam → ℝ
  | .int n => n
  | .float x => x

/-- falco/mask.py 454-457: the number of points of `xs`. `np.linspace(…, Nbeam)` takes integers only. -/
noncomputable def wfirstGrid (c : Centering) (b : Beam) (N : ℤ) : Except PyErr ℤ :=
  match c with
  | .pixel => .ok N
  | .interpixel => match b with
    | .int n => .ok n
    | .float _ => .error .typeError

/-- falco/mask.py 408-563: what the function draws, or what it raises. The mask of the tabs has the
shape of `XS`, and indexes an array of `Narray × Narray` (line 529): another shape is an IndexError. -/
noncomputable def wfirstDrawing (c : Changes) (ce : Centering) (b : Beam) :
    Except PyErr (Par × List Call) :=
  let P := Par.ofChanges c (widths c wfirstWidths)
  let N := wfirstSize ce b.val P
  (wfirstGrid ce b N).bind fun n =>
    (wfirstCalls c P).bind fun calls =>
      if n = N then .ok (P, calls) else .error .indexError

/-- falco/mask.py 416-427: the dictionary of the caller after the call. -/
def wfirstAfter (c : Changes) : Changes :=
  { c with
    xShear := some (c.xShear.getD 0), yShear := some (c.yShear.getD 0)
    magFac := some (c.magFac.getD 1), clockDeg := some (c.clockDeg.getD 0)
    flagRot180 := some (c.flagRot180.getD false)
    padAll := some (c.padAll.getD 0), padStrut := some (c.padStrut.getD 0)
    padCobs := some (c.padCobs.getD 0), padCobsTabs := some (c.padCobsTabs.getD 0)
    padOd := some (c.padOd.getD 0) }

end Verif.RomanPupil
