import Verif.Model.Masks
import Mathlib.Analysis.Convex.Hull
import Mathlib.Analysis.Complex.Basic

/-!
# Model of the bowtie Lyot stop: `gen_bowtie_lyot_stop` (falco/mask.py:913-1019)

A place in the pupil plane is a complex number, in pupil diameters, with zero at the middle pixel of the array.  Simplifications: real arithmetic; a polygon is the convex hull of its vertices (this
is how PROPER draws convex polygons, C115, up to one sub-row: the first vertex is repeated at the end); the images of the discs and the polygons are parameters; the errors of PROPER's own
routines are not modelled.
-/

namespace Verif.BowtieLyot
open Verif Verif.Masks

/-- The dictionary `inputs` (falco/mask.py:930-947). -/
structure Inputs where
  nbeam : Option ℝ := none
  ID : Option ℝ := none
  OD : Option ℝ := none
  ang : Option ℝ := none
  centering : Option String := none
  xShear : Option ℝ := none
  yShear : Option ℝ := none
  clocking : Option ℝ := none
  magfac : Option ℝ := none

/-- A circle of PROPER. -/
structure Disc where
  radius : ℝ
  centre : ℂ

/-- What is drawn. -/
structure Stop where
  size : ℤ
  dx : ℝ
  outer : Disc
  inner : Disc
  polygons : List (List ℂ)

/-- `inputs[key]` -/
def get (o : Option ℝ) : Except PyErr ℝ := match o with
  | some x => .ok x
  | none => .error .keyError

/-- falco/mask.py:949-952: the number of pixels across; another centering leaves the name unbound. -/
noncomputable def size (centering : String) (nbeam magfac : ℝ) (shear : ℂ) : Except PyErr ℤ :=
  if centering = "pixel" then .ok (Util.ceilEven (magfac * nbeam + 1 + 2 * nbeam * max |shear.re| |shear.im|))
  else if centering = "interpixel" then .ok (Util.ceilEven (magfac * nbeam + 2 * nbeam * max |shear.re| |shear.im|))
  else .error .unboundLocal

/-- falco/mask.py:959: the shift of all centres. -/
noncomputable def cshift (centering : String) (dx : ℝ) : ℂ := if centering = "interpixel" then ⟨-dx / 2, -dx / 2⟩ else 0

/-- falco/mask.py:985-990 (`side = 1`), 1002-1003 (`side = -1`): the vertices before they are turned. -/
noncomputable def vertices (L ang2 side : ℝ) : List ℂ :=
  [⟨side * 0, 0⟩, ⟨side * (L * cosd ang2), L * sind ang2⟩, ⟨side * L, L * sind ang2⟩, ⟨side * L, -L * sind ang2⟩,
   ⟨side * (L * cosd ang2), -L * sind ang2⟩, ⟨side * 0, 0⟩]

/-- falco/mask.py:993-998, 1006-1011: `[[cos, sin], [-sin, cos]] @ [x, y]`. -/
noncomputable def turned (clocking : ℝ) (v : ℂ) : ℂ :=
  ⟨cosd clocking * v.re + sind clocking * v.im, -sind clocking * v.re + cosd clocking * v.im⟩

/-- falco/mask.py:930-1017. -/
noncomputable def stop (inp : Inputs) : Except PyErr Stop :=
  (get inp.nbeam).bind fun nbeam =>
  (get inp.ID).bind fun ID =>
  (get inp.OD).bind fun OD =>
  (get inp.ang).bind fun ang =>
  if nbeam = 0 then .error .zeroDivision else
  let dx := 1 / nbeam
  let centering := inp.centering.getD "pixel"
  let shear : ℂ := ⟨inp.xShear.getD 0, inp.yShear.getD 0⟩
  let clocking := (inp.clocking.map fun c => -c).getD 0
  let magfac := inp.magfac.getD 1
  (size centering nbeam magfac shear).bind fun narray =>
  let centre := cshift centering dx + shear
  let raOD := 1 * OD / 2 * magfac
  let raID := 1 * ID / 2 * magfac
  let L := 1.1 * raOD
  let ang2 := 90 - ang / 2
  .ok
    { size := narray
      dx := dx
      outer := ⟨raOD, centre⟩
      inner := ⟨raID, centre⟩
      polygons :=
        if ang < 180 then
          [(vertices L ang2 1).map fun v => centre + turned clocking v, (vertices L ang2 (-1)).map fun v => centre + turned clocking v]
        else [] }

/-- Is the place inside of the circle? -/
def Disc.has (d : Disc) (q : ℂ) : Prop := ‖q - d.centre‖ ≤ d.radius

/-- Is the place left clear by the shapes: in the aperture, out of the obscurations. -/
def Stop.clear (s : Stop) (q : ℂ) : Prop :=
  s.outer.has q ∧ ¬ s.inner.has q ∧ ∀ v ∈ s.polygons, q ∉ convexHull ℝ {z | z ∈ v}

/-- The place of column `j` and row `i` of the array: pixel `size // 2` is at zero. -/
noncomputable def Stop.place (s : Stop) (i j : ℤ) : ℂ := ⟨(j - (s.size : ℝ) / 2) * s.dx, (i - (s.size : ℝ) / 2) * s.dx⟩

/-- falco/mask.py:966-980, 1015: the mask at row `i` and column `j`; `disc` and `poly` are the images of PROPER at a place (`true`: dark). -/
noncomputable def Stop.value (s : Stop) (disc : Disc → Bool → ℂ → ℝ) (poly : List ℂ → ℂ → ℝ) (i j : ℤ) : ℝ :=
  |disc s.outer false (s.place i j) * disc s.inner true (s.place i j)| * (s.polygons.map fun v => poly v (s.place i j)).prod

end Verif.BowtieLyot
