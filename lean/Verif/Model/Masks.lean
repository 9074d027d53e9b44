import Verif.Model.Shape

/-!
# Model of the masks made with PROPER: `falco_gen_DM_stop` and `gen_annular_fpm` of falco/mask.py

The sub-sampling factor is the module variable `proper.antialias_subsampling` (falco/proper/__init__.py:219: 11 at import), a state shared by all calls in a process; here `Proc`.
-/

namespace Verif.Masks
open Verif Verif.Shape Verif.Proper

/-- falco/proper/prop_get_beamradius.py: beam radius at the present position. -/
noncomputable def beamradius {n : ℕ} (s : WF n) : ℝ := s.w0 * Real.sqrt (1 + (s.lam * (s.z - s.zw0) / (Real.pi * s.w0 ^ 2)) ^ 2)

/-- `wf.wfarr *= prop_shift_center(mask)` -/
noncomputable def applyMask {n : ℕ} (s : WF n) (img : ZMod n → ZMod n → ℝ) : WF n := { s with arr := fun i j => s.arr i j * ((shiftCenter img i j : ℝ) : ℂ) }

/-- falco/proper/prop_circular_aperture.py:47-49. -/
noncomputable def circularAperture {n : ℕ} (nsub : ℕ) (s : WF n) (radius xc yc : ℝ) (norm : Bool) : Except PyErr (WF n) := do
  let img ← ellipse n nsub (Ell.ofArgs n s.dx (beamradius s) norm radius radius xc yc 0) false
  return applyMask s img

/-- falco/proper/prop_elliptical_obscuration.py:50-58. -/
noncomputable def ellipticalObscuration {n : ℕ} (nsub : ℕ) (s : WF n) (xradius yradius xc yc rotation : ℝ) (norm : Bool) : Except PyErr (WF n) := do
  let img ← ellipse n nsub (Ell.ofArgs n s.dx (beamradius s) norm xradius yradius xc yc rotation) true
  return applyMask s img

/-- The process state: the sub-sampling factor. -/
structure Proc where
  nsub : ℕ

/-- falco/proper/__init__.py:219 -/
def Proc.start : Proc := ⟨11⟩

/-- falco/mask.py:18-23: pixels added for the centering. -/
noncomputable def slack : Util.Centering → ℝ
  | .pixel => 0.5
  | .interpixel => 0

/-- falco/mask.py:13-27 `_init_proper`: array size. -/
noncomputable def initSize (Dmask dx : ℝ) (c : Util.Centering) : ℕ := (Util.ceilEven (Dmask / dx + slack c)).toNat

/-- falco/mask.py:59: shift of the centre, `-dx/2 * (centering == "interpixel")`; lines 883-886 likewise. -/
noncomputable def cshift (dx : ℝ) : Util.Centering → ℝ
  | .pixel => 0
  | .interpixel => -dx / 2

/-- `np.fft.ifftshift(np.abs(wf.wfarr))` -/
noncomputable def readOut {n : ℕ} (s : WF n) : ZMod n → ZMod n → ℝ := Optics.ifftshift fun i j => ‖s.arr i j‖

/-- falco/mask.py:30-64 `falco_gen_DM_stop` (positive `dx` and `diamMask`). The process state is read, not changed. -/
noncomputable def dmStop (p : Proc) (dx diamMask : ℝ) (c : Util.Centering) :
    Except PyErr (ZMod (initSize diamMask dx c) → ZMod (initSize diamMask dx c) → ℝ) := do
  let n := initSize diamMask dx c
  let wf : WF n := begin_ n (n * dx) 1e-6 1
  let wf ← circularAperture p.nsub wf (diamMask / 2) (cshift dx c) (cshift dx c) false
  return readOut wf

/-- The inputs of `gen_annular_fpm` (falco/mask.py:846-854); `rhoOuter = none` is infinity. -/
structure Annular where
  pixres : ℝ
  rhoInner : ℝ
  rhoOuter : Option ℝ
  xOffset : ℝ
  yOffset : ℝ
  centering : Util.Centering
  ampFac : ℝ
  narray : Option ℕ

/-- falco/mask.py:856-877: array size. -/
noncomputable def Annular.size (a : Annular) : ℕ :=
  let dx := 1 / a.pixres
  let off := max |a.xOffset| |a.yOffset|
  let rho := a.rhoOuter.getD a.rhoInner
  a.narray.getD (match a.centering with
    | .interpixel => (Util.ceilEven (2 * rho / dx + 2 * off / dx)).toNat
    | .pixel => (Util.ceilEven (2 * rho / dx + 2 * off / dx + 1)).toNat)

/-- falco/mask.py:824-906 `gen_annular_fpm`: the mask, and the process state left behind (line 890 sets the sub-sampling factor to 101 for the rest of the process). -/
noncomputable def annular (a : Annular) (_p : Proc) : Except PyErr ((ZMod a.size → ZMod a.size → ℝ) × Proc) := do
  let n := a.size
  let dx := 1 / a.pixres
  let Dmask := 2 * a.pixres * a.rhoOuter.getD a.rhoInner
  let Darray := n * dx
  let bdf := Dmask / Darray
  let cs : ℝ := cshift (Darray / n) a.centering      -- -Darray / 2 / Narray
  let wf : WF n := begin_ n Dmask 1e-6 bdf
  let p : Proc := ⟨101⟩
  let wf ← match a.rhoOuter with
    | some rho => circularAperture p.nsub wf rho (0 + cs + a.xOffset) (0 + cs + a.yOffset) false
    | none => .ok wf
  let spot ← ellipse n p.nsub (Ell.ofArgs n wf.dx (beamradius wf) false a.rhoInner a.rhoInner (0 + cs + a.xOffset) (0 + cs + a.yOffset) 0) true
  let mask := readOut wf
  return (fun i j => mask i j * (spot i j * (1 - a.ampFac) + a.ampFac), p)

/-- falco/proper/prop_rectangular_obscuration.py:48-55 (no NORM). -/
noncomputable def rectangularObscuration {n : ℕ} (nsub : ℕ) (s : WF n) (width height xc yc rotation : ℝ) : WF n :=
  applyMask s (rectangle n nsub (Rect.ofArgs n s.dx (beamradius s) false width height (some xc) (some yc) rotation) true)

/-- The inputs of `falco_gen_pupil_Simple` (falco/mask.py:1399-1421) with `flagHG = False`; angles in degrees. -/
structure Simple where
  nbeam : ℝ
  N : ℕ
  OD : ℝ
  ID : ℝ
  wStrut : ℝ
  angStrut : List ℝ
  centering : Util.Centering
  xStretch : ℝ
  clocking : ℝ
  xShear : ℝ
  yShear : ℝ

/-- falco/mask.py:1435-1443, 1447-1456: the inputs of `gen_ellipse` for the outer and inner edges. -/
noncomputable def Simple.ell (a : Simple) (diam : ℝ) : GenEll :=
  ⟨a.N, a.nbeam, a.xStretch * 0.5 * diam, 0.5 * diam, Real.pi / 180 * a.clocking, a.xShear, a.yShear, 1, a.centering⟩

/-- falco/mask.py:1443, 1456: `gen_ellipse(inp)`. -/
noncomputable def Simple.ellImg (a : Simple) (diam : ℝ) : Except PyErr (ZMod a.N → ZMod a.N → ℝ) := genEllipse (a.ell diam)

/-- falco/util.py `cosd`. -/
noncomputable def cosd (x : ℝ) : ℝ := Real.cos (x * Real.pi / 180)
/-- falco/util.py `sind`. -/
noncomputable def sind (x : ℝ) : ℝ := Real.sin (x * Real.pi / 180)

/-- falco/mask.py:1465-1487: the struts. -/
noncomputable def Simple.struts (a : Simple) : WF a.N :=
  let Dbeam : ℝ := 1
  let dx := Dbeam / a.nbeam
  let Darray := a.N * dx
  let cs := cshift dx a.centering
  let lStrut : ℝ := 0.6
  a.angStrut.foldl (fun bm ang0 =>
    let ang := ang0 + a.clocking
    rectangularObscuration 101 bm lStrut a.wStrut (lStrut / 2 * cosd ang + cs + a.xShear) (lStrut / 2 * sind ang + cs + a.yShear) ang)
    (begin_ a.N Dbeam 1e-6 (Dbeam / Darray))

open Classical in
/-- falco/mask.py:1381-1490 `falco_gen_pupil_Simple` with `flagHG = False`; a negative `wStrut` is a TypeError (line 1424), `ID > OD` a ValueError (line 1428). -/
noncomputable def pupilSimple (a : Simple) : Except PyErr (ZMod a.N → ZMod a.N → ℝ) :=
  if a.wStrut < 0 then .error .typeError
  else if a.ID > a.OD then .error .valueError
  else do
    let apOuter ← a.ellImg a.OD
    let apInner : ZMod a.N → ZMod a.N → ℝ ← if a.ID > 0 then (do
        let e ← a.ellImg a.ID
        return fun i j => 1 - e i j) else .ok fun _ _ => 1
    let apStruts : ZMod a.N → ZMod a.N → ℝ := if a.angStrut.length = 0 then fun _ _ => 1 else readOut a.struts
    return fun i j => apOuter i j * apInner i j * apStruts i j

end Verif.Masks
