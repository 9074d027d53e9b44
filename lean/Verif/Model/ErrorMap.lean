import Verif.Model.Proper
import Verif.Model.Masks
import Verif.Model.Szoom

/-!
# Model of error maps: falco/proper/prop_errormap.py, prop_readmap.py, prop_resamplemap.py, prop_rotate.py

Simplifications: the FITS file is its data array (row-major, prop_fits_read.py) and the two header cards that are read; a file that cannot be read is not modelled. Sampling and header values are not 0.
-/

namespace Verif.ErrorMap
open Verif Complex Verif.Proper

/-- Which interpolation program is available (falco/proper/__init__.py:27-62): the C libraries, or SciPy's `map_coordinates` (order 3, mode "nearest"; value of an image at a column and row) and `rotate`
(reshape=False, prefilter=False), which are parameters here. -/
inductive Backend
  | library
  | scipy (mapCoord : Cubic.Img → ℝ → ℝ → ℝ) (rotate : Cubic.Img → ℝ → ℕ → ℕ → ℝ)

/-- prop_resamplemap.py:57-65: the coordinates in the map. (`y` uses `xshift` too, line 65.) -/
noncomputable def coords (n : ℕ) (dx pixscale c xshift : ℝ) : List ℝ := (List.range n).map fun i : ℕ => ((i : ℝ) - (n / 2 : ℕ)) * dx / pixscale + (c - xshift / pixscale)

/-- prop_resamplemap.py:55-74 -/
noncomputable def resamplemap (b : Backend) (n : ℕ) (dx : ℝ) (dmap : Cubic.Img) (pixscale xc yc xshift _yshift : ℝ) : ℕ → ℕ → ℝ :=
  let x := coords n dx pixscale xc xshift
  let y := coords n dx pixscale yc xshift
  match b with
  | .library => Cubic.conv true dmap.T x y
  | .scipy mc _ => fun j i => mc dmap (x.getD i 0) (y.getD j 0)

/-- The cards of the header of a map. -/
structure Header where
  radpix : Option ℝ
  pixsize : Option ℝ

/-- A 2-D array as the functions of PROPER pass it on. -/
def ofImg (n : ℕ) (f : ℕ → ℕ → ℝ) : ZMod n → ZMod n → ℝ := fun j i => f j.val i.val

/-- prop_readmap.py:67-79: the pixel size of the map. -/
noncomputable def pixsizeOf (beamradius : ℝ) (h : Header) (sampling : Option ℝ) : Except PyErr ℝ :=
  match h.radpix with
  | some r => .ok (beamradius / r)
  | none => match sampling with
    | none => match h.pixsize with
      | none => .error .valueError
      | some p => .ok p
    | some s => .ok s

/-- prop_readmap.py:62-91; `centre` is `XC_MAP`, `YC_MAP`. -/
noncomputable def readmap {n : ℕ} (b : Backend) (wf : WF n) (dmap : Cubic.Img) (h : Header) (xshift yshift : ℝ) (centre : Option (ℝ × ℝ)) (sampling : Option ℝ) : Except PyErr (ZMod n → ZMod n → ℝ) := do
  let pix ← pixsizeOf (Masks.beamradius wf) h sampling
  let c := match centre with
    | none => (((dmap.rows / 2 : ℕ) : ℝ), ((dmap.cols / 2 : ℕ) : ℝ))
    | some c => c
  return shiftCenter (ofImg n (resamplemap b n wf.dx dmap pix c.1 c.2 xshift yshift))

/-- The options of prop_rotate. -/
structure RotOpts where
  XC : Option ℝ := none
  YC : Option ℝ := none
  XSHIFT : Option ℝ := none
  YSHIFT : Option ℝ := none
  MISSING : Option ℝ := none

/-- prop_rotate.py:78-85: the coordinates for row `j` of the result (`XC = YC = int(n/2)`, no shifts). -/
noncomputable def rotX (n : ℕ) (theta : ℝ) (j i : ℕ) : ℝ :=
  ((i : ℝ) - (n / 2 : ℕ)) * Real.cos (-theta * Real.pi / 180) - ((j : ℝ) - (n / 2 : ℕ)) * Real.sin (-theta * Real.pi / 180) + (n / 2 : ℕ)
/-- prop_rotate.py:85 -/
noncomputable def rotY (n : ℕ) (theta : ℝ) (j i : ℕ) : ℝ :=
  ((i : ℝ) - (n / 2 : ℕ)) * Real.sin (-theta * Real.pi / 180) + ((j : ℝ) - (n / 2 : ℕ)) * Real.cos (-theta * Real.pi / 180) + (n / 2 : ℕ)

/-- prop_rotate.py:54-97 on a real square image of at least one pixel. An option among XC, YC, XSHIFT, YSHIFT that is given leaves the name it is used under unassigned (lines 60-73); MISSING is never used. -/
noncomputable def rotate (b : Backend) (old : Cubic.Img) (theta : ℝ) (o : RotOpts) : Except PyErr (ℕ → ℕ → ℝ) :=
  match b with
  | .library =>
    if o.XC.isSome ∨ o.YC.isSome ∨ o.XSHIFT.isSome ∨ o.YSHIFT.isSome then .error .unboundLocal
    else .ok fun j => Cubic.convVec true old ((List.range old.rows).map (rotX old.rows theta j)) ((List.range old.rows).map (rotY old.rows theta j))
  | .scipy _ rot => .ok (rot old (-1 * theta))

/-- The keyword arguments of prop_errormap. -/
structure Args where
  xshift : ℝ := 0
  yshift : ℝ := 0
  XC_MAP : Option ℝ := none
  YC_MAP : Option ℝ := none
  SAMPLING : Option ℝ := none
  ROTATEMAP : Option ℝ := none
  MAGNIFY : Option ℝ := none
  MULTIPLY : Option ℝ := none
  MIRROR_SURFACE : Bool := false
  WAVEFRONT : Bool := false
  AMPLITUDE : Bool := false
  NM : Bool := false
  MICRONS : Bool := false

/-- prop_errormap.py:90-94: `proper_switch_set` (line 90) is not defined. -/
def checks (a : Args) : Except PyErr Unit := do
  if a.AMPLITUDE then
    if a.NM then throw .systemExit else throw .nameError
  if a.NM && a.MICRONS then throw .systemExit

/-- prop_errormap.py:96-106: `none` if `dmap` is not assigned. -/
noncomputable def load {n : ℕ} (b : Backend) (wf : WF n) (dmap : Cubic.Img) (h : Header) (a : Args) : Except PyErr (Option (ZMod n → ZMod n → ℝ)) := do
  if a.XC_MAP.isSome ∨ a.YC_MAP.isSome ∨ a.SAMPLING.isSome then
    match a.XC_MAP, a.YC_MAP, a.SAMPLING with
    | some x, some y, some s => some <$> readmap b wf dmap h a.xshift a.yshift (some (x, y)) (some s)
    | some x, some y, none => some <$> readmap b wf dmap h a.xshift a.yshift (some (x, y)) none
    | _, _, some s => some <$> readmap b wf dmap h a.xshift a.yshift none (some s)
    | _, _, none => pure none
  else some <$> readmap b wf dmap h a.xshift a.yshift none none

/-- A use of `dmap`. -/
def use {α : Type} : Option α → Except PyErr α
  | none => .error .unboundLocal
  | some m => .ok m

/-- An array as an image in memory. -/
def toImg {n : ℕ} (m : ZMod n → ZMod n → ℝ) : Cubic.Img := ⟨n, n, fun j i => m j i, true⟩

/-- prop_errormap.py:109-118 -/
noncomputable def turn {n : ℕ} (b : Backend) (szoomC : Bool) (a : Args) (d : Option (ZMod n → ZMod n → ℝ)) : Except PyErr (Option (ZMod n → ZMod n → ℝ)) := do
  if a.ROTATEMAP.isSome ∨ a.MAGNIFY.isSome then
    let m := shiftCenter (← use d)
    let m ← match a.ROTATEMAP with
      | some th => ofImg n <$> rotate b (toImg m) th { MISSING := some 0 }
      | none => pure m
    let m ← match a.MAGNIFY with
      | some g => (fun r => ofImg n r.2) <$> Szoom.magnifyReal szoomC n (fun j i => m j i) g n .none
      | none => pure m
    return some (shiftCenter m)
  else return d

/-- `dmap *= k` -/
noncomputable def scaleBy {n : ℕ} (k : Option ℝ) (d : Option (ZMod n → ZMod n → ℝ)) : Except PyErr (Option (ZMod n → ZMod n → ℝ)) :=
  match k with
  | none => .ok d
  | some k => do
    let m ← use d
    return some (fun j i => m j i * k)

/-- prop_errormap.py:88-143 on a map without NaN: the new wavefront and the map that is returned. `szoomC`: the library for prop_magnify is available. -/
noncomputable def errormap {n : ℕ} (b : Backend) (szoomC : Bool) (wf : WF n) (dmap : Cubic.Img) (h : Header) (a : Args) : Except PyErr (WF n × (ZMod n → ZMod n → ℝ)) := do
  checks a
  let d ← load b wf dmap h a
  let d ← turn b szoomC a d
  let d ← scaleBy (if a.MICRONS then some 1e-6 else none) d
  let d ← scaleBy (if a.NM then some 1e-9 else none) d
  let d ← scaleBy a.MULTIPLY d
  if a.MIRROR_SURFACE then
    let m ← use d
    return ({ wf with arr := fun i j => wf.arr i j * exp (-4 * Real.pi * I / wf.lam * (m i j : ℝ)) }, shiftCenter m)
  else if a.WAVEFRONT then
    let m ← use d
    return ({ wf with arr := fun i j => wf.arr i j * exp (2 * Real.pi * I / wf.lam * (m i j : ℝ)) }, shiftCenter m)
  else if a.AMPLITUDE then
    let m ← use d
    return ({ wf with arr := fun i j => wf.arr i j * ((m i j : ℝ) : ℂ) }, shiftCenter m)
  else throw .valueError

end Verif.ErrorMap
