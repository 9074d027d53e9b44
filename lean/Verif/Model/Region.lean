import Verif.Model.Util
import Mathlib.Analysis.SpecialFunctions.Complex.Arg
import Mathlib.Analysis.SpecialFunctions.Trigonometric.Basic

/-! # Model of falco/setup.py: Lyot-stop crop, DM padding, dark-hole regions and spatial weights, and of falco/mask.py `falco_gen_SW_mask` -/

namespace Verif.Region
open Verif Verif.Util

/-! ## Lyot-stop crop (falco/setup.py:753-794; the two copies of the loop are identical) -/

open Classical in
/-- The loop at falco/setup.py:771-778 / 784-791, entered with `Narr = n`: `pad_crop` to `n-2` (a `TypeError` for a non-positive size), stop if this
loses more than 1e-7 of the summed transmission `S`. -/
noncomputable def lyotNarr (A : Img ℝ) (S : ℝ) : ℕ → Except PyErr ℕ
  | 0 => .error .typeError
  | 1 => .error .typeError
  | 2 => .error .typeError
  | n + 3 => do
    let B ← padCrop A (.one (.int (n + 1 : ℕ))) 0
    if |S - B.sum| ≤ 1 / 10 ^ 7 then lyotNarr A S (n + 1) else .ok (n + 3)

/-- falco/setup.py:768-779 / 781-794: the cropped mask. The first trial size is `len(mask) - 2`. -/
noncomputable def cropLyot (A : Img ℝ) : Except PyErr (Img ℝ) := do
  let n ← lyotNarr A A.sum (A.h - 2)
  padCrop A (.one (.int (n : ℕ))) 0

/-! ## DM surface padding (falco/setup.py:1314-1347) -/

/-- The sampling test in the loops at falco/setup.py:1330 and 1343: `a`, `c` are the two products `min(wavelengths)*|distance|/dx**2`. -/
def TooSmall (a c : ℝ) (N : ℝ) : Prop := N < a ∨ N < c

/-- Executions of `while N < a or N < c: N = 2*N`, from entry value to exit value. -/
inductive Doubling (a c : ℝ) : ℝ → ℝ → Prop
  | stop {N : ℝ} (h : ¬ TooSmall a c N) : Doubling a c N N
  | double {N M : ℝ} (h : TooSmall a c N) (t : Doubling a c (2 * N) M) : Doubling a c N M

/-- falco/setup.py:1321-1328 and 1335-1342: the initial size for the used DMs (`pads` = their `NdmPad`s; `np.max` of them, 1 or 2 entries) or, with
neither DM 1 nor DM 2 in use, twice the beam width. -/
noncomputable def padStart (pads : List ℕ) (Nbeam : ℝ) : ℝ :=
  match pads with
  | [] => 2 * Nbeam
  | p :: ps => (2 : ℝ) ^ (⌈1 + Real.logb 2 ((ps.foldl max p : ℕ) : ℝ)⌉ : ℤ)

/-- Optical distances and pupil samplings used by the padding. -/
structure PadCfg where
  pads : List ℕ
  Nbeam : ℝ
  dDm1Dm2 : ℝ
  dP2Dm1 : ℝ
  dxFull : ℝ
  dxCompact : ℝ

/-- falco/setup.py:1330: thresholds of the compact model for a list of wavelengths with smallest element `lamMin`; the first uses the *full*-model
sampling. -/
noncomputable def compactThresholds (c : PadCfg) (lamMin : ℝ) : ℝ × ℝ :=
  (lamMin * |c.dDm1Dm2| / c.dxFull ^ 2, lamMin * |c.dP2Dm1| / c.dxCompact ^ 2)

/-- falco/setup.py:1343-1344: thresholds of the full model. -/
noncomputable def fullThresholds (c : PadCfg) (lamMin : ℝ) : ℝ × ℝ :=
  (lamMin * |c.dDm1Dm2| / c.dxFull ^ 2, lamMin * |c.dP2Dm1| / c.dxFull ^ 2)

/-! ## Software masks (falco/mask.py:566-708) -/

/-- The sides accepted by falco/mask.py:649-660 (synonyms merged). -/
inductive Side | right | left | top | bottom | leftright | topbottom
  deriving DecidableEq

/-- falco/mask.py:649-662: the accepted spellings. -/
def parseSide (s : String) : Except PyErr Side :=
  if s ∈ ["r", "right"] then .ok .right
  else if s ∈ ["lr", "rl", "leftright", "rightleft", "both"] then .ok .leftright
  else if s ∈ ["l", "left"] then .ok .left
  else if s ∈ ["t", "top", "u", "up"] then .ok .top
  else if s ∈ ["tb", "bt", "ud", "du", "topbottom", "bottomtop", "updown", "downup"] then .ok .topbottom
  else if s ∈ ["b", "bottom", "d", "down"] then .ok .bottom
  else .error .valueError

/-- The shapes accepted by falco/mask.py:671-698. -/
inductive Shape | circle | square | rect | d
  deriving DecidableEq

/-- falco/mask.py:649-660: base angle of the opening. -/
noncomputable def Side.base : Side → ℝ
  | .right => 0
  | .leftright => 0
  | .left => Real.pi
  | .top => Real.pi / 2
  | .topbottom => Real.pi / 2
  | .bottom => 3 / 2 * Real.pi

/-- falco/mask.py:702-703: open on two opposite sides. -/
def Side.two : Side → Bool
  | .leftright => true
  | .topbottom => true
  | _ => false

/-- One dark-hole zone: the inputs of `falco_gen_SW_mask` that describe the region. -/
structure Zone where
  rhoInner : ℝ
  rhoOuter : ℝ
  angDeg : ℝ
  side : Side
  shape : Shape
  clockDeg : ℝ
  xiOff : ℝ
  etaOff : ℝ

/-- `np.radians` -/
noncomputable def radians (x : ℝ) : ℝ := x * (Real.pi / 180)

/-- falco/mask.py:663 -/
noncomputable def Zone.clock (z : Zone) : ℝ := z.side.base + radians z.clockDeg

/-- falco/mask.py:668: `13*np.finfo(float).eps`. -/
noncomputable def guardBand : ℝ := 13 / 2 ^ 52

/-- falco/mask.py:670-699: `softwareMask0` at offset `(x, y)` from the zone centre (`RHOS`, `THETAS` at lines 646-647). -/
noncomputable def mask0 (z : Zone) (x y : ℝ) : Prop :=
  let rho := Real.sqrt (x ^ 2 + y ^ 2)
  let theta := Complex.arg ⟨x, y⟩
  let rin := z.rhoInner - guardBand
  let rout := z.rhoOuter + guardBand
  let u := rho * Real.cos (theta - z.clock)
  let v := rho * Real.sin (theta - z.clock)
  match z.shape with
  | .circle => rho ≥ rin ∧ rho ≤ rout
  | .square => (((u ≤ rout ∧ u ≥ -rout) ∧ v ≤ rout) ∧ v ≥ -rout ∨ ((u ≥ -rout ∧ u ≤ rout) ∧ v ≤ rout) ∧ v ≥ -rout) ∧ rho ≥ rin
  | .rect => ((u ≥ rin ∧ u ≤ rout) ∧ v ≤ rout) ∧ v ≥ -rout ∨ ((u ≤ -rin ∧ u ≥ -rout) ∧ v ≤ rout) ∧ v ≥ -rout
  | .d => (u ≥ rin ∨ u ≤ -rin) ∧ rho ≤ rout

/-- `np.abs(np.angle(np.exp(1j*(THETAS - a)))) <= angRad/2` -/
noncomputable def angleTest (z : Zone) (x y a : ℝ) : Prop :=
  |Complex.arg (Complex.exp (Complex.I * ((Complex.arg ⟨x, y⟩ - a : ℝ) : ℂ)))| ≤ radians z.angDeg / 2

/-- falco/mask.py:643-706: whether the pixel at focal-plane coordinates `(ξ, η)` is set. -/
noncomputable def inZone (z : Zone) (xi eta : ℝ) : Prop :=
  let x := xi - z.xiOff
  let y := eta - z.etaOff
  (mask0 z x y ∧ angleTest z x y z.clock) ∨ (z.side.two = true ∧ mask0 z x y ∧ angleTest z x y (z.clock + Real.pi))

/-- The array description in the inputs of `falco_gen_SW_mask`. -/
structure Grid where
  /-- pixels per λ/D -/
  res : ℝ
  centering : Centering
  FOV : Option ℝ
  xiFOV : Option ℝ
  etaFOV : Option ℝ
  Nxi : Option ℕ
  Neta : Option ℕ

/-- falco/mask.py:614-617 -/
noncomputable def maxExtent (z : Zone) : ℝ :=
  match z.shape with
  | .square => max 1 (2 * |Real.cos (radians z.clockDeg)|)
  | .rect => max 1 (2 * |Real.cos (radians z.clockDeg)|)
  | _ => 1

/-- falco/mask.py:622-630: array length for a half-width `fov` in λ/D. -/
noncomputable def autoSize (g : Grid) (fov : ℝ) : ℕ :=
  match g.centering with
  | .pixel => (ceilEven (2 * (fov * g.res + 1 / 2))).toNat
  | .interpixel => (ceilEven (2 * fov * g.res)).toNat

/-- falco/mask.py:611-630: number of columns. -/
noncomputable def sizeXi (g : Grid) (z : Zone) : ℕ := g.Nxi.getD (autoSize g (g.xiFOV.getD (maxExtent z * g.FOV.getD z.rhoOuter + |z.xiOff|)))
/-- falco/mask.py:611-630: number of rows. -/
noncomputable def sizeEta (g : Grid) (z : Zone) : ℕ := g.Neta.getD (autoSize g (g.etaFOV.getD (maxExtent z * g.FOV.getD z.rhoOuter + |z.etaOff|)))

/-- falco/mask.py:633-640: coordinate of pixel `j` on an axis of `N` pixels. -/
noncomputable def coord (g : Grid) (N : ℕ) (j : ℤ) : ℝ :=
  match g.centering with
  | .interpixel => (-((N : ℝ) - 1) / 2 + j) * (1 / g.res)
  | .pixel => (-(N : ℝ) / 2 + j) * (1 / g.res)

open Classical in
/-- falco/mask.py:566-708 `falco_gen_SW_mask`: the mask as a 0/1 array. -/
noncomputable def genSWMask (g : Grid) (z : Zone) : Img ℝ :=
  ⟨sizeEta g z, sizeXi g z, fun i j => if inZone z (coord g (sizeXi g z) j) (coord g (sizeEta g z) i) then 1 else 0⟩

/-! ## Dark-hole region (falco/setup.py:1014-1139) -/

/-- Elementwise sum of two arrays of the same shape. -/
def addImg (A B : Img ℝ) : Img ℝ := ⟨A.h, A.w, fun i j => A.px i j + (B.get? i j).getD 0⟩

/-- falco/setup.py:1066-1071: add a zone's mask to the running sum on the larger of the two array sizes. -/
noncomputable def combine (g : Grid) (M : Img ℝ) (z : Zone) : Except PyErr (Img ℝ) := do
  let T := genSWMask g z
  let r := max T.h M.h
  let c := max T.w M.w
  let A ← padCrop M (.seq [.int r, .int c]) 0
  let B ← padCrop T (.seq [.int r, .int c]) 0
  pure (addImg A B)

/-- falco/setup.py:1045,1046-1071: the correction mask (before conversion to Boolean: set where non-zero). -/
noncomputable def corrMask (g : Grid) (zs : List Zone) : Except PyErr (Img ℝ) := zs.foldlM (combine g) (Img.full 1 1 0)

/-- The fields of `mp.Fend` read by `falco_configure_dark_hole_region`. -/
structure Fend where
  grid : Grid
  /-- `(Rin, Rout, ang)` of the correction zones -/
  corr : List (ℝ × ℝ × ℝ)
  /-- `(Rin, Rout, ang)` of the scoring zones -/
  score : List (ℝ × ℝ × ℝ)
  sides : List Side
  shapes : List Shape
  clock : Option (List ℝ)
  xiOff : Option (List ℝ)
  etaOff : Option (List ℝ)

/-- `x[i]` on a NumPy vector. -/
def at? {α : Type} (l : List α) (i : ℕ) : Except PyErr α := match l[i]? with
  | some a => .ok a
  | none => .error .indexError

/-- An optional per-zone vector: the `inputs.get(name, 0)` default if absent. -/
def optAt (o : Option (List ℝ)) (i : ℕ) : Except PyErr ℝ := match o with
  | none => .ok 0
  | some l => at? l i

/-- falco/setup.py:1047-1063 / 1107-1127: the description of zone `i`, from the given offsets. -/
def zoneAt (f : Fend) (r : ℝ × ℝ × ℝ) (etaOff : Option (List ℝ)) (i : ℕ) : Except PyErr Zone := do
  let side ← at? f.sides i
  let shape ← at? f.shapes i
  let clk ← optAt f.clock i
  let xo ← optAt f.xiOff i
  let eo ← optAt etaOff i
  pure { rhoInner := r.1, rhoOuter := r.2.1, angDeg := r.2.2, side := side, shape := shape, clockDeg := clk, xiOff := xo, etaOff := eo }

/-- The zones of a region, in order. -/
def zonesOf (f : Fend) (rs : List (ℝ × ℝ × ℝ)) (etaOff : Option (List ℝ)) : Except PyErr (List Zone) :=
  (List.range rs.length).mapM fun i => zoneAt f (rs.getD i (0, 0, 0)) etaOff i

/-- falco/setup.py:1124-1126: in the scoring loop `mp.Fend.etaOffset` (if it exists) is overwritten by `mp.Fend.xiOffset`. -/
def scoreEta (f : Fend) : Except PyErr (Option (List ℝ)) := match f.etaOff with
  | none => .ok none
  | some _ => match f.xiOff with
    | none => .error .attributeError
    | some l => .ok (some l)

open Classical in
/-- falco/setup.py:1104-1131: the scoring mask, on the array of the correction mask. -/
noncomputable def scoreMask (g : Grid) (h w : ℕ) (zs : List Zone) : Img ℝ :=
  ⟨h, w, fun i j => (zs.map fun z => (genSWMask { g with Nxi := some w, Neta := some h } z).get? i j |>.getD 0).sum⟩

/-- falco/setup.py:1014-1139 `falco_configure_dark_hole_region`: correction mask, scoring mask, and `mp.Fend` afterwards (array size stored;
`etaOffset` overwritten when there is a scoring zone). The evaluation grid is not modelled. -/
noncomputable def configure (f : Fend) : Except PyErr (Img ℝ × Img ℝ × Fend) := do
  let zc ← zonesOf f f.corr f.etaOff
  let M ← corrMask f.grid zc
  let eo ← if f.score = [] then pure f.etaOff else scoreEta f
  let zs ← zonesOf f f.score eo
  pure (M, scoreMask f.grid M.h M.w zs, { f with grid := { f.grid with Nxi := some M.w, Neta := some M.h }, etaOff := eo })

/-! ## Spatial weights (falco/setup.py:1142-1185) -/

open Classical in
/-- falco/setup.py:1169-1175: the weight at a pixel of the dark hole at radius `rho`, for rings `(inner, outer, weight)`, starting from `w`. -/
noncomputable def ringWeight (rho : ℝ) (rings : List (ℝ × ℝ × ℝ)) (w : ℝ) : ℝ :=
  rings.foldl (fun w r => w * (1 + (Real.sqrt r.2.2 - 1) * if r.1 ≤ rho ∧ rho < r.2.1 then 1 else 0)) w

open Classical in
/-- falco/setup.py:1166-1184: `Wspatial` at a pixel (`inCorr` = in the correction region). -/
noncomputable def wspatial (inCorr : Prop) (xi eta : ℝ) (rings : List (ℝ × ℝ × ℝ)) : ℝ :=
  ringWeight (Real.sqrt (xi ^ 2 + eta ^ 2)) rings (if inCorr then 1 else 0)

/-- falco/setup.py:1181-1184: entry of `WspatialVec` for a dark-hole pixel and a star of the given weight. -/
noncomputable def wspatialVec (starWeight xi eta : ℝ) (rings : List (ℝ × ℝ × ℝ)) : ℝ := starWeight * wspatial True xi eta rings

end Verif.Region
