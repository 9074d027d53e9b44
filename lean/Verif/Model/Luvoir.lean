import Verif.Model.HexWave
import Verif.Model.Masks

/-!
# Model of the LUVOIR pupils of falco/mask.py

`falco_hex_aperture_LUVOIR_A`, `falco_hex_aperture_LUVOIR_B`, `falco_gen_pupil_LUVOIR_A_final`, `falco_gen_pupil_LUVOIR_B`. Real arithmetic. Both pupil functions set the sub-sampling
factor to 33 (lines 1097, 1224) before they draw; they leave it at 33 (not modelled here; see C99 for what such a change does).
-/

namespace Verif.Luvoir
open Verif Verif.Shape Verif.Proper Verif.Masks Verif.HexWave

/-- The state of the loops: the counter and the aperture so far. -/
structure Cnt (n : ℕ) where
  counter : ℕ
  ap : ZMod n → ZMod n → ℝ

/-- The arguments of `falco_hex_aperture_LUVOIR_A/B` (and grid size, sub-sampling, sampling, beam radius of the wavefront); `dark` is `"DARK" in kwargs` (its value is not looked at). -/
structure HexArgs where
  n : ℕ
  mag : ℕ
  dx : ℝ
  br : ℝ
  nrings : ℕ
  hexrad : ℝ
  hexsep : ℝ
  xc : ℝ
  yc : ℝ
  dark : Bool
  angle : ℝ

/-- `proper.prop_polygon(wf, 6, hexrad, xhex, yhex, ROTATION=angle)` -/
noncomputable def HexArgs.hexagon (a : HexArgs) (c : ℝ × ℝ) : Except PyErr (ZMod a.n → ZMod a.n → ℝ) :=
  Polygon.regularPolygon a.n a.mag a.dx a.br false false 6 a.hexrad (some c.1) (some c.2) a.angle

/-- mask.py:1289, 1297: the numbers left out by A (both sides). -/
def skipA : List ℕ := [1, 12, 113, 114, 125, 126]
/-- mask.py:1364: the numbers left out by B on the first side. -/
def skipB1 : List ℕ := [1, 9, 52, 60]
/-- mask.py:1372: the numbers left out by B on the opposite side. -/
def skipB2 : List ℕ := [1, 9, 53, 61]

/-- mask.py:1280-1281, 1301 (`y` grows by `hexsep`) and 1284-1285, 1294-1295: the centre of a segment in A. -/
noncomputable def HexArgs.centreA (a : HexArgs) (q : Seg) : ℝ × ℝ :=
  let x := a.hexsep * q.iring * cosd 30
  let y := a.hexsep * (q.iring * cosd 60 - a.nrings) + q.iseg * a.hexsep
  if q.first then (a.xc + x * cosd a.angle - y * sind a.angle, a.yc + x * sind a.angle + y * cosd a.angle)
  else (-x * cosd a.angle - y * sind a.angle + a.xc, -x * sind a.angle + y * cosd a.angle + a.yc)

/-- mask.py:1357-1358, 1376 and 1360-1361, 1369-1370: the centre of a segment in B. -/
noncomputable def HexArgs.centreB (a : HexArgs) (q : Seg) : ℝ × ℝ :=
  let t := a.angle * Real.pi / 180
  let x := a.hexsep * Real.cos (30 * Real.pi / 180) * q.iring
  let y := -(a.nrings : ℝ) * a.hexsep + q.iring * a.hexsep * 0.5 + q.iseg * a.hexsep
  if q.first then (x * Real.cos t - y * Real.sin t + a.xc, x * Real.sin t + y * Real.cos t + a.yc)
  else (-x * Real.cos t - y * Real.sin t + a.xc, -x * Real.sin t + y * Real.cos t + a.yc)

/-- mask.py:1284-1299, 1360-1374: one segment: count it, and draw it unless its number is left out. The central one is passed over, uncounted, with DARK. -/
noncomputable def HexArgs.step (a : HexArgs) (skip1 skip2 : List ℕ) (centre : Seg → ℝ × ℝ) (s : Cnt a.n) (q : Seg) : Except PyErr (Cnt a.n) :=
  if q.first then
    if q.iring ≠ 0 ∨ ¬ (q.iseg = a.nrings ∧ a.dark = true) then
      if s.counter + 1 ∉ skip1 then (a.hexagon (centre q)).map fun h => ⟨s.counter + 1, fun i j => s.ap i j + h i j⟩
      else .ok ⟨s.counter + 1, s.ap⟩
    else .ok s
  else if s.counter + 1 ∉ skip2 then (a.hexagon (centre q)).map fun h => ⟨s.counter + 1, fun i j => s.ap i j + h i j⟩
  else .ok ⟨s.counter + 1, s.ap⟩

/-- mask.py:1234-1303 `falco_hex_aperture_LUVOIR_A`. The loops run as in `prop_hex_wavefront`: `HexWave.segs`. -/
noncomputable def hexApertureA (a : HexArgs) : Except PyErr (ZMod a.n → ZMod a.n → ℝ) :=
  ((segs a.nrings).foldlM (a.step skipA skipA a.centreA) ⟨0, fun _ _ => 0⟩).map fun s => s.ap

/-- mask.py:1306-1378 `falco_hex_aperture_LUVOIR_B`. -/
noncomputable def hexApertureB (a : HexArgs) : Except PyErr (ZMod a.n → ZMod a.n → ℝ) :=
  ((segs a.nrings).foldlM (a.step skipB1 skipB2 a.centreB) ⟨0, fun _ _ => 0⟩).map fun s => s.ap

/-- The inputs of the two pupil functions (mask.py:1040-1057, 1179-1190). `lyot` (inner and outer diameter) and `wStrut` are used by A alone. -/
structure Pupil where
  nbeam : ℝ
  centering : Util.Centering
  xShear : ℝ
  yShear : ℝ
  clock : ℝ
  magFac : ℝ
  wGap : ℝ
  rot180 : Bool
  wStrut : Option ℝ
  lyot : Option (ℝ × ℝ)

/-- mask.py:1048, 1188 -/
noncomputable def Pupil.shearMax (p : Pupil) : ℝ := max |p.xShear| |p.yShear|

namespace A
/-- mask.py:1068: flat-to-flat width of a segment. -/
noncomputable def width0 : ℝ := 1.2225
/-- mask.py:1069 -/
noncomputable def Dap (p : Pupil) : ℝ := 12 * width0 + 11 * p.wGap
/-- mask.py:1070 -/
noncomputable def dx (p : Pupil) : ℝ := Dap p / p.nbeam
/-- mask.py:1074-1080: array size. -/
noncomputable def size (p : Pupil) : ℕ := (match p.centering with
  | .pixel => 2 + Util.ceilEven ((1 + 2 * p.shearMax) * p.nbeam * max p.magFac 1 + 1)
  | .interpixel => 2 + Util.ceilEven ((1 + 2 * p.shearMax) * p.nbeam * max p.magFac 1)).toNat
/-- mask.py:1074-1080: shift of the centre. -/
noncomputable def cShift (p : Pupil) : ℝ := match p.centering with
  | .pixel => if p.rot180 then -dx p else 0
  | .interpixel => -dx p / 2
/-- mask.py:1085 -/
noncomputable def width (p : Pupil) : ℝ := p.magFac * width0
/-- mask.py:1087 -/
noncomputable def hexrad (p : Pupil) : ℝ := 2 / √3 * width p / 2
/-- mask.py:1088-1089 -/
noncomputable def hexsep (p : Pupil) : ℝ := width p + p.magFac * p.wGap
/-- mask.py:1090-1093 -/
noncomputable def wStrutM (p : Pupil) : ℝ := match p.wStrut with
  | some w => w * Dap p
  | none => 0.15 * p.magFac

/-- mask.py:1082-1083, 1096 -/
noncomputable def bm (p : Pupil) : WF (size p) := begin_ (size p) (Dap p) 1e-6 (p.nbeam / size p)

/-- mask.py:1086, 1099-1102: the arguments of the hexagonal aperture. -/
noncomputable def hexArgs (p : Pupil) : HexArgs :=
  ⟨size p, 33, (bm p).dx, beamradius (bm p), 6, hexrad p, hexsep p, cShift p + Dap p * p.xShear, cShift p + Dap p * p.yShear, true, p.clock⟩

/-- mask.py:1060-1061, 1120-1122: `rotMat @ [xc, yc]` -/
noncomputable def rotated (p : Pupil) (c : ℝ × ℝ) : ℝ × ℝ := (cosd p.clock * c.1 - sind p.clock * c.2, sind p.clock * c.1 + cosd p.clock * c.2)

/-- One strut: height, centre before the rotation, and angle relative to the pupil. -/
structure Strut where
  len : ℝ
  at_ : ℝ × ℝ
  ang : ℝ

/-- mask.py:1118-1146: the three struts. -/
noncomputable def struts (p : Pupil) : List Strut :=
  [⟨7 * width p, (0, p.magFac * Dap p / 4), 0⟩,
   ⟨(√93 + 0.5) * hexrad p, (1.5 * hexrad p, -11 * √3 / 4 * hexrad p), 12.7⟩,
   ⟨(√93 + 0.5) * hexrad p, (-1.5 * hexrad p, -11 * √3 / 4 * hexrad p), -12.7⟩]

/-- mask.py:1123-1126: `proper.prop_rectangular_obscuration` for one strut. -/
noncomputable def addStrut (p : Pupil) (s : WF (size p)) (t : Strut) : WF (size p) :=
  let c := rotated p t.at_
  rectangularObscuration 33 s (wStrutM p) t.len (c.1 + Dap p * p.xShear + cShift p) (c.2 + Dap p * p.yShear + cShift p) (t.ang + p.clock)

open Classical in
/-- mask.py:1116-1146 -/
noncomputable def addStruts (p : Pupil) (s : WF (size p)) : WF (size p) := if wStrutM p > 0 then (struts p).foldl (addStrut p) s else s

open Classical in
/-- mask.py:1148-1152: read-out, clipping at 1, and the turn by `np.rot90(mask, 2)`. -/
noncomputable def finish (p : Pupil) (s : WF (size p)) (ap : ZMod (size p) → ZMod (size p) → ℝ) : ZMod (size p) → ZMod (size p) → ℝ :=
  let mask := fun i j => readOut s i j * ap i j
  let mask := fun i j => if mask i j > 1 then 1 else mask i j
  if p.rot180 then fun i j => mask (-1 - i) (-1 - j) else mask

/-- mask.py:1022-1154 `falco_gen_pupil_LUVOIR_A_final`. -/
noncomputable def pupil (p : Pupil) : Except PyErr (ZMod (size p) → ZMod (size p) → ℝ) :=
  match p.lyot with
  | none => (hexApertureA (hexArgs p)).map fun ap => finish p (addStruts p (bm p)) ap
  | some (ID, OD) =>
    (circularAperture 33 (bm p) (p.magFac * (OD / 2) * Dap p) (cShift p + Dap p * p.xShear) (cShift p + Dap p * p.yShear) false).bind fun s =>
    (ellipticalObscuration 33 s (p.magFac * (ID / 2) * Dap p) (p.magFac * (ID / 2) * Dap p) (cShift p + Dap p * p.xShear) (cShift p + Dap p * p.yShear) 0 false).map fun s =>
    finish p (addStruts p s) fun _ _ => 1
end A

namespace B
/-- mask.py:1191 -/
noncomputable def scaleFac : ℝ := 0.96075
/-- mask.py:1190, 1192: points across, flat to flat. -/
noncomputable def nbeam (p : Pupil) : ℝ := scaleFac * p.nbeam
/-- mask.py:1194 -/
noncomputable def width0 : ℝ := 0.955
/-- mask.py:1193, 1195 (`nrings = 4`) -/
noncomputable def Dap (p : Pupil) : ℝ := 8 * width0 + 7 * p.wGap
/-- mask.py:1196 -/
noncomputable def dx (p : Pupil) : ℝ := Dap p / nbeam p
/-- mask.py:1200-1210: array size. -/
noncomputable def size (p : Pupil) : ℕ := (match p.centering with
  | .pixel => Util.ceilEven ((1 + 2 * p.shearMax) * 1.02 * nbeam p * max p.magFac 1 + 1)
  | .interpixel => Util.ceilEven ((1 + 2 * p.shearMax) * 1.02 * nbeam p * max p.magFac 1)).toNat
/-- mask.py:1203-1210: shift of the centre. -/
noncomputable def cShift (p : Pupil) : ℝ := match p.centering with
  | .pixel => if p.rot180 then -dx p else 0
  | .interpixel => -dx p / 2
/-- mask.py:1216 -/
noncomputable def width (p : Pupil) : ℝ := p.magFac * width0
/-- mask.py:1218 -/
noncomputable def hexrad (p : Pupil) : ℝ := 2 / √3 * width p / 2
/-- mask.py:1219-1220 -/
noncomputable def hexsep (p : Pupil) : ℝ := width p + p.magFac * p.wGap
/-- mask.py:1214, 1223 -/
noncomputable def bm (p : Pupil) : WF (size p) := begin_ (size p) (Dap p) 1e-6 (nbeam p / size p)
/-- mask.py:1193, 1197-1198, 1225-1227: the arguments of the hexagonal aperture (no DARK). -/
noncomputable def hexArgs (p : Pupil) : HexArgs :=
  ⟨size p, 33, (bm p).dx, beamradius (bm p), 4, hexrad p, hexsep p, cShift p + 1 / scaleFac * Dap p * p.xShear, cShift p + 1 / scaleFac * Dap p * p.yShear, false, p.clock⟩
/-- mask.py:1157-1231 `falco_gen_pupil_LUVOIR_B`. -/
noncomputable def pupil (p : Pupil) : Except PyErr (ZMod (size p) → ZMod (size p) → ℝ) :=
  (hexApertureB (hexArgs p)).map fun ap i j => readOut (bm p) i j * ap i j
end B

end Verif.Luvoir
