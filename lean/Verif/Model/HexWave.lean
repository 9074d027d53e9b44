import Verif.Model.HexZernike
import Verif.Model.Polygon
import Verif.Model.FieldOps

/-!
# Model of falco/proper/prop_hex_wavefront.py

Real arithmetic; `nrings ≥ 0`. `zernike_val` is the default 0 or a table with one column of coefficients per segment.
-/

namespace Verif.HexWave
open Verif Verif.Proper

/-- A segment in the order of the loops: column (`iring`), place in the column (`iseg`), and whether it is on the first or the opposite side. -/
structure Seg where
  iring : ℕ
  iseg : ℕ
  first : Bool
deriving DecidableEq

/-- prop_hex_wavefront.py:123-160: the segments in the order in which they are numbered. -/
def segs (nrings : ℕ) : List Seg :=
  (List.range (nrings + 1)).flatMap fun iring => (List.range (2 * nrings - iring + 1)).flatMap fun iseg =>
    ⟨iring, iseg, true⟩ :: if iring ≠ 0 then [⟨iring, iseg, false⟩] else []

/-- prop_hex_wavefront.py:124-125, 160: the place of a segment before rotation and offset (`y` grows by `hexsep` in each round; the opposite side has `-x`). -/
noncomputable def Seg.pos (nrings : ℕ) (hexsep : ℝ) (q : Seg) : ℝ × ℝ :=
  let x := hexsep * Real.cos (30 * Real.pi / 180) * q.iring
  (if q.first then x else -x, -(nrings : ℝ) * hexsep + q.iring * hexsep * 0.5 + q.iseg * hexsep)

/-- prop_hex_wavefront.py:130-131, 148-149. -/
noncomputable def Seg.centre (nrings : ℕ) (hexsep anglerad xc yc : ℝ) (q : Seg) : ℝ × ℝ :=
  let p := q.pos nrings hexsep
  (p.1 * Real.cos anglerad - p.2 * Real.sin anglerad + xc, p.1 * Real.sin anglerad + p.2 * Real.cos anglerad + yc)

/-- The argument OMIT: absent (then `omit = -1`), a number, or a list of segment numbers. -/
inductive Omit where
  | absent
  | number (k : ℤ)
  | list (l : List ℤ)

/-- `segi not in omit`: TypeError when `omit` is a number. -/
def notIn (segi : ℕ) : Omit → Except PyErr Bool
  | .list l => .ok (!l.contains (segi : ℤ))
  | _ => .error .typeError

/-- The arguments of a call. -/
structure Args where
  nrings : ℕ
  hexrad : ℝ
  hexsep : ℝ
  /-- number of columns and the columns of `zernike_val`; `none` for the default 0 -/
  zernikes : Option (ℕ × (ℕ → List ℝ))
  omitted : Omit
  darkcenter : Bool
  noApply : Bool
  rotation : ℝ
  xcenter : ℝ
  ycenter : ℝ

open Classical in
/-- prop_hex_wavefront.py:113: is any coefficient not zero? -/
noncomputable def Args.phaseErrors (a : Args) : Bool :=
  match a.zernikes with
  | none => false
  | some (c, col) => decide (∃ k < c, ∃ z ∈ col k, z ≠ 0)

variable {n : ℕ}

/-- The two arrays of the loop. -/
structure Maps (n : ℕ) where
  aperture : ZMod n → ZMod n → ℝ
  phase : ZMod n → ZMod n → ℝ

/-- prop_hex_wavefront.py:138, 154: `zernike_val[:,segi]`, IndexError beyond the last column. -/
def column (a : Args) (segi : ℕ) : Except PyErr (List ℝ) :=
  match a.zernikes with
  | none => .error .typeError
  | some (c, col) => if segi < c then .ok (col segi) else .error .indexError

/-- `zernike_index = np.arange(22) + 1` -/
def zernikeIndex : List ℤ := (List.range 22).map fun k : ℕ => (k : ℤ) + 1

open Classical in
/-- prop_hex_wavefront.py:128-158: one segment; `mag` is the antialiasing factor, `br` the beam radius (not used here). -/
noncomputable def segment (mag : ℕ) (dx br : ℝ) (a : Args) (m : Maps n) (q : Seg × ℕ) : Except PyErr (Maps n) :=
  (notIn q.2 a.omitted).bind fun draw =>
  if draw then
    let c := q.1.centre a.nrings a.hexsep (a.rotation * Real.pi / 180) a.xcenter a.ycenter
    (Polygon.regularPolygon n mag dx br false false 6 a.hexrad (some c.1) (some c.2) a.rotation).bind fun seg =>
    let ap := if q.1.first ∧ q.1.iring = 0 ∧ q.1.iseg = a.nrings ∧ a.darkcenter then m.aperture else fun i j => m.aperture i j + seg i j
    if a.phaseErrors then
      (column a q.2).bind fun col =>
      (HexZ.hexZernikes zernikeIndex col n dx a.hexrad c.1 c.2 a.rotation).map fun z => ⟨ap, fun i j => m.phase i j + (if seg i j ≠ 0 then 1 else 0) * z i j⟩
    else .ok ⟨ap, m.phase⟩
  else .ok m

/-- prop_hex_wavefront.py:123-160: all segments. -/
noncomputable def maps (n mag : ℕ) (dx br : ℝ) (a : Args) : Except PyErr (Maps n) := (segs a.nrings).zipIdx.foldlM (segment mag dx br a) ⟨fun _ _ => 0, fun _ _ => 0⟩

variable [NeZero n]

/-- A real array as an argument. -/
def realVal (A : ZMod n → ZMod n → ℝ) : Val := .mat n n fun i j => (A i j : ℂ)

/-- `prop_hex_wavefront(wf, nrings, hexrad, hexsep, zernike_val, ...)`: the new wavefront, the aperture, and the phase if there are phase errors (prop_hex_wavefront.py:162-170). -/
noncomputable def hexWavefront (mag : ℕ) (br : ℝ) (s : WF n) (a : Args) : Except PyErr (WF n × (ZMod n → ZMod n → ℝ) × Option (ZMod n → ZMod n → ℝ)) :=
  (maps n mag s.dx br a).bind fun m =>
  (if a.noApply then .ok s
   else (multiply s (realVal m.aperture)).bind fun s1 => if a.phaseErrors then addPhaseV s1 (realVal m.phase) else .ok s1).map fun s' =>
  (s', m.aperture, if a.phaseErrors then some m.phase else none)

end Verif.HexWave
