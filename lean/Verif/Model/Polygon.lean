import Verif.Model.Shape
import Verif.Model.Arr

/-!
# Model of falco/proper/prop_irregular_polygon.py and prop_polygon.py

Both use the same scan over sub-rows. Simplifications: real arithmetic; at least three vertices.
-/

namespace Verif.Polygon
open Verif

/-- The vertices in pixels, in the order of the scan: number, columns, rows (`x k`, `y k` for `k < nv`). -/
structure Poly where
  nv : ℕ
  x : ℕ → ℝ
  y : ℕ → ℝ

/-- `np.min(yp)` -/
noncomputable def Poly.ymin (p : Poly) : ℝ := ((List.range p.nv).map p.y).foldr min (p.y 0)
/-- `np.max(yp)` -/
noncomputable def Poly.ymax (p : Poly) : ℝ := ((List.range p.nv).map p.y).foldr max (p.y 0)

open Classical in
/-- prop_irregular_polygon.py:93-95, prop_polygon.py:131-133: the first of the lowest vertices with the smallest column. -/
noncomputable def Poly.lowest (p : Poly) : ℕ :=
  ((List.range p.nv).find? fun k => decide (p.y k = p.ymin ∧ ∀ l < p.nv, p.y l = p.ymin → p.x k ≤ p.x l)).getD 0

/-- prop_irregular_polygon.py:97-100, 131-134 -/
def Poly.next (p : Poly) (k : ℕ) : ℕ := if k ≠ p.nv - 1 then k + 1 else 0
/-- prop_irregular_polygon.py:104-107, 138-141 -/
def Poly.prev (p : Poly) (k : ℕ) : ℕ := if k ≠ 0 then k - 1 else p.nv - 1

open Classical in
/-- prop_irregular_polygon.py:143-155: the point at height `y` on the line from vertex `k` to vertex `l`. -/
noncomputable def Poly.edgeX (p : Poly) (k l : ℕ) (y : ℝ) : ℝ :=
  let dy := p.y l - p.y k
  if dy ≠ 0 then (p.x l - p.x k) / dy * (y - p.y k) + p.x k else p.x k

/-- `image[ypix, c] += v` with Python's negative indices; the row is inside of the image. -/
def addAt (n : ℕ) (img : ℤ → ℤ → ℝ) (ypix c : ℤ) (v : ℝ) : Except PyErr (ℤ → ℤ → ℝ) :=
  let d := if c < 0 then c + n else c
  if 0 ≤ d ∧ d < n then .ok (Function.update img ypix (Function.update (img ypix) d (img ypix d + v))) else .error .indexError

/-- `image[ypix, imin:imax] += v` for `0 ≤ imin`, with a negative end counted from the end of the row. -/
def addSlice (n : ℕ) (img : ℤ → ℤ → ℝ) (ypix imin imax : ℤ) (v : ℝ) : ℤ → ℤ → ℝ :=
  let stop := if imax < 0 then imax + n else imax
  Function.update img ypix fun j => if imin ≤ j ∧ j < stop then img ypix j + v else img ypix j

/-- prop_irregular_polygon.py:157-180, prop_polygon.py:197-220: one sub-row of row `ypix`, from `xleft` to `xright`. -/
noncomputable def addRow (n mag : ℕ) (img : ℤ → ℤ → ℝ) (ypix : ℤ) (xleft xright : ℝ) : Except PyErr (ℤ → ℤ → ℝ) :=
  let a := Dm.npRound xleft
  let b := Dm.npRound xright
  if a ≠ b then
    (if a ≥ 0 then addAt n img ypix a (mag * ((a + 0.5) - xleft)) else .ok img).bind fun img =>
    (if b < n then addAt n img ypix b (mag * (xright - (b - 0.5))) else .ok img).bind fun img =>
    if b - a > 1 then
      let imin := if a + 1 < 0 then 0 else a + 1
      let imax := if b ≥ n then (n : ℤ) - 1 else b
      .ok (addSlice n img ypix imin imax mag)
    else .ok img
  else if a ≥ 0 ∧ a < n then addAt n img ypix a (mag * (xright - xleft))
  else .ok img

/-- The state of the scan. -/
structure Scan where
  left : ℕ
  right : ℕ
  img : ℤ → ℤ → ℝ

/-- The height of a sub-row: prop_irregular_polygon.py:121 -/
noncomputable def rowY (mag : ℕ) (q : ℤ × ℕ) : ℝ := q.1 - 0.5 + (0.5 + q.2) / mag

open Classical in
/-- prop_irregular_polygon.py:121-180: one sub-row (`break` leaves the sub-rows of this row; as `y` only grows, every later sub-row would be passed over too).
A row outside of the image is an error when something is written to it. -/
noncomputable def Poly.scan (p : Poly) (n mag : ℕ) (s : Scan) (q : ℤ × ℕ) : Except PyErr Scan :=
  let y := rowY mag q
  if y < p.y s.left then .ok s
  else if y > p.ymax then .ok s
  else
    let left := if y ≥ p.y (p.next s.left) then p.next s.left else s.left
    let right := if y ≥ p.y (p.prev s.right) then p.prev s.right else s.right
    if q.1 ≥ n then .error .indexError
    else (addRow n mag s.img q.1 (p.edgeX left (p.next left) y) (p.edgeX right (p.prev right) y)).map fun img => ⟨left, right, img⟩

/-- prop_irregular_polygon.py:119-120: the sub-rows of the rows `lo, …, hi - 1` in the order of the loops. -/
def rows (mag : ℕ) (lo hi : ℤ) : List (ℤ × ℕ) :=
  (List.range (hi - lo).toNat).flatMap fun (k : ℕ) => (List.range mag).map fun (s : ℕ) => (lo + (k : ℤ), s)

/-- prop_irregular_polygon.py:110-113, prop_polygon.py:149-152 -/
noncomputable def Poly.lo (p : Poly) : ℤ := if Dm.npRound p.ymin < 0 then 0 else Dm.npRound p.ymin

/-- prop_irregular_polygon.py:115-117 -/
noncomputable def Poly.hiIrr (p : Poly) (n : ℕ) : ℤ := if Dm.npRound p.ymax + 1 > n then (n : ℤ) else Dm.npRound p.ymax + 1
/-- prop_polygon.py:154-157 -/
noncomputable def Poly.hiReg (p : Poly) (n : ℕ) : ℤ := if Dm.npRound p.ymax > n then (n : ℤ) else Dm.npRound p.ymax + 1

/-- prop_irregular_polygon.py:89-187, prop_polygon.py:128-228: the scan and the final scaling. -/
noncomputable def Poly.draw (p : Poly) (n mag : ℕ) (hi : ℤ) (dark : Bool) : Except PyErr (ZMod n → ZMod n → ℝ) :=
  ((rows mag p.lo hi).foldlM (p.scan n mag) ⟨p.lowest, p.lowest, fun _ _ => 0⟩).map fun s i j =>
    let v := s.img i.val j.val / (mag : ℝ) ^ 2
    if dark then 1 - v else v

/-- prop_irregular_polygon.py:62-87: the vertices in pixels, reversed when the first corner turns counter-clockwise. -/
noncomputable def ofVertices (n : ℕ) (dx beamrad : ℝ) (norm : Bool) (nv : ℕ) (xv yv : ℕ → ℝ) : Poly :=
  let cp := (xv 1 - xv 0) * (yv 2 - yv 1) - (yv 1 - yv 0) * (xv 2 - xv 1)
  let pick : (ℕ → ℝ) → ℕ → ℝ := fun v k => if cp > 0 then v (nv - 1 - k) else v k
  let pix : ℝ → ℝ := fun v => if norm then v * (beamrad / dx) + (n / 2 : ℕ) else v / dx + (n / 2 : ℕ)
  ⟨nv, fun k => pix (pick xv k), fun k => pix (pick yv k)⟩

/-- `prop_irregular_polygon(wf, xvert, yvert, NORM=norm, DARK=dark)`: `n`, `dx`, `beamrad` are the grid size, sampling and beam radius of the wavefront, `mag` is
`proper.antialias_subsampling`. -/
noncomputable def irregularPolygon (n mag : ℕ) (dx beamrad : ℝ) (norm dark : Bool) (nv : ℕ) (xv yv : ℕ → ℝ) : Except PyErr (ZMod n → ZMod n → ℝ) :=
  let p := ofVertices n dx beamrad norm nv xv yv
  p.draw n mag (p.hiIrr n) dark

/-- prop_polygon.py:82-96: the position of the centre in pixels; `none` when it was not given. -/
noncomputable def centre (n : ℕ) (dx beamrad : ℝ) (norm : Bool) : Option ℝ → ℝ
  | none => (n : ℝ) / 2
  | some v => if norm then v * (beamrad / dx) + (n : ℝ) / 2 else v / dx + (n : ℝ) / 2

/-- prop_polygon.py:72-126: the vertices of the regular polygon, clockwise; `none` for a centre that was not given. -/
noncomputable def regular (n : ℕ) (dx beamrad : ℝ) (norm : Bool) (nvert : ℕ) (rad : ℝ) (xc yc : Option ℝ) (rotation : ℝ) : Poly :=
  let c := centre n dx beamrad norm
  let radpix := if norm then rad * (beamrad / dx) else rad / dx
  let ang := rotation * Real.pi / 180
  let t : ℕ → ℝ := fun k => -((k : ℝ) / nvert) * 2 * Real.pi
  ⟨nvert, fun k => (Real.cos (t k) * Real.cos ang - Real.sin (t k) * Real.sin ang) * radpix + c xc,
    fun k => (Real.cos (t k) * Real.sin ang + Real.sin (t k) * Real.cos ang) * radpix + c yc⟩

/-- `prop_polygon(wf, nvert, rad, xc, yc, NORM=norm, DARK=dark, ROTATION=rotation)` -/
noncomputable def regularPolygon (n mag : ℕ) (dx beamrad : ℝ) (norm dark : Bool) (nvert : ℕ) (rad : ℝ) (xc yc : Option ℝ) (rotation : ℝ) :
    Except PyErr (ZMod n → ZMod n → ℝ) :=
  let p := regular n dx beamrad norm nvert rad xc yc rotation
  p.draw n mag (p.hiReg n) dark

end Verif.Polygon
