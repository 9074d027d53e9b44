import Verif.Model.Dm
import Verif.Model.Proper

/-!
# Model of the antialiased shapes: falco/proper/prop_ellipse.py, prop_rectangle.py and `falco_gen_ellipse` of falco/mask.py

An `n × n` image is a function of row and column (`ZMod n`, index = `ZMod.val`).  Real arithmetic; radii and half widths are non-zero (a zero radius divides by zero in Python).
-/

namespace Verif.Shape
open Verif

/-! ## prop_ellipse -/

/-- The ellipse in pixels: centre column and row, the two radii, the angle `t` in radians. -/
structure Ell where
  xc : ℝ
  yc : ℝ
  a : ℝ
  b : ℝ
  t : ℝ

/-- falco/proper/prop_ellipse.py:54-81: arguments to pixels; `beamrad` is the beam radius in metres, `dx` the sampling. -/
noncomputable def Ell.ofArgs (n : ℕ) (dx beamrad : ℝ) (norm : Bool) (xradius yradius xc yc rotation : ℝ) : Ell :=
  let pr := beamrad / dx
  let t := rotation * Real.pi / 180
  if norm then ⟨(n / 2 : ℕ) + xc * pr, (n / 2 : ℕ) + yc * pr, xradius * pr, yradius * pr, t⟩
  else ⟨(n / 2 : ℕ) + xc / dx, (n / 2 : ℕ) + yc / dx, xradius / dx, yradius / dx, t⟩

/-- `np.clip(x, 0, n-1)` on integers. -/
def clip (n : ℕ) (x : ℤ) : ℤ := min (max x 0) ((n : ℤ) - 1)

/-- falco/proper/prop_ellipse.py:87-89: columns of the rotated corners of the box around the unrotated ellipse. -/
noncomputable def Ell.xbox (e : Ell) : List ℝ :=
  [(-e.a, -e.b), (e.a, -e.b), (e.a, e.b), (-e.a, e.b)].map fun p : ℝ × ℝ => p.1 * Real.cos e.t - p.2 * Real.sin e.t + e.xc

/-- falco/proper/prop_ellipse.py:87-88, 90: rows of the rotated corners. -/
noncomputable def Ell.ybox (e : Ell) : List ℝ :=
  [(-e.a, -e.b), (e.a, -e.b), (e.a, e.b), (-e.a, e.b)].map fun p : ℝ × ℝ => p.1 * Real.sin e.t + p.2 * Real.cos e.t + e.yc

/-- `np.min` of a non-empty list. -/
noncomputable def lmin (l : List ℝ) : ℝ := l.tail.foldl min (l.headD 0)
/-- `np.max` of a non-empty list. -/
noncomputable def lmax (l : List ℝ) : ℝ := l.tail.foldl max (l.headD 0)

/-- falco/proper/prop_ellipse.py:92-97: first and last pixel of the box, on one axis. -/
noncomputable def boxRange (n : ℕ) (box : List ℝ) : ℤ × ℤ :=
  (clip n (Dm.npRound (lmin box) - 1), clip n (Dm.npRound (lmax box) + 1))

/-- falco/proper/prop_ellipse.py:105-107: normalised radius of the point `(x, y)` relative to the centre (lines 140-141 use the same coordinates). -/
noncomputable def Ell.r (e : Ell) (x y : ℝ) : ℝ :=
  let xr := (x * Real.cos e.t - y * Real.sin e.t) / e.a
  let yr := (x * Real.sin e.t + y * Real.cos e.t) / e.b
  Real.sqrt (xr * xr + yr * yr)

/-- falco/proper/prop_ellipse.py:111-115: half width of the edge region. -/
noncomputable def Ell.dr (e : Ell) : ℝ :=
  let delx := 1 / e.a
  let dely := 1 / e.b
  max |delx * Real.cos e.t - dely * Real.sin e.t| |delx * Real.sin e.t + dely * Real.cos e.t|

open Classical in
/-- falco/proper/prop_ellipse.py:124-143: fraction of the `nsub × nsub` points of the pixel at `(x, y)` (relative to the centre) that lie in the ellipse. -/
noncomputable def Ell.subpix (e : Ell) (nsub : ℕ) (x y : ℝ) : ℝ :=
  (((Finset.univ : Finset (Fin nsub × Fin nsub)).filter fun p =>
    let xs := ((p.2 : ℕ) - ((nsub / 2 : ℕ) : ℝ)) / nsub + x
    let ys := ((p.1 : ℕ) - ((nsub / 2 : ℕ) : ℝ)) / nsub + y
    let u := (xs * Real.cos e.t - ys * Real.sin e.t) / e.a
    let v := (xs * Real.sin e.t + ys * Real.cos e.t) / e.b
    u * u + v * v ≤ 1 + 1e-10).card : ℝ) / ((nsub : ℝ) * nsub)

open Classical in
/-- falco/proper/prop_ellipse.py:117-143: a pixel of the box. -/
noncomputable def Ell.pixel (e : Ell) (nsub : ℕ) (x y : ℝ) : ℝ :=
  let r := e.r x y
  let mask : ℝ := if r > 1 + e.dr then 0 else -1
  let mask := if r ≤ 1 - e.dr then 1 else mask
  if mask = -1 then e.subpix nsub x y else mask

/-- falco/proper/prop_ellipse.py:54-152 after the conversion to pixels. A box less than two pixels wide or high is an IndexError at lines 108-109 (`r[0,1]`, `r[1,0]`). -/
noncomputable def ellipse (n nsub : ℕ) (e : Ell) (dark : Bool) : Except PyErr (ZMod n → ZMod n → ℝ) :=
  let bx := boxRange n e.xbox
  let by' := boxRange n e.ybox
  if bx.2 - bx.1 + 1 < 2 ∨ by'.2 - by'.1 + 1 < 2 then .error .indexError
  else .ok fun i j =>
    if by'.1 ≤ (i.val : ℤ) ∧ (i.val : ℤ) ≤ by'.2 ∧ bx.1 ≤ (j.val : ℤ) ∧ (j.val : ℤ) ≤ bx.2 then
      let mask := e.pixel nsub ((j.val : ℝ) - e.xc) ((i.val : ℝ) - e.yc)
      if dark then 1 - mask else mask
    else if dark then 1 else 0

/-- falco/proper/prop_set_antialiasing.py:24-28 (`nsub` an integer): an even factor is rejected. -/
def setAntialiasing (nsub : ℤ) : Except PyErr ℤ := if nsub % 2 = 0 then .error .valueError else .ok nsub

/-! ## prop_rectangle -/

/-- The rectangle in pixels: centre column and row, half widths, angle in radians. -/
structure Rect where
  xc : ℝ
  yc : ℝ
  rx : ℝ
  ry : ℝ
  t : ℝ

/-- falco/proper/prop_rectangle.py:70-114: arguments to pixels; `none` for a centre that was not given. -/
noncomputable def Rect.ofArgs (n : ℕ) (dx beamrad : ℝ) (norm : Bool) (xsize ysize : ℝ) (xc yc : Option ℝ) (rotation : ℝ) : Rect :=
  let pr := beamrad / dx
  let c : Option ℝ → ℝ := fun o => match o with
    | none => (n / 2 : ℕ)
    | some v => if norm then v * pr + (n / 2 : ℕ) else v / dx + (n / 2 : ℕ)
  ⟨c xc, c yc, if norm then 0.5 * xsize * pr else 0.5 * xsize / dx, if norm then 0.5 * ysize * pr else 0.5 * ysize / dx, rotation * Real.pi / 180⟩

/-- falco/proper/prop_rectangle.py:116-117: the corners before the rotation. -/
def Rect.p0 (r : Rect) (k : Fin 4) : ℝ × ℝ := ![(-r.rx, -r.ry), (-r.rx, r.ry), (r.rx, r.ry), (r.rx, -r.ry)] k

/-- falco/proper/prop_rectangle.py:120 -/
noncomputable def Rect.xp (r : Rect) (k : Fin 4) : ℝ := (r.p0 k).1 * Real.cos r.t - (r.p0 k).2 * Real.sin r.t + r.xc
/-- falco/proper/prop_rectangle.py:121 -/
noncomputable def Rect.yp (r : Rect) (k : Fin 4) : ℝ := (r.p0 k).1 * Real.sin r.t + (r.p0 k).2 * Real.cos r.t + r.yc

/-- `np.min(yp)` -/
noncomputable def Rect.ymin (r : Rect) : ℝ := min (min (r.yp 0) (r.yp 1)) (min (r.yp 2) (r.yp 3))
/-- `np.max(yp)` -/
noncomputable def Rect.ymax (r : Rect) : ℝ := max (max (r.yp 0) (r.yp 1)) (max (r.yp 2) (r.yp 3))

open Classical in
/-- falco/proper/prop_rectangle.py:125-127: the first of the lowest corners with the smallest column. -/
noncomputable def Rect.lowest (r : Rect) : Fin 4 :=
  ((List.finRange 4).find? fun k => decide (r.yp k = r.ymin ∧ ∀ l, r.yp l = r.ymin → r.xp k ≤ r.xp l)).getD 0

/-- The state of the scan: corners `left`, `right` (`leftnext = left + 1`, `rightnext = right - 1` modulo 4 throughout) and the image, addressed by integers. -/
structure Scan where
  left : Fin 4
  right : Fin 4
  img : ℤ → ℤ → ℝ

open Classical in
/-- falco/proper/prop_rectangle.py:173-185: the point at height `y` on the edge from corner `k` to corner `l`. -/
noncomputable def Rect.edgeX (r : Rect) (k l : Fin 4) (y : ℝ) : ℝ :=
  let dy := r.yp l - r.yp k
  if dy ≠ 0 then (r.xp l - r.xp k) / dy * (y - r.yp k) + r.xp k else r.xp k

open Classical in
/-- falco/proper/prop_rectangle.py:187-208: one sub-row of row `ypix`, covered from `xleft` to `xright`. -/
noncomputable def addRow (n mag : ℕ) (img : ℤ → ℤ → ℝ) (ypix : ℤ) (xleft xright : ℝ) : ℤ → ℤ → ℝ :=
  let a := Dm.npRound xleft
  let b := Dm.npRound xright
  if a ≠ b then
    let img := if 0 ≤ a ∧ a < n then Function.update img ypix (Function.update (img ypix) a (img ypix a + mag * (a + 0.5 - xleft))) else img
    let img := if 0 ≤ b ∧ b < n then Function.update img ypix (Function.update (img ypix) b (img ypix b + mag * (xright - (b - 0.5)))) else img
    if b - a > 1 ∧ a + 1 < n ∧ b > 0 then
      let imin := if a + 1 < 0 then 0 else a + 1
      let imax := if b > n then (n : ℤ) else b
      Function.update img ypix fun j => if imin ≤ j ∧ j < imax then img ypix j + mag else img ypix j
    else img
  else if 0 ≤ a ∧ a < n then Function.update img ypix (Function.update (img ypix) a (img ypix a + mag * (xright - xleft)))
  else img

open Classical in
/-- falco/proper/prop_rectangle.py:152-208: one sub-row. (`break` at line 157 leaves the sub-rows of this row; as `y` only grows, every later sub-row would be passed over too.) -/
noncomputable def Rect.scan (r : Rect) (n mag : ℕ) (s : Scan) (q : ℤ × ℕ) : Scan :=
  let y : ℝ := q.1 - 0.5 + (0.5 + q.2) / mag
  if y < r.yp s.left then s
  else if y > r.ymax then s
  else
    let left := if y ≥ r.yp (s.left + 1) then s.left + 1 else s.left
    let right := if y ≥ r.yp (s.right - 1) then s.right - 1 else s.right
    ⟨left, right, addRow n mag s.img q.1 (r.edgeX left (left + 1) y) (r.edgeX right (right - 1) y)⟩

/-- falco/proper/prop_rectangle.py:140-151: the sub-rows in the order of the loops. -/
noncomputable def Rect.rows (r : Rect) (n mag : ℕ) : List (ℤ × ℕ) :=
  let imin := if Dm.npRound r.ymin < 0 then 0 else Dm.npRound r.ymin
  let imax := if Dm.npRound r.ymax + 1 ≥ n then (n : ℤ) else Dm.npRound r.ymax + 1
  (List.range (imax - imin).toNat).flatMap fun (k : ℕ) => (List.range mag).map fun (s : ℕ) => (imin + (k : ℤ), s)

/-- falco/proper/prop_rectangle.py:123-216. -/
noncomputable def rectangle (n mag : ℕ) (r : Rect) (dark : Bool) : ZMod n → ZMod n → ℝ :=
  let s := (r.rows n mag).foldl (r.scan n mag) ⟨r.lowest, r.lowest, fun _ _ => 0⟩
  fun i j =>
    let v := s.img i.val j.val / (mag : ℝ) ^ 2
    if dark then 1 - v else v

/-! ## falco_gen_ellipse -/

/-- falco/mask.py:1672-1683: the inputs (`N = Narray`; lengths in beam diameters, `clock` in radians). -/
structure GenEll where
  N : ℕ
  nbeam : ℝ
  radX : ℝ
  radY : ℝ
  clock : ℝ
  xShear : ℝ
  yShear : ℝ
  magFac : ℝ
  centering : Util.Centering

/-- falco/mask.py:1685-1688: the coordinate of pixel `k` before the shear (`np.linspace` of `N ≥ 2` points with unit spacing). -/
noncomputable def GenEll.coord (g : GenEll) (k : ℕ) : ℝ :=
  match g.centering with
  | .pixel => (-(g.N : ℝ) / 2 + k) / g.nbeam
  | .interpixel => (-((g.N : ℝ) - 1) / 2 + k) / g.nbeam

/-- falco/mask.py:1697-1700 without the factor `1/magFac`; also lines 1723-1727. -/
noncomputable def GenEll.nu (g : GenEll) (X Y : ℝ) : ℝ :=
  0.5 * Real.sqrt (1 / g.radX ^ 2 * (Real.cos g.clock * X + Real.sin g.clock * Y) ^ 2 + 1 / g.radY ^ 2 * (Real.sin g.clock * X - Real.cos g.clock * Y) ^ 2)

/-- falco/mask.py:1690-1700: `RHO[i, j]`. -/
noncomputable def GenEll.rho (g : GenEll) (i j : ℕ) : ℝ := 1 / g.magFac * g.nu (g.coord j - g.xShear) (g.coord i - g.yShear)

/-- falco/mask.py:1702 -/
noncomputable def GenEll.hww (g : GenEll) : ℝ := max |g.rho 1 0 - g.rho 0 0| |g.rho 0 1 - g.rho 0 0|

/-- falco/mask.py:1694: `dx = x[1] - x[0]`. -/
noncomputable def GenEll.dx (g : GenEll) : ℝ := (g.coord 1 - g.xShear) - (g.coord 0 - g.xShear)

open Classical in
/-- falco/mask.py:1709-1731: a grey pixel. -/
noncomputable def GenEll.gray (g : GenEll) (i j : ℕ) : ℝ :=
  (((Finset.univ : Finset (Fin 101 × Fin 101)).filter fun p =>
    g.nu (((-50 : ℝ) + (p.2 : ℕ)) * (g.dx / 101) + (g.coord j - g.xShear)) (((-50 : ℝ) + (p.1 : ℕ)) * (g.dx / 101) + (g.coord i - g.yShear)) ≤ 0.5).card : ℝ) / (101 : ℝ) ^ 2

open Classical in
/-- falco/mask.py:1703-1731: a pixel. -/
noncomputable def GenEll.pixel (g : GenEll) (i j : ℕ) : ℝ :=
  let v : ℝ := -1
  let v := if |g.rho i j| < 0.5 - g.hww then 1 else v
  let v := if |g.rho i j| > 0.5 + g.hww then 0 else v
  if v = -1 then g.gray i j else v

/-- falco/mask.py:1655-1733 `falco_gen_ellipse`, radii and `magFac` not 0; arrays of fewer than two pixels fail at line 1694 (`x[1]`). -/
noncomputable def genEllipse (g : GenEll) : Except PyErr (ZMod g.N → ZMod g.N → ℝ) :=
  if g.N < 2 then .error .indexError else .ok fun i j => g.pixel i.val j.val

end Verif.Shape
