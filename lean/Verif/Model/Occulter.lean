import Verif.Model.Arr
import Verif.Model.ThinFilm

/-!
# Model of the complex occulter: `calc_complex_trans_matrix` and `calc_complex_occulter` (falco/thinfilm.py:12-335)

The material indices, the loops over the thicknesses and the map of a mask.  Simplifications: real and complex arithmetic; thicknesses are real numbers or NaN (`none`), in arrays of floats; the
scalars are real and `pol` is an integer, the names of the materials are strings of ASCII letters; the two tables that are read from files are parameters (`Data`); the square root of a negative
number under the formula of a glass (wavelengths below 0.2 or above 3 microns) is not NaN.  The solver is that of `ThinFilm`.
-/

namespace Verif.Occulter
open Verif Verif.ThinFilm

/-- The scalar arguments. -/
structure Args where
  substrate : String
  metal : String
  dielectric : String
  lam : ℝ
  aoi : ℝ
  tTi : ℝ
  d0 : ℝ
  pol : ℤ
  flagOPD : Bool

/-- The rows (wavelength, n, k) of the two files of data: MgF2 in microns, nickel in nanometres. -/
structure Data where
  mgf2 : List (ℝ × ℝ × ℝ)
  nickel : List (ℝ × ℝ × ℝ)

/-- `np.interp(x, xp, fp)` for increasing `xp`: the first value to the left, the last one to the right, and the line between two neighbours. -/
noncomputable def interp (x : ℝ) : List (ℝ × ℝ) → ℝ
  | [] => 0
  | [p] => p.2
  | p :: q :: rest =>
    if x ≤ p.1 then p.2
    else if x < q.1 then (q.2 - p.2) / (q.1 - p.1) * (x - p.1) + p.2
    else interp x (q :: rest)

/-- falco/thinfilm.py:160-161, 168-191: the index of the substrate. -/
noncomputable def substrateIndex (name : String) (lam : ℝ) : Except PyErr ℝ :=
  let um := lam * 1.0e6
  let um2 := um * um
  if name.toUpper ∈ ["FS", "FUSEDSILICA, FUSED_SILICA"] then
    .ok (Real.sqrt (1 + 0.68374049400 * um2 / (um2 - 0.00460352869) + 0.42032361300 * um2 / (um2 - 0.01339688560)
      + 0.58502748000 * um2 / (um2 - 64.49327320000)))
  else if name.toUpper ∈ ["N-BK7", "NBK7", "BK7"] then
    .ok (Real.sqrt (1 + 1.03961212 * um2 / (um2 - 0.00600069867) + 0.231792344 * um2 / (um2 - 0.0200179144)
      + 1.01046945 * um2 / (um2 - 103.560653)))
  else .error .valueError

/-- falco/thinfilm.py:159-160, 196-216: the indices `(n, k)` of the dielectric. -/
noncomputable def dielectricIndex (D : Data) (name : String) (lam : ℝ) : Except PyErr (ℝ × ℝ) :=
  let um := lam * 1.0e6
  if name.toLower ∈ ["pmgi"] then .ok (1.524 + 5.176e-03 / um ^ 2 + 2.105e-4 / um ^ 4, 0)
  else if name.toLower ∈ ["mgf2"] then
    .ok (interp (lam * 1.0e9) (D.mgf2.map fun r => (r.1 * 1e3, r.2.1)),
         interp (lam * 1.0e9) (D.mgf2.map fun r => (r.1 * 1e3, r.2.2)))
  else .error .valueError

/-- falco/thinfilm.py:223-242: titanium, in nanometres. -/
noncomputable def titanium : List (ℝ × ℝ × ℝ) :=
  [(397, 2.08, 2.95), (413, 2.14, 2.98), (431, 2.21, 3.01), (451, 2.27, 3.04), (471, 2.3, 3.1), (496, 2.36, 3.19),
   (521, 2.44, 3.2), (549, 2.54, 3.43), (582, 2.6, 3.58), (617, 2.67, 3.74), (659, 2.76, 3.84), (704, 2.86, 3.96),
   (756, 3.00, 4.01), (821, 3.21, 4.01), (892, 3.29, 3.96), (984, 3.35, 3.97), (1088, 3.5, 4.02), (1216, 3.62, 4.15)]

/-- falco/thinfilm.py:243-247. -/
noncomputable def titaniumIndex (lam : ℝ) : ℝ × ℝ :=
  (interp (lam * 1.0e9) (titanium.map fun r => (r.1, r.2.1)), interp (lam * 1.0e9) (titanium.map fun r => (r.1, r.2.2)))

/-- falco/thinfilm.py:250-263: the indices of the metal. -/
noncomputable def metalIndex (D : Data) (name : String) (lam : ℝ) : Except PyErr (ℝ × ℝ) :=
  if name.toLower ∈ ["nickel", "ni"] then
    .ok (interp (lam * 1.0e9) (D.nickel.map fun r => (r.1, r.2.1)), interp (lam * 1.0e9) (D.nickel.map fun r => (r.1, r.2.2)))
  else .error .valueError

/-- falco/thinfilm.py:149-151: the scalars, in this order. -/
noncomputable def checks (A : Args) : Except PyErr Unit :=
  if A.lam ≤ 0 then .error .typeError
  else if A.aoi < 0 then .error .typeError
  else if A.tTi < 0 then .error .typeError
  else .ok ()

/-- falco/thinfilm.py:219-221: the thickness of titanium under a thickness of metal. -/
noncomputable def tiUnder (A : Args) (tMetal : ℝ) : ℝ := if tMetal < 1e-10 then 0 else A.tTi

/-- falco/thinfilm.py:303-312: the stack for one thickness of each. -/
noncomputable def entry (A : Args) (nSub : ℝ) (diel metal : ℝ × ℝ) (tMetal tDiel : ℝ) : Entry where
  nDiel := diel.1
  kDiel := diel.2
  nMetal := metal.1
  kMetal := metal.2
  nTi := (titaniumIndex A.lam).1
  kTi := (titaniumIndex A.lam).2
  nSub := nSub
  d0 := A.d0
  tDiel := tDiel
  tMetal := tMetal
  tTi := tiUnder A tMetal
  theta := A.aoi * (Real.pi / 180)
  lam := A.lam

/-- falco/thinfilm.py:149-336, `calc_complex_trans_matrix`: row `j` for the thickness `j` of the dielectric, column `i` for the thickness `i` of the metal; transmission and reflection. -/
noncomputable def transMatrix (D : Data) (A : Args) (tMetal tDiel : List ℝ) : Except PyErr (List (List (ℂ × ℂ))) := do
  checks A
  let nSub ← substrateIndex A.substrate A.lam
  let diel ← dielectricIndex D A.dielectric A.lam
  let metal ← metalIndex D A.metal A.lam
  tDiel.mapM fun d => tMetal.mapM fun m => (entry A nSub diel metal m d).coefs A.pol A.flagOPD

/-- A map of thicknesses; NaN is `none`. -/
structure ThickMap where
  rows : ℕ
  cols : ℕ
  val : ℕ → ℕ → Option ℝ

/-- `flatten()` -/
def ThickMap.flatten {α : Type} (rows cols : ℕ) (f : ℕ → ℕ → α) : List α :=
  (List.range rows).flatMap fun i => (List.range cols).map fun j => f i j

/-- falco/thinfilm.py:65-66: the map of the thickness of titanium; `eps` is `2 ^ (-52)`. -/
noncomputable def tiMap (A : Args) (m : ThickMap) (i j : ℕ) : ℝ :=
  match m.val i j with
  | some t => if 10 * (1 / 2 ^ 52) < t then A.tTi else 0
  | none => 0

/-- A column of `t_unique_mat`: dielectric, metal, titanium. -/
abbrev Column := Option ℝ × Option ℝ × ℝ

/-- falco/thinfilm.py:68-71: the three flattened maps, stacked. -/
noncomputable def columns (A : Args) (m d : ThickMap) : Except PyErr (List Column) :=
  if m.rows * m.cols = d.rows * d.cols then
    .ok ((ThickMap.flatten d.rows d.cols d.val).zip
      ((ThickMap.flatten m.rows m.cols m.val).zip (ThickMap.flatten m.rows m.cols (tiMap A m))))
  else .error .valueError

/-- `==` of two floats. -/
def eqFloat (a b : Option ℝ) : Prop := ∃ x, a = some x ∧ b = some x

open Classical in
/-- falco/thinfilm.py:92-96: the value `v` is put where the three maps have the thicknesses of the column.  Maps of different shapes do not broadcast (ValueError), or do not broadcast to the shape
of the output (IndexError). -/
noncomputable def assign (A : Args) (m d : ThickMap) (c : Column) (v : ℂ) (out : ℕ → ℕ → ℂ) : Except PyErr (ℕ → ℕ → ℂ) :=
  if m.rows = d.rows ∧ m.cols = d.cols then
    .ok fun i j => if (eqFloat (m.val i j) c.2.1 ∧ eqFloat (d.val i j) c.1) ∧ tiMap A m i j = c.2.2 then v else out i j
  else if (m.rows = d.rows ∨ m.rows = 1 ∨ d.rows = 1) ∧ (m.cols = d.cols ∨ m.cols = 1 ∨ d.cols = 1) then .error .indexError
  else .error .valueError

/-- falco/thinfilm.py:84-90: `tCoef[0]` for the thicknesses of a column.  With NaN the call raises what it raises for a number, and its value is not used. -/
noncomputable def coefOf (D : Data) (A : Args) (c : Column) : Except PyErr ℂ :=
  (transMatrix D { A with tTi := c.2.2 } [c.2.1.getD 0] [c.1.getD 0]).map fun T => ((T.headD []).headD (0, 0)).1

/-- falco/thinfilm.py:82-96: the loop over the columns. -/
noncomputable def fill (D : Data) (A : Args) (m d : ThickMap) : List Column → (ℕ → ℕ → ℂ) → Except PyErr (ℕ → ℕ → ℂ)
  | [], out => .ok out
  | c :: cs, out =>
    (coefOf D A c).bind fun v => (assign A m d c v out).bind fun out' => fill D A m d cs out'

/-- falco/thinfilm.py:59-98, `calc_complex_occulter`.  `unique` is `np.unique(…, axis=1)`: the columns that occur, in some order. -/
noncomputable def occulter (unique : List Column → List Column) (D : Data) (A : Args) (m d : ThickMap) : Except PyErr (ℕ → ℕ → ℂ) :=
  if A.tTi < 0 then .error .typeError
  else (columns A m d).bind fun cols => fill D A m d (unique cols) fun _ _ => 0

end Verif.Occulter
