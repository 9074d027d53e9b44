import Verif.Model.Noll
import Verif.Model.Util
import Mathlib.Analysis.SpecialFunctions.Complex.Arg

/-!
# Model of the Zernike maps: falco/zern.py gen_norm_zern_maps and propcustom_zernikes, falco/proper/prop_zernikes.py

A map is a function of the row `j` and the column `i` of the `n x n` grid. Simplifications: real arithmetic; the request is a list of pairs (index, coefficient), so the two input arrays
always have the same length; the code evaluates one row of the map after the other, the model one pixel at a time (a blank or unassigned formula raises in the first row already, so the
outcome is the same for `n ≥ 1`).
-/

namespace Verif.ZernMap
open Verif Real

/-- The coordinate of sample `i` of `n`: falco/zern.py:531 `(np.arange(n) - n//2) * dx + x_offset` (and lines 541, 568 for `y`); falco/proper/prop_zernikes.py:139,149 with offset 0. -/
noncomputable def coord (n : ℕ) (dx off : ℝ) (i : Fin n) : ℝ := ((i : ℕ) - ((n / 2 : ℕ) : ℝ)) * dx + off

/-- falco/zern.py:542 `r = np.sqrt(x**2 + y**2)`. -/
noncomputable def radius (x y : ℝ) : ℝ := Real.sqrt (x ^ 2 + y ^ 2)

/-- falco/zern.py:543 `t = np.arctan2(y, x)`. -/
noncomputable def angle (x y : ℝ) : ℝ := Complex.arg ⟨x, y⟩

/-- `zernike_num.max()` (falco/zern.py:507): raises on an empty array. -/
def maxIndex : List (ℕ × ℝ) → Except PyErr ℕ
  | [] => .error .valueError
  | q :: qs => .ok (qs.foldl (fun m p => max m p.1) q.1)

/-- falco/zern.py:559-561: `tmp = eval(zlist[zernike_num[iz]]); ab += zernike_val[iz] * tmp`; evaluating the blank entry 0 is a syntax error, and so may be a formula of more than 250 bytes. -/
noncomputable def assemble (s : Noll.St) (r t : ℝ) : List (ℕ × ℝ) → Except PyErr ℝ
  | [] => .ok 0
  | q :: qs => match s.zl q.1 with
    | none => .error .syntaxError
    | some z => (Noll.evalStr z r t).bind fun v => (assemble s r t qs).map fun ab => q.2 * v + ab

/-! The formulas for an annulus with inner radius `eps` (falco/zern.py:577-620, falco/proper/prop_zernikes.py:175-227; the same 22 formulas in both files). -/

/-- falco/zern.py:578. -/
noncomputable def ann1 (_eps _r _t : ℝ) : ℝ := 1
/-- falco/zern.py:580. -/
noncomputable def ann2 (eps r t : ℝ) : ℝ := (2*r*cos (t))/√(1 + eps^2)
/-- falco/zern.py:582. -/
noncomputable def ann3 (eps r t : ℝ) : ℝ := (2*r*sin (t))/√(1 + eps^2)
/-- falco/zern.py:584. -/
noncomputable def ann4 (eps r t : ℝ) : ℝ := (√(3)*(1 + eps^2 - 2*r^2))/(-1 + eps^2)
/-- falco/zern.py:586. -/
noncomputable def ann5 (eps r t : ℝ) : ℝ := (√(6)*r^2*sin (2*t))/√(1 + eps^2 + eps^4)
/-- falco/zern.py:588. -/
noncomputable def ann6 (eps r t : ℝ) : ℝ := (√(6)*r^2*cos (2*t))/√(1 + eps^2 + eps^4)
/-- falco/zern.py:590. -/
noncomputable def ann7 (eps r t : ℝ) : ℝ := (2*√(2)*r*(2 + 2*eps^4 - 3*r^2 + eps^2*(2 - 3*r^2))*sin (t))/((-1 + eps^2)*√(1 + 5*eps^2 + 5*eps^4 + eps^6))
/-- falco/zern.py:592. -/
noncomputable def ann8 (eps r t : ℝ) : ℝ := (2*√(2)*r*(2 + 2*eps^4 - 3*r^2 + eps^2*(2 - 3*r^2))*cos (t))/((-1 + eps^2)*√(1 + 5*eps^2 + 5*eps^4 + eps^6))
/-- falco/zern.py:594. -/
noncomputable def ann9 (eps r t : ℝ) : ℝ := (2*√(2)*r^3*sin (3*t))/√(1 + eps^2 + eps^4 + eps^6)
/-- falco/zern.py:596. -/
noncomputable def ann10 (eps r t : ℝ) : ℝ := (2*√(2)*r^3*cos (3*t))/√(1 + eps^2 + eps^4 + eps^6)
/-- falco/zern.py:598. -/
noncomputable def ann11 (eps r t : ℝ) : ℝ := (√(5)*(1 + eps^4 - 6*r^2 + 6*r^4 + eps^2*(4 - 6*r^2)))/ (-1 + eps^2)^2
/-- falco/zern.py:600. -/
noncomputable def ann12 (eps r t : ℝ) : ℝ := (√(10)*r^2*(3 + 3*eps^6 - 4*r^2 + eps^2*(3 - 4*r^2) + eps^4*(3 - 4*r^2))*cos (2*t))/ ((-1 + eps^2)*√((1 + eps^2 + eps^4)*(1 + 4*eps^2 + 10*eps^4 + 4*eps^6 + eps^8)))
/-- falco/zern.py:602. -/
noncomputable def ann13 (eps r t : ℝ) : ℝ := (√(10)*r^2*(3 + 3*eps^6 - 4*r^2 + eps^2*(3 - 4*r^2) + eps^4*(3 - 4*r^2))*sin (2*t))/ ((-1 + eps^2)*√((1 + eps^2 + eps^4)*(1 + 4*eps^2 + 10*eps^4 + 4*eps^6 + eps^8)))
/-- falco/zern.py:604. -/
noncomputable def ann14 (eps r t : ℝ) : ℝ := (√(10)*r^4*cos (4*t))/√(1 + eps^2 + eps^4 + eps^6 + eps^8)
/-- falco/zern.py:606. -/
noncomputable def ann15 (eps r t : ℝ) : ℝ := (√(10)*r^4*sin (4*t))/√(1 + eps^2 + eps^4 + eps^6 + eps^8)
/-- falco/zern.py:608. -/
noncomputable def ann16 (eps r t : ℝ) : ℝ := (2*√(3)*r*(3 + 3*eps^8 - 12*r^2 + 10*r^4 - 12*eps^6*(-1 + r^2) + 2*eps^4*(15 - 24*r^2 + 5*r^4) + 4*eps^2*(3 - 12*r^2 + 10*r^4))*cos (t))/((-1 + eps^2)^2*√((1 + 4*eps^2 + eps^4)* (1 + 9*eps^2 + 9*eps^4 + eps^6)))
/-- falco/zern.py:610. -/
noncomputable def ann17 (eps r t : ℝ) : ℝ := (2*√(3)*r*(3 + 3*eps^8 - 12*r^2 + 10*r^4 - 12*eps^6*(-1 + r^2) + 2*eps^4*(15 - 24*r^2 + 5*r^4) + 4*eps^2*(3 - 12*r^2 + 10*r^4))*sin (t))/((-1 + eps^2)^2*√((1 + 4*eps^2 + eps^4)* (1 + 9*eps^2 + 9*eps^4 + eps^6)))
/-- falco/zern.py:612. -/
noncomputable def ann18 (eps r t : ℝ) : ℝ := (2*√(3)*r^3*(4 + 4*eps^8 - 5*r^2 + eps^2*(4 - 5*r^2) + eps^4*(4 - 5*r^2) + eps^6*(4 - 5*r^2))*cos (3*t))/ ((-1 + eps^2)*√((1 + eps^2 + eps^4 + eps^6)*(1 + 4*eps^2 + 10*eps^4 + 20*eps^6 + 10*eps^8 + 4*eps^10 + eps^12)))
/-- falco/zern.py:614. -/
noncomputable def ann19 (eps r t : ℝ) : ℝ := (2*√(3)*r^3*(4 + 4*eps^8 - 5*r^2 + eps^2*(4 - 5*r^2) + eps^4*(4 - 5*r^2) + eps^6*(4 - 5*r^2))*sin (3*t))/ ((-1 + eps^2)*√((1 + eps^2 + eps^4 + eps^6)*(1 + 4*eps^2 + 10*eps^4 + 20*eps^6 + 10*eps^8 + 4*eps^10 + eps^12)))
/-- falco/zern.py:616. -/
noncomputable def ann20 (eps r t : ℝ) : ℝ := (2*√(3)*r^5*cos (5*t))/ √(1 + eps^2 + eps^4 + eps^6 + eps^8 + eps^10)
/-- falco/zern.py:618. -/
noncomputable def ann21 (eps r t : ℝ) : ℝ := (2*√(3)*r^5*sin (5*t))/ √(1 + eps^2 + eps^4 + eps^6 + eps^8 + eps^10)
/-- falco/zern.py:620. -/
noncomputable def ann22 (eps r t : ℝ) : ℝ := (√(7)*(1 + eps^6 - 12*r^2 + 30*r^4 - 20*r^6 + eps^4*(9 - 12*r^2) + eps^2*(9 - 36*r^2 + 30*r^4)))/ (-1 + eps^2)^3

/-- The `if`/`elif` chain at falco/zern.py:577-620: the value assigned to `ab`, `none` when no branch applies. -/
noncomputable def annular (eps r t : ℝ) : ℕ → Option ℝ
  | 1 => some (ann1 eps r t)
  | 2 => some (ann2 eps r t)
  | 3 => some (ann3 eps r t)
  | 4 => some (ann4 eps r t)
  | 5 => some (ann5 eps r t)
  | 6 => some (ann6 eps r t)
  | 7 => some (ann7 eps r t)
  | 8 => some (ann8 eps r t)
  | 9 => some (ann9 eps r t)
  | 10 => some (ann10 eps r t)
  | 11 => some (ann11 eps r t)
  | 12 => some (ann12 eps r t)
  | 13 => some (ann13 eps r t)
  | 14 => some (ann14 eps r t)
  | 15 => some (ann15 eps r t)
  | 16 => some (ann16 eps r t)
  | 17 => some (ann17 eps r t)
  | 18 => some (ann18 eps r t)
  | 19 => some (ann19 eps r t)
  | 20 => some (ann20 eps r t)
  | 21 => some (ann21 eps r t)
  | 22 => some (ann22 eps r t)
  | _ => none

/-- One pass of the loop over the requested indices at falco/zern.py:576-620: `ab` keeps its old value when no branch applies (`none`: not assigned yet). -/
noncomputable def lastAb (eps r t : ℝ) (qs : List (ℕ × ℝ)) (ab : Option ℝ) : Option ℝ :=
  qs.foldl (fun ab q => (annular eps r t q.1).or ab) ab

/-- falco/zern.py:565-622, one pixel: the line `dmap[j, :] += zernike_val[iz] * ab` stands after the loop, `iz` being the last index. -/
noncomputable def customObscured (eps r t : ℝ) (qs : List (ℕ × ℝ)) : Except PyErr ℝ :=
  match lastAb eps r t qs none, qs.getLast? with
  | some ab, some q => .ok (q.2 * ab)
  | _, _ => .error .unboundLocal

/-- falco/proper/prop_zernikes.py:175-229, one pixel: the line `dmap[j,:] += zernike_val[iz] * ab` stands inside the loop. -/
noncomputable def properObscured (eps r t : ℝ) : Option ℝ → List (ℕ × ℝ) → Except PyErr ℝ
  | _, [] => .ok 0
  | ab, q :: qs => match (annular eps r t q.1).or ab with
    | none => .error .unboundLocal
    | some ab' => (properObscured eps r t (some ab') qs).map fun d => q.2 * ab' + d

/-- One pixel of the map; `obs` is the obscured branch of the function at hand. -/
noncomputable def pixel (obs : ℝ → ℝ → ℝ → List (ℕ × ℝ) → Except PyErr ℝ) (qs : List (ℕ × ℝ)) (eps x y : ℝ) : Except PyErr ℝ := do
  let maxz ← maxIndex qs
  if eps ≠ 0 ∧ 22 < maxz then .error .valueError
  else if eps = 0 then do
    let s ← Noll.noll maxz
    assemble s (radius x y) (angle x y) qs
  else obs eps (radius x y) (angle x y) qs

/-- falco/zern.py:395-631 `propcustom_zernikes` with a valid CENTERING and NO_APPLY: value of the map at row `j`, column `i`, for the step `dx` in units of the normalising radius. -/
noncomputable def customMap (n : ℕ) (dx : ℝ) (c : Util.Centering) (qs : List (ℕ × ℝ)) (eps : ℝ) (j i : Fin n) : Except PyErr ℝ :=
  let off := if c = .interpixel then dx / 2 else 0
  pixel customObscured qs eps (coord n dx off i) (coord n dx off j)

/-- falco/proper/prop_zernikes.py:19-239 `prop_zernikes` with NO_APPLY. -/
noncomputable def properMap (n : ℕ) (dx : ℝ) (qs : List (ℕ × ℝ)) (eps : ℝ) (j i : Fin n) : Except PyErr ℝ :=
  pixel (fun e r t q => properObscured e r t none q) qs eps (coord n dx 0 i) (coord n dx 0 j)

/-- The string test `centering not in _VALID_CENTERING` (falco/zern.py:363-364). -/
def parseCentering (s : String) : Except PyErr Util.Centering :=
  if s = "pixel" then .ok .pixel else if s = "interpixel" then .ok .interpixel else .error .valueError

/-- `Narray` (falco/zern.py:371-374). -/
noncomputable def narray (Nbeam : ℝ) (c : Util.Centering) : ℕ := (if c = .interpixel then Util.ceilEven Nbeam else Util.ceilEven (Nbeam + 1)).toNat

/-- The coordinate step (falco/zern.py:377-382, falco/proper/prop_begin.py:41-62, prop_wavefront.py:49, falco/zern.py:514-519): `dx = diam/(grid_n * beam_diam_frac)` with
`beam_diam_frac = Narray/Nbeam`, divided by the beam radius `diam/2` (prop_get_beamradius at the start of the beam). -/
noncomputable def step (Nbeam : ℝ) (N : ℕ) : ℝ := (1 / (N * (N / Nbeam))) / (1 / 2)

/-- falco/zern.py:345-392 `gen_norm_zern_maps(Nbeam, centering, indsZnoll)`: array size, then slice `iz` of the cube at row `j`, column `i`. -/
noncomputable def genMaps (Nbeam : ℝ) (centering : String) (inds : List ℕ) : Except PyErr (Σ N : ℕ, Fin inds.length → Fin N → Fin N → Except PyErr ℝ) := do
  let c ← parseCentering centering
  let N := narray Nbeam c
  .ok ⟨N, fun iz j i => customMap N (step Nbeam N) c [(inds.get iz, 1)] 0 j i⟩

end Verif.ZernMap
