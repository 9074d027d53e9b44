import Verif.Model.Arr
import Mathlib.Analysis.SpecialFunctions.Pow.Complex
import Mathlib.Analysis.SpecialFunctions.Trigonometric.Basic
import Mathlib.Data.Matrix.Basic
import Mathlib.LinearAlgebra.Matrix.Notation

/-! # Model of the thin-film solver (falco/thinfilm.py:339-422) and of the table entries computed from it (falco/thinfilm.py:300-336) -/

namespace Verif.ThinFilm
open Verif Complex

/-- The arguments of `solver` after its checks: `N ≥ 2` refractive indices `n 0, ..., n (N-1)`, and thicknesses `d` with `d 0 = d (N-1) = 0` (falco/thinfilm.py:383:
`np.hstack((0, d0, 0))`). -/
structure Stack where
  N : ℕ
  n : ℕ → ℂ
  d : ℕ → ℝ
  theta : ℝ
  lam : ℝ

/-- falco/thinfilm.py:385 -/
noncomputable def kx (s : Stack) : ℂ := 2 * Real.pi * s.n 0 * Real.sin s.theta / s.lam

/-- falco/thinfilm.py:387: `-np.sqrt((2*np.pi*n/lam)**2 - kx*kx)`, the principal root (`n` is an array of complex numbers). -/
noncomputable def kz (s : Stack) (i : ℕ) : ℂ := -((2 * Real.pi * s.n i / s.lam) ^ 2 - kx s * kx s) ^ ((2 : ℂ)⁻¹)

/-- falco/thinfilm.py:389-392 -/
noncomputable def kzz (s : Stack) (tm : Bool) (i : ℕ) : ℂ := if tm then kz s i / (s.n i * s.n i) else kz s i

/-- falco/thinfilm.py:394-405: the matrix of layer `i` and its interface with layer `i+1`. -/
noncomputable def layer (s : Stack) (tm : Bool) (i : ℕ) : Matrix (Fin 2) (Fin 2) ℂ :=
  let eep := exp (-I * kz s i * s.d i)
  let eem := exp (I * kz s i * s.d i)
  let tin := (1 / 2) * (kzz s tm i + kzz s tm (i + 1)) / kzz s tm i
  let ri := (kzz s tm i - kzz s tm (i + 1)) / (kzz s tm i + kzz s tm (i + 1))
  tin • !![eep, ri * eep; ri * eem, eem]

/-- falco/thinfilm.py:402-405: `A = A @ layer(i)` for `i` in `range(N-1)`. -/
noncomputable def transfer (s : Stack) (tm : Bool) : Matrix (Fin 2) (Fin 2) ℂ := (List.range (s.N - 1)).foldl (fun A i => A * layer s tm i) 1

/-- The results of `solver`. -/
structure Coefs where
  R : ℝ
  T : ℝ
  rr : ℂ
  tt : ℂ

/-- falco/thinfilm.py:407-422. `Pn` is real, so `np.sqrt(Pn)` is the real root (NaN for `Pn < 0`, here 0). -/
noncomputable def solver (s : Stack) (tm : Bool) : Coefs :=
  let A := transfer s tm
  let rr := A 1 0 / A 0 0
  let tt := 1 / A 0 0
  let Pn := if tm then ((kz s (s.N - 1) / s.n (s.N - 1) ^ 2) / (kz s 0 / s.n 0 ^ 2)).re else (kz s (s.N - 1) / kz s 0).re
  { R := ‖rr‖ ^ 2, T := Pn * ‖tt‖ ^ 2, rr := rr, tt := Real.sqrt Pn * tt }

/-- The arguments of an entry of the table: refractive indices (`n - 1j*k`) of dielectric, metal and titanium, that of the substrate, and thicknesses. -/
structure Entry where
  nDiel : ℝ
  kDiel : ℝ
  nMetal : ℝ
  kMetal : ℝ
  nTi : ℝ
  kTi : ℝ
  nSub : ℝ
  d0 : ℝ
  tDiel : ℝ
  tMetal : ℝ
  tTi : ℝ
  theta : ℝ
  lam : ℝ

/-- falco/thinfilm.py:310-312: the stack of an entry: vacuum, vacuum, dielectric, metal, titanium, substrate. `tTi` is the entry of `t_Ti_vec`
(falco/thinfilm.py:220-221). -/
noncomputable def Entry.stack (e : Entry) : Stack where
  N := 6
  n := fun i => match i with
    | 0 | 1 => 1
    | 2 => e.nDiel - I * e.kDiel
    | 3 => e.nMetal - I * e.kMetal
    | 4 => e.nTi - I * e.kTi
    | _ => e.nSub
  d := fun i => match i with
    | 1 => e.d0 - e.tDiel - e.tMetal - e.tTi
    | 2 => e.tDiel
    | 3 => e.tMetal
    | 4 => e.tTi
    | _ => 0
  theta := e.theta
  lam := e.lam

/-- falco/thinfilm.py:314-334: transmission and reflection entry for polarisation `pol` in {0, 1, 2}. -/
noncomputable def Entry.coefs (e : Entry) (pol : ℤ) (flagOPD : Bool) : Except PyErr (ℂ × ℂ) :=
  let c0 := solver e.stack false
  let c1 := solver e.stack true
  let r : Except PyErr (ℂ × ℂ) :=
    if pol = 2 then .ok ((c0.tt + c1.tt) / 2, (c0.rr + c1.rr) / 2)
    else if pol = 0 then .ok (c0.tt, c0.rr) else if pol = 1 then .ok (c1.tt, c1.rr) else .error .valueError
  r.map fun p => if flagOPD then p else ((starRingEnd ℂ) p.1, (starRingEnd ℂ) p.2)

end Verif.ThinFilm
