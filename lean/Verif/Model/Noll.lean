import Verif.Model.Arr
import Mathlib.Analysis.SpecialFunctions.Trigonometric.Basic
import Mathlib.Data.Nat.Factorial.Basic
import Mathlib.Data.Real.Sqrt

/-!
# Model of falco/proper/prop_noll_zernikes.py

The function writes one string per index into `z_list`; a string is represented by the data it is made of: the number under the square root, the list of radial terms and the angular factor.
`zernVal` is the value `eval` gives to it (the formats with and without COMPACT denote the same formula). Simplification: the coefficient `int(term_top / term_bottom)` is computed in exact
integers (the code divides in floating point, exact below 2^53). The strings themselves, with the cut-off at 250 bytes (`dtype = "S250"`), are modelled by `body`, `suffix` and `evalStr`.
-/

namespace Verif.Noll
open Verif

/-- One entry of `z_list`. -/
structure Zern where
  /-- number under the square root in front (prop_noll_zernikes.py:81-90) -/
  val : ℕ
  /-- radial terms: (coefficient, power of r) -/
  terms : List (ℤ × ℕ)
  /-- angular factor (lines 132-150): `none` for m = 0; otherwise m and whether it is the cosine -/
  ang : Option (ℕ × Bool)
deriving DecidableEq

/-- falco/proper/prop_noll_zernikes.py:97-103: `term_val = int(term_top / term_bottom)` for term `s`, with power `n - 2s`. -/
def term (n m s : ℕ) : ℤ × ℕ :=
  (Int.tdiv ((-1) ^ s * ((n - s).factorial : ℤ)) (s.factorial * ((n + m) / 2 - s).factorial * ((n - m) / 2 - s).factorial : ℕ), n - 2 * s)

/-- falco/proper/prop_noll_zernikes.py:79-156: the entry written for radial order `n`, azimuthal order `m` at index `iz`. -/
def entry (n m iz : ℕ) : Zern :=
  if n = 0 then ⟨1, [(1, 0)], none⟩
  else ⟨if m ≠ 0 then 2 * (n + 1) else n + 1, (List.range ((n - m) / 2 + 1)).map (term n m), if m = 0 then none else some (m, iz % 2 = 0)⟩

/-- The loop state: `iz` and `z_list` (an array with `maxz + 1` slots; `none` is the initial blank). -/
structure St where
  iz : ℕ
  zl : ℕ → Option Zern

/-- `z_list[iz] = ...; iz += 1`: an index beyond the array raises. -/
def put (maxz : ℕ) (s : St) (z : Zern) : Except PyErr St :=
  if s.iz ≤ maxz then .ok ⟨s.iz + 1, Function.update s.zl s.iz (some z)⟩ else .error .indexError

/-- falco/proper/prop_noll_zernikes.py:78-160: `for p in range(0, (m != 0) + 1)`. -/
def loopP (maxz n m : ℕ) : List ℕ → St → Except PyErr St
  | [], s => .ok s
  | _ :: ps, s => do
    let s' ← put maxz s (entry n m s.iz)
    if n = 0 then loopP maxz n m ps s'
    else if s'.iz > maxz then return s'
    else loopP maxz n m ps s'

/-- falco/proper/prop_noll_zernikes.py:77-163: `for m in range(np.mod(n,2), n+1, 2)`. -/
def loopM (maxz n : ℕ) : List ℕ → St → Except PyErr St
  | [], s => .ok s
  | m :: ms, s => do
    let s' ← loopP maxz n m (List.range ((if m ≠ 0 then 1 else 0) + 1)) s
    if s'.iz > maxz then return s' else loopM maxz n ms s'

/-- `range(np.mod(n,2), n+1, 2)`. -/
def orders (n : ℕ) : List ℕ := (List.range (n / 2 + 1)).map fun i => n % 2 + 2 * i

/-- falco/proper/prop_noll_zernikes.py:76-165: `while (iz <= maxz)`, with fuel (`C54_index` shows that it is left by its own condition). -/
def loopN (maxz : ℕ) : ℕ → ℕ → St → Except PyErr St
  | 0, _, s => .ok s
  | fuel + 1, n, s => if s.iz ≤ maxz then do
      let s' ← loopM maxz n (orders n) s
      loopN maxz fuel (n + 1) s'
    else .ok s

/-- falco/proper/prop_noll_zernikes.py:72-170 `prop_noll_zernikes(maxz)`. -/
def noll (maxz : ℕ) : Except PyErr St := loopN maxz (maxz + 1) 0 ⟨1, fun _ => none⟩

/-- The value of an entry's formula at radius `r` and angle `t`. -/
noncomputable def zernVal (z : Zern) (r t : ℝ) : ℝ :=
  Real.sqrt z.val * (z.terms.map fun c => (c.1 : ℝ) * r ^ c.2).sum *
    match z.ang with
    | none => 1
    | some (m, true) => Real.cos (m * t)
    | some (m, false) => Real.sin (m * t)

/-! ### The strings, as written with COMPACT -/

/-- `str(k)` of a natural number. -/
def str (k : ℕ) : List Char := Nat.toDigits 10 k

/-- falco/proper/prop_noll_zernikes.py:100, 106-128: the text of one radial term; `s` is its place in the sum. -/
def termStr (s : ℕ) (c : ℤ × ℕ) : List Char :=
  let sign : List Char := if s = 0 then (if c.1 < 0 then ['-'] else []) else if c.1 < 0 then [' ', '-', ' '] else [' ', '+', ' ']
  let coef : List Char := str c.1.natAbs ++ ['.', '0']
  sign ++
    if c.2 = 0 then coef
    else if c.2 = 1 then (if c.1 ≠ 1 then coef ++ ['*', 'r'] else ['r'])
    else (if c.1 ≠ 1 then coef ++ ['*', 'r'] else ['r']) ++ ['_', 'p', 'o', 'w', '_'] ++ str c.2

/-- falco/proper/prop_noll_zernikes.py:80-93, 153-156: the text up to and including the closing parenthesis (for `n = 0` the code writes "1", which is as short as makes no difference). -/
def body (z : Zern) : List Char :=
  (if Nat.sqrt z.val ^ 2 = z.val then str (Nat.sqrt z.val) ++ [' ', '*', ' ', '('] else ['m', 'a', 't', 'h', '.', 's', 'q', 'r', 't', '('] ++ str z.val ++ [')', ' ', '*', ' ', '('])
    ++ (z.terms.zipIdx.map fun c => termStr c.2 c.1).flatten ++ [')']

/-- falco/proper/prop_noll_zernikes.py:132-151 with COMPACT: `" * cos" + str(m) + "t"`. -/
def suffix (z : Zern) : List Char :=
  match z.ang with
  | none => []
  | some (m, c) => [' ', '*', ' '] ++ (if c then ['c', 'o', 's'] else ['s', 'i', 'n']) ++ str m ++ ['t']

/-- `eval` of the stored string in the COMPACT format. `z_list` holds 250 bytes per entry (line 72), the rest is lost: a cut before the closing parenthesis, or after the `*` that follows it, is a syntax error; a cut
inside the name of the angular factor leaves a name that is not defined (all defined ones end in `t`); a cut just after the parenthesis (or the blank after it) leaves a valid formula without the angular factor.
(That the names `r_pow_2` etc., assigned by `exec`, can be read by `eval` holds for Python before 3.13.) -/
noncomputable def evalStr (z : Zern) (r t : ℝ) : Except PyErr ℝ :=
  let b := (body z).length
  if b + (suffix z).length ≤ 250 then .ok (zernVal z r t)
  else if 250 < b then .error .syntaxError
  else if 250 - b ≤ 1 then .ok (zernVal { z with ang := none } r t)
  else if 250 - b ≤ 3 then .error .syntaxError
  else .error .nameError

end Verif.Noll
