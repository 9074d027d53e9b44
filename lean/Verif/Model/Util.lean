import Verif.Model.Arr
import Mathlib.Analysis.SpecialFunctions.Log.Base

/-! # Model of falco/util.py -/

namespace Verif.Util
open Verif

/-- A Python object offered as one array dimension. (`bool` is a subclass of `int`.) -/
inductive Dim
  | int (n : ℤ)      -- Python int
  | npInt (n : ℤ)    -- np.integer scalar, not a Python int
  | other            -- anything else (float, str, ...)
  deriving DecidableEq

/-- The `outsize` argument of `pad_crop`: a single object or a sequence. -/
inductive OutSize
  | one (d : Dim)
  | seq (l : List Dim)

/-- falco/util.py:215-232, resolving and checking `outsize`.
An int or np.integer is doubled into a pair; then exactly two *Python* ints, both positive, are required
(a np.integer passes the first test but fails `isinstance(sh1[0], int)`); every failure is re-raised as TypeError.
Simplification: the checks of `arrayIn` being 2-D and `extrapval` real are done by typing. -/
def resolveOutsize (o : OutSize) : Except PyErr (ℕ × ℕ) :=
  let sh1 : Option (List Dim) := match o with
    | .one (.int n) => some [.int n, .int n]
    | .one (.npInt n) => some [.npInt n, .npInt n]
    | .one .other => none            -- len(outsize) raises TypeError
    | .seq l => some l
  match sh1 with
  | some [.int a, .int b] => if a ≤ 0 ∨ b ≤ 0 then .error .typeError else .ok (a.toNat, b.toNat)
  | _ => .error .typeError

/-- falco/util.py:234-248, the body of `pad_crop` after the checks. -/
def padCropCore {α : Type*} (A : Img α) (sh : ℕ × ℕ) (extrapval : α) : Except PyErr (Img α) :=
  let arrayOut := Img.full sh.1 sh.2 extrapval
  let xneg : ℕ := min (A.w / 2) (sh.2 / 2)
  let xpos : ℕ := min (A.w - A.w / 2) (sh.2 - sh.2 / 2)
  let yneg : ℕ := min (A.h / 2) (sh.1 / 2)
  let ypos : ℕ := min (A.h - A.h / 2) (sh.1 - sh.1 / 2)
  let src := A.slice (((A.h / 2 : ℕ) : ℤ) - yneg) (((A.h / 2 : ℕ) : ℤ) + ypos)
                     (((A.w / 2 : ℕ) : ℤ) - xneg) (((A.w / 2 : ℕ) : ℤ) + xpos)
  arrayOut.setSlice (((sh.1 / 2 : ℕ) : ℤ) - yneg) (((sh.1 / 2 : ℕ) : ℤ) + ypos)
                    (((sh.2 / 2 : ℕ) : ℤ) - xneg) (((sh.2 / 2 : ℕ) : ℤ) + xpos) src

/-- falco/util.py:179-248 `pad_crop`. -/
def padCrop {α : Type*} (A : Img α) (outsize : OutSize) (extrapval : α) : Except PyErr (Img α) :=
  (resolveOutsize outsize).bind fun sh => padCropCore A sh extrapval

/-- falco/util.py:117-132 `ceil_even`: `int(2*ceil(0.5*x))`. -/
noncomputable def ceilEven (x : ℝ) : ℤ := 2 * ⌈(0.5 : ℝ) * x⌉

/-- falco/util.py:135-154 `ceil_odd`. -/
noncomputable def ceilOdd (x : ℝ) : ℤ :=
  let xOut := ⌈x⌉
  if xOut % 2 = 0 then xOut + 1 else xOut

/-- falco/util.py:106-114 `nextpow2`. -/
noncomputable def nextpow2 (N : ℝ) : ℤ :=
  if N = 0 then 0 else ⌈Real.logb 2 |N|⌉

/-- falco/util.py:157-176 `pad_to_even_square` (`np.max(arrayIn.shape)` is an integer). -/
noncomputable def padToEvenSquare {α : Type*} [Zero α] (A : Img α) : Except PyErr (Img α) :=
  let nOut := ceilEven (max A.h A.w : ℕ)
  padCrop A (.seq [.int nOut, .int nOut]) 0

/-- Centering keyword, `'pixel'` or `'interpixel'` (falco/check.py centering; other strings are rejected). -/
inductive Centering | pixel | interpixel
  deriving DecidableEq

/-- falco/util.py:418-453 `create_axis`.  `np.arange(a,b)` has `⌈b-a⌉` entries `a, a+1, ...`. -/
noncomputable def createAxis (N : ℕ) (step : ℝ) (c : Centering) : List ℝ :=
  let a : ℤ := ⌈-(N : ℝ) / 2⌉
  let b : ℤ := ⌈(N : ℝ) / 2⌉
  let axis := (List.range (b - a).toNat).map fun k : ℕ => ((a : ℝ) + (k : ℝ)) * step
  let even := decide (N % 2 = 0)
  if even = true ∧ c = .interpixel then axis.map (· + 0.5 * step) else axis

/-- One axis of falco/util.py:503-521: how much padding `offcenter_crop` adds on that axis.
`centre` is the rounded centre index. -/
def cropPad (nIn : ℕ) (centre : ℤ) (nOut : ℕ) : ℤ :=
  let lo : ℤ := -((nOut : ℤ) / 2) + centre            -- np.ceil(-nOut/2.) + centre
  let hi : ℤ := ((nOut : ℤ) + 1) / 2 + centre          -- np.ceil(nOut/2.) + centre
  let padPre : ℤ := if lo < 0 then |lo| else 0
  let padPost : ℤ := if hi > (nIn : ℤ) - 1 then hi - nIn else 0
  max padPre padPost

/-- falco/util.py:456-543 `offcenter_crop` with integer centre (lines 500-501 rounds the float centre to an
integer first; the rounding is outside the model). -/
def offcenterCrop {α : Type*} [Zero α] (A : Img α) (centerRow centerCol : ℤ) (nRowOut nColOut : ℕ) :
    Except PyErr (Img α) :=
  if nRowOut = 0 ∨ nColOut = 0 then .error .typeError else
  let yPad := cropPad A.h centerRow nRowOut
  let xPad := cropPad A.w centerCol nColOut
  (padCrop A (.seq [.int (A.h + 2 * yPad), .int (A.w + 2 * xPad)]) 0).bind fun P =>
    let cc := centerCol + xPad
    let cr := centerRow + yPad
    let rowBuffer : ℤ := if nRowOut % 2 = 1 then 1 else 0
    let colBuffer : ℤ := if nColOut % 2 = 1 then 1 else 0
    .ok (P.slice (cr - ((nRowOut / 2 : ℕ) : ℤ)) (cr + ((nRowOut / 2 : ℕ) : ℤ) + rowBuffer)
                 (cc - ((nColOut / 2 : ℕ) : ℤ)) (cc + ((nColOut / 2 : ℕ) : ℤ) + colBuffer))

/-- falco/util.py:546-581 `bin_downsample`.  Line 569 builds a `ValueError` for a non-divisible size but does
not raise it, so the model has no such branch; `dsfac = 0` is rejected by `positive_scalar_integer`. -/
noncomputable def binDownsample (A : Img ℝ) (dsfac : ℕ) : Except PyErr (Img ℝ) :=
  if dsfac = 0 then .error .valueError else
  .ok { h := A.h / dsfac, w := A.w / dsfac
        px := fun iy ix =>
          (A.slice (dsfac * iy.val) (dsfac * (iy.val + 1)) (dsfac * ix.val) (dsfac * (ix.val + 1))).sum
            / dsfac / dsfac }

/-- falco/util.py:251-285 `allcomb(*args)` = `list(itertools.product(*args))`; tuples are lists, first argument outermost.
Simplification: all arguments have elements of one type. -/
def allcomb {α : Type*} : List (List α) → List (List α)
  | [] => [[]]
  | xs :: r => xs.flatMap fun x => (allcomb r).map (x :: ·)

end Verif.Util
