import Verif.Model.Arr
import Mathlib.Analysis.Complex.Norm
import Mathlib.Algebra.BigOperators.Fin

/-!
# Model of the metrics for the change of the field: `delta_efield` (falco/plot.py:163-238), its calls in `loop` (falco/wfsc.py:88-109) and `compute_simulated_efield_for_delta_efield_plot`
(falco/wfsc.py:469-480)

Simplifications: real arithmetic, with the results of numpy for divisions by zero; the fields are finite numbers; the drawing (plot.py:211-238) is left out; the estimator and the compact model
are parameters.  The functions on arrays are those of numpy 2.1.3 (requirements.txt).
-/

namespace Verif.DeltaField
open Verif

/-- A number of numpy. -/
inductive Num where
  | real (x : ℝ)
  | inf
  | nan

open Classical in
/-- `np.abs(a) / b` for `np.abs(a)` at least zero; also `np.abs(a / b)`: a complex number divided by zero has an infinite part, unless it is zero. -/
noncomputable def npDiv (a b : ℝ) : Num := if b ≠ 0 then .real (a / b) else if a = 0 then .nan else .inf

/-- A 2-D array with `n` rows (the pixels of the dark hole). -/
structure Cols (n : ℕ) where
  count : ℕ
  val : Fin n → ℕ → ℂ

/-- `A[:, s]` -/
def Cols.col {n : ℕ} (A : Cols n) (s : ℕ) : Except PyErr (Fin n → ℂ) :=
  if s < A.count then .ok fun p => A.val p s else .error .indexError

/-- falco/plot.py:190, 197: the change of column `s`. -/
def change {n : ℕ} (A Prev : Cols n) (s : ℕ) : Except PyErr (Fin n → ℂ) :=
  (A.col s).bind fun a => (Prev.col s).map fun b => fun p => a p - b p

open Classical in
/-- falco/plot.py:193-195, 200: `x.T @ y` of the parts of `x` and `y` where the measured change `dm` is not zero. -/
noncomputable def dot {n : ℕ} (dm x y : Fin n → ℂ) : ℂ := ∑ p ∈ Finset.univ.filter fun p => dm p ≠ 0, x p * y p

/-- falco/plot.py:202-203 -/
noncomputable def projection {n : ℕ} (dm ds : Fin n → ℂ) : Num := npDiv ‖dot dm ds dm‖ ‖dot dm ds ds‖

/-- falco/plot.py:206-207 -/
noncomputable def correlation {n : ℕ} (dm ds : Fin n → ℂ) : Num :=
  npDiv ‖dot dm ds dm‖ (Real.sqrt ‖dot dm dm dm‖ * Real.sqrt ‖dot dm ds ds‖)

/-- falco/setup.py:1466-1467: the two arrays of `out`, with the rows `Itr - 1`. -/
structure Out where
  rows : ℕ
  nsbp : ℕ
  proj : ℕ → ℕ → Num
  corr : ℕ → ℕ → Num

/-- falco/setup.py:1466-1467 -/
def Out.init (nitr nsbp : ℕ) : Out := ⟨nitr - 1, nsbp, fun _ _ => .real 0, fun _ _ => .real 0⟩

/-- falco/plot.py:190-209, one subband.  The dark hole of one pixel: `np.squeeze` makes an array without axes, which `np.nonzero` refuses. -/
noncomputable def subband {n : ℕ} (E Eprev S Sprev : Cols n) (itr s : ℕ) (o : Out) : Except PyErr Out :=
  (change E Eprev s).bind fun dm =>
  if n = 1 then .error .valueError else
  (change S Sprev s).bind fun ds =>
  if itr - 1 < o.rows ∧ s < o.nsbp then
    .ok { o with
      proj := fun k b => if k = itr - 1 ∧ b = s then projection dm ds else o.proj k b
      corr := fun k b => if k = itr - 1 ∧ b = s then correlation dm ds else o.corr k b }
  else .error .indexError

/-- falco/plot.py:189: the loop over the subbands. -/
noncomputable def deltaEfield {n : ℕ} (E Eprev S Sprev : Cols n) (itr : ℕ) : List ℕ → Out → Except PyErr Out
  | [], o => .ok o
  | s :: l, o => (subband E Eprev S Sprev itr s o).bind fun o' => deltaEfield E Eprev S Sprev itr l o'

/-- What `loop` keeps from one iteration to the next. -/
structure State (n : ℕ) where
  eest : Option (Cols n)
  esim : Option (Cols n)
  out : Out

/-- falco/wfsc.py:90-109: iteration `itr`, whose estimate is `E` and whose simulated field is `S`.  The estimators bind `ev.Eest` to a new array (falco/est.py:197, 308), so that `EestPrev` keeps
the array of the iteration before. -/
noncomputable def iteration {n : ℕ} (nsbp itr : ℕ) (E S : Cols n) (st : State n) : Except PyErr (State n) :=
  if itr > 0 then
    match st.eest, st.esim with
    | some Eprev, some Sprev => (deltaEfield E Eprev S Sprev itr (List.range nsbp) st.out).map fun o => ⟨some E, some S, o⟩
    | none, _ => .error .attributeError
    | some _, none => .error .unboundLocal
  else .ok ⟨some E, some S, st.out⟩

/-- falco/wfsc.py:38: the iterations below `nitr`, as far as `done`. -/
noncomputable def run {n : ℕ} (nitr nsbp : ℕ) (E S : ℕ → Cols n) : ℕ → Except PyErr (State n)
  | 0 => .ok ⟨none, none, Out.init nitr nsbp⟩
  | k + 1 => (run nitr nsbp E S k).bind fun st => iteration nsbp k (E k) (S k) st

/-- `falco.config.ModelVariables` (falco/config/ModelVariables.py:8-28). -/
structure ModVar where
  sbpIndex : ℕ := 0
  wpsbpIndex : ℕ := 0
  starIndex : ℕ := 0
  zernIndex : ℕ := 1
  whichSource : String := "star"
  xOffset : ℝ := 0
  yOffset : ℝ := 0

/-- falco/wfsc.py:471-480; `pixel` is the list of the pixels of the dark hole. -/
def simulated {n : ℕ} {P : Type} (nsbp : ℕ) (compact : ModVar → P → ℂ) (pixel : Fin n → P) : Cols n :=
  let modvar : ModVar := { whichSource := "star", starIndex := 0 }
  ⟨nsbp, fun p s => compact { modvar with sbpIndex := s } (pixel p)⟩

end Verif.DeltaField
