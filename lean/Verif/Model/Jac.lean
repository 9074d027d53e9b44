import Verif.Model.Arr
import Mathlib.Data.Complex.Basic

/-!
# Model of the Jacobian assembly: falco/model/models.py `jacobian` (serial and parallel) and `apply_ties_to_jac`

The Jacobian of one DM is a list of `Nele` columns; a column has one complex number per mode and dark-hole pixel.
`col m iact` is the result of `_jac_middle_layer(mp, m, idm, iact)` for mode `m` and actuator `iact`.
-/

namespace Verif.Jac
open Verif

variable {M : ℕ} {P : Type*}

/-- One column: value for each mode and pixel. -/
abbrev Col (M : ℕ) (P : Type*) := Fin M → P → ℂ

/-- `G[:, j, m] = v`: `IndexError` when column `j` does not exist. -/
def setCol (G : List (Col M P)) (j : ℕ) (m : Fin M) (v : P → ℂ) : Except PyErr (List (Col M P)) :=
  match G[j]? with
  | none => .error .indexError
  | some c => .ok (G.set j (Function.update c m v))

/-- falco/model/models.py:1090-1093: zero-initialised Jacobian with `Nele` columns. -/
def zeros (Nele : ℕ) : List (Col M P) := List.replicate Nele (fun _ _ => 0)

/-- falco/model/models.py:1187-1208, serial branch for one DM: only if the DM is in `dm_ind`; for each mode, the column of the
`index`-th controlled actuator is stored at `index`. -/
def serial (inDmInd : Bool) (Nele : ℕ) (actEle : List ℕ) (col : Fin M → ℕ → P → ℂ) : Except PyErr (List (Col M P)) :=
  if inDmInd then
    (List.finRange M).foldlM (fun G m => actEle.zipIdx.foldlM (fun G p => setCol G p.2 m (col m p.1)) G) (zeros Nele)
  else .ok (zeros Nele)

/-- falco/model/models.py:1159-1182, parallel branch for one DM (DM1 and DM2 always, `dm_ind` is not consulted): the results come back in
the order of `results_order` and the column of actuator `iact` is stored at position `iact`. -/
def parallel (Nele : ℕ) (actEle : List ℕ) (col : Fin M → ℕ → P → ℂ) : Except PyErr (List (Col M P)) :=
  (actEle.flatMap fun iact => (List.finRange M).map fun m => (m, iact)).foldlM (fun G p => setCol G p.2 p.1 (col p.1 p.2)) (zeros Nele)

/-- `np.nonzero(act_ele == i)[0]`: the positions at which actuator `i` occurs. -/
def positions (actEle : List ℕ) (i : ℕ) : List ℕ := (actEle.zipIdx.filter fun p => p.1 = i).map (·.2)

/-- falco/model/models.py:1221-1228, one tied pair: `G[:, i1, :] += G[:, i2, :]; G[:, i2, :] = 0*G[:, i2, :]` with index *arrays*.
NumPy broadcasting of the in-place sum: the right-hand side may have the same number of columns as the left-hand side or exactly one;
otherwise `ValueError` (in particular leader present and follower absent). Fancy in-place addition reads all operands first. -/
def tiePair (actEle : List ℕ) (G : List (Col M P)) (t : ℕ × ℕ) : Except PyErr (List (Col M P)) :=
  let i1 := positions actEle t.1
  let i2 := positions actEle t.2
  let rhs : List (Col M P) := i2.map fun j => G.getD j (fun _ _ => 0)
  if i2.length = i1.length ∨ i2.length = 1 then
    let rhs' := if i2.length = i1.length then rhs else List.replicate i1.length (rhs.headD (fun _ _ => 0))
    let vals := List.zipWith (fun j (r : Col M P) => (j, fun m p => G.getD j (fun _ _ => 0) m p + r m p)) i1 rhs'
    let G1 := vals.foldl (fun G v => G.set v.1 v.2) G
    .ok (i2.foldl (fun G j => G.set j (fun m p => 0 * G.getD j (fun _ _ => 0) m p)) G1)
  else .error .valueError

/-- falco/model/models.py:1214-1240 `apply_ties_to_jac` for one DM with tied pairs `tied` (after `enforce_constraints`). -/
def applyTies (actEle : List ℕ) (tied : List (ℕ × ℕ)) (G : List (Col M P)) : Except PyErr (List (Col M P)) :=
  tied.foldlM (tiePair actEle) G

/-- Field response of a Jacobian to a command vector (one entry per controlled actuator), mode by mode and pixel by pixel. -/
noncomputable def response (G : List (Col M P)) (u : List ℝ) (m : Fin M) (p : P) : ℂ :=
  (List.zipWith (fun (c : Col M P) (a : ℝ) => c m p * (a : ℂ)) G u).sum

end Verif.Jac
