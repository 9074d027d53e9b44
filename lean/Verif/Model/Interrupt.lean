import Verif.Model.Arr
import Mathlib.Algebra.Group.Basic
import Mathlib.Data.Real.Basic

/-!
# Model of the calls that change the model parameters for a while, with evaluations that may raise

`pairwise_probing` (falco/est.py), `_efc` and the serial grid search, `set_utu_scale_fac` (falco/ctrl.py), `get_expected_summed_image`, `calc_psf_norm_factor` (falco/imaging.py),
`falco_get_single_sim_Efield_LamPolZern` (falco/zern.py).

An evaluation (an image from a testbed or a model, a field, a Jacobian, a solution of equations) is an arbitrary function that reads the state and may raise; the state `env` of what is
outside of `mp` (camera, connection, files) may change.  Simplifications: evaluations do not change the commands themselves (the clipping of commands by the DM model is the subject of C12, C22
and C65); what is computed from the results is not modelled (C33-C36, C89, C107).
-/

namespace Verif.Interrupt
open Verif

/-- A Python call on the state `σ`: how it ends and the state afterwards, also when it raises. -/
def Py (σ α : Type) : Type := σ → Except PyErr α × σ

namespace Py
variable {σ α β : Type}

/-- `return a` -/
def ret (a : α) : Py σ α := fun s => (.ok a, s)
/-- One call after the other; an exception ends both. -/
def bind (m : Py σ α) (f : α → Py σ β) : Py σ β := fun s => match m s with
  | (.ok a, s') => f a s'
  | (.error e, s') => (.error e, s')
/-- Assignments. -/
def set (f : σ → σ) : Py σ Unit := fun s => (.ok (), f s)
/-- Reading the state. -/
def get : Py σ σ := fun s => (.ok s, s)
/-- A computation that may raise. -/
def lift (r : Except PyErr α) : Py σ α := fun s => (r, s)
/-- `for x in l: f(x)` -/
def each (f : α → Py σ β) : List α → Py σ (List β)
  | [] => ret []
  | x :: l => bind (f x) fun b => bind (each f l) fun bs => ret (b :: bs)

instance : Monad (Py σ) where
  pure := ret
  bind := bind

end Py

/-- `mp.dm<k>.V` for every `k`, `mp.dm_ind` and what is outside. -/
structure St (V E : Type) where
  v : ℕ → V
  ind : List ℕ
  env : E

/-- An evaluation with the commands and the list of DMs in use. -/
def Eval (V E I : Type) : Type := (ℕ → V) → List ℕ → E → Except PyErr I × E

/-- Call of an evaluation. -/
def Eval.call {V E I : Type} (x : Eval V E I) : Py (St V E) I := fun s => ((x s.v s.ind s.env).1, { s with env := (x s.v s.ind s.env).2 })

variable {V E I : Type} [AddCommGroup V]

/-! ## Probing (falco/est.py) -/

/-- Settings and evaluations of `pairwise_probing`; `which` is 1 or 2. -/
structure Probing (V E I : Type) where
  which : ℕ
  stars : ℕ
  subbands : ℕ
  pairs : ℕ
  useJac : Bool
  image : ℕ → Eval V E I                       -- falco.imaging.get_sbp_image(mp, iSubband)
  probe : ℕ → I → ℕ → Except PyErr V           -- probe command from star, unprobed image, number
  field : ℕ → ℕ → Eval V E Unit                -- falco.model.compact(mp, modvar)
  solve : ℕ → ℕ → Eval V E Unit                -- the estimate (and, with `useJac`, the use of the Jacobian)

/-- falco/est.py:454-464: one probed image (the probe on the probing DM only). -/
def Probing.take (c : Probing V E I) (nom : ℕ → V) (star si : ℕ) (I0 : I) (k : ℕ) : Py (St V E) V := do
  let p ← Py.lift (c.probe star I0 k)
  Py.set fun s => { s with v := fun d => if (d = 1 ∨ d = 2) ∧ d ∈ s.ind then nom d + (if d = c.which then p else 0) else s.v d }
  let _ ← (c.image si).call
  return p

/-- falco/est.py:557-574: the fields for one pair of probes. -/
def Probing.model (c : Probing V E I) (nom : ℕ → V) (star si : ℕ) (ps : List V) (k : ℕ) : Py (St V E) Unit := do
  Py.set fun s => { s with v := fun d => if d = c.which then ps.getD (2 * k) 0 + nom d else s.v d }
  (c.field star si).call
  Py.set fun s => { s with v := fun d => if d = c.which then ps.getD (2 * k + 1) 0 + nom d else s.v d }
  (c.field star si).call

/-- falco/est.py:374-698: one star and subband. -/
def Probing.subband (c : Probing V E I) (nom : ℕ → V) (star si : ℕ) : Py (St V E) Unit := do
  Py.set fun s => { s with v := fun d => if d = 1 ∨ d = 2 then nom d else s.v d }
  let I0 ← (c.image si).call
  let ps ← Py.each (c.take nom star si I0) (List.range (2 * c.pairs))
  if c.useJac then (c.solve star si).call
  else do
    Py.set fun s => { s with v := fun d => if (d = 1 ∨ d = 2) ∧ d ∈ s.ind then nom d else s.v d }
    (c.field star si).call
    let _ ← Py.each (c.model nom star si ps) (List.range c.pairs)
    (c.solve star si).call

/-- falco/est.py:278-303, 368-374, 708-713 `pairwise_probing` from the change of `mp.dm_ind` on.  `~np.any(list == 1)` is true for every list, so the probing DM is always appended. -/
def Probing.run (c : Probing V E I) : Py (St V E) Unit := do
  let s0 ← Py.get
  let init := s0.ind
  Py.set fun s => { s with ind := s.ind ++ [c.which] }
  let s1 ← Py.get
  let nom : ℕ → V := fun d => if d ∈ s1.ind then s1.v d else 0
  let _ ← Py.each (fun star => Py.each (fun si => c.subband nom star si) (List.range c.subbands)) (List.range c.stars)
  Py.set fun s => { s with v := fun d => if (d = 1 ∨ d = 2) ∧ d ∈ s.ind then nom d else s.v d }
  Py.set fun s => { s with ind := init }

/-! ## Trial commands (falco/ctrl.py) -/

/-- falco/imaging.py:496-580 `get_expected_summed_image`: fields with the new commands, then with the old ones. -/
def expected (subbands : ℕ) (field : ℕ → Eval V E Unit) (d : ℕ → V) : Py (St V E) Unit := do
  let s0 ← Py.get
  let _ ← Py.each (fun si => (field si).call) (List.range subbands)
  Py.set fun s => { s with v := fun k => if k ∈ s.ind then s.v k - d k else s.v k }
  let _ ← Py.each (fun si => (field si).call) (List.range subbands)
  Py.set fun s => { s with v := fun k => if k ∈ s.ind then s0.v k else s.v k }

/-- One trial command: the settings. -/
structure Trial (V E : Type) where
  useModel : Bool
  subbands : ℕ
  solve : Eval V E (ℕ → V)               -- the solution of the EFC equation or the minimiser
  image : Eval V E Unit                  -- falco.imaging.get_summed_image(mp)
  field : ℕ → Eval V E Unit              -- falco.model.compact(mp, modvar)

/-- falco/ctrl.py:854-860, 1017-1023: the image with the trial command. -/
def Trial.score (c : Trial V E) (d : ℕ → V) : Py (St V E) Unit := if c.useModel then expected c.subbands c.field d else c.image.call

/-- falco/ctrl.py:803-873 `_efc`, 876-1036 `_ad_efc`, with `wrapup` (1126-1184). -/
def Trial.run (c : Trial V E) : Py (St V E) (ℕ → V) := do
  let s0 ← Py.get
  let d ← c.solve.call
  Py.set fun s => { s with v := fun k => if k ∈ s.ind then s0.v k + d k else s.v k }
  c.score d
  Py.set fun s => { s with v := fun k => if k ∈ s.ind then s0.v k else s.v k }
  return d

/-- falco/ctrl.py:363-377, 466-481, 628-643: all trials of a grid search, one after the other. -/
def grid (trials : List (Trial V E)) : Py (St V E) (List (ℕ → V)) := Py.each Trial.run trials

/-! ## `set_utu_scale_fac` (falco/ctrl.py) -/

/-- `mp.dm<k>.act_ele`, `mp.dm<k>.Nele`, `mp.ctrl.ad.utu_scale_fac` (`none`: not set) and what is outside. -/
structure Acts (E : Type) where
  act : ℕ → List ℕ
  nele : ℕ → ℕ
  scale : Option ℝ
  env : E

/-- falco/ctrl.py:1191-1201: the actuators of the chosen subset, for one DM. -/
def choose (ind : List ℕ) (mask : ℕ → Except PyErr (List ℕ)) (k : ℕ) : Py (Acts E) Unit :=
  if k ∈ ind then do
    let l ← Py.lift (mask k)
    Py.set fun s => { s with act := Function.update s.act k l, nele := Function.update s.nele k l.length }
  else return ()

/-- falco/ctrl.py:1187-1247 `set_utu_scale_fac`: `norm` is `calc_psf_norm_factor`, `jac` the Jacobian and the largest diagonal element of its square. -/
def setUtu (ind : List ℕ) (mask : ℕ → Except PyErr (List ℕ)) (norm : E → Except PyErr Unit × E) (jac : (ℕ → List ℕ) → E → Except PyErr ℝ × E) : Py (Acts E) Unit := do
  (fun s => ((norm s.env).1, { s with env := (norm s.env).2 }) : Py (Acts E) Unit)
  let s0 ← Py.get
  choose ind mask 1
  choose ind mask 2
  let g ← (fun s => ((jac s.act s.env).1, { s with env := (jac s.act s.env).2 }) : Py (Acts E) ℝ)
  Py.set fun s => { s with act := fun k => if (k = 1 ∨ k = 2) ∧ k ∈ ind then s0.act k else s.act k, nele := fun k => if (k = 1 ∨ k = 2) ∧ k ∈ ind then s0.nele k else s.nele k }
  Py.set fun s => { s with scale := some g }

/-! ## `calc_psf_norm_factor` (falco/imaging.py) -/

/-- `mp.Fend.compact.I00`, `mp.Fend.eval.I00`, `mp.Fend.full.I00` and what is outside. -/
structure Norms (E : Type) where
  compact : ℕ → ℝ
  eval : ℕ → ℝ
  full : ℕ → ℕ → ℝ
  env : E

/-- One evaluation that does not read the norms (`isNorm=False`); its result is the largest intensity. -/
def peak (x : E → Except PyErr ℝ × E) : Py (Norms E) ℝ := fun s => ((x s.env).1, { s with env := (x s.env).2 })

/-- falco/imaging.py:142-199 `calc_psf_norm_factor` (serial; `sim` is `mp.flagSim`). -/
def calcNorms (sim : Bool) (nsbp nw : ℕ) (fc fe : ℕ → E → Except PyErr ℝ × E) (ff : ℕ → ℕ → E → Except PyErr ℝ × E) : Py (Norms E) Unit := do
  Py.set fun s => { s with compact := fun _ => 1, eval := fun _ => 1, full := fun _ _ => 1 }
  let _ ← Py.each (fun si => do
    let x ← peak (fc si)
    Py.set fun s => { s with compact := Function.update s.compact si x }) (List.range nsbp)
  let _ ← Py.each (fun si => do
    let x ← peak (fe si)
    Py.set fun s => { s with eval := Function.update s.eval si x }) (List.range nsbp)
  if sim then do
    let _ ← Py.each (fun si => Py.each (fun wi => do
      let x ← peak (ff si wi)
      Py.set fun s => { s with full := Function.update s.full si (Function.update (s.full si) wi x) }) (List.range nw)) (List.range nsbp)
    return ()
  else return ()

/-! ## Zernikes in the full model (falco/zern.py) -/

/-- `mp.P1.full.E[:, :, wi, si]` as `pup (wi, si)`, the lists `mp.full.zindex`, `mp.full.zval_m`, the attribute `mp.full.zval` (`none`: not set), and what is outside. -/
structure Zst (F E : Type) where
  pup : ℕ × ℕ → F
  zindex : List ℕ
  zvalm : List ℝ
  zval : Option (List ℝ)
  env : E

/-- falco/zern.py:318-326: the vectors used by a PROPER model. -/
noncomputable def withZern (zindex : List ℕ) (zvalm : List ℝ) (z : ℕ) (rms : ℝ) : List ℕ × List ℝ :=
  if z ∈ zindex then (zindex, List.zipWith (fun i v => if i = z then v + rms else v) zindex zvalm) else (zindex ++ [z], zvalm ++ [rms])

/-- falco/zern.py:316-335: the change before the evaluation; `phase F` is the field times the phase of the Zernike map. -/
noncomputable def setZern {F : Type} (proper : Bool) (wi si z : ℕ) (rms : ℝ) (phase : F → F) (s : Zst F E) : Zst F E :=
  if proper then { s with zindex := (withZern s.zindex s.zvalm z rms).1, zvalm := (withZern s.zindex s.zvalm z rms).2, zval := some (withZern s.zindex s.zvalm z rms).2 }
  else { s with pup := Function.update s.pup (wi, si) (phase (s.pup (wi, si))) }

/-- falco/zern.py:304-343: the field with one Zernike. -/
noncomputable def zernField {F : Type} (proper : Bool) (wi si z : ℕ) (rms : ℝ) (phase : F → F) (full : Zst F E → Except PyErr Unit × E) : Py (Zst F E) Unit := do
  let s0 ← Py.get
  Py.set (setZern proper wi si z rms phase)
  (fun s => ((full s).1, { s with env := (full s).2 }) : Py (Zst F E) Unit)
  Py.set fun s => { s with pup := s0.pup, zindex := s0.zindex, zvalm := s0.zvalm }

end Verif.Interrupt
