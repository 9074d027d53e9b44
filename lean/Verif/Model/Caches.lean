import Verif.Model.Hlc
import Verif.Model.HlcSurf

/-!
# Model of two values that are kept once they are made: the HLC masks `mp.compact.fpmCube` (falco/model/models.py, falco/hlc.py) and the filter `dm.act_prefilter` (falco/dm.py)

Simplifications: real arithmetic; `mp.coro` is 'HLC' and `mp.layout` is 'fourier', `mp.full.fpmCube` does not exist; an entry of a mask has its own error (all entries of a mask have the same
one: falco.hlc raises while it fills the array).  The filter is a value of any type made from the number of actuators and the influence function; the sparse solver is a parameter (C59).
-/

namespace Verif.Caches
open Verif

/-! ## HLC masks -/

/-- The parts of `mp` that `gen_fpm_from_LUT` and `gen_fpm_cube_from_LUT` read and that do not change here.  `surf8 V` and `surf9 V` are the profiles `gen_fpm_surf_from_cube` (C136) makes from
the commands `V`; `Pix` are the pixels of the mask. -/
structure HlcMp (Pix V : Type) where
  diel : Hlc.Layer
  metal : Hlc.Layer
  bias : ℝ                                  -- t_diel_bias_nm
  nCompact : ℕ
  nFull : ℕ
  nwpsbp : ℤ
  tableCompact : ℕ → ℕ → ℕ → ℂ              -- complexTransCompact, nCompact = Nsbp slices
  tableFull : ℕ → ℕ → ℕ → ℂ                 -- complexTransFull, nFull slices
  surf8 : V → Pix → ℝ
  surf9 : V → Pix → ℝ

/-- What changes: the commands of DMs 8 and 9, and `mp.compact.fpmCube` if it exists (`cube k p` is `fpmCube[p, k]`). -/
structure HlcState (Pix V : Type) where
  V8 : V
  V9 : V
  cube : Option (ℕ → Pix → Except PyErr ℂ)

variable {Pix V : Type}

/-- falco/hlc.py:33-80 `gen_fpm_from_LUT(mp, si, -1, 'compact')`. -/
noncomputable def HlcMp.maskCompact (h : HlcMp Pix V) (V8 V9 : V) (si : ℤ) (p : Pix) : Except PyErr ℂ :=
  Hlc.lookup h.diel h.metal h.nCompact h.tableCompact (h.surf8 V8 p) (h.bias * 10 ^ (-9 : ℤ) + h.surf9 V9 p) si

/-- falco/hlc.py:33-80 `gen_fpm_from_LUT(mp, si, wi, 'full')`. -/
noncomputable def HlcMp.maskFull (h : HlcMp Pix V) (V8 V9 : V) (si wi : ℤ) (p : Pix) : Except PyErr ℂ :=
  Hlc.lookup h.diel h.metal h.nFull h.tableFull (h.surf8 V8 p) (h.bias * 10 ^ (-9 : ℤ) + h.surf9 V9 p) ((si - 1) * h.nwpsbp + wi)

/-- falco/hlc.py:105-146 `gen_fpm_cube_from_LUT(mp, 'compact')`. -/
noncomputable def HlcMp.makeCube (h : HlcMp Pix V) (V8 V9 : V) (k : ℕ) (p : Pix) : Except PyErr ℂ :=
  Hlc.lookup h.diel h.metal h.nCompact h.tableCompact (h.surf8 V8 p) (h.bias * 10 ^ (-9 : ℤ) + h.surf9 V9 p) k

/-- What a user does. -/
inductive HlcOp (V : Type)
  | set8 (v : V)
  | set9 (v : V)
  | jacobian                                -- `falco.model.jacobian(mp)`
  | compact (si : ℤ)                        -- `falco.model.compact` for sub-band `si`
  | full (si wi : ℤ)                        -- `falco.model.full`

/-- falco/model/models.py:1075-1081: the start of `jacobian`. -/
noncomputable def HlcMp.ensureCube (h : HlcMp Pix V) (s : HlcState Pix V) : HlcState Pix V := if s.cube.isSome then s else { s with cube := some (h.makeCube s.V8 s.V9) }

/-- The state after an operation. -/
noncomputable def HlcMp.next (h : HlcMp Pix V) (s : HlcState Pix V) : HlcOp V → HlcState Pix V
  | .set8 v => { s with V8 := v }
  | .set9 v => { s with V9 := v }
  | .jacobian => h.ensureCube s
  | .compact _ => s
  | .full _ _ => s

/-- `fpmCube[:, :, si]` (falco/model/models.py:741, falco/model/jacobians.py:272): NumPy's index. -/
def HlcMp.sliceOf (h : HlcMp Pix V) (cube : ℕ → Pix → Except PyErr ℂ) (si : ℤ) (p : Pix) : Except PyErr ℂ := do
  let k ← Hlc.pyIndex h.nCompact si
  cube k p

/-- falco/model/models.py:738-744: the mask of the compact model. -/
noncomputable def HlcMp.compactMask (h : HlcMp Pix V) (s : HlcState Pix V) (si : ℤ) (p : Pix) : Except PyErr ℂ :=
  match s.cube with
  | some cube => h.sliceOf cube si p
  | none => h.maskCompact s.V8 s.V9 si p

/-- falco/model/models.py:1075-1081, falco/model/jacobians.py:272: the mask in the Jacobian. -/
noncomputable def HlcMp.jacobianMask (h : HlcMp Pix V) (s : HlcState Pix V) (si : ℤ) (p : Pix) : Except PyErr ℂ :=
  match (h.ensureCube s).cube with
  | some cube => h.sliceOf cube si p
  | none => .error .attributeError

/-- falco/model/models.py:117-123: the mask of the full model. -/
noncomputable def HlcMp.fullMask (h : HlcMp Pix V) (s : HlcState Pix V) (si wi : ℤ) (p : Pix) : Except PyErr ℂ := h.maskFull s.V8 s.V9 si wi p

/-- A history. -/
noncomputable def HlcMp.run (h : HlcMp Pix V) (s : HlcState Pix V) (ops : List (HlcOp V)) : HlcState Pix V := ops.foldl h.next s

/-! ## The filter for fitting -/

/-- A DM: `Nact`, the influence function (`inf0` and `ppact`), `act_prefilter` if it exists. -/
structure FitDm (I A : Type) where
  Nact : ℕ
  inf : I
  pre : Option A

variable {I A S : Type}

/-- falco/dm.py:1370-1379 `make_dm_prefilter_attribute`. -/
def ensurePre (build : ℕ → I → A) (dm : FitDm I A) : FitDm I A := if dm.pre.isSome then dm else { dm with pre := some (build dm.Nact dm.inf) }

/-- falco/dm.py:1433-1446 `fit_surf_with_dm_lsq` for a surface of `r × c` points; `size a` is the number of rows and of columns of the matrix `a`. -/
def fitLsq (size : A → ℕ) (solve : A → S → S) (r c : ℕ) (surf : S) (a : A) : Except PyErr S :=
  if size a = r * c then .ok (solve a surf) else .error .typeError

/-- falco/dm.py:1404-1411 `fit_surf_with_dm_lsq_wrapper`: the result and the DM afterwards. -/
def fitWrapper (build : ℕ → I → A) (size : A → ℕ) (solve : A → S → S) (dm : FitDm I A) (r c : ℕ) (surf : S) : Except PyErr S × FitDm I A :=
  if r ≠ dm.Nact ∨ c ≠ dm.Nact then (.error .valueError, dm)
  else
    let dm' := ensurePre build dm
    match dm'.pre with
    | some a => (fitLsq size solve r c surf a, dm')
    | none => (.error .attributeError, dm')

/-- What a user does: set the number of actuators, the influence function, or fit. -/
inductive FitOp (I S : Type)
  | setNact (n : ℕ)
  | setInf (i : I)
  | fit (r c : ℕ) (surf : S)

/-- The DM after an operation. -/
def fitNext (build : ℕ → I → A) (size : A → ℕ) (solve : A → S → S) (dm : FitDm I A) : FitOp I S → FitDm I A
  | .setNact n => { dm with Nact := n }
  | .setInf i => { dm with inf := i }
  | .fit r c surf => (fitWrapper build size solve dm r c surf).2

/-- A history. -/
def fitRun (build : ℕ → I → A) (size : A → ℕ) (solve : A → S → S) (dm : FitDm I A) (ops : List (FitOp I S)) : FitDm I A := ops.foldl (fitNext build size solve) dm

end Verif.Caches
