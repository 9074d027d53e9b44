import Verif.Model.Arr
import Mathlib.Analysis.Complex.Norm
import Mathlib.Data.Matrix.Mul

/-!
# Model of the spectrum of singular modes: `singular_mode_spectrum_of_Efield` (falco/plot.py:241-288), its call (falco/wfsc.py:81-115)

Simplifications: real arithmetic.  Row `iMode*N + p` of the stacked arrays is the pair `(iMode, p)`; real parts are the first half of the rows (`Sum.inl`), imaginary parts the second
(`Sum.inr`); the columns of the concatenated Jacobians are a sum of the four sets of actuators.  The estimate has a column per mode and a row per pixel of the Jacobian.  The singular value
decomposition is a parameter.  The drawing (plot.py:274-288) is left out.
-/

namespace Verif.ModeSpectrum
open Verif

/-- The control Jacobian (`jacStruct`) for `N` pixels: `Gk p a m` is `jacStruct.Gk[p, a, m]`. -/
structure JacStruct (N : ℕ) where
  A1 : ℕ
  A2 : ℕ
  A8 : ℕ
  A9 : ℕ
  G1 : Fin N → Fin A1 → ℕ → ℂ
  G2 : Fin N → Fin A2 → ℕ → ℂ
  G8 : Fin N → Fin A8 → ℕ → ℂ
  G9 : Fin N → Fin A9 → ℕ → ℂ

/-- The actuators of all DMs. -/
abbrev JacStruct.Act {N : ℕ} (j : JacStruct N) : Type := Fin j.A1 ⊕ Fin j.A2 ⊕ Fin j.A8 ⊕ Fin j.A9

/-- falco/plot.py:253-256: `Gcomplex` of a mode. -/
def gcomplex {N : ℕ} (j : JacStruct N) (m : ℕ) (p : Fin N) : j.Act → ℂ
  | .inl a => j.G1 p a m
  | .inr (.inl a) => j.G2 p a m
  | .inr (.inr (.inl a)) => j.G8 p a m
  | .inr (.inr (.inr a)) => j.G9 p a m

/-- falco/plot.py:257 -/
def gall {N : ℕ} (j : JacStruct N) (M : ℕ) : Matrix (Fin M × Fin N) j.Act ℂ := fun r a => gcomplex j r.1 r.2 a

/-- falco/plot.py:258; `Eest p m` -/
def eall {N : ℕ} (M : ℕ) (Eest : Fin N → ℕ → ℂ) (r : Fin M × Fin N) : ℂ := Eest r.2 r.1

/-- falco/plot.py:260 -/
def eri {N : ℕ} (M : ℕ) (Eest : Fin N → ℕ → ℂ) : (Fin M × Fin N) ⊕ (Fin M × Fin N) → ℝ
  | .inl r => (eall M Eest r).re
  | .inr r => (eall M Eest r).im

/-- falco/plot.py:262 -/
def gri {N : ℕ} (j : JacStruct N) (M : ℕ) : Matrix ((Fin M × Fin N) ⊕ (Fin M × Fin N)) j.Act ℝ
  | .inl r, a => (gall j M r a).re
  | .inr r, a => (gall j M r a).im

/-- falco/plot.py:261: an entry of `np.diag(np.real(Gall.conj().T @ Gall))`. -/
noncomputable def diag {N : ℕ} (j : JacStruct N) (M : ℕ) (a : j.Act) : ℝ := (∑ r, starRingEnd ℂ (gall j M r a) * gall j M r a).re

open Classical in
/-- falco/plot.py:261: the maximum; numpy has none of an empty array. -/
noncomputable def alpha2 {N : ℕ} (j : JacStruct N) (M : ℕ) : Except PyErr ℝ :=
  if h : (Finset.univ : Finset j.Act).Nonempty then .ok (Finset.univ.sup' h (diag j M)) else .error .valueError

/-- What `np.linalg.svd(·, full_matrices=False)` returns. -/
structure Svd (R C : Type) where
  k : ℕ
  U : Matrix R (Fin k) ℝ
  s : Fin k → ℝ
  Vh : Matrix (Fin k) C ℝ

/-- The four lists of `out`. -/
structure Out where
  EforSpectra : List (Σ k, Fin k → ℝ)
  smspectra : List (Σ k, Fin k → ℝ)
  sm : List (Σ k, Fin k → ℝ)
  alpha2 : List ℝ

/-- falco/plot.py:265: `U.conj().T @ Eri` (`U` is real). -/
def eriPrime {R C : Type} [Fintype R] (d : Svd R C) (x : R → ℝ) (i : Fin d.k) : ℝ := ∑ r, d.U r i * x r

/-- falco/plot.py:241-272; the AD-EFC controller has no Jacobian (`None`, falco/wfsc.py:85). -/
noncomputable def spectrum {N : ℕ} (jac : Option (JacStruct N)) (M : ℕ) (svd : ∀ (R C : Type), Matrix R C ℝ → Except PyErr (Svd R C)) (Eest : Fin N → ℕ → ℂ) (o : Out) :
    Except PyErr Out :=
  match jac with
  | none => .error .attributeError
  | some j =>
    (alpha2 j M).bind fun al =>
    (svd _ _ (gri j M)).bind fun d =>
    let e := eriPrime d (eri M Eest)
    .ok
      { EforSpectra := o.EforSpectra ++ [⟨d.k, e⟩]
        smspectra := o.smspectra ++ [⟨d.k, fun i => |e i| ^ 2⟩]
        sm := o.sm ++ [⟨d.k, d.s⟩]
        alpha2 := o.alpha2 ++ [al] }

end Verif.ModeSpectrum
