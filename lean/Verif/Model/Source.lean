import Verif.Model.FullModel

/-!
# Model of the light source: position and brightness of the star, off-axis companion, and the coordinates they refer to

falco/setup.py:690-727 (`XsDL`, `YsDL`) and falco/model/models.py:640-767 `compact` with `useFPM = False`.  The input field itself is `einBase`, `einFull`, `einComp` of `Verif.Model.FullModel`.
-/

namespace Verif.Compact
open Verif Complex Verif.Optics

variable {N N4 Neta Nxi Meta Mxi N3 : ℕ} [NeZero N] [NeZero N4] [NeZero N3]

/-- falco/setup.py:692-701 (compact model; 720-727 for the full model): `mp.P2.compact.xsDL`, for an `n × n` pupil array, `dx = mp.P2.compact.dx`, `D = mp.P2.D`. -/
noncomputable def xsDL (n : ℕ) (dx D : ℝ) (c : Util.Centering) (k : ℕ) : ℝ := match c with
  | .pixel => (-(n : ℝ) / 2 + k) * dx / D
  | .interpixel => (-((n : ℝ) - 1) / 2 + k) * dx / D

/-- falco/setup.py:703: `XsDL` of `np.meshgrid(xsDL, xsDL)`. -/
noncomputable def XsDL (n : ℕ) (dx D : ℝ) (c : Util.Centering) : ZMod n → ZMod n → ℝ := fun _ j => xsDL n dx D c j.val

/-- falco/setup.py:703: `YsDL` of `np.meshgrid(xsDL, xsDL)`. -/
noncomputable def YsDL (n : ℕ) (dx D : ℝ) (c : Util.Centering) : ZMod n → ZMod n → ℝ := fun i _ => xsDL n dx D c i.val

/-- models.py:640-767 `compact` with `useFPM = False` (the focal-plane mask taken out), `normFac ≠ 0`. -/
noncomputable def compactUnocc {n : ℕ} (S : Sys N N4 Neta Nxi Meta Mxi) (apod : Option (Pl N3)) (lambda0 : ℝ) (X Y : ZMod n → ZMod n → ℝ) (E : Pl n) (s : Source n)
    (S1 S2 : ZMod N → ZMod N → ℝ) : Except PyErr (Fin Meta → Fin Mxi → ℂ) :=
  compactNoFpm S apod (padF N (einComp lambda0 S.wvl X Y E S.normFac s)) S1 S2

end Verif.Compact
