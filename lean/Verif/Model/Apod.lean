import Verif.Model.Compact

/-!
# Model of the apodized compact model, the apodized Lyot Jacobian and the vortex Jacobian

falco/model/models.py `compact_general` with `mp.flagApod`; falco/model/jacobians.py `lyot` with `mp.flagApod`, `vortex`.

An apodizer is `apod : Option (Pl N3)`: `none` is `mp.flagApod = False`, `some m` is `mp.flagApod = True` with `m = mp.P3.compact.mask` and
`N3 = mp.P3.compact.Narr`.  Same simplifications as `Verif.Model.Compact`.
-/

namespace Verif.Compact
open Verif Complex Verif.Optics

variable {N N4 Neta Nxi Meta Mxi N3 : ℕ} [NeZero N] [NeZero N4] [NeZero N3]

/-- models.py:918-1035: from the field at P2 (after back-propagation) to the camera, with the apodizer of lines 920-922. -/
noncomputable def p2toEnd (S : Sys N N4 Neta Nxi Meta Mxi) (apod : Option (Pl N3)) (EP2eff : Pl N) : Fin Meta → Fin Mxi → ℂ :=
  let EP3 := relay EP2eff (S.rel S.n23) S.centering
  match apod with
  | none => p4toEnd S (p3to4 S EP3)
  | some m =>
    let EP3 : Pl N3 := fun i j => m i j * padF N3 EP3 i j
    p4toEnd S (p3to4 S EP3)

/-- models.py:890-916: from the input field through both DMs back to P2. -/
noncomputable def toP2 (S : Sys N N4 Neta Nxi Meta Mxi) (Ein : Pl N) (S1 S2 : ZMod N → ZMod N → ℝ) : Except PyErr (Pl N) := do
  if S.flagDMwfe then throw .typeError
  let Edm1pre ← toDm1 S Ein
  let Edm1post : Pl N := fun i j => Edm1pre i j * exp (I * S.kk * S1 i j)
  let P ← ptp Edm1post (S.dx * N) S.wvl S.d12
  let Edm2pre : Pl N := fun i j => S.stop2 i j * P i j
  let Edm2 : Pl N := fun i j => Edm2pre i j * exp (I * S.kk * S2 i j)
  ptp Edm2 (S.dx * N) S.wvl (-(S.dP2dm1 + S.d12))

/-- models.py:770-1040 `compact_general` with an optional apodizer. -/
noncomputable def compactApod (S : Sys N N4 Neta Nxi Meta Mxi) (apod : Option (Pl N3)) (Ein : Pl N) (S1 S2 : ZMod N → ZMod N → ℝ) :
    Except PyErr (Fin Meta → Fin Mxi → ℂ) := do
  let EP2eff ← toP2 S Ein S1 S2
  return p2toEnd S apod EP2eff

/-- jacobians.py:304-308 (lyot), 746-750 (vortex), with the `pad_crop` to the same size of lines 386, 475, 835, 919: the apodizer re-imaged from P3 to P2. -/
def apodReimaged (S : Sys N N4 Neta Nxi Meta Mxi) (apod : Option (Pl N3)) : Pl N :=
  match apod with
  | none => fun _ _ => 1
  | some m => relay (padF N m) (S.rel S.n23) S.centering

/-- jacobians.py:404-406 (lyot), 853-855 (vortex): the first-order field of a DM1 actuator, propagated in its box to DM2 and back to P2. -/
noncomputable def dm1Box (S : Sys N N4 Neta Nxi Meta Mxi) (Ein : Pl N) (S1 S2 : ZMod N → ZMod N → ℝ) (VtoH : ℝ)
    (B : ℕ) [NeZero B] (y0 x0 : ℤ) (inf : ZMod B → ZMod B → ℝ) : Except PyErr (Pl B) := do
  let Edm1pre ← toDm1 S Ein
  let Edm1 : Pl N := fun i j => Edm1pre i j * exp (I * S.kk * S1 i j)
  let dEbox : Pl B := fun i j => (2 * 2 * Real.pi * I / S.wvl) * (VtoH * inf i j)
  let dEbox ← ptp (fun i j => dEbox i j * extractBox B y0 x0 Edm1 i j) (S.dx * B) S.wvl S.d12
  ptp (fun i j => dEbox i j * extractBox B y0 x0 S.stop2 i j * exp (I * S.kk * extractBox B y0 x0 S2 i j))
    (S.dx * B) S.wvl (-1 * (S.d12 + S.dP2dm1))

/-- jacobians.py:186-202 with 496-497 (lyot), 940-941 (vortex): the same for a DM2 actuator. -/
noncomputable def dm2Box (S : Sys N N4 Neta Nxi Meta Mxi) (Ein : Pl N) (S1 S2 : ZMod N → ZMod N → ℝ) (VtoH : ℝ)
    (B : ℕ) [NeZero B] (y0 x0 : ℤ) (inf : ZMod B → ZMod B → ℝ) : Except PyErr (Pl B) := do
  let Edm1pre ← toDm1 S Ein
  let Edm1 : Pl N := fun i j => Edm1pre i j * exp (I * S.kk * S1 i j)
  let Edm2inc ← ptp Edm1 (S.dx * N) S.wvl S.d12
  let Edm2 : Pl N := fun i j => S.stop2 i j * Edm2inc i j * exp (I * S.kk * S2 i j)
  let dEbox : Pl B := fun i j => VtoH * (2 * 2 * Real.pi * I / S.wvl) * inf i j
  ptp (fun i j => dEbox i j * extractBox B y0 x0 Edm2 i j) (S.dx * B) S.wvl (-1 * (S.d12 + S.dP2dm1))

/-- jacobians.py:209-557 `lyot` for either DM with an optional apodizer: `dm2` selects the DM; the box field at P2 is multiplied by the
re-imaged apodizer (lines 413, 507). -/
noncomputable def lyotCol (S : Sys N N4 Neta Nxi Meta Mxi) (apod : Option (Pl N3)) (Ein : Pl N) (dm2 : Bool) (S1 S2 : ZMod N → ZMod N → ℝ)
    (dead : Bool) (weight VtoH : ℝ) (B : ℕ) [NeZero B] (y0 x0 : ℤ) (inf : ZMod B → ZMod B → ℝ) :
    Except PyErr (Fin Meta → Fin Mxi → ℂ) := do
  if S.flagDMwfe then throw .typeError
  if dead then return fun _ _ => 0
  let dEP2box ← if dm2 then dm2Box S Ein S1 S2 VtoH B y0 x0 inf else dm1Box S Ein S1 S2 VtoH B y0 x0 inf
  let EFend ← boxToEnd S B y0 x0 (fun i j => extractBox B y0 x0 (apodReimaged S apod) i j * dEP2box i j)
  return fun e x => EFend e x * weight

/-- jacobians.py:873-880 (DM1) = 954-961 (DM2): FFT through the vortex, `vm` = `falco_gen_vortex_mask(charge, Nfft)`
(`fftshiftVortex` is its `fftshift`, jacobians.py:81-96). -/
noncomputable def vortexFft {M : ℕ} (Nfft : ℕ) [NeZero Nfft] (vm : Pl Nfft) (EP3 : Pl M) : Pl Nfft :=
  let EP3pad := padF Nfft EP3
  let EF3 : Pl Nfft := fun k l => fftshift vm k l * fft2 (fftshift EP3pad) k l / Nfft
  fun i j => fftshift (fft2 EF3) i j / Nfft

/-- jacobians.py:870-891 (DM1) = 951-973 (DM2): from the box at P2 to the camera; `dxEnd` is the pupil sampling given to the last MFT
(`mp.P2.compact.dx` for DM1, line 889; `mp.P4.compact.dx` for DM2, line 971). -/
noncomputable def vortexToEnd (S : Sys N N4 Neta Nxi Meta Mxi) (Nfft : ℕ) [NeZero Nfft] (vm : Pl Nfft) (dxEnd : ℝ) (EP2eff : Pl N) :
    Fin Meta → Fin Mxi → ℂ :=
  let EP3 := relay EP2eff (S.rel S.n23) S.centering
  let EP4 := relay (vortexFft Nfft vm EP3) (S.rel S.n34 - 1) S.centering
  let EFend := if Nfft > N4 then
      let EP4 : Pl N4 := fun i j => S.lyot i j * padF N4 EP4 i j
      mftP2f (toFin (relay EP4 (S.rel S.nEnd) S.centering)) S.fl S.wvl dxEnd S.dxi Mxi S.deta Meta S.centering
    else
      let EP4 : Pl Nfft := fun i j => padF Nfft S.lyot i j * EP4 i j
      mftP2f (toFin (relay EP4 (S.rel S.nEnd) S.centering)) S.fl S.wvl dxEnd S.dxi Mxi S.deta Meta S.centering
  fun e x => EFend e x / Real.sqrt S.normFac

/-- jacobians.py:645-983 `vortex` (`mp.jac.minimizeNI = False`) for either DM, with an optional apodizer. -/
noncomputable def vortexCol (S : Sys N N4 Neta Nxi Meta Mxi) (apod : Option (Pl N3)) (Nfft : ℕ) [NeZero Nfft] (vm : Pl Nfft) (Ein : Pl N)
    (dm2 : Bool) (S1 S2 : ZMod N → ZMod N → ℝ) (dead : Bool) (weight VtoH : ℝ) (B : ℕ) [NeZero B] (y0 x0 : ℤ) (inf : ZMod B → ZMod B → ℝ) :
    Except PyErr (Fin Meta → Fin Mxi → ℂ) := do
  if S.flagDMwfe then throw .typeError
  if dead then return fun _ _ => 0
  let dEP2box ← if dm2 then dm2Box S Ein S1 S2 VtoH B y0 x0 inf else dm1Box S Ein S1 S2 VtoH B y0 x0 inf
  let EP2eff : Pl N := embedBox B y0 x0 fun i j => extractBox B y0 x0 (apodReimaged S apod) i j * dEP2box i j
  let G := vortexToEnd S Nfft vm (if dm2 then S.dx4 else S.dx) EP2eff
  return fun e x => G e x * weight

end Verif.Compact
