import Verif.Model.Apod

/-!
# Model of the peak Jacobian (`mp.jac.minimizeNI = True`)

falco/model/jacobians.py `no_fpm` and the `minimizeNI` lines of `lyot`, `vortex` and `precomp`; falco/model/models.py `compact_general` with `useFPM = False`.

Simplifications: `mp.P4.compact.Nbeam = mp.P1.compact.Nbeam` (no downsampling, no `maskAtP1res`); `mp.P4.compact.mask` and its cropped version
`croppedMask` have the same non-zero pixels, so both are `S.lyot`.
-/

namespace Verif.Compact
open Verif Complex Verif.Optics

variable {N N4 Neta Nxi Meta Mxi N3 : ℕ} [NeZero N] [NeZero N4] [NeZero N3]

/-- models.py:815-819: transmission outside the FPM (`mask[0,0]` for an HLC, 1 otherwise). -/
def Sys.transOuter (S : Sys N N4 Neta Nxi Meta Mxi) : ℂ :=
  match S.coro with
  | .babinet _ t => t
  | .flc _ => 1
  | .vortex .. => 1

/-- models.py:998-1035 with `useFPM = False`: P3 to the camera without the FPM. -/
noncomputable def p3toEndNoFpm {M : ℕ} [NeZero M] (S : Sys N N4 Neta Nxi Meta Mxi) (EP3 : Pl M) : Fin Meta → Fin Mxi → ℂ :=
  let EP4 := relay EP3 (S.rel S.n34) S.centering
  let EP4 : Pl M := fun i j => EP4 i j * S.transOuter
  p4toEnd S (padF N4 EP4)

/-- models.py:918-1035 with `useFPM = False`: P2 to the camera. -/
noncomputable def p2toEndNoFpm (S : Sys N N4 Neta Nxi Meta Mxi) (apod : Option (Pl N3)) (EP2eff : Pl N) : Fin Meta → Fin Mxi → ℂ :=
  let EP3 := relay EP2eff (S.rel S.n23) S.centering
  match apod with
  | none => p3toEndNoFpm S EP3
  | some m => p3toEndNoFpm S (fun i j => m i j * padF N3 EP3 i j : Pl N3)

/-- models.py:770-1040 `compact_general` with `useFPM = False`. -/
noncomputable def compactNoFpm (S : Sys N N4 Neta Nxi Meta Mxi) (apod : Option (Pl N3)) (Ein : Pl N) (S1 S2 : ZMod N → ZMod N → ℝ) :
    Except PyErr (Fin Meta → Fin Mxi → ℂ) := do
  let EP2eff ← toP2 S Ein S1 S2
  return p2toEndNoFpm S apod EP2eff

/-- jacobians.py:1033, 1159: inverse of the star's tilt at P2, zero-padded from the `n × n` array on which the tilt is defined; both relays of
`no_fpm` use the default (pixel) centering. -/
noncomputable def ettUndo {n : ℕ} [NeZero n] (S : Sys N N4 Neta Nxi Meta Mxi) (Ett : Pl n) : Pl N :=
  padF N (fun i j => 1 / relay Ett (S.rel S.n12) .pixel i j : Pl n)

/-- jacobians.py:1063-1066: Lyot stop re-imaged to P2, always with pixel centering. -/
def lyotReimaged (S : Sys N N4 Neta Nxi Meta Mxi) : Pl N := relay (padF N S.lyot) (S.rel (S.n23 + S.n34)) .pixel

/-- jacobians.py:986-1250 `no_fpm` for either DM (lines 1171-1192 and 1229-1249). -/
noncomputable def noFpm {n : ℕ} [NeZero n] (S : Sys N N4 Neta Nxi Meta Mxi) (apod : Option (Pl N3)) (Ett : Pl n) (Ein : Pl N) (dm2 : Bool)
    (S1 S2 : ZMod N → ZMod N → ℝ) (VtoH : ℝ) (B : ℕ) [NeZero B] (y0 x0 : ℤ) (inf : ZMod B → ZMod B → ℝ) : Except PyErr ℂ := do
  if S.flagDMwfe then throw .typeError
  let dEP2box ← if dm2 then dm2Box S Ein S1 S2 VtoH B y0 x0 inf else dm1Box S Ein S1 S2 VtoH B y0 x0 inf
  let dEP2box : Pl B := fun i j => extractBox B y0 x0 (apodReimaged S apod) i j * dEP2box i j
  let dEP2box : Pl B := fun i j => extractBox B y0 x0 (ettUndo S Ett) i j * dEP2box i j
  let dEP2box : Pl B := fun i j => extractBox B y0 x0 (lyotReimaged S) i j * dEP2box i j
  let dEFendPeak : ℂ := (∑ i, ∑ j, dEP2box i j) * 1 * Real.sqrt (S.dx * S.dx) * Real.sqrt (S.dxi * S.deta) / (S.wvl * S.fl)
  return dEFendPeak / Real.sqrt S.normFac

/-- jacobians.py:457-463 (and 551-557, 893-899, 975-981): the column of the normalised field, from the plain column `G` (before weighting), the
stored occulted field, the stored peak of the unocculted field and the Jacobian of the peak. -/
noncomputable def niCol (G Eocc : Fin Meta → Fin Mxi → ℂ) (Epeak J : ℂ) (weight : ℝ) : Fin Meta → Fin Mxi → ℂ :=
  fun e x => (G e x / Epeak - Eocc e x / (Epeak * Epeak) * J) * weight

/-- jacobians.py:166-174: the stored peak is the unocculted field at (the first) pixel of largest modulus; `IsPeak E p` says that `p` is a pixel of
largest modulus. -/
def IsPeak (E : Fin Meta → Fin Mxi → ℂ) (p : Fin Meta × Fin Mxi) : Prop := ∀ e x, ‖E e x‖ ≤ ‖E p.1 p.2‖

/-- jacobians.py:209-463 `lyot` with `mp.jac.minimizeNI = True` for a live actuator; `p` is the pixel found by `argmax`. -/
noncomputable def lyotNI {n : ℕ} [NeZero n] (S : Sys N N4 Neta Nxi Meta Mxi) (apod : Option (Pl N3)) (Ett : Pl n) (Ein : Pl N) (dm2 : Bool)
    (S1 S2 : ZMod N → ZMod N → ℝ) (p : Fin Meta × Fin Mxi) (weight VtoH : ℝ) (B : ℕ) [NeZero B] (y0 x0 : ℤ) (inf : ZMod B → ZMod B → ℝ) :
    Except PyErr (Fin Meta → Fin Mxi → ℂ) := do
  let Eocc ← compactApod S apod Ein S1 S2
  let Eunocc ← compactNoFpm S apod Ein S1 S2
  let G ← lyotCol S apod Ein dm2 S1 S2 false 1 VtoH B y0 x0 inf
  let J ← noFpm S apod Ett Ein dm2 S1 S2 VtoH B y0 x0 inf
  return niCol G Eocc (Eunocc p.1 p.2) J weight

end Verif.Compact
