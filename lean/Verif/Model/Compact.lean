import Verif.Model.Prop

/-!
# Model of the compact optical model, its control Jacobian and its reverse gradient

falco/model/models.py: `compact`, `compact_general`, `compact_reverse_gradient`; falco/model/jacobians.py: `precomp`, `lyot`.

A square plane of `N × N` pixels is `Pl N = ZMod N → ZMod N → ℂ` (as in `Verif.Model.Prop`).  One wavelength / Zernike / star mode is
modelled at a time; the sums over modes are in `gradCost` / `revGradient`.

Simplifications: no apodizer (`flagApod = False`), no downsampling branch (only used with `useFPM = False`), `useFPM = True`,
`normFac > 0`; `mp.dm1.compact.NdmPad = mp.dm2.compact.NdmPad = mp.compact.NdmPad`; `mp.jac.minimizeNI = False`.  `flagDMwfe = True` is the branch that raises (models.py:871-886).
-/

namespace Verif.Compact
open Verif Complex Verif.Optics

/-- A square plane of complex samples. -/
abbrev Pl (N : ℕ) := ZMod N → ZMod N → ℂ

/-- The same array with `Fin` indices (for the matrix Fourier transforms). -/
def toFin {N : ℕ} (E : Pl N) : Fin N → Fin N → ℂ := fun a b => E (a.val : ZMod N) (b.val : ZMod N)
/-- and back -/
def ofFin {N : ℕ} [NeZero N] (E : Fin N → Fin N → ℂ) : Pl N := fun i j => E ⟨i.val, ZMod.val_lt i⟩ ⟨j.val, ZMod.val_lt j⟩

/-- `pad_crop(E, m)` of a square array (falco/util.py:179-248) as an index formula; `padF_eq_padCrop` proves that it is the model of
`pad_crop` in `Verif.Model.Util`. -/
def padF {n : ℕ} (m : ℕ) (E : Pl n) : Pl m := fun i j =>
  let a : ℤ := ((n / 2 : ℕ) : ℤ) + ((i.val : ℤ) - ((m / 2 : ℕ) : ℤ))
  let b : ℤ := ((n / 2 : ℕ) : ℤ) + ((j.val : ℤ) - ((m / 2 : ℕ) : ℤ))
  if (0 ≤ a ∧ a < n) ∧ (0 ≤ b ∧ b < n) then E (a : ZMod n) (b : ZMod n) else 0

/-- Kind of coronagraph with its focal-plane mask, `Neta × Nxi` samples.
`babinet` = LC, APLC, HLC (`transOuterFPM` is 1 for LC/APLC and `mask[0,0]` for HLC, models.py:815-819, 463-466); `flc` = FLC, SPLC; `vortex` with
beam diameter `D`, mask size `NB`, mask and windows as in `mftP2v2pOf`. -/
inductive Coro (Neta Nxi : ℕ)
  | babinet (mask : Fin Neta → Fin Nxi → ℂ) (transOuter : ℂ)
  | flc (mask : Fin Neta → Fin Nxi → ℂ)
  | vortex (D : ℝ) (NB : ℕ) (vortexMask : (n : ℕ) → Fin n → Fin n → ℂ) (tukey : ℝ → Fin NB → Fin NB → ℝ)

/-- Model parameters used by `compact_general` at one wavelength. `N` = `mp.compact.NdmPad`, `N4` = `mp.P4.compact.Narr`,
`Nxi, Neta` = FPM samples, `Mxi, Meta` = detector samples. -/
structure Sys (N N4 Neta Nxi Meta Mxi : ℕ) where
  wvl : ℝ
  fl : ℝ
  dx : ℝ            -- mp.P2.compact.dx
  dx4 : ℝ           -- mp.P4.compact.dx
  dxiF3 : ℝ         -- mp.F3.compact.dxi
  detaF3 : ℝ        -- mp.F3.compact.deta
  fpmScale : ℝ      -- fpmScaleFac / scaleFac
  dxi : ℝ           -- mp.Fend.dxi
  deta : ℝ          -- mp.Fend.deta
  dP2dm1 : ℝ        -- mp.d_P2_dm1
  d12 : ℝ           -- mp.d_dm1_dm2
  centering : Util.Centering
  flagRotation : Bool
  n12 : ℤ           -- mp.Nrelay1to2
  n23 : ℤ
  n34 : ℤ
  nEnd : ℤ
  pupil : Pl N      -- pad_crop(mp.P1.compact.mask, NdmPad)
  stop1 : Pl N      -- DM1stop (ones without the flag)
  stop2 : Pl N
  flagDMwfe : Bool
  coro : Coro Neta Nxi
  lyot : Pl N4      -- mp.P4.compact.croppedMask
  normFac : ℝ       -- mp.Fend.compact.I00[sbpIndex]

section
variable {N N4 Neta Nxi Meta Mxi : ℕ} [NeZero N] [NeZero N4]

/-- `NrelayFactor*n` (models.py:821-824). -/
def Sys.rel (S : Sys N N4 Neta Nxi Meta Mxi) (n : ℤ) : ℤ := (if S.flagRotation then 1 else 0) * n

/-- models.py:928-997: propagation from P3 to P4, by coronagraph type.  The array at P3 has its own size `M`: `NdmPad` without an apodizer,
`mp.P3.compact.Narr` with one. -/
noncomputable def p3to4 {M : ℕ} [NeZero M] (S : Sys N N4 Neta Nxi Meta Mxi) (EP3 : Pl M) : Pl N4 :=
  match S.coro with
  | .babinet mask t =>
    let EF3inc := mftP2f (toFin EP3) S.fl S.wvl S.dx (S.fpmScale * S.dxiF3) Nxi (S.fpmScale * S.detaF3) Neta S.centering
    let EF3 : Fin Neta → Fin Nxi → ℂ := fun e x => (t - mask e x) * EF3inc e x
    let EP4noFPM := padF N4 (relay EP3 (S.rel S.n34) S.centering)
    let EP4noFPM : Pl N4 := fun i j => t * EP4noFPM i j
    let EP4sub := ofFin (mftF2p EF3 S.fl S.wvl (S.fpmScale * S.dxiF3) (S.fpmScale * S.detaF3) S.dx4 N4 S.centering)
    let EP4sub := relay EP4sub (S.rel S.n34 - 1) S.centering
    fun i j => EP4noFPM i j - EP4sub i j
  | .flc mask =>
    let EF3inc := mftP2f (toFin EP3) S.fl S.wvl S.dx (S.fpmScale * S.dxiF3) Nxi (S.fpmScale * S.detaF3) Neta S.centering
    let EF3 : Fin Neta → Fin Nxi → ℂ := fun e x => mask e x * EF3inc e x
    let EP4 := ofFin (mftF2p EF3 S.fl S.wvl (S.fpmScale * S.dxiF3) (S.fpmScale * S.detaF3) S.dx4 N4 S.centering)
    relay EP4 (S.rel S.n34 - 1) S.centering
  | .vortex D NB vm tk =>
    let EP4 := ofFin (mftP2v2pOf false D 4 5 NB vm tk (toFin EP3))
    padF N4 (relay EP4 (S.rel S.n34 - 1) S.centering)

/-- models.py:1022-1035 (also jacobians.py:449-455 and 543-549): Lyot stop, relay, MFT to the camera, normalisation. -/
noncomputable def p4toEnd (S : Sys N N4 Neta Nxi Meta Mxi) (EP4 : Pl N4) : Fin Meta → Fin Mxi → ℂ :=
  let EP4 : Pl N4 := fun i j => S.lyot i j * EP4 i j
  let EP4 := relay EP4 (S.rel S.nEnd) S.centering
  let EFend := mftP2f (toFin EP4) S.fl S.wvl S.dx4 S.dxi Mxi S.deta Meta S.centering
  fun e x => EFend e x / Real.sqrt S.normFac

/-- models.py:890-901: pupil, relay to P2, propagation to DM1 and DM1 stop. -/
noncomputable def toDm1 (S : Sys N N4 Neta Nxi Meta Mxi) (Ein : Pl N) : Except PyErr (Pl N) := do
  let EP1 : Pl N := fun i j => S.pupil i j * Ein i j
  let EP2 := relay EP1 (S.rel S.n12) S.centering
  let Edm1pre ← ptp EP2 (S.dx * N) S.wvl S.dP2dm1     -- `ptp` itself returns its input for distance 0
  return fun i j => Edm1pre i j * S.stop1 i j

/-- `mirrorFac*2*pi/wvl` -/
noncomputable def Sys.kk (S : Sys N N4 Neta Nxi Meta Mxi) : ℝ := 2 * 2 * Real.pi / S.wvl

/-- Everything `compact_general` returns with `forRevGradModel=True` (except the surfaces). -/
structure Fwd (N Meta Mxi : ℕ) where
  Eout : Fin Meta → Fin Mxi → ℂ
  Edm1post : Pl N
  Edm2pre : Pl N

/-- models.py:770-1040 `compact_general`, given the two DM surfaces (zero for a DM not in `dm_ind`, lines 844-853).
With `flagDMwfe` the calls `pad_crop(..., NdmPad, 'extrapval', 0)` have one positional argument too many. -/
noncomputable def compactGeneral (S : Sys N N4 Neta Nxi Meta Mxi) (Ein : Pl N) (S1 S2 : ZMod N → ZMod N → ℝ) :
    Except PyErr (Fwd N Meta Mxi) := do
  if S.flagDMwfe then throw .typeError
  let Edm1pre ← toDm1 S Ein
  let Edm1post : Pl N := fun i j => Edm1pre i j * exp (I * S.kk * S1 i j)
  let P ← ptp Edm1post (S.dx * N) S.wvl S.d12
  let Edm2pre : Pl N := fun i j => S.stop2 i j * P i j
  let Edm2 : Pl N := fun i j => Edm2pre i j * exp (I * S.kk * S2 i j)
  let EP2eff ← ptp Edm2 (S.dx * N) S.wvl (-(S.dP2dm1 + S.d12))
  let EP3 := relay EP2eff (S.rel S.n23) S.centering
  return ⟨p4toEnd S (p3to4 S EP3), Edm1post, Edm2pre⟩

/-- models.py:720-735 (`compact`): input field of a Zernike mode; `base` is the star field.  `zern = none` is Noll index 1. -/
noncomputable def einCompact (wvl : ℝ) (base : Pl N) (zern : Option (Pl N × ℝ)) : Pl N :=
  match zern with
  | none => base
  | some (Z, Zcoef) => fun i j => base i j * (Z i j * (2 * Real.pi * I / wvl) * Zcoef)

/-- jacobians.py:110-118 (`precomp`): the same, as written there. -/
noncomputable def einJac (wvl : ℝ) (base : Pl N) (zern : Option (Pl N × ℝ)) : Pl N :=
  match zern with
  | none => base
  | some (Z, Zcoef) => fun i j => base i j * (Z i j * (2 * Real.pi / wvl) * Zcoef)

/-- models.py:750-767 with 826-829: scale factor of the FPM sampling in the compact model, from `mp.layout` (lower case) and whether
`mp.coro` is HLC. -/
noncomputable def fpmScaleCompact (layout : String) (isHLC : Bool) (wvl lambda0 : ℝ) : ℝ :=
  if layout ∈ ["roman_phasec_proper", "wfirst_phaseb_proper", "proper", "fpm_scale"] ∧ isHLC = true then wvl / lambda0 else 1

/-- jacobians.py:253-257: the scale factor used in the Jacobian. -/
noncomputable def fpmScaleJac (layout : String) (wvl lambda0 : ℝ) : ℝ := if layout = "fpm_scale" then wvl / lambda0 else 1

/-! ## Jacobian column (Lyot-type coronagraphs) -/

/-- `E[np.ix_(y0+arange(B), x0+arange(B))]`: negative indices wrap, as in NumPy. -/
def extractBox {α : Type*} (B : ℕ) (y0 x0 : ℤ) (E : ZMod N → ZMod N → α) : ZMod B → ZMod B → α := fun i j =>
  E (((y0 + (i.val : ℤ)) : ℤ) : ZMod N) (((x0 + (j.val : ℤ)) : ℤ) : ZMod N)

/-- `Z = zeros; Z[np.ix_(y0+arange(B), x0+arange(B))] = X` for a box inside the array. -/
def embedBox {α : Type*} [Zero α] (B : ℕ) (y0 x0 : ℤ) (X : ZMod B → ZMod B → α) : ZMod N → ZMod N → α := fun i j =>
  if (y0 ≤ i.val ∧ (i.val : ℤ) < y0 + B) ∧ (x0 ≤ j.val ∧ (j.val : ℤ) < x0 + B) then
    X ((((i.val : ℤ) - y0) : ℤ) : ZMod B) ((((j.val : ℤ) - x0) : ℤ) : ZMod B) else 0

/-- jacobians.py:411-425: MFT of the box from P3 to the FPM with the box's own coordinates.  `rot90(·, 2*n)` of an odd number of relays
reverses both axes of the box; the coordinates are negated and reversed in that case (lines 416-419). -/
noncomputable def boxMft (S : Sys N N4 Neta Nxi Meta Mxi) (B : ℕ) [NeZero B] (y0 x0 : ℤ) (dEP2box : Pl B) : Fin Neta → Fin Nxi → ℂ :=
  let odd := S.rel S.n23 % 2 = 1
  let dEP3box : Pl B := if odd then reverse2 dEP2box else dEP2box
  let yb : ZMod B → ℝ := fun i => coordAt (y0 + i.val)
  let xb : ZMod B → ℝ := fun j => coordAt (x0 + j.val)
  let y_box : ZMod B → ℝ := if odd then (fun i => -1 * yb (-1 - i)) else yb
  let x_box : ZMod B → ℝ := if odd then (fun j => -1 * xb (-1 - j)) else xb
  let coef : ℂ := -2 * Real.pi * I / (S.wvl * S.fl)
  let scaling : ℂ := Real.sqrt (S.dx * S.dx) * Real.sqrt ((S.fpmScale * S.dxiF3) * (S.fpmScale * S.detaF3)) / (S.wvl * S.fl)
  fun e x => ∑ b, (∑ a, (exp (coef * (ax Neta (S.fpmScale * S.detaF3) S.centering e * y_box a)) * scaling) * dEP3box a b) *
    exp (coef * (x_box b * ax Nxi (S.fpmScale * S.dxiF3) S.centering x))
where
  /-- `x_pupPad[k]` (falco/dm.py:745-754; `NdmPad` is even, so this is `create_axis`), negative `k` wrapping -/
  coordAt (k : ℤ) : ℝ := ax N S.dx S.centering ⟨((k : ℤ) : ZMod N).val, ZMod.val_lt _⟩

/-- jacobians.py:421-455 (DM1) = 514-549 (DM2): from the box at P2 to the final focal plane. -/
noncomputable def boxToEnd (S : Sys N N4 Neta Nxi Meta Mxi) (B : ℕ) [NeZero B] (y0 x0 : ℤ) (dEP2box : Pl B) :
    Except PyErr (Fin Meta → Fin Mxi → ℂ) :=
  let EF3inc := boxMft S B y0 x0 dEP2box
  match S.coro with
  | .babinet mask t =>
    let EF3 : Fin Neta → Fin Nxi → ℂ := fun e x => (t - mask e x) * EF3inc e x
    let EP4sub := ofFin (mftF2p EF3 S.fl S.wvl (S.fpmScale * S.dxiF3) (S.fpmScale * S.detaF3) S.dx4 N4 S.centering)
    let EP4sub := relay EP4sub (S.rel S.n34 - 1) S.centering
    let EP4noFPM : Pl N := embedBox B y0 x0 dEP2box
    let EP4noFPM := relay EP4noFPM (S.rel (S.n23 + S.n34)) S.centering
    let EP4noFPM := padF N4 EP4noFPM
    .ok (p4toEnd S fun i j => t * EP4noFPM i j - EP4sub i j)
  | .flc mask =>
    let EF3 : Fin Neta → Fin Nxi → ℂ := fun e x => mask e x * EF3inc e x
    let EP4 := ofFin (mftF2p EF3 S.fl S.wvl (S.fpmScale * S.dxiF3) (S.fpmScale * S.detaF3) S.dx4 N4 S.centering)
    .ok (p4toEnd S (relay EP4 (S.rel S.n34 - 1) S.centering))
  | .vortex .. => .error .unboundLocal      -- `lyot` is not called for a vortex; `fpm` would be unbound

/-! ## Reverse gradient -/

/-- models.py:547-591: from the gradient at P4 (Lyot mask applied) back to P3, by coronagraph type, as written. -/
noncomputable def p4to3Grad (S : Sys N N4 Neta Nxi Meta Mxi) (g : Pl N4) : Pl N :=
  match S.coro with
  | .babinet mask t =>
    let EP3noFPM := padF N (relay g (S.rel S.n34) S.centering)
    let EP4subtr : Pl N4 := fun i j => - g i j
    let EP4subtr := relay EP4subtr (S.rel S.n34 - 1) S.centering
    let aux := mftP2f (toFin EP4subtr) (-S.fl) S.wvl S.dx S.dxiF3 Nxi S.detaF3 Neta S.centering
    let EF3 : Fin Neta → Fin Nxi → ℂ := fun e x => starRingEnd ℂ (t - mask e x) * aux e x
    let EP3subtr : Pl N := ofFin (mftF2p EF3 (-S.fl) S.wvl S.dxiF3 S.detaF3 S.dx4 N S.centering)
    fun i j => EP3noFPM i j + EP3subtr i j
  | .flc mask =>
    let EP4 := relay g (S.rel S.n34 - 1) S.centering
    let EF3 := mftP2f (toFin EP4) (-S.fl) S.wvl S.dx S.dxiF3 Nxi S.detaF3 Neta S.centering
    let EF3 : Fin Neta → Fin Nxi → ℂ := fun e x => starRingEnd ℂ (mask e x) * EF3 e x
    ofFin (mftF2p EF3 (-S.fl) S.wvl S.dxiF3 S.detaF3 S.dx4 N S.centering)
  | .vortex D NB vm tk =>
    let g := padF N g
    let g := relay g (S.rel S.n34 - 1) S.centering
    ofFin (mftP2v2pOf true D 4 5 NB vm tk (toFin g))

/-- models.py:531-539: contribution of one mode with weight `w` to the cost, `Edh` = new dark-hole field, `corr` = dark-hole mask. -/
noncomputable def modeCost (w : ℝ) (corr : Fin Meta → Fin Mxi → Bool) (Edh : Fin Meta → Fin Mxi → ℂ) : ℝ :=
  w * ∑ e, ∑ x, if corr e x then normSq (Edh e x) else 0

/-- models.py:541-613: surface gradients `(surf_dm1_bar, surf_dm2_bar)` of one mode with weight `w`, from the new dark-hole field `Edh`
(`corr` is the dark-hole mask), the stored fields `Edm1post`, `Edm2pre` and the stored surface of DM2. -/
noncomputable def surfBars (S : Sys N N4 Neta Nxi Meta Mxi) (w : ℝ) (corr : Fin Meta → Fin Mxi → Bool) (Edh : Fin Meta → Fin Mxi → ℂ)
    (st : Fwd N Meta Mxi) (DM2surf : ZMod N → ZMod N → ℝ) :
    Except PyErr ((ZMod N → ZMod N → ℝ) × (ZMod N → ZMod N → ℝ)) := do
  let Fm : Fin Meta → Fin Mxi → ℂ := fun e x => w * 2 / Real.sqrt S.normFac * Edh e x * (if corr e x then 1 else 0)
  let g4 : Pl N4 := ofFin (mftF2p Fm (-S.fl) S.wvl S.dxi S.deta S.dx4 N4 S.centering)
  let g4 := relay g4 (S.rel S.nEnd) S.centering
  let g4 : Pl N4 := fun i j => g4 i j * starRingEnd ℂ (S.lyot i j)
  let g3 := p4to3Grad S g4
  let g2 := relay g3 (S.rel S.n23) S.centering
  let gd2 ← ptp g2 (S.dx * N) S.wvl (S.dP2dm1 + S.d12)
  let gd2 : Pl N := fun i j => starRingEnd ℂ (exp (I * S.kk * DM2surf i j)) * gd2 i j
  let bar2 : ZMod N → ZMod N → ℝ := fun i j => -S.kk * (gd2 i j * starRingEnd ℂ (st.Edm2pre i j)).im
  let gd1 ← ptp gd2 (S.dx * N) S.wvl (-S.d12)
  let bar1 : ZMod N → ZMod N → ℝ := fun i j => -S.kk * (gd1 i j * starRingEnd ℂ (st.Edm1post i j)).im
  return (bar1, bar2)

end

/-- models.py:615-637, the end of `compact_reverse_gradient` for one DM: `dataGrad` is the back-projected surface gradient
(`Vout·VtoH·(not dead)` at the controlled actuators), `u` the command vector, `c` = `utu_scale_fac * 10**log10reg`.
Cost penalty `c·Σu²`; the gradient is incremented by `2*c*gradient` (line 635). -/
def finishGradient {n : Type*} [Fintype n] (dataCost c : ℝ) (dataGrad u : n → ℝ) : ℝ × (n → ℝ) :=
  (dataCost + c * ∑ k, u k ^ 2, fun k => dataGrad k + 2 * c * dataGrad k)

end Verif.Compact
