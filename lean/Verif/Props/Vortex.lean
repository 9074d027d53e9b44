import Verif.Props.JacDeriv

/-!
# The vortex Jacobian (C81)
-/

set_option linter.unusedSectionVars false

namespace Verif.Compact
open Verif Complex Verif.Optics

variable {N N4 Neta Nxi Meta Mxi N3 : ℕ} [NeZero N] [NeZero N4] [NeZero N3] {B : ℕ} [NeZero B]

/-- Specification: the compact model (`compactApod`) in which the vortex between P3 and P4 is propagated by the single-resolution FFT of size
`Nfft`; everything else, from the input field to P3 and from P4 to the camera, is the compact model. -/
noncomputable def fftVortexModel (S : Sys N N4 Neta Nxi Meta Mxi) (apod : Option (Pl N3)) (Nfft : ℕ) [NeZero Nfft] (vm : Pl Nfft)
    (Ein : Pl N) (S1 S2 : ZMod N → ZMod N → ℝ) : Except PyErr (Fin Meta → Fin Mxi → ℂ) := do
  let EP2eff ← toP2 S Ein S1 S2
  let EP3 := relay EP2eff (S.rel S.n23) S.centering
  let EP4 : Pl Nfft := match apod with
    | none => vortexFft Nfft vm EP3
    | some m => vortexFft Nfft vm (fun i j => m i j * padF N3 EP3 i j : Pl N3)
  return p4toEnd S (padF N4 (relay EP4 (S.rel S.n34 - 1) S.centering))

/-- from P2 to the camera in `fftVortexModel` -/
noncomputable def vxTail (S : Sys N N4 Neta Nxi Meta Mxi) (apod : Option (Pl N3)) (Nfft : ℕ) [NeZero Nfft] (vm : Pl Nfft) (E : Pl N) :
    Fin Meta → Fin Mxi → ℂ :=
  p4toEnd S (padF N4 (relay (vortexFft Nfft vm (relay (fun i j => apodReimaged S apod i j * E i j) (S.rel S.n23) S.centering))
    (S.rel S.n34 - 1) S.centering))

theorem fftVortexModel_eq (S : Sys N N4 Neta Nxi Meta Mxi) (hw : S.flagDMwfe = false) (apod : Option (Pl N3)) (Nfft : ℕ) [NeZero Nfft] (vm : Pl Nfft)
    (Ein : Pl N) (S1 S2 : ZMod N → ZMod N → ℝ) : fftVortexModel S apod Nfft vm Ein S1 S2 = .ok (vxTail S apod Nfft vm (p2f S Ein S1 S2)) := by
  unfold fftVortexModel vxTail
  rw [toP2_eq S hw]
  cases apod with
  | none =>
    simp only [apodReimaged, one_mul, bind, Except.bind, pure, Except.pure]
  | some m =>
    rw [relay_apod, ← vortexFft_apod]
    simp only [bind, Except.bind, pure, Except.pure]

theorem lin_vxTail (S : Sys N N4 Neta Nxi Meta Mxi) (apod : Option (Pl N3)) (Nfft : ℕ) [NeZero Nfft] (vm : Pl Nfft) :
    IsLinearMap ℂ (vxTail S apod Nfft vm) := by
  have h1 := IsLinearMap.comp' (lin_vortexFft (M := N) Nfft vm) (IsLinearMap.comp' (lin_relay (N := N) (S.rel S.n23) S.centering) (lin_mul (apodReimaged S apod)))
  have h2 := IsLinearMap.comp' (lin_p4toEnd S) (IsLinearMap.comp' (lin_padF N4) (IsLinearMap.comp' (lin_relay (S.rel S.n34 - 1) S.centering) h1))
  exact h2

theorem vortexToEnd_eq (S : Sys N N4 Neta Nxi Meta Mxi) (Nfft : ℕ) [NeZero Nfft] (vm : Pl Nfft) (hN4 : N4 ≤ Nfft) (dxEnd : ℝ) (E : Pl N) :
    vortexToEnd S Nfft vm dxEnd E = p4toEnd { S with dx4 := dxEnd } (padF N4 (relay (vortexFft Nfft vm (relay E (S.rel S.n23) S.centering))
      (S.rel S.n34 - 1) S.centering)) := by
  unfold vortexToEnd p4toEnd
  dsimp only
  by_cases h : Nfft > N4
  · simp only [if_pos h]
    rfl
  · simp only [if_neg h]
    have : Nfft = N4 := by omega
    subst this
    simp only [padF_self]
    rfl

theorem vortexCol_eq (S : Sys N N4 Neta Nxi Meta Mxi) (hw : S.flagDMwfe = false) (apod : Option (Pl N3)) (Nfft : ℕ) [NeZero Nfft] (vm : Pl Nfft)
    (hN4 : N4 ≤ Nfft) (dm2 : Bool) (y0 x0 : ℤ) (hB : BoxOk S B y0 x0) (Ein : Pl N) (S1 S2 : ZMod N → ZMod N → ℝ) (weight VtoH : ℝ)
    (inf : ZMod B → ZMod B → ℝ) (X : Pl B)
    (hX : (if dm2 then dm2Box S Ein S1 S2 VtoH B y0 x0 inf else dm1Box S Ein S1 S2 VtoH B y0 x0 inf) = .ok X) :
    vortexCol S apod Nfft vm Ein dm2 S1 S2 false weight VtoH B y0 x0 inf =
      .ok fun e x => vxTail { S with dx4 := if dm2 then S.dx4 else S.dx } apod Nfft vm (embedBox B y0 x0 X) e x * weight := by
  obtain ⟨hy0, hy1, hx0, hx1⟩ := hB.inside
  unfold vortexCol
  cases dm2
  · simp only [Bool.false_eq_true, if_false] at hX
    simp only [hw, hX, Bool.false_eq_true, if_false, bind, Except.bind, pure, Except.pure]
    rw [embed_extract_mul y0 x0 hy0 hy1 hx0 hx1, vortexToEnd_eq S Nfft vm hN4]
    rfl
  · simp only [if_true] at hX
    simp only [hw, hX, Bool.false_eq_true, if_false, if_true, bind, Except.bind, pure, Except.pure]
    rw [embed_extract_mul y0 x0 hy0 hy1 hx0 hx1, vortexToEnd_eq S Nfft vm hN4]
    rfl

/-- C81 (DM2).  For a vortex coronagraph, with or without an apodizer, the column of a live DM2 actuator is the control weight times the derivative,
with respect to that actuator's voltage, of the compact model whose vortex is propagated by the Jacobian's FFT - for every input field, pair of
surfaces, vortex mask, Lyot stop, apodizer of any size, relay count and centering. -/
theorem C81_dm2 (S : Sys N N4 Neta Nxi Meta Mxi) (hw : S.flagDMwfe = false) (apod : Option (Pl N3)) (Nfft : ℕ) [NeZero Nfft] (vm : Pl Nfft)
    (hN4 : N4 ≤ Nfft) (y0 x0 : ℤ) (hB : BoxOk S B y0 x0) (Ein : Pl N) (S1 S2 : ZMod N → ZMod N → ℝ) (weight VtoH : ℝ)
    (inf : ZMod B → ZMod B → ℝ) :
    ∃ (G D : Fin Meta → Fin Mxi → ℂ) (E : ℝ → Fin Meta → Fin Mxi → ℂ),
      vortexCol S apod Nfft vm Ein true S1 S2 false weight VtoH B y0 x0 inf = .ok G ∧
      (∀ t : ℝ, fftVortexModel S apod Nfft vm Ein S1 (fun i j => S2 i j + t * (VtoH * embedBox B y0 x0 inf i j)) = .ok (E t)) ∧
      HasDerivAt E D 0 ∧ G = fun e x => D e x * weight := by
  obtain ⟨X, hX, hX2⟩ := dm2Box_ok S y0 x0 hB Ein S1 S2 VtoH inf
  refine ⟨_, _, _, ?_, fun t => fftVortexModel_eq S hw apod Nfft vm Ein S1 _, deriv_2 S Ein S1 S2 _ _ (lin_vxTail S apod Nfft vm), rfl⟩
  rw [vortexCol_eq S hw apod Nfft vm hN4 true y0 x0 hB Ein S1 S2 weight VtoH inf X (by simpa using hX), hX2]
  simp

/-- C81 (DM1).  The DM1 column is the weight times the derivative of the same model, but with the camera transform of a system whose Lyot plane is
sampled like the DM plane (`P4.dx` replaced by `P2.dx`). -/
theorem C81_dm1 (S : Sys N N4 Neta Nxi Meta Mxi) (hw : S.flagDMwfe = false) (apod : Option (Pl N3)) (Nfft : ℕ) [NeZero Nfft] (vm : Pl Nfft)
    (hN4 : N4 ≤ Nfft) (y0 x0 : ℤ) (hB : BoxOk S B y0 x0) (Ein : Pl N) (S1 S2 : ZMod N → ZMod N → ℝ) (weight VtoH : ℝ)
    (inf : ZMod B → ZMod B → ℝ) :
    ∃ (G D : Fin Meta → Fin Mxi → ℂ) (E : ℝ → Fin Meta → Fin Mxi → ℂ),
      vortexCol S apod Nfft vm Ein false S1 S2 false weight VtoH B y0 x0 inf = .ok G ∧
      (∀ t : ℝ, fftVortexModel { S with dx4 := S.dx } apod Nfft vm Ein (fun i j => S1 i j + t * (VtoH * embedBox B y0 x0 inf i j)) S2 = .ok (E t)) ∧
      HasDerivAt E D 0 ∧ G = fun e x => D e x * weight := by
  obtain ⟨X, hX, hX2⟩ := dm1Box_ok S y0 x0 hB Ein S1 S2 VtoH inf
  refine ⟨_, _, _, ?_, fun t => fftVortexModel_eq { S with dx4 := S.dx } hw apod Nfft vm Ein _ S2,
    deriv_1 { S with dx4 := S.dx } Ein S1 S2 _ _ (lin_vxTail { S with dx4 := S.dx } apod Nfft vm), rfl⟩
  rw [vortexCol_eq S hw apod Nfft vm hN4 false y0 x0 hB Ein S1 S2 weight VtoH inf X (by simpa using hX), hX2]
  rfl

/-- C81 (DM1), systems whose Lyot plane is sampled like the DM plane: the derivative of the model itself. -/
theorem C81_dm1_same_sampling (S : Sys N N4 Neta Nxi Meta Mxi) (hw : S.flagDMwfe = false) (hdx : S.dx4 = S.dx) (apod : Option (Pl N3)) (Nfft : ℕ)
    [NeZero Nfft] (vm : Pl Nfft) (hN4 : N4 ≤ Nfft) (y0 x0 : ℤ) (hB : BoxOk S B y0 x0) (Ein : Pl N) (S1 S2 : ZMod N → ZMod N → ℝ)
    (weight VtoH : ℝ) (inf : ZMod B → ZMod B → ℝ) :
    ∃ (G D : Fin Meta → Fin Mxi → ℂ) (E : ℝ → Fin Meta → Fin Mxi → ℂ),
      vortexCol S apod Nfft vm Ein false S1 S2 false weight VtoH B y0 x0 inf = .ok G ∧
      (∀ t : ℝ, fftVortexModel S apod Nfft vm Ein (fun i j => S1 i j + t * (VtoH * embedBox B y0 x0 inf i j)) S2 = .ok (E t)) ∧
      HasDerivAt E D 0 ∧ G = fun e x => D e x * weight := by
  have h := C81_dm1 S hw apod Nfft vm hN4 y0 x0 hB Ein S1 S2 weight VtoH inf
  have e : ({ S with dx4 := S.dx } : Sys N N4 Neta Nxi Meta Mxi) = S := by cases S; simp_all
  rw [e] at h
  exact h

/-- On a one-pixel on-axis camera the sampling only enters through the scale factor. -/
theorem p4toEnd_onaxis (S : Sys N N4 Neta Nxi 1 1) (hc : S.centering = .pixel) (h0 : S.dx4 ≠ 0) (E : Pl N4) (dx' : ℝ) (e x : Fin 1) :
    p4toEnd { S with dx4 := dx' } E e x = (|dx'| / |S.dx4| : ℝ) * p4toEnd S E e x := by
  have hz : ∀ (d : ℝ) (i : Fin 1), ax 1 d Util.Centering.pixel i = 0 := by
    intro d i
    rw [ax_eq]
    simp
  have hs : ∀ d : ℝ, Real.sqrt (d * d * S.dxi * S.deta) = |d| * Real.sqrt (S.dxi * S.deta) := by
    intro d
    rw [mul_assoc, Real.sqrt_mul (mul_self_nonneg d), Real.sqrt_mul_self_eq_abs]
  unfold p4toEnd mftP2f
  dsimp only [Sys.rel]
  simp only [hc, hz, hs, ofReal_zero, zero_mul, mul_zero, exp_zero, one_mul, mul_one]
  have h1 : ((|S.dx4| : ℝ) : ℂ) ≠ 0 := by
    have := abs_ne_zero.2 h0
    exact_mod_cast this
  push_cast
  field_simp

/-- C81 fails for DM1 whenever the Lyot plane is not sampled like the DM plane: on a one-pixel on-axis camera the column is off by exactly
the factor `P2.dx / P4.dx`, for every such system and actuator. -/
theorem C81_dm1_sampling_violated (S : Sys N N4 Neta Nxi 1 1) (hw : S.flagDMwfe = false) (hc : S.centering = .pixel) (h0 : 0 < S.dx4)
    (hdx : 0 < S.dx) (hne : S.dx4 ≠ S.dx) (apod : Option (Pl N3)) (Nfft : ℕ) [NeZero Nfft] (vm : Pl Nfft) (hN4 : N4 ≤ Nfft) (y0 x0 : ℤ)
    (hB : BoxOk S B y0 x0) (Ein : Pl N) (S1 S2 : ZMod N → ZMod N → ℝ) (weight VtoH : ℝ) (inf : ZMod B → ZMod B → ℝ) :
    ∃ (G D : Fin 1 → Fin 1 → ℂ) (E : ℝ → Fin 1 → Fin 1 → ℂ),
      vortexCol S apod Nfft vm Ein false S1 S2 false weight VtoH B y0 x0 inf = .ok G ∧
      (∀ t : ℝ, fftVortexModel S apod Nfft vm Ein (fun i j => S1 i j + t * (VtoH * embedBox B y0 x0 inf i j)) S2 = .ok (E t)) ∧
      HasDerivAt E D 0 ∧ (∀ e x, G e x = (S.dx / S.dx4 : ℝ) * (D e x * weight)) ∧ (∀ e x, D e x * weight ≠ 0 → G e x ≠ D e x * weight) := by
  obtain ⟨X, hX, hX2⟩ := dm1Box_ok S y0 x0 hB Ein S1 S2 VtoH inf
  have hG : ∀ e x, vxTail { S with dx4 := S.dx } apod Nfft vm (dP2_1 S Ein S1 S2 (fun i j => VtoH * embedBox B y0 x0 inf i j)) e x =
      (S.dx / S.dx4 : ℝ) * vxTail S apod Nfft vm (dP2_1 S Ein S1 S2 (fun i j => VtoH * embedBox B y0 x0 inf i j)) e x := by
    intro e x
    have h := p4toEnd_onaxis S hc h0.ne' (padF N4 (relay (vortexFft Nfft vm (relay (fun i j => apodReimaged S apod i j *
      dP2_1 S Ein S1 S2 (fun i j => VtoH * embedBox B y0 x0 inf i j) i j) (S.rel S.n23) S.centering)) (S.rel S.n34 - 1) S.centering)) S.dx e x
    rw [abs_of_pos h0, abs_of_pos hdx] at h
    exact h
  refine ⟨fun e x => vxTail { S with dx4 := S.dx } apod Nfft vm (dP2_1 S Ein S1 S2 (fun i j => VtoH * embedBox B y0 x0 inf i j)) e x * weight,
    _, _, ?_, fun t => fftVortexModel_eq S hw apod Nfft vm Ein _ S2, deriv_1 S Ein S1 S2 _ _ (lin_vxTail S apod Nfft vm), ?_, ?_⟩
  · rw [vortexCol_eq S hw apod Nfft vm hN4 false y0 x0 hB Ein S1 S2 weight VtoH inf X (by simpa using hX), hX2]
    rfl
  · intro e x; beta_reduce; rw [hG, mul_assoc]
  · intro e x hD heq
    beta_reduce at heq; rw [hG, mul_assoc] at heq
    have h1 : ((S.dx / S.dx4 : ℝ) : ℂ) = 1 := mul_right_cancel₀ hD (heq.trans (one_mul _).symm)
    have h2 : S.dx / S.dx4 = 1 := by exact_mod_cast h1
    exact hne ((div_eq_one_iff_eq h0.ne').1 h2).symm

/-- `demoSys` meets the hypotheses with a 4 × 4 FFT, a 3 × 3 apodizer and a one-pixel box -/
example : demoSys.flagDMwfe = false ∧ demoSys.dx4 = demoSys.dx ∧ 2 ≤ 4 ∧ BoxOk demoSys 1 1 0 :=
  ⟨rfl, rfl, by decide, Or.inr ⟨rfl, rfl, by decide, by decide, by decide, by decide⟩⟩
/-- and with a Lyot plane sampled twice as coarsely and pixel centering, those of the violation -/
example : ({ demoSys with dx4 := 2, centering := .pixel } : Sys 2 2 1 1 1 1).dx4 ≠ demoSys.dx := by
  change (2:ℝ) ≠ 1; norm_num

end Verif.Compact
