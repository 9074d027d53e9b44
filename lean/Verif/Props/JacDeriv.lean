import Verif.Props.Compact
import Verif.Lemmas.Adjoint
import Verif.Model.Apod

/-!
# The Jacobian columns are derivatives of the compact model, with apodizer (C32) and for the vortex (C81)
-/

set_option linter.unusedSectionVars false

namespace Verif.Compact
open Verif Complex Verif.Optics

variable {N N4 Neta Nxi Meta Mxi N3 : ℕ} [NeZero N] [NeZero N4] [NeZero N3] {B : ℕ} [NeZero B]

/-! ## both DMs and back to P2 -/

/-- field back at P2 -/
noncomputable def p2f (S : Sys N N4 Neta Nxi Meta Mxi) (Ein : Pl N) (S1 S2 : ZMod N → ZMod N → ℝ) : Pl N :=
  ptpCore (fun i j => dm2pre S Ein S1 i j * exp (I * S.kk * S2 i j)) (S.dx * N) S.wvl (-(S.dP2dm1 + S.d12))

theorem toP2_eq (S : Sys N N4 Neta Nxi Meta Mxi) (hw : S.flagDMwfe = false) (Ein : Pl N) (S1 S2 : ZMod N → ZMod N → ℝ) :
    toP2 S Ein S1 S2 = .ok (p2f S Ein S1 S2) := by
  unfold toP2
  simp only [hw, Bool.false_eq_true, if_false, toDm1_eq, ptp_eq_core, bind, Except.bind, pure, Except.pure]
  rfl

/-- first-order change of the field at P2 for a change `h` of the DM1 surface -/
noncomputable def dP2_1 (S : Sys N N4 Neta Nxi Meta Mxi) (Ein : Pl N) (S1 S2 h : ZMod N → ZMod N → ℝ) : Pl N :=
  ptpCore (fun i j => S.stop2 i j * ptpCore (fun i j => dm1pre S Ein i j * exp (I * S.kk * S1 i j) * (I * S.kk * (h i j : ℂ)))
    (S.dx * N) S.wvl S.d12 i j * exp (I * S.kk * S2 i j)) (S.dx * N) S.wvl (-(S.dP2dm1 + S.d12))

/-- the same for DM2 -/
noncomputable def dP2_2 (S : Sys N N4 Neta Nxi Meta Mxi) (Ein : Pl N) (S1 S2 h : ZMod N → ZMod N → ℝ) : Pl N :=
  ptpCore (fun i j => dm2pre S Ein S1 i j * exp (I * S.kk * S2 i j) * (I * S.kk * (h i j : ℂ))) (S.dx * N) S.wvl (-(S.dP2dm1 + S.d12))

theorem deriv_1 (S : Sys N N4 Neta Nxi Meta Mxi) (Ein : Pl N) (S1 S2 h : ZMod N → ZMod N → ℝ) (T : Pl N → Fin Meta → Fin Mxi → ℂ)
    (hT : IsLinearMap ℂ T) :
    HasDerivAt (fun t : ℝ => T (p2f S Ein (fun i j => S1 i j + t * h i j) S2)) (T (dP2_1 S Ein S1 S2 h)) 0 := by
  have hL : IsLinearMap ℂ (fun E : Pl N => T (ptpCore (fun i j => S.stop2 i j * ptpCore E (S.dx * N) S.wvl S.d12 i j * exp (I * S.kk * S2 i j))
      (S.dx * N) S.wvl (-(S.dP2dm1 + S.d12)))) := by
    have h := IsLinearMap.comp' (lin_mul fun i j => S.stop2 i j * exp (I * S.kk * S2 i j)) (lin_ptpCore (N := N) (S.dx * N) S.wvl S.d12)
    have e : (fun x : Pl N => fun i j => S.stop2 i j * exp (I * S.kk * S2 i j) * ptpCore x (S.dx * N) S.wvl S.d12 i j) =
        fun x : Pl N => fun i j => S.stop2 i j * ptpCore x (S.dx * N) S.wvl S.d12 i j * exp (I * S.kk * S2 i j) := by
      funext x i j; ring
    rw [e] at h
    have h2 := IsLinearMap.comp' (lin_ptpCore (N := N) (S.dx * N) S.wvl (-(S.dP2dm1 + S.d12))) h
    exact IsLinearMap.comp' hT h2
  exact hasDerivAt_lin_phase _ hL (dm1pre S Ein) S.kk S1 h

theorem deriv_2 (S : Sys N N4 Neta Nxi Meta Mxi) (Ein : Pl N) (S1 S2 h : ZMod N → ZMod N → ℝ) (T : Pl N → Fin Meta → Fin Mxi → ℂ)
    (hT : IsLinearMap ℂ T) :
    HasDerivAt (fun t : ℝ => T (p2f S Ein S1 (fun i j => S2 i j + t * h i j))) (T (dP2_2 S Ein S1 S2 h)) 0 :=
  hasDerivAt_lin_phase _ (IsLinearMap.comp' hT (lin_ptpCore _ _ _)) (dm2pre S Ein S1) S.kk S2 h

/-! ## the boxes -/

/-- The influence box is either the whole DM array, or any box inside the array with both DMs conjugate to the pupil. -/
def BoxOk (S : Sys N N4 Neta Nxi Meta Mxi) (B : ℕ) (y0 x0 : ℤ) : Prop :=
  (B = N ∧ y0 = 0 ∧ x0 = 0) ∨ (S.d12 = 0 ∧ S.dP2dm1 = 0 ∧ 0 ≤ y0 ∧ y0 + B ≤ N ∧ 0 ≤ x0 ∧ x0 + B ≤ N)

theorem BoxOk.inside {S : Sys N N4 Neta Nxi Meta Mxi} {y0 x0 : ℤ} (h : BoxOk S B y0 x0) :
    0 ≤ y0 ∧ y0 + B ≤ N ∧ 0 ≤ x0 ∧ x0 + B ≤ N := by
  rcases h with ⟨rfl, rfl, rfl⟩ | ⟨-, -, h⟩
  · simp
  · exact h

theorem dm1Box_ok (S : Sys N N4 Neta Nxi Meta Mxi) (y0 x0 : ℤ) (hB : BoxOk S B y0 x0)
    (Ein : Pl N) (S1 S2 : ZMod N → ZMod N → ℝ) (VtoH : ℝ) (inf : ZMod B → ZMod B → ℝ) :
    ∃ X, dm1Box S Ein S1 S2 VtoH B y0 x0 inf = .ok X ∧
      (embedBox B y0 x0 X : Pl N) = dP2_1 S Ein S1 S2 (fun i j => VtoH * embedBox B y0 x0 inf i j) := by
  unfold dm1Box
  simp only [toDm1_eq, ptp_eq_core, bind, Except.bind]
  refine ⟨_, rfl, ?_⟩
  change _ = ptpCore _ _ _ _
  rcases hB with ⟨rfl, rfl, rfl⟩ | ⟨h1, h2, hy0, hy1, hx0, hx1⟩
  · rw [embed_wholeC, embed_whole, extract_whole, extract_whole, extract_whole]
    have e1 : -1 * (S.d12 + S.dP2dm1) = -(S.dP2dm1 + S.d12) := by ring
    rw [e1]
    congr 1
    funext i j
    have e2 : (fun i j => (2 * 2 * Real.pi * I / S.wvl : ℂ) * (VtoH * inf i j) * (dm1pre S Ein i j * exp (I * S.kk * S1 i j))) =
        fun i j => dm1pre S Ein i j * exp (I * S.kk * S1 i j) * (I * S.kk * ((VtoH * inf i j : ℝ) : ℂ)) := by
      funext i j; rw [kk_eq]; push_cast; ring
    rw [e2]; ring
  · have z1 : -1 * (S.d12 + S.dP2dm1) = 0 := by rw [h1, h2]; ring
    have z2 : -(S.dP2dm1 + S.d12) = 0 := by rw [h1, h2]; ring
    rw [z1, z2, h1]
    simp only [ptpCore_zero]
    have e : (fun i j => (2 * 2 * Real.pi * I / S.wvl : ℂ) * (VtoH * inf i j) * extractBox B y0 x0 (fun i j => dm1pre S Ein i j * exp (I * S.kk * S1 i j)) i j *
          extractBox B y0 x0 S.stop2 i j * exp (I * S.kk * extractBox B y0 x0 S2 i j)) =
        fun i j => ((2 * 2 * Real.pi * I / S.wvl : ℂ) * VtoH) * (fun a b => ((inf a b : ℝ) : ℂ)) i j *
          extractBox B y0 x0 (fun i j => dm1pre S Ein i j * exp (I * S.kk * S1 i j) * S.stop2 i j * exp (I * S.kk * S2 i j)) i j := by
      funext i j; unfold extractBox; ring
    rw [e, embed_mul_extract y0 x0 hy0 hy1 hx0 hx1 (fun i j => ((2 * 2 * Real.pi * I / S.wvl : ℂ) * VtoH) * (fun a b => ((inf a b : ℝ) : ℂ)) i j), embed_cmul]
    funext i j
    beta_reduce
    rw [kk_eq, ← ofReal_embed]
    push_cast; ring

theorem dm2Box_ok (S : Sys N N4 Neta Nxi Meta Mxi) (y0 x0 : ℤ) (hB : BoxOk S B y0 x0)
    (Ein : Pl N) (S1 S2 : ZMod N → ZMod N → ℝ) (VtoH : ℝ) (inf : ZMod B → ZMod B → ℝ) :
    ∃ X, dm2Box S Ein S1 S2 VtoH B y0 x0 inf = .ok X ∧
      (embedBox B y0 x0 X : Pl N) = dP2_2 S Ein S1 S2 (fun i j => VtoH * embedBox B y0 x0 inf i j) := by
  unfold dm2Box
  simp only [toDm1_eq, ptp_eq_core, bind, Except.bind]
  refine ⟨_, rfl, ?_⟩
  change _ = ptpCore _ _ _ _
  have hd : (fun i j => S.stop2 i j * ptpCore (fun i j => dm1pre S Ein i j * exp (I * S.kk * S1 i j)) (S.dx * N) S.wvl S.d12 i j *
      exp (I * S.kk * S2 i j)) = fun i j => dm2pre S Ein S1 i j * exp (I * S.kk * S2 i j) := rfl
  rw [hd]
  rcases hB with ⟨rfl, rfl, rfl⟩ | ⟨h1, h2, hy0, hy1, hx0, hx1⟩
  · rw [embed_wholeC, embed_whole, extract_whole]
    have e1 : -1 * (S.d12 + S.dP2dm1) = -(S.dP2dm1 + S.d12) := by ring
    rw [e1]
    congr 1
    funext i j
    rw [kk_eq]; push_cast; ring
  · have z1 : -1 * (S.d12 + S.dP2dm1) = 0 := by rw [h1, h2]; ring
    have z2 : -(S.dP2dm1 + S.d12) = 0 := by rw [h1, h2]; ring
    rw [z1, z2]
    simp only [ptpCore_zero]
    have e : (fun i j => (VtoH * (2 * 2 * Real.pi * I / S.wvl) : ℂ) * inf i j *
          extractBox B y0 x0 (fun i j => dm2pre S Ein S1 i j * exp (I * S.kk * S2 i j)) i j) =
        fun i j => (VtoH * (2 * 2 * Real.pi * I / S.wvl) : ℂ) * (fun a b => ((inf a b : ℝ) : ℂ)) i j *
          extractBox B y0 x0 (fun i j => dm2pre S Ein S1 i j * exp (I * S.kk * S2 i j)) i j := rfl
    rw [e, embed_mul_extract y0 x0 hy0 hy1 hx0 hx1 (fun i j => (VtoH * (2 * 2 * Real.pi * I / S.wvl) : ℂ) * (fun a b => ((inf a b : ℝ) : ℂ)) i j), embed_cmul]
    funext i j
    beta_reduce
    rw [kk_eq, ← ofReal_embed]
    push_cast; ring

/-! ## the apodizer -/

theorem relay_mul {n : ℕ} [NeZero n] (k : ℤ) (c : Util.Centering) (X Y : Pl n) :
    relay (fun i j => X i j * Y i j) k c = fun i j => relay X k c i j * relay Y k c i j := by
  by_cases h : k % 2 = 1
  · simp only [relay_odd _ _ h]
  · simp only [relay_even _ _ h]

theorem relay_relay {n : ℕ} [NeZero n] (k : ℤ) (c : Util.Centering) (X : Pl n) : relay (relay X k c) k c = X := by
  by_cases h : k % 2 = 1
  · simp only [relay_odd _ _ h, mirror_mirror]
  · simp only [relay_even _ _ h]

/-- masking on one array size or on the other is the same once the result is padded or cropped to a third size -/
theorem padF_apod {n m p : ℕ} [NeZero n] [NeZero m] [NeZero p] (A : Pl m) (E : Pl n) :
    padF p (fun i j => A i j * padF m E i j : Pl m) = padF p (fun i j => padF n A i j * E i j : Pl n) := by
  have ev : ∀ {q : ℕ} [NeZero q] (k : ℤ), 0 ≤ k → k < q → (((k : ℤ) : ZMod q).val : ℤ) = k := by
    intro q _ k h0 h1
    rw [ZMod.val_intCast]; exact Int.emod_eq_of_lt h0 h1
  funext i j
  unfold padF
  dsimp only
  generalize hu : (i.val : ℤ) - ((p / 2 : ℕ) : ℤ) = u
  generalize hv : (j.val : ℤ) - ((p / 2 : ℕ) : ℤ) = v
  generalize hm2 : ((m / 2 : ℕ) : ℤ) = m2
  generalize hn2 : ((n / 2 : ℕ) : ℤ) = n2
  by_cases hm : (0 ≤ m2 + u ∧ m2 + u < m) ∧ (0 ≤ m2 + v ∧ m2 + v < m)
  · rw [if_pos hm]
    have e1 := ev (q := m) (m2 + u) hm.1.1 hm.1.2
    have e2 := ev (q := m) (m2 + v) hm.2.1 hm.2.2
    rw [e1, e2]
    have e3 : n2 + (m2 + u - m2) = n2 + u := by ring
    have e4 : n2 + (m2 + v - m2) = n2 + v := by ring
    rw [e3, e4]
    by_cases hn : (0 ≤ n2 + u ∧ n2 + u < n) ∧ (0 ≤ n2 + v ∧ n2 + v < n)
    · rw [if_pos hn, if_pos hn]
      have e1 := ev (q := n) (n2 + u) hn.1.1 hn.1.2
      have e2 := ev (q := n) (n2 + v) hn.2.1 hn.2.2
      rw [e1, e2]
      have e3 : m2 + (n2 + u - n2) = m2 + u := by ring
      have e4 : m2 + (n2 + v - n2) = m2 + v := by ring
      rw [e3, e4, if_pos hm]
    · rw [if_neg hn, if_neg hn, mul_zero]
  · rw [if_neg hm]
    by_cases hn : (0 ≤ n2 + u ∧ n2 + u < n) ∧ (0 ≤ n2 + v ∧ n2 + v < n)
    · rw [if_pos hn]
      have e1 := ev (q := n) (n2 + u) hn.1.1 hn.1.2
      have e2 := ev (q := n) (n2 + v) hn.2.1 hn.2.2
      rw [e1, e2]
      have e3 : m2 + (n2 + u - n2) = m2 + u := by ring
      have e4 : m2 + (n2 + v - n2) = m2 + v := by ring
      rw [e3, e4, if_neg hm, zero_mul]
    · rw [if_neg hn]

theorem padF_self {n : ℕ} [NeZero n] (E : Pl n) : padF n E = E := by
  funext i j
  unfold padF
  have hi := ZMod.val_lt i
  have hj := ZMod.val_lt j
  dsimp only
  rw [if_pos (by omega)]
  simp

/-- the apodized field on the DM array: the re-imaged apodizer acts at P2 -/
theorem relay_apod (S : Sys N N4 Neta Nxi Meta Mxi) (m : Pl N3) (E : Pl N) :
    relay (fun i j => apodReimaged S (some m) i j * E i j) (S.rel S.n23) S.centering =
      fun i j => padF N m i j * relay E (S.rel S.n23) S.centering i j := by
  rw [relay_mul]
  unfold apodReimaged
  dsimp only
  rw [relay_relay]

/-! ## FFT vortex -/

theorem lin_fftshift {n : ℕ} : IsLinearMap ℂ (fun E : Pl n => fftshift E) := ⟨fun _ _ => rfl, fun _ _ => rfl⟩
theorem lin_fft2 {n : ℕ} [NeZero n] : IsLinearMap ℂ (fun E : Pl n => fft2 E) := ⟨fun E F => fft2_add E F, fun c E => fft2_smul c E⟩

theorem lin_vortexFft {M : ℕ} [NeZero M] (Nfft : ℕ) [NeZero Nfft] (vm : Pl Nfft) :
    IsLinearMap ℂ (fun E : Pl M => vortexFft Nfft vm E) := by
  have h := IsLinearMap.comp' (lin_mul fun _ _ => ((Nfft : ℂ))⁻¹) (IsLinearMap.comp' lin_fftshift (IsLinearMap.comp' lin_fft2
    (IsLinearMap.comp' (lin_mul fun k l => fftshift vm k l / (Nfft : ℂ)) (IsLinearMap.comp' lin_fft2 (IsLinearMap.comp' lin_fftshift
      (lin_padF (N := M) Nfft))))))
  have e : (fun E : Pl M => vortexFft Nfft vm E) = fun E : Pl M => fun i j => ((Nfft : ℂ))⁻¹ * fftshift (fft2 fun k l => fftshift vm k l / (Nfft : ℂ) *
      fft2 (fftshift (padF Nfft E)) k l) i j := by
    funext E i j
    unfold vortexFft
    have e2 : (fun k l => fftshift vm k l * fft2 (fftshift (padF Nfft E)) k l / (Nfft : ℂ)) =
        fun k l => fftshift vm k l / (Nfft : ℂ) * fft2 (fftshift (padF Nfft E)) k l := by
      funext k l; ring
    simp only [e2]
    rw [div_eq_inv_mul]
  rw [e]; exact h

theorem vortexFft_apod (Nfft : ℕ) [NeZero Nfft] (vm : Pl Nfft) (m : Pl N3) (E : Pl N) :
    vortexFft Nfft vm (fun i j => m i j * padF N3 E i j : Pl N3) = vortexFft Nfft vm (fun i j => padF N m i j * E i j : Pl N) := by
  unfold vortexFft
  rw [padF_apod]

/-! ## P3 to P4 with a smaller array -/

theorem padF_padF {n m p : ℕ} [NeZero n] [NeZero m] [NeZero p] (hmn : m ≤ n) (X : Pl m) :
    padF p (padF n X) = (padF p X : Pl p) := by
  have h := padF_apod (p := p) X (fun _ _ => 1 : Pl n)
  have e1 : (fun i j => X i j * padF m (fun _ _ => 1 : Pl n) i j : Pl m) = X := by
    funext i j
    have hi := ZMod.val_lt i
    have hj := ZMod.val_lt j
    unfold padF
    dsimp only
    rw [if_pos (by omega), mul_one]
  rw [e1] at h
  rw [h]
  congr 1
  funext i j; rw [mul_one]

theorem padF_eq_embed {n m : ℕ} [NeZero n] [NeZero m] (hn : Even n) (hm : Even m) (hmn : m ≤ n) (X : Pl m) :
    (padF n X : Pl n) = embedBox m (((n - m) / 2 : ℕ) : ℤ) (((n - m) / 2 : ℕ) : ℤ) X := by
  have hn2 := Nat.even_iff.1 hn
  have hm2 := Nat.even_iff.1 hm
  funext i j
  unfold padF embedBox
  dsimp only
  have e : ∀ k : ℤ, ((m / 2 : ℕ) : ℤ) + (k - ((n / 2 : ℕ) : ℤ)) = k - (((n - m) / 2 : ℕ) : ℤ) := by intro k; omega
  rw [e, e]
  by_cases h : (0 ≤ (i.val : ℤ) - (((n - m) / 2 : ℕ) : ℤ) ∧ (i.val : ℤ) - (((n - m) / 2 : ℕ) : ℤ) < m) ∧
      (0 ≤ (j.val : ℤ) - (((n - m) / 2 : ℕ) : ℤ) ∧ (j.val : ℤ) - (((n - m) / 2 : ℕ) : ℤ) < m)
  · rw [if_pos h, if_pos (by omega)]
  · rw [if_neg h, if_neg (by omega)]

/-- zero padding does not change a matrix Fourier transform (even sizes) -/
theorem mft_padF {n m : ℕ} [NeZero n] [NeZero m] (hn : Even n) (hm : Even m) (hmn : m ≤ n) (X : Pl m)
    (fl wvl dx dxi : ℝ) (Nxi : ℕ) (deta : ℝ) (Neta : ℕ) (c : Util.Centering) :
    mftP2f (toFin (padF n X : Pl n)) fl wvl dx dxi Nxi deta Neta c = mftP2f (toFin X) fl wvl dx dxi Nxi deta Neta c := by
  have hn2 := Nat.even_iff.1 hn
  have hm2 := Nat.even_iff.1 hm
  funext e x
  rw [mftP2f_zmod, mftP2f_zmod, padF_eq_embed hn hm hmn,
    sum_embed _ _ (by omega) (by omega) (by omega) (by omega)]
  have hax : ∀ a : ZMod m, axZ n dx c ((((((n - m) / 2 : ℕ) : ℤ) + (a.val : ℤ)) : ℤ) : ZMod n) = axZ m dx c a := by
    intro a
    have ha := ZMod.val_lt a
    have hv : ((((((n - m) / 2 : ℕ) : ℤ) + (a.val : ℤ)) : ℤ) : ZMod n).val = (n - m) / 2 + a.val := by
      have : ((((n - m) / 2 : ℕ) : ℤ) + (a.val : ℤ)) = (((n - m) / 2 + a.val : ℕ) : ℤ) := by push_cast; rfl
      rw [this, Int.cast_natCast, ZMod.val_natCast, Nat.mod_eq_of_lt (by omega)]
    unfold axZ
    rw [ax_eq, ax_eq]
    simp only [hv]
    have h1 : (((n - m) / 2 : ℕ) : ℝ) = ((n / 2 : ℕ) : ℝ) - ((m / 2 : ℕ) : ℝ) := by
      have : (n - m) / 2 + m / 2 = n / 2 := by omega
      rw [← this]; push_cast; ring
    push_cast at h1 ⊢
    rw [h1, hn2, hm2]
    ring
  simp only [hax]

/-- P3 to P4 does not depend on the zero padding at P3. -/
theorem p3to4_padF (S : Sys N N4 Neta Nxi Meta Mxi) (hcoro : ∀ D NB vm tk, S.coro ≠ .vortex D NB vm tk) {n m : ℕ} [NeZero n] [NeZero m]
    (hn : Even n) (hm : Even m) (hmn : m ≤ n) (X : Pl m)
    (hX : S.rel S.n34 % 2 = 1 → S.centering = .interpixel ∨ ∀ i j : ZMod m, (i = 0 ∨ j = 0) → X i j = 0) :
    p3to4 S (padF n X : Pl n) = p3to4 S X := by
  unfold p3to4
  cases hcr : S.coro with
  | babinet mask t =>
    dsimp only
    rw [mft_padF hn hm hmn, ← padF_relay hn hm hmn _ _ _ hX, padF_padF hmn]
  | flc mask => dsimp only; rw [mft_padF hn hm hmn]
  | vortex D NB vm tk => exact absurd hcr (hcoro D NB vm tk)

/-! ## C32 -/

/-- What is asked of the apodizer array: even size, not larger than the DM array; and, when an odd number of relays from P3 to P4 turns
pixel-centred arrays, no light in its first row and column unless it has the size of the DM array. -/
def ApodOk (S : Sys N N4 Neta Nxi Meta Mxi) (apod : Option (Pl N3)) : Prop :=
  ∀ m, apod = some m → Even N3 ∧ N3 ≤ N ∧
    (S.rel S.n34 % 2 = 1 → S.centering = .interpixel ∨ N3 = N ∨ ∀ i j : ZMod N3, (i = 0 ∨ j = 0) → m i j = 0)

/-- With pixel-centred arrays and an odd number of relays from P2 to P3, the box must keep off the first row and column of the DM array, or an
apodizer smaller than the DM array must block them. -/
def EdgeOk (S : Sys N N4 Neta Nxi Meta Mxi) (apod : Option (Pl N3)) (y0 x0 : ℤ) : Prop :=
  S.rel S.n23 % 2 = 1 → S.centering = .interpixel ∨ (1 ≤ y0 ∧ 1 ≤ x0) ∨ (∃ m, apod = some m ∧ N3 < N)

theorem p2toEnd_eq (S : Sys N N4 Neta Nxi Meta Mxi) (hcoro : ∀ D NB vm tk, S.coro ≠ .vortex D NB vm tk) (hN : Even N)
    (apod : Option (Pl N3)) (ha : ApodOk S apod) (Y : Pl N) :
    p2toEnd S apod Y = p4toEnd S (p3to4 S (relay (fun i j => apodReimaged S apod i j * Y i j) (S.rel S.n23) S.centering)) := by
  cases apod with
  | none =>
    unfold p2toEnd apodReimaged
    simp only [one_mul]
  | some m =>
    obtain ⟨h3, h3N, hedge⟩ := ha m rfl
    rw [relay_apod]
    unfold p2toEnd
    dsimp only
    set E := relay Y (S.rel S.n23) S.centering with hE
    have hpad : (padF N (fun i j => m i j * padF N3 E i j : Pl N3) : Pl N) = fun i j => padF N m i j * E i j := by
      rw [padF_apod, padF_self]
    rw [← hpad]
    congr 1
    by_cases hlt : N3 = N
    · subst hlt
      simp only [padF_self]
    · symm
      refine p3to4_padF S hcoro hN h3 h3N _ fun ho => ?_
      rcases hedge ho with h | h | h
      · exact Or.inl h
      · exact absurd h hlt
      · right; intro i j hij; rw [h i j hij, zero_mul]

theorem lin_p2toEnd (S : Sys N N4 Neta Nxi Meta Mxi) (apod : Option (Pl N3)) : IsLinearMap ℂ (p2toEnd S apod) := by
  unfold p2toEnd
  cases apod with
  | none => exact IsLinearMap.comp' (lin_p4toEnd S) (IsLinearMap.comp' (lin_p3to4 S) (lin_relay _ _))
  | some m =>
    have h := IsLinearMap.comp' (lin_p4toEnd S) (IsLinearMap.comp' (lin_p3to4 S) (IsLinearMap.comp' (lin_mul m)
      (IsLinearMap.comp' (lin_padF (N := N) N3) (lin_relay (N := N) (S.rel S.n23) S.centering))))
    exact h

theorem embed_extract_mul (y0 x0 : ℤ) (hy0 : 0 ≤ y0) (hy1 : y0 + B ≤ N) (hx0 : 0 ≤ x0) (hx1 : x0 + B ≤ N) (X : Pl B) (E : Pl N) :
    (embedBox B y0 x0 (fun i j => extractBox B y0 x0 E i j * X i j) : Pl N) = fun i j => E i j * embedBox B y0 x0 X i j := by
  have h := embed_mul_extract y0 x0 hy0 hy1 hx0 hx1 X E
  simp only [mul_comm] at h ⊢
  exact h

theorem apod_edge (S : Sys N N4 Neta Nxi Meta Mxi) (hN : Even N) (m : Pl N3) (h3 : Even N3) (hlt : N3 < N) (hc : S.centering = .pixel)
    (ho : S.rel S.n23 % 2 = 1) (i j : ZMod N) (hij : i = 0 ∨ j = 0) : apodReimaged S (some m) i j = 0 := by
  unfold apodReimaged
  dsimp only
  rw [relay_odd _ _ ho, hc]
  have hN2 := Nat.even_iff.1 hN
  have h32 := Nat.even_iff.1 h3
  beta_reduce
  unfold padF mirror
  dsimp only
  simp only [if_true]
  rw [if_neg]
  rcases hij with rfl | rfl
  · simp only [neg_zero, ZMod.val_zero]; omega
  · simp only [neg_zero, ZMod.val_zero]; omega

theorem boxToEnd_apod (S : Sys N N4 Neta Nxi Meta Mxi) (hN : Even N) (hcoro : ∀ D NB vm tk, S.coro ≠ .vortex D NB vm tk)
    (apod : Option (Pl N3)) (ha : ApodOk S apod) (y0 x0 : ℤ) (hB : BoxOk S B y0 x0) (he : EdgeOk S apod y0 x0) (X : Pl B) :
    boxToEnd S B y0 x0 (fun i j => extractBox B y0 x0 (apodReimaged S apod) i j * X i j) = .ok (p2toEnd S apod (embedBox B y0 x0 X)) := by
  obtain ⟨hy0, hy1, hx0, hx1⟩ := hB.inside
  rw [boxToEnd_eq S hN hcoro y0 x0 hy0 hy1 hx0 hx1, embed_extract_mul y0 x0 hy0 hy1 hx0 hx1, p2toEnd_eq S hcoro hN apod ha]
  intro ho
  rcases he ho with h | h | ⟨m, rfl, hlt⟩
  · exact Or.inl h
  · exact Or.inr (noFirst_of_pos y0 x0 h.1 h.2 _)
  · cases hc : S.centering with
    | interpixel => exact Or.inl rfl
    | pixel =>
      right
      intro a b hab
      beta_reduce
      unfold extractBox
      rw [apod_edge S hN m (ha m rfl).1 hlt hc ho _ _ (hab.imp (fun h => by rw [h]; simp) (fun h => by rw [h]; simp)), zero_mul]

theorem compactApod_eq (S : Sys N N4 Neta Nxi Meta Mxi) (hw : S.flagDMwfe = false) (apod : Option (Pl N3)) (Ein : Pl N) (S1 S2 : ZMod N → ZMod N → ℝ) :
    compactApod S apod Ein S1 S2 = .ok (p2toEnd S apod (p2f S Ein S1 S2)) := by
  unfold compactApod
  rw [toP2_eq S hw]
  rfl

/-- Without an apodizer this is the compact model of `Verif.Model.Compact`. -/
theorem compactApod_none (S : Sys N N4 Neta Nxi Meta Mxi) (hw : S.flagDMwfe = false) (Ein : Pl N) (S1 S2 : ZMod N → ZMod N → ℝ) :
    ∃ f, compactGeneral S Ein S1 S2 = .ok f ∧ compactApod S (none : Option (Pl N3)) Ein S1 S2 = .ok f.Eout :=
  ⟨_, compactGeneral_eq S Ein S1 S2 hw, compactApod_eq S hw none Ein S1 S2⟩

/-- C32 (DM1).  The column of a live DM1 actuator is the control weight times the derivative of the compact model's final field with respect to
that actuator's voltage, for every input field, pair of DM surfaces, mask, stop, apodizer and wavelength; at any propagation distances if the
influence function is given on the whole DM array, and for every box inside the array when the DMs are conjugate to the pupil. -/
theorem C32_dm1 (S : Sys N N4 Neta Nxi Meta Mxi) (hw : S.flagDMwfe = false) (hN : Even N) (hcoro : ∀ D NB vm tk, S.coro ≠ .vortex D NB vm tk)
    (apod : Option (Pl N3)) (ha : ApodOk S apod) (y0 x0 : ℤ) (hB : BoxOk S B y0 x0) (he : EdgeOk S apod y0 x0)
    (Ein : Pl N) (S1 S2 : ZMod N → ZMod N → ℝ) (weight VtoH : ℝ) (inf : ZMod B → ZMod B → ℝ) :
    ∃ (G D : Fin Meta → Fin Mxi → ℂ) (E : ℝ → Fin Meta → Fin Mxi → ℂ),
      lyotCol S apod Ein false S1 S2 false weight VtoH B y0 x0 inf = .ok G ∧
      (∀ t : ℝ, compactApod S apod Ein (fun i j => S1 i j + t * (VtoH * embedBox B y0 x0 inf i j)) S2 = .ok (E t)) ∧
      HasDerivAt E D 0 ∧ G = fun e x => D e x * weight := by
  obtain ⟨X, hX, hX2⟩ := dm1Box_ok S y0 x0 hB Ein S1 S2 VtoH inf
  refine ⟨_, _, _, ?_, fun t => compactApod_eq S hw apod Ein _ S2, deriv_1 S Ein S1 S2 _ _ (lin_p2toEnd S apod), rfl⟩
  unfold lyotCol
  simp only [hw, Bool.false_eq_true, if_false, hX, bind, Except.bind, pure, Except.pure]
  rw [boxToEnd_apod S hN hcoro apod ha y0 x0 hB he X, hX2]

/-- C32 (DM2). -/
theorem C32_dm2 (S : Sys N N4 Neta Nxi Meta Mxi) (hw : S.flagDMwfe = false) (hN : Even N) (hcoro : ∀ D NB vm tk, S.coro ≠ .vortex D NB vm tk)
    (apod : Option (Pl N3)) (ha : ApodOk S apod) (y0 x0 : ℤ) (hB : BoxOk S B y0 x0) (he : EdgeOk S apod y0 x0)
    (Ein : Pl N) (S1 S2 : ZMod N → ZMod N → ℝ) (weight VtoH : ℝ) (inf : ZMod B → ZMod B → ℝ) :
    ∃ (G D : Fin Meta → Fin Mxi → ℂ) (E : ℝ → Fin Meta → Fin Mxi → ℂ),
      lyotCol S apod Ein true S1 S2 false weight VtoH B y0 x0 inf = .ok G ∧
      (∀ t : ℝ, compactApod S apod Ein S1 (fun i j => S2 i j + t * (VtoH * embedBox B y0 x0 inf i j)) = .ok (E t)) ∧
      HasDerivAt E D 0 ∧ G = fun e x => D e x * weight := by
  obtain ⟨X, hX, hX2⟩ := dm2Box_ok S y0 x0 hB Ein S1 S2 VtoH inf
  refine ⟨_, _, _, ?_, fun t => compactApod_eq S hw apod Ein S1 _, deriv_2 S Ein S1 S2 _ _ (lin_p2toEnd S apod), rfl⟩
  unfold lyotCol
  simp only [hw, Bool.false_eq_true, if_false, if_true, hX, bind, Except.bind, pure, Except.pure]
  rw [boxToEnd_apod S hN hcoro apod ha y0 x0 hB he X, hX2]

/-- C32: a dead actuator's column is zero, for every system, apodizer and box; also for a vortex coronagraph. -/
theorem C32_dead (S : Sys N N4 Neta Nxi Meta Mxi) (hw : S.flagDMwfe = false) (apod : Option (Pl N3)) (Ein : Pl N) (dm2 : Bool)
    (S1 S2 : ZMod N → ZMod N → ℝ) (weight VtoH : ℝ) (y0 x0 : ℤ) (inf : ZMod B → ZMod B → ℝ) (Nfft : ℕ) [NeZero Nfft] (vm : Pl Nfft) :
    lyotCol S apod Ein dm2 S1 S2 true weight VtoH B y0 x0 inf = .ok (fun _ _ => 0) ∧
    vortexCol S apod Nfft vm Ein dm2 S1 S2 true weight VtoH B y0 x0 inf = .ok (fun _ _ => 0) := by
  constructor
  · unfold lyotCol; simp [hw, bind, Except.bind, pure, Except.pure]
  · unfold vortexCol; simp [hw, bind, Except.bind, pure, Except.pure]

/-- C32 fails with DM surface-error maps switched on: neither the compact model nor the Jacobian ever returns, both raise `TypeError`. -/
theorem C32_dm_wfe_violated (S : Sys N N4 Neta Nxi Meta Mxi) (hw : S.flagDMwfe = true) (apod : Option (Pl N3)) (Ein : Pl N) (dm2 : Bool)
    (S1 S2 : ZMod N → ZMod N → ℝ) (dead : Bool) (weight VtoH : ℝ) (y0 x0 : ℤ) (inf : ZMod B → ZMod B → ℝ) (Nfft : ℕ) [NeZero Nfft] (vm : Pl Nfft) :
    compactApod S apod Ein S1 S2 = .error .typeError ∧
    lyotCol S apod Ein dm2 S1 S2 dead weight VtoH B y0 x0 inf = .error .typeError ∧
    vortexCol S apod Nfft vm Ein dm2 S1 S2 dead weight VtoH B y0 x0 inf = .error .typeError := by
  refine ⟨?_, ?_, ?_⟩
  · unfold compactApod toP2; simp [hw, bind, Except.bind, throw, throwThe, MonadExceptOf.throw]
  · unfold lyotCol; simp [hw, bind, Except.bind, throw, throwThe, MonadExceptOf.throw]
  · unfold vortexCol; simp [hw, bind, Except.bind, throw, throwThe, MonadExceptOf.throw]

theorem p2f_smul (S : Sys N N4 Neta Nxi Meta Mxi) (c : ℂ) (Ein : Pl N) (S1 S2 : ZMod N → ZMod N → ℝ) :
    p2f S (fun i j => c * Ein i j) S1 S2 = c • p2f S Ein S1 S2 := by
  have e0 : (fun i j => S.pupil i j * (c * Ein i j)) = c • (fun i j => S.pupil i j * Ein i j : Pl N) := by
    funext i j; simp; ring
  have e1 : dm1pre S (fun i j => c * Ein i j) = c • dm1pre S Ein := by
    funext i j
    simp only [dm1pre, Pi.smul_apply, smul_eq_mul]
    rw [e0, (lin_relay _ _).map_smul, (lin_ptpCore _ _ _).map_smul]
    simp only [Pi.smul_apply, smul_eq_mul]; ring
  have e2 : dm1post S (fun i j => c * Ein i j) S1 = c • dm1post S Ein S1 := by
    funext i j; simp only [dm1post, e1, Pi.smul_apply, smul_eq_mul]; ring
  have e3 : dm2pre S (fun i j => c * Ein i j) S1 = c • dm2pre S Ein S1 := by
    funext i j; simp only [dm2pre, e2, (lin_ptpCore _ _ _).map_smul, Pi.smul_apply, smul_eq_mul]; ring
  unfold p2f
  rw [← (lin_ptpCore _ _ _).map_smul]
  congr 1
  funext i j; simp only [e3, Pi.smul_apply, smul_eq_mul]; ring

theorem zernike_aux {G D : Fin Meta → Fin Mxi → ℂ} {weight : ℝ} (h4 : G = fun e x => D e x * weight) :
    (∀ e x, I * G e x = I * D e x * weight) ∧ (∀ e x, I * D e x * weight ≠ 0 → G e x ≠ I * D e x * weight) := by
  have hI : ∀ e x, I * G e x = I * D e x * weight := fun e x => by rw [h4]; ring
  refine ⟨hI, fun e x hne heq => ?_⟩
  have := hI e x
  rw [← heq] at hne this
  have : (I - 1) * G e x = 0 := by linear_combination this
  rcases mul_eq_zero.1 this with h | h
  · have := congrArg Complex.im h; simp at this
  · exact hne h

/-- C32 fails for every Zernike mode other than piston: the Jacobian code drops the factor `i` of the compact model's input field, so `i` times
the column is the weighted derivative (and the column differs from it wherever the weighted derivative is non-zero).  DM1. -/
theorem C32_zernike_dm1_violated (S : Sys N N4 Neta Nxi Meta Mxi) (hw : S.flagDMwfe = false) (hN : Even N)
    (hcoro : ∀ D NB vm tk, S.coro ≠ .vortex D NB vm tk) (apod : Option (Pl N3)) (ha : ApodOk S apod) (y0 x0 : ℤ) (hB : BoxOk S B y0 x0)
    (he : EdgeOk S apod y0 x0) (base Z : Pl N) (Zcoef : ℝ) (S1 S2 : ZMod N → ZMod N → ℝ) (weight VtoH : ℝ) (inf : ZMod B → ZMod B → ℝ) :
    ∃ (G D : Fin Meta → Fin Mxi → ℂ) (E : ℝ → Fin Meta → Fin Mxi → ℂ),
      lyotCol S apod (einJac S.wvl base (some (Z, Zcoef))) false S1 S2 false weight VtoH B y0 x0 inf = .ok G ∧
      (∀ t : ℝ, compactApod S apod (einCompact S.wvl base (some (Z, Zcoef))) (fun i j => S1 i j + t * (VtoH * embedBox B y0 x0 inf i j)) S2 = .ok (E t)) ∧
      HasDerivAt E D 0 ∧ (∀ e x, I * G e x = D e x * weight) ∧ (∀ e x, D e x * weight ≠ 0 → G e x ≠ D e x * weight) := by
  obtain ⟨G, D, E, h1, h2, h3, h4⟩ := C32_dm1 S hw hN hcoro apod ha y0 x0 hB he (einJac S.wvl base (some (Z, Zcoef))) S1 S2 weight VtoH inf
  refine ⟨G, fun e x => I * D e x, fun t => I • E t, h1, fun t => ?_, h3.const_smul I, zernike_aux h4⟩
  have := h2 t
  rw [compactApod_eq S hw] at this ⊢
  rw [einCompact_eq, p2f_smul, (lin_p2toEnd S apod).map_smul, Except.ok.inj this]

/-- The same for DM2. -/
theorem C32_zernike_dm2_violated (S : Sys N N4 Neta Nxi Meta Mxi) (hw : S.flagDMwfe = false) (hN : Even N)
    (hcoro : ∀ D NB vm tk, S.coro ≠ .vortex D NB vm tk) (apod : Option (Pl N3)) (ha : ApodOk S apod) (y0 x0 : ℤ) (hB : BoxOk S B y0 x0)
    (he : EdgeOk S apod y0 x0) (base Z : Pl N) (Zcoef : ℝ) (S1 S2 : ZMod N → ZMod N → ℝ) (weight VtoH : ℝ) (inf : ZMod B → ZMod B → ℝ) :
    ∃ (G D : Fin Meta → Fin Mxi → ℂ) (E : ℝ → Fin Meta → Fin Mxi → ℂ),
      lyotCol S apod (einJac S.wvl base (some (Z, Zcoef))) true S1 S2 false weight VtoH B y0 x0 inf = .ok G ∧
      (∀ t : ℝ, compactApod S apod (einCompact S.wvl base (some (Z, Zcoef))) S1 (fun i j => S2 i j + t * (VtoH * embedBox B y0 x0 inf i j)) = .ok (E t)) ∧
      HasDerivAt E D 0 ∧ (∀ e x, I * G e x = D e x * weight) ∧ (∀ e x, D e x * weight ≠ 0 → G e x ≠ D e x * weight) := by
  obtain ⟨G, D, E, h1, h2, h3, h4⟩ := C32_dm2 S hw hN hcoro apod ha y0 x0 hB he (einJac S.wvl base (some (Z, Zcoef))) S1 S2 weight VtoH inf
  refine ⟨G, fun e x => I * D e x, fun t => I • E t, h1, fun t => ?_, h3.const_smul I, zernike_aux h4⟩
  have := h2 t
  rw [compactApod_eq S hw] at this ⊢
  rw [einCompact_eq, p2f_smul, (lin_p2toEnd S apod).map_smul, Except.ok.inj this]

/-- `demoSys` with a 2 × 2 apodizer, or with none, meets the hypotheses of the C32 theorems, for every box -/
example : demoSys.flagDMwfe = false ∧ Even 2 ∧ (∀ D NB vm tk, demoSys.coro ≠ .vortex D NB vm tk) ∧
    ApodOk demoSys (some (fun i _ => if i = 0 then 1 else 2) : Option (Pl 2)) ∧ ApodOk demoSys (none : Option (Pl 2)) ∧
    BoxOk demoSys 2 0 0 ∧ BoxOk demoSys 1 0 1 ∧ EdgeOk demoSys (none : Option (Pl 2)) 0 1 :=
  ⟨rfl, by decide, (by intro D NB vm tk h; unfold demoSys at h; exact Coro.noConfusion rfl rfl (heq_of_eq h)),
    (fun _ _ => ⟨by decide, le_rfl, fun _ => Or.inl rfl⟩), (fun _ h => by simp at h), Or.inl ⟨rfl, rfl, rfl⟩,
    Or.inr ⟨rfl, rfl, by decide, by decide, by decide, by decide⟩, fun _ => Or.inl rfl⟩

end Verif.Compact
