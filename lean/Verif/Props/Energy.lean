import Verif.Lemmas.Energy
import Verif.Props.JacDeriv
import Verif.Props.Source

/-!
# C95: the optical model never creates light
-/

set_option linter.unusedSectionVars false

namespace Verif.Compact
open Verif Complex Verif.Optics

variable {N N4 Neta Nxi Meta Mxi N3 : ℕ} [NeZero N] [NeZero N4] [NeZero N3]

/-- No mask, stop or apodizer amplifies the field. -/
structure Passive (S : Sys N N4 Neta Nxi Meta Mxi) (apod : Option (Pl N3)) : Prop where
  stop1 : ∀ i j, ‖S.stop1 i j‖ ≤ 1
  stop2 : ∀ i j, ‖S.stop2 i j‖ ≤ 1
  lyot : ∀ i j, ‖S.lyot i j‖ ≤ 1
  apod : ∀ m, apod = some m → ∀ i j, ‖m i j‖ ≤ 1
  fpm : match S.coro with
    | .babinet mask t => (∀ e x, ‖mask e x‖ ≤ 1) ∧ ‖t‖ ≤ 1
    | .flc mask => ∀ e x, ‖mask e x‖ ≤ 1
    | .vortex .. => False

/-- Square samplings, `K3` (`Kend`) focal-plane mask (camera) samples per inverse pupil sample, whole numbers at least as large as the arrays: nothing is aliased. `M` is the array size at P3.
For an opaque-spot mask (Babinet) the arrays have even size and the Lyot stop is dark in the first row and column of a pixel-centred array. -/
structure Sampled (S : Sys N N4 Neta Nxi Meta Mxi) (M K3 Kend : ℕ) : Prop where
  dx_pos : 0 < S.dx
  dx4 : S.dx4 = S.dx
  fpm_pos : 0 < S.fpmScale * S.dxiF3
  fpm_sq : S.detaF3 = S.dxiF3
  cam_pos : 0 < S.dxi
  cam_sq : S.deta = S.dxi
  fpm : K3 * S.dx * (S.fpmScale * S.dxiF3) = S.wvl * S.fl
  cam : Kend * S.dx * S.dxi = S.wvl * S.fl
  fits : M ≤ K3 ∧ Neta ≤ K3 ∧ Nxi ≤ K3 ∧ N4 ≤ K3
  fits_cam : N4 ≤ Kend ∧ Meta ≤ Kend ∧ Mxi ≤ Kend
  spot : ∀ mask t, S.coro = .babinet mask t → Even M ∧ Even N4 ∧ N4 ≤ M ∧ Clear S.centering S.lyot

/-- array size at the apodizer plane -/
def sizeP3 (N : ℕ) {N3 : ℕ} (apod : Option (Pl N3)) : ℕ := if apod.isSome then N3 else N

theorem normSq_le_one {z : ℂ} (h : ‖z‖ ≤ 1) : normSq z ≤ 1 := by
  rw [normSq_eq_norm_sq]; exact pow_le_one₀ (norm_nonneg z) h

/-- P4 to the camera. -/
theorem en_p4toEnd_le (S : Sys N N4 Neta Nxi Meta Mxi) (M K3 Kend : ℕ) (hs : Sampled S M K3 Kend) (EP4 : Pl N4) :
    S.normFac * en (p4toEnd S EP4) ≤ en (fun i j => S.lyot i j * EP4 i j) := by
  have hK : 0 < Kend := lt_of_lt_of_le (NeZero.pos N4) hs.fits_cam.1
  have h1 := en_mftP2f_le hK hs.dx_pos hs.cam_pos hs.cam hs.fits_cam.1 hs.fits_cam.2.1 hs.fits_cam.2.2 S.centering
    (toFin (relay (fun i j => S.lyot i j * EP4 i j) (S.rel S.nEnd) S.centering))
  rw [en_toFin, en_relay] at h1
  refine le_trans ?_ h1
  unfold p4toEnd
  rw [hs.dx4, hs.cam_sq]
  set F := mftP2f (toFin (relay (fun i j => S.lyot i j * EP4 i j) (S.rel S.nEnd) S.centering)) S.fl S.wvl S.dx S.dxi Mxi S.dxi Meta S.centering with hF
  have h2 : S.normFac * en (fun e x => F e x / Real.sqrt S.normFac) = (if 0 < S.normFac then en F else 0) := by
    unfold en
    rw [Finset.mul_sum]
    split
    · rename_i hp
      refine Finset.sum_congr rfl fun e _ => ?_
      rw [Finset.mul_sum]
      refine Finset.sum_congr rfl fun x _ => ?_
      rw [map_div₀, normSq_ofReal, Real.mul_self_sqrt hp.le]
      field_simp
    · rename_i hp
      have : Real.sqrt S.normFac = 0 := Real.sqrt_eq_zero'.2 (not_lt.1 hp)
      simp [this]
  rw [h2]
  split
  · exact le_refl _
  · exact en_nonneg _

/-- P3 to the camera. -/
theorem en_p3toEnd_le {M : ℕ} [NeZero M] (S : Sys N N4 Neta Nxi Meta Mxi) (apod : Option (Pl N3)) (hp : Passive S apod) (K3 Kend : ℕ) (hs : Sampled S M K3 Kend) (EP3 : Pl M) :
    S.normFac * en (p4toEnd S (p3to4 S EP3)) ≤ en EP3 := by
  refine (en_p4toEnd_le S M K3 Kend hs _).trans ?_
  obtain ⟨hM, he, hx, h4⟩ := hs.fits
  have hK : 0 < K3 := lt_of_lt_of_le (NeZero.pos N4) h4
  have hfp := hp.fpm
  unfold p3to4
  cases hc : S.coro with
  | babinet mask t =>
    rw [hc] at hfp
    dsimp only at hfp ⊢
    obtain ⟨hMe, h4e, h4M, hcl⟩ := hs.spot mask t hc
    rw [hs.fpm_sq, hs.dx4]
    obtain ⟨Z, σ, hZ, hσ, hE⟩ := babinet_unitary hK hs.dx_pos hs.fpm_pos hs.fpm hM he hx h4M h4e hMe S.centering (S.rel S.n34) mask t
      (fun e x => normSq_le_one (hfp.1 e x)) (normSq_le_one hfp.2) EP3
    refine le_trans ?_ hZ
    refine le_trans ?_ (en_part_le Z (fun i => g4 h4M hM h4e hMe (σ i)) (fun i => g4 h4M hM h4e hMe (σ i))
      ((g4_inj h4M hM h4e hMe).comp hσ) ((g4_inj h4M hM h4e hMe).comp hσ))
    unfold en
    refine Finset.sum_le_sum fun i _ => Finset.sum_le_sum fun j _ => ?_
    beta_reduce
    by_cases hij : S.centering = .interpixel ∨ (i ≠ 0 ∧ j ≠ 0)
    · rw [hE i j hij, map_mul]
      exact mul_le_of_le_one_left (normSq_nonneg _) (normSq_le_one (hp.lyot i j))
    · have h0 : S.lyot i j = 0 := by
        rcases hcl with h | h
        · exact absurd (Or.inl h) hij
        · refine h i j ?_
          by_contra h'
          rw [not_or] at h'
          exact hij (Or.inr h')
      rw [h0, zero_mul, map_zero]
      exact normSq_nonneg _
  | flc mask =>
    rw [hc] at hfp
    dsimp only at hfp ⊢
    refine (en_mul_le _ _ fun i j => normSq_le_one (hp.lyot i j)).trans ?_
    rw [en_relay, en_ofFin, hs.fpm_sq, hs.dx4]
    refine (en_mftF2p_le hK hs.dx_pos hs.fpm_pos hs.fpm h4 he hx S.centering _).trans ?_
    refine (en_mul_le _ _ fun e x => normSq_le_one (hfp e x)).trans ?_
    refine (en_mftP2f_le hK hs.dx_pos hs.fpm_pos hs.fpm hM he hx S.centering _).trans ?_
    rw [en_toFin]
  | vortex D NB vm tk => rw [hc] at hfp; exact hfp.elim

/-- The input pupil to P2 through both DMs. -/
theorem en_p2f_le (S : Sys N N4 Neta Nxi Meta Mxi) (apod : Option (Pl N3)) (hp : Passive S apod) (Ein : Pl N) (S1 S2 : ZMod N → ZMod N → ℝ) :
    en (p2f S Ein S1 S2) ≤ en (fun i j => S.pupil i j * Ein i j) := by
  unfold p2f
  rw [en_ptpCore]
  refine (en_mul_le' _ _ fun i j => (normSq_exp_I (S2 i j) S.kk).le).trans ?_
  unfold dm2pre
  refine (en_mul_le _ _ fun i j => normSq_le_one (hp.stop2 i j)).trans ?_
  rw [en_ptpCore]
  unfold dm1post
  refine (en_mul_le' _ _ fun i j => (normSq_exp_I (S1 i j) S.kk).le).trans ?_
  unfold dm1pre
  refine (en_mul_le' _ _ fun i j => normSq_le_one (hp.stop1 i j)).trans ?_
  rw [en_ptpCore, en_relay]

theorem en_p2toEnd_le (S : Sys N N4 Neta Nxi Meta Mxi) (apod : Option (Pl N3)) (hp : Passive S apod) (K3 Kend : ℕ) (hs : Sampled S (sizeP3 N apod) K3 Kend) (EP2 : Pl N) :
    S.normFac * en (p2toEnd S apod EP2) ≤ en EP2 := by
  unfold p2toEnd
  cases apod with
  | none =>
    have hs' : Sampled S N K3 Kend := hs
    refine (en_p3toEnd_le S none hp K3 Kend hs' _).trans ?_
    rw [en_relay]
  | some m =>
    have hs' : Sampled S N3 K3 Kend := hs
    refine (en_p3toEnd_le S (some m) hp K3 Kend hs' _).trans ?_
    refine (en_mul_le _ _ fun i j => normSq_le_one (hp.apod m rfl i j)).trans ?_
    refine (en_padF_le _).trans ?_
    rw [en_relay]

/-- **C95** No light is created: for every input field, pair of DM surfaces, set of passive masks, spot or stop coronagraph, apodizer, sampling and number of relays, the total intensity at the
camera (times the normalisation) is at most the light that passed the telescope aperture. -/
theorem C95_energy (S : Sys N N4 Neta Nxi Meta Mxi) (hw : S.flagDMwfe = false) (apod : Option (Pl N3)) (hp : Passive S apod) (K3 Kend : ℕ)
    (hs : Sampled S (sizeP3 N apod) K3 Kend) (Ein : Pl N) (S1 S2 : ZMod N → ZMod N → ℝ) :
    ∃ out : Fin Meta → Fin Mxi → ℂ, compactApod S apod Ein S1 S2 = .ok out ∧
      S.normFac * ∑ e, ∑ x, ‖out e x‖ ^ 2 ≤ ∑ i, ∑ j, ‖S.pupil i j * Ein i j‖ ^ 2 := by
  refine ⟨_, compactApod_eq S hw apod Ein S1 S2, ?_⟩
  have h := (en_p2toEnd_le S apod hp K3 Kend hs _).trans (en_p2f_le S apod hp Ein S1 S2)
  simpa only [en, normSq_eq_norm_sq] using h

end Verif.Compact
