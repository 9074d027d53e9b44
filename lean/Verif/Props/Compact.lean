import Verif.Lemmas.Jac
import Verif.Props.Util
import Mathlib.Tactic

/-!
# Properties of the compact model and its Jacobian (C32)
-/

set_option linter.unusedSectionVars false

namespace Verif.Compact
open Verif Complex Verif.Optics

variable {N N4 Neta Nxi Meta Mxi : ℕ} [NeZero N] [NeZero N4] {B : ℕ} [NeZero B]

/-- The `n × n` NumPy array of a plane. -/
def toImg {n : ℕ} (E : Pl n) : Img ℂ := ⟨n, n, fun a b => E (a.val : ZMod n) (b.val : ZMod n)⟩

/-- `padF` is `falco.util.pad_crop` for square arrays. -/
theorem padF_eq_padCrop {n m : ℕ} [NeZero n] [NeZero m] (E : Pl n) :
    Util.padCrop (toImg E) (.one (.int m)) 0 = .ok (toImg (padF m E)) := by
  have hm := NeZero.pos m
  rw [(Util.C01_pad_crop_sizes (toImg E) 0).1 (m : ℤ)]
  obtain ⟨C, hC, hh, hw, hg⟩ := Util.C01_pad_crop (toImg E) m m hm hm 0
  rw [hC]
  congr 1
  refine Img.ext_get? hh hw fun i j hi hi' hj hj' => ?_
  rw [hh] at hi'; rw [hw] at hj'
  rw [hg i j hi hi' hj hj', Img.get?_eq_some (A := toImg (padF m E)) ⟨hi, hi'⟩ ⟨hj, hj'⟩]
  congr 1
  have ev : ∀ (k : ℤ), 0 ≤ k → k < m → (((k.toNat : ℕ) : ZMod m).val : ℤ) = k := by
    intro k h0 h1
    rw [ZMod.val_cast_of_lt (by omega)]; omega
  change _ = padF m E ((i.toNat : ℕ) : ZMod m) ((j.toNat : ℕ) : ZMod m)
  unfold padF
  simp only [ev i hi hi', ev j hj hj']
  have e2 : ∀ k : ℕ, ((k / 2 : ℕ) : ℤ) = (k : ℤ) / 2 := fun k => by omega
  simp only [e2]
  have hH : ((toImg E).h : ℤ) = n := rfl
  have hW : ((toImg E).w : ℤ) = n := rfl
  by_cases hin : (0 ≤ (n:ℤ) / 2 + (i - (m:ℤ) / 2) ∧ (n:ℤ) / 2 + (i - (m:ℤ) / 2) < n) ∧ (0 ≤ (n:ℤ) / 2 + (j - (m:ℤ) / 2) ∧ (n:ℤ) / 2 + (j - (m:ℤ) / 2) < n)
  · rw [if_pos hin, Img.get?_eq_some (A := toImg E) (by rw [hH]; exact hin.1) (by rw [hW]; exact hin.2)]
    change E ((((n:ℤ) / 2 + (i - (m:ℤ) / 2)).toNat : ℕ) : ZMod n) ((((n:ℤ) / 2 + (j - (m:ℤ) / 2)).toNat : ℕ) : ZMod n) = _
    have ec : ∀ k : ℤ, 0 ≤ k → ((k.toNat : ℕ) : ZMod n) = (k : ZMod n) := by
      intro k h0
      conv_rhs => rw [← Int.toNat_of_nonneg h0]
      rw [Int.cast_natCast]
    simp only [ec _ hin.1.1, ec _ hin.2.1]
  · rw [if_neg hin, Img.get?_eq_none (A := toImg E) (by rw [hH, hW]; tauto)]
    rfl

theorem ptpCore_zero (E : Pl N) (w wvl : ℝ) : ptpCore E w wvl 0 = E := by
  have h := ptp_eq_core E w wvl 0
  unfold ptp at h
  rw [if_pos rfl] at h
  exact (Except.ok.inj h).symm

theorem embed_whole (X : ZMod N → ZMod N → ℝ) : (embedBox N 0 0 X : ZMod N → ZMod N → ℝ) = X := by
  funext i j
  unfold embedBox
  have hi := ZMod.val_lt i
  have hj := ZMod.val_lt j
  rw [if_pos (by omega)]
  simp

theorem embed_wholeC (X : Pl N) : (embedBox N 0 0 X : Pl N) = X := by
  funext i j
  unfold embedBox
  have hi := ZMod.val_lt i
  have hj := ZMod.val_lt j
  rw [if_pos (by omega)]
  simp

theorem extract_whole {α : Type*} (E : ZMod N → ZMod N → α) : extractBox N 0 0 E = E := by
  funext i j
  unfold extractBox
  simp

theorem embed_mul_extract (y0 x0 : ℤ) (hy0 : 0 ≤ y0) (hy1 : y0 + B ≤ N) (hx0 : 0 ≤ x0) (hx1 : x0 + B ≤ N)
    (X : Pl B) (E : Pl N) :
    (embedBox B y0 x0 (fun i j => X i j * extractBox B y0 x0 E i j) : Pl N) = fun i j => embedBox B y0 x0 X i j * E i j := by
  funext i j
  unfold embedBox
  split
  · rename_i h
    unfold extractBox
    beta_reduce
    have e : ∀ (y0 : ℤ) (i : ZMod N), 0 ≤ y0 → y0 ≤ i.val → (i.val : ℤ) < y0 + B →
        ((y0 + (((((i.val : ℤ) - y0) : ℤ) : ZMod B).val : ℤ) : ℤ) : ZMod N) = i := by
      intro y0 i h0 h1 h2
      have : (((((i.val : ℤ) - y0) : ℤ) : ZMod B).val : ℤ) = (i.val : ℤ) - y0 := by
        rw [ZMod.val_intCast]; exact Int.emod_eq_of_lt (by omega) (by omega)
      rw [this]
      simp
    rw [e y0 i hy0 h.1.1 h.1.2, e x0 j hx0 h.2.1 h.2.2]
  · simp

theorem kk_eq (S : Sys N N4 Neta Nxi Meta Mxi) : (2 * 2 * Real.pi * I / S.wvl : ℂ) = I * S.kk := by
  unfold Sys.kk; push_cast; ring

/-! ## C32 (the derivative theorems are in `Verif.Props.JacDeriv`) -/

theorem noFirst_of_pos (y0 x0 : ℤ) (hy : 1 ≤ y0) (hx : 1 ≤ x0) (X : Pl B) : NoFirst N B y0 x0 X := by
  intro a b h
  omega

theorem ofReal_embed (y0 x0 : ℤ) (inf : ZMod B → ZMod B → ℝ) (i j : ZMod N) :
    ((embedBox B y0 x0 inf i j : ℝ) : ℂ) = embedBox B y0 x0 (fun a b => (inf a b : ℂ)) i j := by
  unfold embedBox; split <;> simp

theorem embed_cmul (y0 x0 : ℤ) (c : ℂ) (X : Pl B) :
    (embedBox B y0 x0 (fun i j => c * X i j) : Pl N) = fun i j => c * embedBox B y0 x0 X i j := by
  funext i j; unfold embedBox; split <;> simp

theorem einCompact_eq (wvl : ℝ) (base : Pl N) (Z : Pl N) (Zcoef : ℝ) :
    einCompact wvl base (some (Z, Zcoef)) = fun i j => I * einJac wvl base (some (Z, Zcoef)) i j := by
  funext i j; simp only [einCompact, einJac]; ring

/-- C32: the FPM sampling used by the compact model and by the Jacobian is the same for layout `fourier` always, and for layout
`fpm_scale` with an HLC. -/
theorem C32_fpm_scale_agree (isHLC : Bool) (wvl lambda0 : ℝ) :
    fpmScaleCompact "fourier" isHLC wvl lambda0 = fpmScaleJac "fourier" wvl lambda0 ∧
    fpmScaleCompact "fpm_scale" true wvl lambda0 = fpmScaleJac "fpm_scale" wvl lambda0 := by
  constructor
  · unfold fpmScaleCompact fpmScaleJac
    rw [if_neg (fun h => absurd h.1 (by decide +kernel)), if_neg (by decide +kernel)]
  · unfold fpmScaleCompact fpmScaleJac
    rw [if_pos (by decide +kernel), if_pos (by decide +kernel)]

/-- C32 fails off the central wavelength for an HLC in the PROPER layouts, and for other coronagraphs in layout `fpm_scale`: the two
functions sample the FPM differently. -/
theorem C32_fpm_scale_violated (wvl lambda0 : ℝ) (h0 : lambda0 ≠ 0) (hne : wvl ≠ lambda0) :
    (∀ layout ∈ ["roman_phasec_proper", "wfirst_phaseb_proper", "proper"],
      fpmScaleCompact layout true wvl lambda0 ≠ fpmScaleJac layout wvl lambda0) ∧
    fpmScaleCompact "fpm_scale" false wvl lambda0 ≠ fpmScaleJac "fpm_scale" wvl lambda0 := by
  have h1 : wvl / lambda0 ≠ 1 := fun h => hne ((div_eq_one_iff_eq h0).1 h)
  constructor
  · intro layout hl
    have h2 : layout ∈ ["roman_phasec_proper", "wfirst_phaseb_proper", "proper", "fpm_scale"] := by
      simp only [List.mem_cons] at hl ⊢; tauto
    have h3 : layout ≠ "fpm_scale" := by
      rintro rfl; revert hl; decide +kernel
    unfold fpmScaleCompact fpmScaleJac
    rw [if_pos ⟨h2, rfl⟩, if_neg h3]
    exact h1
  · unfold fpmScaleCompact fpmScaleJac
    rw [if_neg (by simp), if_pos rfl]
    exact h1.symm

/-- A concrete system: 2 × 2 planes, one-sample FPM and detector, everything transparent, distances 0, interpixel centering. -/
noncomputable def demoSys : Sys 2 2 1 1 1 1 where
  wvl := 1
  fl := 1
  dx := 1
  dx4 := 1
  dxiF3 := 1
  detaF3 := 1
  fpmScale := 1
  dxi := 1
  deta := 1
  dP2dm1 := 0
  d12 := 0
  centering := .interpixel
  flagRotation := true
  n12 := 1
  n23 := 1
  n34 := 1
  nEnd := 1
  pupil := fun _ _ => 1
  stop1 := fun _ _ => 1
  stop2 := fun _ _ => 1
  flagDMwfe := false
  coro := .flc fun _ _ => 1
  lyot := fun _ _ => 1
  normFac := 1

/-- `demoSys` meets the hypotheses of the C32 theorems -/
example : demoSys.flagDMwfe = false ∧ Even 2 ∧ (∀ D NB vm tk, demoSys.coro ≠ .vortex D NB vm tk) ∧
    (demoSys.rel demoSys.n23 % 2 = 1 → demoSys.centering = .interpixel) ∧ demoSys.d12 = 0 ∧ demoSys.dP2dm1 = 0 :=
  ⟨rfl, by decide, (by intro D NB vm tk h; unfold demoSys at h; exact Coro.noConfusion rfl rfl (heq_of_eq h)), fun _ => rfl, rfl, rfl⟩

end Verif.Compact
