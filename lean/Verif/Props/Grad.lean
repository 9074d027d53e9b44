import Mathlib.Analysis.SpecialFunctions.Trigonometric.Deriv
import Verif.Lemmas.Adjoint
import Verif.Props.Compact
import Mathlib.Tactic

/-!
# Properties of the reverse-mode gradient (C28)
-/

set_option linter.unusedSectionVars false

namespace Verif.Compact
open Verif Complex Verif.Optics

variable {N N4 Neta Nxi Meta Mxi : ℕ} [NeZero N] [NeZero N4]

/-- Conditions under which the reverse code mirrors the forward model: square pixels, same sampling at P2 and P4 and no FPM scaling for the
MFT coronagraphs, unit transmission outside the FPM (LC, APLC) and a Lyot plane not larger than the DM plane without light in its first row
and column (needed only for pixel centering with an odd number of relays). -/
structure GradOk (S : Sys N N4 Neta Nxi Meta Mxi) : Prop where
  square : S.deta = S.dxi
  mft : (∀ D NB vm tk, S.coro ≠ .vortex D NB vm tk) → S.fpmScale = 1 ∧ S.dx4 = S.dx ∧ S.detaF3 = S.dxiF3
  babinet : ∀ mask t, S.coro = .babinet mask t → t = 1 ∧ Even N ∧ Even N4 ∧ N4 ≤ N ∧
    (S.rel S.n34 % 2 = 1 → S.centering = .interpixel ∨ ∀ i j : ZMod N4, (i = 0 ∨ j = 0) → S.lyot i j = 0)

/-- adjoint of the P3 → P4 propagation -/
theorem ip_p3to4 (S : Sys N N4 Neta Nxi Meta Mxi) (ok : GradOk S) (g : Pl N4) (hg : ∀ i j, S.lyot i j = 0 → g i j = 0) (E : Pl N) :
    ip g (p3to4 S E) = ip (p4to3Grad S g) E := by
  have hm := ok.mft
  have hb := ok.babinet
  unfold p3to4 p4to3Grad
  cases hc : S.coro with
  | babinet mask t =>
    obtain ⟨rfl, hN, hN4, hle, hz⟩ := hb mask t hc
    obtain ⟨hs, hdx, hde⟩ := hm (by intro D NB vm tk h; rw [hc] at h; cases h)
    dsimp only
    rw [hs, hdx, hde]
    simp only [one_mul]
    rw [ip_sub_right]
    have e1 : ip g (fun i j => padF N4 (relay E (S.rel S.n34) S.centering) i j) = ip (padF N (relay g (S.rel S.n34) S.centering)) E := by
      change ip g (padF N4 (relay E (S.rel S.n34) S.centering)) = _
      rw [ip_padF, ip_relay, padF_relay hN hN4 hle]
      intro ho
      refine (hz ho).imp id fun h i j hij => hg i j (h i j hij)
    have e2 : ip g (relay (ofFin (mftF2p (fun e x => (1 - mask e x) * mftP2f (toFin E) S.fl S.wvl S.dx S.dxiF3 Nxi S.dxiF3 Neta S.centering e x)
          S.fl S.wvl S.dxiF3 S.dxiF3 S.dx N4 S.centering)) (S.rel S.n34 - 1) S.centering)
        = ip (ofFin (mftF2p (fun e x => starRingEnd ℂ (1 - mask e x) * mftP2f (toFin (relay g (S.rel S.n34 - 1) S.centering)) (-S.fl) S.wvl S.dx S.dxiF3 Nxi S.dxiF3
            Neta S.centering e x) (-S.fl) S.wvl S.dxiF3 S.dxiF3 S.dx N S.centering)) E := by
      rw [ip_relay, ip_ofFin, ip_mftF2p, ip_mul (fun e x => 1 - mask e x), ip_mftP2f, ip_toFin]
      congr 1
      have hlin := (lin_mftF2p (Neta := Neta) (Nxi := Nxi) (-S.fl) S.wvl S.dxiF3 S.dxiF3 S.dx N S.centering).map_smul (-1)
      have e3 : (fun e x => starRingEnd ℂ (1 - mask e x) * -mftP2f (toFin (relay g (S.rel S.n34 - 1) S.centering)) (-S.fl) S.wvl S.dx S.dxiF3 Nxi S.dxiF3 Neta S.centering e x)
          = (-1 : ℂ) • (fun e x => starRingEnd ℂ (1 - mask e x) * mftP2f (toFin (relay g (S.rel S.n34 - 1) S.centering)) (-S.fl) S.wvl S.dx S.dxiF3 Nxi S.dxiF3 Neta S.centering e x) := by
        funext e x; simp
      rw [e3, hlin]
      congr 1
      funext a b; simp
    rw [e1, e2]
    -- the code feeds `-g` into the subtrahend branch
    have e4 : ∀ X : Pl N, (fun i j => padF N (relay g (S.rel S.n34) S.centering) i j + X i j) = padF N (relay g (S.rel S.n34) S.centering) + X := fun X => rfl
    rw [e4, ip_add_left, sub_eq_add_neg]
    congr 1
    rw [← ip_neg_left]
    congr 1
    have hneg : (fun i j => - g i j : Pl N4) = (-1 : ℂ) • g := by funext i j; simp
    rw [hneg, (lin_relay _ _).map_smul, lin_toFin.map_smul, (lin_mftP2f _ _ _ _ _ _ _ _).map_smul]
    have e5 : (fun e x => starRingEnd ℂ (1 - mask e x) *
        ((-1 : ℂ) • mftP2f (toFin (relay g (S.rel S.n34 - 1) S.centering)) (-S.fl) S.wvl S.dx S.dxiF3 Nxi S.dxiF3 Neta S.centering) e x)
        = (-1 : ℂ) • fun e x => starRingEnd ℂ (1 - mask e x) *
          mftP2f (toFin (relay g (S.rel S.n34 - 1) S.centering)) (-S.fl) S.wvl S.dx S.dxiF3 Nxi S.dxiF3 Neta S.centering e x := by
      funext e x; simp
    rw [e5, (lin_mftF2p _ _ _ _ _ _ _).map_smul, lin_ofFin.map_smul]
    funext i j; simp
  | flc mask =>
    obtain ⟨hs, hdx, hde⟩ := hm (by intro D NB vm tk h; rw [hc] at h; cases h)
    dsimp only
    rw [hs, hdx, hde]
    simp only [one_mul]
    rw [ip_relay, ip_ofFin, ip_mftF2p, ip_mul mask, ip_mftP2f, ip_toFin]
    congr 1
    have hlin := (lin_mftF2p (Neta := Neta) (Nxi := Nxi) (-S.fl) S.wvl S.dxiF3 S.dxiF3 S.dx N S.centering).map_smul (-1)
    have e3 : (fun e x => starRingEnd ℂ (mask e x) * -mftP2f (toFin (relay g (S.rel S.n34 - 1) S.centering)) (-S.fl) S.wvl S.dx S.dxiF3 Nxi S.dxiF3 Neta S.centering e x)
        = (-1 : ℂ) • (fun e x => starRingEnd ℂ (mask e x) * mftP2f (toFin (relay g (S.rel S.n34 - 1) S.centering)) (-S.fl) S.wvl S.dx S.dxiF3 Nxi S.dxiF3 Neta S.centering e x) := by
      funext e x; simp
    rw [e3, hlin]
    congr 1
    funext a b; simp
  | vortex D NB vm tk =>
    dsimp only
    rw [ip_padF, ip_relay]
    have h1 := ip_ofFin (relay (padF N g) (S.rel S.n34 - 1) S.centering) (mftP2v2pOf false D 4 5 NB vm tk (toFin E))
    have h := C62_reverse_is_adjoint D 4 5 NB vm tk (toFin E) (toFin (relay (padF N g) (S.rel S.n34 - 1) S.centering))
    have h2 := ip_toFin (mftP2v2pOf true D 4 5 NB vm tk (toFin (relay (padF N g) (S.rel S.n34 - 1) S.centering))) E
    exact h1.trans (h.trans h2)

/-- the code's gradient at the DM2 plane before multiplication by the conjugate DM2 phase -/
noncomputable def gradDm2 (S : Sys N N4 Neta Nxi Meta Mxi) (Fm : Fin Meta → Fin Mxi → ℂ) : Pl N :=
  ptpCore (relay (p4to3Grad S fun i j =>
    relay (ofFin (mftF2p Fm (-S.fl) S.wvl S.dxi S.deta S.dx4 N4 S.centering)) (S.rel S.nEnd) S.centering i j * starRingEnd ℂ (S.lyot i j))
    (S.rel S.n23) S.centering) (S.dx * N) S.wvl (S.dP2dm1 + S.d12)

/-- the reverse P4 → P3 step is the adjoint of the forward step, up to the real factor `σ` -/
def AdjUpTo (S : Sys N N4 Neta Nxi Meta Mxi) (σ : ℝ) : Prop :=
  ∀ g : Pl N4, (∀ i j, S.lyot i j = 0 → g i j = 0) → ∀ E, ip g (p3to4 S E) = σ * ip (p4to3Grad S g) E

theorem GradOk.adj {S : Sys N N4 Neta Nxi Meta Mxi} (ok : GradOk S) : AdjUpTo S 1 := fun g hg E => by
  rw [ip_p3to4 S ok g hg E]; simp

theorem ip_dm2toEnd (S : Sys N N4 Neta Nxi Meta Mxi) (hsq : S.deta = S.dxi) (σ : ℝ) (hadj : AdjUpTo S σ) (F : Fin Meta → Fin Mxi → ℂ) (E : Pl N) :
    ip (fun e x => (Real.sqrt S.normFac : ℂ) * F e x) (dm2toEnd S E) = - (σ * ip (gradDm2 S F) E) ∨ Real.sqrt S.normFac = 0 := by
  by_cases h0 : Real.sqrt S.normFac = 0
  · exact Or.inr h0
  left
  unfold dm2toEnd gradDm2
  have h0' : (Real.sqrt S.normFac : ℂ) ≠ 0 := by exact_mod_cast h0
  have e1 : ∀ EP4 : Pl N4, ip (fun e x => (Real.sqrt S.normFac : ℂ) * F e x) (p4toEnd S EP4)
      = - ip (fun i j => relay (ofFin (mftF2p F (-S.fl) S.wvl S.dxi S.deta S.dx4 N4 S.centering)) (S.rel S.nEnd) S.centering i j * starRingEnd ℂ (S.lyot i j)) EP4 := by
    intro EP4
    unfold p4toEnd
    rw [hsq]
    have e2 : ip (fun e x => (Real.sqrt S.normFac : ℂ) * F e x) (fun e x => mftP2f (toFin (relay (fun i j => S.lyot i j * EP4 i j) (S.rel S.nEnd) S.centering))
        S.fl S.wvl S.dx4 S.dxi Mxi S.dxi Meta S.centering e x / (Real.sqrt S.normFac : ℂ))
        = ip F (mftP2f (toFin (relay (fun i j => S.lyot i j * EP4 i j) (S.rel S.nEnd) S.centering)) S.fl S.wvl S.dx4 S.dxi Mxi S.dxi Meta S.centering) := by
      unfold ip
      refine Finset.sum_congr rfl fun e _ => Finset.sum_congr rfl fun x _ => ?_
      rw [map_mul, conj_ofReal]
      field_simp
    rw [e2, ip_mftP2f, ip_toFin, ip_relay, ip_mul S.lyot]
    rw [← ip_neg_left]
    congr 1
    have hn : (fun a b => - mftF2p F (-S.fl) S.wvl S.dxi S.dxi S.dx4 N4 S.centering a b) = (-1 : ℂ) • mftF2p F (-S.fl) S.wvl S.dxi S.dxi S.dx4 N4 S.centering := by
      funext a b; simp
    rw [hn, lin_ofFin.map_smul, (lin_relay _ _).map_smul]
    funext i j; simp; ring
  rw [e1, hadj _ (by intro i j h; rw [h]; simp), ip_relay, ip_ptpCore, neg_neg]

/-- derivative of the data cost of one mode along a path of fields -/
theorem hasDerivAt_modeCost (w : ℝ) (corr : Fin Meta → Fin Mxi → Bool) (f : ℝ → Fin Meta → Fin Mxi → ℂ) (f' : Fin Meta → Fin Mxi → ℂ)
    (hf : HasDerivAt f f' 0) :
    HasDerivAt (fun t => modeCost w corr (f t)) (ip (fun e x => 2 * w * (if corr e x then f 0 e x else 0)) f').re 0 := by
  have hp : ∀ e x, HasDerivAt (fun t => f t e x) (f' e x) 0 := fun e x => (hasDerivAt_pi.1 (hasDerivAt_pi.1 hf e)) x
  unfold modeCost
  have h1 : ∀ e x, HasDerivAt (fun t => if corr e x then normSq (f t e x) else 0)
      (if corr e x then 2 * (starRingEnd ℂ (f 0 e x) * f' e x).re else 0) 0 := by
    intro e x
    by_cases hc : corr e x
    · simp only [hc, if_true]
      have hre : HasDerivAt (fun t => (f t e x).re) (f' e x).re 0 :=  by
        have := (Complex.reCLM.hasFDerivAt (x := f 0 e x)).comp_hasDerivAt (0:ℝ) (hp e x)
        exact this
      have him : HasDerivAt (fun t => (f t e x).im) (f' e x).im 0 :=  by
        have := (Complex.imCLM.hasFDerivAt (x := f 0 e x)).comp_hasDerivAt (0:ℝ) (hp e x)
        exact this
      have := (hre.mul hre).add (him.mul him)
      refine this.congr_deriv ?_
      simp only [mul_re, conj_re, conj_im]; ring
    · simp only [hc, Bool.false_eq_true, if_false]; exact hasDerivAt_const _ _
  have h2 := (HasDerivAt.fun_sum fun e (_ : e ∈ Finset.univ) => HasDerivAt.fun_sum fun x (_ : x ∈ Finset.univ) => h1 e x).const_mul w
  refine h2.congr_deriv ?_
  unfold ip
  rw [re_sum, Finset.mul_sum]
  refine Finset.sum_congr rfl fun e _ => ?_
  rw [re_sum, Finset.mul_sum]
  refine Finset.sum_congr rfl fun x _ => ?_
  by_cases hc : corr e x
  · simp only [hc, if_true, map_mul, conj_ofReal, map_ofNat]
    rw [show (2 * (w:ℂ) * starRingEnd ℂ (f 0 e x) * f' e x) = ((2 * w : ℝ) : ℂ) * (starRingEnd ℂ (f 0 e x) * f' e x) by push_cast; ring, re_ofReal_mul]
    ring
  · simp [hc]

theorem surfBars_eq (S : Sys N N4 Neta Nxi Meta Mxi) (w : ℝ) (corr : Fin Meta → Fin Mxi → Bool) (Edh : Fin Meta → Fin Mxi → ℂ)
    (st : Fwd N Meta Mxi) (DM2surf : ZMod N → ZMod N → ℝ) (gd2 : Pl N)
    (hgd : gd2 = fun i j => starRingEnd ℂ (exp (I * S.kk * DM2surf i j)) *
      gradDm2 S (fun e x => w * 2 / Real.sqrt S.normFac * Edh e x * (if corr e x then 1 else 0)) i j) :
    surfBars S w corr Edh st DM2surf = .ok
      (fun i j => -S.kk * (ptpCore gd2 (S.dx * N) S.wvl (-S.d12) i j * starRingEnd ℂ (st.Edm1post i j)).im,
       fun i j => -S.kk * (gd2 i j * starRingEnd ℂ (st.Edm2pre i j)).im) := by
  subst hgd
  unfold surfBars
  simp only [ptp_eq_core, bind, Except.bind, pure, Except.pure]
  rfl

/-- pixel by pixel: real part of the inner product with a phase perturbation -/
theorem re_ip_phase (G E : Pl N) (k : ℝ) (h : ZMod N → ZMod N → ℝ) :
    (- ip G (fun i j => E i j * (I * k * h i j))).re = ∑ i, ∑ j, (-k * (G i j * starRingEnd ℂ (E i j)).im) * h i j := by
  unfold ip
  rw [neg_re, re_sum, ← Finset.sum_neg_distrib]
  refine Finset.sum_congr rfl fun i _ => ?_
  rw [re_sum, ← Finset.sum_neg_distrib]
  refine Finset.sum_congr rfl fun j _ => ?_
  simp only [mul_re, mul_im, conj_re, conj_im, I_re, I_im, ofReal_re, ofReal_im]
  ring

theorem data_dm2_core (S : Sys N N4 Neta Nxi Meta Mxi) (hw : S.flagDMwfe = false) (hsq : S.deta = S.dxi) (σ : ℝ) (hadj : AdjUpTo S σ) (hI : 0 < S.normFac)
    (Ein : Pl N) (S1 S2 : ZMod N → ZMod N → ℝ) (w : ℝ) (corr : Fin Meta → Fin Mxi → Bool) (Eest : Fin Meta → Fin Mxi → ℂ)
    (h : ZMod N → ZMod N → ℝ) :
    ∃ (st : Fwd N Meta Mxi) (bar1 bar2 : ZMod N → ZMod N → ℝ) (E : ℝ → Fin Meta → Fin Mxi → ℂ), compactGeneral S Ein S1 S2 = .ok st ∧ surfBars S w corr Eest st S2 = .ok (bar1, bar2) ∧
      (∀ t : ℝ, ∃ f, compactGeneral S Ein S1 (fun i j => S2 i j + t * h i j) = .ok f ∧ f.Eout = E t) ∧
      HasDerivAt (fun t : ℝ => modeCost w corr (fun e x => Eest e x + (E t e x - st.Eout e x))) (σ * ∑ i, ∑ j, bar2 i j * h i j) 0 := by
  refine ⟨_, _, _, fun t => endField S Ein S1 (fun i j => S2 i j + t * h i j), compactGeneral_eq S Ein S1 S2 hw, surfBars_eq S w corr Eest _ S2 _ rfl,
    fun t => ⟨_, compactGeneral_eq S Ein S1 _ hw, rfl⟩, ?_⟩
  have hpath := hasDerivAt_lin_phase _ (lin_dm2toEnd S) (dm2pre S Ein S1) S.kk S2 h
  have hf : HasDerivAt (fun t : ℝ => fun e x => Eest e x + (endField S Ein S1 (fun i j => S2 i j + t * h i j) e x - endField S Ein S1 S2 e x))
      (dm2toEnd S fun i j => dm2pre S Ein S1 i j * exp (I * S.kk * S2 i j) * (I * S.kk * h i j)) 0 := by
    have := (hpath.sub_const (endField S Ein S1 S2)).const_add Eest
    exact this
  refine (hasDerivAt_modeCost w corr _ _ hf).congr_deriv ?_
  have hs : Real.sqrt S.normFac ≠ 0 := (Real.sqrt_pos.2 hI).ne'
  have hs' : (Real.sqrt S.normFac : ℂ) ≠ 0 := by exact_mod_cast hs
  have h0 : endField S Ein S1 (fun i j => S2 i j + 0 * h i j) = endField S Ein S1 S2 := by simp
  have hF : (fun e x => 2 * (w:ℂ) * (if corr e x then (Eest e x + (endField S Ein S1 (fun i j => S2 i j + 0 * h i j) e x - endField S Ein S1 S2 e x)) else 0))
      = fun e x => (Real.sqrt S.normFac : ℂ) * (w * 2 / Real.sqrt S.normFac * Eest e x * (if corr e x then 1 else 0)) := by
    funext e x; rw [h0]; by_cases hc : corr e x
    · simp only [hc, if_true]; field_simp; ring
    · simp [hc]
  rw [hF]
  rcases ip_dm2toEnd S hsq σ hadj (fun e x => w * 2 / Real.sqrt S.normFac * Eest e x * (if corr e x then 1 else 0))
    (fun i j => dm2pre S Ein S1 i j * exp (I * S.kk * S2 i j) * (I * S.kk * h i j)) with hip | hip
  swap
  · exact absurd hip hs
  rw [hip]
  have e1 : (fun i j => dm2pre S Ein S1 i j * exp (I * S.kk * S2 i j) * (I * S.kk * h i j))
      = fun i j => exp (I * S.kk * S2 i j) * (fun i j => dm2pre S Ein S1 i j * (I * S.kk * h i j)) i j := by funext i j; ring
  rw [e1, ip_mul, ← mul_neg, re_ofReal_mul]
  congr 1
  exact re_ip_phase _ _ _ _

/-- C28 (data term, DM2).  At the command at which the stored fields were computed, the surface gradient of DM2 returned by the reverse code
is the derivative of the dark-hole cost with respect to the DM2 surface, in every direction `h`, for every system satisfying `GradOk`
(vortex, Lyot-type and FLC), every estimate, mode weight and dark-hole mask.  Outside `GradOk` see
`C28_hlc_violated`; with a stop at DM2 `C28_dm2_stop`; away from the linearisation point `C28_stale_violated`; with a penalty
`C28_penalty_violated`. -/
theorem C28_data_dm2 (S : Sys N N4 Neta Nxi Meta Mxi) (hw : S.flagDMwfe = false) (ok : GradOk S) (hI : 0 < S.normFac)
    (Ein : Pl N) (S1 S2 : ZMod N → ZMod N → ℝ) (w : ℝ) (corr : Fin Meta → Fin Mxi → Bool) (Eest : Fin Meta → Fin Mxi → ℂ)
    (h : ZMod N → ZMod N → ℝ) :
    ∃ (st : Fwd N Meta Mxi) (bar1 bar2 : ZMod N → ZMod N → ℝ) (E : ℝ → Fin Meta → Fin Mxi → ℂ), compactGeneral S Ein S1 S2 = .ok st ∧ surfBars S w corr Eest st S2 = .ok (bar1, bar2) ∧
      (∀ t : ℝ, ∃ f, compactGeneral S Ein S1 (fun i j => S2 i j + t * h i j) = .ok f ∧ f.Eout = E t) ∧
      HasDerivAt (fun t : ℝ => modeCost w corr (fun e x => Eest e x + (E t e x - st.Eout e x))) (∑ i, ∑ j, bar2 i j * h i j) 0 := by
  obtain ⟨st, b1, b2, E, h1, h2, h3, h4⟩ := data_dm2_core S hw ok.square 1 ok.adj hI Ein S1 S2 w corr Eest h
  rw [one_mul] at h4
  exact ⟨st, b1, b2, E, h1, h2, h3, h4⟩

/-- The exact derivative of the data cost with respect to the DM1 surface, with any stop at DM2: the code's back-propagated field `gd2`
must be multiplied by the conjugate of the stop before it is propagated to DM1. -/
theorem data_dm1_core (S : Sys N N4 Neta Nxi Meta Mxi) (hw : S.flagDMwfe = false) (ok : GradOk S) (hI : 0 < S.normFac)
    (Ein : Pl N) (S1 S2 : ZMod N → ZMod N → ℝ) (w : ℝ) (corr : Fin Meta → Fin Mxi → Bool) (Eest : Fin Meta → Fin Mxi → ℂ)
    (h : ZMod N → ZMod N → ℝ) (gd2 : Pl N)
    (hgd : gd2 = fun i j => starRingEnd ℂ (exp (I * S.kk * S2 i j)) *
      gradDm2 S (fun e x => w * 2 / Real.sqrt S.normFac * Eest e x * (if corr e x then 1 else 0)) i j) :
    HasDerivAt (fun t : ℝ => modeCost w corr (fun e x => Eest e x +
        (endField S Ein (fun i j => S1 i j + t * h i j) S2 e x - endField S Ein S1 S2 e x)))
      (∑ i, ∑ j, (-S.kk * (ptpCore (fun i j => starRingEnd ℂ (S.stop2 i j) * gd2 i j) (S.dx * N) S.wvl (-S.d12) i j *
        starRingEnd ℂ (dm1post S Ein S1 i j)).im) * h i j) 0 := by
  have hL : IsLinearMap ℂ (fun E : Pl N => dm2toEnd S fun i j => (S.stop2 i j * exp (I * S.kk * S2 i j)) * ptpCore E (S.dx * N) S.wvl S.d12 i j) :=
    IsLinearMap.comp' (lin_dm2toEnd S) (IsLinearMap.comp' (lin_mul fun i j => S.stop2 i j * exp (I * S.kk * S2 i j)) (lin_ptpCore (N := N) (S.dx * N) S.wvl S.d12))
  have hpath := hasDerivAt_lin_phase _ hL (dm1pre S Ein) S.kk S1 h
  have hend : ∀ T : ZMod N → ZMod N → ℝ, endField S Ein T S2 = dm2toEnd S fun i j => (S.stop2 i j * exp (I * S.kk * S2 i j)) * ptpCore (dm1post S Ein T) (S.dx * N) S.wvl S.d12 i j := by
    intro T; unfold endField; congr 1; funext i j; unfold dm2pre; ring
  have hf : HasDerivAt (fun t : ℝ => fun e x => Eest e x + (endField S Ein (fun i j => S1 i j + t * h i j) S2 e x - endField S Ein S1 S2 e x))
      (dm2toEnd S fun i j => (S.stop2 i j * exp (I * S.kk * S2 i j)) *
        ptpCore (fun i j => dm1pre S Ein i j * exp (I * S.kk * S1 i j) * (I * S.kk * h i j)) (S.dx * N) S.wvl S.d12 i j) 0 := by
    simp only [hend]
    have := (hpath.sub_const (dm2toEnd S fun i j => (S.stop2 i j * exp (I * S.kk * S2 i j)) * ptpCore (dm1post S Ein S1) (S.dx * N) S.wvl S.d12 i j)).const_add Eest
    exact this
  refine (hasDerivAt_modeCost w corr _ _ hf).congr_deriv ?_
  have hs : Real.sqrt S.normFac ≠ 0 := (Real.sqrt_pos.2 hI).ne'
  have hs' : (Real.sqrt S.normFac : ℂ) ≠ 0 := by exact_mod_cast hs
  have h0 : endField S Ein (fun i j => S1 i j + 0 * h i j) S2 = endField S Ein S1 S2 := by simp
  have hF : (fun e x => 2 * (w:ℂ) * (if corr e x then (Eest e x + (endField S Ein (fun i j => S1 i j + 0 * h i j) S2 e x - endField S Ein S1 S2 e x)) else 0))
      = fun e x => (Real.sqrt S.normFac : ℂ) * (w * 2 / Real.sqrt S.normFac * Eest e x * (if corr e x then 1 else 0)) := by
    funext e x; rw [h0]; by_cases hc : corr e x
    · simp only [hc, if_true]; field_simp; ring
    · simp [hc]
  rw [hF]
  rcases ip_dm2toEnd S ok.square 1 ok.adj (fun e x => w * 2 / Real.sqrt S.normFac * Eest e x * (if corr e x then 1 else 0))
    (fun i j => (S.stop2 i j * exp (I * S.kk * S2 i j)) *
        ptpCore (fun i j => dm1pre S Ein i j * exp (I * S.kk * S1 i j) * (I * S.kk * h i j)) (S.dx * N) S.wvl S.d12 i j) with hip | hip
  swap
  · exact absurd hip hs
  have e1 : (fun i j => starRingEnd ℂ (S.stop2 i j * exp (I * S.kk * S2 i j)) *
      gradDm2 S (fun e x => w * 2 / Real.sqrt S.normFac * Eest e x * (if corr e x then 1 else 0)) i j)
      = fun i j => starRingEnd ℂ (S.stop2 i j) * gd2 i j := by
    subst hgd; funext i j; rw [map_mul]; ring
  rw [hip, ip_mul, e1, ip_ptpCore, ofReal_one, one_mul]
  exact re_ip_phase _ _ _ _

/-- C28 (data term, DM1), without a mask at the DM2 plane. -/
theorem C28_data_dm1 (S : Sys N N4 Neta Nxi Meta Mxi) (hw : S.flagDMwfe = false) (ok : GradOk S) (hI : 0 < S.normFac)
    (hstop : ∀ i j, S.stop2 i j = 1)
    (Ein : Pl N) (S1 S2 : ZMod N → ZMod N → ℝ) (w : ℝ) (corr : Fin Meta → Fin Mxi → Bool) (Eest : Fin Meta → Fin Mxi → ℂ)
    (h : ZMod N → ZMod N → ℝ) :
    ∃ (st : Fwd N Meta Mxi) (bar1 bar2 : ZMod N → ZMod N → ℝ) (E : ℝ → Fin Meta → Fin Mxi → ℂ), compactGeneral S Ein S1 S2 = .ok st ∧ surfBars S w corr Eest st S2 = .ok (bar1, bar2) ∧
      (∀ t : ℝ, ∃ f, compactGeneral S Ein (fun i j => S1 i j + t * h i j) S2 = .ok f ∧ f.Eout = E t) ∧
      HasDerivAt (fun t : ℝ => modeCost w corr (fun e x => Eest e x + (E t e x - st.Eout e x))) (∑ i, ∑ j, bar1 i j * h i j) 0 := by
  refine ⟨_, _, _, fun t => endField S Ein (fun i j => S1 i j + t * h i j) S2, compactGeneral_eq S Ein S1 S2 hw, surfBars_eq S w corr Eest _ S2 _ rfl,
    fun t => ⟨_, compactGeneral_eq S Ein _ S2 hw, rfl⟩, ?_⟩
  have := data_dm1_core S hw ok hI Ein S1 S2 w corr Eest h _ rfl
  simp only [hstop, map_one, one_mul] at this
  exact this

/-- C28 deviates with a stop at DM2 (`flagDM2stop`): the reverse code leaves it out on the way to DM1.  With the two DMs in the same plane and
a real stop transmission `s`, the derivative of the cost is obtained from the returned DM1 surface gradient by multiplying it pixel by
pixel with `s`; e.g. the returned gradient is non-zero at pixels where DM1 has no influence at all. -/
theorem C28_dm2_stop (S : Sys N N4 Neta Nxi Meta Mxi) (hw : S.flagDMwfe = false) (ok : GradOk S) (hI : 0 < S.normFac) (hd : S.d12 = 0)
    (s : ZMod N → ZMod N → ℝ) (hstop : ∀ i j, S.stop2 i j = s i j)
    (Ein : Pl N) (S1 S2 : ZMod N → ZMod N → ℝ) (w : ℝ) (corr : Fin Meta → Fin Mxi → Bool) (Eest : Fin Meta → Fin Mxi → ℂ)
    (h : ZMod N → ZMod N → ℝ) :
    ∃ (st : Fwd N Meta Mxi) (bar1 bar2 : ZMod N → ZMod N → ℝ) (E : ℝ → Fin Meta → Fin Mxi → ℂ), compactGeneral S Ein S1 S2 = .ok st ∧ surfBars S w corr Eest st S2 = .ok (bar1, bar2) ∧
      (∀ t : ℝ, ∃ f, compactGeneral S Ein (fun i j => S1 i j + t * h i j) S2 = .ok f ∧ f.Eout = E t) ∧
      HasDerivAt (fun t : ℝ => modeCost w corr (fun e x => Eest e x + (E t e x - st.Eout e x))) (∑ i, ∑ j, s i j * bar1 i j * h i j) 0 := by
  refine ⟨_, _, _, fun t => endField S Ein (fun i j => S1 i j + t * h i j) S2, compactGeneral_eq S Ein S1 S2 hw, surfBars_eq S w corr Eest _ S2 _ rfl,
    fun t => ⟨_, compactGeneral_eq S Ein _ S2 hw, rfl⟩, ?_⟩
  refine (data_dm1_core S hw ok hI Ein S1 S2 w corr Eest h _ rfl).congr_deriv ?_
  refine Finset.sum_congr rfl fun i _ => Finset.sum_congr rfl fun j _ => ?_
  rw [hd, neg_zero, ptpCore_zero, ptpCore_zero]
  simp only [hstop, conj_ofReal]
  change -S.kk * ((s i j : ℂ) * _ * starRingEnd ℂ (dm1post S Ein S1 i j)).im * h i j = s i j * (-S.kk * (_ * starRingEnd ℂ (dm1post S Ein S1 i j)).im) * h i j
  rw [mul_assoc (s i j : ℂ), im_ofReal_mul]
  ring

/-! ### deviations -/

/-- HLC with a spatially constant mask: the forward model carries the outer transmission `c`, the reverse code does not. -/
theorem adj_const_mask (S : Sys N N4 Neta Nxi Meta Mxi) (c : ℝ) (hc : S.coro = .babinet (fun _ _ => (c : ℂ)) c)
    (hN : Even N) (hN4 : Even N4) (hle : N4 ≤ N)
    (hz : S.rel S.n34 % 2 = 1 → S.centering = .interpixel ∨ ∀ i j : ZMod N4, (i = 0 ∨ j = 0) → S.lyot i j = 0) : AdjUpTo S c := by
  intro g hg E
  unfold p3to4 p4to3Grad
  rw [hc]
  dsimp only
  have hzero : ∀ (X : Fin Neta → Fin Nxi → ℂ), (fun e x => ((c : ℂ) - c) * X e x) = (0 : Fin Neta → Fin Nxi → ℂ) := by
    intro X; funext e x; simp
  have hzero' : ∀ (X : Fin Neta → Fin Nxi → ℂ), (fun e x => starRingEnd ℂ ((c : ℂ) - c) * X e x) = (0 : Fin Neta → Fin Nxi → ℂ) := by
    intro X; funext e x; simp
  rw [hzero, hzero']
  have z1 := (lin_mftF2p (Neta := Neta) (Nxi := Nxi) S.fl S.wvl (S.fpmScale * S.dxiF3) (S.fpmScale * S.detaF3) S.dx4 N4 S.centering).map_zero
  have z2 := (lin_mftF2p (Neta := Neta) (Nxi := Nxi) (-S.fl) S.wvl S.dxiF3 S.detaF3 S.dx4 N S.centering).map_zero
  rw [z1, z2, lin_ofFin.map_zero, lin_ofFin.map_zero, (lin_relay _ _).map_zero]
  have e1 : (fun i j => (c : ℂ) * padF N4 (relay E (S.rel S.n34) S.centering) i j - (0 : Pl N4) i j) = (c : ℂ) • padF N4 (relay E (S.rel S.n34) S.centering) := by
    funext i j; simp
  have e2 : (fun i j => padF N (relay g (S.rel S.n34) S.centering) i j + (0 : Pl N) i j) = padF N (relay g (S.rel S.n34) S.centering) := by
    funext i j; simp
  rw [e1, e2, ip_smul_right, ip_padF, ip_relay, padF_relay hN hN4 hle]
  intro ho
  exact (hz ho).imp id fun h i j hij => hg i j (h i j hij)

/-- C28 fails for an HLC: the reverse code omits the transmission outside the focal-plane mask.  With a mask of constant real transmission
`c`, the derivative of the data cost is `c` times the returned surface gradient: wrong unless `c = 1`, and of the wrong sign for `c < 0`. -/
theorem C28_hlc_violated (S : Sys N N4 Neta Nxi Meta Mxi) (hw : S.flagDMwfe = false) (hsq : S.deta = S.dxi) (hI : 0 < S.normFac)
    (c : ℝ) (hc : S.coro = .babinet (fun _ _ => (c : ℂ)) c) (hN : Even N) (hN4 : Even N4) (hle : N4 ≤ N)
    (hz : S.rel S.n34 % 2 = 1 → S.centering = .interpixel ∨ ∀ i j : ZMod N4, (i = 0 ∨ j = 0) → S.lyot i j = 0)
    (Ein : Pl N) (S1 S2 : ZMod N → ZMod N → ℝ) (w : ℝ) (corr : Fin Meta → Fin Mxi → Bool) (Eest : Fin Meta → Fin Mxi → ℂ)
    (h : ZMod N → ZMod N → ℝ) :
    ∃ (st : Fwd N Meta Mxi) (bar1 bar2 : ZMod N → ZMod N → ℝ) (E : ℝ → Fin Meta → Fin Mxi → ℂ), compactGeneral S Ein S1 S2 = .ok st ∧
      surfBars S w corr Eest st S2 = .ok (bar1, bar2) ∧
      (∀ t : ℝ, ∃ f, compactGeneral S Ein S1 (fun i j => S2 i j + t * h i j) = .ok f ∧ f.Eout = E t) ∧
      HasDerivAt (fun t : ℝ => modeCost w corr (fun e x => Eest e x + (E t e x - st.Eout e x))) (c * ∑ i, ∑ j, bar2 i j * h i j) 0 :=
  data_dm2_core S hw hsq c (adj_const_mask S c hc hN hN4 hle hz) hI Ein S1 S2 w corr Eest h

/-- The command-penalty term is differentiated correctly only without penalty: for `c = 0` the returned gradient is the data gradient. -/
theorem C28_no_penalty {n : Type} [Fintype n] [DecidableEq n] (J : (n → ℝ) → ℝ) (G : (n → ℝ) → n → ℝ) (u : n → ℝ) (k : n)
    (hJ : HasDerivAt (fun t : ℝ => J (u + t • Pi.single k 1)) (G u k) 0) :
    HasDerivAt (fun t : ℝ => (finishGradient (J (u + t • Pi.single k 1)) 0 (G (u + t • Pi.single k 1)) (u + t • Pi.single k 1)).1)
      ((finishGradient (J u) 0 (G u) u).2 k) 0 := by
  unfold finishGradient
  simpa using hJ

theorem hasDerivAt_penalty {n : Type} [Fintype n] [DecidableEq n] (c : ℝ) (u : n → ℝ) (k : n) :
    HasDerivAt (fun t : ℝ => c * ∑ i, (u + t • Pi.single k 1 : n → ℝ) i ^ 2) (2 * c * u k) 0 := by
  have h1 : ∀ i : n, HasDerivAt (fun t : ℝ => (u + t • Pi.single k 1 : n → ℝ) i ^ 2) (2 * u i * (Pi.single k (1:ℝ) : n → ℝ) i) 0 := by
    intro i
    have h0 : HasDerivAt (fun t : ℝ => u i + t * (Pi.single k (1:ℝ) : n → ℝ) i) ((Pi.single k (1:ℝ) : n → ℝ) i) 0 := by
      simpa using ((hasDerivAt_id (0:ℝ)).mul_const ((Pi.single k (1:ℝ) : n → ℝ) i)).const_add (u i)
    have := h0.pow 2
    refine this.congr_deriv ?_
    simp
  have h2 := (HasDerivAt.fun_sum fun i (_ : i ∈ Finset.univ) => h1 i).const_mul c
  refine h2.congr_deriv ?_
  rw [Finset.sum_eq_single k]
  · simp; ring
  · intro i _ hi; simp [hi]
  · simp

/-- C28 fails for every non-zero penalty coefficient `c`: the code adds `2 c gradient` instead of `2 c u`, so at every command `u` whose `k`-th
entry differs from the `k`-th entry of the data gradient, the returned entry is not the derivative of the returned cost. -/
theorem C28_penalty_violated {n : Type} [Fintype n] [DecidableEq n] (J : (n → ℝ) → ℝ) (G : (n → ℝ) → n → ℝ) (u : n → ℝ) (k : n) (c : ℝ)
    (hJ : HasDerivAt (fun t : ℝ => J (u + t • Pi.single k 1)) (G u k) 0) (hc : c ≠ 0) (hne : G u k ≠ u k) :
    ¬ HasDerivAt (fun t : ℝ => (finishGradient (J (u + t • Pi.single k 1)) c (G (u + t • Pi.single k 1)) (u + t • Pi.single k 1)).1)
      ((finishGradient (J u) c (G u) u).2 k) 0 := by
  intro h
  have h' : HasDerivAt (fun t : ℝ => J (u + t • Pi.single k 1) + c * ∑ i, (u + t • Pi.single k 1 : n → ℝ) i ^ 2) (G u k + 2 * c * u k) 0 :=
    hJ.add (hasDerivAt_penalty c u k)
  have he := h.unique h'
  change G u k + 2 * c * G u k = G u k + 2 * c * u k at he
  have : 2 * c * (G u k - u k) = 0 := by linear_combination he
  rcases mul_eq_zero.1 this with h1 | h1
  · exact hc (by linarith)
  · exact hne (by linarith)

/-- a quadratic data cost meets the hypotheses of `C28_penalty_violated` at every command with non-zero first entry -/
example (u : Fin 3 → ℝ) (hu : u 0 ≠ 0) : HasDerivAt (fun t : ℝ => (fun v : Fin 3 → ℝ => 3 * ∑ i, v i ^ 2) (u + t • Pi.single 0 1))
    ((fun v : Fin 3 → ℝ => fun i => 2 * 3 * v i) u 0) 0 ∧ (fun v : Fin 3 → ℝ => fun i => 2 * 3 * v i) u 0 ≠ u 0 := by
  refine ⟨hasDerivAt_penalty 3 u 0, ?_⟩
  intro h
  apply hu
  change 2 * 3 * u 0 = u 0 at h
  linarith

/-- `demoSys` satisfies the conditions of the C28 data-term theorems -/
theorem demo_gradOk : GradOk demoSys where
  square := rfl
  mft := fun _ => ⟨rfl, rfl, rfl⟩
  babinet := fun mask t h => by unfold demoSys at h; exact Coro.noConfusion rfl rfl (heq_of_eq h)

theorem demo_const_relay (z : ℂ) (n : ℤ) (c : Util.Centering) : relay (fun _ _ => z : Pl 2) n c = fun _ _ => z := by
  unfold relay roll2 reverse2; split
  · split <;> rfl
  · rfl

theorem demo_p2f (z : ℂ) (c : Util.Centering) : mftP2f (toFin (fun _ _ => z : Pl 2)) 1 1 1 1 1 1 1 c = fun _ _ => 4 * z := by
  funext e x
  unfold mftP2f toFin
  have h1 : ax 1 1 c e = 0 := by rw [ax_eq]; simp
  have h2 : ax 1 1 c x = 0 := by rw [ax_eq]; simp
  simp [h1, h2]
  ring

theorem demo_f2p (z : ℂ) (c : Util.Centering) : mftF2p (fun (_ : Fin 1) (_ : Fin 1) => z) 1 1 1 1 1 2 c = fun _ _ => z := by
  funext a b
  unfold mftF2p
  have h1 : ∀ e, ax 1 1 c e = 0 := fun e => by rw [ax_eq]; simp
  simp [h1]

/-- final field of the demonstration system for uniform DM2 displacement `s` -/
theorem demo_field (s : ℝ) : endField demoSys (fun _ _ => 1) (fun _ _ => 0) (fun _ _ => s) = fun _ _ => 16 * exp (I * demoSys.kk * s) := by
  have hd : demoSys.d12 = 0 := rfl
  have hd2 : demoSys.dP2dm1 = 0 := rfl
  unfold endField dm2toEnd dm2pre dm1post dm1pre
  rw [hd, hd2]
  simp only [ptpCore_zero, add_zero, neg_zero]
  have hp : demoSys.pupil = fun _ _ => 1 := rfl
  have hs1 : demoSys.stop1 = fun _ _ => 1 := rfl
  have hs2 : demoSys.stop2 = fun _ _ => 1 := rfl
  simp only [hp, hs1, hs2, one_mul, mul_one, ofReal_zero, mul_zero, exp_zero, ptpCore_zero, demo_const_relay]
  set z := exp (I * demoSys.kk * s)
  have h34 : p3to4 demoSys (fun _ _ => z : Pl 2) = fun _ _ => 4 * z := by
    have : p3to4 demoSys (fun _ _ => z : Pl 2) = relay (ofFin (mftF2p (fun e x => 1 * mftP2f (toFin (fun _ _ => z : Pl 2)) 1 1 1 (1 * 1) 1 (1 * 1) 1 .interpixel e x)
      1 1 (1 * 1) (1 * 1) 1 2 .interpixel)) (demoSys.rel 1 - 1) .interpixel := rfl
    rw [this]
    simp only [one_mul, demo_p2f, demo_f2p]
    have : (ofFin fun _ _ => 4 * z) = (fun _ _ => 4 * z : Pl 2) := rfl
    rw [this, demo_const_relay]
  rw [h34]
  have hE : p4toEnd demoSys (fun _ _ => 4 * z) = fun e x => mftP2f (toFin (relay (fun i j => 1 * (4 * z) : Pl 2) (demoSys.rel 1) .interpixel)) 1 1 1 1 1 1 1
    .interpixel e x / Real.sqrt 1 := rfl
  rw [hE]
  simp only [one_mul, demo_const_relay, demo_p2f, Real.sqrt_one, ofReal_one, div_one]
  funext e x; ring

/-- C28 fails away from the linearisation point: the reverse code keeps using the fields and the DM2 phase stored at the old command.  In the
demonstration system, at a DM2 displacement of an eighth of a wavelength, the cost is stationary but the returned surface gradient is not zero. -/
theorem C28_stale_violated : ∃ (st : Fwd 2 1 1) (bar1 bar2 : ZMod 2 → ZMod 2 → ℝ) (E : ℝ → Fin 1 → Fin 1 → ℂ) (Eest : Fin 1 → Fin 1 → ℂ) (s : ℝ),
    compactGeneral demoSys (fun _ _ => 1) (fun _ _ => 0) (fun _ _ => 0) = .ok st ∧
    (∀ t : ℝ, ∃ f, compactGeneral demoSys (fun _ _ => 1) (fun _ _ => 0) (fun _ _ => t) = .ok f ∧ f.Eout = E t) ∧
    surfBars demoSys 1 (fun _ _ => true) (fun e x => Eest e x + (E s e x - st.Eout e x)) st (fun _ _ => 0) = .ok (bar1, bar2) ∧
    HasDerivAt (fun t : ℝ => modeCost 1 (fun _ _ => true) (fun e x => Eest e x + (E t e x - st.Eout e x))) 0 s ∧
    ∑ i, ∑ j, bar2 i j ≠ 0 := by
  have hk : demoSys.kk = 4 * Real.pi := by unfold Sys.kk demoSys; ring
  obtain ⟨st, b1, b2, E, h1, h2, h3, h4⟩ := C28_data_dm2 demoSys rfl demo_gradOk (by norm_num [demoSys]) (fun _ _ => 1) (fun _ _ => 0) (fun _ _ => 0) 1
    (fun _ _ => true) (fun _ _ => 16 * I) (fun _ _ => 1)
  have hst := (compactGeneral_eq demoSys (fun _ _ => 1) (fun _ _ => 0) (fun _ _ => 0) rfl).symm.trans h1
  have hst0 : st.Eout = fun _ _ => 16 := by
    rw [← Except.ok.inj hst]; change endField _ _ _ _ = _; rw [demo_field]; simp
  have hE : ∀ t, E t = fun _ _ => 16 * exp (I * demoSys.kk * t) := by
    intro t
    obtain ⟨f, hf, hfe⟩ := h3 t
    simp only [zero_add, mul_one] at hf
    rw [compactGeneral_eq _ _ _ _ rfl] at hf
    rw [← hfe, ← Except.ok.inj hf]
    exact demo_field t
  have hs : E (1 / 8) = fun _ _ => 16 * I := by
    rw [hE, hk]
    funext _ _
    have : I * ((4 * Real.pi : ℝ) : ℂ) * ((1 / 8 : ℝ) : ℂ) = Real.pi / 2 * I := by push_cast; ring
    rw [this, exp_pi_div_two_mul_I]
  refine ⟨st, b1, b2, E, fun _ _ => 16, 1 / 8, h1, ?_, ?_, ?_, ?_⟩
  · intro t
    obtain ⟨f, hf, hfe⟩ := h3 t
    simp only [zero_add, mul_one] at hf
    exact ⟨f, hf, hfe⟩
  · rw [hs, hst0]
    simpa using h2
  · have hc : (fun t : ℝ => modeCost 1 (fun (_ : Fin 1) (_ : Fin 1) => true) (fun e x => (16 : ℂ) + (E t e x - st.Eout e x))) = fun _ => 256 := by
      funext t
      rw [hst0, hE t]
      unfold modeCost
      simp only [if_true, Finset.univ_unique, Finset.sum_const, Finset.card_singleton, one_smul, one_mul]
      have hn : normSq (exp (I * demoSys.kk * t)) = 1 := by
        rw [normSq_eq_norm_sq]
        have : I * demoSys.kk * t = ((demoSys.kk * t : ℝ) : ℂ) * I := by push_cast; ring
        rw [this, norm_exp_ofReal_mul_I]; norm_num
      have : (16 : ℂ) + (16 * exp (I * demoSys.kk * t) - 16) = 16 * exp (I * demoSys.kk * t) := by ring
      rw [this, map_mul, hn]
      norm_num [normSq_apply]
    rw [hc]
    exact hasDerivAt_const _ _
  · -- derivative of the frozen cost
    simp only [mul_one] at h4
    intro h0
    rw [h0] at h4
    have hd : HasDerivAt (fun t : ℝ => modeCost 1 (fun (_ : Fin 1) (_ : Fin 1) => true) (fun e x => 16 * I + (E t e x - st.Eout e x)))
        (256 * (2 * demoSys.kk)) 0 := by
      have hc : (fun t : ℝ => modeCost 1 (fun (_ : Fin 1) (_ : Fin 1) => true) (fun e x => 16 * I + (E t e x - st.Eout e x))) =
          fun t : ℝ => 256 * ((Real.cos (demoSys.kk * t) - 1) ^ 2 + (1 + Real.sin (demoSys.kk * t)) ^ 2) := by
        funext t
        rw [hst0, hE t]
        unfold modeCost
        simp only [if_true, Finset.univ_unique, Finset.sum_const, Finset.card_singleton, one_smul, one_mul]
        have : I * demoSys.kk * t = ((demoSys.kk * t : ℝ) : ℂ) * I := by push_cast; ring
        rw [this, exp_mul_I, ← ofReal_cos, ← ofReal_sin, normSq_apply]
        have h16r : (16 : ℂ).re = 16 := rfl
        have h16i : (16 : ℂ).im = 0 := rfl
        simp only [add_re, sub_re, mul_re, add_im, sub_im, mul_im, I_re, I_im, ofReal_re, ofReal_im, h16r, h16i]
        ring
      rw [hc]
      have hlin : HasDerivAt (fun t : ℝ => demoSys.kk * t) demoSys.kk 0 := by simpa using (hasDerivAt_id (0:ℝ)).const_mul demoSys.kk
      have hcos := ((hlin.cos).sub_const 1).pow 2
      have hsin := ((hlin.sin).const_add 1).pow 2
      have := (hcos.add hsin).const_mul 256
      refine this.congr_deriv ?_
      simp
    have hu := h4.unique hd
    rw [hk] at hu
    have := Real.pi_pos
    nlinarith

end Verif.Compact
