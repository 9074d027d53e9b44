import Verif.Model.Compact
import Verif.Props.Prop
import Mathlib.Analysis.SpecialFunctions.ExpDeriv
import Mathlib.Analysis.Calculus.Deriv.Prod
import Mathlib.LinearAlgebra.Matrix.Defs
import Mathlib.Topology.Algebra.Module.FiniteDimension
import Mathlib.LinearAlgebra.Complex.FiniteDimensional

/-! # Linearity and adjoint lemmas for the compact optical model -/

set_option linter.unusedSectionVars false

namespace Verif.Compact
open Verif Complex Verif.Optics

theorem toFin_ofFin {N : ℕ} [NeZero N] (E : Fin N → Fin N → ℂ) : toFin (ofFin E) = E := by
  funext a b
  unfold toFin ofFin
  congr 1 <;> ext <;> simp [ZMod.val_natCast, Nat.mod_eq_of_lt]

theorem ofFin_toFin {N : ℕ} [NeZero N] (E : Pl N) : ofFin (toFin E) = E := by
  funext a b
  unfold toFin ofFin
  simp

variable {N N4 Neta Nxi Meta Mxi : ℕ}

/-! ## linearity -/

theorem lin_toFin : IsLinearMap ℂ (toFin : Pl N → _) := ⟨fun _ _ => rfl, fun _ _ => rfl⟩
theorem lin_ofFin [NeZero N] : IsLinearMap ℂ (ofFin : _ → Pl N) := ⟨fun _ _ => rfl, fun _ _ => rfl⟩

theorem lin_relay (n : ℤ) (c : Util.Centering) : IsLinearMap ℂ (fun E : Pl N => relay E n c) := by
  constructor
  · intro E F; unfold relay roll2 reverse2; split
    · split <;> rfl
    · rfl
  · intro a E; unfold relay roll2 reverse2; split
    · split <;> rfl
    · rfl

theorem lin_padF (m : ℕ) : IsLinearMap ℂ (padF m : Pl N → Pl m) := by
  constructor
  · intro E F; funext i j; simp only [padF, Pi.add_apply]; split <;> simp
  · intro a E; funext i j; simp only [padF, Pi.smul_apply]; split <;> simp

theorem lin_mul {ι κ : Type*} (m : ι → κ → ℂ) : IsLinearMap ℂ (fun (E : ι → κ → ℂ) i j => m i j * E i j) := by
  constructor
  · intro E F; funext i j; simp [mul_add]
  · intro a E; funext i j; simp; ring

theorem lin_mftP2f (fl wvl dx dxi : ℝ) (Nxi : ℕ) (deta : ℝ) (Neta : ℕ) (c : Util.Centering) :
    IsLinearMap ℂ (fun E : Fin N → Fin N → ℂ => mftP2f E fl wvl dx dxi Nxi deta Neta c) := by
  constructor
  · intro E F; funext i j
    simp only [mftP2f, Pi.add_apply, mul_add, Finset.sum_add_distrib, add_mul]
  · intro a E; funext i j
    simp only [mftP2f, Pi.smul_apply, smul_eq_mul, Finset.mul_sum, Finset.sum_mul]
    exact Finset.sum_congr rfl fun _ _ => Finset.sum_congr rfl fun _ _ => by ring

theorem lin_mftF2p (fl wvl dxi deta dx : ℝ) (N : ℕ) (c : Util.Centering) :
    IsLinearMap ℂ (fun E : Fin Neta → Fin Nxi → ℂ => mftF2p E fl wvl dxi deta dx N c) := by
  constructor
  · intro E F; funext i j
    simp only [mftF2p, Pi.add_apply, mul_add, Finset.sum_add_distrib, add_mul]
  · intro a E; funext i j
    simp only [mftF2p, Pi.smul_apply, smul_eq_mul, Finset.mul_sum, Finset.sum_mul]
    exact Finset.sum_congr rfl fun _ _ => Finset.sum_congr rfl fun _ _ => by ring

theorem vortexBranch_form {A B : ℕ} (rg : Bool) (s : ℝ) (x : Fin A → ℝ) (u : Fin B → ℝ) (FPM : Fin B → Fin B → ℂ) (w : Fin B → Fin B → ℝ) :
    ∃ (F : Matrix (Fin A) (Fin B) ℂ) (G : Matrix (Fin B) (Fin A) ℂ) (m : Fin B → Fin B → ℂ), ∀ P,
      vortexBranch rg s x u FPM w P = (s : ℂ) • (F * maskMul m w ((s : ℂ) • (G * P * F)) * G) := ⟨_, _, _, fun _ => rfl⟩

theorem lin_vortexBranch {A B : ℕ} (rg : Bool) (s : ℝ) (x : Fin A → ℝ) (u : Fin B → ℝ) (FPM : Fin B → Fin B → ℂ) (w : Fin B → Fin B → ℝ) :
    IsLinearMap ℂ (vortexBranch rg s x u FPM w) := by
  obtain ⟨F, G, m, h⟩ := vortexBranch_form rg s x u FPM w
  have madd : ∀ X Y : Matrix (Fin B) (Fin B) ℂ, maskMul m w (X + Y) = maskMul m w X + maskMul m w Y := by
    intro X Y; funext p q; simp only [maskMul, Matrix.add_apply]; ring
  have msmul : ∀ (c : ℂ) (X : Matrix (Fin B) (Fin B) ℂ), maskMul m w (c • X) = c • maskMul m w X := by
    intro c X; funext p q; simp only [maskMul, Matrix.smul_apply, smul_eq_mul]; ring
  constructor
  · intro P Q
    rw [h, h, h, Matrix.mul_add, Matrix.add_mul, smul_add, madd, Matrix.mul_add, Matrix.add_mul, smul_add]
  · intro a P
    rw [h, h, Matrix.mul_smul, Matrix.smul_mul, smul_comm, msmul, Matrix.mul_smul, Matrix.smul_mul, smul_comm]

theorem lin_vortex {A : ℕ} (rg : Bool) (D l o : ℝ) (NB : ℕ) (vm : (n : ℕ) → Fin n → Fin n → ℂ) (tk : ℝ → Fin NB → Fin NB → ℝ) :
    IsLinearMap ℂ (fun P : Matrix (Fin A) (Fin A) ℂ => mftP2v2pOf rg D l o NB vm tk P) := by
  constructor
  · intro P Q
    unfold mftP2v2pOf mftP2v2p
    rw [(lin_vortexBranch _ _ _ _ _ _).map_add, (lin_vortexBranch _ _ _ _ _ _).map_add]
    exact add_add_add_comm _ _ _ _
  · intro a P
    unfold mftP2v2pOf mftP2v2p
    rw [(lin_vortexBranch _ _ _ _ _ _).map_smul, (lin_vortexBranch _ _ _ _ _ _).map_smul]
    exact (smul_add _ _ _).symm

theorem lin_toFinM : IsLinearMap ℂ (toFin : Pl N → Matrix (Fin N) (Fin N) ℂ) := ⟨fun _ _ => rfl, fun _ _ => rfl⟩
theorem lin_ofFinM [NeZero N] : IsLinearMap ℂ (ofFin : Matrix (Fin N) (Fin N) ℂ → Pl N) := ⟨fun _ _ => rfl, fun _ _ => rfl⟩

theorem lin_ptpCore [NeZero N] (w wvl dz : ℝ) : IsLinearMap ℂ (fun E : Pl N => ptpCore E w wvl dz) := by
  have key : ∀ (c : ℂ) (E F : Pl N), ptpCore (fun i j => c * E i j + F i j) w wvl dz
      = fun i j => c * ptpCore E w wvl dz i j + ptpCore F w wvl dz i j := by
    intro c E F
    obtain ⟨E', F', h1, h2, h3⟩ := C08_linear E F c w wvl dz
    have e1 := Except.ok.inj ((ptp_eq_core E w wvl dz).symm.trans h1)
    have e2 := Except.ok.inj ((ptp_eq_core F w wvl dz).symm.trans h2)
    have e3 := Except.ok.inj ((ptp_eq_core (fun i j => c * E i j + F i j) w wvl dz).symm.trans h3)
    rw [e3, e1, e2]
  have h0 : ptpCore (fun _ _ => 0 : Pl N) w wvl dz = fun _ _ => 0 := by
    have := key (-1) (fun _ _ => 0) (fun _ _ => 0)
    simp only [mul_zero, add_zero] at this
    rw [this]; funext i j; ring
  constructor
  · intro E F
    have e : (E + F : Pl N) = fun i j => 1 * E i j + F i j := by funext i j; simp
    rw [e, key]; funext i j; simp
  · intro a E
    have e : (a • E : Pl N) = fun i j => a * E i j + (fun _ _ => 0 : Pl N) i j := by funext i j; simp
    rw [e, key, h0]; funext i j; simp

theorem IsLinearMap.comp' {A B C : Type*} [AddCommMonoid A] [AddCommMonoid B] [AddCommMonoid C] [Module ℂ A] [Module ℂ B] [Module ℂ C]
    {g : B → C} {f : A → B} (hg : IsLinearMap ℂ g) (hf : IsLinearMap ℂ f) : IsLinearMap ℂ (fun x => g (f x)) :=
  ⟨fun x y => by rw [hf.map_add, hg.map_add], fun c x => by rw [hf.map_smul, hg.map_smul]⟩

theorem IsLinearMap.sub' {A B : Type*} [AddCommMonoid A] [AddCommGroup B] [Module ℂ A] [Module ℂ B]
    {g f : A → B} (hg : IsLinearMap ℂ g) (hf : IsLinearMap ℂ f) : IsLinearMap ℂ (fun x => g x - f x) :=
  ⟨fun x y => by rw [hf.map_add, hg.map_add]; abel, fun c x => by rw [hf.map_smul, hg.map_smul, smul_sub]⟩

variable [NeZero N] [NeZero N4]

theorem lin_p3to4 {M : ℕ} [NeZero M] (S : Sys N N4 Neta Nxi Meta Mxi) : IsLinearMap ℂ (p3to4 S : Pl M → Pl N4) := by
  unfold p3to4
  cases S.coro with
  | babinet mask t =>
    have h1 : IsLinearMap ℂ (fun E : Pl M => fun i j => t * padF N4 (relay E (S.rel S.n34) S.centering) i j) :=
      IsLinearMap.comp' (lin_mul (fun _ _ => t)) (IsLinearMap.comp' (lin_padF N4) (lin_relay _ _))
    have h2 := IsLinearMap.comp' (lin_relay (N := N4) (S.rel S.n34 - 1) S.centering) (IsLinearMap.comp' lin_ofFin
      (IsLinearMap.comp' (lin_mftF2p S.fl S.wvl (S.fpmScale * S.dxiF3) (S.fpmScale * S.detaF3) S.dx4 N4 S.centering)
        (IsLinearMap.comp' (lin_mul fun e x => t - mask e x) (IsLinearMap.comp'
          (lin_mftP2f S.fl S.wvl S.dx (S.fpmScale * S.dxiF3) Nxi (S.fpmScale * S.detaF3) Neta S.centering) (lin_toFin (N := M))))))
    exact IsLinearMap.sub' h1 h2
  | flc mask =>
    exact IsLinearMap.comp' (lin_relay (N := N4) (S.rel S.n34 - 1) S.centering) (IsLinearMap.comp' lin_ofFin
      (IsLinearMap.comp' (lin_mftF2p S.fl S.wvl (S.fpmScale * S.dxiF3) (S.fpmScale * S.detaF3) S.dx4 N4 S.centering)
        (IsLinearMap.comp' (lin_mul fun e x => mask e x) (IsLinearMap.comp'
          (lin_mftP2f S.fl S.wvl S.dx (S.fpmScale * S.dxiF3) Nxi (S.fpmScale * S.detaF3) Neta S.centering) (lin_toFin (N := M))))))
  | vortex D NB vm tk =>
    have a : IsLinearMap ℂ (fun E : Pl M => (mftP2v2pOf false D 4 5 NB vm tk (toFin E) : Matrix (Fin M) (Fin M) ℂ)) :=
      IsLinearMap.comp' (B := Matrix (Fin M) (Fin M) ℂ) (C := Matrix (Fin M) (Fin M) ℂ) (lin_vortex false D 4 5 NB vm tk) lin_toFinM
    have b : IsLinearMap ℂ (fun E : Pl M => ofFin (mftP2v2pOf false D 4 5 NB vm tk (toFin E))) :=
      IsLinearMap.comp' (B := Matrix (Fin M) (Fin M) ℂ) lin_ofFinM a
    exact IsLinearMap.comp' (lin_padF N4) (IsLinearMap.comp' (lin_relay (S.rel S.n34 - 1) S.centering) b)

theorem lin_p4toEnd (S : Sys N N4 Neta Nxi Meta Mxi) : IsLinearMap ℂ (p4toEnd S) := by
  have h := IsLinearMap.comp' (lin_mul (fun (_ : Fin Meta) (_ : Fin Mxi) => ((Real.sqrt S.normFac : ℝ) : ℂ)⁻¹))
    (IsLinearMap.comp' (lin_mftP2f S.fl S.wvl S.dx4 S.dxi Mxi S.deta Meta S.centering)
      (IsLinearMap.comp' lin_toFin (IsLinearMap.comp' (lin_relay (S.rel S.nEnd) S.centering) (lin_mul S.lyot))))
  have e : p4toEnd S = fun E => fun e x => ((Real.sqrt S.normFac : ℝ) : ℂ)⁻¹ *
      mftP2f (toFin (relay (fun i j => S.lyot i j * E i j) (S.rel S.nEnd) S.centering)) S.fl S.wvl S.dx4 S.dxi Mxi S.deta Meta S.centering e x := by
    funext E e x
    unfold p4toEnd
    rw [div_eq_mul_inv, mul_comm]
  rw [e]; exact h

/-- From the field just after DM2 to the normalised final field. -/
noncomputable def dm2toEnd (S : Sys N N4 Neta Nxi Meta Mxi) (E : Pl N) : Fin Meta → Fin Mxi → ℂ :=
  p4toEnd S (p3to4 S (relay (ptpCore E (S.dx * N) S.wvl (-(S.dP2dm1 + S.d12))) (S.rel S.n23) S.centering))

theorem lin_dm2toEnd (S : Sys N N4 Neta Nxi Meta Mxi) : IsLinearMap ℂ (dm2toEnd S) := by
  unfold dm2toEnd
  exact IsLinearMap.comp' (lin_p4toEnd S) (IsLinearMap.comp' (lin_p3to4 S) (IsLinearMap.comp' (lin_relay _ _) (lin_ptpCore _ _ _)))

/-- field arriving at DM1 -/
noncomputable def dm1pre (S : Sys N N4 Neta Nxi Meta Mxi) (Ein : Pl N) : Pl N := fun i j =>
  ptpCore (relay (fun i j => S.pupil i j * Ein i j) (S.rel S.n12) S.centering) (S.dx * N) S.wvl S.dP2dm1 i j * S.stop1 i j

theorem toDm1_eq (S : Sys N N4 Neta Nxi Meta Mxi) (Ein : Pl N) : toDm1 S Ein = .ok (dm1pre S Ein) := by
  unfold toDm1
  simp only [ptp_eq_core, bind, Except.bind, pure, Except.pure]
  rfl

/-- phase factor of a surface -/
noncomputable def phase (S : Sys N N4 Neta Nxi Meta Mxi) (s : ZMod N → ZMod N → ℝ) : Pl N := fun i j => exp (I * S.kk * s i j)

noncomputable def dm1post (S : Sys N N4 Neta Nxi Meta Mxi) (Ein : Pl N) (S1 : ZMod N → ZMod N → ℝ) : Pl N :=
  fun i j => dm1pre S Ein i j * exp (I * S.kk * S1 i j)
noncomputable def dm2pre (S : Sys N N4 Neta Nxi Meta Mxi) (Ein : Pl N) (S1 : ZMod N → ZMod N → ℝ) : Pl N :=
  fun i j => S.stop2 i j * ptpCore (dm1post S Ein S1) (S.dx * N) S.wvl S.d12 i j
noncomputable def endField (S : Sys N N4 Neta Nxi Meta Mxi) (Ein : Pl N) (S1 S2 : ZMod N → ZMod N → ℝ) : Fin Meta → Fin Mxi → ℂ :=
  dm2toEnd S fun i j => dm2pre S Ein S1 i j * exp (I * S.kk * S2 i j)

theorem compactGeneral_eq (S : Sys N N4 Neta Nxi Meta Mxi) (Ein : Pl N) (S1 S2 : ZMod N → ZMod N → ℝ) (hw : S.flagDMwfe = false) :
    compactGeneral S Ein S1 S2 = .ok ⟨endField S Ein S1 S2, dm1post S Ein S1, dm2pre S Ein S1⟩ := by
  unfold compactGeneral
  simp only [hw, Bool.false_eq_true, if_false, toDm1_eq, ptp_eq_core, bind, Except.bind, pure, Except.pure]
  rfl

/-! ## derivative of a linear functional of a phase screen -/

/-- For a linear `L`, the derivative of `L(a · exp(i k (s + t h)))` at `t = 0` is `L(a · exp(i k s) · i k h)`. -/
theorem hasDerivAt_lin_phase {Out : Type*} [NormedAddCommGroup Out] [NormedSpace ℂ Out] [NormedSpace ℝ Out] [IsScalarTower ℝ ℂ Out]
    (L : Pl N → Out) (hL : IsLinearMap ℂ L)
    (a : Pl N) (k : ℝ) (s h : ZMod N → ZMod N → ℝ) :
    HasDerivAt (fun t : ℝ => L fun i j => a i j * exp (I * k * (s i j + t * h i j : ℝ)))
      (L fun i j => a i j * exp (I * k * s i j) * (I * k * h i j)) 0 := by
  let Lr : Pl N →ₗ[ℝ] Out := (hL.mk' L).restrictScalars ℝ
  have hc := (LinearMap.toContinuousLinearMap Lr).hasFDerivAt (x := fun i j => a i j * exp (I * k * (s i j + 0 * h i j : ℝ)))
  have hpath : HasDerivAt (fun t : ℝ => (fun i j => a i j * exp (I * k * (s i j + t * h i j : ℝ)) : Pl N))
      (fun i j => a i j * exp (I * k * s i j) * (I * k * h i j)) 0 := by
    rw [hasDerivAt_pi]; intro i
    rw [hasDerivAt_pi]; intro j
    have h1 : HasDerivAt (fun t : ℝ => ((s i j + t * h i j : ℝ) : ℂ)) (h i j : ℂ) 0 := by
      have : HasDerivAt (fun t : ℝ => s i j + t * h i j) (h i j) 0 := by
        simpa using ((hasDerivAt_id (0:ℝ)).mul_const (h i j)).const_add (s i j)
      exact this.ofReal_comp
    have h2 := ((h1.const_mul (I * k)).cexp).const_mul (a i j)
    refine h2.congr_deriv ?_
    push_cast
    simp only [zero_mul, add_zero]
    ring
  have := hc.comp_hasDerivAt (0:ℝ) hpath
  exact this

end Verif.Compact
