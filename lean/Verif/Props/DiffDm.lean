import Verif.Model.DiffDm
import Verif.Lemmas.Adjoint

/-! # C84-C86: the differentiable DM -/

namespace Verif.DiffDm
open Verif Complex Verif.Optics Verif.Compact

variable {M : ℕ} [NeZero M]

/-! ## Lemmas on the Fourier convolution -/

theorem ip_fft2 (F G : Pl M) : ip (fft2 F) (fft2 G) = (M : ℂ) ^ 2 * ip F G := by
  have hM : (M : ℝ) ≠ 0 := by exact_mod_cast NeZero.ne M
  have hMC : (M : ℂ) ≠ 0 := by exact_mod_cast NeZero.ne M
  have lin : IsLinearMap ℂ (fun E : Pl M => fun k l => (M : ℂ)⁻¹ * fft2 E k l) := by
    constructor
    · intro x y
      have := fft2_add x y
      funext k l
      change (M : ℂ)⁻¹ * fft2 (fun i j => x i j + y i j) k l = _
      rw [this]
      simp only [Pi.add_apply]; ring
    · intro c x
      have := fft2_smul c x
      funext k l
      change (M : ℂ)⁻¹ * fft2 (fun i j => c * x i j) k l = _
      rw [this]
      simp only [Pi.smul_apply, smul_eq_mul]; ring
  have h := ip_of_isometry _ lin (fun E => by
    rw [ip_self, ip_self]
    congr 1
    have h1 : ∀ k l, normSq ((M : ℂ)⁻¹ * fft2 E k l) = ((M : ℝ)⁻¹ * (M : ℝ)⁻¹) * normSq (fft2 E k l) := by
      intro k l
      rw [normSq_mul, normSq_inv, normSq_natCast, mul_inv]
    simp only [h1, ← Finset.mul_sum]
    rw [parseval2]
    field_simp) F G
  have h2 : ip (fun k l => (M : ℂ)⁻¹ * fft2 F k l) (fun k l => (M : ℂ)⁻¹ * fft2 G k l) = ((M : ℂ)⁻¹) ^ 2 * ip (fft2 F) (fft2 G) := by
    unfold ip
    simp only [Finset.mul_sum]
    refine Finset.sum_congr rfl fun i _ => Finset.sum_congr rfl fun j _ => ?_
    rw [map_mul, map_inv₀, Complex.conj_natCast]; ring
  rw [h2] at h
  rw [← h]
  field_simp

/-- circular convolution through the FFT, before the real part and the shift -/
noncomputable def conv (X t : Pl M) : Pl M := ifft2 fun k l => fft2 X k l * t k l

theorem ip_conv (G X t : Pl M) : ip G (conv X t) = ip (conv G fun k l => starRingEnd ℂ (t k l)) X := by
  have hMC : (M : ℂ) ^ 2 ≠ 0 := pow_ne_zero 2 (by exact_mod_cast NeZero.ne M)
  refine mul_left_cancel₀ hMC ?_
  rw [← ip_fft2, ← ip_fft2]
  unfold conv
  rw [fft2_ifft2, fft2_ifft2]
  unfold ip
  refine Finset.sum_congr rfl fun i _ => Finset.sum_congr rfl fun j _ => ?_
  rw [map_mul, starRingEnd_self_apply]; ring

theorem fft1_roll (x : ZMod M → ℂ) (s : ZMod M) (k : ZMod M) :
    fft1 (fun i => x (i - s)) k = ZMod.stdAddChar (-(s * k)) * fft1 x k := by
  have key : ∀ (a b : ZMod M), exp (-(2 * Real.pi * I * (a.val * b.val) / M)) = ZMod.stdAddChar (-(a * b)) := by
    intro a b
    rw [AddChar.map_neg_eq_inv, ← exp_eq_char, ← exp_neg]
  unfold fft1
  simp only [key]
  rw [Finset.mul_sum]
  refine (Fintype.sum_equiv (Equiv.addRight s) (fun j => ZMod.stdAddChar (-(s * k)) * (ZMod.stdAddChar (-(j * k)) * x j))
      (fun j => ZMod.stdAddChar (-(j * k)) * x (j - s)) (fun j => ?_)).symm
  simp only [Equiv.coe_addRight, add_sub_cancel_right]
  rw [← mul_assoc, ← AddChar.map_add_eq_mul]
  congr 2; ring

theorem fft2_roll (E : Pl M) (s t : ZMod M) (k l : ZMod M) :
    fft2 (fun i j => E (i - s) (j - t)) k l = ZMod.stdAddChar (-(s * k)) * ZMod.stdAddChar (-(t * l)) * fft2 E k l := by
  unfold fft2
  have h : (fun i => fft1 (fun j => E (i - s) (j - t)) l) = fun i => ZMod.stdAddChar (-(t * l)) * (fun i => fft1 (E i) l) (i - s) := by
    funext i
    exact fft1_roll (E (i - s)) t l
  rw [h]
  have h2 : fft1 (fun i => ZMod.stdAddChar (-(t * l)) * (fun i => fft1 (E i) l) (i - s)) k
      = ZMod.stdAddChar (-(t * l)) * fft1 (fun i => (fun i => fft1 (E i) l) (i - s)) k := by
    unfold fft1
    rw [Finset.mul_sum]
    exact Finset.sum_congr rfl fun i _ => by ring
  rw [h2, fft1_roll (fun i => fft1 (E i) l) s k]; ring

theorem conv_roll (X t : Pl M) (a b : ZMod M) : conv (fun i j => X (i - a) (j - b)) t = fun i j => conv X t (i - a) (j - b) := by
  have h : fft2 (conv (fun i j => X (i - a) (j - b)) t) = fft2 (fun i j => conv X t (i - a) (j - b)) := by
    funext k l
    rw [fft2_roll]
    unfold conv
    rw [fft2_ifft2, fft2_ifft2, fft2_roll]
    ring
  rw [← ifft2_fft2 (conv _ t), h, ifft2_fft2]

/-- real array seen as a complex one -/
def IsRealArr (X : Pl M) : Prop := ∀ i j, starRingEnd ℂ (X i j) = X i j

theorem ip_re (H X : Pl M) (hH : IsRealArr H) : ip H (fun i j => ((X i j).re : ℂ)) = ((ip H X).re : ℂ) := by
  unfold ip
  simp only [re_sum, ofReal_sum]
  refine Finset.sum_congr rfl fun i _ => Finset.sum_congr rfl fun j _ => ?_
  rw [hH i j]
  have : H i j = ((H i j).re : ℂ) := ((conj_eq_iff_re.1 (hH i j))).symm
  rw [this]
  simp

theorem ip_re_left (X P : Pl M) (hP : IsRealArr P) : ip (fun i j => ((X i j).re : ℂ)) P = ((ip X P).re : ℂ) := by
  unfold ip
  simp only [re_sum, ofReal_sum]
  refine Finset.sum_congr rfl fun i _ => Finset.sum_congr rfl fun j _ => ?_
  have : P i j = ((P i j).re : ℂ) := ((conj_eq_iff_re.1 (hP i j))).symm
  rw [this]
  simp

theorem ip_fftshift (H X : Pl M) : ip H (fftshift X) = ip (ifftshift H) X := by
  have h := sum_roll2 (fun i j => starRingEnd ℂ (ifftshift H i j) * X i j) ((M / 2 : ℕ) : ℤ) ((M / 2 : ℕ) : ℤ)
  unfold ip
  rw [← h]
  refine Finset.sum_congr rfl fun i _ => Finset.sum_congr rfl fun j _ => ?_
  unfold roll2 ifftshift fftshift roll2
  congr 2
  push_cast
  simp

omit [NeZero M] in
theorem half_add (h : M % 2 = 0) : ((M / 2 : ℕ) : ZMod M) + ((M / 2 : ℕ) : ZMod M) = 0 := by
  rw [← Nat.cast_add, show M / 2 + M / 2 = M by omega, ZMod.natCast_self]

theorem ifftshift_even (h : M % 2 = 0) (H : Pl M) : ifftshift H = fftshift H := by
  funext i j
  unfold ifftshift fftshift roll2
  have := half_add h
  simp only [Int.cast_neg, Int.cast_natCast]
  congr 1
  · linear_combination this
  · linear_combination this

/-- the two applications of the transfer function are adjoint on real arrays -/
theorem ip_applyTf (heven : M % 2 = 0) (G P t : Pl M) (hG : IsRealArr G) (hP : IsRealArr P) :
    ip G (applyTf P t) = ip (applyTf G fun k l => starRingEnd ℂ (t k l)) P := by
  unfold applyTf
  rw [ip_fftshift, ifftshift_even heven]
  have hG' : IsRealArr (fftshift G) := fun i j => hG _ _
  have e1 := ip_re (fftshift G) (conv P t) hG'
  unfold conv at e1
  rw [e1]
  have e2 : (fftshift fun i j => (((ifft2 fun k l => fft2 G k l * starRingEnd ℂ (t k l)) i j).re : ℂ))
      = fun i j => ((conv (fftshift G) (fun k l => starRingEnd ℂ (t k l)) i j).re : ℂ) := by
    funext i j
    have := conv_roll G (fun k l => starRingEnd ℂ (t k l)) (((M / 2 : ℕ) : ℤ) : ZMod M) (((M / 2 : ℕ) : ℤ) : ZMod M)
    unfold fftshift roll2
    rw [this]; rfl
  rw [e2, ip_re_left _ _ hP, ← ip_conv]
  rfl

/-! ## The actuator lattice -/

/-- pixel of actuator `r` on one axis -/
def site (M n sep : ℕ) (r : Fin n) : ZMod M := ((latticeStart M n sep + (r.val : ℤ) * sep : ℤ) : ZMod M)

/-- The lattice lies inside the array. -/
def Inside (M n sep : ℕ) : Prop := 1 ≤ sep ∧ 0 ≤ latticeStart M n sep ∧ latticeStart M n sep + ((n : ℤ) - 1) * sep < M

theorem site_val {n sep : ℕ} (h : Inside M n sep) (r : Fin n) : ((site M n sep r).val : ℤ) = latticeStart M n sep + (r.val : ℤ) * sep := by
  obtain ⟨h1, h2, h3⟩ := h
  have hr := r.isLt
  have hle : (r.val : ℤ) * sep ≤ ((n : ℤ) - 1) * sep := by
    apply mul_le_mul_of_nonneg_right <;> omega
  have h0 : 0 ≤ (r.val : ℤ) * sep := by positivity
  unfold site
  rw [ZMod.val_intCast, Int.emod_eq_of_lt] <;> omega

theorem site_inj {n sep : ℕ} (h : Inside M n sep) : Function.Injective (site M n sep) := by
  intro r s hrs
  have h1 := site_val h r
  rw [hrs, site_val h s] at h1
  have h2 : (r.val : ℤ) * sep = (s.val : ℤ) * sep := by omega
  have hs : (sep : ℤ) ≠ 0 := by have := h.1; omega
  have := mul_right_cancel₀ hs h2
  exact Fin.ext (by omega)

theorem poke_site {n sep : ℕ} (h : Inside M n sep) (a : Fin n → Fin n → ℝ) (r c : Fin n) :
    poke n sep a (site M n sep r) (site M n sep c) = (a r c : ℂ) := by
  have hs : 0 < (sep : ℤ) := by have := h.1; omega
  have key : ∀ r : Fin n, ((site M n sep r).val : ℤ) - latticeStart M n sep = (r.val : ℤ) * sep := fun r => by rw [site_val h]; ring
  unfold poke
  dsimp only
  simp only [key]
  rw [dif_pos]
  · have hv : ∀ r : Fin n, ((r.val : ℤ) * sep / sep).toNat = r.val := fun r => by
      rw [Int.mul_ediv_cancel _ hs.ne', Int.toNat_natCast]
    simp only [hv, Fin.eta]
  · have hr := r.isLt
    have hc := c.isLt
    refine ⟨⟨by positivity, by simp, ?_⟩, ⟨by positivity, by simp, ?_⟩⟩ <;>
    · rw [Int.mul_ediv_cancel _ hs.ne']; omega

theorem poke_off {n sep : ℕ} (a : Fin n → Fin n → ℝ) (i j : ZMod M)
    (hij : i ∉ Set.range (site M n sep) ∨ j ∉ Set.range (site M n sep)) : poke n sep a i j = 0 := by
  have key : ∀ i : ZMod M, (0 ≤ (i.val : ℤ) - latticeStart M n sep ∧ ((i.val : ℤ) - latticeStart M n sep) % sep = 0 ∧
      ((i.val : ℤ) - latticeStart M n sep) / sep < n) → i ∈ Set.range (site M n sep) := by
    rintro i ⟨h1, h2, h3⟩
    refine ⟨⟨(((i.val : ℤ) - latticeStart M n sep) / sep).toNat, by
      have := Int.ediv_nonneg h1 (Int.natCast_nonneg sep); omega⟩, ?_⟩
    unfold site
    dsimp only
    have h4 := Int.ediv_nonneg h1 (Int.natCast_nonneg sep)
    rw [Int.toNat_of_nonneg h4, mul_comm, Int.mul_ediv_cancel' (Int.dvd_of_emod_eq_zero h2)]
    simp
  unfold poke
  dsimp only
  rw [dif_neg]
  rintro ⟨h1, h2⟩
  rcases hij with h | h
  · exact h (key i h1)
  · exact h (key j h2)

theorem poke_real {n sep : ℕ} (a : Fin n → Fin n → ℝ) : IsRealArr (poke (M := M) n sep a) := by
  intro i j
  unfold poke
  dsimp only
  split <;> simp

theorem ip_poke {n sep : ℕ} (h : Inside M n sep) (a : Fin n → Fin n → ℝ) (E : Pl M) :
    ip E (poke n sep a) = ∑ r, ∑ c, starRingEnd ℂ (readLattice n sep E r c) * (a r c : ℂ) := by
  unfold ip
  symm
  refine Fintype.sum_of_injective (site M n sep) (site_inj h) _ _ (fun i hi => ?_) (fun r => ?_)
  · exact Finset.sum_eq_zero fun j _ => by rw [poke_off a i j (Or.inl hi), mul_zero]
  · refine Fintype.sum_of_injective (site M n sep) (site_inj h) _ _ (fun j hj => ?_) (fun c => ?_)
    · rw [poke_off a _ j (Or.inr hj), mul_zero]
    · rw [poke_site h]; rfl

theorem padF_real {m n : ℕ} (G : Pl n) (hG : ∀ i j, starRingEnd ℂ (G i j) = G i j) (i j : ZMod m) :
    starRingEnd ℂ (padF m G i j) = padF m G i j := by
  unfold padF
  dsimp only
  split
  · exact hG _ _
  · simp

theorem applyTf_real (X t : Pl M) : IsRealArr (applyTf X t) := fun _ _ => conj_ofReal _

/-- factor of the `wfe` flag -/
noncomputable def wfeFactor (obliquity : ℝ) (wfe : Bool) : ℝ := if wfe then 2 * obliquity else 1

/-- **C84.**  Without tilt and without resampling, the back-propagation of the differentiable DM is the exact adjoint of the rendering: for every
influence function on an even array, every shift, actuator grid inside the array, output size and setting of `wfe`, every command `a` and every
image `g`, `Σ render(a)·g = Σ a·render_backprop(g)`.  So the gradient it gives for any cost of the surface is exact. -/
theorem C84_adjoint {n Nout : ℕ} [NeZero Nout] (heven : M % 2 = 0) (d : DM M M n) (hup : d.up = none) (hin : Inside M n d.sep)
    (a : Fin n → Fin n → ℝ) (g : ZMod Nout → ZMod Nout → ℝ) (wfe : Bool) :
    ∑ i, ∑ j, render d a Nout wfe i j * (g i j : ℂ) = ∑ r, ∑ c, (a r c : ℂ) * backprop d (fun i j => (g i j : ℂ)) wfe r c := by
  set t := tf d.ifn d.shiftx d.shifty with ht
  set G : Pl M := padF M (fun i j => (g i j : ℂ)) with hG
  have hGr : IsRealArr G := padF_real _ (fun i j => conj_ofReal _)
  set κ : ℂ := (wfeFactor d.obliquity wfe : ℂ) with hκ
  have hκc : starRingEnd ℂ κ = κ := conj_ofReal _
  have hr : render d a Nout wfe = padF Nout (κ • applyTf (poke n d.sep a) t) := by
    unfold render
    rw [hup]
    dsimp only
    congr 1
    rw [← ht, hκ]
    cases wfe
    · simp [wfeFactor]
    · funext i j
      simp [wfeFactor, mul_comm]
  have hb : backprop d (fun i j => (g i j : ℂ)) wfe = readLattice n d.sep (applyTf (κ • G) fun k l => starRingEnd ℂ (t k l)) := by
    unfold backprop
    rw [hup]
    dsimp only
    rw [← ht, ← hG, hκ]
    congr 2
    cases wfe
    · simp [wfeFactor]
    · funext i j
      simp [wfeFactor, mul_comm]
  have hkG : IsRealArr (κ • G) := fun i j => by
    rw [Pi.smul_apply, Pi.smul_apply, smul_eq_mul, map_mul, hκc, hGr i j]
  have e1 : ∑ i, ∑ j, render d a Nout wfe i j * (g i j : ℂ) = ip (fun i j => (g i j : ℂ)) (render d a Nout wfe) := by
    unfold ip
    refine Finset.sum_congr rfl fun i _ => Finset.sum_congr rfl fun j _ => ?_
    rw [conj_ofReal, mul_comm]
  rw [e1, hr, ip_padF, ← hG, ip_smul_right, ← hκc, ← ip_smul_left, ip_applyTf heven _ _ t hkG (poke_real a), ip_poke hin, hb]
  refine Finset.sum_congr rfl fun r _ => Finset.sum_congr rfl fun c _ => ?_
  have : starRingEnd ℂ (readLattice n d.sep (applyTf (κ • G) fun k l => starRingEnd ℂ (t k l)) r c)
      = readLattice n d.sep (applyTf (κ • G) fun k l => starRingEnd ℂ (t k l)) r c := applyTf_real _ _ _ _
  rw [this, mul_comm]

/-! ## Resampling -/

/-- Spectrum of an array at the integer frequencies `k`, `l` (cycles per array), coordinates from the centre pixel `m//2`. -/
noncomputable def spec {m : ℕ} [NeZero m] (f : Pl m) (k l : ℤ) : ℂ :=
  ∑ i, ∑ j, f i j * exp (-(2 * Real.pi * I * (k * ((i.val : ℤ) - ((m / 2 : ℕ) : ℤ) : ℤ) + l * ((j.val : ℤ) - ((m / 2 : ℕ) : ℤ) : ℤ)) / m))

/-- The frequencies which an array of `m` samples resolves. -/
noncomputable def band (m : ℕ) : Finset ℤ := Finset.Ico (-((m / 2 : ℕ) : ℤ)) ((m : ℤ) - ((m / 2 : ℕ) : ℤ))

theorem sum_band {m : ℕ} (φ : ℤ → ℂ) : ∑ k : Fin m, φ ((k.val : ℤ) - ((m / 2 : ℕ) : ℤ)) = ∑ k ∈ band m, φ k := by
  refine Finset.sum_bij (fun k _ => (k.val : ℤ) - ((m / 2 : ℕ) : ℤ)) (fun k _ => ?_) (fun a _ b _ h => ?_) (fun k hk => ?_) (fun _ _ => rfl)
  · have := k.isLt
    simp only [band, Finset.mem_Ico]; omega
  · exact Fin.ext (by omega)
  · simp only [band, Finset.mem_Ico] at hk
    exact ⟨⟨(k + ((m / 2 : ℕ) : ℤ)).toNat, by omega⟩, Finset.mem_univ _, by simp only; omega⟩

theorem char_int (k : ℤ) : ZMod.stdAddChar ((k : ℤ) : ZMod M) = exp (2 * Real.pi * I * k / M) := ZMod.stdAddChar_coe k

theorem fft2d_spec (f : Pl M) (a b : Fin M) :
    toFin (fft2d f) a b = (M : ℂ)⁻¹ * spec f ((a.val : ℤ) - ((M / 2 : ℕ) : ℤ)) ((b.val : ℤ) - ((M / 2 : ℕ) : ℤ)) := by
  set c : ℤ := ((M / 2 : ℕ) : ℤ) with hc
  have h0 : fft2 (ifftshift f) (((a.val : ℤ) - c : ℤ) : ZMod M) (((b.val : ℤ) - c : ℤ) : ZMod M)
      = spec f ((a.val : ℤ) - c) ((b.val : ℤ) - c) := by
    have h1 : ifftshift f = fun i j => f (i - ((-c : ℤ) : ZMod M)) (j - ((-c : ℤ) : ZMod M)) := rfl
    rw [h1, fft2_roll]
    unfold fft2 fft1 spec
    simp only [exp_neg_eq_char, Finset.mul_sum]
    refine Finset.sum_congr rfl fun i _ => Finset.sum_congr rfl fun j _ => ?_
    have e : exp (-(2 * Real.pi * I * (((a.val : ℤ) - c : ℤ) * ((i.val : ℤ) - c : ℤ) + ((b.val : ℤ) - c : ℤ) * ((j.val : ℤ) - c : ℤ)) / M))
        = ZMod.stdAddChar (((-(((a.val : ℤ) - c) * ((i.val : ℤ) - c) + ((b.val : ℤ) - c) * ((j.val : ℤ) - c)) : ℤ)) : ZMod M) := by
      rw [char_int]
      congr 1
      push_cast; ring
    rw [e, mul_comm (f i j)]
    rw [← mul_assoc, ← mul_assoc]
    congr 1
    rw [← AddChar.map_add_eq_mul, ← AddChar.map_add_eq_mul, ← AddChar.map_add_eq_mul]
    congr 1
    push_cast
    rw [ZMod.natCast_zmod_val, ZMod.natCast_zmod_val]
    ring
  unfold toFin fft2d
  have h2 : ∀ (X : Pl M), fftshift X ((a.val : ℕ) : ZMod M) ((b.val : ℕ) : ZMod M) = X (((a.val : ℤ) - c : ℤ) : ZMod M) (((b.val : ℤ) - c : ℤ) : ZMod M) := by
    intro X
    unfold fftshift roll2
    rw [← hc]
    simp only [Int.cast_sub, Int.cast_natCast]
  rw [h2, h0]
  congr 2
  rw [Real.sqrt_mul_self (Nat.cast_nonneg M)]
  simp

/-- value of the resampled array -/
theorem resample_eq {M' : ℕ} [NeZero M'] (z : ℝ) (hz : 0 ≤ z) (f : Pl M) (Y X : ZMod M') :
    resample M' z f Y X = (((z / (M' * M) : ℝ) * (∑ k ∈ band M, ∑ l ∈ band M, spec f k l *
      exp (2 * Real.pi * I * (k * ((Y.val : ℤ) - ((M' / 2 : ℕ) : ℤ) : ℤ) + l * ((X.val : ℤ) - ((M' / 2 : ℕ) : ℤ) : ℤ)) / M')).re : ℝ) : ℂ) := by
  have hM' : (M' : ℂ) ≠ 0 := by exact_mod_cast NeZero.ne M'
  have hm : ∀ (y : Fin M') (k : Fin M), (starRingEnd ℂ) (mftEntry M' M y k) =
      exp (2 * Real.pi * I * (((k.val : ℤ) - ((M / 2 : ℕ) : ℤ) : ℤ) * ((y.val : ℤ) - ((M' / 2 : ℕ) : ℤ) : ℤ)) / M') * (Real.sqrt (1 / M') : ℝ) := by
    intro y k
    unfold mftEntry
    rw [map_mul, conj_ofReal, ← exp_conj]
    congr 2
    rw [ax_eq, ax_eq]
    simp only [map_mul, map_neg, map_ofNat, conj_I, conj_ofReal, reduceCtorEq, and_false, if_false]
    generalize M / 2 = c
    generalize M' / 2 = c'
    push_cast
    field_simp
    ring
  unfold resample
  dsimp only [ofFin]
  congr 1
  rw [Real.sqrt_mul_self hz]
  have hs : ((Real.sqrt (1 / M') : ℝ) : ℂ) * ((Real.sqrt (1 / M') : ℝ) : ℂ) = (M' : ℂ)⁻¹ := by
    rw [← ofReal_mul, Real.mul_self_sqrt (by positivity)]
    push_cast; rw [one_div]
  have key : (∑ k, (starRingEnd ℂ) (mftEntry M' M ⟨Y.val, ZMod.val_lt Y⟩ k) * ∑ l, toFin (fft2d f) k l * (starRingEnd ℂ) (mftEntry M' M ⟨X.val, ZMod.val_lt X⟩ l))
      = ((1 / (M' * M) : ℝ) : ℂ) * ∑ k ∈ band M, ∑ l ∈ band M, spec f k l *
      exp (2 * Real.pi * I * (k * ((Y.val : ℤ) - ((M' / 2 : ℕ) : ℤ) : ℤ) + l * ((X.val : ℤ) - ((M' / 2 : ℕ) : ℤ) : ℤ)) / M') := by
    simp only [hm, fft2d_spec]
    rw [← sum_band, Finset.mul_sum]
    refine Finset.sum_congr rfl fun k _ => ?_
    rw [← sum_band, Finset.mul_sum, Finset.mul_sum]
    refine Finset.sum_congr rfl fun l _ => ?_
    have e : ∀ a b : ℂ, exp (2 * Real.pi * I * (a + b) / M') = exp (2 * Real.pi * I * a / M') * exp (2 * Real.pi * I * b / M') := by
      intro a b
      rw [← exp_add]; congr 1; ring
    rw [e]
    have e1 : ((1 / (M' * M) : ℝ) : ℂ) = (M' : ℂ)⁻¹ * (M : ℂ)⁻¹ := by push_cast; rw [one_div, mul_inv]
    rw [e1, ← hs]
    ring
  rw [key, re_ofReal_mul]
  ring

/-- pairing of the resampled array with a real image -/
theorem sum_resample {M' : ℕ} [NeZero M'] (z : ℝ) (hz : 0 ≤ z) (f : Pl M) (g : ZMod M' → ZMod M' → ℝ) :
    ∑ Y, ∑ X, resample M' z f Y X * (g Y X : ℂ) = (((z / (M' * M) : ℝ) * (∑ k ∈ band M, ∑ l ∈ band M, spec f k l *
      starRingEnd ℂ (spec (fun i j => (g i j : ℂ)) k l)).re : ℝ) : ℂ) := by
  simp only [resample_eq z hz]
  have hc : ∀ k l : ℤ, starRingEnd ℂ (spec (fun i j => (g i j : ℂ)) k l) = ∑ Y, ∑ X, (g Y X : ℂ) *
      exp (2 * Real.pi * I * (k * ((Y.val : ℤ) - ((M' / 2 : ℕ) : ℤ) : ℤ) + l * ((X.val : ℤ) - ((M' / 2 : ℕ) : ℤ) : ℤ)) / M') := by
    intro k l
    unfold spec
    simp only [map_sum, map_mul, conj_ofReal, ← exp_conj]
    refine Finset.sum_congr rfl fun Y _ => Finset.sum_congr rfl fun X _ => ?_
    congr 2
    simp only [map_neg, map_div₀, map_mul, map_add, map_ofNat, conj_ofReal, conj_I, Complex.conj_natCast, map_intCast]
    ring
  simp only [hc]
  simp only [← ofReal_mul, ← ofReal_sum]
  congr 1
  have e1 : ∀ Y X : ZMod M', z / (M' * M) * (∑ k ∈ band M, ∑ l ∈ band M, spec f k l *
      exp (2 * Real.pi * I * (k * ((Y.val : ℤ) - ((M' / 2 : ℕ) : ℤ) : ℤ) + l * ((X.val : ℤ) - ((M' / 2 : ℕ) : ℤ) : ℤ)) / M')).re * g Y X
      = z / (M' * M) * (∑ k ∈ band M, ∑ l ∈ band M, spec f k l * ((g Y X : ℂ) *
      exp (2 * Real.pi * I * (k * ((Y.val : ℤ) - ((M' / 2 : ℕ) : ℤ) : ℤ) + l * ((X.val : ℤ) - ((M' / 2 : ℕ) : ℤ) : ℤ)) / M'))).re := by
    intro Y X
    rw [mul_assoc]
    congr 1
    rw [mul_comm, ← re_ofReal_mul]
    simp only [Finset.mul_sum]
    congr 1
    refine Finset.sum_congr rfl fun k _ => Finset.sum_congr rfl fun l _ => by ring
  simp only [e1, ← Finset.mul_sum, ← re_sum]
  congr 2
  simp only [Finset.mul_sum]
  calc _ = ∑ Y : ZMod M', ∑ k ∈ band M, ∑ X : ZMod M', ∑ l ∈ band M, _ := Finset.sum_congr rfl fun _ _ => Finset.sum_comm
    _ = ∑ k ∈ band M, ∑ Y : ZMod M', ∑ X : ZMod M', ∑ l ∈ band M, _ := Finset.sum_comm
    _ = ∑ k ∈ band M, ∑ Y : ZMod M', ∑ l ∈ band M, ∑ X : ZMod M', _ := Finset.sum_congr rfl fun _ _ => Finset.sum_congr rfl fun _ _ => Finset.sum_comm
    _ = _ := Finset.sum_congr rfl fun _ _ => Finset.sum_comm

/-- The same DM without resampling. -/
def DM.native {M M' n : ℕ} (d : DM M M' n) : DM M M n := { ifn := d.ifn, sep := d.sep, shiftx := d.shiftx, shifty := d.shifty, obliquity := d.obliquity, up := none }

theorem padF_same (E : Pl M) : padF M E = E := by
  funext i j
  unfold padF
  dsimp only
  have hi := ZMod.val_lt i
  have hj := ZMod.val_lt j
  rw [if_pos (by omega)]
  simp

theorem native_eq {M' n : ℕ} (d : DM M M' n) (a : Fin n → Fin n → ℝ) (wfe : Bool) :
    render d.native a M wfe = (wfeFactor d.obliquity wfe : ℂ) • applyTf (poke n d.sep a) (tf d.ifn d.shiftx d.shifty) := by
  unfold render DM.native
  dsimp only
  rw [padF_same]
  cases wfe
  · simp [wfeFactor]
  · funext i j
    simp [wfeFactor, mul_comm]

theorem render_resampled {M' n Nout : ℕ} [NeZero M'] (d : DM M M' n) (z : ℝ) (hup : d.up = some z) (a : Fin n → Fin n → ℝ) (wfe : Bool) :
    render d a Nout wfe = padF Nout (resample M' z (render d.native a M wfe)) := by
  rw [native_eq]
  unfold render
  rw [hup]
  dsimp only
  congr 2
  cases wfe
  · simp [wfeFactor]
  · funext i j
    simp [wfeFactor, mul_comm]

theorem forward_spectrum {M' n Nout : ℕ} [NeZero M'] [NeZero Nout] (d : DM M M' n) (z : ℝ) (hz : 0 ≤ z) (hup : d.up = some z)
    (a : Fin n → Fin n → ℝ) (g : ZMod Nout → ZMod Nout → ℝ) (wfe : Bool) :
    ∑ i, ∑ j, render d a Nout wfe i j * (g i j : ℂ) = (((z / (M' * M) : ℝ) * (∑ k ∈ band M, ∑ l ∈ band M, spec (render d.native a M wfe) k l *
      starRingEnd ℂ (spec (padF M' fun i j => (g i j : ℂ)) k l)).re : ℝ) : ℂ) := by
  have hGr : ∀ i j, starRingEnd ℂ (padF M' (fun i j => (g i j : ℂ)) i j) = padF M' (fun i j => (g i j : ℂ)) i j :=
    padF_real _ (fun _ _ => conj_ofReal _)
  have hG : (padF M' fun i j => (g i j : ℂ)) = fun i j => (((padF M' (fun i j => (g i j : ℂ)) i j).re : ℝ) : ℂ) := by
    funext i j
    exact ((conj_eq_iff_re.1 (hGr i j))).symm
  rw [hG, ← sum_resample z hz]
  have e1 : ∑ i, ∑ j, render d a Nout wfe i j * (g i j : ℂ) = ip (fun i j => (g i j : ℂ)) (render d a Nout wfe) := by
    unfold ip
    refine Finset.sum_congr rfl fun i _ => Finset.sum_congr rfl fun j _ => ?_
    rw [conj_ofReal, mul_comm]
  rw [e1, render_resampled d z hup, ip_padF]
  unfold ip
  refine Finset.sum_congr rfl fun i _ => Finset.sum_congr rfl fun j _ => ?_
  rw [hGr i j, mul_comm, conj_eq_iff_re.1 (hGr i j)]

theorem resample_real {M' : ℕ} [NeZero M'] (z : ℝ) (f : Pl M) (i j : ZMod M') : starRingEnd ℂ (resample M' z f i j) = resample M' z f i j :=
  conj_ofReal _

theorem backward_spectrum {M' n Nout : ℕ} [NeZero M'] [NeZero Nout] (heven : M % 2 = 0) (d : DM M M' n) (z : ℝ) (hup : d.up = some z)
    (hin : Inside M n d.sep) (a : Fin n → Fin n → ℝ) (g : ZMod Nout → ZMod Nout → ℝ) (wfe : Bool) :
    ∑ r, ∑ c, (a r c : ℂ) * backprop d (fun i j => (g i j : ℂ)) wfe r c =
      (((1 / (M * M) : ℝ) * (∑ k ∈ band M', ∑ l ∈ band M', spec (render d.native a M wfe) k l *
      starRingEnd ℂ (spec (padF M' fun i j => (g i j : ℂ)) k l)).re : ℝ) : ℂ) := by
  set t := tf d.ifn d.shiftx d.shifty with ht
  set κ : ℂ := (wfeFactor d.obliquity wfe : ℂ) with hκ
  have hκc : starRingEnd ℂ κ = κ := conj_ofReal _
  set u : ℝ := (M : ℝ) / M' with hu
  have hM : (M : ℝ) ≠ 0 := by exact_mod_cast NeZero.ne M
  have hM' : (M' : ℝ) ≠ 0 := by exact_mod_cast NeZero.ne M'
  have hu0 : 0 ≤ u := by rw [hu]; positivity
  set G : Pl M' := padF M' (fun i j => (g i j : ℂ)) with hG
  set B : Pl M := fun i j => resample M u G i j / (u ^ 2 : ℝ) with hB
  have hBr : IsRealArr B := fun i j => by
    rw [hB]; dsimp only; rw [map_div₀, resample_real, conj_ofReal]
  have hb : backprop d (fun i j => (g i j : ℂ)) wfe = readLattice n d.sep (applyTf (κ • B) fun k l => starRingEnd ℂ (t k l)) := by
    unfold backprop
    rw [hup]
    dsimp only
    rw [← ht, hκ]
    congr 2
    cases wfe
    · simp only [wfeFactor, if_false, Bool.false_eq_true, ofReal_one, one_smul]
      rfl
    · funext i j
      simp only [wfeFactor, if_true, Pi.smul_apply, smul_eq_mul]
      rw [mul_comm]
      push_cast
      congr 1
      rw [hB, hu, hG]
      push_cast
      rfl
  have hkB : IsRealArr (κ • B) := fun i j => by
    rw [Pi.smul_apply, Pi.smul_apply, smul_eq_mul, map_mul, hκc, hBr i j]
  set W := render d.native a M wfe with hW
  have hW' : W = κ • applyTf (poke n d.sep a) t := native_eq d a wfe
  have hWr : IsRealArr W := fun i j => by
    rw [hW', Pi.smul_apply, Pi.smul_apply, smul_eq_mul, map_mul, hκc, applyTf_real _ _ i j]
  have e1 : ∑ r, ∑ c, (a r c : ℂ) * backprop d (fun i j => (g i j : ℂ)) wfe r c = ip B W := by
    rw [hW', ip_smul_right, ← hκc, ← ip_smul_left, ip_applyTf heven _ _ t hkB (poke_real a), ip_poke hin, hb]
    refine Finset.sum_congr rfl fun r _ => Finset.sum_congr rfl fun c _ => ?_
    have : starRingEnd ℂ (readLattice n d.sep (applyTf (κ • B) fun k l => starRingEnd ℂ (t k l)) r c)
        = readLattice n d.sep (applyTf (κ • B) fun k l => starRingEnd ℂ (t k l)) r c := applyTf_real _ _ _ _
    rw [this, mul_comm]
  have hWre : W = fun i j => (((W i j).re : ℝ) : ℂ) := by
    funext i j
    exact ((conj_eq_iff_re.1 (hWr i j))).symm
  have e2 : ip B W = ((u ^ 2 : ℝ) : ℂ)⁻¹ * ∑ i, ∑ j, resample M u G i j * ((W i j).re : ℂ) := by
    unfold ip
    simp only [Finset.mul_sum]
    refine Finset.sum_congr rfl fun i _ => Finset.sum_congr rfl fun j _ => ?_
    rw [hBr i j, conj_eq_iff_re.1 (hWr i j), hB]
    dsimp only
    rw [div_eq_mul_inv]; ring
  rw [e1, e2, sum_resample u hu0, ← hWre, ← ofReal_inv, ← ofReal_mul]
  congr 1
  rw [← mul_assoc]
  congr 1
  · rw [hu]; field_simp
  · rw [← conj_re]
    congr 1
    simp only [map_sum, map_mul, starRingEnd_self_apply]
    exact Finset.sum_congr rfl fun i _ => Finset.sum_congr rfl fun j _ => mul_comm _ _

/-- **C84.**  With resampling by an exact factor (`M' = zoom·M`), the back-propagation is still the exact adjoint whenever at each frequency which
only one of the two arrays resolves either the surface before resampling or the image `g` has no content. -/
theorem C84_adjoint_resampled {M' n Nout : ℕ} [NeZero M'] [NeZero Nout] (heven : M % 2 = 0) (d : DM M M' n) (z : ℝ) (hz : z * M = M') (hup : d.up = some z)
    (hin : Inside M n d.sep) (a : Fin n → Fin n → ℝ) (g : ZMod Nout → ZMod Nout → ℝ) (wfe : Bool)
    (hband : ∀ k l : ℤ, ¬ ((k ∈ band M ∧ l ∈ band M) ↔ (k ∈ band M' ∧ l ∈ band M')) →
      spec (render d.native a M wfe) k l = 0 ∨ spec (padF M' fun i j => (g i j : ℂ)) k l = 0) :
    ∑ i, ∑ j, render d a Nout wfe i j * (g i j : ℂ) = ∑ r, ∑ c, (a r c : ℂ) * backprop d (fun i j => (g i j : ℂ)) wfe r c := by
  have hM : (0 : ℝ) < M := by exact_mod_cast NeZero.pos M
  have hM' : (0 : ℝ) < M' := by exact_mod_cast NeZero.pos M'
  have hz0 : 0 ≤ z := by
    by_contra h
    push Not at h
    have := mul_neg_of_neg_of_pos h hM
    rw [hz] at this
    linarith
  rw [forward_spectrum d z hz0 hup, backward_spectrum heven d z hup hin]
  congr 2
  · rw [← hz]
    have : z ≠ 0 := by rintro rfl; rw [zero_mul] at hz; exact hM'.ne hz
    field_simp
  · congr 1
    rw [← Finset.sum_product', ← Finset.sum_product']
    rw [Finset.sum_subset (Finset.subset_union_left (s₁ := band M ×ˢ band M) (s₂ := band M' ×ˢ band M')),
      ← Finset.sum_subset (Finset.subset_union_right (s₁ := band M ×ˢ band M) (s₂ := band M' ×ˢ band M'))]
    · rintro ⟨k, l⟩ h1 h2
      simp only [Finset.mem_union, Finset.mem_product] at h1 h2
      rcases hband k l (by tauto) with h | h <;> simp [h]
    · rintro ⟨k, l⟩ h1 h2
      simp only [Finset.mem_union, Finset.mem_product] at h1 h2
      rcases hband k l (by tauto) with h | h <;> simp [h]

/-! ## The surface as a superposition of influence functions -/

theorem conv_fft2 (X f : Pl M) : conv X (fft2 f) = fun i j => ∑ p, ∑ q, X p q * f (i - p) (j - q) := by
  have h : fft2 (fun i j => ∑ p, ∑ q, X p q * f (i - p) (j - q)) = fun k l => fft2 X k l * fft2 f k l := by
    funext k l
    have e : ∀ p q : ZMod M, fft2 (fun i j => f (i - p) (j - q)) k l = exp (-(2 * Real.pi * I * (p.val * k.val) / M)) * exp (-(2 * Real.pi * I * (q.val * l.val) / M)) * fft2 f k l := by
      intro p q
      rw [fft2_roll, exp_neg_eq_char, exp_neg_eq_char]
    have e2 : fft2 (fun i j => ∑ p, ∑ q, X p q * f (i - p) (j - q)) k l = ∑ p, ∑ q, X p q * fft2 (fun i j => f (i - p) (j - q)) k l := by
      unfold fft2 fft1
      simp only [Finset.mul_sum]
      calc _ = ∑ i : ZMod M, ∑ p : ZMod M, ∑ j : ZMod M, ∑ q : ZMod M, _ := Finset.sum_congr rfl fun _ _ => Finset.sum_comm
        _ = ∑ p : ZMod M, ∑ i : ZMod M, ∑ j : ZMod M, ∑ q : ZMod M, _ := Finset.sum_comm
        _ = ∑ p : ZMod M, ∑ i : ZMod M, ∑ q : ZMod M, ∑ j : ZMod M, _ := Finset.sum_congr rfl fun _ _ => Finset.sum_congr rfl fun _ _ => Finset.sum_comm
        _ = ∑ p : ZMod M, ∑ q : ZMod M, ∑ i : ZMod M, ∑ j : ZMod M, _ := Finset.sum_congr rfl fun _ _ => Finset.sum_comm
        _ = _ := Finset.sum_congr rfl fun p _ => Finset.sum_congr rfl fun q _ => Finset.sum_congr rfl fun i _ => Finset.sum_congr rfl fun j _ => by ring
    rw [e2]
    simp only [e]
    generalize fft2 f k l = F
    unfold fft2 fft1
    simp only [Finset.mul_sum, Finset.sum_mul]
    refine Finset.sum_congr rfl fun p _ => Finset.sum_congr rfl fun q _ => ?_
    ring
  unfold conv
  rw [← h, ifft2_fft2]

theorem ramp (l : ZMod M) (s : ℤ) : exp (fftfreq M 1 l * (-2 * Real.pi * I * (s : ℝ))) = ZMod.stdAddChar (-((s : ZMod M) * l)) := by
  have hM : (M : ℂ) ≠ 0 := by exact_mod_cast NeZero.ne M
  unfold fftfreq
  split
  · have e : -((s : ZMod M) * l) = (((-(s * (l.val : ℤ)) : ℤ)) : ZMod M) := by
      push_cast; rw [ZMod.natCast_zmod_val]
    rw [e, char_int]
    congr 1
    push_cast
    field_simp
  · have e : -((s : ZMod M) * l) = (((-(s * ((l.val : ℤ) - M)) : ℤ)) : ZMod M) := by
      push_cast; rw [ZMod.natCast_zmod_val]; simp
    rw [e, char_int]
    congr 1
    push_cast
    field_simp

theorem tf_shift (ifn : Pl M) (sx sy : ℤ) : tf ifn sx sy = fft2 fun i j => ifn (i - (sy : ZMod M)) (j - (sx : ZMod M)) := by
  funext k l
  unfold tf
  rw [fft2_roll, ramp, ramp]
  ring

theorem surface_eq {n : ℕ} (d : DM M M n) (hin : Inside M n d.sep) (hup : d.up = none) (sx sy : ℤ) (hx : d.shiftx = sx)
    (hy : d.shifty = sy) (f : ZMod M → ZMod M → ℝ) (hf : ∀ i j, d.ifn i j = (f i j : ℂ)) (a : Fin n → Fin n → ℝ) (i j : ZMod M) :
    render d a M false i j = ((∑ r, ∑ c, a r c *
      f (i - ((M / 2 : ℕ) : ZMod M) - site M n d.sep r - sy) (j - ((M / 2 : ℕ) : ZMod M) - site M n d.sep c - sx) : ℝ) : ℂ) := by
  unfold render
  rw [hup]
  dsimp only
  rw [if_neg (by simp), padF_same, hx, hy, tf_shift]
  unfold applyTf
  have h := conv_fft2 (poke n d.sep a) (fun i j => d.ifn (i - (sy : ZMod M)) (j - (sx : ZMod M)))
  unfold conv at h
  rw [h]
  unfold fftshift roll2
  dsimp only
  have e : ∑ p : ZMod M, ∑ q : ZMod M, poke n d.sep a p q * d.ifn (i - (((M / 2 : ℕ) : ℤ) : ZMod M) - p - sy) (j - (((M / 2 : ℕ) : ℤ) : ZMod M) - q - sx)
      = ((∑ r, ∑ c, a r c * f (i - ((M / 2 : ℕ) : ZMod M) - site M n d.sep r - sy) (j - ((M / 2 : ℕ) : ZMod M) - site M n d.sep c - sx) : ℝ) : ℂ) := by
    rw [ofReal_sum]
    symm
    refine Fintype.sum_of_injective (site M n d.sep) (site_inj hin) _ _ (fun p hp => ?_) (fun r => ?_)
    · exact Finset.sum_eq_zero fun q _ => by rw [poke_off a p q (Or.inl hp), zero_mul]
    · rw [ofReal_sum]
      refine Fintype.sum_of_injective (site M n d.sep) (site_inj hin) _ _ (fun q hq => ?_) (fun c => ?_)
      · rw [poke_off a _ q (Or.inr hq), zero_mul]
      · rw [poke_site hin, hf, ofReal_mul]
        simp only [Int.cast_natCast]
  rw [e, ofReal_re]

/-- **C86.**  Without tilt, the rendered surface is the superposition of the influence functions, each centred (sample `M//2` of the given array, the
even size FALCO uses) on the pixel `start + r·sep + shift` of its actuator, cyclically in the influence-function array: for every influence
function, integer shift, command and actuator grid inside the array. -/
theorem C86_superposition {n : ℕ} (heven : M % 2 = 0) (d : DM M M n) (hin : Inside M n d.sep) (hup : d.up = none) (sx sy : ℤ) (hx : d.shiftx = sx)
    (hy : d.shifty = sy) (f : ZMod M → ZMod M → ℝ) (hf : ∀ i j, d.ifn i j = (f i j : ℂ)) (a : Fin n → Fin n → ℝ) (i j : ZMod M) :
    render d a M false i j = ((∑ r, ∑ c, a r c *
      f (((M / 2 : ℕ) : ZMod M) + (i - ((latticeStart M n d.sep + (r.val : ℤ) * d.sep + sy : ℤ) : ZMod M)))
        (((M / 2 : ℕ) : ZMod M) + (j - ((latticeStart M n d.sep + (c.val : ℤ) * d.sep + sx : ℤ) : ZMod M))) : ℝ) : ℂ) := by
  rw [surface_eq d hin hup sx sy hx hy f hf]
  have h2 := half_add heven
  congr 1
  refine Finset.sum_congr rfl fun r _ => Finset.sum_congr rfl fun c _ => ?_
  unfold site
  congr 2
  · rw [Int.cast_add _ sy]; linear_combination -h2
  · rw [Int.cast_add _ sx]; linear_combination -h2

/-- **C86.**  In the arrays the FALCO wrapper makes, the slice has one element per actuator on each axis and lies inside the array. -/
theorem C86_lattice (n sep : ℕ) (hn : 1 ≤ n) (hsep : 1 ≤ sep) :
    sliceLen (latticeStart (gridSize n sep) n sep) (latticeStop (gridSize n sep) n sep) sep = n ∧ Inside (gridSize n sep) n sep := by
  have hdiff : ∀ M, latticeStop M n sep - latticeStart M n sep = n * sep := by
    intro M
    unfold latticeStop latticeStart
    have : (-(n : ℤ)) / 2 = ((n / 2 : ℕ) : ℤ) - n := by omega
    rw [this]; ring
  have hpos : 0 < (n : ℤ) * sep := by positivity
  constructor
  · unfold sliceLen
    have h := hdiff (gridSize n sep)
    rw [if_neg (by omega), h]
    rw [show (n : ℤ) * sep + sep - 1 = (sep - 1) + n * sep by ring, Int.add_mul_ediv_right _ _ (by omega)]
    rw [Int.ediv_eq_zero_of_lt (by omega) (by omega)]; ring
  · refine ⟨hsep, ?_, ?_⟩
    · unfold latticeStart gridSize
      have h1 : (-(n : ℤ)) / 2 = -((n + 1) / 2 : ℕ) := by omega
      rw [h1]
      have h2 : (((n * sep + 2 * (9 * sep)) / 2 : ℕ) : ℤ) ≥ ((n + 1) / 2 : ℕ) * sep := by
        have : (n + 1) / 2 * sep ≤ (n * sep + 2 * (9 * sep)) / 2 := by
          rw [Nat.le_div_iff_mul_le (by norm_num)]
          have : (n + 1) / 2 * 2 ≤ n + 18 := by omega
          nlinarith [Nat.mul_le_mul_right sep this]
        exact_mod_cast this
      split <;> nlinarith [Int.natCast_nonneg (sep / 2)]
    · have h := hdiff (gridSize n sep)
      have h3 : latticeStop (gridSize n sep) n sep ≤ gridSize n sep := by
        unfold latticeStop gridSize
        have h4 : n / 2 * sep ≤ n * sep / 2 := by
          rw [Nat.le_div_iff_mul_le (by norm_num)]
          have : n / 2 * 2 ≤ n := by omega
          nlinarith [Nat.mul_le_mul_right sep this]
        have h5 : (n * sep + 2 * (9 * sep)) / 2 + n / 2 * sep + sep / 2 ≤ n * sep + 2 * (9 * sep) := by
          generalize n / 2 * sep = x at *
          generalize n * sep = y at *
          omega
        have h6 : (((n * sep + 2 * (9 * sep)) / 2 : ℕ) : ℤ) + ((n / 2 : ℕ) : ℤ) * sep + ((sep / 2 : ℕ) : ℤ) ≤ ((n * sep + 2 * (9 * sep) : ℕ) : ℤ) := by
          exact_mod_cast h5
        have h7 : (0 : ℤ) ≤ ((sep / 2 : ℕ) : ℤ) := Int.natCast_nonneg _
        split <;> omega
      have : ((n : ℤ) - 1) * sep = n * sep - sep := by ring
      omega

theorem npFix_near (x : ℝ) : |x - (Dm.npFix x : ℝ)| < 1 := by
  unfold Dm.npFix
  split
  · have h1 := Int.floor_le x
    have h2 := Int.lt_floor_add_one x
    rw [abs_lt]; constructor <;> linarith
  · have h1 := Int.le_ceil x
    have h2 := Int.ceil_lt_add_one x
    rw [abs_lt]; constructor <;> linarith

/-- Where the wrapper puts the beam centre: pixel of the (real) actuator coordinate `xc`. -/
noncomputable def centrePixel (M n sep : ℕ) (xc : ℝ) : ℝ := (latticeStart M n sep : ℝ) + xc * sep + (wrapShift n sep xc : ℝ)

/-- **C86.**  For an even number of actuators across and an even number of pixels per actuator, the beam centre `xc` comes to lie within one pixel of the
centre pixel of the array, and exactly on it if `xc` is a whole number of pixels from the middle of the grid. -/
theorem C86_centred (M n sep : ℕ) (hn : n % 2 = 0) (hs : sep % 2 = 0) (xc : ℝ) :
    |centrePixel M n sep xc - ((M / 2 : ℕ) : ℝ)| < 1 ∧
    (∀ k : ℤ, xc * sep = (((n : ℝ) - 1) / 2) * sep + k → centrePixel M n sep xc = ((M / 2 : ℕ) : ℝ)) := by
  obtain ⟨m, rfl⟩ : ∃ m, n = 2 * m := ⟨n / 2, by omega⟩
  obtain ⟨s, rfl⟩ : ∃ s, sep = 2 * s := ⟨sep / 2, by omega⟩
  have e : centrePixel M (2 * m) (2 * s) xc - ((M / 2 : ℕ) : ℝ) = (xc - (m : ℝ) + 0.5) * ((2 * s : ℕ) : ℝ) - (Dm.npFix ((xc - (m : ℝ) + 0.5) * ((2 * s : ℕ) : ℝ)) : ℝ) := by
    unfold centrePixel wrapShift latticeStart
    rw [if_pos (by omega), show (-((2 * m : ℕ) : ℤ)) / 2 = -(m : ℤ) by omega, show 2 * m / 2 = m by omega, show 2 * s / 2 = s by omega]
    generalize M / 2 = c
    push_cast
    ring
  constructor
  · rw [e]; exact npFix_near _
  · intro k hk
    have h1 : (xc - (m : ℝ) + 0.5) * ((2 * s : ℕ) : ℝ) = (k : ℝ) := by
      push_cast at hk ⊢
      linear_combination hk
    rw [h1] at e
    have h2 : Dm.npFix (k : ℝ) = k := by
      unfold Dm.npFix
      simp
    rw [h2, sub_self] at e
    linarith

/-- **C86.**  For an odd number of actuators across, the model puts the beam centre one and a half actuator spacings (up to a pixel) before the centre
pixel, for every position `xc`, e.g. the middle actuator itself: the surface is displaced. -/
theorem C86_odd_grid_violated (M n sep : ℕ) (hn : n % 2 = 1) (xc : ℝ) :
    |centrePixel M n sep xc - (((M / 2 : ℕ) : ℝ) - 1.5 * sep)| < 1 := by
  obtain ⟨m, rfl⟩ : ∃ m, n = 2 * m + 1 := ⟨n / 2, by omega⟩
  have e : centrePixel M (2 * m + 1) sep xc - (((M / 2 : ℕ) : ℝ) - 1.5 * sep) = (xc - (m : ℝ) + 0.5) * (sep : ℝ) - (Dm.npFix ((xc - (m : ℝ) + 0.5) * (sep : ℝ)) : ℝ) := by
    unfold centrePixel wrapShift latticeStart
    rw [if_neg (by omega), show (-((2 * m + 1 : ℕ) : ℤ)) / 2 = -(m : ℤ) - 1 by omega, show (2 * m + 1) / 2 = m by omega]
    generalize M / 2 = c
    push_cast
    ring
  rw [e]; exact npFix_near _

/-! ## The cached object -/

/-- **C85.**  Every surface of a history of calls is computed with the sampling of the first call. -/
theorem C85_first_sampling {n : ℕ} {O S : Type} (build : ℝ → O) (rend : O → (Fin n → Fin n → ℝ) → ℕ → S) (c : Call n) (cs : List (Call n)) :
    genSurfs build rend none (c :: cs) = (c :: cs).map fun c' => rend (build c.dx) c'.heights c'.Nout := by
  have h : ∀ (o : O) (cs : List (Call n)), genSurfs build rend (some o) cs = cs.map fun c' => rend o c'.heights c'.Nout := by
    intro o cs
    induction cs with
    | nil => rfl
    | cons c cs ih => simp only [genSurfs, genSurf, List.map_cons, ih]
  simp only [genSurfs, genSurf, h, List.map_cons]

/-- **C85.**  If all calls ask for the same sampling, each surface depends on its own call only, whatever came before. -/
theorem C85_history_independent {n : ℕ} {O S : Type} (build : ℝ → O) (rend : O → (Fin n → Fin n → ℝ) → ℕ → S) (dx : ℝ) (cs : List (Call n))
    (h : ∀ c ∈ cs, c.dx = dx) : genSurfs build rend none cs = cs.map fun c => (genSurf build rend none c).1 := by
  cases cs with
  | nil => rfl
  | cons c cs =>
    rw [C85_first_sampling]
    refine List.map_congr_left fun c' hc' => ?_
    simp only [genSurf, h c List.mem_cons_self, h c' hc']

/-! ## Failures -/

/-- a single bright sample -/
noncomputable def delta {m : ℕ} (p : ZMod m) : ZMod m → ZMod m → ℝ := fun i j => if i = p ∧ j = p then 1 else 0

/-- a DM with two actuators across, one pixel apart, and a one-pixel influence function -/
noncomputable def pixDM (M M' : ℕ) (up : Option ℝ) : DM M M' 2 :=
  { ifn := fun i j => (delta ((M / 2 : ℕ) : ZMod M) i j : ℂ), sep := 1, shiftx := 0, shifty := 0, obliquity := 1, up := up }

/-- only the last actuator is poked -/
noncomputable def lastAct : Fin 2 → Fin 2 → ℝ := fun r c => if r = 1 ∧ c = 1 then 1 else 0

theorem inside_two (hM : 2 ≤ M) : Inside M 2 1 := by
  refine ⟨le_refl _, ?_, ?_⟩ <;> unfold latticeStart <;> simp <;> omega

theorem pix_surface (heven : M % 2 = 0) (hM : 2 ≤ M) : render (pixDM M M none) lastAct M false = fun i j => (delta ((M / 2 : ℕ) : ZMod M) i j : ℂ) := by
  funext i j
  rw [C86_superposition heven (pixDM M M none) (inside_two hM) rfl 0 0 (by simp [pixDM]) (by simp [pixDM]) (delta ((M / 2 : ℕ) : ZMod M)) (fun _ _ => rfl)]
  congr 1
  have hs : latticeStart M 2 1 + (1 : ℤ) = ((M / 2 : ℕ) : ℤ) := by unfold latticeStart; simp
  simp only [Fin.sum_univ_two, lastAct]
  simp only [pixDM, Fin.isValue, zero_ne_one, and_false, false_and, and_self, if_true, if_false, zero_mul, zero_add, one_mul, Fin.val_one, Nat.cast_one, hs, add_zero]
  unfold delta
  simp only [Int.cast_natCast, add_eq_left, sub_eq_zero]

theorem spec_delta {m : ℕ} [NeZero m] (k l : ℤ) : spec (fun i j => (delta ((m / 2 : ℕ) : ZMod m) i j : ℂ)) k l = 1 := by
  have hv : (((m / 2 : ℕ) : ZMod m)).val = m / 2 := ZMod.val_natCast_of_lt (Nat.div_lt_self (NeZero.pos m) (by norm_num))
  unfold spec
  rw [Finset.sum_eq_single ((m / 2 : ℕ) : ZMod m), Finset.sum_eq_single ((m / 2 : ℕ) : ZMod m)]
  · rw [hv]; simp [delta]
  · intro b _ hb; simp [delta, hb]
  · simp
  · intro b _ hb; exact Finset.sum_eq_zero fun _ _ => by simp [delta, hb]
  · simp

theorem natCast_mul_natCast_re (a b : ℕ) : ((a : ℂ) * (b : ℂ)).re = (a : ℝ) * b := by
  rw [← Nat.cast_mul, natCast_re, Nat.cast_mul]

theorem card_band (m : ℕ) : (band m).card = m := by unfold band; simp

/-- **C84.**  With resampling the adjoint property fails for some commands and images, whatever the two (different) array sizes. -/
theorem C84_resampled_violated (heven : M % 2 = 0) (M' : ℕ) [NeZero M'] (hne : M' ≠ M) :
    ∃ (d : DM M M' 2) (a : Fin 2 → Fin 2 → ℝ) (g : ZMod M' → ZMod M' → ℝ), d.up = some ((M' : ℝ) / M) ∧ Inside M 2 d.sep ∧
      ∑ i, ∑ j, render d a M' false i j * (g i j : ℂ) ≠ ∑ r, ∑ c, (a r c : ℂ) * backprop d (fun i j => (g i j : ℂ)) false r c := by
  have hM2 : 2 ≤ M := by have := NeZero.pos M; omega
  have hM : (0 : ℝ) < M := by exact_mod_cast NeZero.pos M
  have hM' : (0 : ℝ) < M' := by exact_mod_cast NeZero.pos M'
  refine ⟨pixDM M M' (some ((M' : ℝ) / M)), lastAct, delta ((M' / 2 : ℕ) : ZMod M'), rfl, inside_two hM2, ?_⟩
  rw [forward_spectrum _ ((M' : ℝ) / M) (by positivity) rfl, backward_spectrum heven _ _ rfl (inside_two hM2)]
  have hn : (pixDM M M' (some ((M' : ℝ) / M))).native = pixDM M M none := rfl
  rw [hn, pix_surface heven hM2, padF_same]
  simp only [spec_delta, map_one, mul_one, Finset.sum_const, card_band, smul_eq_mul, nsmul_eq_mul]
  intro h
  have h1 := ofReal_injective h
  rw [natCast_mul_natCast_re, natCast_mul_natCast_re] at h1
  have h2 : (M : ℝ) ^ 2 = (M' : ℝ) ^ 2 := by
    field_simp at h1
    nlinarith
  exact hne (by exact_mod_cast ((pow_left_inj₀ hM.le hM'.le (by norm_num)).1 h2).symm)

theorem fft2_delta (c : ZMod M) (k l : ZMod M) : fft2 (fun i j => (delta c i j : ℂ)) k l = ZMod.stdAddChar (-(c * k)) * ZMod.stdAddChar (-(c * l)) := by
  have h : (fun i j => (delta c i j : ℂ)) = fun i j => (fun i j => (delta (0 : ZMod M) i j : ℂ)) (i - c) (j - c) := by
    funext i j
    simp only [delta, sub_eq_zero]
  rw [h, fft2_roll (fun i j => (delta (0 : ZMod M) i j : ℂ)) c c k l]
  have h0 : fft2 (fun i j => (delta (0 : ZMod M) i j : ℂ)) k l = 1 := by
    unfold fft2 fft1
    simp only [Finset.mul_sum]
    rw [Finset.sum_eq_single (0 : ZMod M), Finset.sum_eq_single (0 : ZMod M)]
    · simp [delta]
    · intro b _ hb; simp [delta, hb]
    · simp
    · intro b _ hb; exact Finset.sum_eq_zero fun _ _ => by simp [delta, hb]
    · simp
  rw [h0, mul_one]

/-- **C84.**  On an odd influence-function array the back-propagation is not the adjoint, even without resampling (`fftshift` is applied where
`ifftshift` is needed). -/
theorem C84_odd_array_violated (hodd : M % 2 = 1) (hM : 3 ≤ M) :
    ∃ (d : DM M M 1) (a : Fin 1 → Fin 1 → ℝ) (g : ZMod M → ZMod M → ℝ), d.up = none ∧ Inside M 1 d.sep ∧
      ∑ i, ∑ j, render d a M false i j * (g i j : ℂ) ≠ ∑ r, ∑ c, (a r c : ℂ) * backprop d (fun i j => (g i j : ℂ)) false r c := by
  have : Fact (1 < M) := ⟨by omega⟩
  set c : ZMod M := ((M / 2 : ℕ) : ZMod M) with hc
  have h2c : c + c = -1 := by
    rw [hc, ← Nat.cast_add, show M / 2 + M / 2 = M - 1 by omega, Nat.cast_sub (by omega)]
    simp
  let d : DM M M 1 := { ifn := fun i j => (delta c i j : ℂ), sep := 1, shiftx := 0, shifty := 0, obliquity := 1, up := none }
  have hin : Inside M 1 d.sep := by
    refine ⟨le_refl _, ?_, ?_⟩ <;> simp only [latticeStart, d] <;> simp <;> omega
  set q := site M 1 1 0 with hq
  refine ⟨d, fun _ _ => 1, delta q, rfl, hin, ?_⟩
  have hl : ∀ i j, render d (fun _ _ => 1) M false i j = (delta (q - 1) i j : ℂ) := by
    intro i j
    rw [surface_eq d hin rfl 0 0 (by simp [d]) (by simp [d]) (delta c) (fun _ _ => rfl)]
    congr 1
    simp only [Finset.univ_unique, Fin.default_eq_zero, Finset.sum_singleton, one_mul, Int.cast_zero, sub_zero, d]
    rw [← hq, ← hc]
    unfold delta
    have e : ∀ i : ZMod M, i - c - q = c ↔ i = q - 1 := by
      intro i
      constructor
      · intro h; linear_combination h + h2c
      · intro h; rw [h]; linear_combination -h2c
    simp only [e]
  have hb : backprop d (fun i j => (delta q i j : ℂ)) false 0 0 = 1 := by
    unfold backprop
    dsimp only [d]
    rw [padF_same, if_neg (by simp)]
    have ht : (fun k l => starRingEnd ℂ (tf (fun i j => (delta c i j : ℂ)) 0 0 k l)) = fft2 (fun i j => (delta (-c) i j : ℂ)) := by
      funext k l
      unfold tf
      rw [fft2_delta, fft2_delta]
      simp only [ofReal_zero, mul_zero, exp_zero, mul_one, map_mul]
      rw [← AddChar.map_neg_eq_conj, ← AddChar.map_neg_eq_conj]
      congr 2 <;> ring
    rw [ht]
    unfold readLattice applyTf
    have h := conv_fft2 (fun i j => (delta q i j : ℂ)) (fun i j => (delta (-c) i j : ℂ))
    unfold conv at h
    rw [h]
    unfold fftshift roll2
    have hq' : ((latticeStart M 1 1 + ((0 : Fin 1).val : ℤ) * ((1 : ℕ) : ℤ) : ℤ) : ZMod M) = q := rfl
    dsimp only
    rw [hq', Int.cast_natCast, ← hc]
    rw [Finset.sum_eq_single q, Finset.sum_eq_single q]
    · have : q - c - q = -c := by ring
      rw [this]; simp [delta]
    · intro b _ hb; simp [delta, hb]
    · simp
    · intro b _ hb; exact Finset.sum_eq_zero fun _ _ => by simp [delta, hb]
    · simp
  simp only [hl, Finset.univ_unique, Fin.default_eq_zero, Finset.sum_singleton, hb]
  have hz : ∀ i j, (delta (q - 1) i j : ℂ) * (delta q i j : ℂ) = 0 := by
    intro i j
    unfold delta
    by_cases h1 : i = q ∧ j = q
    · rw [if_neg]
      · simp
      · rintro ⟨h2, -⟩
        rw [h1.1] at h2
        exact one_ne_zero (α := ZMod M) (by linear_combination h2)
    · rw [if_neg h1]; simp
  simp only [hz, Finset.sum_const_zero]
  simp

theorem renderAt_eq {n : ℕ} (d : DM M M n) (zoom : ℝ) (h1 : zoom ≠ 1) (M' : ℕ) [NeZero M'] (h : Dm.npRound (M * zoom) = M') (a : Fin n → Fin n → ℝ) (Nout : ℕ) :
    renderAt d zoom a Nout = render (M' := M')
      { ifn := d.ifn, sep := d.sep, shiftx := d.shiftx, shifty := d.shifty, obliquity := d.obliquity, up := some zoom } a Nout false := by
  have h' : (Dm.npRound (M * zoom)).toNat = M' := by omega
  subst h'
  unfold renderAt
  rw [if_neg h1, dif_neg (NeZero.ne _)]

/-- **C85.**  The surface of a later call with another sampling is not the surface that call would give by itself: influence function and beam of
sampling 1 first, then of sampling 1/2, for a one-pixel influence function. -/
theorem C85_sampling_violated : ∃ (d : DM 2 2 2) (c₁ c₂ : Call 2),
    genSurfs (fun dx => 1 / dx) (fun zoom a N => renderAt d zoom a N ((3 : ℕ) : ZMod N) ((2 : ℕ) : ZMod N)) none [c₁, c₂] ≠
      [c₁, c₂].map fun c => (genSurf (fun dx => 1 / dx) (fun zoom a N => renderAt d zoom a N ((3 : ℕ) : ZMod N) ((2 : ℕ) : ZMod N)) none c).1 := by
  refine ⟨pixDM 2 2 none, ⟨1, 4, lastAct⟩, ⟨1 / 2, 4, lastAct⟩, ?_⟩
  rw [C85_first_sampling]
  simp only [genSurf, List.map_cons, List.map_nil]
  intro h
  have h2 := (List.cons.inj (List.cons.inj h).2).1
  have e1 : renderAt (pixDM 2 2 none) (1 / 1) lastAct 4 ((3 : ℕ) : ZMod 4) ((2 : ℕ) : ZMod 4) = 0 := by
    unfold renderAt
    rw [if_pos (by norm_num)]
    have hr : render (pixDM 2 2 none) lastAct 4 false = padF 4 (render (pixDM 2 2 none) lastAct 2 false) := by
      unfold render
      dsimp only [pixDM]
      rw [padF_same]
    change render (pixDM 2 2 none) lastAct 4 false _ _ = 0
    rw [hr, pix_surface (by norm_num) (by norm_num)]
    unfold padF
    dsimp only
    rw [if_neg]
    decide
  have hnr : Dm.npRound (((2 : ℕ) : ℝ) * (1 / (1 / 2))) = ((4 : ℕ) : ℤ) := by
    have : ((2 : ℕ) : ℝ) * (1 / (1 / 2)) = ((4 : ℤ) : ℝ) := by norm_num
    rw [this]
    unfold Dm.npRound
    rw [Int.fract_intCast, if_pos (by norm_num), Int.floor_intCast]; rfl
  have e2 : renderAt (pixDM 2 2 none) (1 / (1 / 2)) lastAct 4 ((3 : ℕ) : ZMod 4) ((2 : ℕ) : ZMod 4) = (1 / 2 : ℝ) := by
    rw [renderAt_eq _ _ (by norm_num) 4 hnr]
    rw [render_resampled _ (1 / (1 / 2)) rfl, padF_same]
    change resample 4 (1 / (1 / 2)) (render (pixDM 2 2 none) lastAct 2 false) _ _ = _
    rw [pix_surface (by norm_num) (by norm_num), resample_eq _ (by norm_num)]
    simp only [spec_delta]
    congr 1
    have hb : band 2 = {-1, 0} := by unfold band; decide
    have v3 : (((3 : ℕ) : ZMod 4)).val = 3 := rfl
    have v2 : (((2 : ℕ) : ZMod 4)).val = 2 := rfl
    rw [hb, v3, v2]
    simp only [Finset.sum_insert (show (-1 : ℤ) ∉ ({0} : Finset ℤ) by decide), Finset.sum_singleton]
    norm_num
    have : exp (-(2 * Real.pi * I) / 4) = -I := by
      rw [show (-(2 * Real.pi * I) / 4 : ℂ) = -(Real.pi / 2 * I) by ring, exp_neg, exp_pi_div_two_mul_I]
      simp
    rw [this]
    norm_num
  rw [e1, e2] at h2
  norm_num at h2

/-! ## Non-vacuity -/

/-- FALCO's own numbers: 48 actuators across with 10 pixels each are inside the padded array of 660 samples, which is even. -/
example : gridSize 48 10 = 660 ∧ Inside 660 48 10 ∧ latticeStart 660 48 10 = 95 := ⟨by decide, (C86_lattice 48 10 (by norm_num) (by norm_num)).2, by decide⟩

/-- hypotheses of `C84_adjoint` -/
example : (4 : ℕ) % 2 = 0 ∧ (pixDM 4 4 none).up = none ∧ Inside 4 2 (pixDM 4 4 none).sep := ⟨rfl, rfl, inside_two (M := 4) (by norm_num)⟩

/-- hypotheses of `C84_adjoint_resampled`: twice finer sampling and a constant image -/
example : (2 : ℝ) * (2 : ℕ) = (4 : ℕ) ∧ (pixDM 2 4 (some 2)).up = some 2 ∧ Inside 2 2 (pixDM 2 4 (some 2)).sep ∧
    ∀ k l : ℤ, ¬ ((k ∈ band 2 ∧ l ∈ band 2) ↔ (k ∈ band 4 ∧ l ∈ band 4)) →
      spec (render (pixDM 2 4 (some 2)).native lastAct 2 false) k l = 0 ∨ spec (padF (n := 4) 4 fun _ _ => ((1 : ℝ) : ℂ)) k l = 0 := by
  refine ⟨by norm_num, rfl, inside_two (M := 2) (by norm_num), fun k l h => Or.inr ?_⟩
  rw [padF_same]
  have hs : spec (fun _ _ : ZMod 4 => ((1 : ℝ) : ℂ)) k l = (∑ i : Fin 4, exp (-(2 * Real.pi * I * (((i.val : ℝ) + (-2 : ℝ) : ℝ) * k) / (4 : ℕ)))) *
      (∑ i : Fin 4, exp (-(2 * Real.pi * I * (((i.val : ℝ) + (-2 : ℝ) : ℝ) * l) / (4 : ℕ)))) := by
    rw [Finset.sum_mul_sum]
    unfold spec
    change ∑ i : Fin 4, ∑ j : Fin 4, _ = _
    refine Finset.sum_congr rfl fun i _ => Finset.sum_congr rfl fun j _ => ?_
    rw [← exp_add, ofReal_one, one_mul]
    congr 1
    have e : ∀ i : Fin 4, ZMod.val (n := 4) i = i.val := fun _ => rfl
    rw [e, e]
    push_cast
    ring
  rw [hs, sum_roots (by norm_num), sum_roots (by norm_num)]
  have hb : ∀ m : ℤ, (m ∈ band 2 ↔ m = -1 ∨ m = 0) ∧ (m ∈ band 4 ↔ m = -2 ∨ m = -1 ∨ m = 0 ∨ m = 1) := by
    intro m
    simp only [band, Finset.mem_Ico]
    omega
  have : ¬ ((4 : ℤ) ∣ k) ∨ ¬ ((4 : ℤ) ∣ l) := by
    rw [(hb k).1, (hb l).1, (hb k).2, (hb l).2] at h
    omega
  rcases this with h | h
  · have h' : ¬ (((4 : ℕ) : ℤ) ∣ k) := by exact_mod_cast h
    rw [if_neg h', zero_mul]
  · have h' : ¬ (((4 : ℕ) : ℤ) ∣ l) := by exact_mod_cast h
    rw [if_neg h', mul_zero]

/-- hypotheses of `C86_superposition`: a real 4-sample influence function with a shift of one pixel -/
example : (4 : ℕ) % 2 = 0 ∧ Inside 4 2 1 ∧ ((1 : ℝ) = ((1 : ℤ) : ℝ)) := ⟨rfl, inside_two (M := 4) (by norm_num), by norm_num⟩

/-- `C86_centred` at FALCO's default centre `xc = Nact/2 - 1/2` -/
example : centrePixel 660 48 10 23.5 = 330 := by
  have h := (C86_centred 660 48 10 rfl rfl 23.5).2 0 (by norm_num)
  rw [h]; norm_num

/-- `C86_odd_grid_violated`: five actuators with ten pixels each, beam centred on the middle actuator -/
example : centrePixel 230 5 10 2 ≠ 115 := by
  have h := C86_odd_grid_violated 230 5 10 rfl 2
  intro e
  rw [e] at h
  norm_num at h

/-- `C85_history_independent`: two different calls of the same sampling -/
example : ∀ c ∈ [(⟨1, 4, lastAct⟩ : Call 2), ⟨1, 6, fun _ _ => 2⟩], c.dx = 1 := by simp

end Verif.DiffDm
