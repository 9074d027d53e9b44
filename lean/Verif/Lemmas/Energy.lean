import Verif.Lemmas.Adjoint
import Mathlib.LinearAlgebra.Matrix.NonsingularInverse
import Mathlib.LinearAlgebra.Matrix.Trace

/-! # Energy of a field through the propagation steps of the compact model -/

set_option linter.unusedSectionVars false

namespace Verif.Compact
open Verif Complex Verif.Optics Matrix

/-- total energy of a sampled field -/
noncomputable def en {ι κ : Type*} [Fintype ι] [Fintype κ] (F : ι → κ → ℂ) : ℝ := ∑ i, ∑ j, normSq (F i j)

section basic
variable {ι κ : Type*} [Fintype ι] [Fintype κ]

theorem en_nonneg (F : ι → κ → ℂ) : 0 ≤ en F := Finset.sum_nonneg fun _ _ => Finset.sum_nonneg fun _ _ => normSq_nonneg _

theorem en_mul_le (m F : ι → κ → ℂ) (hm : ∀ i j, normSq (m i j) ≤ 1) : en (fun i j => m i j * F i j) ≤ en F := by
  unfold en
  refine Finset.sum_le_sum fun i _ => Finset.sum_le_sum fun j _ => ?_
  rw [map_mul]
  exact mul_le_of_le_one_left (normSq_nonneg _) (hm i j)

theorem en_mul_le' (F m : ι → κ → ℂ) (hm : ∀ i j, normSq (m i j) ≤ 1) : en (fun i j => F i j * m i j) ≤ en F := by
  have h : (fun i j => F i j * m i j) = fun i j => m i j * F i j := by funext i j; ring
  rw [h]; exact en_mul_le m F hm

theorem en_trace {m n : Type*} [Fintype m] [Fintype n] (A : Matrix m n ℂ) : ((en A : ℝ) : ℂ) = (Aᴴ * A).trace := by
  unfold en Matrix.trace
  simp only [Matrix.diag, Matrix.mul_apply, Matrix.conjTranspose_apply]
  push_cast
  rw [Finset.sum_comm]
  refine Finset.sum_congr rfl fun i _ => Finset.sum_congr rfl fun j _ => ?_
  rw [normSq_eq]; rfl

theorem en_unitary {n : Type*} [Fintype n] [DecidableEq n] (U V E : Matrix n n ℂ) (hU : Uᴴ * U = 1) (hV : V * Vᴴ = 1) :
    en (U * E * V) = en E := by
  have : ((en (U * E * V) : ℝ) : ℂ) = ((en E : ℝ) : ℂ) := by
    rw [en_trace, en_trace, Matrix.conjTranspose_mul, Matrix.conjTranspose_mul, Matrix.mul_assoc, Matrix.trace_mul_comm,
      show (Eᴴ * Uᴴ) * (U * E * V) * Vᴴ = Eᴴ * (Uᴴ * U) * E * (V * Vᴴ) by simp only [Matrix.mul_assoc], hU, hV, Matrix.mul_one, Matrix.mul_one]
  exact_mod_cast this

end basic

/-- unitary DFT kernel with arbitrary offsets -/
noncomputable def ker (K : ℕ) (s t : ℝ) : Matrix (Fin K) (Fin K) ℂ := fun k a =>
  (Real.sqrt K : ℂ)⁻¹ * exp (-(2 * Real.pi * I * (((k.val : ℝ) + s : ℝ) * ((a.val : ℝ) + t : ℝ)) / K))

theorem ker_unitary {K : ℕ} (hK : 0 < K) (s t : ℝ) : (ker K s t)ᴴ * ker K s t = 1 := by
  have hK' : (K : ℂ) ≠ 0 := by exact_mod_cast hK.ne'
  have hs : (Real.sqrt K : ℂ)⁻¹ * (Real.sqrt K : ℂ)⁻¹ = (K : ℂ)⁻¹ := by
    rw [← mul_inv, ← ofReal_mul, Real.mul_self_sqrt (Nat.cast_nonneg K), ofReal_natCast]
  funext a b
  rw [Matrix.mul_apply]
  have h : ∀ k : Fin K, (ker K s t)ᴴ a k * ker K s t k b
      = (K : ℂ)⁻¹ * exp (-(2 * Real.pi * I * (((k.val : ℝ) + s : ℝ) * (((b.val : ℤ) - (a.val : ℤ) : ℤ) : ℂ)) / K)) := by
    intro k
    rw [Matrix.conjTranspose_apply]
    unfold ker
    rw [RCLike.star_def, map_mul, map_inv₀, conj_ofReal, ← exp_conj, mul_mul_mul_comm, hs, ← exp_add]
    congr 2
    simp only [map_neg, map_div₀, map_mul, map_ofNat, conj_ofReal, conj_I, Complex.conj_natCast]
    push_cast; ring
  simp only [h]
  rw [← Finset.mul_sum, sum_roots hK]
  by_cases hab : a = b
  · subst hab; simp [hK']
  · rw [if_neg, mul_zero, Matrix.one_apply_ne hab]
    intro hd
    have ha := a.isLt
    have hb := b.isLt
    have : (b.val : ℤ) - a.val = 0 := by
      rcases hd with ⟨q, hq⟩
      have : q = 0 := by
        by_contra h0
        rcases lt_or_gt_of_ne h0 with h1 | h1
        · have : (K : ℤ) * q ≤ K * (-1) := mul_le_mul_of_nonneg_left (by omega) (by omega)
          omega
        · have : (K : ℤ) * 1 ≤ K * q := mul_le_mul_of_nonneg_left (by omega) (by omega)
          omega
      rw [hq, this, mul_zero]
    exact hab (Fin.ext (by omega))

theorem ker_unitary' {K : ℕ} (hK : 0 < K) (s t : ℝ) : ker K s t * (ker K s t)ᴴ = 1 := by
  exact mul_eq_one_comm.1 (ker_unitary hK s t)

/-! ## zero-extension to a larger array -/

/-- the array in the first rows and columns of a `K × K` array of zeros -/
def ext (K : ℕ) {n m : ℕ} (E : Fin n → Fin m → ℂ) : Matrix (Fin K) (Fin K) ℂ := fun a b =>
  if h : a.val < n ∧ b.val < m then E ⟨a.val, h.1⟩ ⟨b.val, h.2⟩ else 0

theorem sum_ext {β : Type*} [AddCommMonoid β] {n K : ℕ} (hn : n ≤ K) (g : Fin n → β) :
    ∑ a : Fin K, (if h : a.val < n then g ⟨a.val, h⟩ else 0) = ∑ a : Fin n, g a := by
  obtain ⟨d, rfl⟩ := Nat.exists_eq_add_of_le hn
  rw [Fin.sum_univ_add]
  simp

theorem en_ext {K n m : ℕ} (hn : n ≤ K) (hm : m ≤ K) (E : Fin n → Fin m → ℂ) : en (ext K E) = en E := by
  unfold en
  rw [← sum_ext hn]
  refine Finset.sum_congr rfl fun a _ => ?_
  by_cases ha : a.val < n
  · rw [dif_pos ha, ← sum_ext hm]
    refine Finset.sum_congr rfl fun b _ => ?_
    unfold ext
    by_cases hb : b.val < m
    · rw [dif_pos ⟨ha, hb⟩, dif_pos hb]
    · rw [dif_neg (fun h => hb h.2), dif_neg hb, map_zero]
  · rw [dif_neg ha]
    refine Finset.sum_eq_zero fun b _ => ?_
    unfold ext
    rw [dif_neg (fun h => ha h.1), map_zero]

theorem sum_sum_ext {K n m : ℕ} (hn : n ≤ K) (hm : m ≤ K) (E : Fin n → Fin m → ℂ) (f g : Fin K → ℂ) :
    ∑ b : Fin K, (∑ a : Fin K, f a * ext K E a b) * g b
      = ∑ b : Fin m, (∑ a : Fin n, f (Fin.castLE hn a) * E a b) * g (Fin.castLE hm b) := by
  rw [← sum_ext hm]
  refine Finset.sum_congr rfl fun b _ => ?_
  by_cases hb : b.val < m
  · rw [dif_pos hb, ← sum_ext hn]
    congr 1
    refine Finset.sum_congr rfl fun a _ => ?_
    unfold ext
    by_cases ha : a.val < n
    · rw [dif_pos ⟨ha, hb⟩, dif_pos ha]; rfl
    · rw [dif_neg (fun h => ha h.1), dif_neg ha, mul_zero]
  · rw [dif_neg hb]
    have : ∀ a : Fin K, f a * ext K E a b = 0 := by
      intro a; unfold ext; rw [dif_neg (fun h => hb h.2), mul_zero]
    simp [this]

/-- A part of an array has no more energy than the array. -/
theorem en_part_le {ι κ : Type*} [Fintype ι] [Fintype κ] {K : ℕ} (Z : Fin K → Fin K → ℂ) (f : ι → Fin K) (g : κ → Fin K)
    (hf : Function.Injective f) (hg : Function.Injective g) : en (fun i j => Z (f i) (g j)) ≤ en Z := by
  classical
  unfold en
  calc ∑ i, ∑ j, normSq (Z (f i) (g j)) ≤ ∑ i, ∑ b, normSq (Z (f i) b) := by
        refine Finset.sum_le_sum fun i _ => ?_
        rw [← Finset.sum_image (f := fun b => normSq (Z (f i) b)) (s := Finset.univ) (g := g) (fun a _ b _ h => hg h)]
        exact Finset.sum_le_sum_of_subset_of_nonneg (Finset.subset_univ _) fun _ _ _ => normSq_nonneg _
    _ ≤ ∑ a, ∑ b, normSq (Z a b) := by
        rw [← Finset.sum_image (f := fun a => ∑ b, normSq (Z a b)) (s := Finset.univ) (g := f) (fun a _ b _ h => hf h)]
        exact Finset.sum_le_sum_of_subset_of_nonneg (Finset.subset_univ _) fun _ _ _ => Finset.sum_nonneg fun _ _ => normSq_nonneg _

/-! ## the matrix Fourier transforms -/

/-- coordinate of entry 0 in units of the step -/
noncomputable def off (n : ℕ) (c : Util.Centering) : ℝ := -((n / 2 : ℕ) : ℝ) + (if n % 2 = 0 ∧ c = .interpixel then 0.5 else 0)

theorem ax_off {n : ℕ} (step : ℝ) (c : Util.Centering) (i : Fin n) : ax n step c i = ((i.val : ℝ) + off n c) * step := by
  rw [ax_eq]; unfold off; ring

theorem exp_ker {K : ℕ} (hK : 0 < K) {wvl fl dx dxi : ℝ} (hdx : 0 < dx) (hdxi : 0 < dxi) (hs : K * dx * dxi = wvl * fl) (p q : ℝ) :
    exp (-2 * Real.pi * I / (wvl * fl) * (((p * dxi : ℝ) : ℂ) * ((q * dx : ℝ) : ℂ))) = exp (-(2 * Real.pi * I * ((p : ℂ) * (q : ℂ)) / K)) := by
  congr 1
  rw [← ofReal_mul wvl fl, ← hs]
  have h1 : (K : ℂ) ≠ 0 := by exact_mod_cast hK.ne'
  have h2 : (dx : ℂ) ≠ 0 := by exact_mod_cast hdx.ne'
  have h3 : (dxi : ℂ) ≠ 0 := by exact_mod_cast hdxi.ne'
  push_cast
  field_simp

theorem scaling_eq {K : ℕ} (hK : 0 < K) {wvl fl dx dxi : ℝ} (hdx : 0 < dx) (hdxi : 0 < dxi) (hs : K * dx * dxi = wvl * fl) :
    ((Real.sqrt (dx * dx * dxi * dxi) : ℝ) : ℂ) / (1 * wvl * fl) = (Real.sqrt K : ℂ)⁻¹ * (Real.sqrt K : ℂ)⁻¹ := by
  have h0 : (Real.sqrt K : ℂ)⁻¹ * (Real.sqrt K : ℂ)⁻¹ = (K : ℂ)⁻¹ := by
    rw [← mul_inv, ← ofReal_mul, Real.mul_self_sqrt (Nat.cast_nonneg K), ofReal_natCast]
  rw [h0, one_mul, ← ofReal_mul wvl fl, ← hs, show dx * dx * dxi * dxi = (dx * dxi) * (dx * dxi) by ring,
    Real.sqrt_mul_self (by positivity)]
  have h1 : (K : ℂ) ≠ 0 := by exact_mod_cast hK.ne'
  have h2 : (dx : ℂ) ≠ 0 := by exact_mod_cast hdx.ne'
  have h3 : (dxi : ℂ) ≠ 0 := by exact_mod_cast hdxi.ne'
  push_cast
  field_simp

theorem mftP2f_ker {K N Neta Nxi : ℕ} (hK : 0 < K) {wvl fl dx dxi : ℝ} (hdx : 0 < dx) (hdxi : 0 < dxi) (hs : K * dx * dxi = wvl * fl)
    (hN : N ≤ K) (he : Neta ≤ K) (hx : Nxi ≤ K) (c : Util.Centering) (E : Fin N → Fin N → ℂ) (e : Fin Neta) (x : Fin Nxi) :
    mftP2f E fl wvl dx dxi Nxi dxi Neta c e x
      = (ker K (off Neta c) (off N c) * ext K E * ker K (off N c) (off Nxi c)) (Fin.castLE he e) (Fin.castLE hx x) := by
  unfold mftP2f
  rw [scaling_eq hK hdx hdxi hs, Matrix.mul_apply]
  simp only [Matrix.mul_apply]
  rw [sum_sum_ext hN hN, Finset.mul_sum]
  refine Finset.sum_congr rfl fun b _ => ?_
  unfold ker
  simp only [Fin.val_castLE]
  rw [ax_off dx c b, ax_off dxi c x, mul_comm ((((b.val : ℝ) + off N c) * dx : ℝ) : ℂ), exp_ker hK hdx hdxi hs,
    mul_comm ((((x.val : ℝ) + off Nxi c : ℝ)) : ℂ)]
  have : ∀ a : Fin N, exp (-2 * Real.pi * I / (wvl * fl) * (ax Neta dxi c e * ax N dx c a)) * E a b
      = exp (-(2 * Real.pi * I * (((e.val : ℝ) + off Neta c : ℝ) * ((a.val : ℝ) + off N c : ℝ)) / K)) * E a b := by
    intro a
    rw [ax_off dx c a, ax_off dxi c e, exp_ker hK hdx hdxi hs]
  rw [Finset.sum_congr rfl fun k _ => this k]
  simp only [mul_assoc ((Real.sqrt K : ℂ)⁻¹) (exp _) _]
  rw [← Finset.mul_sum]
  ring

theorem mftF2p_ker {K N Neta Nxi : ℕ} (hK : 0 < K) {wvl fl dx dxi : ℝ} (hdx : 0 < dx) (hdxi : 0 < dxi) (hs : K * dx * dxi = wvl * fl)
    (hN : N ≤ K) (he : Neta ≤ K) (hx : Nxi ≤ K) (c : Util.Centering) (E : Fin Neta → Fin Nxi → ℂ) (a b : Fin N) :
    mftF2p E fl wvl dxi dxi dx N c a b
      = (ker K (off N c) (off Neta c) * ext K E * ker K (off Nxi c) (off N c)) (Fin.castLE hN a) (Fin.castLE hN b) := by
  unfold mftF2p
  rw [scaling_eq hK hdx hdxi hs, Matrix.mul_apply]
  simp only [Matrix.mul_apply]
  rw [sum_sum_ext he hx, Finset.mul_sum]
  refine Finset.sum_congr rfl fun x _ => ?_
  unfold ker
  simp only [Fin.val_castLE]
  rw [ax_off dx c b, ax_off dxi c x, exp_ker hK hdx hdxi hs]
  have : ∀ e : Fin Neta, exp (-2 * Real.pi * I / (wvl * fl) * (ax N dx c a * ax Neta dxi c e)) * E e x
      = exp (-(2 * Real.pi * I * (((a.val : ℝ) + off N c : ℝ) * ((e.val : ℝ) + off Neta c : ℝ)) / K)) * E e x := by
    intro e
    rw [ax_off dx c a, ax_off dxi c e, mul_comm ((((a.val : ℝ) + off N c) * dx : ℝ) : ℂ), exp_ker hK hdx hdxi hs,
      mul_comm (((e.val : ℝ) + off Neta c : ℝ) : ℂ)]
  rw [Finset.sum_congr rfl fun k _ => this k]
  simp only [mul_assoc ((Real.sqrt K : ℂ)⁻¹) (exp _) _]
  rw [← Finset.mul_sum]
  ring

theorem en_mftP2f_le {K N Neta Nxi : ℕ} (hK : 0 < K) {wvl fl dx dxi : ℝ} (hdx : 0 < dx) (hdxi : 0 < dxi) (hs : K * dx * dxi = wvl * fl)
    (hN : N ≤ K) (he : Neta ≤ K) (hx : Nxi ≤ K) (c : Util.Centering) (E : Fin N → Fin N → ℂ) :
    en (mftP2f E fl wvl dx dxi Nxi dxi Neta c) ≤ en E := by
  have h : mftP2f E fl wvl dx dxi Nxi dxi Neta c = fun e x =>
      (ker K (off Neta c) (off N c) * ext K E * ker K (off N c) (off Nxi c)) (Fin.castLE he e) (Fin.castLE hx x) := by
    funext e x; exact mftP2f_ker hK hdx hdxi hs hN he hx c E e x
  rw [h, ← en_ext hN hN E, ← en_unitary (ker K (off Neta c) (off N c)) (ker K (off N c) (off Nxi c)) (ext K E)
    (ker_unitary hK _ _) (ker_unitary' hK _ _)]
  exact en_part_le _ _ _ (Fin.castLE_injective he) (Fin.castLE_injective hx)

theorem en_mftF2p_le {K N Neta Nxi : ℕ} (hK : 0 < K) {wvl fl dx dxi : ℝ} (hdx : 0 < dx) (hdxi : 0 < dxi) (hs : K * dx * dxi = wvl * fl)
    (hN : N ≤ K) (he : Neta ≤ K) (hx : Nxi ≤ K) (c : Util.Centering) (E : Fin Neta → Fin Nxi → ℂ) :
    en (mftF2p E fl wvl dxi dxi dx N c) ≤ en E := by
  have h : mftF2p E fl wvl dxi dxi dx N c = fun a b =>
      (ker K (off N c) (off Neta c) * ext K E * ker K (off Nxi c) (off N c)) (Fin.castLE hN a) (Fin.castLE hN b) := by
    funext a b; exact mftF2p_ker hK hdx hdxi hs hN he hx c E a b
  rw [h, ← en_ext he hx E, ← en_unitary (ker K (off N c) (off Neta c)) (ker K (off Nxi c) (off N c)) (ext K E)
    (ker_unitary hK _ _) (ker_unitary' hK _ _)]
  exact en_part_le _ _ _ (Fin.castLE_injective hN) (Fin.castLE_injective hN)

/-! ## the other steps -/

theorem en_toFin {N : ℕ} [NeZero N] (E : Pl N) : en (toFin E) = en E := by
  unfold en
  rw [← sum_fin_zmod]
  refine Finset.sum_congr rfl fun a _ => ?_
  rw [← sum_fin_zmod]; rfl

theorem en_ofFin {N : ℕ} [NeZero N] (E : Fin N → Fin N → ℂ) : en (ofFin E) = en E := by
  rw [← en_toFin, toFin_ofFin]

theorem en_relay {N : ℕ} [NeZero N] (n : ℤ) (c : Util.Centering) (E : Pl N) : en (relay E n c) = en E := by
  by_cases h : n % 2 = 1
  · rw [relay_odd _ _ h]
    unfold en
    let σ : ZMod N ≃ ZMod N := ⟨mirror c, mirror c, mirror_mirror c, mirror_mirror c⟩
    exact Fintype.sum_equiv σ _ _ fun i => Fintype.sum_equiv σ _ _ fun j => rfl
  · rw [relay_even _ _ h]

theorem en_padF_le {n m : ℕ} [NeZero n] [NeZero m] (E : Pl n) : en (padF m E) ≤ en E := by
  have h : ((en (padF m E) : ℝ) : ℂ) = ip (fun _ _ => 1) (padF m (fun a b => ((normSq (E a b) : ℝ) : ℂ)) : Pl m) := by
    unfold en ip padF
    push_cast
    refine Finset.sum_congr rfl fun i _ => Finset.sum_congr rfl fun j _ => ?_
    simp only [map_one, one_mul]
    split <;> simp
  rw [ip_padF] at h
  have h2 : ip (padF n (fun _ _ => 1 : Pl m)) (fun a b => ((normSq (E a b) : ℝ) : ℂ))
      = ((∑ a, ∑ b, (if (padF n (fun _ _ => 1 : Pl m)) a b = 0 then 0 else normSq (E a b)) : ℝ) : ℂ) := by
    unfold ip
    push_cast
    refine Finset.sum_congr rfl fun a _ => Finset.sum_congr rfl fun b _ => ?_
    unfold padF
    dsimp only
    split <;> simp
  rw [h2] at h
  have h3 := Complex.ofReal_injective h
  rw [h3]
  unfold en
  refine Finset.sum_le_sum fun a _ => Finset.sum_le_sum fun b _ => ?_
  split
  · exact normSq_nonneg _
  · exact le_refl _

theorem en_ptpCore {N : ℕ} [NeZero N] (E : Pl N) (w wvl d : ℝ) : en (ptpCore E w wvl d) = en E := by
  obtain ⟨E', h1, h2⟩ := C08_energy E w wvl d
  rw [ptp_eq_core] at h1
  rw [Except.ok.inj h1]; exact h2

theorem normSq_exp_I (r : ℝ) (k : ℝ) : normSq (exp (I * k * r)) = 1 := by
  rw [normSq_eq_norm_sq, show (I * (k : ℂ) * (r : ℂ)) = ((k * r : ℝ) : ℂ) * I by push_cast; ring, norm_exp_ofReal_mul_I, one_pow]

/-! ## Babinet propagation through the occulter -/

section babinet
variable {K M N4 Neta Nxi : ℕ} [NeZero M] [NeZero N4]

/-- pixel of a centred `M`-array at pixel `i` of a centred `N4`-array -/
def g4 (hM4 : N4 ≤ M) (hMK : M ≤ K) (h4 : Even N4) (hM : Even M) (i : ZMod N4) : Fin K :=
  ⟨i.val + (M / 2 - N4 / 2), by
    have := ZMod.val_lt i
    rw [Nat.even_iff] at h4 hM
    omega⟩

theorem g4_inj (hM4 : N4 ≤ M) (hMK : M ≤ K) (h4 : Even N4) (hM : Even M) : Function.Injective (g4 hM4 hMK h4 hM) := by
  intro i j h
  have := congrArg Fin.val h
  unfold g4 at this
  exact ZMod.val_injective N4 (by simpa using this)

theorem g4_off (hM4 : N4 ≤ M) (hMK : M ≤ K) (h4 : Even N4) (hM : Even M) (c : Util.Centering) (i : ZMod N4) :
    ((g4 hM4 hMK h4 hM i).val : ℝ) + off M c = (i.val : ℝ) + off N4 c := by
  unfold g4 off
  rw [Nat.even_iff] at h4 hM
  have : N4 / 2 ≤ M / 2 := by omega
  push_cast [Nat.cast_sub this]
  simp only [h4, hM]
  generalize ((M / 2 : ℕ) : ℝ) = u
  generalize ((N4 / 2 : ℕ) : ℝ) = v
  ring

theorem mirror_off {N4 : ℕ} [NeZero N4] (h4 : Even N4) (c : Util.Centering) (i : ZMod N4) (hi : c = .interpixel ∨ i ≠ 0) :
    ((mirror c i).val : ℝ) + off N4 c = -((i.val : ℝ) + off N4 c) := by
  have := axZ_mirror h4 1 c i hi
  unfold axZ at this
  rw [ax_off, ax_off] at this
  simpa using this

theorem kerH_eq {s t t' : ℝ} (k a : Fin K) (e : Fin K) (h : (k.val : ℝ) + t' = -((a.val : ℝ) + s)) :
    (ker K t t')ᴴ k e = ker K s t a e := by
  rw [Matrix.conjTranspose_apply]
  unfold ker
  rw [RCLike.star_def, map_mul, map_inv₀, conj_ofReal, ← exp_conj]
  congr 2
  simp only [map_neg, map_div₀, map_mul, map_ofNat, conj_ofReal, conj_I, Complex.conj_natCast]
  rw [h]
  push_cast; ring

theorem kerH_eq' {s t t' : ℝ} (k a : Fin K) (e : Fin K) (h : (k.val : ℝ) + t' = -((a.val : ℝ) + s)) :
    (ker K t' t)ᴴ e k = ker K t s e a := by
  rw [Matrix.conjTranspose_apply]
  unfold ker
  rw [RCLike.star_def, map_mul, map_inv₀, conj_ofReal, ← exp_conj]
  congr 2
  simp only [map_neg, map_div₀, map_mul, map_ofNat, conj_ofReal, conj_I, Complex.conj_natCast]
  rw [h]
  push_cast; ring

/-- Babinet propagation is masking in a unitarily transformed `K × K` plane. -/
theorem babinet_unitary (hK : 0 < K) {wvl fl dx dxi : ℝ} (hdx : 0 < dx) (hdxi : 0 < dxi) (hs : K * dx * dxi = wvl * fl)
    (hMK : M ≤ K) (he : Neta ≤ K) (hx : Nxi ≤ K) (hM4 : N4 ≤ M) (h4 : Even N4) (hM : Even M) (c : Util.Centering) (n : ℤ)
    (mask : Fin Neta → Fin Nxi → ℂ) (t : ℂ) (hmask : ∀ e x, normSq (mask e x) ≤ 1) (ht : normSq t ≤ 1) (E : Pl M) :
    ∃ (Z : Matrix (Fin K) (Fin K) ℂ) (σ : ZMod N4 → ZMod N4), en Z ≤ en E ∧ Function.Injective σ ∧
      ∀ i j : ZMod N4, (c = .interpixel ∨ (i ≠ 0 ∧ j ≠ 0)) →
        t * padF N4 (relay E n c) i j
          - relay (ofFin (mftF2p (fun e x => (t - mask e x) * mftP2f (toFin E) fl wvl dx dxi Nxi dxi Neta c e x) fl wvl dxi dxi dx N4 c) : Pl N4) (n - 1) c i j
        = Z (g4 hM4 hMK h4 hM (σ i)) (g4 hM4 hMK h4 hM (σ j)) := by
  set X := ext K (toFin E) with hX
  set U := ker K (off Neta c) (off M c) with hU
  set V := ker K (off M c) (off Nxi c) with hV
  set EF3 : Fin Neta → Fin Nxi → ℂ := fun e x => (t - mask e x) * mftP2f (toFin E) fl wvl dx dxi Nxi dxi Neta c e x with hEF
  set W := U * X * V with hW
  let mt : Fin K → Fin K → ℂ := fun a b => if h : a.val < Neta ∧ b.val < Nxi then mask ⟨a.val, h.1⟩ ⟨b.val, h.2⟩ else t
  let Y : Matrix (Fin K) (Fin K) ℂ := fun a b => mt a b * W a b
  have hUU := ker_unitary hK (off Neta c) (off M c)
  have hUU' := ker_unitary' hK (off Neta c) (off M c)
  have hVV := ker_unitary hK (off M c) (off Nxi c)
  have hVV' := ker_unitary' hK (off M c) (off Nxi c)
  have hY : Y = t • W - ext K EF3 := by
    funext a b
    rw [Matrix.sub_apply, Matrix.smul_apply, smul_eq_mul]
    change mt a b * W a b = _
    dsimp only [mt]
    unfold ext
    by_cases h : a.val < Neta ∧ b.val < Nxi
    · rw [dif_pos h, dif_pos h, hEF]
      dsimp only
      rw [mftP2f_ker hK hdx hdxi hs hMK he hx c (toFin E)]
      rw [show Fin.castLE he ⟨a.val, h.1⟩ = a from rfl, show Fin.castLE hx ⟨b.val, h.2⟩ = b from rfl]
      ring
    · rw [dif_neg h, dif_neg h, sub_zero]
  let Z : Matrix (Fin K) (Fin K) ℂ := Uᴴ * Y * Vᴴ
  have hZ : Z = t • X - Uᴴ * ext K EF3 * Vᴴ := by
    change Uᴴ * Y * Vᴴ = _
    rw [hY, Matrix.mul_sub, Matrix.sub_mul, Matrix.mul_smul, Matrix.smul_mul, hW,
      show Uᴴ * (U * X * V) * Vᴴ = (Uᴴ * U) * X * (V * Vᴴ) by simp only [Matrix.mul_assoc], hUU, hVV', Matrix.one_mul, Matrix.mul_one]
  have hen : en Z ≤ en E := by
    have h1 : en Z = en Y := en_unitary Uᴴ Vᴴ Y (by rw [Matrix.conjTranspose_conjTranspose]; exact hUU')
      (by rw [Matrix.conjTranspose_conjTranspose]; exact hVV)
    have h2 : en Y ≤ en W := by
      refine en_mul_le mt W fun a b => ?_
      dsimp only [mt]
      split
      · exact hmask _ _
      · exact ht
    have h3 : en W = en X := en_unitary U V X hUU hVV'
    rw [h1]
    refine h2.trans ?_
    rw [h3, hX, en_ext hMK hMK, en_toFin]
  -- the focal-plane part
  have hsub : ∀ (i j k l : ZMod N4), ((g4 hM4 hMK h4 hM k).val : ℝ) + off M c = -((i.val : ℝ) + off N4 c) →
      ((g4 hM4 hMK h4 hM l).val : ℝ) + off M c = -((j.val : ℝ) + off N4 c) →
      (ofFin (mftF2p EF3 fl wvl dxi dxi dx N4 c) : Pl N4) i j = (Uᴴ * ext K EF3 * Vᴴ) (g4 hM4 hMK h4 hM k) (g4 hM4 hMK h4 hM l) := by
    intro i j k l hi hj
    unfold ofFin
    rw [mftF2p_ker hK hdx hdxi hs (hM4.trans hMK) he hx c EF3, Matrix.mul_apply, Matrix.mul_apply]
    refine Finset.sum_congr rfl fun x _ => ?_
    rw [Matrix.mul_apply, Matrix.mul_apply]
    congr 1
    · refine Finset.sum_congr rfl fun e _ => ?_
      rw [hU, ← kerH_eq (t := off Neta c) (t' := off M c) (s := off N4 c) (g4 hM4 hMK h4 hM k) (Fin.castLE (hM4.trans hMK) ⟨i.val, ZMod.val_lt i⟩) e hi]
    · rw [hV, ← kerH_eq' (t := off Nxi c) (t' := off M c) (s := off N4 c) (g4 hM4 hMK h4 hM l) (Fin.castLE (hM4.trans hMK) ⟨j.val, ZMod.val_lt j⟩) x hj]
  -- the pupil part
  have hXv : ∀ (a b : ZMod M) (k l : ZMod N4), (a.val = (g4 hM4 hMK h4 hM k).val) → (b.val = (g4 hM4 hMK h4 hM l).val) →
      E a b = X (g4 hM4 hMK h4 hM k) (g4 hM4 hMK h4 hM l) := by
    intro a b k l ha hb
    rw [hX]
    unfold ext toFin
    rw [dif_pos ⟨ha ▸ ZMod.val_lt a, hb ▸ ZMod.val_lt b⟩]
    simp only [← ha, ← hb]
    rw [ZMod.natCast_zmod_val, ZMod.natCast_zmod_val]
  have hcast : ∀ i : ZMod N4, ((((g4 hM4 hMK h4 hM i).val : ℕ) : ZMod M)).val = (g4 hM4 hMK h4 hM i).val := by
    intro i
    rw [ZMod.val_natCast, Nat.mod_eq_of_lt]
    have := ZMod.val_lt i
    unfold g4
    rw [Nat.even_iff] at h4 hM
    dsimp only
    omega
  have hpad : ∀ (F : Pl M) (i j : ZMod N4), padF N4 F i j = F ((g4 hM4 hMK h4 hM i).val : ZMod M) ((g4 hM4 hMK h4 hM j).val : ZMod M) := by
    intro F i j
    have hi := ZMod.val_lt i
    have hj := ZMod.val_lt j
    have h4' := Nat.even_iff.1 h4
    have hM' := Nat.even_iff.1 hM
    have ei : ∀ i : ZMod N4, ((M / 2 : ℕ) : ℤ) + ((i.val : ℤ) - ((N4 / 2 : ℕ) : ℤ)) = (((g4 hM4 hMK h4 hM i).val : ℕ) : ℤ) := by
      intro i
      unfold g4
      dsimp only
      omega
    unfold padF
    dsimp only
    rw [ei i, ei j, if_pos]
    · simp only [Int.cast_natCast]
    · have h1 := hcast i
      have h2 := hcast j
      have := ZMod.val_lt (((g4 hM4 hMK h4 hM i).val : ℕ) : ZMod M)
      have := ZMod.val_lt (((g4 hM4 hMK h4 hM j).val : ℕ) : ZMod M)
      omega
  have hcomm : ∀ i : ZMod N4, (c = .interpixel ∨ i ≠ 0) →
      (mirror c (((g4 hM4 hMK h4 hM i).val : ℕ) : ZMod M)).val = (g4 hM4 hMK h4 hM (mirror c i)).val := by
    intro i hi
    have h1 : c = .interpixel ∨ ((((g4 hM4 hMK h4 hM i).val : ℕ) : ZMod M)) ≠ 0 := by
      refine hi.imp id fun h h0 => h ?_
      have := congrArg ZMod.val h0
      rw [hcast, ZMod.val_zero] at this
      unfold g4 at this
      exact (ZMod.val_eq_zero i).1 (by dsimp only at this; omega)
    have e1 := mirror_off hM c _ h1
    rw [hcast, g4_off hM4 hMK h4 hM c i, ← mirror_off h4 c i hi, ← g4_off hM4 hMK h4 hM c (mirror c i)] at e1
    have : ((mirror c (((g4 hM4 hMK h4 hM i).val : ℕ) : ZMod M)).val : ℝ) = ((g4 hM4 hMK h4 hM (mirror c i)).val : ℝ) := by linarith
    exact_mod_cast this
  by_cases hn : n % 2 = 1
  · refine ⟨Z, mirror c, hen, fun a b h => by rw [← mirror_mirror c a, h, mirror_mirror], fun i j hij => ?_⟩
    rw [relay_even _ (n - 1) (by omega), relay_odd _ n hn, hpad, hZ, Matrix.sub_apply, Matrix.smul_apply, smul_eq_mul]
    have hi := hij.imp id (·.1)
    have hj := hij.imp id (·.2)
    congr 1
    · congr 1
      exact hXv _ _ _ _ (hcomm i hi) (hcomm j hj)
    · exact hsub i j _ _ (by rw [g4_off, mirror_off h4 c i hi]) (by rw [g4_off, mirror_off h4 c j hj])
  · refine ⟨Z, id, hen, Function.injective_id, fun i j hij => ?_⟩
    rw [relay_odd _ (n - 1) (by omega), relay_even _ n hn, hpad, hZ, Matrix.sub_apply, Matrix.smul_apply, smul_eq_mul]
    have hi := hij.imp id (·.1)
    have hj := hij.imp id (·.2)
    congr 1
    · congr 1
      exact hXv _ _ _ _ (hcast i) (hcast j)
    · exact hsub _ _ _ _ (by rw [g4_off, mirror_off h4 c i hi, neg_neg]; rfl) (by rw [g4_off, mirror_off h4 c j hj, neg_neg]; rfl)

end babinet

end Verif.Compact
