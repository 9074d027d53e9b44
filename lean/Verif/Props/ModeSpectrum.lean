import Verif.Model.ModeSpectrum
import Mathlib.Algebra.Order.Chebyshev
import Mathlib.Tactic.Positivity
import Mathlib.Tactic.FieldSimp
import Mathlib.Tactic.Linarith
import Mathlib.Tactic.NormNum
import Mathlib.Tactic.LinearCombination
import Mathlib.Data.Complex.BigOperators

/-!
# C153: the spectrum of singular modes
-/

namespace Verif.ModeSpectrum
open Verif Matrix

/-! ## Specification -/

/-- The change of the field of mode `m` at pixel `p` that commands `u` of all actuators make. -/
noncomputable def response {N : ℕ} (j : JacStruct N) (u : j.Act → ℝ) (m : ℕ) (p : Fin N) : ℂ :=
  ∑ a, j.G1 p a m * u (.inl a) + ∑ a, j.G2 p a m * u (.inr (.inl a)) + ∑ a, j.G8 p a m * u (.inr (.inr (.inl a))) + ∑ a, j.G9 p a m * u (.inr (.inr (.inr a)))

/-- The intensity that the model predicts, summed over pixels and modes. -/
noncomputable def predicted {N : ℕ} (j : JacStruct N) (M : ℕ) (E : Fin N → ℕ → ℂ) (u : j.Act → ℝ) : ℝ :=
  ∑ m : Fin M, ∑ p, ‖E p m + response j u m p‖ ^ 2

/-- The power of all commands. -/
noncomputable def stroke {N : ℕ} (j : JacStruct N) (u : j.Act → ℝ) : ℝ := ∑ a, u a ^ 2

/-- The response of single actuators, summed over pixels and modes. -/
noncomputable def strength {N : ℕ} (j : JacStruct N) (M : ℕ) : j.Act → ℝ
  | .inl a => ∑ m : Fin M, ∑ p, ‖j.G1 p a m‖ ^ 2
  | .inr (.inl a) => ∑ m : Fin M, ∑ p, ‖j.G2 p a m‖ ^ 2
  | .inr (.inr (.inl a)) => ∑ m : Fin M, ∑ p, ‖j.G8 p a m‖ ^ 2
  | .inr (.inr (.inr a)) => ∑ m : Fin M, ∑ p, ‖j.G9 p a m‖ ^ 2

/-- What a singular value decomposition is. -/
structure IsSvd {R C : Type} [Fintype R] [Fintype C] [DecidableEq C] (d : Svd R C) (A : Matrix R C ℝ) : Prop where
  left : ∀ i k, ∑ r, d.U r i * d.U r k = if i = k then 1 else 0
  right : ∀ i k, ∑ c, d.Vh i c * d.Vh k c = if i = k then 1 else 0
  product : ∀ r c, ∑ i, d.U r i * d.s i * d.Vh i c = A r c
  nonneg : ∀ i, 0 ≤ d.s i

/-! ## Linear algebra -/

section
variable {R C : Type} [Fintype R] [Fintype C] [DecidableEq C]

theorem proj_sq {K : Type} [Fintype K] [DecidableEq K] (U : Matrix R K ℝ) (hU : ∀ i k, ∑ r, U r i * U r k = if i = k then 1 else 0) (x : R → ℝ) (y : K → ℝ) :
    ∑ r, (x r + ∑ i, U r i * y i) ^ 2 = ∑ r, x r ^ 2 - ∑ i, (∑ r, U r i * x r) ^ 2 + ∑ i, (y i + ∑ r, U r i * x r) ^ 2 := by
  have h1 : ∑ r, x r * ∑ i, U r i * y i = ∑ i, y i * ∑ r, U r i * x r := by
    simp only [Finset.mul_sum]
    rw [Finset.sum_comm]
    exact Finset.sum_congr rfl fun i _ => Finset.sum_congr rfl fun r _ => by ring
  have h2 : ∑ r, (∑ i, U r i * y i) ^ 2 = ∑ i, y i ^ 2 := by
    have : ∀ r, (∑ i, U r i * y i) ^ 2 = ∑ i, ∑ k, y i * y k * (U r i * U r k) := by
      intro r
      rw [sq, Finset.sum_mul_sum]
      exact Finset.sum_congr rfl fun i _ => Finset.sum_congr rfl fun k _ => by ring
    simp only [this]
    rw [Finset.sum_comm]
    refine Finset.sum_congr rfl fun i _ => ?_
    rw [Finset.sum_comm]
    have : ∀ k, ∑ r, y i * y k * (U r i * U r k) = if i = k then y i * y k else 0 := by
      intro k
      rw [← Finset.mul_sum, hU]
      by_cases h : i = k
      · rw [if_pos h, if_pos h, mul_one]
      · rw [if_neg h, if_neg h, mul_zero]
    simp only [this, Finset.sum_ite_eq, Finset.mem_univ, if_true]
    ring
  have e1 : ∑ r, (x r + ∑ i, U r i * y i) ^ 2 = ∑ r, x r ^ 2 + 2 * ∑ r, x r * ∑ i, U r i * y i + ∑ r, (∑ i, U r i * y i) ^ 2 := by
    rw [Finset.mul_sum, ← Finset.sum_add_distrib, ← Finset.sum_add_distrib]
    exact Finset.sum_congr rfl fun r _ => by ring
  have e2 : ∑ i, (y i + ∑ r, U r i * x r) ^ 2 = ∑ i, y i ^ 2 + 2 * ∑ i, y i * ∑ r, U r i * x r + ∑ i, (∑ r, U r i * x r) ^ 2 := by
    rw [Finset.mul_sum, ← Finset.sum_add_distrib, ← Finset.sum_add_distrib]
    exact Finset.sum_congr rfl fun r _ => by ring
  rw [e1, e2, h1, h2]; ring

/-- Bessel's inequality. -/
theorem bessel {K : Type} [Fintype K] [DecidableEq K] (U : Matrix R K ℝ) (hU : ∀ i k, ∑ r, U r i * U r k = if i = k then 1 else 0) (x : R → ℝ) :
    ∑ i, (∑ r, U r i * x r) ^ 2 ≤ ∑ r, x r ^ 2 := by
  have h := proj_sq U hU x fun i => -∑ r, U r i * x r
  simp only [neg_add_cancel, ne_eq, OfNat.ofNat_ne_zero, not_false_eq_true, zero_pow, Finset.sum_const_zero, add_zero] at h
  have : 0 ≤ ∑ r, (x r + ∑ i, U r i * -∑ r, U r i * x r) ^ 2 := Finset.sum_nonneg fun _ _ => sq_nonneg _
  linarith

/-- The commands in the singular modes. -/
def modal (d : Svd R C) (u : C → ℝ) (i : Fin d.k) : ℝ := ∑ c, d.Vh i c * u c

theorem apply_modal {d : Svd R C} {A : Matrix R C ℝ} (h : IsSvd d A) (u : C → ℝ) (r : R) : ∑ c, A r c * u c = ∑ i, d.U r i * (d.s i * modal d u i) := by
  have : ∀ c, A r c * u c = ∑ i, d.U r i * d.s i * d.Vh i c * u c := fun c => by rw [← h.product, Finset.sum_mul]
  simp only [this]
  rw [Finset.sum_comm]
  refine Finset.sum_congr rfl fun i _ => ?_
  unfold modal
  rw [Finset.mul_sum, Finset.mul_sum]
  exact Finset.sum_congr rfl fun c _ => by ring

/-- The commands with given modal amplitudes. -/
theorem modal_synth {d : Svd R C} {A : Matrix R C ℝ} (h : IsSvd d A) (v : Fin d.k → ℝ) :
    modal d (fun c => ∑ i, d.Vh i c * v i) = v ∧ ∑ c, (∑ i, d.Vh i c * v i) ^ 2 = ∑ i, v i ^ 2 := by
  have h2 := proj_sq (fun c i => d.Vh i c) h.right (fun _ => 0) v
  simp only [mul_zero, Finset.sum_const_zero, zero_add, add_zero, ne_eq, OfNat.ofNat_ne_zero, not_false_eq_true, zero_pow, sub_zero] at h2
  refine ⟨?_, h2⟩
  funext i
  unfold modal
  have : ∀ c, d.Vh i c * ∑ k, d.Vh k c * v k = ∑ k, v k * (d.Vh i c * d.Vh k c) := fun c => by
    rw [Finset.mul_sum]
    exact Finset.sum_congr rfl fun k _ => by ring
  simp only [this]
  rw [Finset.sum_comm]
  have : ∀ k, ∑ c, v k * (d.Vh i c * d.Vh k c) = if i = k then v k else 0 := fun k => by
    rw [← Finset.mul_sum, h.right]
    by_cases hk : i = k
    · rw [if_pos hk, if_pos hk, mul_one]
    · rw [if_neg hk, if_neg hk, mul_zero]
  simp only [this, Finset.sum_ite_eq, Finset.mem_univ, if_true]

theorem cost_modal {d : Svd R C} {A : Matrix R C ℝ} (h : IsSvd d A) (x : R → ℝ) (u : C → ℝ) :
    ∑ r, (x r + ∑ c, A r c * u c) ^ 2 = ∑ r, x r ^ 2 - ∑ i, eriPrime d x i ^ 2 + ∑ i, (d.s i * modal d u i + eriPrime d x i) ^ 2 := by
  simp only [apply_modal h]
  exact proj_sq d.U h.left x fun i => d.s i * modal d u i

/-- The least squares problem. -/
theorem least_squares {d : Svd R C} {A : Matrix R C ℝ} (h : IsSvd d A) (x : R → ℝ) :
    IsLeast (Set.range fun u : C → ℝ => ∑ r, (x r + ∑ c, A r c * u c) ^ 2) (∑ r, x r ^ 2 - ∑ i, if d.s i = 0 then 0 else eriPrime d x i ^ 2) := by
  classical
  have hsplit : ∑ i, eriPrime d x i ^ 2 = (∑ i, if d.s i = 0 then 0 else eriPrime d x i ^ 2) + ∑ i, if d.s i = 0 then eriPrime d x i ^ 2 else 0 := by
    rw [← Finset.sum_add_distrib]
    refine Finset.sum_congr rfl fun i _ => ?_
    by_cases hi : d.s i = 0
    · rw [if_pos hi, if_pos hi, zero_add]
    · rw [if_neg hi, if_neg hi, add_zero]
  constructor
  · refine ⟨fun c => ∑ i, d.Vh i c * (if d.s i = 0 then 0 else -eriPrime d x i / d.s i), ?_⟩
    simp only
    rw [cost_modal h, (modal_synth h _).1, hsplit]
    have : ∑ i, (d.s i * (if d.s i = 0 then 0 else -eriPrime d x i / d.s i) + eriPrime d x i) ^ 2 = ∑ i, if d.s i = 0 then eriPrime d x i ^ 2 else 0 := by
      refine Finset.sum_congr rfl fun i _ => ?_
      by_cases hi : d.s i = 0
      · rw [if_pos hi, if_pos hi, mul_zero, zero_add]
      · rw [if_neg hi, if_neg hi, mul_div_cancel₀ _ hi, neg_add_cancel]; norm_num
    rw [this]; ring
  · rintro _ ⟨u, rfl⟩
    simp only
    rw [cost_modal h, hsplit]
    have : (∑ i, if d.s i = 0 then eriPrime d x i ^ 2 else 0) ≤ ∑ i, (d.s i * modal d u i + eriPrime d x i) ^ 2 := by
      refine Finset.sum_le_sum fun i _ => ?_
      by_cases hi : d.s i = 0
      · rw [if_pos hi, hi, zero_mul, zero_add]
      · rw [if_neg hi]; positivity
    linarith

/-- The regularised least squares problem. -/
theorem regularised {d : Svd R C} {A : Matrix R C ℝ} (h : IsSvd d A) (x : R → ℝ) (b : ℝ) (hb : 0 < b) (u : C → ℝ)
    (hu : ∀ u' : C → ℝ, ∑ r, (x r + ∑ c, A r c * u c) ^ 2 + b * ∑ c, u c ^ 2 ≤ ∑ r, (x r + ∑ c, A r c * u' c) ^ 2 + b * ∑ c, u' c ^ 2) :
    ∑ r, (x r + ∑ c, A r c * u c) ^ 2 = ∑ r, x r ^ 2 - ∑ i, eriPrime d x i ^ 2 * (1 - (b / (d.s i ^ 2 + b)) ^ 2) := by
  have hpos : ∀ i, 0 < d.s i ^ 2 + b := fun i => by positivity
  obtain ⟨v, hv⟩ : ∃ v : Fin d.k → ℝ, v = fun i => -(d.s i * eriPrime d x i) / (d.s i ^ 2 + b) := ⟨_, rfl⟩
  have h1 := hu fun c => ∑ i, d.Vh i c * v i
  obtain ⟨s1, s2⟩ := modal_synth h v
  rw [cost_modal h, cost_modal h, s1, s2] at h1
  have h2 := bessel (fun c i => d.Vh i c) h.right u
  -- the square is completed
  have hsq : ∀ (w : Fin d.k → ℝ), ∑ i, (d.s i * w i + eriPrime d x i) ^ 2 + b * ∑ i, w i ^ 2 =
      ∑ i, (d.s i ^ 2 + b) * (w i - v i) ^ 2 + ∑ i, (eriPrime d x i ^ 2 - (d.s i ^ 2 + b) * v i ^ 2) := by
    intro w
    rw [Finset.mul_sum, ← Finset.sum_add_distrib, ← Finset.sum_add_distrib]
    refine Finset.sum_congr rfl fun i _ => ?_
    have : (d.s i ^ 2 + b) * v i = -(d.s i * eriPrime d x i) := by rw [hv]; simp only; rw [mul_div_cancel₀ _ (hpos i).ne']
    linear_combination 2 * w i * this
  have e1 := hsq v
  have e2 := hsq (modal d u)
  have e3 : ∑ i, (d.s i ^ 2 + b) * (v i - v i) ^ 2 = 0 := by simp
  rw [e3, zero_add] at e1
  have hle : b * ∑ i, modal d u i ^ 2 ≤ b * ∑ c, u c ^ 2 := mul_le_mul_of_nonneg_left h2 hb.le
  have h0 : ∑ i, (d.s i ^ 2 + b) * (modal d u i - v i) ^ 2 ≤ 0 := by linarith
  have hall := (Finset.sum_eq_zero_iff_of_nonneg (fun i _ => mul_nonneg (hpos i).le (sq_nonneg _))).1
    (le_antisymm h0 (Finset.sum_nonneg fun i _ => mul_nonneg (hpos i).le (sq_nonneg _)))
  have hm : ∀ i, modal d u i = v i := fun i => by
    have := hall i (Finset.mem_univ _)
    have := (mul_eq_zero.1 this).resolve_left (hpos i).ne'
    exact sub_eq_zero.1 (pow_eq_zero_iff (two_ne_zero) |>.1 this)
  rw [cost_modal h]
  have : ∑ i, (d.s i * modal d u i + eriPrime d x i) ^ 2 = ∑ i, eriPrime d x i ^ 2 * (b / (d.s i ^ 2 + b)) ^ 2 := by
    refine Finset.sum_congr rfl fun i _ => ?_
    have hne := (hpos i).ne'
    rw [hm i, hv]
    field_simp
    ring
  rw [this]
  simp only [mul_sub, mul_one, Finset.sum_sub_distrib]
  ring

theorem frobenius {d : Svd R C} {A : Matrix R C ℝ} (h : IsSvd d A) (c : C) : ∑ r, A r c ^ 2 = ∑ i, d.s i ^ 2 * d.Vh i c ^ 2 := by
  have h1 := cost_modal h (fun _ => 0) fun c' => if c' = c then 1 else 0
  have h2 : ∀ i, modal d (fun c' => if c' = c then 1 else 0) i = d.Vh i c := fun i => by unfold modal; simp
  have h3 : ∀ i, eriPrime d (fun _ : R => (0 : ℝ)) i = 0 := fun i => by unfold eriPrime; simp
  simp only [h2, h3, mul_ite, mul_one, mul_zero, Finset.sum_ite_eq', Finset.mem_univ, if_true, zero_add, add_zero] at h1
  simpa [mul_pow] using h1

theorem frobenius_sum {d : Svd R C} {A : Matrix R C ℝ} (h : IsSvd d A) : ∑ c, ∑ r, A r c ^ 2 = ∑ i, d.s i ^ 2 := by
  simp only [frobenius h]
  rw [Finset.sum_comm]
  refine Finset.sum_congr rfl fun i _ => ?_
  rw [← Finset.mul_sum]
  have := h.right i i
  rw [if_pos rfl] at this
  have e : ∑ c, d.Vh i c ^ 2 = 1 := by rw [← this]; exact Finset.sum_congr rfl fun c _ => by ring
  rw [e, mul_one]

theorem column_le {d : Svd R C} {A : Matrix R C ℝ} (h : IsSvd d A) (c : C) : ∑ i, d.Vh i c ^ 2 ≤ 1 := by
  have h1 := bessel (fun c i => d.Vh i c) h.right fun c' => if c' = c then 1 else 0
  simpa using h1

/-- The amplitude in the modes of one singular value does not depend on the decomposition. -/
theorem modes_le {d d' : Svd R C} {A : Matrix R C ℝ} (h : IsSvd d A) (h' : IsSvd d' A) (x : R → ℝ) (t : ℝ) (ht : t ≠ 0) :
    (∑ i, if d'.s i = t then eriPrime d' x i ^ 2 else 0) ≤ ∑ i, if d.s i = t then eriPrime d x i ^ 2 else 0 := by
  classical
  -- `A Aᵀ u' = s'² u'`
  have hAV : ∀ (e : Svd R C), IsSvd e A → ∀ i r, ∑ c, A r c * e.Vh i c = e.s i * e.U r i := by
    intro e he i r
    rw [apply_modal he]
    have : ∀ k, modal e (fun c => e.Vh i c) k = if k = i then 1 else 0 := fun k => by unfold modal; exact he.right k i
    simp only [this, mul_ite, mul_one, mul_zero, Finset.sum_ite_eq', Finset.mem_univ, if_true]
    ring
  have hAU : ∀ (e : Svd R C), IsSvd e A → ∀ i c, ∑ r, A r c * e.U r i = e.s i * e.Vh i c := by
    intro e he i c
    have : ∀ r, A r c * e.U r i = ∑ k, e.s k * e.Vh k c * (e.U r k * e.U r i) := fun r => by
      rw [← he.product, Finset.sum_mul]
      exact Finset.sum_congr rfl fun k _ => by ring
    simp only [this]
    rw [Finset.sum_comm]
    have : ∀ k, ∑ r, e.s k * e.Vh k c * (e.U r k * e.U r i) = if k = i then e.s k * e.Vh k c else 0 := fun k => by
      rw [← Finset.mul_sum, he.left]
      by_cases hk : k = i
      · rw [if_pos hk, if_pos hk, mul_one]
      · rw [if_neg hk, if_neg hk, mul_zero]
    simp only [this, Finset.sum_ite_eq', Finset.mem_univ, if_true]
  -- the overlaps of the two sets of modes
  have hov : ∀ i k, d.s i ^ 2 * ∑ r, d.U r i * d'.U r k = d'.s k ^ 2 * ∑ r, d.U r i * d'.U r k := by
    intro i k
    have e1 : d'.s k ^ 2 * ∑ r, d.U r i * d'.U r k = ∑ c, (∑ r, A r c * d.U r i) * (∑ r, A r c * d'.U r k) := by
      have : ∀ c, (∑ r, A r c * d.U r i) * (∑ r, A r c * d'.U r k) = d'.s k * ∑ r, d.U r i * (A r c * d'.Vh k c) := by
        intro c
        rw [hAU d' h', Finset.sum_mul, Finset.mul_sum]
        exact Finset.sum_congr rfl fun r _ => by ring
      simp only [this]
      rw [← Finset.mul_sum, Finset.sum_comm]
      have : ∀ r, ∑ c, d.U r i * (A r c * d'.Vh k c) = d'.s k * (d.U r i * d'.U r k) := fun r => by
        rw [← Finset.mul_sum, hAV d' h']; ring
      simp only [this]
      rw [← Finset.mul_sum]; ring
    have e2 : d.s i ^ 2 * ∑ r, d.U r i * d'.U r k = ∑ c, (∑ r, A r c * d.U r i) * (∑ r, A r c * d'.U r k) := by
      have : ∀ c, (∑ r, A r c * d.U r i) * (∑ r, A r c * d'.U r k) = d.s i * ∑ r, d'.U r k * (A r c * d.Vh i c) := by
        intro c
        rw [hAU d h, Finset.mul_sum, Finset.mul_sum]
        exact Finset.sum_congr rfl fun r _ => by ring
      simp only [this]
      rw [← Finset.mul_sum, Finset.sum_comm]
      have : ∀ r, ∑ c, d'.U r k * (A r c * d.Vh i c) = d.s i * (d.U r i * d'.U r k) := fun r => by
        rw [← Finset.mul_sum, hAV d h]; ring
      simp only [this]
      rw [← Finset.mul_sum]; ring
    rw [e2, e1]
  -- the part of `x` in the modes of `t`
  obtain ⟨w, hw⟩ : ∃ w : Fin d.k → ℝ, w = fun i => if d.s i = t then eriPrime d x i else 0 := ⟨_, rfl⟩
  have hin : ∀ k, d'.s k = t → eriPrime d' x k = eriPrime d' (fun r => ∑ i, d.U r i * w i) k := by
    intro k hk
    have h2 : ∀ r, d'.U r k = ∑ i, d.U r i * ∑ q, d.U q i * d'.U q k := by
      intro r
      have e := hAV d' h' k r
      rw [apply_modal h, hk] at e
      have hmod : ∀ i, d.s i * modal d (fun c => d'.Vh k c) i = t * ∑ q, d.U q i * d'.U q k := by
        intro i
        -- `Uᵀ A v' = t Uᵀ u'`
        have e1 : ∑ q, d.U q i * ∑ c, A q c * d'.Vh k c = ∑ q, d.U q i * (t * d'.U q k) :=
          Finset.sum_congr rfl fun q _ => by rw [hAV d' h', hk]
        have e2 : ∑ q, d.U q i * ∑ c, A q c * d'.Vh k c = d.s i * modal d (fun c => d'.Vh k c) i := by
          simp only [Finset.mul_sum]
          rw [Finset.sum_comm]
          unfold modal
          rw [Finset.mul_sum]
          refine Finset.sum_congr rfl fun c _ => ?_
          have := hAU d h i c
          have e3 : ∀ q, d.U q i * (A q c * d'.Vh k c) = A q c * d.U q i * d'.Vh k c := fun q => by ring
          simp only [e3]
          rw [← Finset.sum_mul, this]; ring
        rw [← e2, e1, Finset.mul_sum]
        exact Finset.sum_congr rfl fun q _ => by ring
      simp only [hmod] at e
      have e4 : ∀ i, d.U r i * (t * ∑ q, d.U q i * d'.U q k) = t * (d.U r i * ∑ q, d.U q i * d'.U q k) := fun i => by ring
      simp only [e4] at e
      rw [← Finset.mul_sum] at e
      exact (mul_left_cancel₀ ht e).symm
    unfold eriPrime
    have e1 : ∑ r, d'.U r k * x r = ∑ i, (∑ q, d.U q i * d'.U q k) * eriPrime d x i := by
      have : ∀ r, d'.U r k * x r = ∑ i, (∑ q, d.U q i * d'.U q k) * (d.U r i * x r) := fun r => by
        conv_lhs => rw [h2 r]
        rw [Finset.sum_mul]
        exact Finset.sum_congr rfl fun i _ => by ring
      simp only [this]
      rw [Finset.sum_comm]
      refine Finset.sum_congr rfl fun i _ => ?_
      unfold eriPrime
      rw [← Finset.mul_sum]
    have e2 : ∑ r, d'.U r k * ∑ i, d.U r i * w i = ∑ i, (∑ q, d.U q i * d'.U q k) * w i := by
      simp only [Finset.mul_sum]
      rw [Finset.sum_comm]
      refine Finset.sum_congr rfl fun i _ => ?_
      rw [Finset.sum_mul]
      exact Finset.sum_congr rfl fun r _ => by ring
    rw [e1, e2]
    refine Finset.sum_congr rfl fun i _ => ?_
    rw [hw]
    simp only
    by_cases hi : d.s i = t
    · rw [if_pos hi]
    · rw [if_neg hi, mul_zero]
      have hne : d.s i ^ 2 ≠ d'.s k ^ 2 := by
        rw [hk]
        intro hc
        exact hi ((pow_left_inj₀ (h.nonneg i) (hk ▸ h'.nonneg k) two_ne_zero).1 hc)
      have := hov i k
      have h0 : (∑ r, d.U r i * d'.U r k) = 0 := by
        by_contra hcon
        exact hne (mul_right_cancel₀ hcon this)
      rw [h0, zero_mul]
  calc (∑ k, if d'.s k = t then eriPrime d' x k ^ 2 else 0)
      ≤ ∑ k, eriPrime d' (fun r => ∑ i, d.U r i * w i) k ^ 2 := by
        refine Finset.sum_le_sum fun k _ => ?_
        by_cases hk : d'.s k = t
        · rw [if_pos hk, hin k hk]
        · rw [if_neg hk]; positivity
    _ ≤ ∑ r, (∑ i, d.U r i * w i) ^ 2 := bessel d'.U h'.left _
    _ = ∑ i, w i ^ 2 := by
        have := proj_sq d.U h.left (fun _ => 0) w
        simpa using this
    _ = _ := by
        refine Finset.sum_congr rfl fun i _ => ?_
        rw [hw]
        simp only
        by_cases hi : d.s i = t
        · rw [if_pos hi, if_pos hi]
        · rw [if_neg hi, if_neg hi]; norm_num

end

/-! ## The stacked arrays -/

theorem gri_apply {N : ℕ} (j : JacStruct N) (M : ℕ) (E : Fin N → ℕ → ℂ) (u : j.Act → ℝ) :
    ∑ r, (eri M E r + ∑ c, gri j M r c * u c) ^ 2 = predicted j M E u := by
  have hresp : ∀ (m : Fin M) (p : Fin N), response j u m p = ∑ c, gall j M (m, p) c * u c := by
    intro m p
    unfold response
    rw [Fintype.sum_sum_type, Fintype.sum_sum_type, Fintype.sum_sum_type]
    simp only [gall, gcomplex]
    ring
  unfold predicted
  rw [Fintype.sum_sum_type, ← Finset.sum_add_distrib, Fintype.sum_prod_type]
  refine Finset.sum_congr rfl fun m _ => Finset.sum_congr rfl fun p _ => ?_
  rw [hresp, Complex.sq_norm, Complex.normSq_apply]
  simp only [eri, eall, gri, Complex.add_re, Complex.add_im, Complex.re_sum, Complex.im_sum, Complex.mul_re, Complex.mul_im, Complex.ofReal_re, Complex.ofReal_im,
    mul_zero, sub_zero, zero_add]
  ring

theorem eri_sq {N : ℕ} (M : ℕ) (E : Fin N → ℕ → ℂ) : ∑ r, eri M E r ^ 2 = ∑ m : Fin M, ∑ p, ‖E p m‖ ^ 2 := by
  rw [Fintype.sum_sum_type, ← Finset.sum_add_distrib, Fintype.sum_prod_type]
  refine Finset.sum_congr rfl fun m _ => Finset.sum_congr rfl fun p _ => ?_
  rw [Complex.sq_norm, Complex.normSq_apply]
  simp only [eri, eall]
  ring

theorem gri_sq {N : ℕ} (j : JacStruct N) (M : ℕ) (a : j.Act) : ∑ r, gri j M r a ^ 2 = strength j M a := by
  rw [Fintype.sum_sum_type, ← Finset.sum_add_distrib, Fintype.sum_prod_type]
  rcases a with a | a | a | a
  all_goals
    refine Finset.sum_congr rfl fun m _ => Finset.sum_congr rfl fun p _ => ?_
    rw [Complex.sq_norm, Complex.normSq_apply]
    simp only [gri, gall, gcomplex]
    ring

theorem diag_eq {N : ℕ} (j : JacStruct N) (M : ℕ) (a : j.Act) : diag j M a = strength j M a := by
  rw [← gri_sq, Fintype.sum_sum_type, ← Finset.sum_add_distrib]
  unfold diag
  rw [Complex.re_sum]
  refine Finset.sum_congr rfl fun r _ => ?_
  simp only [gri, Complex.mul_re, Complex.conj_re, Complex.conj_im]
  ring

/-- The strongest actuator. -/
theorem alpha2_spec {N : ℕ} {j : JacStruct N} {M : ℕ} {al : ℝ} (h : alpha2 j M = .ok al) : (∃ a, strength j M a = al) ∧ ∀ a, strength j M a ≤ al := by
  unfold alpha2 at h
  by_cases hn : (Finset.univ : Finset j.Act).Nonempty
  · rw [dif_pos hn] at h
    rw [← Except.ok.inj h]
    constructor
    · obtain ⟨a, _, ha⟩ := Finset.exists_mem_eq_sup' hn (diag j M)
      exact ⟨a, by rw [ha, diag_eq]⟩
    · intro a
      rw [← diag_eq]
      exact Finset.le_sup' (diag j M) (Finset.mem_univ a)
  · rw [dif_neg hn] at h; cases h

/-! ## The call -/

/-- What a successful call adds to the four lists. -/
structure Added {N : ℕ} (j : JacStruct N) (M : ℕ) (E : Fin N → ℕ → ℂ) (o o' : Out) (k : ℕ) (e I s : Fin k → ℝ) (al : ℝ) : Prop where
  field : o'.EforSpectra = o.EforSpectra ++ [⟨k, e⟩]
  intensity : o'.smspectra = o.smspectra ++ [⟨k, I⟩]
  values : o'.sm = o.sm ++ [⟨k, s⟩]
  scale : o'.alpha2 = o.alpha2 ++ [al]

theorem spectrum_inv {N : ℕ} {j : JacStruct N} {M : ℕ} {svd : ∀ (R C : Type), Matrix R C ℝ → Except PyErr (Svd R C)} {E : Fin N → ℕ → ℂ} {o o' : Out}
    (h : spectrum (some j) M svd E o = .ok o') : ∃ d al, svd _ _ (gri j M) = .ok d ∧ alpha2 j M = .ok al ∧
      Added j M E o o' d.k (eriPrime d (eri M E)) (fun i => |eriPrime d (eri M E) i| ^ 2) d.s al := by
  unfold spectrum at h
  simp only at h
  cases h1 : alpha2 j M with
  | error e => rw [h1] at h; cases h
  | ok al =>
    rw [h1] at h
    simp only [Except.bind] at h
    cases h2 : svd _ _ (gri j M) with
    | error e => rw [h2] at h; cases h
    | ok d =>
      rw [h2] at h
      simp only at h
      rw [← Except.ok.inj h]
      exact ⟨d, al, rfl, rfl, ⟨rfl, rfl, rfl, rfl⟩⟩

/-- The decompositions of numpy are right where they succeed. -/
def GoodSvd (svd : ∀ (R C : Type), Matrix R C ℝ → Except PyErr (Svd R C)) : Prop :=
  ∀ (R C : Type) [Fintype R] [Fintype C] [DecidableEq C] (A : Matrix R C ℝ) d, svd R C A = .ok d → IsSvd d A

/-- What a call records: for any number of pixels, modes and actuators on the four DMs, with singular values `s`, an intensity `I` and a scale `al`:
1. the scale is the strength of the strongest actuator;
2. the intensities are not negative and add up to at most the estimated intensity of all modes;
3. what the linear model can remove at best, over all commands, is exactly the sum of the intensities with singular values that are not zero;
4. the control step with the regularisation `b` (of all commands, those with the least sum of predicted intensity and `b` times the power of the commands) leaves the fraction
`(b / (s² + b))²` of the intensity of each mode, and all that is in none;
5. the squares of the singular values add up to the strengths of all actuators. -/
theorem C153_spectrum {N : ℕ} (j : JacStruct N) (M : ℕ) (svd : ∀ (R C : Type), Matrix R C ℝ → Except PyErr (Svd R C)) (hsvd : GoodSvd svd) (E : Fin N → ℕ → ℂ) (o o' : Out)
    (h : spectrum (some j) M svd E o = .ok o') : ∃ (k : ℕ) (e I s : Fin k → ℝ) (al : ℝ),
      o'.EforSpectra = o.EforSpectra ++ [⟨k, e⟩] ∧ o'.smspectra = o.smspectra ++ [⟨k, I⟩] ∧ o'.sm = o.sm ++ [⟨k, s⟩] ∧ o'.alpha2 = o.alpha2 ++ [al] ∧
      ((∃ a, strength j M a = al) ∧ ∀ a, strength j M a ≤ al) ∧
      ((∀ i, I i = e i ^ 2 ∧ 0 ≤ s i) ∧ ∑ i, I i ≤ ∑ m : Fin M, ∑ p, ‖E p m‖ ^ 2) ∧
      IsLeast (Set.range (predicted j M E)) (∑ m : Fin M, ∑ p, ‖E p m‖ ^ 2 - ∑ i, if s i = 0 then 0 else I i) ∧
      (∀ b > 0, ∀ u, (∀ u', predicted j M E u + b * stroke j u ≤ predicted j M E u' + b * stroke j u') →
        predicted j M E u = ∑ m : Fin M, ∑ p, ‖E p m‖ ^ 2 - ∑ i, I i * (1 - (b / (s i ^ 2 + b)) ^ 2)) ∧
      ∑ i, s i ^ 2 = ∑ a, strength j M a := by
  obtain ⟨d, al, hd, hal, ha⟩ := spectrum_inv h
  have hS := hsvd _ _ _ d hd
  refine ⟨d.k, _, _, d.s, al, ha.field, ha.intensity, ha.values, ha.scale, alpha2_spec hal, ⟨fun i => ⟨sq_abs _, hS.nonneg i⟩, ?_⟩, ?_, ?_, ?_⟩
  · simp only [sq_abs]
    rw [← eri_sq]
    exact bessel d.U hS.left _
  · simp only [sq_abs]
    have := least_squares hS (eri M E)
    rw [eri_sq] at this
    simpa only [gri_apply] using this
  · intro b hb u hu
    simp only [sq_abs]
    rw [← gri_apply, ← eri_sq]
    refine regularised hS (eri M E) b hb u fun u' => ?_
    rw [gri_apply, gri_apply]
    exact hu u'
  · rw [← frobenius_sum hS]
    exact Finset.sum_congr rfl fun a _ => gri_sq j M a

/-- The abscissa of the plot, `s² / al`: the largest value lies between one and the number of actuators, unless no actuator has any effect. -/
theorem C153_abscissa {N : ℕ} (j : JacStruct N) (M : ℕ) (svd : ∀ (R C : Type), Matrix R C ℝ → Except PyErr (Svd R C)) (hsvd : GoodSvd svd) (E : Fin N → ℕ → ℂ) (o o' : Out)
    (h : spectrum (some j) M svd E o = .ok o') : ∃ (k : ℕ) (s : Fin k → ℝ) (al : ℝ), o'.sm = o.sm ++ [⟨k, s⟩] ∧ o'.alpha2 = o.alpha2 ++ [al] ∧
      (0 < al → (∃ i, 1 ≤ s i ^ 2 / al) ∧ ∀ i, s i ^ 2 / al ≤ (j.A1 + j.A2 + j.A8 + j.A9 : ℕ)) := by
  obtain ⟨d, al, hd, hal, ha⟩ := spectrum_inv h
  have hS := hsvd _ _ _ d hd
  obtain ⟨⟨a, haa⟩, hle⟩ := alpha2_spec hal
  refine ⟨d.k, d.s, al, ha.values, ha.scale, fun hpos => ⟨?_, ?_⟩⟩
  · by_contra hcon
    push Not at hcon
    have hlt : ∀ i, d.s i ^ 2 < al := fun i => by
      have := hcon i
      rwa [div_lt_one hpos] at this
    have h1 := frobenius hS a
    rw [gri_sq, haa] at h1
    have h2 : ∑ i, d.s i ^ 2 * d.Vh i a ^ 2 ≤ ∑ i, al * d.Vh i a ^ 2 := Finset.sum_le_sum fun i _ => mul_le_mul_of_nonneg_right (hlt i).le (sq_nonneg _)
    have h3 := column_le hS a
    rw [← Finset.mul_sum] at h2
    have h4 : al * ∑ i, d.Vh i a ^ 2 ≤ al * 1 := mul_le_mul_of_nonneg_left h3 hpos.le
    -- one of the entries is not zero
    have h5 : ∃ i, d.Vh i a ^ 2 ≠ 0 := by
      by_contra h6
      push Not at h6
      simp only [h6, mul_zero, Finset.sum_const_zero] at h1
      exact hpos.ne' h1
    obtain ⟨i, hi⟩ := h5
    have h7 : ∑ i, d.s i ^ 2 * d.Vh i a ^ 2 < ∑ i, al * d.Vh i a ^ 2 :=
      Finset.sum_lt_sum (fun i _ => mul_le_mul_of_nonneg_right (hlt i).le (sq_nonneg _))
        ⟨i, Finset.mem_univ _, mul_lt_mul_of_pos_right (hlt i) (lt_of_le_of_ne (sq_nonneg _) (Ne.symm hi))⟩
    rw [← Finset.mul_sum] at h7
    linarith
  · intro i
    rw [div_le_iff₀ hpos]
    have h1 := frobenius_sum hS
    have h2 : d.s i ^ 2 ≤ ∑ i, d.s i ^ 2 := Finset.single_le_sum (f := fun i => d.s i ^ 2) (fun i _ => sq_nonneg _) (Finset.mem_univ i)
    have h3 : ∑ a, ∑ r, gri j M r a ^ 2 ≤ ∑ _a : j.Act, al := Finset.sum_le_sum fun a _ => by rw [gri_sq]; exact hle a
    rw [Finset.sum_const, nsmul_eq_mul] at h3
    have h4 : (Finset.univ : Finset j.Act).card = j.A1 + j.A2 + j.A8 + j.A9 := by
      rw [Finset.card_univ]
      simp [Fintype.card_sum]
      ring
    rw [h4] at h3
    linarith

/-- With the regularisation relative to the scale, `b = r al`, as the controllers have it (`r = 10^log10reg`), the fraction left of a mode is read off the abscissa `t` of the plot:
`(r / (t + r))²`. -/
theorem C153_relative (s al r : ℝ) (hal : 0 < al) : r * al / (s ^ 2 + r * al) = r / (s ^ 2 / al + r) := by
  have : s ^ 2 / al + r = (s ^ 2 + r * al) / al := by field_simp
  rw [this, div_div_eq_mul_div]

/-- The recorded spectrum does not depend on which of the possible decompositions numpy returns: the intensity with a given singular value other than zero is the same in all. -/
theorem C153_unique {N : ℕ} (j : JacStruct N) (M : ℕ) (svd svd' : ∀ (R C : Type), Matrix R C ℝ → Except PyErr (Svd R C)) (h1 : GoodSvd svd) (h2 : GoodSvd svd')
    (E : Fin N → ℕ → ℂ) (o o1 o2 : Out) (ho1 : spectrum (some j) M svd E o = .ok o1) (ho2 : spectrum (some j) M svd' E o = .ok o2) :
    ∃ (k k' : ℕ) (I s : Fin k → ℝ) (I' s' : Fin k' → ℝ), o1.smspectra = o.smspectra ++ [⟨k, I⟩] ∧ o1.sm = o.sm ++ [⟨k, s⟩] ∧
      o2.smspectra = o.smspectra ++ [⟨k', I'⟩] ∧ o2.sm = o.sm ++ [⟨k', s'⟩] ∧
      ∀ t ≠ 0, (∑ i, if s i = t then I i else 0) = ∑ i, if s' i = t then I' i else 0 := by
  obtain ⟨d, al, hd, hal, ha⟩ := spectrum_inv ho1
  obtain ⟨d', al', hd', hal', ha'⟩ := spectrum_inv ho2
  have hS := h1 _ _ _ d hd
  have hS' := h2 _ _ _ d' hd'
  refine ⟨_, _, _, _, _, _, ha.intensity, ha.values, ha'.intensity, ha'.values, fun t ht => ?_⟩
  simp only [sq_abs]
  exact le_antisymm (modes_le hS' hS _ t ht) (modes_le hS hS' _ t ht)

/-- With the AD-EFC controller, which has no Jacobian, the spectrum ends the run with an AttributeError; without actuators it ends with a ValueError; otherwise the call fails only if the
decomposition does. -/
theorem C153_errors {N : ℕ} (M : ℕ) (svd : ∀ (R C : Type), Matrix R C ℝ → Except PyErr (Svd R C)) (E : Fin N → ℕ → ℂ) (o : Out) :
    spectrum none M svd E o = .error .attributeError ∧
    ∀ j : JacStruct N, (j.A1 + j.A2 + j.A8 + j.A9 = 0 → spectrum (some j) M svd E o = .error .valueError) ∧
      (j.A1 + j.A2 + j.A8 + j.A9 ≠ 0 → (∃ d, svd _ _ (gri j M) = .ok d) → ∃ o', spectrum (some j) M svd E o = .ok o') := by
  refine ⟨rfl, fun j => ⟨fun h0 => ?_, fun h0 hd => ?_⟩⟩
  · have hcard : (Finset.univ : Finset j.Act).card = 0 := by
      rw [Finset.card_univ]
      simp only [Fintype.card_sum, Fintype.card_fin]
      omega
    have hne : ¬ (Finset.univ : Finset j.Act).Nonempty := by
      rw [Finset.not_nonempty_iff_eq_empty]
      exact Finset.card_eq_zero.1 hcard
    unfold spectrum alpha2
    simp only
    rw [dif_neg hne]
    rfl
  · have hcard : (Finset.univ : Finset j.Act).card ≠ 0 := by
      rw [Finset.card_univ]
      simp only [Fintype.card_sum, Fintype.card_fin]
      omega
    have hne : (Finset.univ : Finset j.Act).Nonempty := Finset.card_ne_zero.1 hcard
    obtain ⟨d, hd⟩ := hd
    unfold spectrum alpha2
    simp only
    rw [dif_pos hne, hd]
    exact ⟨_, rfl⟩

/-! ## Non-vacuity -/

/-- One pixel, one mode, one actuator with the response 3 on DM 1, and the estimate `4 + 5i`: the decomposition `(1, 0)ᵀ · 3 · 1` is one, and the call records the intensity 16. -/
example : IsSvd ⟨1, fun r _ => match r with | .inl _ => 1 | .inr _ => 0, fun _ => 3, fun _ _ => 1⟩
      (gri (N := 1) ⟨1, 0, 0, 0, fun _ _ _ => 3, fun _ a => a.elim0, fun _ a => a.elim0, fun _ a => a.elim0⟩ 1) := by
  constructor
  · intro i k
    have : i = k := Subsingleton.elim _ _
    simp [this]
  · intro i k
    have : i = k := Subsingleton.elim _ _
    simp [this]
  · rintro (r | r) (c | c | c | c)
    · simp [gri, gall, gcomplex]
    · exact c.elim0
    · exact c.elim0
    · exact c.elim0
    · simp [gri, gall, gcomplex]
    · exact c.elim0
    · exact c.elim0
    · exact c.elim0
  · intro i
    norm_num

end Verif.ModeSpectrum
