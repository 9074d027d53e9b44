import Verif.Props.Noll
import Mathlib.Algebra.Group.ForwardDiff
import Mathlib.RingTheory.Polynomial.Pochhammer
import Mathlib.Analysis.SpecialFunctions.Integrals.Basic
import Mathlib.Algebra.Polynomial.Div
import Mathlib.Tactic.FieldSimp

/-!
# C78: the polynomials of prop_noll_zernikes are orthonormal on the unit disk

The docstring of prop_noll_zernikes promises that the polynomials are orthonormal for an unobscured circular aperture. The specification is the integral over the unit disk in polar coordinates.
-/

namespace Verif.Noll
open Verif Polynomial fwdDiff Finset
open scoped Nat

/-! ### Finite differences -/

theorem fd_sum (f : ℝ → ℝ) (b : ℕ) (N : ℝ) : ∑ s ∈ range (b + 1), (-1 : ℝ) ^ s * (b.choose s) * f (N - s) = Δ_[1]^[b] f (N - b) := by
  rw [fwdDiff_iter_eq_sum_shift, ← sum_range_reflect]
  refine sum_congr rfl fun s hs => ?_
  have hs' : s ≤ b := by have := mem_range.mp hs; omega
  have e : b + 1 - 1 - s = b - s := by omega
  rw [e, Nat.choose_symm hs', Nat.cast_sub hs']
  simp only [zsmul_eq_mul, nsmul_eq_mul, mul_one]
  push_cast
  congr 2
  ring

theorem fd_poly (P : ℝ[X]) (b : ℕ) (h : P.natDegree < b) (N : ℝ) : ∑ s ∈ range (b + 1), (-1 : ℝ) ^ s * (b.choose s) * P.eval (N - s) = 0 := by
  rw [fd_sum (fun x => P.eval x), Polynomial.fwdDiff_iter_eq_zero_of_degree_lt h]; rfl

theorem fd_inv (b : ℕ) : ∀ x : ℝ, 0 < x → Δ_[1]^[b] (fun x : ℝ => x⁻¹) x = (-1) ^ b * b ! / ∏ i ∈ range (b + 1), (x + i) := by
  induction b with
  | zero => intro x hx; simp
  | succ b ih =>
    intro x hx
    rw [Function.iterate_succ_apply', fwdDiff, ih (x + 1) (by linarith), ih x hx]
    have p1 : ∏ i ∈ range (b + 1 + 1), (x + (i : ℝ)) = (∏ i ∈ range (b + 1), (x + 1 + (i : ℝ))) * x := by
      rw [prod_range_succ']
      simp only [Nat.cast_add, Nat.cast_one, Nat.cast_zero, add_zero]
      congr 1
      exact prod_congr rfl fun i _ => by ring
    have p2 : ∏ i ∈ range (b + 1 + 1), (x + (i : ℝ)) = (∏ i ∈ range (b + 1), (x + (i : ℝ))) * (x + (b + 1)) := by
      rw [prod_range_succ]; push_cast; ring
    have h1 : 0 < ∏ i ∈ range (b + 1), (x + 1 + (i : ℝ)) := prod_pos fun i _ => by positivity
    have h2 : 0 < ∏ i ∈ range (b + 1), (x + (i : ℝ)) := prod_pos fun i _ => by positivity
    rw [p1]
    have p3 := p1.symm.trans p2
    generalize (∏ i ∈ range (b + 1), (x + 1 + (i : ℝ))) = A at *
    generalize (∏ i ∈ range (b + 1), (x + (i : ℝ))) = B at *
    have hB : B = A * x / (x + (b + 1)) := by field_simp; linarith
    rw [hB, Nat.factorial_succ]
    push_cast
    field_simp
    ring

theorem choose_eval (x b : ℕ) : ((x.choose b : ℕ) : ℝ) = (descPochhammer ℝ b).eval (x : ℝ) / b ! := by
  rw [descPochhammer_eval_eq_descFactorial, Nat.descFactorial_eq_factorial_mul_choose]
  have : (b ! : ℝ) ≠ 0 := by positivity
  push_cast
  field_simp

/-- Sum of `P(N-s)/(N-s-c)` with alternating binomial weights: only the remainder `P(c)` survives. -/
theorem fd_div (b : ℕ) (c : ℝ) (N : ℕ) (hN : ∀ s ≤ b, ((N : ℝ) - s - c) ≠ 0) :
    ∑ s ∈ range (b + 1), (-1 : ℝ) ^ s * (b.choose s) * ((descPochhammer ℝ b).eval ((N : ℝ) - s) / ((N : ℝ) - s - c)) =
    (descPochhammer ℝ b).eval c * ∑ s ∈ range (b + 1), (-1 : ℝ) ^ s * (b.choose s) * ((N : ℝ) - c - s)⁻¹ := by
  set P := descPochhammer ℝ b
  set Q := P /ₘ (X - C c)
  have hdiv : ∀ x, P.eval x = P.eval c + (x - c) * Q.eval x := by
    intro x
    have := congrArg (fun q => q.eval x) (modByMonic_add_div P (X - C c))
    simp only [modByMonic_X_sub_C_eq_C_eval, eval_add, eval_C, eval_mul, eval_sub, eval_X] at this
    exact this.symm
  have hQ : ∑ s ∈ range (b + 1), (-1 : ℝ) ^ s * (b.choose s) * Q.eval ((N : ℝ) - s) = 0 := by
    rcases Nat.eq_zero_or_pos b with h0 | hp
    · subst h0
      have : Q = 0 := by
        change (descPochhammer ℝ 0) /ₘ _ = 0
        rw [descPochhammer_zero]
        exact (divByMonic_eq_zero_iff (monic_X_sub_C c)).mpr (by simp)
      simp [this]
    · apply fd_poly
      have : Q.natDegree = b - 1 := by
        change (P /ₘ (X - C c)).natDegree = _
        rw [natDegree_divByMonic _ (monic_X_sub_C c), natDegree_X_sub_C]
        simp [P, descPochhammer_natDegree]
      omega
  rw [mul_sum, ← sub_zero (∑ s ∈ range (b + 1), _ * (_ / _)), ← hQ, ← sum_sub_distrib]
  refine sum_congr rfl fun s hs => ?_
  have hs' : s ≤ b := by have := mem_range.mp hs; omega
  have h := hN s hs'
  have h' : (N : ℝ) - c - s ≠ 0 := by intro e; exact h (by linarith)
  rw [hdiv ((N : ℝ) - s)]
  have e : (N : ℝ) - c - s = N - s - c := by ring
  rw [e]
  field_simp
  ring

/-- The moments of a radial polynomial. -/
theorem moment_lt {m b k : ℕ} (hk : k < b) :
    ∑ s ∈ range (b + 1), (-1 : ℝ) ^ s * (b.choose s) * ((m + 2 * b - s).choose b) / ((m : ℝ) + b + k + 1 - s) = 0 := by
  have h := fd_div b ((b - 1 - k : ℕ) : ℝ) (m + 2 * b) (by
    intro s hs
    have hs' : (s : ℝ) ≤ b := by exact_mod_cast hs
    have hk' : (k : ℝ) + 1 ≤ b := by exact_mod_cast hk
    have : ((b - 1 - k : ℕ) : ℝ) = b - 1 - k := by rw [Nat.sub_sub, Nat.cast_sub (by omega)]; push_cast; ring
    rw [this]
    push_cast
    have : (0 : ℝ) ≤ m := by positivity
    have : (0 : ℝ) ≤ k := by positivity
    intro e
    linarith)
  rw [descPochhammer_eval_eq_descFactorial, Nat.descFactorial_eq_zero_iff_lt.mpr (by omega), Nat.cast_zero, zero_mul] at h
  have hb : (b ! : ℝ) ≠ 0 := by positivity
  have e : ∀ s ∈ range (b + 1), (-1 : ℝ) ^ s * (b.choose s) * ((m + 2 * b - s).choose b) / ((m : ℝ) + b + k + 1 - s) =
      (b ! : ℝ)⁻¹ * ((-1 : ℝ) ^ s * (b.choose s) * ((descPochhammer ℝ b).eval (((m + 2 * b : ℕ) : ℝ) - s) / (((m + 2 * b : ℕ) : ℝ) - s - ((b - 1 - k : ℕ) : ℝ)))) := by
    intro s hs
    have hs' : s ≤ b := by have := mem_range.mp hs; omega
    rw [choose_eval (m + 2 * b - s) b, Nat.cast_sub (show s ≤ m + 2 * b by omega)]
    have : ((b - 1 - k : ℕ) : ℝ) = b - 1 - k := by rw [Nat.sub_sub, Nat.cast_sub (by omega)]; push_cast; ring
    rw [this]
    have e2 : ((m + 2 * b : ℕ) : ℝ) - s - (b - 1 - k) = (m : ℝ) + b + k + 1 - s := by push_cast; ring
    rw [e2]
    field_simp
  rw [sum_congr rfl e, ← mul_sum, h, mul_zero]

theorem moment_eq (m b : ℕ) :
    ((m + 2 * b).choose b : ℝ) * ∑ s ∈ range (b + 1), (-1 : ℝ) ^ s * (b.choose s) * ((m + 2 * b - s).choose b) / ((m : ℝ) + b + b + 1 - s) = 1 / ((m + 2 * b : ℕ) + 1) := by
  have h := fd_div b (-1) (m + 2 * b) (by
    intro s hs
    have hs' : (s : ℝ) ≤ b := by exact_mod_cast hs
    push_cast
    have : (0 : ℝ) ≤ m := by positivity
    have : (0 : ℝ) ≤ b := by positivity
    intro e
    linarith)
  have hb : (b ! : ℝ) ≠ 0 := by positivity
  have hm1 : (descPochhammer ℝ b).eval (-1) = (-1) ^ b * b ! := by
    have key : ∀ b : ℕ, (descPochhammer ℝ b).eval (-1) = (-1) ^ b * b ! := by
      intro b
      induction b with
      | zero => simp
      | succ b ih =>
        rw [descPochhammer_succ_eval, ih, Nat.factorial_succ]
        push_cast
        ring
    exact key b
  have e : ∀ s ∈ range (b + 1), (-1 : ℝ) ^ s * (b.choose s) * ((m + 2 * b - s).choose b) / ((m : ℝ) + b + b + 1 - s) =
      (b ! : ℝ)⁻¹ * ((-1 : ℝ) ^ s * (b.choose s) * ((descPochhammer ℝ b).eval (((m + 2 * b : ℕ) : ℝ) - s) / (((m + 2 * b : ℕ) : ℝ) - s - (-1)))) := by
    intro s hs
    have hs' : s ≤ b := by have := mem_range.mp hs; omega
    rw [choose_eval (m + 2 * b - s) b, Nat.cast_sub (show s ≤ m + 2 * b by omega)]
    have e2 : ((m + 2 * b : ℕ) : ℝ) - s - (-1) = (m : ℝ) + b + b + 1 - s := by push_cast; ring
    rw [e2]
    field_simp
  rw [sum_congr rfl e, ← mul_sum, h, hm1, fd_sum (fun x => x⁻¹), fd_inv b _ (by push_cast; have : (0 : ℝ) ≤ m := by positivity
                                                                                have : (0 : ℝ) ≤ b := by positivity
                                                                                linarith)]
  have hp : ∏ i ∈ range (b + 1), (((m + 2 * b : ℕ) : ℝ) - -1 - b + i) = ((m + b + 1).ascFactorial (b + 1) : ℕ) := by
    rw [Nat.ascFactorial_eq_prod_range]
    push_cast
    exact prod_congr rfl fun i _ => by ring
  rw [hp]
  have hf : (((m + b)! : ℕ) : ℝ) * ((m + b + 1).ascFactorial (b + 1) : ℕ) = ((m + 2 * b : ℕ) + 1) * ((m + 2 * b)! : ℕ) := by
    have := Nat.factorial_mul_ascFactorial (m + b) (b + 1)
    rw [show m + b + (b + 1) = m + 2 * b + 1 by omega, Nat.factorial_succ] at this
    exact_mod_cast this
  have hc : ((m + 2 * b).choose b : ℝ) * b ! * (m + b)! = (m + 2 * b)! := by
    have := Nat.choose_mul_factorial_mul_factorial (show b ≤ m + 2 * b by omega)
    rw [show m + 2 * b - b = m + b by omega] at this
    exact_mod_cast this
  have h1 : (((m + b)! : ℕ) : ℝ) ≠ 0 := by positivity
  have h2 : (((m + 2 * b)! : ℕ) : ℝ) ≠ 0 := by positivity
  have h3 : (((m + b + 1).ascFactorial (b + 1) : ℕ) : ℝ) ≠ 0 := by
    intro e
    rw [e, mul_zero] at hf
    have : (0 : ℝ) < ((m + 2 * b : ℕ) + 1) * ((m + 2 * b)! : ℕ) := by positivity
    linarith
  have h4 : ((m + 2 * b : ℕ) : ℝ) + 1 ≠ 0 := by positivity
  have hs : ((-1 : ℝ) ^ b) * (-1) ^ b = 1 := by rw [← mul_pow]; norm_num
  generalize (((m + b + 1).ascFactorial (b + 1) : ℕ) : ℝ) = A at *
  generalize (((m + 2 * b)! : ℕ) : ℝ) = F at *
  generalize (((m + b)! : ℕ) : ℝ) = G at *
  generalize ((m + 2 * b).choose b : ℝ) = K at *
  generalize ((m + 2 * b : ℕ) : ℝ) + 1 = L at *
  rw [eq_div_iff h4]
  have e1 : K * ((b ! : ℝ)⁻¹ * ((-1) ^ b * b ! * ((-1) ^ b * b ! / A))) * L = K * ((-1 : ℝ) ^ b * (-1) ^ b) * b ! * L / A := by field_simp
  rw [e1, hs, mul_one, div_eq_one_iff_eq h3]
  have : G * (K * b ! * L) = G * A := by rw [hf, ← hc]; ring
  exact mul_left_cancel₀ h1 this

/-! ### The radial polynomials -/

/-- Radial polynomial in terms of binomials. -/
theorem term_eq {m b s : ℕ} (hs : s ≤ b) : term (m + 2 * b) m s = ((-1 : ℤ) ^ s * (b.choose s) * ((m + 2 * b - s).choose b), m + 2 * b - 2 * s) := by
  unfold term
  have h1 : (m + 2 * b + m) / 2 = m + b := by omega
  have h2 : (m + 2 * b - m) / 2 = b := by omega
  rw [h1, h2]
  congr 1
  have hfac : (m + 2 * b - s)! = b.choose s * (m + 2 * b - s).choose b * (s ! * (m + b - s)! * (b - s)!) := by
    have e1 := Nat.choose_mul_factorial_mul_factorial (show b ≤ m + 2 * b - s by omega)
    have e2 := Nat.choose_mul_factorial_mul_factorial hs
    rw [show m + 2 * b - s - b = m + b - s by omega] at e1
    rw [← e1, ← e2]
    ring
  rw [hfac]
  push_cast
  rw [← mul_assoc ((-1 : ℤ) ^ s)]
  rw [Int.mul_tdiv_cancel _ (by positivity)]
  ring

/-- The radial polynomial of an entry, as an explicit sum. -/
noncomputable def rad (m b : ℕ) (r : ℝ) : ℝ := ∑ s ∈ range (b + 1), (-1 : ℝ) ^ s * (b.choose s) * ((m + 2 * b - s).choose b) * r ^ (m + 2 * (b - s))

theorem terms_sum (m b : ℕ) (r : ℝ) : (((List.range (b + 1)).map (term (m + 2 * b) m)).map fun c => (c.1 : ℝ) * r ^ c.2).sum = rad m b r := by
  unfold rad
  rw [List.map_map, ← List.sum_toFinset _ List.nodup_range, List.toFinset_range]
  refine sum_congr rfl fun s hs => ?_
  have hs' : s ≤ b := by have := mem_range.mp hs; omega
  simp only [Function.comp_apply]
  rw [term_eq hs']
  push_cast
  rw [show m + 2 * b - 2 * s = m + 2 * (b - s) by omega]

theorem rad_continuous (m b : ℕ) : Continuous (rad m b) := by unfold rad; fun_prop

theorem rad_moment (m b k : ℕ) : ∫ r in (0 : ℝ)..1, rad m b r * r ^ (m + 2 * k) * r =
    1 / 2 * ∑ s ∈ range (b + 1), (-1 : ℝ) ^ s * (b.choose s) * ((m + 2 * b - s).choose b) / ((m : ℝ) + b + k + 1 - s) := by
  have e : ∀ r : ℝ, rad m b r * r ^ (m + 2 * k) * r = ∑ s ∈ range (b + 1), (-1 : ℝ) ^ s * (b.choose s) * ((m + 2 * b - s).choose b) * r ^ (2 * (m + (b - s) + k) + 1) := by
    intro r
    unfold rad
    rw [sum_mul, sum_mul]
    refine sum_congr rfl fun s _ => ?_
    rw [show 2 * (m + (b - s) + k) + 1 = (m + 2 * (b - s)) + (m + 2 * k) + 1 by ring, pow_succ, pow_add r (m + 2 * (b - s)) (m + 2 * k)]
    ring
  simp only [e]
  rw [intervalIntegral.integral_finsetSum (fun s _ => (by apply Continuous.intervalIntegrable; fun_prop)), mul_sum]
  refine sum_congr rfl fun s hs => ?_
  have hs' : s ≤ b := by have := mem_range.mp hs; omega
  rw [intervalIntegral.integral_const_mul, integral_pow]
  rw [one_pow, zero_pow (by omega), sub_zero]
  push_cast
  rw [Nat.cast_sub hs']
  have h : (m : ℝ) + b + k + 1 - s ≠ 0 := by
    have : (s : ℝ) ≤ b := by exact_mod_cast hs'
    have : (0 : ℝ) ≤ m := by positivity
    have : (0 : ℝ) ≤ k := by positivity
    intro e
    linarith
  have h2 : (2 * ((m : ℝ) + (b - s) + k) + 1 + 1) = 2 * ((m : ℝ) + b + k + 1 - s) := by ring
  rw [h2]
  field_simp

theorem rad_ortho_le {m b b' : ℕ} (hb : b' ≤ b) : ∫ r in (0 : ℝ)..1, rad m b r * rad m b' r * r = if b = b' then 1 / (2 * (((m + 2 * b : ℕ) : ℝ) + 1)) else 0 := by
  have e : ∀ r : ℝ, rad m b r * rad m b' r * r = ∑ s ∈ range (b' + 1), ((-1 : ℝ) ^ s * (b'.choose s) * ((m + 2 * b' - s).choose b')) * (rad m b r * r ^ (m + 2 * (b' - s)) * r) := by
    intro r
    rw [show rad m b' r = ∑ s ∈ range (b' + 1), (-1 : ℝ) ^ s * (b'.choose s) * ((m + 2 * b' - s).choose b') * r ^ (m + 2 * (b' - s)) from rfl, mul_sum, sum_mul]
    exact sum_congr rfl fun s _ => by ring
  simp only [e]
  have hc := rad_continuous m b
  rw [intervalIntegral.integral_finsetSum (fun s _ => (by apply Continuous.intervalIntegrable; fun_prop))]
  simp only [intervalIntegral.integral_const_mul, rad_moment]
  split_ifs with h
  · subst h
    rw [sum_eq_single 0]
    · have := moment_eq m b
      rw [Nat.sub_zero, Nat.sub_zero, pow_zero, Nat.choose_zero_right, Nat.cast_one, one_mul, one_mul]
      rw [show (m : ℝ) + b + (b : ℕ) + 1 = (m : ℝ) + b + b + 1 from rfl] at *
      rw [← mul_assoc, mul_comm _ (1 / 2 : ℝ), mul_assoc, this]
      field_simp
    · intro s hs h0
      have hs' : s ≤ b := by have := mem_range.mp hs; omega
      rw [moment_lt (by omega), mul_zero, mul_zero]
    · simp
  · refine sum_eq_zero fun s _ => ?_
    rw [moment_lt (by omega), mul_zero, mul_zero]

theorem rad_ortho (m b b' : ℕ) : ∫ r in (0 : ℝ)..1, rad m b r * rad m b' r * r = if b = b' then 1 / (2 * (((m + 2 * b : ℕ) : ℝ) + 1)) else 0 := by
  rcases le_total b' b with h | h
  · exact rad_ortho_le h
  · have := rad_ortho_le (m := m) h
    simp only [mul_comm (rad m b' _) (rad m b _)] at this
    rw [this]
    by_cases e : b = b'
    · subst e; rfl
    · rw [if_neg e, if_neg (fun h => e h.symm)]

/-- C78: every radial polynomial has the value 1 on the edge of the aperture. -/
theorem C78_edge_value {n m j : ℕ} (h : Slot j n m) : ((entry n m j).terms.map fun c => (c.1 : ℝ) * (1 : ℝ) ^ c.2).sum = 1 := by
  obtain ⟨h1, h2, _⟩ := h
  by_cases hn : n = 0
  · subst hn; simp [entry]
  obtain ⟨b, rfl⟩ : ∃ b, n = m + 2 * b := ⟨(n - m) / 2, by omega⟩
  unfold entry
  rw [if_neg hn]
  dsimp only
  rw [show (m + 2 * b - m) / 2 = b by omega, terms_sum]
  unfold rad
  have hb : (b ! : ℝ) ≠ 0 := by positivity
  have e : ∀ s ∈ range (b + 1), (-1 : ℝ) ^ s * (b.choose s) * ((m + 2 * b - s).choose b) * 1 ^ (m + 2 * (b - s)) =
      (b ! : ℝ)⁻¹ * ((-1 : ℝ) ^ s * (b.choose s) * (descPochhammer ℝ b).eval (((m + 2 * b : ℕ) : ℝ) - s)) := by
    intro s hs
    have hs' : s ≤ b := by have := mem_range.mp hs; omega
    rw [choose_eval (m + 2 * b - s) b, Nat.cast_sub (show s ≤ m + 2 * b by omega), one_pow]
    field_simp
  rw [sum_congr rfl e, ← mul_sum, fd_sum (fun x => (descPochhammer ℝ b).eval x)]
  have := Polynomial.fwdDiff_iter_degree_eq_factorial (descPochhammer ℝ b)
  rw [descPochhammer_natDegree, (monic_descPochhammer ℝ b).leadingCoeff] at this
  rw [show (fun x => (descPochhammer ℝ b).eval x) = (descPochhammer ℝ b).eval from rfl, this]
  simp [hb]

/-! ### The angular part -/

/-- The angular factor of an entry. -/
noncomputable def angF : Option (ℕ × Bool) → ℝ → ℝ
  | none, _ => 1
  | some (m, true), t => Real.cos (m * t)
  | some (m, false), t => Real.sin (m * t)

theorem int_cos (k : ℤ) : ∫ t in (0 : ℝ)..(2 * Real.pi), Real.cos (k * t) = if k = 0 then 2 * Real.pi else 0 := by
  split_ifs with h
  · subst h; simp
  · have hk : (k : ℝ) ≠ 0 := by exact_mod_cast h
    rw [intervalIntegral.integral_comp_mul_left (fun t => Real.cos t) hk, integral_cos]
    have hs : Real.sin (k * (2 * Real.pi)) = 0 := by
      have := Real.sin_int_mul_pi (2 * k)
      push_cast at this
      rw [← this]; congr 1; ring
    simp [hs]

theorem int_sin (k : ℤ) : ∫ t in (0 : ℝ)..(2 * Real.pi), Real.sin (k * t) = 0 := by
  by_cases h : k = 0
  · subst h; simp
  · have hk : (k : ℝ) ≠ 0 := by exact_mod_cast h
    rw [intervalIntegral.integral_comp_mul_left (fun t => Real.sin t) hk, integral_sin]
    simp [Real.cos_int_mul_two_pi]

theorem int_cos_cos (a b : ℕ) : ∫ t in (0 : ℝ)..(2 * Real.pi), Real.cos (a * t) * Real.cos (b * t) =
    ((if (a : ℤ) - b = 0 then 2 * Real.pi else 0) + (if (a : ℤ) + b = 0 then 2 * Real.pi else 0)) / 2 := by
  have e : ∀ t : ℝ, Real.cos (a * t) * Real.cos (b * t) = (Real.cos (((a : ℤ) - b : ℤ) * t) + Real.cos (((a : ℤ) + b : ℤ) * t)) / 2 := by
    intro t
    push_cast
    rw [sub_mul, add_mul, Real.cos_sub, Real.cos_add]; ring
  simp only [e]
  rw [intervalIntegral.integral_div, intervalIntegral.integral_add (by apply Continuous.intervalIntegrable; fun_prop) (by apply Continuous.intervalIntegrable; fun_prop), int_cos, int_cos]

theorem int_sin_sin (a b : ℕ) : ∫ t in (0 : ℝ)..(2 * Real.pi), Real.sin (a * t) * Real.sin (b * t) =
    ((if (a : ℤ) - b = 0 then 2 * Real.pi else 0) - (if (a : ℤ) + b = 0 then 2 * Real.pi else 0)) / 2 := by
  have e : ∀ t : ℝ, Real.sin (a * t) * Real.sin (b * t) = (Real.cos (((a : ℤ) - b : ℤ) * t) - Real.cos (((a : ℤ) + b : ℤ) * t)) / 2 := by
    intro t
    push_cast
    rw [sub_mul, add_mul, Real.cos_sub, Real.cos_add]; ring
  simp only [e]
  rw [intervalIntegral.integral_div, intervalIntegral.integral_sub (by apply Continuous.intervalIntegrable; fun_prop) (by apply Continuous.intervalIntegrable; fun_prop), int_cos, int_cos]

theorem int_sin_cos (a b : ℕ) : ∫ t in (0 : ℝ)..(2 * Real.pi), Real.sin (a * t) * Real.cos (b * t) = 0 := by
  have e : ∀ t : ℝ, Real.sin (a * t) * Real.cos (b * t) = (Real.sin (((a : ℤ) + b : ℤ) * t) + Real.sin (((a : ℤ) - b : ℤ) * t)) / 2 := by
    intro t
    push_cast
    rw [sub_mul, add_mul, Real.sin_sub, Real.sin_add]; ring
  simp only [e]
  rw [intervalIntegral.integral_div, intervalIntegral.integral_add (by apply Continuous.intervalIntegrable; fun_prop) (by apply Continuous.intervalIntegrable; fun_prop), int_sin, int_sin]
  simp

/-- An angular factor of the list: none, or cosine/sine of a positive multiple. -/
def AngOk : Option (ℕ × Bool) → Prop
  | none => True
  | some (m, _) => m ≠ 0

theorem ang_ortho (a b : Option (ℕ × Bool)) (ha : AngOk a) (hb : AngOk b) :
    ∫ t in (0 : ℝ)..(2 * Real.pi), angF a t * angF b t = if a = b then (if a = none then 2 * Real.pi else Real.pi) else 0 := by
  have hc : ∀ m : ℕ, m ≠ 0 → ∫ t in (0 : ℝ)..(2 * Real.pi), Real.cos (m * t) = 0 := by
    intro m hm
    have := int_cos (m : ℤ)
    rw [if_neg (by exact_mod_cast hm)] at this
    exact_mod_cast this
  have hs : ∀ m : ℕ, ∫ t in (0 : ℝ)..(2 * Real.pi), Real.sin (m * t) = 0 := by
    intro m
    have := int_sin (m : ℤ)
    exact_mod_cast this
  rcases a with _ | ⟨m, _ | _⟩ <;> rcases b with _ | ⟨k, _ | _⟩ <;> simp only [AngOk] at ha hb <;> simp only [angF, one_mul, mul_one]
  · simp
  · rw [hs]; simp
  · rw [hc k hb]; simp
  · rw [hs]; simp
  · rw [int_sin_sin]
    have : (m : ℤ) + k ≠ 0 := by omega
    rw [if_neg this]
    by_cases h : m = k
    · subst h; simp
    · rw [if_neg (by omega)]; simp [h]
  · rw [int_sin_cos]; simp
  · rw [hc m ha]; simp
  · simp only [mul_comm (Real.cos _) (Real.sin _)]
    rw [int_sin_cos]; simp
  · rw [int_cos_cos]
    have : (m : ℤ) + k ≠ 0 := by omega
    rw [if_neg this]
    by_cases h : m = k
    · subst h; simp
    · rw [if_neg (by omega)]; simp [h]

/-! ### The result -/

/-- An entry as radial part times angular part. -/
theorem entry_spec {j n m : ℕ} (h : Slot j n m) : ∃ b, n = m + 2 * b ∧ ((entry n m j).ang = if m = 0 then none else some (m, decide (j % 2 = 0))) ∧
    ((entry n m j).val = if m = 0 then n + 1 else 2 * (n + 1)) ∧ ∀ r t, zernVal (entry n m j) r t = Real.sqrt (entry n m j).val * rad m b r * angF (entry n m j).ang t := by
  obtain ⟨h1, h2, _⟩ := h
  obtain ⟨b, rfl⟩ : ∃ b, n = m + 2 * b := ⟨(n - m) / 2, by omega⟩
  refine ⟨b, rfl, ?_, ?_, ?_⟩
  · unfold entry
    by_cases hn : m + 2 * b = 0
    · rw [if_pos hn, if_pos (by omega)]
    · rw [if_neg hn]
  · unfold entry
    by_cases hn : m + 2 * b = 0
    · rw [if_pos hn, if_pos (by omega), hn]
    · rw [if_neg hn]; dsimp only; split_ifs <;> simp_all
  · intro r t
    have hang : ∀ z : Zern, zernVal z r t = Real.sqrt z.val * (z.terms.map fun c => (c.1 : ℝ) * r ^ c.2).sum * angF z.ang t := by
      intro z
      unfold zernVal
      rcases z with ⟨v, tm, _ | ⟨k, _ | _⟩⟩ <;> rfl
    rw [hang]
    congr 2
    unfold entry
    by_cases hn : m + 2 * b = 0
    · obtain ⟨rfl, rfl⟩ : m = 0 ∧ b = 0 := by omega
      simp [rad]
    · rw [if_neg hn]
      dsimp only
      rw [show (m + 2 * b - m) / 2 = b by omega, terms_sum]

/-- C78: the polynomials that prop_noll_zernikes writes at any two indices are orthonormal on the unit disk: the average over the disk of the product of entry `i` and entry `j` is 1 if `i = j`
and 0 otherwise; in particular each has an RMS of 1. -/
theorem C78_orthonormal (maxz : ℕ) : ∃ s, noll maxz = .ok s ∧ ∀ i j, 1 ≤ i → i ≤ maxz → 1 ≤ j → j ≤ maxz → ∃ zi zj, s.zl i = some zi ∧ s.zl j = some zj ∧
    1 / Real.pi * ∫ t in (0 : ℝ)..(2 * Real.pi), ∫ r in (0 : ℝ)..1, zernVal zi r t * zernVal zj r t * r = if i = j then 1 else 0 := by
  obtain ⟨s, hs, _, _, hsl⟩ := C54_index maxz
  refine ⟨s, hs, fun i j hi1 hi2 hj1 hj2 => ?_⟩
  obtain ⟨n, m, si⟩ := slot_exists hi1
  obtain ⟨n', m', sj⟩ := slot_exists hj1
  refine ⟨_, _, hsl i n m hi1 hi2 si, hsl j n' m' hj1 hj2 sj, ?_⟩
  obtain ⟨b, hn, ha, hv, hz⟩ := entry_spec si
  obtain ⟨b', hn', ha', hv', hz'⟩ := entry_spec sj
  generalize entry n m i = zi at *
  generalize entry n' m' j = zj at *
  have e : ∀ r t : ℝ, zernVal zi r t * zernVal zj r t * r = (Real.sqrt zi.val * Real.sqrt zj.val * (angF zi.ang t * angF zj.ang t)) * (rad m b r * rad m' b' r * r) := by
    intro r t; rw [hz, hz']; ring
  simp only [e]
  have e2 : ∀ t : ℝ, ∫ r in (0 : ℝ)..1, (Real.sqrt zi.val * Real.sqrt zj.val * (angF zi.ang t * angF zj.ang t)) * (rad m b r * rad m' b' r * r) =
      (Real.sqrt zi.val * Real.sqrt zj.val * (∫ r in (0 : ℝ)..1, rad m b r * rad m' b' r * r)) * (angF zi.ang t * angF zj.ang t) := by
    intro t; rw [intervalIntegral.integral_const_mul]; ring
  simp only [e2]
  rw [intervalIntegral.integral_const_mul]
  have oi : AngOk zi.ang := by rw [ha]; split_ifs with h; exacts [trivial, h]
  have oj : AngOk zj.ang := by rw [ha']; split_ifs with h; exacts [trivial, h]
  rw [ang_ortho _ _ oi oj]
  have hpi : Real.pi ≠ 0 := Real.pi_ne_zero
  by_cases hij : i = j
  · subst hij
    obtain ⟨e1, e3⟩ := slot_unique si sj
    subst e1 e3
    have hb : b' = b := by omega
    subst hb
    have hang : zi.ang = zj.ang := by rw [ha, ha']
    rw [if_pos rfl, if_pos hang, rad_ortho, if_pos rfl, ← hn, hv, hv', Real.mul_self_sqrt (by positivity), ha]
    have : (n : ℝ) + 1 ≠ 0 := by positivity
    by_cases h0 : m = 0
    · simp only [h0, if_true]
      push_cast
      field_simp
    · simp only [if_neg h0]
      push_cast
      simp
      field_simp
  · rw [if_neg hij]
    by_cases hang : zi.ang = zj.ang
    · rw [ha, ha'] at hang
      have hm : m = m' := by
        split_ifs at hang with h1 h2
        · omega
        · exact (Prod.mk.inj (Option.some.inj hang)).1
      subst hm
      have hb : b ≠ b' := by
        intro hb
        subst hb
        have hnn : n = n' := by omega
        subst hnn
        apply hij
        split_ifs at hang with h1
        · obtain ⟨_, _, h3⟩ := si
          obtain ⟨_, _, h4⟩ := sj
          omega
        · have := (Prod.mk.inj (Option.some.inj hang)).2
          have hp : i % 2 = 0 ↔ j % 2 = 0 := by simpa using this
          obtain ⟨_, _, h3⟩ := si
          obtain ⟨_, _, h4⟩ := sj
          omega
      rw [rad_ortho, if_neg hb]
      ring
    · rw [if_neg hang]; ring

/-- The theorem is about real entries: index 4 (defocus) is √3 (2r² - 1). -/
example : ∃ s, noll 4 = .ok s ∧ s.zl 4 = some ⟨3, [(2, 2), (-1, 0)], none⟩ := by
  obtain ⟨s, h, _, _, h2⟩ := C54_index 4
  exact ⟨s, h, by rw [h2 4 2 0 (by norm_num) le_rfl ⟨by norm_num, by norm_num, Or.inl (by simp [T])⟩]; decide +kernel⟩

end Verif.Noll
