import Verif.Model.FieldOps
import Verif.Props.ProperShift

/-!
# C124: changing and reading the field of a PROPER wavefront

The specification is what the user sees: `prop_get_wavefront`, an array with the beam at its centre.
-/

namespace Verif.Proper
open Verif Complex Verif.Optics

variable {n : ℕ} [NeZero n]

/-- Everything about the wavefront but its field is as before. -/
def SameButField (s s' : WF n) : Prop := s' = { s with arr := s'.arr }

/-- An `n × n` array as an argument. -/
def Val.full (A : ZMod n → ZMod n → ℂ) : Val := .mat n n A

theorem operand_full (A : ZMod n → ZMod n → ℂ) : operand (n := n) (Val.full A) = .ok (shiftCenter A) := by
  unfold operand Val.full bcast
  simp only [true_or, and_self, if_true, ZMod.natCast_val, ZMod.cast_id', id_eq]

theorem shift_map {α β : Type*} {M N : ℕ} (f : α → β) (A : ZMod M → ZMod N → α) : shiftCenter (fun i j => f (A i j)) = fun i j => f (shiftCenter A i j) := rfl

theorem shift_map2 {α β γ : Type*} {M N : ℕ} (f : α → β → γ) (A : ZMod M → ZMod N → α) (B : ZMod M → ZMod N → β) :
    shiftCenter (fun i j => f (A i j) (B i j)) = fun i j => f (shiftCenter A i j) (shiftCenter B i j) := rfl

/-- C124: on a grid of even size, `prop_multiply` by an `n × n` array multiplies, pixel by pixel, the field the user sees, `prop_divide` divides it, `prop_add_wavefront` adds to it, and
`prop_add_phase` multiplies it by `exp(2πi/λ · map)`; nothing else of the wavefront changes. -/
theorem C124_arrays (hn : Even n) (s : WF n) (A : ZMod n → ZMod n → ℂ) :
    (∃ s', multiply s (.full A) = .ok s' ∧ SameButField s s' ∧ ∀ i j, getWavefront s' i j = getWavefront s i j * A i j) ∧
    (∃ s', divide s (.full A) = .ok s' ∧ SameButField s s' ∧ ∀ i j, getWavefront s' i j = getWavefront s i j / A i j) ∧
    (∃ s', addWavefront s (.full A) = .ok s' ∧ SameButField s s' ∧ ∀ i j, getWavefront s' i j = getWavefront s i j + A i j) ∧
    (∃ s', addPhaseV s (.full A) = .ok s' ∧ SameButField s s' ∧ ∀ i j, getWavefront s' i j = getWavefront s i j * exp (2 * Real.pi * I / s.lam * A i j)) := by
  have h2 : ∀ i j, shiftCenter (shiftCenter A) i j = A i j := fun i j => by rw [C58_twice_even hn hn]
  refine ⟨⟨{ s with arr := fun i j => s.arr i j * shiftCenter A i j }, by unfold multiply; rw [operand_full]; rfl, rfl, fun i j => ?_⟩, ⟨{ s with arr := fun i j => s.arr i j / shiftCenter A i j }, by unfold divide; rw [operand_full]; rfl, rfl, fun i j => ?_⟩,
    ⟨{ s with arr := fun i j => s.arr i j + shiftCenter A i j }, by unfold addWavefront; rw [operand_full]; rfl, rfl, fun i j => ?_⟩, ⟨{ s with arr := fun i j => s.arr i j * exp (2 * Real.pi * I / s.lam * shiftCenter A i j) }, by unfold addPhaseV; rw [operand_full]; rfl, rfl, fun i j => ?_⟩⟩
  · exact congrArg (getWavefront s i j * ·) (h2 i j)
  · exact congrArg (getWavefront s i j / ·) (h2 i j)
  · exact congrArg (getWavefront s i j + ·) (h2 i j)
  · exact congrArg (fun t => getWavefront s i j * exp (2 * Real.pi * I / s.lam * t)) (h2 i j)

/-- C124: numbers. A real number acts as the constant array of that number in all four functions (any grid size). -/
theorem C124_numbers (s : WF n) (x : ℝ) :
    (∃ s', multiply s (.real x) = .ok s' ∧ multiply s (.full fun (_ _ : ZMod n) => (x : ℂ)) = .ok s' ∧ SameButField s s' ∧ ∀ i j, getWavefront s' i j = getWavefront s i j * x) ∧
    (∃ s', divide s (.real x) = .ok s' ∧ divide s (.full fun (_ _ : ZMod n) => (x : ℂ)) = .ok s' ∧ SameButField s s' ∧ ∀ i j, getWavefront s' i j = getWavefront s i j / x) ∧
    (∃ s', addWavefront s (.real x) = .ok s' ∧ addWavefront s (.full fun (_ _ : ZMod n) => (x : ℂ)) = .ok s' ∧ SameButField s s' ∧ ∀ i j, getWavefront s' i j = getWavefront s i j + x) ∧
    (∃ s', addPhaseV s (.real x) = .ok s' ∧ addPhaseV s (.full fun (_ _ : ZMod n) => (x : ℂ)) = .ok s' ∧ SameButField s s' ∧
      ∀ i j, getWavefront s' i j = getWavefront s i j * exp (2 * Real.pi * I / s.lam * x)) := by
  refine ⟨⟨{ s with arr := fun i j => s.arr i j * (x : ℂ) }, rfl, ?_, rfl, fun i j => rfl⟩, ⟨{ s with arr := fun i j => s.arr i j / (x : ℂ) }, rfl, ?_, rfl, fun i j => rfl⟩,
    ⟨{ s with arr := fun i j => s.arr i j + (x : ℂ) }, rfl, ?_, rfl, fun i j => rfl⟩, ⟨{ s with arr := fun i j => s.arr i j * exp (2 * Real.pi * I / s.lam * (x : ℂ)) }, rfl, ?_, rfl, fun i j => rfl⟩⟩
  · unfold multiply; rw [operand_full]; rfl
  · unfold divide; rw [operand_full]; rfl
  · unfold addWavefront; rw [operand_full]; rfl
  · unfold addPhaseV; rw [operand_full]; rfl

/-- C124, the failing case: a complex number is refused with TypeError by `prop_multiply`, `prop_divide` and `prop_add_phase`, although the array filled with the same number is accepted;
`prop_add_wavefront` accepts both. -/
theorem C124_complex_number_violated (s : WF n) (z : ℂ) :
    multiply s (.cplx z) = .error .typeError ∧ divide s (.cplx z) = .error .typeError ∧ addPhaseV s (.cplx z) = .error .typeError ∧
    (∃ s', multiply s (.full fun (_ _ : ZMod n) => z) = .ok s') ∧ (∃ s', addWavefront s (.cplx z) = .ok s' ∧ addWavefront s (.full fun (_ _ : ZMod n) => z) = .ok s') := by
  refine ⟨rfl, rfl, rfl, ⟨{ s with arr := fun i j => s.arr i j * z }, ?_⟩, ⟨{ s with arr := fun i j => s.arr i j + z }, rfl, ?_⟩⟩
  · unfold multiply; rw [operand_full]; rfl
  · unfold addWavefront; rw [operand_full]; rfl

/-- C124: arrays of the wrong shape are refused by all four functions with ValueError and (no result) the field is left as it was: anything that is not 2-D, and any 2-D array with a dimension that is
neither `n` nor 1. -/
theorem C124_shapes (s : WF n) (v : Val) (hv : (∃ k, v = .nd k) ∨ ∃ M N A, v = .mat M N A ∧ ((M ≠ n ∧ M ≠ 1) ∨ (N ≠ n ∧ N ≠ 1))) :
    multiply s v = .error .valueError ∧ divide s v = .error .valueError ∧ addWavefront s v = .error .valueError ∧ addPhaseV s v = .error .valueError := by
  have key : isScalar v = false ∧ operand (n := n) v = .error .valueError := by
    rcases hv with ⟨k, rfl⟩ | ⟨M, N, A, rfl, h⟩
    · exact ⟨rfl, rfl⟩
    · refine ⟨rfl, ?_⟩
      unfold operand bcast
      dsimp only
      rw [if_neg]
      rintro ⟨h1, h2⟩
      rcases h with ⟨a, b⟩ | ⟨a, b⟩
      · exact h1.elim a b
      · exact h2.elim a b
  unfold multiply divide addWavefront addPhaseV
  rw [key.1, key.2]
  exact ⟨rfl, rfl, rfl, rfl⟩

/-- C124, a trap: a single row (`1 × n`) is silently repeated down the grid, a single column across it: column `j` of the seen field is multiplied by entry `j` of the row. -/
theorem C124_row_broadcast (hn : Even n) (s : WF n) (A : ZMod 1 → ZMod n → ℂ) :
    ∃ s', multiply s (.mat 1 n A) = .ok s' ∧ SameButField s s' ∧ ∀ i j, getWavefront s' i j = getWavefront s i j * A 0 j := by
  have he : operand (n := n) (.mat 1 n A) = .ok (fun _ j => shiftCenter A 0 j) := by
    unfold operand bcast
    simp only [or_true, true_or, and_self, if_true, ZMod.natCast_val, ZMod.cast_id', id_eq]
    congr 1
    funext i j
    congr 1
    exact Subsingleton.elim _ _
  refine ⟨{ s with arr := fun i j => s.arr i j * shiftCenter A 0 j }, by unfold multiply; rw [he]; rfl, rfl, fun i j => ?_⟩
  obtain ⟨k, hk⟩ := hn
  have h2 : n / 2 = k := by omega
  have e1 : ((k : ℕ) : ZMod n) + (k : ℕ) = 0 := by rw [← Nat.cast_add, ← hk, ZMod.natCast_self]
  show getWavefront s i j * shiftCenter A 0 (j - (((n / 2 : ℕ) : ℤ) : ZMod n)) = _
  congr 1
  unfold shiftCenter roll2
  congr 1
  rw [h2]
  push_cast
  rw [sub_sub, e1, sub_zero]

/-- C124: dividing undoes multiplying, by any number or array without zeros, on every grid. -/
theorem C124_divide_undoes (s s1 : WF n) (v : Val) (h : multiply s v = .ok s1)
    (hv : (∃ x : ℝ, v = .real x ∧ x ≠ 0) ∨ ∃ A : ZMod n → ZMod n → ℂ, v = .full A ∧ ∀ i j, A i j ≠ 0) : divide s1 v = .ok s := by
  rcases hv with ⟨x, rfl, hx⟩ | ⟨A, rfl, hA⟩
  · have h1 : s1 = { s with arr := fun i j => s.arr i j * (x : ℂ) } := by
      have : multiply s (.real x) = .ok { s with arr := fun i j => s.arr i j * (x : ℂ) } := rfl
      rw [this] at h
      exact (Except.ok.inj h).symm
    subst h1
    have hx' : (x : ℂ) ≠ 0 := by exact_mod_cast hx
    show Except.ok { s with arr := fun i j => s.arr i j * (x : ℂ) / (x : ℂ) } = _
    congr 1
    cases s
    simp only [WF.mk.injEq, and_true]
    funext i j
    exact mul_div_cancel_right₀ _ hx'
  · have h1 : s1 = { s with arr := fun i j => s.arr i j * shiftCenter A i j } := by
      have : multiply s (.full A) = .ok { s with arr := fun i j => s.arr i j * shiftCenter A i j } := by unfold multiply; rw [operand_full]; rfl
      rw [this] at h
      exact (Except.ok.inj h).symm
    subst h1
    have h2 : divide { s with arr := fun i j => s.arr i j * shiftCenter A i j } (.full A) =
        .ok { s with arr := fun i j => s.arr i j * shiftCenter A i j / shiftCenter A i j } := by unfold divide; rw [operand_full]; rfl
    rw [h2]
    congr 1
    cases s
    simp only [WF.mk.injEq, and_true]
    funext i j
    exact mul_div_cancel_right₀ _ (hA _ _)

/-- C124: amplitude and phase as read back: the seen field is `amplitude · exp(i · phase)` at every pixel, the amplitude is non-negative and the phase lies in `(-π, π]`. -/
theorem C124_amplitude_phase (s : WF n) (i j : ZMod n) :
    getWavefront s i j = getAmplitude s i j * exp (getPhase s i j * I) ∧ 0 ≤ getAmplitude s i j ∧ -Real.pi < getPhase s i j ∧ getPhase s i j ≤ Real.pi :=
  ⟨(norm_mul_exp_arg_mul_I _).symm, norm_nonneg _, neg_pi_lt_arg _, arg_le_pi _⟩

/-- C124: a real phase map leaves every amplitude as it is; and where the field is not zero and phase + 2π/λ·map stays in `(-π, π]`, the phase read back has grown by exactly `2π/λ · map` (even grid). -/
theorem C124_add_phase_reads_back (hn : Even n) (s s' : WF n) (ph : ZMod n → ZMod n → ℝ) (h : addPhaseV s (.full fun i j => (ph i j : ℂ)) = .ok s') (i j : ZMod n) :
    getAmplitude s' i j = getAmplitude s i j ∧
    (getAmplitude s i j ≠ 0 → -Real.pi < getPhase s i j + 2 * Real.pi / s.lam * ph i j → getPhase s i j + 2 * Real.pi / s.lam * ph i j ≤ Real.pi →
      getPhase s' i j = getPhase s i j + 2 * Real.pi / s.lam * ph i j) := by
  obtain ⟨t, ht, _, hw⟩ := (C124_arrays hn s fun i j => (ph i j : ℂ)).2.2.2
  obtain rfl : t = s' := Except.ok.inj (ht.symm.trans h)
  have e : getWavefront t i j = getWavefront s i j * exp ((2 * Real.pi / s.lam * ph i j : ℝ) * I) := by
    rw [hw]
    congr 2
    push_cast
    ring
  have hamp : ∀ u : WF n, getAmplitude u i j = ‖getWavefront u i j‖ := fun u => rfl
  have hph : ∀ u : WF n, getPhase u i j = arg (getWavefront u i j) := fun u => rfl
  constructor
  · rw [hamp, hamp, e, norm_mul, norm_exp_ofReal_mul_I, mul_one]
  · intro h0 h1 h2
    rw [hph t, e, (C124_amplitude_phase s i j).1, mul_assoc, ← exp_add, ← add_mul, ← ofReal_add]
    have hp : 0 < getAmplitude s i j := lt_of_le_of_ne (C124_amplitude_phase s i j).2.1 (Ne.symm h0)
    rw [Complex.arg_real_mul _ hp, Complex.exp_mul_I, Complex.arg_cos_add_sin_mul_I ⟨h1, h2⟩]

/-- C124, the failing case: on a grid of odd size the array lands one pixel off in both directions: seen pixel `(i, j)` is multiplied by entry `(i+1, j+1)`. -/
theorem C124_odd_violated (hn : Odd n) (s : WF n) (A : ZMod n → ZMod n → ℂ) :
    ∃ s', multiply s (.full A) = .ok s' ∧ ∀ i j, getWavefront s' i j = getWavefront s i j * A (i + 1) (j + 1) := by
  refine ⟨{ s with arr := fun i j => s.arr i j * shiftCenter A i j }, by unfold multiply; rw [operand_full]; rfl, fun i j => ?_⟩
  exact congrArg (getWavefront s i j * ·) (C58_twice_odd hn hn A i j)

/-- C124: samplings. The angular sampling in arcseconds is the one in radians times 648000/π, both are the sampling over the focal length `F# · D`, and the Nyquist sampling is half a wavelength times
the focal ratio, for the given wavelength or, when none (or 0) is given, the wavefront's own. -/
theorem C124_samplings (s : WF n) (fratio diam lamx : ℝ) (hf : fratio ≠ 0) (hd : diam ≠ 0) :
    samplingArcsec s fratio diam = samplingRadians s fratio diam * (648000 / Real.pi) ∧ samplingRadians s fratio diam * (fratio * diam) = s.dx ∧
    nyquist s fratio 0 = nyquist s fratio s.lam ∧ (lamx ≠ 0 → nyquist s fratio lamx = fratio * lamx / 2) := by
  have hpi := Real.pi_ne_zero
  refine ⟨?_, ?_, ?_, fun h => if_pos h⟩
  · unfold samplingArcsec samplingRadians; field_simp; ring
  · unfold samplingRadians; field_simp
  · unfold nyquist
    by_cases h : s.lam = 0
    · simp [h]
    · simp [h]

/-- The cases are met: a 4 × 4 grid, an array that is not constant and has no zeros, and a 3 × 4 array that is refused. -/
example (s : WF 4) : ∃ s', multiply s (.full fun (i j : ZMod 4) => ((i.val : ℂ) + 1) * I) = .ok s' ∧ divide s' (.full fun (i j : ZMod 4) => ((i.val : ℂ) + 1) * I) = .ok s := by
  obtain ⟨s', h, _⟩ := (C124_arrays (n := 4) ⟨2, rfl⟩ s fun i j => ((i.val : ℂ) + 1) * I).1
  refine ⟨s', h, C124_divide_undoes s s' _ h (.inr ⟨_, rfl, fun i j => mul_ne_zero ?_ I_ne_zero⟩)⟩
  exact Nat.cast_add_one_ne_zero _

example (s : WF 4) : multiply s (.mat 3 4 fun _ _ => 1) = .error .valueError := (C124_shapes s _ (.inr ⟨3, 4, _, rfl, .inl (by decide)⟩)).1

end Verif.Proper
