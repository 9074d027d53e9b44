import Verif.Lemmas.Prop
import Mathlib.Data.ZMod.ValMinAbs
import Mathlib.LinearAlgebra.Matrix.Trace
import Mathlib.LinearAlgebra.Matrix.ConjTranspose

/-!
# Properties of falco/prop.py (C07 - C10, C62)
-/

namespace Verif.Optics
open Verif Complex

/-! ## C07 -/

section C07
variable {α : Type*} {M N : ℕ} [NeZero M] [NeZero N]

/-- Physical coordinate (unit step) of array index `i` on an `M`-pixel axis: entry `i` of `create_axis(M, 1, centering)`. -/
noncomputable def coord (M : ℕ) (c : Util.Centering) (i : ZMod M) : ℝ := (Util.createAxis M 1 c).getD i.val 0

theorem coord_eq (c : Util.Centering) (i : ZMod M) :
    coord M c i = (i.val : ℝ) - ((M / 2 : ℕ) : ℝ) + (if M % 2 = 0 ∧ c = .interpixel then 0.5 else 0) := by
  have := ax_eq 1 c (⟨i.val, ZMod.val_lt i⟩ : Fin M)
  rw [mul_one] at this
  exact this

omit [NeZero M] [NeZero N] in
/-- C07. An even number of relays (also zero or negative) returns the input. -/
theorem C07_even_identity (E : ZMod M → ZMod N → α) (n : ℤ) (hn : Even n) (c : Util.Centering) : relay E n c = E := by
  unfold relay
  rw [if_neg]
  rw [Int.even_iff] at hn; omega

omit [NeZero M] [NeZero N] in
/-- C07. Relays compose additively, for every array size and centering. -/
theorem C07_compose (E : ZMod M → ZMod N → α) (m n : ℤ) (c : Util.Centering) :
    relay (relay E m c) n c = relay E (m + n) c := by
  unfold relay
  rcases Int.emod_two_eq_zero_or_one m with hm | hm <;> rcases Int.emod_two_eq_zero_or_one n with hn | hn
  · have : ¬ (m + n) % 2 = 1 := by omega
    simp [hm, hn, this]
  · have : (m + n) % 2 = 1 := by omega
    simp [hm, hn, this]
  · have : (m + n) % 2 = 1 := by omega
    simp [hm, hn, this]
  · have : ¬ (m + n) % 2 = 1 := by omega
    simp only [hm, hn, this, if_true, if_false]
    split
    · funext i j; unfold roll2 reverse2; push_cast; congr 1 <;> ring
    · funext i j; unfold reverse2; congr 1 <;> ring

/-- C07. An odd number of relays is the point inversion of the field: the value at coordinates `(x, y)` is the input value at
`(-x, -y)`, for interpixel arrays of any size and for pixel-centred arrays of even size. -/
theorem C07_odd_inversion (E : ZMod M → ZMod N → α) (n : ℤ) (hn : Odd n) (c : Util.Centering)
    (hc : c = .interpixel ∨ (Even M ∧ Even N)) (i i' : ZMod M) (j j' : ZMod N)
    (hx : coord M c i' = - coord M c i) (hy : coord N c j' = - coord N c j) : relay E n c i j = E i' j' := by
  have hn' : n % 2 = 1 := Int.odd_iff.1 hn
  unfold relay
  rw [if_pos hn']
  rw [coord_eq, coord_eq] at hx hy
  have key : ∀ (K : ℕ) [NeZero K] (a a' : ZMod K) (s : ℤ), ((a.val : ℤ) + a'.val + s = K ∨ (a.val : ℤ) + a'.val + s = 0) →
      a' = -(s : ZMod K) - a := by
    intro K _ a a' s h
    have h2 : (((a.val : ℤ) + a'.val + s : ℤ) : ZMod K) = 0 := by
      rcases h with h | h
      · rw [h]; simp
      · rw [h]; simp
    push_cast at h2
    rw [ZMod.natCast_zmod_val, ZMod.natCast_zmod_val] at h2
    linear_combination h2
  have cast : ∀ (K : ℕ) (a a' : ℕ) (u : ℝ), (a' : ℝ) - ((K / 2 : ℕ) : ℝ) + u = -((a : ℝ) - ((K / 2 : ℕ) : ℝ) + u) →
      (a : ℝ) + a' + 2 * u = 2 * ((K / 2 : ℕ) : ℝ) := by intro K a a' u h; linarith
  have hx2 := cast M i.val i'.val _ hx
  have hy2 := cast N j.val j'.val _ hy
  cases c with
  | interpixel =>
    have hk : ∀ (K : ℕ) (a a' : ℕ), (a : ℝ) + a' + 2 * (if K % 2 = 0 ∧ Util.Centering.interpixel = .interpixel then 0.5 else 0)
        = 2 * ((K / 2 : ℕ) : ℝ) → (a : ℤ) + a' + 1 = K := by
      intro K a a' h
      by_cases hK : K % 2 = 0
      · simp only [hK, and_self, if_true] at h
        have : (a : ℝ) + a' + 1 = 2 * ((K / 2 : ℕ) : ℝ) := by linarith
        have : a + a' + 1 = 2 * (K / 2) := by exact_mod_cast this
        omega
      · simp only [hK, false_and, if_false] at h
        have : (a : ℝ) + a' = 2 * ((K / 2 : ℕ) : ℝ) := by linarith
        have : a + a' = 2 * (K / 2) := by exact_mod_cast this
        omega
    have e1 := key M i i' 1 (Or.inl (hk M _ _ hx2))
    have e2 := key N j j' 1 (Or.inl (hk N _ _ hy2))
    rw [if_neg (by simp), e1, e2]
    simp [reverse2]
  | pixel =>
    rcases hc with hc | ⟨hM, hN⟩
    · cases hc
    have hk : ∀ (K : ℕ) (a a' : ℕ), Even K → (a : ℝ) + a' + 2 * (if K % 2 = 0 ∧ Util.Centering.pixel = .interpixel then 0.5 else 0)
        = 2 * ((K / 2 : ℕ) : ℝ) → (a : ℤ) + a' + 0 = K := by
      intro K a a' hK h
      have hK' := Nat.even_iff.1 hK
      have h' : ¬ (K % 2 = 0 ∧ Util.Centering.pixel = .interpixel) := by simp
      rw [if_neg h'] at h
      have : (a : ℝ) + a' = 2 * ((K / 2 : ℕ) : ℝ) := by linarith
      have : a + a' = 2 * (K / 2) := by exact_mod_cast this
      omega
    have e1 := key M i i' 0 (Or.inl (hk M _ _ hM hx2))
    have e2 := key N j j' 0 (Or.inl (hk N _ _ hN hy2))
    rw [if_pos rfl, e1, e2]
    unfold roll2 reverse2
    push_cast
    congr 1 <;> ring

/-- C07. An odd number of relays in index terms, for every size: index `i` is read from `(-i) mod M` (pixel centring) or from `M-1-i` (interpixel). -/
theorem C07_index (E : ZMod M → ZMod N → α) (n : ℤ) (hn : Odd n) (i : ZMod M) (j : ZMod N) :
    relay E n .pixel i j = E (-i) (-j) ∧ relay E n .interpixel i j = E (-1 - i) (-1 - j) := by
  have hn' : n % 2 = 1 := Int.odd_iff.1 hn
  constructor
  · simp only [relay, if_pos hn', if_true, roll2, reverse2]
    congr 1 <;> (push_cast; ring)
  · simp only [relay, if_pos hn', reverse2]
    rfl

/-- C07 fails for every pixel-centred array of odd size: one relay returns at `(x, y)` the input value at `(1-x, 1-y)`, one pixel away from the
opposite point (the centre pixel is not kept). -/
theorem C07_odd_size (E : ZMod M → ZMod N → α) (n : ℤ) (hn : Odd n) (hM : Odd M) (hN : Odd N) (i i' : ZMod M) (j j' : ZMod N)
    (hx : coord M .pixel i' = 1 - coord M .pixel i) (hy : coord N .pixel j' = 1 - coord N .pixel j) : relay E n .pixel i j = E i' j' := by
  rw [(C07_index E n hn i j).1]
  have key : ∀ (K : ℕ) [NeZero K], Odd K → ∀ a a' : ZMod K, coord K .pixel a' = 1 - coord K .pixel a → -a = a' := by
    intro K _ hK a a' h
    rw [coord_eq, coord_eq] at h
    have hne : ¬ (K % 2 = 0 ∧ Util.Centering.pixel = .interpixel) := by rintro ⟨_, h⟩; cases h
    rw [if_neg hne] at h
    have h1 : (a'.val : ℝ) + a.val = 2 * ((K / 2 : ℕ) : ℝ) + 1 := by linarith
    have h2 : a'.val + a.val = 2 * (K / 2) + 1 := by exact_mod_cast h1
    have h3 : a'.val + a.val = K := by have := Nat.odd_iff.1 hK; omega
    have h4 := congrArg (fun q : ℕ => (q : ZMod K)) h3
    simp only [Nat.cast_add, ZMod.natCast_zmod_val, CharP.cast_eq_zero] at h4
    linear_combination -h4
  rw [key M hM i i' hx, key N hN j j' hy]

example : coord 3 .pixel 2 = 1 - coord 3 .pixel 1 := by
  rw [coord_eq, coord_eq]
  have h1 : (1 : ZMod 3).val = 1 := by decide
  have h2 : (2 : ZMod 3).val = 2 := by decide
  rw [h1, h2]; norm_num

example : coord 4 .pixel 3 = - coord 4 .pixel 1 ∧ coord 4 .interpixel 3 = - coord 4 .interpixel 0 := by
  rw [coord_eq, coord_eq, coord_eq, coord_eq]
  have h1 : (1 : ZMod 4).val = 1 := by decide
  have h3 : (3 : ZMod 4).val = 3 := by decide
  have h0 : (0 : ZMod 4).val = 0 := by decide
  rw [h1, h3, h0]; norm_num [show ¬ (Util.Centering.pixel = Util.Centering.interpixel) by decide]

end C07

/-! ## C08 -/

section C08
variable {N : ℕ} [NeZero N]

/-- the propagator without the `dz == 0` shortcut -/
noncomputable def ptpCore (E : ZMod N → ZMod N → ℂ) (w wvl dz : ℝ) : ZMod N → ZMod N → ℂ :=
  ifftshift (ifft2 fun k l => transferFunction wvl (w / N) dz k l * fft2 (fftshift E) k l)

theorem transferFunction_zero (wvl dx : ℝ) (k l : ZMod N) : transferFunction wvl dx 0 k l = 1 := by
  simp [transferFunction]

theorem transferFunction_add (wvl dx z1 z2 : ℝ) (k l : ZMod N) :
    transferFunction wvl dx (z1 + z2) k l = transferFunction wvl dx z2 k l * transferFunction wvl dx z1 k l := by
  unfold transferFunction
  rw [← exp_add, ← exp_add, ← exp_add, ← exp_add]
  congr 1; push_cast; ring

theorem ptp_eq_core (E : ZMod N → ZMod N → ℂ) (w wvl dz : ℝ) : ptp E w wvl dz = .ok (ptpCore E w wvl dz) := by
  unfold ptp
  split
  · next h =>
    subst h
    congr 1
    unfold ptpCore
    simp only [transferFunction_zero, one_mul]
    rw [show (fun k l => fft2 (fftshift E) k l) = fft2 (fftshift E) from rfl, ifft2_fft2, ifftshift_fftshift]
  · rw [if_neg (by simp)]; rfl

/-- C08. Propagating by `z1` and then by `z2` equals propagating by `z1 + z2` (never an error on square grids), for every
field, width, wavelength and pair of distances - including the `dz = 0` shortcut and odd grid sizes. -/
theorem C08_additive (E : ZMod N → ZMod N → ℂ) (w wvl z1 z2 : ℝ) :
    ((ptp E w wvl z1).bind fun F => ptp F w wvl z2) = ptp E w wvl (z1 + z2) := by
  simp only [ptp_eq_core]
  change Except.ok _ = _
  congr 1
  unfold ptpCore
  rw [fftshift_ifftshift, fft2_ifft2]
  congr 2
  funext k l
  rw [transferFunction_add, mul_assoc]

/-- C08. Propagating by `dz` and back by `-dz` returns the field. -/
theorem C08_reversible (E : ZMod N → ZMod N → ℂ) (w wvl dz : ℝ) :
    ((ptp E w wvl dz).bind fun F => ptp F w wvl (-dz)) = .ok E := by
  rw [C08_additive, add_neg_cancel]; simp [ptp]

/-- C08. Propagation is linear in the field. -/
theorem C08_linear (E F : ZMod N → ZMod N → ℂ) (c : ℂ) (w wvl dz : ℝ) :
    ∃ E' F', ptp E w wvl dz = .ok E' ∧ ptp F w wvl dz = .ok F' ∧
      ptp (fun i j => c * E i j + F i j) w wvl dz = .ok (fun i j => c * E' i j + F' i j) := by
  refine ⟨_, _, ptp_eq_core _ _ _ _, ptp_eq_core _ _ _ _, ?_⟩
  rw [ptp_eq_core]
  congr 1
  unfold ptpCore
  have h1 : fftshift (fun i j => c * E i j + F i j) = fun i j => c * fftshift E i j + fftshift F i j := rfl
  rw [h1, fft2_add (fun i j => c * fftshift E i j), fft2_smul]
  have h2 : (fun k l => transferFunction wvl (w / N) dz k l * (c * fft2 (fftshift E) k l + fft2 (fftshift F) k l))
      = fun k l => c * (transferFunction wvl (w / N) dz k l * fft2 (fftshift E) k l) +
        transferFunction wvl (w / N) dz k l * fft2 (fftshift F) k l := by funext k l; ring
  rw [h2, ifft2_add (fun k l => c * (transferFunction wvl (w / N) dz k l * fft2 (fftshift E) k l)), ifft2_smul]
  rfl

theorem transferFunction_normSq (wvl dx z : ℝ) (k l : ZMod N) : normSq (transferFunction wvl dx z k l) = 1 := by
  unfold transferFunction
  have h : ∀ t : ℝ, normSq (exp (-I * Real.pi * wvl * z * (t * t))) = 1 := by
    intro t
    rw [normSq_eq_norm_sq]
    have : -I * Real.pi * wvl * z * (t * t) = ((-(Real.pi * wvl * z * (t * t)) : ℝ) : ℂ) * I := by push_cast; ring
    rw [this, norm_exp_ofReal_mul_I]; norm_num
  rw [map_mul, h, h]; norm_num

theorem parseval2_inv (E : ZMod N → ZMod N → ℂ) :
    ∑ k, ∑ l, normSq (E k l) = N * N * ∑ i, ∑ j, normSq (ifft2 E i j) := by
  rw [← parseval2, fft2_ifft2]

/-- C08. The summed intensity is conserved. -/
theorem C08_energy (E : ZMod N → ZMod N → ℂ) (w wvl dz : ℝ) :
    ∃ E', ptp E w wvl dz = .ok E' ∧ ∑ i, ∑ j, normSq (E' i j) = ∑ i, ∑ j, normSq (E i j) := by
  refine ⟨_, ptp_eq_core _ _ _ _, ?_⟩
  have hN : (N : ℝ) * N ≠ 0 := by
    have : (N : ℝ) ≠ 0 := by exact_mod_cast NeZero.ne N
    positivity
  apply mul_left_cancel₀ hN
  unfold ptpCore
  have h1 : ∑ i, ∑ j, normSq (ifftshift (ifft2 fun k l => transferFunction wvl (w / N) dz k l * fft2 (fftshift E) k l) i j)
      = ∑ i, ∑ j, normSq (ifft2 (fun k l => transferFunction wvl (w / N) dz k l * fft2 (fftshift E) k l) i j) :=
    sum_roll2 (fun i j => normSq (ifft2 (fun k l => transferFunction wvl (w / N) dz k l * fft2 (fftshift E) k l) i j)) _ _
  have h2 : ∑ i, ∑ j, normSq (fftshift E i j) = ∑ i, ∑ j, normSq (E i j) := sum_roll2 (fun i j => normSq (E i j)) _ _
  rw [h1, ← parseval2_inv, ← h2, ← parseval2]
  refine Finset.sum_congr rfl fun k _ => Finset.sum_congr rfl fun l _ => ?_
  rw [map_mul, transferFunction_normSq, one_mul]

/-- C08. A non-square array is rejected with `ValueError`, unless `dz = 0`, when it is returned unchanged. -/
theorem C08_nonsquare {M : ℕ} [NeZero M] (hMN : M ≠ N) (E : ZMod M → ZMod N → ℂ) (w wvl dz : ℝ) :
    ptp E w wvl dz = if dz = 0 then .ok E else .error .valueError := by
  unfold ptp; simp [hMN]

end C08

/-! ## C09 -/

section C09
variable {M N : ℕ} [NeZero M] [NeZero N]

/-- C09. What the round trip really computes, for every size: with `h = M//2`, `h' = N//2` the output pixel `(i,j)` is the input
pixel `(i+2h, j+2h')` (cyclically) times the phase `exp(2πi·2h(i+h)/M)·exp(2πi·2h'(j+h')/N)`. -/
theorem C09_round_trip_formula (E : ZMod M → ZMod N → ℂ) (i : ZMod M) (j : ZMod N) :
    ifft2d (fft2d E) i j =
      exp (2 * Real.pi * I * (((2 * (M / 2) : ℕ) : ZMod M).val * (i + ((M / 2 : ℕ) : ZMod M)).val) / M) *
      exp (2 * Real.pi * I * (((2 * (N / 2) : ℕ) : ZMod N).val * (j + ((N / 2 : ℕ) : ZMod N)).val) / N) *
      E (i + ((2 * (M / 2) : ℕ) : ZMod M)) (j + ((2 * (N / 2) : ℕ) : ZMod N)) := by
  have hs : (Real.sqrt (M * N) : ℂ) ≠ 0 := by
    have : (0:ℝ) < M * N := by
      have h1 : 0 < M := Nat.pos_of_ne_zero (NeZero.ne M)
      have h2 : 0 < N := Nat.pos_of_ne_zero (NeZero.ne N)
      positivity
    exact_mod_cast (Real.sqrt_pos.2 this).ne'
  rw [exp_eq_char, exp_eq_char]
  have e1 : fftshift (fft2d E) = fun k l => (Real.sqrt (M * N) : ℂ)⁻¹ *
      fft2 (ifftshift E) (k - ((2 * (M / 2) : ℕ) : ZMod M)) (l - ((2 * (N / 2) : ℕ) : ZMod N)) := by
    funext k l
    unfold fft2d fftshift roll2
    simp only [Int.cast_natCast, Nat.cast_mul, Nat.cast_ofNat]
    congr 2 <;> ring
  have e2 : (fun k l => (Real.sqrt (M * N) : ℂ) * ifft2 (fftshift (fft2d E)) k l) = fun (m : ZMod M) (n : ZMod N) =>
      ZMod.stdAddChar (((2 * (M / 2) : ℕ) : ZMod M) * m) * ZMod.stdAddChar (((2 * (N / 2) : ℕ) : ZMod N) * n) *
        ifftshift E m n := by
    funext m n
    rw [e1, ifft2_smul]
    beta_reduce
    rw [ifft2_shift (fft2 (ifftshift E)), ifft2_fft2]
    field_simp
  unfold ifft2d
  rw [e2]
  unfold ifftshift roll2
  simp only [Int.cast_natCast, Int.cast_neg, Nat.cast_mul, Nat.cast_ofNat]
  have a1 : ∀ (K : ℕ) (t : ZMod K), t - -((K / 2 : ℕ) : ZMod K) = t + ((K / 2 : ℕ) : ZMod K) := fun K t => by ring
  have a2 : ∀ (K : ℕ) (t : ZMod K), t + ((K / 2 : ℕ) : ZMod K) + ((K / 2 : ℕ) : ZMod K) = t + 2 * ((K / 2 : ℕ) : ZMod K) :=
    fun K t => by ring
  simp only [a1, a2]

/-- C09. For even array sizes `ifft2d` inverts `fft2d` exactly. -/
theorem C09_inverse_even (hM : Even M) (hN : Even N) (E : ZMod M → ZMod N → ℂ) : ifft2d (fft2d E) = E := by
  funext i j
  rw [C09_round_trip_formula]
  have e1 : ((2 * (M / 2) : ℕ) : ZMod M) = 0 := by rw [Nat.two_mul_div_two_of_even hM]; simp
  have e2 : ((2 * (N / 2) : ℕ) : ZMod N) = 0 := by rw [Nat.two_mul_div_two_of_even hN]; simp
  rw [e1, e2]; simp

/-- C09. And `fft2d` inverts `ifft2d` for even sizes. -/
theorem C09_inverse_even' (hM : Even M) (hN : Even N) (E : ZMod M → ZMod N → ℂ) : fft2d (ifft2d E) = E := by
  have hs : (Real.sqrt (M * N) : ℂ) ≠ 0 := by
    have : (0:ℝ) < M * N := by
      have h1 : 0 < M := Nat.pos_of_ne_zero (NeZero.ne M)
      have h2 : 0 < N := Nat.pos_of_ne_zero (NeZero.ne N)
      positivity
    exact_mod_cast (Real.sqrt_pos.2 this).ne'
  have e1 : ((M / 2 : ℕ) : ZMod M) + ((M / 2 : ℕ) : ZMod M) = 0 := by
    rw [← Nat.cast_add, ← two_mul, Nat.two_mul_div_two_of_even hM]; simp
  have e2 : ((N / 2 : ℕ) : ZMod N) + ((N / 2 : ℕ) : ZMod N) = 0 := by
    rw [← Nat.cast_add, ← two_mul, Nat.two_mul_div_two_of_even hN]; simp
  have hsame : ∀ F : ZMod M → ZMod N → ℂ, ifftshift F = fftshift F := by
    intro F
    funext i j; unfold ifftshift fftshift roll2
    simp only [Int.cast_natCast, Int.cast_neg]
    congr 1
    · linear_combination e1
    · linear_combination e2
  unfold fft2d
  rw [hsame (ifft2d E)]
  have h3 : fftshift (ifft2d E) = fun k l => (Real.sqrt (M * N) : ℂ) * ifft2 (fftshift E) k l := by
    unfold ifft2d; rw [fftshift_ifftshift]
  rw [h3, fft2_smul, fft2_ifft2]
  have h4 : (fun k l => (Real.sqrt (M * N) : ℂ)⁻¹ * ((Real.sqrt (M * N) : ℂ) * fftshift E k l)) = fftshift E := by
    funext k l; field_simp
  rw [h4, ← hsame, ifftshift_fftshift]

/-- C09. The exact set of sizes for which `ifft2d` inverts `fft2d` on all fields: each side even or of length one. -/
theorem C09_inverse_iff : (∀ E : ZMod M → ZMod N → ℂ, ifft2d (fft2d E) = E) ↔ (Even M ∨ M = 1) ∧ (Even N ∨ N = 1) := by
  have hz : ∀ (K : ℕ) [NeZero K], (((2 * (K / 2) : ℕ) : ZMod K) = 0) ↔ (Even K ∨ K = 1) := by
    intro K _
    have hK := NeZero.pos K
    rw [ZMod.natCast_eq_zero_iff]
    constructor
    · intro hd
      rcases Nat.even_or_odd K with h | h
      · exact .inl h
      · right
        by_contra h1
        obtain ⟨k, rfl⟩ := h
        have := Nat.le_of_dvd (by omega) hd
        omega
    · rintro (h | rfl)
      · rw [Nat.two_mul_div_two_of_even h]
      · simp
  constructor
  · intro H
    by_contra hcon
    have h0 := congrFun (congrFun (H fun i j => if i = 0 ∧ j = 0 then 1 else 0) 0) 0
    rw [C09_round_trip_formula] at h0
    simp only [zero_add] at h0
    rw [if_neg (by rw [hz, hz]; exact hcon)] at h0
    simp at h0
  · rintro ⟨h1, h2⟩ E
    funext i j
    rw [C09_round_trip_formula, (hz M).2 h1, (hz N).2 h2]; simp

/-- C09. Both transforms preserve the summed intensity, for every array size (odd ones included). -/
theorem C09_energy (E : ZMod M → ZMod N → ℂ) :
    ∑ i, ∑ j, normSq (fft2d E i j) = ∑ i, ∑ j, normSq (E i j) ∧
    ∑ i, ∑ j, normSq (ifft2d E i j) = ∑ i, ∑ j, normSq (E i j) := by
  have hpos : (0:ℝ) < M * N := by
    have h1 : 0 < M := Nat.pos_of_ne_zero (NeZero.ne M)
    have h2 : 0 < N := Nat.pos_of_ne_zero (NeZero.ne N)
    positivity
  have hsq : normSq (Real.sqrt (M * N) : ℂ) = M * N := by
    rw [normSq_ofReal, Real.mul_self_sqrt hpos.le]
  constructor
  · have h1 : ∑ i, ∑ j, normSq (fft2d E i j)
        = ∑ i, ∑ j, normSq ((Real.sqrt (M * N) : ℂ)⁻¹ * fft2 (ifftshift E) i j) :=
      sum_roll2 (fun i j => normSq ((Real.sqrt (M * N) : ℂ)⁻¹ * fft2 (ifftshift E) i j)) _ _
    have h2 : ∑ i, ∑ j, normSq (ifftshift E i j) = ∑ i, ∑ j, normSq (E i j) := sum_roll2 (fun i j => normSq (E i j)) _ _
    rw [h1]
    simp only [map_mul, map_inv₀, hsq, ← Finset.mul_sum]
    rw [parseval2, h2, inv_mul_cancel_left₀ hpos.ne']
  · have h1 : ∑ i, ∑ j, normSq (ifft2d E i j)
        = ∑ i, ∑ j, normSq ((Real.sqrt (M * N) : ℂ) * ifft2 (fftshift E) i j) :=
      sum_roll2 (fun i j => normSq ((Real.sqrt (M * N) : ℂ) * ifft2 (fftshift E) i j)) _ _
    have h2 : ∑ i, ∑ j, normSq (fftshift E i j) = ∑ i, ∑ j, normSq (E i j) := sum_roll2 (fun i j => normSq (E i j)) _ _
    rw [h1]
    simp only [map_mul, hsq, ← Finset.mul_sum]
    rw [← parseval2, fft2_ifft2, h2]

end C09

/-! ## C10 -/

/-- The index holding the coordinate opposite to that of index `a`: about the centre pixel (cyclically) for pixel centering,
mirrored for interpixel centering. -/
def opposite {N : ℕ} (c : Util.Centering) (a : Fin N) : Fin N :=
  ⟨match c with
    | .pixel => (2 * (N / 2) + N - a) % N
    | .interpixel => N - 1 - a, by
      have := a.isLt
      cases c
      · exact Nat.mod_lt _ (by omega)
      · simp only; omega⟩

/-- one axis of the round trip -/
theorem mft_axis_sum {N : ℕ} (c : Util.Centering) (dx dxi wf : ℝ) (hwf : wf ≠ 0) (hcrit : N * dx * dxi = wf) (a a' : Fin N) :
    ∑ k : Fin N, exp (-2 * Real.pi * I / wf * (ax N dx c a * ax N dxi c k)) * exp (-2 * Real.pi * I / wf * (ax N dxi c k * ax N dx c a'))
      = if a' = opposite c a then (N : ℂ) else 0 := by
  have hN : 0 < N := by have := a.isLt; omega
  set u : ℝ := if N % 2 = 0 ∧ c = .interpixel then 0.5 else 0 with hu
  -- integer with a + a' - 2h + 2u = m
  obtain ⟨m, hm⟩ : ∃ m : ℤ, (m : ℝ) = ((a.val : ℝ) - ((N / 2 : ℕ) : ℝ) + u) + ((a'.val : ℝ) - ((N / 2 : ℕ) : ℝ) + u) := by
    by_cases h : N % 2 = 0 ∧ c = .interpixel
    · exact ⟨(a.val : ℤ) + a'.val - 2 * (N / 2 : ℕ) + 1, by rw [hu, if_pos h]; simp only [Int.cast_add, Int.cast_sub, Int.cast_mul, Int.cast_natCast, Int.cast_ofNat, Int.cast_one]; ring⟩
    · exact ⟨(a.val : ℤ) + a'.val - 2 * (N / 2 : ℕ), by rw [hu, if_neg h]; simp only [Int.cast_add, Int.cast_sub, Int.cast_mul, Int.cast_natCast, Int.cast_ofNat, Int.cast_one]; ring⟩
  have hNC : (N : ℂ) ≠ 0 := by exact_mod_cast hN.ne'
  have hwfC : (wf : ℂ) ≠ 0 := by exact_mod_cast hwf
  have hcritC : (N : ℂ) * dx * dxi = wf := by exact_mod_cast hcrit
  have hterm : ∀ k : Fin N, exp (-2 * Real.pi * I / wf * (ax N dx c a * ax N dxi c k)) *
      exp (-2 * Real.pi * I / wf * (ax N dxi c k * ax N dx c a'))
      = exp (-(2 * Real.pi * I * (((k.val : ℝ) + (u - ((N / 2 : ℕ) : ℝ)) : ℝ) * m) / N)) := by
    intro k
    rw [← exp_add, ax_eq, ax_eq, ax_eq, ← hu]
    congr 1
    have hm' : (m : ℂ) = ((a.val : ℂ) - ((N / 2 : ℕ) : ℂ) + u) + ((a'.val : ℂ) - ((N / 2 : ℕ) : ℂ) + u) := by
      exact_mod_cast congrArg (fun t : ℝ => (t : ℂ)) hm
    rw [hm']
    push_cast
    have hdx : (dx : ℂ) * dxi / wf = 1 / N := by
      rw [div_eq_div_iff hwfC hNC]; linear_combination hcritC
    linear_combination (-2 * Real.pi * I * ((k.val : ℂ) + (u - ((N / 2 : ℕ) : ℂ))) *
      (((a.val : ℂ) - ((N / 2 : ℕ) : ℂ) + u) + ((a'.val : ℂ) - ((N / 2 : ℕ) : ℂ) + u))) * hdx
  simp only [hterm]
  rw [sum_roots hN]
  have ha := a.isLt
  have ha' := a'.isLt
  have hiff : ((N : ℤ) ∣ m) ↔ a' = opposite c a := by
    by_cases h : N % 2 = 0 ∧ c = .interpixel
    · have hmi : m = (a.val : ℤ) + a'.val - 2 * (N / 2 : ℕ) + 1 := by
        have : (m : ℝ) = (((a.val : ℤ) + a'.val - 2 * (N / 2 : ℕ) + 1 : ℤ) : ℝ) := by
          rw [hm, hu, if_pos h]; simp only [Int.cast_add, Int.cast_sub, Int.cast_mul, Int.cast_natCast, Int.cast_ofNat, Int.cast_one]; ring
        exact_mod_cast this
      rw [hmi, h.2, Fin.ext_iff]
      simp only [opposite]
      constructor
      · rintro ⟨q, hq⟩
        have : q = 0 := by
          have h1 : (N:ℤ) * q < N := by omega
          have h2 : -(N:ℤ) < N * q := by omega
          have h3 : q < 1 := by nlinarith
          have h4 : -1 < q := by nlinarith
          omega
        subst this; omega
      · intro h'; refine ⟨0, ?_⟩; omega
    · have hmi : m = (a.val : ℤ) + a'.val - 2 * (N / 2 : ℕ) := by
        have : (m : ℝ) = (((a.val : ℤ) + a'.val - 2 * (N / 2 : ℕ) : ℤ) : ℝ) := by
          rw [hm, hu, if_neg h]; simp only [Int.cast_add, Int.cast_sub, Int.cast_mul, Int.cast_natCast, Int.cast_ofNat, Int.cast_one]; ring
        exact_mod_cast this
      rw [hmi, Fin.ext_iff]
      by_cases hodd : N % 2 = 1
      · have hop : (opposite c a).val = N - 1 - a := by
          cases c
          · simp only [opposite]
            have e : 2 * (N / 2) + N - a.val = (N - 1 - a.val) + N := by omega
            rw [e, Nat.add_mod_right, Nat.mod_eq_of_lt (by omega)]
          · rfl
        rw [hop]
        constructor
        · rintro ⟨q, hq⟩
          have : q = 0 := by
            have h1 : (N:ℤ) * q < N := by omega
            have h2 : -(N:ℤ) < N * q := by omega
            have h3 : q < 1 := by nlinarith
            have h4 : -1 < q := by nlinarith
            omega
          subst this; omega
        · intro h'; exact ⟨0, by omega⟩
      · have hc : c = .pixel := by
          cases c
          · rfl
          · exact absurd ⟨by omega, rfl⟩ h
        subst hc
        simp only [opposite]
        by_cases ha0 : a.val = 0
        · have e : (2 * (N / 2) + N - a.val) % N = 0 := by
            have : 2 * (N / 2) + N - a.val = 2 * N := by omega
            rw [this, Nat.mul_mod_left]
          rw [e]
          constructor
          · rintro ⟨q, hq⟩
            have h1 : (N:ℤ) * q < 0 := by omega
            have h2 : -(2 * (N:ℤ)) < N * q := by omega
            have h3 : q < 0 := by nlinarith
            have h4 : -2 < q := by nlinarith
            have : q = -1 := by omega
            subst this; omega
          · intro h'; exact ⟨-1, by omega⟩
        · have e : (2 * (N / 2) + N - a.val) % N = N - a.val := by
            have : 2 * (N / 2) + N - a.val = (N - a.val) + N := by omega
            rw [this, Nat.add_mod_right, Nat.mod_eq_of_lt (by omega)]
          rw [e]
          constructor
          · rintro ⟨q, hq⟩
            have h1 : (N:ℤ) * q < N := by omega
            have h2 : -(N:ℤ) < N * q := by omega
            have h3 : q < 1 := by nlinarith
            have h4 : -1 < q := by nlinarith
            have : q = 0 := by omega
            subst this; omega
          · intro h'; exact ⟨0, by omega⟩
  by_cases hdiv : (N : ℤ) ∣ m
  · rw [if_pos hdiv, if_pos (hiff.1 hdiv)]
    -- the phase is 1
    have hphase : exp (-(2 * Real.pi * I * (((u - ((N / 2 : ℕ) : ℝ) : ℝ) : ℂ) * m) / N)) = 1 := by
      obtain ⟨q, hq⟩ := hdiv
      by_cases h : N % 2 = 0 ∧ c = .interpixel
      · -- then m = 0
        have hmi : m = (a.val : ℤ) + a'.val - 2 * (N / 2 : ℕ) + 1 := by
          have : (m : ℝ) = (((a.val : ℤ) + a'.val - 2 * (N / 2 : ℕ) + 1 : ℤ) : ℝ) := by
            rw [hm, hu, if_pos h]; simp only [Int.cast_add, Int.cast_sub, Int.cast_mul, Int.cast_natCast, Int.cast_ofNat, Int.cast_one]; ring
          exact_mod_cast this
        have : q = 0 := by
          have h1 : (N:ℤ) * q < N := by omega
          have h2 : -(N:ℤ) < N * q := by omega
          have h3 : q < 1 := by nlinarith
          have h4 : -1 < q := by nlinarith
          omega
        subst this
        rw [hq]; simp
      · rw [hu, if_neg h, exp_eq_one_iff]
        refine ⟨(N / 2 : ℕ) * q, ?_⟩
        rw [hq]; simp only [Int.cast_mul, Int.cast_natCast]; push_cast; field_simp; ring
    rw [hphase, mul_one]
  · rw [if_neg hdiv, if_neg (fun e => hdiv (hiff.2 e))]

/-- C10. Pupil → focus → pupil with the matrix Fourier transforms at critical sampling (`N·dx·dxi = λ·f`, equal vertical and
horizontal focal steps, both planes `N × N`) returns the input field at the opposite coordinates, for every size (even or odd)
and centering. -/
theorem C10_round_trip {N : ℕ} (E : Fin N → Fin N → ℂ) (fl wvl dx dxi : ℝ) (c : Util.Centering)
    (hdx : 0 < dx) (hdxi : 0 < dxi) (hcrit : N * dx * dxi = wvl * fl) (a b : Fin N) :
    mftF2p (mftP2f E fl wvl dx dxi N dxi N c) fl wvl dxi dxi dx N c a b = E (opposite c a) (opposite c b) := by
  have hN : 0 < N := by have := a.isLt; omega
  have hwf : wvl * fl ≠ 0 := by
    rw [← hcrit]; positivity
  unfold mftF2p mftP2f
  have hsq : Real.sqrt (dx * dx * dxi * dxi) = dx * dxi := by
    rw [show dx * dx * dxi * dxi = (dx * dxi) * (dx * dxi) by ring, Real.sqrt_mul_self (by positivity)]
  have hcast : ((wvl : ℂ) * fl) = ((wvl * fl : ℝ) : ℂ) := by push_cast; rfl
  rw [hsq, hcast, one_mul, hcast]
  set cf : ℂ := -2 * Real.pi * I / ((wvl * fl : ℝ) : ℂ) with hcf
  set s : ℂ := ((dx * dxi : ℝ) : ℂ) / ((wvl * fl : ℝ) : ℂ) with hs
  have hsN : s * N = 1 := by
    rw [hs, div_mul_eq_mul_div, div_eq_one_iff_eq (by exact_mod_cast hwf)]
    rw [← hcrit]; push_cast; ring
  -- pull sums apart
  have key : ∑ x : Fin N, (∑ e : Fin N, exp (cf * (ax N dx c a * ax N dxi c e)) *
        (s * ∑ b', (∑ a', exp (cf * (ax N dxi c e * ax N dx c a')) * E a' b') * exp (cf * (ax N dx c b' * ax N dxi c x)))) *
        exp (cf * (ax N dxi c x * ax N dx c b))
      = s * ∑ a', ∑ b', E a' b' *
        (∑ e : Fin N, exp (cf * (ax N dx c a * ax N dxi c e)) * exp (cf * (ax N dxi c e * ax N dx c a'))) *
        (∑ x : Fin N, exp (cf * (ax N dx c b * ax N dxi c x)) * exp (cf * (ax N dxi c x * ax N dx c b'))) := by
    simp only [Finset.mul_sum, Finset.sum_mul]
    calc _ = ∑ x : Fin N, ∑ e : Fin N, ∑ b' : Fin N, ∑ a' : Fin N, s * (E a' b' *
          (exp (cf * (ax N dx c a * ax N dxi c e)) * exp (cf * (ax N dxi c e * ax N dx c a'))) *
          (exp (cf * (ax N dx c b * ax N dxi c x)) * exp (cf * (ax N dxi c x * ax N dx c b')))) := by
          refine Finset.sum_congr rfl fun x _ => Finset.sum_congr rfl fun e _ => Finset.sum_congr rfl fun b' _ =>
            Finset.sum_congr rfl fun a' _ => ?_
          rw [mul_comm ((ax N dxi c x : ℝ) : ℂ) (ax N dx c b : ℂ), mul_comm ((ax N dx c b' : ℝ) : ℂ) (ax N dxi c x : ℂ)]
          ring
      _ = ∑ e : Fin N, ∑ x : Fin N, ∑ b' : Fin N, ∑ a' : Fin N, _ := Finset.sum_comm
      _ = _ := by
          rw [Finset.sum_congr rfl fun e _ => Finset.sum_congr rfl fun x _ => Finset.sum_comm]
          rw [Finset.sum_congr rfl fun e _ => Finset.sum_comm]
          rw [Finset.sum_comm]
          refine Finset.sum_congr rfl fun a' _ => ?_
          rw [Finset.sum_congr rfl fun e _ => Finset.sum_comm]
          rw [Finset.sum_comm]
          refine Finset.sum_congr rfl fun b' _ => ?_
          rw [Finset.sum_comm]
  rw [key]
  have hA := fun a' => mft_axis_sum c dx dxi (wvl * fl) hwf hcrit a a'
  have hB := fun b' => mft_axis_sum c dx dxi (wvl * fl) hwf hcrit b b'
  simp only [← hcf] at hA hB
  simp only [hA, hB]
  rw [Finset.sum_eq_single (opposite c a), Finset.sum_eq_single (opposite c b)]
  · rw [if_pos rfl, if_pos rfl]
    linear_combination (E (opposite c a) (opposite c b)) * (s * N + 1) * hsN
  · intro b' _ hb'; rw [if_neg hb']; ring
  · simp
  · intro a' _ ha'; rw [if_neg ha']; simp
  · simp

/-- C10. Both transforms are linear in the field. -/
theorem C10_linear {N Neta Nxi : ℕ} (E F : Fin N → Fin N → ℂ) (G H : Fin Neta → Fin Nxi → ℂ) (k : ℂ)
    (fl wvl dx dxi deta : ℝ) (c : Util.Centering) :
    (mftP2f (fun i j => k * E i j + F i j) fl wvl dx dxi Nxi deta Neta c
      = fun e x => k * mftP2f E fl wvl dx dxi Nxi deta Neta c e x + mftP2f F fl wvl dx dxi Nxi deta Neta c e x) ∧
    (mftF2p (fun i j => k * G i j + H i j) fl wvl dxi deta dx N c
      = fun a b => k * mftF2p G fl wvl dxi deta dx N c a b + mftF2p H fl wvl dxi deta dx N c a b) := by
  constructor
  · funext e x
    unfold mftP2f
    simp only [Finset.mul_sum, Finset.sum_mul, ← Finset.sum_add_distrib]
    exact Finset.sum_congr rfl fun i _ => Finset.sum_congr rfl fun j _ => by ring
  · funext e x
    unfold mftF2p
    simp only [Finset.mul_sum, Finset.sum_mul, ← Finset.sum_add_distrib]
    exact Finset.sum_congr rfl fun i _ => Finset.sum_congr rfl fun j _ => by ring

/-- C10 (defect). `mft_f2p` ignores the vertical focal step except for an overall factor: fields sampled with different `deta`
are all transformed as if `deta = dxi`. -/
theorem C10_vertical_step {N Neta Nxi : ℕ} (E : Fin Neta → Fin Nxi → ℂ) (fl wvl dxi deta dx : ℝ) (c : Util.Centering)
    (hdx : 0 < dx) (hdxi : 0 < dxi) (hd : 0 < deta) (a b : Fin N) :
    mftF2p E fl wvl dxi deta dx N c a b = (Real.sqrt (deta / dxi) : ℂ) * mftF2p E fl wvl dxi dxi dx N c a b := by
  unfold mftF2p
  have : Real.sqrt (dx * dx * dxi * deta) = Real.sqrt (deta / dxi) * Real.sqrt (dx * dx * dxi * dxi) := by
    rw [← Real.sqrt_mul (by positivity)]
    congr 1; field_simp
  rw [this]; push_cast; ring

example : ((4:ℕ) : ℝ) * 0.5 * 2 = 1 * 4 ∧ opposite (N := 4) .pixel 1 = 3 ∧ opposite (N := 4) .pixel 0 = 0 ∧
    opposite (N := 4) .interpixel 1 = 2 := by
  refine ⟨by norm_num, by decide, by decide, by decide⟩

/-! ## C62 -/

/-- Hermitian inner product of two arrays. -/
noncomputable def inner2 {A : ℕ} (P Q : Matrix (Fin A) (Fin A) ℂ) : ℂ := ∑ i, ∑ j, starRingEnd ℂ (P i j) * Q i j

open Matrix in
theorem inner2_eq_trace {A : ℕ} (P Q : Matrix (Fin A) (Fin A) ℂ) : inner2 P Q = trace (Pᴴ * Q) := by
  unfold inner2 Matrix.trace
  simp only [Matrix.diag, Matrix.mul_apply, Matrix.conjTranspose_apply]
  rw [Finset.sum_comm]
  rfl

/-- elementwise product with a mask and a real weight -/
def maskMul {B : ℕ} (FPM : Fin B → Fin B → ℂ) (w : Fin B → Fin B → ℝ) (X : Matrix (Fin B) (Fin B) ℂ) : Matrix (Fin B) (Fin B) ℂ :=
  fun p q => X p q * FPM p q * (w p q : ℂ)

open Matrix in
theorem vortexBranch_adjoint {A B : ℕ} (s : ℝ) (x : Fin A → ℝ) (u : Fin B → ℝ) (FPM : Fin B → Fin B → ℂ)
    (w : Fin B → Fin B → ℝ) (P Q : Matrix (Fin A) (Fin A) ℂ) :
    inner2 Q (vortexBranch false s x u FPM w P) = inner2 (vortexBranch true s x u FPM w Q) P := by
  unfold vortexBranch
  simp only [Bool.false_eq_true, if_true, if_false]
  set F : Matrix (Fin A) (Fin B) ℂ := fun a b => exp (-I * 1 * 2 * Real.pi * (x a * u b)) with hF
  set G : Matrix (Fin B) (Fin A) ℂ := fun b a => exp (-I * 1 * 2 * Real.pi * (u b * x a)) with hG
  have hF' : (fun a b => exp (-I * -1 * 2 * Real.pi * (x a * u b)) : Matrix (Fin A) (Fin B) ℂ) = Gᴴ := by
    funext a b
    rw [Matrix.conjTranspose_apply, hG]
    simp only
    rw [Complex.star_def, ← exp_conj]
    congr 1
    simp only [map_mul, map_neg, conj_I, conj_ofReal, map_ofNat, map_one]
    ring
  have hG' : (fun b a => exp (-I * -1 * 2 * Real.pi * (u b * x a)) : Matrix (Fin B) (Fin A) ℂ) = Fᴴ := by
    funext a b
    rw [Matrix.conjTranspose_apply, hF]
    simp only
    rw [Complex.star_def, ← exp_conj]
    congr 1
    simp only [map_mul, map_neg, conj_I, conj_ofReal, map_ofNat, map_one]
    ring
  rw [hF', hG']
  -- elementwise mask
  have hmask : ∀ (X Y : Matrix (Fin B) (Fin B) ℂ),
      inner2 X (maskMul FPM w Y) = inner2 (maskMul (fun p q => starRingEnd ℂ (FPM p q)) w X) Y := by
    intro X Y
    unfold inner2 maskMul
    refine Finset.sum_congr rfl fun p _ => Finset.sum_congr rfl fun q _ => ?_
    simp only [map_mul, conj_conj, conj_ofReal]
    ring
  -- move matrices across the inner product
  have move : ∀ {m n : ℕ} (L : Matrix (Fin m) (Fin n) ℂ) (R : Matrix (Fin n) (Fin m) ℂ) (X : Matrix (Fin m) (Fin m) ℂ)
      (Y : Matrix (Fin n) (Fin n) ℂ), inner2 X (L * Y * R) = inner2 (Lᴴ * X * Rᴴ) Y := by
    intro m n L R X Y
    rw [inner2_eq_trace, inner2_eq_trace, Matrix.conjTranspose_mul, Matrix.conjTranspose_mul,
      Matrix.conjTranspose_conjTranspose, Matrix.conjTranspose_conjTranspose]
    rw [← Matrix.mul_assoc, Matrix.trace_mul_comm, ← Matrix.mul_assoc, ← Matrix.mul_assoc, Matrix.mul_assoc R]
  have smulR : ∀ {m : ℕ} (X Y : Matrix (Fin m) (Fin m) ℂ), inner2 X ((s : ℂ) • Y) = s * inner2 X Y := by
    intro m X Y
    unfold inner2
    simp only [Matrix.smul_apply, smul_eq_mul, Finset.mul_sum]
    exact Finset.sum_congr rfl fun p _ => Finset.sum_congr rfl fun q _ => by ring
  have smulL : ∀ {m : ℕ} (X Y : Matrix (Fin m) (Fin m) ℂ), inner2 ((s : ℂ) • X) Y = s * inner2 X Y := by
    intro m X Y
    unfold inner2
    simp only [Matrix.smul_apply, smul_eq_mul, Finset.mul_sum, map_mul, conj_ofReal]
    exact Finset.sum_congr rfl fun p _ => Finset.sum_congr rfl fun q _ => by ring
  rw [smulR, smulL]
  congr 1
  change inner2 Q (F * maskMul FPM w ((s : ℂ) • (G * P * F)) * G)
    = inner2 (Gᴴ * maskMul (fun p q => starRingEnd ℂ (FPM p q)) w ((s : ℂ) • (Fᴴ * Q * Gᴴ)) * Fᴴ) P
  rw [move, hmask, smulR, move]
  have hms : maskMul (fun p q => starRingEnd ℂ (FPM p q)) w ((s : ℂ) • (Fᴴ * Q * Gᴴ))
      = (s : ℂ) • maskMul (fun p q => starRingEnd ℂ (FPM p q)) w (Fᴴ * Q * Gᴴ) := by
    funext p q
    simp only [maskMul, Matrix.smul_apply, smul_eq_mul]
    ring
  rw [hms, Matrix.mul_smul, Matrix.smul_mul, smulL]

/-- Reverse-gradient propagation with arbitrary coordinates is the adjoint of the forward propagation:
`⟨Q, forward P⟩ = ⟨reverse Q, P⟩` for all fields, masks, windows, coordinates and scale factors. -/
theorem mftP2v2p_adjoint {A B : ℕ} (s1 s2 : ℝ) (x : Fin A → ℝ) (u1 u2 : Fin B → ℝ) (FPM : Fin B → Fin B → ℂ)
    (w1 w2 : Fin B → Fin B → ℝ) (P Q : Matrix (Fin A) (Fin A) ℂ) :
    inner2 Q (mftP2v2p false s1 s2 x u1 u2 FPM w1 w2 P) = inner2 (mftP2v2p true s1 s2 x u1 u2 FPM w1 w2 Q) P := by
  unfold mftP2v2p
  have addR : ∀ (X Y Z : Matrix (Fin A) (Fin A) ℂ), inner2 X (Y + Z) = inner2 X Y + inner2 X Z := by
    intro X Y Z; unfold inner2; simp only [Matrix.add_apply, mul_add, Finset.sum_add_distrib]
  have addL : ∀ (X Y Z : Matrix (Fin A) (Fin A) ℂ), inner2 (X + Y) Z = inner2 X Z + inner2 Y Z := by
    intro X Y Z; unfold inner2; simp only [Matrix.add_apply, map_add, add_mul, Finset.sum_add_distrib]
  rw [addR, addL, vortexBranch_adjoint, vortexBranch_adjoint]

/-- C62. The reverse-gradient propagation through a vortex focal-plane mask is the adjoint of the forward propagation:
`⟨Q, forward P⟩ = ⟨reverse Q, P⟩` for all fields, beam diameters, focal samplings, window sizes, masks and array sizes. -/
theorem C62_reverse_is_adjoint {A : ℕ} (D lambdaOverD outVal : ℝ) (NB : ℕ) (vortexMask : (n : ℕ) → Fin n → Fin n → ℂ)
    (tukey : ℝ → Fin NB → Fin NB → ℝ) (P Q : Matrix (Fin A) (Fin A) ℂ) :
    inner2 Q (mftP2v2pOf false D lambdaOverD outVal NB vortexMask tukey P)
      = inner2 (mftP2v2pOf true D lambdaOverD outVal NB vortexMask tukey Q) P :=
  mftP2v2p_adjoint _ _ _ _ _ _ _ _ P Q

/-- the inner product used in C62 is positive: `⟨P, P⟩ = Σ |P|²` -/
theorem C62_inner_is_norm {A : ℕ} (P : Matrix (Fin A) (Fin A) ℂ) : inner2 P P = ((∑ i, ∑ j, normSq (P i j) : ℝ) : ℂ) := by
  unfold inner2
  push_cast
  exact Finset.sum_congr rfl fun i _ => Finset.sum_congr rfl fun j _ => (normSq_eq _).symm

end Verif.Optics
