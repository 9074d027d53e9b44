import Verif.Model.SimpleMap
import Verif.Props.PsdMap2

/-! # C145: simple error maps and smoothing of vectors -/

namespace Verif.SimpleMap
open Verif Complex Verif.Optics Verif.PsdMap

variable {n : ℕ} [NeZero n]

/-! ## Transforms -/

theorem fft2_comp_neg (S : ZMod n → ZMod n → ℂ) (k l : ZMod n) : fft2 (fun a b => S (-a) (-b)) k l = fft2 S (-k) (-l) := by
  have h1 (x : ZMod n → ℂ) (k : ZMod n) : fft1 (fun a => x (-a)) k = fft1 x (-k) := by
    rw [fft1_eq, fft1_eq, ZMod.dft_comp_neg]
  unfold fft2
  rw [← h1]
  congr 1
  funext a
  exact h1 _ _

theorem fft2_conj (Z : ZMod n → ZMod n → ℂ) (k l : ZMod n) : fft2 (fun a b => starRingEnd ℂ (Z a b)) k l = starRingEnd ℂ (fft2 Z (-k) (-l)) := by
  rw [conj_fft2, fft2_comp_neg (fun a b => starRingEnd ℂ (Z a b)), neg_neg, neg_neg]

/-- The transform of a real array is conjugate at opposite frequencies. -/
theorem dft_neg (m : ZMod n → ZMod n → ℝ) (k l : ZMod n) : starRingEnd ℂ (dft m (-k) (-l)) = dft m k l := by
  unfold dft
  rw [← fft2_conj]
  simp only [conj_ofReal]

theorem dft_re_ifft2 (F : ZMod n → ZMod n → ℂ) (k l : ZMod n) : dft (fun i j => (ifft2 F i j).re) k l = (F k l + starRingEnd ℂ (F (-k) (-l))) / 2 := by
  have e : (fun i j => (((ifft2 F i j).re : ℝ) : ℂ)) = fun i j => (1 / 2 : ℂ) * (ifft2 F i j + starRingEnd ℂ (ifft2 F i j)) := by
    funext i j
    rw [Complex.add_conj]; push_cast; ring
  unfold dft
  rw [e, fft2_smul]
  dsimp only
  rw [fft2_add]
  dsimp only
  rw [fft2_conj, fft2_ifft2]
  ring

theorem raw_spectrum (alpha : ℝ) (u : ZMod n → ZMod n → ℝ) (k l : ZMod n) :
    dft (ifftshift (rawMap alpha u)) k l = dft u k l * (((envelope alpha k l + envelope alpha (-k) (-l)) / 2 : ℝ) : ℂ) := by
  have e : ifftshift (rawMap alpha u) = fun i j => (ifft2 (fun k l => fft2 (fun a b => ((u a b : ℝ) : ℂ)) k l * (envelope alpha k l : ℂ)) i j).re := by
    have := ifftshift_fftshift (fun i j => (ifft2 (fun k l => fft2 (fun a b => ((u a b : ℝ) : ℂ)) k l * (envelope alpha k l : ℂ)) i j).re)
    exact this
  rw [e, dft_re_ifft2, map_mul, conj_ofReal]
  have := dft_neg u k l
  unfold dft at this ⊢
  rw [this]
  push_cast
  ring

/-! ## Mean, RMS and peak to valley -/

theorem sum_ifftshift (m : ZMod n → ZMod n → ℝ) (f : ℝ → ℝ) : ∑ i, ∑ j, f (ifftshift m i j) = ∑ i, ∑ j, f (m i j) := by
  unfold ifftshift roll2
  refine (Fintype.sum_equiv (Equiv.subRight ((-((n / 2 : ℕ) : ℤ) : ℤ) : ZMod n)) _ (fun j => ∑ i, f (m j (i - ((-((n / 2 : ℕ) : ℤ) : ℤ) : ZMod n)))) (fun j => rfl)).trans ?_
  refine Finset.sum_congr rfl fun j _ => ?_
  exact Fintype.sum_equiv (Equiv.subRight ((-((n / 2 : ℕ) : ℤ) : ℤ) : ZMod n)) _ (fun i => f (m j i)) (fun i => rfl)

theorem dft_zero (m : ZMod n → ZMod n → ℝ) : dft m 0 0 = ((∑ i, ∑ j, m i j : ℝ) : ℂ) := by
  unfold dft fft2 fft1
  simp

theorem raw_sum (alpha : ℝ) (u : ZMod n → ZMod n → ℝ) : ∑ i, ∑ j, rawMap alpha u i j = 0 := by
  rw [← sum_ifftshift (rawMap alpha u) fun x => x]
  have h := dft_zero (ifftshift (rawMap alpha u))
  rw [raw_spectrum] at h
  simp [envelope] at h
  exact_mod_cast h.symm

/-- **C145 (mean).** Every map has the mean zero. -/
theorem C145_mean (alpha figure : ℝ) (u : ZMod n → ZMod n → ℝ) : mean (genMap alpha figure u) = 0 := by
  unfold mean genMap
  simp only [← Finset.sum_mul, ← Finset.sum_div]
  rw [raw_sum]
  simp

/-- The map before its normalisation is not flat: not every pixel is zero. -/
def NotFlat (alpha : ℝ) (u : ZMod n → ZMod n → ℝ) : Prop := ∃ i j, rawMap alpha u i j ≠ 0

theorem raw_pos (alpha : ℝ) (u : ZMod n → ZMod n → ℝ) (h : NotFlat alpha u) : 0 < ∑ a, ∑ b, rawMap alpha u a b ^ 2 := by
  obtain ⟨i, j, hij⟩ := h
  have h1 : 0 < ∑ b, rawMap alpha u i b ^ 2 := Finset.sum_pos' (fun _ _ => sq_nonneg _) ⟨j, Finset.mem_univ _, by positivity⟩
  exact Finset.sum_pos' (fun _ _ => Finset.sum_nonneg fun _ _ => sq_nonneg _) ⟨i, Finset.mem_univ _, h1⟩

theorem gen_sq (alpha figure : ℝ) (u : ZMod n → ZMod n → ℝ) (h : NotFlat alpha u) : ∑ i, ∑ j, genMap alpha figure u i j ^ 2 = figure ^ 2 * (n : ℝ) ^ 2 := by
  have hp := raw_pos alpha u h
  have e : ∀ i j, genMap alpha figure u i j ^ 2 = rawMap alpha u i j ^ 2 * ((∑ a, ∑ b, rawMap alpha u a b ^ 2)⁻¹ * (figure ^ 2 * (n : ℝ) ^ 2)) := by
    intro i j
    unfold genMap
    rw [mul_pow, mul_pow, div_pow, Real.sq_sqrt hp.le]
    ring
  simp only [e, ← Finset.sum_mul]
  rw [← mul_assoc, mul_inv_cancel₀ hp.ne', one_mul]

/-- **C145 (RMS).** The RMS value of a map is the number given, whatever the random numbers. -/
theorem C145_rms (alpha figure : ℝ) (u : ZMod n → ZMod n → ℝ) (h : NotFlat alpha u) : std (genMap alpha figure u) = |figure| := by
  unfold std
  rw [C145_mean]
  simp only [sub_zero]
  rw [gen_sq alpha figure u h]
  have hn : (n : ℝ) ≠ 0 := by exact_mod_cast NeZero.ne n
  rw [show figure ^ 2 * (n : ℝ) ^ 2 / ((n : ℝ) * n) = figure ^ 2 by field_simp, Real.sqrt_sq_eq_abs]

/-- A map with all values in `[a, b]` and the mean zero: the sum of the squares is at most `-ab` times the number of pixels. -/
theorem popoviciu (m : ZMod n → ZMod n → ℝ) (a b : ℝ) (h : ∀ i j, a ≤ m i j ∧ m i j ≤ b) (h0 : ∑ i, ∑ j, m i j = 0) : ∑ i, ∑ j, m i j ^ 2 ≤ (b - a) ^ 2 / 4 * ((n : ℝ) * n) := by
  have h1 : ∑ i, ∑ j, (m i j ^ 2 - (a + b) * m i j + a * b) ≤ 0 := by
    refine Finset.sum_nonpos fun i _ => Finset.sum_nonpos fun j _ => ?_
    have := mul_nonneg (sub_nonneg.2 (h i j).1) (sub_nonneg.2 (h i j).2)
    nlinarith
  have h2 : ∑ i : ZMod n, ∑ j : ZMod n, (m i j ^ 2 - (a + b) * m i j + a * b) = ∑ i, ∑ j, m i j ^ 2 + a * b * ((n : ℝ) * n) := by
    simp only [Finset.sum_add_distrib, Finset.sum_sub_distrib, ← Finset.mul_sum, h0, Finset.sum_const, Finset.card_univ, ZMod.card, nsmul_eq_mul]
    ring
  have hn := nn_pos (n := n)
  have h3 : -(a * b) ≤ (b - a) ^ 2 / 4 := by nlinarith [sq_nonneg (a + b)]
  nlinarith

/-- **C145 (peak to valley, violated).** The documentation calls the number given the peak-to-valley variation.  Whenever all values of the map are in an interval, it is at least twice as long as
that number: the peak-to-valley value is never the number given (unless that is zero). -/
theorem C145_peak_to_valley_violated (alpha figure : ℝ) (u : ZMod n → ZMod n → ℝ) (h : NotFlat alpha u) (a b : ℝ) (hab : ∀ i j, a ≤ genMap alpha figure u i j ∧ genMap alpha figure u i j ≤ b) :
    2 * |figure| ≤ b - a := by
  have hle : 0 ≤ b - a := by have := hab 0 0; linarith [this.1.trans this.2]
  have h0 : ∑ i, ∑ j, genMap alpha figure u i j = 0 := by
    have := C145_mean alpha figure u
    unfold mean at this
    have hn := nn_pos (n := n)
    rcases div_eq_zero_iff.1 this with h | h
    · exact h
    · exact absurd h hn.ne'
  have h1 := popoviciu _ a b hab h0
  rw [gen_sq alpha figure u h] at h1
  have hn := nn_pos (n := n)
  have h2 : figure ^ 2 ≤ (b - a) ^ 2 / 4 := by
    rw [show figure ^ 2 * (n : ℝ) ^ 2 = figure ^ 2 * ((n : ℝ) * n) by ring] at h1
    exact le_of_mul_le_mul_right h1 hn
  have : (2 * |figure|) ^ 2 ≤ (b - a) ^ 2 := by rw [mul_pow, sq_abs]; linarith
  exact abs_le_of_sq_le_sq' this hle |>.2

/-! ## The spectrum -/

/-- The frequency of index `k` in cycles per array. -/
noncomputable def cycles (k : ZMod n) : ℝ := if k.val < (n + 1) / 2 then (k.val : ℝ) else (k.val : ℝ) - n

theorem coord_even (he : Even n) (k : ZMod n) : coord (k - (((n / 2 : ℕ) : ℤ) : ZMod n)) = cycles k := by
  obtain ⟨m, hm⟩ := he
  have h2 : n / 2 = m := by omega
  have := Proper.val_shift_even (n := n) (m := m) (by omega) k
  unfold coord cycles
  rw [← this, h2, Int.cast_natCast]
  have : (n : ℝ) = 2 * m := by rw [hm]; push_cast; ring
  rw [this]; ring

theorem cycles_neg (he : Even n) (k : ZMod n) : cycles (-k) ^ 2 = cycles k ^ 2 := by
  have h := freq_neg (n := n) he 1 k
  have hn : (n : ℝ) ≠ 0 := by exact_mod_cast NeZero.ne n
  unfold PsdMap.freq fftfreq at h
  rw [mul_one, div_pow, div_pow, div_left_inj' (pow_ne_zero 2 hn)] at h
  exact h

theorem envelope_even (he : Even n) (alpha : ℝ) (k l : ZMod n) :
    envelope alpha k l = if k = 0 ∧ l = 0 then 0 else 1 / (cycles k ^ 2 + cycles l ^ 2) ^ (alpha / 4) := by
  unfold envelope fftshift roll2
  dsimp only
  rw [coord_even he, coord_even he]

theorem dft_gen (alpha figure : ℝ) (u : ZMod n → ZMod n → ℝ) (k l : ZMod n) :
    dft (ifftshift (genMap alpha figure u)) k l = ((figure * n / Real.sqrt (∑ a, ∑ b, rawMap alpha u a b ^ 2) : ℝ) : ℂ) * dft (ifftshift (rawMap alpha u)) k l := by
  rw [← dft_scale]
  congr 1
  funext i j
  unfold ifftshift roll2 genMap
  ring

/-- **C145 (power law).** For even `n` the transform of the map (its middle taken as the origin) is that of the random numbers times `r^(-alpha/2)`, `r` the length of the frequency vector, times
one number for the whole map; at zero frequency it is zero. -/
theorem C145_power_law (he : Even n) (alpha figure : ℝ) (u : ZMod n → ZMod n → ℝ) :
    ∃ c : ℝ, (0 < figure → NotFlat alpha u → 0 < c) ∧ ∀ k l, dft (ifftshift (genMap alpha figure u)) k l =
      if k = 0 ∧ l = 0 then 0 else (c : ℂ) * dft u k l * ((Real.sqrt (cycles k ^ 2 + cycles l ^ 2) ^ (-(alpha / 2)) : ℝ) : ℂ) := by
  refine ⟨figure * n / Real.sqrt (∑ a, ∑ b, rawMap alpha u a b ^ 2), fun hf h => ?_, fun k l => ?_⟩
  · have := raw_pos alpha u h
    have hn : (0 : ℝ) < n := by exact_mod_cast NeZero.pos n
    positivity
  · rw [dft_gen, raw_spectrum, envelope_even he, envelope_even he, cycles_neg he, cycles_neg he]
    by_cases h0 : k = 0 ∧ l = 0
    · rw [if_pos h0, if_pos ((neg_pair k l).2 h0), if_pos h0]
      simp
    · rw [if_neg h0, if_neg (fun h => h0 ((neg_pair k l).1 h)), if_neg h0]
      have hr : 0 ≤ cycles k ^ 2 + cycles l ^ 2 := by positivity
      have : Real.sqrt (cycles k ^ 2 + cycles l ^ 2) ^ (-(alpha / 2)) = 1 / (cycles k ^ 2 + cycles l ^ 2) ^ (alpha / 4) := by
        rw [Real.sqrt_eq_rpow, ← Real.rpow_mul hr, show (1 / 2 : ℝ) * -(alpha / 2) = -(alpha / 4) by ring, Real.rpow_neg hr, one_div]
      rw [this]
      push_cast
      ring

omit [NeZero n] in
/-- For odd `n` the coordinates are half a sample off. -/
theorem coord_odd (ho : Odd n) (h5 : 5 ≤ n) : coord ((1 : ZMod n) - (((n / 2 : ℕ) : ℤ) : ZMod n)) = 3 / 2 ∧ coord ((-1 : ZMod n) - (((n / 2 : ℕ) : ℤ) : ZMod n)) = -(1 / 2) := by
  obtain ⟨m, hm⟩ := ho
  have h2 : n / 2 = m := by omega
  have hn : ((n : ℕ) : ZMod n) = 0 := ZMod.natCast_self n
  have e1 : (1 : ZMod n) - (((n / 2 : ℕ) : ℤ) : ZMod n) = ((m + 2 : ℕ) : ZMod n) := by
    rw [h2, Int.cast_natCast, sub_eq_iff_eq_add, ← Nat.cast_add, show m + 2 + m = n + 1 by omega, Nat.cast_add, hn]; simp
  have e2 : (-1 : ZMod n) - (((n / 2 : ℕ) : ℤ) : ZMod n) = ((m : ℕ) : ZMod n) := by
    rw [h2, Int.cast_natCast, sub_eq_iff_eq_add, ← Nat.cast_add, neg_eq_iff_add_eq_zero, ← Nat.cast_one (R := ZMod n), ← Nat.cast_add, show 1 + (m + m) = n by omega, hn]
  have hr : (n : ℝ) = 2 * m + 1 := by rw [hm]; push_cast; ring
  unfold coord
  rw [e1, e2, ZMod.val_natCast, ZMod.val_natCast, Nat.mod_eq_of_lt (by omega), Nat.mod_eq_of_lt (by omega), hr]
  constructor
  · push_cast; ring
  · ring

/-- **C145 (odd sizes, violated).** For odd `n` the spectrum does not depend on the length of the frequency vector alone: the factors at the frequencies `(1, 1)` and `(1, -1)` differ, for every
`alpha > 0` and all random numbers whose transform is not zero there. -/
theorem C145_odd_violated (ho : Odd n) (h5 : 5 ≤ n) (alpha figure : ℝ) (ha : 0 < alpha) (hf : figure ≠ 0) (u : ZMod n → ZMod n → ℝ) (h1 : dft u 1 1 ≠ 0) (h2 : dft u 1 (-1) ≠ 0) :
    dft (ifftshift (genMap alpha figure u)) 1 1 / dft u 1 1 ≠ dft (ifftshift (genMap alpha figure u)) 1 (-1) / dft u 1 (-1) := by
  obtain ⟨c1, c2⟩ := coord_odd (n := n) ho h5
  have hne : (1 : ZMod n) ≠ 0 := one_ne (by omega)
  have hne' : (-1 : ZMod n) ≠ 0 := by rw [Ne, neg_eq_zero]; exact hne
  have ev : ∀ k l : ZMod n, k ≠ 0 → envelope alpha k l = 1 / (coord (k - (((n / 2 : ℕ) : ℤ) : ZMod n)) ^ 2 + coord (l - (((n / 2 : ℕ) : ℤ) : ZMod n)) ^ 2) ^ (alpha / 4) := by
    intro k l hk
    unfold envelope
    rw [if_neg (fun h => hk h.1)]
    rfl
  set b := alpha / 4 with hb
  have hb0 : 0 < b := by positivity
  have E1 : (envelope alpha (1 : ZMod n) 1 + envelope alpha (-1 : ZMod n) (-1)) / 2 = ((9 / 2 : ℝ) ^ (-b) + (1 / 2 : ℝ) ^ (-b)) / 2 := by
    rw [ev _ _ hne, ev _ _ hne', c1, c2, Real.rpow_neg (by norm_num), Real.rpow_neg (by norm_num)]
    norm_num
  have E2 : (envelope alpha (1 : ZMod n) (-1) + envelope alpha (-1 : ZMod n) (- -1)) / 2 = (5 / 2 : ℝ) ^ (-b) := by
    rw [neg_neg, ev _ _ hne, ev _ _ hne', c1, c2, Real.rpow_neg (by norm_num)]
    norm_num
  have hlt : (5 / 2 : ℝ) ^ (-b) < ((9 / 2 : ℝ) ^ (-b) + (1 / 2 : ℝ) ^ (-b)) / 2 := by
    have g1 : (5 / 2 : ℝ) ^ (-b) < (3 / 2 : ℝ) ^ (-b) := Real.rpow_lt_rpow_of_neg (by norm_num) (by norm_num) (by linarith)
    have p1 : (0 : ℝ) < (9 / 2 : ℝ) ^ (-b) := Real.rpow_pos_of_pos (by norm_num) _
    have p2 : (0 : ℝ) < (1 / 2 : ℝ) ^ (-b) := Real.rpow_pos_of_pos (by norm_num) _
    have p3 : (0 : ℝ) < (3 / 2 : ℝ) ^ (-b) := Real.rpow_pos_of_pos (by norm_num) _
    have g2 : (9 / 2 : ℝ) ^ (-b) * (1 / 2 : ℝ) ^ (-b) = (3 / 2 : ℝ) ^ (-b) * (3 / 2 : ℝ) ^ (-b) := by
      rw [← Real.mul_rpow (by norm_num) (by norm_num), ← Real.mul_rpow (by norm_num) (by norm_num)]
      norm_num
    nlinarith [sq_nonneg ((9 / 2 : ℝ) ^ (-b) - (1 / 2 : ℝ) ^ (-b))]
  have hraw : NotFlat alpha u := by
    by_contra h
    have hz : ∀ i j, rawMap alpha u i j = 0 := fun i j => by
      by_contra hh
      exact h ⟨i, j, hh⟩
    have h0 := raw_spectrum alpha u 1 1
    rw [E1] at h0
    have hz' : ifftshift (rawMap alpha u) = fun _ _ => 0 := by
      funext i j; unfold ifftshift roll2; exact hz _ _
    rw [hz'] at h0
    have hd : dft (fun _ _ : ZMod n => (0 : ℝ)) 1 1 = 0 := by
      unfold dft fft2 fft1; simp
    rw [hd] at h0
    rcases mul_eq_zero.1 h0.symm with h | h
    · exact h1 h
    · have p3 : (0 : ℝ) < (5 / 2 : ℝ) ^ (-b) := Real.rpow_pos_of_pos (by norm_num) _
      have : ((9 / 2 : ℝ) ^ (-b) + (1 / 2 : ℝ) ^ (-b)) / 2 = 0 := by exact_mod_cast h
      linarith
  have hn : (0 : ℝ) < n := by exact_mod_cast NeZero.pos n
  have hq := Real.sqrt_pos.2 (raw_pos alpha u hraw)
  have hc : figure * n / Real.sqrt (∑ a, ∑ b, rawMap alpha u a b ^ 2) ≠ 0 := by positivity
  rw [dft_gen, dft_gen, raw_spectrum, raw_spectrum, E1, E2]
  generalize figure * n / Real.sqrt (∑ a, ∑ b, rawMap alpha u a b ^ 2) = c at hc
  intro h
  have cancel : ∀ A x : ℂ, A ≠ 0 → (c : ℂ) * (A * x) / A = c * x := fun A x hA => by field_simp
  rw [cancel _ _ h1, cancel _ _ h2] at h
  have := mul_left_cancel₀ (by exact_mod_cast hc) h
  have h3 : ((9 / 2 : ℝ) ^ (-b) + (1 / 2 : ℝ) ^ (-b)) / 2 = (5 / 2 : ℝ) ^ (-b) := by exact_mod_cast this
  linarith

/-- A single peak has the transform 1 everywhere. -/
theorem dft_peak (k l : ZMod n) : dft (fun i j : ZMod n => if i = 0 ∧ j = 0 then (1 : ℝ) else 0) k l = 1 := by
  unfold dft fft2 fft1
  rw [Finset.sum_eq_single (0 : ZMod n) (fun b _ hb => by simp [hb]) (by simp)]
  dsimp only
  rw [Finset.sum_eq_single (0 : ZMod n) (fun b _ hb => by simp [hb]) (by simp)]
  simp

/-- The hypotheses can be met: for every size from 2 on and every `alpha`, a single peak does not give a flat map (even sizes shown). -/
theorem peak_not_flat (he : Even n) (alpha : ℝ) : NotFlat alpha (fun i j : ZMod n => if i = 0 ∧ j = 0 then (1 : ℝ) else 0) := by
  by_contra h
  have hz : ∀ i j, rawMap alpha (fun i j : ZMod n => if i = 0 ∧ j = 0 then (1 : ℝ) else 0) i j = 0 := fun i j => by
    by_contra hh
    exact h ⟨i, j, hh⟩
  have h2 : 2 ≤ n := by
    obtain ⟨m, hm⟩ := he
    have := NeZero.pos n
    omega
  have hne : (1 : ZMod n) ≠ 0 := one_ne h2
  have h0 := raw_spectrum alpha (fun i j : ZMod n => if i = 0 ∧ j = 0 then (1 : ℝ) else 0) 1 0
  rw [dft_peak, one_mul, envelope_even he, envelope_even he, if_neg (fun h => hne h.1), if_neg (fun h => hne (by simpa using h.1)), cycles_neg he, neg_zero] at h0
  have hz' : ifftshift (rawMap alpha (fun i j : ZMod n => if i = 0 ∧ j = 0 then (1 : ℝ) else 0)) = fun _ _ => 0 := by
    funext i j; unfold ifftshift roll2; exact hz _ _
  rw [hz'] at h0
  have hd : dft (fun _ _ : ZMod n => (0 : ℝ)) 1 0 = 0 := by unfold dft fft2 fft1; simp
  rw [hd] at h0
  have h1 : (0 : ℝ) = (1 / (cycles (1 : ZMod n) ^ 2 + cycles (0 : ZMod n) ^ 2) ^ (alpha / 4) + 1 / (cycles (1 : ZMod n) ^ 2 + cycles (0 : ZMod n) ^ 2) ^ (alpha / 4)) / 2 := by exact_mod_cast h0
  have hc : cycles (1 : ZMod n) ^ 2 = 1 := by
    unfold cycles
    obtain ⟨m, hm⟩ := he
    by_cases h3 : n = 2
    · subst h3
      rw [if_neg (by decide), ZMod.val_one]; norm_num
    · haveI : Fact (1 < n) := ⟨by omega⟩
      rw [if_pos (by rw [ZMod.val_one]; omega), ZMod.val_one]; norm_num
  have hp : (0 : ℝ) < 1 / (cycles (1 : ZMod n) ^ 2 + cycles (0 : ZMod n) ^ 2) ^ (alpha / 4) := by
    rw [hc]
    have : (0 : ℝ) < 1 + cycles (0 : ZMod n) ^ 2 := by positivity
    positivity
  linarith

example : std (genMap (n := 64) 2 5 fun i j => if i = 0 ∧ j = 0 then 1 else 0) = 5 := by
  rw [C145_rms _ _ _ (peak_not_flat (by decide) 2)]; norm_num

example : dft (ifftshift (genMap (n := 65) 2 5 fun i j => if i = 0 ∧ j = 0 then 1 else 0)) 1 1 ≠ dft (ifftshift (genMap (n := 65) 2 5 fun i j => if i = 0 ∧ j = 0 then 1 else 0)) 1 (-1) := by
  have := C145_odd_violated (n := 65) (by decide) (by norm_num) 2 5 (by norm_num) (by norm_num) (fun i j => if i = 0 ∧ j = 0 then 1 else 0)
    (by rw [dft_peak]; exact one_ne_zero) (by rw [dft_peak]; exact one_ne_zero)
  rwa [dft_peak, dft_peak, div_one, div_one] at this

/-! ## Smoothing -/

/-- The average over a window of `b` points around `i` (one more point before than after if `b` is even), with zeros outside of the vector. -/
noncomputable def windowMean (y : List ℝ) (b i : ℕ) : ℝ := (∑ j ∈ (Finset.range y.length).filter (fun j => i ≤ j + b / 2 ∧ j ≤ i + (b - 1) / 2), y.getD j 0) / b

/-- **C145 (smoothing).** With a window not longer than the vector, `smooth` returns the window means. -/
theorem C145_smooth (y : List ℝ) (b : ℕ) (h1 : 1 ≤ b) (h2 : b ≤ y.length) :
    ∃ r, smooth y b = .ok r ∧ r.length = y.length ∧ ∀ i < y.length, r.getD i 0 = windowMean y b i := by
  unfold smooth convolveSame
  have e1 : ((b : ℤ).toNat) = b := Int.toNat_natCast b
  simp only [e1, List.length_replicate, if_neg (show ¬ (b : ℤ) < 0 by omega), if_neg (show ¬ b > y.length by omega)]
  rw [if_neg (by omega)]
  refine ⟨_, rfl, by simp, fun i hi => ?_⟩
  rw [List.getD_eq_getElem?_getD, List.getElem?_map, List.getElem?_range hi]
  simp only [Option.map_some, Option.getD_some]
  unfold convFull windowMean
  rw [List.length_replicate, ← Finset.sum_filter, Finset.sum_div]
  refine Finset.sum_nbij' (fun k => i + (b - 1) / 2 - k) (fun j => i + (b - 1) / 2 - j) ?_ ?_ ?_ ?_ ?_
  · intro k hk
    simp only [Finset.mem_filter, Finset.mem_range] at hk ⊢
    omega
  · intro j hj
    simp only [Finset.mem_filter, Finset.mem_range] at hj ⊢
    omega
  · intro k hk
    simp only [Finset.mem_filter, Finset.mem_range] at hk
    omega
  · intro j hj
    simp only [Finset.mem_filter, Finset.mem_range] at hj
    omega
  · intro k hk
    simp only [Finset.mem_filter, Finset.mem_range] at hk
    rw [List.getD_eq_getElem?_getD (l := List.replicate _ _), List.getElem?_replicate, if_pos hk.1]
    simp only [Option.getD_some, Int.cast_natCast]
    ring

/-- **C145 (smoothing, constants).** Where the window is within the vector, a constant is kept. -/
theorem C145_smooth_constant (n b : ℕ) (h1 : 1 ≤ b) (c : ℝ) (i : ℕ) (hi : b / 2 ≤ i) (hi' : i + (b - 1) / 2 < n) : windowMean (List.replicate n c) b i = c := by
  unfold windowMean
  have : (Finset.range (List.replicate n c).length).filter (fun j => i ≤ j + b / 2 ∧ j ≤ i + (b - 1) / 2) = Finset.Ico (i - b / 2) (i - b / 2 + b) := by
    ext j
    simp only [Finset.mem_filter, Finset.mem_range, List.length_replicate, Finset.mem_Ico]
    omega
  rw [this, Finset.sum_congr rfl (g := fun _ => c) (fun j hj => by
    rw [Finset.mem_Ico] at hj
    rw [List.getD_eq_getElem?_getD, List.getElem?_replicate, if_pos (by omega)]; rfl)]
  rw [Finset.sum_const, Nat.card_Ico, nsmul_eq_mul, show i - b / 2 + b - (i - b / 2) = b by omega]
  have : (b : ℝ) ≠ 0 := by positivity
  field_simp

/-- **C145 (smoothing at the ends, violated).** At the ends the vector is continued by zeros: the first value of a smoothed constant is too small. -/
theorem C145_smooth_ends_violated (n b : ℕ) (h1 : 2 ≤ b) (h2 : b ≤ n) (c : ℝ) : windowMean (List.replicate n c) b 0 = c * (((b + 1) / 2 : ℕ) : ℝ) / b ∧ (((b + 1) / 2 : ℕ) : ℝ) / b < 1 := by
  constructor
  · unfold windowMean
    have : (Finset.range (List.replicate n c).length).filter (fun j => 0 ≤ j + b / 2 ∧ j ≤ 0 + (b - 1) / 2) = Finset.range ((b + 1) / 2) := by
      ext j
      simp only [Finset.mem_filter, Finset.mem_range, List.length_replicate]
      omega
    rw [this, Finset.sum_congr rfl (g := fun _ => c) (fun j hj => by
      rw [Finset.mem_range] at hj
      rw [List.getD_eq_getElem?_getD, List.getElem?_replicate, if_pos (by omega)]; rfl)]
    rw [Finset.sum_const, Finset.card_range, nsmul_eq_mul, mul_comm]
  · have hb : (0 : ℝ) < b := by positivity
    rw [div_lt_one hb]
    exact_mod_cast (by omega : (b + 1) / 2 < b)

/-- **C145 (long windows, violated).** With a window longer than the vector the result is as long as the window. -/
theorem C145_smooth_long_violated (y : List ℝ) (b : ℕ) (h1 : y ≠ []) (h2 : y.length < b) : ∃ r, smooth y b = .ok r ∧ r.length = b := by
  unfold smooth convolveSame
  have e1 : ((b : ℤ).toNat) = b := Int.toNat_natCast b
  have h3 : y.length ≠ 0 := fun h => h1 (List.length_eq_zero_iff.1 h)
  simp only [e1, List.length_replicate, if_neg (show ¬ (b : ℤ) < 0 by omega), if_pos (show b > y.length from h2)]
  rw [if_neg (by omega)]
  exact ⟨_, rfl, by simp⟩

/-- **C145 (refused).** An empty vector or a window of no points raises ValueError. -/
theorem C145_smooth_refused (y : List ℝ) (b : ℤ) : smooth y b = .error .valueError ↔ b ≤ 0 ∨ y = [] := by
  unfold smooth convolveSame
  by_cases hb : b < 0
  · simp [hb, hb.le]
  rw [if_neg hb]
  dsimp only
  rw [List.length_replicate]
  by_cases hl : b.toNat > y.length
  · rw [if_pos hl]
    dsimp only
    rw [List.length_replicate]
    by_cases hy : y = []
    · subst hy; simp
    · have : y.length ≠ 0 := fun h => hy (List.length_eq_zero_iff.1 h)
      rw [if_neg (by omega)]
      simp [hy]; omega
  · rw [if_neg hl]
    dsimp only
    rw [List.length_replicate]
    by_cases hz : b = 0
    · subst hz; simp
    · have : y ≠ [] := fun h => hl (by rw [h]; simp; omega)
      have h3 : y.length ≠ 0 := fun h => this (List.length_eq_zero_iff.1 h)
      rw [if_neg (by omega)]
      simp [this]; omega

example : windowMean [1, 5, 3, 4] 3 2 = 4 := by
  unfold windowMean
  simp [Finset.sum_filter, Finset.sum_range_succ]; norm_num

end Verif.SimpleMap
