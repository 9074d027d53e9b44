import Verif.Props.Prop
import Verif.Props.DiffDm
import Mathlib.Tactic.LinearCombination
import Mathlib.Tactic.FieldSimp

/-!
# C160: self-images and the wrapping window of falco.prop.ptp

The field has `N × N` samples over the width `w` (C08), with indices modulo `N`: `E (i + s) (j + t)` is `np.roll`.
-/

namespace Verif.Optics
open Verif Complex

variable {N : ℕ} [NeZero N]

/-- The signed number of periods over the grid of frequency `k`. -/
def signed (k : ZMod N) : ℤ := if k.val < (N + 1) / 2 then (k.val : ℤ) else (k.val : ℤ) - N

theorem signed_cast (k : ZMod N) : ((signed k : ℤ) : ZMod N) = k := by
  unfold signed
  split <;> simp

theorem fftfreq_signed {w : ℝ} (k : ZMod N) : fftfreq N (w / N) k = (signed k : ℝ) / w := by
  have hN : (N : ℝ) ≠ 0 := by exact_mod_cast NeZero.ne N
  unfold fftfreq signed
  rw [mul_div_cancel₀ w hN]
  split <;> simp

theorem transfer_signed (w wvl z : ℝ) (k l : ZMod N) :
    transferFunction wvl (w / N) z k l = exp (-(Real.pi * wvl * z * ((signed k : ℂ) ^ 2 + (signed l : ℂ) ^ 2) / (w : ℂ) ^ 2) * I) := by
  unfold transferFunction
  rw [fftfreq_signed, fftfreq_signed, ← exp_add]
  congr 1
  push_cast
  by_cases hw : (w : ℂ) = 0
  · simp [hw]
  · field_simp
    ring

theorem ptpCore_of {E H : ZMod N → ZMod N → ℂ} {w wvl z : ℝ} (h : ∀ k l, transferFunction wvl (w / N) z k l * fft2 (fftshift E) k l = fft2 (fftshift H) k l) :
    ptp E w wvl z = .ok H := by
  rw [ptp_eq_core]
  unfold ptpCore
  rw [show (fun k l => transferFunction wvl (w / N) z k l * fft2 (fftshift E) k l) = fft2 (fftshift H) by funext k l; exact h k l, ifft2_fft2, ifftshift_fftshift]

theorem fft2_shifted (E : ZMod N → ZMod N → ℂ) (s t k l : ZMod N) :
    fft2 (fftshift fun i j => E (i - s) (j - t)) k l = ZMod.stdAddChar (-(s * k)) * ZMod.stdAddChar (-(t * l)) * fft2 (fftshift E) k l := by
  rw [← DiffDm.fft2_roll]
  congr 1
  funext i j
  unfold fftshift roll2
  congr 1 <;> ring

/-- C160. `ptp` commutes with cyclic shifts of the field: whatever leaves the window on one side comes back on the other, for every
field, shift and distance. -/
theorem C160_wraps (E F : ZMod N → ZMod N → ℂ) (w wvl z : ℝ) (h : ptp E w wvl z = .ok F) (s t : ZMod N) :
    ptp (fun i j => E (i - s) (j - t)) w wvl z = .ok fun i j => F (i - s) (j - t) := by
  apply ptpCore_of
  intro k l
  rw [fft2_shifted, fft2_shifted]
  have hF : ∀ k l, transferFunction wvl (w / N) z k l * fft2 (fftshift E) k l = fft2 (fftshift F) k l := by
    intro k l
    rw [ptp_eq_core] at h
    have h := Except.ok.inj h
    subst h
    unfold ptpCore
    rw [fftshift_ifftshift, fft2_ifft2]
  rw [← hF]; ring

/-- A field with the period of `p` samples in both directions has light only at multiples of `N/p` periods over the grid. -/
theorem periodic_freq {E : ZMod N → ZMod N → ℂ} {p m : ℕ} (hm : N = p * m) (hE : ∀ i j, E (i + p) j = E i j ∧ E i (j + p) = E i j) (k l : ZMod N)
    (hne : fft2 (fftshift E) k l ≠ 0) : (∃ q : ℤ, signed k = m * q) ∧ ∃ q : ℤ, signed l = m * q := by
  have hp : p ≠ 0 := by rintro rfl; exact NeZero.ne N (by simpa using hm)
  have key : ∀ x : ZMod N, ZMod.stdAddChar (-((p : ZMod N) * x)) = (1 : ℂ) → ∃ q : ℤ, signed x = m * q := by
    intro x hx
    have h0 : -((p : ZMod N) * x) = 0 := by
      have := ZMod.injective_stdAddChar (N := N)
      apply this
      rw [hx, AddChar.map_zero_eq_one]
    rw [neg_eq_zero, ← signed_cast x, ← Int.cast_natCast (R := ZMod N), ← Int.cast_mul, ZMod.intCast_zmod_eq_zero_iff_dvd] at h0
    obtain ⟨c, hc⟩ := h0
    refine ⟨c, ?_⟩
    have hp' : (p : ℤ) ≠ 0 := by exact_mod_cast hp
    apply mul_left_cancel₀ hp'
    rw [hc]
    have : (N : ℤ) = p * m := by exact_mod_cast hm
    rw [this]; ring
  have e1 : (fun i j : ZMod N => E (i - p) (j - 0)) = E := by
    funext i j
    have := (hE (i - p) j).1
    rw [sub_add_cancel] at this
    rw [sub_zero, ← this]
  have e2 : (fun i j : ZMod N => E (i - 0) (j - p)) = E := by
    funext i j
    have := (hE i (j - p)).2
    rw [sub_add_cancel] at this
    rw [sub_zero, ← this]
  have h1 := fft2_shifted E p 0 k l
  have h2 := fft2_shifted E 0 p k l
  rw [e1, zero_mul, neg_zero, AddChar.map_zero_eq_one, mul_one] at h1
  rw [e2, zero_mul, neg_zero, AddChar.map_zero_eq_one, one_mul] at h2
  refine ⟨key k ?_, key l ?_⟩
  · exact mul_right_cancel₀ hne (by rw [one_mul]; exact h1.symm)
  · exact mul_right_cancel₀ hne (by rw [one_mul]; exact h2.symm)

theorem transfer_talbot {p m : ℕ} (hm : N = p * m) {w wvl : ℝ} (hw : w ≠ 0) (hl : wvl ≠ 0) (t : ℤ) {k l : ZMod N} {q r : ℤ} (hk : signed k = m * q) (hll : signed l = m * r) :
    transferFunction wvl (w / N) (t * (p * (w / N)) ^ 2 / wvl) k l = exp (-(Real.pi * (t * (q ^ 2 + r ^ 2) : ℤ)) * I) := by
  rw [transfer_signed, hk, hll]
  congr 1
  have hN : (N : ℂ) ≠ 0 := by exact_mod_cast NeZero.ne N
  have hNm : (N : ℂ) = p * m := by exact_mod_cast hm
  have hp : (p : ℂ) ≠ 0 := by rintro h; rw [h, zero_mul] at hNm; exact hN hNm
  have hmm : (m : ℂ) ≠ 0 := by rintro h; rw [h, mul_zero] at hNm; exact hN hNm
  have hwc : (w : ℂ) ≠ 0 := by exact_mod_cast hw
  have hlc : (wvl : ℂ) ≠ 0 := by exact_mod_cast hl
  push_cast
  rw [hNm]
  field_simp

theorem exp_pi_even (n : ℤ) : exp (-(Real.pi * ((2 * n : ℤ) : ℂ)) * I) = 1 := by
  rw [exp_eq_one_iff]
  exact ⟨-n, by push_cast; ring⟩

/-- C160. Talbot's self-images: a field with the period of `p` samples (`p` dividing the number of samples, so of the length
`a = p w/N`) comes back exactly after every multiple of `2 a²/λ`. -/
theorem C160_talbot (E : ZMod N → ZMod N → ℂ) (p m : ℕ) (hm : N = p * m) (hE : ∀ i j, E (i + p) j = E i j ∧ E i (j + p) = E i j) (w wvl : ℝ) (hw : w ≠ 0) (hl : wvl ≠ 0)
    (t : ℤ) : ptp E w wvl (t * (2 * (p * (w / N)) ^ 2 / wvl)) = .ok E := by
  apply ptpCore_of
  intro k l
  by_cases hne : fft2 (fftshift E) k l = 0
  · rw [hne, mul_zero]
  · obtain ⟨⟨q, hq⟩, r, hr⟩ := periodic_freq hm hE k l hne
    have e : (t : ℝ) * (2 * (p * (w / N)) ^ 2 / wvl) = ((2 * t : ℤ) : ℝ) * (p * (w / N)) ^ 2 / wvl := by push_cast; ring
    rw [e, transfer_talbot hm hw hl _ hq hr, mul_assoc, exp_pi_even, one_mul]

/-- C160. Half-way between the self-images the field is shifted by half a period in both directions (periods of an even number of
samples). -/
theorem C160_half (E : ZMod N → ZMod N → ℂ) (h m : ℕ) (hm : N = 2 * h * m) (hE : ∀ i j, E (i + (2 * h : ℕ)) j = E i j ∧ E i (j + (2 * h : ℕ)) = E i j) (w wvl : ℝ) (hw : w ≠ 0)
    (hl : wvl ≠ 0) (t : ℤ) : ptp E w wvl ((2 * t + 1) * ((2 * h * (w / N)) ^ 2 / wvl)) = .ok fun i j => E (i - h) (j - h) := by
  apply ptpCore_of
  intro k l
  rw [fft2_shifted]
  by_cases hne : fft2 (fftshift E) k l = 0
  · rw [hne, mul_zero, mul_zero]
  · obtain ⟨⟨q, hq⟩, r, hr⟩ := periodic_freq hm hE k l hne
    have e : (2 * (t : ℝ) + 1) * ((2 * h * (w / N)) ^ 2 / wvl) = ((2 * t + 1 : ℤ) : ℝ) * ((2 * h : ℕ) * (w / N)) ^ 2 / wvl := by push_cast; ring
    rw [e, transfer_talbot hm hw hl _ hq hr]
    congr 1
    have hN : (N : ℂ) ≠ 0 := by exact_mod_cast NeZero.ne N
    have hNm : (N : ℂ) = 2 * h * m := by exact_mod_cast hm
    have char : ∀ (x : ZMod N) (c : ℤ), signed x = m * c → ZMod.stdAddChar (-((h : ZMod N) * x)) = exp (-(Real.pi * (c : ℂ)) * I) := by
      intro x c hc
      have hx : -((h : ZMod N) * x) = ((-(h * signed x) : ℤ) : ZMod N) := by push_cast; rw [signed_cast]
      rw [hx, ZMod.stdAddChar_coe, hc]
      congr 1
      have hh : (h : ℂ) ≠ 0 := by rintro h0; rw [h0] at hNm; simp at hNm; exact NeZero.ne N hNm
      have hmm : (m : ℂ) ≠ 0 := by rintro h0; rw [h0] at hNm; simp at hNm; exact NeZero.ne N hNm
      push_cast
      rw [hNm]
      field_simp
    rw [char k q hq, char l r hr, ← exp_add, exp_eq_exp_iff_exists_int]
    obtain ⟨u, hu⟩ := Int.even_mul_succ_self (q - 1)
    obtain ⟨v, hv⟩ := Int.even_mul_succ_self (r - 1)
    have hu : q ^ 2 = q + 2 * u := by linarith [hu, show (q - 1) * (q - 1 + 1) = q ^ 2 - q by ring]
    have hv : r ^ 2 = r + 2 * v := by linarith [hv, show (r - 1) * (r - 1 + 1) = r ^ 2 - r by ring]
    refine ⟨-(t * (q ^ 2 + r ^ 2) + u + v), ?_⟩
    have hu' : (q : ℂ) ^ 2 = q + 2 * u := by exact_mod_cast hu
    have hv' : (r : ℂ) ^ 2 = r + 2 * v := by exact_mod_cast hv
    push_cast
    linear_combination (-(Real.pi : ℂ) * I) * hu' + (-(Real.pi : ℂ) * I) * hv'

/-- C160. Violated: light spreads without end, but for `ptp` every field, periodic or not, repeats itself in the distance after
`2 w²/λ`: it propagates the field as one cell of an endless grating. -/
theorem C160_repeats_violated (E : ZMod N → ZMod N → ℂ) (w wvl z : ℝ) (hw : w ≠ 0) (hl : wvl ≠ 0) (t : ℤ) :
    ptp E w wvl (z + t * (2 * w ^ 2 / wvl)) = ptp E w wvl z := by
  have hE : ∀ (F : ZMod N → ZMod N → ℂ) (i j : ZMod N), F (i + (N : ℕ)) j = F i j ∧ F i (j + (N : ℕ)) = F i j := by
    intro F i j
    constructor <;> congr 1 <;> simp
  have hN : (N : ℝ) ≠ 0 := by exact_mod_cast NeZero.ne N
  rw [← C08_additive]
  rw [ptp_eq_core E w wvl z]
  change ptp (ptpCore E w wvl z) w wvl _ = _
  have h := C160_talbot (ptpCore E w wvl z) N 1 (by simp) (hE _) w wvl hw hl t
  rwa [mul_div_cancel₀ w hN] at h

/-! ## The hypotheses are met -/

/-- A grating of period 2 on 6 samples (bright in every second row and column), half-way to its first self-image. -/
example : ∃ E : ZMod 6 → ZMod 6 → ℂ, E 0 0 = 1 ∧ E 1 1 = 0 ∧ ptp E 3 1 1 = .ok fun i j => E (i - 1) (j - 1) := by
  let E : ZMod 6 → ZMod 6 → ℂ := fun i j => if i.val % 2 = 0 ∧ j.val % 2 = 0 then 1 else 0
  refine ⟨E, by simp [E], by simp [E]; decide, ?_⟩
  have hv : ∀ i : ZMod 6, (i + 2).val % 2 = i.val % 2 := by decide
  have hE : ∀ i j, E (i + (2 * 1 : ℕ)) j = E i j ∧ E i (j + (2 * 1 : ℕ)) = E i j := by
    intro i j
    have e2 : (((2 * 1 : ℕ)) : ZMod 6) = 2 := rfl
    rw [e2]
    simp only [E, hv]
    exact ⟨trivial, trivial⟩
  have := C160_half E 1 3 rfl hE 3 1 (by norm_num) (by norm_num) 0
  convert this using 1
  · norm_num
  · simp

end Verif.Optics
