import Verif.Props.Proper

/-!
# C58 (prop_shift_center) and C76 (the PROPER plane-to-plane propagator against falco.prop.ptp)
-/

namespace Verif.Proper
open Verif Complex Verif.Optics

section shift
variable {α : Type*} {M N : ℕ}

/-- C58: pixel (0, 0) of any image, of any size, is moved to pixel (M//2, N//2). -/
theorem C58_origin_to_centre (A : ZMod M → ZMod N → α) : shiftCenter A ((M / 2 : ℕ) : ZMod M) ((N / 2 : ℕ) : ZMod N) = A 0 0 := by
  unfold shiftCenter roll2
  rw [Int.cast_natCast, Int.cast_natCast, sub_self, sub_self]

/-- C58: for even sizes a second call puts the image back. -/
theorem C58_twice_even (hM : Even M) (hN : Even N) (A : ZMod M → ZMod N → α) : shiftCenter (shiftCenter A) = A := by
  obtain ⟨m, hm⟩ := hM
  obtain ⟨k, hk⟩ := hN
  have h2 : M / 2 = m := by omega
  have h3 : N / 2 = k := by omega
  funext i j
  have e1 : ((m : ℕ) : ZMod M) + (m : ℕ) = 0 := by rw [← Nat.cast_add, ← hm, ZMod.natCast_self]
  have e2 : ((k : ℕ) : ZMod N) + (k : ℕ) = 0 := by rw [← Nat.cast_add, ← hk, ZMod.natCast_self]
  unfold shiftCenter roll2
  rw [h2, h3]
  push_cast
  rw [sub_sub, sub_sub, e1, e2, sub_zero, sub_zero]

/-- C58: for odd sizes a second call leaves the image one pixel off: entry (i, j) is the old entry (i+1, j+1), cyclically. -/
theorem C58_twice_odd (hM : Odd M) (hN : Odd N) (A : ZMod M → ZMod N → α) (i : ZMod M) (j : ZMod N) : shiftCenter (shiftCenter A) i j = A (i + 1) (j + 1) := by
  obtain ⟨m, hm⟩ := hM
  obtain ⟨k, hk⟩ := hN
  have h2 : M / 2 = m := by omega
  have h3 : N / 2 = k := by omega
  have e1 : ((m : ℕ) : ZMod M) + (m : ℕ) + 1 = 0 := by
    rw [← Nat.cast_add, ← Nat.cast_one, ← Nat.cast_add, show m + m + 1 = M by omega, ZMod.natCast_self]
  have e2 : ((k : ℕ) : ZMod N) + (k : ℕ) + 1 = 0 := by
    rw [← Nat.cast_add, ← Nat.cast_one, ← Nat.cast_add, show k + k + 1 = N by omega, ZMod.natCast_self]
  unfold shiftCenter roll2
  rw [h2, h3]
  push_cast
  congr 1
  · linear_combination -e1
  · linear_combination -e2

/-- C58, the failing case: for every odd width of at least 3 there is an image that two calls do not restore. -/
theorem C58_odd_violated (hM : Odd M) (hN : Odd N) (h3 : 3 ≤ M) : ∃ A : ZMod M → ZMod N → ℕ, shiftCenter (shiftCenter A) ≠ A := by
  classical
  refine ⟨fun i _ => if i = 0 then 1 else 0, fun h => ?_⟩
  have h1 := congrFun (congrFun h 0) 0
  rw [C58_twice_odd hM hN] at h1
  have : Fact (1 < M) := ⟨by omega⟩
  simp at h1

/-- The hypotheses are met: a 4 × 6 image. -/
example (A : ZMod 4 → ZMod 6 → ℕ) : shiftCenter (shiftCenter A) = A := C58_twice_even ⟨2, rfl⟩ ⟨3, rfl⟩ A
example : ∃ A : ZMod 3 → ZMod 5 → ℕ, shiftCenter (shiftCenter A) ≠ A := C58_odd_violated ⟨1, rfl⟩ ⟨2, rfl⟩ le_rfl

end shift

variable {n : ℕ} [NeZero n]

theorem bwd_fwd_mul (a K : ZMod n → ZMod n → ℂ) : bwd (fun i j => fwd a i j * K i j) = ifft2 fun i j => K i j * fft2 a i j := by
  have hn : (n : ℂ) ≠ 0 := n_ne
  funext i j
  have e : (fun i j => fwd a i j * K i j) = fun i j => (n : ℂ)⁻¹ * (K i j * fft2 a i j) := by
    funext i j
    unfold fwd
    field_simp
  unfold bwd
  rw [e, ifft2_smul]
  field_simp

/-- The signed frequency index of PROPER at grid position `j` (falco/proper/prop_ptp.py:77-79 before squaring). -/
theorem val_shift_even {m : ℕ} (hm : n = 2 * m) (j : ZMod n) : ((j - ((m : ℕ) : ZMod n)).val : ℝ) - m = if j.val < (n + 1) / 2 then (j.val : ℝ) else (j.val : ℝ) - n := by
  have hn0 : n ≠ 0 := NeZero.ne n
  have hv := ZMod.val_lt j
  have h2 : (n + 1) / 2 = m := by omega
  rw [h2]
  have hmv : ((m : ℕ) : ZMod n).val = m := by rw [ZMod.val_natCast]; exact Nat.mod_eq_of_lt (by omega)
  by_cases h : j.val < m
  · rw [if_pos h]
    have e : j - ((m : ℕ) : ZMod n) = j + ((m : ℕ) : ZMod n) := by
      have : ((m : ℕ) : ZMod n) + (m : ℕ) = 0 := by rw [← Nat.cast_add, show m + m = n by omega, ZMod.natCast_self]
      linear_combination -this
    rw [e, ZMod.val_add_of_lt (by rw [hmv]; omega), hmv]
    push_cast
    ring
  · rw [if_neg h, ZMod.val_sub (by rw [hmv]; omega), hmv, Nat.cast_sub (by omega)]
    have : (n : ℝ) = 2 * m := by exact_mod_cast hm
    rw [this]; ring

theorem rhosqr_even (he : Even n) (dx : ℝ) (i j : ZMod n) : rhosqr dx i j = fftfreq n dx i ^ 2 + fftfreq n dx j ^ 2 := by
  obtain ⟨m, hm⟩ := he
  have h2 : n / 2 = m := by omega
  unfold rhosqr shiftCenter roll2 fftfreq
  rw [h2]
  simp only [Int.cast_natCast]
  rw [val_shift_even (by omega : n = 2 * m) i, val_shift_even (by omega : n = 2 * m) j]
  ring

/-- C76: on every even grid, for every planar wavefront and every distance of at least 1e-12 m, the PROPER plane-to-plane propagator and `falco.prop.ptp` are the same operator: propagating with
PROPER and centring the array gives what falco.prop.ptp gives for the centred array of full width `n * dx` (`proper.phase_offset` off). -/
theorem C76_ptp_same_even (he : Even n) (s : WF n) (hp : s.planar = true) (dz : ℝ) (hdz : 1e-12 ≤ |dz|) :
    ∃ s', ptp false s dz = .ok s' ∧ Optics.ptp (shiftCenter s.arr) (n * s.dx) s.lam dz = .ok (shiftCenter s'.arr) := by
  have hn' : (n : ℝ) ≠ 0 := n_ne'
  have h0 : dz ≠ 0 := by
    intro h
    rw [h, abs_zero] at hdz
    norm_num at hdz
  unfold ptp
  rw [if_neg (not_lt.mpr hdz), if_neg (by rw [hp]; simp)]
  refine ⟨_, rfl, ?_⟩
  unfold Optics.ptp
  rw [if_neg h0, if_neg (by simp)]
  simp only [offset, mul_one, Bool.false_eq_true, if_false]
  have hdx : (n : ℝ) * s.dx / n = s.dx := by field_simp
  rw [hdx]
  have hs : ∀ a : ZMod n → ZMod n → ℂ, fftshift (shiftCenter a) = a := fun a => C58_twice_even he he a
  have hi : ∀ a : ZMod n → ZMod n → ℂ, ifftshift a = shiftCenter a := by
    intro a
    rw [← hs a, hs]
    have := ifftshift_fftshift (shiftCenter a)
    rw [hs] at this
    rw [this]
  rw [hs, hi, bwd_fwd_mul]
  congr 3
  funext i j
  unfold transferFunction
  rw [← Complex.exp_add, rhosqr_even he]
  congr 2
  push_cast
  ring

/-- The hypotheses of C76 are met by the wavefront of `prop_begin` on a 4 × 4 grid. -/
example : ∃ s', ptp false (begin_ 4 1 1 (1 / 2)) 3 = .ok s' ∧ Optics.ptp (shiftCenter (begin_ 4 1 1 (1 / 2)).arr) ((4 : ℕ) * (begin_ 4 1 1 (1 / 2)).dx) (begin_ 4 1 1 (1 / 2)).lam 3 = .ok (shiftCenter s'.arr) :=
  C76_ptp_same_even ⟨2, rfl⟩ _ rfl 3 (by norm_num)

theorem fft2_one (k l : ZMod n) : fft2 (fun _ _ : ZMod n => (1 : ℂ)) k l = if k = 0 ∧ l = 0 then (n : ℂ) * n else 0 := by
  have h1 : ∀ c : ℂ, ∀ k : ZMod n, fft1 (fun _ : ZMod n => c) k = if k = 0 then (n : ℂ) * c else 0 := by
    intro c k
    have e : fft1 (fun _ : ZMod n => c) = fft1 (ifft1 fun k => if k = 0 then (n : ℂ) * c else 0) := by
      congr 1
      funext j
      unfold ifft1
      rw [Finset.sum_eq_single 0]
      · simp [mul_assoc, n_ne (n := n)]
      · intro b _ hb; simp [hb]
      · simp
    rw [e, fft1_ifft1]
  unfold fft2
  have : (fun i : ZMod n => fft1 ((fun _ _ : ZMod n => (1 : ℂ)) i) l) = fun _ => if l = 0 then (n : ℂ) * 1 else 0 := by
    funext i; exact h1 1 l
  rw [this, h1]
  by_cases hk : k = 0 <;> by_cases hl : l = 0 <;> simp [hk, hl]

theorem rhosqr_odd_zero (ho : Odd n) (h3 : 3 ≤ n) (dx : ℝ) : rhosqr dx (0 : ZMod n) 0 = 2 / (n * dx) ^ 2 := by
  obtain ⟨m, hm⟩ := ho
  have h2 : n / 2 = m := by omega
  unfold rhosqr shiftCenter roll2
  rw [h2]
  simp only [Int.cast_natCast, zero_sub]
  have e : (-((m : ℕ) : ZMod n)) = ((m + 1 : ℕ) : ZMod n) := by
    have : ((m : ℕ) : ZMod n) + ((m + 1 : ℕ) : ZMod n) = 0 := by rw [← Nat.cast_add, show m + (m + 1) = n by omega, ZMod.natCast_self]
    linear_combination -this
  rw [e, ZMod.val_natCast, Nat.mod_eq_of_lt (by omega)]
  push_cast
  rw [div_pow]
  ring

theorem mul_delta (f g : ZMod n → ZMod n → ℂ) (c : ℂ) (h : ∀ i j, g i j = if i = 0 ∧ j = 0 then c else 0) : (fun i j => f i j * g i j) = fun i j => f 0 0 * g i j := by
  funext i j
  rw [h]
  by_cases hh : i = 0 ∧ j = 0
  · rw [hh.1, hh.2]
  · rw [if_neg hh, mul_zero, mul_zero]

/-- C76, the failing case: on every odd grid of at least 3 × 3 the frequency array of the PROPER propagator is one bin off, so a uniform wave, which `falco.prop.ptp` leaves alone,
comes back multiplied by `exp(-2πi λ dz / (n dx)²)`. -/
theorem C76_odd_uniform (ho : Odd n) (h3 : 3 ≤ n) (s : WF n) (hp : s.planar = true) (hu : s.arr = fun _ _ => 1) (dz : ℝ) (hdz : 1e-12 ≤ |dz|) :
    (∃ s', ptp false s dz = .ok s' ∧ s'.arr = fun _ _ => exp (-(2 * Real.pi * I * (s.lam * dz / (n * s.dx) ^ 2 : ℝ)))) ∧
    Optics.ptp (shiftCenter s.arr) (n * s.dx) s.lam dz = .ok fun _ _ => 1 := by
  have h0 : dz ≠ 0 := by
    intro h
    rw [h, abs_zero] at hdz
    norm_num at hdz
  constructor
  · unfold ptp
    rw [if_neg (not_lt.mpr hdz), if_neg (by rw [hp]; simp)]
    refine ⟨_, rfl, ?_⟩
    simp only [offset, mul_one, Bool.false_eq_true, if_false]
    rw [bwd_fwd_mul, hu, mul_delta _ _ _ fft2_one, ifft2_smul, ifft2_fft2]
    funext i j
    rw [mul_one, rhosqr_odd_zero ho h3]
    congr 1
    push_cast
    ring
  · unfold Optics.ptp
    rw [if_neg h0, if_neg (by simp), hu]
    have e : fftshift (shiftCenter fun _ _ : ZMod n => (1 : ℂ)) = fun _ _ => 1 := rfl
    simp only [e]
    rw [mul_delta _ _ _ fft2_one, ifft2_smul, ifft2_fft2]
    congr 1
    funext i j
    unfold ifftshift roll2 transferFunction fftfreq
    simp [show 1 ≤ n by omega]

/-- C76, the failing case made concrete: 3 × 3 grid, unit sampling and wavelength, 4.5 units of distance: PROPER flips the sign of the uniform field. -/
theorem C76_odd_violated : ∃ s : WF 3, s.planar = true ∧ (∃ s', ptp false s (9 / 2) = .ok s' ∧ s'.arr = fun _ _ => -1) ∧ Optics.ptp (shiftCenter s.arr) ((3 : ℕ) * s.dx) s.lam (9 / 2) = .ok fun _ _ => 1 := by
  refine ⟨{ (begin_ 3 3 1 1) with dx := 1 }, rfl, ?_⟩
  obtain ⟨⟨s', h1, h2⟩, h3⟩ := C76_odd_uniform (n := 3) ⟨1, rfl⟩ le_rfl { (begin_ 3 3 1 1) with dx := 1 } rfl rfl (9 / 2) (by norm_num [abs_of_pos])
  refine ⟨⟨s', h1, ?_⟩, h3⟩
  rw [h2]
  funext _ _
  have : -(2 * Real.pi * I * ((1 * (9 / 2) / ((3 : ℕ) * 1) ^ 2 : ℝ) : ℂ)) = -(Real.pi * I) := by
    push_cast; ring
  simp only [begin_]
  rw [this, Complex.exp_neg, Complex.exp_pi_mul_I]
  norm_num

end Verif.Proper
