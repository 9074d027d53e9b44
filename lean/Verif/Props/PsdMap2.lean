import Verif.Props.PsdMap

/-! # C120, continued: the spectrum of the maps, their effect, and their files -/

namespace Verif.PsdMap
open Verif Complex Verif.Proper Verif.Optics

variable {n : ℕ} [NeZero n]

/-! ## Transforms of real parts -/

theorem conj_fft2 (S : ZMod n → ZMod n → ℂ) (j i : ZMod n) : starRingEnd ℂ (fft2 S j i) = fft2 (fun a b => starRingEnd ℂ (S (-a) (-b))) j i := by
  have h1 (x : ZMod n → ℂ) (k : ZMod n) : starRingEnd ℂ (fft1 x k) = fft1 (fun a => starRingEnd ℂ (x (-a))) k := by
    rw [fft1_eq, fft1_eq, ZMod.dft_apply, ZMod.dft_apply, map_sum]
    refine Fintype.sum_equiv (Equiv.neg _) _ _ fun a => ?_
    simp only [Equiv.neg_apply, smul_eq_mul, map_mul, neg_neg]
    rw [AddChar.starComp_apply (by rw [ZMod.ringChar_zmod_n]; exact NeZero.pos n), AddChar.inv_apply]
    congr 2; ring
  unfold fft2
  rw [h1]
  congr 1
  funext a
  exact h1 _ _

theorem fft2_re (S : ZMod n → ZMod n → ℂ) (k l : ZMod n) :
    fft2 (fun j i => (((fft2 S j i).re : ℝ) : ℂ)) k l = (n : ℂ) ^ 2 * ((S (-k) (-l) + starRingEnd ℂ (S k l)) / 2) := by
  have inv (X : ZMod n → ZMod n → ℂ) (k l : ZMod n) : fft2 (fft2 X) k l = (n : ℂ) ^ 2 * X (-k) (-l) := by
    have := Downsample.fft2_neg n (fft2 X) (-k) (-l)
    rw [neg_neg, neg_neg, ifft2_fft2] at this
    exact this
  have e : (fun j i => (((fft2 S j i).re : ℝ) : ℂ)) = fun j i => (1 / 2 : ℂ) * (fft2 S j i + fft2 (fun a b => starRingEnd ℂ (S (-a) (-b))) j i) := by
    funext j i
    rw [← conj_fft2, Complex.add_conj]
    push_cast; ring
  rw [e, fft2_smul]
  dsimp only
  rw [fft2_add]
  dsimp only
  rw [inv, inv]
  simp only [neg_neg]
  ring

/-! ## The spectrum -/

/-- What the random numbers contribute to the Fourier transform of the map at index `(k, l)`: the mean of the two phase factors at opposite frequencies (the map is the real part of a complex one).
The number drawn for index `(k, l)` is in the middle-centred array `u`. -/
noncomputable def factor (u : ZMod n → ZMod n → ℝ) (k l : ZMod n) : ℂ :=
  let ph : ZMod n → ZMod n → ℝ := fun k l => 2 * Real.pi * u (k + ((n / 2 : ℕ) : ZMod n)) (l + ((n / 2 : ℕ) : ZMod n)) - Real.pi
  (exp (I * ((ph (-k) (-l) : ℝ) : ℂ)) + exp (-(I * ((ph k l : ℝ) : ℂ)))) / 2

theorem dft_raw (he : Even n) (a : Args) (dx amp b c : ℝ) (u : ZMod n → ZMod n → ℝ) (k l : ZMod n)
    (hsym : cutPsd a dx amp b c (-k + ((n / 2 : ℕ) : ZMod n)) (-l + ((n / 2 : ℕ) : ZMod n)) = cutPsd a dx amp b c (k + ((n / 2 : ℕ) : ZMod n)) (l + ((n / 2 : ℕ) : ZMod n))) :
    dft (rawMap a dx amp b c u) k l =
      (((1 / ((n : ℝ) ^ 2 * dx ^ 2) / dk n dx) * Real.sqrt (cutPsd a dx amp b c (k + ((n / 2 : ℕ) : ZMod n)) (l + ((n / 2 : ℕ) : ZMod n))) : ℝ) : ℂ) * factor u k l := by
  have hn : (n : ℂ) ≠ 0 := by exact_mod_cast NeZero.ne n
  have e : (fun j i => ((rawMap a dx amp b c u j i : ℝ) : ℂ)) = fun j i => ((1 / ((n : ℂ) * n) / ((n : ℂ) ^ 2 * (dx : ℂ) ^ 2)) : ℂ) * (((fft2 (spectrum a dx amp b c u) j i).re : ℝ) : ℂ) := by
    funext j i
    unfold rawMap
    rw [show ((n : ℂ) * n) = (((n : ℝ) * n : ℝ) : ℂ) by push_cast; rfl, Complex.div_ofReal_re]
    push_cast
    ring
  unfold dft
  rw [e, fft2_smul]
  dsimp only
  rw [fft2_re]
  unfold spectrum factor
  rw [shift_index he, shift_index he, hsym, map_mul, Complex.conj_ofReal, ← Complex.exp_conj, map_mul, Complex.conj_I, Complex.conj_ofReal]
  push_cast
  field_simp

theorem dft_scale (m : ZMod n → ZMod n → ℝ) (t : ℝ) (k l : ZMod n) : dft (fun j i => m j i * t) k l = t * dft m k l := by
  unfold dft
  rw [show (fun j i => ((m j i * t : ℝ) : ℂ)) = fun j i => (t : ℂ) * (m j i : ℂ) by funext j i; push_cast; ring, fft2_smul]

theorem norm_dft_shift (m : ZMod n → ZMod n → ℝ) (k l : ZMod n) : ‖dft (shiftCenter m) k l‖ = ‖dft m k l‖ := by
  unfold dft
  have := DiffDm.fft2_roll (fun j i => (m j i : ℂ)) (((n / 2 : ℕ) : ℤ) : ZMod n) (((n / 2 : ℕ) : ℤ) : ZMod n) k l
  change ‖fft2 (fun j i => ((m (j - (((n / 2 : ℕ) : ℤ) : ZMod n)) (i - (((n / 2 : ℕ) : ℤ) : ZMod n)) : ℝ) : ℂ)) k l‖ = _
  rw [this, norm_mul, norm_mul, AddChar.norm_apply, AddChar.norm_apply, one_mul, one_mul]

theorem freq_neg (he : Even n) (dx : ℝ) (k : ZMod n) : freq n dx (-k) ^ 2 = freq n dx k ^ 2 := by
  obtain ⟨m, hm⟩ := he
  have hn : 0 < n := NeZero.pos n
  by_cases h0 : k = 0
  · subst h0; rw [neg_zero]
  have hv : (-k).val = n - k.val := by rw [ZMod.neg_val, if_neg h0]
  have hp : 0 < k.val := Nat.pos_of_ne_zero (by rw [Ne, ZMod.val_eq_zero]; exact h0)
  have hlt : k.val < n := ZMod.val_lt k
  have hc : ((n - k.val : ℕ) : ℝ) = n - k.val := Nat.cast_sub hlt.le
  unfold freq fftfreq
  rw [hv, hc]
  by_cases h1 : k.val < (n + 1) / 2
  · by_cases h2 : n - k.val < (n + 1) / 2
    · omega
    · rw [if_pos h1, if_neg h2]; ring
  · by_cases h2 : n - k.val < (n + 1) / 2
    · rw [if_neg h1, if_pos h2]; ring
    · have : k.val = m := by omega
      rw [if_neg h1, if_neg h2, this]
      have : (n : ℝ) = m + m := by exact_mod_cast hm
      rw [this]; ring

theorem freq2_neg (he : Even n) (dx : ℝ) (k l : ZMod n) : freq2 n dx (-k) (-l) = freq2 n dx k l := by
  unfold freq2; rw [freq_neg he, freq_neg he]

theorem neg_pair (k l : ZMod n) : (-k = 0 ∧ -l = 0) ↔ (k = 0 ∧ l = 0) := by rw [neg_eq_zero, neg_eq_zero]

open Classical in
/-- the PSD in use at an index of the transform -/
theorem cut_eq (he : Even n) (dx : ℝ) (hdx : 0 < dx) (a : Args) (hr : a.ROTATION = 0) (hi : a.INCLINATION = 0) (amp b c : ℝ) (k l : ZMod n) :
    cutPsd a dx amp b c (k + ((n / 2 : ℕ) : ZMod n)) (l + ((n / 2 : ℕ) : ZMod n)) =
      (if k = 0 ∧ l = 0 then 0 else Psd a.TPF amp b c (freq2 n dx k l)) * (match a.MAX_FREQUENCY with
        | some m => if freq2 n dx k l > m then 0 else freq2 n dx k l
        | none => 1) := by
  unfold cutPsd
  rw [psd2d_eq he dx hdx a hr hi, kpsd_eq he dx hdx a hr hi]
  cases a.MAX_FREQUENCY <;> simp

theorem cut_sym (he : Even n) (dx : ℝ) (hdx : 0 < dx) (a : Args) (hr : a.ROTATION = 0) (hi : a.INCLINATION = 0) (amp b c : ℝ) (k l : ZMod n) :
    cutPsd a dx amp b c (-k + ((n / 2 : ℕ) : ZMod n)) (-l + ((n / 2 : ℕ) : ZMod n)) = cutPsd a dx amp b c (k + ((n / 2 : ℕ) : ZMod n)) (l + ((n / 2 : ℕ) : ZMod n)) := by
  rw [cut_eq he dx hdx a hr hi, cut_eq he dx hdx a hr hi, freq2_neg he]
  simp only [neg_pair]

theorem spectrum_returned (he : Even n) (be : ErrorMap.Backend) (wf : WF n) (hdx : 0 < wf.dx) (amp b c : ℝ) (a : Args) (hA : a.AMPLITUDE = none) (u : ZMod n → ZMod n → ℝ) (f : File) (hf : New f)
    (hsym : ∀ k l : ZMod n, cutPsd a wf.dx amp b c (-k + ((n / 2 : ℕ) : ZMod n)) (-l + ((n / 2 : ℕ) : ZMod n)) = cutPsd a wf.dx amp b c (k + ((n / 2 : ℕ) : ZMod n)) (l + ((n / 2 : ℕ) : ZMod n)))
    (hflat : std (rawMap a wf.dx amp b c u) ≠ 0) (hpos : 0 < if a.RMS = false then rmsPsd a wf.dx amp b c n else amp) :
    ∃ wf' m o C, run be wf amp b c a u f = .ok (wf', m, o) ∧ 0 < C ∧ ∀ k l, ‖dft m k l‖ = C * Real.sqrt (cutPsd a wf.dx amp b c (k + ((n / 2 : ℕ) : ZMod n)) (l + ((n / 2 : ℕ) : ZMod n))) * ‖factor u k l‖ := by
  obtain ⟨o, ho⟩ := run_new (be := be) (wf := wf) (amp := amp) (b := b) (c := c) (a := a) (u := u) hf
  have hn : (0 : ℝ) < n := by exact_mod_cast NeZero.pos n
  have hs : 0 < std (rawMap a wf.dx amp b c u) := lt_of_le_of_ne (std_nonneg _) (Ne.symm hflat)
  have hdk : 0 < dk n wf.dx := by unfold dk; positivity
  have hpos' : 0 < if a.RMS = false ∧ a.AMPLITUDE = none then rmsPsd a wf.dx amp b c n else amp := by simpa [hA] using hpos
  refine ⟨_, _, o, ((if a.RMS = false ∧ a.AMPLITUDE = none then rmsPsd a wf.dx amp b c n else amp) / std (rawMap a wf.dx amp b c u)) * (1 / ((n : ℝ) ^ 2 * wf.dx ^ 2) / dk n wf.dx), ho, by positivity, fun k l => ?_⟩
  have : adjusted a (newMap a wf.dx amp b c u) = newMap a wf.dx amp b c u := by unfold adjusted; rw [hA]
  rw [this, norm_dft_shift, newMap_scale, dft_scale, dft_raw he a wf.dx amp b c u k l (hsym k l), norm_mul, norm_mul, Complex.norm_real, Complex.norm_real, Real.norm_of_nonneg (by positivity),
    Real.norm_of_nonneg (by positivity)]
  ring

/-- **C120.** The Fourier transform of a new map has, at each frequency but zero, a modulus proportional to the root of the documented PSD at that frequency, times the factor of the random numbers;
without rotation, inclination and MAX_FREQUENCY. -/
theorem C120_shape (he : Even n) (be : ErrorMap.Backend) (wf : WF n) (hdx : 0 < wf.dx) (amp b c : ℝ) (a : Args) (hr : a.ROTATION = 0) (hi : a.INCLINATION = 0) (hM : a.MAX_FREQUENCY = none)
    (hA : a.AMPLITUDE = none) (u : ZMod n → ZMod n → ℝ) (f : File) (hf : New f) (hflat : std (rawMap a wf.dx amp b c u) ≠ 0) (hpos : 0 < if a.RMS = false then rmsPsd a wf.dx amp b c n else amp) :
    ∃ wf' m o C, run be wf amp b c a u f = .ok (wf', m, o) ∧ 0 < C ∧ ∀ k l, ¬ (k = 0 ∧ l = 0) →
      ‖dft m k l‖ = C * Real.sqrt (Psd a.TPF amp b c (freq2 n wf.dx k l)) * ‖factor u k l‖ := by
  obtain ⟨wf', m, o, C, h1, h2, h3⟩ := spectrum_returned he be wf hdx amp b c a hA u f hf (cut_sym he _ hdx a hr hi amp b c) hflat hpos
  refine ⟨wf', m, o, C, h1, h2, fun k l hkl => ?_⟩
  rw [h3, cut_eq he _ hdx a hr hi, if_neg hkl, hM, mul_one]

/-- **C120.** With MAX_FREQUENCY the new map has nothing above that frequency, … -/
theorem C120_max_frequency (he : Even n) (be : ErrorMap.Backend) (wf : WF n) (hdx : 0 < wf.dx) (amp b c : ℝ) (a : Args) (hr : a.ROTATION = 0) (hi : a.INCLINATION = 0) (M : ℝ) (hM : a.MAX_FREQUENCY = some M)
    (hA : a.AMPLITUDE = none) (u : ZMod n → ZMod n → ℝ) (f : File) (hf : New f) (hflat : std (rawMap a wf.dx amp b c u) ≠ 0) (hpos : 0 < if a.RMS = false then rmsPsd a wf.dx amp b c n else amp) :
    ∃ wf' m o, run be wf amp b c a u f = .ok (wf', m, o) ∧ ∀ k l, M < freq2 n wf.dx k l → dft m k l = 0 := by
  obtain ⟨wf', m, o, C, h1, h2, h3⟩ := spectrum_returned he be wf hdx amp b c a hA u f hf (cut_sym he _ hdx a hr hi amp b c) hflat hpos
  refine ⟨wf', m, o, h1, fun k l hkl => ?_⟩
  rw [← norm_eq_zero, h3, cut_eq he _ hdx a hr hi, hM]
  simp [hkl]

/-- **C120, violated.** … but below it the PSD is not the one asked for: it is multiplied by the frequency, so that the errors at low frequencies are suppressed - also if MAX_FREQUENCY is above all
frequencies of the grid and nothing is to be cut. -/
theorem C120_max_frequency_violated (he : Even n) (be : ErrorMap.Backend) (wf : WF n) (hdx : 0 < wf.dx) (amp b c : ℝ) (a : Args) (hr : a.ROTATION = 0) (hi : a.INCLINATION = 0) (M : ℝ)
    (hM : a.MAX_FREQUENCY = some M) (hA : a.AMPLITUDE = none) (u : ZMod n → ZMod n → ℝ) (f : File) (hf : New f) (hflat : std (rawMap a wf.dx amp b c u) ≠ 0)
    (hpos : 0 < if a.RMS = false then rmsPsd a wf.dx amp b c n else amp) :
    ∃ wf' m o C, run be wf amp b c a u f = .ok (wf', m, o) ∧ 0 < C ∧ ∀ k l, ¬ (k = 0 ∧ l = 0) → freq2 n wf.dx k l ≤ M →
      ‖dft m k l‖ = C * Real.sqrt (Psd a.TPF amp b c (freq2 n wf.dx k l) * freq2 n wf.dx k l) * ‖factor u k l‖ := by
  obtain ⟨wf', m, o, C, h1, h2, h3⟩ := spectrum_returned he be wf hdx amp b c a hA u f hf (cut_sym he _ hdx a hr hi amp b c) hflat hpos
  refine ⟨wf', m, o, C, h1, h2, fun k l hkl hle => ?_⟩
  rw [h3, cut_eq he _ hdx a hr hi, if_neg hkl, hM]
  simp [not_lt.mpr hle]

theorem quarter (a : Args) (hr : a.ROTATION = 90) (hi : a.INCLINATION = 0) (dx : ℝ) (j i : ZMod n) : kpsd a dx j i = Real.sqrt (2 * ((j.val : ℝ) - (n / 2 : ℕ)) ^ 2) * dk n dx := by
  have e : -(90 * Real.pi / 180) = -(Real.pi / 2) := by ring
  unfold kpsd yk xk
  rw [hr, hi, e, Real.cos_neg, Real.sin_neg, Real.cos_pi_div_two, Real.sin_pi_div_two]
  congr 2
  rw [zero_mul, zero_div, neg_zero, Real.cos_zero]
  ring

/-- **C120, violated.** A rotation is not carried out as one: with ROTATION = 90 degrees (and no inclination, so that nothing should change) the map has, at each frequency, the PSD of the frequency in
y times the root of 2, whatever the frequency in x. -/
theorem C120_rotation_violated (he : Even n) (be : ErrorMap.Backend) (wf : WF n) (hdx : 0 < wf.dx) (amp b c : ℝ) (a : Args) (hr : a.ROTATION = 90) (hi : a.INCLINATION = 0) (hM : a.MAX_FREQUENCY = none)
    (hA : a.AMPLITUDE = none) (u : ZMod n → ZMod n → ℝ) (f : File) (hf : New f) (hflat : std (rawMap a wf.dx amp b c u) ≠ 0) (hpos : 0 < if a.RMS = false then rmsPsd a wf.dx amp b c n else amp) :
    ∃ wf' m o C, run be wf amp b c a u f = .ok (wf', m, o) ∧ 0 < C ∧ ∀ k l, ¬ (k = 0 ∧ l = 0) →
      ‖dft m k l‖ = C * Real.sqrt (Psd a.TPF amp b c (Real.sqrt 2 * |freq n wf.dx k|)) * ‖factor u k l‖ := by
  have hn : (0 : ℝ) < n := by exact_mod_cast NeZero.pos n
  have hd : 0 < dk n wf.dx := by unfold dk; positivity
  have hk (k l : ZMod n) : kpsd a wf.dx (k + ((n / 2 : ℕ) : ZMod n)) (l + ((n / 2 : ℕ) : ZMod n)) = Real.sqrt 2 * |freq n wf.dx k| := by
    rw [quarter a hr hi, Real.sqrt_mul (by norm_num), Real.sqrt_sq_eq_abs, ← centre_freq he, abs_mul, abs_of_pos hd, mul_assoc]
  have hc (k l : ZMod n) : cutPsd a wf.dx amp b c (k + ((n / 2 : ℕ) : ZMod n)) (l + ((n / 2 : ℕ) : ZMod n)) = if k = 0 ∧ l = 0 then 0 else Psd a.TPF amp b c (Real.sqrt 2 * |freq n wf.dx k|) := by
    unfold cutPsd psd2d
    rw [hM, hk]
    simp only [add_eq_right]
    rfl
  have hab (k : ZMod n) : |freq n wf.dx (-k)| = |freq n wf.dx k| := sq_eq_sq_iff_abs_eq_abs _ _ |>.mp (freq_neg he _ k)
  obtain ⟨wf', m, o, C, h1, h2, h3⟩ := spectrum_returned he be wf hdx amp b c a hA u f hf (fun k l => by rw [hc, hc, hab]; simp only [neg_pair]) hflat hpos
  refine ⟨wf', m, o, C, h1, h2, fun k l hkl => ?_⟩
  rw [h3, hc, if_neg hkl]

/-! ## Effect on the wavefront -/

theorem run_ok {be : ErrorMap.Backend} {wf wf' : WF n} {amp b c : ℝ} {a : Args} {u : ZMod n → ZMod n → ℝ} {f : File} {m : ZMod n → ZMod n → ℝ} {o : Option (Cubic.Img × ErrorMap.Header)}
    (hok : run be wf amp b c a u f = .ok (wf', m, o)) : ∃ m0, wf' = apply a wf (adjusted a m0) ∧ m = shiftCenter (adjusted a m0) := by
  cases f with
  | none => simp only [run, Except.ok.injEq, Prod.mk.injEq] at hok; exact ⟨_, hok.1.symm, hok.2.1.symm⟩
  | missing => simp only [run, Except.ok.injEq, Prod.mk.injEq] at hok; exact ⟨_, hok.1.symm, hok.2.1.symm⟩
  | «exists» img h =>
    simp only [run] at hok
    cases hr : ErrorMap.readmap be wf img h 0 0 none none with
    | error e => rw [hr] at hok; simp [Except.map] at hok
    | ok m1 => rw [hr] at hok; simp only [Except.map, Except.ok.injEq, Prod.mk.injEq] at hok; exact ⟨m1, hok.1.symm, hok.2.1.symm⟩

/-- **C120.** On an even grid the map that is returned - new or read - has been added to the phase as prop_add_phase does, twice for a mirror surface; with NO_APPLY the wavefront is left alone. -/
theorem C120_adds_phase (he : Even n) (be : ErrorMap.Backend) (wf wf' : WF n) (amp b c : ℝ) (a : Args) (hA : a.AMPLITUDE = none) (u : ZMod n → ZMod n → ℝ) (f : File) (m : ZMod n → ZMod n → ℝ)
    (o : Option (Cubic.Img × ErrorMap.Header)) (hok : run be wf amp b c a u f = .ok (wf', m, o)) :
    (a.NO_APPLY = false → wf' = addPhase wf (if a.MIRROR then fun j i => 2 * m j i else m)) ∧ (a.NO_APPLY = true → wf' = wf) := by
  obtain ⟨m0, e1, e2⟩ := run_ok hok
  have hs : shiftCenter m = adjusted a m0 := by rw [e2, C58_twice_even he he]
  constructor
  · intro h
    rw [e1, apply, h, hA]
    unfold addPhase
    dsimp only
    cases hm : a.MIRROR with
    | false => simp only [if_false, Bool.false_eq_true, hs]
    | true =>
      simp only [if_true, Bool.false_eq_true, if_false]
      congr 1
      funext j i
      have : shiftCenter (fun j i => 2 * m j i) j i = 2 * adjusted a m0 j i := by rw [← hs]; rfl
      rw [this]
      congr 2
      push_cast
      ring
  · intro h
    rw [e1, apply, h]
    rfl

/-- **C120, violated.** The sign of a surface is the opposite of prop_errormap's: the same file applied as a mirror surface by both functions, one after the other, has no effect - on even grids, with every file. -/
theorem C120_mirror_sign_violated (he : Even n) (be : ErrorMap.Backend) (sz : Bool) (wf wf1 wf2 : WF n) (amp b c : ℝ) (a : Args) (hA : a.AMPLITUDE = none) (hM : a.MIRROR = true) (hN : a.NO_APPLY = false)
    (u : ZMod n → ZMod n → ℝ) (img : Cubic.Img) (h : ErrorMap.Header) (m1 m2 : ZMod n → ZMod n → ℝ) (o : Option (Cubic.Img × ErrorMap.Header))
    (h1 : run be wf amp b c a u (.exists img h) = .ok (wf1, m1, o)) (h2 : ErrorMap.errormap be sz wf1 img h { MIRROR_SURFACE := true } = .ok (wf2, m2)) : m1 = m2 ∧ wf2 = wf := by
  have e1 := (C120_adds_phase he be wf wf1 amp b c a hA u _ m1 o h1).1 hN
  have e2 := ErrorMap.C112_adds_phase he be sz wf1 wf2 img h _ m2 h2
  have hdx : wf1.dx = wf.dx ∧ Masks.beamradius wf1 = Masks.beamradius wf := by rw [e1]; exact ⟨rfl, rfl⟩
  have hm : m1 = m2 := by
    simp only [run] at h1
    cases hr : ErrorMap.readmap be wf img h 0 0 none none with
    | error e => rw [hr] at h1; simp [Except.map] at h1
    | ok m0 =>
      rw [hr] at h1
      simp only [Except.map, Except.ok.injEq, Prod.mk.injEq] at h1
      have hr1 : ErrorMap.readmap be wf1 img h 0 0 none none = .ok m0 := by
        rw [← hr]; unfold ErrorMap.readmap; rw [hdx.1, hdx.2]
      simp only [ErrorMap.errormap, ErrorMap.checks, ErrorMap.load, ErrorMap.turn, ErrorMap.scaleBy, ErrorMap.use, hr1] at h2
      simp [bind, Except.bind, pure, Except.pure, Functor.map, Except.map] at h2
      rw [← h1.2.1, ← h2.2]
      unfold adjusted
      rw [hA]
  refine ⟨hm, ?_⟩
  rw [e2, e1, hM]
  subst hm
  simp only [if_true, addPhase]
  have : ∀ j i, wf.arr j i * exp (2 * Real.pi * I / wf.lam * (shiftCenter (fun j i => 2 * m1 j i) j i : ℝ)) * exp (2 * Real.pi * I / wf.lam * (shiftCenter (fun j i => -2 * m1 j i) j i : ℝ)) = wf.arr j i := by
    intro j i
    have e3 : shiftCenter (fun j i => -2 * m1 j i) j i = -(shiftCenter (fun j i => 2 * m1 j i) j i) := by
      change -2 * m1 _ _ = -(2 * m1 _ _); ring
    rw [e3, mul_assoc, ← exp_add]
    push_cast
    rw [show ∀ x y : ℂ, x * y + x * -y = 0 by intro x y; ring, exp_zero, mul_one]
  simp only [this]

/-! ## Files -/

/-- **C120.** If the file exists, `amp`, `b`, `c`, the random numbers and the options of the PSD have no influence. -/
theorem C120_file (be : ErrorMap.Backend) (wf : WF n) (amp b c amp' b' c' : ℝ) (a : Args) (u u' : ZMod n → ZMod n → ℝ) (img : Cubic.Img) (h : ErrorMap.Header) (mf : Option ℝ) (rms tpf : Bool) (inc rot : ℝ) :
    run be wf amp b c a u (.exists img h) = run be wf amp' b' c' { a with MAX_FREQUENCY := mf, RMS := rms, TPF := tpf, INCLINATION := inc, ROTATION := rot } u' (.exists img h) := rfl

/-- **C120.** A map written to the file and read again by a second call (same grid and sampling, with the C library) is the same, except in the first two and the last rows and columns, where it is repeated
from inside (wavefront and surface maps, even grids from 4 pixels). -/
theorem C120_reread (he : Even n) (h4 : 4 ≤ n) (be : ErrorMap.Backend) (wf wf1 wf2 : WF n) (hdx : wf.dx ≠ 0) (hsame : wf2.dx = wf.dx) (amp b c amp' b' c' : ℝ) (a a' : Args) (hA : a'.AMPLITUDE = none)
    (u u' : ZMod n → ZMod n → ℝ) (m : ZMod n → ZMod n → ℝ) (o : Option (Cubic.Img × ErrorMap.Header)) (h1 : run be wf amp b c a u .missing = .ok (wf1, m, o)) :
    ∃ img h wf3 m2, o = some (img, h) ∧ run .library wf2 amp' b' c' a' u' (.exists img h) = .ok (wf3, m2, none) ∧
      ∀ j i : ℕ, j < n → i < n → m2 j i = m (Cubic.clampPix n j : ℤ) (Cubic.clampPix n i : ℤ) := by
  simp only [run, Except.ok.injEq, Prod.mk.injEq] at h1
  obtain ⟨-, hm, ho⟩ := h1
  refine ⟨_, _, _, _, ho.symm, rfl, ?_⟩
  intro j i hj hi
  have hadj (x : ZMod n → ZMod n → ℝ) : adjusted a' x = x := by unfold adjusted; rw [hA]
  rw [hadj, C58_twice_even he he]
  unfold ErrorMap.ofImg
  rw [hsame, ZMod.val_cast_of_lt hj, ZMod.val_cast_of_lt hi]
  have := ErrorMap.C112_aligned n h4 wf.dx hdx (ErrorMap.toImg m) rfl rfl rfl 0 j i hj hi
  rw [← hm]
  rw [← hm] at this
  have hpos (p : ℤ) (hp : 0 ≤ p) : ((p.toNat : ℕ) : ZMod n) = (p : ZMod n) := by
    rw [← Int.cast_natCast, Int.toNat_of_nonneg hp]
  have hc (p : ℕ) (hp : p < n) : 0 ≤ Cubic.clampPix n p := by
    unfold Cubic.clampPix; split_ifs <;> omega
  refine Eq.trans ?_ (this.trans ?_)
  · rfl
  · unfold Cubic.Img.at ErrorMap.toImg
    dsimp only
    rw [hpos _ (hc j hj), hpos _ (hc i hi)]

/-! ## A draw for which everything is known: all random numbers 1/2 (phases 0) -/

theorem kpsd_nonneg (a : Args) (dx : ℝ) (hdx : 0 < dx) (j i : ZMod n) : 0 ≤ kpsd a dx j i := by
  have hn : (0 : ℝ) < n := by exact_mod_cast NeZero.pos n
  unfold kpsd dk
  positivity

theorem psd2d_pos (a : Args) (dx amp b c : ℝ) (hdx : 0 < dx) (ha : 0 < amp) (hb : 0 < b) (j i : ZMod n) (h : ¬ (j = ((n / 2 : ℕ) : ZMod n) ∧ i = ((n / 2 : ℕ) : ZMod n))) : 0 < psd2d a dx amp b c j i := by
  have hk := kpsd_nonneg a dx hdx j i
  have hkb : 0 ≤ kpsd a dx j i / b := div_nonneg hk hb.le
  unfold psd2d
  rw [if_neg h]
  split_ifs
  · have := Real.rpow_nonneg hkb c
    positivity
  · have h1 : 0 < 1 + (kpsd a dx j i / b) ^ (2 : ℕ) := by positivity
    have := Real.rpow_pos_of_pos h1 ((c + 1) / 2)
    positivity

theorem psd2d_nonneg (a : Args) (dx amp b c : ℝ) (hdx : 0 < dx) (ha : 0 < amp) (hb : 0 < b) (j i : ZMod n) : 0 ≤ psd2d a dx amp b c j i := by
  by_cases h : j = ((n / 2 : ℕ) : ZMod n) ∧ i = ((n / 2 : ℕ) : ZMod n)
  · unfold psd2d; rw [if_pos h]
  · exact (psd2d_pos a dx amp b c hdx ha hb j i h).le

theorem spectrum_half (a : Args) (hM : a.MAX_FREQUENCY = none) (dx amp b c : ℝ) : spectrum (n := n) a dx amp b c (fun _ _ => 1 / 2) = shiftCenter fun j i => ((Real.sqrt (psd2d a dx amp b c j i) / dk n dx : ℝ) : ℂ) := by
  unfold spectrum cutPsd
  rw [hM]
  have : (2 * Real.pi * (1 / 2) - Real.pi : ℝ) = 0 := by ring
  simp only [this, Complex.ofReal_zero, mul_zero, exp_zero, mul_one]

theorem one_ne (h2 : 2 ≤ n) : (1 : ZMod n) ≠ 0 := by
  have : Fact (1 < n) := ⟨by omega⟩
  exact one_ne_zero

theorem std_zero (m : ZMod n → ZMod n → ℝ) (h : std m = 0) (j i : ZMod n) : m j i = mean m := by
  have hn := nn_pos (n := n)
  unfold std at h
  rw [Real.sqrt_eq_zero (by positivity), div_eq_zero_iff, or_iff_left hn.ne', Finset.sum_eq_zero_iff_of_nonneg (fun j _ => Finset.sum_nonneg fun i _ => sq_nonneg _)] at h
  have h1 := h j (Finset.mem_univ _)
  rw [Finset.sum_eq_zero_iff_of_nonneg (fun i _ => sq_nonneg _)] at h1
  have := pow_eq_zero_iff (two_ne_zero) |>.mp (h1 i (Finset.mem_univ _))
  linarith

theorem raw_origin (a : Args) (hM : a.MAX_FREQUENCY = none) (dx amp b c : ℝ) : rawMap (n := n) a dx amp b c (fun _ _ => 1 / 2) 0 0 =
    (∑ j : ZMod n, ∑ i : ZMod n, shiftCenter (fun j i => Real.sqrt (psd2d a dx amp b c j i) / dk n dx) j i) / ((n : ℝ) * n) / ((n : ℝ) ^ 2 * dx ^ 2) := by
  have hsum : fft2 (spectrum (n := n) a dx amp b c (fun _ _ => 1 / 2)) 0 0 = ((∑ j : ZMod n, ∑ i : ZMod n, shiftCenter (fun j i => Real.sqrt (psd2d a dx amp b c j i) / dk n dx) j i : ℝ) : ℂ) := by
    rw [spectrum_half a hM]
    simp only [fft2, fft1]
    push_cast
    refine Finset.sum_congr rfl fun j _ => ?_
    simp
    refine Finset.sum_congr rfl fun i _ => ?_
    unfold shiftCenter roll2
    push_cast
    rfl
  unfold rawMap
  rw [hsum, show ((n : ℂ) * n) = (((n : ℝ) * n : ℝ) : ℂ) by push_cast; rfl, ← Complex.ofReal_div, Complex.ofReal_re]

theorem raw_origin_pos (h2 : 2 ≤ n) (a : Args) (hM : a.MAX_FREQUENCY = none) (dx amp b c : ℝ) (hdx : 0 < dx) (ha : 0 < amp) (hb : 0 < b) : 0 < rawMap (n := n) a dx amp b c (fun _ _ => 1 / 2) 0 0 := by
  have hn : (0 : ℝ) < n := by exact_mod_cast NeZero.pos n
  have hdk : 0 < dk n dx := by unfold dk; positivity
  rw [raw_origin a hM]
  have hpos : 0 < ∑ j : ZMod n, ∑ i : ZMod n, shiftCenter (fun j i => Real.sqrt (psd2d a dx amp b c j i) / dk n dx) j i := by
    rw [sum_shift (fun j i => Real.sqrt (psd2d a dx amp b c j i) / dk n dx) fun x => x]
    refine Finset.sum_pos' (fun j _ => Finset.sum_nonneg fun i _ => by positivity) ⟨((n / 2 : ℕ) : ZMod n) + 1, Finset.mem_univ _, ?_⟩
    refine Finset.sum_pos' (fun i _ => by positivity) ⟨0, Finset.mem_univ _, ?_⟩
    have := psd2d_pos a dx amp b c hdx ha hb (((n / 2 : ℕ) : ZMod n) + 1) 0 (fun h => one_ne h2 (by simpa using h.1))
    positivity
  positivity

/-- with these numbers the map is not flat and the RMS of the PSD is positive: the hypotheses of the theorems above are met on every even grid, with all positive `amp` and `b` and every `c` -/
theorem half_not_flat (he : Even n) (a : Args) (hM : a.MAX_FREQUENCY = none) (dx amp b c : ℝ) (hdx : 0 < dx) (ha : 0 < amp) (hb : 0 < b) :
    std (rawMap (n := n) a dx amp b c (fun _ _ => 1 / 2)) ≠ 0 ∧ 0 < if a.RMS = false then rmsPsd a dx amp b c n else amp := by
  have h2 : 2 ≤ n := by
    obtain ⟨m, hm⟩ := he
    have := NeZero.pos n
    omega
  have hn : (0 : ℝ) < n := by exact_mod_cast NeZero.pos n
  constructor
  · have hp := raw_origin_pos h2 a hM dx amp b c hdx ha hb
    unfold std
    rw [mean_raw_even he, Real.sqrt_ne_zero']
    refine div_pos ?_ nn_pos
    refine Finset.sum_pos' (fun j _ => Finset.sum_nonneg fun i _ => by positivity) ⟨0, Finset.mem_univ _, ?_⟩
    refine Finset.sum_pos' (fun i _ => by positivity) ⟨0, Finset.mem_univ _, ?_⟩
    rw [sub_zero]
    positivity
  · split_ifs
    · unfold rmsPsd dk
      refine mul_pos (Real.sqrt_pos.mpr ?_) (by positivity)
      refine Finset.sum_pos' (fun j _ => Finset.sum_nonneg fun i _ => psd2d_nonneg a dx amp b c hdx ha hb j i) ⟨((n / 2 : ℕ) : ZMod n) + 1, Finset.mem_univ _, ?_⟩
      refine Finset.sum_pos' (fun i _ => psd2d_nonneg a dx amp b c hdx ha hb _ i) ⟨0, Finset.mem_univ _, ?_⟩
      exact psd2d_pos a dx amp b c hdx ha hb _ 0 (fun h => one_ne h2 (by simpa using h.1))
    · exact ha

/-- and their factor is 1 at every frequency -/
theorem factor_half (k l : ZMod n) : factor (fun _ _ => 1 / 2) k l = 1 := by
  have : (2 * Real.pi * (1 / 2) - Real.pi : ℝ) = 0 := by ring
  simp only [factor, this, Complex.ofReal_zero, mul_zero, neg_zero, exp_zero]
  norm_num

/-- the same with MAX_FREQUENCY, if the lowest frequency of the grid is not above it -/
theorem half_not_flat_max (he : Even n) (a : Args) (hr : a.ROTATION = 0) (hi : a.INCLINATION = 0) (M : ℝ) (hM : a.MAX_FREQUENCY = some M) (dx amp b c : ℝ) (hdx : 0 < dx) (ha : 0 < amp) (hb : 0 < b)
    (hlow : freq2 n dx 1 0 ≤ M) : std (rawMap (n := n) a dx amp b c (fun _ _ => 1 / 2)) ≠ 0 := by
  have h2 : 2 ≤ n := by
    obtain ⟨m, hm⟩ := he
    have := NeZero.pos n
    omega
  have hn : (0 : ℝ) < n := by exact_mod_cast NeZero.pos n
  have hdk : 0 < dk n dx := by unfold dk; positivity
  have hf : 0 < freq2 n dx 1 0 := by
    unfold freq2
    refine Real.sqrt_pos.mpr ?_
    have : freq n dx 1 ≠ 0 := by
      have : Fact (1 < n) := ⟨by omega⟩
      unfold freq fftfreq
      rw [ZMod.val_one n]
      refine div_ne_zero ?_ (by positivity)
      split_ifs with h
      · simp
      · have : (2 : ℝ) ≤ n := by exact_mod_cast h2
        push_cast
        linarith
    positivity
  have hcut : dft (rawMap (n := n) a dx amp b c (fun _ _ => 1 / 2)) 1 0 ≠ 0 := by
    rw [dft_raw he a dx amp b c _ 1 0 (cut_sym he dx hdx a hr hi amp b c 1 0), factor_half, mul_one, Complex.ofReal_ne_zero, cut_eq he dx hdx a hr hi, hM, if_neg (fun h => one_ne h2 h.1)]
    simp only [not_lt.mpr hlow, gt_iff_lt, if_false]
    have hp : 0 < Psd a.TPF amp b c (freq2 n dx 1 0) := by
      have := psd2d_pos (n := n) a dx amp b c hdx ha hb (1 + ((n / 2 : ℕ) : ZMod n)) (0 + ((n / 2 : ℕ) : ZMod n)) (fun h => one_ne h2 (by simpa using h.1))
      rw [psd2d_eq he dx hdx a hr hi, if_neg (fun h => one_ne h2 h.1)] at this
      exact this
    positivity
  intro h0
  apply hcut
  have e : rawMap (n := n) a dx amp b c (fun _ _ => 1 / 2) = fun _ _ => 0 := by
    funext j i
    rw [std_zero _ h0, mean_raw_even he]
  unfold dft
  rw [e]
  simp [fft2, fft1]

/-- **C120, violated.** On grids of odd size the map has a piston: with all random numbers 1/2 the mean of the map is not 0, for all odd sizes from 3, positive `amp` and `b` and every `c`. -/
theorem C120_odd_violated (ho : Odd n) (h3 : 3 ≤ n) (be : ErrorMap.Backend) (wf : WF n) (hdx : 0 < wf.dx) (amp b c : ℝ) (ha : 0 < amp) (hb : 0 < b) :
    ∃ wf' m o, run be wf amp b c {} (fun _ _ => 1 / 2) .none = .ok (wf', m, o) ∧ 0 < mean m := by
  refine ⟨_, _, _, rfl, ?_⟩
  have hn : (0 : ℝ) < n := by exact_mod_cast NeZero.pos n
  have hdk : 0 < dk n wf.dx := by unfold dk; positivity
  have hne : ¬ ((0 - (((n / 2 : ℕ) : ℤ) : ZMod n)) = ((n / 2 : ℕ) : ZMod n) ∧ (0 - (((n / 2 : ℕ) : ℤ) : ZMod n)) = ((n / 2 : ℕ) : ZMod n)) := by
    rintro ⟨h, -⟩
    rw [zero_sub, Int.cast_natCast, neg_eq_iff_add_eq_zero, ← Nat.cast_add, ZMod.natCast_eq_zero_iff] at h
    have := Nat.le_of_dvd (by omega) h
    obtain ⟨m, hm⟩ := ho
    omega
  have hp := psd2d_pos (n := n) {} wf.dx amp b c hdx ha hb _ _ hne
  have h1 : (0 : ℝ) < (shiftCenter (fun j i : ZMod n => ((Real.sqrt (psd2d {} wf.dx amp b c j i) / dk n wf.dx : ℝ) : ℂ)) 0 0).re := by
    change 0 < (((Real.sqrt (psd2d {} wf.dx amp b c _ _) / dk n wf.dx : ℝ) : ℂ)).re
    rw [Complex.ofReal_re]
    positivity
  have hflat : std (rawMap (n := n) {} wf.dx amp b c (fun _ _ => 1 / 2)) ≠ 0 := by
    intro h0
    have e := std_zero _ h0 0 0
    rw [mean_raw, spectrum_half {} rfl, raw_origin _ rfl] at e
    have e2 : ∑ j : ZMod n, ∑ i : ZMod n, shiftCenter (fun j i => Real.sqrt (psd2d {} wf.dx amp b c j i) / dk n wf.dx) j i = shiftCenter (fun j i : ZMod n => Real.sqrt (psd2d {} wf.dx amp b c j i) / dk n wf.dx) 0 0 := by
      have hx : (0 : ℝ) < (n : ℝ) * n := nn_pos
      have hy : 0 < (n : ℝ) ^ 2 * wf.dx ^ 2 := by positivity
      rw [div_left_inj' hy.ne', div_left_inj' hx.ne'] at e
      rw [e]
      unfold shiftCenter roll2
      rw [Complex.ofReal_re]
    have e3 := Finset.add_sum_erase Finset.univ (fun p : ZMod n × ZMod n => shiftCenter (fun j i => Real.sqrt (psd2d {} wf.dx amp b c j i) / dk n wf.dx) p.1 p.2) (Finset.mem_univ ((0, 0) : ZMod n × ZMod n))
    rw [Fintype.sum_prod_type, e2] at e3
    have e4 : 0 < ∑ p ∈ Finset.univ.erase ((0, 0) : ZMod n × ZMod n), shiftCenter (fun j i => Real.sqrt (psd2d {} wf.dx amp b c j i) / dk n wf.dx) p.1 p.2 := by
      refine Finset.sum_pos' (fun p _ => by unfold shiftCenter roll2; positivity) ⟨(1, 0), Finset.mem_erase.mpr ⟨fun h => one_ne (by omega) (congrArg Prod.fst h), Finset.mem_univ _⟩, ?_⟩
      have hq := psd2d_pos (n := n) {} wf.dx amp b c hdx ha hb (1 - (((n / 2 : ℕ) : ℤ) : ZMod n)) (0 - (((n / 2 : ℕ) : ℤ) : ZMod n)) (fun h => hne ⟨h.2, h.2⟩)
      change 0 < Real.sqrt (psd2d {} wf.dx amp b c (1 - (((n / 2 : ℕ) : ℤ) : ZMod n)) (0 - (((n / 2 : ℕ) : ℤ) : ZMod n))) / dk n wf.dx
      positivity
    linarith
  have hs : 0 < std (rawMap (n := n) {} wf.dx amp b c (fun _ _ => 1 / 2)) := lt_of_le_of_ne (std_nonneg _) (Ne.symm hflat)
  rw [mean_shift]
  have : adjusted {} (newMap (n := n) {} wf.dx amp b c (fun _ _ => 1 / 2)) = newMap {} wf.dx amp b c (fun _ _ => 1 / 2) := rfl
  rw [this, newMap_scale]
  have := mean_affine (rawMap (n := n) {} wf.dx amp b c (fun _ _ => 1 / 2)) ((if ({} : Args).RMS = false ∧ ({} : Args).AMPLITUDE = none then rmsPsd {} wf.dx amp b c n else amp) / std (rawMap (n := n) {} wf.dx amp b c (fun _ _ => 1 / 2))) 0
  rw [show ∀ f : ZMod n → ZMod n → ℝ, (fun j i => f j i + 0) = f from fun f => by funext j i; rw [add_zero]] at this
  rw [this, add_zero, mean_raw, spectrum_half {} rfl]
  have h2 : 0 < rmsPsd ({} : Args) wf.dx amp b c n := by
    unfold rmsPsd
    refine mul_pos (Real.sqrt_pos.mpr ?_) hdk
    refine Finset.sum_pos' (fun j _ => Finset.sum_nonneg fun i _ => psd2d_nonneg _ _ amp b c hdx ha hb j i) ⟨0 - (((n / 2 : ℕ) : ℤ) : ZMod n), Finset.mem_univ _, ?_⟩
    exact Finset.sum_pos' (fun i _ => psd2d_nonneg _ _ amp b c hdx ha hb _ i) ⟨_, Finset.mem_univ _, hp⟩
  rw [if_pos ⟨rfl, rfl⟩]
  positivity

end Verif.PsdMap
