import Verif.Model.PsdMap
import Verif.Props.ErrorMap
import Verif.Props.ProperShift
import Verif.Props.Downsample

/-! # C120: error maps made from a power spectral density -/

namespace Verif.PsdMap
open Verif Complex Verif.Proper Verif.Optics

variable {n : ℕ} [NeZero n]

/-! ## Specification -/

/-- The documented PSD at the spatial frequency `k` (cycles per metre). -/
noncomputable def Psd (tpf : Bool) (amp b c k : ℝ) : ℝ := if tpf then amp / (1 + (k / b) ^ c) else amp / (1 + (k / b) ^ (2 : ℕ)) ^ ((c + 1) / 2)

/-- The spatial frequency (cycles per metre) of index `k` of the discrete Fourier transform of `n` samples with spacing `dx`: `k/(n dx)`, from `n/2` on the negative one. -/
noncomputable def freq (n : ℕ) (dx : ℝ) (k : ZMod n) : ℝ := fftfreq n dx k

/-- The length of the frequency vector. -/
noncomputable def freq2 (n : ℕ) (dx : ℝ) (k l : ZMod n) : ℝ := Real.sqrt (freq n dx k ^ 2 + freq n dx l ^ 2)

/-- The discrete Fourier transform of a map. -/
noncomputable def dft (m : ZMod n → ZMod n → ℝ) : ZMod n → ZMod n → ℂ := fft2 fun j i => (m j i : ℂ)

/-! ## Sums -/

theorem sum_shift (m : ZMod n → ZMod n → ℝ) (f : ℝ → ℝ) : ∑ j, ∑ i, f (shiftCenter m j i) = ∑ j, ∑ i, f (m j i) := by
  unfold shiftCenter roll2
  refine (Fintype.sum_equiv (Equiv.subRight (((n / 2 : ℕ) : ℤ) : ZMod n)) _ (fun j => ∑ i, f (m j (i - (((n / 2 : ℕ) : ℤ) : ZMod n)))) (fun j => rfl)).trans ?_
  refine Finset.sum_congr rfl fun j _ => ?_
  exact Fintype.sum_equiv (Equiv.subRight (((n / 2 : ℕ) : ℤ) : ZMod n)) _ (fun i => f (m j i)) (fun i => rfl)

theorem mean_shift (m : ZMod n → ZMod n → ℝ) : mean (shiftCenter m) = mean m := by
  unfold mean; rw [sum_shift m fun x => x]

theorem std_shift (m : ZMod n → ZMod n → ℝ) : std (shiftCenter m) = std m := by
  unfold std; rw [mean_shift, sum_shift m fun x => (x - mean m) ^ 2]

theorem nn_pos : (0 : ℝ) < (n : ℝ) * n := by
  have : (0 : ℝ) < n := by exact_mod_cast NeZero.pos n
  positivity

theorem mean_affine (m : ZMod n → ZMod n → ℝ) (s t : ℝ) : mean (fun j i => m j i * s + t) = mean m * s + t := by
  have h := nn_pos (n := n)
  unfold mean
  simp only [Finset.sum_add_distrib, ← Finset.sum_mul, Finset.sum_const, Finset.card_univ, ZMod.card, nsmul_eq_mul]
  have hn : (n : ℝ) ≠ 0 := by exact_mod_cast NeZero.ne n
  field_simp

theorem std_affine (m : ZMod n → ZMod n → ℝ) (s t : ℝ) : std (fun j i => m j i * s + t) = std m * |s| := by
  unfold std
  rw [mean_affine]
  have : ∀ j i, (m j i * s + t - (mean m * s + t)) ^ 2 = (m j i - mean m) ^ 2 * s ^ 2 := fun j i => by ring
  simp only [this, ← Finset.sum_mul]
  rw [mul_div_right_comm, Real.sqrt_mul (by positivity), Real.sqrt_sq_eq_abs]

theorem std_scale (m : ZMod n → ZMod n → ℝ) (s : ℝ) : std (fun j i => m j i * s) = std m * |s| := by
  have := std_affine m s 0
  simpa using this

theorem std_nonneg (m : ZMod n → ZMod n → ℝ) : 0 ≤ std m := Real.sqrt_nonneg _

/-! ## Frequencies -/

theorem centre_freq (he : Even n) (dx : ℝ) (k : ZMod n) : ((((k + ((n / 2 : ℕ) : ZMod n)).val : ℕ) : ℝ) - (n / 2 : ℕ)) * dk n dx = freq n dx k := by
  obtain ⟨m, hm⟩ := he
  have hm2 : n = 2 * m := by omega
  have h2 : n / 2 = m := by omega
  have hz : ((m : ℕ) : ZMod n) + ((m : ℕ) : ZMod n) = 0 := by
    rw [← Nat.cast_add, ← hm]; exact ZMod.natCast_self n
  have e : k + ((m : ℕ) : ZMod n) = k - ((m : ℕ) : ZMod n) := by
    rw [eq_sub_iff_add_eq, add_assoc, hz, add_zero]
  rw [h2, e, val_shift_even hm2]
  unfold freq fftfreq dk
  ring

/-- The frequency used for the pixel that the transform sees at index `(k, l)`, without rotation and inclination. -/
theorem kpsd_eq (he : Even n) (dx : ℝ) (hdx : 0 < dx) (a : Args) (hr : a.ROTATION = 0) (hi : a.INCLINATION = 0) (k l : ZMod n) :
    kpsd a dx (k + ((n / 2 : ℕ) : ZMod n)) (l + ((n / 2 : ℕ) : ZMod n)) = freq2 n dx k l := by
  have hn : (0 : ℝ) < n := by exact_mod_cast NeZero.pos n
  have hd : 0 < dk n dx := by unfold dk; positivity
  unfold kpsd freq2
  rw [← Real.sqrt_sq hd.le, ← Real.sqrt_mul (by positivity)]
  congr 1
  rw [← centre_freq he, ← centre_freq he]
  simp only [xk, yk, hr, hi]
  simp
  ring

theorem shift_index (he : Even n) {α : Type*} (A : ZMod n → ZMod n → α) (k l : ZMod n) : shiftCenter A k l = A (k + ((n / 2 : ℕ) : ZMod n)) (l + ((n / 2 : ℕ) : ZMod n)) := by
  obtain ⟨m, hm⟩ := he
  have h2 : n / 2 = m := by omega
  have hz : ((m : ℕ) : ZMod n) + ((m : ℕ) : ZMod n) = 0 := by
    rw [← Nat.cast_add, ← hm]; exact ZMod.natCast_self n
  have e (k : ZMod n) : k - (((m : ℕ) : ℤ) : ZMod n) = k + ((m : ℕ) : ZMod n) := by
    rw [Int.cast_natCast, sub_eq_iff_eq_add, add_assoc, hz, add_zero]
  unfold shiftCenter roll2
  rw [h2, e, e]

theorem psd2d_eq (he : Even n) (dx : ℝ) (hdx : 0 < dx) (a : Args) (hr : a.ROTATION = 0) (hi : a.INCLINATION = 0) (amp b c : ℝ) (k l : ZMod n) :
    psd2d a dx amp b c (k + ((n / 2 : ℕ) : ZMod n)) (l + ((n / 2 : ℕ) : ZMod n)) = if k = 0 ∧ l = 0 then 0 else Psd a.TPF amp b c (freq2 n dx k l) := by
  unfold psd2d
  rw [kpsd_eq he dx hdx a hr hi]
  simp only [add_eq_right]
  rfl

/-- the RMS error that the PSD stands for -/
theorem rmsPsd_eq (he : Even n) (dx : ℝ) (hdx : 0 < dx) (a : Args) (hr : a.ROTATION = 0) (hi : a.INCLINATION = 0) (amp b c : ℝ) :
    rmsPsd a dx amp b c n = Real.sqrt (∑ k : ZMod n, ∑ l : ZMod n, if k = 0 ∧ l = 0 then 0 else Psd a.TPF amp b c (freq2 n dx k l)) * (1 / (n * dx)) := by
  unfold rmsPsd
  congr 2
  have := sum_shift (psd2d (n := n) a dx amp b c) fun x => x
  rw [← this]
  simp only [shift_index he, psd2d_eq he dx hdx a hr hi]

/-! ## The map returned -/

theorem newMap_scale (a : Args) (dx amp b c : ℝ) (u : ZMod n → ZMod n → ℝ) :
    newMap a dx amp b c u = fun j i => rawMap a dx amp b c u j i * ((if a.RMS = false ∧ a.AMPLITUDE = none then rmsPsd a dx amp b c n else amp) / std (rawMap a dx amp b c u)) := by
  funext j i
  unfold newMap
  split_ifs <;> rfl

theorem std_newMap (a : Args) (dx amp b c : ℝ) (u : ZMod n → ZMod n → ℝ) (h : std (rawMap a dx amp b c u) ≠ 0) :
    std (newMap a dx amp b c u) = |if a.RMS = false ∧ a.AMPLITUDE = none then rmsPsd a dx amp b c n else amp| := by
  rw [newMap_scale, std_scale, abs_div, abs_of_nonneg (std_nonneg _)]
  field_simp

theorem std_adjusted (a : Args) (m : ZMod n → ZMod n → ℝ) : std (adjusted a m) = std m := by
  unfold adjusted
  cases a.AMPLITUDE with
  | some A =>
    have := std_affine m 1 (A - maxMap m)
    simp only [mul_one, abs_one] at this
    exact this
  | none => rfl

/-- A new map is made and returned. -/
def New (f : File) : Prop := ∀ img h, f ≠ .exists img h

theorem run_new {be : ErrorMap.Backend} {wf : WF n} {amp b c : ℝ} {a : Args} {u : ZMod n → ZMod n → ℝ} {f : File} (hf : New f) :
    ∃ o, run be wf amp b c a u f = .ok (apply a wf (adjusted a (newMap a wf.dx amp b c u)), shiftCenter (adjusted a (newMap a wf.dx amp b c u)), o) := by
  match f, hf with
  | .missing, _ => exact ⟨_, rfl⟩
  | .none, _ => exact ⟨_, rfl⟩
  | .exists img h, hf => exact absurd rfl (hf img h)

/-- **C120.** Whatever the random numbers (unless the map they make is flat), a new map has the RMS about its mean that the PSD stands for - the square root of the sum of the PSD over all frequencies
of the grid but zero, times the frequency step - or the RMS `amp`, if RMS or AMPLITUDE is given. (Even grids, no rotation or inclination.) -/
theorem C120_rms (he : Even n) (be : ErrorMap.Backend) (wf : WF n) (hdx : 0 < wf.dx) (amp b c : ℝ) (a : Args) (hr : a.ROTATION = 0) (hi : a.INCLINATION = 0) (u : ZMod n → ZMod n → ℝ) (f : File)
    (hf : New f) (hflat : std (rawMap a wf.dx amp b c u) ≠ 0) :
    ∃ wf' m o, run be wf amp b c a u f = .ok (wf', m, o) ∧
      (a.RMS = false ∧ a.AMPLITUDE = none → std m = Real.sqrt (∑ k : ZMod n, ∑ l : ZMod n, if k = 0 ∧ l = 0 then 0 else Psd a.TPF amp b c (freq2 n wf.dx k l)) * (1 / (n * wf.dx))) ∧
      (¬ (a.RMS = false ∧ a.AMPLITUDE = none) → std m = |amp|) := by
  obtain ⟨o, ho⟩ := run_new (be := be) (wf := wf) (amp := amp) (b := b) (c := c) (a := a) (u := u) hf
  have hn : (0 : ℝ) < n := by exact_mod_cast NeZero.pos n
  refine ⟨_, _, o, ho, fun h => ?_, fun h => ?_⟩
  · rw [std_shift, std_adjusted, std_newMap _ _ _ _ _ _ hflat, if_pos h, rmsPsd_eq he _ hdx a hr hi, abs_of_nonneg (by positivity)]
  · rw [std_shift, std_adjusted, std_newMap _ _ _ _ _ _ hflat, if_neg h]

/-- The mean of a real part of a transform. -/
theorem mean_raw (a : Args) (dx amp b c : ℝ) (u : ZMod n → ZMod n → ℝ) :
    mean (rawMap a dx amp b c u) = (spectrum a dx amp b c u 0 0).re / ((n : ℝ) * n) / ((n : ℝ) ^ 2 * dx ^ 2) := by
  have hs : ∑ j, ∑ i, fft2 (spectrum a dx amp b c u) j i = (n : ℂ) ^ 2 * spectrum a dx amp b c u 0 0 := by
    have h := Downsample.fft2_neg n (fft2 (spectrum a dx amp b c u)) 0 0
    rw [ifft2_fft2] at h
    rw [← h]
    simp only [neg_zero, fft2, fft1, ZMod.dft_apply]
    simp
  have hn : (n : ℝ) ≠ 0 := by exact_mod_cast NeZero.ne n
  have hre : ∀ j i, (fft2 (spectrum a dx amp b c u) j i / ((n : ℂ) * n)).re = (fft2 (spectrum a dx amp b c u) j i).re / ((n : ℝ) * n) := by
    intro j i
    rw [show ((n : ℂ) * n) = (((n : ℝ) * n : ℝ) : ℂ) by push_cast; rfl, Complex.div_ofReal_re]
  unfold mean rawMap
  simp only [hre, ← Finset.sum_div]
  rw [show (∑ j, ∑ i, (fft2 (spectrum a dx amp b c u) j i).re) = (∑ j, ∑ i, fft2 (spectrum a dx amp b c u) j i).re by simp, hs]
  rw [show ((n : ℂ) ^ 2 * spectrum a dx amp b c u 0 0).re = (n : ℝ) ^ 2 * (spectrum a dx amp b c u 0 0).re by
    rw [show ((n : ℂ) ^ 2) = (((n : ℝ) ^ 2 : ℝ) : ℂ) by push_cast; rfl, Complex.re_ofReal_mul]]
  field_simp

theorem cut_centre (a : Args) (dx amp b c : ℝ) : cutPsd (n := n) a dx amp b c ((n / 2 : ℕ) : ZMod n) ((n / 2 : ℕ) : ZMod n) = 0 := by
  have : psd2d (n := n) a dx amp b c ((n / 2 : ℕ) : ZMod n) ((n / 2 : ℕ) : ZMod n) = 0 := by simp [psd2d]
  unfold cutPsd
  split <;> simp [this]

theorem mean_raw_even (he : Even n) (a : Args) (dx amp b c : ℝ) (u : ZMod n → ZMod n → ℝ) : mean (rawMap a dx amp b c u) = 0 := by
  rw [mean_raw]
  unfold spectrum
  rw [shift_index he, zero_add, cut_centre]
  simp

/-- **C120.** On an even grid a new wavefront or surface map has mean 0 (no piston), with every option and all random numbers. -/
theorem C120_no_piston (he : Even n) (be : ErrorMap.Backend) (wf : WF n) (amp b c : ℝ) (a : Args) (hA : a.AMPLITUDE = none) (u : ZMod n → ZMod n → ℝ) (f : File) (hf : New f) :
    ∃ wf' m o, run be wf amp b c a u f = .ok (wf', m, o) ∧ mean m = 0 := by
  obtain ⟨o, ho⟩ := run_new (be := be) (wf := wf) (amp := amp) (b := b) (c := c) (a := a) (u := u) hf
  refine ⟨_, _, o, ho, ?_⟩
  rw [mean_shift]
  have : adjusted a (newMap a wf.dx amp b c u) = newMap a wf.dx amp b c u := by unfold adjusted; rw [hA]
  rw [this, newMap_scale]
  have := mean_affine (rawMap a wf.dx amp b c u) ((if a.RMS = false ∧ a.AMPLITUDE = none then rmsPsd a wf.dx amp b c n else amp) / std (rawMap a wf.dx amp b c u)) 0
  simp only [add_zero] at this
  rw [this, mean_raw_even he, zero_mul]

/-- **C120.** An amplitude map - new or read from a file - has the maximum AMPLITUDE; it is what the field is multiplied with (even grids), and nothing else is changed. -/
theorem C120_amplitude (he : Even n) (be : ErrorMap.Backend) (wf wf' : WF n) (amp b c : ℝ) (a : Args) (A : ℝ) (hA : a.AMPLITUDE = some A) (u : ZMod n → ZMod n → ℝ) (f : File) (m : ZMod n → ZMod n → ℝ)
    (o : Option (Cubic.Img × ErrorMap.Header)) (hok : run be wf amp b c a u f = .ok (wf', m, o)) :
    (∀ j i, m j i ≤ A) ∧ (∃ j i, m j i = A) ∧
      (a.NO_APPLY = false → wf' = { wf with arr := fun j i => wf.arr j i * (shiftCenter m j i : ℝ) }) ∧ (a.NO_APPLY = true → wf' = wf) := by
  obtain ⟨m0, e1, e2⟩ : ∃ m0, wf' = apply a wf (adjusted a m0) ∧ m = shiftCenter (adjusted a m0) := by
    cases f with
    | none => simp only [run, Except.ok.injEq, Prod.mk.injEq] at hok; exact ⟨_, hok.1.symm, hok.2.1.symm⟩
    | missing => simp only [run, Except.ok.injEq, Prod.mk.injEq] at hok; exact ⟨_, hok.1.symm, hok.2.1.symm⟩
    | «exists» img h =>
      simp only [run] at hok
      cases hr : ErrorMap.readmap be wf img h 0 0 none none with
      | error e => rw [hr] at hok; simp [Except.map] at hok
      | ok m1 => rw [hr] at hok; simp only [Except.map, Except.ok.injEq, Prod.mk.injEq] at hok; exact ⟨m1, hok.1.symm, hok.2.1.symm⟩
  have hadj : adjusted a m0 = fun j i => m0 j i + (A - maxMap m0) := by unfold adjusted; rw [hA]
  refine ⟨fun j i => ?_, ?_, fun h => ?_, fun h => ?_⟩
  · rw [e2, hadj, shift_index he]
    have := Finset.le_sup' (fun p : ZMod n × ZMod n => m0 p.1 p.2) (Finset.mem_univ (j + ((n / 2 : ℕ) : ZMod n), i + ((n / 2 : ℕ) : ZMod n)))
    unfold maxMap
    dsimp only at this
    linarith
  · obtain ⟨p, -, hp⟩ := Finset.exists_mem_eq_sup' (s := (Finset.univ : Finset (ZMod n × ZMod n))) ⟨(0, 0), Finset.mem_univ _⟩ (fun p : ZMod n × ZMod n => m0 p.1 p.2)
    refine ⟨p.1 - ((n / 2 : ℕ) : ZMod n), p.2 - ((n / 2 : ℕ) : ZMod n), ?_⟩
    rw [e2, hadj, shift_index he]
    simp only [sub_add_cancel]
    unfold maxMap
    rw [hp]
    ring
  · rw [e1, e2, C58_twice_even he he]
    unfold apply
    rw [h, hA]
    rfl
  · rw [e1]
    unfold apply
    rw [h]
    rfl

end Verif.PsdMap
