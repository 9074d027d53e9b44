import Verif.Model.Hlc
import Verif.Lemmas.Dm
import Verif.Props.Spectral

/-! # C51 thickness lookup, C52 and C69 wavelength lookup -/

namespace Verif.Hlc
open Verif Verif.Setup

/-! ## C51 -/

/-- The table of thicknesses is an arithmetic progression with the step given. -/
def Uniform (L : Layer) : Prop := 0 < L.dt ∧ ∀ i < L.n, L.t i = L.t 0 + i * L.dt

theorem Uniform.min {L : Layer} (h : Uniform L) : L.min = L.t 0 := by
  refine le_antisymm (Finset.inf'_le _ (Finset.mem_range.2 L.pos)) (Finset.le_inf' _ _ fun i hi => ?_)
  rw [h.2 i (Finset.mem_range.1 hi)]
  have := h.1
  have : 0 ≤ (i : ℝ) * L.dt := by positivity
  linarith

theorem Uniform.max {L : Layer} (h : Uniform L) : L.max = L.t 0 + ((L.n - 1 : ℕ) : ℝ) * L.dt := by
  have hp := L.pos
  have hlast : L.n - 1 < L.n := by omega
  refine le_antisymm (Finset.sup'_le _ _ fun i hi => ?_) ?_
  · rw [h.2 i (Finset.mem_range.1 hi)]
    have : (i : ℝ) ≤ ((L.n - 1 : ℕ) : ℝ) := by
      have := Finset.mem_range.1 hi
      exact_mod_cast (show i ≤ L.n - 1 by omega)
    have := mul_le_mul_of_nonneg_right this h.1.le
    linarith
  · rw [← h.2 _ hlast]
    exact Finset.le_sup' _ (Finset.mem_range.2 hlast)

theorem npRound_nearest (x : ℝ) (k : ℤ) : |(Dm.npRound x : ℝ) - x| ≤ |(k : ℝ) - x| := by
  have h := Dm.npRound_err x
  by_cases hk : k = Dm.npRound x
  · rw [hk]
  · have h1 : (1 : ℝ) ≤ |((k - Dm.npRound x : ℤ) : ℝ)| := by
      rw [← Int.cast_abs]
      exact_mod_cast Int.one_le_abs (sub_ne_zero.2 hk)
    push_cast at h1
    have h2 : |(k : ℝ) - Dm.npRound x| ≤ |(k : ℝ) - x| + |(Dm.npRound x : ℝ) - x| := by
      have := abs_sub_le (k : ℝ) x (Dm.npRound x)
      rwa [abs_sub_comm x] at this
    linarith

theorem npRound_range (x : ℝ) (n : ℕ) (h0 : 0 ≤ x) (h1 : x ≤ n) : 0 ≤ Dm.npRound x ∧ Dm.npRound x ≤ n := by
  have hb := Dm.npRound_bounds x
  constructor
  · by_contra h
    push Not at h
    have h2 : Dm.npRound x ≤ -1 := by omega
    have h3 : (Dm.npRound x : ℝ) ≤ -1 := by exact_mod_cast h2
    linarith [hb.1]
  · by_contra h
    push Not at h
    have h2 : (n : ℤ) + 1 ≤ Dm.npRound x := by omega
    have h3 : (n : ℝ) + 1 ≤ Dm.npRound x := by exact_mod_cast h2
    linarith [hb.2]

/-- C51: for every surface height and every uniform table, the index is within the table and its thickness is a nearest one of all in the table; and it
is within half a step of the height whenever the height is in the range of the table. -/
theorem C51_index (L : Layer) (h : Uniform L) (surf : ℝ) :
    ∃ i < L.n, discretize L surf = i ∧ (∀ j < L.n, |L.t i - 10 ^ 9 * surf| ≤ |L.t j - 10 ^ 9 * surf|) ∧
      (L.t 0 ≤ 10 ^ 9 * surf → 10 ^ 9 * surf ≤ L.t (L.n - 1) → |L.t i - 10 ^ 9 * surf| ≤ L.dt / 2) := by
  have hdt := h.1
  have hp := L.pos
  have hlast : L.t (L.n - 1) = L.t 0 + ((L.n - 1 : ℕ) : ℝ) * L.dt := h.2 _ (by omega)
  generalize hs : (10 : ℝ) ^ 9 * surf = s
  set N : ℕ := L.n - 1 with hN
  -- the clipped height as a multiple of the step
  have key : ∀ x : ℝ, 0 ≤ x → x ≤ N → ∃ i < L.n, Dm.npRound x = (i : ℕ) := by
    intro x h0 h1
    obtain ⟨a, b⟩ := npRound_range x N h0 h1
    exact ⟨(Dm.npRound x).toNat, by omega, by omega⟩
  have hd : discretize L surf = Dm.npRound (1 / L.dt * ((if (if s < L.t 0 then L.t 0 else s) > L.t 0 + N * L.dt then L.t 0 + N * L.dt else (if s < L.t 0 then L.t 0 else s)) - L.t 0)) := by
    unfold discretize
    simp only [hs, h.min, h.max]
    rfl
  have hNdt : 0 ≤ (N : ℝ) * L.dt := by positivity
  rcases lt_or_ge s (L.t 0) with h1 | h1
  · refine ⟨0, hp, ?_, ?_, fun h2 => by linarith⟩
    · rw [hd, if_pos h1, if_neg (by linarith)]
      simp [show Dm.npRound 0 = 0 by have := Dm.npRound_intCast 0; simpa using this]
    · intro j hj
      rw [h.2 j hj]
      have : 0 ≤ (j : ℝ) * L.dt := by positivity
      rw [abs_of_pos (by linarith), abs_of_pos (by linarith)]
      linarith
  simp only [if_neg (not_lt.2 h1)] at hd
  rcases lt_or_ge (L.t 0 + N * L.dt) s with h2 | h2
  · refine ⟨N, by omega, ?_, ?_, fun _ h3 => by linarith⟩
    · rw [hd, if_pos h2]
      have : 1 / L.dt * (L.t 0 + N * L.dt - L.t 0) = ((N : ℤ) : ℝ) := by field_simp; push_cast; ring
      rw [this, Dm.npRound_intCast]
    · intro j hj
      rw [hlast, h.2 j hj]
      have hjN : (j : ℝ) ≤ N := by exact_mod_cast (show j ≤ N by omega)
      have := mul_le_mul_of_nonneg_right hjN hdt.le
      rw [abs_of_neg (by linarith), abs_of_neg (by linarith)]
      linarith
  · rw [if_neg (by linarith)] at hd
    generalize hx : 1 / L.dt * (s - L.t 0) = x at hd
    have hsx : s = L.t 0 + x * L.dt := by rw [← hx]; field_simp; ring
    have hx0 : 0 ≤ x := by rw [← hx]; have : 0 ≤ s - L.t 0 := by linarith
                           positivity
    have hxN : x ≤ N := by
      by_contra hc
      push Not at hc
      have := mul_lt_mul_of_pos_right hc hdt
      linarith
    obtain ⟨i, hi, hri⟩ := key x hx0 hxN
    have hdist : ∀ j < L.n, |L.t j - s| = |((j : ℤ) : ℝ) - x| * L.dt := by
      intro j hj
      rw [h.2 j hj, hsx, ← abs_of_pos hdt, ← abs_mul, abs_of_pos hdt]
      congr 1
      push_cast; ring
    refine ⟨i, hi, by rw [hd, hri], ?_, fun _ _ => ?_⟩
    · intro j hj
      rw [hdist i hi, hdist j hj, ← hri]
      exact mul_le_mul_of_nonneg_right (npRound_nearest x j) hdt.le
    · rw [hdist i hi, ← hri]
      have := mul_le_mul_of_nonneg_right (Dm.npRound_err x) hdt.le
      linarith

theorem pyIndex_nat {n i : ℕ} (h : i < n) : pyIndex n i = .ok i := by
  unfold pyIndex
  rw [if_pos ⟨by omega, by omega⟩]
  simp

/-- C51: the lookup at a pixel never fails, for all layer heights and every slice of the table, and gives the table entry of the nearest thicknesses. -/
theorem C51_lookup (diel metal : Layer) (hd : Uniform diel) (hm : Uniform metal) (nLam : ℕ) (cube : ℕ → ℕ → ℕ → ℂ) (dm8 dm9 : ℝ) (k : ℕ) (hk : k < nLam) :
    ∃ i < diel.n, ∃ j < metal.n, lookup diel metal nLam cube dm8 dm9 k = .ok (cube i j k) ∧
      (∀ i' < diel.n, |diel.t i - 10 ^ 9 * dm9| ≤ |diel.t i' - 10 ^ 9 * dm9|) ∧ ∀ j' < metal.n, |metal.t j - 10 ^ 9 * dm8| ≤ |metal.t j' - 10 ^ 9 * dm8| := by
  obtain ⟨i, hi, h1, h2, -⟩ := C51_index diel hd dm9
  obtain ⟨j, hj, h3, h4, -⟩ := C51_index metal hm dm8
  refine ⟨i, hi, j, hj, ?_, h2, h4⟩
  simp only [lookup, h1, h3, pyIndex_nat hi, pyIndex_nat hj, pyIndex_nat hk, bind, Except.bind, pure, Except.pure]

/-- A table from 0 to 100 nm in steps of 5 nm. -/
noncomputable def exampleLayer : Layer := ⟨21, by norm_num, fun i => 5 * i, 5⟩

example : Uniform exampleLayer := ⟨by norm_num [exampleLayer], fun i _ => by simp [exampleLayer]; ring⟩

/-! ## C52 and C69 -/

/-- The position of wavelength `wi` of sub-band `si` in the list of distinct wavelengths. -/
theorem unique_getElem (b : Band) (h : 1 ≤ b.Nsbp) (h2 : 2 ≤ b.Nwpsbp) (hd : 1 / 10 ^ 11 < dlam b) (si wi : ℕ) (hsi : si < b.Nsbp) (k : ℕ) :
    (uniqueLambdas (lambdasFlat b))[k]? = some (lambdasMat b si wi) ↔ k = si * (b.Nwpsbp - 1) + wi ∧ k < b.Nsbp * (b.Nwpsbp - 1) + 1 := by
  have hstep : b.lambda0 * b.fracBW / ((b.Nsbp * (b.Nwpsbp - 1) : ℕ) : ℝ) = dlam b := by
    rw [dlam_eq b h2]
    have hc : ((b.Nwpsbp - 1 : ℕ) : ℝ) = b.Nwpsbp - 1 := by rw [Nat.cast_sub (by omega)]; simp
    push_cast [hc]; rfl
  have hpos : 0 < dlam b := lt_trans (by positivity) hd
  rw [(C38_trapezoid b h h2 hd).1, lambdasMat_lattice b h h2 si wi hsi, hstep, List.getElem?_map]
  by_cases hk : k < b.Nsbp * (b.Nwpsbp - 1) + 1
  · rw [List.getElem?_range hk]
    simp only [Option.map_some, Option.some.injEq, hk, and_true, add_right_inj]
    constructor
    · intro he
      have := mul_right_cancel₀ hpos.ne' he
      exact_mod_cast this
    · intro he; rw [he]
  · rw [List.getElem?_eq_none (by simpa using hk)]
    simp [hk]

/-- C52: with a single sub-band the table slice read is the one of the requested wavelength (the index is negative and wraps around
the whole table). Otherwise `C52_violated`. -/
theorem C52_single (b : Band) (h : b.Nsbp = 1) (h2 : 1 ≤ b.Nwpsbp) (hd : 2 ≤ b.Nwpsbp → 1 / 10 ^ 11 < dlam b) (wi : ℕ) (hwi : wi < b.Nwpsbp) :
    lutWvl b 0 wi = .ok (some (lambdasMat b 0 wi)) := by
  have hlen : tableLen b = b.Nwpsbp := by unfold tableLen; rw [h]; split_ifs with h' <;> omega
  have hidx : pyIndex (tableLen b) (lutIndex b 0 wi) = .ok wi := by
    unfold pyIndex lutIndex
    rw [hlen, if_neg (by push_cast; omega), if_pos (by push_cast; omega)]
    congr 1
    push_cast; omega
  unfold lutWvl
  rw [hidx]
  simp only [Except.map]
  congr 1
  unfold tableWvl
  split_ifs with h1
  · have : wi = 0 := by omega
    subst this
    unfold lambdasMat
    rw [if_pos h1]
    have hl : (sbpCenters b).length = 1 := by unfold sbpCenters; split_ifs <;> simp [linspace, h]
    rw [List.getD_eq_getElem?_getD, List.getElem?_eq_getElem (by omega)]
    rfl
  · rw [unique_getElem b (by omega) (by omega) (hd (by omega)) 0 wi (by omega)]
    rw [h]; omega

/-- C52: with two or more sub-bands and several wavelengths per sub-band, the lookup never fails, but the slice read is that of the requested wavelength
only if the sub-band number happens to equal the number of wavelengths per sub-band; in particular it is wrong for all wavelengths of the first sub-band. -/
theorem C52_violated (b : Band) (h : 2 ≤ b.Nsbp) (h2 : 2 ≤ b.Nwpsbp) (hd : 1 / 10 ^ 11 < dlam b) (si wi : ℕ) (hsi : si < b.Nsbp) (hwi : wi < b.Nwpsbp) :
    (∃ r, lutWvl b si wi = .ok r) ∧ (lutWvl b si wi = .ok (some (lambdasMat b si wi)) ↔ si = b.Nwpsbp) := by
  have hlen : tableLen b = b.Nsbp * b.Nwpsbp := by unfold tableLen; rw [if_neg (by omega)]
  obtain ⟨k, hk, hkv⟩ : ∃ k : ℕ, pyIndex (tableLen b) (lutIndex b si wi) = .ok k ∧ (si = 0 → k = (b.Nsbp - 1) * b.Nwpsbp + wi) ∧ (1 ≤ si → k = (si - 1) * b.Nwpsbp + wi) := by
    rcases Nat.eq_zero_or_pos si with hs | hs
    · subst hs
      refine ⟨(b.Nsbp - 1) * b.Nwpsbp + wi, ?_, fun _ => rfl, fun h => by omega⟩
      unfold pyIndex lutIndex
      obtain ⟨m, hm⟩ : ∃ m, b.Nsbp = m + 1 := ⟨b.Nsbp - 1, by omega⟩
      rw [hlen, hm]
      have e : ((m + 1 : ℕ) * b.Nwpsbp : ℕ) = m * b.Nwpsbp + b.Nwpsbp := by ring
      have p : 0 ≤ m * b.Nwpsbp := Nat.zero_le _
      rw [e, Nat.add_sub_cancel]
      generalize m * b.Nwpsbp = q at *
      rw [if_neg (by push_cast; omega), if_pos (by push_cast; omega)]
      congr 1
      push_cast; omega
    · refine ⟨(si - 1) * b.Nwpsbp + wi, ?_, fun h => by omega, fun _ => rfl⟩
      have he : lutIndex b si wi = (((si - 1) * b.Nwpsbp + wi : ℕ) : ℤ) := by
        unfold lutIndex
        push_cast [Nat.cast_sub hs]
        ring
      rw [he]
      refine pyIndex_nat ?_
      rw [hlen]
      have : (si - 1 + 1) * b.Nwpsbp ≤ b.Nsbp * b.Nwpsbp := Nat.mul_le_mul_right _ (by omega)
      rw [Nat.add_mul] at this
      omega
  unfold lutWvl
  rw [hk]
  refine ⟨⟨_, rfl⟩, ?_⟩
  simp only [Except.map, Except.ok.injEq, tableWvl, if_neg (show b.Nwpsbp ≠ 1 by omega)]
  rw [unique_getElem b (by omega) h2 hd si wi hsi]
  clear hk hlen hd
  generalize b.Nwpsbp = Nw at *
  generalize b.Nsbp = Ns at *
  obtain ⟨w, rfl⟩ : ∃ w, Nw = w + 1 := ⟨Nw - 1, by omega⟩
  obtain ⟨m, rfl⟩ : ∃ m, Ns = m + 1 := ⟨Ns - 1, by omega⟩
  rw [Nat.add_sub_cancel] at *
  rcases Nat.eq_zero_or_pos si with hs | hs
  · rw [hkv.1 hs, hs]
    have : 1 ≤ m * (w + 1) := Nat.mul_pos (by omega) (by omega)
    simp only [Nat.add_sub_cancel, Nat.zero_mul, Nat.zero_add]
    constructor
    · rintro ⟨h1, -⟩; omega
    · intro h; omega
  · rw [hkv.2 hs]
    obtain ⟨s, hss⟩ : ∃ s, si = s + 1 := ⟨si - 1, by omega⟩
    rw [hss, Nat.add_sub_cancel]
    have e1 : s * (w + 1) = s * w + s := by ring
    have e2 : (s + 1) * w = s * w + w := by ring
    rw [e1, e2]
    have hle : (s + 1) * w ≤ m * w := Nat.mul_le_mul_right _ (by omega)
    rw [e2] at hle
    have e3 : (m + 1) * w = m * w + w := by ring
    rw [e3]
    constructor
    · rintro ⟨h1, -⟩; omega
    · intro h1; refine ⟨by omega, by omega⟩

/-- C52: with one wavelength per sub-band and two or more sub-bands, the slice of another sub-band is read: the previous one, or the last for the first. -/
theorem C52_one_per_band_violated (b : Band) (h : 2 ≤ b.Nsbp) (h2 : b.Nwpsbp = 1) (si : ℕ) (hsi : si < b.Nsbp) :
    lutWvl b si 0 = .ok (some (lambdasMat b (if si = 0 then b.Nsbp - 1 else si - 1) 0)) := by
  have hlen : tableLen b = b.Nsbp := by unfold tableLen; rw [if_pos h2]
  have hidx : pyIndex (tableLen b) (lutIndex b si 0) = .ok (if si = 0 then b.Nsbp - 1 else si - 1) := by
    unfold pyIndex lutIndex
    rw [hlen, h2]
    by_cases hs : si = 0
    · subst hs
      rw [if_neg (by simp), if_pos (by simp; omega), if_pos rfl]
      congr 1
      simp; omega
    · rw [if_neg hs, if_pos (by push_cast; omega)]
      congr 1
      push_cast; omega
  unfold lutWvl
  rw [hidx]
  simp only [Except.map, tableWvl, if_pos h2, lambdasMat]
  have hl : (sbpCenters b).length = b.Nsbp := by unfold sbpCenters; split_ifs <;> simp [linspace]; omega
  rw [List.getD_eq_getElem?_getD, List.getElem?_eq_getElem (by rw [hl]; split_ifs <;> omega)]
  rfl

/-- Three sub-bands with two wavelengths each, 10% bandwidth: the hypotheses of `C52_violated` hold. -/
example : ∃ b : Band, 2 ≤ b.Nsbp ∧ 2 ≤ b.Nwpsbp ∧ 1 / 10 ^ 11 < dlam b := by
  refine ⟨⟨3, 2, true, 5 / 10 ^ 7, 1 / 10⟩, by norm_num, by norm_num, ?_⟩
  rw [dlam_eq _ (by norm_num)]
  norm_num

/-- C69: with several sub-bands and several wavelengths per sub-band, the mask cube (one mask per distinct wavelength) is read at the position of the
requested wavelength if and only if `Nsbp + 1 = 2 * Nwpsbp`; the error is the same for all wavelengths. -/
theorem C69_violated (b : Band) (h : 2 ≤ b.Nsbp) (h2 : 2 ≤ b.Nwpsbp) (hd : 1 / 10 ^ 11 < dlam b) (si wi : ℕ) (hsi : si < b.Nsbp) (hwi : wi < b.Nwpsbp) :
    (∀ k : ℕ, cubeIndex b si wi = k → ((uniqueLambdas (lambdasFlat b))[k]? = some (lambdasMat b si wi) ↔ b.Nsbp + 1 = 2 * b.Nwpsbp)) ∧
    cubeIndex b si wi = ((si * (b.Nwpsbp - 1) + wi : ℕ) : ℤ) + (b.Nsbp + 1 - 2 * b.Nwpsbp) := by
  have hc : cubeIndex b si wi = ((si * (b.Nwpsbp - 1) + wi : ℕ) : ℤ) + (b.Nsbp + 1 - 2 * b.Nwpsbp) := by
    unfold cubeIndex
    rw [if_pos ⟨by omega, by omega⟩]
    push_cast [Nat.cast_sub (show 1 ≤ b.Nwpsbp by omega)]
    ring
  refine ⟨fun k hk => ?_, hc⟩
  rw [unique_getElem b (by omega) h2 hd si wi hsi]
  rw [hc] at hk
  have hin : si * (b.Nwpsbp - 1) + wi < b.Nsbp * (b.Nwpsbp - 1) + 1 := by
    have : (si + 1) * (b.Nwpsbp - 1) ≤ b.Nsbp * (b.Nwpsbp - 1) := Nat.mul_le_mul_right _ (by omega)
    rw [Nat.add_mul] at this
    omega
  generalize si * (b.Nwpsbp - 1) + wi = q at *
  constructor
  · rintro ⟨h1, -⟩; omega
  · intro h1; constructor <;> omega

/-- C69: with one sub-band (and increasing wavelengths) the mask read is that of the requested wavelength. -/
theorem C69_single (b : Band) (h : b.Nsbp = 1) (h2 : 2 ≤ b.Nwpsbp) (hd : 1 / 10 ^ 11 < dlam b) (wi : ℕ) (hwi : wi < b.Nwpsbp) :
    ∃ k : ℕ, cubeIndex b 0 wi = k ∧ (uniqueLambdas (lambdasFlat b))[k]? = some (lambdasMat b 0 wi) := by
  refine ⟨wi, ?_, ?_⟩
  · unfold cubeIndex
    rw [if_neg (by omega), if_pos ⟨h, by omega⟩]
  · rw [unique_getElem b (by omega) h2 hd 0 wi (by omega)]
    rw [h]; omega

end Verif.Hlc
