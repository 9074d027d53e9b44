import Verif.Props.DmTilt2

/-!
# C117: the window and the subsampled grid hold the whole DM, and the wavefront error is twice the surface along the beam
-/

namespace Verif.DmTilt
open Verif Verif.Dm Verif.Util Verif.Optics Verif.Compact

theorem sq_Rx (a : ℝ) (w : Fin 3 → ℝ) : ∑ k, ((Rx a).mulVec w k) ^ 2 = ∑ k, w k ^ 2 := by
  have h := Real.sin_sq_add_cos_sq a
  simp [Rx, Matrix.mulVec, dotProduct, Fin.sum_univ_three]
  linear_combination (w 1 ^ 2 + w 2 ^ 2) * h

theorem sq_Ry (a : ℝ) (w : Fin 3 → ℝ) : ∑ k, ((Ry a).mulVec w k) ^ 2 = ∑ k, w k ^ 2 := by
  have h := Real.sin_sq_add_cos_sq a
  simp [Ry, Matrix.mulVec, dotProduct, Fin.sum_univ_three]
  linear_combination (w 0 ^ 2 + w 2 ^ 2) * h

theorem sq_Rz (a : ℝ) (w : Fin 3 → ℝ) : ∑ k, ((Rz a).mulVec w k) ^ 2 = ∑ k, w k ^ 2 := by
  have h := Real.sin_sq_add_cos_sq a
  simp [Rz, Matrix.mulVec, dotProduct, Fin.sum_univ_three]
  linear_combination (w 0 ^ 2 + w 1 ^ 2) * h

/-- Turning a point about the axes and looking along the beam never moves it away from the centre. -/
theorem beam_norm (d : Dm) (u v : ℝ) : (beamPoint d u v).1 ^ 2 + (beamPoint d u v).2 ^ 2 ≤ u ^ 2 + v ^ 2 := by
  have h : ∀ R : Matrix (Fin 3) (Fin 3) ℝ, ∑ k, (R.mulVec ![u, v, 0] k) ^ 2 = u ^ 2 + v ^ 2 →
      (R.mulVec ![u, v, 0] 0) ^ 2 + (R.mulVec ![u, v, 0] 1) ^ 2 ≤ u ^ 2 + v ^ 2 := by
    intro R hR
    rw [Fin.sum_univ_three] at hR
    nlinarith [sq_nonneg (R.mulVec ![u, v, 0] 2)]
  have h0 : ∑ k, (![u, v, 0] : Fin 3 → ℝ) k ^ 2 = u ^ 2 + v ^ 2 := by simp [Fin.sum_univ_three]
  unfold beamPoint
  refine h _ ?_
  split_ifs
  · rw [← Matrix.mulVec_mulVec, ← Matrix.mulVec_mulVec, sq_Rz, sq_Ry, sq_Rx, h0]
  · rw [← Matrix.mulVec_mulVec, ← Matrix.mulVec_mulVec, sq_Rx, sq_Ry, sq_Rz, h0]

/-- **C117.** The window the surface is computed in holds the whole DM: every pixel of the array that shows a point of the DM at least one pixel inside the subsampled grid
(a square of `grid` pixels of the influence function about the middle) is in the window, for all tilts, rotations and samplings; the surface is zero only where there is no DM. -/
theorem C117_window (d : Dm) (hi : 0 ≤ d.dxInf) (n : ℕ) (hn : n % 2 = 0) (dx : ℝ) (hdx : 0 < dx) (i j : ℕ) (hin : i < n) (hjn : j < n) (u v : ℝ)
    (hp : beamPoint d u v = (pos .pixel n dx j, pos .pixel n dx i))
    (hu : |u| ≤ d.grid * d.dxInf / 2 - dx) (hv : |v| ≤ d.grid * d.dxInf / 2 - dx) : InWindow d n dx i ∧ InWindow d n dx j := by
  have hs := beam_norm d u v
  rw [hp] at hs
  dsimp only at hs
  set L := (d.grid : ℝ) * d.dxInf / 2 - dx with hL
  have hL0 : 0 ≤ L := (abs_nonneg u).trans hu
  have hu2 : u ^ 2 ≤ L ^ 2 := by rw [← sq_abs u]; exact pow_le_pow_left₀ (abs_nonneg _) hu 2
  have hv2 : v ^ 2 ≤ L ^ 2 := by rw [← sq_abs v]; exact pow_le_pow_left₀ (abs_nonneg _) hv 2
  have h2 : Real.sqrt 2 ^ 2 = 2 := Real.sq_sqrt (by norm_num)
  have hs1 : (1.4 : ℝ) ≤ Real.sqrt 2 := Real.le_sqrt_of_sq_le (by norm_num)
  have main : ∀ k : ℕ, k < n → (pos .pixel n dx k) ^ 2 ≤ u ^ 2 + v ^ 2 → InWindow d n dx k := by
    intro k hk hk2
    have hle : |pos .pixel n dx k| ≤ Real.sqrt 2 * L := by
      refine abs_le_of_sq_le_sq ?_ (by positivity)
      rw [mul_pow, h2]; linarith
    unfold pos at hle
    dsimp only at hle
    rw [abs_mul, abs_of_pos hdx, ← le_div_iff₀ hdx] at hle
    have hb := (npRound_bounds (Real.sqrt 2 * d.grid * d.dxInf / dx)).1
    set w := Real.sqrt 2 * d.grid * d.dxInf / dx with hw
    have e : Real.sqrt 2 * L / dx = w / 2 - Real.sqrt 2 := by
      rw [hw, hL]; field_simp
    rw [e] at hle
    have hle' : |(k : ℝ) - (n : ℝ) / 2| ≤ w / 2 - 1.4 := by linarith
    unfold InWindow
    have hwin : d.window n dx = min (npRound w).toNat n := rfl
    rw [hwin]
    obtain ⟨m, rfl⟩ : ∃ m, n = 2 * m := ⟨n / 2, by omega⟩
    have hd := abs_le.mp hle'
    push_cast at hd
    have e1 : (m : ℤ) - k ≤ ((npRound w) - 2) / 2 := by
      have : 2 * ((m : ℝ) - k) ≤ (npRound w : ℝ) - 2 := by linarith
      have : 2 * ((m : ℤ) - k) ≤ (npRound w) - 2 := by exact_mod_cast this
      omega
    have e2 : (k : ℤ) - m ≤ ((npRound w) - 2) / 2 := by
      have : 2 * ((k : ℝ) - m) ≤ (npRound w : ℝ) - 2 := by linarith
      have : 2 * ((k : ℤ) - m) ≤ (npRound w) - 2 := by exact_mod_cast this
      omega
    generalize npRound w = W at e1 e2 ⊢
    rcases le_total W.toNat (2 * m) with h | h
    · rw [min_eq_left h]; omega
    · rw [min_eq_right h]; omega
  refine ⟨main i hin ?_, main j hjn ?_⟩
  · nlinarith [sq_nonneg (pos .pixel n dx j)]
  · nlinarith [sq_nonneg (pos .pixel n dx i)]

/-- **C117.** The subsampled grid holds every influence function whole: for an array of up to `19·mag` pixels (odd size) every pixel of the influence function of every actuator
has a pixel of the grid of its own, on both sides of the DM, where the surface has the value of the influence function for that actuator alone. -/
theorem C117_margin (d : Dm) (hm : 1 ≤ d.mag) (h : ℕ) (hK : d.K = 2 * h + 1) (hh : h ≤ 9 * d.mag + (d.mag - 1) / 2) (r c : Fin d.nact) (a b : ℕ) (ha : a < d.K) (hb : b < d.K) :
    ∃ y x, (y < d.grid ∧ (y : ℤ) = (d.off + r.val * d.mag : ℕ) + a - h) ∧ (x < d.grid ∧ (x : ℤ) = (d.off + c.val * d.mag : ℕ) + b - h) ∧
      d.surfGrid (fun r' c' => if r' = r ∧ c' = c then 1 else 0) y x = d.inf a b := by
  have key : ∀ (q : Fin d.nact) (a : ℕ), a < d.K → ∃ y : ℕ, y < d.grid ∧ (y : ℤ) = (d.off + q.val * d.mag : ℕ) + a - h := by
    intro q a ha
    have hq : (q.val + 1) * d.mag ≤ d.nact * d.mag := Nat.mul_le_mul_right _ q.isLt
    rw [add_mul, one_mul] at hq
    refine ⟨d.off + q.val * d.mag + a - h, ?_, ?_⟩
    · unfold Dm.off Dm.grid
      generalize q.val * d.mag = A at *
      generalize d.nact * d.mag = B at *
      omega
    · have : h ≤ d.off := by unfold Dm.off; omega
      push_cast
      rw [Nat.cast_sub (by omega)]; push_cast; ring
  obtain ⟨y, hy, ey⟩ := key r a ha
  obtain ⟨x, hx, ex⟩ := key c b hb
  refine ⟨y, x, ⟨hy, ey⟩, ⟨hx, ex⟩, ?_⟩
  rw [(C117_superposition d hm _ y x h).1 hK, Finset.sum_eq_single r, Finset.sum_eq_single c]
  · rw [if_pos ⟨rfl, rfl⟩, one_mul]
    congr 1 <;> omega
  · intro c' _ hc'; rw [if_neg (fun e => hc' e.2), zero_mul]
  · simp
  · intro r' _ hr'
    refine Finset.sum_eq_zero fun c' _ => ?_
    rw [if_neg (fun e => hr' e.1), zero_mul]
  · simp

/-- **C117.** Wavefront error of the differentiable DM: for a DM tilted about X or about Y alone (angle `t` in degrees) it is the tilted surface times `2·cos t`,
so twice the surface for a DM that is not tilted. -/
theorem C117_wavefront {M n : ℕ} [NeZero M] (interp : Pl M → ℝ → ℝ → ℂ) (d : DiffDm.DM M M n) (t : ℝ) (zyx : Bool) (a : Fin n → Fin n → ℝ) (i j : ZMod M) :
    render interp d ⟨0, 0, t, zyx⟩ a true i j = render interp d ⟨0, 0, t, zyx⟩ a false i j * (2 * Real.cos (t * Real.pi / 180) : ℝ) ∧
    render interp d ⟨0, t, 0, zyx⟩ a true i j = render interp d ⟨0, t, 0, zyx⟩ a false i j * (2 * Real.cos (t * Real.pi / 180) : ℝ) := by
  have h : ∀ t : ℝ, Real.cos (rad (Real.sqrt (t ^ 2))) = Real.cos (t * Real.pi / 180) := by
    intro t
    rw [Real.sqrt_sq_eq_abs]
    unfold rad
    rcases abs_choice t with e | e <;> rw [e]
    rw [← Real.cos_neg]; congr 1; ring
  have e1 : (⟨0, 0, t, zyx⟩ : Tilt).obliquity = Real.cos (t * Real.pi / 180) := by
    rw [← h t]; unfold Tilt.obliquity; norm_num
  have e2 : (⟨0, t, 0, zyx⟩ : Tilt).obliquity = Real.cos (t * Real.pi / 180) := by
    rw [← h t]; unfold Tilt.obliquity; norm_num
  unfold render
  rw [e1, e2]
  simp

/-- the DM of 34 actuators, turned by 60 degrees, in an array of 1000 pixels: the pixel in the middle shows the middle of the DM, and is inside by more than a pixel -/
example : ∃ u v, beamPoint sampleDm u v = (pos .pixel 1000 (1 / 10) 500, pos .pixel 1000 (1 / 10) 500) ∧
    |u| ≤ sampleDm.grid * sampleDm.dxInf / 2 - 1 / 10 ∧ |v| ≤ sampleDm.grid * sampleDm.dxInf / 2 - 1 / 10 := by
  refine ⟨0, 0, ?_, ?_, ?_⟩
  · rw [beam_eq]; norm_num [pos]
  · norm_num [sampleDm, Dm.grid]
  · norm_num [sampleDm, Dm.grid]

/-- its influence function of 91 pixels is within the margin -/
example : sampleDm.K = 2 * 45 + 1 ∧ 45 ≤ 9 * sampleDm.mag + (sampleDm.mag - 1) / 2 := by norm_num [sampleDm]

end Verif.DmTilt
