import Verif.Props.DmTilt
import Verif.Props.Util

/-! # C117, second part: poke stamps and the tilted differentiable DM -/

namespace Verif.DmTilt
open Verif Verif.Dm Verif.Util Verif.Optics Verif.Compact

/-! ## Poke stamps -/

/-- **C117.** The stamp of an actuator is centred where the surface shows the actuator. -/
theorem C117_centre (d : Dm) (r c : ℕ) : d.centre r c = beamPoint d (c - d.xc) (r - d.yc) := by
  have hr : rad (-d.zrot) = -rad d.zrot := by unfold rad; ring
  rw [beam_eq]
  unfold Dm.centre Dm.mrot Dm.m pokeProject
  rw [hr]
  cases d.xyz
  · simp [mrotZYX, mZYX, Matrix.mulVec, dotProduct, Fin.sum_univ_three]
    constructor <;> ring
  · simp [mrotXYZ, mXYZ, Matrix.mulVec, dotProduct, Fin.sum_univ_three]
    constructor <;> ring

/-- **C117.** With centering 'pixel', pixel `k` of a stamp, which is pixel `lowerLeft + k` of the array, samples the influence function at the position of the pixel
relative to the centre of the actuator, for every actuator position, stamp and array size; the result does not depend on the pixel the stamp was rounded to. -/
theorem C117_stamp (NdmPad Nbox : ℕ) (c spacing dx : ℝ) (hdx : dx ≠ 0) (k p : ℕ)
    (hp : (p : ℝ) = boxLowerLeft NdmPad Nbox c (spacing / dx) + k) :
    stampCoord Nbox c (spacing / dx) dx k = pos .pixel NdmPad dx p - c * spacing := by
  unfold stampCoord pos boxLowerLeft at *
  rw [hp]
  push_cast
  field_simp
  ring

/-- **C117, violated.** With centering 'interpixel' every stamp of the Jacobian is half a pixel off: pixel `p` of the array holds the value of the influence function for
the point half a pixel to the left of (below) it. -/
theorem C117_stamp_interpixel_violated (NdmPad Nbox : ℕ) (c spacing dx : ℝ) (hdx : dx ≠ 0) (k p : ℕ)
    (hp : (p : ℝ) = boxLowerLeft NdmPad Nbox c (spacing / dx) + k) :
    stampCoord Nbox c (spacing / dx) dx k = pos .interpixel NdmPad dx p - dx / 2 - c * spacing := by
  rw [C117_stamp NdmPad Nbox c spacing dx hdx k p hp]
  unfold pos
  ring

/-- the pixel of the hypothesis exists for the even sizes the code uses, when the box is inside of the array -/
example : ((11 : ℕ) : ℝ) = boxLowerLeft (20 : ℕ) (4 : ℕ) 0.5 (2 / 1) + (1 : ℕ) := by
  unfold boxLowerLeft
  have h1 : npRound ((0.5 : ℝ) * (2 / 1) + 0.5) = 2 := by
    have : (0.5 : ℝ) * (2 / 1) + 0.5 = 1.5 := by norm_num
    rw [this]
    have hf : ⌊(1.5 : ℝ)⌋ = 1 := by rw [Int.floor_eq_iff]; norm_num
    unfold npRound
    norm_num [hf, Int.fract]
  rw [h1]
  norm_num

theorem padSlice_eq (N0 : ℕ) : ∃ q : ℤ, padSlice N0 = (2 * q + 1, q - (N0 / 2 : ℕ), q + 1 + (N0 / 2 : ℕ)) ∧ (N0 : ℤ) ≤ 2 * q + 1 := by
  obtain ⟨⟨ho, hle⟩, -⟩ := C03_ceil_odd (Real.sqrt 2 * N0)
  obtain ⟨q, hq⟩ := ho
  refine ⟨q, ?_, ?_⟩
  · unfold padSlice
    dsimp only
    rw [hq]
    have h1 : ⌈((2 * q + 1 : ℤ) : ℝ) / 2⌉ = q + 1 := by
      rw [Int.ceil_eq_iff]; push_cast; constructor <;> linarith
    have h2 : ⌊(N0 : ℝ) / 2⌋ = ((N0 / 2 : ℕ) : ℤ) := by
      have h3 : ⌊(N0 : ℝ) / 2⌋ = (N0 : ℤ) / 2 := by
        rw [Int.floor_eq_iff]
        have e1 : ((N0 : ℤ) / 2 * 2 : ℤ) ≤ N0 := Int.ediv_mul_le _ (by norm_num)
        have e2 : (N0 : ℤ) < ((N0 : ℤ) / 2 + 1) * 2 := by omega
        have e1' : (((N0 : ℤ) / 2 : ℤ) : ℝ) * 2 ≤ N0 := by exact_mod_cast e1
        have e2' : (N0 : ℝ) < ((((N0 : ℤ) / 2 : ℤ) : ℝ) + 1) * 2 := by exact_mod_cast e2
        constructor <;> linarith
      rw [h3]; norm_cast
    rw [h1, h2]
    refine Prod.ext rfl (Prod.ext ?_ ?_) <;> dsimp only
    ring
  · rw [hq] at hle
    have hs : (1 : ℝ) ≤ Real.sqrt 2 := by
      rw [show (1 : ℝ) = Real.sqrt 1 by simp]; exact Real.sqrt_le_sqrt (by norm_num)
    have h0 : (0 : ℝ) ≤ N0 := Nat.cast_nonneg _
    have : (N0 : ℝ) ≤ ((2 * q + 1 : ℤ) : ℝ) := le_trans (by nlinarith) hle
    exact_mod_cast this

/-- **C117.** The influence function of odd size `2h + 1` is put in the middle of the padded array, whole, with its middle pixel at the coordinate 0 the stamps are made from
(pixel `(a, b)` at the coordinates `(a - h, b - h)`), and zero outside. -/
theorem C117_padded (h : ℕ) (inf0 : ℕ → ℕ → ℝ) : ∃ P, padInf (2 * h + 1) inf0 = .ok P ∧
    ∀ i j : ℤ, (∀ a b : ℕ, a < 2 * h + 1 → b < 2 * h + 1 → padCoord (padSlice (2 * h + 1)).1 i = (a : ℝ) - h → padCoord (padSlice (2 * h + 1)).1 j = (b : ℝ) - h → P i j = inf0 a b) ∧
      ((h : ℝ) < |padCoord (padSlice (2 * h + 1)).1 i| ∨ (h : ℝ) < |padCoord (padSlice (2 * h + 1)).1 j| → P i j = 0) := by
  obtain ⟨q, hq, hle⟩ := padSlice_eq (2 * h + 1)
  have hh : (2 * h + 1) / 2 = h := by omega
  rw [hh] at hq
  have hq0 : 0 ≤ q := by push_cast at hle; omega
  have hc : ∀ i : ℤ, padCoord (padSlice (2 * h + 1)).1 i = ((i - q : ℤ) : ℝ) := by
    intro i
    rw [hq]
    unfold padCoord
    have hf : npFix (((2 * q + 1 : ℤ) : ℝ) / 2) = q := by
      unfold npFix
      have : ⌊((2 * q + 1 : ℤ) : ℝ) / 2⌋ = q := by
        rw [Int.floor_eq_iff]; push_cast; constructor <;> linarith
      have hpos : (0 : ℝ) ≤ ((2 * q + 1 : ℤ) : ℝ) / 2 := by
        have : (0 : ℝ) ≤ ((2 * q + 1 : ℤ) : ℝ) := by exact_mod_cast (by omega : (0 : ℤ) ≤ 2 * q + 1)
        linarith
      rw [if_pos hpos, this]
    rw [hf]; push_cast; ring
  refine ⟨_, by unfold padInf; dsimp only; rw [hq]; dsimp only; rw [if_pos (by push_cast; ring)], ?_⟩
  intro i j
  constructor
  · intro a b ha hb hi hj
    rw [hc] at hi hj
    have hi' : i - q = (a : ℤ) - h := by exact_mod_cast hi
    have hj' : j - q = (b : ℤ) - h := by exact_mod_cast hj
    rw [if_pos (by omega)]
    congr 1 <;> omega
  · rintro (hi | hi)
    · rw [hc] at hi
      have hi' : (h : ℤ) < |i - q| := by exact_mod_cast hi
      rw [if_neg]
      rcases abs_cases (i - q) with ⟨h1, _⟩ | ⟨h1, _⟩ <;> omega
    · rw [hc] at hi
      have hi' : (h : ℤ) < |j - q| := by exact_mod_cast hi
      rw [if_neg]
      rcases abs_cases (j - q) with ⟨h1, _⟩ | ⟨h1, _⟩ <;> omega

/-- **C117, violated.** An influence function of even size cannot be used: `gen_poke_cube` raises ValueError, although its comments allow for even sizes. -/
theorem C117_even_violated (N0 : ℕ) (he : N0 % 2 = 0) (inf0 : ℕ → ℕ → ℝ) : padInf N0 inf0 = .error .valueError := by
  obtain ⟨q, hq, hle⟩ := padSlice_eq N0
  unfold padInf
  rw [hq]
  dsimp only
  rw [if_neg (by omega)]

/-- **C117.** The array for the surface is large enough: it holds the DM (all actuators and half an influence function on each side, `W` across) turned by `zrot`,
with at most one tilt: every point `(u, v)` of the DM within `W/2` of its middle is seen within `Ndm/2` pixels of the middle. -/
theorem C117_ndm (d : Dm) (Ninf0 : ℕ) (dxInf0 dx : ℝ) (hi : 0 < dxInf0) (hdx : 0 < dx)
    (h1 : Real.sin (rad d.xtilt) * Real.sin (rad d.ytilt) = 0) (u v : ℝ)
    (hu : |u| ≤ (Ninf0 * dxInf0 + (d.nact - 1) * d.spacing) / 2) (hv : |v| ≤ (Ninf0 * dxInf0 + (d.nact - 1) * d.spacing) / 2) :
    |(beamPoint d u v).1| ≤ (ndm Ninf0 d.nact d.spacing dxInf0 dx d.zrot).2 * dx / 2 ∧ |(beamPoint d u v).2| ≤ (ndm Ninf0 d.nact d.spacing dxInf0 dx d.zrot).2 * dx / 2 := by
  set W := (Ninf0 * dxInf0 + ((d.nact : ℝ) - 1) * d.spacing) / 2 with hW
  set a := rad d.xtilt
  set b := rad d.ytilt
  set g := rad d.zrot with hg
  have hs2 : Real.sqrt 2 * Real.sqrt 2 = 2 := Real.mul_self_sqrt (by norm_num)
  have h45 : rad (45 - d.zrot) = Real.pi / 4 - g := by rw [hg]; unfold rad; ring
  have hmax : |Real.cos g| + |Real.sin g| ≤ max |Real.sqrt 2 * Real.cos (rad (45 - d.zrot))| |Real.sqrt 2 * Real.sin (rad (45 - d.zrot))| := by
    have e1 : Real.sqrt 2 * Real.cos (rad (45 - d.zrot)) = Real.cos g + Real.sin g := by
      rw [h45, Real.cos_sub, Real.cos_pi_div_four, Real.sin_pi_div_four]
      linear_combination (Real.cos g + Real.sin g) / 2 * hs2
    have e2 : Real.sqrt 2 * Real.sin (rad (45 - d.zrot)) = Real.cos g - Real.sin g := by
      rw [h45, Real.sin_sub, Real.cos_pi_div_four, Real.sin_pi_div_four]
      linear_combination (Real.cos g - Real.sin g) / 2 * hs2
    rw [e1, e2]
    rcases abs_cases (Real.cos g) with ⟨c1, _⟩ | ⟨c1, _⟩ <;> rcases abs_cases (Real.sin g) with ⟨c2, _⟩ | ⟨c2, _⟩ <;> rw [c1, c2]
    · exact le_trans (le_abs_self _) (le_max_left _ _)
    · refine le_trans ?_ (le_max_right _ _)
      rw [← sub_eq_add_neg]; exact le_abs_self _
    · refine le_trans ?_ (le_max_right _ _)
      refine le_trans (le_of_eq ?_) (neg_le_abs _); ring
    · refine le_trans ?_ (le_max_left _ _)
      refine le_trans (le_of_eq ?_) (neg_le_abs _); ring
  have hW0 : 0 ≤ W := le_trans (abs_nonneg _) hu
  have hN0 : 2 * W ≤ (ndm Ninf0 d.nact d.spacing dxInf0 dx d.zrot).1 * dxInf0 := by
    have := (C03_ceil_even (Ninf0 + ((d.nact : ℝ) - 1) * (d.spacing / dxInf0))).1.2
    have h2 := mul_le_mul_of_nonneg_right this hi.le
    calc 2 * W = (Ninf0 + ((d.nact : ℝ) - 1) * (d.spacing / dxInf0)) * dxInf0 := by rw [hW]; field_simp
      _ ≤ _ := h2
  have hN : (|Real.cos g| + |Real.sin g|) * (2 * W) ≤ (ndm Ninf0 d.nact d.spacing dxInf0 dx d.zrot).2 * dx := by
    set mx := max |Real.sqrt 2 * Real.cos (rad (45 - d.zrot))| |Real.sqrt 2 * Real.sin (rad (45 - d.zrot))| with hmx
    set N0 := ceilEven (Ninf0 + ((d.nact : ℝ) - 1) * (d.spacing / dxInf0)) with hN0'
    have hN0'' : 2 * W ≤ N0 * dxInf0 := hN0
    have := (C03_ceil_even (mx * N0 * (dxInf0 / dx))).1.2
    have h2 : mx * N0 * (dxInf0 / dx) * dx ≤ (ceilEven (mx * N0 * (dxInf0 / dx)) : ℝ) * dx := mul_le_mul_of_nonneg_right this hdx.le
    have h3 : mx * N0 * (dxInf0 / dx) * dx = mx * (N0 * dxInf0) := by field_simp
    have hmx0 : 0 ≤ mx := le_trans (abs_nonneg _) (le_max_left _ _)
    have h4 : (|Real.cos g| + |Real.sin g|) * (2 * W) ≤ mx * (N0 * dxInf0) :=
      le_trans (mul_le_mul_of_nonneg_right hmax (by linarith)) (mul_le_mul_of_nonneg_left hN0'' hmx0)
    have h5 : (ndm Ninf0 d.nact d.spacing dxInf0 dx d.zrot).2 = ceilEven (mx * N0 * (dxInf0 / dx)) + 2 := rfl
    rw [h5]; push_cast
    rw [h3] at h2
    nlinarith
  have bd : ∀ p q : ℝ, |p| ≤ W → |q| ≤ W → ∀ s t : ℝ, |s| ≤ |Real.cos g| → |t| ≤ |Real.sin g| → |p * s + q * t| ≤ (ndm Ninf0 d.nact d.spacing dxInf0 dx d.zrot).2 * dx / 2 := by
    intro p q hp hq s t hs ht
    have h5 : |p * s + q * t| ≤ |p| * |s| + |q| * |t| := by rw [← abs_mul, ← abs_mul]; exact abs_add_le _ _
    have h6 : |p| * |s| ≤ W * |Real.cos g| := mul_le_mul hp hs (abs_nonneg _) hW0
    have h7 : |q| * |t| ≤ W * |Real.sin g| := mul_le_mul hq ht (abs_nonneg _) hW0
    linarith
  have mono : ∀ x y : ℝ, |y| ≤ 1 → |y * x| ≤ |x| := by
    intro x y hy
    rw [abs_mul]; nlinarith [abs_nonneg x]
  have hca := Real.abs_cos_le_one a
  have hcb := Real.abs_cos_le_one b
  have hca' : ∀ x, |Real.cos a * x| ≤ |x| := fun x => mono x _ hca
  have hcb' : ∀ x, |Real.cos b * x| ≤ |x| := fun x => mono x _ hcb
  rw [beam_eq]
  dsimp only
  rcases hx : d.xyz with _ | _
  · have m00 : d.m 0 0 = Real.cos b * Real.cos g := by simp [Dm.m, hx, mZYX, b, hg]
    have m10 : d.m 1 0 = Real.cos b * Real.sin g := by simp [Dm.m, hx, mZYX, b, hg]
    have m01 : d.m 0 1 = -(Real.cos a * Real.sin g) := by
      simp only [Dm.m, hx, mZYX]; simp; linear_combination Real.cos g * h1
    have m11 : d.m 1 1 = Real.cos a * Real.cos g := by
      simp only [Dm.m, hx, mZYX]; simp; linear_combination Real.sin g * h1
    rw [m00, m10, m01, m11]
    refine ⟨bd u v hu hv _ _ (hcb' _) (hcb' _), ?_⟩
    rw [add_comm]
    exact bd v u hv hu _ _ (hca' _) (by rw [abs_neg]; exact hca' _)
  · have m00 : d.m 0 0 = Real.cos b * Real.cos g := by simp [Dm.m, hx, mXYZ, b, hg]
    have m01 : d.m 0 1 = -(Real.cos b * Real.sin g) := by simp [Dm.m, hx, mXYZ, b, hg]
    have m10 : d.m 1 0 = Real.cos a * Real.sin g := by
      simp only [Dm.m, hx, mXYZ]; simp; linear_combination Real.cos g * h1
    have m11 : d.m 1 1 = Real.cos a * Real.cos g := by
      simp only [Dm.m, hx, mXYZ]; simp; linear_combination -Real.sin g * h1
    rw [m00, m10, m01, m11]
    refine ⟨bd u v hu hv _ _ (hcb' _) (hca' _), ?_⟩
    rw [add_comm]
    exact bd v u hv hu _ _ (hca' _) (by rw [abs_neg]; exact hcb' _)

/-! ## The differentiable DM -/

theorem mFwd_vec (s : ℕ) (R : Matrix (Fin 3) (Fin 3) ℝ) (x y w : ℝ) : (mFwd s R).mulVec ![x, y, w] =
    ![(s : ℝ) / 2 * w + (R 0 0 * (x - (s : ℝ) / 2 * w) + R 0 1 * (y - (s : ℝ) / 2 * w)), (s : ℝ) / 2 * w + (R 1 0 * (x - (s : ℝ) / 2 * w) + R 1 1 * (y - (s : ℝ) / 2 * w)), w] := by
  funext i
  unfold mFwd dropZ promote translation
  fin_cases i <;> simp [Matrix.mulVec, dotProduct, Fin.sum_univ_three, Matrix.mul_apply, Fin.sum_univ_four] <;> ring

theorem rev_eq (s : ℕ) (R : Matrix (Fin 3) (Fin 3) ℝ) (p : ℝ × ℝ) : revCoord s R p =
    ((s : ℝ) / 2 + (R 0 0 * (p.1 - (s : ℝ) / 2) + R 0 1 * (p.2 - (s : ℝ) / 2)), (s : ℝ) / 2 + (R 1 0 * (p.1 - (s : ℝ) / 2) + R 1 1 * (p.2 - (s : ℝ) / 2))) := by
  unfold revCoord applyHomography
  dsimp only
  rw [mFwd_vec]
  simp

theorem mFwd_det (s : ℕ) (R : Matrix (Fin 3) (Fin 3) ℝ) : (mFwd s R).det = R 0 0 * R 1 1 - R 0 1 * R 1 0 := by
  rw [Matrix.det_fin_three]
  unfold mFwd dropZ promote translation
  simp [Matrix.mul_apply, Fin.sum_univ_four]

theorem fwd_rev (s : ℕ) (R : Matrix (Fin 3) (Fin 3) ℝ) (h : R 0 0 * R 1 1 - R 0 1 * R 1 0 ≠ 0) (p : ℝ × ℝ) :
    fwdCoord s R (revCoord s R p) = p ∧ revCoord s R (fwdCoord s R p) = p := by
  have hu : IsUnit (mFwd s R).det := by rw [mFwd_det]; exact h.isUnit
  have hi1 : (mFwd s R)⁻¹ * mFwd s R = 1 := Matrix.nonsing_inv_mul _ hu
  have hi2 : mFwd s R * (mFwd s R)⁻¹ = 1 := Matrix.mul_nonsing_inv _ hu
  constructor
  · have e := mFwd_vec s R p.1 p.2 1
    have r := rev_eq s R p
    have hv : (mFwd s R).mulVec ![p.1, p.2, 1] = ![(revCoord s R p).1, (revCoord s R p).2, 1] := by
      rw [e, r]; simp
    have : (mFwd s R)⁻¹.mulVec ![(revCoord s R p).1, (revCoord s R p).2, 1] = ![p.1, p.2, 1] := by
      rw [← hv, Matrix.mulVec_mulVec, hi1, Matrix.one_mulVec]
    conv_lhs => unfold fwdCoord applyHomography
    dsimp only
    rw [this]
    simp
  · set w := (mFwd s R)⁻¹.mulVec ![p.1, p.2, 1] with hw
    have hv : (mFwd s R).mulVec w = ![p.1, p.2, 1] := by rw [hw, Matrix.mulVec_mulVec, hi2, Matrix.one_mulVec]
    have hwe : w = ![w 0, w 1, w 2] := by funext i; fin_cases i <;> rfl
    have hv2 := hv
    rw [hwe, mFwd_vec] at hv2
    have w2 : w 2 = 1 := by have := congrFun hv2 2; simpa using this
    have hf : fwdCoord s R p = (w 0, w 1) := by
      unfold fwdCoord applyHomography
      dsimp only
      rw [← hw, w2]; simp
    rw [hf, rev_eq]
    have h0 := congrFun hv2 0
    have h1 := congrFun hv2 1
    rw [w2] at h0 h1
    simp only [mul_one, Matrix.cons_val_zero, Matrix.cons_val_one] at h0 h1
    exact Prod.ext h0 h1

theorem tilt_minor (t : Tilt) : t.matrix 0 0 * t.matrix 1 1 - t.matrix 0 1 * t.matrix 1 0 = Real.cos (rad t.x) * Real.cos (rad t.y) := by
  have sg := Real.sin_sq_add_cos_sq (rad t.z)
  unfold Tilt.matrix makeRotationMatrix
  cases t.zyx
  · simp [Rx, Ry, Rz, Matrix.mul_apply, Fin.sum_univ_three]
    linear_combination (Real.cos (rad t.x) * Real.cos (rad t.y)) * sg
  · simp [Rx, Ry, Rz, Matrix.mul_apply, Fin.sum_univ_three]
    linear_combination (Real.cos (rad t.x) * Real.cos (rad t.y)) * sg

/-- **C117.** Tilted differentiable DM: the points `render` and `render_backprop` look up are inverse maps of the plane, for all angles (no tilt edge-on), orders and
array sizes; the centre `(s/2, s/2)` is fixed. -/
theorem C117_inverse (s : ℕ) (t : Tilt) (hx : Real.cos (rad t.x) ≠ 0) (hy : Real.cos (rad t.y) ≠ 0) (p : ℝ × ℝ) :
    fwdCoord s t.matrix (revCoord s t.matrix p) = p ∧ revCoord s t.matrix (fwdCoord s t.matrix p) = p ∧
    fwdCoord s t.matrix ((s : ℝ) / 2, (s : ℝ) / 2) = ((s : ℝ) / 2, (s : ℝ) / 2) := by
  have h : t.matrix 0 0 * t.matrix 1 1 - t.matrix 0 1 * t.matrix 1 0 ≠ 0 := by rw [tilt_minor]; exact mul_ne_zero hx hy
  refine ⟨(fwd_rev s _ h p).1, (fwd_rev s _ h p).2, ?_⟩
  have : revCoord s t.matrix ((s : ℝ) / 2, (s : ℝ) / 2) = ((s : ℝ) / 2, (s : ℝ) / 2) := by rw [rev_eq]; simp
  conv_lhs => rw [← this]
  exact (fwd_rev s _ h _).1

/-- **C117.** The differentiable DM made for FALCO is tilted as the DM of `propcustom_dm` is: the pixel at `(x, y)` from the centre shows the point of the untilted
surface whose offset `(u, v)` from the centre is seen at `(x, y)`, for all angles and both orders. -/
theorem C117_same_tilt (d : Dm) (s : ℕ) (hx : Real.cos (rad d.xtilt) ≠ 0) (hy : Real.cos (rad d.ytilt) ≠ 0) (x y : ℝ) :
    ∃ u v, beamPoint d u v = (x, y) ∧ fwdCoord s d.tilt.matrix ((s : ℝ) / 2 + x, (s : ℝ) / 2 + y) = ((s : ℝ) / 2 + u, (s : ℝ) / 2 + v) := by
  have h : d.tilt.matrix 0 0 * d.tilt.matrix 1 1 - d.tilt.matrix 0 1 * d.tilt.matrix 1 0 ≠ 0 := by
    rw [tilt_minor]; exact mul_ne_zero hx hy
  set q := fwdCoord s d.tilt.matrix ((s : ℝ) / 2 + x, (s : ℝ) / 2 + y) with hq
  refine ⟨q.1 - (s : ℝ) / 2, q.2 - (s : ℝ) / 2, ?_, ?_⟩
  · have hr := (fwd_rev s _ h ((s : ℝ) / 2 + x, (s : ℝ) / 2 + y)).2
    rw [← hq, rev_eq, Prod.mk.injEq] at hr
    have hb : ∀ u v, beamPoint d u v = (d.tilt.matrix 0 0 * u + d.tilt.matrix 0 1 * v, d.tilt.matrix 1 0 * u + d.tilt.matrix 1 1 * v) := by
      intro u v
      have hz : rad (-1 * d.zrot) = -rad d.zrot := by unfold rad; ring
      unfold beamPoint Tilt.matrix makeRotationMatrix Dm.tilt
      dsimp only
      rw [hz]
      cases d.xyz
      · simp [Matrix.mulVec, dotProduct, Fin.sum_univ_three, Matrix.mul_assoc]
      · simp [Matrix.mulVec, dotProduct, Fin.sum_univ_three, Matrix.mul_assoc]
    rw [hb]
    refine Prod.ext ?_ ?_
    · dsimp only; linarith [hr.1]
    · dsimp only; linarith [hr.2]
  · refine Prod.ext ?_ ?_ <;> (dsimp only; ring)

/-- **C117.** For a tilt about X or about Y alone the factor between surface and wavefront error is twice the cosine of the angle of incidence (the last entry of the rotation matrix). -/
theorem C117_obliquity (t : Tilt) (hz : t.z = 0) (h : t.x = 0 ∨ t.y = 0) : t.obliquity = t.matrix 2 2 := by
  have key : ∀ a : ℝ, Real.cos (rad |a|) = Real.cos (rad a) := by
    intro a
    have : rad |a| = |rad a| := by
      unfold rad; rw [abs_div, abs_mul, abs_of_pos Real.pi_pos, abs_of_pos (by norm_num : (0 : ℝ) < 180)]
    rw [this, Real.cos_abs]
  unfold Tilt.obliquity Tilt.matrix makeRotationMatrix
  rcases h with h | h
  · rw [hz, h]
    have : Real.sqrt ((0 : ℝ) ^ 2 + t.y ^ 2 + 0 ^ 2) = |t.y| := by rw [← Real.sqrt_sq_eq_abs]; congr 1; ring
    rw [this, key]
    cases t.zyx <;> simp [rad, Rx, Ry, Rz, Matrix.mul_apply, Fin.sum_univ_three]
  · rw [hz, h]
    have : Real.sqrt ((0 : ℝ) ^ 2 + 0 ^ 2 + t.x ^ 2) = |t.x| := by rw [← Real.sqrt_sq_eq_abs]; congr 1; ring
    rw [this, key]
    cases t.zyx <;> simp [rad, Rx, Ry, Rz, Matrix.mul_apply, Fin.sum_univ_three]

/-- **C117, violated.** A DM turned by 90 degrees about the beam, and not tilted at all, has no wavefront error whatever the command: the factor is computed from the norm
of all three angles. -/
theorem C117_clocking_violated {M n : ℕ} [NeZero M] (interp : Pl M → ℝ → ℝ → ℂ) (d : DiffDm.DM M M n) (zyx : Bool) (a : Fin n → Fin n → ℝ) :
    (⟨90, 0, 0, zyx⟩ : Tilt).matrix 2 2 = 1 ∧ render interp d ⟨90, 0, 0, zyx⟩ a true = 0 := by
  constructor
  · unfold Tilt.matrix makeRotationMatrix
    cases zyx <;> simp [rad, Rx, Ry, Rz, Matrix.mul_apply, Fin.sum_univ_three]
  · have : (⟨90, 0, 0, zyx⟩ : Tilt).obliquity = 0 := by
      unfold Tilt.obliquity
      have h1 : Real.sqrt ((90 : ℝ) ^ 2 + 0 ^ 2 + 0 ^ 2) = 90 := by
        rw [show ((90 : ℝ) ^ 2 + 0 ^ 2 + 0 ^ 2) = 90 ^ 2 by ring]; exact Real.sqrt_sq (by norm_num)
      dsimp only
      rw [h1]
      have : rad 90 = Real.pi / 2 := by unfold rad; ring
      rw [this, Real.cos_pi_div_two]
    unfold render
    dsimp only
    rw [if_pos rfl, this]
    funext i j
    simp

/-- What is used of `ndimage.map_coordinates` (default order and mode): exact at the pixels, zero above and below the array, constants inside are kept. -/
structure Interpolates {M : ℕ} (interp : Pl M → ℝ → ℝ → ℂ) : Prop where
  pixel : ∀ (A : Pl M) (i j : ZMod M), interp A i.val j.val = A i j
  outside : ∀ (A : Pl M) (y x : ℝ), y < 0 ∨ (M : ℝ) - 1 < y → interp A y x = 0
  const : ∀ y x : ℝ, 0 ≤ y → y ≤ (M : ℝ) - 1 → 0 ≤ x → x ≤ (M : ℝ) - 1 → interp (fun _ _ => 1) y x = 1

open Classical in
/-- the hypothesis is met, e.g. by the value of the pixel below and to the left -/
example {M : ℕ} [NeZero M] : Interpolates (M := M) fun A y x => if y < 0 ∨ (M : ℝ) - 1 < y then 0 else A ((⌊y⌋ : ℤ) : ZMod M) ((⌊x⌋ : ℤ) : ZMod M) := by
  refine ⟨fun A i j => ?_, fun A y x h => ?_, fun y x h1 h2 _ _ => ?_⟩
  · have hi : i.val < M := ZMod.val_lt i
    have : (i.val : ℝ) ≤ (M : ℝ) - 1 := by
      have : (i.val : ℝ) + 1 ≤ M := by exact_mod_cast hi
      linarith
    rw [if_neg (by push Not; exact ⟨Nat.cast_nonneg _, this⟩)]
    rw [Int.floor_natCast, Int.floor_natCast, Int.cast_natCast, Int.cast_natCast, ZMod.natCast_zmod_val, ZMod.natCast_zmod_val]
  · rw [if_pos h]
  · rw [if_neg (by push Not; exact ⟨h1, h2⟩)]

/-- only the first actuator is poked -/
noncomputable def firstAct : Fin 2 → Fin 2 → ℝ := fun r c => if r = 0 ∧ c = 0 then 1 else 0

theorem first_surface {M : ℕ} [NeZero M] (heven : M % 2 = 0) (hM : 2 ≤ M) :
    DiffDm.render (DiffDm.pixDM M M none) firstAct M false = fun i j => (DiffDm.delta ((M / 2 - 1 : ℕ) : ZMod M) i j : ℂ) := by
  funext i j
  rw [DiffDm.C86_superposition heven (DiffDm.pixDM M M none) (DiffDm.inside_two hM) rfl 0 0 (by simp [DiffDm.pixDM]) (by simp [DiffDm.pixDM]) (DiffDm.delta ((M / 2 : ℕ) : ZMod M)) (fun _ _ => rfl)]
  congr 1
  have hs : DiffDm.latticeStart M 2 1 = ((M / 2 - 1 : ℕ) : ℤ) := by
    unfold DiffDm.latticeStart; simp; omega
  simp only [Fin.sum_univ_two, firstAct]
  simp only [DiffDm.pixDM, Fin.isValue, one_ne_zero, and_false, false_and, and_self, if_true, if_false, zero_mul, add_zero, one_mul, Fin.val_zero, Nat.cast_zero, hs]
  unfold DiffDm.delta
  simp only [Int.cast_natCast, add_eq_left, sub_eq_zero]

theorem val_half {M : ℕ} [NeZero M] (k : ℕ) (h : k < M) : ((k : ZMod M)).val = k := ZMod.val_natCast_of_lt h

/-- **C117, violated.** For a tilted DM `render_backprop` is not the adjoint of `render`: for a tilt of 60 degrees about X (either order, every even array size from 4 on)
there are a command and an image with `Σ render(a)·g = 0` and `Σ a·render_backprop(g) = 1`. -/
theorem C117_tilt_backprop_violated {M : ℕ} [NeZero M] (heven : M % 2 = 0) (hM : 4 ≤ M) (interp : Pl M → ℝ → ℝ → ℂ) (hI : Interpolates interp) (zyx : Bool) :
    ∃ (d : DiffDm.DM M M 2) (a : Fin 2 → Fin 2 → ℝ) (g : ZMod M → ZMod M → ℝ), DiffDm.Inside M 2 d.sep ∧
      ∑ i, ∑ j, render interp d ⟨0, 0, 60, zyx⟩ a false i j * (g i j : ℂ) = 0 ∧
      ∑ r, ∑ c, (a r c : ℂ) * backprop interp d ⟨0, 0, 60, zyx⟩ (fun i j => (g i j : ℂ)) false r c = 1 := by
  set t : Tilt := ⟨0, 0, 60, zyx⟩ with ht
  have hneed : t.needsRot := by
    unfold Tilt.needsRot
    rw [ht]; norm_num
  have h60 : rad 60 = Real.pi / 3 := by unfold rad; ring
  have m00 : t.matrix 0 0 = 1 := by rw [ht]; unfold Tilt.matrix makeRotationMatrix; cases zyx <;> simp [rad, Rx, Ry, Rz, Matrix.mul_apply, Fin.sum_univ_three]
  have m01 : t.matrix 0 1 = 0 := by rw [ht]; unfold Tilt.matrix makeRotationMatrix; cases zyx <;> simp [rad, Rx, Ry, Rz, Matrix.mul_apply, Fin.sum_univ_three]
  have m10 : t.matrix 1 0 = 0 := by rw [ht]; unfold Tilt.matrix makeRotationMatrix; cases zyx <;> simp [rad, Rx, Ry, Rz, Matrix.mul_apply, Fin.sum_univ_three]
  have m11 : t.matrix 1 1 = 1 / 2 := by
    rw [ht]; unfold Tilt.matrix makeRotationMatrix
    dsimp only
    rw [h60]
    cases zyx <;> simp [rad, Rx, Ry, Rz, Matrix.mul_apply, Fin.sum_univ_three]
  have hmin : t.matrix 0 0 * t.matrix 1 1 - t.matrix 0 1 * t.matrix 1 0 ≠ 0 := by rw [m00, m01, m10, m11]; norm_num
  have hrev : ∀ x y : ℝ, revCoord M t.matrix (x, y) = (x, (M : ℝ) / 2 + (y - (M : ℝ) / 2) / 2) := by
    intro x y
    rw [rev_eq, m00, m01, m10, m11]
    refine Prod.ext ?_ ?_ <;> (dsimp only; ring)
  have hfwd : ∀ x y : ℝ, fwdCoord M t.matrix (x, y) = (x, (M : ℝ) / 2 + 2 * (y - (M : ℝ) / 2)) := by
    intro x y
    have := (fwd_rev M t.matrix hmin (x, (M : ℝ) / 2 + 2 * (y - (M : ℝ) / 2))).1
    rw [hrev] at this
    rw [← this]
    congr 2
    ring
  obtain ⟨H, hH⟩ : ∃ H, M = 2 * H := ⟨M / 2, by omega⟩
  have hHalf : M / 2 = H := by omega
  have hMr : (M : ℝ) / 2 = H := by rw [hH]; push_cast; ring
  have hsfe : DiffDm.applyTf (DiffDm.poke 2 (DiffDm.pixDM M M none).sep firstAct) (DiffDm.tf (DiffDm.pixDM M M none).ifn (DiffDm.pixDM M M none).shiftx (DiffDm.pixDM M M none).shifty)
      = fun i j => (DiffDm.delta ((M / 2 - 1 : ℕ) : ZMod M) i j : ℂ) := by
    rw [← first_surface heven (by omega)]
    unfold DiffDm.render
    dsimp only [DiffDm.pixDM]
    rw [DiffDm.padF_same]
    simp
  refine ⟨DiffDm.pixDM M M none, firstAct, fun _ _ => 1, DiffDm.inside_two (by omega), ?_, ?_⟩
  · refine Finset.sum_eq_zero fun i _ => Finset.sum_eq_zero fun j _ => ?_
    have : render interp (DiffDm.pixDM M M none) t firstAct false i j = 0 := by
      unfold render
      rw [hsfe, if_pos hneed, if_neg (by simp)]
      unfold warp
      rw [hfwd]
      dsimp only
      rw [hMr]
      set y : ℤ := H + 2 * ((i.val : ℤ) - H) with hy
      have hyr : (H : ℝ) + 2 * ((i.val : ℝ) - H) = (y : ℝ) := by rw [hy]; push_cast; ring
      rw [hyr]
      by_cases hin : 0 ≤ y ∧ y ≤ M - 1
      · have hyn : (y : ℝ) = (((y.toNat : ℕ) : ZMod M).val : ℝ) := by
          rw [val_half _ (by omega)]
          have : ((y.toNat : ℕ) : ℤ) = y := Int.toNat_of_nonneg hin.1
          exact_mod_cast this.symm
        rw [hyn, hI.pixel]
        unfold DiffDm.delta
        have hne : ((y.toNat : ℕ) : ZMod M) ≠ ((M / 2 - 1 : ℕ) : ZMod M) := by
          intro he
          have := congrArg ZMod.val he
          rw [val_half _ (by omega), val_half _ (by omega)] at this
          omega
        rw [if_neg fun hh => hne hh.1]
        simp
      · apply hI.outside
        rcases not_and_or.mp hin with h | h
        · left; exact_mod_cast not_le.mp h
        · right
          have : (M : ℤ) - 1 < y := not_le.mp h
          exact_mod_cast this
    rw [this, zero_mul]
  · have hw : warp interp (revCoord M t.matrix) (fun _ _ => ((1 : ℝ) : ℂ)) = fun _ _ => ((1 : ℝ) : ℂ) := by
      funext i j
      unfold warp
      dsimp only
      rw [hrev]
      dsimp only
      have hi : (i.val : ℝ) + 1 ≤ M := by exact_mod_cast ZMod.val_lt i
      have hj : (j.val : ℝ) + 1 ≤ M := by exact_mod_cast ZMod.val_lt j
      have hi0 : (0 : ℝ) ≤ i.val := Nat.cast_nonneg _
      have hj0 : (0 : ℝ) ≤ j.val := Nat.cast_nonneg _
      have hM' : (4 : ℝ) ≤ M := by exact_mod_cast hM
      simp only [Complex.ofReal_one]
      exact hI.const _ _ (by linarith) (by linarith) hj0 (by linarith)
    have hb : backprop interp (DiffDm.pixDM M M none) t (fun _ _ => ((1 : ℝ) : ℂ)) false = DiffDm.backprop (DiffDm.pixDM M M none) (fun i j : ZMod M => ((1 : ℝ) : ℂ)) false := by
      unfold backprop DiffDm.backprop
      dsimp only [DiffDm.pixDM]
      rw [if_pos hneed, if_neg (by simp), if_neg (by simp), hw, DiffDm.padF_same]
    rw [hb, ← DiffDm.C84_adjoint heven (DiffDm.pixDM M M none) rfl (DiffDm.inside_two (by omega)) firstAct (fun _ _ => 1) false, first_surface heven (by omega)]
    have : ∀ i j : ZMod M, ((DiffDm.delta ((M / 2 - 1 : ℕ) : ZMod M) i j : ℝ) : ℂ) * ((1 : ℝ) : ℂ) = if i = ((M / 2 - 1 : ℕ) : ZMod M) then (if j = ((M / 2 - 1 : ℕ) : ZMod M) then 1 else 0) else 0 := by
      intro i j
      unfold DiffDm.delta
      by_cases h1 : i = ((M / 2 - 1 : ℕ) : ZMod M) <;> by_cases h2 : j = ((M / 2 - 1 : ℕ) : ZMod M) <;> simp [h1, h2]
    simp only [this]
    simp

/-- A DM which meets the hypotheses, with tilt, rotation and 10 pixels per actuator: 34 actuators across, 60 degrees about Z and X, order XYZ. -/
noncomputable def sampleDm : Dm :=
  { nact := 34, mag := 10, K := 91, inf := fun _ _ => 0, dxInf := 1 / 10, spacing := 1, xc := 16.5, yc := 16.5, xtilt := 60, ytilt := 0, zrot := 60, xyz := true }

example : Valid sampleDm := by
  have h60 : rad 60 = Real.pi / 3 := by unfold rad; ring
  have h0 : rad 0 = 0 := by unfold rad; ring
  refine ⟨by norm_num [sampleDm], by norm_num [sampleDm], by norm_num [sampleDm], ?_, ?_, ?_, ?_⟩
  · simp [sampleDm, Dm.m, mXYZ, h60, h0]
  · simp [sampleDm, Dm.m, mXYZ, h60, h0]
  · simp [sampleDm, h60]
  · simp [sampleDm, h0]

/-- the same DM with an odd number of actuators: its middle actuator is seen in the middle pixel, which is in the window -/
noncomputable def oddDm : Dm := { sampleDm with nact := 33, xc := 16, yc := 16 }

example : InWindow oddDm 400 (1 / 10) 200 ∧ beamPoint oddDm (((16 : ℕ) - oddDm.xc) * oddDm.spacing) (((16 : ℕ) - oddDm.yc) * oddDm.spacing) = (pos .pixel 400 (1 / 10) 200, pos .pixel 400 (1 / 10) 200) := by
  constructor
  · have hw : oddDm.window 400 (1 / 10) = 400 := by
      unfold Dm.window
      refine min_eq_right ?_
      have hs : (1 : ℝ) ≤ Real.sqrt 2 := by
        rw [show (1 : ℝ) = Real.sqrt 1 by simp]; exact Real.sqrt_le_sqrt (by norm_num)
      have h1 : (500 : ℝ) ≤ Real.sqrt 2 * oddDm.grid * oddDm.dxInf / (1 / 10) := by
        have : ((oddDm.grid : ℕ) : ℝ) = 510 := by norm_num [oddDm, sampleDm, Dm.grid]
        rw [this]
        have h2 : oddDm.dxInf = 1 / 10 := rfl
        rw [h2]; linarith
      have h2 := (npRound_bounds (Real.sqrt 2 * oddDm.grid * oddDm.dxInf / (1 / 10)))
      have h3 : (400 : ℝ) ≤ npRound (Real.sqrt 2 * oddDm.grid * oddDm.dxInf / (1 / 10)) := by linarith [h2.1]
      have h4 : (400 : ℤ) ≤ npRound (Real.sqrt 2 * oddDm.grid * oddDm.dxInf / (1 / 10)) := by exact_mod_cast h3
      omega
    unfold InWindow
    rw [hw]; omega
  · rw [beam_eq]
    norm_num [oddDm, sampleDm, pos]

end Verif.DmTilt
