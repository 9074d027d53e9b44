import Verif.Model.FocalCoords
import Verif.Props.Util

/-! # C116: the coordinates of the focal planes agree with those of the propagations

The propagations `mft_p2f` and `mft_f2p` place pixel `i` of an axis of `N` pixels with pitch `dxi` at entry `i` of `create_axis(N, dxi, centering)` (see C04, C10).
-/

namespace Verif.FocalCoords
open Verif Verif.Util

theorem axis_entry (N : ℕ) (step : ℝ) (c : Centering) (i : ℕ) (hi : i < N) :
    (createAxis N step c)[i]? = some ((if c = .interpixel ∨ N % 2 = 1 then (i : ℝ) - ((N : ℝ) - 1) / 2 else (i : ℝ) - (N : ℝ) / 2) * step) := by
  rw [createAxis_eq, List.getElem?_map, List.getElem?_range hi]
  simp only [Option.map_some, Option.some.injEq]
  rcases Nat.even_or_odd' N with ⟨k, hk | hk⟩
  · have h0 : N % 2 = 0 := by omega
    have h2 : ((N / 2 : ℕ) : ℝ) = (N : ℝ) / 2 := by
      have : N / 2 = k := by omega
      rw [this, hk]; push_cast; ring
    cases c
    · simp [h0, h2]
    · simp [h0, h2]; ring
  · have h0 : N % 2 = 1 := by omega
    have h2 : ((N / 2 : ℕ) : ℝ) = ((N : ℝ) - 1) / 2 := by
      have : N / 2 = k := by omega
      rw [this, hk]; push_cast; ring
    simp [h0, h2]

theorem spread_eq (N i : ℕ) (hi : i < N) : spread N i = (i : ℝ) - ((N : ℝ) - 1) / 2 := by
  unfold spread VortexMask.linspace
  split_ifs with h
  · have h1 : N = 1 := by omega
    have h2 : i = 0 := by omega
    subst h1; subst h2; norm_num
  · have : (N : ℝ) - 1 ≠ 0 := by
      have : (2 : ℝ) ≤ N := by exact_mod_cast (by omega : 2 ≤ N)
      linarith
    field_simp
    ring

/-- **C116.** Compact model: the stored coordinates of the focal-plane mask (used by the Jacobian) are, at every pixel, those the propagations of the compact model use, for every size of the
mask, even or odd, square or not, and both centerings. -/
theorem C116_compact (p : Plane) (c : Centering) (fLamD : ℝ) :
    (∀ i < p.nxi, (createAxis p.nxi (p.dxi fLamD) c)[i]? = some (p.xis c fLamD i)) ∧ ∀ i < p.neta, (createAxis p.neta (p.dxi fLamD) c)[i]? = some (p.etas c fLamD i) := by
  constructor <;> intro i hi <;> rw [axis_entry _ _ _ _ hi]
  · unfold Plane.xis halfRange
    split_ifs
    · rw [spread_eq _ _ hi]
    · congr 1; ring
  · unfold Plane.etas halfRange
    split_ifs
    · rw [spread_eq _ _ hi]
    · congr 1; ring

/-- **C116.** The sizes are those of the mask array unless they were set before. -/
theorem C116_sizes (rows cols : ℕ) (res : ℝ) (a b : ℕ) :
    ((⟨rows, cols, res, none, none⟩ : Plane).nxi = cols ∧ (⟨rows, cols, res, none, none⟩ : Plane).neta = rows) ∧
    (⟨rows, cols, res, some a, some b⟩ : Plane).nxi = a ∧ (⟨rows, cols, res, some a, some b⟩ : Plane).neta = b := ⟨⟨rfl, rfl⟩, rfl, rfl⟩

/-- **C116.** The dimensionless coordinates are those in units of λ₀ fl / D, with `res` pixels per unit. -/
theorem C116_dimensionless (p : Plane) (c : Centering) (fLamD : ℝ) (h : fLamD ≠ 0) :
    (∀ i < p.nxi, (createAxis p.nxi (1 / p.res) c)[i]? = some (p.xisDL c fLamD i)) ∧ ∀ i < p.neta, (createAxis p.neta (1 / p.res) c)[i]? = some (p.etasDL c fLamD i) := by
  obtain ⟨h1, h2⟩ := C116_compact p c fLamD
  constructor
  · intro i hi
    have := h1 i hi
    rw [axis_entry _ _ _ _ hi] at this ⊢
    injection this with this
    unfold Plane.xisDL
    rw [← this, Plane.dxi, Option.some.injEq]
    generalize (if c = Centering.interpixel ∨ p.nxi % 2 = 1 then _ else _ : ℝ) = u
    by_cases hr : p.res = 0
    · simp [hr]
    · field_simp
  · intro i hi
    have := h2 i hi
    rw [axis_entry _ _ _ _ hi] at this ⊢
    injection this with this
    unfold Plane.etasDL
    rw [← this, Plane.dxi, Option.some.injEq]
    generalize (if c = Centering.interpixel ∨ p.neta % 2 = 1 then _ else _ : ℝ) = u
    by_cases hr : p.res = 0
    · simp [hr]
    · field_simp

/-- **C116.** Full model: the same, provided the two sizes are both even or both odd (or the centering is 'interpixel'). -/
theorem C116_full (p : Plane) (c : Centering) (h : c = .interpixel ∨ p.nxi % 2 = p.neta % 2) :
    (∀ i < p.nxi, (createAxis p.nxi (1 / p.res) c)[i]? = some (p.fullXisDL c i)) ∧ ∀ i < p.neta, (createAxis p.neta (1 / p.res) c)[i]? = some (p.fullEtasDL c i) := by
  have hiff : (c = .interpixel ∨ p.nxi % 2 = 1) ↔ (c = .interpixel ∨ p.neta % 2 = 1) := by
    rcases h with h | h
    · simp [h]
    · rw [h]
  constructor <;> intro i hi <;> rw [axis_entry _ _ _ _ hi]
  · unfold Plane.fullXisDL halfRange
    split_ifs
    · rw [spread_eq _ _ hi]; congr 1; ring
    · congr 1; ring
  · unfold Plane.fullEtasDL halfRange
    simp only [hiff]
    split_ifs
    · rw [spread_eq _ _ hi]; congr 1; ring
    · congr 1; ring

/-- **C116, violated.** Full model, centering 'pixel', one size odd and the other even: the vertical coordinates are all off by half a pixel, as the choice is made by the horizontal size for
both axes (the compact model chooses for each axis). -/
theorem C116_full_violated (p : Plane) (i : ℕ) (hi : i < p.neta) :
    (p.nxi % 2 = 1 → p.neta % 2 = 0 → (createAxis p.neta (1 / p.res) .pixel)[i]? = some (p.fullEtasDL .pixel i - 1 / 2 * (1 / p.res))) ∧
    (p.nxi % 2 = 0 → p.neta % 2 = 1 → (createAxis p.neta (1 / p.res) .pixel)[i]? = some (p.fullEtasDL .pixel i + 1 / 2 * (1 / p.res))) := by
  rw [axis_entry _ _ _ _ hi]
  unfold Plane.fullEtasDL halfRange
  constructor
  · intro h1 h0
    rw [if_neg (by rw [h0]; simp), if_pos (Or.inr h1), spread_eq _ _ hi]
    congr 1; ring
  · intro h0 h1
    rw [if_pos (Or.inr h1), if_neg (by rw [h0]; simp)]
    congr 1; ring

/-- **C116.** The pitch of the image plane is λ₀ fl / D / res, that of the evaluation model λ₀ fl / D / eval.res; a lenslet given in λ₀/D is at that many λ₀ fl / D, and has the diameter
`2 * lensletWavRad` in the same unit. -/
theorem C116_pitch (fl lambda0 D res evalRes wavRad x y lensletFL f5res : ℝ) (hr : res ≠ 0) (h5 : f5res ≠ 0) :
    let f := fend fl lambda0 D res evalRes wavRad x y lensletFL f5res
    f.dxi = fl * lambda0 / D / res ∧ f.deta = f.dxi ∧ f.evalDxi = fl * lambda0 / D / evalRes ∧ f.xLenslet = fl * lambda0 / D * x ∧ f.yLenslet = fl * lambda0 / D * y ∧
      f.lensletD = 2 * wavRad * (fl * lambda0 / D) ∧ f.f5dxi * f5res = lensletFL * lambda0 / (2 * wavRad * (fl * lambda0 / D)) := by
  intro f
  have hD : f.lensletD = 2 * wavRad * (fl * lambda0 / D) := by
    show 2 * res * wavRad * (fl * lambda0 / D / res) = _
    generalize fl * lambda0 / D = u
    field_simp
  refine ⟨rfl, rfl, rfl, ?_, ?_, hD, ?_⟩
  · show fl * lambda0 / D / res * res * x = _
    rw [div_mul_cancel₀ _ hr]
  · show fl * lambda0 / D / res * res * y = _
    rw [div_mul_cancel₀ _ hr]
  · rw [← hD]
    show lensletFL * lambda0 / f.lensletD / f5res * f5res = _
    rw [div_mul_cancel₀ _ h5]

/-- **C116.** The dark-hole region is laid out on the coordinates of the image, for arrays of even size (those the code chooses by itself) and, with 'interpixel', for all. -/
theorem C116_region (g : Region.Grid) (N : ℕ) (h : g.centering = .interpixel ∨ N % 2 = 0) (i : ℕ) (hi : i < N) :
    (createAxis N (1 / g.res) g.centering)[i]? = some (Region.coord g N i) := by
  rw [axis_entry _ _ _ _ hi]
  unfold Region.coord
  cases hc : g.centering
  · rw [hc] at h
    have : N % 2 = 0 := by simpa using h
    rw [if_neg (by rw [this]; simp)]
    push_cast
    congr 1; ring
  · rw [if_pos (Or.inl rfl)]
    push_cast
    congr 1; ring

/-- **C116, violated.** With centering 'pixel' and an odd number of pixels given by the user, the region is laid out half a pixel to the left of (below) the coordinates of the image. -/
theorem C116_region_odd_violated (g : Region.Grid) (N : ℕ) (hc : g.centering = .pixel) (h1 : N % 2 = 1) (i : ℕ) (hi : i < N) :
    (createAxis N (1 / g.res) g.centering)[i]? = some (Region.coord g N i + 1 / 2 * (1 / g.res)) := by
  rw [axis_entry _ _ _ _ hi, if_pos (Or.inr h1)]
  unfold Region.coord
  rw [hc]
  push_cast
  congr 1; ring

/-- Concrete cases: a mask of 5 by 4 pixels (mixed parity), and an odd region. -/
example : (createAxis 4 (1 / 2) .pixel)[0]? = some ((⟨4, 5, 2, none, none⟩ : Plane).fullEtasDL .pixel 0 - 1 / 4) := by
  have := (C116_full_violated ⟨4, 5, 2, none, none⟩ 0 (by decide)).1 (by decide) (by decide)
  rw [show (1 / 2 * (1 / (⟨4, 5, 2, none, none⟩ : Plane).res) : ℝ) = 1 / 4 by norm_num] at this
  exact this
example : (createAxis 4 (1 / 2) .pixel)[1]? = some (-1 / 2 : ℝ) := by
  rw [axis_entry 4 _ _ 1 (by norm_num), if_neg (by decide)]; norm_num
example : (createAxis 5 (1 / 2) .pixel)[1]? = some (-1 / 2 : ℝ) := by
  rw [axis_entry 5 _ _ 1 (by norm_num)]; norm_num

end Verif.FocalCoords
