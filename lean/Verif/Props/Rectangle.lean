import Verif.Props.Ellipse
import Mathlib.MeasureTheory.Measure.Lebesgue.Basic

/-!
# C101: antialiased rectangles (prop_rectangle)

Specification: the pixel in row `i`, column `j` is the unit square around `(j, i)`.  It is cut into `mag` horizontal strips; its value is the mean over the strips of the exact
length, within the pixel, of the section of the figure along the middle of the strip.
-/

namespace Verif.Shape
open Verif MeasureTheory

/-- The closed rectangle: half widths `rx` and `ry`, centre `(xc, yc)`, turned by the angle `phi` counter-clockwise (`x` to the right, `y` up). -/
def rectSet (xc yc rx ry phi : ℝ) : Set (ℝ × ℝ) :=
  {p | |(p.1 - xc) * Real.cos phi + (p.2 - yc) * Real.sin phi| ≤ rx ∧ |-(p.1 - xc) * Real.sin phi + (p.2 - yc) * Real.cos phi| ≤ ry}

/-- Length of the part of the figure `S` on the horizontal line at height `y` within column `j`. -/
noncomputable def sectionLength (S : Set (ℝ × ℝ)) (y : ℝ) (j : ℝ) : ℝ := (volume {x : ℝ | |x - j| ≤ 1 / 2 ∧ (x, y) ∈ S}).toReal

/-- Mean section length over the middles of `k` equal strips of the pixel around `(x, y)`. -/
noncomputable def stripMean (k : ℕ) (S : Set (ℝ × ℝ)) (x y : ℝ) : ℝ :=
  (∑ s : Fin k, sectionLength S (y - 1 / 2 + ((s : ℕ) + 1 / 2) / k) x) / k

/-! ## One sub-row -/

/-- Length of `[a, b]` within the column `j`. -/
noncomputable def overlap (a b j : ℝ) : ℝ := max 0 (min b (j + 1 / 2) - max a (j - 1 / 2))

theorem sectionLength_Icc (S : Set (ℝ × ℝ)) (y a b j : ℝ) (h : ∀ x, (x, y) ∈ S ↔ a ≤ x ∧ x ≤ b) : sectionLength S y j = overlap a b j := by
  unfold sectionLength overlap
  have : {x : ℝ | |x - j| ≤ 1 / 2 ∧ (x, y) ∈ S} = Set.Icc (max a (j - 1 / 2)) (min b (j + 1 / 2)) := by
    ext x
    simp only [Set.mem_ofPred_eq, Set.mem_Icc, max_le_iff, le_min_iff, h, abs_le]
    constructor
    · rintro ⟨⟨h1, h2⟩, h3, h4⟩; exact ⟨⟨h3, by linarith⟩, h4, by linarith⟩
    · rintro ⟨⟨h1, h2⟩, h3, h4⟩; exact ⟨⟨by linarith, by linarith⟩, h1, h3⟩
  rw [this, Real.volume_Icc]
  by_cases h0 : 0 ≤ min b (j + 1 / 2) - max a (j - 1 / 2)
  · rw [ENNReal.toReal_ofReal h0, max_eq_right h0]
  · push Not at h0
    rw [ENNReal.ofReal_of_nonpos h0.le, max_eq_left h0.le]; rfl

theorem sectionLength_empty (S : Set (ℝ × ℝ)) (y j : ℝ) (h : ∀ x, (x, y) ∉ S) : sectionLength S y j = 0 := by
  unfold sectionLength
  have : {x : ℝ | |x - j| ≤ 1 / 2 ∧ (x, y) ∈ S} = ∅ := by ext x; simp [h]
  rw [this]; simp

theorem overlap_eq (a b j L R : ℝ) (hL : max a (j - 1 / 2) = L) (hR : min b (j + 1 / 2) = R) (h : L ≤ R) : overlap a b j = R - L := by
  unfold overlap; rw [hL, hR, max_eq_right (by linarith)]

set_option maxHeartbeats 1600000 in
theorem addRow_spec (n mag : ℕ) (img : ℤ → ℤ → ℝ) (yp : ℤ) (xl xr : ℝ) (hlr : xl ≤ xr) (i j : ℤ) (hj0 : 0 ≤ j) (hjn : j < n) :
    addRow n mag img yp xl xr i j = img i j + if i = yp then mag * overlap xl xr j else 0 := by
  have hab : Dm.npRound xl ≤ Dm.npRound xr := npRound_mono hlr
  have ha := Dm.npRound_bounds xl
  have hb := Dm.npRound_bounds xr
  unfold addRow
  dsimp only
  generalize Dm.npRound xl = a at *
  generalize Dm.npRound xr = b at *
  obtain ⟨ha1, ha2⟩ := ha
  obtain ⟨hb1, hb2⟩ := hb
  by_cases hi : i = yp
  · subst hi
    rw [if_pos rfl]
    rcases lt_trichotomy j a with h | h | h
    · -- left of the strip
      have hja : (j : ℝ) + 1 ≤ a := by exact_mod_cast h
      have ho : overlap xl xr j = 0 := by
        unfold overlap
        rw [max_eq_left]
        have h1 : min xr ((j : ℝ) + 1 / 2) ≤ j + 1 / 2 := min_le_right _ _
        have h2 : xl ≤ max xl ((j : ℝ) - 1 / 2) := le_max_left _ _
        linarith
      rw [ho, mul_zero, add_zero]
      split_ifs <;> simp [Function.update_apply] <;> (try split_ifs) <;> (first | rfl | omega | (intros; omega) | skip)
    · subst h
      by_cases hjb : j = b
      · -- the strip lies in one pixel
        subst hjb
        have ho : overlap xl xr j = xr - xl := by
          rw [overlap_eq _ _ _ _ _ (max_eq_left (by linarith)) (min_eq_left (by linarith)) hlr]
        rw [ho]
        simp [hj0, hjn]
      · have hlt : j < b := lt_of_le_of_ne hab hjb
        have hjb1 : (j : ℝ) + 1 ≤ b := by exact_mod_cast hlt
        have ho : overlap xl xr j = j + 0.5 - xl := by
          rw [overlap_eq _ _ _ _ _ (max_eq_left (by linarith)) (min_eq_right (by linarith)) (by linarith)]
          norm_num
        rw [ho]
        rw [if_pos hjb, if_pos (⟨hj0, hjn⟩ : 0 ≤ j ∧ j < (n : ℤ))]
        split_ifs <;> simp [Function.update_apply, hjb] <;> (try split_ifs) <;> (first | rfl | omega | (intros; omega) | skip)
    · have haj : (a : ℝ) + 1 ≤ j := by exact_mod_cast h
      rcases lt_trichotomy j b with hjb | hjb | hjb
      · -- a whole pixel
        have hjb1 : (j : ℝ) + 1 ≤ b := by exact_mod_cast hjb
        have ho : overlap xl xr j = 1 := by
          rw [overlap_eq _ _ _ _ _ (max_eq_right (by linarith)) (min_eq_right (by linarith)) (by linarith)]
          ring
        rw [ho, mul_one]
        have hne : a ≠ b := by omega
        have hja : j ≠ a := by omega
        have hjb' : j ≠ b := by omega
        rw [if_pos hne, if_pos (⟨by omega, by omega, by omega⟩ : b - a > 1 ∧ a + 1 < (n : ℤ) ∧ b > 0)]
        have hin : ((if a + 1 < 0 then 0 else a + 1) ≤ j ∧ j < if b > (n : ℤ) then (n : ℤ) else b) := by
          constructor <;> split_ifs <;> omega
        simp only [Function.update_apply, if_true, hin, and_self]
        split_ifs <;> simp [Function.update_apply, hja, hjb']
      · subst hjb
        have ho : overlap xl xr j = xr - (j - 0.5) := by
          rw [overlap_eq _ _ _ _ _ (max_eq_right (by linarith)) (min_eq_left (by linarith)) (by linarith)]
          norm_num
        rw [ho]
        have hne : a ≠ j := by omega
        rw [if_pos hne, if_pos (⟨hj0, hjn⟩ : 0 ≤ j ∧ j < (n : ℤ))]
        split_ifs <;> simp [Function.update_apply, hne.symm] <;> (try split_ifs) <;> (first | rfl | omega | (intros; omega) | skip)
      · have hbj : (b : ℝ) + 1 ≤ j := by exact_mod_cast hjb
        have ho : overlap xl xr j = 0 := by
          unfold overlap
          rw [max_eq_left]
          have h1 : min xr ((j : ℝ) + 1 / 2) ≤ xr := min_le_left _ _
          have h2 : (j : ℝ) - 1 / 2 ≤ max xl ((j : ℝ) - 1 / 2) := le_max_right _ _
          linarith
        rw [ho, mul_zero, add_zero]
        have hja : j ≠ a := by omega
        have hjb' : j ≠ b := by omega
        split_ifs <;> simp [Function.update_apply, hja, hjb'] <;> (try split_ifs) <;> (first | rfl | omega | (intros; omega) | skip)
  · rw [if_neg hi, add_zero]
    split_ifs <;> simp [Function.update_apply, hi]

/-! ## Sections of a parallelogram standing on one corner -/

section para
variable (px py dx dy ex ey : ℝ)

/-- Left end of the section at height `y`. -/
noncomputable def paraL (y : ℝ) : ℝ :=
  if y ≥ py + dy then (if ey ≠ 0 then ex / ey * (y - (py + dy)) + (px + dx) else px + dx) else dx / dy * (y - py) + px
/-- Right end of the section at height `y`. -/
noncomputable def paraR (y : ℝ) : ℝ :=
  if y ≥ py + ey then dx / dy * (y - (py + ey)) + (px + ex) else ex / ey * (y - py) + px

/-- The four half planes. -/
def ParaIn (x y : ℝ) : Prop :=
  ((x - px) * ey - (y - py) * ex ≤ 0 ∧ dx * ey - dy * ex ≤ (x - px) * ey - (y - py) * ex) ∧
  (dx * (y - py) - dy * (x - px) ≤ 0 ∧ dx * ey - dy * ex ≤ dx * (y - py) - dy * (x - px))

variable {px py dx dy ex ey}
variable (hdy : 0 < dy) (hey : 0 ≤ ey) (hD : dx * ey - dy * ex < 0)
include hdy hey hD

theorem para_section (x y : ℝ) (h0 : py ≤ y) (h1 : y ≤ py + dy + ey) :
    (ParaIn px py dx dy ex ey x y ↔ paraL px py dx dy ex ey y ≤ x ∧ x ≤ paraR px py dx dy ex ey y) := by
  have b1 : dx * (y - py) - dy * (x - px) ≤ 0 ↔ dx / dy * (y - py) + px ≤ x := by
    have : dx / dy * (y - py) + px = (dx * (y - py) + dy * px) / dy := by field_simp
    rw [this, div_le_iff₀ hdy]
    constructor <;> intro h <;> linarith
  have b2 : dx * ey - dy * ex ≤ dx * (y - py) - dy * (x - px) ↔ x ≤ dx / dy * (y - (py + ey)) + (px + ex) := by
    have : dx / dy * (y - (py + ey)) + (px + ex) = (dx * (y - (py + ey)) + dy * (px + ex)) / dy := by field_simp
    rw [this, le_div_iff₀ hdy]
    constructor <;> intro h <;> linarith
  rcases hey.lt_or_eq with hpos | hzero
  · have a1 : (x - px) * ey - (y - py) * ex ≤ 0 ↔ x ≤ ex / ey * (y - py) + px := by
      have : ex / ey * (y - py) + px = (ex * (y - py) + ey * px) / ey := by field_simp
      rw [this, le_div_iff₀ hpos]
      constructor <;> intro h <;> linarith
    have a2 : dx * ey - dy * ex ≤ (x - px) * ey - (y - py) * ex ↔ ex / ey * (y - (py + dy)) + (px + dx) ≤ x := by
      have : ex / ey * (y - (py + dy)) + (px + dx) = (ex * (y - (py + dy)) + ey * (px + dx)) / ey := by field_simp
      rw [this, div_le_iff₀ hpos]
      constructor <;> intro h <;> linarith
    have key1 : (dx / dy * (y - py) + px) - (ex / ey * (y - (py + dy)) + (px + dx)) = (y - (py + dy)) * ((dx * ey - dy * ex) / (dy * ey)) := by
      field_simp; ring
    have key2 : (ex / ey * (y - py) + px) - (dx / dy * (y - (py + ey)) + (px + ex)) = -((y - (py + ey)) * ((dx * ey - dy * ex) / (dy * ey))) := by
      field_simp; ring
    have hneg : (dx * ey - dy * ex) / (dy * ey) < 0 := div_neg_of_neg_of_pos hD (by positivity)
    unfold ParaIn paraL paraR
    rw [a1, a2, b1, b2]
    by_cases hl : y ≥ py + dy <;> by_cases hr : y ≥ py + ey
    · rw [if_pos hl, if_pos hpos.ne', if_pos hr]
      constructor
      · rintro ⟨⟨p1, p2⟩, p3, p4⟩; exact ⟨p2, p4⟩
      · rintro ⟨p1, p2⟩; refine ⟨⟨?_, p1⟩, ?_, p2⟩ <;> nlinarith
    · rw [if_pos hl, if_pos hpos.ne', if_neg hr]
      constructor
      · rintro ⟨⟨p1, p2⟩, p3, p4⟩; exact ⟨p2, p1⟩
      · rintro ⟨p1, p2⟩; refine ⟨⟨p2, p1⟩, ?_, ?_⟩ <;> nlinarith
    · rw [if_neg hl, if_pos hr]
      constructor
      · rintro ⟨⟨p1, p2⟩, p3, p4⟩; exact ⟨p3, p4⟩
      · rintro ⟨p1, p2⟩; refine ⟨⟨?_, ?_⟩, p1, p2⟩ <;> nlinarith
    · rw [if_neg hl, if_neg hr]
      constructor
      · rintro ⟨⟨p1, p2⟩, p3, p4⟩; exact ⟨p3, p1⟩
      · rintro ⟨p1, p2⟩; refine ⟨⟨p2, ?_⟩, p1, ?_⟩ <;> nlinarith
  · subst hzero
    have hex : 0 < ex := by nlinarith
    unfold ParaIn paraL paraR
    rw [b1, b2]
    have hr : y ≥ py + 0 := by linarith
    rw [if_pos hr]
    have hlx : (if y ≥ py + dy then (if (0 : ℝ) ≠ 0 then ex / 0 * (y - (py + dy)) + (px + dx) else px + dx) else dx / dy * (y - py) + px) = dx / dy * (y - py) + px := by
      split_ifs with hl h0
      · exact absurd rfl h0
      · have : y = py + dy := by linarith
        subst this; field_simp; ring
      · rfl
    rw [hlx]
    constructor
    · rintro ⟨-, p3, p4⟩; exact ⟨p3, p4⟩
    · rintro ⟨p1, p2⟩; refine ⟨⟨?_, ?_⟩, p1, p2⟩ <;> nlinarith

theorem para_le (y : ℝ) (h0 : py ≤ y) (h1 : y ≤ py + dy + ey) : paraL px py dx dy ex ey y ≤ paraR px py dx dy ex ey y := by
  -- the left end lies in the figure
  refine ((para_section hdy hey hD (paraL px py dx dy ex ey y) y h0 h1).mp ?_).2
  unfold ParaIn paraL
  rcases hey.lt_or_eq with hpos | hzero
  · split_ifs with hl hz
    · have e1 : (ex / ey * (y - (py + dy)) + (px + dx) - px) * ey = ex * (y - (py + dy)) + dx * ey := by field_simp; ring
      have e2 : dy * (ex / ey * (y - (py + dy)) + (px + dx) - px) = dy * ex / ey * (y - (py + dy)) + dy * dx := by field_simp; ring
      have e3 : dx * (y - py) - (dy * ex / ey * (y - (py + dy)) + dy * dx) = (y - (py + dy)) * ((dx * ey - dy * ex) / ey) := by field_simp; ring
      rw [e1, e2, e3]
      have hneg : (dx * ey - dy * ex) / ey < 0 := div_neg_of_neg_of_pos hD hpos
      have e4 : (dx * ey - dy * ex) / ey * ey = dx * ey - dy * ex := by field_simp
      refine ⟨⟨by nlinarith, by nlinarith⟩, by nlinarith, ?_⟩
      nlinarith
    · exact absurd hpos.ne' hz
    · have e1 : (dx / dy * (y - py) + px - px) * ey = dx * ey / dy * (y - py) := by field_simp; ring
      have e2 : dy * (dx / dy * (y - py) + px - px) = dx * (y - py) := by field_simp; ring
      have e3 : dx * ey / dy * (y - py) - (y - py) * ex = (y - py) * ((dx * ey - dy * ex) / dy) := by field_simp
      rw [e1, e2, e3]
      have hneg : (dx * ey - dy * ex) / dy < 0 := div_neg_of_neg_of_pos hD hdy
      have e4 : (dx * ey - dy * ex) / dy * dy = dx * ey - dy * ex := by field_simp
      push Not at hl
      refine ⟨⟨by nlinarith, by nlinarith⟩, by linarith, by linarith⟩
  · subst hzero
    have hex : 0 < ex := by nlinarith
    have hlx : (if y ≥ py + dy then (if (0 : ℝ) ≠ 0 then ex / 0 * (y - (py + dy)) + (px + dx) else px + dx) else dx / dy * (y - py) + px) = dx / dy * (y - py) + px := by
      split_ifs with hl h0
      · exact absurd rfl h0
      · have : y = py + dy := by linarith
        subst this; field_simp; ring
      · rfl
    rw [hlx]
    have e2 : dy * (dx / dy * (y - py) + px - px) = dx * (y - py) := by field_simp; ring
    rw [e2]
    refine ⟨⟨by nlinarith, by nlinarith⟩, by linarith, by nlinarith⟩

theorem para_outside (x y : ℝ) (h : ParaIn px py dx dy ex ey x y) : py ≤ y ∧ y ≤ py + dy + ey := by
  obtain ⟨⟨p1, p2⟩, p3, p4⟩ := h
  -- alpha d + beta e with alpha = ((x-px) ey - (y-py) ex) / D
  constructor
  · nlinarith
  · nlinarith

end para

/-! ## The rectangle seen from its lowest corner -/

theorem Rect.lowest_spec (r : Rect) : r.yp r.lowest = r.ymin ∧ ∀ l, r.yp l = r.ymin → r.xp r.lowest ≤ r.xp l := by
  classical
  have hex : ∃ k : Fin 4, r.yp k = r.ymin := by
    unfold Rect.ymin
    rcases min_choice (min (r.yp 0) (r.yp 1)) (min (r.yp 2) (r.yp 3)) with h | h <;> rw [h]
    · rcases min_choice (r.yp 0) (r.yp 1) with h | h <;> rw [h] <;> exact ⟨_, rfl⟩
    · rcases min_choice (r.yp 2) (r.yp 3) with h | h <;> rw [h] <;> exact ⟨_, rfl⟩
  obtain ⟨k, hk⟩ := hex
  obtain ⟨m, hm, hmin⟩ := Finset.exists_min_image ((Finset.univ : Finset (Fin 4)).filter fun k => r.yp k = r.ymin) r.xp ⟨k, by simp [hk]⟩
  have hm' : r.yp m = r.ymin := (Finset.mem_filter.mp hm).2
  unfold Rect.lowest
  cases hf : (List.finRange 4).find? fun k => decide (r.yp k = r.ymin ∧ ∀ l, r.yp l = r.ymin → r.xp k ≤ r.xp l) with
  | none =>
    have := List.find?_eq_none.mp hf m (List.mem_finRange m)
    exfalso; apply this
    rw [decide_eq_true_iff]
    exact ⟨hm', fun l hl => hmin l (by simp [hl])⟩
  | some v =>
    have := List.find?_some hf
    simpa using this

/-- What the scan needs to know about the rectangle. -/
structure Rect.Geo (r : Rect) (L : Fin 4) : Prop where
  hdy : 0 < r.yp (L + 1) - r.yp L
  hey : 0 ≤ r.yp (L - 1) - r.yp L
  hD : (r.xp (L + 1) - r.xp L) * (r.yp (L - 1) - r.yp L) - (r.yp (L + 1) - r.yp L) * (r.xp (L - 1) - r.xp L) < 0
  hx2 : r.xp (L + 2) = r.xp L + (r.xp (L + 1) - r.xp L) + (r.xp (L - 1) - r.xp L)
  hy2 : r.yp (L + 2) = r.yp L + (r.yp (L + 1) - r.yp L) + (r.yp (L - 1) - r.yp L)
  hmin : r.ymin = r.yp L
  hmax : r.ymax = r.yp L + (r.yp (L + 1) - r.yp L) + (r.yp (L - 1) - r.yp L)
  hin : ∀ x y, (x, y) ∈ rectSet r.xc r.yc r.rx r.ry r.t ↔
    ParaIn (r.xp L) (r.yp L) (r.xp (L + 1) - r.xp L) (r.yp (L + 1) - r.yp L) (r.xp (L - 1) - r.xp L) (r.yp (L - 1) - r.yp L) x y

theorem fin4a : ∀ L : Fin 4, L + 1 + 1 = L + 2 := by decide
theorem fin4b : ∀ L : Fin 4, L - 1 - 1 = L + 2 := by decide
theorem fin4c : ∀ L : Fin 4, L + 2 + 1 = L - 1 := by decide
theorem fin4d : ∀ L : Fin 4, L + 2 - 1 = L + 1 := by decide
theorem hfour : ∀ L l : Fin 4, l = L ∨ l = L + 1 ∨ l = L + 2 ∨ l = L - 1 := by decide

theorem Rect.geo (r : Rect) (hx : 0 < r.rx) (hy : 0 < r.ry) : r.Geo r.lowest := by
  obtain ⟨hL, hleft⟩ := r.lowest_spec
  generalize r.lowest = L at *
  have hcs : Real.sin r.t ^ 2 + Real.cos r.t ^ 2 = 1 := Real.sin_sq_add_cos_sq _
  have hmn : ∀ l, r.ymin ≤ r.yp l := by
    intro l; unfold Rect.ymin; fin_cases l <;> simp
  have hmx : ∀ l, r.yp l ≤ r.ymax := by
    intro l; unfold Rect.ymax; fin_cases l <;> simp
  have hpos : 0 < r.rx * r.ry := mul_pos hx hy
  have hx2 : r.xp (L + 2) = r.xp L + (r.xp (L + 1) - r.xp L) + (r.xp (L - 1) - r.xp L) := by
    fin_cases L <;> simp [Rect.xp, Rect.p0] <;> ring
  have hy2 : r.yp (L + 2) = r.yp L + (r.yp (L + 1) - r.yp L) + (r.yp (L - 1) - r.yp L) := by
    fin_cases L <;> simp [Rect.yp, Rect.p0] <;> ring
  have hDe : (r.xp (L + 1) - r.xp L) * (r.yp (L - 1) - r.yp L) - (r.yp (L + 1) - r.yp L) * (r.xp (L - 1) - r.xp L) = -4 * (r.rx * r.ry) := by
    fin_cases L <;> simp [Rect.xp, Rect.yp, Rect.p0] <;> linear_combination (-4 * (r.rx * r.ry)) * hcs
  have hD : (r.xp (L + 1) - r.xp L) * (r.yp (L - 1) - r.yp L) - (r.yp (L + 1) - r.yp L) * (r.xp (L - 1) - r.xp L) < 0 := by rw [hDe]; linarith
  have hey : 0 ≤ r.yp (L - 1) - r.yp L := by have := hmn (L - 1); linarith
  have hdy : 0 < r.yp (L + 1) - r.yp L := by
    have h0 := hmn (L + 1)
    rcases (by linarith : 0 ≤ r.yp (L + 1) - r.yp L).lt_or_eq with h | h
    · exact h
    · exfalso
      have := hleft (L + 1) (by linarith)
      rw [← h] at hD
      nlinarith
  have hall : ∀ l, r.yp l ≤ r.yp (L + 2) := by
    intro l
    have : l = L ∨ l = L + 1 ∨ l = L + 2 ∨ l = L - 1 := hfour L l
    rcases this with rfl | rfl | rfl | rfl
    · rw [hy2]; linarith
    · rw [hy2]; linarith
    · exact le_rfl
    · rw [hy2]; linarith
  refine ⟨hdy, hey, hD, hx2, hy2, hL.symm, ?_, ?_⟩
  · rw [← hy2]
    apply le_antisymm
    · unfold Rect.ymax
      exact max_le (max_le (hall 0) (hall 1)) (max_le (hall 2) (hall 3))
    · exact hmx _
  · intro x y
    unfold ParaIn
    rw [hDe]
    simp only [rectSet, Set.mem_ofPred_eq]
    set u := (x - r.xc) * Real.cos r.t + (y - r.yc) * Real.sin r.t with hu
    set v := -(x - r.xc) * Real.sin r.t + (y - r.yc) * Real.cos r.t with hv
    have hAB : ((x - r.xp L) * (r.yp (L - 1) - r.yp L) - (y - r.yp L) * (r.xp (L - 1) - r.xp L) = -2 * r.rx * (v + r.ry) ∧
          (r.xp (L + 1) - r.xp L) * (y - r.yp L) - (r.yp (L + 1) - r.yp L) * (x - r.xp L) = -2 * r.ry * (u + r.rx)) ∨
        ((x - r.xp L) * (r.yp (L - 1) - r.yp L) - (y - r.yp L) * (r.xp (L - 1) - r.xp L) = -2 * r.ry * (u + r.rx) ∧
          (r.xp (L + 1) - r.xp L) * (y - r.yp L) - (r.yp (L + 1) - r.yp L) * (x - r.xp L) = -2 * r.rx * (r.ry - v)) ∨
        ((x - r.xp L) * (r.yp (L - 1) - r.yp L) - (y - r.yp L) * (r.xp (L - 1) - r.xp L) = -2 * r.rx * (r.ry - v) ∧
          (r.xp (L + 1) - r.xp L) * (y - r.yp L) - (r.yp (L + 1) - r.yp L) * (x - r.xp L) = -2 * r.ry * (r.rx - u)) ∨
        ((x - r.xp L) * (r.yp (L - 1) - r.yp L) - (y - r.yp L) * (r.xp (L - 1) - r.xp L) = -2 * r.ry * (r.rx - u) ∧
          (r.xp (L + 1) - r.xp L) * (y - r.yp L) - (r.yp (L + 1) - r.yp L) * (x - r.xp L) = -2 * r.rx * (v + r.ry)) := by
      fin_cases L
      · left
        constructor <;> simp [Rect.xp, Rect.yp, Rect.p0, hu, hv] <;> linear_combination (-2 * (r.rx * r.ry)) * hcs
      · right; left
        constructor <;> simp [Rect.xp, Rect.yp, Rect.p0, hu, hv] <;> linear_combination (-2 * (r.rx * r.ry)) * hcs
      · right; right; left
        constructor <;> simp [Rect.xp, Rect.yp, Rect.p0, hu, hv] <;> linear_combination (-2 * (r.rx * r.ry)) * hcs
      · right; right; right
        constructor <;> simp [Rect.xp, Rect.yp, Rect.p0, hu, hv] <;> linear_combination (-2 * (r.rx * r.ry)) * hcs
    have k1 : ∀ w : ℝ, (-2 * r.rx * w ≤ 0 ∧ -4 * (r.rx * r.ry) ≤ -2 * r.rx * w) ↔ (0 ≤ w ∧ w ≤ 2 * r.ry) := by
      intro w
      constructor
      · rintro ⟨h1, h2⟩; constructor <;> nlinarith
      · rintro ⟨h1, h2⟩; constructor <;> nlinarith
    have k2 : ∀ w : ℝ, (-2 * r.ry * w ≤ 0 ∧ -4 * (r.rx * r.ry) ≤ -2 * r.ry * w) ↔ (0 ≤ w ∧ w ≤ 2 * r.rx) := by
      intro w
      constructor
      · rintro ⟨h1, h2⟩; constructor <;> nlinarith
      · rintro ⟨h1, h2⟩; constructor <;> nlinarith
    rw [abs_le, abs_le]
    rcases hAB with ⟨e1, e2⟩ | ⟨e1, e2⟩ | ⟨e1, e2⟩ | ⟨e1, e2⟩ <;> rw [e1, e2] <;> simp only [k1, k2] <;> constructor <;>
      (rintro ⟨⟨h1, h2⟩, h3, h4⟩; refine ⟨⟨?_, ?_⟩, ?_, ?_⟩ <;> linarith)

/-! ## The scan -/

/-- Height of a sub-row. -/
noncomputable def rowY (mag : ℕ) (q : ℤ × ℕ) : ℝ := q.1 - 0.5 + (0.5 + q.2) / mag

section scan
variable (r : Rect) (n mag : ℕ)

/-- Left end of the section of the rectangle. -/
noncomputable def Rect.secL (y : ℝ) : ℝ :=
  paraL (r.xp r.lowest) (r.yp r.lowest) (r.xp (r.lowest + 1) - r.xp r.lowest) (r.yp (r.lowest + 1) - r.yp r.lowest) (r.xp (r.lowest - 1) - r.xp r.lowest) (r.yp (r.lowest - 1) - r.yp r.lowest) y
/-- Right end. -/
noncomputable def Rect.secR (y : ℝ) : ℝ :=
  paraR (r.xp r.lowest) (r.yp r.lowest) (r.xp (r.lowest + 1) - r.xp r.lowest) (r.yp (r.lowest + 1) - r.yp r.lowest) (r.xp (r.lowest - 1) - r.xp r.lowest) (r.yp (r.lowest - 1) - r.yp r.lowest) y

/-- Before the sub-row at height `y`: either the top has been passed, or the corners are right for `y`. -/
def Rect.Ready (s : Scan) (y : ℝ) : Prop :=
  r.ymax < y ∨ ((s.left = r.lowest ∨ (s.left = r.lowest + 1 ∧ r.yp (r.lowest + 1) < y)) ∧ (s.right = r.lowest ∨ (s.right = r.lowest - 1 ∧ r.yp (r.lowest - 1) < y)))

open Classical in
theorem Rect.scan_step (hx : 0 < r.rx) (hy : 0 < r.ry) (s : Scan) (q : ℤ × ℕ) (hs : r.Ready s (rowY mag q)) :
    ((r.scan n mag s q).img = if r.ymin ≤ rowY mag q ∧ rowY mag q ≤ r.ymax then addRow n mag s.img q.1 (r.secL (rowY mag q)) (r.secR (rowY mag q)) else s.img) ∧
    ∀ y', rowY mag q < y' → r.Ready (r.scan n mag s q) y' := by
  obtain ⟨hdy, hey, hD, hx2, hy2, hmin, hmax, -⟩ := r.geo hx hy
  unfold Rect.scan
  dsimp only
  change ((if rowY mag q < r.yp s.left then s else _ : Scan).img = _) ∧ ∀ y', _ → r.Ready (if rowY mag q < r.yp s.left then s else _) y'
  have hy' : (q.1 : ℝ) - 0.5 + (0.5 + (q.2 : ℝ)) / mag = rowY mag q := rfl
  rw [hy']
  generalize rowY mag q = y at *
  rcases hs with htop | ⟨hl, hr⟩
  · -- above the rectangle
    have h1 : ¬ (r.ymin ≤ y ∧ y ≤ r.ymax) := fun h => absurd h.2 (not_le.mpr htop)
    have h2 : y > r.ymax := htop
    rw [if_neg h1]
    rw [if_pos h2, ite_self]
    exact ⟨rfl, fun y' hy => Or.inl (lt_trans htop hy)⟩
  · by_cases hlow : y < r.yp s.left
    · -- below the lowest corner
      have hl0 : s.left = r.lowest := by
        rcases hl with h | ⟨h, h'⟩
        · exact h
        · rw [h] at hlow; exact absurd h' (not_lt.mpr hlow.le)
      have h1 : ¬ (r.ymin ≤ y ∧ y ≤ r.ymax) := by rw [hmin]; rw [hl0] at hlow; exact fun h => absurd h.1 (not_le.mpr hlow)
      rw [if_pos hlow, if_neg h1]
      refine ⟨rfl, fun y' hy => Or.inr ⟨?_, ?_⟩⟩
      · exact Or.inl hl0
      · rcases hr with h | ⟨h, h'⟩
        · exact Or.inl h
        · exact Or.inr ⟨h, by linarith⟩
    · rw [if_neg hlow]
      by_cases htop : y > r.ymax
      · have h1 : ¬ (r.ymin ≤ y ∧ y ≤ r.ymax) := fun h => absurd h.2 (not_le.mpr htop)
        rw [if_pos htop, if_neg h1]
        exact ⟨rfl, fun y' hy => Or.inl (lt_trans htop hy)⟩
      · rw [if_neg htop]
        push Not at htop hlow
        have hmn : r.ymin ≤ y := by
          rw [hmin]
          rcases hl with h | ⟨h, h'⟩
          · rw [h] at hlow; exact hlow
          · linarith
        rw [if_pos (⟨hmn, htop⟩ : r.ymin ≤ y ∧ y ≤ r.ymax)]
        unfold Rect.secL Rect.secR Rect.Ready
        generalize r.lowest = L at *
        -- the left end
        have hleft : r.edgeX (if y ≥ r.yp (s.left + 1) then s.left + 1 else s.left) ((if y ≥ r.yp (s.left + 1) then s.left + 1 else s.left) + 1) y =
            paraL (r.xp L) (r.yp L) (r.xp (L + 1) - r.xp L) (r.yp (L + 1) - r.yp L) (r.xp (L - 1) - r.xp L) (r.yp (L - 1) - r.yp L) y := by
          unfold Rect.edgeX paraL
          dsimp only
          rcases hl with h | ⟨h, h'⟩
          · rw [h]
            by_cases hc : y ≥ r.yp (L + 1)
            · rw [if_pos hc, if_pos (show y ≥ r.yp L + (r.yp (L + 1) - r.yp L) by linarith), fin4a]
              have e1 : r.yp (L + 2) - r.yp (L + 1) = r.yp (L - 1) - r.yp L := by rw [hy2]; ring
              have e2 : r.xp (L + 2) - r.xp (L + 1) = r.xp (L - 1) - r.xp L := by rw [hx2]; ring
              rw [e1, e2]
              split_ifs <;> ring
            · rw [if_neg hc, if_neg (show ¬ (y ≥ r.yp L + (r.yp (L + 1) - r.yp L)) by intro h; apply hc; linarith)]
              rw [if_pos hdy.ne']
          · rw [h, fin4a]
            by_cases hc : y ≥ r.yp (L + 2)
            · have hyy : y = r.yp (L + 2) := by linarith
              have hez : r.yp (L - 1) - r.yp L ≠ 0 := by intro h0; linarith
              rw [if_pos hc, if_pos (show y ≥ r.yp L + (r.yp (L + 1) - r.yp L) by linarith), if_pos hez, fin4c]
              rw [hyy, sub_self, mul_zero, zero_add, ite_self, hx2, hy2]
              have : r.yp L + (r.yp (L + 1) - r.yp L) + (r.yp (L - 1) - r.yp L) - (r.yp L + (r.yp (L + 1) - r.yp L)) = r.yp (L - 1) - r.yp L := by ring
              rw [this, div_mul_cancel₀ _ hez]; ring
            · rw [if_neg hc, if_pos (show y ≥ r.yp L + (r.yp (L + 1) - r.yp L) by linarith), fin4a]
              have e1 : r.yp (L + 2) - r.yp (L + 1) = r.yp (L - 1) - r.yp L := by rw [hy2]; ring
              have e2 : r.xp (L + 2) - r.xp (L + 1) = r.xp (L - 1) - r.xp L := by rw [hx2]; ring
              rw [e1, e2]
              split_ifs <;> ring
        have hright : r.edgeX (if y ≥ r.yp (s.right - 1) then s.right - 1 else s.right) ((if y ≥ r.yp (s.right - 1) then s.right - 1 else s.right) - 1) y =
            paraR (r.xp L) (r.yp L) (r.xp (L + 1) - r.xp L) (r.yp (L + 1) - r.yp L) (r.xp (L - 1) - r.xp L) (r.yp (L - 1) - r.yp L) y := by
          have e1 : r.yp (L + 2) - r.yp (L - 1) = r.yp (L + 1) - r.yp L := by rw [hy2]; ring
          have e2 : r.xp (L + 2) - r.xp (L - 1) = r.xp (L + 1) - r.xp L := by rw [hx2]; ring
          unfold Rect.edgeX paraR
          dsimp only
          rcases hr with h | ⟨h, h'⟩
          · rw [h]
            by_cases hc : y ≥ r.yp (L - 1)
            · rw [if_pos hc, if_pos (show y ≥ r.yp L + (r.yp (L - 1) - r.yp L) by linarith), fin4b]
              rw [e1, e2, if_pos hdy.ne']
              ring
            · have hez : r.yp (L - 1) - r.yp L ≠ 0 := by intro h0; apply hc; linarith
              rw [if_neg hc, if_neg (show ¬ (y ≥ r.yp L + (r.yp (L - 1) - r.yp L)) by intro h; apply hc; linarith)]
              rw [if_pos hez]
          · rw [h, fin4b]
            by_cases hc : y ≥ r.yp (L + 2)
            · have hyy : y = r.yp (L + 2) := by linarith
              rw [if_pos hc, if_pos (show y ≥ r.yp L + (r.yp (L - 1) - r.yp L) by linarith), fin4d]
              rw [hyy, sub_self, mul_zero, zero_add, ite_self, hx2, hy2]
              have : r.yp L + (r.yp (L + 1) - r.yp L) + (r.yp (L - 1) - r.yp L) - (r.yp L + (r.yp (L - 1) - r.yp L)) = r.yp (L + 1) - r.yp L := by ring
              rw [this, div_mul_cancel₀ _ hdy.ne']; ring
            · rw [if_neg hc, if_pos (show y ≥ r.yp L + (r.yp (L - 1) - r.yp L) by linarith), fin4b]
              rw [e1, e2, if_pos hdy.ne']
              ring
        refine ⟨by rw [hleft, hright], fun y' hyy => ?_⟩
        by_cases hend : r.ymax ≤ y
        · exact Or.inl (lt_of_le_of_lt hend hyy)
        · right
          push Not at hend
          have hc2 : ¬ (y ≥ r.yp (L + 2)) := by rw [hy2]; linarith
          constructor
          · show (if y ≥ r.yp (s.left + 1) then s.left + 1 else s.left) = L ∨ ((if y ≥ r.yp (s.left + 1) then s.left + 1 else s.left) = L + 1 ∧ r.yp (L + 1) < y')
            rcases hl with h | ⟨h, h'⟩
            · rw [h]
              by_cases hc : y ≥ r.yp (L + 1)
              · rw [if_pos hc]; exact Or.inr ⟨rfl, by linarith⟩
              · rw [if_neg hc]; exact Or.inl rfl
            · rw [h, fin4a, if_neg hc2]; exact Or.inr ⟨rfl, by linarith⟩
          · show (if y ≥ r.yp (s.right - 1) then s.right - 1 else s.right) = L ∨ ((if y ≥ r.yp (s.right - 1) then s.right - 1 else s.right) = L - 1 ∧ r.yp (L - 1) < y')
            rcases hr with h | ⟨h, h'⟩
            · rw [h]
              by_cases hc : y ≥ r.yp (L - 1)
              · rw [if_pos hc]; exact Or.inr ⟨rfl, by linarith⟩
              · rw [if_neg hc]; exact Or.inl rfl
            · rw [h, fin4b, if_neg hc2]; exact Or.inr ⟨rfl, by linarith⟩

open Classical in
/-- The whole scan. -/
theorem Rect.scan_fold (hx : 0 < r.rx) (hy : 0 < r.ry) (l : List (ℤ × ℕ)) (hl : l.Pairwise fun p q => rowY mag p < rowY mag q) (s : Scan)
    (hs : ∀ q ∈ l, r.Ready s (rowY mag q)) (i j : ℤ) (hj0 : 0 ≤ j) (hjn : j < n) :
    (l.foldl (r.scan n mag) s).img i j = s.img i j + (l.map fun q => if q.1 = i then mag * sectionLength (rectSet r.xc r.yc r.rx r.ry r.t) (rowY mag q) j else 0).sum := by
  induction l generalizing s with
  | nil => simp
  | cons q l ih =>
    rw [List.pairwise_cons] at hl
    obtain ⟨h1, h2⟩ := r.scan_step n mag hx hy s q (hs q (List.mem_cons_self))
    rw [List.foldl_cons, ih hl.2 _ (fun q' hq' => h2 _ (hl.1 q' hq')), h1, List.map_cons, List.sum_cons, ← add_assoc]
    congr 1
    obtain ⟨hdy, hey, hD, -, -, hmin, hmax, hin⟩ := r.geo hx hy
    unfold Rect.secL Rect.secR
    split_ifs with hc hi hi
    · rw [addRow_spec n mag _ _ _ _ (para_le hdy hey hD _ (by linarith [hc.1]) (by linarith [hc.2])) i j hj0 hjn, if_pos hi.symm]
      congr 2
      exact (sectionLength_Icc _ _ _ _ _ fun x => (hin x _).trans (para_section hdy hey hD x _ (by linarith [hc.1]) (by linarith [hc.2]))).symm
    · rw [addRow_spec n mag _ _ _ _ (para_le hdy hey hD _ (by linarith [hc.1]) (by linarith [hc.2])) i j hj0 hjn, if_neg (fun h => hi h.symm)]
    · rw [sectionLength_empty, mul_zero, add_zero]
      intro x hx'
      obtain ⟨o1, o2⟩ := para_outside hdy hey hD x _ ((hin x _).mp hx')
      exact hc ⟨by linarith, by linarith⟩
    · rw [add_zero]

/-- The sub-rows are visited upwards. -/
theorem Rect.rows_sorted (hm : 0 < mag) : (r.rows n mag).Pairwise fun p q => rowY mag p < rowY mag q := by
  unfold Rect.rows
  dsimp only
  generalize (if Dm.npRound r.ymin < 0 then 0 else Dm.npRound r.ymin) = lo
  generalize ((if Dm.npRound r.ymax + 1 ≥ (n : ℤ) then (n : ℤ) else Dm.npRound r.ymax + 1) - lo).toNat = K
  have hm' : (0 : ℝ) < mag := by exact_mod_cast hm
  rw [List.pairwise_flatMap]
  constructor
  · intro k _
    rw [List.pairwise_map]
    refine List.Pairwise.imp ?_ List.pairwise_lt_range
    intro a b hab
    have : (a : ℝ) < b := by exact_mod_cast hab
    unfold rowY
    have := (div_lt_div_iff_of_pos_right hm').mpr (by linarith : (0.5 : ℝ) + a < 0.5 + b)
    simp only
    linarith
  · refine List.Pairwise.imp ?_ List.pairwise_lt_range
    intro a b hab x hx y hy
    obtain ⟨s, hs, rfl⟩ := List.mem_map.mp hx
    obtain ⟨t, ht, rfl⟩ := List.mem_map.mp hy
    have hs' : (s : ℝ) + 1 ≤ mag := by exact_mod_cast List.mem_range.mp hs
    have ht' : (0 : ℝ) ≤ t := Nat.cast_nonneg t
    have hab' : (a : ℝ) + 1 ≤ b := by exact_mod_cast hab
    unfold rowY
    have h1 : ((0.5 : ℝ) + s) / mag < 1 := by rw [div_lt_one hm']; linarith
    have h2 : 0 < ((0.5 : ℝ) + t) / mag := by positivity
    push_cast
    linarith

theorem sum_range_list (m : ℕ) (f : ℕ → ℝ) : ((List.range m).map f).sum = ∑ s : Fin m, f s := by
  induction m with
  | zero => simp
  | succ m ih => rw [List.range_succ, List.map_append, List.sum_append, ih, Fin.sum_univ_castSucc]; simp

open Classical in
theorem sum_rows (g : ℤ × ℕ → ℝ) (lo hi i : ℤ) :
    (((List.range (hi - lo).toNat).flatMap fun (k : ℕ) => (List.range mag).map fun (s : ℕ) => (lo + (k : ℤ), s)).map fun q => if q.1 = i then g q else 0).sum =
      if lo ≤ i ∧ i < hi then ∑ s : Fin mag, g (i, s) else 0 := by
  rw [List.map_flatMap, List.flatMap_def, List.sum_flatten, List.map_map]
  have hterm : (List.sum ∘ fun (k : ℕ) => List.map (fun q : ℤ × ℕ => if q.1 = i then g q else 0) (List.map (fun (s : ℕ) => (lo + (k : ℤ), s)) (List.range mag))) =
      fun k : ℕ => if lo + (k : ℤ) = i then ∑ s : Fin mag, g (i, s) else 0 := by
    funext k
    simp only [Function.comp_apply, List.map_map]
    rw [show ((fun q : ℤ × ℕ => if q.1 = i then g q else 0) ∘ fun (s : ℕ) => (lo + (k : ℤ), s)) = fun s : ℕ => if lo + (k : ℤ) = i then g (i, s) else 0 from by
      funext s; simp only [Function.comp_apply]; split_ifs with h
      · rw [h]
      · rfl]
    rw [sum_range_list]
    split_ifs <;> simp
  rw [hterm, sum_range_list]
  split_ifs with h
  · rw [Finset.sum_eq_single (⟨(i - lo).toNat, by omega⟩ : Fin (hi - lo).toNat)]
    · rw [if_pos (by simp only; omega)]
    · intro b _ hb
      rw [if_neg]
      intro hc
      apply hb
      apply Fin.ext
      simp only
      omega
    · simp
  · refine Finset.sum_eq_zero fun k _ => ?_
    rw [if_neg]
    have := k.isLt
    omega

/-- **C101.** Every pixel of the image of `prop_rectangle` is the mean over `mag` strips of the exact length, within the pixel, of the section of the rectangle (given centre and
widths, turned counter-clockwise by ROTATION) along the middle of the strip; with DARK it is one minus that.  For every size, position, rotation and array: no edge, corner or
part outside the array is mistreated. -/
theorem C101_strips (hm : 0 < mag) (hx : 0 < r.rx) (hy : 0 < r.ry) [NeZero n] (dark : Bool) (i j : ZMod n) :
    rectangle n mag r dark i j = if dark then 1 - stripMean mag (rectSet r.xc r.yc r.rx r.ry r.t) j.val i.val
      else stripMean mag (rectSet r.xc r.yc r.rx r.ry r.t) j.val i.val := by
  have hm' : (0 : ℝ) < mag := by exact_mod_cast hm
  have key : ((r.rows n mag).foldl (r.scan n mag) ⟨r.lowest, r.lowest, fun _ _ => 0⟩).img i.val j.val / (mag : ℝ) ^ 2 =
      stripMean mag (rectSet r.xc r.yc r.rx r.ry r.t) j.val i.val := by
    rw [r.scan_fold n mag hx hy _ (r.rows_sorted n mag hm) _ (fun q _ => Or.inr ⟨Or.inl rfl, Or.inl rfl⟩) _ _ (by positivity) (by exact_mod_cast ZMod.val_lt j)]
    simp only [zero_add]
    set S := rectSet r.xc r.yc r.rx r.ry r.t with hS
    obtain ⟨hdy, hey, hD, -, -, hmin, hmax, hin⟩ := r.geo hx hy
    have hout : ∀ x y, (x, y) ∈ S → r.ymin ≤ y ∧ y ≤ r.ymax := by
      intro x y h
      obtain ⟨o1, o2⟩ := para_outside hdy hey hD x y ((hin x y).mp h)
      exact ⟨by linarith, by linarith⟩
    -- the sum over the rows
    unfold Rect.rows
    dsimp only
    set lo := (if Dm.npRound r.ymin < 0 then 0 else Dm.npRound r.ymin) with hlo
    set hi := (if Dm.npRound r.ymax + 1 ≥ (n : ℤ) then (n : ℤ) else Dm.npRound r.ymax + 1) with hhi
    rw [sum_rows mag (fun q => (mag : ℝ) * sectionLength S (rowY mag q) ((j.val : ℤ) : ℝ))]
    have hval : ∀ s : Fin mag, rowY mag ((i.val : ℤ), (s : ℕ)) = (i.val : ℝ) - 1 / 2 + ((s : ℕ) + 1 / 2) / mag := by
      intro s; unfold rowY; norm_num; ring
    have hstrip : ∀ s : Fin mag, (i.val : ℝ) - 1 / 2 < rowY mag ((i.val : ℤ), (s : ℕ)) ∧ rowY mag ((i.val : ℤ), (s : ℕ)) < (i.val : ℝ) + 1 / 2 := by
      intro s
      rw [hval]
      have h0 : 0 < (((s : ℕ) : ℝ) + 1 / 2) / mag := by positivity
      have h1 : (((s : ℕ) : ℝ) + 1 / 2) / mag < 1 := by
        rw [div_lt_one hm']
        have : ((s : ℕ) : ℝ) + 1 ≤ mag := by exact_mod_cast s.isLt
        linarith
      constructor <;> linarith
    unfold stripMean
    split_ifs with hin'
    · simp only [hval, ← Finset.mul_sum]
      push_cast
      field_simp
    · have hz : ∀ s : Fin mag, sectionLength S ((i.val : ℝ) - 1 / 2 + ((s : ℕ) + 1 / 2) / mag) j.val = 0 := by
        intro s
        apply sectionLength_empty
        intro x hx'
        obtain ⟨o1, o2⟩ := hout _ _ hx'
        rw [← hval] at o1 o2
        obtain ⟨p1, p2⟩ := hstrip s
        apply hin'
        have hb1 := Dm.npRound_bounds r.ymin
        have hb2 := Dm.npRound_bounds r.ymax
        have hi0 : (0 : ℤ) ≤ i.val := by positivity
        have hin2 : (i.val : ℤ) < n := by exact_mod_cast ZMod.val_lt i
        have q1 : Dm.npRound r.ymin < (i.val : ℤ) + 1 := by
          have : (Dm.npRound r.ymin : ℝ) < ((i.val : ℤ) : ℝ) + 1 := by push_cast; linarith [hb1.2]
          exact_mod_cast this
        have q2 : (i.val : ℤ) < Dm.npRound r.ymax + 1 := by
          have : ((i.val : ℤ) : ℝ) < (Dm.npRound r.ymax : ℝ) + 1 := by push_cast; linarith [hb2.1]
          exact_mod_cast this
        rw [hlo, hhi]
        constructor <;> split_ifs <;> omega
      simp only [hz, Finset.sum_const_zero, zero_div]
  unfold rectangle
  dsimp only
  rw [key]

theorem sectionLength_bounds (S : Set (ℝ × ℝ)) (y j : ℝ) : 0 ≤ sectionLength S y j ∧ sectionLength S y j ≤ 1 := by
  refine ⟨ENNReal.toReal_nonneg, ?_⟩
  unfold sectionLength
  have h1 : volume {x : ℝ | |x - j| ≤ 1 / 2 ∧ (x, y) ∈ S} ≤ volume (Set.Icc (j - 1 / 2) (j + 1 / 2)) := by
    apply measure_mono
    intro x hx
    have := abs_le.mp hx.1
    exact ⟨by linarith, by linarith⟩
  rw [Real.volume_Icc] at h1
  have h2 : j + 1 / 2 - (j - 1 / 2) = 1 := by ring
  rw [h2] at h1
  calc _ ≤ (ENNReal.ofReal 1).toReal := ENNReal.toReal_mono (by simp) h1
    _ = 1 := by simp

theorem sectionLength_mono (S T : Set (ℝ × ℝ)) (h : S ⊆ T) (y j : ℝ) : sectionLength S y j ≤ sectionLength T y j := by
  unfold sectionLength
  apply ENNReal.toReal_mono
  · have h1 : volume {x : ℝ | |x - j| ≤ 1 / 2 ∧ (x, y) ∈ T} ≤ volume (Set.Icc (j - 1 / 2) (j + 1 / 2)) := by
      apply measure_mono
      intro x hx
      have := abs_le.mp hx.1
      exact ⟨by linarith, by linarith⟩
    rw [Real.volume_Icc] at h1
    exact ne_top_of_le_ne_top (by simp) h1
  · exact measure_mono fun x hx => ⟨hx.1, h hx.2⟩

theorem stripMean_bounds (hm : 0 < mag) (S : Set (ℝ × ℝ)) (x y : ℝ) : 0 ≤ stripMean mag S x y ∧ stripMean mag S x y ≤ 1 := by
  have hm' : (0 : ℝ) < mag := by exact_mod_cast hm
  unfold stripMean
  refine ⟨div_nonneg (Finset.sum_nonneg fun s _ => (sectionLength_bounds S _ _).1) hm'.le, ?_⟩
  rw [div_le_one hm']
  calc _ ≤ ∑ _s : Fin mag, (1 : ℝ) := Finset.sum_le_sum fun s _ => (sectionLength_bounds S _ _).2
    _ = mag := by simp

/-- **C101 (range).** All values are between 0 and 1, and DARK gives exactly the complement. -/
theorem C101_range (hm : 0 < mag) (hx : 0 < r.rx) (hy : 0 < r.ry) [NeZero n] (i j : ZMod n) :
    0 ≤ rectangle n mag r false i j ∧ rectangle n mag r false i j ≤ 1 ∧ rectangle n mag r false i j + rectangle n mag r true i j = 1 := by
  rw [C101_strips r n mag hm hx hy false, C101_strips r n mag hm hx hy true]
  have := stripMean_bounds mag hm (rectSet r.xc r.yc r.rx r.ry r.t) j.val i.val
  simp only [Bool.false_eq_true, if_false, if_true]
  exact ⟨this.1, this.2, by ring⟩

/-- **C101 (interior and exterior).** A pixel wholly inside the rectangle is exactly 1, a pixel wholly outside exactly 0. -/
theorem C101_solid (hm : 0 < mag) (hx : 0 < r.rx) (hy : 0 < r.ry) [NeZero n] (i j : ZMod n) :
    ((∀ u v, |u - (j.val : ℝ)| ≤ 1 / 2 → |v - (i.val : ℝ)| ≤ 1 / 2 → (u, v) ∈ rectSet r.xc r.yc r.rx r.ry r.t) → rectangle n mag r false i j = 1) ∧
    ((∀ u v, |u - (j.val : ℝ)| ≤ 1 / 2 → |v - (i.val : ℝ)| ≤ 1 / 2 → (u, v) ∉ rectSet r.xc r.yc r.rx r.ry r.t) → rectangle n mag r false i j = 0) := by
  have hm' : (0 : ℝ) < mag := by exact_mod_cast hm
  rw [C101_strips r n mag hm hx hy false]
  simp only [Bool.false_eq_true, if_false]
  have hs : ∀ s : Fin mag, |(i.val : ℝ) - 1 / 2 + (((s : ℕ) : ℝ) + 1 / 2) / mag - i.val| ≤ 1 / 2 := by
    intro s
    have h0 : 0 < (((s : ℕ) : ℝ) + 1 / 2) / mag := by positivity
    have h1 : (((s : ℕ) : ℝ) + 1 / 2) / mag < 1 := by
      rw [div_lt_one hm']
      have : ((s : ℕ) : ℝ) + 1 ≤ mag := by exact_mod_cast s.isLt
      linarith
    rw [abs_le]; constructor <;> linarith
  unfold stripMean
  constructor
  · intro h
    have : ∀ s : Fin mag, sectionLength (rectSet r.xc r.yc r.rx r.ry r.t) ((i.val : ℝ) - 1 / 2 + (((s : ℕ) : ℝ) + 1 / 2) / mag) j.val = 1 := by
      intro s
      unfold sectionLength
      have he : {x : ℝ | |x - (j.val : ℝ)| ≤ 1 / 2 ∧ (x, (i.val : ℝ) - 1 / 2 + (((s : ℕ) : ℝ) + 1 / 2) / mag) ∈ rectSet r.xc r.yc r.rx r.ry r.t} =
          Set.Icc ((j.val : ℝ) - 1 / 2) (j.val + 1 / 2) := by
        ext x
        constructor
        · rintro ⟨h1, -⟩; have := abs_le.mp h1; exact ⟨by linarith, by linarith⟩
        · rintro ⟨h1, h2⟩
          have : |x - (j.val : ℝ)| ≤ 1 / 2 := abs_le.mpr ⟨by linarith, by linarith⟩
          exact ⟨this, h _ _ this (hs s)⟩
      rw [he, Real.volume_Icc]
      have h2 : (j.val : ℝ) + 1 / 2 - (j.val - 1 / 2) = 1 := by ring
      rw [h2]; simp
    simp only [this, Finset.sum_const, Finset.card_univ, Fintype.card_fin, nsmul_eq_mul, mul_one]
    exact div_self hm'.ne'
  · intro h
    have : ∀ s : Fin mag, sectionLength (rectSet r.xc r.yc r.rx r.ry r.t) ((i.val : ℝ) - 1 / 2 + (((s : ℕ) : ℝ) + 1 / 2) / mag) j.val = 0 := by
      intro s
      unfold sectionLength
      have he : {x : ℝ | |x - (j.val : ℝ)| ≤ 1 / 2 ∧ (x, (i.val : ℝ) - 1 / 2 + (((s : ℕ) : ℝ) + 1 / 2) / mag) ∈ rectSet r.xc r.yc r.rx r.ry r.t} = ∅ := by
        ext x
        simp only [Set.mem_ofPred_eq, Set.mem_empty_iff_false, iff_false, not_and]
        exact fun h1 => h _ _ h1 (hs s)
      rw [he]; simp
    simp only [this, Finset.sum_const_zero, zero_div]

/-- **C101 (monotone).** A rectangle containing another covers every pixel at least as much, whatever the rotations. -/
theorem C101_monotone (r' : Rect) (hm : 0 < mag) (hx : 0 < r.rx) (hy : 0 < r.ry) (hx' : 0 < r'.rx) (hy' : 0 < r'.ry) [NeZero n]
    (hsub : rectSet r.xc r.yc r.rx r.ry r.t ⊆ rectSet r'.xc r'.yc r'.rx r'.ry r'.t) (i j : ZMod n) : rectangle n mag r false i j ≤ rectangle n mag r' false i j := by
  rw [C101_strips r n mag hm hx hy false, C101_strips r' n mag hm hx' hy' false]
  simp only [Bool.false_eq_true, if_false]
  exact div_le_div_of_nonneg_right (Finset.sum_le_sum fun s _ => sectionLength_mono _ _ hsub _ _) (by positivity)

/-- **C101 (orientation).** ROTATION turns rectangles the other way than ellipses: the figure drawn by `prop_rectangle` for an angle is the one turned counter-clockwise by it
(C101), the figure drawn by `prop_ellipse` is turned clockwise (C98).  Figures of the two kinds inscribed in one another lose this relation when both are given the same
angle: the ellipse of radii 4 and 1, turned by 45 degrees, leaves the rectangle of half widths 4 and 1 turned by the same angle. -/
theorem C101_orientation_violated :
    ellSet 0 0 4 1 (-0) 0 ⊆ rectSet 0 0 4 1 0 ∧ ¬ ellSet 0 0 4 1 (-(45 * Real.pi / 180)) 0 ⊆ rectSet 0 0 4 1 (45 * Real.pi / 180) := by
  constructor
  · rintro ⟨x, y⟩ h
    simp only [ellSet, rectSet, Set.mem_ofPred_eq, neg_zero, Real.cos_zero, Real.sin_zero] at h ⊢
    constructor
    · apply abs_le_of_sq_le_sq' _ (by norm_num) |> abs_le.mpr
      nlinarith [sq_nonneg y]
    · apply abs_le_of_sq_le_sq' _ (by norm_num) |> abs_le.mpr
      nlinarith [sq_nonneg x]
  · intro h
    have e : 45 * Real.pi / 180 = Real.pi / 4 := by ring
    have h2 : (Real.sqrt 2 / 2) * (Real.sqrt 2 / 2) = 1 / 2 := by
      have := Real.mul_self_sqrt (by norm_num : (0 : ℝ) ≤ 2); nlinarith
    have hmem : ((3 * (Real.sqrt 2 / 2), -(3 * (Real.sqrt 2 / 2))) : ℝ × ℝ) ∈ ellSet 0 0 4 1 (-(45 * Real.pi / 180)) 0 := by
      simp only [ellSet, Set.mem_ofPred_eq, e, Real.cos_neg, Real.sin_neg, Real.cos_pi_div_four, Real.sin_pi_div_four]
      nlinarith
    obtain ⟨-, hc⟩ := h hmem
    simp only [e, Real.cos_pi_div_four, Real.sin_pi_div_four] at hc
    have := (abs_le.mp hc).1
    nlinarith

/-- The rectangle of half widths 3 and 1/2 in an 8 × 8 array, turned by 30 degrees and partly outside: the hypotheses of C101 are met, and the pixel at its centre is exactly 1
when the half widths are 3 and 2. -/
example : rectangle 8 11 ⟨6, 4, 3, 2, 30 * Real.pi / 180⟩ false 4 6 = 1 := by
  refine (C101_solid _ 8 11 (by norm_num) (by norm_num) (by norm_num) 4 6).1 fun u v hu hv => ?_
  have v4 : (((4 : ZMod 8).val : ℕ) : ℝ) = 4 := by norm_num [show (4 : ZMod 8).val = 4 from rfl]
  have v6 : (((6 : ZMod 8).val : ℕ) : ℝ) = 6 := by norm_num [show (6 : ZMod 8).val = 6 from rfl]
  rw [v6] at hu; rw [v4] at hv
  have hc := Real.abs_cos_le_one (30 * Real.pi / 180)
  have hs := Real.abs_sin_le_one (30 * Real.pi / 180)
  have b : ∀ a b c d : ℝ, |a| ≤ 1 / 2 → |b| ≤ 1 → |c| ≤ 1 / 2 → |d| ≤ 1 → |a * b + c * d| ≤ 1 := by
    intro a b c d h1 h2 h3 h4
    calc |a * b + c * d| ≤ |a * b| + |c * d| := abs_add_le _ _
      _ = |a| * |b| + |c| * |d| := by rw [abs_mul, abs_mul]
      _ ≤ 1 := by nlinarith [abs_nonneg a, abs_nonneg b, abs_nonneg c, abs_nonneg d]
  simp only [rectSet, Set.mem_ofPred_eq]
  exact ⟨(b _ _ _ _ hu hc hv hs).trans (by norm_num), (b _ _ _ _ (by rwa [abs_neg]) hs hv hc).trans (by norm_num)⟩

end scan

end Verif.Shape
