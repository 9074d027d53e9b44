import Verif.Model.Bowtie
import Verif.Props.Masks
import Verif.Props.Polygon3

/-!
# C143: bowtie focal-plane masks (gen_bowtie_fpm)

Specification: the mask is the outer disc, less the inner disc, less two opposite "houses", sectors cut off far outside of the mask.  `house` describes one of them in pixels.
-/

namespace Verif.Masks
open Verif Verif.Shape Verif.Proper Verif.Polygon

/-- Coordinates of `(x, y)` along the axes of a figure with its corner at `(cx, cy)`, turned counter-clockwise by `phi`; first across, then along the axis. -/
noncomputable def across (cx cy phi x y : ℝ) : ℝ := (x - cx) * Real.cos phi + (y - cy) * Real.sin phi
/-- See `across`. -/
noncomputable def along (cx cy phi x y : ℝ) : ℝ := -(x - cx) * Real.sin phi + (y - cy) * Real.cos phi

/-- The house of height `L` with its corner at `(cx, cy)`: the sector in which the direction is within `90° - theta` of the axis, cut off at the height `L` and the half width
`L·cos theta`. -/
def house (cx cy L theta phi sign : ℝ) : Set (ℝ × ℝ) :=
  {q | |across cx cy phi q.1 q.2| ≤ L * Real.cos theta ∧ |across cx cy phi q.1 q.2| * Real.sin theta ≤ sign * along cx cy phi q.1 q.2 * Real.cos theta ∧
    sign * along cx cy phi q.1 q.2 ≤ L}

/-- The five corners contain the house. -/
theorem house_fill (K : Set (ℝ × ℝ)) (hK : Convex ℝ K) (C S L : ℝ) (hC : 0 < C) (hSL : S < L) (h0 : ((0 : ℝ), (0 : ℝ)) ∈ K) (h1 : (C, S) ∈ K) (h2 : (C, L) ∈ K) (h3 : (-C, L) ∈ K)
    (h4 : (-C, S) ∈ K) (u v : ℝ) (hu : |u| ≤ C) (hv : |u| * S ≤ v * C) (hvL : v ≤ L) : (u, v) ∈ K := by
  obtain ⟨hu1, hu2⟩ := abs_le.mp hu
  have hlow : (u, |u| * S / C) ∈ K := by
    have ht0 : 0 ≤ |u| / C := by positivity
    have ht1 : |u| / C ≤ 1 := by rw [div_le_one hC]; exact hu
    rcases abs_cases u with ⟨e, _⟩ | ⟨e, _⟩
    · have := hK h0 h1 (sub_nonneg.mpr ht1) ht0 (by ring)
      convert this using 1
      ext
      · show u = (1 - |u| / C) * 0 + |u| / C * C
        rw [e]; field_simp; ring
      · show _ = (1 - |u| / C) * 0 + |u| / C * S
        ring
    · have := hK h0 h4 (sub_nonneg.mpr ht1) ht0 (by ring)
      convert this using 1
      ext
      · show u = (1 - |u| / C) * 0 + |u| / C * -C
        rw [e]; field_simp; ring
      · show _ = (1 - |u| / C) * 0 + |u| / C * S
        ring
  have hhigh : (u, L) ∈ K := by
    have := hK h3 h2 (show 0 ≤ (C - u) / (2 * C) from div_nonneg (by linarith) (by linarith)) (show 0 ≤ (C + u) / (2 * C) from div_nonneg (by linarith) (by linarith)) (by field_simp; ring)
    convert this using 1
    ext
    · show u = (C - u) / (2 * C) * -C + (C + u) / (2 * C) * C
      field_simp; ring
    · show L = (C - u) / (2 * C) * L + (C + u) / (2 * C) * L
      field_simp; ring
  have hw : |u| * S / C ≤ v := by rw [div_le_iff₀ hC]; exact hv
  rcases hw.lt_or_eq with hlt | heq
  · have hd : 0 < L - |u| * S / C := by linarith
    have := hK hlow hhigh (show 0 ≤ (L - v) / (L - |u| * S / C) from div_nonneg (by linarith) hd.le) (show 0 ≤ (v - |u| * S / C) / (L - |u| * S / C) from div_nonneg (by linarith) hd.le)
      (by rw [← add_div]; rw [div_eq_one_iff_eq hd.ne']; ring)
    convert this using 1
    generalize |u| * S / C = w at *
    ext
    · show u = (L - v) / (L - w) * u + (v - w) / (L - w) * u
      field_simp; ring
    · show v = (L - v) / (L - w) * w + (v - w) / (L - w) * L
      field_simp; ring
  · rw [← heq]; exact hlow

/-- A linear form at most a constant. -/
theorem convex_le (f : ℝ → ℝ → ℝ) (hf : ∀ x y x' y' s t, s + t = 1 → f (s * x + t * x') (s * y + t * y') = s * f x y + t * f x' y') (c : ℝ) : Convex ℝ {q : ℝ × ℝ | f q.1 q.2 ≤ c} := by
  intro q hq r hr s t hs ht hst
  rw [Set.mem_ofPred_eq] at hq hr ⊢
  show f (s * q.1 + t * r.1) (s * q.2 + t * r.2) ≤ c
  rw [hf _ _ _ _ _ _ hst]
  have e : c = s * c + t * c := by rw [← add_mul, hst, one_mul]
  rw [e]
  exact add_le_add (mul_le_mul_of_nonneg_left hq hs) (mul_le_mul_of_nonneg_left hr ht)

theorem across_affine (cx cy phi x y x' y' s t : ℝ) (h : s + t = 1) : across cx cy phi (s * x + t * x') (s * y + t * y') = s * across cx cy phi x y + t * across cx cy phi x' y' := by
  unfold across
  have : s = 1 - t := by linarith
  subst this
  ring

theorem along_affine (cx cy phi x y x' y' s t : ℝ) (h : s + t = 1) : along cx cy phi (s * x + t * x') (s * y + t * y') = s * along cx cy phi x y + t * along cx cy phi x' y' := by
  unfold along
  have : s = 1 - t := by linarith
  subst this
  ring

theorem house_convex (cx cy L theta phi sign : ℝ) (hs : 0 ≤ Real.sin theta) : Convex ℝ (house cx cy L theta phi sign) := by
  have e : house cx cy L theta phi sign = {q | across cx cy phi q.1 q.2 ≤ L * Real.cos theta} ∩ {q | -across cx cy phi q.1 q.2 ≤ L * Real.cos theta} ∩
      {q | across cx cy phi q.1 q.2 * Real.sin theta - sign * along cx cy phi q.1 q.2 * Real.cos theta ≤ 0} ∩
      {q | -across cx cy phi q.1 q.2 * Real.sin theta - sign * along cx cy phi q.1 q.2 * Real.cos theta ≤ 0} ∩ {q | sign * along cx cy phi q.1 q.2 ≤ L} := by
    ext q
    simp only [house, Set.mem_ofPred_eq, Set.mem_inter_iff]
    generalize across cx cy phi q.1 q.2 = u
    generalize along cx cy phi q.1 q.2 = v
    constructor
    · rintro ⟨h1, h2, h3⟩
      have := abs_le.mp h1
      have g1 := mul_le_mul_of_nonneg_right (le_abs_self u) hs
      have g2 := mul_le_mul_of_nonneg_right (neg_abs_le u) hs
      refine ⟨⟨⟨⟨by linarith, by linarith⟩, by linarith⟩, by linarith⟩, h3⟩
    · rintro ⟨⟨⟨⟨h1, h2⟩, h3⟩, h4⟩, h5⟩
      refine ⟨abs_le.mpr ⟨by linarith, h1⟩, ?_, h5⟩
      rcases abs_cases u with ⟨e, _⟩ | ⟨e, _⟩ <;> rw [e] <;> linarith
  rw [e]
  refine ((((convex_le (fun x y => across cx cy phi x y) ?_ _).inter (convex_le (fun x y => -across cx cy phi x y) ?_ _)).inter
    (convex_le (fun x y => across cx cy phi x y * Real.sin theta - sign * along cx cy phi x y * Real.cos theta) ?_ _)).inter
    (convex_le (fun x y => -across cx cy phi x y * Real.sin theta - sign * along cx cy phi x y * Real.cos theta) ?_ _)).inter
    (convex_le (fun x y => sign * along cx cy phi x y) ?_ _)
  all_goals
    intro x y x' y' s t h
    simp only [across_affine _ _ _ _ _ _ _ _ _ h, along_affine _ _ _ _ _ _ _ _ _ h]
    try ring

/-- Vertices in pixels: a house of height `L` turned by `phi`. -/
noncomputable def pixX (cx L theta phi sign : ℝ) : ℕ → ℝ
  | 0 => cx
  | 1 => cx + (L * Real.cos theta * Real.cos phi - sign * (L * Real.sin theta) * Real.sin phi)
  | 2 => cx + (L * Real.cos theta * Real.cos phi - sign * L * Real.sin phi)
  | 3 => cx + (-(L * Real.cos theta) * Real.cos phi - sign * L * Real.sin phi)
  | _ => cx + (-(L * Real.cos theta) * Real.cos phi - sign * (L * Real.sin theta) * Real.sin phi)
/-- See `pixX`. -/
noncomputable def pixY (cy L theta phi sign : ℝ) : ℕ → ℝ
  | 0 => cy
  | 1 => cy + (L * Real.cos theta * Real.sin phi + sign * (L * Real.sin theta) * Real.cos phi)
  | 2 => cy + (L * Real.cos theta * Real.sin phi + sign * L * Real.cos phi)
  | 3 => cy + (-(L * Real.cos theta) * Real.sin phi + sign * L * Real.cos phi)
  | _ => cy + (-(L * Real.cos theta) * Real.sin phi + sign * (L * Real.sin theta) * Real.cos phi)

theorem pix_coords (cx cy phi u v : ℝ) : across cx cy phi (cx + (u * Real.cos phi - v * Real.sin phi)) (cy + (u * Real.sin phi + v * Real.cos phi)) = u ∧
    along cx cy phi (cx + (u * Real.cos phi - v * Real.sin phi)) (cy + (u * Real.sin phi + v * Real.cos phi)) = v := by
  have h := Real.sin_sq_add_cos_sq phi
  constructor
  · unfold across; linear_combination u * h
  · unfold along; linear_combination v * h

/-- The house is the convex hull of its five corners. -/
theorem house_hull (cx cy L theta phi sign : ℝ) (hL : 0 < L) (hc : 0 < Real.cos theta) (hs : 0 < Real.sin theta) (hs1 : Real.sin theta < 1) (hsg : sign = 1 ∨ sign = -1) :
    hull 5 (pixX cx L theta phi sign) (pixY cy L theta phi sign) = house cx cy L theta phi sign := by
  have hsq : sign * sign = 1 := by rcases hsg with h | h <;> rw [h] <;> norm_num
  have habs : |L * Real.cos theta| = L * Real.cos theta := abs_of_pos (by positivity)
  have hLS : L * Real.sin theta < L := by nlinarith
  apply Set.Subset.antisymm
  · apply convexHull_min _ (house_convex cx cy L theta phi sign hs.le)
    rintro q ⟨k, hk, rfl⟩
    have hmem : ∀ u v : ℝ, |u| ≤ L * Real.cos theta → |u| * Real.sin theta ≤ v * Real.cos theta → v ≤ L →
        (cx + (u * Real.cos phi - sign * v * Real.sin phi), cy + (u * Real.sin phi + sign * v * Real.cos phi)) ∈ house cx cy L theta phi sign := by
      intro u v h1 h2 h3
      obtain ⟨e1, e2⟩ := pix_coords cx cy phi u (sign * v)
      simp only [house, Set.mem_ofPred_eq, e1, e2, ← mul_assoc, hsq, one_mul]
      exact ⟨h1, h2, h3⟩
    have hcs : L * Real.cos theta * Real.sin theta = L * Real.sin theta * Real.cos theta := by ring
    interval_cases k
    · have := hmem 0 0 (by simp; positivity) (by simp) hL.le
      simpa [pixX, pixY] using this
    · exact hmem (L * Real.cos theta) (L * Real.sin theta) habs.le (by rw [habs, hcs]) hLS.le
    · exact hmem (L * Real.cos theta) L habs.le (by rw [habs, hcs]; exact mul_le_mul_of_nonneg_right hLS.le hc.le) le_rfl
    · exact hmem (-(L * Real.cos theta)) L (by rw [abs_neg]; exact habs.le) (by rw [abs_neg, habs, hcs]; exact mul_le_mul_of_nonneg_right hLS.le hc.le) le_rfl
    · exact hmem (-(L * Real.cos theta)) (L * Real.sin theta) (by rw [abs_neg]; exact habs.le) (by rw [abs_neg, habs, hcs]) hLS.le
  · rintro ⟨x, y⟩ ⟨h1, h2, h3⟩
    -- the corners and the point in the frame of the house
    set f : ℝ × ℝ → ℝ × ℝ := fun q => (cx + (q.1 * Real.cos phi - sign * q.2 * Real.sin phi), cy + (q.1 * Real.sin phi + sign * q.2 * Real.cos phi)) with hf
    set K : Set (ℝ × ℝ) := {q | f q ∈ hull 5 (pixX cx L theta phi sign) (pixY cy L theta phi sign)} with hKdef
    have hKm : ∀ q, q ∈ K ↔ f q ∈ hull 5 (pixX cx L theta phi sign) (pixY cy L theta phi sign) := fun q => by rw [hKdef, Set.mem_ofPred_eq]
    have hK : Convex ℝ K := by
      intro q hq r hr s t hs' ht hst
      rw [hKm] at hq hr ⊢
      have : s • f q + t • f r ∈ hull 5 (pixX cx L theta phi sign) (pixY cy L theta phi sign) := convex_convexHull ℝ _ hq hr hs' ht hst
      show f (s * q.1 + t * r.1, s * q.2 + t * r.2) ∈ hull 5 (pixX cx L theta phi sign) (pixY cy L theta phi sign)
      convert this using 1
      have e : s = 1 - t := by linarith
      subst e
      ext
      · show cx + (((1 - t) * q.1 + t * r.1) * Real.cos phi - sign * ((1 - t) * q.2 + t * r.2) * Real.sin phi) =
          (1 - t) * (cx + (q.1 * Real.cos phi - sign * q.2 * Real.sin phi)) + t * (cx + (r.1 * Real.cos phi - sign * r.2 * Real.sin phi))
        ring
      · show cy + (((1 - t) * q.1 + t * r.1) * Real.sin phi + sign * ((1 - t) * q.2 + t * r.2) * Real.cos phi) =
          (1 - t) * (cy + (q.1 * Real.sin phi + sign * q.2 * Real.cos phi)) + t * (cy + (r.1 * Real.sin phi + sign * r.2 * Real.cos phi))
        ring
    have hv : ∀ k < 5, (pixX cx L theta phi sign k, pixY cy L theta phi sign k) ∈ hull 5 (pixX cx L theta phi sign) (pixY cy L theta phi sign) := fun k hk => subset_convexHull ℝ _ ⟨k, hk, rfl⟩
    have := house_fill K hK (L * Real.cos theta) (L * Real.sin theta) L (by positivity) hLS
      ((hKm _).mpr (by have := hv 0 (by norm_num); simpa [hf, pixX, pixY] using this)) ((hKm _).mpr (hv 1 (by norm_num))) ((hKm _).mpr (hv 2 (by norm_num)))
      ((hKm _).mpr (hv 3 (by norm_num))) ((hKm _).mpr (hv 4 (by norm_num)))
      (across cx cy phi x y) (sign * along cx cy phi x y) h1 (by nlinarith [mul_le_mul_of_nonneg_right h2 hL.le]) h3
    have e : f (across cx cy phi x y, sign * along cx cy phi x y) = (x, y) := by
      simp only [hf, ← mul_assoc, hsq, one_mul]
      have h := Real.sin_sq_add_cos_sq phi
      ext
      · show cx + (across cx cy phi x y * Real.cos phi - along cx cy phi x y * Real.sin phi) = x
        unfold across along; linear_combination (x - cx) * h
      · show cy + (across cx cy phi x y * Real.sin phi + along cx cy phi x y * Real.cos phi) = y
        unfold across along; linear_combination (y - cy) * h
    have h' : f (across cx cy phi x y, sign * along cx cy phi x y) ∈ hull 5 (pixX cx L theta phi sign) (pixY cy L theta phi sign) := (hKm _).mp this
    rw [e] at h'
    exact h'

/-- Corners in order: counter-clockwise for `sign = 1`, clockwise for `sign = -1`. -/
theorem house_side (cx cy L theta phi sign : ℝ) (k m : ℕ) : side 5 (pixX cx L theta phi sign) (pixY cy L theta phi sign) k m =
    sign * side 5 (pixX 0 L theta 0 1) (pixY 0 L theta 0 1) k m := by
  have h := Real.sin_sq_add_cos_sq phi
  have hform : ∀ k, ∃ u v : ℝ, pixX cx L theta phi sign k = cx + (u * Real.cos phi - sign * v * Real.sin phi) ∧ pixY cy L theta phi sign k = cy + (u * Real.sin phi + sign * v * Real.cos phi) ∧
      pixX 0 L theta 0 1 k = u ∧ pixY 0 L theta 0 1 k = v := by
    intro k
    match k with
    | 0 => exact ⟨0, 0, by simp [pixX], by simp [pixY], by simp [pixX], by simp [pixY]⟩
    | 1 => exact ⟨L * Real.cos theta, L * Real.sin theta, rfl, rfl, by simp [pixX], by simp [pixY]⟩
    | 2 => exact ⟨L * Real.cos theta, L, rfl, rfl, by simp [pixX], by simp [pixY]⟩
    | 3 => exact ⟨-(L * Real.cos theta), L, rfl, rfl, by simp [pixX], by simp [pixY]⟩
    | k + 4 => exact ⟨-(L * Real.cos theta), L * Real.sin theta, rfl, rfl, by simp [pixX], by simp [pixY]⟩
  obtain ⟨u0, v0, a0, b0, c0, d0⟩ := hform k
  obtain ⟨u1, v1, a1, b1, c1, d1⟩ := hform ((k + 1) % 5)
  obtain ⟨u2, v2, a2, b2, c2, d2⟩ := hform m
  unfold side
  rw [a0, b0, c0, d0, a1, b1, c1, d1, a2, b2, c2, d2]
  linear_combination sign * ((u1 - u0) * (v2 - v0) - (v1 - v0) * (u2 - u0)) * h

theorem house_strict (cx cy L theta phi sign : ℝ) (hL : 0 < L) (hc : 0 < Real.cos theta) (hs : 0 < Real.sin theta) (hs1 : Real.sin theta < 1) (hsg : sign = 1 ∨ sign = -1) :
    StrictlyConvex 5 (pixX cx L theta phi sign) (pixY cy L theta phi sign) := by
  have hbase : ∀ k < 5, ∀ m < 5, m ≠ k → m ≠ (k + 1) % 5 → 0 < side 5 (pixX 0 L theta 0 1) (pixY 0 L theta 0 1) k m := by
    have hC : 0 < L * Real.cos theta := by positivity
    have hS : 0 < L * Real.sin theta := by positivity
    have hD : 0 < L - L * Real.sin theta := by nlinarith
    intro k hk m hm h1 h2
    interval_cases k <;> interval_cases m <;> first | (exfalso; revert h1 h2; decide) | (
      simp only [side, pixX, pixY, Nat.reduceAdd, Nat.reduceMod, Real.cos_zero, Real.sin_zero]
      generalize L * Real.cos theta = C at *
      generalize L * Real.sin theta = S at *
      have hL' : L = S + (L - S) := by ring
      generalize L - S = D at *
      subst hL'
      ring_nf
      positivity)
  rcases hsg with rfl | rfl
  · right
    refine ⟨by norm_num, fun k hk m hm h1 h2 => ?_⟩
    rw [house_side, one_mul]
    exact hbase k hk m hm h1 h2
  · left
    refine ⟨by norm_num, fun k hk m hm h1 h2 => ?_⟩
    rw [house_side]
    have := hbase k hk m hm h1 h2
    linarith

/-! ## The mask -/

/-- Column of the centre of the mask. -/
noncomputable def Bowtie.cx (a : Bowtie) : ℝ := ((a.size / 2 : ℕ) : ℝ) + cshift 1 a.centering + a.xOffset * a.pixres
/-- Row of the centre of the mask. -/
noncomputable def Bowtie.cy (a : Bowtie) : ℝ := ((a.size / 2 : ℕ) : ℝ) + cshift 1 a.centering + a.yOffset * a.pixres
/-- Outer radius in pixels. -/
noncomputable def Bowtie.R (a : Bowtie) : ℝ := a.rhoOuter * a.pixres
/-- Half the opening angle, in radians. -/
noncomputable def Bowtie.theta (a : Bowtie) : ℝ := a.ang / 2 * Real.pi / 180
/-- The clocking in radians. -/
noncomputable def Bowtie.phi (a : Bowtie) : ℝ := a.clocking * Real.pi / 180
/-- The upper house (`sign = 1`), the lower one (`sign = -1`). -/
def Bowtie.house (a : Bowtie) (sign : ℝ) : Set (ℝ × ℝ) := Masks.house a.cx a.cy (2 * a.R) a.theta a.phi sign

/-- What a pixel should be: the part of it in the outer disc, times the part outside the inner one, times the parts outside the two houses. -/
noncomputable def Bowtie.ideal (a : Bowtie) (k i j : ℕ) : ℝ :=
  coverage k (discD a.cx a.cy a.R) 1 j i * (1 - coverage k (discD a.cx a.cy (a.rhoInner * a.pixres)) 1 j i) *
    (1 - stripMean k (a.house 1) j i) * (1 - stripMean k (a.house (-1)) j i)

/-- Without NORM the beam radius does not matter. -/
theorem irregular_noNorm (n mag : ℕ) (dx br : ℝ) (dark : Bool) (nv : ℕ) (xv yv : ℕ → ℝ) :
    irregularPolygon n mag dx br false dark nv xv yv = irregularPolygon n mag dx 1 false dark nv xv yv := by
  unfold irregularPolygon ofVertices
  simp only [Bool.false_eq_true, if_false]

theorem vertX_eq (a : Bowtie) (cs sign : ℝ) : a.vertX cs sign = pixX (cs + a.xOffset) (2 * a.rhoOuter) a.theta a.phi sign := by
  funext k
  unfold Bowtie.vertX Bowtie.theta Bowtie.phi
  match k with
  | 0 => simp [houseX, houseY, pixX]
  | 1 => simp only [houseX, houseY, pixX, cosd, sind]; ring
  | 2 => simp only [houseX, houseY, pixX, cosd, sind]; ring
  | 3 => simp only [houseX, houseY, pixX, cosd, sind]; ring
  | k + 4 => simp only [houseX, houseY, pixX, cosd, sind]; ring

theorem vertY_eq (a : Bowtie) (cs sign : ℝ) : a.vertY cs sign = pixY (cs + a.yOffset) (2 * a.rhoOuter) a.theta a.phi sign := by
  funext k
  unfold Bowtie.vertY Bowtie.theta Bowtie.phi
  match k with
  | 0 => simp [houseX, houseY, pixY]
  | 1 => simp only [houseX, houseY, pixY, cosd, sind]; ring
  | 2 => simp only [houseX, houseY, pixY, cosd, sind]; ring
  | 3 => simp only [houseX, houseY, pixY, cosd, sind]; ring
  | k + 4 => simp only [houseX, houseY, pixY, cosd, sind]; ring

theorem pixX_scale (n : ℕ) (dx cx L theta phi sign : ℝ) : (fun k => toPixel n dx 1 false (pixX cx L theta phi sign k)) =
    pixX (cx / dx + (n / 2 : ℕ)) (L / dx) theta phi sign := by
  funext k
  unfold toPixel
  match k with
  | 0 => simp only [pixX, Bool.false_eq_true, if_false]; ring
  | 1 => simp only [pixX, Bool.false_eq_true, if_false]; ring
  | 2 => simp only [pixX, Bool.false_eq_true, if_false]; ring
  | 3 => simp only [pixX, Bool.false_eq_true, if_false]; ring
  | k + 4 => simp only [pixX, Bool.false_eq_true, if_false]; ring

theorem pixY_scale (n : ℕ) (dx cx L theta phi sign : ℝ) : (fun k => toPixel n dx 1 false (pixY cx L theta phi sign k)) =
    pixY (cx / dx + (n / 2 : ℕ)) (L / dx) theta phi sign := by
  funext k
  unfold toPixel
  match k with
  | 0 => simp only [pixY, Bool.false_eq_true, if_false]; ring
  | 1 => simp only [pixY, Bool.false_eq_true, if_false]; ring
  | 2 => simp only [pixY, Bool.false_eq_true, if_false]; ring
  | 3 => simp only [pixY, Bool.false_eq_true, if_false]; ring
  | k + 4 => simp only [pixY, Bool.false_eq_true, if_false]; ring

/-- The angle of an opening between 0 and 180 degrees. -/
theorem theta_range (a : Bowtie) (h0 : 0 < a.ang) (h1 : a.ang < 180) : 0 < Real.cos a.theta ∧ 0 < Real.sin a.theta ∧ Real.sin a.theta < 1 := by
  have hp := Real.pi_pos
  have e0 : 0 < a.theta := by unfold Bowtie.theta; positivity
  have e1 : a.theta < Real.pi / 2 := by
    unfold Bowtie.theta
    have : a.ang * Real.pi < 180 * Real.pi := mul_lt_mul_of_pos_right h1 hp
    linarith
  refine ⟨Real.cos_pos_of_mem_Ioo ⟨by linarith, e1⟩, Real.sin_pos_of_pos_of_lt_pi e0 (by linarith), ?_⟩
  have := Real.sin_lt_sin_of_lt_of_le_pi_div_two (by linarith) le_rfl e1
  rwa [Real.sin_pi_div_two] at this

/-- One house drawn by `prop_irregular_polygon`. -/
theorem house_drawn (n mag : ℕ) [NeZero n] (h5 : 5 ≤ mag) (pixres : ℝ) (hpx : 0 < pixres) (X Y L theta phi sign cx cy : ℝ) (hL : 0 < L) (hc : 0 < Real.cos theta) (hs : 0 < Real.sin theta)
    (hs1 : Real.sin theta < 1) (hsg : sign = 1 ∨ sign = -1) (hcx : X / (1 / pixres) + (n / 2 : ℕ) = cx) (hcy : Y / (1 / pixres) + (n / 2 : ℕ) = cy)
    (hslow : Slow 5 (pixX cx (L * pixres) theta phi sign) (pixY cy (L * pixres) theta phi sign) mag) (hmeet : Meets (house cx cy (L * pixres) theta phi sign) n) (br : ℝ) :
    ∃ img, irregularPolygon n mag (1 / pixres) br false true 5 (pixX X L theta phi sign) (pixY Y L theta phi sign) = .ok img ∧
      ∀ i j : ZMod n, i.val ≠ 0 → j.val + 1 ≠ n → img i j = 1 - stripMean mag (house cx cy (L * pixres) theta phi sign) j.val i.val := by
  have hLp : L / (1 / pixres) = L * pixres := by field_simp
  have hX := pixX_scale n (1 / pixres) X L theta phi sign
  have hY := pixY_scale n (1 / pixres) Y L theta phi sign
  rw [hcx, hLp] at hX
  rw [hcy, hLp] at hY
  have hh := house_hull cx cy (L * pixres) theta phi sign (by positivity) hc hs hs1 hsg
  rw [irregular_noNorm]
  obtain ⟨img, e, h⟩ := C115_late n mag (by omega) (1 / pixres) 1 (by positivity) one_ne_zero false true 5 (pixX X L theta phi sign) (pixY Y L theta phi sign)
    (house_strict X Y L theta phi sign hL hc hs hs1 hsg) h5 (by rw [hX, hY]; exact hslow) (by rw [hX, hY, hh]; exact hmeet)
  refine ⟨img, e, fun i j hi hj => ?_⟩
  rw [h i j hi (.inl hj), hX, hY, hh, if_pos rfl]

/-- The four factors. -/
theorem bowtie_core (a : Bowtie) (p : Proc) (hpx : 0 < a.pixres) (hin : 0 < a.rhoInner) (hin2 : a.rhoInner * a.pixres ≤ 1e7) (hout : 0 < a.rhoOuter) (hout2 : a.rhoOuter * a.pixres ≤ 1e7)
    (hn : 2 ≤ a.size) (hx : -(1 / 2) < a.cx ∧ a.cx < a.size - 1 / 2) (hy : -(1 / 2) < a.cy ∧ a.cy < a.size - 1 / 2) (hodd : Odd p.nsub) (hk : p.nsub ≤ 1000) :
    ∃ disc spot : ZMod a.size → ZMod a.size → ℝ, (∀ i j, disc i j = coverage p.nsub (discD a.cx a.cy a.R) 1 j.val i.val) ∧
      (∀ i j, spot i j = 1 - coverage p.nsub (discD a.cx a.cy (a.rhoInner * a.pixres)) 1 j.val i.val) ∧
      bowtie a p = if a.ang < 180 then
          (irregularPolygon a.size p.nsub (1 / a.pixres) 1 false true 5 (pixX (cshift 1 a.centering / a.pixres + a.xOffset) (2 * a.rhoOuter) a.theta a.phi 1)
            (pixY (cshift 1 a.centering / a.pixres + a.yOffset) (2 * a.rhoOuter) a.theta a.phi 1)).bind fun top =>
          (irregularPolygon a.size p.nsub (1 / a.pixres) 1 false true 5 (pixX (cshift 1 a.centering / a.pixres + a.xOffset) (2 * a.rhoOuter) a.theta a.phi (-1))
            (pixY (cshift 1 a.centering / a.pixres + a.yOffset) (2 * a.rhoOuter) a.theta a.phi (-1))).map fun bottom => fun i j => disc i j * spot i j * top i j * bottom i j
        else .ok fun i j => disc i j * spot i j := by
  have hn0 : (a.size : ℝ) ≠ 0 := by have : 0 < a.size := by omega
                                    positivity
  have hdx : (begin_ a.size (2 * a.pixres * a.rhoOuter) 1e-6 (2 * a.pixres * a.rhoOuter / (a.size * (1 / a.pixres)))).dx = 1 / a.pixres := by
    simp only [begin_]
    field_simp
  have hcs : cshift (a.size * (1 / a.pixres) / a.size) a.centering = cshift 1 a.centering / a.pixres := by
    cases a.centering with
    | pixel => simp [cshift]
    | interpixel => simp only [cshift]; field_simp
  have hcx : ((a.size / 2 : ℕ) : ℝ) + (0 + cshift 1 a.centering / a.pixres + a.xOffset) / (1 / a.pixres) = a.cx := by
    rw [Bowtie.cx]; field_simp; ring
  have hcy : ((a.size / 2 : ℕ) : ℝ) + (0 + cshift 1 a.centering / a.pixres + a.yOffset) / (1 / a.pixres) = a.cy := by
    rw [Bowtie.cy]; field_simp; ring
  have hR : ∀ r : ℝ, r / (1 / a.pixres) = r * a.pixres := fun r => by field_simp
  obtain ⟨spot, hspot, hspotv⟩ := circle_ok a.size p.nsub hn hodd hk a.cx a.cy (a.rhoInner * a.pixres) (by positivity) hin2 hx hy true
  obtain ⟨img, himg, himgv⟩ := circle_ok a.size p.nsub hn hodd hk a.cx a.cy (a.rhoOuter * a.pixres) (by positivity) hout2 hx hy false
  simp only [if_true] at hspotv
  simp only [Bool.false_eq_true, if_false] at himgv
  refine ⟨img, spot, himgv, hspotv, ?_⟩
  unfold bowtie
  simp only [bind, Except.bind, pure, Except.pure, circularAperture, hdx, ofArgs_circ, hcs]
  simp only [hcx, hcy]
  simp only [hR]
  simp only [himg]
  have h2 : ∀ s : WF a.size, (applyMask s img).dx = s.dx := fun _ => rfl
  simp only [h2, hdx]
  simp only [hcx, hcy]
  simp only [hR]
  simp only [hspot]
  have hro : ∀ i j, readOut (applyMask (begin_ a.size (2 * a.pixres * a.rhoOuter) 1e-6 (2 * a.pixres * a.rhoOuter / (a.size * (1 / a.pixres)))) img) i j = img i j :=
    fun i j => readOut_apply _ _ _ _ (fun i j => by rw [himgv]; exact coverage_nonneg ..) (fun _ _ => rfl)
  simp only [hro, irregular_noNorm _ _ _ (beamradius _), vertX_eq, vertY_eq, mul_one]
  rfl

/-- The upper house that is not turned has no short edges that matter. -/
theorem slow_up (cx cy L theta : ℝ) (hL : 0 < L) (hs : 0 < Real.sin theta) (hs1 : Real.sin theta < 1) (mag : ℕ) : Slow 5 (pixX cx L theta 0 1) (pixY cy L theta 0 1) mag := by
  have hS : 0 < L * Real.sin theta := by positivity
  have hLS : L * Real.sin theta < L := by nlinarith
  have hstart : StartAt 5 (pixY cy L theta 0 1) (pixX cx L theta 0 1) 0 := by
    refine ⟨by norm_num, fun m hm => ?_⟩
    interval_cases m
    · exact ⟨le_rfl, fun _ => le_rfl⟩
    all_goals
      simp only [pixX, pixY, Real.cos_zero, Real.sin_zero]
      exact ⟨by linarith, fun h => by exfalso; linarith⟩
  intro k hk l hl _ hlt hns ⟨m, hm, hlm⟩
  exfalso
  by_cases h0 : k = 0
  · exact hns (h0 ▸ hstart)
  · interval_cases k <;> interval_cases l <;> interval_cases m <;> simp [pixY] at hlt hlm h0 <;> linarith

/-- The lower house that is not turned. -/
theorem slow_down (cx cy L theta : ℝ) (hL : 0 < L) (hc : 0 < Real.cos theta) (hs : 0 < Real.sin theta) (hs1 : Real.sin theta < 1) (mag : ℕ) (hgap : 1 / (mag : ℝ) ≤ L - L * Real.sin theta) :
    Slow 5 (pixX cx L theta 0 (-1)) (pixY cy L theta 0 (-1)) mag := by
  have hC : 0 < L * Real.cos theta := by positivity
  have hS : 0 < L * Real.sin theta := by positivity
  have hLS : L * Real.sin theta < L := by nlinarith
  intro k hk l hl _ hlt _ ⟨m, hm, hlm⟩
  interval_cases k <;> interval_cases l <;> interval_cases m <;> simp [pixY] at hlt hlm ⊢ <;> first | linarith | (norm_num at hgap; linarith)

/-- A house that is not turned meets every row of the array it reaches. -/
theorem meets_upright (n : ℕ) (cx cy L theta sign : ℝ) (hL : 0 < L) (hc : 0 < Real.cos theta) (hs : 0 < Real.sin theta) (hx : -(1 / 2) < cx ∧ cx < n - 1 / 2) :
    Meets (house cx cy L theta 0 sign) n := by
  intro x y h _ _
  obtain ⟨h1, h2, h3⟩ := h
  refine ⟨cx, ⟨?_, ?_, ?_⟩, by linarith [hx.1], hx.2⟩
  · simp [across]; positivity
  · have : 0 ≤ |across cx cy 0 x y| * Real.sin theta := by positivity
    simp only [across, along, Real.sin_zero, Real.cos_zero] at this h2 ⊢
    simp at this h2 ⊢
    linarith
  · simpa [along] using h3

/-- **C143.** `gen_bowtie_fpm` without clocking: every pixel outside the first row and the last column is exactly the antialiased bowtie.  All opening angles below 180° (with more than a
sub-row between the outer corners of the houses), sizes, offsets and centerings with the centre in the array; `nsub` is the sub-sampling factor of the process. -/
theorem C143_value (a : Bowtie) (p : Proc) (hpx : 0 < a.pixres) (hin : 0 < a.rhoInner) (hin2 : a.rhoInner * a.pixres ≤ 1e7) (hout : 0 < a.rhoOuter) (hout2 : a.rhoOuter * a.pixres ≤ 1e7)
    (hn : 2 ≤ a.size) (hx : -(1 / 2) < a.cx ∧ a.cx < a.size - 1 / 2) (hy : -(1 / 2) < a.cy ∧ a.cy < a.size - 1 / 2) (hodd : Odd p.nsub) (hk : p.nsub ≤ 1000) (h5 : 5 ≤ p.nsub)
    (h0 : 0 < a.ang) (h180 : a.ang < 180) (hgap : 1 / (p.nsub : ℝ) ≤ 2 * a.R - 2 * a.R * Real.sin a.theta) (hclk : a.clocking = 0) :
    ∃ mask, bowtie a p = .ok mask ∧ ∀ i j, i.val ≠ 0 → j.val + 1 ≠ a.size → mask i j = a.ideal p.nsub i.val j.val := by
  have : NeZero a.size := ⟨by omega⟩
  obtain ⟨hc, hs, hs1⟩ := theta_range a h0 h180
  have hphi : a.phi = 0 := by unfold Bowtie.phi; rw [hclk]; simp
  obtain ⟨disc, spot, hd, hsp, e⟩ := bowtie_core a p hpx hin hin2 hout hout2 hn hx hy hodd hk
  have hcx : (cshift 1 a.centering / a.pixres + a.xOffset) / (1 / a.pixres) + (a.size / 2 : ℕ) = a.cx := by
    rw [Bowtie.cx]; field_simp; ring
  have hcy : (cshift 1 a.centering / a.pixres + a.yOffset) / (1 / a.pixres) + (a.size / 2 : ℕ) = a.cy := by
    rw [Bowtie.cy]; field_simp; ring
  have hLp : 2 * a.rhoOuter * a.pixres = 2 * a.R := by unfold Bowtie.R; ring
  have hR : 0 < 2 * a.R := by unfold Bowtie.R; positivity
  obtain ⟨top, e1, h1⟩ := house_drawn a.size p.nsub h5 a.pixres hpx (cshift 1 a.centering / a.pixres + a.xOffset) (cshift 1 a.centering / a.pixres + a.yOffset) (2 * a.rhoOuter) a.theta a.phi 1
    a.cx a.cy (by positivity) hc hs hs1 (.inl rfl) hcx hcy (by rw [hphi, hLp]; exact slow_up _ _ _ _ hR hs hs1 _) (by rw [hphi, hLp]; exact meets_upright _ _ _ _ _ _ hR hc hs hx) 1
  obtain ⟨bot, e2, h2⟩ := house_drawn a.size p.nsub h5 a.pixres hpx (cshift 1 a.centering / a.pixres + a.xOffset) (cshift 1 a.centering / a.pixres + a.yOffset) (2 * a.rhoOuter) a.theta a.phi (-1)
    a.cx a.cy (by positivity) hc hs hs1 (.inr rfl) hcx hcy (by rw [hphi, hLp]; exact slow_down _ _ _ _ hR hc hs hs1 _ hgap) (by rw [hphi, hLp]; exact meets_upright _ _ _ _ _ _ hR hc hs hx) 1
  rw [e, if_pos h180, e1]
  refine ⟨_, by change Except.map _ _ = _; rw [e2]; rfl, fun i j hi hj => ?_⟩
  show disc i j * spot i j * top i j * bot i j = _
  rw [hd, hsp, h1 i j hi hj, h2 i j hi hj, hLp]
  rfl

/-- **C143 (clocking).** The same for any clocking, when no edge of the turned houses is passed within a sub-row and each row of a house that reaches the array meets it there (see
`C143_clocked_violated` for what happens otherwise). -/
theorem C143_clocked (a : Bowtie) (p : Proc) (hpx : 0 < a.pixres) (hin : 0 < a.rhoInner) (hin2 : a.rhoInner * a.pixres ≤ 1e7) (hout : 0 < a.rhoOuter) (hout2 : a.rhoOuter * a.pixres ≤ 1e7)
    (hn : 2 ≤ a.size) (hx : -(1 / 2) < a.cx ∧ a.cx < a.size - 1 / 2) (hy : -(1 / 2) < a.cy ∧ a.cy < a.size - 1 / 2) (hodd : Odd p.nsub) (hk : p.nsub ≤ 1000) (h5 : 5 ≤ p.nsub)
    (h0 : 0 < a.ang) (h180 : a.ang < 180)
    (hslow : ∀ sign : ℝ, sign = 1 ∨ sign = -1 → Slow 5 (pixX a.cx (2 * a.R) a.theta a.phi sign) (pixY a.cy (2 * a.R) a.theta a.phi sign) p.nsub)
    (hmeet : Meets (a.house 1) a.size ∧ Meets (a.house (-1)) a.size) :
    ∃ mask, bowtie a p = .ok mask ∧ ∀ i j, i.val ≠ 0 → j.val + 1 ≠ a.size → mask i j = a.ideal p.nsub i.val j.val := by
  have : NeZero a.size := ⟨by omega⟩
  obtain ⟨hc, hs, hs1⟩ := theta_range a h0 h180
  obtain ⟨disc, spot, hd, hsp, e⟩ := bowtie_core a p hpx hin hin2 hout hout2 hn hx hy hodd hk
  have hcx : (cshift 1 a.centering / a.pixres + a.xOffset) / (1 / a.pixres) + (a.size / 2 : ℕ) = a.cx := by
    rw [Bowtie.cx]; field_simp; ring
  have hcy : (cshift 1 a.centering / a.pixres + a.yOffset) / (1 / a.pixres) + (a.size / 2 : ℕ) = a.cy := by
    rw [Bowtie.cy]; field_simp; ring
  have hLp : 2 * a.rhoOuter * a.pixres = 2 * a.R := by unfold Bowtie.R; ring
  have hR : 0 < 2 * a.R := by unfold Bowtie.R; positivity
  obtain ⟨top, e1, h1⟩ := house_drawn a.size p.nsub h5 a.pixres hpx (cshift 1 a.centering / a.pixres + a.xOffset) (cshift 1 a.centering / a.pixres + a.yOffset) (2 * a.rhoOuter) a.theta a.phi 1
    a.cx a.cy (by positivity) hc hs hs1 (.inl rfl) hcx hcy (by rw [hLp]; exact hslow 1 (.inl rfl)) (by rw [hLp]; exact hmeet.1) 1
  obtain ⟨bot, e2, h2⟩ := house_drawn a.size p.nsub h5 a.pixres hpx (cshift 1 a.centering / a.pixres + a.xOffset) (cshift 1 a.centering / a.pixres + a.yOffset) (2 * a.rhoOuter) a.theta a.phi (-1)
    a.cx a.cy (by positivity) hc hs hs1 (.inr rfl) hcx hcy (by rw [hLp]; exact hslow (-1) (.inr rfl)) (by rw [hLp]; exact hmeet.2) 1
  rw [e, if_pos h180, e1]
  refine ⟨_, by change Except.map _ _ = _; rw [e2]; rfl, fun i j hi hj => ?_⟩
  show disc i j * spot i j * top i j * bot i j = _
  rw [hd, hsp, h1 i j hi hj, h2 i j hi hj, hLp]
  rfl

/-- **C143 (no bowtie).** From 180° on the mask is the annulus, at every pixel. -/
theorem C143_annulus (a : Bowtie) (p : Proc) (hpx : 0 < a.pixres) (hin : 0 < a.rhoInner) (hin2 : a.rhoInner * a.pixres ≤ 1e7) (hout : 0 < a.rhoOuter) (hout2 : a.rhoOuter * a.pixres ≤ 1e7)
    (hn : 2 ≤ a.size) (hx : -(1 / 2) < a.cx ∧ a.cx < a.size - 1 / 2) (hy : -(1 / 2) < a.cy ∧ a.cy < a.size - 1 / 2) (hodd : Odd p.nsub) (hk : p.nsub ≤ 1000) (h180 : 180 ≤ a.ang) :
    ∃ mask, bowtie a p = .ok mask ∧ ∀ i j, mask i j =
      coverage p.nsub (discD a.cx a.cy a.R) 1 j.val i.val * (1 - coverage p.nsub (discD a.cx a.cy (a.rhoInner * a.pixres)) 1 j.val i.val) := by
  obtain ⟨disc, spot, hd, hsp, e⟩ := bowtie_core a p hpx hin hin2 hout hout2 hn hx hy hodd hk
  rw [e, if_neg (not_lt.mpr h180)]
  exact ⟨_, rfl, fun i j => by rw [hd, hsp]⟩

/-! ## What that means for single pixels -/

/-- The array that is made by default holds the whole mask. -/
theorem bowtie_size (a : Bowtie) (hpx : 0 < a.pixres) (hout : 0 < a.rhoOuter) (hauto : a.narray = none) :
    2 ≤ a.size ∧ a.R ≤ a.cx + 1 / 2 ∧ a.cx + a.R ≤ a.size - 1 / 2 ∧ a.R ≤ a.cy + 1 / 2 ∧ a.cy + a.R ≤ a.size - 1 / 2 := by
  have e : a.size = (⟨a.pixres, a.rhoOuter, some a.rhoOuter, a.xOffset, a.yOffset, a.centering, 0, none⟩ : Annular).size := by
    unfold Bowtie.size Annular.size; rw [hauto]; rfl
  obtain ⟨h1, ⟨m, hm⟩, h3⟩ := annular_size ⟨a.pixres, a.rhoOuter, some a.rhoOuter, a.xOffset, a.yOffset, a.centering, 0, none⟩ hpx hout (fun r h => by cases h; exact hout) rfl
  rw [← e] at h1 hm h3
  simp only [Option.getD_some] at h3
  have hx : |a.xOffset * a.pixres| ≤ max |a.xOffset| |a.yOffset| * a.pixres := by
    rw [abs_mul, abs_of_pos hpx]; exact mul_le_mul_of_nonneg_right (le_max_left _ _) hpx.le
  have hy : |a.yOffset * a.pixres| ≤ max |a.xOffset| |a.yOffset| * a.pixres := by
    rw [abs_mul, abs_of_pos hpx]; exact mul_le_mul_of_nonneg_right (le_max_right _ _) hpx.le
  have hhalf : ((a.size / 2 : ℕ) : ℝ) = (a.size : ℝ) / 2 := by rw [hm]; rw [show (m + m) / 2 = m by omega]; push_cast; ring
  have b1 := abs_le.mp hx
  have b2 := abs_le.mp hy
  refine ⟨h1, ?_⟩
  unfold Bowtie.cx Bowtie.cy Bowtie.R
  rw [hhalf]
  cases hcen : a.centering <;> rw [hcen] at h3 <;> norm_num [slack, cshift] at h3 ⊢ <;> refine ⟨?_, ?_, ?_, ?_⟩ <;> linarith

/-- A pixel that lies wholly within a disc held by the array is not in the first row or the last column. -/
theorem not_at_edge {n : ℕ} (cx cy R : ℝ) (hR : 0 < R) (hx : cx + R ≤ n - 1 / 2) (hy : R ≤ cy + 1 / 2) (i j : ℕ)
    (h : ∀ x y : ℝ, |x - j| ≤ 1 / 2 → |y - i| ≤ 1 / 2 → (x - cx) ^ 2 + (y - cy) ^ 2 ≤ R ^ 2) : i ≠ 0 ∧ j + 1 ≠ n := by
  have key : ∀ t : ℝ, t ^ 2 ≤ 0 → (t + 1) ^ 2 ≤ 0 → False := by
    intro t h1 h2
    nlinarith
  constructor
  · rintro rfl
    have h1 := h (j - 1 / 2) (-1 / 2) (by rw [show (j : ℝ) - 1 / 2 - j = -(1 / 2) by ring]; norm_num) (by norm_num)
    have h2 := h (j + 1 / 2) (-1 / 2) (by rw [show (j : ℝ) + 1 / 2 - j = 1 / 2 by ring]; norm_num) (by norm_num)
    have h3 : R ^ 2 ≤ (-1 / 2 - cy) ^ 2 := by nlinarith
    exact key (j - 1 / 2 - cx) (by linarith) (by rw [show (j : ℝ) - 1 / 2 - cx + 1 = j + 1 / 2 - cx by ring]; linarith)
  · intro e
    have e' : (j : ℝ) + 1 = n := by exact_mod_cast e
    have h1 := h (j + 1 / 2) (i - 1 / 2) (by rw [show (j : ℝ) + 1 / 2 - j = 1 / 2 by ring]; norm_num) (by rw [show (i : ℝ) - 1 / 2 - i = -(1 / 2) by ring]; norm_num)
    have h2 := h (j + 1 / 2) (i + 1 / 2) (by rw [show (j : ℝ) + 1 / 2 - j = 1 / 2 by ring]; norm_num) (by rw [show (i : ℝ) + 1 / 2 - i = 1 / 2 by ring]; norm_num)
    have h3 : R ^ 2 ≤ (j + 1 / 2 - cx) ^ 2 := by nlinarith
    exact key (i - 1 / 2 - cy) (by linarith) (by rw [show (i : ℝ) - 1 / 2 - cy + 1 = i + 1 / 2 - cy by ring]; linarith)

/-- No part of a pixel in a set. -/
theorem stripMean_zero {mag : ℕ} (hm : 0 < mag) (S : Set (ℝ × ℝ)) (j i : ℝ) (h : ∀ x y, |x - j| ≤ 1 / 2 → |y - i| ≤ 1 / 2 → (x, y) ∉ S) : stripMean mag S j i = 0 := by
  unfold stripMean
  rw [Finset.sum_eq_zero, zero_div]
  intro s _
  unfold sectionLength
  have : {x : ℝ | |x - j| ≤ 1 / 2 ∧ (x, i - 1 / 2 + ((s : ℕ) + 1 / 2) / mag) ∈ S} = ∅ := by
    ext x
    simp only [Set.mem_ofPred_eq, Set.mem_empty_iff_false, iff_false, not_and]
    intro hx
    exact h x _ hx (mid_row hm i s)
  rw [this]
  simp

/-- **C143 (bright pixels).** In the array made by default, every pixel that lies wholly within the outer disc, outside the inner one and strictly within the opening of the bowtie is 1. -/
theorem C143_open (a : Bowtie) (p : Proc) (hpx : 0 < a.pixres) (hin : 0 < a.rhoInner) (hin2 : a.rhoInner * a.pixres ≤ 1e7) (hout : 0 < a.rhoOuter) (hout2 : a.rhoOuter * a.pixres ≤ 1e7)
    (hauto : a.narray = none) (hodd : Odd p.nsub) (hk : p.nsub ≤ 1000) (h5 : 5 ≤ p.nsub) (h0 : 0 < a.ang) (h180 : a.ang < 180)
    (hgap : 1 / (p.nsub : ℝ) ≤ 2 * a.R - 2 * a.R * Real.sin a.theta) (hclk : a.clocking = 0) :
    ∃ mask, bowtie a p = .ok mask ∧ ∀ i j, (∀ x y : ℝ, |x - j.val| ≤ 1 / 2 → |y - i.val| ≤ 1 / 2 → (x - a.cx) ^ 2 + (y - a.cy) ^ 2 ≤ a.R ^ 2 ∧
      (a.rhoInner * a.pixres) ^ 2 * (1 + 1e-10) < (x - a.cx) ^ 2 + (y - a.cy) ^ 2 ∧ |y - a.cy| * Real.cos a.theta < |x - a.cx| * Real.sin a.theta) → mask i j = 1 := by
  obtain ⟨hn, sx1, sx2, sy1, sy2⟩ := bowtie_size a hpx hout hauto
  have hR : 0 < a.R := by unfold Bowtie.R; positivity
  obtain ⟨mask, e, h⟩ := C143_value a p hpx hin hin2 hout hout2 hn ⟨by linarith, by linarith⟩ ⟨by linarith, by linarith⟩ hodd hk h5 h0 h180 hgap hclk
  refine ⟨mask, e, fun i j hpix => ?_⟩
  obtain ⟨hi, hj⟩ := not_at_edge a.cx a.cy a.R hR sx2 sy1 i.val j.val (fun x y hx hy => (hpix x y hx hy).1)
  have hphi : a.phi = 0 := by unfold Bowtie.phi; rw [hclk]; simp
  obtain ⟨hc, hs, hs1⟩ := theta_range a h0 h180
  have hno : ∀ sign : ℝ, sign = 1 ∨ sign = -1 → ∀ x y : ℝ, |x - j.val| ≤ 1 / 2 → |y - i.val| ≤ 1 / 2 → (x, y) ∉ a.house sign := by
    rintro sign hsg x y hx hy ⟨-, h2, -⟩
    have h3 := (hpix x y hx hy).2.2
    rw [hphi] at h2
    simp only [across, along, Real.sin_zero, Real.cos_zero, mul_one, mul_zero, add_zero, zero_add] at h2
    have : sign * (y - a.cy) ≤ |y - a.cy| := by
      rcases hsg with rfl | rfl
      · rw [one_mul]; exact le_abs_self _
      · rw [neg_one_mul]; exact neg_le_abs _
    have := mul_le_mul_of_nonneg_right this hc.le
    linarith
  rw [h i j hi hj, Bowtie.ideal, stripMean_zero (by omega) _ _ _ (hno 1 (.inl rfl)), stripMean_zero (by omega) _ _ _ (hno (-1) (.inr rfl)),
    coverage_full p.nsub (by omega) _ 1 _ _ (by norm_num) (fun u v hu hv => by
      have := (hpix u v hu hv).1
      simp only [discD, Set.mem_ofPred_eq]
      nlinarith [sq_nonneg a.R]),
    coverage_empty p.nsub _ 1 _ _ (by norm_num) (fun u v hu hv hm => by
      have := (hpix u v hu hv).2.1
      simp only [discD, Set.mem_ofPred_eq] at hm
      linarith)]
  norm_num

/-- **C143 (dark pixels).** Every pixel (outside the first row and the last column) that lies wholly beyond the opening of the bowtie, wholly outside the outer disc or wholly within
the inner one is 0. -/
theorem C143_dark (a : Bowtie) (p : Proc) (hpx : 0 < a.pixres) (hin : 0 < a.rhoInner) (hin2 : a.rhoInner * a.pixres ≤ 1e7) (hout : 0 < a.rhoOuter) (hout2 : a.rhoOuter * a.pixres ≤ 1e7)
    (hauto : a.narray = none) (hodd : Odd p.nsub) (hk : p.nsub ≤ 1000) (h5 : 5 ≤ p.nsub) (h0 : 0 < a.ang) (h180 : a.ang < 180)
    (hgap : 1 / (p.nsub : ℝ) ≤ 2 * a.R - 2 * a.R * Real.sin a.theta) (hclk : a.clocking = 0) :
    ∃ mask, bowtie a p = .ok mask ∧ ∀ i j, i.val ≠ 0 → j.val + 1 ≠ a.size →
      ((∀ x y : ℝ, |x - j.val| ≤ 1 / 2 → |y - i.val| ≤ 1 / 2 → (x - a.cx) ^ 2 + (y - a.cy) ^ 2 ≤ (2 * a.R) ^ 2 ∧ |x - a.cx| * Real.sin a.theta ≤ (y - a.cy) * Real.cos a.theta) ∨
       (∀ x y : ℝ, |x - j.val| ≤ 1 / 2 → |y - i.val| ≤ 1 / 2 → (x - a.cx) ^ 2 + (y - a.cy) ^ 2 ≤ (2 * a.R) ^ 2 ∧ |x - a.cx| * Real.sin a.theta ≤ -(y - a.cy) * Real.cos a.theta) ∨
       (∀ x y : ℝ, |x - j.val| ≤ 1 / 2 → |y - i.val| ≤ 1 / 2 → a.R ^ 2 * (1 + 1e-10) < (x - a.cx) ^ 2 + (y - a.cy) ^ 2) ∨
       ∀ x y : ℝ, |x - j.val| ≤ 1 / 2 → |y - i.val| ≤ 1 / 2 → (x - a.cx) ^ 2 + (y - a.cy) ^ 2 ≤ (a.rhoInner * a.pixres) ^ 2) → mask i j = 0 := by
  obtain ⟨hn, sx1, sx2, sy1, sy2⟩ := bowtie_size a hpx hout hauto
  have hR : 0 < a.R := by unfold Bowtie.R; positivity
  obtain ⟨mask, e, h⟩ := C143_value a p hpx hin hin2 hout hout2 hn ⟨by linarith, by linarith⟩ ⟨by linarith, by linarith⟩ hodd hk h5 h0 h180 hgap hclk
  refine ⟨mask, e, fun i j hi hj hpix => ?_⟩
  have hphi : a.phi = 0 := by unfold Bowtie.phi; rw [hclk]; simp
  obtain ⟨hc, hs, hs1⟩ := theta_range a h0 h180
  -- a sector within twice the radius is within the house
  have hin_house : ∀ sign : ℝ, sign = 1 ∨ sign = -1 → ∀ x y : ℝ, (x - a.cx) ^ 2 + (y - a.cy) ^ 2 ≤ (2 * a.R) ^ 2 → |x - a.cx| * Real.sin a.theta ≤ sign * (y - a.cy) * Real.cos a.theta →
      (x, y) ∈ a.house sign := by
    intro sign hsg x y h1 h2
    have hv0 : 0 ≤ sign * (y - a.cy) := by
      have : 0 ≤ |x - a.cx| * Real.sin a.theta := by positivity
      by_contra hcon
      push Not at hcon
      have := mul_neg_of_neg_of_pos hcon hc
      linarith
    have hsq : (sign * (y - a.cy)) ^ 2 = (y - a.cy) ^ 2 := by rcases hsg with rfl | rfl <;> ring
    have hsc := Real.sin_sq_add_cos_sq a.theta
    have hu0 := abs_nonneg (x - a.cx)
    have hu2 : |x - a.cx| ^ 2 = (x - a.cx) ^ 2 := sq_abs _
    unfold Bowtie.house Masks.house
    rw [Set.mem_ofPred_eq, hphi]
    simp only [across, along, Real.sin_zero, Real.cos_zero, mul_one, mul_zero, add_zero, neg_zero, zero_add]
    refine ⟨?_, h2, ?_⟩
    · -- |u| ≤ 2R cos θ
      have g : (|x - a.cx|) ^ 2 ≤ (2 * a.R * Real.cos a.theta) ^ 2 := by
        have g1 : (|x - a.cx| * Real.sin a.theta) ^ 2 ≤ (sign * (y - a.cy) * Real.cos a.theta) ^ 2 := pow_le_pow_left₀ (by positivity) h2 2
        have g2 : ((x - a.cx) ^ 2 + (y - a.cy) ^ 2) * Real.cos a.theta ^ 2 ≤ (2 * a.R) ^ 2 * Real.cos a.theta ^ 2 := mul_le_mul_of_nonneg_right h1 (sq_nonneg _)
        rw [mul_pow, mul_pow, hsq, hu2] at g1
        rw [hu2]
        have : (x - a.cx) ^ 2 = (x - a.cx) ^ 2 * Real.sin a.theta ^ 2 + (x - a.cx) ^ 2 * Real.cos a.theta ^ 2 := by rw [← mul_add, hsc, mul_one]
        nlinarith
      have := abs_le_of_sq_le_sq g (by positivity)
      rwa [abs_abs] at this
    · refine (le_abs_self _).trans (abs_le_of_sq_le_sq (a := sign * (y - a.cy)) (b := 2 * a.R) ?_ (by positivity))
      rw [hsq]
      nlinarith [sq_nonneg (x - a.cx)]
  rw [h i j hi hj, Bowtie.ideal]
  rcases hpix with hp | hp | hp | hp
  · rw [stripMean_one (by omega) (a.house 1) _ _ fun x y hx hy => hin_house 1 (.inl rfl) x y (hp x y hx hy).1 (by rw [one_mul]; exact (hp x y hx hy).2)]
    ring
  · rw [stripMean_one (by omega) (a.house (-1)) _ _ fun x y hx hy => hin_house (-1) (.inr rfl) x y (hp x y hx hy).1 (by rw [neg_one_mul]; exact (hp x y hx hy).2)]
    ring
  · rw [coverage_empty p.nsub (discD a.cx a.cy a.R) 1 _ _ (by norm_num) (fun u v hu hv hm => by
      have := hp u v hu hv
      simp only [discD, Set.mem_ofPred_eq] at hm
      linarith)]
    ring
  · rw [coverage_full p.nsub (by omega) (discD a.cx a.cy (a.rhoInner * a.pixres)) 1 _ _ (by norm_num) (fun u v hu hv => by
      have := hp u v hu hv
      simp only [discD, Set.mem_ofPred_eq]
      nlinarith [sq_nonneg (a.rhoInner * a.pixres)])]
    ring

/-! ## A clocked bowtie that cannot be drawn -/

/-- Any failure to draw a polygon is an `IndexError`. -/
theorem irregular_error (n mag : ℕ) (dx br : ℝ) (norm dark : Bool) (nv : ℕ) (xv yv : ℕ → ℝ) (e : PyErr) (h : irregularPolygon n mag dx br norm dark nv xv yv = .error e) : e = .indexError := by
  unfold irregularPolygon at h
  dsimp only at h
  by_contra hne
  have := draw_error (ofVertices n dx br norm nv xv yv) n mag ((ofVertices n dx br norm nv xv yv).hiIrr n) dark (by
    intro s hs
    unfold Poly.draw at h
    rw [hs] at h
    cases h)
  rw [this] at h
  injection h with h
  exact hne h.symm

/-- **C143 (clocking that is refused).** Turned by 90°, the lower house opens to the right.  As soon as one sub-row of it begins to the right of the array, `gen_bowtie_fpm` raises
`IndexError` and returns no mask. -/
theorem C143_clocked_violated (a : Bowtie) (p : Proc) (hpx : 0 < a.pixres) (hin : 0 < a.rhoInner) (hin2 : a.rhoInner * a.pixres ≤ 1e7) (hout : 0 < a.rhoOuter) (hout2 : a.rhoOuter * a.pixres ≤ 1e7)
    (hn : 2 ≤ a.size) (hx : -(1 / 2) < a.cx ∧ a.cx < a.size - 1 / 2) (hy : -(1 / 2) < a.cy ∧ a.cy < a.size - 1 / 2) (hodd : Odd p.nsub) (hk : p.nsub ≤ 1000)
    (h0 : 0 < a.ang) (h180 : a.ang < 180) (hclk : a.clocking = 90) (i : ℕ) (hi : i < a.size) (s : Fin p.nsub) (w : ℝ) (hw : w = |(i : ℝ) - 1 / 2 + ((s : ℕ) + 1 / 2) / p.nsub - a.cy|)
    (hreach : w ≤ 2 * a.R * Real.cos a.theta) (hright : (a.size - 1 / 2 - a.cx) * Real.cos a.theta < w * Real.sin a.theta)
    (hlong : w * Real.sin a.theta + Real.cos a.theta < 2 * a.R * Real.cos a.theta) : bowtie a p = .error .indexError := by
  have : NeZero a.size := ⟨by omega⟩
  have hm : 0 < p.nsub := s.pos
  obtain ⟨hc, hs, hs1⟩ := theta_range a h0 h180
  have hphi : a.phi = Real.pi / 2 := by unfold Bowtie.phi; rw [hclk]; ring
  obtain ⟨disc, spot, hd, hsp, e⟩ := bowtie_core a p hpx hin hin2 hout hout2 hn hx hy hodd hk
  have hcx : (cshift 1 a.centering / a.pixres + a.xOffset) / (1 / a.pixres) + (a.size / 2 : ℕ) = a.cx := by
    rw [Bowtie.cx]; field_simp; ring
  have hcy : (cshift 1 a.centering / a.pixres + a.yOffset) / (1 / a.pixres) + (a.size / 2 : ℕ) = a.cy := by
    rw [Bowtie.cy]; field_simp; ring
  have hLp : 2 * a.rhoOuter / (1 / a.pixres) = 2 * a.R := by unfold Bowtie.R; field_simp
  have hR : 0 < 2 * a.R := by unfold Bowtie.R; positivity
  have hX := pixX_scale a.size (1 / a.pixres) (cshift 1 a.centering / a.pixres + a.xOffset) (2 * a.rhoOuter) a.theta a.phi (-1)
  have hY := pixY_scale a.size (1 / a.pixres) (cshift 1 a.centering / a.pixres + a.yOffset) (2 * a.rhoOuter) a.theta a.phi (-1)
  rw [hcx, hLp] at hX
  rw [hcy, hLp] at hY
  have hh := house_hull a.cx a.cy (2 * a.R) a.theta a.phi (-1) hR hc hs hs1 (.inr rfl)
  have hC : 0 < 2 * a.R * Real.cos a.theta := by positivity
  have hLS : 2 * a.R * Real.sin a.theta < 2 * a.R := by nlinarith
  have hmem : ∀ x y : ℝ, (x, y) ∈ house a.cx a.cy (2 * a.R) a.theta a.phi (-1) ↔
      |y - a.cy| ≤ 2 * a.R * Real.cos a.theta ∧ |y - a.cy| * Real.sin a.theta ≤ (x - a.cx) * Real.cos a.theta ∧ x - a.cx ≤ 2 * a.R := by
    intro x y
    unfold house
    rw [Set.mem_ofPred_eq, hphi]
    simp only [across, along, Real.sin_pi_div_two, Real.cos_pi_div_two, mul_zero, mul_one, zero_add, add_zero, neg_mul, one_mul, neg_neg]
  have hstart : StartAt 5 (pixY a.cy (2 * a.R) a.theta a.phi (-1)) (pixX a.cx (2 * a.R) a.theta a.phi (-1)) 4 := by
    refine ⟨by norm_num, fun m hm => ?_⟩
    rw [hphi]
    interval_cases m <;> simp only [pixX, pixY, Real.sin_pi_div_two, Real.cos_pi_div_two] <;> exact ⟨by linarith, fun _ => by linarith⟩
  have hpy : ∀ k, pixY a.cy (2 * a.R) a.theta a.phi (-1) k ≤ a.cy + 2 * a.R * Real.cos a.theta := by
    intro k
    rw [hphi]
    match k with
    | 0 | 1 | 2 | 3 => simp only [pixY, Real.sin_pi_div_two, Real.cos_pi_div_two]; linarith
    | k + 4 => simp only [pixY, Real.sin_pi_div_two, Real.cos_pi_div_two]; linarith
  have hp1 : pixY a.cy (2 * a.R) a.theta a.phi (-1) 1 = a.cy + 2 * a.R * Real.cos a.theta := by
    rw [hphi]; simp only [pixY, Real.sin_pi_div_two, Real.cos_pi_div_two]; ring
  have hp2 : pixY a.cy (2 * a.R) a.theta a.phi (-1) 2 = a.cy + 2 * a.R * Real.cos a.theta := by
    rw [hphi]; simp only [pixY, Real.sin_pi_div_two, Real.cos_pi_div_two]; ring
  have hp34 : pixY a.cy (2 * a.R) a.theta a.phi (-1) 3 = pixY a.cy (2 * a.R) a.theta a.phi (-1) 4 := by
    rw [hphi]; simp only [pixY, Real.sin_pi_div_two, Real.cos_pi_div_two]; ring
  have hslow : Slow 5 (pixX a.cx (2 * a.R) a.theta a.phi (-1)) (pixY a.cy (2 * a.R) a.theta a.phi (-1)) p.nsub := by
    rintro k hk l hl hadj hlt hns ⟨m, hm, hlm⟩
    exfalso
    have htop : ∀ l, pixY a.cy (2 * a.R) a.theta a.phi (-1) l = a.cy + 2 * a.R * Real.cos a.theta → ¬ pixY a.cy (2 * a.R) a.theta a.phi (-1) l < pixY a.cy (2 * a.R) a.theta a.phi (-1) m :=
      fun l h1 h2 => by have := hpy m; linarith
    have hl1 : l ≠ 1 := fun h => htop 1 hp1 (h ▸ hlm)
    have hl2 : l ≠ 2 := fun h => htop 2 hp2 (h ▸ hlm)
    have hk4 : k ≠ 4 := fun h => hns (h ▸ hstart)
    have hl34 : ∀ k, ¬ pixY a.cy (2 * a.R) a.theta a.phi (-1) k < pixY a.cy (2 * a.R) a.theta a.phi (-1) 4 ∨ 5 ≤ k := fun k => by
      by_cases hk : k < 5
      · exact .inl (not_lt.mpr (hstart.2 k hk).1)
      · exact .inr (by omega)
    have hl4 : l ≠ 4 := fun h => by
      rcases hl34 k with g | g
      · exact g (h ▸ hlt)
      · omega
    have hl3 : l ≠ 3 := fun h => by
      rcases hl34 k with g | g
      · exact g (hp34 ▸ (h ▸ hlt))
      · omega
    have hl0 : l = 0 := by omega
    subst hl0
    have hk1 : k ≠ 1 := fun h => by
      rw [h, hp1] at hlt
      have := hpy 0
      linarith
    omega
  have hbeg : Begins 5 (pixX a.cx (2 * a.R) a.theta a.phi (-1)) (pixY a.cy (2 * a.R) a.theta a.phi (-1)) p.nsub := by
    right
    rintro k hk hns hadj ⟨m, hm, hkm⟩
    exfalso
    have hk1 : k ≠ 1 := fun h => by rw [h, hp1] at hkm; have := hpy m; linarith
    have hk2 : k ≠ 2 := fun h => by rw [h, hp2] at hkm; have := hpy m; linarith
    have hk4 : k ≠ 4 := fun h => hns (h ▸ hstart)
    have hk3 : k = 3 ∨ k = 0 := by omega
    rcases hk3 with rfl | rfl
    · exact hadj 4 (by norm_num) (.inl rfl) hstart
    · exact hadj 4 (by norm_num) (.inr rfl) hstart
  have hfig : figure a.size (1 / a.pixres) 1 false 5 (pixX (cshift 1 a.centering / a.pixres + a.xOffset) (2 * a.rhoOuter) a.theta a.phi (-1))
      (pixY (cshift 1 a.centering / a.pixres + a.yOffset) (2 * a.rhoOuter) a.theta a.phi (-1)) = house a.cx a.cy (2 * a.R) a.theta a.phi (-1) := by
    unfold figure
    rw [hX, hY, hh]
  have hbot := C115_right_violated a.size p.nsub (1 / a.pixres) 1 false 5 (pixX (cshift 1 a.centering / a.pixres + a.xOffset) (2 * a.rhoOuter) a.theta a.phi (-1))
    (pixY (cshift 1 a.centering / a.pixres + a.yOffset) (2 * a.rhoOuter) a.theta a.phi (-1)) hm (by positivity) one_ne_zero true
    (house_strict _ _ _ _ _ _ (by positivity) hc hs hs1 (.inr rfl)) (by rw [hX, hY]; exact hslow) (by rw [hX, hY]; exact hbeg) i hi s
    (a.cx + w * Real.sin a.theta / Real.cos a.theta) (a.cx + 2 * a.R)
    (by
      have : w * Real.sin a.theta / Real.cos a.theta + 1 < 2 * a.R := by
        rw [← lt_sub_iff_add_lt, div_lt_iff₀ hc]; linarith
      linarith)
    (by
      rw [hfig, hmem, ← hw]
      refine ⟨hreach, by rw [add_sub_cancel_left, div_mul_cancel₀ _ hc.ne'], ?_⟩
      rw [add_sub_cancel_left, div_le_iff₀ hc]; linarith)
    (by
      rw [hfig, hmem, ← hw]
      exact ⟨hreach, by rw [add_sub_cancel_left]; linarith, by rw [add_sub_cancel_left]⟩)
    (by
      intro x hx'
      rw [hfig, hmem, ← hw] at hx'
      have : (a.size - 1 / 2 - a.cx) * Real.cos a.theta < (x - a.cx) * Real.cos a.theta := by linarith [hx'.2.1]
      have := lt_of_mul_lt_mul_right this hc.le
      linarith)
  rw [e, if_pos h180, hbot]
  cases hT : irregularPolygon a.size p.nsub (1 / a.pixres) 1 false true 5 (pixX (cshift 1 a.centering / a.pixres + a.xOffset) (2 * a.rhoOuter) a.theta a.phi 1)
      (pixY (cshift 1 a.centering / a.pixres + a.yOffset) (2 * a.rhoOuter) a.theta a.phi 1) with
  | error e' => rw [irregular_error _ _ _ _ _ _ _ _ _ e' hT]; rfl
  | ok t => rfl

/-! ## Cases -/

/-- The mask of the Roman bowtie: 2.6 to 20 λ/D at ten pixels per λ/D, opening 65°. -/
noncomputable def roman : Bowtie := ⟨65, 10, 26 / 10, 20, 0, 0, .pixel, 0, none⟩

/-- The hypotheses of `C143_value`, `C143_open` and `C143_dark` are met. -/
example : (0 < roman.pixres ∧ 0 < roman.rhoInner ∧ roman.rhoInner * roman.pixres ≤ 1e7 ∧ 0 < roman.rhoOuter ∧ roman.rhoOuter * roman.pixres ≤ 1e7 ∧ roman.narray = none ∧
    (0 < roman.ang ∧ roman.ang < 180) ∧ roman.clocking = 0 ∧ 1 / ((11 : ℕ) : ℝ) ≤ 2 * roman.R - 2 * roman.R * Real.sin roman.theta) := by
  refine ⟨by norm_num [roman], by norm_num [roman], by norm_num [roman], by norm_num [roman], by norm_num [roman], rfl, by norm_num [roman], rfl, ?_⟩
  have hp := Real.pi_pos
  have h1 : Real.sin roman.theta ≤ Real.sin (Real.pi / 4) := by
    apply Real.sin_le_sin_of_le_of_le_pi_div_two <;> norm_num [Bowtie.theta, roman] <;> linarith
  rw [Real.sin_pi_div_four] at h1
  have h2 : Real.sqrt 2 < 3 / 2 := by rw [Real.sqrt_lt' (by norm_num)]; norm_num
  have e : roman.R = 200 := by norm_num [Bowtie.R, roman]
  rw [e]
  norm_num
  linarith

/-- A bowtie of 120° turned by 90°: `gen_bowtie_fpm` raises `IndexError`. -/
example : bowtie ⟨120, 10, 26 / 10, 20, 0, 0, .pixel, 90, none⟩ ⟨11⟩ = .error .indexError := by
  set a : Bowtie := ⟨120, 10, 26 / 10, 20, 0, 0, .pixel, 90, none⟩ with ha
  have hsz : a.size = 402 := by
    rw [ha]
    unfold Bowtie.size Util.ceilEven
    norm_num
    rfl
  have hcx : a.cx = 201 := by unfold Bowtie.cx; rw [hsz]; norm_num [ha, cshift]
  have hcy : a.cy = 201 := by unfold Bowtie.cy; rw [hsz]; norm_num [ha, cshift]
  have hR : a.R = 200 := by norm_num [Bowtie.R, ha]
  have hth : a.theta = Real.pi / 3 := by unfold Bowtie.theta; rw [ha]; ring
  have h3 : Real.sqrt 3 < 9 / 5 := by rw [Real.sqrt_lt' (by norm_num)]; norm_num
  have h3' : 3 / 2 < Real.sqrt 3 := by rw [Real.lt_sqrt (by norm_num)]; norm_num
  refine C143_clocked_violated a ⟨11⟩ (by norm_num [ha]) (by norm_num [ha]) (by norm_num [ha]) (by norm_num [ha]) (by norm_num [ha]) (by rw [hsz]; norm_num)
    (by rw [hcx, hsz]; norm_num) (by rw [hcy, hsz]; norm_num) (by decide) (by norm_num) (by norm_num [ha]) (by norm_num [ha]) rfl 1 (by rw [hsz]; norm_num) ⟨5, by norm_num⟩ 200
    ?_ ?_ ?_ ?_
  · rw [hcy]; norm_num
  · rw [hR, hth, Real.cos_pi_div_three]; norm_num
  · rw [hsz, hcx, hth, Real.cos_pi_div_three, Real.sin_pi_div_three]; norm_num; linarith
  · rw [hR, hth, Real.cos_pi_div_three, Real.sin_pi_div_three]; linarith

end Verif.Masks
