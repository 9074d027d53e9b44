import Verif.Model.Polygon
import Verif.Props.Rectangle
import Mathlib.Analysis.Convex.Hull

/-!
# C115: antialiased polygons (prop_irregular_polygon, prop_polygon)

Specification: as for rectangles (C101), with the convex hull of the vertices as the figure.
-/

namespace Verif.Polygon
open Verif MeasureTheory Verif.Shape

/-- The polygon as a set: the convex hull of its vertices (in pixels). -/
def hull (nv : ℕ) (x y : ℕ → ℝ) : Set (ℝ × ℝ) := convexHull ℝ {v | ∃ k < nv, v = (x k, y k)}

/-- Twice the signed area of the triangle with the corners `k`, the one after `k`, and `m`: negative when `m` is to the right of the edge. -/
def side (nv : ℕ) (x y : ℕ → ℝ) (k m : ℕ) : ℝ :=
  (x ((k + 1) % nv) - x k) * (y m - y k) - (y ((k + 1) % nv) - y k) * (x m - x k)

/-- A strictly convex polygon with its vertices in clockwise order: every other vertex is strictly to the right of every edge. -/
def Clockwise (nv : ℕ) (x y : ℕ → ℝ) : Prop :=
  3 ≤ nv ∧ ∀ k < nv, ∀ m < nv, m ≠ k → m ≠ (k + 1) % nv → side nv x y k m < 0

/-- The corner at which the scan starts: the lowest, of two the left one. -/
def StartAt (nv : ℕ) (y x : ℕ → ℝ) (L : ℕ) : Prop :=
  L < nv ∧ ∀ m < nv, y L ≤ y m ∧ (y m = y L → x L ≤ x m)

/-- No edge is passed within a sub-row, save those that begin at the start or end at the top. -/
def Slow (nv : ℕ) (x y : ℕ → ℝ) (mag : ℕ) : Prop :=
  ∀ k < nv, ∀ l < nv, (l = (k + 1) % nv ∨ k = (l + 1) % nv) → y k < y l → ¬ StartAt nv y x k → (∃ m < nv, y l < y m) → y k + 1 / mag ≤ y l

/-- The polygon begins within the array, or at most its lowest corner and the two beside it (and its top) lie below the first sub-row. -/
def Begins (nv : ℕ) (x y : ℕ → ℝ) (mag : ℕ) : Prop :=
  (∀ k < nv, -1 / 2 ≤ y k) ∨
  ∀ k < nv, ¬ StartAt nv y x k → (∀ l < nv, (l = (k + 1) % nv ∨ k = (l + 1) % nv) → ¬ StartAt nv y x l) → (∃ m < nv, y k < y m) → -1 / 2 + 1 / (2 * mag) ≤ y k

/-- Every horizontal line that meets the figure at a height within the array meets it within the columns of the array. -/
def Meets (S : Set (ℝ × ℝ)) (n : ℕ) : Prop :=
  ∀ x y : ℝ, (x, y) ∈ S → -1 / 2 ≤ y → y < n - 1 / 2 → ∃ x', (x', y) ∈ S ∧ -1 / 2 ≤ x' ∧ x' < n - 1 / 2

/-! ## One sub-row -/

theorem npRound_ge {x : ℝ} (h : -1 / 2 ≤ x) : 0 ≤ Dm.npRound x := by
  have h0 : Dm.npRound (-1 / 2) = 0 := by
    unfold Dm.npRound
    norm_num [Int.floor_eq_iff]
  rw [← h0]; exact npRound_mono h

theorem npRound_lt {x : ℝ} {n : ℕ} (h : x < n - 1 / 2) : Dm.npRound x < n := by
  have := Dm.npRound_bounds x
  have h1 : (Dm.npRound x : ℝ) < n := by linarith [this.1, this.2]
  exact_mod_cast h1

/-- What one sub-row adds to the pixel in column `j`: the length of the section, but nothing in the last column when the section passes through it and out of the array. -/
noncomputable def added (n : ℕ) (xl xr : ℝ) (j : ℤ) : ℝ :=
  if j + 1 = n ∧ (n : ℤ) ≤ Dm.npRound xr ∧ Dm.npRound xl < j then 0 else overlap xl xr j

set_option maxHeartbeats 1600000 in
theorem addRow_spec (n mag : ℕ) (img : ℤ → ℤ → ℝ) (yp : ℤ) (xl xr : ℝ) (hlr : xl ≤ xr) (h0 : 0 ≤ Dm.npRound xr) (hn : Dm.npRound xl < n) :
    ∃ out, addRow n mag img yp xl xr = .ok out ∧ ∀ i j : ℤ, 0 ≤ j → j < n → out i j = img i j + if i = yp then mag * added n xl xr j else 0 := by
  have hab : Dm.npRound xl ≤ Dm.npRound xr := npRound_mono hlr
  have ha := Dm.npRound_bounds xl
  have hb := Dm.npRound_bounds xr
  unfold addRow added
  dsimp only
  generalize Dm.npRound xl = a at *
  generalize Dm.npRound xr = b at *
  obtain ⟨ha1, ha2⟩ := ha
  obtain ⟨hb1, hb2⟩ := hb
  have hov0 : ∀ j : ℤ, j < a ∨ b < j → overlap xl xr j = 0 := by
    intro j hj
    unfold overlap
    rw [max_eq_left]
    rcases hj with h | h
    · have hja : (j : ℝ) + 1 ≤ a := by exact_mod_cast h
      have h1 : min xr ((j : ℝ) + 1 / 2) ≤ j + 1 / 2 := min_le_right _ _
      have h2 : xl ≤ max xl ((j : ℝ) - 1 / 2) := le_max_left _ _
      linarith
    · have hja : (b : ℝ) + 1 ≤ j := by exact_mod_cast h
      have h1 : min xr ((j : ℝ) + 1 / 2) ≤ xr := min_le_left _ _
      have h2 : (j : ℝ) - 1 / 2 ≤ max xl ((j : ℝ) - 1 / 2) := le_max_right _ _
      linarith
  have hov1 : ∀ j : ℤ, a < j → j < b → overlap xl xr j = 1 := by
    intro j h1 h2
    have h1' : (a : ℝ) + 1 ≤ j := by exact_mod_cast h1
    have h2' : (j : ℝ) + 1 ≤ b := by exact_mod_cast h2
    rw [overlap_eq _ _ _ _ _ (max_eq_right (by linarith)) (min_eq_right (by linarith)) (by linarith)]
    ring
  by_cases hne : a = b
  · subst hne
    rw [if_neg (by simp)]
    have ho : overlap xl xr a = xr - xl := by
      rw [overlap_eq _ _ _ _ _ (max_eq_left (by linarith)) (min_eq_left (by linarith)) hlr]
    rw [if_pos ⟨h0, hn⟩]
    unfold addAt
    rw [if_neg (by omega : ¬ a < 0)]
    dsimp only
    rw [if_pos ⟨h0, hn⟩]
    refine ⟨_, rfl, fun i j hj0 hjn => ?_⟩
    rw [if_neg (by omega : ¬ (j + 1 = (n : ℤ) ∧ (n : ℤ) ≤ a ∧ a < j))]
    by_cases hi : i = yp
    · subst hi
      rw [if_pos rfl, Function.update_self]
      by_cases hja : j = a
      · subst hja; rw [Function.update_self, ho]
      · rw [Function.update_of_ne hja, hov0 j (by omega)]; simp
    · rw [if_neg hi, Function.update_of_ne hi]; simp
  · rw [if_pos hne]
    have hlt : a < b := by omega
    have hab1 : (a : ℝ) + 1 ≤ b := by exact_mod_cast hlt
    have hoa : overlap xl xr a = a + 0.5 - xl := by
      rw [overlap_eq _ _ _ _ _ (max_eq_left (by linarith)) (min_eq_right (by linarith)) (by linarith)]
      norm_num
    have hob : overlap xl xr b = xr - (b - 0.5) := by
      rw [overlap_eq _ _ _ _ _ (max_eq_right (by linarith)) (min_eq_left (by linarith)) (by linarith)]
      norm_num
    -- first write
    obtain ⟨o1, e1, s1⟩ : ∃ o1, (if a ≥ 0 then addAt n img yp a (mag * ((a + 0.5) - xl)) else .ok img) = .ok o1 ∧
        ∀ i j : ℤ, 0 ≤ j → j < n → o1 i j = img i j + if i = yp ∧ j = a then mag * overlap xl xr a else 0 := by
      by_cases ha0 : a ≥ 0
      · rw [if_pos ha0]
        unfold addAt
        rw [if_neg (by omega : ¬ a < 0)]
        dsimp only
        rw [if_pos ⟨ha0, hn⟩]
        refine ⟨_, rfl, fun i j _ _ => ?_⟩
        rw [hoa]
        by_cases hi : i = yp
        · subst hi
          rw [Function.update_self]
          by_cases hja : j = a
          · subst hja; simp
          · rw [Function.update_of_ne hja]; simp [hja]
        · rw [Function.update_of_ne hi]; simp [hi]
      · rw [if_neg ha0]
        refine ⟨_, rfl, fun i j h _ => ?_⟩
        rw [if_neg (by omega)]; simp
    obtain ⟨o2, e2, s2⟩ : ∃ o2, (if b < (n : ℤ) then addAt n o1 yp b (mag * (xr - (b - 0.5))) else .ok o1) = .ok o2 ∧
        ∀ i j : ℤ, 0 ≤ j → j < n → o2 i j = o1 i j + if i = yp ∧ j = b then mag * overlap xl xr b else 0 := by
      by_cases hbn : b < (n : ℤ)
      · rw [if_pos hbn]
        unfold addAt
        rw [if_neg (by omega : ¬ b < 0)]
        dsimp only
        rw [if_pos ⟨h0, hbn⟩]
        refine ⟨_, rfl, fun i j _ _ => ?_⟩
        rw [hob]
        by_cases hi : i = yp
        · subst hi
          rw [Function.update_self]
          by_cases hja : j = b
          · subst hja; simp
          · rw [Function.update_of_ne hja]; simp [hja]
        · rw [Function.update_of_ne hi]; simp [hi]
      · rw [if_neg hbn]
        refine ⟨_, rfl, fun i j _ h => ?_⟩
        rw [if_neg (by omega)]; simp
    rw [e1]
    simp only [Except.bind]
    rw [e2]
    dsimp only
    by_cases hgap : b - a > 1
    · rw [if_pos hgap]
      refine ⟨_, rfl, fun i j hj0 hjn => ?_⟩
      unfold addSlice
      by_cases hi : i = yp
      · subst hi
        rw [Function.update_self, if_pos rfl, s2 _ _ hj0 hjn, s1 _ _ hj0 hjn]
        have hstop : (if (if b ≥ (n : ℤ) then (n : ℤ) - 1 else b) < 0 then (if b ≥ (n : ℤ) then (n : ℤ) - 1 else b) + n else if b ≥ (n : ℤ) then (n : ℤ) - 1 else b) =
            if b ≥ (n : ℤ) then (n : ℤ) - 1 else b := by
          rw [if_neg]; split_ifs <;> omega
        rw [hstop]
        by_cases hja : j = a
        · subst hja
          rw [if_neg (by split_ifs <;> omega), if_pos ⟨rfl, rfl⟩, if_neg (by omega), if_neg (by omega)]
          ring
        · by_cases hjb : j = b
          · subst hjb
            rw [if_neg (by split_ifs <;> omega), if_neg (by omega), if_pos ⟨rfl, rfl⟩, if_neg (by omega)]
            ring
          · rw [if_neg (by omega : ¬ (i = i ∧ j = a)), if_neg (by omega : ¬ (i = i ∧ j = b))]
            by_cases hin : a < j ∧ j < b
            · by_cases hlast : j + 1 = (n : ℤ) ∧ (n : ℤ) ≤ b ∧ a < j
              · rw [if_pos hlast, if_neg (by split_ifs <;> omega)]; ring
              · rw [if_neg hlast, hov1 j hin.1 hin.2, if_pos (by constructor <;> split_ifs <;> omega)]; ring
            · rw [if_neg (by split_ifs <;> omega)]
              rw [hov0 j (by omega), ite_self]; ring
      · rw [Function.update_of_ne hi, s2 _ _ hj0 hjn, s1 _ _ hj0 hjn]; simp [hi]
    · rw [if_neg hgap]
      refine ⟨_, rfl, fun i j hj0 hjn => ?_⟩
      rw [s2 _ _ hj0 hjn, s1 _ _ hj0 hjn]
      by_cases hi : i = yp
      · subst hi
        rw [if_neg (by omega : ¬ (j + 1 = (n : ℤ) ∧ (n : ℤ) ≤ b ∧ a < j))]
        by_cases hja : j = a
        · subst hja; simp [hne]
        · by_cases hjb : j = b
          · subst hjb; simp [hja]
          · simp [hja, hjb, hov0 j (by omega)]
      · simp [hi]

/-! ## Geometry -/

section geometry
variable (p : Poly)

theorem next_eq {k : ℕ} (hk : k < p.nv) : p.next k = (k + 1) % p.nv := by
  unfold Poly.next
  split_ifs with h
  · rw [Nat.mod_eq_of_lt (by omega)]
  · push Not at h
    rw [show k + 1 = p.nv by omega, Nat.mod_self]

theorem next_lt {k : ℕ} (hk : k < p.nv) : p.next k < p.nv := by
  unfold Poly.next; split_ifs <;> omega
theorem prev_lt {k : ℕ} (hk : k < p.nv) : p.prev k < p.nv := by
  unfold Poly.prev; split_ifs <;> omega
theorem prev_next {k : ℕ} (hk : k < p.nv) : p.prev (p.next k) = k := by
  unfold Poly.prev Poly.next; split_ifs <;> omega
theorem next_prev {k : ℕ} (hk : k < p.nv) : p.next (p.prev k) = k := by
  unfold Poly.prev Poly.next; split_ifs <;> omega
theorem next_ne (h3 : 3 ≤ p.nv) (k : ℕ) : p.next k ≠ k := by
  unfold Poly.next; split_ifs <;> omega
theorem next_next_ne (h3 : 3 ≤ p.nv) {k : ℕ} (hk : k < p.nv) : p.next (p.next k) ≠ k := by
  unfold Poly.next; split_ifs <;> omega
theorem prev_ne (h3 : 3 ≤ p.nv) (k : ℕ) : p.prev k ≠ k := by
  unfold Poly.prev; split_ifs <;> omega
theorem prev_prev_ne (h3 : 3 ≤ p.nv) {k : ℕ} (hk : k < p.nv) : p.prev (p.prev k) ≠ k := by
  unfold Poly.prev; split_ifs <;> omega

theorem foldr_min_le (l : List ℝ) (a : ℝ) : l.foldr min a ≤ a ∧ ∀ v ∈ l, l.foldr min a ≤ v := by
  induction l with
  | nil => simp
  | cons w l ih =>
    rw [List.foldr_cons]
    refine ⟨le_trans (min_le_right _ _) ih.1, fun v hv => ?_⟩
    rcases List.mem_cons.mp hv with rfl | hv
    · exact min_le_left _ _
    · exact le_trans (min_le_right _ _) (ih.2 v hv)

theorem foldr_max_ge (l : List ℝ) (a : ℝ) : a ≤ l.foldr max a ∧ ∀ v ∈ l, v ≤ l.foldr max a := by
  induction l with
  | nil => simp
  | cons w l ih =>
    rw [List.foldr_cons]
    refine ⟨le_trans ih.1 (le_max_right _ _), fun v hv => ?_⟩
    rcases List.mem_cons.mp hv with rfl | hv
    · exact le_max_left _ _
    · exact le_trans (ih.2 v hv) (le_max_right _ _)

theorem foldr_min_mem (l : List ℝ) (a : ℝ) : l.foldr min a = a ∨ l.foldr min a ∈ l := by
  induction l with
  | nil => simp
  | cons w l ih =>
    rw [List.foldr_cons]
    rcases min_choice w (l.foldr min a) with h | h <;> rw [h]
    · simp
    · rcases ih with ih | ih
      · exact Or.inl ih
      · exact Or.inr (List.mem_cons_of_mem _ ih)

theorem foldr_max_mem (l : List ℝ) (a : ℝ) : l.foldr max a = a ∨ l.foldr max a ∈ l := by
  induction l with
  | nil => simp
  | cons w l ih =>
    rw [List.foldr_cons]
    rcases max_choice w (l.foldr max a) with h | h <;> rw [h]
    · simp
    · rcases ih with ih | ih
      · exact Or.inl ih
      · exact Or.inr (List.mem_cons_of_mem _ ih)

theorem ymin_le {k : ℕ} (hk : k < p.nv) : p.ymin ≤ p.y k :=
  (foldr_min_le _ _).2 _ (List.mem_map.mpr ⟨k, List.mem_range.mpr hk, rfl⟩)
theorem le_ymax {k : ℕ} (hk : k < p.nv) : p.y k ≤ p.ymax :=
  (foldr_max_ge _ _).2 _ (List.mem_map.mpr ⟨k, List.mem_range.mpr hk, rfl⟩)
theorem ymin_mem (h : 0 < p.nv) : ∃ k < p.nv, p.y k = p.ymin := by
  rcases foldr_min_mem ((List.range p.nv).map p.y) (p.y 0) with h' | h'
  · exact ⟨0, h, h'.symm⟩
  · obtain ⟨k, hk, e⟩ := List.mem_map.mp h'
    exact ⟨k, List.mem_range.mp hk, e⟩
theorem ymax_mem (h : 0 < p.nv) : ∃ k < p.nv, p.y k = p.ymax := by
  rcases foldr_max_mem ((List.range p.nv).map p.y) (p.y 0) with h' | h'
  · exact ⟨0, h, h'.symm⟩
  · obtain ⟨k, hk, e⟩ := List.mem_map.mp h'
    exact ⟨k, List.mem_range.mp hk, e⟩

theorem lowest_spec (h : 0 < p.nv) : p.lowest < p.nv ∧ p.y p.lowest = p.ymin ∧ ∀ l < p.nv, p.y l = p.ymin → p.x p.lowest ≤ p.x l := by
  classical
  obtain ⟨k, hk, hky⟩ := ymin_mem p h
  obtain ⟨m, hm, hmin⟩ := Finset.exists_min_image ((Finset.range p.nv).filter fun k => p.y k = p.ymin) p.x ⟨k, by simp [hk, hky]⟩
  rw [Finset.mem_filter, Finset.mem_range] at hm
  unfold Poly.lowest
  cases hf : (List.range p.nv).find? fun k => decide (p.y k = p.ymin ∧ ∀ l < p.nv, p.y l = p.ymin → p.x k ≤ p.x l) with
  | none =>
    have := List.find?_eq_none.mp hf m (List.mem_range.mpr hm.1)
    exfalso; apply this
    rw [decide_eq_true_iff]
    exact ⟨hm.2, fun l hl hl' => hmin l (by simp [hl, hl'])⟩
  | some v =>
    have h1 := List.find?_some hf
    have h2 := List.mem_range.mp (List.mem_of_find?_eq_some hf)
    rw [decide_eq_true_iff] at h1
    exact ⟨h2, h1⟩

variable (hc : Clockwise p.nv p.x p.y)
include hc

theorem side_le {k m : ℕ} (hk : k < p.nv) (hm : m < p.nv) : side p.nv p.x p.y k m ≤ 0 := by
  by_cases h1 : m = k
  · subst h1; simp [side]
  · by_cases h2 : m = (k + 1) % p.nv
    · rw [h2]; unfold side; apply le_of_eq; ring
    · exact (hc.2 k hk m hm h1 h2).le

/-- The identity behind the cone at a vertex. -/
theorem cone {v m : ℕ} (hv : v < p.nv) (hm : m < p.nv) :
    ∃ D c1 c2 : ℝ, D < 0 ∧ c1 ≤ 0 ∧ c2 ≤ 0 ∧ D * (p.y m - p.y v) = -c2 * (p.y v - p.y (p.prev v)) + c1 * (p.y (p.next v) - p.y v) := by
  have h3 := hc.1
  have hu := prev_lt p hv
  have hw := next_lt p hv
  have e1 : (p.prev v + 1) % p.nv = v := by rw [← next_eq p hu, next_prev p hv]
  have e2 : (v + 1) % p.nv = p.next v := (next_eq p hv).symm
  refine ⟨side p.nv p.x p.y (p.prev v) (p.next v), side p.nv p.x p.y (p.prev v) m, side p.nv p.x p.y v m, ?_, side_le p hc hu hm, side_le p hc hv hm, ?_⟩
  · apply hc.2 _ hu _ hw
    · intro h
      apply next_next_ne p h3 hu
      rw [next_prev p hv]; exact h
    · rw [e1]; exact next_ne p h3 v
  · unfold side
    rw [e1, e2]; ring

theorem local_max {v : ℕ} (hv : v < p.nv) (h1 : p.y (p.next v) ≤ p.y v) (h2 : p.y (p.prev v) ≤ p.y v) : p.y v = p.ymax := by
  refine le_antisymm (le_ymax p hv) ?_
  obtain ⟨m, hm, e⟩ := ymax_mem p (by have := hc.1; omega)
  rw [← e]
  obtain ⟨D, c1, c2, hD, hc1, hc2, e⟩ := cone p hc hv hm
  by_contra hlt
  push Not at hlt
  nlinarith [mul_nonneg_of_nonpos_of_nonpos hc1 (by linarith : p.y (p.next v) - p.y v ≤ 0), mul_nonneg (neg_nonneg.mpr hc2) (by linarith : 0 ≤ p.y v - p.y (p.prev v))]

/-- The other corners are above a horizontal edge at the bottom. -/
theorem above_bottom {k m : ℕ} (hk : k < p.nv) (hm : m < p.nv) (h1 : p.y k = p.ymin) (h2 : p.y (p.next k) = p.ymin) (hmk : m ≠ k) (hmn : m ≠ p.next k) : p.ymin < p.y m := by
  refine lt_of_le_of_ne (ymin_le p hm) ?_
  intro h
  have := hc.2 k hk m hm hmk (by rw [← next_eq p hk]; exact hmn)
  unfold side at this
  rw [← next_eq p hk, h1, h2, ← h] at this
  simp at this

theorem first_left : p.ymin < p.y (p.next p.lowest) := by
  have h3 := hc.1
  obtain ⟨hL, hy, hx⟩ := lowest_spec p (by omega)
  refine lt_of_le_of_ne (ymin_le p (next_lt p hL)) ?_
  intro h
  have hxx := hx _ (next_lt p hL) h.symm
  have hm := next_lt p (next_lt p hL)
  have := hc.2 _ hL (p.next (p.next p.lowest)) hm (next_next_ne p h3 hL) (by rw [← next_eq p hL]; exact next_ne p h3 _)
  have hab := above_bottom p hc hL hm hy h.symm (next_next_ne p h3 hL) (next_ne p h3 _)
  unfold side at this
  rw [← next_eq p hL, hy, ← h] at this
  nlinarith

end geometry

/-! ## The two sides -/

/-- One side of the polygon, from the lowest corner upwards: `σ` goes to the next corner, the top is reached after `a` edges; the first `i0` edges lie in the bottom. -/
structure Chain (p : Poly) (σ : ℕ → ℕ) (i0 a : ℕ) : Prop where
  mem : ∀ i, σ^[i] p.lowest < p.nv
  i0_le : i0 ≤ 1
  i0_lt : i0 < a
  low : ∀ i ≤ i0, p.y (σ^[i] p.lowest) = p.ymin
  rise : ∀ i, i0 ≤ i → i < a → p.y (σ^[i] p.lowest) < p.y (σ^[i + 1] p.lowest)
  top : p.y (σ^[a] p.lowest) = p.ymax

theorem Chain.exists (p : Poly) (σ τ : ℕ → ℕ) (i0 : ℕ) (hL : p.lowest < p.nv) (hσ : ∀ k < p.nv, σ k < p.nv) (hτ : ∀ k < p.nv, τ (σ k) = k)
    (hloc : ∀ v < p.nv, p.y (σ v) ≤ p.y v → p.y (τ v) ≤ p.y v → p.y v = p.ymax) (h01 : i0 ≤ 1)
    (hlow : ∀ i ≤ i0, p.y (σ^[i] p.lowest) = p.ymin) (hfirst : p.y (σ^[i0] p.lowest) < p.y (σ^[i0 + 1] p.lowest)) : ∃ a, Chain p σ i0 a := by
  classical
  have hmem : ∀ i, σ^[i] p.lowest < p.nv := by
    intro i
    induction i with
    | zero => exact hL
    | succ i ih => rw [Function.iterate_succ_apply']; exact hσ _ ih
  have hex : ∃ j, p.y (σ^[i0 + j + 1] p.lowest) ≤ p.y (σ^[i0 + j] p.lowest) := by
    by_contra h
    push Not at h
    have hmono : StrictMono fun j => p.y (σ^[i0 + j] p.lowest) := strictMono_nat_of_lt_succ fun j => h j
    have hinj : Function.Injective fun j : ℕ => (⟨σ^[i0 + j] p.lowest, hmem _⟩ : Fin p.nv) := by
      intro i j hij
      apply hmono.injective
      have := congrArg Fin.val hij
      simp only at this ⊢
      rw [this]
    exact not_injective_infinite_finite _ hinj
  have hpos : Nat.find hex ≠ 0 := by
    intro h0
    have := Nat.find_spec hex
    rw [h0, add_zero] at this
    linarith
  refine ⟨i0 + Nat.find hex, hmem, h01, by omega, hlow, fun i hi hia => ?_, ?_⟩
  · have := Nat.find_min hex (m := i - i0) (by omega)
    rw [show i0 + (i - i0) = i by omega] at this
    exact not_le.mp this
  · obtain ⟨m, hm⟩ := Nat.exists_eq_succ_of_ne_zero hpos
    have h1 := Nat.find_spec hex
    have h2 := Nat.find_min hex (m := m) (by omega)
    rw [hm, show i0 + m.succ = i0 + m + 1 by omega] at *
    apply hloc _ (hmem _)
    · rw [← Function.iterate_succ_apply' σ]; exact h1
    · rw [Function.iterate_succ_apply', hτ _ (hmem _), ← Function.iterate_succ_apply' σ]
      push Not at h2
      exact h2.le

theorem left_chain (p : Poly) (hc : Clockwise p.nv p.x p.y) : ∃ a, Chain p p.next 0 a := by
  have h3 := hc.1
  obtain ⟨hL, hy, -⟩ := lowest_spec p (by omega)
  refine Chain.exists p p.next p.prev 0 hL (fun k hk => next_lt p hk) (fun k hk => prev_next p hk) (fun v hv h1 h2 => local_max p hc hv h1 h2) (by omega) ?_ ?_
  · intro i hi
    rw [Nat.le_zero.mp hi]; exact hy
  · show p.y p.lowest < p.y (p.next p.lowest)
    rw [hy]; exact first_left p hc

theorem right_chain (p : Poly) (hc : Clockwise p.nv p.x p.y) : ∃ i0 b, Chain p p.prev i0 b := by
  have h3 := hc.1
  obtain ⟨hL, hy, -⟩ := lowest_spec p (by omega)
  have hP := prev_lt p hL
  rcases (ymin_le p hP).lt_or_eq with h | h
  · refine ⟨0, Chain.exists p p.prev p.next 0 hL (fun k hk => prev_lt p hk) (fun k hk => next_prev p hk) (fun v hv h1 h2 => local_max p hc hv h2 h1) (by omega) ?_ ?_⟩
    · intro i hi
      rw [Nat.le_zero.mp hi]; exact hy
    · show p.y p.lowest < p.y (p.prev p.lowest)
      rw [hy]; exact h
  · refine ⟨1, Chain.exists p p.prev p.next 1 hL (fun k hk => prev_lt p hk) (fun k hk => next_prev p hk) (fun v hv h1 h2 => local_max p hc hv h2 h1) le_rfl ?_ ?_⟩
    · intro i hi
      interval_cases i
      · exact hy
      · exact h.symm
    · show p.y (p.prev p.lowest) < p.y (p.prev (p.prev p.lowest))
      rw [← h]
      refine above_bottom p hc hP (prev_lt p hP) h.symm ?_ (prev_ne p h3 _) ?_
      · rw [next_prev p hL]; exact hy
      · rw [next_prev p hL]; exact prev_prev_ne p h3 hL

/-- The position `i` on a side is right for the height `y`. -/
def Chain.At (p : Poly) (σ : ℕ → ℕ) (i0 a i : ℕ) (y : ℝ) : Prop :=
  i0 ≤ i ∧ i ≤ a ∧ p.y (σ^[i] p.lowest) ≤ y ∧ (i < a → y ≤ p.y (σ^[i + 1] p.lowest))

theorem startAt_iff (p : Poly) (h : 0 < p.nv) (k : ℕ) (hk : StartAt p.nv p.y p.x k) : p.y k = p.ymin ∧ ∀ l < p.nv, p.y l = p.ymin → p.x k ≤ p.x l := by
  obtain ⟨m, hm, e⟩ := ymin_mem p h
  have : p.y k = p.ymin := le_antisymm (e ▸ (hk.2 m hm).1) (ymin_le p hk.1)
  exact ⟨this, fun l hl hl' => (hk.2 l hl).2 (by rw [hl', this])⟩

theorem startAt_lowest (p : Poly) (h : 0 < p.nv) : StartAt p.nv p.y p.x p.lowest := by
  obtain ⟨hL, hy, hx⟩ := lowest_spec p h
  exact ⟨hL, fun m hm => ⟨by rw [hy]; exact ymin_le p hm, fun e => hx m hm (by rw [e, hy])⟩⟩

/-- Only the lowest corner is the start. -/
theorem startAt_unique (p : Poly) (hc : Clockwise p.nv p.x p.y) (k : ℕ) (hk : StartAt p.nv p.y p.x k) : k = p.lowest := by
  have h3 := hc.1
  obtain ⟨hL, hy, hx⟩ := lowest_spec p (by omega)
  obtain ⟨ky, kx⟩ := startAt_iff p (by omega) k hk
  by_contra hne
  have hxx : p.x k = p.x p.lowest := le_antisymm (kx _ hL hy) (hx _ hk.1 ky)
  -- an edge has its two ends in different places
  have hne1 : k ≠ p.next p.lowest := by
    intro h
    have := first_left p hc
    rw [← h, ky] at this
    exact lt_irrefl _ this
  have := hc.2 _ hL k hk.1 hne (by rw [← next_eq p hL]; exact hne1)
  unfold side at this
  rw [ky, hy, hxx] at this
  simp at this

section walk
variable {p : Poly} (hc : Clockwise p.nv p.x p.y) {σ : ℕ → ℕ} {i0 a : ℕ} (C : Chain p σ i0 a)
  (hadj : ∀ k < p.nv, σ k = (k + 1) % p.nv ∨ k = (σ k + 1) % p.nv)
include hc C hadj

theorem Chain.above {i : ℕ} (h1 : i0 < i) (h2 : i ≤ a) : p.ymin < p.y (σ^[i] p.lowest) := by
  induction i with
  | zero => omega
  | succ i ih =>
    have hr := C.rise i (by omega) (by omega)
    by_cases h : i0 < i
    · exact lt_trans (ih h (by omega)) hr
    · have : i = i0 := by omega
      subst this
      rwa [C.low i le_rfl] at hr

theorem Chain.not_start {i : ℕ} (h1 : 1 ≤ i) (h2 : i < a) : ¬ StartAt p.nv p.y p.x (σ^[i] p.lowest) := by
  intro hs
  have h3 := hc.1
  have e := startAt_unique p hc _ hs
  obtain ⟨hy, -⟩ := startAt_iff p (by omega) _ hs
  by_cases h : i0 < i
  · exact absurd hy (Chain.above hc C hadj h h2.le).ne'
  · have hi : i = 1 := by have := C.i0_le; omega
    subst hi
    have hr := C.rise 1 C.i0_le h2
    have hsl : σ p.lowest = p.lowest := e
    rw [Function.iterate_succ_apply' σ 1, e, hsl] at hr
    exact lt_irrefl _ hr

theorem Chain.lt_top {i : ℕ} (h1 : i < a) : p.y (σ^[i] p.lowest) < p.ymax := by
  have key : ∀ d i, i0 ≤ i → i + d + 1 = a → p.y (σ^[i] p.lowest) < p.ymax := by
    intro d
    induction d with
    | zero =>
      intro i hi ha
      rw [← C.top]
      have := C.rise i hi (by omega)
      rwa [show i + 1 = a by omega] at this
    | succ d ih =>
      intro i hi ha
      exact lt_trans (C.rise i hi (by omega)) (ih (i + 1) (by omega) (by omega))
  by_cases h : i0 ≤ i
  · exact key (a - i - 1) i h (by omega)
  · rw [C.low i (by omega), ← C.low i0 le_rfl]
    exact key (a - i0 - 1) i0 le_rfl (by have := C.i0_lt; omega)

/-- Gap between corners within a side. -/
theorem Chain.gap {mag : ℕ} (hs : Slow p.nv p.x p.y mag) {i : ℕ} (h1 : 1 ≤ i) (h2 : i + 1 < a) : p.y (σ^[i] p.lowest) + 1 / mag ≤ p.y (σ^[i + 1] p.lowest) := by
  have h3 := hc.1
  obtain ⟨t, ht, e⟩ := ymax_mem p (by omega)
  refine hs _ (C.mem i) _ (C.mem (i + 1)) ?_ (C.rise i (by have := C.i0_le; omega) (by omega)) (Chain.not_start hc C hadj h1 (by omega)) ⟨t, ht, ?_⟩
  · rw [Function.iterate_succ_apply']
    exact hadj _ (C.mem i)
  · rw [e]; exact Chain.lt_top hc C hadj h2

open Classical in
theorem Chain.step {mag : ℕ} (hs : Slow p.nv p.x p.y mag) {i : ℕ} {y y' : ℝ} (h : Chain.At p σ i0 a i y) (hy : y < y') (hy1 : y' ≤ y + 1 / mag) (htop : y' ≤ p.ymax) :
    Chain.At p σ i0 a (if y' ≥ p.y (σ^[i + 1] p.lowest) then i + 1 else i) y' := by
  obtain ⟨ha0, ha1, ha2, ha3⟩ := h
  have hia : i < a := by
    rcases ha1.lt_or_eq with h | h
    · exact h
    · rw [h, C.top] at ha2; linarith
  split_ifs with hge
  · refine ⟨by omega, by omega, hge, fun hlt => ?_⟩
    by_cases h2 : i + 1 + 1 = a
    · rw [h2, C.top]; exact htop
    · have := Chain.gap hc C hadj hs (i := i + 1) (by omega) (by omega)
      have := ha3 hia
      linarith
  · push Not at hge
    exact ⟨ha0, ha1, by linarith, fun _ => hge.le⟩

open Classical in
theorem Chain.first {mag : ℕ} (hs : Slow p.nv p.x p.y mag) {y : ℝ} (h0 : p.ymin ≤ y) (htop : y ≤ p.ymax)
    (hf : y < p.ymin + 1 / mag ∨ (2 < a → y ≤ p.y (σ^[2] p.lowest))) :
    Chain.At p σ i0 a (if y ≥ p.y (σ^[0 + 1] p.lowest) then 0 + 1 else 0) y := by
  have hi := C.i0_le
  have hia := C.i0_lt
  split_ifs with hge
  · refine ⟨by omega, by omega, hge, fun hlt => ?_⟩
    by_cases h2 : 0 + 1 + 1 = a
    · rw [h2, C.top]; exact htop
    · rcases hf with hf | hf
      · have := Chain.gap hc C hadj hs (i := 1) (by omega) (by omega)
        have h1 := ymin_le p (C.mem 1)
        have : p.y (σ^[0 + 1 + 1] p.lowest) = p.y (σ^[1 + 1] p.lowest) := rfl
        linarith
      · exact hf (by omega)
  · push Not at hge
    refine ⟨?_, by omega, ?_, fun _ => hge.le⟩
    · by_contra hcon
      have : i0 = 1 := by omega
      have := C.low 1 (by omega)
      rw [show 0 + 1 = 1 from rfl, this] at hge
      linarith
    · rw [C.low 0 (by omega)]; exact h0

theorem Chain.begins {mag : ℕ} (hb : Begins p.nv p.x p.y mag) (hσ3 : ∀ k < p.nv, ∀ l < p.nv, (l = (k + 1) % p.nv ∨ k = (l + 1) % p.nv) → l = σ k ∨ k = σ l)
    (hneg : p.ymin < -1 / 2) (h2 : 2 < a) : -1 / 2 + 1 / (2 * mag) ≤ p.y (σ^[2] p.lowest) := by
  have h3 := hc.1
  obtain ⟨m0, hm0, e0⟩ := ymin_mem p (by omega)
  obtain ⟨t, ht, et⟩ := ymax_mem p (by omega)
  rcases hb with hb | hb
  · have := hb m0 hm0; linarith
  · refine hb _ (C.mem 2) (Chain.not_start hc C hadj (by omega) h2) ?_ ⟨t, ht, ?_⟩
    · intro l hl hadj' hsl
      have el := startAt_unique p hc l hsl
      subst el
      have hab := Chain.above hc C hadj (i := 2) (by have := C.i0_le; omega) h2.le
      have hr2 := C.rise 2 (by have := C.i0_le; omega) h2
      rcases hσ3 _ (C.mem 2) _ hl hadj' with h | h
      · -- the corner after the second is the start again
        rw [Function.iterate_succ_apply' σ 2, ← h, C.low 0 (by omega) |> fun e : p.y p.lowest = p.ymin => e] at hr2
        linarith
      · have h1 := C.rise 1 C.i0_le (by omega)
        have e : σ^[2] p.lowest = σ^[1] p.lowest := h
        rw [show (1 + 1 : ℕ) = 2 from rfl, e] at h1
        exact lt_irrefl _ h1
    · rw [et]; exact Chain.lt_top hc C hadj h2

end walk

/-! ## Sections of the polygon -/

section sections
variable {p : Poly} (hc : Clockwise p.nv p.x p.y)

theorem hull_vertex {k : ℕ} (hk : k < p.nv) : (p.x k, p.y k) ∈ hull p.nv p.x p.y := subset_convexHull ℝ _ ⟨k, hk, rfl⟩

theorem hull_heights {x y : ℝ} (h : (x, y) ∈ hull p.nv p.x p.y) : p.ymin ≤ y ∧ y ≤ p.ymax := by
  have hcon : Convex ℝ {q : ℝ × ℝ | p.ymin ≤ q.2 ∧ q.2 ≤ p.ymax} := by
    intro q hq r hr s t hs ht hst
    obtain ⟨q1, q2⟩ := hq
    obtain ⟨r1, r2⟩ := hr
    show p.ymin ≤ s * q.2 + t * r.2 ∧ s * q.2 + t * r.2 ≤ p.ymax
    have e : t = 1 - s := by linarith
    subst e
    constructor <;> nlinarith
  have hsub : {v : ℝ × ℝ | ∃ k < p.nv, v = (p.x k, p.y k)} ⊆ {q : ℝ × ℝ | p.ymin ≤ q.2 ∧ q.2 ≤ p.ymax} := by
    rintro v ⟨k, hk, rfl⟩
    exact ⟨ymin_le p hk, le_ymax p hk⟩
  exact convexHull_min hsub hcon h

include hc in
theorem hull_side {x y : ℝ} (h : (x, y) ∈ hull p.nv p.x p.y) {k : ℕ} (hk : k < p.nv) :
    (p.x (p.next k) - p.x k) * (y - p.y k) - (p.y (p.next k) - p.y k) * (x - p.x k) ≤ 0 := by
  have hcon : Convex ℝ {q : ℝ × ℝ | (p.x (p.next k) - p.x k) * (q.2 - p.y k) - (p.y (p.next k) - p.y k) * (q.1 - p.x k) ≤ 0} := by
    intro q hq r hr s t hs ht hst
    rw [Set.mem_ofPred_eq] at hq hr ⊢
    show (p.x (p.next k) - p.x k) * (s * q.2 + t * r.2 - p.y k) - (p.y (p.next k) - p.y k) * (s * q.1 + t * r.1 - p.x k) ≤ 0
    have e : t = 1 - s := by linarith
    subst e
    nlinarith [mul_nonpos_of_nonneg_of_nonpos hs hq, mul_nonpos_of_nonneg_of_nonpos ht hr]
  have hsub : {v : ℝ × ℝ | ∃ k < p.nv, v = (p.x k, p.y k)} ⊆
      {q : ℝ × ℝ | (p.x (p.next k) - p.x k) * (q.2 - p.y k) - (p.y (p.next k) - p.y k) * (q.1 - p.x k) ≤ 0} := by
    rintro v ⟨m, hm, rfl⟩
    have := side_le p hc hk hm
    unfold side at this
    rw [← next_eq p hk] at this
    exact this
  exact convexHull_min hsub hcon h

theorem hull_edge {k l : ℕ} (hk : k < p.nv) (hl : l < p.nv) {y : ℝ} (h1 : p.y k ≤ y) (h2 : y ≤ p.y l) (h : p.y k < p.y l) : (p.edgeX k l y, y) ∈ hull p.nv p.x p.y := by
  have hd : 0 < p.y l - p.y k := by linarith
  have hcv : Convex ℝ (hull p.nv p.x p.y) := convex_convexHull ℝ _
  have h0 : 0 ≤ (y - p.y k) / (p.y l - p.y k) := div_nonneg (by linarith) hd.le
  have h1' : (y - p.y k) / (p.y l - p.y k) ≤ 1 := by rw [div_le_one hd]; linarith
  have := hcv (hull_vertex hk) (hull_vertex hl) (by linarith : 0 ≤ 1 - (y - p.y k) / (p.y l - p.y k)) h0 (by ring)
  convert this using 1
  unfold Poly.edgeX
  dsimp only
  rw [if_pos hd.ne']
  ext
  · show _ = (1 - (y - p.y k) / (p.y l - p.y k)) * p.x k + (y - p.y k) / (p.y l - p.y k) * p.x l
    field_simp; ring
  · show _ = (1 - (y - p.y k) / (p.y l - p.y k)) * p.y k + (y - p.y k) / (p.y l - p.y k) * p.y l
    field_simp; ring

theorem edgeX_self (k l : ℕ) : p.edgeX k l (p.y k) = p.x k := by
  unfold Poly.edgeX
  dsimp only
  split_ifs <;> simp

include hc in
theorem left_section {a i : ℕ} (C : Chain p p.next 0 a) {y : ℝ} (hy : y ≤ p.ymax) (h : Chain.At p p.next 0 a i y) :
    (p.edgeX (p.next^[i] p.lowest) (p.next (p.next^[i] p.lowest)) y, y) ∈ hull p.nv p.x p.y ∧
    ∀ x, (x, y) ∈ hull p.nv p.x p.y → p.edgeX (p.next^[i] p.lowest) (p.next (p.next^[i] p.lowest)) y ≤ x := by
  obtain ⟨-, h1, h2, h3⟩ := h
  rcases h1.lt_or_eq with hlt | heq
  · have hr := C.rise i (by omega) hlt
    have h3' := h3 hlt
    rw [Function.iterate_succ_apply'] at hr h3'
    refine ⟨hull_edge (C.mem i) (next_lt p (C.mem i)) h2 h3' hr, fun x hx => ?_⟩
    have hs := hull_side hc hx (C.mem i)
    have hd : 0 < p.y (p.next (p.next^[i] p.lowest)) - p.y (p.next^[i] p.lowest) := by linarith
    unfold Poly.edgeX
    dsimp only
    rw [if_pos hd.ne']
    generalize p.next^[i] p.lowest = k at *
    rw [div_mul_eq_mul_div, ← le_sub_iff_add_le, div_le_iff₀ hd]
    linarith
  · subst heq
    have hyy : y = p.y (p.next^[i] p.lowest) := le_antisymm (by rw [C.top]; exact hy) h2
    rw [hyy, edgeX_self]
    refine ⟨hull_vertex (C.mem i), fun x hx => ?_⟩
    obtain ⟨m, rfl⟩ : ∃ m, i = m + 1 := ⟨i - 1, by have := C.i0_lt; omega⟩
    have hs := hull_side hc hx (C.mem m)
    have hr := C.rise m (by omega) (by omega)
    rw [Function.iterate_succ_apply'] at hr hs ⊢
    nlinarith

include hc in
theorem right_section {i0 b i : ℕ} (C : Chain p p.prev i0 b) {y : ℝ} (hy : y ≤ p.ymax) (h : Chain.At p p.prev i0 b i y) :
    (p.edgeX (p.prev^[i] p.lowest) (p.prev (p.prev^[i] p.lowest)) y, y) ∈ hull p.nv p.x p.y ∧
    ∀ x, (x, y) ∈ hull p.nv p.x p.y → x ≤ p.edgeX (p.prev^[i] p.lowest) (p.prev (p.prev^[i] p.lowest)) y := by
  obtain ⟨h0, h1, h2, h3⟩ := h
  rcases h1.lt_or_eq with hlt | heq
  · have hr := C.rise i h0 hlt
    have h3' := h3 hlt
    rw [Function.iterate_succ_apply'] at hr h3'
    refine ⟨hull_edge (C.mem i) (prev_lt p (C.mem i)) h2 h3' hr, fun x hx => ?_⟩
    have hs := hull_side hc hx (prev_lt p (C.mem i))
    rw [next_prev p (C.mem i)] at hs
    have hd : 0 < p.y (p.prev (p.prev^[i] p.lowest)) - p.y (p.prev^[i] p.lowest) := by linarith
    unfold Poly.edgeX
    dsimp only
    rw [if_pos hd.ne']
    generalize p.prev^[i] p.lowest = k at *
    rw [div_mul_eq_mul_div, ← sub_le_iff_le_add, le_div_iff₀ hd]
    linarith
  · subst heq
    have hyy : y = p.y (p.prev^[i] p.lowest) := le_antisymm (by rw [C.top]; exact hy) h2
    rw [hyy, edgeX_self]
    refine ⟨hull_vertex (C.mem i), fun x hx => ?_⟩
    obtain ⟨m, rfl⟩ : ∃ m, i = m + 1 := ⟨i - 1, by have := C.i0_lt; omega⟩
    have hs := hull_side hc hx (C.mem (m + 1))
    have hr := C.rise m (by have := C.i0_lt; omega) (by omega)
    rw [Function.iterate_succ_apply', next_prev p (C.mem m)] at hs
    rw [Function.iterate_succ_apply'] at hr hx ⊢
    nlinarith

end sections

/-! ## The scan -/

theorem rows_eq (mag : ℕ) (hm : 0 < mag) (lo hi : ℤ) :
    rows mag lo hi = (List.range ((hi - lo).toNat * mag)).map fun t => (lo + ((t / mag : ℕ) : ℤ), t % mag) := by
  unfold rows
  generalize (hi - lo).toNat = K
  induction K with
  | zero => simp
  | succ K ih =>
    rw [List.range_succ, List.flatMap_append, ih, Nat.succ_mul, List.range_add, List.map_append, List.map_map]
    congr 1
    simp only [List.flatMap_cons, List.flatMap_nil, List.append_nil]
    apply List.map_congr_left
    intro s hs
    have hs' := List.mem_range.mp hs
    simp only [Function.comp_apply]
    rw [Nat.mul_comm K mag, Nat.mul_add_div hm, Nat.mul_add_mod, Nat.div_eq_of_lt hs', Nat.mod_eq_of_lt hs', add_zero]

theorem rowY_at (mag : ℕ) (hm : 0 < mag) (lo : ℤ) (t : ℕ) : rowY mag (lo + ((t / mag : ℕ) : ℤ), t % mag) = lo - 1 / 2 + (1 / 2 + t) / mag := by
  unfold rowY
  have hm' : (mag : ℝ) ≠ 0 := by positivity
  have h : (t : ℝ) = mag * ((t / mag : ℕ) : ℝ) + ((t % mag : ℕ) : ℝ) := by exact_mod_cast (Nat.div_add_mod t mag).symm
  rw [h]
  generalize t / mag = u at *
  generalize t % mag = w at *
  push_cast
  field_simp
  ring

open Classical in
/-- What the sub-row at height `y` adds to column `j`: the length of the section of the figure within the column; but the last column receives nothing from a section that begins
to its left and leaves the array (a defect of the code, see `C115_last_column_violated`). -/
noncomputable def seen (n : ℕ) (S : Set (ℝ × ℝ)) (y : ℝ) (j : ℤ) : ℝ :=
  if j + 1 = n ∧ (∃ x, (x, y) ∈ S ∧ (n : ℤ) ≤ Dm.npRound x) ∧ ∃ x, (x, y) ∈ S ∧ Dm.npRound x < j then 0 else sectionLength S y j

theorem seen_eq (n : ℕ) (S : Set (ℝ × ℝ)) (y xl xr : ℝ) (j : ℤ) (h : ∀ x, (x, y) ∈ S ↔ xl ≤ x ∧ x ≤ xr) (hlr : xl ≤ xr) : seen n S y j = added n xl xr j := by
  unfold seen added
  rw [sectionLength_Icc S y xl xr j h]
  have h1 : (∃ x, (x, y) ∈ S ∧ (n : ℤ) ≤ Dm.npRound x) ↔ (n : ℤ) ≤ Dm.npRound xr := by
    constructor
    · rintro ⟨x, hx, hn⟩; exact le_trans hn (npRound_mono ((h x).mp hx).2)
    · intro hn; exact ⟨xr, (h xr).mpr ⟨hlr, le_rfl⟩, hn⟩
  have h2 : (∃ x, (x, y) ∈ S ∧ Dm.npRound x < j) ↔ Dm.npRound xl < j := by
    constructor
    · rintro ⟨x, hx, hn⟩; exact lt_of_le_of_lt (npRound_mono ((h x).mp hx).1) hn
    · intro hn; exact ⟨xl, (h xl).mpr ⟨le_rfl, hlr⟩, hn⟩
  simp only [h1, h2]

theorem seen_empty (n : ℕ) (S : Set (ℝ × ℝ)) (y : ℝ) (j : ℤ) (h : ∀ x, (x, y) ∉ S) : seen n S y j = 0 := by
  unfold seen
  rw [sectionLength_empty S y j h, ite_self]

section draw
variable {p : Poly} (hc : Clockwise p.nv p.x p.y) {mag n : ℕ} (hm : 0 < mag) (hs : Slow p.nv p.x p.y mag) (hb : Begins p.nv p.x p.y mag)
  {hi : ℤ} (hhi : hi ≤ n ∨ p.ymax < n - 1 / 2 + 1 / (2 * mag)) (E : ℝ → ℤ → ℝ) (hE0 : ∀ y j, (∀ x, (x, y) ∉ hull p.nv p.x p.y) → E y j = 0)
  (hE : ∀ y xl xr : ℝ, -1 / 2 ≤ y → y < n - 1 / 2 → xl ≤ xr → (∀ x, (x, y) ∈ hull p.nv p.x p.y ↔ xl ≤ x ∧ x ≤ xr) → ∀ img (yp : ℤ),
    ∃ out, addRow n mag img yp xl xr = .ok out ∧ ∀ i j : ℤ, 0 ≤ j → j < n → out i j = img i j + if i = yp then mag * E y j else 0)

/-- Height of the `t`-th sub-row. -/
noncomputable def subY (mag : ℕ) (lo : ℤ) (t : ℕ) : ℝ := lo - 1 / 2 + (1 / 2 + t) / mag

/-- The corners before the `T`-th sub-row. -/
def Pos (p : Poly) (mag : ℕ) (a i0 b : ℕ) (T : ℕ) (s : Scan) : Prop :=
  (s.left = p.lowest ∧ s.right = p.lowest ∧ ∀ t < T, subY mag p.lo t < p.ymin) ∨
  (∃ T', T = T' + 1 ∧ ∃ i k, s.left = p.next^[i] p.lowest ∧ s.right = p.prev^[k] p.lowest ∧ Chain.At p p.next 0 a i (subY mag p.lo T') ∧ Chain.At p p.prev i0 b k (subY mag p.lo T')) ∨
  ∃ T', T = T' + 1 ∧ p.ymax < subY mag p.lo T'

theorem subY_succ (hm : 0 < mag) (lo : ℤ) (t : ℕ) : subY mag lo (t + 1) = subY mag lo t + 1 / mag := by
  unfold subY
  push_cast
  ring

include hc hm hs in
open Classical in
/-- One step: either the sub-row misses the polygon, or it is drawn between the right ends. -/
theorem scan_cases {a i0 b : ℕ} (C : Chain p p.next 0 a) (C' : Chain p p.prev i0 b) (T : ℕ) (s : Scan) (hpos : Pos p mag a i0 b T s)
    (hb : (∀ t < T, subY mag p.lo t < p.ymin) → Begins p.nv p.x p.y mag) :
    (p.scan n mag s (p.lo + ((T / mag : ℕ) : ℤ), T % mag) = .ok s ∧ Pos p mag a i0 b (T + 1) s ∧ ∀ x, (x, subY mag p.lo T) ∉ hull p.nv p.x p.y) ∨
    (p.ymin ≤ subY mag p.lo T ∧ subY mag p.lo T ≤ p.ymax ∧ ∃ xl xr l r, xl ≤ xr ∧ (∀ x, (x, subY mag p.lo T) ∈ hull p.nv p.x p.y ↔ xl ≤ x ∧ x ≤ xr) ∧
      (∀ img, Pos p mag a i0 b (T + 1) ⟨l, r, img⟩) ∧
      p.scan n mag s (p.lo + ((T / mag : ℕ) : ℤ), T % mag) = if p.lo + ((T / mag : ℕ) : ℤ) ≥ n then .error .indexError
        else (addRow n mag s.img (p.lo + ((T / mag : ℕ) : ℤ)) xl xr).map fun img => ⟨l, r, img⟩) := by
  have h3 := hc.1
  have hm' : (0 : ℝ) < mag := by exact_mod_cast hm
  obtain ⟨hL, hLy, -⟩ := lowest_spec p (by omega)
  have hY : rowY mag (p.lo + ((T / mag : ℕ) : ℤ), T % mag) = subY mag p.lo T := rowY_at mag hm p.lo T
  unfold Poly.scan
  rw [hY]
  dsimp only
  -- a sub-row that misses the polygon
  have hmiss : ¬ (p.ymin ≤ subY mag p.lo T ∧ subY mag p.lo T ≤ p.ymax) → ∀ x, (x, subY mag p.lo T) ∉ hull p.nv p.x p.y := fun h x hx => h (hull_heights hx)
  -- a sub-row that meets it
  have hdraw : ∀ il ir, Chain.At p p.next 0 a il (subY mag p.lo T) → Chain.At p p.prev i0 b ir (subY mag p.lo T) → p.ymin ≤ subY mag p.lo T → subY mag p.lo T ≤ p.ymax →
      p.ymin ≤ subY mag p.lo T ∧ subY mag p.lo T ≤ p.ymax ∧ ∃ xl xr l r, xl ≤ xr ∧ (∀ x, (x, subY mag p.lo T) ∈ hull p.nv p.x p.y ↔ xl ≤ x ∧ x ≤ xr) ∧
      (∀ img, Pos p mag a i0 b (T + 1) ⟨l, r, img⟩) ∧
      (if p.lo + ((T / mag : ℕ) : ℤ) ≥ n then .error .indexError
        else (addRow n mag s.img (p.lo + ((T / mag : ℕ) : ℤ)) (p.edgeX (p.next^[il] p.lowest) (p.next (p.next^[il] p.lowest)) (subY mag p.lo T))
          (p.edgeX (p.prev^[ir] p.lowest) (p.prev (p.prev^[ir] p.lowest)) (subY mag p.lo T))).map fun img => (⟨p.next^[il] p.lowest, p.prev^[ir] p.lowest, img⟩ : Scan)) =
      if p.lo + ((T / mag : ℕ) : ℤ) ≥ n then .error .indexError
        else (addRow n mag s.img (p.lo + ((T / mag : ℕ) : ℤ)) xl xr).map fun img => (⟨l, r, img⟩ : Scan) := by
    intro il ir hl hr hmin hmax
    obtain ⟨ml, bl⟩ := left_section hc C hmax hl
    obtain ⟨mr, br⟩ := right_section hc C' hmax hr
    set xl := p.edgeX (p.next^[il] p.lowest) (p.next (p.next^[il] p.lowest)) (subY mag p.lo T) with hxl
    set xr := p.edgeX (p.prev^[ir] p.lowest) (p.prev (p.prev^[ir] p.lowest)) (subY mag p.lo T) with hxr
    have hlr : xl ≤ xr := bl _ mr
    have hsec : ∀ x, (x, subY mag p.lo T) ∈ hull p.nv p.x p.y ↔ xl ≤ x ∧ x ≤ xr := by
      intro x
      constructor
      · intro h; exact ⟨bl x h, br x h⟩
      · rintro ⟨h1, h2⟩
        have hcv : Convex ℝ (hull p.nv p.x p.y) := convex_convexHull ℝ _
        rcases hlr.lt_or_eq with hlt' | heq
        · have hd : 0 < xr - xl := by linarith
          have := hcv ml mr (show 0 ≤ (xr - x) / (xr - xl) from div_nonneg (by linarith) hd.le) (show 0 ≤ (x - xl) / (xr - xl) from div_nonneg (by linarith) hd.le)
            (by field_simp; ring)
          convert this using 1
          ext
          · show x = (xr - x) / (xr - xl) * xl + (x - xl) / (xr - xl) * xr
            field_simp; ring
          · show subY mag p.lo T = (xr - x) / (xr - xl) * subY mag p.lo T + (x - xl) / (xr - xl) * subY mag p.lo T
            field_simp; ring
        · have : x = xl := by linarith
          rw [this]; exact ml
    exact ⟨hmin, hmax, xl, xr, _, _, hlr, hsec, fun img => Or.inr (Or.inl ⟨T, rfl, il, ir, rfl, rfl, hl, hr⟩), rfl⟩
  rcases hpos with ⟨hl, hr, hbelow⟩ | ⟨T', rfl, il, ir, hl, hr, hil, hir⟩ | ⟨T', rfl, htop⟩
  · rw [hl, hr, hLy]
    by_cases hlow : subY mag p.lo T < p.ymin
    · rw [if_pos hlow]
      refine Or.inl ⟨rfl, Or.inl ⟨hl, hr, fun t ht => ?_⟩, hmiss (fun h => absurd h.1 (not_le.mpr hlow))⟩
      rcases Nat.lt_succ_iff_lt_or_eq.mp ht with h | h
      · exact hbelow t h
      · rw [h]; exact hlow
    · rw [if_neg hlow]
      push Not at hlow
      by_cases htop : subY mag p.lo T > p.ymax
      · rw [if_pos htop]
        exact Or.inl ⟨rfl, Or.inr (Or.inr ⟨T, rfl, htop⟩), hmiss (fun h => absurd h.2 (not_le.mpr htop))⟩
      · rw [if_neg htop]
        push Not at htop
        -- the first sub-row in the polygon
        have hfst : subY mag p.lo T < p.ymin + 1 / mag ∨ (p.ymin < -1 / 2 ∧ subY mag p.lo T = -1 / 2 + 1 / (2 * mag)) := by
          cases T with
          | zero =>
            have hv : subY mag p.lo 0 = p.lo - 1 / 2 + 1 / (2 * mag) := by unfold subY; field_simp; push_cast; ring
            have h2 : (0 : ℝ) < 1 / (2 * mag) := by positivity
            have h22 : (1 : ℝ) / mag = 1 / (2 * mag) + 1 / (2 * mag) := by field_simp; norm_num
            rw [hv]
            by_cases hneg : Dm.npRound p.ymin < 0
            · right
              have : p.lo = 0 := by unfold Poly.lo; rw [if_pos hneg]
              rw [this]
              constructor
              · by_contra h
                push Not at h
                exact absurd (npRound_ge h) (by omega)
              · push_cast; ring
            · left
              have : p.lo = Dm.npRound p.ymin := by unfold Poly.lo; rw [if_neg hneg]
              rw [this]
              have := Dm.npRound_bounds p.ymin
              linarith [this.1, this.2]
          | succ T =>
            left
            have := hbelow T (by omega)
            rw [subY_succ hm]
            linarith
        have ha1 := Chain.first hc C (fun k hk => Or.inl (next_eq p hk)) hs hlow htop (by
          rcases hfst with h | ⟨h1, h2⟩
          · exact Or.inl h
          · right
            intro h
            rw [h2]
            refine Chain.begins hc C (fun k hk => Or.inl (next_eq p hk)) (hb hbelow) ?_ h1 h
            intro k hk l hl' h
            rw [next_eq p hk, next_eq p hl']; exact h)
        have ha2 := Chain.first hc C' (fun k hk => Or.inr (by rw [← next_eq p (prev_lt p hk), next_prev p hk])) hs hlow htop (by
          rcases hfst with h | ⟨h1, h2⟩
          · exact Or.inl h
          · right
            intro h
            rw [h2]
            refine Chain.begins hc C' (fun k hk => Or.inr (by rw [← next_eq p (prev_lt p hk), next_prev p hk])) (hb hbelow) ?_ h1 h
            intro k hk l hl' h
            rw [← next_eq p hk, ← next_eq p hl'] at h
            rcases h with h | h
            · right; rw [h, prev_next p hk]
            · left; rw [h, prev_next p hl'])
        have el : (if subY mag p.lo T ≥ p.y (p.next p.lowest) then p.next p.lowest else p.lowest) =
            p.next^[if subY mag p.lo T ≥ p.y (p.next^[0 + 1] p.lowest) then 0 + 1 else 0] p.lowest := by
          show (if subY mag p.lo T ≥ p.y (p.next p.lowest) then p.next p.lowest else p.lowest) =
            p.next^[if subY mag p.lo T ≥ p.y (p.next p.lowest) then 0 + 1 else 0] p.lowest
          split_ifs <;> rfl
        have er : (if subY mag p.lo T ≥ p.y (p.prev p.lowest) then p.prev p.lowest else p.lowest) =
            p.prev^[if subY mag p.lo T ≥ p.y (p.prev^[0 + 1] p.lowest) then 0 + 1 else 0] p.lowest := by
          show (if subY mag p.lo T ≥ p.y (p.prev p.lowest) then p.prev p.lowest else p.lowest) =
            p.prev^[if subY mag p.lo T ≥ p.y (p.prev p.lowest) then 0 + 1 else 0] p.lowest
          split_ifs <;> rfl
        rw [el, er]
        exact Or.inr (hdraw _ _ ha1 ha2 hlow htop)
  · have hyT := subY_succ hm p.lo T'
    have hpos1 : (0 : ℝ) < 1 / mag := by positivity
    have hlt : subY mag p.lo T' < subY mag p.lo (T' + 1) := by linarith
    rw [hl, hr, if_neg (by have := hil.2.2.1; linarith)]
    have hmn : p.ymin ≤ subY mag p.lo (T' + 1) := by
      have h1 := ymin_le p (C.mem il)
      have := hil.2.2.1
      linarith
    by_cases htop : subY mag p.lo (T' + 1) > p.ymax
    · rw [if_pos htop]
      exact Or.inl ⟨rfl, Or.inr (Or.inr ⟨T' + 1, rfl, htop⟩), hmiss (fun h => absurd h.2 (not_le.mpr htop))⟩
    · rw [if_neg htop]
      push Not at htop
      have ha1 := Chain.step hc C (fun k hk => Or.inl (next_eq p hk)) hs hil hlt hyT.le htop
      have ha2 := Chain.step hc C' (fun k hk => Or.inr (by rw [← next_eq p (prev_lt p hk), next_prev p hk])) hs hir hlt hyT.le htop
      have el : (if subY mag p.lo (T' + 1) ≥ p.y (p.next (p.next^[il] p.lowest)) then p.next (p.next^[il] p.lowest) else p.next^[il] p.lowest) =
          p.next^[if subY mag p.lo (T' + 1) ≥ p.y (p.next^[il + 1] p.lowest) then il + 1 else il] p.lowest := by
        rw [← Function.iterate_succ_apply' p.next]
        split_ifs <;> rfl
      have er : (if subY mag p.lo (T' + 1) ≥ p.y (p.prev (p.prev^[ir] p.lowest)) then p.prev (p.prev^[ir] p.lowest) else p.prev^[ir] p.lowest) =
          p.prev^[if subY mag p.lo (T' + 1) ≥ p.y (p.prev^[ir + 1] p.lowest) then ir + 1 else ir] p.lowest := by
        rw [← Function.iterate_succ_apply' p.prev]
        split_ifs <;> rfl
      rw [el, er]
      exact Or.inr (hdraw _ _ ha1 ha2 hmn htop)
  · have hyT := subY_succ hm p.lo T'
    have hpos1 : (0 : ℝ) < 1 / mag := by positivity
    have htop' : subY mag p.lo (T' + 1) > p.ymax := by linarith
    rw [if_pos htop', ite_self]
    exact Or.inl ⟨rfl, Or.inr (Or.inr ⟨T' + 1, rfl, htop'⟩), hmiss (fun h => absurd h.2 (not_le.mpr htop'))⟩

include hc hm hs hE0 hE in
open Classical in
theorem scan_step {a i0 b : ℕ} (C : Chain p p.next 0 a) (C' : Chain p p.prev i0 b) (T : ℕ) (s : Scan) (hpos : Pos p mag a i0 b T s)
    (hb : (∀ t < T, subY mag p.lo t < p.ymin) → Begins p.nv p.x p.y mag)
    (hrow : p.ymin ≤ subY mag p.lo T → subY mag p.lo T ≤ p.ymax → p.lo + ((T / mag : ℕ) : ℤ) < n) :
    ∃ s', p.scan n mag s (p.lo + ((T / mag : ℕ) : ℤ), T % mag) = .ok s' ∧ Pos p mag a i0 b (T + 1) s' ∧
      ∀ i j : ℤ, 0 ≤ j → j < n → s'.img i j = s.img i j + if p.lo + ((T / mag : ℕ) : ℤ) = i then mag * E (subY mag p.lo T) j else 0 := by
  have hm' : (0 : ℝ) < mag := by exact_mod_cast hm
  have hlo0 : 0 ≤ p.lo := by unfold Poly.lo; split_ifs <;> omega
  rcases scan_cases hc hm hs (n := n) C C' T s hpos hb with ⟨e, hp, hmiss⟩ | ⟨hmin, hmax, xl, xr, l, r, hlr, hsec, hp, e⟩
  · refine ⟨s, e, hp, fun i j _ _ => ?_⟩
    rw [hE0 _ _ hmiss, mul_zero, ite_self, add_zero]
  · have hlt := hrow hmin hmax
    rw [e, if_neg (by omega)]
    -- the height is within the array
    have hrowlt : ((T / mag : ℕ) : ℝ) + p.lo + 1 ≤ n := by
      generalize T / mag = u at *
      have : ((u : ℕ) : ℤ) + p.lo + 1 ≤ n := by omega
      exact_mod_cast this
    have hlo0' : (0 : ℝ) ≤ p.lo := by exact_mod_cast hlo0
    have hTm : (T : ℝ) + 1 ≤ mag * ((T / mag : ℕ) : ℝ) + mag := by
      have h1 := Nat.div_add_mod T mag
      have h2 := Nat.mod_lt T hm
      have : T + 1 ≤ mag * (T / mag) + mag := by omega
      exact_mod_cast this
    have hy0 : -1 / 2 ≤ subY mag p.lo T := by
      unfold subY
      have : (0 : ℝ) ≤ (1 / 2 + T) / mag := by positivity
      linarith
    have hyn : subY mag p.lo T < n - 1 / 2 := by
      unfold subY
      have : (1 / 2 + (T : ℝ)) / mag < ((T / mag : ℕ) : ℝ) + 1 := by
        rw [div_lt_iff₀ hm']
        generalize ((T / mag : ℕ) : ℝ) = u at *
        linarith
      linarith
    obtain ⟨out, e, hout⟩ := hE _ xl xr hy0 hyn hlr hsec s.img (p.lo + ((T / mag : ℕ) : ℤ))
    rw [e]
    refine ⟨_, rfl, hp out, fun i j hj0 hjn => ?_⟩
    show out i j = _
    rw [hout i j hj0 hjn]
    simp only [eq_comm]

include hc hm hs hb hhi hE0 hE in
open Classical in
theorem scan_fold : ∃ s, (rows mag p.lo hi).foldlM (p.scan n mag) ⟨p.lowest, p.lowest, fun _ _ => 0⟩ = .ok s ∧
    ∀ i j : ℤ, 0 ≤ j → j < n → s.img i j = ((rows mag p.lo hi).map fun q => if q.1 = i then mag * E (rowY mag q) j else 0).sum := by
  have h3 := hc.1
  have hm' : (0 : ℝ) < mag := by exact_mod_cast hm
  obtain ⟨a, C⟩ := left_chain p hc
  obtain ⟨i0, b, C'⟩ := right_chain p hc
  rw [rows_eq mag hm]
  have key : ∀ T ≤ (hi - p.lo).toNat * mag, ∃ s,
      ((List.range T).map fun t => (p.lo + ((t / mag : ℕ) : ℤ), t % mag)).foldlM (p.scan n mag) ⟨p.lowest, p.lowest, fun _ _ => 0⟩ = .ok s ∧ Pos p mag a i0 b T s ∧
      ∀ i j : ℤ, 0 ≤ j → j < n → s.img i j = (((List.range T).map fun t => (p.lo + ((t / mag : ℕ) : ℤ), t % mag)).map fun q =>
        if q.1 = i then mag * E (rowY mag q) j else 0).sum := by
    intro T hT
    induction T with
    | zero => exact ⟨_, rfl, Or.inl ⟨rfl, rfl, by simp⟩, by simp⟩
    | succ T ih =>
      obtain ⟨s, e, hp, himg⟩ := ih (by omega)
      obtain ⟨s', e', hp', himg'⟩ := scan_step hc hm hs E hE0 hE C C' T s hp (fun _ => hb) (by
        intro hmin hmax
        rcases hhi with h | h
        · have : T / mag < (hi - p.lo).toNat := Nat.div_lt_of_lt_mul (by rw [Nat.mul_comm]; omega)
          generalize T / mag = u at *
          omega
        · by_contra hcon
          push Not at hcon
          have h1 : (n : ℝ) ≤ p.lo + ((T / mag : ℕ) : ℝ) := by generalize T / mag = u at *; exact_mod_cast hcon
          rw [← rowY_at mag hm p.lo T |> fun e : _ = subY mag p.lo T => e] at hmax
          unfold rowY at hmax
          have h2 : (1 : ℝ) / (2 * mag) ≤ (0.5 + ((T % mag : ℕ) : ℝ)) / mag := by
            have : (1 : ℝ) / (2 * mag) = 0.5 / mag := by field_simp; norm_num
            rw [this]
            apply div_le_div_of_nonneg_right _ hm'.le
            have : (0 : ℝ) ≤ ((T % mag : ℕ) : ℝ) := Nat.cast_nonneg _
            linarith
          generalize T / mag = u at *
          generalize T % mag = w at *
          push_cast at hmax
          linarith)
      refine ⟨s', ?_, hp', fun i j hj0 hjn => ?_⟩
      · rw [List.range_succ, List.map_append, List.foldlM_append, e]
        simp only [List.map_cons, List.map_nil, List.foldlM_cons, List.foldlM_nil, bind, Except.bind]
        rw [e']
        rfl
      · rw [List.range_succ, List.map_append, List.map_append, List.sum_append, himg' i j hj0 hjn, himg i j hj0 hjn]
        congr 1
        simp only [List.map_cons, List.map_nil, List.sum_cons, List.sum_nil, add_zero]
        rw [rowY_at mag hm]
        rfl
  obtain ⟨s, e, -, h⟩ := key _ le_rfl
  exact ⟨s, e, h⟩

end draw

/-! ## The drawn polygon -/

/-- Mean over the middles of `k` strips of the row `i`. -/
noncomputable def rowMean (k : ℕ) (E : ℝ → ℤ → ℝ) (j i : ℤ) : ℝ := (∑ s : Fin k, E (i - 1 / 2 + ((s : ℕ) + 1 / 2) / k) j) / k

open Classical in
/-- Mean over `k` strips of what the sub-rows add. -/
noncomputable def seenMean (k n : ℕ) (S : Set (ℝ × ℝ)) (j i : ℤ) : ℝ := rowMean k (seen n S) j i

theorem seenMean_eq (k n : ℕ) (S : Set (ℝ × ℝ)) (j i : ℤ) (h : j + 1 ≠ n ∨ ∀ x y, (x, y) ∈ S → x < n - 1 / 2) : seenMean k n S j i = stripMean k S j i := by
  unfold seenMean rowMean stripMean
  congr 1
  refine Finset.sum_congr rfl fun s _ => ?_
  unfold seen
  rw [if_neg]
  rintro ⟨h1, ⟨x, hx, hn⟩, -⟩
  rcases h with h | h
  · exact h h1
  · have := npRound_lt (h x _ hx)
    omega

open Classical in
/-- The sum over the sub-rows of a row, in terms of the mean over the row. -/
theorem sum_rowMean (p : Poly) {mag n : ℕ} (hm : 0 < mag) (E : ℝ → ℤ → ℝ) (hE0 : ∀ y j, (∀ x, (x, y) ∉ hull p.nv p.x p.y) → E y j = 0) {hi : ℤ}
    (hcov : ∀ i : ℤ, i < n → i ≤ Dm.npRound p.ymax → i < hi) [NeZero n] (i j : ZMod n) :
    ((rows mag p.lo hi).map fun q => if q.1 = (i.val : ℤ) then mag * E (rowY mag q) (j.val : ℤ) else 0).sum / (mag : ℝ) ^ 2 = rowMean mag E j.val i.val := by
  have hm' : (0 : ℝ) < mag := by exact_mod_cast hm
  unfold rows
  rw [sum_rows mag (fun q => (mag : ℝ) * E (rowY mag q) (j.val : ℤ))]
  have hval : ∀ s : Fin mag, rowY mag ((i.val : ℤ), (s : ℕ)) = ((i.val : ℤ) : ℝ) - 1 / 2 + ((s : ℕ) + 1 / 2) / mag := by
    intro s; unfold rowY; norm_num; ring
  have hstrip : ∀ s : Fin mag, ((i.val : ℤ) : ℝ) - 1 / 2 < rowY mag ((i.val : ℤ), (s : ℕ)) ∧ rowY mag ((i.val : ℤ), (s : ℕ)) < ((i.val : ℤ) : ℝ) + 1 / 2 := by
    intro s
    rw [hval]
    have h0 : 0 < (((s : ℕ) : ℝ) + 1 / 2) / mag := by positivity
    have h1 : (((s : ℕ) : ℝ) + 1 / 2) / mag < 1 := by
      rw [div_lt_one hm']
      have : ((s : ℕ) : ℝ) + 1 ≤ mag := by exact_mod_cast s.isLt
      linarith
    constructor <;> linarith
  unfold rowMean
  split_ifs with hin'
  · simp only [hval, ← Finset.mul_sum]
    field_simp
  · have hz : ∀ s : Fin mag, E (((i.val : ℤ) : ℝ) - 1 / 2 + ((s : ℕ) + 1 / 2) / mag) (j.val : ℤ) = 0 := by
      intro s
      apply hE0
      intro x hx'
      obtain ⟨o1, o2⟩ := hull_heights hx'
      rw [← hval] at o1 o2
      obtain ⟨p1, p2⟩ := hstrip s
      apply hin'
      have hb1 := Dm.npRound_bounds p.ymin
      have hb2 := Dm.npRound_bounds p.ymax
      have hi0 : (0 : ℤ) ≤ i.val := by positivity
      have hin2 : (i.val : ℤ) < n := by exact_mod_cast ZMod.val_lt i
      have q1 : Dm.npRound p.ymin < (i.val : ℤ) + 1 := by
        have : (Dm.npRound p.ymin : ℝ) < ((i.val : ℤ) : ℝ) + 1 := by linarith [hb1.2]
        exact_mod_cast this
      have q2 : (i.val : ℤ) < Dm.npRound p.ymax + 1 := by
        have : ((i.val : ℤ) : ℝ) < (Dm.npRound p.ymax : ℝ) + 1 := by linarith [hb2.1]
        exact_mod_cast this
      refine ⟨?_, hcov _ hin2 (by omega)⟩
      unfold Poly.lo
      split_ifs <;> omega
    simp only [hz, Finset.sum_const_zero, zero_div]

theorem draw_gen {p : Poly} (hc : Clockwise p.nv p.x p.y) {mag n : ℕ} (hm : 0 < mag) (hs : Slow p.nv p.x p.y mag) (hb : Begins p.nv p.x p.y mag)
    (E : ℝ → ℤ → ℝ) (hE0 : ∀ y j, (∀ x, (x, y) ∉ hull p.nv p.x p.y) → E y j = 0)
    (hE : ∀ y xl xr : ℝ, -1 / 2 ≤ y → y < n - 1 / 2 → xl ≤ xr → (∀ x, (x, y) ∈ hull p.nv p.x p.y ↔ xl ≤ x ∧ x ≤ xr) → ∀ img (yp : ℤ),
      ∃ out, addRow n mag img yp xl xr = .ok out ∧ ∀ i j : ℤ, 0 ≤ j → j < n → out i j = img i j + if i = yp then mag * E y j else 0) {hi : ℤ} (hhi : hi ≤ n ∨ p.ymax < n - 1 / 2 + 1 / (2 * mag)) (hcov : ∀ i : ℤ, i < n → i ≤ Dm.npRound p.ymax → i < hi)
    [NeZero n] (dark : Bool) :
    ∃ img, p.draw n mag hi dark = .ok img ∧ ∀ i j : ZMod n, img i j =
      if dark then 1 - rowMean mag E j.val i.val else rowMean mag E j.val i.val := by
  have hm' : (0 : ℝ) < mag := by exact_mod_cast hm
  obtain ⟨s, e, h⟩ := scan_fold hc hm hs hb hhi E hE0 hE
  unfold Poly.draw
  rw [e]
  refine ⟨_, rfl, fun i j => ?_⟩
  have key : s.img i.val j.val / (mag : ℝ) ^ 2 = rowMean mag E j.val i.val := by
    rw [h _ _ (by positivity) (by exact_mod_cast ZMod.val_lt j)]
    exact sum_rowMean p hm E hE0 hcov i j
  show (if dark then 1 - s.img i.val j.val / (mag : ℝ) ^ 2 else s.img i.val j.val / (mag : ℝ) ^ 2) = _
  rw [key]

theorem draw_spec {p : Poly} (hc : Clockwise p.nv p.x p.y) {mag n : ℕ} (hm : 0 < mag) (hs : Slow p.nv p.x p.y mag) (hb : Begins p.nv p.x p.y mag)
    (hmeet : Meets (hull p.nv p.x p.y) n) {hi : ℤ} (hhi : hi ≤ n ∨ p.ymax < n - 1 / 2 + 1 / (2 * mag)) (hcov : ∀ i : ℤ, i < n → i ≤ Dm.npRound p.ymax → i < hi)
    [NeZero n] (dark : Bool) :
    ∃ img, p.draw n mag hi dark = .ok img ∧ ∀ i j : ZMod n, img i j =
      if dark then 1 - seenMean mag n (hull p.nv p.x p.y) j.val i.val else seenMean mag n (hull p.nv p.x p.y) j.val i.val := by
  refine draw_gen hc hm hs hb (seen n (hull p.nv p.x p.y)) (fun y j h => seen_empty n _ y j h) ?_ hhi hcov dark
  intro y xl xr hy0 hyn hlr hsec img yp
  obtain ⟨x', hx', hx0, hxn⟩ := hmeet xl y ((hsec xl).mpr ⟨le_rfl, hlr⟩) hy0 hyn
  obtain ⟨b1, b2⟩ := (hsec x').mp hx'
  obtain ⟨out, e, hout⟩ := addRow_spec n mag img yp xl xr hlr (npRound_ge (le_trans hx0 b2)) (npRound_lt (lt_of_le_of_lt b1 hxn))
  refine ⟨out, e, fun i j hj0 hjn => ?_⟩
  rw [hout i j hj0 hjn, seen_eq n _ _ xl xr j hsec hlr]

/-! ## prop_irregular_polygon -/

/-- The given vertices are those of a strictly convex polygon, in either order. -/
def StrictlyConvex (nv : ℕ) (x y : ℕ → ℝ) : Prop :=
  Clockwise nv x y ∨ (3 ≤ nv ∧ ∀ k < nv, ∀ m < nv, m ≠ k → m ≠ (k + 1) % nv → 0 < side nv x y k m)

/-- A length in metres (or, with NORM, in beam radii) as a pixel coordinate: the zero is the middle of the array. -/
noncomputable def toPixel (n : ℕ) (dx beamrad : ℝ) (norm : Bool) (v : ℝ) : ℝ := v * (if norm then beamrad / dx else 1 / dx) + (n / 2 : ℕ)

theorem side_affine (nv : ℕ) (x y : ℕ → ℝ) (s c : ℝ) (k m : ℕ) : side nv (fun k => x k * s + c) (fun k => y k * s + c) k m = s ^ 2 * side nv x y k m := by
  unfold side; ring

theorem clockwise_affine {nv : ℕ} {x y : ℕ → ℝ} (s c : ℝ) (hs : s ≠ 0) (h : Clockwise nv x y) : Clockwise nv (fun k => x k * s + c) (fun k => y k * s + c) := by
  refine ⟨h.1, fun k hk m hm h1 h2 => ?_⟩
  rw [side_affine]
  have := h.2 k hk m hm h1 h2
  have : 0 < s ^ 2 := by positivity
  nlinarith

theorem side_rev (nv : ℕ) (x y : ℕ → ℝ) (k m : ℕ) (hk : k < nv) (hm : m < nv) :
    side nv (fun k => x (nv - 1 - k)) (fun k => y (nv - 1 - k)) k m = - side nv x y (nv - 1 - (k + 1) % nv) (nv - 1 - m) := by
  unfold side
  have e : (nv - 1 - (k + 1) % nv + 1) % nv = nv - 1 - k := by
    by_cases h : k + 1 = nv
    · rw [h, Nat.mod_self]
      rw [show nv - 1 - 0 + 1 = nv by omega, Nat.mod_self]; omega
    · rw [Nat.mod_eq_of_lt (show k + 1 < nv by omega), Nat.mod_eq_of_lt (by omega)]; omega
  rw [e]; ring

theorem clockwise_rev {nv : ℕ} {x y : ℕ → ℝ} (h3 : 3 ≤ nv) (h : ∀ k < nv, ∀ m < nv, m ≠ k → m ≠ (k + 1) % nv → 0 < side nv x y k m) :
    Clockwise nv (fun k => x (nv - 1 - k)) (fun k => y (nv - 1 - k)) := by
  refine ⟨h3, fun k hk m hm h1 h2 => ?_⟩
  rw [side_rev nv x y k m hk hm, neg_neg_iff_pos]
  have hlt : (k + 1) % nv < nv := Nat.mod_lt _ (by omega)
  have e : (nv - 1 - (k + 1) % nv + 1) % nv = nv - 1 - k := by
    by_cases h : k + 1 = nv
    · rw [h, Nat.mod_self]
      rw [show nv - 1 - 0 + 1 = nv by omega, Nat.mod_self]; omega
    · rw [Nat.mod_eq_of_lt (show k + 1 < nv by omega), Nat.mod_eq_of_lt (by omega)]; omega
  refine h _ (by omega) _ (by omega) ?_ ?_
  · intro h'; apply h2; omega
  · rw [e]; intro h'; apply h1; omega

section reversal
variable {nv : ℕ} {x y : ℕ → ℝ}

theorem rev_rev {k : ℕ} (hk : k < nv) : nv - 1 - (nv - 1 - k) = k := by omega

theorem adj_rev {k l : ℕ} (hk : k < nv) (hl : l < nv) (h : l = (k + 1) % nv ∨ k = (l + 1) % nv) :
    (nv - 1 - l) = (nv - 1 - k + 1) % nv ∨ (nv - 1 - k) = (nv - 1 - l + 1) % nv := by
  have aux : ∀ k < nv, (nv - 1 - k) = (nv - 1 - (k + 1) % nv + 1) % nv := by
    intro k hk
    by_cases h : k + 1 = nv
    · rw [h, Nat.mod_self, show nv - 1 - 0 + 1 = nv by omega, Nat.mod_self]; omega
    · rw [Nat.mod_eq_of_lt (show k + 1 < nv by omega), Nat.mod_eq_of_lt (by omega)]; omega
  rcases h with h | h
  · right; rw [h]; exact aux k hk
  · left; rw [h]; exact aux l hl

theorem startAt_rev {k : ℕ} (h : StartAt nv y x (nv - 1 - k)) (hk : k < nv) : StartAt nv (fun k => y (nv - 1 - k)) (fun k => x (nv - 1 - k)) k :=
  ⟨hk, fun m hm => h.2 (nv - 1 - m) (by omega)⟩

theorem startAt_of_rev {k : ℕ} (h : StartAt nv (fun k => y (nv - 1 - k)) (fun k => x (nv - 1 - k)) k) : StartAt nv y x (nv - 1 - k) := by
  refine ⟨by have := h.1; omega, fun m hm => ?_⟩
  have := h.2 (nv - 1 - m) (by omega)
  dsimp only at this
  rwa [rev_rev hm] at this

theorem slow_rev {mag : ℕ} (h : Slow nv x y mag) : Slow nv (fun k => x (nv - 1 - k)) (fun k => y (nv - 1 - k)) mag := by
  intro k hk l hl hadj hlt hns ⟨m, hm, hm'⟩
  exact h (nv - 1 - k) (by omega) (nv - 1 - l) (by omega) (adj_rev hk hl hadj) hlt (fun hs => hns (startAt_rev hs hk)) ⟨nv - 1 - m, by omega, hm'⟩

theorem begins_rev {mag : ℕ} (h : Begins nv x y mag) : Begins nv (fun k => x (nv - 1 - k)) (fun k => y (nv - 1 - k)) mag := by
  rcases h with h | h
  · exact Or.inl fun k hk => h _ (by omega)
  · refine Or.inr fun k hk hns hadj ⟨m, hm, hm'⟩ => h _ (by omega) (fun hs => hns (startAt_rev hs hk)) (fun l hl ha hs => ?_) ⟨nv - 1 - m, by omega, hm'⟩
    refine hadj (nv - 1 - l) (by omega) ?_ (startAt_rev (by rw [rev_rev hl]; exact hs) (by omega))
    have := adj_rev (by omega) hl ha
    rwa [rev_rev hk] at this

theorem hull_rev : hull nv (fun k => x (nv - 1 - k)) (fun k => y (nv - 1 - k)) = hull nv x y := by
  unfold hull
  congr 1
  ext v
  constructor
  · rintro ⟨k, hk, rfl⟩; exact ⟨nv - 1 - k, by omega, rfl⟩
  · rintro ⟨k, hk, rfl⟩; exact ⟨nv - 1 - k, by omega, by dsimp only; rw [rev_rev hk]⟩

end reversal

theorem toPixel_scale {dx beamrad : ℝ} (hdx : dx ≠ 0) (hr : beamrad ≠ 0) (norm : Bool) : (if norm then beamrad / dx else 1 / dx) ≠ 0 := by
  cases norm
  · simpa using hdx
  · simpa using ⟨hr, hdx⟩

/-- The scanned polygon has the given vertices, in one order or the other. -/
theorem ofVertices_eq (n : ℕ) (dx beamrad : ℝ) (norm : Bool) (nv : ℕ) (xv yv : ℕ → ℝ) :
    let p := ofVertices n dx beamrad norm nv xv yv
    p.nv = nv ∧ ((¬ 0 < (xv 1 - xv 0) * (yv 2 - yv 1) - (yv 1 - yv 0) * (xv 2 - xv 1) ∧ p.x = (fun k => toPixel n dx beamrad norm (xv k)) ∧ p.y = fun k => toPixel n dx beamrad norm (yv k)) ∨
      (0 < (xv 1 - xv 0) * (yv 2 - yv 1) - (yv 1 - yv 0) * (xv 2 - xv 1) ∧
        p.x = (fun k => toPixel n dx beamrad norm (xv (nv - 1 - k))) ∧ p.y = fun k => toPixel n dx beamrad norm (yv (nv - 1 - k)))) := by
  intro p
  have hpix : ∀ v, (if norm = true then v * (beamrad / dx) + ((n / 2 : ℕ) : ℝ) else v / dx + ((n / 2 : ℕ) : ℝ)) = toPixel n dx beamrad norm v := by
    intro v
    unfold toPixel
    cases norm <;> simp [div_eq_mul_inv]
  refine ⟨rfl, ?_⟩
  by_cases h : 0 < (xv 1 - xv 0) * (yv 2 - yv 1) - (yv 1 - yv 0) * (xv 2 - xv 1)
  · refine Or.inr ⟨h, ?_, ?_⟩
    · funext k; show (if norm = true then _ else _) = _; rw [hpix]; exact congrArg _ (if_pos h)
    · funext k; show (if norm = true then _ else _) = _; rw [hpix]; exact congrArg _ (if_pos h)
  · refine Or.inl ⟨h, ?_, ?_⟩
    · funext k; show (if norm = true then _ else _) = _; rw [hpix]; exact congrArg _ (if_neg h)
    · funext k; show (if norm = true then _ else _) = _; rw [hpix]; exact congrArg _ (if_neg h)

theorem ofVertices_good (n : ℕ) (dx beamrad : ℝ) (norm : Bool) (nv : ℕ) (xv yv : ℕ → ℝ) (hdx : dx ≠ 0) (hr : beamrad ≠ 0) (h : StrictlyConvex nv xv yv) (mag : ℕ)
    (hs : Slow nv (fun k => toPixel n dx beamrad norm (xv k)) (fun k => toPixel n dx beamrad norm (yv k)) mag)
    (hb : Begins nv (fun k => toPixel n dx beamrad norm (xv k)) (fun k => toPixel n dx beamrad norm (yv k)) mag) :
    let p := ofVertices n dx beamrad norm nv xv yv
    Clockwise p.nv p.x p.y ∧ Slow p.nv p.x p.y mag ∧ Begins p.nv p.x p.y mag ∧
      hull p.nv p.x p.y = hull nv (fun k => toPixel n dx beamrad norm (xv k)) (fun k => toPixel n dx beamrad norm (yv k)) := by
  intro p
  obtain ⟨hnv, hor⟩ := ofVertices_eq n dx beamrad norm nv xv yv
  have h3 : 3 ≤ nv := by rcases h with h | h <;> exact h.1
  have hcp : (xv 1 - xv 0) * (yv 2 - yv 1) - (yv 1 - yv 0) * (xv 2 - xv 1) = side nv xv yv 0 2 := by
    unfold side
    rw [Nat.mod_eq_of_lt (by omega : 0 + 1 < nv)]; ring
  have hne : (2 : ℕ) ≠ (0 + 1) % nv := by rw [Nat.mod_eq_of_lt (by omega)]; omega
  have hsc := toPixel_scale hdx hr norm
  rw [hcp] at hor
  rw [show p.nv = nv from hnv]
  rcases hor with ⟨hn, ex, ey⟩ | ⟨hp, ex, ey⟩
  · rw [show p.x = _ from ex, show p.y = _ from ey]
    refine ⟨?_, hs, hb, rfl⟩
    rcases h with h | h
    · exact clockwise_affine _ _ hsc h
    · exact absurd (h.2 0 (by omega) 2 (by omega) (by omega) hne) hn
  · rw [show p.x = _ from ex, show p.y = _ from ey]
    refine ⟨?_, slow_rev hs, begins_rev hb, hull_rev (x := fun k => toPixel n dx beamrad norm (xv k)) (y := fun k => toPixel n dx beamrad norm (yv k))⟩
    rcases h with h | h
    · exact absurd (h.2 0 (by omega) 2 (by omega) (by omega) hne) (not_lt.mpr hp.le)
    · exact clockwise_affine (x := fun k => xv (nv - 1 - k)) (y := fun k => yv (nv - 1 - k)) _ _ hsc (clockwise_rev h3 h.2)

theorem hiIrr_ok (p : Poly) (n : ℕ) : p.hiIrr n ≤ n ∧ ∀ i : ℤ, i < n → i ≤ Dm.npRound p.ymax → i < p.hiIrr n := by
  unfold Poly.hiIrr
  constructor
  · split_ifs <;> omega
  · intro i h1 h2; split_ifs <;> omega

/-- **C115.** `prop_irregular_polygon` for the vertices of a strictly convex polygon, in either order: every pixel is the mean over `mag` strips of the exact length, within the pixel, of
the section of the polygon along the middle of the strip (with DARK: one minus that).  It needs: no edge is passed within one sub-row (save edges from the lowest corner or to the
top), at most the lowest corner and its neighbours lie below the array, every row of the polygon meets the array; and in the last column that the polygon ends within the array. -/
theorem C115_irregular (n mag : ℕ) [NeZero n] (hm : 0 < mag) (dx beamrad : ℝ) (hdx : dx ≠ 0) (hr : beamrad ≠ 0) (norm dark : Bool) (nv : ℕ) (xv yv : ℕ → ℝ)
    (hconv : StrictlyConvex nv xv yv)
    (hs : Slow nv (fun k => toPixel n dx beamrad norm (xv k)) (fun k => toPixel n dx beamrad norm (yv k)) mag)
    (hb : Begins nv (fun k => toPixel n dx beamrad norm (xv k)) (fun k => toPixel n dx beamrad norm (yv k)) mag)
    (hmeet : Meets (hull nv (fun k => toPixel n dx beamrad norm (xv k)) (fun k => toPixel n dx beamrad norm (yv k))) n) :
    ∃ img, irregularPolygon n mag dx beamrad norm dark nv xv yv = .ok img ∧ ∀ i j : ZMod n,
      (j.val + 1 ≠ n ∨ ∀ x y, (x, y) ∈ hull nv (fun k => toPixel n dx beamrad norm (xv k)) (fun k => toPixel n dx beamrad norm (yv k)) → x < n - 1 / 2) →
      img i j = if dark then 1 - stripMean mag (hull nv (fun k => toPixel n dx beamrad norm (xv k)) (fun k => toPixel n dx beamrad norm (yv k))) j.val i.val
        else stripMean mag (hull nv (fun k => toPixel n dx beamrad norm (xv k)) (fun k => toPixel n dx beamrad norm (yv k))) j.val i.val := by
  obtain ⟨g1, g2, g3, g4⟩ := ofVertices_good n dx beamrad norm nv xv yv hdx hr hconv mag hs hb
  obtain ⟨h1, h2⟩ := hiIrr_ok (ofVertices n dx beamrad norm nv xv yv) n
  obtain ⟨img, e, h⟩ := draw_spec g1 hm g2 g3 (by rw [g4]; exact hmeet) (Or.inl h1) h2 dark
  refine ⟨img, e, fun i j hj => ?_⟩
  rw [h i j, g4, seenMean_eq _ _ _ _ _ (by
    rcases hj with hj | hj
    · left; intro h; apply hj; exact_mod_cast h
    · exact Or.inr hj)]
  simp only [Int.cast_natCast]

/-- The order of the vertices does not matter. -/
theorem C115_either_order (n mag : ℕ) [NeZero n] (hm : 0 < mag) (dx beamrad : ℝ) (hdx : dx ≠ 0) (hr : beamrad ≠ 0) (norm dark : Bool) (nv : ℕ) (xv yv : ℕ → ℝ)
    (hconv : StrictlyConvex nv xv yv)
    (hs : Slow nv (fun k => toPixel n dx beamrad norm (xv k)) (fun k => toPixel n dx beamrad norm (yv k)) mag)
    (hb : Begins nv (fun k => toPixel n dx beamrad norm (xv k)) (fun k => toPixel n dx beamrad norm (yv k)) mag)
    (hmeet : Meets (hull nv (fun k => toPixel n dx beamrad norm (xv k)) (fun k => toPixel n dx beamrad norm (yv k))) n) :
    irregularPolygon n mag dx beamrad norm dark nv (fun k => xv (nv - 1 - k)) (fun k => yv (nv - 1 - k)) = irregularPolygon n mag dx beamrad norm dark nv xv yv := by
  have h3 : 3 ≤ nv := by rcases hconv with h | h <;> exact h.1
  have hconv' : StrictlyConvex nv (fun k => xv (nv - 1 - k)) (fun k => yv (nv - 1 - k)) := by
    rcases hconv with h | h
    · right
      refine ⟨h3, fun k hk m hm' h1 h2 => ?_⟩
      rw [side_rev nv xv yv k m hk hm', Left.neg_pos_iff]
      have hlt : (k + 1) % nv < nv := Nat.mod_lt _ (by omega)
      refine h.2 _ (by omega) _ (by omega) ?_ ?_
      · intro h'; apply h2; omega
      · intro h'; apply h1
        have := adj_rev (nv := nv) hk hlt (Or.inl rfl)
        have e : (nv - 1 - (k + 1) % nv + 1) % nv = nv - 1 - k := by
          by_cases h : k + 1 = nv
          · rw [h, Nat.mod_self]
            rw [show nv - 1 - 0 + 1 = nv by omega, Nat.mod_self]; omega
          · rw [Nat.mod_eq_of_lt (show k + 1 < nv by omega), Nat.mod_eq_of_lt (by omega)]; omega
        omega
    · exact Or.inl (clockwise_rev h3 h.2)
  obtain ⟨g1, g2, g3, g4⟩ := ofVertices_good n dx beamrad norm nv xv yv hdx hr hconv mag hs hb
  obtain ⟨h1, h2⟩ := hiIrr_ok (ofVertices n dx beamrad norm nv xv yv) n
  obtain ⟨img, e, h⟩ := draw_spec g1 hm g2 g3 (by rw [g4]; exact hmeet) (Or.inl h1) h2 dark
  have hs' := slow_rev hs
  have hb' := begins_rev hb
  obtain ⟨g1', g2', g3', g4'⟩ := ofVertices_good n dx beamrad norm nv (fun k => xv (nv - 1 - k)) (fun k => yv (nv - 1 - k)) hdx hr hconv' mag hs' hb'
  have hh := hull_rev (nv := nv) (x := fun k => toPixel n dx beamrad norm (xv k)) (y := fun k => toPixel n dx beamrad norm (yv k))
  obtain ⟨h1', h2'⟩ := hiIrr_ok (ofVertices n dx beamrad norm nv (fun k => xv (nv - 1 - k)) (fun k => yv (nv - 1 - k))) n
  obtain ⟨img', e', h'⟩ := draw_spec g1' hm g2' g3' (by rw [g4', hh]; exact hmeet) (Or.inl h1') h2' dark
  have : img' = img := by
    funext i j
    rw [h, h', g4, g4', hh]
  unfold irregularPolygon
  dsimp only
  rw [e, e', this]

/-! ## prop_polygon -/

section regular
variable (n : ℕ) (dx beamrad : ℝ) (norm : Bool) (nvert : ℕ) (rad : ℝ) (xc yc : Option ℝ) (rotation : ℝ)

/-- A position given by the user, in pixels; the middle of the array when none is given. -/
noncomputable def centrePix (o : Option ℝ) : ℝ := match o with
  | none => (n : ℝ) / 2
  | some v => v * (if norm then beamrad / dx else 1 / dx) + (n : ℝ) / 2

/-- The radius in pixels. -/
noncomputable def radPix : ℝ := rad * (if norm then beamrad / dx else 1 / dx)

/-- Angle of the `k`-th vertex: the first is at ROTATION degrees from the `x` axis, the others follow clockwise. -/
noncomputable def vertexAngle (k : ℕ) : ℝ := rotation * Real.pi / 180 - 2 * Real.pi * k / nvert

/-- Column of the `k`-th vertex of the regular polygon. -/
noncomputable def regX (k : ℕ) : ℝ := radPix dx beamrad norm rad * Real.cos (vertexAngle nvert rotation k) + centrePix n dx beamrad norm xc
/-- Row of the `k`-th vertex. -/
noncomputable def regY (k : ℕ) : ℝ := radPix dx beamrad norm rad * Real.sin (vertexAngle nvert rotation k) + centrePix n dx beamrad norm yc

theorem regular_eq : regular n dx beamrad norm nvert rad xc yc rotation =
    ⟨nvert, regX n dx beamrad norm nvert rad xc rotation, regY n dx beamrad norm nvert rad yc rotation⟩ := by
  have hc : ∀ o : Option ℝ, centre n dx beamrad norm o = centrePix n dx beamrad norm o := by
    intro o
    unfold centrePix centre
    cases o with
    | none => rfl
    | some v => cases norm <;> simp [div_eq_mul_inv]
  have hr : (if norm then rad * (beamrad / dx) else rad / dx) = radPix dx beamrad norm rad := by
    unfold radPix
    cases norm <;> simp [div_eq_mul_inv]
  have ha : ∀ k : ℕ, vertexAngle nvert rotation k = -((k : ℝ) / nvert) * 2 * Real.pi + rotation * Real.pi / 180 := by
    intro k; unfold vertexAngle; ring
  unfold regular
  simp only [hr, hc]
  congr 1
  · funext k
    unfold regX
    rw [ha, Real.cos_add]; ring
  · funext k
    unfold regY
    rw [ha, Real.sin_add]; ring

theorem circle_side (A h d : ℝ) :
    (Real.cos (A - 2 * h) - Real.cos A) * (Real.sin (A - 2 * (d * h)) - Real.sin A) - (Real.sin (A - 2 * h) - Real.sin A) * (Real.cos (A - 2 * (d * h)) - Real.cos A) =
      -4 * Real.sin h * Real.sin (d * h) * Real.sin ((d - 1) * h) := by
  rw [Real.cos_sub_cos, Real.sin_sub_sin, Real.sin_sub_sin, Real.cos_sub_cos]
  have e1 : (A - 2 * h - A) / 2 = -h := by ring
  have e2 : (A - 2 * (d * h) - A) / 2 = -(d * h) := by ring
  have e3 : (A - 2 * h + A) / 2 = A - h := by ring
  have e4 : (A - 2 * (d * h) + A) / 2 = A - d * h := by ring
  rw [e1, e2, e3, e4, Real.sin_neg, Real.sin_neg]
  have e5 : Real.sin ((d - 1) * h) = Real.sin (A - h) * Real.cos (A - d * h) - Real.cos (A - h) * Real.sin (A - d * h) := by
    rw [← Real.sin_sub]; congr 1; ring
  rw [e5]
  generalize A - h = P
  generalize A - d * h = Q
  ring

theorem regX_add (hn : 0 < nvert) (k : ℕ) : regX n dx beamrad norm nvert rad xc rotation (k + nvert) = regX n dx beamrad norm nvert rad xc rotation k := by
  unfold regX
  congr 2
  have : vertexAngle nvert rotation (k + nvert) = vertexAngle nvert rotation k - 2 * Real.pi := by
    unfold vertexAngle
    have : (nvert : ℝ) ≠ 0 := by positivity
    push_cast
    field_simp
    ring
  rw [this, Real.cos_sub_two_pi]

theorem regY_add (hn : 0 < nvert) (k : ℕ) : regY n dx beamrad norm nvert rad yc rotation (k + nvert) = regY n dx beamrad norm nvert rad yc rotation k := by
  unfold regY
  congr 2
  have : vertexAngle nvert rotation (k + nvert) = vertexAngle nvert rotation k - 2 * Real.pi := by
    unfold vertexAngle
    have : (nvert : ℝ) ≠ 0 := by positivity
    push_cast
    field_simp
    ring
  rw [this, Real.sin_sub_two_pi]

/-- The vertices of a regular polygon are strictly convex and clockwise. -/
theorem regular_clockwise (h3 : 3 ≤ nvert) (hr : radPix dx beamrad norm rad ≠ 0) :
    Clockwise nvert (regX n dx beamrad norm nvert rad xc rotation) (regY n dx beamrad norm nvert rad yc rotation) := by
  refine ⟨h3, fun k hk m hm h1 h2 => ?_⟩
  have hpos : (0 : ℝ) < nvert := by positivity
  -- the vertex after
  have hX : regX n dx beamrad norm nvert rad xc rotation ((k + 1) % nvert) = regX n dx beamrad norm nvert rad xc rotation (k + 1) := by
    by_cases h : k + 1 = nvert
    · rw [h, Nat.mod_self]
      have := regX_add n dx beamrad norm nvert rad xc rotation (by omega) 0
      rw [zero_add] at this; exact this.symm
    · rw [Nat.mod_eq_of_lt (by omega)]
  have hY : regY n dx beamrad norm nvert rad yc rotation ((k + 1) % nvert) = regY n dx beamrad norm nvert rad yc rotation (k + 1) := by
    by_cases h : k + 1 = nvert
    · rw [h, Nat.mod_self]
      have := regY_add n dx beamrad norm nvert rad yc rotation (by omega) 0
      rw [zero_add] at this; exact this.symm
    · rw [Nat.mod_eq_of_lt (by omega)]
  obtain ⟨d, hd2, hdn, hmx, hmy⟩ : ∃ d : ℕ, 2 ≤ d ∧ d < nvert ∧ regX n dx beamrad norm nvert rad xc rotation m = regX n dx beamrad norm nvert rad xc rotation (k + d) ∧
      regY n dx beamrad norm nvert rad yc rotation m = regY n dx beamrad norm nvert rad yc rotation (k + d) := by
    rcases lt_or_gt_of_ne h1 with h | h
    · refine ⟨m + nvert - k, ?_, by omega, ?_, ?_⟩
      · by_contra hc
        have hk1 : k + 1 = nvert := by omega
        rw [hk1, Nat.mod_self] at h2
        omega
      · rw [show k + (m + nvert - k) = m + nvert by omega, regX_add n dx beamrad norm nvert rad xc rotation (by omega)]
      · rw [show k + (m + nvert - k) = m + nvert by omega, regY_add n dx beamrad norm nvert rad yc rotation (by omega)]
    · refine ⟨m - k, ?_, by omega, ?_, ?_⟩
      · by_contra hc
        rw [Nat.mod_eq_of_lt (by omega)] at h2
        omega
      · rw [show k + (m - k) = m by omega]
      · rw [show k + (m - k) = m by omega]
  unfold side
  rw [hX, hY, hmx, hmy]
  unfold regX regY
  set h := Real.pi / nvert with hh
  set A := vertexAngle nvert rotation k with hA
  have a1 : vertexAngle nvert rotation (k + 1) = A - 2 * h := by rw [hA, hh]; unfold vertexAngle; push_cast; ring
  have a2 : vertexAngle nvert rotation (k + d) = A - 2 * (d * h) := by rw [hA, hh]; unfold vertexAngle; push_cast; ring
  rw [a1, a2]
  have hid := circle_side A h d
  have hs : ∀ e : ℝ, 0 < e → e < nvert → 0 < Real.sin (e * h) := by
    intro e he1 he2
    apply Real.sin_pos_of_pos_of_lt_pi
    · rw [hh]; have := Real.pi_pos; positivity
    · rw [hh, mul_div_assoc', div_lt_iff₀ hpos]
      nlinarith [Real.pi_pos]
  have s1 := hs 1 one_pos (by have : (3 : ℝ) ≤ nvert := by exact_mod_cast h3
                              linarith)
  rw [one_mul] at s1
  have hd2' : (2 : ℝ) ≤ d := by exact_mod_cast hd2
  have hdn' : (d : ℝ) < nvert := by exact_mod_cast hdn
  have s2 := hs d (by linarith) hdn'
  have s3 := hs (d - 1) (by linarith) (by linarith)
  set R := radPix dx beamrad norm rad with hR
  have hfin : ∀ cx cy : ℝ, (R * Real.cos (A - 2 * h) + cx - (R * Real.cos A + cx)) * (R * Real.sin (A - 2 * (d * h)) + cy - (R * Real.sin A + cy)) -
      (R * Real.sin (A - 2 * h) + cy - (R * Real.sin A + cy)) * (R * Real.cos (A - 2 * (d * h)) + cx - (R * Real.cos A + cx)) =
      R ^ 2 * (-4 * Real.sin h * Real.sin (d * h) * Real.sin ((d - 1) * h)) := by
    intro cx cy
    rw [← hid]; ring
  rw [hfin]
  have hR2 : 0 < R ^ 2 := by positivity
  have : 0 < Real.sin h * Real.sin (d * h) * Real.sin ((d - 1) * h) := by positivity
  nlinarith

theorem hiReg_ok (p : Poly) (mag : ℕ) (h3 : 0 < p.nv) (h : (∀ k < p.nv, p.y k < n - 1 / 2 + 1 / (2 * mag)) ∨ ∃ k < p.nv, (n : ℝ) + 1 / 2 < p.y k) :
    (p.hiReg n ≤ n ∨ p.ymax < n - 1 / 2 + 1 / (2 * mag)) ∧ ∀ i : ℤ, i < n → i ≤ Dm.npRound p.ymax → i < p.hiReg n := by
  constructor
  · rcases h with h | ⟨k, hk, h⟩
    · right
      obtain ⟨k, hk, e⟩ := ymax_mem p h3
      rw [← e]; exact h k hk
    · left
      have h1 := le_ymax p hk
      have h2 := (Dm.npRound_bounds p.ymax).2
      have h4 : (n : ℤ) < Dm.npRound p.ymax := by
        have : (n : ℝ) < Dm.npRound p.ymax := by linarith [(Dm.npRound_bounds p.ymax).1]
        exact_mod_cast this
      unfold Poly.hiReg
      rw [if_pos h4]
  · intro i h1 h2
    unfold Poly.hiReg
    split_ifs <;> omega

/-- **C115.** The same for `prop_polygon`: any regular polygon, with its first vertex at ROTATION degrees.  Here the polygon must also end below the array's upper edge, or more than
a pixel above it. -/
theorem C115_regular (mag : ℕ) [NeZero n] (hm : 0 < mag) (dark : Bool) (h3 : 3 ≤ nvert) (hr : radPix dx beamrad norm rad ≠ 0)
    (hs : Slow nvert (regX n dx beamrad norm nvert rad xc rotation) (regY n dx beamrad norm nvert rad yc rotation) mag)
    (hb : Begins nvert (regX n dx beamrad norm nvert rad xc rotation) (regY n dx beamrad norm nvert rad yc rotation) mag)
    (hmeet : Meets (hull nvert (regX n dx beamrad norm nvert rad xc rotation) (regY n dx beamrad norm nvert rad yc rotation)) n)
    (htop : (∀ k < nvert, regY n dx beamrad norm nvert rad yc rotation k < n - 1 / 2 + 1 / (2 * mag)) ∨ ∃ k < nvert, (n : ℝ) + 1 / 2 < regY n dx beamrad norm nvert rad yc rotation k) :
    ∃ img, regularPolygon n mag dx beamrad norm dark nvert rad xc yc rotation = .ok img ∧ ∀ i j : ZMod n,
      (j.val + 1 ≠ n ∨ ∀ x y, (x, y) ∈ hull nvert (regX n dx beamrad norm nvert rad xc rotation) (regY n dx beamrad norm nvert rad yc rotation) → x < n - 1 / 2) →
      img i j = if dark then 1 - stripMean mag (hull nvert (regX n dx beamrad norm nvert rad xc rotation) (regY n dx beamrad norm nvert rad yc rotation)) j.val i.val
        else stripMean mag (hull nvert (regX n dx beamrad norm nvert rad xc rotation) (regY n dx beamrad norm nvert rad yc rotation)) j.val i.val := by
  have hcl := regular_clockwise n dx beamrad norm nvert rad xc yc rotation h3 hr
  unfold regularPolygon
  rw [regular_eq]
  dsimp only
  obtain ⟨h1, h2⟩ := hiReg_ok n ⟨nvert, regX n dx beamrad norm nvert rad xc rotation, regY n dx beamrad norm nvert rad yc rotation⟩ mag (by show 0 < nvert; omega) htop
  obtain ⟨img, e, h⟩ := draw_spec (p := ⟨nvert, regX n dx beamrad norm nvert rad xc rotation, regY n dx beamrad norm nvert rad yc rotation⟩) hcl hm hs hb hmeet h1 h2 dark
  refine ⟨img, e, fun i j hj => ?_⟩
  rw [h i j]
  dsimp only
  rw [seenMean_eq _ _ _ _ _ (by
    rcases hj with hj | hj
    · left; intro h; apply hj; exact_mod_cast h
    · exact Or.inr hj)]
  simp only [Int.cast_natCast]

end regular

/-! ### Hexagons -/

section hexagon
variable (n : ℕ) (dx beamrad : ℝ) (norm : Bool) (rad : ℝ) (xc yc : Option ℝ) (rotation : ℝ)

theorem hex_rel (k : ℕ) (A : ℝ) (hA : vertexAngle 6 rotation k = A) :
    vertexAngle 6 rotation (k + 1) = A - Real.pi / 3 := by
  rw [← hA]; unfold vertexAngle; push_cast; ring

/-- Heights of the six vertices above the centre follow from the first two. -/
theorem hex_heights : ∃ s t : ℝ, s ^ 2 + t ^ 2 - s * t = 3 / 4 * radPix dx beamrad norm rad ^ 2 ∧
    let c := centrePix n dx beamrad norm yc
    let Y := regY n dx beamrad norm 6 rad yc rotation
    Y 0 = s + c ∧ Y 1 = t + c ∧ Y 2 = t - s + c ∧ Y 3 = -s + c ∧ Y 4 = -t + c ∧ Y 5 = s - t + c := by
  have hr : ∀ A : ℝ, Real.sin (A - Real.pi / 3) = Real.sin A / 2 - Real.sqrt 3 / 2 * Real.cos A := by
    intro A; rw [Real.sin_sub, Real.cos_pi_div_three, Real.sin_pi_div_three]; ring
  have hc : ∀ A : ℝ, Real.cos (A - Real.pi / 3) = Real.cos A / 2 + Real.sqrt 3 / 2 * Real.sin A := by
    intro A; rw [Real.cos_sub, Real.cos_pi_div_three, Real.sin_pi_div_three]; ring
  have h33 : Real.sqrt 3 ^ 2 = 3 := Real.sq_sqrt (by norm_num)
  have hsc := Real.sin_sq_add_cos_sq (vertexAngle 6 rotation 0)
  have a1 := hex_rel rotation 0 _ rfl
  have a2 := hex_rel rotation 1 _ a1
  have a3 := hex_rel rotation 2 _ a2
  have a4 := hex_rel rotation 3 _ a3
  have a5 := hex_rel rotation 4 _ a4
  simp only [zero_add, Nat.reduceAdd] at a1 a2 a3 a4 a5
  refine ⟨radPix dx beamrad norm rad * Real.sin (vertexAngle 6 rotation 0), radPix dx beamrad norm rad * Real.sin (vertexAngle 6 rotation 1), ?_, ?_⟩
  · rw [a1, hr]
    generalize Real.sin (vertexAngle 6 rotation 0) = S at *
    generalize Real.cos (vertexAngle 6 rotation 0) = K at *
    linear_combination (radPix dx beamrad norm rad ^ 2 * K ^ 2 / 4) * h33 + (3 / 4 * radPix dx beamrad norm rad ^ 2) * hsc
  · have hrr : ∀ B : ℝ, Real.sin (B - Real.pi / 3 - Real.pi / 3) = Real.sin (B - Real.pi / 3) - Real.sin B := by
      intro B
      rw [hr (B - Real.pi / 3), hr B, hc B]
      linear_combination (-(Real.sin B) / 4) * h33
    have b2 := hrr (vertexAngle 6 rotation 0)
    have b3 := hrr (vertexAngle 6 rotation 0 - Real.pi / 3)
    have b4 := hrr (vertexAngle 6 rotation 0 - Real.pi / 3 - Real.pi / 3)
    have b5 := hrr (vertexAngle 6 rotation 0 - Real.pi / 3 - Real.pi / 3 - Real.pi / 3)
    dsimp only
    unfold regY
    rw [a1, a2, a3, a4, a5, b5, b4, b3, b2]
    refine ⟨rfl, rfl, ?_, ?_, ?_, ?_⟩ <;> ring

theorem hex_gap {h0 h1 R M : ℝ} (hq : h0 ^ 2 + h1 ^ 2 - h0 * h1 = 3 / 4 * R ^ 2) (hM : 0 < M) (hR : M ≤ R * (Real.sqrt 3 / 2)) (hlt : h0 < h1) (a : h0 ≤ 0) (b : 0 ≤ h1) : h0 + M ≤ h1 := by
  have h33 : Real.sqrt 3 ^ 2 = 3 := Real.sq_sqrt (by norm_num)
  have h1' : M ^ 2 ≤ (R * (Real.sqrt 3 / 2)) ^ 2 := pow_le_pow_left₀ hM.le hR 2
  have h2 : (R * (Real.sqrt 3 / 2)) ^ 2 = 3 / 4 * R ^ 2 := by rw [mul_pow, div_pow, h33]; ring
  have h3 : M ^ 2 ≤ (h1 - h0) ^ 2 := by nlinarith [mul_nonneg (neg_nonneg.mpr a) b]
  have := (pow_le_pow_iff_left₀ hM.le (by linarith : 0 ≤ h1 - h0) two_ne_zero).mp h3
  linarith

set_option maxHeartbeats 3200000 in
/-- The edges of a hexagon that are not from the lowest corner and not to the top are at least `√3/2` radii high. -/
theorem hex_slow (mag : ℕ) (hm : 0 < mag) (hR : 1 / (mag : ℝ) ≤ radPix dx beamrad norm rad * (Real.sqrt 3 / 2)) :
    Slow 6 (regX n dx beamrad norm 6 rad xc rotation) (regY n dx beamrad norm 6 rad yc rotation) mag := by
  obtain ⟨s, t, hq, y0, y1, y2, y3, y4, y5⟩ := hex_heights n dx beamrad norm rad yc rotation
  have hM : 0 < 1 / (mag : ℝ) := by positivity
  generalize regY n dx beamrad norm 6 rad yc rotation = Y at *
  generalize regX n dx beamrad norm 6 rad xc rotation = X at *
  generalize centrePix n dx beamrad norm yc = c at *
  generalize radPix dx beamrad norm rad = R at *
  intro k hk l hl hadj hlt hns ⟨m, hm6, hm'⟩
  -- the two cases that cannot be
  have key : ∀ h0 h1 : ℝ, Y k = h0 + c → Y l = h1 + c → h0 ^ 2 + h1 ^ 2 - h0 * h1 = 3 / 4 * R ^ 2 → (0 < h0 → ∀ m < 6, Y m ≤ Y l) →
      (h1 < 0 → ∀ m < 6, m ≠ k → Y k < Y m) → Y k + 1 / mag ≤ Y l := by
    intro h0 h1 e0 e1 hq' hmax hmin
    have a : h0 ≤ 0 := by
      by_contra h
      push Not at h
      have := hmax h m hm6
      linarith
    have b : 0 ≤ h1 := by
      by_contra h
      push Not at h
      apply hns
      refine ⟨hk, fun m hm => ?_⟩
      by_cases hmk : m = k
      · subst hmk; exact ⟨le_rfl, fun _ => le_rfl⟩
      · have := hmin h m hm hmk
        exact ⟨this.le, fun e => by rw [e] at this; exact absurd this (lt_irrefl _)⟩
    have := hex_gap hq' hM hR (by linarith : h0 < h1) a b
    linarith
  clear hm' hns hm6 m
  have hcases : (k = 0 ∧ l = 1) ∨ (k = 1 ∧ l = 2) ∨ (k = 2 ∧ l = 3) ∨ (k = 3 ∧ l = 4) ∨ (k = 4 ∧ l = 5) ∨ (k = 5 ∧ l = 0) ∨
      (l = 0 ∧ k = 1) ∨ (l = 1 ∧ k = 2) ∨ (l = 2 ∧ k = 3) ∨ (l = 3 ∧ k = 4) ∨ (l = 4 ∧ k = 5) ∨ (l = 5 ∧ k = 0) := by omega
  have fin6 : ∀ P : ℕ → Prop, P 0 → P 1 → P 2 → P 3 → P 4 → P 5 → ∀ m < 6, P m := by
    intro P p0 p1 p2 p3 p4 p5 m hm
    interval_cases m <;> assumption
  rcases hcases with ⟨rfl, rfl⟩ | ⟨rfl, rfl⟩ | ⟨rfl, rfl⟩ | ⟨rfl, rfl⟩ | ⟨rfl, rfl⟩ | ⟨rfl, rfl⟩ | ⟨rfl, rfl⟩ | ⟨rfl, rfl⟩ | ⟨rfl, rfl⟩ | ⟨rfl, rfl⟩ | ⟨rfl, rfl⟩ | ⟨rfl, rfl⟩ <;>
    refine key _ _ (by assumption) (by assumption) (by linear_combination hq) (fun h => fin6 _ ?_ ?_ ?_ ?_ ?_ ?_) (fun h => fin6 _ ?_ ?_ ?_ ?_ ?_ ?_) <;>
    first
      | linarith
      | (intro hne; exact absurd rfl hne)
      | (intro _; linarith)

theorem reg_inside (m : ℕ) (hR : 0 ≤ radPix dx beamrad norm rad) (lo hi cx : ℝ) (hx : centrePix n dx beamrad norm xc = cx)
    (h1 : lo ≤ cx - radPix dx beamrad norm rad) (h2 : cx + radPix dx beamrad norm rad < hi) (x y : ℝ)
    (h : (x, y) ∈ hull m (regX n dx beamrad norm m rad xc rotation) (regY n dx beamrad norm m rad yc rotation)) : lo ≤ x ∧ x < hi := by
  have hcon : Convex ℝ {q : ℝ × ℝ | lo ≤ q.1 ∧ q.1 < hi} := by
    intro q hq r hr s t hs ht hst
    obtain ⟨q1, q2⟩ := hq
    obtain ⟨r1, r2⟩ := hr
    show lo ≤ s * q.1 + t * r.1 ∧ s * q.1 + t * r.1 < hi
    have e : t = 1 - s := by linarith
    subst e
    refine ⟨by nlinarith, ?_⟩
    rcases hs.lt_or_eq with h | h
    · nlinarith
    · rw [← h]; linarith
  refine convexHull_min ?_ hcon h
  rintro v ⟨k, hk, rfl⟩
  show lo ≤ regX _ _ _ _ _ _ _ _ k ∧ regX _ _ _ _ _ _ _ _ k < hi
  unfold regX
  rw [hx]
  have c1 := Real.neg_one_le_cos (vertexAngle m rotation k)
  have c2 := Real.cos_le_one (vertexAngle m rotation k)
  constructor <;> nlinarith

/-- **C115.** Every hexagon within the array, at every rotation, is drawn right (its radius must be at least 1.16 sub-rows). -/
theorem C115_hexagon (mag : ℕ) [NeZero n] (hm : 0 < mag) (dark : Bool) (hR : 1 / (mag : ℝ) ≤ radPix dx beamrad norm rad * (Real.sqrt 3 / 2))
    (hx0 : -1 / 2 ≤ centrePix n dx beamrad norm xc - radPix dx beamrad norm rad) (hx1 : centrePix n dx beamrad norm xc + radPix dx beamrad norm rad < n - 1 / 2)
    (hy0 : -1 / 2 ≤ centrePix n dx beamrad norm yc - radPix dx beamrad norm rad) (hy1 : centrePix n dx beamrad norm yc + radPix dx beamrad norm rad < n - 1 / 2) :
    ∃ img, regularPolygon n mag dx beamrad norm dark 6 rad xc yc rotation = .ok img ∧ ∀ i j : ZMod n,
      img i j = if dark then 1 - stripMean mag (hull 6 (regX n dx beamrad norm 6 rad xc rotation) (regY n dx beamrad norm 6 rad yc rotation)) j.val i.val
        else stripMean mag (hull 6 (regX n dx beamrad norm 6 rad xc rotation) (regY n dx beamrad norm 6 rad yc rotation)) j.val i.val := by
  have hM : 0 < 1 / (mag : ℝ) := by positivity
  have hpos : 0 < radPix dx beamrad norm rad := by
    by_contra h
    push Not at h
    nlinarith [Real.sqrt_nonneg 3]
  have hrow : ∀ k, -1 / 2 ≤ regY n dx beamrad norm 6 rad yc rotation k ∧ regY n dx beamrad norm 6 rad yc rotation k < n - 1 / 2 := by
    intro k
    unfold regY
    have c1 := Real.neg_one_le_sin (vertexAngle 6 rotation k)
    have c2 := Real.sin_le_one (vertexAngle 6 rotation k)
    constructor <;> nlinarith
  have hcol := reg_inside n dx beamrad norm rad xc yc rotation 6 hpos.le (-1 / 2) (n - 1 / 2) _ rfl hx0 hx1
  obtain ⟨img, e, h⟩ := C115_regular n dx beamrad norm 6 rad xc yc rotation mag hm dark (by norm_num) hpos.ne' (hex_slow n dx beamrad norm rad xc yc rotation mag hm hR)
    (Or.inl fun k _ => (hrow k).1) (fun x y hxy _ _ => ⟨x, hxy, hcol x y hxy⟩) (Or.inl fun k _ => by
      have := (hrow k).2
      have h2 : (0 : ℝ) < 1 / (2 * mag) := by positivity
      linarith)
  exact ⟨img, e, fun i j => h i j (Or.inr fun x y hxy => (hcol x y hxy).2)⟩

end hexagon

end Verif.Polygon
