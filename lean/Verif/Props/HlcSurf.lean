import Verif.Model.HlcSurf
import Verif.Props.DmSurf
import Mathlib.Tactic

/-!
# C136: profiles of the layers of an HLC mask
-/

namespace Verif.HlcSurf
open Verif Verif.Util

/-! ### Specification -/

/-- The stamp of actuator `i`, put where it belongs in the array. -/
noncomputable def placed (d : Cube) (i : Fin d.NactTotal) (y x : ℕ) : ℝ :=
  if (d.lowerLeft 1 i ≤ y ∧ (y : ℤ) < d.lowerLeft 1 i + d.Nbox) ∧ (d.lowerLeft 0 i ≤ x ∧ (x : ℤ) < d.lowerLeft 0 i + d.Nbox) then
    d.inf ((y : ℤ) - d.lowerLeft 1 i).toNat ((x : ℤ) - d.lowerLeft 0 i).toNat i else 0

/-- Every stamp lies inside the array. -/
def Inside (d : Cube) : Prop := ∀ ax i, 0 ≤ d.lowerLeft ax i ∧ d.lowerLeft ax i + d.Nbox ≤ d.NdmPad

/-- Height asked of the actuator in row `r`, column `c`; zero where there is no actuator. -/
noncomputable def height (n : ℕ) (V VtoH : ℕ → ℕ → ℝ) (r c : ℤ) : ℝ :=
  if (0 ≤ r ∧ r < n) ∧ (0 ≤ c ∧ c < n) then V r.toNat c.toNat * VtoH r.toNat c.toNat else 0

/-! ### Lemmas -/

theorem hit_eq (N Nbox : ℕ) (lo : ℤ) (h : 0 ≤ lo) (p : ℕ) (hp : p < N) :
    hit N Nbox lo p = if lo ≤ p ∧ (p : ℤ) < lo + Nbox then some ((p : ℤ) - lo).toNat else none := by
  unfold hit
  have hb : ∀ a : ℕ, ((lo + a == (p : ℤ)) || (lo + a == (p : ℤ) - N)) = true ↔ a = ((p : ℤ) - lo).toNat ∧ lo ≤ p := by
    intro a
    simp only [Bool.or_eq_true, beq_iff_eq]
    omega
  split_ifs with hc
  · rw [List.find?_eq_some_iff_append]
    refine ⟨(hb _).mpr ⟨rfl, hc.1⟩, ?_⟩
    have hm : ((p : ℤ) - lo).toNat ∈ (List.range Nbox).reverse := by
      rw [List.mem_reverse, List.mem_range]; omega
    obtain ⟨s, t, hst⟩ := List.append_of_mem hm
    refine ⟨s, t, hst, fun a ha => ?_⟩
    have hnd : (List.range Nbox).reverse.Nodup := List.nodup_reverse.mpr List.nodup_range
    rw [hst] at hnd
    have hne : a ≠ ((p : ℤ) - lo).toNat := by
      intro e
      rw [List.nodup_append] at hnd
      exact hnd.2.2 a ha _ (by simp) e
    rw [Bool.not_eq_true', ← Bool.not_eq_true, hb]
    exact fun e => hne e.1
  · rw [List.find?_eq_none]
    intro a ha
    rw [List.mem_reverse, List.mem_range] at ha
    rw [hb]
    rintro ⟨e, h1⟩
    exact hc ⟨h1, by omega⟩

theorem add_eq (d : Cube) (h : Inside d) (i : Fin d.NactTotal) (y x : ℕ) (hy : y < d.NdmPad) (hx : x < d.NdmPad) :
    d.add i y x = d.V i * d.VtoH i * placed d i y x := by
  unfold Cube.add placed
  rw [hit_eq _ _ _ (h 1 i).1 y hy, hit_eq _ _ _ (h 0 i).1 x hx]
  by_cases h1 : d.lowerLeft 1 i ≤ y ∧ (y : ℤ) < d.lowerLeft 1 i + d.Nbox <;>
    by_cases h0 : d.lowerLeft 0 i ≤ x ∧ (x : ℤ) < d.lowerLeft 0 i + d.Nbox <;> simp [h1, h0]

/-! ### Theorems -/

open Classical in
/-- C136: with all stamps inside the array the profile is, at every pixel, the superposition of the stamps, each in its place and times command and gain, with negative
values replaced by zero.  Actuators whose stamp sums to less than 1e-8 or whose gain is below 1e-12 are left out. -/
theorem C136_superposition (d : Cube) (h : Inside d) :
    ∃ S, surf d = .ok S ∧ ∀ y x, y < d.NdmPad → x < d.NdmPad →
      S y x = max 0 (∑ i ∈ Finset.univ.filter fun i => d.used i, d.V i * d.VtoH i * placed d i y x) := by
  refine ⟨_, if_pos fun i _ => ⟨.inr ⟨by have := (h 0 i).1; omega, (h 0 i).2⟩, .inr ⟨by have := (h 1 i).1; omega, (h 1 i).2⟩⟩, fun y x hy hx => ?_⟩
  · dsimp only
    rw [← Finset.sum_filter, Finset.sum_congr rfl fun i _ => add_eq d h i y x hy hx]
    split_ifs with hs
    · rw [max_eq_left hs.le]
    · rw [max_eq_right (not_lt.mp hs)]

/-- C136: a profile is never negative, whatever the commands, gains and stamps. -/
theorem C136_nonneg (d : Cube) (S : ℕ → ℕ → ℝ) (h : surf d = .ok S) (y x : ℕ) : 0 ≤ S y x := by
  unfold surf at h
  split_ifs at h
  injection h with h
  rw [← h]
  dsimp only
  split_ifs with hs
  · exact le_rfl
  · exact not_lt.mp hs

section three
variable {actres Rin w : ℝ} (ha : 0 < actres) (hw : 0 < w) (V VtoH : ℕ → ℕ → ℝ)
include ha hw

theorem ppa_two : (dm9For actres Rin w true V VtoH).spacing / (dm9For actres Rin w true V VtoH).dxi = 2 := by
  simp only [dm9For]
  field_simp

theorem pad_eq : (dm9For actres Rin w true V VtoH).NdmPad = 2 * (dm9For actres Rin w true V VtoH).Nact + 4 := by
  unfold Dm3.NdmPad
  rw [ppa_two ha hw]
  generalize (dm9For actres Rin w true V VtoH).Nact = n
  unfold ceilEven
  have : (0.5 : ℝ) * (((n : ℝ) + 2) * 2) = ((n + 2 : ℤ) : ℝ) := by push_cast; ring
  rw [this, Int.ceil_intCast]; ring

theorem lower_eq (k : ℕ) : (dm9For actres Rin w true V VtoH).lower (k - (dm9For actres Rin w true V VtoH).xcent) = 2 * k + 2 := by
  unfold Dm3.lower
  rw [ppa_two ha hw, pad_eq ha hw]
  have hK : (dm9For actres Rin w true V VtoH).K = 3 := rfl
  have hx : (dm9For actres Rin w true V VtoH).xcent = (dm9For actres Rin w true V VtoH).Nact / 2 - 1 / 2 := rfl
  rw [hK, hx]
  generalize (dm9For actres Rin w true V VtoH).Nact = n
  have : ((k : ℝ) - ((n : ℝ) / 2 - 1 / 2)) * 2 = ((2 * k - n + 1 : ℤ) : ℝ) := by push_cast; ring
  simp only [this, Dm.npRound_intCast]
  norm_num
  omega

end three

/-- weights of the three pixels of a stamp, one axis -/
noncomputable def wt (y : ℕ) (r : ℕ) : ℝ := if (y : ℤ) - 3 = 2 * r then 1 else if (y : ℤ) - 3 = 2 * r + 1 ∨ (y : ℤ) - 3 = 2 * r - 1 then 1 / 2 else 0

theorem wt_eq (y r : ℕ) : wt y r = ((if (r : ℤ) = ((y : ℤ) - 3) / 2 then (1 : ℝ) else 0) + (if (r : ℤ) = ((y : ℤ) - 3 + 1) / 2 then 1 else 0)) / 2 := by
  unfold wt
  split_ifs <;> first | omega | norm_num

theorem sum_wt (n : ℕ) (g : ℕ → ℝ) (y : ℕ) :
    ∑ r : Fin n, g r.val * wt y r.val = ((if 0 ≤ ((y : ℤ) - 3) / 2 ∧ ((y : ℤ) - 3) / 2 < n then g (((y : ℤ) - 3) / 2).toNat else 0) +
      (if 0 ≤ ((y : ℤ) - 3 + 1) / 2 ∧ ((y : ℤ) - 3 + 1) / 2 < n then g (((y : ℤ) - 3 + 1) / 2).toNat else 0)) / 2 := by
  have one : ∀ q : ℤ, ∑ r : Fin n, g r.val * (if (r.val : ℤ) = q then (1 : ℝ) else 0) = if 0 ≤ q ∧ q < n then g q.toNat else 0 := by
    intro q
    split_ifs with h
    · rw [Finset.sum_eq_single (⟨q.toNat, by omega⟩ : Fin n)]
      · rw [if_pos (by change ((q.toNat : ℕ) : ℤ) = q; omega), mul_one]
      · intro b _ hb
        rw [if_neg, mul_zero]
        intro e; apply hb; ext; change b.val = q.toNat; omega
      · simp
    · refine Finset.sum_eq_zero fun r _ => ?_
      rw [if_neg, mul_zero]
      intro e; exact h ⟨by omega, by have := r.isLt; omega⟩
  simp only [wt_eq]
  rw [← one, ← one, ← Finset.sum_add_distrib, Finset.sum_div]
  refine Finset.sum_congr rfl fun r _ => ?_
  ring

theorem inf_wt (y x r c : ℕ) : (if ((2 * (r : ℤ) + 2 ≤ y ∧ (y : ℤ) < 2 * r + 2 + (3 : ℕ)) ∧ (2 * (c : ℤ) + 2 ≤ x ∧ (x : ℤ) < 2 * c + 2 + (3 : ℕ))) then
    inf3x3 ((y : ℤ) - (2 * r + 2)).toNat ((x : ℤ) - (2 * c + 2)).toNat else 0) = wt y r * wt x c := by
  have cases3 : ∀ (y r : ℕ), (2 * (r : ℤ) + 2 ≤ y ∧ (y : ℤ) < 2 * r + 2 + (3 : ℕ)) →
      (((y : ℤ) - (2 * r + 2)).toNat = 0 ∧ wt y r = 1 / 2) ∨ (((y : ℤ) - (2 * r + 2)).toNat = 1 ∧ wt y r = 1) ∨ (((y : ℤ) - (2 * r + 2)).toNat = 2 ∧ wt y r = 1 / 2) := by
    intro y r h
    push_cast at h
    have : (y : ℤ) = 2 * r + 2 ∨ (y : ℤ) = 2 * r + 3 ∨ (y : ℤ) = 2 * r + 4 := by omega
    unfold wt
    rcases this with e | e | e
    · left; exact ⟨by omega, by rw [if_neg (by omega), if_pos (by omega)]⟩
    · right; left; exact ⟨by omega, by rw [if_pos (by omega)]⟩
    · right; right; exact ⟨by omega, by rw [if_neg (by omega), if_pos (by omega)]⟩
  have out : ∀ (y r : ℕ), ¬ (2 * (r : ℤ) + 2 ≤ y ∧ (y : ℤ) < 2 * r + 2 + (3 : ℕ)) → wt y r = 0 := by
    intro y r h
    push_cast at h
    unfold wt
    rw [if_neg (by omega), if_neg (by omega)]
  by_cases hy : 2 * (r : ℤ) + 2 ≤ y ∧ (y : ℤ) < 2 * r + 2 + (3 : ℕ)
  · by_cases hx : 2 * (c : ℤ) + 2 ≤ x ∧ (x : ℤ) < 2 * c + 2 + (3 : ℕ)
    · rw [if_pos ⟨hy, hx⟩]
      rcases cases3 y r hy with ⟨e, e'⟩ | ⟨e, e'⟩ | ⟨e, e'⟩ <;> rcases cases3 x c hx with ⟨f, f'⟩ | ⟨f, f'⟩ | ⟨f, f'⟩ <;>
        rw [e, f, e', f'] <;> norm_num [inf3x3]
    · rw [if_neg (fun h => hx h.2), out x c hx, mul_zero]
  · rw [if_neg (fun h => hy h.1), out y r hy, zero_mul]

/-- C136: the dielectric layer of a mask with the 3x3 influence function: for every resolution, mask radius, command and gain (gains not below 1e-12), the profile has
`2·Nact + 4` pixels across and is the bilinear interpolation of the actuator heights at half-actuator steps, negative values set to zero: at pixel `(y, x)` the mean
of the heights at the actuators around the point `((y - 3)/2, (x - 3)/2)` of the actuator grid, with zero height outside the grid. -/
theorem C136_bilinear (actres Rin w : ℝ) (ha : 0 < actres) (hw : 0 < w) (V VtoH : ℕ → ℕ → ℝ) (hG : ∀ r c, (1e-12 : ℝ) ≤ |VtoH r c|) :
    ∃ d S, cube3 (dm9For actres Rin w true V VtoH) = .ok d ∧ surf d = .ok S ∧ d.NdmPad = 2 * (ceilEven (2 * Rin * actres)).toNat + 4 ∧
      ∀ y x, y < d.NdmPad → x < d.NdmPad →
        let E := height (ceilEven (2 * Rin * actres)).toNat V VtoH
        S y x = max 0 ((E (((y : ℤ) - 3) / 2) (((x : ℤ) - 3) / 2) + E (((y : ℤ) - 3 + 1) / 2) (((x : ℤ) - 3) / 2) +
          E (((y : ℤ) - 3) / 2) (((x : ℤ) - 3 + 1) / 2) + E (((y : ℤ) - 3 + 1) / 2) (((x : ℤ) - 3 + 1) / 2)) / 4) := by
  set D := dm9For actres Rin w true V VtoH with hD
  have hpad := pad_eq (Rin := Rin) ha hw V VtoH
  have hlow := lower_eq (Rin := Rin) ha hw V VtoH
  rw [← hD] at hpad hlow
  have hc : cube3 D = .ok D.cube := if_pos rfl
  have hn : D.Nact = (ceilEven (2 * Rin * actres)).toNat := rfl
  have hlow' : ∀ k : ℕ, D.lower (k - D.ycent) = 2 * k + 2 := hlow
  have hin : Inside D.cube := by
    intro ax i
    have hi := i.isLt
    have h0 : 0 < D.Nact := by
      rcases Nat.eq_zero_or_pos D.Nact with e | e
      · exfalso
        have hi' : i.val < D.Nact * D.Nact := hi
        rw [e] at hi'; simp at hi'
      · exact e
    have h1 := Nat.mod_lt i.val h0
    have h2 : i.val / D.Nact < D.Nact := Nat.div_lt_of_lt_mul hi
    have hK : D.K = 3 := rfl
    change 0 ≤ (if ax = 0 then D.lower ((i.val % D.Nact : ℕ) - D.xcent) else D.lower ((i.val / D.Nact : ℕ) - D.ycent)) ∧
      (if ax = 0 then D.lower ((i.val % D.Nact : ℕ) - D.xcent) else D.lower ((i.val / D.Nact : ℕ) - D.ycent)) + (D.K : ℕ) ≤ (D.NdmPad.toNat : ℕ)
    rw [hlow, hlow', hpad, hK]
    generalize i.val % D.Nact = p at h1 ⊢
    generalize i.val / D.Nact = q at h2 ⊢
    generalize D.Nact = m at h1 h2 ⊢
    split_ifs <;> omega
  obtain ⟨S, hS, hval⟩ := C136_superposition _ hin
  refine ⟨_, S, hc, hS, ?_, fun y x hy hx => ?_⟩
  · change D.NdmPad.toNat = _
    rw [hpad, ← hn]; omega
  · rw [hval y x hy hx]
    dsimp only
    congr 1
    classical
    rw [Finset.filter_true_of_mem]
    · have hterm : ∀ i : Fin D.cube.NactTotal, D.cube.V i * D.cube.VtoH i * placed D.cube i y x =
          V (i.val / D.Nact) (i.val % D.Nact) * VtoH (i.val / D.Nact) (i.val % D.Nact) * wt x (i.val % D.Nact) * wt y (i.val / D.Nact) := by
        intro i
        rw [mul_assoc _ (wt x _), mul_comm (wt x _), ← inf_wt y x (i.val / D.Nact) (i.val % D.Nact)]
        have e0 : D.cube.lowerLeft 0 i = 2 * (i.val % D.Nact : ℕ) + 2 := hlow _
        have e1 : D.cube.lowerLeft 1 i = 2 * (i.val / D.Nact : ℕ) + 2 := hlow' _
        unfold placed
        rw [e0, e1]
        rfl
      rw [Finset.sum_congr rfl fun i _ => hterm i]
      have hsum : ∀ F : ℕ → ℕ → ℝ, ∑ i : Fin (D.Nact * D.Nact), F (i.val / D.Nact) (i.val % D.Nact) = ∑ r : Fin D.Nact, ∑ c : Fin D.Nact, F r.val c.val := by
        intro F
        rw [← Fintype.sum_prod_type']
        refine (Fintype.sum_equiv finProdFinEquiv _ _ fun p => ?_).symm
        have h0 : 0 < D.Nact := lt_of_le_of_lt (Nat.zero_le _) p.2.isLt
        have e : (finProdFinEquiv p).val = p.2.val + D.Nact * p.1.val := rfl
        rw [e, Nat.add_mul_div_left _ _ h0, Nat.div_eq_of_lt p.2.isLt, Nat.zero_add, Nat.add_mul_mod_self_left, Nat.mod_eq_of_lt p.2.isLt]
      refine (hsum fun r c => V r c * VtoH r c * wt x c * wt y r).trans ?_
      simp only [← Finset.sum_mul]
      rw [sum_wt D.Nact (fun r => ∑ c : Fin D.Nact, V r c.val * VtoH r c.val * wt x c.val) y]
      simp only [fun r => sum_wt D.Nact (fun c => V r c * VtoH r c) x]
      rw [hn]
      unfold height
      generalize ((y : ℤ) - 3) / 2 = a
      generalize ((y : ℤ) - 3 + 1) / 2 = a'
      generalize ((x : ℤ) - 3) / 2 = b
      generalize ((x : ℤ) - 3 + 1) / 2 = b'
      by_cases h1 : 0 ≤ a ∧ a < ((ceilEven (2 * Rin * actres)).toNat : ℤ) <;> by_cases h2 : 0 ≤ a' ∧ a' < ((ceilEven (2 * Rin * actres)).toNat : ℤ) <;>
      by_cases h3 : 0 ≤ b ∧ b < ((ceilEven (2 * Rin * actres)).toNat : ℤ) <;> by_cases h4 : 0 ≤ b' ∧ b' < ((ceilEven (2 * Rin * actres)).toNat : ℤ) <;>
      simp only [h1, h2, h3, h4, and_self, and_true, and_false, true_and, false_and, if_true, if_false] <;> ring
    · intro i _
      refine ⟨?_, hG _ _⟩
      change (1e-8 : ℝ) ≤ ∑ a ∈ Finset.range 3, ∑ b ∈ Finset.range 3, |inf3x3 a b|
      norm_num [Finset.sum_range_succ, inf3x3]

/-- C136: pixel `2k + 3` of the array is where actuator `k` is: its coordinate is `(k - (Nact - 1)/2)` actuator widths. -/
theorem C136_coordinates (actres Rin w : ℝ) (ha : 0 < actres) (hw : 0 < w) (V VtoH : ℕ → ℕ → ℝ) (k : ℕ) :
    (dm9For actres Rin w true V VtoH).xPupPad (2 * k + 3) = ((k : ℝ) - (((ceilEven (2 * Rin * actres)).toNat : ℝ) - 1) / 2) * (w / actres) := by
  unfold Dm3.xPupPad
  rw [pad_eq ha hw]
  have hn : (dm9For actres Rin w true V VtoH).Nact = (ceilEven (2 * Rin * actres)).toNat := rfl
  have hd : (dm9For actres Rin w true V VtoH).dxi = w / (actres / (1 / 2)) := rfl
  rw [hn, hd]
  push_cast
  generalize (((ceilEven (2 * Rin * actres)).toNat : ℕ) : ℝ) = n
  field_simp
  ring

/-- C136: every DM that is not centred on a pixel is rejected. -/
theorem C136_interpixel (d : Dm3) (h : d.pixel = false) : cube3 d = .error .valueError := by
  unfold cube3; rw [h]; rfl

/-! ### Non-vacuity -/

/-- Mask of radius 2 λ/D with one actuator per λ/D: 4 actuators, 12 pixels; a ramp of commands along the columns, gain 1: pixel (3, 6) is halfway between the commands
1 and 2. -/
example : ∃ d S, cube3 (dm9For 1 2 1 true (fun _ c => c) (fun _ _ => 1)) = .ok d ∧ surf d = .ok S ∧ S 3 6 = 3 / 2 := by
  obtain ⟨d, S, h1, h2, h3, h4⟩ := C136_bilinear 1 2 1 one_pos one_pos (fun _ c => c) (fun _ _ => 1) (by norm_num)
  have hc : (ceilEven (2 * 2 * 1)).toNat = 4 := by
    unfold ceilEven
    have : (0.5 : ℝ) * (2 * 2 * 1) = ((2 : ℤ) : ℝ) := by norm_num
    rw [this, Int.ceil_intCast]; rfl
  rw [hc] at h3 h4
  refine ⟨d, S, h1, h2, ?_⟩
  rw [h4 3 6 (by omega) (by omega)]
  have e : Int.toNat 2 = 2 := rfl
  norm_num [height, e]

end Verif.HlcSurf
