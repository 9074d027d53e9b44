import Verif.Model.HlcCos
import Verif.Props.HlcSurf
import Mathlib.Tactic
import Mathlib.Analysis.Real.Pi.Bounds

/-!
# C137, C138: the cosine basis of an HLC mask, and the set-up of the mask
-/

namespace Verif.HlcCos
open Verif Verif.Util Verif.HlcSurf

theorem cos_shift (s : ℝ) : Real.cos (2 * Real.pi * (s - 0.5)) = -Real.cos (2 * Real.pi * s) := by
  rw [← Real.cos_sub_pi]; congr 1; ring

theorem sign_flip (n : ℕ) : (-1 : ℝ) ^ ((n + 1) % 2) = -(-1) ^ n := by
  rcases Nat.even_or_odd n with h | h
  · rw [h.neg_one_pow]
    have : (n + 1) % 2 = 1 := by have := Nat.even_iff.mp h; omega
    rw [this]; norm_num
  · rw [h.neg_one_pow]
    have : (n + 1) % 2 = 0 := by have := Nat.odd_iff.mp h; omega
    rw [this]; norm_num

/-- profile of ring `ri` at `s = R·actres` -/
noncomputable def prof (ri : ℕ) (s : ℝ) : ℝ := (1 + (-1) ^ ri * Real.cos (2 * Real.pi * s)) / 2

theorem prof_mem (ri : ℕ) (s : ℝ) : 0 ≤ prof ri s ∧ prof ri s ≤ 1 := by
  unfold prof
  have h1 := Real.neg_one_le_cos (2 * Real.pi * s)
  have h2 := Real.cos_le_one (2 * Real.pi * s)
  rcases neg_one_pow_eq_or ℝ ri with h | h <;> rw [h] <;> constructor <;> linarith

theorem prof_next (ri : ℕ) (s : ℝ) : prof ri s + prof (ri + 1) s = 1 := by
  unfold prof; rw [pow_succ]; ring

theorem prof_node (m ri : ℕ) (s : ℝ) (hs : 2 * s = m) : prof ri s = if (m + ri) % 2 = 0 then 1 else 0 := by
  unfold prof
  have : 2 * Real.pi * s = (m : ℕ) * Real.pi := by rw [← hs]; ring
  rw [this, Real.cos_nat_mul_pi, ← pow_add]
  rcases Nat.mod_two_eq_zero_or_one (m + ri) with h | h
  · rw [if_pos h, Even.neg_one_pow (by rw [Nat.even_iff]; omega)]; norm_num
  · rw [if_neg (by omega), Odd.neg_one_pow (by rw [Nat.odd_iff]; omega)]; norm_num

theorem window_mem (c : Cfg) (R : ℝ) : 0 ≤ c.window R ∧ c.window R ≤ 1 := by
  unfold Cfg.window
  have he : Even 44 := ⟨22, rfl⟩
  have h1 : Real.exp (-(R / c.Rin / (c.Rin / (c.Rin + 0.1) * 1)) ^ 44) ≤ 1 := by
    rw [Real.exp_le_one_iff]
    have := he.pow_nonneg (R / c.Rin / (c.Rin / (c.Rin + 0.1) * 1))
    linarith
  have h0 := Real.exp_nonneg (-(R / c.Rin / (c.Rin / (c.Rin + 0.1) * 1)) ^ 44)
  split_ifs <;> constructor <;> linarith

/-- ring `ri` beyond the centre -/
theorem ring_eq (c : Cfg) (ha : 0 < c.actres) (ri : ℕ) (h1 : 1 ≤ ri) (R : ℝ) (hR : c.drSep ≤ R) :
    c.ring ri R = if (ri : ℝ) - 1 ≤ 2 * (R * c.actres) ∧ 2 * (R * c.actres) ≤ ri + 1 then c.window R * prof ri (R * c.actres) else 0 := by
  have hd : c.drSep = 1 / (2 * c.actres) := by unfold Cfg.drSep; field_simp
  have hlt : ∀ k : ℝ, R < c.drSep * k ↔ 2 * (R * c.actres) < k := by
    intro k
    rw [hd, one_div, inv_mul_eq_div, lt_div_iff₀ (by linarith)]
    constructor <;> intro h <;> linarith
  have hgt : ∀ k : ℝ, R > c.drSep * k ↔ k < 2 * (R * c.actres) := by
    intro k
    rw [hd, one_div, inv_mul_eq_div, gt_iff_lt, div_lt_iff₀ (by linarith)]
    constructor <;> intro h <;> linarith
  unfold Cfg.ring
  dsimp only
  rw [cos_shift, sign_flip]
  simp only [hlt, hgt]
  have e : c.window R * (1 + -(-1) ^ ri * -Real.cos (2 * Real.pi * (R * c.actres))) / 2 = c.window R * prof ri (R * c.actres) := by
    unfold prof; ring
  rw [e]
  by_cases h : ri = 1
  · subst h
    have h2 : (0 : ℝ) ≤ 2 * (R * c.actres) := by
      have := (hlt 1).not.mp (by rw [mul_one]; exact not_lt.mpr hR); linarith
    rw [if_pos rfl, if_neg (not_lt.mpr hR)]
    by_cases h3 : ((1 : ℕ) : ℝ) + 1 < 2 * (R * c.actres)
    · rw [if_pos h3, if_neg (fun q => absurd q.2 (not_le.mpr h3))]
    · rw [if_neg h3, if_pos ⟨by push_cast; linarith, not_lt.mp h3⟩]
  · rw [if_neg h]
    by_cases h3 : (ri : ℝ) + 1 < 2 * (R * c.actres)
    · rw [if_pos h3, if_neg (fun q => absurd q.2 (not_le.mpr h3))]
    · rw [if_neg h3]
      by_cases h4 : 2 * (R * c.actres) < (ri : ℝ) - 1
      · rw [if_pos h4, if_neg (fun q => absurd q.1 (not_le.mpr h4))]
      · rw [if_neg h4, if_pos ⟨not_lt.mp h4, not_lt.mp h3⟩]

theorem ring_centre (c : Cfg) (ha : 0 < c.actres) (ri : ℕ) (h1 : 1 ≤ ri) (R : ℝ) (hR : R < c.drSep) : c.ring ri R = if ri = 1 then 1 else 0 := by
  have hd : 0 < c.drSep := by unfold Cfg.drSep; positivity
  unfold Cfg.ring
  dsimp only
  have hk : (1 : ℝ) ≤ ri := by exact_mod_cast h1
  rw [if_neg (by nlinarith)]
  by_cases h : ri = 1
  · rw [if_pos h, if_pos hR, if_pos h]
  · have h2 : (2 : ℝ) ≤ ri := by exact_mod_cast (by omega : 2 ≤ ri)
    rw [if_neg h, if_pos (by nlinarith), if_neg h]

/-- C137: at every radius the rings of the cosine basis add up to one (within half a ring width of the centre) or to the window of the mask (beyond): with equal commands the
layer is flat up to the edge of the mask.  All resolutions and mask radii. -/
theorem C137_partition (c : Cfg) (ha : 0 < c.actres) (hR : 0 < c.Rin) (R : ℝ) (h0 : 0 ≤ R) :
    ∑ ri ∈ Finset.Icc 1 c.Nrad, c.ring ri R = if R < 1 / c.actres / 2 then 1 else c.window R := by
  have hN : 2 * c.actres * c.Rin ≤ c.Nrad := by
    unfold Cfg.Nrad
    have h1 := Int.le_ceil (2 * c.actres * c.Rin)
    have h2 : (0 : ℝ) < 2 * c.actres * c.Rin := by positivity
    have h3 : 0 < ⌈2 * c.actres * c.Rin⌉ := Int.ceil_pos.mpr h2
    have h4 : ((⌈2 * c.actres * c.Rin⌉.toNat : ℕ) : ℤ) = ⌈2 * c.actres * c.Rin⌉ := Int.toNat_of_nonneg h3.le
    have h5 : ((⌈2 * c.actres * c.Rin⌉.toNat : ℕ) : ℝ) = (⌈2 * c.actres * c.Rin⌉ : ℝ) := by exact_mod_cast h4
    rw [h5]; exact h1
  have hN1 : 1 ≤ c.Nrad := by
    have : (0 : ℝ) < c.Nrad := lt_of_lt_of_le (by positivity) hN
    exact_mod_cast this
  change _ = if R < c.drSep then 1 else c.window R
  split_ifs with hc
  · rw [Finset.sum_congr rfl fun ri hri => ring_centre c ha ri (Finset.mem_Icc.mp hri).1 R hc]
    rw [Finset.sum_ite_eq' (Finset.Icc 1 c.Nrad) 1, if_pos (Finset.mem_Icc.mpr ⟨le_rfl, hN1⟩)]
  · have hc := not_lt.mp hc
    rw [Finset.sum_congr rfl fun ri hri => ring_eq c ha ri (Finset.mem_Icc.mp hri).1 R hc]
    by_cases hin : R ≤ c.Rin
    · set s := R * c.actres with hs
      have hs1 : 1 ≤ 2 * s := by
        have : 1 / c.actres / 2 ≤ R := hc
        rw [div_div, div_le_iff₀ (by positivity)] at this
        rw [hs]; linarith
      have hsN : 2 * s ≤ c.Nrad := le_trans (by rw [hs]; nlinarith) hN
      obtain ⟨m, hm, hm'⟩ : ∃ m : ℕ, (m : ℝ) ≤ 2 * s ∧ 2 * s < m + 1 :=
        ⟨⌊2 * s⌋₊, Nat.floor_le (by linarith), Nat.lt_floor_add_one _⟩
      have hm1 : 1 ≤ m := by
        have : (0 : ℝ) < m := by linarith
        exact_mod_cast this
      have hmN : m ≤ c.Nrad := by exact_mod_cast hm.trans hsN
      rcases hm.eq_or_lt with he | hlt
      · rw [Finset.sum_eq_single m]
        · rw [if_pos ⟨by linarith, by linarith⟩, prof_node m m s he.symm, if_pos (by omega), mul_one]
        · intro ri _ hne
          split_ifs with h
          · rw [← he] at h
            have h1 : ri ≤ m + 1 := by exact_mod_cast (by linarith [h.1] : (ri : ℝ) ≤ m + 1)
            have h2 : m ≤ ri + 1 := by exact_mod_cast h.2
            rw [prof_node m ri s he.symm, if_neg (by omega), mul_zero]
          · rfl
        · intro h; exact absurd (Finset.mem_Icc.mpr ⟨hm1, hmN⟩) h
      · have hm1N : m + 1 ≤ c.Nrad := by
          have : (m : ℝ) < c.Nrad := lt_of_lt_of_le hlt hsN
          exact_mod_cast this
        rw [Finset.sum_eq_add m (m + 1) (by omega)]
        · rw [if_pos ⟨by linarith, by linarith⟩, if_pos ⟨by push_cast; linarith, by push_cast; linarith⟩, ← mul_add, prof_next, mul_one]
        · intro ri _ hne
          rw [if_neg]
          rintro ⟨h1, h2⟩
          have a1 : (ri : ℝ) < m + 2 := by linarith
          have a2 : (m : ℝ) < ri + 1 := by linarith
          have b1 : ri < m + 2 := by exact_mod_cast a1
          have b2 : m < ri + 1 := by exact_mod_cast a2
          omega
        · intro h; exact absurd (Finset.mem_Icc.mpr ⟨hm1, hmN⟩) h
        · intro h; exact absurd (Finset.mem_Icc.mpr ⟨by omega, hm1N⟩) h
    · have hw : c.window R = 0 := by unfold Cfg.window; rw [if_neg hin, zero_mul]
      rw [hw]
      refine Finset.sum_eq_zero fun ri _ => ?_
      rw [zero_mul, ite_self]

/-- C137: ring `ri` is between 0 and 1 and lives between the radii `(ri - 1)/(2·actres)` and `(ri + 1)/(2·actres)`. -/
theorem C137_ring (c : Cfg) (ha : 0 < c.actres) (ri : ℕ) (h1 : 1 ≤ ri) (R : ℝ) (h0 : 0 ≤ R) :
    (0 ≤ c.ring ri R ∧ c.ring ri R ≤ 1) ∧ (R * (2 * c.actres) < ri - 1 ∨ ri + 1 < R * (2 * c.actres) → c.ring ri R = 0) := by
  rcases lt_or_ge R c.drSep with hc | hc
  · rw [ring_centre c ha ri h1 R hc]
    refine ⟨by split_ifs <;> norm_num, fun h => ?_⟩
    rw [if_neg]
    rintro rfl
    have : R < 1 / c.actres / 2 := hc
    rw [div_div, lt_div_iff₀ (by positivity)] at this
    have h2 : 0 ≤ R * (2 * c.actres) := by positivity
    rcases h with h | h
    · push_cast at h; linarith
    · push_cast at h; linarith
  · rw [ring_eq c ha ri h1 R hc]
    have hp := prof_mem ri (R * c.actres)
    have hw := window_mem c R
    refine ⟨?_, fun h => ?_⟩
    · split_ifs
      · exact ⟨mul_nonneg hw.1 hp.1, mul_le_one₀ hw.2 hp.1 hp.2⟩
      · exact ⟨le_rfl, zero_le_one⟩
    · rw [if_neg]
      rintro ⟨h1, h2⟩
      rcases h with h | h <;> linarith

/-! ### The list of modes -/

theorem lobes_mem (c : Cfg) (ri : ℕ) : ∃ k < 30, c.lobes ri = 12 * (k + 1) := by
  unfold Cfg.lobes
  dsimp only
  rcases h : List.find? _ ((List.range 30).map fun k => 12 * (k + 1)) with _ | p
  · exact ⟨0, by norm_num, rfl⟩
  · have := List.mem_of_find?_eq_some h
    rw [List.mem_map] at this
    obtain ⟨k, hk, e⟩ := this
    exact ⟨k, List.mem_range.mp hk, e.symm⟩

theorem lobes_twelve (c : Cfg) (ri : ℕ) (h : 2 * Real.pi * (c.drSep * ((ri : ℝ) - 1)) / c.minAzim * 18 ≤ 12) : c.lobes ri = 12 := by
  unfold Cfg.lobes
  dsimp only
  rw [List.range_succ_eq_map, List.map_cons, List.find?_cons_of_pos]
  · rfl
  · rw [decide_eq_true_eq]; push_cast; linarith

theorem cosList_err (c : Cfg) (l : List ℕ) (nd : ℕ) (e : PyErr) (h : c.cosList l nd = .error e) : e = .indexError := by
  induction l generalizing nd with
  | nil => cases h
  | cons ri rs ih =>
    unfold Cfg.cosList at h
    split_ifs at h with hc
    · injection h with h; exact h.symm
    · rcases hq : c.cosList rs (c.lobes ri / 6) with e' | q
      · rw [hq] at h; injection h with h; subst h; exact ih _ hq
      · rw [hq] at h; cases h

/-- the cosine modes made are at least three per ring, and more if a ring before the last has more than 12 lobes -/
theorem cosList_len (c : Cfg) (l : List ℕ) (nd : ℕ) (hnd : 2 ≤ nd) (q : List (ℕ × ℕ)) (h : c.cosList l nd = .ok q) :
    3 * l.length ≤ q.length ∧ ((2 < nd ∧ l ≠ [] ∨ ∃ ri ∈ l.dropLast, c.lobes ri ≠ 12) → 3 * l.length < q.length) ∧
    (nd = 2 → (∀ ri ∈ l, c.lobes ri = 12) → q.length = 3 * l.length) := by
  induction l generalizing nd q with
  | nil =>
    injection h with h
    subst h
    simp
  | cons ri rs ih =>
    unfold Cfg.cosList at h
    split_ifs at h with hc
    rcases hq : c.cosList rs (c.lobes ri / 6) with e' | q'
    · rw [hq] at h; cases h
    · rw [hq] at h
      injection h with h
      obtain ⟨k, _, hk⟩ := lobes_mem c ri
      obtain ⟨i1, i2, i3⟩ := ih (c.lobes ri / 6) (by omega) q' hq
      have hl : q.length = nd + 1 + q'.length := by rw [← h]; simp
      refine ⟨by rw [hl, List.length_cons]; omega, ?_, ?_⟩
      · rintro (⟨h2, _⟩ | ⟨x, hx, hx'⟩)
        · rw [hl, List.length_cons]; omega
        · rcases rs with _ | ⟨b, t⟩
          · simp at hx
          · rw [List.dropLast_cons_cons, List.mem_cons] at hx
            rw [hl, List.length_cons]
            rcases hx with rfl | hx
            · have := i2 (.inl ⟨by omega, by simp⟩); omega
            · have := i2 (.inr ⟨x, hx, hx'⟩); omega
      · intro h2 hall
        have := i3 (by rw [hall ri (by simp)]) fun x hx => hall x (by simp [hx])
        rw [hl, List.length_cons]; omega

theorem cosList_ok (c : Cfg) (l : List ℕ) (h : ∀ ri ∈ l, c.lobes ri = 12) : ∃ q, c.cosList l 2 = .ok q := by
  induction l with
  | nil => exact ⟨[], rfl⟩
  | cons ri rs ih =>
    obtain ⟨q, hq⟩ := ih fun x hx => h x (by simp [hx])
    have h12 := h ri (by simp)
    unfold Cfg.cosList
    rw [h12, if_neg (by norm_num), show 12 / 6 = 2 by norm_num, hq]
    exact ⟨_, rfl⟩

theorem sinList_len (c : Cfg) : c.sinList.length = 4 * c.rings.length := by
  unfold Cfg.sinList
  rw [List.length_flatMap]
  simp [mul_comm]

/-- C137: if the rings are narrow enough that 12 lobes around do (`36π·r/12` not above the smallest azimuthal size, `r` the inner radius of the ring), the cube is made, with
all the modes announced, the rings first. -/
theorem C137_cube (c : Cfg) (h : ∀ ri ∈ c.rings, 2 * Real.pi * (1 / c.actres / 2 * ((ri : ℝ) - 1)) / c.minAzim * 18 ≤ 12) :
    ∃ q, c.cube = .ok q ∧ ∀ y x i, i < c.Nrad → q y x i = c.ring (i + 1) (c.R y x) := by
  obtain ⟨cl, hcl⟩ := cosList_ok c c.rings fun ri hri => lobes_twelve c ri (h ri hri)
  have hlen := (cosList_len c c.rings 2 le_rfl cl hcl).2.2 rfl fun ri hri => lobes_twelve c ri (h ri hri)
  unfold Cfg.cube
  rw [hcl]
  simp only [Except.bind]
  rw [sinList_len, hlen, if_neg (by unfold Cfg.NactTotal; omega)]
  exact ⟨_, rfl, fun y x i hi => if_pos hi⟩

/-- C137, violated: if a ring before the last needs more than 12 lobes, the cube cannot be made: the loop over the rings overwrites the number of modes per ring that
the size of the cube was computed with, and `IndexError` is raised. -/
theorem C137_lobes_violated (c : Cfg) (ri : ℕ) (h : ri ∈ c.rings.dropLast) (hl : 12 < 2 * Real.pi * (1 / c.actres / 2 * ((ri : ℝ) - 1)) / c.minAzim * 18)
    (hu : 2 * Real.pi * (1 / c.actres / 2 * ((ri : ℝ) - 1)) / c.minAzim * 18 ≤ 360) : c.cube = .error .indexError := by
  have hne : c.lobes ri ≠ 12 := by
    unfold Cfg.lobes
    dsimp only
    have hex : ∃ p ∈ (List.range 30).map fun k => 12 * (k + 1), decide (2 * Real.pi * (c.drSep * ((ri : ℝ) - 1)) / c.minAzim * 18 ≤ ((p : ℕ) : ℝ)) = true := by
      refine ⟨360, List.mem_map.mpr ⟨29, by simp, rfl⟩, ?_⟩
      rw [decide_eq_true_eq]; push_cast; exact hu
    rcases hf : List.find? _ ((List.range 30).map fun k => 12 * (k + 1)) with _ | p
    · obtain ⟨p, hp, hp'⟩ := hex
      rw [List.find?_eq_none] at hf
      exact absurd hp' (hf p hp)
    · rw [Option.getD_some]
      rintro rfl
      have := List.find?_some hf
      rw [decide_eq_true_eq] at this
      push_cast at this
      have h2 : 2 * Real.pi * (c.drSep * ((ri : ℝ) - 1)) / c.minAzim * 18 ≤ 12 := this
      unfold Cfg.drSep at h2
      linarith
  unfold Cfg.cube
  rcases hq : c.cosList c.rings 2 with e | cl
  · rw [cosList_err c c.rings 2 e hq]; rfl
  · have hlen := (cosList_len c c.rings 2 le_rfl cl hq).2.1 (.inr ⟨ri, h, hne⟩)
    simp only [Except.bind]
    rw [sinList_len, if_pos (by unfold Cfg.NactTotal; omega)]

/-- C137, violated: with centering 'interpixel' no mode depends on the azimuth: every one is a multiple of a ring. -/
theorem C137_interpixel_violated (c : Cfg) (hc : c.centering = .interpixel) (q : ℕ → ℕ → ℕ → ℝ) (h : c.cube = .ok q) (i : ℕ) :
    ∃ (k : ℝ) (ri : ℕ), ∀ y x, q y x i = k * c.ring ri (c.R y x) := by
  have ht : ∀ y x, c.theta y x = c.theta 0 0 := by intro y x; unfold Cfg.theta; rw [hc]
  have ht6 : ∀ y x, c.theta6 y x = c.theta 0 0 := by intro y x; unfold Cfg.theta6; exact ht _ _
  have hcos : ∀ (ri II : ℕ), ∃ k : ℝ, ∀ y x, c.cosMode ri II y x = k * c.ring ri (c.R y x) := by
    intro ri II
    refine ⟨cosFactor (c.lobes ri) II (c.theta 0 0) (c.theta 0 0) / 2, fun y x => ?_⟩
    unfold Cfg.cosMode
    rw [ht y x, ht6 y x]
    ring
  have hsin : ∀ (ri II : ℕ), ∃ k : ℝ, ∀ y x, c.sinMode ri II y x = k * c.ring ri (c.R y x) := by
    intro ri II
    refine ⟨sinFactor (c.lobes ri) II (c.theta 0 0) (c.theta 0 0) / 2, fun y x => ?_⟩
    unfold Cfg.sinMode
    rw [ht y x, ht6 y x]
    ring
  unfold Cfg.cube at h
  rcases hq : c.cosList c.rings 2 with e | cl
  · rw [hq] at h; cases h
  · rw [hq] at h
    simp only [Except.bind] at h
    split_ifs at h with hn
    injection h with h
    subst h
    dsimp only
    by_cases hi : i < c.Nrad
    · exact ⟨1, i + 1, fun y x => by rw [if_pos hi, one_mul]⟩
    · simp only [if_neg hi]
      rcases h1 : cl[i - c.Nrad]? with _ | p
      · rcases h2 : c.sinList[i - c.Nrad - cl.length]? with _ | p
        · exact ⟨0, 0, fun y x => by rw [zero_mul]⟩
        · obtain ⟨k, hk⟩ := hsin p.1 p.2
          exact ⟨k, p.1, hk⟩
      · obtain ⟨k, hk⟩ := hcos p.1 p.2
        exact ⟨k, p.1, hk⟩

/-- C137: with the initial commands (`V0coef` on the rings, zero on the other modes) the profile of the layer is `V0coef·VtoHavg` in the middle and that times the window
elsewhere, at every pixel, to within 1e-8 per ring (rings with next to nothing on the grid are left out). -/
theorem C137_flat (c : Cfg) (ha : 0 < c.actres) (hR : 0 < c.Rin) (q : ℕ → ℕ → ℕ → ℝ) (h : c.cube = .ok q) (hV : 0 ≤ c.V0coef) (hG : 1e-12 ≤ c.VtoHavg) :
    ∃ S, surf (c.dm9 q) = .ok S ∧ ∀ y x, y < c.NdmPad → x < c.NdmPad →
      |S y x - c.V0coef * c.VtoHavg * (if c.R y x < 1 / c.actres / 2 then 1 else c.window (c.R y x))| ≤ c.Nrad * (c.V0coef * c.VtoHavg * 1e-8) := by
  classical
  have hq : ∀ y x i, i < c.Nrad → q y x i = c.ring (i + 1) (c.R y x) := by
    unfold Cfg.cube at h
    rcases hq : c.cosList c.rings 2 with e | cl
    · rw [hq] at h; cases h
    · rw [hq] at h
      simp only [Except.bind] at h
      split_ifs at h with hn
      injection h with h
      subst h
      intro y x i hi
      dsimp only
      rw [if_pos hi]
  have hin : Inside (c.dm9 q) := by
    intro ax i
    refine ⟨le_rfl, ?_⟩
    change (0 : ℤ) + (c.NdmPad : ℕ) ≤ (c.NdmPad : ℕ)
    omega
  obtain ⟨S, hS, hval⟩ := C136_superposition _ hin
  refine ⟨S, hS, fun y x hy hx => ?_⟩
  have hv := hval y x hy hx
  have hR0 : 0 ≤ c.R y x := by unfold Cfg.R; exact Real.sqrt_nonneg _
  have hpart := C137_partition c ha hR (c.R y x) hR0
  have hVG : 0 ≤ c.V0coef * c.VtoHavg := mul_nonneg hV (le_trans (by norm_num) hG)
  have hring : ∀ i : ℕ, 0 ≤ c.ring (i + 1) (c.R y x) := fun i => (C137_ring c ha (i + 1) (by omega) _ hR0).1.1
  -- every term
  have hterm : ∀ i : Fin (c.dm9 q).NactTotal, (c.dm9 q).V i * (c.dm9 q).VtoH i * placed (c.dm9 q) i y x =
      if i.val < c.Nrad then c.V0coef * c.VtoHavg * c.ring (i.val + 1) (c.R y x) else 0 := by
    intro i
    have hp : placed (c.dm9 q) i y x = q y x i.val := by
      unfold placed
      rw [if_pos]
      · rfl
      · change ((0 : ℤ) ≤ y ∧ (y : ℤ) < 0 + (c.NdmPad : ℕ)) ∧ ((0 : ℤ) ≤ x ∧ (x : ℤ) < 0 + (c.NdmPad : ℕ))
        omega
    rw [hp]
    change (if i.val < c.Nrad then c.V0coef else 0) * c.VtoHavg * q y x i.val = _
    split_ifs with hi
    · rw [hq y x i.val hi]
    · ring
  have hsmall : ∀ i : Fin (c.dm9 q).NactTotal, i.val < c.Nrad → ¬ (c.dm9 q).used i → c.ring (i.val + 1) (c.R y x) ≤ 1e-8 := by
    intro i hi hu
    unfold Cube.used at hu
    rw [not_and_or] at hu
    rcases hu with hu | hu
    · have hu := not_le.mp hu
      refine le_trans ?_ hu.le
      have e : c.ring (i.val + 1) (c.R y x) = |(c.dm9 q).inf y x i| := by
        change _ = |q y x i.val|
        rw [hq y x i.val hi, abs_of_nonneg (hring _)]
      rw [e]
      have h1 : |(c.dm9 q).inf y x i| ≤ ∑ b ∈ Finset.range (c.dm9 q).Nbox, |(c.dm9 q).inf y b i| :=
        Finset.single_le_sum (f := fun b => |(c.dm9 q).inf y b i|) (fun b _ => abs_nonneg _) (Finset.mem_range.mpr hx)
      exact h1.trans (Finset.single_le_sum (f := fun a => ∑ b ∈ Finset.range (c.dm9 q).Nbox, |(c.dm9 q).inf a b i|)
        (fun a _ => Finset.sum_nonneg fun b _ => abs_nonneg _) (Finset.mem_range.mpr hy))
    · exfalso
      apply hu
      change (1e-12 : ℝ) ≤ |c.VtoHavg|
      rw [abs_of_nonneg (le_trans (by norm_num) hG)]; exact hG
  set F : Fin (c.dm9 q).NactTotal → ℝ := fun i => if i.val < c.Nrad then c.V0coef * c.VtoHavg * c.ring (i.val + 1) (c.R y x) else 0 with hF
  have hFn : ∀ i, 0 ≤ F i := by
    intro i; rw [hF]; dsimp only; split_ifs
    · exact mul_nonneg hVG (hring _)
    · exact le_rfl
  have hS2 : S y x = ∑ i ∈ Finset.univ.filter fun i => (c.dm9 q).used i, F i := by
    rw [hv]
    have e : ∑ i ∈ Finset.univ.filter (fun i => (c.dm9 q).used i), (c.dm9 q).V i * (c.dm9 q).VtoH i * placed (c.dm9 q) i y x =
        ∑ i ∈ Finset.univ.filter fun i => (c.dm9 q).used i, F i := Finset.sum_congr rfl fun i _ => hterm i
    rw [e]
    exact max_eq_right (Finset.sum_nonneg fun i _ => hFn i)
  have hNN : c.Nrad ≤ c.NactTotal := by unfold Cfg.NactTotal; omega
  have hfull : ∀ G : ℕ → ℝ, ∑ i : Fin (c.dm9 q).NactTotal, (if i.val < c.Nrad then G i.val else 0) = ∑ i ∈ Finset.range c.Nrad, G i := by
    intro G
    change ∑ i : Fin c.NactTotal, (if i.val < c.Nrad then G i.val else 0) = _
    rw [Fin.sum_univ_eq_sum_range (fun i => if i < c.Nrad then G i else 0) c.NactTotal, ← Finset.sum_filter]
    refine Finset.sum_congr ?_ fun _ _ => rfl
    ext i; simp only [Finset.mem_filter, Finset.mem_range]; omega
  have htot : ∑ i, F i = c.V0coef * c.VtoHavg * (if c.R y x < 1 / c.actres / 2 then 1 else c.window (c.R y x)) := by
    rw [hF, hfull fun i => c.V0coef * c.VtoHavg * c.ring (i + 1) (c.R y x), ← Finset.mul_sum, ← hpart]
    congr 1
    rw [Finset.range_eq_Ico, Finset.sum_Ico_add' (fun i => c.ring i (c.R y x)) 0 c.Nrad 1]
    rfl
  rw [← htot, hS2]
  have hsplit := Finset.sum_filter_add_sum_filter_not Finset.univ (fun i => (c.dm9 q).used i) F
  have hdiff : ∑ i ∈ Finset.univ.filter (fun i => (c.dm9 q).used i), F i - ∑ i, F i = -∑ i ∈ Finset.univ.filter (fun i => ¬ (c.dm9 q).used i), F i := by
    linarith
  rw [hdiff, abs_neg, abs_of_nonneg (Finset.sum_nonneg fun i _ => hFn i)]
  have hle : ∑ i ∈ Finset.univ.filter (fun i => ¬ (c.dm9 q).used i), F i ≤
      ∑ i : Fin (c.dm9 q).NactTotal, (if i.val < c.Nrad then (fun _ : ℕ => c.V0coef * c.VtoHavg * 1e-8) i.val else 0) := by
    rw [Finset.sum_filter]
    refine Finset.sum_le_sum fun i _ => ?_
    have h8 : 0 ≤ c.V0coef * c.VtoHavg * 1e-8 := by positivity
    by_cases hu : (c.dm9 q).used i
    · rw [if_neg (not_not.mpr hu)]
      split_ifs
      · exact h8
      · exact le_rfl
    · rw [if_pos hu, hF]
      dsimp only
      split_ifs with hi
      · exact mul_le_mul_of_nonneg_left (hsmall i hi hu) hVG
      · exact le_rfl
  refine hle.trans ?_
  rw [hfull fun _ => c.V0coef * c.VtoHavg * 1e-8, Finset.sum_const, Finset.card_range, nsmul_eq_mul]

/-! ### C138: the set-up never ends well -/

theorem no_annular : maskAttr "gen_annular_FPM" = .error .attributeError := by
  unfold maskAttr
  rw [if_neg (by decide +kernel)]

/-- C138, violated: `setup_fpm_cosine` raises for every set of parameters: `AttributeError` (the function it takes from `falco.mask` does not exist) whenever the parameters
are as it requires and the cube can be made; `mp.dm9.inf_datacube` has then been set. -/
theorem C138_cosine_violated (c : Cfg) :
    (∃ e, (setupCosine c).1 = .error e) ∧
    (∀ q, c.resFull = c.resCompact → c.Rin = c.RinA → c.cube = .ok q → setupCosine c = (.error .attributeError, some q)) ∧
    (c.resFull ≠ c.resCompact → (setupCosine c).1 = .error .valueError) := by
  refine ⟨?_, fun q h1 h2 h3 => ?_, fun h => ?_⟩
  · unfold setupCosine
    rw [no_annular]
    by_cases h : c.resFull ≠ c.resCompact
    · rw [if_pos h]; exact ⟨_, rfl⟩
    · rw [if_neg h]
      rcases c.cube with e | q
      · exact ⟨_, rfl⟩
      · by_cases h2 : c.Rin = c.RinA
        · exact ⟨_, if_neg (not_not.mpr h2)⟩
        · exact ⟨_, if_pos h2⟩
  · unfold setupCosine
    rw [if_neg (not_not.mpr h1), h3]
    dsimp only
    rw [if_neg (not_not.mpr h2), no_annular]
  · unfold setupCosine
    rw [if_pos h]

/-- C138, violated: `setup_fpm` raises for every influence function and all parameters: with the 3x3 one, a mask centred on a pixel and equal radii it gets to the missing
function; 'lanczos3' always raises `IndexError`. -/
theorem C138_setup_violated (c : Cfg3) :
    (∃ e, setupFpm c = .error e) ∧ (c.inf0name = "3x3" → c.centering = .pixel → c.sameRin = true → setupFpm c = .error .attributeError) ∧
    (c.inf0name = "lanczos3" → setupFpm c = .error .indexError) := by
  refine ⟨?_, fun h1 h2 h3 => ?_, fun h => ?_⟩
  · unfold setupFpm
    rcases c.inf0 with e | k
    · exact ⟨e, rfl⟩
    · rw [no_annular]
      simp only [Except.bind]
      rcases k with _ | k
      · dsimp only
        split_ifs <;> exact ⟨_, rfl⟩
      · dsimp only
        split_ifs <;> exact ⟨_, rfl⟩
  · have : c.inf0 = .ok (some 3) := by
      unfold Cfg3.inf0
      rw [h1, if_pos (by decide +kernel)]
    unfold setupFpm
    rw [this]
    simp [Except.bind, h2, h3, no_annular]
  · have : c.inf0 = .error .indexError := by
      unfold Cfg3.inf0
      rw [h, if_neg (by decide +kernel), if_pos (by decide +kernel)]
    unfold setupFpm
    rw [this]; rfl

/-- C138, violated: so setting up a workspace with layout 'fourier' and coronagraph 'HLC' raises, whatever the other parameters; other layouts and coronagraphs are left alone. -/
theorem C138_workspace_violated (upper : String) (c : Cfg) (c3 : Cfg3) :
    (∃ e, genFpm true true upper c c3 = .error e) ∧ ∀ fourier hlc, (fourier = false ∨ hlc = false) → genFpm fourier hlc upper c c3 = .ok () := by
  refine ⟨?_, fun fourier hlc h => ?_⟩
  · unfold genFpm
    simp only [Bool.and_self, if_true]
    split_ifs
    · exact (C138_cosine_violated c).1
    · exact (C138_setup_violated c3).1
  · unfold genFpm
    rcases h with h | h <;> simp [h]

/-! ### Non-vacuity -/

/-- A mask of radius 2 λ/D with one ring per λ/D, azimuthal size 100: 4 rings, all with 12 lobes. -/
noncomputable def sample : Cfg :=
  { resFull := 4, resCompact := 4, actres := 1, Rin := 2, RinA := 2, minAzim := 100, centering := .pixel, V0coef := 300, VtoHavg := 1e-9 }

theorem sample_rings : sample.rings = [1, 2, 3, 4] := by
  have h1 : sample.Nrad = 4 := by
    unfold Cfg.Nrad
    have : 2 * sample.actres * sample.Rin = ((4 : ℤ) : ℝ) := by norm_num [sample]
    rw [this, Int.ceil_intCast]; rfl
  have h2 : ⌊sample.actres / 2⌋ = 0 := by
    rw [Int.floor_eq_zero_iff]; norm_num [sample]
  unfold Cfg.rings
  rw [h1, h2]; rfl

example : ∃ q, sample.cube = .ok q ∧ setupCosine sample = (.error .attributeError, some q) := by
  obtain ⟨q, hq, _⟩ := C137_cube sample (by
    intro ri hri
    rw [sample_rings] at hri
    have h4 : (ri : ℝ) ≤ 4 := by
      have : ri ≤ 4 := by simp at hri; omega
      exact_mod_cast this
    have hp : Real.pi < 4 := lt_trans Real.pi_lt_d2 (by norm_num)
    have hp0 := Real.pi_pos
    have e : 2 * Real.pi * (1 / sample.actres / 2 * ((ri : ℝ) - 1)) / sample.minAzim * 18 = Real.pi * ((ri : ℝ) - 1) * (18 / 100) := by
      norm_num [sample]; ring
    rw [e]
    nlinarith)
  exact ⟨q, hq, (C138_cosine_violated sample).2.1 q rfl rfl hq⟩

/-- With the azimuthal size 5 the third ring needs more than 12 lobes, and the cube cannot be made. -/
example : ({ sample with minAzim := 5 } : Cfg).cube = .error .indexError := by
  have hr : ({ sample with minAzim := 5 } : Cfg).rings = [1, 2, 3, 4] := sample_rings
  have hp : Real.pi < 4 := lt_trans Real.pi_lt_d2 (by norm_num)
  have hp3 := Real.pi_gt_three
  have e : ∀ k : ℝ, 2 * Real.pi * (1 / ({ sample with minAzim := 5 } : Cfg).actres / 2 * (k - 1)) / ({ sample with minAzim := 5 } : Cfg).minAzim * 18 =
      Real.pi * (k - 1) * (18 / 5) := by
    intro k; norm_num [sample]; ring
  refine C137_lobes_violated _ 3 (by rw [hr]; simp) ?_ ?_
  · rw [e]; push_cast; linarith
  · rw [e]; push_cast; linarith

end Verif.HlcCos
