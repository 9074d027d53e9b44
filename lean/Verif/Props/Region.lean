import Verif.Model.Region
import Verif.Props.Util
import Mathlib.Tactic

/-! # C41: dark-hole regions -/

namespace Verif.Region
open Verif Verif.Util

/-! ## Geometry of one zone -/

/-- Specification of a zone, in coordinates `(u, v)` relative to its centre and rotated so that the opening is along `+u`: with the guard band of
13 machine epsilons on both radii. -/
def ShapeSpec (z : Zone) (u v : ℝ) : Prop :=
  let rin := z.rhoInner - guardBand
  let rout := z.rhoOuter + guardBand
  match z.shape with
  | .circle => rin ≤ Real.sqrt (u ^ 2 + v ^ 2) ∧ Real.sqrt (u ^ 2 + v ^ 2) ≤ rout
  | .square => |u| ≤ rout ∧ |v| ≤ rout ∧ rin ≤ Real.sqrt (u ^ 2 + v ^ 2)
  | .rect => (rin ≤ u ∧ u ≤ rout ∨ rin ≤ -u ∧ -u ≤ rout) ∧ |v| ≤ rout
  | .d => (rin ≤ u ∨ rin ≤ -u) ∧ Real.sqrt (u ^ 2 + v ^ 2) ≤ rout

/-- Within the opening angle about `+u`, or for two-sided zones about `-u` as well. -/
noncomputable def OpeningSpec (z : Zone) (u v : ℝ) : Prop :=
  |Complex.arg ⟨u, v⟩| ≤ radians z.angDeg / 2 ∨ (z.side.two = true ∧ |Complex.arg ⟨-u, -v⟩| ≤ radians z.angDeg / 2)

/-- Rotated coordinates of a point. -/
noncomputable def rotU (z : Zone) (xi eta : ℝ) : ℝ := (xi - z.xiOff) * Real.cos z.clock + (eta - z.etaOff) * Real.sin z.clock
/-- see `rotU` -/
noncomputable def rotV (z : Zone) (xi eta : ℝ) : ℝ := (eta - z.etaOff) * Real.cos z.clock - (xi - z.xiOff) * Real.sin z.clock

theorem rho_eq (x y : ℝ) : Real.sqrt (x ^ 2 + y ^ 2) = ‖(⟨x, y⟩ : ℂ)‖ := by
  rw [Complex.norm_def, Complex.normSq_mk]; congr 1; ring

theorem rho_cos (x y : ℝ) : Real.sqrt (x ^ 2 + y ^ 2) * Real.cos (Complex.arg ⟨x, y⟩) = x := by
  rw [rho_eq]; exact Complex.norm_mul_cos_arg ⟨x, y⟩

theorem rho_sin (x y : ℝ) : Real.sqrt (x ^ 2 + y ^ 2) * Real.sin (Complex.arg ⟨x, y⟩) = y := by
  rw [rho_eq]; exact Complex.norm_mul_sin_arg ⟨x, y⟩

theorem rho_cos_sub (x y a : ℝ) : Real.sqrt (x ^ 2 + y ^ 2) * Real.cos (Complex.arg ⟨x, y⟩ - a) = x * Real.cos a + y * Real.sin a := by
  rw [Real.cos_sub, mul_add, ← mul_assoc, ← mul_assoc, rho_cos, rho_sin]

theorem rho_sin_sub (x y a : ℝ) : Real.sqrt (x ^ 2 + y ^ 2) * Real.sin (Complex.arg ⟨x, y⟩ - a) = y * Real.cos a - x * Real.sin a := by
  rw [Real.sin_sub, mul_sub, ← mul_assoc, ← mul_assoc, rho_cos, rho_sin]

theorem rot_norm (x y a : ℝ) : (x * Real.cos a + y * Real.sin a) ^ 2 + (y * Real.cos a - x * Real.sin a) ^ 2 = x ^ 2 + y ^ 2 := by
  have := Real.sin_sq_add_cos_sq a
  linear_combination (x ^ 2 + y ^ 2) * this

theorem mask0_spec (z : Zone) (xi eta : ℝ) : mask0 z (xi - z.xiOff) (eta - z.etaOff) ↔ ShapeSpec z (rotU z xi eta) (rotV z xi eta) := by
  have hn := rot_norm (xi - z.xiOff) (eta - z.etaOff) z.clock
  unfold mask0 ShapeSpec rotU rotV
  simp only [rho_cos_sub, rho_sin_sub, hn]
  have hd1 : ∀ u r : ℝ, u ≤ -r ↔ r ≤ -u := fun u r => by constructor <;> intro h <;> linarith
  have hd2 : ∀ u r : ℝ, -r ≤ u ↔ -u ≤ r := fun u r => by constructor <;> intro h <;> linarith
  cases z.shape <;> simp only [ge_iff_le, abs_le, hd1, hd2] <;> tauto

theorem exp_arg_sub (x y a : ℝ) (h : (⟨x, y⟩ : ℂ) ≠ 0) : Complex.arg (Complex.exp (Complex.I * ((Complex.arg ⟨x, y⟩ - a : ℝ) : ℂ))) =
    Complex.arg ⟨x * Real.cos a + y * Real.sin a, y * Real.cos a - x * Real.sin a⟩ := by
  have hr : 0 < ‖(⟨x, y⟩ : ℂ)‖ := norm_pos_iff.2 h
  rw [← Complex.arg_real_mul (Complex.exp _) hr]
  congr 1
  apply Complex.ext
  · rw [Complex.re_ofReal_mul, mul_comm Complex.I, Complex.exp_ofReal_mul_I_re, ← rho_eq, rho_cos_sub]
  · rw [Complex.im_ofReal_mul, mul_comm Complex.I, Complex.exp_ofReal_mul_I_im, ← rho_eq, rho_sin_sub]

/-- C41. A pixel (other than the exact centre of the zone) is set in a zone's mask iff it lies in the zone: the shape and the opening angle in
coordinates centred at the zone's own offsets and rotated by its side and clocking angle. -/
theorem C41_zone (z : Zone) (xi eta : ℝ) (hc : xi ≠ z.xiOff ∨ eta ≠ z.etaOff) :
    inZone z xi eta ↔ ShapeSpec z (rotU z xi eta) (rotV z xi eta) ∧ OpeningSpec z (rotU z xi eta) (rotV z xi eta) := by
  have h0 : (⟨xi - z.xiOff, eta - z.etaOff⟩ : ℂ) ≠ 0 := by
    intro h
    have h1 := congrArg Complex.re h
    have h2 := congrArg Complex.im h
    simp at h1 h2
    rcases hc with hc | hc
    · exact hc (sub_eq_zero.1 h1)
    · exact hc (sub_eq_zero.1 h2)
  unfold inZone OpeningSpec angleTest
  simp only
  rw [mask0_spec, exp_arg_sub _ _ _ h0, exp_arg_sub _ _ _ h0, Real.cos_add_pi, Real.sin_add_pi]
  have e1 : (⟨(xi - z.xiOff) * -Real.cos z.clock + (eta - z.etaOff) * -Real.sin z.clock, (eta - z.etaOff) * -Real.cos z.clock - (xi - z.xiOff) * -Real.sin z.clock⟩ : ℂ) =
      ⟨-(rotU z xi eta), -(rotV z xi eta)⟩ := by
    apply Complex.ext <;> simp only [rotU, rotV] <;> ring
  rw [e1]
  have e2 : (⟨(xi - z.xiOff) * Real.cos z.clock + (eta - z.etaOff) * Real.sin z.clock, (eta - z.etaOff) * Real.cos z.clock - (xi - z.xiOff) * Real.sin z.clock⟩ : ℂ) =
      ⟨rotU z xi eta, rotV z xi eta⟩ := rfl
  rw [e2]
  tauto

/-- C41. Which way the sides open (no extra clocking), for every shape: in coordinates `x`, `y` from the centre of the zone, "right" is along `+x`, "left" along `-x`, "top" along `+y` (increasing
row index) and "bottom" along `-y`; "both"/"leftright" and "topbottom" are the two-sided ones along x and y. -/
theorem C41_sides (z : Zone) (hz : z.clockDeg = 0) (x y : ℝ) (hc : x ≠ 0 ∨ y ≠ 0) :
    (z.side = .right → (inZone z (z.xiOff + x) (z.etaOff + y) ↔ ShapeSpec z x y ∧ |Complex.arg ⟨x, y⟩| ≤ radians z.angDeg / 2)) ∧
    (z.side = .left → (inZone z (z.xiOff + x) (z.etaOff + y) ↔ ShapeSpec z (-x) (-y) ∧ |Complex.arg ⟨-x, -y⟩| ≤ radians z.angDeg / 2)) ∧
    (z.side = .top → (inZone z (z.xiOff + x) (z.etaOff + y) ↔ ShapeSpec z y (-x) ∧ |Complex.arg ⟨y, -x⟩| ≤ radians z.angDeg / 2)) ∧
    (z.side = .bottom → (inZone z (z.xiOff + x) (z.etaOff + y) ↔ ShapeSpec z (-y) x ∧ |Complex.arg ⟨-y, x⟩| ≤ radians z.angDeg / 2)) ∧
    (z.side = .leftright → (inZone z (z.xiOff + x) (z.etaOff + y) ↔
      ShapeSpec z x y ∧ (|Complex.arg ⟨x, y⟩| ≤ radians z.angDeg / 2 ∨ |Complex.arg ⟨-x, -y⟩| ≤ radians z.angDeg / 2))) ∧
    (z.side = .topbottom → (inZone z (z.xiOff + x) (z.etaOff + y) ↔
      ShapeSpec z y (-x) ∧ (|Complex.arg ⟨y, -x⟩| ≤ radians z.angDeg / 2 ∨ |Complex.arg ⟨-y, x⟩| ≤ radians z.angDeg / 2))) := by
  have hne : z.xiOff + x ≠ z.xiOff ∨ z.etaOff + y ≠ z.etaOff := by
    rcases hc with h | h
    · exact Or.inl (by simpa using h)
    · exact Or.inr (by simpa using h)
  have hcl : z.clock = z.side.base := by unfold Zone.clock radians; rw [hz]; ring
  have h32c : Real.cos (3 / 2 * Real.pi) = 0 := by
    rw [show 3 / 2 * Real.pi = Real.pi / 2 + Real.pi by ring, Real.cos_add_pi, Real.cos_pi_div_two, neg_zero]
  have h32s : Real.sin (3 / 2 * Real.pi) = -1 := by
    rw [show 3 / 2 * Real.pi = Real.pi / 2 + Real.pi by ring, Real.sin_add_pi, Real.sin_pi_div_two]
  refine ⟨?_, ?_, ?_, ?_, ?_, ?_⟩ <;> intro hs <;> rw [C41_zone z _ _ hne] <;> unfold OpeningSpec rotU rotV <;> rw [hcl, hs] <;>
    simp [Side.base, Side.two, h32c, h32s]

/-- C41. The accepted spellings of the side, and nothing else. -/
theorem C41_spellings (s : String) :
    (parseSide s = .ok .right ↔ s = "r" ∨ s = "right") ∧ (parseSide s = .ok .left ↔ s = "l" ∨ s = "left") ∧
    (parseSide s = .ok .top ↔ s = "t" ∨ s = "top" ∨ s = "u" ∨ s = "up") ∧ (parseSide s = .ok .bottom ↔ s = "b" ∨ s = "bottom" ∨ s = "d" ∨ s = "down") ∧
    (parseSide s = .ok .leftright ↔ s = "lr" ∨ s = "rl" ∨ s = "leftright" ∨ s = "rightleft" ∨ s = "both") ∧
    (parseSide s = .ok .topbottom ↔ s = "tb" ∨ s = "bt" ∨ s = "ud" ∨ s = "du" ∨ s = "topbottom" ∨ s = "bottomtop" ∨ s = "updown" ∨ s = "downup") ∧
    ((∀ d, parseSide s ≠ .ok d) ↔ parseSide s = .error .valueError) := by
  unfold parseSide
  simp only [List.mem_cons, List.not_mem_nil, or_false]
  refine ⟨?_, ?_, ?_, ?_, ?_, ?_, ?_⟩
  · constructor
    · intro h; split_ifs at h <;> first | assumption | simp at h
    · intro h; rw [if_pos h]
  · constructor
    · intro h; split_ifs at h <;> first | assumption | simp at h
    · rintro (rfl | rfl) <;> decide
  · constructor
    · intro h; split_ifs at h <;> first | assumption | simp at h
    · rintro (rfl | rfl | rfl | rfl) <;> decide
  · constructor
    · intro h; split_ifs at h <;> first | assumption | simp at h
    · rintro (rfl | rfl | rfl | rfl) <;> decide
  · constructor
    · intro h; split_ifs at h <;> first | assumption | simp at h
    · rintro (rfl | rfl | rfl | rfl | rfl) <;> decide
  · constructor
    · intro h; split_ifs at h <;> first | assumption | simp at h
    · rintro (rfl | rfl | rfl | rfl | rfl | rfl | rfl | rfl) <;> decide
  · split_ifs <;> simp

theorem neg_guard (z : Zone) (u v : ℝ) : ShapeSpec z (-u) (-v) ↔ ShapeSpec z u v := by
  unfold ShapeSpec
  simp only [neg_sq, abs_neg]
  cases z.shape <;> simp only [neg_neg] <;> tauto

/-- C41. A two-sided zone is symmetric about its centre. -/
theorem C41_two_sided_symmetric (z : Zone) (h2 : z.side.two = true) (xi eta : ℝ) :
    inZone z xi eta ↔ inZone z (2 * z.xiOff - xi) (2 * z.etaOff - eta) := by
  by_cases hc : xi ≠ z.xiOff ∨ eta ≠ z.etaOff
  · have hc' : 2 * z.xiOff - xi ≠ z.xiOff ∨ 2 * z.etaOff - eta ≠ z.etaOff := by
      rcases hc with h | h
      · left; intro h'; exact h (by linarith)
      · right; intro h'; exact h (by linarith)
    rw [C41_zone z xi eta hc, C41_zone z _ _ hc']
    have e1 : rotU z (2 * z.xiOff - xi) (2 * z.etaOff - eta) = -rotU z xi eta := by unfold rotU; ring
    have e2 : rotV z (2 * z.xiOff - xi) (2 * z.etaOff - eta) = -rotV z xi eta := by unfold rotV; ring
    rw [e1, e2, neg_guard]
    unfold OpeningSpec
    simp only [h2, neg_neg]
    tauto
  · push Not at hc
    rw [hc.1, hc.2]
    have e1 : 2 * z.xiOff - z.xiOff = z.xiOff := by ring
    have e2 : 2 * z.etaOff - z.etaOff = z.etaOff := by ring
    rw [e1, e2]

/-! ## Array and union -/

/-- Grids whose explicitly given sizes are even. -/
def EvenGrid (g : Grid) : Prop := (∀ N, g.Nxi = some N → Even N) ∧ ∀ N, g.Neta = some N → Even N

theorem autoSize_even (g : Grid) (f : ℝ) : Even (autoSize g f) := by
  unfold autoSize ceilEven
  cases g.centering <;> simp only
  · obtain h | h := Int.le_total 0 ⌈(0.5 : ℝ) * (2 * (f * g.res + 1 / 2))⌉
    · exact ⟨(⌈(0.5 : ℝ) * (2 * (f * g.res + 1 / 2))⌉).toNat, by omega⟩
    · have : (2 * ⌈(0.5 : ℝ) * (2 * (f * g.res + 1 / 2))⌉).toNat = 0 := by omega
      rw [this]; exact ⟨0, rfl⟩
  · obtain h | h := Int.le_total 0 ⌈(0.5 : ℝ) * (2 * f * g.res)⌉
    · exact ⟨(⌈(0.5 : ℝ) * (2 * f * g.res)⌉).toNat, by omega⟩
    · have : (2 * ⌈(0.5 : ℝ) * (2 * f * g.res)⌉).toNat = 0 := by omega
      rw [this]; exact ⟨0, rfl⟩

theorem sizeXi_even (g : Grid) (hg : EvenGrid g) (z : Zone) : Even (sizeXi g z) := by
  unfold sizeXi
  cases h : g.Nxi with
  | none => exact autoSize_even _ _
  | some N => exact hg.1 N h

theorem sizeEta_even (g : Grid) (hg : EvenGrid g) (z : Zone) : Even (sizeEta g z) := by
  unfold sizeEta
  cases h : g.Neta with
  | none => exact autoSize_even _ _
  | some N => exact hg.2 N h

/-- Coordinates do not depend on the array size, only on the offset from the centre pixel. -/
theorem coord_shift (g : Grid) (N n : ℕ) (hN : Even N) (hn : Even n) (j : ℤ) : coord g n (j - (N : ℤ) / 2 + (n : ℤ) / 2) = coord g N j := by
  obtain ⟨a, rfl⟩ := hN
  obtain ⟨b, rfl⟩ := hn
  have e1 : (((a + a : ℕ) : ℤ)) / 2 = a := by omega
  have e2 : (((b + b : ℕ) : ℤ)) / 2 = b := by omega
  unfold coord
  rw [e1, e2]
  cases g.centering <;> simp only <;> push_cast <;> ring

/-- The pixel of a larger array with offset from centre as `j` on an axis of `N` pixels exists on an axis of `n` pixels. -/
def OnAxis (N n : ℕ) (j : ℤ) : Prop := 0 ≤ j - (N : ℤ) / 2 + (n : ℤ) / 2 ∧ j - (N : ℤ) / 2 + (n : ℤ) / 2 < n

/-- Meaning of a running sum of masks: `M` of size `h × w` is set exactly at the pixels of the zones in `zs` (within their own arrays). -/
def Represents (g : Grid) (M : Img ℝ) (zs : List Zone) : Prop :=
  (∀ i j, 0 ≤ M.px i j) ∧
  ∀ (i : Fin M.h) (j : Fin M.w), M.px i j ≠ 0 ↔ ∃ z ∈ zs, inZone z (coord g M.w j) (coord g M.h i) ∧ OnAxis M.w (sizeXi g z) j ∧ OnAxis M.h (sizeEta g z) i

theorem combine_spec (g : Grid) (hg : EvenGrid g) (M : Img ℝ) (zs : List Zone) (z : Zone)
    (hpos : 0 < M.h ∧ 0 < M.w) (hM : (zs = [] ∧ M = Img.full 1 1 0) ∨ (Even M.h ∧ Even M.w ∧ Represents g M zs)) (h1 : 0 < sizeXi g z) (h2 : 0 < sizeEta g z)
    (hfit : (∀ y ∈ zs, sizeXi g y ≤ M.w ∧ sizeEta g y ≤ M.h)) :
    ∃ M', combine g M z = .ok M' ∧ M'.h = max (sizeEta g z) M.h ∧ M'.w = max (sizeXi g z) M.w ∧ Even M'.h ∧ Even M'.w ∧ Represents g M' (zs ++ [z]) := by
  have hr : 0 < max (sizeEta g z) M.h := lt_of_lt_of_le h2 (le_max_left _ _)
  have hc : 0 < max (sizeXi g z) M.w := lt_of_lt_of_le h1 (le_max_left _ _)
  obtain ⟨A, a1, a2, a3, a4⟩ := C01_pad_crop M _ _ hr hc (0 : ℝ)
  obtain ⟨B, b1, b2, b3, b4⟩ := C01_pad_crop (genSWMask g z) _ _ hr hc (0 : ℝ)
  have hzx := sizeXi_even g hg z
  have hze := sizeEta_even g hg z
  have hevh : Even (max (sizeEta g z) M.h) := by
    rcases hM with ⟨-, hM⟩ | ⟨e, -, -⟩
    · have : M.h = 1 := by rw [hM]; rfl
      rw [this]
      obtain ⟨k, hk⟩ := hze
      have : max (sizeEta g z) 1 = sizeEta g z := by omega
      rw [this]; exact ⟨k, hk⟩
    · rcases max_choice (sizeEta g z) M.h with h | h <;> rw [h] <;> assumption
  have hevw : Even (max (sizeXi g z) M.w) := by
    rcases hM with ⟨-, hM⟩ | ⟨-, e, -⟩
    · have : M.w = 1 := by rw [hM]; rfl
      rw [this]
      obtain ⟨k, hk⟩ := hzx
      have : max (sizeXi g z) 1 = sizeXi g z := by omega
      rw [this]; exact ⟨k, hk⟩
    · rcases max_choice (sizeXi g z) M.w with h | h <;> rw [h] <;> assumption
  refine ⟨addImg A B, ?_, a2, a3, by show Even A.h; rw [a2]; exact hevh, by show Even A.w; rw [a3]; exact hevw, ?_⟩
  · unfold combine
    have e : (genSWMask g z).h = sizeEta g z ∧ (genSWMask g z).w = sizeXi g z := ⟨rfl, rfl⟩
    simp only [e.1, e.2, a1, b1, bind, Except.bind, pure, Except.pure]
  -- pixel values
  have hsum : ∀ (i : Fin (addImg A B).h) (j : Fin (addImg A B).w), (addImg A B).px i j =
      ((M.get? ((M.h : ℤ) / 2 + ((i : ℕ) - ((max (sizeEta g z) M.h : ℕ) : ℤ) / 2)) ((M.w : ℤ) / 2 + ((j : ℕ) - ((max (sizeXi g z) M.w : ℕ) : ℤ) / 2))).getD 0) +
      (((genSWMask g z).get? ((sizeEta g z : ℤ) / 2 + ((i : ℕ) - ((max (sizeEta g z) M.h : ℕ) : ℤ) / 2)) ((sizeXi g z : ℤ) / 2 + ((j : ℕ) - ((max (sizeXi g z) M.w : ℕ) : ℤ) / 2))).getD 0) := by
    intro i j
    have hi : ((i : ℕ) : ℤ) < max (sizeEta g z) M.h := by have := i.2; have h : (addImg A B).h = max (sizeEta g z) M.h := a2; omega
    have hj : ((j : ℕ) : ℤ) < max (sizeXi g z) M.w := by have := j.2; have h : (addImg A B).w = max (sizeXi g z) M.w := a3; omega
    have g1 := a4 i j (by omega) hi (by omega) hj
    have g2 := b4 i j (by omega) hi (by omega) hj
    have g0 : A.get? (i : ℕ) (j : ℕ) = some (A.px i j) := Img.get?_px A i j
    rw [g0] at g1
    have g1' := Option.some.inj g1
    show A.px i j + (B.get? (i : ℕ) (j : ℕ)).getD 0 = _
    rw [g2, g1']
    rfl
  have hB01 : ∀ i j : ℤ, 0 ≤ ((genSWMask g z).get? i j).getD 0 := by
    intro i j
    unfold Img.get?
    split_ifs
    · simp only [Option.getD_some, genSWMask]; split_ifs <;> norm_num
    · simp
    · simp
  have hA0 : ∀ i j : ℤ, 0 ≤ (M.get? i j).getD 0 := by
    intro i j
    unfold Img.get?
    split_ifs
    · simp only [Option.getD_some]
      rcases hM with ⟨-, hM⟩ | ⟨-, -, hM⟩
      · subst hM; exact le_refl _
      · exact hM.1 _ _
    · simp
    · simp
  constructor
  · intro i j
    rw [hsum i j]
    exact add_nonneg (hA0 _ _) (hB01 _ _)
  · intro i j
    rw [hsum i j]
    have hW : (addImg A B).w = max (sizeXi g z) M.w := a3
    have hH : (addImg A B).h = max (sizeEta g z) M.h := a2
    have hi0 := i.2
    have hj0 := j.2
    revert hi0 hj0
    generalize (i : ℕ) = i0
    generalize (j : ℕ) = j0
    clear i j
    intro hi0 hj0
    rename' i0 => i, j0 => j
    rw [hW] at hj0 ⊢
    rw [hH] at hi0 ⊢
    set W := max (sizeXi g z) M.w with hWd
    set H := max (sizeEta g z) M.h with hHd
    have hne : ∀ a b : ℝ, 0 ≤ a → 0 ≤ b → (a + b ≠ 0 ↔ a ≠ 0 ∨ b ≠ 0) := by
      intro a b ha hb
      constructor
      · intro h; by_contra hcon; push Not at hcon; exact h (by rw [hcon.1, hcon.2, add_zero])
      · rintro (h | h) h'
        · exact h (by linarith [lt_of_le_of_ne ha (Ne.symm h)])
        · exact h (by linarith [lt_of_le_of_ne hb (Ne.symm h)])
    rw [hne _ _ (hA0 _ _) (hB01 _ _)]
    have hzone : ((genSWMask g z).get? ((sizeEta g z : ℤ) / 2 + ((i : ℕ) - (H : ℤ) / 2)) ((sizeXi g z : ℤ) / 2 + ((j : ℕ) - (W : ℤ) / 2))).getD 0 ≠ 0 ↔
        inZone z (coord g W j) (coord g H i) ∧ OnAxis W (sizeXi g z) j ∧ OnAxis H (sizeEta g z) i := by
      have ei : (sizeEta g z : ℤ) / 2 + ((i : ℕ) - (H : ℤ) / 2) = (i : ℕ) - (H : ℤ) / 2 + (sizeEta g z : ℤ) / 2 := by ring
      have ej : (sizeXi g z : ℤ) / 2 + ((j : ℕ) - (W : ℤ) / 2) = (j : ℕ) - (W : ℤ) / 2 + (sizeXi g z : ℤ) / 2 := by ring
      rw [ei, ej]
      have c1 := coord_shift g W (sizeXi g z) hevw hzx j
      have c2 := coord_shift g H (sizeEta g z) hevh hze i
      by_cases hin : OnAxis W (sizeXi g z) j ∧ OnAxis H (sizeEta g z) i
      · rw [Img.get?_eq_some ⟨hin.2.1, hin.2.2⟩ ⟨hin.1.1, hin.1.2⟩]
        simp only [Option.getD_some, genSWMask]
        have t1 : (((((i : ℕ) : ℤ) - (H : ℤ) / 2 + (sizeEta g z : ℤ) / 2).toNat : ℕ) : ℤ) = ((i : ℕ) : ℤ) - (H : ℤ) / 2 + (sizeEta g z : ℤ) / 2 := Int.toNat_of_nonneg hin.2.1
        have t2 : (((((j : ℕ) : ℤ) - (W : ℤ) / 2 + (sizeXi g z : ℤ) / 2).toNat : ℕ) : ℤ) = ((j : ℕ) : ℤ) - (W : ℤ) / 2 + (sizeXi g z : ℤ) / 2 := Int.toNat_of_nonneg hin.1.1
        rw [t1, t2, c1, c2]
        by_cases hz : inZone z (coord g W j) (coord g H i)
        · rw [if_pos hz]; simp [hz, hin]
        · rw [if_neg hz]; simp [hz]
      · rw [Img.get?_eq_none]
        · simp only [Option.getD_none, ne_eq, not_true_eq_false, false_iff]
          intro h; exact hin ⟨h.2.1, h.2.2⟩
        · intro hcon
          exact hin ⟨⟨hcon.2.2.1, hcon.2.2.2⟩, ⟨hcon.1, hcon.2.1⟩⟩
    rw [hzone]
    have hold : (M.get? ((M.h : ℤ) / 2 + ((i : ℕ) - (H : ℤ) / 2)) ((M.w : ℤ) / 2 + ((j : ℕ) - (W : ℤ) / 2))).getD 0 ≠ 0 ↔
        ∃ y ∈ zs, inZone y (coord g W j) (coord g H i) ∧ OnAxis W (sizeXi g y) j ∧ OnAxis H (sizeEta g y) i := by
      rcases hM with ⟨hzs, hM⟩ | ⟨eh, ew, -, hR⟩
      · subst hM
        rw [hzs]
        simp only [List.not_mem_nil, false_and, exists_false, iff_false, not_not]
        unfold Img.get?
        split_ifs <;> simp [Img.full]
      · by_cases hin : OnAxis W M.w j ∧ OnAxis H M.h i
        · have ei : (M.h : ℤ) / 2 + ((i : ℕ) - (H : ℤ) / 2) = (i : ℕ) - (H : ℤ) / 2 + (M.h : ℤ) / 2 := by ring
          have ej : (M.w : ℤ) / 2 + ((j : ℕ) - (W : ℤ) / 2) = (j : ℕ) - (W : ℤ) / 2 + (M.w : ℤ) / 2 := by ring
          rw [ei, ej, Img.get?_eq_some ⟨hin.2.1, hin.2.2⟩ ⟨hin.1.1, hin.1.2⟩]
          simp only [Option.getD_some]
          rw [hR]
          have t1 : (((((i : ℕ) : ℤ) - (H : ℤ) / 2 + (M.h : ℤ) / 2).toNat : ℕ) : ℤ) = ((i : ℕ) : ℤ) - (H : ℤ) / 2 + (M.h : ℤ) / 2 := Int.toNat_of_nonneg hin.2.1
          have t2 : (((((j : ℕ) : ℤ) - (W : ℤ) / 2 + (M.w : ℤ) / 2).toNat : ℕ) : ℤ) = ((j : ℕ) : ℤ) - (W : ℤ) / 2 + (M.w : ℤ) / 2 := Int.toNat_of_nonneg hin.1.1
          simp only [t1, t2, coord_shift g W M.w hevw ew j, coord_shift g H M.h hevh eh i]
          have ax : ∀ n : ℕ, OnAxis M.w n (((j : ℕ) : ℤ) - (W : ℤ) / 2 + (M.w : ℤ) / 2) ↔ OnAxis W n j := by
            intro n; unfold OnAxis
            have : ((j : ℕ) : ℤ) - (W : ℤ) / 2 + (M.w : ℤ) / 2 - (M.w : ℤ) / 2 = ((j : ℕ) : ℤ) - (W : ℤ) / 2 := by ring
            rw [this]
          have ay : ∀ n : ℕ, OnAxis M.h n (((i : ℕ) : ℤ) - (H : ℤ) / 2 + (M.h : ℤ) / 2) ↔ OnAxis H n i := by
            intro n; unfold OnAxis
            have : ((i : ℕ) : ℤ) - (H : ℤ) / 2 + (M.h : ℤ) / 2 - (M.h : ℤ) / 2 = ((i : ℕ) : ℤ) - (H : ℤ) / 2 := by ring
            rw [this]
          simp only [ax, ay]
        · have hnone : M.get? ((M.h : ℤ) / 2 + ((i : ℕ) - (H : ℤ) / 2)) ((M.w : ℤ) / 2 + ((j : ℕ) - (W : ℤ) / 2)) = none := by
            rw [Img.get?_eq_none]
            intro hcon
            apply hin
            unfold OnAxis
            omega
          rw [hnone]
          simp only [Option.getD_none, ne_eq, not_true_eq_false, false_iff]
          rintro ⟨y, hy, -, hx, hyy⟩
          apply hin
          have := hfit y hy
          have o1 := sizeXi_even g hg y
          have o2 := sizeEta_even g hg y
          obtain ⟨p1, hp1⟩ := o1
          obtain ⟨p2, hp2⟩ := o2
          obtain ⟨p3, hp3⟩ := eh
          obtain ⟨p4, hp4⟩ := ew
          unfold OnAxis at hx hyy ⊢
          omega
    rw [hold]
    simp only [List.mem_append, List.mem_singleton]
    constructor
    · rintro (⟨y, hy, h⟩ | h)
      · exact ⟨y, Or.inl hy, h⟩
      · exact ⟨z, Or.inr rfl, h⟩
    · rintro ⟨y, hy | rfl, h⟩
      · exact Or.inl ⟨y, hy, h⟩
      · exact Or.inr h

theorem corrMask_spec (g : Grid) (hg : EvenGrid g) : ∀ (zs done : List Zone) (M : Img ℝ), 0 < M.h ∧ 0 < M.w →
    ((done = [] ∧ M = Img.full 1 1 0) ∨ (Even M.h ∧ Even M.w ∧ Represents g M done)) → (∀ y ∈ done, sizeXi g y ≤ M.w ∧ sizeEta g y ≤ M.h) →
    (∀ z ∈ zs, 0 < sizeXi g z ∧ 0 < sizeEta g z) →
    ∃ M', zs.foldlM (combine g) M = .ok M' ∧ ((done ++ zs = [] ∧ M' = Img.full 1 1 0) ∨ (Even M'.h ∧ Even M'.w ∧ Represents g M' (done ++ zs))) ∧
      ∀ y ∈ done ++ zs, sizeXi g y ≤ M'.w ∧ sizeEta g y ≤ M'.h
  | [], done, M, _, hM, hfit, _ => ⟨M, rfl, by simpa using hM, by simpa using hfit⟩
  | z :: zs, done, M, hp, hM, hfit, hz => by
    obtain ⟨M1, e1, e2, e3, e4, e5, e6⟩ := combine_spec g hg M done z hp hM (hz z (by simp)).1 (hz z (by simp)).2 hfit
    obtain ⟨M', f1, f2, f3⟩ := corrMask_spec g hg zs (done ++ [z]) M1 ⟨by rw [e2]; exact lt_of_lt_of_le hp.1 (le_max_right _ _), by rw [e3]; exact lt_of_lt_of_le hp.2 (le_max_right _ _)⟩
      (Or.inr ⟨e4, e5, e6⟩) (by
        intro y hy
        rw [e2, e3]
        rcases List.mem_append.1 hy with hy | hy
        · exact ⟨(hfit y hy).1.trans (le_max_right _ _), (hfit y hy).2.trans (le_max_right _ _)⟩
        · simp at hy; subst hy; exact ⟨le_max_left _ _, le_max_left _ _⟩) (fun y hy => hz y (by simp [hy]))
    refine ⟨M', ?_, by simpa using f2, by simpa using f3⟩
    rw [List.foldlM_cons, e1]
    exact f1

/-- Field of view left to its default: the zones determine the array. -/
def AutoGrid (g : Grid) : Prop := g.FOV = none ∧ g.xiFOV = none ∧ g.etaFOV = none ∧ g.Nxi = none ∧ g.Neta = none

theorem AutoGrid.even {g : Grid} (h : AutoGrid g) : EvenGrid g := by
  constructor
  · intro N hN; rw [h.2.2.2.1] at hN; exact absurd hN (by simp)
  · intro N hN; rw [h.2.2.2.2] at hN; exact absurd hN (by simp)

theorem maxExtent_ge (z : Zone) : 1 ≤ maxExtent z := by
  unfold maxExtent; cases z.shape <;> simp

theorem covers (g : Grid) (hr : 0 < g.res) (N : ℕ) (hN : Even N) (fov rho off : ℝ) (hf : rho + |off| ≤ fov) (j : ℤ) (h : |coord g N j - off| ≤ rho) :
    OnAxis N (autoSize g fov) j := by
  obtain ⟨a, rfl⟩ := hN
  have ha : (((a + a : ℕ) : ℤ)) / 2 = a := by omega
  have hc : |coord g (a + a) j| ≤ fov := by
    have := abs_sub_abs_le_abs_sub (coord g (a + a) j) off
    linarith
  have hres : g.res * (1 / g.res) = 1 := by field_simp
  unfold OnAxis
  rw [ha]
  unfold coord at hc
  unfold autoSize ceilEven
  cases hcen : g.centering with
  | pixel =>
    rw [hcen] at hc
    simp only at hc ⊢
    have e : (-(((a + a : ℕ) : ℝ)) / 2 + j) * (1 / g.res) = ((j - a : ℤ) : ℝ) / g.res := by push_cast; field_simp; ring
    rw [e, abs_div, abs_of_pos hr, div_le_iff₀ hr] at hc
    have hb := abs_le.1 hc
    have q1 := Int.le_ceil ((0.5 : ℝ) * (2 * (fov * g.res + 1 / 2)))
    set q := ⌈(0.5 : ℝ) * (2 * (fov * g.res + 1 / 2))⌉
    have h1 : ((j - a : ℤ) : ℝ) < q := by linarith [hb.2]
    have h2 : -(q : ℝ) < ((j - a : ℤ) : ℝ) := by linarith [hb.1]
    have h1' : j - a < q := by exact_mod_cast h1
    have h2' : -q < j - a := by exact_mod_cast h2
    omega
  | interpixel =>
    rw [hcen] at hc
    simp only at hc ⊢
    have e : (-((((a + a : ℕ) : ℝ)) - 1) / 2 + j) * (1 / g.res) = (((j - a : ℤ) : ℝ) + 1 / 2) / g.res := by push_cast; field_simp; ring
    rw [e, abs_div, abs_of_pos hr, div_le_iff₀ hr] at hc
    have hb := abs_le.1 hc
    have q1 := Int.le_ceil ((0.5 : ℝ) * (2 * fov * g.res))
    set q := ⌈(0.5 : ℝ) * (2 * fov * g.res)⌉
    have h1 : ((j - a : ℤ) : ℝ) < q := by linarith [hb.2]
    have h2 : -(q : ℝ) - 1 < ((j - a : ℤ) : ℝ) := by linarith [hb.1]
    have h1' : j - a < q := by exact_mod_cast h1
    have h2' : -q - 1 < j - a := by exact_mod_cast h2
    omega

theorem sizeXi_auto (g : Grid) (h : AutoGrid g) (z : Zone) : sizeXi g z = autoSize g (maxExtent z * z.rhoOuter + |z.xiOff|) := by
  unfold sizeXi; rw [h.1, h.2.1, h.2.2.2.1]; rfl

theorem sizeEta_auto (g : Grid) (h : AutoGrid g) (z : Zone) : sizeEta g z = autoSize g (maxExtent z * z.rhoOuter + |z.etaOff|) := by
  unfold sizeEta; rw [h.1, h.2.2.1, h.2.2.2.2]; rfl

theorem autoSize_pos (g : Grid) (hr : 0 < g.res) (f : ℝ) (hf : 0 < f) : 0 < autoSize g f := by
  unfold autoSize ceilEven
  have := mul_pos hf hr
  cases g.centering <;> simp only
  · have : 0 < ⌈(0.5 : ℝ) * (2 * (f * g.res + 1 / 2))⌉ := Int.ceil_pos.2 (by linarith)
    omega
  · have : 0 < ⌈(0.5 : ℝ) * (2 * f * g.res)⌉ := Int.ceil_pos.2 (by linarith)
    omega

theorem size_pos (g : Grid) (hr : 0 < g.res) (h : AutoGrid g) (z : Zone) (hz : 0 < z.rhoOuter) : 0 < sizeXi g z ∧ 0 < sizeEta g z := by
  have hm := maxExtent_ge z
  have hp : 0 < maxExtent z * z.rhoOuter := by positivity
  rw [sizeXi_auto g h, sizeEta_auto g h]
  exact ⟨autoSize_pos g hr _ (by have := abs_nonneg z.xiOff; linarith), autoSize_pos g hr _ (by have := abs_nonneg z.etaOff; linarith)⟩

/-- C41. Correction region, array size left automatic: one or more zones of positive outer radius give a mask in which a set pixel lies in at least
one zone, and every pixel of a zone within the zone's outer radius in both axes is set (for circles, annuli and D shapes that is the whole zone;
rotated squares and rectangles reach further, see `C41_clocked_square_violated`). -/
theorem C41_union (g : Grid) (hr : 0 < g.res) (ha : AutoGrid g) (zs : List Zone) (hne : zs ≠ []) (hz : ∀ z ∈ zs, 0 < z.rhoOuter) :
    ∃ M, corrMask g zs = .ok M ∧ Even M.h ∧ Even M.w ∧
      (∀ (i : Fin M.h) (j : Fin M.w), M.px i j ≠ 0 → ∃ z ∈ zs, inZone z (coord g M.w j) (coord g M.h i)) ∧
      (∀ (i : Fin M.h) (j : Fin M.w), ∀ z ∈ zs, inZone z (coord g M.w j) (coord g M.h i) → |coord g M.w j - z.xiOff| ≤ z.rhoOuter →
        |coord g M.h i - z.etaOff| ≤ z.rhoOuter → M.px i j ≠ 0) ∧
      ∀ (i j : ℤ), ∀ z ∈ zs, |coord g M.w j - z.xiOff| ≤ z.rhoOuter → |coord g M.h i - z.etaOff| ≤ z.rhoOuter → 0 ≤ i ∧ i < M.h ∧ 0 ≤ j ∧ j < M.w := by
  obtain ⟨M, h1, h2, h3⟩ := corrMask_spec g ha.even zs [] (Img.full 1 1 0) ⟨one_pos, one_pos⟩ (Or.inl ⟨rfl, rfl⟩) (by simp)
    (fun z h => size_pos g hr ha z (hz z h))
  rw [List.nil_append] at h2 h3
  rcases h2 with ⟨h2, -⟩ | ⟨eh, ew, -, hR⟩
  · exact absurd h2 hne
  have hcov : ∀ (i j : ℤ), ∀ z ∈ zs, |coord g M.w j - z.xiOff| ≤ z.rhoOuter → |coord g M.h i - z.etaOff| ≤ z.rhoOuter →
      OnAxis M.w (sizeXi g z) j ∧ OnAxis M.h (sizeEta g z) i := by
    intro i j z hzz hx hy
    have hm := maxExtent_ge z
    have hp := hz z hzz
    have hle : z.rhoOuter ≤ maxExtent z * z.rhoOuter := by nlinarith
    rw [sizeXi_auto g ha, sizeEta_auto g ha]
    exact ⟨covers g hr M.w ew _ z.rhoOuter z.xiOff (by linarith) j hx, covers g hr M.h eh _ z.rhoOuter z.etaOff (by linarith) i hy⟩
  refine ⟨M, h1, eh, ew, ?_, ?_, ?_⟩
  · intro i j h
    obtain ⟨z, hzz, hin, -⟩ := (hR i j).1 h
    exact ⟨z, hzz, hin⟩
  · intro i j z hzz hin hx hy
    rw [hR]
    obtain ⟨c1, c2⟩ := hcov i j z hzz hx hy
    exact ⟨z, hzz, hin, c1, c2⟩
  · intro i j z hzz hx hy
    obtain ⟨c1, c2⟩ := hcov i j z hzz hx hy
    have := h3 z hzz
    obtain ⟨p1, hp1⟩ := sizeXi_even g ha.even z
    obtain ⟨p2, hp2⟩ := sizeEta_even g ha.even z
    obtain ⟨p3, hp3⟩ := eh
    obtain ⟨p4, hp4⟩ := ew
    unfold OnAxis at c1 c2
    omega

/-- Points of a circular or D-shaped zone that respect the exact outer radius lie within it in both axes. -/
theorem within_radius (x y r : ℝ) (h : Real.sqrt (x ^ 2 + y ^ 2) ≤ r) : |x| ≤ r ∧ |y| ≤ r := by
  constructor
  · refine le_trans ?_ h
    rw [← Real.sqrt_sq_eq_abs]
    exact Real.sqrt_le_sqrt (by nlinarith [sq_nonneg y])
  · refine le_trans ?_ h
    rw [← Real.sqrt_sq_eq_abs]
    exact Real.sqrt_le_sqrt (by nlinarith [sq_nonneg x])

/-- C41. For zones of any shape in which no pixel is farther from the zone centre than the outer radius (exactly the circle, annulus and D shapes up
to the guard band), the correction region is the union of the zones. -/
theorem C41_union_round (g : Grid) (hr : 0 < g.res) (ha : AutoGrid g) (zs : List Zone) (hne : zs ≠ []) (hz : ∀ z ∈ zs, 0 < z.rhoOuter)
    (M : Img ℝ) (hM : corrMask g zs = .ok M)
    (hround : ∀ z ∈ zs, ∀ (i : Fin M.h) (j : Fin M.w), inZone z (coord g M.w j) (coord g M.h i) →
      Real.sqrt ((coord g M.w j - z.xiOff) ^ 2 + (coord g M.h i - z.etaOff) ^ 2) ≤ z.rhoOuter) (i : Fin M.h) (j : Fin M.w) :
    M.px i j ≠ 0 ↔ ∃ z ∈ zs, inZone z (coord g M.w j) (coord g M.h i) := by
  obtain ⟨M', h1, -, -, h2, h3, -⟩ := C41_union g hr ha zs hne hz
  rw [hM] at h1
  obtain rfl := Except.ok.inj h1
  refine ⟨h2 i j, ?_⟩
  rintro ⟨z, hzz, hin⟩
  have := within_radius _ _ _ (hround z hzz i j hin)
  exact h3 i j z hzz hin this.1 this.2

/-! ## Scoring region -/

theorem scoreMask_spec (g : Grid) (h w : ℕ) (zs : List Zone) (i : Fin h) (j : Fin w) :
    (scoreMask g h w zs).px i j ≠ 0 ↔ ∃ z ∈ zs, inZone z (coord g w j) (coord g h i) := by
  classical
  have hpx : ∀ z : Zone, ((genSWMask { g with Nxi := some w, Neta := some h } z).get? i j).getD 0 = if inZone z (coord g w j) (coord g h i) then (1 : ℝ) else 0 := by
    intro z
    have := Img.get?_px (genSWMask { g with Nxi := some w, Neta := some h } z) i j
    rw [this]
    rfl
  show (zs.map fun z => ((genSWMask { g with Nxi := some w, Neta := some h } z).get? i j).getD 0).sum ≠ 0 ↔ _
  simp only [hpx]
  clear hpx
  induction zs with
  | nil => simp
  | cons z zs ih =>
    rw [List.map_cons, List.sum_cons]
    have hnn : 0 ≤ (zs.map fun z => if inZone z (coord g w j) (coord g h i) then (1 : ℝ) else 0).sum := by
      refine List.sum_nonneg ?_
      intro x hx
      obtain ⟨y, -, rfl⟩ := List.mem_map.1 hx
      split_ifs <;> norm_num
    by_cases hz : inZone z (coord g w j) (coord g h i)
    · rw [if_pos hz]
      constructor
      · intro _; exact ⟨z, by simp, hz⟩
      · intro _ hcon; linarith
    · rw [if_neg hz, zero_add, ih]
      constructor
      · rintro ⟨y, hy, h'⟩; exact ⟨y, by simp [hy], h'⟩
      · rintro ⟨y, hy, h'⟩
        rcases List.mem_cons.1 hy with rfl | hy
        · exact absurd h' hz
        · exact ⟨y, hy, h'⟩

theorem configure_ok (f f' : Fend) (M S : Img ℝ) (h : configure f = .ok (M, S, f')) :
    ∃ zc eo zs, zonesOf f f.corr f.etaOff = .ok zc ∧ corrMask f.grid zc = .ok M ∧ (if f.score = [] then Except.ok f.etaOff else scoreEta f) = .ok eo ∧ zonesOf f f.score eo = .ok zs ∧
      S = scoreMask f.grid M.h M.w zs ∧ f' = { f with grid := { f.grid with Nxi := some M.w, Neta := some M.h }, etaOff := eo } := by
  unfold configure at h
  cases h1 : zonesOf f f.corr f.etaOff with
  | error e => simp [h1, bind, Except.bind] at h
  | ok zc =>
    simp only [h1, bind, Except.bind] at h
    cases h2 : corrMask f.grid zc with
    | error e => simp [h2] at h
    | ok M1 =>
      simp only [h2, pure, Except.pure] at h
      by_cases hs : f.score = []
      · rw [if_pos hs] at h
        cases h4 : zonesOf f f.score f.etaOff with
        | error e => simp [h4] at h
        | ok zs =>
          simp only [h4, Except.ok.injEq, Prod.mk.injEq] at h
          obtain ⟨rfl, rfl, rfl⟩ := h
          exact ⟨zc, f.etaOff, zs, rfl, h2, if_pos hs, h4, rfl, rfl⟩
      · rw [if_neg hs] at h
        cases h3 : scoreEta f with
        | error e => simp [h3] at h
        | ok eo =>
          simp only [h3] at h
          cases h4 : zonesOf f f.score eo with
          | error e => simp [h4] at h
          | ok zs =>
            simp only [h4, Except.ok.injEq, Prod.mk.injEq] at h
            obtain ⟨rfl, rfl, rfl⟩ := h
            exact ⟨zc, eo, zs, rfl, h2, by rw [if_neg hs], h4, rfl, rfl⟩

/-- C41 (no vertical offsets, or vertical offsets equal to the horizontal ones). The scoring region is the union of the requested scoring
zones on the array of the correction region. -/
theorem C41_score (f f' : Fend) (M S : Img ℝ) (h : configure f = .ok (M, S, f')) (hoff : f.etaOff = none ∨ f.etaOff = f.xiOff) :
    ∃ zs, zonesOf f f.score f.etaOff = .ok zs ∧ S.h = M.h ∧ S.w = M.w ∧
      ∀ (i : Fin S.h) (j : Fin S.w), S.px i j ≠ 0 ↔ ∃ z ∈ zs, inZone z (coord f.grid S.w j) (coord f.grid S.h i) := by
  obtain ⟨zc, eo, zs, -, -, h3, h4, rfl, -⟩ := configure_ok f f' M S h
  have he : eo = f.etaOff := by
    split_ifs at h3
    · exact (Except.ok.inj h3).symm
    · unfold scoreEta at h3
      rcases hoff with ho | ho
      · rw [ho] at h3 ⊢; exact (Except.ok.inj h3).symm
      · cases he : f.etaOff with
        | none => rw [he] at h3; exact (Except.ok.inj h3).symm
        | some l =>
          rw [← ho, he] at h3
          exact (Except.ok.inj h3).symm
  rw [he] at h4
  exact ⟨zs, h4, rfl, rfl, fun i j => scoreMask_spec f.grid M.h M.w zs i j⟩

/-- C41 (negative). If vertical offsets are given without horizontal ones, configuring a dark hole with a scoring zone always fails. -/
theorem C41_eta_only_violated (f : Fend) (l : List ℝ) (h1 : f.etaOff = some l) (h2 : f.xiOff = none) (h3 : f.score ≠ []) : ∀ r, configure f ≠ .ok r := by
  rintro ⟨M, S, f'⟩ h
  obtain ⟨zc, eo, zs, -, -, h4, -⟩ := configure_ok f f' M S h
  rw [if_neg h3, scoreEta, h1, h2] at h4
  simp at h4

/-- C41 (negative). Whenever configuring succeeds with a scoring zone and vertical offsets, the stored vertical offsets have been replaced by the
horizontal ones, and the scoring zones use those. -/
theorem C41_overwrites_violated (f f' : Fend) (M S : Img ℝ) (h : configure f = .ok (M, S, f')) (l : List ℝ) (h1 : f.etaOff = some l) (h3 : f.score ≠ []) :
    f'.etaOff = f.xiOff ∧ ∃ zs, zonesOf f f.score f.xiOff = .ok zs ∧ S = scoreMask f.grid M.h M.w zs := by
  obtain ⟨zc, eo, zs, -, -, h4, h5, h6, h7⟩ := configure_ok f f' M S h
  rw [if_neg h3, scoreEta, h1] at h4
  cases hx : f.xiOff with
  | none => rw [hx] at h4; simp at h4
  | some m =>
    rw [hx] at h4
    have : eo = some m := (Except.ok.inj h4).symm
    subst this
    exact ⟨by rw [h7], zs, h5, h6⟩

/-- A dark hole of radii 2–5 λ/D centred 10 λ/D above the star; scoring zone equal to the correction zone; 1 pixel per λ/D. -/
noncomputable def offsetFend : Fend where
  grid := ⟨1, .pixel, none, none, none, none, none⟩
  corr := [(2, 5, 180)]
  score := [(2, 5, 180)]
  sides := [.leftright]
  shapes := [.circle]
  clock := none
  xiOff := some [0]
  etaOff := some [10]

/-- The requested zone. -/
noncomputable def offsetZone : Zone := ⟨2, 5, 180, .leftright, .circle, 0, 0, 10⟩
/-- The zone used for scoring. -/
noncomputable def offsetZone' : Zone := ⟨2, 5, 180, .leftright, .circle, 0, 0, 0⟩

/-- C41 (negative). For `offsetFend` the call succeeds; a pixel of the requested zone at (0, 13) λ/D is in the correction region but not in the scoring
region, and after the call a second identical call no longer has it in the correction region either. -/
theorem C41_score_violated : ∃ (M S : Img ℝ) (f' : Fend), configure offsetFend = .ok (M, S, f') ∧
    ∃ (i : Fin M.h) (j : Fin M.w) (i' : Fin S.h) (j' : Fin S.w), (i' : ℕ) = i ∧ (j' : ℕ) = j ∧
      coord offsetFend.grid M.w j = 0 ∧ coord offsetFend.grid M.h i = 13 ∧ inZone offsetZone 0 13 ∧ M.px i j ≠ 0 ∧ S.px i' j' = 0 ∧
      ∃ M2 S2 f2, configure f' = .ok (M2, S2, f2) ∧ ∀ (a : Fin M2.h) (b : Fin M2.w), coord f'.grid M2.w b = 0 → coord f'.grid M2.h a = 13 → M2.px a b = 0 := by
  have hauto : AutoGrid offsetFend.grid := ⟨rfl, rfl, rfl, rfl, rfl⟩
  have hres : 0 < offsetFend.grid.res := by simp [offsetFend]
  obtain ⟨M, hM, hMh, hMw, hM1, hM2, hM3⟩ := C41_union offsetFend.grid hres hauto [offsetZone] (by simp) (by intro z hz; simp at hz; subst hz; norm_num [offsetZone])
  have hguard : (0 : ℝ) < guardBand ∧ guardBand < 1 := by unfold guardBand; norm_num
  have hzone : inZone offsetZone 0 13 := by
    rw [C41_zone _ _ _ (Or.inr (by norm_num [offsetZone]))]
    have hc : offsetZone.clock = 0 := by simp [Zone.clock, offsetZone, Side.base, radians]
    have hu : rotU offsetZone 0 13 = 0 := by unfold rotU; rw [hc]; simp [offsetZone]
    have hv : rotV offsetZone 0 13 = 3 := by unfold rotV; rw [hc]; norm_num [offsetZone]
    rw [hu, hv]
    have hs : Real.sqrt ((0 : ℝ) ^ 2 + 3 ^ 2) = 3 := by rw [show (0 : ℝ) ^ 2 + 3 ^ 2 = 3 ^ 2 by norm_num]; exact Real.sqrt_sq (by norm_num)
    refine ⟨?_, Or.inl ?_⟩
    · unfold ShapeSpec
      simp only [offsetZone, hs]
      constructor <;> linarith [hguard.1]
    · have : (⟨0, 3⟩ : ℂ) = ((3 : ℝ) : ℂ) * Complex.I := by apply Complex.ext <;> simp
      rw [this, Complex.arg_real_mul _ (by norm_num), Complex.arg_I]
      rw [abs_of_pos (by positivity)]
      simp only [offsetZone, radians]
      linarith [Real.pi_pos]
  have hnotin : ∀ xo, ¬ inZone { offsetZone' with xiOff := xo, etaOff := 0 } 0 13 := by
    intro xo h
    have hm : mask0 { offsetZone' with xiOff := xo, etaOff := 0 } (0 - xo) (13 - 0) := by
      rcases h with h | h
      · exact h.1
      · exact h.2.1
    have := hm.2
    simp only [offsetZone'] at this
    have h13 : (13 : ℝ) ≤ Real.sqrt ((0 - xo) ^ 2 + (13 - 0) ^ 2) := by
      rw [show (13 : ℝ) = Real.sqrt (13 ^ 2) by rw [Real.sqrt_sq (by norm_num)]]
      refine Real.sqrt_le_sqrt ?_
      rw [Real.sqrt_sq (by norm_num)]
      nlinarith [sq_nonneg (0 - xo)]
    linarith [hguard.2]
  obtain ⟨p, hp⟩ := hMh
  obtain ⟨q, hq⟩ := hMw
  have hcx : coord offsetFend.grid M.w (q : ℤ) = 0 := by rw [hq]; simp [coord, offsetFend]
  have hcy : coord offsetFend.grid M.h ((p : ℤ) + 13) = 13 := by rw [hp]; simp [coord, offsetFend]
  have hb := hM3 ((p : ℤ) + 13) q offsetZone (by simp) (by rw [hcx]; simp [offsetZone]) (by rw [hcy]; norm_num [offsetZone])
  have hzc : zonesOf offsetFend offsetFend.corr offsetFend.etaOff = .ok [offsetZone] := rfl
  have hzs : zonesOf offsetFend offsetFend.score (some [0]) = .ok [offsetZone'] := rfl
  set f' : Fend := { offsetFend with grid := { offsetFend.grid with Nxi := some M.w, Neta := some M.h }, etaOff := some [0] } with hf'
  have hconf : configure offsetFend = .ok (M, scoreMask offsetFend.grid M.h M.w [offsetZone'], f') := by
    unfold configure
    simp only [hzc, bind, Except.bind, hM]
    rfl
  refine ⟨M, _, f', hconf, ⟨p + 13, by omega⟩, ⟨q, by omega⟩, ⟨p + 13, by show p + 13 < M.h; omega⟩, ⟨q, by show q < M.w; omega⟩, rfl, rfl, ?_, ?_, hzone, ?_, ?_, ?_⟩
  · exact hcx
  · exact_mod_cast hcy
  · refine hM2 ⟨p + 13, by omega⟩ ⟨q, by omega⟩ offsetZone (by simp) ?_ ?_ ?_
    · rw [show coord offsetFend.grid M.w (((⟨q, by omega⟩ : Fin M.w) : ℕ) : ℤ) = 0 from hcx]
      rw [show coord offsetFend.grid M.h (((⟨p + 13, by omega⟩ : Fin M.h) : ℕ) : ℤ) = 13 by exact_mod_cast hcy]
      exact hzone
    · rw [show coord offsetFend.grid M.w (((⟨q, by omega⟩ : Fin M.w) : ℕ) : ℤ) = 0 from hcx]; simp [offsetZone]
    · rw [show coord offsetFend.grid M.h (((⟨p + 13, by omega⟩ : Fin M.h) : ℕ) : ℤ) = 13 by exact_mod_cast hcy]; norm_num [offsetZone]
  · by_contra hcon
    obtain ⟨z, hz, hin⟩ := (scoreMask_spec offsetFend.grid M.h M.w [offsetZone'] ⟨p + 13, by omega⟩ ⟨q, by omega⟩).1 hcon
    simp only [List.mem_singleton] at hz
    subst hz
    rw [show coord offsetFend.grid M.w (((⟨q, by omega⟩ : Fin M.w) : ℕ) : ℤ) = 0 from hcx] at hin
    rw [show coord offsetFend.grid M.h (((⟨p + 13, by omega⟩ : Fin M.h) : ℕ) : ℤ) = 13 by exact_mod_cast hcy] at hin
    exact hnotin 0 hin
  · have hev : EvenGrid f'.grid := by
      constructor
      · intro N hN; simp only [hf', Option.some.injEq] at hN; exact ⟨q, by omega⟩
      · intro N hN; simp only [hf', Option.some.injEq] at hN; exact ⟨p, by omega⟩
    have hsz : sizeXi f'.grid offsetZone' = M.w ∧ sizeEta f'.grid offsetZone' = M.h := ⟨rfl, rfl⟩
    obtain ⟨M2, g1, g2, g3⟩ := corrMask_spec f'.grid hev [offsetZone'] [] (Img.full 1 1 0) ⟨one_pos, one_pos⟩ (Or.inl ⟨rfl, rfl⟩) (by simp)
      (by intro z hz; simp at hz; subst hz; rw [hsz.1, hsz.2]; omega)
    have hzc' : zonesOf f' f'.corr f'.etaOff = .ok [offsetZone'] := rfl
    have hzs' : zonesOf f' f'.score (some [0]) = .ok [offsetZone'] := rfl
    refine ⟨M2, scoreMask f'.grid M2.h M2.w [offsetZone'], { f' with grid := { f'.grid with Nxi := some M2.w, Neta := some M2.h }, etaOff := some [0] }, ?_, ?_⟩
    · unfold configure
      have g1' : corrMask f'.grid [offsetZone'] = .ok M2 := g1
      simp only [hzc', bind, Except.bind, g1']
      rfl
    · intro a b hb0 ha13
      rcases g2 with ⟨g2, -⟩ | ⟨-, -, -, hR⟩
      · simp at g2
      · by_contra hcon
        obtain ⟨z, hz, hin, -⟩ := (hR a b).1 hcon
        simp only [List.nil_append, List.mem_singleton] at hz
        subst hz
        rw [hb0, ha13] at hin
        exact hnotin 0 hin

/-! ## Clocked squares -/

/-- A square of half-width 10 clocked by 60°, next to a thin annulus that enlarges the array. -/
noncomputable def clockedSquare : Zone := ⟨0, 10, 180, .leftright, .square, 60, 0, 0⟩
/-- see `clockedSquare` -/
noncomputable def bigRing : Zone := ⟨19, 20, 180, .leftright, .circle, 0, 0, 0⟩

/-- C41 (negative). The pixel at (-3, 12) lies inside the square of half-width 10 clocked by 60° and in the array, but is not in the correction region:
the square was generated on an array too small for its corners. -/
theorem C41_clocked_square_violated : ∃ (g : Grid) (M : Img ℝ) (i : Fin M.h) (j : Fin M.w), AutoGrid g ∧ corrMask g [clockedSquare, bigRing] = .ok M ∧
    coord g M.w j = -3 ∧ coord g M.h i = 12 ∧ inZone clockedSquare (-3) 12 ∧ M.px i j = 0 := by
  set g : Grid := ⟨1, .pixel, none, none, none, none, none⟩ with hgd
  have hauto : AutoGrid g := ⟨rfl, rfl, rfl, rfl, rfl⟩
  have hres : (0 : ℝ) < g.res := by simp [hgd]
  have hzpos : ∀ z ∈ [clockedSquare, bigRing], 0 < z.rhoOuter := by
    intro z hz
    simp at hz
    rcases hz with rfl | rfl <;> norm_num [clockedSquare, bigRing]
  obtain ⟨M, g1, g2, g3⟩ := corrMask_spec g hauto.even [clockedSquare, bigRing] [] (Img.full 1 1 0) ⟨one_pos, one_pos⟩ (Or.inl ⟨rfl, rfl⟩) (by simp)
    (fun z hz => size_pos g hres hauto z (hzpos z hz))
  rcases g2 with ⟨g2, -⟩ | ⟨⟨p, hp⟩, ⟨q, hq⟩, -, hR⟩
  · simp at g2
  have hguard : (0 : ℝ) < guardBand ∧ guardBand < 1 := by unfold guardBand; norm_num
  have hcos : Real.cos (radians 60) = 1 / 2 := by
    rw [show radians 60 = Real.pi / 3 by unfold radians; ring]; exact Real.cos_pi_div_three
  have hsin : Real.sin (radians 60) = Real.sqrt 3 / 2 := by
    rw [show radians 60 = Real.pi / 3 by unfold radians; ring]; exact Real.sin_pi_div_three
  -- array sizes
  have hext : maxExtent clockedSquare = 1 := by
    simp only [maxExtent, clockedSquare, hcos]
    norm_num
  have hs1 : sizeEta g clockedSquare = 22 := by
    rw [sizeEta_auto g hauto, hext]
    simp only [autoSize, hgd, clockedSquare, ceilEven]
    have : ⌈(0.5 : ℝ) * (2 * ((1 * 10 + |(0 : ℝ)|) * 1 + 1 / 2))⌉ = 11 := by
      rw [Int.ceil_eq_iff]; simp; norm_num
    rw [this]; rfl
  have hs2 : sizeEta g bigRing = 42 := by
    rw [sizeEta_auto g hauto]
    simp only [autoSize, hgd, bigRing, ceilEven, maxExtent]
    have : ⌈(0.5 : ℝ) * (2 * ((1 * 20 + |(0 : ℝ)|) * 1 + 1 / 2))⌉ = 21 := by
      rw [Int.ceil_eq_iff]; simp; norm_num
    rw [this]; rfl
  have hs3 : sizeXi g bigRing = 42 := by
    rw [sizeXi_auto g hauto]
    simp only [autoSize, hgd, bigRing, ceilEven, maxExtent]
    have : ⌈(0.5 : ℝ) * (2 * ((1 * 20 + |(0 : ℝ)|) * 1 + 1 / 2))⌉ = 21 := by
      rw [Int.ceil_eq_iff]; simp; norm_num
    rw [this]; rfl
  have hfit := g3 bigRing (by simp)
  rw [hs2, hs3] at hfit
  have hcx : coord g M.w ((q : ℤ) - 3) = -3 := by rw [hq]; simp [coord, hgd]; ring
  have hcy : coord g M.h ((p : ℤ) + 12) = 12 := by rw [hp]; simp [coord, hgd]
  have hjq : ((q - 3 : ℕ) : ℤ) = (q : ℤ) - 3 := by omega
  have hcx' : coord g M.w (((⟨q - 3, by omega⟩ : Fin M.w) : ℕ) : ℤ) = -3 := by simp only; rw [hjq]; exact hcx
  have hcy' : coord g M.h (((⟨p + 12, by omega⟩ : Fin M.h) : ℕ) : ℤ) = 12 := by exact_mod_cast hcy
  refine ⟨g, M, ⟨p + 12, by omega⟩, ⟨q - 3, by omega⟩, hauto, g1, hcx', hcy', ?_, ?_⟩
  · rw [C41_zone _ _ _ (Or.inl (by norm_num [clockedSquare]))]
    have hc : clockedSquare.clock = radians 60 := by simp [Zone.clock, clockedSquare, Side.base]
    have hsq3 : Real.sqrt 3 ^ 2 = 3 := Real.sq_sqrt (by norm_num)
    have hs0 : 0 ≤ Real.sqrt 3 := Real.sqrt_nonneg 3
    have hs3lo : 1.7 < Real.sqrt 3 := by nlinarith
    have hs3hi : Real.sqrt 3 < 1.74 := by nlinarith
    have hu : rotU clockedSquare (-3) 12 = -3 / 2 + 6 * Real.sqrt 3 := by unfold rotU; rw [hc, hcos, hsin]; simp only [clockedSquare]; ring
    have hv : rotV clockedSquare (-3) 12 = 6 + 3 / 2 * Real.sqrt 3 := by unfold rotV; rw [hc, hcos, hsin]; simp only [clockedSquare]; ring
    rw [hu, hv]
    refine ⟨?_, Or.inl ?_⟩
    · unfold ShapeSpec
      simp only [clockedSquare]
      refine ⟨?_, ?_, ?_⟩
      · rw [abs_le]; constructor <;> linarith [hguard.1]
      · rw [abs_le]; constructor <;> linarith [hguard.1]
      · refine le_trans ?_ (Real.sqrt_nonneg _); linarith [hguard.1]
    · have hre : (0 : ℝ) ≤ (⟨-3 / 2 + 6 * Real.sqrt 3, 6 + 3 / 2 * Real.sqrt 3⟩ : ℂ).re := by simp only; linarith
      have := (Complex.abs_arg_le_pi_div_two_iff).2 hre
      refine this.trans ?_
      simp only [clockedSquare, radians]
      linarith [Real.pi_pos]
  · by_contra hcon
    obtain ⟨z, hz, hin, -, hax⟩ := (hR _ _).1 hcon
    simp only [List.nil_append, List.mem_cons, List.not_mem_nil, or_false] at hz
    rcases hz with rfl | rfl
    · rw [hs1] at hax
      unfold OnAxis at hax
      simp only at hax
      omega
    · rw [hcx', hcy'] at hin
      have hm : mask0 bigRing (-3 - 0) (12 - 0) := by
        rcases hin with h | h
        · exact h.1
        · exact h.2.1
      have h1 : bigRing.rhoInner - guardBand ≤ Real.sqrt ((-3 - 0) ^ 2 + (12 - 0) ^ 2) := hm.1
      have h2 : Real.sqrt ((-3 - 0 : ℝ) ^ 2 + (12 - 0) ^ 2) ≤ 13 := by
        rw [show (13 : ℝ) = Real.sqrt (13 ^ 2) by rw [Real.sqrt_sq (by norm_num)]]
        exact Real.sqrt_le_sqrt (by norm_num)
      simp only [bigRing] at h1
      linarith [hguard.2]

end Verif.Region
