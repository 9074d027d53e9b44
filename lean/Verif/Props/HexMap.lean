import Verif.Props.HexZernike
import Verif.Lemmas.Dm

/-!
# C125, second part: the map that prop_hex_zernikes returns
-/

namespace Verif.HexZ
open Verif

/-! ## The map -/

/-- One term of the sum: coefficient times polynomial; indices outside of 1..22 do not count. -/
noncomputable def term (q : ℤ × ℝ) (x y : ℝ) : ℝ := if 1 ≤ q.1 ∧ q.1 ≤ 22 then q.2 * H q.1.toNat x y else 0

theorem hexZ_int (z : ℤ) (h1 : 1 ≤ z) (h2 : z ≤ 22) {r t x y : ℝ} (hx : r * Real.cos t = x) (hy : r * Real.sin t = y) : (hexZ z r t).getD 0 = H z.toNat x y := by
  obtain ⟨k, rfl⟩ := Int.eq_ofNat_of_zero_le (by omega : 0 ≤ z)
  have := hexZ_eq k (by omega) (by omega) hx hy
  rw [this]
  rfl

theorem H_one (x y : ℝ) : H 1 x y = 1 := by simp [H, cst, pol, evalP]

def Zer.isArr : Zer → Prop
  | .arr _ => True
  | _ => False

theorem addTerm_val (R T X Y : ℤ → ℤ → ℝ) (hx : ∀ a b, R a b * Real.cos (T a b) = X a b) (hy : ∀ a b, R a b * Real.sin (T a b) = Y a b) (z : Zer) (q : ℤ × ℝ) (a b : ℤ) :
    (addTerm R T z q).val a b = z.val a b + term q (X a b) (Y a b) := by
  unfold addTerm term
  split_ifs with h1 h2 h3 h4 h5
  · rw [h1]
    cases z <;> simp [Zer.val, H_one]
  · exact absurd h2 (by omega)
  · show z.val a b + q.2 * _ = _
    rw [hexZ_int q.1 (by omega) h3.2 (hx a b) (hy a b)]
  · exact absurd h4 (by omega)
  · omega
  · rw [add_zero]

theorem addTerm_isArr (R T : ℤ → ℤ → ℝ) (z : Zer) (q : ℤ × ℝ) : (addTerm R T z q).isArr ↔ z.isArr ∨ (2 ≤ q.1 ∧ q.1 ≤ 22) := by
  unfold addTerm
  split_ifs with h1 h2
  · cases z <;> simp [Zer.isArr] <;> omega
  · simp [Zer.isArr, h2]
  · simp [h2]

theorem fold_val (R T X Y : ℤ → ℤ → ℝ) (hx : ∀ a b, R a b * Real.cos (T a b) = X a b) (hy : ∀ a b, R a b * Real.sin (T a b) = Y a b) (l : List (ℤ × ℝ)) (a b : ℤ) :
    ∀ z : Zer, (l.foldl (addTerm R T) z).val a b = z.val a b + (l.map fun q => term q (X a b) (Y a b)).sum := by
  induction l with
  | nil => intro z; simp
  | cons q l ih =>
    intro z
    rw [List.foldl_cons, ih, addTerm_val R T X Y hx hy, List.map_cons, List.sum_cons]
    ring

theorem fold_isArr (R T : ℤ → ℤ → ℝ) (l : List (ℤ × ℝ)) : ∀ z : Zer, (l.foldl (addTerm R T) z).isArr ↔ z.isArr ∨ ∃ q ∈ l, 2 ≤ q.1 ∧ q.1 ≤ 22 := by
  induction l with
  | nil => intro z; simp
  | cons q l ih =>
    intro z
    rw [List.foldl_cons, ih, addTerm_isArr]
    simp only [List.mem_cons, exists_eq_or_imp]
    tauto

theorem paste_arr (n : ℕ) [NeZero n] (f : ℤ → ℤ → ℝ) (dpix x1 y1 : ℤ) (hd : 1 ≤ dpix) :
    paste n (.arr f) dpix x1 y1 = .ok fun i j =>
      if (2 * y1 + n).tdiv 2 ≤ (i.val : ℤ) ∧ (i.val : ℤ) < (2 * y1 + n).tdiv 2 + dpix ∧ (2 * x1 + n).tdiv 2 ≤ (j.val : ℤ) ∧ (j.val : ℤ) < (2 * x1 + n).tdiv 2 + dpix then
        f (i.val - (2 * y1 + n).tdiv 2) (j.val - (2 * x1 + n).tdiv 2) else 0 := by
  unfold paste
  dsimp only
  generalize (2 * x1 + (n : ℤ)).tdiv 2 = xl
  generalize (2 * y1 + (n : ℤ)).tdiv 2 = yl
  by_cases hc : (if xl < 0 then 0 else xl) < (n : ℤ) ∧ (if yl < 0 then 0 else yl) < (n : ℤ) ∧ xl + dpix - 1 ≥ 0 ∧ yl + dpix - 1 ≥ 0
  · rw [if_pos hc, if_pos]
    · congr 1
      funext i j
      have hi := ZMod.val_lt i
      have hj := ZMod.val_lt j
      by_cases hw : yl ≤ (i.val : ℤ) ∧ (i.val : ℤ) < yl + dpix ∧ xl ≤ (j.val : ℤ) ∧ (j.val : ℤ) < xl + dpix
      · rw [if_pos hw, if_pos]
        · congr 1
          · split_ifs <;> omega
          · split_ifs <;> omega
        · refine ⟨?_, by omega, ?_, by omega⟩ <;> split_ifs <;> omega
      · rw [if_neg hw, if_neg]
        intro h
        apply hw
        obtain ⟨h1, h2, h3, h4⟩ := h
        refine ⟨?_, by omega, ?_, by omega⟩
        · split_ifs at h1 <;> omega
        · split_ifs at h3 <;> omega
    · obtain ⟨h1, h2, h3, h4⟩ := hc
      constructor
      · split_ifs at h1 ⊢ <;> omega
      · split_ifs at h2 ⊢ <;> omega
  · rw [if_neg hc]
    congr 1
    funext i j
    have hi := ZMod.val_lt i
    have hj := ZMod.val_lt j
    rw [if_neg]
    intro h
    apply hc
    refine ⟨?_, ?_, by omega, by omega⟩
    · split_ifs <;> omega
    · split_ifs <;> omega

theorem fix_bounds {x : ℝ} (h : 0 ≤ x) : 0 ≤ fix x ∧ (fix x : ℝ) ≤ x ∧ x < fix x + 1 := by
  unfold fix
  rw [if_pos h]
  exact ⟨Int.floor_nonneg.mpr h, Int.floor_le x, Int.lt_floor_add_one x⟩

/-- In the stamp or not, along one axis. -/
theorem stamp_axis {dx hexrad xhex : ℝ} (hdx : 0 < dx) (hr : 0 < hexrad) (p : ℤ) :
    (|(p : ℝ) * dx - xhex| ≤ hexrad + dx → Dm.npRound (xhex / dx) - (fix (hexrad / dx) + 2) ≤ p ∧ p < Dm.npRound (xhex / dx) - (fix (hexrad / dx) + 2) + (2 * (fix (hexrad / dx) + 2) + 1)) ∧
    (hexrad + 5 / 2 * dx < |(p : ℝ) * dx - xhex| → ¬ (Dm.npRound (xhex / dx) - (fix (hexrad / dx) + 2) ≤ p ∧ p < Dm.npRound (xhex / dx) - (fix (hexrad / dx) + 2) + (2 * (fix (hexrad / dx) + 2) + 1))) := by
  obtain ⟨h1, h2, h3⟩ := fix_bounds (div_nonneg hr.le hdx.le)
  obtain ⟨b1, b2⟩ := Dm.npRound_bounds (xhex / dx)
  set F := fix (hexrad / dx)
  set r := Dm.npRound (xhex / dx)
  have e : ∀ c : ℝ, (|(p : ℝ) * dx - xhex| ≤ hexrad + c * dx ↔ |(p : ℝ) - xhex / dx| ≤ hexrad / dx + c) := by
    intro c
    have : (p : ℝ) * dx - xhex = ((p : ℝ) - xhex / dx) * dx := by field_simp
    rw [this, abs_mul, abs_of_pos hdx, show hexrad + c * dx = (hexrad / dx + c) * dx by field_simp]
    exact mul_le_mul_iff_of_pos_right hdx
  constructor
  · intro h
    have := (e 1).mp (by rw [one_mul]; exact h)
    rw [abs_le] at this
    constructor
    · have : ((r - (F + 2) - 1 : ℤ) : ℝ) < p := by push_cast; linarith
      have : r - (F + 2) - 1 < p := by exact_mod_cast this
      omega
    · have : (p : ℝ) < ((r + F + 3 : ℤ) : ℝ) := by push_cast; linarith
      have : p < r + F + 3 := by exact_mod_cast this
      omega
  · rintro h ⟨h4, h5⟩
    apply not_le.mpr h
    rw [e, abs_le]
    have h4' : ((r - (F + 2) : ℤ) : ℝ) ≤ p := by exact_mod_cast h4
    have h5' : (p : ℝ) ≤ ((r + F + 2 : ℤ) : ℝ) := by
      have : p ≤ r + F + 2 := by omega
      exact_mod_cast this
    push_cast at h4' h5'
    constructor <;> linarith

/-- Where pixel `j` of an axis lies, in metres from the centre of the hexagon. -/
noncomputable def offsetM (n : ℕ) (dx chex : ℝ) (j : ZMod n) : ℝ := ((j.val : ℝ) - (n / 2 : ℕ)) * dx - chex

/-- C125: `prop_hex_zernikes` on a grid of even size, for any lists of indices (at least one of them from 2 to 22) and coefficients, any place and rotation of the hexagon, inside of the grid or not: each pixel
within `hexrad + dx` of the centre (along both axes), so each pixel that touches the hexagon, holds the sum of coefficient times polynomial at its position relative to the hexagon, in units of `hexrad`, turned
back by the rotation; pixels further than `hexrad + 2.5 dx` hold 0, and those in between one or the other. -/
theorem C125_map (n : ℕ) [NeZero n] (hn : Even n) (zindex : List ℤ) (zcoeff : List ℝ) (dx hexrad xhex yhex angle : ℝ) (hdx : 0 < dx) (hr : 0 < hexrad)
    (hlen : zcoeff.length ≤ zindex.length) (hsome : ∃ q ∈ zindex.zip zcoeff, 2 ≤ q.1 ∧ q.1 ≤ 22) :
    ∃ m, hexZernikes zindex zcoeff n dx hexrad xhex yhex angle = .ok m ∧ ∀ i j : ZMod n,
      let x := offsetM n dx xhex j / hexrad
      let y := offsetM n dx yhex i / hexrad
      let c := Real.cos (angle * Real.pi / 180)
      let s := Real.sin (angle * Real.pi / 180)
      let value := ((zindex.zip zcoeff).map fun q => term q (x * c + y * s) (y * c - x * s)).sum
      (m i j = value ∨ m i j = 0) ∧
      (|offsetM n dx xhex j| ≤ hexrad + dx → |offsetM n dx yhex i| ≤ hexrad + dx → m i j = value) ∧
      (hexrad + 5 / 2 * dx < |offsetM n dx xhex j| ∨ hexrad + 5 / 2 * dx < |offsetM n dx yhex i| → m i j = 0) := by
  unfold hexZernikes
  rw [if_neg (by omega)]
  dsimp only
  set rp := fix (hexrad / dx) + 2 with hrp
  set x1 := Dm.npRound (xhex / dx) - rp with hx1
  set y1 := Dm.npRound (yhex / dx) - rp with hy1
  set α := angle * Real.pi / 180
  set R : ℤ → ℤ → ℝ := fun a b => √((((b : ℝ) + x1) * dx - xhex) ^ 2 + (((a : ℝ) + y1) * dx - yhex) ^ 2) / hexrad with hR
  set T : ℤ → ℤ → ℝ := fun a b => Complex.arg ⟨((b : ℝ) + x1) * dx - xhex, ((a : ℝ) + y1) * dx - yhex⟩ - α with hT
  have pol1 : ∀ u v : ℝ, √(u ^ 2 + v ^ 2) * Real.cos (Complex.arg ⟨u, v⟩) = u ∧ √(u ^ 2 + v ^ 2) * Real.sin (Complex.arg ⟨u, v⟩) = v := by
    intro u v
    have hnorm : ‖(⟨u, v⟩ : ℂ)‖ = √(u ^ 2 + v ^ 2) := by
      rw [Complex.norm_def, Complex.normSq_mk]
      congr 1
      ring
    rw [← hnorm]
    exact ⟨Complex.norm_mul_cos_arg _, Complex.norm_mul_sin_arg _⟩
  have hX : ∀ a b, R a b * Real.cos (T a b) = (((b : ℝ) + x1) * dx - xhex) / hexrad * Real.cos α + (((a : ℝ) + y1) * dx - yhex) / hexrad * Real.sin α := by
    intro a b
    obtain ⟨h1, h2⟩ := pol1 (((b : ℝ) + x1) * dx - xhex) (((a : ℝ) + y1) * dx - yhex)
    rw [hR, hT]
    dsimp only
    rw [Real.cos_sub]
    linear_combination (Real.cos α / hexrad) * h1 + (Real.sin α / hexrad) * h2
  have hY : ∀ a b, R a b * Real.sin (T a b) = (((a : ℝ) + y1) * dx - yhex) / hexrad * Real.cos α - (((b : ℝ) + x1) * dx - xhex) / hexrad * Real.sin α := by
    intro a b
    obtain ⟨h1, h2⟩ := pol1 (((b : ℝ) + x1) * dx - xhex) (((a : ℝ) + y1) * dx - yhex)
    rw [hR, hT]
    dsimp only
    rw [Real.sin_sub]
    linear_combination (Real.cos α / hexrad) * h2 - (Real.sin α / hexrad) * h1
  have hF := fix_bounds (div_nonneg hr.le hdx.le)
  have harr := (fold_isArr R T (zindex.zip zcoeff) .pyFloat).mpr (.inr hsome)
  have hval := fun a b => fold_val R T _ _ hX hY (zindex.zip zcoeff) a b .pyFloat
  generalize (zindex.zip zcoeff).foldl (addTerm R T) .pyFloat = Zf at harr hval
  have hn2 : ((n / 2 : ℕ) : ℤ) * 2 = n := by
    obtain ⟨m, hm⟩ := hn
    omega
  have hdiv : ∀ z : ℤ, (2 * z + (n : ℤ)).tdiv 2 = z + ((n / 2 : ℕ) : ℤ) := by
    intro z
    rw [← hn2, show 2 * z + ((n / 2 : ℕ) : ℤ) * 2 = 2 * (z + ((n / 2 : ℕ) : ℤ)) by ring]
    exact Int.mul_tdiv_cancel_left _ (by norm_num)
  cases Zf with
  | pyFloat => exact absurd harr id
  | npFloat v => exact absurd harr id
  | arr f =>
    refine ⟨_, paste_arr n f _ _ _ (by omega), fun i j => ?_⟩
    rw [hdiv, hdiv]
    have hv : f ((i.val : ℤ) - (y1 + ((n / 2 : ℕ) : ℤ))) ((j.val : ℤ) - (x1 + ((n / 2 : ℕ) : ℤ))) = ((zindex.zip zcoeff).map fun q => term q
        (offsetM n dx xhex j / hexrad * Real.cos α + offsetM n dx yhex i / hexrad * Real.sin α) (offsetM n dx yhex i / hexrad * Real.cos α - offsetM n dx xhex j / hexrad * Real.sin α)).sum := by
      have h := hval ((i.val : ℤ) - (y1 + ((n / 2 : ℕ) : ℤ))) ((j.val : ℤ) - (x1 + ((n / 2 : ℕ) : ℤ))) 
      have e0 : Zer.val .pyFloat ((i.val : ℤ) - (y1 + ((n / 2 : ℕ) : ℤ))) ((j.val : ℤ) - (x1 + ((n / 2 : ℕ) : ℤ))) = 0 := rfl
      rw [e0, zero_add] at h
      refine h.trans ?_
      have e1 : (((((j.val : ℤ) - (x1 + ((n / 2 : ℕ) : ℤ)) : ℤ) : ℝ) + x1) * dx - xhex) = offsetM n dx xhex j := by
        unfold offsetM
        generalize n / 2 = hh
        push_cast
        ring
      have e2 : (((((i.val : ℤ) - (y1 + ((n / 2 : ℕ) : ℤ)) : ℤ) : ℝ) + y1) * dx - yhex) = offsetM n dx yhex i := by
        unfold offsetM
        generalize n / 2 = hh
        push_cast
        ring
      rw [e1, e2]
    have off : ∀ (c : ℝ) (k : ZMod n), ((((k.val : ℤ) - ((n / 2 : ℕ) : ℤ) : ℤ) : ℝ)) * dx - c = offsetM n dx c k := by
      intro c k
      unfold offsetM
      generalize n / 2 = hh
      push_cast
      ring
    obtain ⟨sx1, sx2⟩ := stamp_axis (xhex := xhex) hdx hr ((j.val : ℤ) - ((n / 2 : ℕ) : ℤ))
    obtain ⟨sy1, sy2⟩ := stamp_axis (xhex := yhex) hdx hr ((i.val : ℤ) - ((n / 2 : ℕ) : ℤ))
    rw [off] at sx1 sx2 sy1 sy2
    rw [← hrp, ← hx1] at sx1 sx2
    rw [← hrp, ← hy1] at sy1 sy2
    refine ⟨?_, ?_, ?_⟩
    · split_ifs
      · exact .inl hv
      · exact .inr rfl
    · intro h1 h2
      have := sx1 h1
      have := sy1 h2
      rw [if_pos (by omega)]
      exact hv
    · intro h
      rw [if_neg]
      rintro ⟨h1, h2, h3, h4⟩
      rcases h with h | h
      · exact sx2 h (by omega)
      · exact sy2 h (by omega)

theorem hexMean_smul (c : ℝ) (f : ℝ → ℝ → ℝ) : hexMean (fun x y => c * f x y) = c * hexMean f := by
  unfold hexMean
  simp only [intervalIntegral.integral_const_mul]
  ring

theorem inner_continuous {f : ℝ → ℝ → ℝ} (hf : Continuous fun p : ℝ × ℝ => f p.1 p.2) : Continuous fun y : ℝ => ∫ x in (-(1 - |y| / √3))..(1 - |y| / √3), f x y := by
  have hs : Continuous (Function.uncurry fun y x : ℝ => f x y) := hf.comp (continuous_snd.prodMk continuous_fst)
  have h1 := intervalIntegral.continuous_parametric_intervalIntegral_of_continuous (μ := MeasureTheory.volume) (a₀ := 0) hs (s := fun y : ℝ => 1 - |y| / √3) (by fun_prop)
  have h2 := intervalIntegral.continuous_parametric_intervalIntegral_of_continuous (μ := MeasureTheory.volume) (a₀ := 0) hs (s := fun y : ℝ => -(1 - |y| / √3)) (by fun_prop)
  have e : (fun y : ℝ => ∫ x in (-(1 - |y| / √3))..(1 - |y| / √3), f x y) = fun y => (∫ x in (0 : ℝ)..(1 - |y| / √3), f x y) - ∫ x in (0 : ℝ)..(-(1 - |y| / √3)), f x y := by
    funext y
    have hc : Continuous fun x => f x y := hf.comp (continuous_id.prodMk continuous_const)
    rw [intervalIntegral.integral_interval_sub_left (hc.intervalIntegrable _ _) (hc.intervalIntegrable _ _)]
  rw [e]
  exact h1.sub h2

theorem hexMean_add {f g : ℝ → ℝ → ℝ} (hf : Continuous fun p : ℝ × ℝ => f p.1 p.2) (hg : Continuous fun p : ℝ × ℝ => g p.1 p.2) :
    hexMean (fun x y => f x y + g x y) = hexMean f + hexMean g := by
  unfold hexMean
  have e : ∀ y : ℝ, ∫ x in (-(1 - |y| / √3))..(1 - |y| / √3), (f x y + g x y) = (∫ x in (-(1 - |y| / √3))..(1 - |y| / √3), f x y) + ∫ x in (-(1 - |y| / √3))..(1 - |y| / √3), g x y := by
    intro y
    have h1 : Continuous fun x => f x y := hf.comp (continuous_id.prodMk continuous_const)
    have h2 : Continuous fun x => g x y := hg.comp (continuous_id.prodMk continuous_const)
    exact intervalIntegral.integral_add (h1.intervalIntegrable _ _) (h2.intervalIntegrable _ _)
  simp only [e]
  rw [intervalIntegral.integral_add ((inner_continuous hf).intervalIntegrable _ _) ((inner_continuous hg).intervalIntegrable _ _), add_div]

theorem hexMean_sum {ι : Type*} (S : Finset ι) (f : ι → ℝ → ℝ → ℝ) (hf : ∀ k, Continuous fun p : ℝ × ℝ => f k p.1 p.2) :
    hexMean (fun x y => ∑ k ∈ S, f k x y) = ∑ k ∈ S, hexMean (f k) := by
  classical
  induction S using Finset.induction_on with
  | empty => simp [hexMean]
  | insert a S ha ih =>
    simp only [Finset.sum_insert ha]
    rw [hexMean_add (hf a) (continuous_finsetSum S fun k _ => hf k), ih]

/-- C125: the RMS over the hexagon of a sum of the polynomials 1 to 17 and 19 is the root of the sum of the squares of the coefficients, as the docstring says of each. -/
theorem C125_rms (z : ℕ → ℝ) : let S := (Finset.Icc 1 19).erase 18
    hexMean (fun x y => (∑ k ∈ S, z k * H k x y) ^ 2) = ∑ k ∈ S, z k ^ 2 := by
  intro S
  have e : (fun x y => (∑ k ∈ S, z k * H k x y) ^ 2) = fun x y => ∑ j ∈ S, ∑ k ∈ S, (z j * z k) * (H j x y * H k x y) := by
    funext x y
    rw [pow_two, Finset.sum_mul_sum]
    exact Finset.sum_congr rfl fun j _ => Finset.sum_congr rfl fun k _ => by ring
  have hc : ∀ j k, Continuous fun p : ℝ × ℝ => (z j * z k) * (H j p.1 p.2 * H k p.1 p.2) := fun j k => ((H_cont j).mul (H_cont k)).const_mul _
  rw [e, hexMean_sum S _ fun j => continuous_finsetSum S fun k _ => hc j k]
  have : ∀ j ∈ S, hexMean (fun x y => ∑ k ∈ S, (z j * z k) * (H j x y * H k x y)) = z j ^ 2 := by
    intro j hj
    rw [hexMean_sum S _ fun k => hc j k]
    have hj' : 1 ≤ j ∧ j ≤ 19 ∧ j ≠ 18 := by
      rw [Finset.mem_erase, Finset.mem_Icc] at hj
      exact ⟨hj.2.1, hj.2.2, hj.1⟩
    rw [Finset.sum_eq_single j]
    · rw [hexMean_smul, C125_orthonormal j j hj' hj', if_pos rfl]
      ring
    · intro k hk hne
      rw [Finset.mem_erase, Finset.mem_Icc] at hk
      rw [hexMean_smul, C125_orthonormal j k hj' ⟨hk.2.1, hk.2.2, hk.1⟩, if_neg (Ne.symm hne), mul_zero]
    · exact fun h => absurd hj h
  exact Finset.sum_congr rfl this

/-- C125, violated: a map of piston only (all indices 1) cannot be made: ValueError, for every grid and hexagon. -/
theorem C125_piston_violated (n : ℕ) (zindex : List ℤ) (zcoeff : List ℝ) (dx hexrad xhex yhex angle : ℝ) (hlen : zcoeff.length ≤ zindex.length) (hne : zcoeff ≠ [])
    (h1 : ∀ z ∈ zindex, z = 1) : hexZernikes zindex zcoeff n dx hexrad xhex yhex angle = .error .valueError := by
  unfold hexZernikes
  rw [if_neg (by omega)]
  dsimp only
  obtain ⟨c, cs, rfl⟩ := List.exists_cons_of_ne_nil hne
  obtain ⟨k, ks, rfl⟩ : ∃ k ks, zindex = k :: ks := by
    cases zindex with
    | nil => simp at hlen
    | cons k ks => exact ⟨k, ks, rfl⟩
  rw [List.zip_cons_cons, List.foldl_cons]
  have key : ∀ (R T : ℤ → ℤ → ℝ) (l : List (ℤ × ℝ)) (v : ℝ), (∀ q ∈ l, q.1 = 1) → ∃ w, l.foldl (addTerm R T) (.npFloat v) = .npFloat w := by
    intro R T l
    induction l with
    | nil => intro v _; exact ⟨v, rfl⟩
    | cons q l ih =>
      intro v hq
      rw [List.foldl_cons]
      have : addTerm R T (.npFloat v) q = .npFloat (v + q.2) := by unfold addTerm; rw [if_pos (hq q (by simp))]
      rw [this]
      exact ih _ fun p hp => hq p (by simp [hp])
  have hz : ∀ q ∈ ks.zip cs, q.1 = 1 := fun q hq => h1 _ (List.mem_cons_of_mem _ (List.of_mem_zip hq).1)
  have h0 : ∀ R T : ℤ → ℤ → ℝ, addTerm R T .pyFloat (k, c) = .npFloat (0 + c) := by
    intro R T
    unfold addTerm
    rw [if_pos (h1 k (by simp))]
  rw [h0]
  generalize hg : List.foldl (addTerm _ _) (Zer.npFloat (0 + c)) (ks.zip cs) = Zf
  obtain ⟨w, hw⟩ := key _ _ (ks.zip cs) (0 + c) hz
  rw [hw] at hg
  subst hg
  rfl

/-- C125: fewer indices than coefficients raise IndexError. -/
theorem C125_too_few_indices (n : ℕ) (zindex : List ℤ) (zcoeff : List ℝ) (dx hexrad xhex yhex angle : ℝ) (hlen : zindex.length < zcoeff.length) :
    hexZernikes zindex zcoeff n dx hexrad xhex yhex angle = .error .indexError := if_pos hlen

/-- The cases are met: defocus (4) and a coma (7) on an 8 × 8 grid with the hexagon reaching over its edge. -/
example : ∃ m, hexZernikes [4, 1, 7] [2, 1, 3] 8 1 2 3 0 30 = .ok m ∧ m 4 7 = 2 * H 4 (√3 / 2 * 0) 0 + 1 + 3 * H 7 0 0 := by
  obtain ⟨m, hm, h⟩ := C125_map 8 ⟨4, rfl⟩ [4, 1, 7] [2, 1, 3] 1 2 3 0 30 (by norm_num) (by norm_num) (by simp) ⟨(4, 2), by simp, by norm_num, by norm_num⟩
  refine ⟨m, hm, ?_⟩
  have e1 : offsetM 8 1 3 7 = 0 := by
    have : (ZMod.val (7 : ZMod 8)) = 7 := rfl
    unfold offsetM
    rw [this]
    norm_num
  have e2 : offsetM 8 1 0 4 = 0 := by
    have : (ZMod.val (4 : ZMod 8)) = 4 := rfl
    unfold offsetM
    rw [this]
    norm_num
  have := (h 4 7).2.1 (by rw [e1]; norm_num) (by rw [e2]; norm_num)
  rw [this, e1, e2]
  simp [term, H_one]
  ring
end Verif.HexZ
