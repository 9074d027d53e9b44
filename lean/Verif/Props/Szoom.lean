import Verif.Model.Szoom
import Verif.Props.Cubic

/-! # C111: magnification of images -/

namespace Verif.Szoom
open Verif

/-! ## Specification -/

open Classical in
/-- The damped sinc kernel of half width 6. -/
noncomputable def L (t : ℝ) : ℝ := if t = 0 then 1 else if |t| ≤ 6 then Real.sin (Real.pi * t) / (Real.pi * t) * (Real.sin (Real.pi * t / 6) / (Real.pi * t / 6)) else 0

/-- Damped sinc interpolation of an `n` by `n` image (`img q p`: row `q`, column `p`) at column `X`, row `Y`: all pixels weighted with the kernel. -/
noncomputable def damped (n : ℕ) (img : ℕ → ℕ → ℝ) (X Y : ℝ) : ℝ := ∑ q ∈ Finset.range n, ∑ p ∈ Finset.range n, img q p * L (q - Y) * L (p - X)

/-- The place in the input image of column (or row) `i` of the output: magnification about the centre pixels. -/
noncomputable def place (nIn nOut : ℕ) (mag : ℝ) (i : ℕ) : ℝ := (nIn / 2 : ℕ) + ((i : ℝ) - (nOut / 2 : ℕ)) / mag

/-! ## Proofs -/

theorem L_far {t : ℝ} (h : 6 ≤ |t|) : L t = 0 := by
  unfold L
  have ht : t ≠ 0 := by rintro rfl; norm_num at h
  rw [if_neg ht]
  split_ifs with h1
  · have e : |t| = 6 := le_antisymm h1 h
    have : Real.sin (Real.pi * t) = 0 := by
      rcases abs_eq (by norm_num : (0 : ℝ) ≤ 6) |>.1 e with rfl | rfl
      · have := Real.sin_nat_mul_pi 6
        rw [mul_comm]; simpa using this
      · have := Real.sin_nat_mul_pi 6
        rw [mul_neg, Real.sin_neg, mul_comm]
        simpa using this
    rw [this]; simp
  · rfl

theorem L_int {m : ℤ} (h : m ≠ 0) : L m = 0 := by
  unfold L
  have : Real.sin (Real.pi * m) = 0 := by rw [mul_comm]; exact Real.sin_int_mul_pi m
  rw [if_neg (by exact_mod_cast h), this]; simp

theorem L_zero : L 0 = 1 := by simp [L]

theorem rnd_close (useC : Bool) (v : ℝ) : |v - rnd useC v| ≤ 1 := by
  unfold rnd
  cases useC with
  | true =>
    rw [if_pos rfl, abs_sub_comm]
    exact (Cubic.roundval_close v).trans (by norm_num)
  | false =>
    rw [if_neg (by simp)]
    unfold pyRound
    rw [abs_le]
    split_ifs with h
    · have := Int.floor_le v; have := Int.lt_floor_add_one v
      constructor <;> linarith
    · have := Int.le_ceil v; have := Int.ceil_lt_add_one v
      constructor <;> linarith

theorem table_eq (useC : Bool) (nOut : ℕ) (mag : ℝ) (i k : ℕ) : table useC nOut mag i k = L (((k : ℝ) - 6) - (xIn nOut mag i - rnd useC (xIn nOut mag i))) := by
  unfold table L
  simp only
  set x := ((k : ℝ) - 6) - (xIn nOut mag i - rnd useC (xIn nOut mag i)) with hx
  by_cases h0 : x = 0
  · rw [if_pos h0, if_pos (by rw [h0]; norm_num), if_neg (by simpa using h0)]
  · rw [if_neg h0]
    split_ifs with h1
    · rw [mul_comm x Real.pi]
      ring
    · rfl

/-- One dimension: the thirteen taps are the whole kernel. -/
theorem taps (useC : Bool) (nIn nOut : ℕ) (mag : ℝ) (i : ℕ) (h : fits useC nIn nOut mag i) (f : ℕ → ℝ) :
    ∑ k ∈ Finset.range 13, f ((start useC nIn nOut mag i).toNat + k) * table useC nOut mag i k = ∑ p ∈ Finset.range nIn, f p * L (p - place nIn nOut mag i) := by
  obtain ⟨h1, h2⟩ := h
  have hc := abs_le.1 (rnd_close useC (xIn nOut mag i))
  obtain ⟨s, hs⟩ := Int.eq_ofNat_of_zero_le h1
  have hs' : (s : ℝ) = rnd useC (xIn nOut mag i) + (nIn / 2 : ℕ) - 6 := by
    have : (s : ℤ) = rnd useC (xIn nOut mag i) + (nIn / 2 : ℕ) - 6 := by rw [← hs]; rfl
    generalize nIn / 2 = H at this ⊢
    exact_mod_cast this
  rw [hs] at h2 ⊢
  have hsub : (Finset.range 13).map (addLeftEmbedding s) ⊆ Finset.range nIn := by
    intro p hp
    simp only [Finset.mem_map, Finset.mem_range, addLeftEmbedding_apply] at hp ⊢
    obtain ⟨k, hk, rfl⟩ := hp
    omega
  rw [← Finset.sum_subset hsub, Finset.sum_map]
  · refine Finset.sum_congr rfl fun k _ => ?_
    rw [table_eq, addLeftEmbedding_apply, Int.toNat_natCast]
    congr 2
    unfold place
    rw [show ((i : ℝ) - (nOut / 2 : ℕ)) / mag = xIn nOut mag i from rfl]
    generalize nIn / 2 = H at hs' ⊢
    push_cast
    linarith
  · intro p _ hp
    rw [L_far, mul_zero]
    unfold place
    rw [show ((i : ℝ) - (nOut / 2 : ℕ)) / mag = xIn nOut mag i from rfl, le_abs]
    have : p < s ∨ s + 13 ≤ p := by
      by_contra hn
      push Not at hn
      apply hp
      simp only [Finset.mem_map, Finset.mem_range, addLeftEmbedding_apply]
      exact ⟨p - s, by omega, by omega⟩
    rcases this with h | h
    · right
      have : (p : ℝ) + 1 ≤ s := by exact_mod_cast h
      linarith [hc.1, hc.2]
    · left
      have : (s : ℝ) + 13 ≤ p := by exact_mod_cast h
      linarith [hc.1, hc.2]

/-- C111: where the window of 13 by 13 pixels lies in the image, both programs compute the damped sinc interpolation at the corresponding place. -/
theorem C111_value (useC : Bool) (nIn nOut : ℕ) (img init : ℕ → ℕ → ℝ) (mag : ℝ) (j i : ℕ) (hj : fits useC nIn nOut mag j) (hi : fits useC nIn nOut mag i) :
    szoom useC nIn img nOut mag init j i = damped nIn img (place nIn nOut mag i) (place nIn nOut mag j) := by
  unfold szoom damped
  rw [if_neg (not_not.2 hj), if_neg (not_not.2 hi)]
  have e1 : ∀ ky, (∑ kx ∈ Finset.range 13, img ((start useC nIn nOut mag j).toNat + ky) ((start useC nIn nOut mag i).toNat + kx) * table useC nOut mag j ky * table useC nOut mag i kx) =
      (∑ p ∈ Finset.range nIn, img ((start useC nIn nOut mag j).toNat + ky) p * L (p - place nIn nOut mag i)) * table useC nOut mag j ky := by
    intro ky
    rw [← taps useC nIn nOut mag i hi (fun p => img ((start useC nIn nOut mag j).toNat + ky) p), Finset.sum_mul]
    exact Finset.sum_congr rfl fun kx _ => by ring
  rw [Finset.sum_congr rfl fun ky _ => e1 ky, taps useC nIn nOut mag j hj (fun q => ∑ p ∈ Finset.range nIn, img q p * L (p - place nIn nOut mag i))]
  refine Finset.sum_congr rfl fun q _ => ?_
  rw [Finset.sum_mul]
  exact Finset.sum_congr rfl fun p _ => by ring

/-- C111: elsewhere nothing is written. -/
theorem C111_border (useC : Bool) (nIn nOut : ℕ) (img init : ℕ → ℕ → ℝ) (mag : ℝ) (j i : ℕ) (h : ¬ fits useC nIn nOut mag j ∨ ¬ fits useC nIn nOut mag i) :
    szoom useC nIn img nOut mag init j i = init j i := by
  unfold szoom
  rcases h with h | h
  · rw [if_pos h]
  · split_ifs <;> rfl

/-- The window in terms of the place: with the library, the place has to be at least 5.5 pixels inside (first and last pixel are 0 and `n - 1`), without it at least 6. -/
theorem C111_window (nIn nOut : ℕ) (mag : ℝ) (i : ℕ) :
    (fits false nIn nOut mag i ↔ 6 ≤ place nIn nOut mag i ∧ place nIn nOut mag i ≤ nIn - 7) ∧
    (11 / 2 < place nIn nOut mag i → place nIn nOut mag i < nIn - 13 / 2 → fits true nIn nOut mag i) ∧
    (fits true nIn nOut mag i → 11 / 2 ≤ place nIn nOut mag i ∧ place nIn nOut mag i ≤ nIn - 13 / 2) := by
  unfold fits start place
  rw [show ((i : ℝ) - (nOut / 2 : ℕ)) / mag = xIn nOut mag i from rfl]
  set v := xIn nOut mag i
  have hN : nIn / 2 * 2 ≤ nIn := Nat.div_mul_le_self nIn 2
  have hN' : nIn ≤ nIn / 2 * 2 + 1 := by omega
  generalize nIn / 2 = H at hN hN' ⊢
  refine ⟨?_, ?_, ?_⟩
  · unfold rnd pyRound
    rw [if_neg (by simp)]
    by_cases hv : v < 0
    · rw [if_pos hv]
      constructor
      · rintro ⟨h1, h2⟩
        have h1 : (6 : ℤ) - H ≤ ⌊v⌋ := by omega
        rw [Int.le_floor] at h1
        push_cast at h1
        have h2 : ⌊v⌋ ≤ nIn - H - 7 := by omega
        refine ⟨by push_cast; linarith, ?_⟩
        have hn7 : H + 7 ≤ nIn := by
          have : (6 : ℝ) - (H : ℝ) < 0 := by push_cast; linarith
          have : (6 : ℝ) < (H : ℝ) := by linarith
          have : 6 < H := by exact_mod_cast this
          omega
        have : (H : ℝ) + 7 ≤ nIn := by exact_mod_cast hn7
        linarith
      · rintro ⟨h1, h2⟩
        have h1' : (((6 : ℤ) - H : ℤ) : ℝ) ≤ v := by push_cast at h1 ⊢; linarith
        have h1' := Int.le_floor.2 h1'
        have h2' : ⌊v⌋ ≤ -1 := by
          have : ⌊v⌋ < 0 := Int.floor_lt.2 (by simpa using hv)
          omega
        constructor
        · omega
        · omega
    · rw [if_neg hv]
      push Not at hv
      constructor
      · rintro ⟨h1, h2⟩
        have h2 : ⌈v⌉ ≤ nIn - H - 7 := by omega
        rw [Int.ceil_le] at h2
        push_cast at h2
        refine ⟨?_, by push_cast; linarith⟩
        have hge : (0 : ℝ) ≤ nIn - H - 7 := by push_cast; linarith
        have : (H : ℝ) + 7 ≤ nIn := by linarith
        have : H + 7 ≤ nIn := by exact_mod_cast this
        have : 6 ≤ H := by omega
        have : (6 : ℝ) ≤ (H : ℝ) := by exact_mod_cast this
        linarith
      · rintro ⟨h1, h2⟩
        have h2' : ⌈v⌉ ≤ (nIn : ℤ) - H - 7 := by
          rw [Int.ceil_le]; push_cast at h2 ⊢; linarith
        have h0 : 0 ≤ ⌈v⌉ := Int.ceil_nonneg hv
        constructor
        · omega
        · omega
  · unfold rnd
    rw [if_pos rfl]
    intro h1 h2
    have hc := abs_le.1 (Cubic.roundval_close v)
    have a : (5 : ℝ) < Cubic.roundval v + H := by linarith
    have b : (Cubic.roundval v : ℝ) + H < nIn - 6 := by linarith
    have a : (5 : ℤ) < Cubic.roundval v + H := by exact_mod_cast a
    have b : Cubic.roundval v + H < (nIn : ℤ) - 6 := by exact_mod_cast b
    omega
  · unfold rnd
    rw [if_pos rfl]
    rintro ⟨h1, h2⟩
    have hc := abs_le.1 (Cubic.roundval_close v)
    have a : (6 : ℤ) ≤ Cubic.roundval v + H := by omega
    have b : Cubic.roundval v + H ≤ (nIn : ℤ) - 7 := by omega
    have a : (6 : ℝ) ≤ Cubic.roundval v + H := by exact_mod_cast a
    have b : (Cubic.roundval v : ℝ) + H ≤ nIn - 7 := by exact_mod_cast b
    constructor <;> linarith

/-- C111: wherever prop_szoom computes a value, the C library computes the same. -/
theorem C111_same (nIn nOut : ℕ) (img init init' : ℕ → ℕ → ℝ) (mag : ℝ) (j i : ℕ) (hj : fits false nIn nOut mag j) (hi : fits false nIn nOut mag i) :
    szoom true nIn img nOut mag init j i = szoom false nIn img nOut mag init' j i := by
  have h : ∀ i, fits false nIn nOut mag i → fits true nIn nOut mag i := fun i hi => by
    have w := C111_window nIn nOut mag i
    have := w.1.1 hi
    exact w.2.1 (by linarith) (by linarith)
  rw [C111_value true _ _ _ _ _ _ _ (h j hj) (h i hi), C111_value false _ _ _ _ _ _ _ hj hi]

/-- C111: where an output pixel falls on a pixel of the input, it is that pixel. -/
theorem C111_pixel (n : ℕ) (img : ℕ → ℕ → ℝ) (p q : ℕ) (hp : p < n) (hq : q < n) : damped n img p q = img q p := by
  unfold damped
  have hL : ∀ a b : ℕ, a ≠ b → L ((a : ℝ) - b) = 0 := fun a b h => by
    have := L_int (m := (a : ℤ) - b) (by omega)
    push_cast at this
    exact this
  rw [Finset.sum_eq_single_of_mem q (Finset.mem_range.2 hq), Finset.sum_eq_single_of_mem p (Finset.mem_range.2 hp)]
  · rw [sub_self, sub_self, L_zero]; ring
  · intro b _ hb
    rw [hL b p hb, mul_zero]
  · intro b _ hb
    exact Finset.sum_eq_zero fun a _ => by rw [hL b q hb]; ring

/-- C111: the interpolation is linear in the image. -/
theorem C111_linear (n : ℕ) (f g : ℕ → ℕ → ℝ) (a b X Y : ℝ) : damped n (fun q p => a * f q p + b * g q p) X Y = a * damped n f X Y + b * damped n g X Y := by
  unfold damped
  simp only [Finset.mul_sum, ← Finset.sum_add_distrib]
  exact Finset.sum_congr rfl fun q _ => Finset.sum_congr rfl fun p _ => by ring

/-- C111: prop_magnify of a real image: of the requested size; each pixel the interpolation at its place divided by the factor of the switch, or 0 in the border. -/
theorem C111_real (useC : Bool) (nIn : ℕ) (img : ℕ → ℕ → ℝ) (mag : ℝ) (size0 : ℕ) (s : Scale) (hn : sizeOut nIn mag size0 ≠ 0) :
    ∃ out, magnifyReal useC nIn img mag size0 s = .ok (sizeOut nIn mag size0, out) ∧ ∀ j i,
      (fits useC nIn (sizeOut nIn mag size0) mag j ∧ fits useC nIn (sizeOut nIn mag size0) mag i →
        out j i = damped nIn img (place nIn (sizeOut nIn mag size0) mag i) (place nIn (sizeOut nIn mag size0) mag j) / factor false mag s) ∧
      (¬ (fits useC nIn (sizeOut nIn mag size0) mag j ∧ fits useC nIn (sizeOut nIn mag size0) mag i) → out j i = 0) := by
  refine ⟨_, by unfold magnifyReal; simp only; rw [if_neg (by tauto)], fun j i => ⟨fun h => ?_, fun h => ?_⟩⟩
  · rw [C111_value _ _ _ _ _ _ _ _ h.1 h.2]
  · rw [C111_border _ _ _ _ _ _ _ _ (by tauto), zero_div]

/-- C111: magnification 1 keeps the pixels that are 6 pixels or more from the edges, and sets all others to 0. -/
theorem C111_identity (useC : Bool) (n : ℕ) (img : ℕ → ℕ → ℝ) (j i : ℕ) :
    szoom useC n img n 1 (fun _ _ => 0) j i = if (6 ≤ j ∧ j + 7 ≤ n) ∧ (6 ≤ i ∧ i + 7 ≤ n) then img j i else 0 := by
  have hp : ∀ i : ℕ, place n n 1 i = i := fun i => by unfold place; ring
  have hr : ∀ i : ℕ, rnd useC (xIn n 1 i) = (i : ℤ) - (n / 2 : ℕ) := by
    intro i
    have e : xIn n 1 i = (((i : ℤ) - (n / 2 : ℕ) : ℤ) : ℝ) := by unfold xIn; generalize n / 2 = H; push_cast; ring
    unfold rnd
    rw [e, Cubic.roundval_int]
    unfold pyRound
    rw [Int.floor_intCast, Int.ceil_intCast]
    split_ifs <;> rfl
  have hf : ∀ i : ℕ, fits useC n n 1 i ↔ 6 ≤ i ∧ i + 7 ≤ n := by
    intro i
    unfold fits start
    rw [hr]
    omega
  split_ifs with h
  · rw [C111_value _ _ _ _ _ _ _ _ ((hf j).2 h.1) ((hf i).2 h.2), hp, hp, C111_pixel _ _ _ _ (by omega) (by omega)]
  · rw [C111_border _ _ _ _ _ _ _ _ (by rw [hf, hf]; tauto)]

/-- C111: so the border of an image is lost even if nothing is magnified. -/
theorem C111_identity_violated (useC : Bool) (n : ℕ) : ∃ img : ℕ → ℕ → ℝ, szoom useC n img n 1 (fun _ _ => 0) 0 0 ≠ img 0 0 := by
  refine ⟨fun _ _ => 1, ?_⟩
  rw [C111_identity, if_neg (by omega)]
  norm_num

/-- C111: the centre pixel of the output is the centre pixel of the input, for every magnification and size. -/
theorem C111_centre (useC : Bool) (nIn nOut : ℕ) (img init : ℕ → ℕ → ℝ) (mag : ℝ) (hn : 13 ≤ nIn) : szoom useC nIn img nOut mag init (nOut / 2) (nOut / 2) = img (nIn / 2) (nIn / 2) := by
  have hx : xIn nOut mag (nOut / 2) = 0 := by unfold xIn; simp
  have hp : place nIn nOut mag (nOut / 2) = ((nIn / 2 : ℕ) : ℝ) := by unfold place; simp
  have hf : fits useC nIn nOut mag (nOut / 2) := by
    unfold fits start rnd pyRound Cubic.roundval
    rw [hx]
    cases useC <;> norm_num <;> omega
  rw [C111_value _ _ _ _ _ _ _ _ hf hf, hp, C111_pixel _ _ _ _ (by omega) (by omega)]

/-- C111: a complex image without the library: real and imaginary part magnified separately, 0 in the border. -/
theorem C111_complex_python (nIn : ℕ) (re im junk : ℕ → ℕ → ℝ) (mag : ℝ) (size0 : ℕ) (s : Scale) (hn : sizeOut nIn mag size0 ≠ 0) :
    ∃ out, magnifyComplex false nIn re im mag size0 s junk = .ok (sizeOut nIn mag size0, out) ∧ ∀ j i,
      out j i = (szoom false nIn re (sizeOut nIn mag size0) mag (fun _ _ => 0) j i / factor true mag s, szoom false nIn im (sizeOut nIn mag size0) mag (fun _ _ => 0) j i / factor true mag s) := by
  refine ⟨_, by unfold magnifyComplex; simp only; rw [if_neg (by tauto)], fun j i => ?_⟩
  simp

/-- C111: a complex image with the library: the pixels whose windows fit do not depend on the content of the new array … -/
theorem C111_complex_library (nIn : ℕ) (re im junk : ℕ → ℕ → ℝ) (mag : ℝ) (size0 : ℕ) (s : Scale) :
    ∃ out, magnifyComplex true nIn re im mag size0 s junk = .ok (sizeOut nIn mag size0, out) ∧ ∀ j i,
      (fits true nIn (sizeOut nIn mag size0) mag j ∧ fits true nIn (sizeOut nIn mag size0) mag i → out j i =
        (damped nIn re (place nIn (sizeOut nIn mag size0) mag i) (place nIn (sizeOut nIn mag size0) mag j) / factor true mag s,
         damped nIn im (place nIn (sizeOut nIn mag size0) mag i) (place nIn (sizeOut nIn mag size0) mag j) / factor true mag s)) ∧
      (¬ (fits true nIn (sizeOut nIn mag size0) mag j ∧ fits true nIn (sizeOut nIn mag size0) mag i) → out j i = (junk j i / factor true mag s, junk j i / factor true mag s)) := by
  refine ⟨_, by unfold magnifyComplex; simp only; rw [if_neg (by simp)], fun j i => ⟨fun h => ?_, fun h => ?_⟩⟩
  · simp only [if_true]
    rw [C111_value _ _ _ _ _ _ _ _ h.1 h.2, C111_value _ _ _ _ _ _ _ _ h.1 h.2]
  · simp only [if_true]
    rw [C111_border _ _ _ _ _ _ _ _ (by tauto), C111_border _ _ _ _ _ _ _ _ (by tauto), C111_border _ _ _ _ _ _ _ _ (by tauto)]

/-- C111: … but the border contains whatever was in memory: any value can come out. -/
theorem C111_complex_violated (nIn : ℕ) (re im : ℕ → ℕ → ℝ) (mag : ℝ) (size0 : ℕ) (j i : ℕ) (h : ¬ fits true nIn (sizeOut nIn mag size0) mag j) (v : ℝ) :
    ∃ junk out, magnifyComplex true nIn re im mag size0 .none junk = .ok (sizeOut nIn mag size0, out) ∧ out j i = (v, v) := by
  obtain ⟨out, h1, h2⟩ := C111_complex_library nIn re im (fun _ _ => v) mag size0 .none
  refine ⟨_, out, h1, ?_⟩
  rw [(h2 j i).2 (by tauto)]
  simp [factor]

/-- C111: with QUICK (and the cubic convolution library) the places are the same, the kernel is that of C110. -/
theorem C111_quick {A : Cubic.Img} (h : A.rowMajor = true) (hs : A.rows = A.cols) (h4 : 4 ≤ A.rows) (mag : ℝ) (size0 : ℕ) (s : Scale) (j i : ℕ) (hj : j < sizeOut A.rows mag size0) (hi : i < sizeOut A.rows mag size0) :
    (magnifyQuick A mag size0 s).1 = sizeOut A.rows mag size0 ∧
    (magnifyQuick A mag size0 s).2 j i = Cubic.interp A.cols A.rows A.at (Cubic.clampAt A.cols (place A.rows (sizeOut A.rows mag size0) mag i)) (Cubic.clampAt A.rows (place A.rows (sizeOut A.rows mag size0) mag j)) / factor false mag s := by
  refine ⟨rfl, ?_⟩
  unfold magnifyQuick
  simp only
  rw [Cubic.C110_grid true (A := A) (B := A) ⟨h, Or.inr ⟨rfl, hs⟩⟩ h4 (hs ▸ h4) _ _ rfl j i (place A.rows (sizeOut A.rows mag size0) mag i) (place A.rows (sizeOut A.rows mag size0) mag j)]
  · simp [hi, place, xIn, add_comm]
  · simp [hj, place, xIn, add_comm]

/-- C111: an output of no pixels raises an error without the library and gives an empty image with it. -/
theorem C111_empty (nIn : ℕ) (img : ℕ → ℕ → ℝ) (mag : ℝ) (s : Scale) (h : (nIn : ℝ) * mag < 1) : magnifyReal false nIn img mag 0 s = .error .valueError ∧ ∃ out, magnifyReal true nIn img mag 0 s = .ok (0, out) := by
  have e : sizeOut nIn mag 0 = 0 := by
    unfold sizeOut
    rw [if_pos rfl, Nat.floor_eq_zero]
    exact h
  unfold magnifyReal
  simp only [e]
  exact ⟨by simp, _, by rw [if_neg (by simp)]⟩

/-- C111: the two programs differ at the edges: here, an output pixel a quarter of a pixel from the centre is interpolated by the library and left 0 by prop_szoom. -/
theorem C111_edge_violated : ∃ img : ℕ → ℕ → ℝ, szoom false 13 img 3 4 (fun _ _ => 0) 1 2 = 0 ∧ szoom true 13 img 3 4 (fun _ _ => 0) 1 2 ≠ 0 := by
  refine ⟨fun q p => if q = 6 ∧ p = 6 then 1 else 0, ?_, ?_⟩
  · rw [C111_border]
    right
    rw [(C111_window 13 3 4 2).1]
    unfold place
    norm_num
  · have f1 : fits true 13 3 4 1 := (C111_window 13 3 4 1).2.1 (by unfold place; norm_num) (by unfold place; norm_num)
    have f2 : fits true 13 3 4 2 := (C111_window 13 3 4 2).2.1 (by unfold place; norm_num) (by unfold place; norm_num)
    rw [C111_value _ _ _ _ _ _ _ _ f1 f2]
    have e : damped 13 (fun q p => if q = 6 ∧ p = 6 then 1 else 0) (place 13 3 4 2) (place 13 3 4 1) = L (6 - place 13 3 4 1) * L (6 - place 13 3 4 2) := by
      unfold damped
      rw [Finset.sum_eq_single_of_mem 6 (by simp), Finset.sum_eq_single_of_mem 6 (by simp)]
      · simp
      · intro b _ hb; simp [hb]
      · intro b _ hb
        exact Finset.sum_eq_zero fun a _ => by simp [hb]
    rw [e]
    have e1 : (6 : ℝ) - place 13 3 4 1 = 0 := by unfold place; norm_num
    have e2 : (6 : ℝ) - place 13 3 4 2 = -(1 / 4) := by unfold place; norm_num
    rw [e1, e2, L_zero, one_mul]
    unfold L
    rw [if_neg (by norm_num), if_pos (by rw [abs_le]; norm_num)]
    have hpi := Real.pi_pos
    have s1 : 0 < Real.sin (Real.pi / 4) := Real.sin_pos_of_pos_of_lt_pi (by positivity) (by linarith)
    have s2 : 0 < Real.sin (Real.pi / 24) := Real.sin_pos_of_pos_of_lt_pi (by positivity) (by linarith)
    rw [show Real.pi * (-(1 / 4)) = -(Real.pi / 4) by ring, show -(Real.pi / 4) / 6 = -(Real.pi / 24) by ring, Real.sin_neg, Real.sin_neg]
    have : -Real.sin (Real.pi / 4) / -(Real.pi / 4) * (-Real.sin (Real.pi / 24) / -(Real.pi / 24)) = Real.sin (Real.pi / 4) / (Real.pi / 4) * (Real.sin (Real.pi / 24) / (Real.pi / 24)) := by
      rw [neg_div_neg_eq, neg_div_neg_eq]
    rw [this]
    positivity

/-! ## The hypotheses can be met -/

/-- An image of 20 by 20 pixels magnified by 2: output pixel 20 of 40 lies at pixel 10, and both windows fit; output pixel 0 lies at pixel 0, and its window does not. -/
example (useC : Bool) : sizeOut 20 2 0 = 40 ∧ fits useC 20 40 2 20 ∧ ¬ fits useC 20 40 2 0 := by
  refine ⟨by unfold sizeOut; norm_num, ?_, ?_⟩
  · cases useC
    · rw [(C111_window 20 40 2 20).1]; unfold place; norm_num
    · exact (C111_window 20 40 2 20).2.1 (by unfold place; norm_num) (by unfold place; norm_num)
  · cases useC
    · rw [(C111_window 20 40 2 0).1]; unfold place; norm_num
    · intro h
      have := (C111_window 20 40 2 0).2.2 h
      unfold place at this
      norm_num at this

end Verif.Szoom
