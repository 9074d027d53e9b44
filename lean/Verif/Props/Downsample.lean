import Verif.Model.Downsample
import Verif.Props.DiffDm
import Verif.Props.Util
import Mathlib.Data.ZMod.ValMinAbs

/-! # C113: downsampled pupil masks -/

namespace Verif.Downsample
open Verif Verif.Optics Complex

/-! ## Specification -/

open Classical in
/-- The pixels of an `n` by `n` array within the distance `r` (in pixels) of pixel `(i, j)`, the array being wrapped around at its borders. -/
noncomputable def near (n : ℕ) [NeZero n] (r : ℝ) (i j : ZMod n) : Finset (ZMod n × ZMod n) :=
  Finset.univ.filter fun p => ((p.1 - i).valMinAbs : ℝ) ^ 2 + ((p.2 - j).valMinAbs : ℝ) ^ 2 ≤ r ^ 2

open Classical in
/-- The pixels of an `n` by `n` array within the distance `r` of pixel `(i, j)`, without wrapping. -/
noncomputable def ball (n : ℕ) (r : ℝ) (i j : ℕ) : Finset (ℕ × ℕ) :=
  (Finset.range n ×ˢ Finset.range n).filter fun p => ((p.1 : ℝ) - i) ^ 2 + ((p.2 : ℝ) - j) ^ 2 ≤ r ^ 2

/-- The mean of `f` over a finite set. -/
noncomputable def meanOver {α : Type} (s : Finset α) (f : α → ℝ) : ℝ := (∑ p ∈ s, f p) / s.card

/-- The spline takes the given values at its nodes (the smoothing parameter of the call is 0). -/
def Interpolates (S : Scipy) : Prop :=
  ∀ (n : ℕ) [NeZero n] (x : ℕ → ℝ) (A : ZMod n → ZMod n → ℝ), StrictMono x → ∀ i j : ℕ, i < n → j < n → S.spline n x A (x i) (x j) = A i j

/-- The nearest point of `[lo, hi]`. -/
noncomputable def clampTo (lo hi t : ℝ) : ℝ := max lo (min hi t)

/-- Outside of its nodes the spline takes the value of the nearest point of the grid (FITPACK's `bispev`). -/
def Clamps (S : Scipy) : Prop :=
  ∀ (n : ℕ) [NeZero n] (x : ℕ → ℝ) (A : ZMod n → ZMod n → ℝ) (y1 x1 : ℝ), S.spline n x A y1 x1 = S.spline n x A (clampTo (x 0) (x (n - 1)) y1) (clampTo (x 0) (x (n - 1)) x1)

/-! ## Proofs -/

theorem fft2_neg (n : ℕ) [NeZero n] (X : ZMod n → ZMod n → ℂ) (k l : ZMod n) : fft2 X (-k) (-l) = (n : ℂ) ^ 2 * ifft2 X k l := by
  have hn : (n : ℂ) ≠ 0 := by exact_mod_cast NeZero.ne n
  have h1 : ∀ (x : ZMod n → ℂ) (k : ZMod n), fft1 x (-k) = n * ifft1 x k := by
    intro x k
    rw [fft1_eq, ifft1_eq, ZMod.dft_apply, ZMod.invDFT_apply, smul_eq_mul, ← mul_assoc, mul_inv_cancel₀ hn, one_mul]
    refine Finset.sum_congr rfl fun j _ => ?_
    rw [mul_neg, neg_neg]
  unfold fft2 ifft2
  rw [h1]
  have : (fun i => fft1 (X i) (-l)) = fun i => (n : ℂ) * ifft1 (X i) l := funext fun i => h1 _ _
  rw [this, sq, mul_assoc]
  congr 1
  unfold ifft1
  simp only [Finset.mul_sum]
  exact Finset.sum_congr rfl fun _ _ => Finset.sum_congr rfl fun _ _ => by ring

/-- The product of two scaled inverse transforms transforms to the circular convolution. -/
theorem fft2_mul (n : ℕ) [NeZero n] (X f : ZMod n → ZMod n → ℂ) :
    (fft2 fun k l => ifft2 f k l * n * (ifft2 X k l * n)) = fun i j => ∑ p, ∑ q, X p q * f (i - p) (j - q) := by
  have hn : (n : ℂ) ≠ 0 := by exact_mod_cast NeZero.ne n
  have h := DiffDm.conv_fft2 X f
  have h2 : fft2 (DiffDm.conv X (fft2 f)) = fun k l => fft2 X k l * fft2 f k l := by unfold DiffDm.conv; rw [fft2_ifft2]
  have h3 : ifft2 (DiffDm.conv X (fft2 f)) = fun k l => ifft2 f k l * n * (ifft2 X k l * n) := by
    funext k l
    have e := congrFun (congrFun h2 (-k)) (-l)
    simp only [fft2_neg] at e
    have hn2 : (n : ℂ) ^ 2 ≠ 0 := pow_ne_zero 2 hn
    apply mul_left_cancel₀ hn2
    rw [e]; ring
  rw [← h3, fft2_ifft2, h]

theorem nIn_odd {N : ℕ} (h : 4 ≤ nIn N) : ∃ H, nIn N = 2 * H + 1 := by
  unfold nIn at *
  split_ifs at * with h1
  · exact ⟨(N - 2) / 2, by omega⟩
  · exact ⟨N / 2, by omega⟩

theorem valMinAbs_abs {n H : ℕ} (hn : n = 2 * H + 1) [NeZero n] (d : ZMod n) : -(H : ℤ) ≤ d.valMinAbs ∧ d.valMinAbs ≤ H := by
  have := ZMod.valMinAbs_mem_Ioc d
  rw [Set.mem_Ioc] at this
  omega

theorem val_centre {n H : ℕ} (hn : n = 2 * H + 1) [NeZero n] (d : ZMod n) : (((H : ZMod n) + d).val : ℤ) = H + d.valMinAbs := by
  have hb := valMinAbs_abs hn d
  have e : (H : ZMod n) + d = (((H : ℤ) + d.valMinAbs : ℤ) : ZMod n) := by push_cast; simp
  rw [e, ZMod.val_intCast]
  exact Int.emod_eq_of_lt (by omega) (by omega)

/-- the disc, as seen from its centre -/
theorem disc_centre {n H : ℕ} (hn : n = 2 * H + 1) [NeZero n] {bi bo : ℝ} (hi : 0 < bi) (ho : 0 < bo) (d e : ZMod n) :
    disc n bi bo ((H : ZMod n) + d) ((H : ZMod n) + e) = if (d.valMinAbs : ℝ) ^ 2 + (e.valMinAbs : ℝ) ^ 2 ≤ (bi / (2 * bo)) ^ 2 then 1 else 0 := by
  have hx : ∀ d : ZMod n, x0 n bi ((H : ZMod n) + d).val = d.valMinAbs / bi := by
    intro d
    have h1 : ((((H : ZMod n) + d).val : ℤ) : ℝ) = ((H + d.valMinAbs : ℤ) : ℝ) := by rw [val_centre hn d]
    push_cast at h1
    unfold x0
    have hR : (n : ℝ) = 2 * H + 1 := by exact_mod_cast hn
    rw [h1, hR]; field_simp; ring
  unfold disc
  rw [hx, hx]
  have : Real.sqrt ((e.valMinAbs / bi : ℝ) ^ 2 + (d.valMinAbs / bi : ℝ) ^ 2) ≤ 1 / bo / 2 ↔ (d.valMinAbs : ℝ) ^ 2 + (e.valMinAbs : ℝ) ^ 2 ≤ (bi / (2 * bo)) ^ 2 := by
    rw [Real.sqrt_le_left (by positivity)]
    have e1 : (e.valMinAbs / bi : ℝ) ^ 2 + (d.valMinAbs / bi : ℝ) ^ 2 = ((d.valMinAbs : ℝ) ^ 2 + (e.valMinAbs : ℝ) ^ 2) / bi ^ 2 := by field_simp; ring
    rw [e1, div_le_iff₀ (by positivity)]
    have e2 : (1 / bo / 2) ^ 2 * bi ^ 2 = (bi / (2 * bo)) ^ 2 := by field_simp
    rw [e2]
  by_cases h : (d.valMinAbs : ℝ) ^ 2 + (e.valMinAbs : ℝ) ^ 2 ≤ (bi / (2 * bo)) ^ 2
  · rw [if_pos h, if_pos (this.2 h)]
  · rw [if_neg h, if_neg (mt this.1 h)]

theorem valMinAbs_neg_odd {n H : ℕ} (hn : n = 2 * H + 1) [NeZero n] (d : ZMod n) : (-d).valMinAbs = -d.valMinAbs := by
  apply ZMod.valMinAbs_neg_of_ne_half
  intro h
  have := ZMod.val_lt d
  omega

theorem self_mem_near (n : ℕ) [NeZero n] (r : ℝ) (i j : ZMod n) : (i, j) ∈ near n r i j := by
  unfold near
  rw [Finset.mem_filter]
  refine ⟨Finset.mem_univ _, ?_⟩
  simp only [sub_self, ZMod.valMinAbs_zero]
  push_cast
  nlinarith [sq_nonneg r]

theorem near_card (n : ℕ) [NeZero n] (r : ℝ) (i j : ZMod n) : (near n r i j).card = (near n r 0 0).card := by
  unfold near
  refine Finset.card_bij' (fun p _ => (p.1 - i, p.2 - j)) (fun p _ => (p.1 + i, p.2 + j)) ?_ ?_ ?_ ?_
  · intro p hp; rw [Finset.mem_filter] at hp ⊢; simpa using hp
  · intro p hp; rw [Finset.mem_filter] at hp ⊢; simpa using hp
  · intro p _; simp
  · intro p _; simp

theorem disc_sum {n H : ℕ} (hn : n = 2 * H + 1) [NeZero n] {bi bo : ℝ} (hi : 0 < bi) (ho : 0 < bo) :
    ∑ k : ZMod n, ∑ l : ZMod n, disc n bi bo k l = (near n (bi / (2 * bo)) 0 0).card := by
  have h1 : ∑ k : ZMod n, ∑ l : ZMod n, disc n bi bo k l = ∑ d : ZMod n, ∑ e : ZMod n, disc n bi bo ((H : ZMod n) + d) ((H : ZMod n) + e) := by
    rw [← Equiv.sum_comp (Equiv.addLeft (H : ZMod n))]
    refine Finset.sum_congr rfl fun d _ => ?_
    rw [← Equiv.sum_comp (Equiv.addLeft (H : ZMod n))]
    rfl
  rw [h1, ← Fintype.sum_prod_type' (f := fun d e => disc n bi bo ((H : ZMod n) + d) ((H : ZMod n) + e))]
  simp only [disc_centre hn hi ho]
  unfold near
  rw [Finset.card_filter]
  push_cast
  refine Finset.sum_congr rfl fun p _ => ?_
  simp

/-- The smoothing computed with Fourier transforms is exactly the mean of the mask over the disc of one output pixel diameter around each pixel (wrapped at the borders). -/
theorem C113_smoothing {n H : ℕ} (hn : n = 2 * H + 1) [NeZero n] {bi bo : ℝ} (hi : 0 < bi) (ho : 0 < bo) (a : ℕ → ℕ → ℝ) (i j : ZMod n) :
    blurred n bi bo a i j = meanOver (near n (bi / (2 * bo)) i j) fun p => a p.1.val p.2.val := by
  have hH : n / 2 = H := by omega
  unfold blurred
  rw [fft2_mul]
  unfold fftshift ifftshift roll2
  rw [hH]
  simp only [Int.cast_neg, Int.cast_natCast, sub_neg_eq_add]
  have e : ∀ p q : ZMod n, ((a (p + (H : ZMod n)).val (q + (H : ZMod n)).val : ℂ) * (window n bi bo (i - H - p + H) (j - H - q + H) : ℂ))
      = ((a (p + (H : ZMod n)).val (q + (H : ZMod n)).val * window n bi bo (i - p) (j - q) : ℝ) : ℂ) := by
    intro p q
    have e1 : i - H - p + H = i - p := by ring
    have e2 : j - H - q + H = j - q := by ring
    rw [e1, e2]; push_cast; rfl
  simp only [e]
  rw [← Complex.ofReal_re (meanOver _ _)]
  congr 1
  simp only [← Complex.ofReal_sum]
  congr 1
  have s1 : ∑ p : ZMod n, ∑ q : ZMod n, a (p + (H : ZMod n)).val (q + (H : ZMod n)).val * window n bi bo (i - p) (j - q)
      = ∑ u : ZMod n, ∑ v : ZMod n, a u.val v.val * window n bi bo ((H : ZMod n) + (i - u)) ((H : ZMod n) + (j - v)) := by
    rw [← Equiv.sum_comp (Equiv.addRight (H : ZMod n)) fun u => ∑ v : ZMod n, a u.val v.val * window n bi bo ((H : ZMod n) + (i - u)) ((H : ZMod n) + (j - v))]
    refine Finset.sum_congr rfl fun p _ => ?_
    rw [← Equiv.sum_comp (Equiv.addRight (H : ZMod n)) fun v => a ((Equiv.addRight (H : ZMod n)) p).val v.val * window n bi bo ((H : ZMod n) + (i - (Equiv.addRight (H : ZMod n)) p)) ((H : ZMod n) + (j - v))]
    refine Finset.sum_congr rfl fun q _ => ?_
    simp only [Equiv.coe_addRight]
    congr 2 <;> ring
  rw [s1]
  unfold window
  rw [disc_sum hn hi ho]
  simp only [disc_centre hn hi ho]
  unfold meanOver
  rw [near_card n _ i j]
  generalize ((near n (bi / (2 * bo)) 0 0).card : ℝ) = C
  rw [Finset.sum_div, near, Finset.sum_filter, ← Fintype.sum_prod_type' (f := fun u v => a u.val v.val *
    ((if ((i - u : ZMod n).valMinAbs : ℝ) ^ 2 + ((j - v : ZMod n).valMinAbs : ℝ) ^ 2 ≤ (bi / (2 * bo)) ^ 2 then (1 : ℝ) else 0) / C))]
  refine Finset.sum_congr rfl fun p _ => ?_
  have v1 : ((i - p.1).valMinAbs : ℝ) ^ 2 = ((p.1 - i).valMinAbs : ℝ) ^ 2 := by
    rw [← neg_sub p.1 i, valMinAbs_neg_odd hn]; push_cast; ring
  have v2 : ((j - p.2).valMinAbs : ℝ) ^ 2 = ((p.2 - j).valMinAbs : ℝ) ^ 2 := by
    rw [← neg_sub p.2 j, valMinAbs_neg_odd hn]; push_cast; ring
  rw [v1, v2]
  split_ifs <;> simp [div_eq_mul_inv]

theorem meanOver_range {α : Type} {s : Finset α} (hs : s.Nonempty) {f : α → ℝ} {lo hi : ℝ} (h : ∀ p ∈ s, lo ≤ f p ∧ f p ≤ hi) : lo ≤ meanOver s f ∧ meanOver s f ≤ hi := by
  have hc : (0 : ℝ) < s.card := by exact_mod_cast hs.card_pos
  unfold meanOver
  rw [le_div_iff₀ hc, div_le_iff₀ hc]
  constructor
  · have := Finset.card_nsmul_le_sum s f lo fun p hp => (h p hp).1
    rw [nsmul_eq_mul] at this; linarith
  · have := Finset.sum_le_card_nsmul s f hi fun p hp => (h p hp).2
    rw [nsmul_eq_mul] at this; linarith

/-- The smoothed mask stays between the smallest and the largest value of the mask. -/
theorem C113_range {n H : ℕ} (hn : n = 2 * H + 1) [NeZero n] {bi bo : ℝ} (hi : 0 < bi) (ho : 0 < bo) (a : ℕ → ℕ → ℝ) {lo up : ℝ}
    (h : ∀ i j, i < n → j < n → lo ≤ a i j ∧ a i j ≤ up) (i j : ZMod n) : lo ≤ blurred n bi bo a i j ∧ blurred n bi bo a i j ≤ up := by
  rw [C113_smoothing hn hi ho]
  exact meanOver_range ⟨_, self_mem_near n _ i j⟩ fun p _ => h _ _ (ZMod.val_lt _) (ZMod.val_lt _)

/-- Where the mask has one value over the whole disc, the smoothed mask has that value. -/
theorem C113_flat {n H : ℕ} (hn : n = 2 * H + 1) [NeZero n] {bi bo : ℝ} (hi : 0 < bi) (ho : 0 < bo) (a : ℕ → ℕ → ℝ) (v : ℝ) (i j : ZMod n)
    (h : ∀ p ∈ near n (bi / (2 * bo)) i j, a p.1.val p.2.val = v) : blurred n bi bo a i j = v := by
  rw [C113_smoothing hn hi ho]
  have := meanOver_range ⟨_, self_mem_near n (bi / (2 * bo)) i j⟩ (f := fun p => a p.1.val p.2.val) (lo := v) (hi := v) fun p hp => ⟨(h p hp).ge, (h p hp).le⟩
  exact le_antisymm this.2 this.1

theorem near_comm {n H : ℕ} (hn : n = 2 * H + 1) [NeZero n] (r : ℝ) (p q : ZMod n × ZMod n) : q ∈ near n r p.1 p.2 ↔ p ∈ near n r q.1 q.2 := by
  unfold near
  rw [Finset.mem_filter, Finset.mem_filter, ← neg_sub p.1 q.1, ← neg_sub p.2 q.2, valMinAbs_neg_odd hn, valMinAbs_neg_odd hn]
  simp

/-- The smoothing keeps the total transmission. -/
theorem C113_total {n H : ℕ} (hn : n = 2 * H + 1) [NeZero n] {bi bo : ℝ} (hi : 0 < bi) (ho : 0 < bo) (a : ℕ → ℕ → ℝ) :
    ∑ i : ZMod n, ∑ j : ZMod n, blurred n bi bo a i j = ∑ i : ZMod n, ∑ j : ZMod n, a i.val j.val := by
  classical
  set R := bi / (2 * bo)
  have h0 : (0 : ℝ) < (near n R 0 0).card := by exact_mod_cast (Finset.card_pos.2 ⟨_, self_mem_near n R 0 0⟩)
  rw [← Fintype.sum_prod_type' (f := fun i j => blurred n bi bo a i j), ← Fintype.sum_prod_type' (f := fun i j : ZMod n => a i.val j.val)]
  have e : ∀ p : ZMod n × ZMod n, blurred n bi bo a p.1 p.2 = ∑ q : ZMod n × ZMod n, if q ∈ near n R p.1 p.2 then a q.1.val q.2.val / (near n R 0 0).card else 0 := by
    intro p
    rw [C113_smoothing hn hi ho, meanOver, near_card n _ p.1 p.2, Finset.sum_div, ← Finset.sum_filter]
    refine Finset.sum_congr ?_ fun _ _ => rfl
    ext q; simp [R]
  simp only [e]
  rw [Finset.sum_comm]
  refine Finset.sum_congr rfl fun q _ => ?_
  simp only [near_comm hn R _ q]
  rw [← Finset.sum_filter]
  have : (Finset.univ.filter fun p => p ∈ near n R q.1 q.2) = near n R q.1 q.2 := by ext; simp
  rw [this, Finset.sum_const, near_card n _ q.1 q.2, nsmul_eq_mul]
  field_simp

/-! ### The array returned -/

variable (S : Scipy) (N : ℕ) (a : ℕ → ℕ → ℝ) (bi bo xo yo rot : ℝ)

/-- Only downsampling is accepted. -/
theorem C113_refused (h : bi ≤ bo) : run S N a bi bo xo yo rot = .error .valueError := by
  unfold run; rw [if_pos h]

theorem nOut_spec (n : ℕ) (hi : 0 < bi) (ho : 0 < bo) : IsLeast {k : ℤ | Odd k ∧ n * bo / bi + 2 + 2 * max |xo| |yo| ≤ k} (nOut n bi bo xo yo) := by
  have h := Util.C03_ceil_odd (n * (1 / bi) / (1 / bo) + 2 + 2 * max |xo| |yo|)
  have e : n * (1 / bi) / (1 / bo) = n * bo / bi := by field_simp
  unfold nOut
  rw [e] at h ⊢
  exact h

theorem nOut_pos (n : ℕ) (hi : 0 < bi) (ho : 0 < bo) : 0 < nOut n bi bo xo yo := by
  have h := (nOut_spec bi bo xo yo n hi ho).1.2
  have : (0 : ℝ) ≤ n * bo / bi := by positivity
  have h2 : 0 ≤ max |xo| |yo| := le_trans (abs_nonneg xo) (le_max_left _ _)
  have : (0 : ℝ) < (nOut n bi bo xo yo : ℝ) := by linarith
  exact_mod_cast this

theorem run_ok {o : Out} (h : run S N a bi bo xo yo rot = .ok o) :
    bo < bi ∧ 4 ≤ nIn N ∧ o.size = (nOut (nIn N) bi bo xo yo).toNat + 1 := by
  unfold run at h
  split_ifs at h with h1 h2
  injection h with h
  exact ⟨by linarith, by omega, by rw [← h]⟩

/-- The array returned is square with an even number of rows, the first row and the first column being zero; without them, its size is the least odd number that is at
least the size of the mask in output pixels plus 2 plus twice the larger offset. -/
theorem C113_shape {o : Out} (h : run S N a bi bo xo yo rot = .ok o) (hi : 0 < bi) (ho : 0 < bo) :
    Even o.size ∧ (∀ k, o.pix 0 k = 0 ∧ o.pix k 0 = 0) ∧
      IsLeast {k : ℤ | Odd k ∧ (nIn N : ℝ) * bo / bi + 2 + 2 * max |xo| |yo| ≤ k} ((o.size : ℤ) - 1) := by
  obtain ⟨-, -, hs⟩ := run_ok S N a bi bo xo yo rot h
  have hp := nOut_pos bi bo xo yo (nIn N) hi ho
  have hl := nOut_spec bi bo xo yo (nIn N) hi ho
  have e : (o.size : ℤ) - 1 = nOut (nIn N) bi bo xo yo := by omega
  refine ⟨?_, ?_, e ▸ hl⟩
  · obtain ⟨k, hk⟩ := hl.1.1
    rw [hs]
    refine ⟨(k + 1).toNat, by omega⟩
  · unfold run at h
    split_ifs at h
    injection h with h
    subst h
    intro k
    simp

/-- Every pixel of the mask, moved by the offsets, lies inside of the array returned (at least half a pixel away from the first and last row and column used). -/
theorem C113_contained {o : Out} (h : run S N a bi bo xo yo rot = .ok o) (hi : 0 < bi) (ho : 0 < bo) (off : ℝ) (hoff : off = xo ∨ off = yo)
    (i : ℕ) (h0 : N - nIn N ≤ i) (h1 : i < N) :
    1 + 1 / 2 ≤ (o.size / 2 : ℝ) + off + ((i : ℝ) - (N / 2 : ℕ)) * (bo / bi) ∧
      (o.size / 2 : ℝ) + off + ((i : ℝ) - (N / 2 : ℕ)) * (bo / bi) ≤ (o.size : ℝ) - 1 - 1 / 2 := by
  obtain ⟨-, h4, hs⟩ := run_ok S N a bi bo xo yo rot h
  have hp := nOut_pos bi bo xo yo (nIn N) hi ho
  have hl := (nOut_spec bi bo xo yo (nIn N) hi ho).1.2
  have es : (o.size : ℝ) = nOut (nIn N) bi bo xo yo + 1 := by
    have : (o.size : ℤ) = nOut (nIn N) bi bo xo yo + 1 := by omega
    exact_mod_cast this
  have hm : |off| ≤ max |xo| |yo| := by
    rcases hoff with rfl | rfl
    · exact le_max_left _ _
    · exact le_max_right _ _
  have hab := abs_le.1 (hm)
  have hN : nIn N = 2 * ((nIn N) / 2) + 1 ∧ N - nIn N + nIn N / 2 = N / 2 := by
    unfold nIn at h4 ⊢
    split_ifs at h4 ⊢ <;> omega
  have hd : |(i : ℝ) - (N / 2 : ℕ)| ≤ (nIn N : ℝ) / 2 := by
    have i1 : (N / 2 : ℕ) ≤ i + nIn N / 2 := by omega
    have i2 : i ≤ N / 2 + nIn N / 2 := by
      unfold nIn at h4 hN ⊢
      split_ifs at h4 hN ⊢ <;> omega
    have i3 : ((nIn N / 2 : ℕ) : ℝ) ≤ (nIn N : ℝ) / 2 := Nat.cast_div_le
    have r1 : ((N / 2 : ℕ) : ℝ) ≤ i + (nIn N / 2 : ℕ) := by exact_mod_cast i1
    have r2 : (i : ℝ) ≤ (N / 2 : ℕ) + (nIn N / 2 : ℕ) := by exact_mod_cast i2
    rw [abs_le]; constructor <;> linarith
  have hr : 0 < bo / bi := by positivity
  have hk : |((i : ℝ) - (N / 2 : ℕ)) * (bo / bi)| ≤ (nIn N : ℝ) / 2 * (bo / bi) := by
    rw [abs_mul, abs_of_pos hr]; gcongr
  have hk2 := abs_le.1 hk
  have e3 : (nIn N : ℝ) * bo / bi = 2 * ((nIn N : ℝ) / 2 * (bo / bi)) := by ring
  rw [e3] at hl
  rw [es]
  constructor <;> linarith

theorem x0_strict (n : ℕ) (hi : 0 < bi) : StrictMono (x0 n bi) := by
  intro i j hij
  unfold x0
  have : (i : ℝ) < j := by exact_mod_cast hij
  have : 0 < 1 / bi := by positivity
  gcongr

/-- What is in the array returned: pixel `(r, c)` is the spline through the smoothed (and rotated) mask at the place of this pixel, which is counted in beam diameters
from the centre pixel `size/2` moved by the offsets; the nodes of the spline are the places of the pixels of the mask, counted from its centre pixel. -/
theorem C113_place {o : Out} (h : run S N a bi bo xo yo rot = .ok o) (hi : 0 < bi) (ho : 0 < bo) :
    ∃ (H : ℕ) (_ : nIn N = 2 * H + 1) (_ : NeZero (nIn N)), ∀ r c, 1 ≤ r → 1 ≤ c →
      o.pix r c = S.spline (nIn N) (fun i => ((i : ℝ) - H) / bi) (rotated (nIn N) S rot (blurred (nIn N) bi bo (crop N a)))
        (((r : ℝ) - o.size / 2 - yo) / bo) (((c : ℝ) - o.size / 2 - xo) / bo) := by
  obtain ⟨-, h4, hs⟩ := run_ok S N a bi bo xo yo rot h
  obtain ⟨H, hH⟩ := nIn_odd h4
  refine ⟨H, hH, ⟨by omega⟩, fun r c hr hc => ?_⟩
  have hp := nOut_pos bi bo xo yo (nIn N) hi ho
  have es : (o.size : ℝ) = nOut (nIn N) bi bo xo yo + 1 := by
    have : (o.size : ℤ) = nOut (nIn N) bi bo xo yo + 1 := by omega
    exact_mod_cast this
  have ex : x0 (nIn N) bi = fun i : ℕ => ((i : ℝ) - H) / bi := by
    funext i
    have : (nIn N : ℝ) = 2 * H + 1 := by exact_mod_cast hH
    unfold x0; rw [this]; field_simp; ring
  have e1 : ∀ (off : ℝ) (k : ℕ), 1 ≤ k → x1 (nOut (nIn N) bi bo xo yo) bo off (k - 1) = ((k : ℝ) - o.size / 2 - off) / bo := by
    intro off k hk
    unfold x1
    rw [es]
    push_cast [Nat.cast_sub hk]
    field_simp
    ring
  unfold run at h
  split_ifs at h
  injection h with h
  subst h
  simp only at e1 ⊢
  rw [if_neg (by omega), ex, e1 _ _ hr, e1 _ _ hc]

/-- The smoothed mask at a pixel `(i, j)` of the mask whose disc lies in the mask. -/
theorem blurred_mean {H : ℕ} (hH : nIn N = 2 * H + 1) [NeZero (nIn N)] (hi : 0 < bi) (ho : 0 < bo) (i j : ℕ)
    (i0 : ((N - nIn N : ℕ) : ℝ) + bi / (2 * bo) ≤ i) (i1 : i + bi / (2 * bo) ≤ (N : ℝ) - 1)
    (j0 : ((N - nIn N : ℕ) : ℝ) + bi / (2 * bo) ≤ j) (j1 : j + bi / (2 * bo) ≤ (N : ℝ) - 1) :
    blurred (nIn N) bi bo (crop N a) ((i - (N - nIn N) : ℕ) : ZMod (nIn N)) ((j - (N - nIn N) : ℕ) : ZMod (nIn N)) = meanOver (ball N (bi / (2 * bo)) i j) fun p => a p.1 p.2 := by
  have hR : 0 < bi / (2 * bo) := by positivity
  set R := bi / (2 * bo) with hRd
  set d := N - nIn N with hd
  have hNd : N = d + nIn N ∧ N / 2 = d + H ∧ ∀ u v, crop N a u v = a (u + d) (v + d) := by
    refine ⟨by unfold nIn at *; split_ifs at * <;> omega, by unfold nIn at *; split_ifs at * <;> omega, ?_⟩
    intro u v
    unfold crop nIn at *
    split_ifs at * with hp
    · have : d = 1 := by omega
      rw [this]
    · have : d = 0 := by omega
      rw [this]; rfl
  obtain ⟨hN1, hN2, hcr⟩ := hNd
  have hdi : d ≤ i := by have : (d : ℝ) ≤ i := by linarith
                         exact_mod_cast this
  have hdj : d ≤ j := by have : (d : ℝ) ≤ j := by linarith
                         exact_mod_cast this
  have hiN : i < N := by have : (i : ℝ) < N := by linarith
                         exact_mod_cast this
  have hjN : j < N := by have : (j : ℝ) < N := by linarith
                         exact_mod_cast this
  rw [C113_smoothing hH hi ho, ← hRd]
  have hval : ∀ u : ℕ, u < nIn N → ((u : ZMod (nIn N)).val) = u := fun u hu => ZMod.val_cast_of_lt hu
  -- within the disc there is no wrapping
  have hw : ∀ (x : ZMod (nIn N)) (i : ℕ), d ≤ i → i < N → ((d : ℝ) + R ≤ i) → (i + R ≤ (N : ℝ) - 1) →
      (|((x - ((i - d : ℕ) : ZMod (nIn N))).valMinAbs : ℝ)| ≤ R → ((x - ((i - d : ℕ) : ZMod (nIn N))).valMinAbs : ℝ) = ((x.val + d : ℕ) : ℝ) - i) := by
    intro x i hdi hiN i0 i1 hx
    set v := (x - ((i - d : ℕ) : ZMod (nIn N))).valMinAbs with hv
    have hx2 := abs_le.1 hx
    have b0 : (0 : ℝ) ≤ v + ((i - d : ℕ) : ℝ) := by push_cast [Nat.cast_sub hdi]; linarith
    have b1 : (v : ℝ) + ((i - d : ℕ) : ℝ) ≤ (nIn N : ℝ) - 1 := by
      have : (N : ℝ) = d + nIn N := by exact_mod_cast hN1
      push_cast [Nat.cast_sub hdi]; linarith
    have c0 : 0 ≤ v + ((i - d : ℕ) : ℤ) := by exact_mod_cast b0
    have c1 : v + ((i - d : ℕ) : ℤ) < nIn N := by
      have : (v : ℝ) + ((i - d : ℕ) : ℝ) < (nIn N : ℝ) := by linarith
      exact_mod_cast this
    have ex : x = ((v + ((i - d : ℕ) : ℤ) : ℤ) : ZMod (nIn N)) := by
      rw [hv]; push_cast [Nat.cast_sub hdi]; simp
    have ev : (x.val : ℤ) = v + ((i - d : ℕ) : ℤ) := by
      rw [ex, ZMod.val_intCast]
      exact Int.emod_eq_of_lt c0 c1
    have : v = ((x.val + d : ℕ) : ℤ) - i := by push_cast; omega
    rw [this]; push_cast; rfl
  have hw2 : ∀ (u i : ℕ), d ≤ i → i < N → d ≤ u → u < N → ((d : ℝ) + R ≤ i) → (i + R ≤ (N : ℝ) - 1) → |(u : ℝ) - i| ≤ R →
      (((((u - d : ℕ) : ZMod (nIn N)) - ((i - d : ℕ) : ZMod (nIn N))).valMinAbs : ℤ) : ℝ) ^ 2 ≤ ((u : ℝ) - i) ^ 2 := by
    intro u i hdi hiN hdu huN _ _ _
    have ez : (((u - d : ℕ) : ZMod (nIn N)) - ((i - d : ℕ) : ZMod (nIn N))) = (((u : ℤ) - i : ℤ) : ZMod (nIn N)) := by
      push_cast [Nat.cast_sub hdu, Nat.cast_sub hdi]; ring
    have := ZMod.natAbs_min_of_le_div_two (nIn N) (((((u - d : ℕ) : ZMod (nIn N)) - ((i - d : ℕ) : ZMod (nIn N))).valMinAbs)) ((u : ℤ) - i)
      (by rw [← ez]; simp) (ZMod.natAbs_valMinAbs_le _)
    have h2 : |(((((u - d : ℕ) : ZMod (nIn N)) - ((i - d : ℕ) : ZMod (nIn N))).valMinAbs : ℤ) : ℝ)| ≤ |(u : ℝ) - i| := by
      have e1 : ∀ z : ℤ, |(z : ℝ)| = (z.natAbs : ℝ) := fun z => by rw [← Int.cast_abs, Int.abs_eq_natAbs]; rfl
      have e2 : (u : ℝ) - i = (((u : ℤ) - i : ℤ) : ℝ) := by push_cast; rfl
      rw [e2, e1, e1]; exact_mod_cast this
    exact sq_le_sq.2 h2
  have abs_of_sq : ∀ x y : ℝ, x ^ 2 + y ^ 2 ≤ R ^ 2 → |x| ≤ R ∧ |y| ≤ R := by
    intro x y hxy
    exact ⟨abs_le_of_sq_le_sq (by nlinarith [sq_nonneg y]) hR.le, abs_le_of_sq_le_sq (by nlinarith [sq_nonneg x]) hR.le⟩
  have hfw : ∀ p : ZMod (nIn N) × ZMod (nIn N), p ∈ near (nIn N) R ((i - d : ℕ) : ZMod (nIn N)) ((j - d : ℕ) : ZMod (nIn N)) →
      (p.1.val + d, p.2.val + d) ∈ ball N R i j := by
    intro p hp
    unfold near at hp; unfold ball
    rw [Finset.mem_filter] at hp ⊢
    have hh := abs_of_sq _ _ hp.2
    have := hp.2
    rw [hw p.1 i hdi hiN i0 i1 hh.1, hw p.2 j hdj hjN j0 j1 hh.2] at this
    refine ⟨?_, this⟩
    have := ZMod.val_lt p.1
    have := ZMod.val_lt p.2
    rw [Finset.mem_product, Finset.mem_range, Finset.mem_range]
    simp only
    omega
  have hbd : ∀ p ∈ ball N R i j, d ≤ p.1 ∧ d ≤ p.2 ∧ p.1 < N ∧ p.2 < N ∧ |(p.1 : ℝ) - i| ≤ R ∧ |(p.2 : ℝ) - j| ≤ R := by
    intro p hp
    unfold ball at hp
    rw [Finset.mem_filter, Finset.mem_product, Finset.mem_range, Finset.mem_range] at hp
    have hh := abs_of_sq _ _ hp.2
    have a1 := abs_le.1 hh.1
    have a2 := abs_le.1 hh.2
    have d1 : (d : ℝ) ≤ p.1 := by linarith
    have d2 : (d : ℝ) ≤ p.2 := by linarith
    exact ⟨by exact_mod_cast d1, by exact_mod_cast d2, hp.1.1, hp.1.2, hh.1, hh.2⟩
  have hbw : ∀ p ∈ ball N R i j, (((p.1 - d : ℕ) : ZMod (nIn N)), ((p.2 - d : ℕ) : ZMod (nIn N))) ∈
      near (nIn N) R ((i - d : ℕ) : ZMod (nIn N)) ((j - d : ℕ) : ZMod (nIn N)) := by
    intro p hp
    obtain ⟨p1, p2, p3, p4, p5, p6⟩ := hbd p hp
    unfold ball at hp; unfold near
    rw [Finset.mem_filter] at hp ⊢
    refine ⟨Finset.mem_univ _, ?_⟩
    have q1 := hw2 p.1 i hdi hiN p1 p3 i0 i1 p5
    have q2 := hw2 p.2 j hdj hjN p2 p4 j0 j1 p6
    simp only
    linarith [hp.2]
  have hsum : ∀ (f : ℕ → ℕ → ℝ), ∑ p ∈ near (nIn N) R ((i - d : ℕ) : ZMod (nIn N)) ((j - d : ℕ) : ZMod (nIn N)), f (p.1.val + d) (p.2.val + d) = ∑ p ∈ ball N R i j, f p.1 p.2 := by
    intro f
    refine Finset.sum_bij' (fun p _ => (p.1.val + d, p.2.val + d)) (fun p _ => (((p.1 - d : ℕ) : ZMod (nIn N)), ((p.2 - d : ℕ) : ZMod (nIn N)))) hfw hbw ?_ ?_ ?_
    · intro p _; simp
    · intro p hp
      obtain ⟨p1, p2, p3, p4, -, -⟩ := hbd p hp
      simp only
      rw [hval _ (by omega), hval _ (by omega)]
      ext <;> simp only <;> omega
    · intro p _; rfl
  unfold meanOver
  have hcard : ((near (nIn N) R ((i - d : ℕ) : ZMod (nIn N)) ((j - d : ℕ) : ZMod (nIn N))).card : ℝ) = (ball N R i j).card := by
    have := hsum fun _ _ => 1
    simpa using this
  rw [hcard, ← hsum fun u v => a u v]
  simp only [hcr]

/-- Without rotation, where an output pixel falls on a pixel `(i, j)` of the mask, it is the mean of the mask over the disc around `(i, j)` whose diameter is one output
pixel, provided that this disc lies in the mask (row and column 0 of a mask of even size excepted). -/
theorem C113_average {o : Out} (h : run S N a bi bo xo yo 0 = .ok o) (hi : 0 < bi) (ho : 0 < bo) (hS : Interpolates S) (i j r c : ℕ)
    (hr : 1 ≤ r) (hc : 1 ≤ c)
    (hri : ((r : ℝ) - o.size / 2 - yo) / bo = ((i : ℝ) - (N / 2 : ℕ)) / bi) (hcj : ((c : ℝ) - o.size / 2 - xo) / bo = ((j : ℝ) - (N / 2 : ℕ)) / bi)
    (i0 : ((N - nIn N : ℕ) : ℝ) + bi / (2 * bo) ≤ i) (i1 : i + bi / (2 * bo) ≤ (N : ℝ) - 1)
    (j0 : ((N - nIn N : ℕ) : ℝ) + bi / (2 * bo) ≤ j) (j1 : j + bi / (2 * bo) ≤ (N : ℝ) - 1) :
    o.pix r c = meanOver (ball N (bi / (2 * bo)) i j) fun p => a p.1 p.2 := by
  obtain ⟨-, h4, hs⟩ := run_ok S N a bi bo xo yo 0 h
  obtain ⟨H, hH, hne, hpl⟩ := C113_place S N a bi bo xo yo 0 h hi ho
  have hR : 0 < bi / (2 * bo) := by positivity
  set R := bi / (2 * bo) with hRd
  set d := N - nIn N with hd
  have hNd : N = d + nIn N ∧ N / 2 = d + H ∧ ∀ u v, crop N a u v = a (u + d) (v + d) := by
    refine ⟨by unfold nIn at *; split_ifs at * <;> omega, by unfold nIn at *; split_ifs at * <;> omega, ?_⟩
    intro u v
    unfold crop nIn at *
    split_ifs at * with hp
    · have : d = 1 := by omega
      rw [this]
    · have : d = 0 := by omega
      rw [this]; rfl
  obtain ⟨hN1, hN2, hcr⟩ := hNd
  have hdi : d ≤ i := by have : (d : ℝ) ≤ i := by linarith
                         exact_mod_cast this
  have hdj : d ≤ j := by have : (d : ℝ) ≤ j := by linarith
                         exact_mod_cast this
  have hiN : i < N := by have : (i : ℝ) < N := by linarith
                         exact_mod_cast this
  have hjN : j < N := by have : (j : ℝ) < N := by linarith
                         exact_mod_cast this
  have key : o.pix r c = blurred (nIn N) bi bo (crop N a) ((i - d : ℕ) : ZMod (nIn N)) ((j - d : ℕ) : ZMod (nIn N)) := by
    rw [hpl r c hr hc, hri, hcj]
    have ei : ∀ i : ℕ, d ≤ i → ((i : ℝ) - (N / 2 : ℕ)) / bi = (((i - d : ℕ) : ℝ) - H) / bi := by
      intro i hi; rw [hN2]; push_cast [Nat.cast_sub hi]; ring
    rw [ei i hdi, ei j hdj]
    have hsm : StrictMono fun i : ℕ => ((i : ℝ) - H) / bi := by
      intro u v huv
      have : (u : ℝ) < v := by exact_mod_cast huv
      simp only
      gcongr
    rw [hS (nIn N) (fun i => ((i : ℝ) - H) / bi) _ hsm (i - d) (j - d) (by omega) (by omega)]
    unfold rotated
    rw [if_pos rfl]
  rw [key]
  exact blurred_mean N a bi bo hH hi ho i j i0 i1 j0 j1

/-- `scipy.ndimage.rotate` by `-90` degrees is `numpy.rot90(A, -1)`: in an array of odd size, pixel `(i, j)` is pixel `(n-1-j, i)` of the array; and by `90` degrees `numpy.rot90(A)`. -/
def QuarterTurns (S : Scipy) : Prop := ∀ (n : ℕ) [NeZero n] (A : ZMod n → ZMod n → ℝ) (i j : ℕ), i < n → j < n →
  S.rotate n A (-90) i j = A ((n - 1 - j : ℕ) : ZMod n) i ∧ S.rotate n A 90 i j = A j ((n - 1 - i : ℕ) : ZMod n)

/-- With a rotation by 90 degrees the mask is turned counter-clockwise, about its centre pixel, with rows counted upwards: where an output pixel falls on the place that pixel `(i, j)` of the mask
reaches when it is so turned, it is the mean of the mask over the disc around `(i, j)`. The offsets are applied after the rotation. -/
theorem C113_turn {o : Out} (h : run S N a bi bo xo yo 90 = .ok o) (hi : 0 < bi) (ho : 0 < bo) (hS : Interpolates S) (hQ : QuarterTurns S) (i j r c : ℕ)
    (hr : 1 ≤ r) (hc : 1 ≤ c)
    (hri : ((r : ℝ) - o.size / 2 - yo) / bo = ((j : ℝ) - (N / 2 : ℕ)) / bi) (hcj : ((c : ℝ) - o.size / 2 - xo) / bo = -((i : ℝ) - (N / 2 : ℕ)) / bi)
    (i0 : ((N - nIn N : ℕ) : ℝ) + bi / (2 * bo) ≤ i) (i1 : i + bi / (2 * bo) ≤ (N : ℝ) - 1)
    (j0 : ((N - nIn N : ℕ) : ℝ) + bi / (2 * bo) ≤ j) (j1 : j + bi / (2 * bo) ≤ (N : ℝ) - 1) :
    o.pix r c = meanOver (ball N (bi / (2 * bo)) i j) fun p => a p.1 p.2 := by
  obtain ⟨-, h4, hs⟩ := run_ok S N a bi bo xo yo 90 h
  obtain ⟨H, hH, hne, hpl⟩ := C113_place S N a bi bo xo yo 90 h hi ho
  have hR : 0 < bi / (2 * bo) := by positivity
  set R := bi / (2 * bo) with hRd
  set d := N - nIn N with hd
  have hNd : N = d + nIn N ∧ N / 2 = d + H ∧ ∀ u v, crop N a u v = a (u + d) (v + d) := by
    refine ⟨by unfold nIn at *; split_ifs at * <;> omega, by unfold nIn at *; split_ifs at * <;> omega, ?_⟩
    intro u v
    unfold crop nIn at *
    split_ifs at * with hp
    · have : d = 1 := by omega
      rw [this]
    · have : d = 0 := by omega
      rw [this]; rfl
  obtain ⟨hN1, hN2, hcr⟩ := hNd
  have hdi : d ≤ i := by have : (d : ℝ) ≤ i := by linarith
                         exact_mod_cast this
  have hdj : d ≤ j := by have : (d : ℝ) ≤ j := by linarith
                         exact_mod_cast this
  have hiN : i < N := by have : (i : ℝ) < N := by linarith
                         exact_mod_cast this
  have hjN : j < N := by have : (j : ℝ) < N := by linarith
                         exact_mod_cast this
  have key : o.pix r c = blurred (nIn N) bi bo (crop N a) ((i - d : ℕ) : ZMod (nIn N)) ((j - d : ℕ) : ZMod (nIn N)) := by
    rw [hpl r c hr hc, hri, hcj]
    have ei : ((j : ℝ) - (N / 2 : ℕ)) / bi = (((j - d : ℕ) : ℝ) - H) / bi := by
      rw [hN2]; push_cast [Nat.cast_sub hdj]; ring
    have hle : i - d ≤ nIn N - 1 := by omega
    have ej : -((i : ℝ) - (N / 2 : ℕ)) / bi = (((nIn N - 1 - (i - d) : ℕ) : ℝ) - H) / bi := by
      rw [hN2, Nat.cast_sub hle, hH]; push_cast [Nat.cast_sub hdi]; ring
    rw [ei, ej]
    have hsm : StrictMono fun i : ℕ => ((i : ℝ) - H) / bi := by
      intro u v huv
      have : (u : ℝ) < v := by exact_mod_cast huv
      simp only
      gcongr
    rw [hS (nIn N) (fun i => ((i : ℝ) - H) / bi) _ hsm (j - d) (nIn N - 1 - (i - d)) (by omega) (by omega)]
    unfold rotated
    rw [if_neg (by norm_num), (hQ _ _ _ _ (by omega) (by omega)).1]
    congr 2
    omega
  rw [key]
  exact blurred_mean N a bi bo hH hi ho i j i0 i1 j0 j1

/-- Row 0 and column 0 of a mask of even size have no influence. -/
theorem C113_first_row (hN : N % 2 = 0) (a' : ℕ → ℕ → ℝ) (h : ∀ i j, 1 ≤ i → 1 ≤ j → a i j = a' i j) :
    run S N a bi bo xo yo rot = run S N a' bi bo xo yo rot := by
  have : crop N a = crop N a' := by
    funext i j
    unfold crop
    rw [if_pos hN, if_pos hN, h _ _ (by omega) (by omega)]
  unfold run
  rw [this]

/-- Beyond the last row of the mask, the array returned repeats this last row instead of being zero. -/
theorem C113_beyond {o : Out} (h : run S N a bi bo xo yo rot = .ok o) (hi : 0 < bi) (ho : 0 < bo) (hS : Clamps S) (r r' c : ℕ) (hr : 1 ≤ r) (hr' : 1 ≤ r') (hc : 1 ≤ c)
    (h1 : ((N : ℝ) - 1 - (N / 2 : ℕ)) / bi ≤ ((r : ℝ) - o.size / 2 - yo) / bo) (h2 : ((N : ℝ) - 1 - (N / 2 : ℕ)) / bi ≤ ((r' : ℝ) - o.size / 2 - yo) / bo) :
    o.pix r c = o.pix r' c := by
  obtain ⟨-, h4, hs⟩ := run_ok S N a bi bo xo yo rot h
  obtain ⟨H, hH, hne, hpl⟩ := C113_place S N a bi bo xo yo rot h hi ho
  have hl : (((nIn N - 1 : ℕ) : ℝ) - H) / bi = ((N : ℝ) - 1 - (N / 2 : ℕ)) / bi := by
    have e1 : nIn N - 1 = 2 * H := by omega
    have e2 : N = N / 2 + H + 1 := by unfold nIn at *; split_ifs at * <;> omega
    have e3 : (N : ℝ) = (N / 2 : ℕ) + H + 1 := by exact_mod_cast e2
    rw [e1, e3]; push_cast; ring
  have hcl : ∀ (lo hi t : ℝ), hi ≤ t → clampTo lo hi t = max lo hi := by
    intro lo hi t ht; unfold clampTo; rw [min_eq_left ht]
  rw [hpl r c hr hc, hpl r' c hr' hc, hS (nIn N) _ _ (((r : ℝ) - o.size / 2 - yo) / bo), hS (nIn N) _ _ (((r' : ℝ) - o.size / 2 - yo) / bo)]
  rw [hcl _ _ (((r : ℝ) - o.size / 2 - yo) / bo) (hl ▸ h1), hcl _ _ (((r' : ℝ) - o.size / 2 - yo) / bo) (hl ▸ h2)]

/-! ## A case that meets the hypotheses -/

open Classical in
/-- The value at a node, zero elsewhere. -/
noncomputable def atNode (n : ℕ) (x : ℕ → ℝ) (A : ZMod n → ZMod n → ℝ) (y1 x1 : ℝ) : ℝ :=
  if h : ∃ p : ℕ × ℕ, (p.1 < n ∧ p.2 < n) ∧ x p.1 = y1 ∧ x p.2 = x1 then A h.choose.1 h.choose.2 else 0

/-- An interpolation that takes the values at the nodes and is zero elsewhere, the places outside being clamped. -/
noncomputable def nodeOnly : Scipy where
  rotate := fun _ A _ => A
  spline := fun n x A y1 x1 => atNode n x A (clampTo (x 0) (x (n - 1)) y1) (clampTo (x 0) (x (n - 1)) x1)

theorem clampTo_idem (lo hi t : ℝ) : clampTo lo hi (clampTo lo hi t) = clampTo lo hi t := by
  unfold clampTo
  rcases le_total lo hi with h | h
  · have : min hi (max lo (min hi t)) = max lo (min hi t) := min_eq_right (max_le h (min_le_left _ _))
    rw [this, max_eq_right (le_max_left _ _)]
  · rw [max_eq_left (le_trans (min_le_left _ _) h), max_eq_left (le_trans (min_le_left _ _) h)]

theorem nodeOnly_clamps : Clamps nodeOnly := by
  intro n _ x A y1 x1
  simp only [nodeOnly, clampTo_idem]

theorem nodeOnly_interpolates : Interpolates nodeOnly := by
  intro n _ x A hx i j hi hj
  have hc : ∀ k, k < n → clampTo (x 0) (x (n - 1)) (x k) = x k := by
    intro k hk
    unfold clampTo
    rw [min_eq_right (hx.monotone (by omega)), max_eq_right (hx.monotone (by omega))]
  have hex : ∃ p : ℕ × ℕ, (p.1 < n ∧ p.2 < n) ∧ x p.1 = x i ∧ x p.2 = x j := ⟨(i, j), ⟨hi, hj⟩, rfl, rfl⟩
  simp only [nodeOnly]
  rw [hc i hi, hc j hj]
  unfold atNode
  rw [dif_pos hex]
  have hs := hex.choose_spec
  rw [hx.injective hs.2.1, hx.injective hs.2.2]

/-- An 8 by 8 mask with 6 pixels across the beam, downsampled to 2 pixels across the beam: the centre pixel of the result (row and column `size/2`) is the mean over the 9
pixels around pixel (4, 4). -/
example (a : ℕ → ℕ → ℝ) : ∃ o, run nodeOnly 8 a 6 2 0 0 0 = .ok o ∧ o.pix (o.size / 2) (o.size / 2) = meanOver (ball 8 (6 / (2 * 2)) 4 4) fun p => a p.1 p.2 := by
  have hok : ∃ o, run nodeOnly 8 a 6 2 0 0 0 = .ok o := by
    unfold run
    rw [if_neg (by norm_num), dif_neg (by decide)]
    exact ⟨_, rfl⟩
  obtain ⟨o, ho⟩ := hok
  refine ⟨o, ho, ?_⟩
  have hsh := C113_shape nodeOnly 8 a 6 2 0 0 0 ho (by norm_num) (by norm_num)
  obtain ⟨k, hk⟩ := hsh.1
  have hp := hsh.2.2.1.2
  have hk1 : 1 ≤ k := by
    by_contra hlt
    have : k = 0 := by omega
    rw [hk, this] at hp
    norm_num [nIn] at hp
  have e : o.size / 2 = k := by omega
  have e2 : ((k : ℝ) - (o.size : ℝ) / 2 - 0) / 2 = (((4 : ℕ) : ℝ) - (8 / 2 : ℕ)) / 6 := by rw [hk]; push_cast; norm_num
  rw [e]
  exact C113_average nodeOnly 8 a 6 2 0 0 ho (by norm_num) (by norm_num) nodeOnly_interpolates 4 4 k k hk1 hk1 e2 e2
    (by norm_num [nIn]) (by norm_num) (by norm_num [nIn]) (by norm_num)

/-- a rotation of this kind -/
example : ∃ S, Interpolates S ∧ QuarterTurns S := by
  refine ⟨⟨fun n A deg i j => if deg = 90 then A (j.val : ZMod n) ((n - 1 - i.val : ℕ) : ZMod n) else A ((n - 1 - j.val : ℕ) : ZMod n) (i.val : ZMod n), nodeOnly.spline⟩, nodeOnly_interpolates, ?_⟩
  intro n _ A i j hi hj
  simp only [ZMod.val_cast_of_lt hi, ZMod.val_cast_of_lt hj]
  norm_num

end Verif.Downsample
