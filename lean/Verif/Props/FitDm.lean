import Verif.Model.PropDm
import Verif.Props.EstProbe
import Verif.Props.PropDm
import Mathlib.Analysis.InnerProductSpace.PiL2
import Mathlib.Data.ZMod.Basic

/-!
# C64: the DM surface fit converges

The specification: a kernel is symmetric if it does not change when the sign of the row or of the column offset does; its deviation from "one actuator moves nothing but
itself" is `|1 - w 0 0|` plus the sum of the absolute values of the other entries.
-/

namespace Verif.PropDm
open Verif Verif.Est Verif.Proper

/-- **C64.** If what a command leaves over is at most 0.99 times (rms) the surface it should make, for every surface, then the fit ends with the surface asked for at every
actuator, to better than 1e-15, and the surface returned is that of the commands returned (first residual below 990,000 m rms). -/
theorem C64_converges {ι : Type} [Fintype ι] (L : (ι → ℝ) → ι → ℝ) (hadd : ∀ u v, L (u + v) = L u + L v) (hq : ∀ d, rms (d - L d) ≤ 0.99 * rms d) (z : ι → ℝ) (h0 : rms (z - L z) < 990000)
    (fuel : ℕ) (r : (ι → ℝ) × (ι → ℝ)) (h : propFitDm L z fuel = some r) : (∀ i, |z i - L r.1 i| < 1e-15) ∧ r.2 = L r.1 := by
  have hpos : ∀ d : ι → ℝ, 0 ≤ rms d := fun d => Real.sqrt_nonneg _
  have hle : ∀ (d : ι → ℝ) (i : ι), |d i| ≤ rms d := by
    intro d i
    refine Real.abs_le_sqrt ?_
    exact Finset.single_le_sum (f := fun i => d i ^ 2) (fun j _ => sq_nonneg _) (Finset.mem_univ i)
  have key : ∀ (fuel : ℕ) (s s' : FitState ι), s.diff = z - L s.cmd → s.e = rms s.diff → 1.01 * s.e < s.e0 → fitLoop L z fuel s = some s' →
      (∀ i, |z i - L s'.cmd i| < 1e-15) ∧ s'.surf = L s'.cmd ∧ s'.e = s'.e0 := by
    intro fuel
    induction fuel with
    | zero => intro s s' _ _ _ h; simp [fitLoop] at h
    | succ fuel ih =>
      intro s s' hd he h0 h
      have hc : fitCond s = true := by
        unfold fitCond
        rw [decide_eq_true_iff]
        have hn : 0 ≤ s.e := he ▸ hpos _
        refine ⟨by linarith, ?_⟩
        rcases hn.eq_or_lt with h' | h'
        · exact Or.inl h'.symm
        · right
          rw [gt_iff_lt, lt_div_iff₀ h']; linarith
      rw [fitLoop, if_pos hc] at h
      dsimp only at h
      have hdiff : z - L (s.cmd + s.diff) = s.diff - L s.diff := by rw [hadd, hd]; abel
      by_cases hb : ∀ i, |(z - L (s.cmd + s.diff)) i| < 1e-15
      · rw [if_pos hb] at h
        obtain rfl := Option.some.inj h
        exact ⟨fun i => hb i, rfl, rfl⟩
      · rw [if_neg hb] at h
        refine ih _ s' rfl rfl ?_ h
        dsimp only
        push Not at hb
        obtain ⟨i, hi⟩ := hb
        have h1 := hle (z - L (s.cmd + s.diff)) i
        have h2 : rms (z - L (s.cmd + s.diff)) ≤ 0.99 * s.e := by rw [hdiff, he]; exact hq _
        have h3 : (0 : ℝ) < 1e-15 := by norm_num
        linarith
  unfold propFitDm at h
  obtain ⟨s, hs, rfl⟩ := Option.map_eq_some_iff.1 h
  obtain ⟨h1, h2, h3⟩ := key fuel _ s rfl rfl (by unfold fitInit; dsimp only; linarith) hs
  unfold fitResult
  rw [if_neg (by rw [h3]; exact lt_irrefl _)]
  exact ⟨h1, h2⟩

/-! ## The convolution with a symmetric kernel -/

section
variable {n : ℕ} [NeZero n]

/-- The pixels continued by reflection, on the circle of `2n`. -/
def fold (k : ZMod (2 * n)) : ℕ := if k.val < n then k.val else 2 * n - 1 - k.val

theorem reflect_fold (i : ℤ) : reflect n i = fold (n := n) (i : ZMod (2 * n)) := by
  unfold reflect fold
  have h : ((i : ZMod (2 * n)).val : ℤ) = i % (2 * n : ℕ) := ZMod.val_intCast i
  have : (i % (2 * n : ℕ)).toNat = (i : ZMod (2 * n)).val := by rw [← h, Int.toNat_natCast]
  rw [this]

theorem fold_lt (k : ZMod (2 * n)) : fold k < n := by
  have := ZMod.val_lt k
  have := NeZero.pos n
  unfold fold
  split_ifs <;> omega

theorem val_turn (k : ZMod (2 * n)) : ((2 * n - 1 - k.val : ℕ) : ZMod (2 * n)) = -1 - k := by
  have h := ZMod.val_lt k
  have h0 := NeZero.pos n
  have : ((2 * n - 1 - k.val : ℕ) : ZMod (2 * n)) = (2 * n : ℕ) - 1 - (k.val : ℕ) := by
    rw [Nat.cast_sub (by omega), Nat.cast_sub (by omega)]; simp
  rw [this, ZMod.natCast_self, ZMod.natCast_zmod_val]; ring

theorem fold_turn (k : ZMod (2 * n)) : fold (-1 - k) = fold k := by
  have h := ZMod.val_lt k
  have h0 := NeZero.pos n
  have : (-1 - k : ZMod (2 * n)).val = 2 * n - 1 - k.val := by
    rw [← val_turn, ZMod.val_natCast, Nat.mod_eq_of_lt (by omega)]
  unfold fold
  rw [this]
  split_ifs <;> omega

theorem fold_step (k : ZMod (2 * n)) : ∃ σ : ℤ, (σ = 1 ∨ σ = -1) ∧ ∀ a : ℤ, reflect n ((fold k : ℤ) - a) = fold (k - ((σ * a : ℤ) : ZMod (2 * n))) := by
  by_cases h : k.val < n
  · refine ⟨1, Or.inl rfl, fun a => ?_⟩
    rw [reflect_fold]
    unfold fold at *
    rw [if_pos h]
    push_cast
    rw [ZMod.natCast_zmod_val, one_mul]
  · refine ⟨-1, Or.inr rfl, fun a => ?_⟩
    rw [reflect_fold, ← fold_turn]
    congr 1
    have : fold k = 2 * n - 1 - k.val := if_neg h
    rw [this]
    push_cast
    rw [val_turn]
    ring

theorem sum_zmod {m : ℕ} [NeZero m] (g : ℕ → ℝ) : ∑ k : ZMod m, g k.val = ∑ i ∈ Finset.range m, g i := by
  refine Finset.sum_nbij' (fun k => k.val) (fun i => (i : ZMod m)) ?_ ?_ ?_ ?_ ?_
  · intro k _; exact Finset.mem_range.mpr (ZMod.val_lt k)
  · intro i _; exact Finset.mem_univ _
  · intro k _; exact ZMod.natCast_zmod_val k
  · intro i hi; rw [ZMod.val_natCast, Nat.mod_eq_of_lt (Finset.mem_range.mp hi)]
  · intro k _; rfl

theorem sum_fold (g : Fin n → ℝ) : ∑ k : ZMod (2 * n), g ⟨fold k, fold_lt k⟩ = 2 * ∑ i, g i := by
  have h0 := NeZero.pos n
  set G : ℕ → ℝ := fun i => if h : i < n then g ⟨i, h⟩ else 0 with hG
  have e : ∀ k : ZMod (2 * n), g ⟨fold k, fold_lt k⟩ = (fun m : ℕ => if m < n then G m else G (2 * n - 1 - m)) k.val := by
    intro k
    dsimp only
    have : (if k.val < n then G k.val else G (2 * n - 1 - k.val)) = G (fold k) := by unfold fold; split_ifs <;> rfl
    rw [this, hG]
    dsimp only
    rw [dif_pos (fold_lt k)]
  have hs : ∑ i, g i = ∑ i ∈ Finset.range n, G i := by
    rw [Finset.sum_range]
    refine Finset.sum_congr rfl fun i _ => ?_
    rw [hG]; dsimp only; rw [dif_pos i.isLt]
  rw [Finset.sum_congr rfl fun k _ => e k, sum_zmod fun m : ℕ => if m < n then G m else G (2 * n - 1 - m), hs, two_mul n, Finset.sum_range_add, two_mul]
  congr 1
  · refine Finset.sum_congr rfl fun i hi => if_pos (Finset.mem_range.mp hi)
  · rw [← Finset.sum_range_reflect]
    refine Finset.sum_congr rfl fun i hi => ?_
    have := Finset.mem_range.mp hi
    rw [if_neg (by omega)]
    congr 1
    omega

end

section
variable {ny nx : ℕ} [NeZero ny] [NeZero nx]

/-- The surface continued by reflection. -/
def ext (d : Fin ny × Fin nx → ℝ) (k : ZMod (2 * ny) × ZMod (2 * nx)) : ℝ := d (⟨fold k.1, fold_lt k.1⟩, ⟨fold k.2, fold_lt k.2⟩)

theorem rms_norm {ι : Type} [Fintype ι] (d : ι → ℝ) : rms d = ‖(WithLp.toLp 2 d : EuclideanSpace ℝ ι)‖ := by
  unfold rms
  rw [EuclideanSpace.norm_eq]
  simp

theorem rms_ext (d : Fin ny × Fin nx → ℝ) : rms (ext d) = 2 * rms d := by
  unfold rms
  have : ∑ k, ext d k ^ 2 = 2 ^ 2 * ∑ p, d p ^ 2 := by
    rw [Fintype.sum_prod_type, Fintype.sum_prod_type]
    have h1 : ∀ k : ZMod (2 * ny), ∑ l : ZMod (2 * nx), ext d (k, l) ^ 2 = 2 * ∑ j, d (⟨fold k, fold_lt k⟩, j) ^ 2 := fun k =>
      sum_fold fun j => d (⟨fold k, fold_lt k⟩, j) ^ 2
    rw [Finset.sum_congr rfl fun k _ => h1 k, ← Finset.mul_sum, sum_fold fun i => ∑ j, d (i, j) ^ 2]
    ring
  rw [this, Real.sqrt_mul (by norm_num), Real.sqrt_sq (by norm_num)]

theorem sum_sign (h : ℕ) (σ : ℤ) (hσ : σ = 1 ∨ σ = -1) (φ : ℤ → ℝ) : ∑ a ∈ Finset.Icc (-h : ℤ) h, φ (σ * a) = ∑ a ∈ Finset.Icc (-h : ℤ) h, φ a := by
  rcases hσ with rfl | rfl
  · simp
  · refine Finset.sum_nbij' (fun a => -a) (fun a => -a) ?_ ?_ ?_ ?_ ?_ <;> intro a ha
    · rw [Finset.mem_Icc] at *; omega
    · rw [Finset.mem_Icc] at *; omega
    · simp
    · simp
    · simp

/-- Symmetric in rows and in columns. -/
def Symmetric (w : ℤ → ℤ → ℝ) : Prop := ∀ a b, w (-a) b = w a b ∧ w a (-b) = w a b

theorem ext_convolve (h : ℕ) (w : ℤ → ℤ → ℝ) (hw : Symmetric w) (d : Fin ny × Fin nx → ℝ) (k : ZMod (2 * ny) × ZMod (2 * nx)) :
    ext (convolve h w d) k = ∑ a ∈ Finset.Icc (-h : ℤ) h, ∑ b ∈ Finset.Icc (-h : ℤ) h, w a b * ext d (k.1 - (a : ZMod (2 * ny)), k.2 - (b : ZMod (2 * nx))) := by
  obtain ⟨σ, hσ, e1⟩ := fold_step k.1
  obtain ⟨τ, hτ, e2⟩ := fold_step k.2
  have hwσ : ∀ a b, w a b = w (σ * a) (τ * b) := by
    intro a b
    rcases hσ with rfl | rfl <;> rcases hτ with rfl | rfl <;> simp [(hw _ _).1, (hw _ _).2]
  have : ∀ a b : ℤ, ext d (k.1 - ((σ * a : ℤ) : ZMod (2 * ny)), k.2 - ((τ * b : ℤ) : ZMod (2 * nx))) =
      d (⟨reflect ny ((fold k.1 : ℤ) - a), reflect_lt (NeZero.pos ny) _⟩, ⟨reflect nx ((fold k.2 : ℤ) - b), reflect_lt (NeZero.pos nx) _⟩) := by
    intro a b
    unfold ext
    congr 1
    refine Prod.ext (Fin.ext ?_) (Fin.ext ?_)
    · exact (e1 a).symm
    · exact (e2 b).symm
  refine Eq.trans ?_ (sum_sign h σ hσ fun a => ∑ b ∈ Finset.Icc (-h : ℤ) h, w a b * ext d (k.1 - (a : ZMod (2 * ny)), k.2 - (b : ZMod (2 * nx))))
  change convolve h w d _ = _
  unfold convolve
  refine Finset.sum_congr rfl fun a _ => ?_
  refine Eq.trans ?_ (sum_sign h τ hτ fun b => w (σ * a) b * ext d (k.1 - ((σ * a : ℤ) : ZMod (2 * ny)), k.2 - (b : ZMod (2 * nx))))
  refine Finset.sum_congr rfl fun b _ => ?_
  rw [hwσ a b]
  congr 1
  exact (this a b).symm

/-- What a kernel does to an actuator's own surface and to the others: `|1 - w 0 0|` plus the absolute values of all other entries. -/
noncomputable def deviation (h : ℕ) (w : ℤ → ℤ → ℝ) : ℝ :=
  ∑ a ∈ Finset.Icc (-h : ℤ) h, ∑ b ∈ Finset.Icc (-h : ℤ) h, if a = 0 ∧ b = 0 then |1 - w 0 0| else |w a b|

theorem rms_sum_le {ι κ : Type} [Fintype ι] (s : Finset κ) (G : κ → ι → ℝ) : rms (fun i => ∑ t ∈ s, G t i) ≤ ∑ t ∈ s, rms (G t) := by
  rw [rms_norm]
  have : (WithLp.toLp 2 (fun i => ∑ t ∈ s, G t i) : EuclideanSpace ℝ ι) = ∑ t ∈ s, (WithLp.toLp 2 (G t) : EuclideanSpace ℝ ι) := by
    ext i
    simp
  rw [this]
  refine (norm_sum_le _ _).trans (le_of_eq (Finset.sum_congr rfl fun t _ => (rms_norm _).symm))

theorem rms_smul {ι : Type} [Fintype ι] (c : ℝ) (d : ι → ℝ) : rms (fun i => c * d i) = |c| * rms d := by
  unfold rms
  have : ∑ i, (c * d i) ^ 2 = c ^ 2 * ∑ i, d i ^ 2 := by rw [Finset.mul_sum]; exact Finset.sum_congr rfl fun i _ => by ring
  rw [this, Real.sqrt_mul (sq_nonneg c), Real.sqrt_sq_eq_abs]

theorem rms_shift {m k : ℕ} [NeZero m] [NeZero k] (G : ZMod m × ZMod k → ℝ) (u : ZMod m) (v : ZMod k) : rms (fun p : ZMod m × ZMod k => G (p.1 - u, p.2 - v)) = rms G := by
  unfold rms
  congr 1
  exact Fintype.sum_equiv ((Equiv.subRight u).prodCongr (Equiv.subRight v)) _ _ fun p => rfl

/-- **C64.** A symmetric kernel leaves over at most its deviation times the surface (rms), with the reflecting edges the code uses: all sizes of DM and kernel. -/
theorem C64_left_over (h : ℕ) (w : ℤ → ℤ → ℝ) (hw : Symmetric w) (d : Fin ny × Fin nx → ℝ) : rms (d - convolve h w d) ≤ deviation h w * rms d := by
  set v : ℤ → ℤ → ℝ := fun a b => (if a = 0 ∧ b = 0 then 1 else 0) - w a b with hv
  have hmem : (0 : ℤ) ∈ Finset.Icc (-h : ℤ) h := by simp
  have e : ∀ k, ext (d - convolve h w d) k = ∑ a ∈ Finset.Icc (-h : ℤ) h, ∑ b ∈ Finset.Icc (-h : ℤ) h, v a b * ext d (k.1 - (a : ZMod (2 * ny)), k.2 - (b : ZMod (2 * nx))) := by
    intro k
    have h1 : ext (d - convolve h w d) k = ext d k - ext (convolve h w d) k := rfl
    have h2 : ext d k = ∑ a ∈ Finset.Icc (-h : ℤ) h, ∑ b ∈ Finset.Icc (-h : ℤ) h, (if a = 0 ∧ b = 0 then 1 else 0) * ext d (k.1 - (a : ZMod (2 * ny)), k.2 - (b : ZMod (2 * nx))) := by
      rw [Finset.sum_eq_single_of_mem 0 hmem, Finset.sum_eq_single_of_mem 0 hmem]
      · simp
      · intro b _ hb; simp [hb]
      · intro a _ ha; simp [ha]
    rw [h1, h2, ext_convolve h w hw, ← Finset.sum_sub_distrib]
    refine Finset.sum_congr rfl fun a _ => ?_
    rw [← Finset.sum_sub_distrib]
    refine Finset.sum_congr rfl fun b _ => ?_
    rw [hv]; ring
  have hdev : ∑ a ∈ Finset.Icc (-h : ℤ) h, ∑ b ∈ Finset.Icc (-h : ℤ) h, |v a b| = deviation h w := by
    unfold deviation
    refine Finset.sum_congr rfl fun a _ => Finset.sum_congr rfl fun b _ => ?_
    rw [hv]
    dsimp only
    by_cases h : a = 0 ∧ b = 0
    · rw [if_pos h, if_pos h, h.1, h.2]
    · rw [if_neg h, if_neg h, zero_sub, abs_neg]
  have key : rms (ext (d - convolve h w d)) ≤ deviation h w * rms (ext d) := by
    have : ext (d - convolve h w d) = fun k => ∑ a ∈ Finset.Icc (-h : ℤ) h, ∑ b ∈ Finset.Icc (-h : ℤ) h, v a b * ext d (k.1 - (a : ZMod (2 * ny)), k.2 - (b : ZMod (2 * nx))) := funext e
    rw [this, ← hdev, Finset.sum_mul]
    refine (rms_sum_le _ fun (a : ℤ) (k : ZMod (2 * ny) × ZMod (2 * nx)) => ∑ b ∈ Finset.Icc (-h : ℤ) h, v a b * ext d (k.1 - (a : ZMod (2 * ny)), k.2 - (b : ZMod (2 * nx)))).trans ?_
    refine Finset.sum_le_sum fun a _ => ?_
    rw [Finset.sum_mul]
    refine (rms_sum_le _ fun (b : ℤ) (k : ZMod (2 * ny) × ZMod (2 * nx)) => v a b * ext d (k.1 - (a : ZMod (2 * ny)), k.2 - (b : ZMod (2 * nx)))).trans ?_
    refine Finset.sum_le_sum fun b _ => le_of_eq ?_
    rw [rms_smul, rms_shift]
  rw [rms_ext, rms_ext] at key
  linarith

/-- **C64.** `prop_fit_dm` with a symmetric kernel whose deviation is at most 0.99: the fit ends with the surface asked for at every actuator, to better than 1e-15, for every
surface (residual below 990,000 m rms) and every size of DM and kernel. -/
theorem C64_symmetric_kernel (h : ℕ) (w : ℤ → ℤ → ℝ) (hw : Symmetric w) (hd : deviation h w ≤ 0.99) (z : Fin ny × Fin nx → ℝ) (h0 : rms (z - convolve h w z) < 990000)
    (fuel : ℕ) (r : (Fin ny × Fin nx → ℝ) × (Fin ny × Fin nx → ℝ)) (hr : propFitDm (convolve h w) z fuel = some r) :
    (∀ p, |z p - convolve h w r.1 p| < 1e-15) ∧ r.2 = convolve h w r.1 := by
  refine C64_converges (convolve h w) ?_ ?_ z h0 fuel r hr
  · intro u v
    funext p
    unfold convolve
    rw [Pi.add_apply, ← Finset.sum_add_distrib]
    refine Finset.sum_congr rfl fun a _ => ?_
    rw [← Finset.sum_add_distrib]
    refine Finset.sum_congr rfl fun b _ => ?_
    rw [Pi.add_apply]; ring
  · intro d
    refine (C64_left_over h w hw d).trans ?_
    exact mul_le_mul_of_nonneg_right hd (Real.sqrt_nonneg _)

end

/-- **C133.** The kernel of the fit holds the influence function at the positions of the neighbouring actuators, for every interpolation that is exact at the pixels. -/
theorem C133_kernel (interpZ : (ℤ → ℤ → ℝ) → ℝ → ℝ → ℝ) (hI : ∀ (A : ℤ → ℤ → ℝ) (x y : ℤ), interpZ A x y = A y x) {F : Inf} {spacing : ℝ} {o : Opts} (h : Good F spacing o) (s : ℝ) (a b : ℤ) :
    kernel interpZ F s spacing a b = s * F.inf ((F.ny / 2 : ℕ) + a * F.mag) ((F.nx / 2 : ℕ) + b * F.mag) := by
  have hm : (F.mag : ℝ) ≠ 0 := by have := h.mag; positivity
  have hp := h.pix
  have hs := h.spacing
  have e : ∀ (k : ℤ) (c : ℕ), (k : ℝ) * spacing / (F.pix * spacing / F.pitch) + (c : ℝ) = (((c : ℤ) + k * F.mag : ℤ) : ℝ) := by
    intro k c
    rw [h.whole]; push_cast; field_simp; ring
  unfold kernel
  dsimp only
  rw [e, e, hI]

/-- **C133.** `FIT`: the map returned, and what is done to the wavefront, are those of commands that make the surface asked for at every actuator to better than 1e-15
(with the reflecting edges of the convolution), if the kernel is symmetric and its deviation is at most 0.99. -/
theorem C133_fit (f : Fn) (cubic : Bool) (interp : (ℕ → ℕ → ℝ) → ℝ → ℝ → ℝ) (interpZ : (ℤ → ℤ → ℝ) → ℝ → ℝ → ℝ) (F : Inf) {n : ℕ} (w : WF n)
    {ny nx : ℕ} [NeZero ny] [NeZero nx] (z : Fin ny × Fin nx → ℝ) (xc yc spacing : ℝ) (o : Opts) (h : Good F spacing o)
    (hsym : Symmetric (kernel interpZ F 1 spacing)) (hdev : deviation 2 (kernel interpZ F 1 spacing) ≤ 0.99) (h0 : rms (z - convolve 2 (kernel interpZ F 1 spacing) z) < 990000) :
    ∃ cmd, dm f cubic interp interpZ F w z xc yc spacing { o with fit := some true } = dm f cubic interp interpZ F w cmd xc yc spacing o ∧
      ∀ p, |z p - convolve 2 (kernel interpZ F 1 spacing) cmd p| < 1e-15 := by
  refine ⟨fitted (convolve 2 (kernel interpZ F 1 spacing)) z, ?_, ?_⟩
  · have hsp : spacingOf spacing (Masks.beamradius w) o.nAct = .ok spacing := by unfold spacingOf; rw [h.noAct]; exact if_neg h.spacing
    have hfit : flag f o.fit = false := by rw [h.noFit]; cases f <;> rfl
    have hfit' : flag f (some true) = true := by cases f <;> rfl
    have e1 : order f { o with fit := some true } = order f o := rfl
    have e2 : PropDm.sign f { o with fit := some true } = PropDm.sign f o := rfl
    unfold dm dmap
    rw [e1, e2, order_good f h, sign_good f h.sign, check_good f h]
    simp only [Except.bind, hsp, hfit, hfit', Bool.false_eq_true, if_false, if_true]
  · have hex : ∃ fuel r, propFitDm (convolve 2 (kernel interpZ F 1 spacing)) z fuel = some r := by
      obtain ⟨N, hN⟩ := C64_terminates
      exact ⟨N, hN _ _ z⟩
    unfold fitted
    rw [dif_pos hex]
    exact (C64_symmetric_kernel 2 _ hsym hdev z h0 _ _ (Classical.choose_spec (Classical.choose_spec hex))).1

/-- Non-vacuity of C64: a kernel with 1 in the middle and 0.15 at the four neighbours has deviation 0.6. -/
noncomputable def cross (a b : ℤ) : ℝ := if a = 0 ∧ b = 0 then 1 else if |a| + |b| = 1 then 0.15 else 0

example : Symmetric cross ∧ deviation 2 cross ≤ 0.99 := by
  refine ⟨fun a b => ?_, ?_⟩
  · unfold cross; simp
  · have : Finset.Icc (-(2 : ℕ) : ℤ) (2 : ℕ) = {-2, -1, 0, 1, 2} := by decide
    unfold deviation
    rw [this]
    norm_num [cross]

end Verif.PropDm
