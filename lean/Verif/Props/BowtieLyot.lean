import Verif.Model.BowtieLyot
import Mathlib.Analysis.SpecialFunctions.Trigonometric.Basic
import Mathlib.Analysis.Convex.Combination

/-!
# C151: the bowtie Lyot stop
-/

namespace Verif.BowtieLyot
open Verif Verif.Masks Complex

/-! ## Specification -/

/-- The stop at rest: an annulus with the diameters `id` and `od`, of which two wedges are left open, upwards and downwards, each of them `ang` degrees wide (all of it, from 180 degrees on). -/
def Open (id od ang : ℝ) (w : ℂ) : Prop :=
  id / 2 < ‖w‖ ∧ ‖w‖ ≤ od / 2 ∧
    (ang < 180 → |w.re| * Real.cos (ang / 2 * (Real.pi / 180)) < |w.im| * Real.sin (ang / 2 * (Real.pi / 180)))

/-- The place `w` of the stop at rest after magnification, clocking (anticlockwise, in degrees) and shear. -/
noncomputable def moved (shear : ℂ) (mag clock : ℝ) (w : ℂ) : ℂ := shear + mag * exp (clock * (Real.pi / 180) * I) * w

/-- The coordinates of the pixel in row `i` and column `j` of an array of `n × n` pixels, in pupil diameters: zero is at pixel `n/2`, or at the corner between the four middle pixels. -/
noncomputable def coord (interpixel : Bool) (n : ℤ) (nbeam : ℝ) (i j : ℤ) : ℂ :=
  if interpixel then ⟨(j - (n - 1) / 2) / nbeam, (i - (n - 1) / 2) / nbeam⟩ else ⟨(j - n / 2) / nbeam, (i - n / 2) / nbeam⟩

/-! ## The wedges -/

theorem wedge_min (L c s side : ℝ) (hs : 0 ≤ s) (hc : 0 ≤ c) (hL : 0 ≤ L) (h1 : c ≤ 1) (hside : side * side = 1) (w : ℂ)
    (hw : w ∈ convexHull ℝ {z : ℂ | z ∈ ([⟨side * 0, 0⟩, ⟨side * (L * c), L * s⟩, ⟨side * L, L * s⟩, ⟨side * L, -L * s⟩,
      ⟨side * (L * c), -L * s⟩, ⟨side * 0, 0⟩] : List ℂ)}) : |w.im| * c ≤ side * w.re * s := by
  have hconv : Convex ℝ {z : ℂ | z.im * c ≤ side * z.re * s ∧ -z.im * c ≤ side * z.re * s} := by
    intro x hx y hy a b ha hb hab
    simp only [Set.mem_ofPred_eq, add_re, add_im, real_smul, mul_re, mul_im, ofReal_re, ofReal_im, zero_mul, sub_zero, add_zero] at hx hy ⊢
    constructor
    · nlinarith [mul_le_mul_of_nonneg_left hx.1 ha, mul_le_mul_of_nonneg_left hy.1 hb]
    · nlinarith [mul_le_mul_of_nonneg_left hx.2 ha, mul_le_mul_of_nonneg_left hy.2 hb]
  have hsub : {z : ℂ | z ∈ ([⟨side * 0, 0⟩, ⟨side * (L * c), L * s⟩, ⟨side * L, L * s⟩, ⟨side * L, -L * s⟩,
      ⟨side * (L * c), -L * s⟩, ⟨side * 0, 0⟩] : List ℂ)} ⊆ {z : ℂ | z.im * c ≤ side * z.re * s ∧ -z.im * c ≤ side * z.re * s} := by
    have e1 : ∀ x, side * (side * x) = x := fun x => by rw [← mul_assoc, hside, one_mul]
    have p1 : 0 ≤ L * s * c := by positivity
    have p2 : L * s * c ≤ L * s := by
      have : 0 ≤ L * s := by positivity
      nlinarith
    intro z hz
    simp only [Set.mem_ofPred_eq, List.mem_cons, List.not_mem_nil, or_false] at hz ⊢
    rcases hz with rfl | rfl | rfl | rfl | rfl | rfl <;> simp only [e1] <;> constructor <;> nlinarith
  have := convexHull_min hsub hconv hw
  simp only [Set.mem_ofPred_eq] at this
  rcases abs_cases w.im with ⟨h, _⟩ | ⟨h, _⟩ <;> rw [h] <;> linarith [this.1, this.2]

theorem wedge_max (L r c s side : ℝ) (hs : 0 < s) (hc : 0 ≤ c) (hcs : c ^ 2 + s ^ 2 = 1) (hL : r ≤ L) (hside : side = 1 ∨ side = -1) (w : ℂ)
    (hr : ‖w‖ ≤ r) (hw : |w.im| * c ≤ side * w.re * s) :
    w ∈ convexHull ℝ {z : ℂ | z ∈ ([⟨side * 0, 0⟩, ⟨side * (L * c), L * s⟩, ⟨side * L, L * s⟩, ⟨side * L, -L * s⟩,
      ⟨side * (L * c), -L * s⟩, ⟨side * 0, 0⟩] : List ℂ)} := by
  set V : Set ℂ := {z : ℂ | z ∈ ([⟨side * 0, 0⟩, ⟨side * (L * c), L * s⟩, ⟨side * L, L * s⟩, ⟨side * L, -L * s⟩,
      ⟨side * (L * c), -L * s⟩, ⟨side * 0, 0⟩] : List ℂ)} with hV
  have hss : side * side = 1 := by rcases hside with h | h <;> rw [h] <;> norm_num
  have hv : ∀ z ∈ ([⟨side * 0, 0⟩, ⟨side * (L * c), L * s⟩, ⟨side * L, L * s⟩, ⟨side * L, -L * s⟩,
      ⟨side * (L * c), -L * s⟩, ⟨side * 0, 0⟩] : List ℂ), z ∈ convexHull ℝ V := fun z hz => subset_convexHull ℝ V hz
  have hconv := convex_convexHull ℝ V
  have seg : ∀ x y : ℂ, x ∈ convexHull ℝ V → y ∈ convexHull ℝ V → ∀ t : ℝ, 0 ≤ t → t ≤ 1 →
      (⟨(1 - t) * x.re + t * y.re, (1 - t) * x.im + t * y.im⟩ : ℂ) ∈ convexHull ℝ V := by
    intro x y hx hy t h0 h1
    have := hconv hx hy (sub_nonneg.2 h1) h0 (by ring)
    convert this using 1
    apply Complex.ext <;> simp
  have hsq : w.re ^ 2 + w.im ^ 2 = ‖w‖ ^ 2 := by
    rw [Complex.sq_norm, Complex.normSq_apply]; ring
  have hr0 : 0 ≤ r := le_trans (norm_nonneg _) hr
  rcases eq_or_lt_of_le (le_trans hr0 hL) with hL0 | hL0
  · have hw0 : w = 0 := norm_le_zero_iff.1 (by linarith)
    rw [hw0]
    convert hv ⟨side * 0, 0⟩ (by simp) using 1
    apply Complex.ext <;> simp
  -- the place is not higher than the wedge at the circle
  have him : |w.im| ≤ L * s := by
    have h1 : |w.im| * c ≤ |w.re| * s := by
      refine le_trans hw ?_
      refine mul_le_mul_of_nonneg_right ?_ hs.le
      rcases hside with h | h <;> rw [h]
      · rw [one_mul]; exact le_abs_self _
      · rw [neg_one_mul]; exact neg_le_abs _
    have h2 : w.im ^ 2 ≤ (L * s) ^ 2 := by
      have h3 : w.im ^ 2 * c ^ 2 ≤ w.re ^ 2 * s ^ 2 := by
        have := pow_le_pow_left₀ (by positivity) h1 2
        rw [mul_pow, mul_pow, sq_abs, sq_abs] at this
        exact this
      have h4 : ‖w‖ ^ 2 ≤ L ^ 2 := pow_le_pow_left₀ (norm_nonneg _) (le_trans hr hL) 2
      have h5 : w.im ^ 2 = w.im ^ 2 * c ^ 2 + w.im ^ 2 * s ^ 2 := by rw [← mul_add, hcs, mul_one]
      have h6 : (w.re ^ 2 + w.im ^ 2) * s ^ 2 ≤ L ^ 2 * s ^ 2 := by
        rw [hsq]; exact mul_le_mul_of_nonneg_right h4 (by positivity)
      nlinarith
    exact abs_le_of_sq_le_sq h2 (by positivity)
  have hre : side * w.re ≤ L := by
    have : |w.re| ≤ ‖w‖ := Complex.abs_re_le_norm w
    have h : side * w.re ≤ |w.re| := by
      rcases hside with h | h <;> rw [h]
      · rw [one_mul]; exact le_abs_self _
      · rw [neg_one_mul]; exact neg_le_abs _
    linarith
  have hx0 : |w.im| * c / s ≤ side * w.re := by rw [div_le_iff₀ hs]; exact hw
  -- on the edge of the wedge, at the height of the place
  have hu : (⟨side * (|w.im| * c / s), w.im⟩ : ℂ) ∈ convexHull ℝ V := by
    have ht0 : 0 ≤ |w.im| / (L * s) := by positivity
    have ht1 : |w.im| / (L * s) ≤ 1 := (div_le_one (by positivity)).2 him
    rcases abs_cases w.im with ⟨h, h0⟩ | ⟨h, h0⟩
    · have := seg _ _ (hv ⟨side * 0, 0⟩ (by simp)) (hv ⟨side * (L * c), L * s⟩ (by simp)) _ ht0 ht1
      convert this using 1
      rw [h]
      apply Complex.ext <;> simp <;> field_simp
    · have := seg _ _ (hv ⟨side * 0, 0⟩ (by simp)) (hv ⟨side * (L * c), -L * s⟩ (by simp)) _ ht0 ht1
      convert this using 1
      rw [h]
      apply Complex.ext <;> simp <;> field_simp
  -- on the far side, at the height of the place
  have hf : (⟨side * L, w.im⟩ : ℂ) ∈ convexHull ℝ V := by
    have hi := abs_le.1 him
    have hp : 0 < L * s := by positivity
    have := seg _ _ (hv ⟨side * L, -L * s⟩ (by simp)) (hv ⟨side * L, L * s⟩ (by simp)) ((w.im + L * s) / (2 * (L * s)))
      (div_nonneg (by linarith) (by linarith)) ((div_le_one (by linarith)).2 (by linarith))
    convert this using 1
    apply Complex.ext
    · simp; ring
    · simp; field_simp; ring
  rcases eq_or_lt_of_le (le_trans hx0 hre) with h | h
  · have : (⟨side * L, w.im⟩ : ℂ) = w := by
      apply Complex.ext
      · have : side * w.re = L := le_antisymm hre (by rw [← h]; exact hx0)
        simp only
        rw [← this, ← mul_assoc, hss, one_mul]
      · rfl
    rw [← this]; exact hf
  · have hd : 0 < L - |w.im| * c / s := sub_pos.2 h
    have := seg _ _ hu hf ((side * w.re - |w.im| * c / s) / (L - |w.im| * c / s)) (div_nonneg (by linarith) hd.le)
      ((div_le_one hd).2 (by linarith))
    convert this using 1
    apply Complex.ext
    · simp only
      have e : ∀ x0 t : ℝ, (1 - t) * (side * x0) + t * (side * L) = side * (x0 + t * (L - x0)) := fun x0 t => by ring
      rw [e, div_mul_cancel₀ _ hd.ne', add_sub_cancel, ← mul_assoc, hss, one_mul]
    · simp only; ring

/-! ## The stop -/

/-- The exponential of the clocking. -/
noncomputable def rot (clock : ℝ) : ℂ := exp (clock * (Real.pi / 180) * I)

theorem rot_eq (clock : ℝ) : rot clock = ⟨Real.cos (clock * Real.pi / 180), Real.sin (clock * Real.pi / 180)⟩ := by
  have : (clock : ℂ) * (Real.pi / 180) * I = ((clock * Real.pi / 180 : ℝ) : ℂ) * I := by push_cast; ring
  unfold rot
  rw [this]
  apply Complex.ext
  · rw [exp_ofReal_mul_I_re]
  · rw [exp_ofReal_mul_I_im]

theorem rot_norm (clock : ℝ) : ‖rot clock‖ = 1 := by
  have : (clock : ℂ) * (Real.pi / 180) * I = ((clock * Real.pi / 180 : ℝ) : ℂ) * I := by push_cast; ring
  unfold rot
  rw [this, norm_exp_ofReal_mul_I]

theorem rot_ne (clock : ℝ) : rot clock ≠ 0 := by
  intro h
  have := rot_norm clock
  rw [h, norm_zero] at this
  norm_num at this

theorem turned_eq (clock : ℝ) (v : ℂ) : turned (-clock) v = rot clock * v := by
  rw [rot_eq]
  unfold turned cosd sind
  have h1 : -clock * Real.pi / 180 = -(clock * Real.pi / 180) := by ring
  rw [h1, Real.cos_neg, Real.sin_neg]
  apply Complex.ext
  · simp; ring
  · simp; ring

/-- The hull of turned and shifted vertices. -/
theorem hull_moved (centre e : ℂ) (he : e ≠ 0) (l : List ℂ) (w : ℂ) :
    centre + e * w ∈ convexHull ℝ {z : ℂ | z ∈ l.map fun v => centre + e * v} ↔ w ∈ convexHull ℝ {z : ℂ | z ∈ l} := by
  let f : ℂ →ᵃ[ℝ] ℂ := AffineMap.const ℝ ℂ centre + (LinearMap.mulLeft ℝ e).toAffineMap
  have hf : ∀ z, f z = centre + e * z := fun z => by simp [f]
  have himg : {z : ℂ | z ∈ l.map fun v => centre + e * v} = f '' {z : ℂ | z ∈ l} := by
    ext z
    simp only [Set.mem_ofPred_eq, List.mem_map, Set.mem_image, hf]
  rw [himg, ← AffineMap.image_convexHull]
  constructor
  · rintro ⟨x, hx, h⟩
    rw [hf] at h
    have := mul_left_cancel₀ he (add_left_cancel h)
    rwa [← this]
  · intro h
    exact ⟨w, h, hf w⟩

/-- The arguments that the function gets. -/
structure Given (inp : Inputs) (nbeam id od ang : ℝ) : Prop where
  nbeam : inp.nbeam = some nbeam
  ID : inp.ID = some id
  OD : inp.OD = some od
  ang : inp.ang = some ang

theorem stop_ok {inp : Inputs} {s : Stop} (h : stop inp = .ok s) : ∃ nbeam id od ang, Given inp nbeam id od ang ∧ nbeam ≠ 0 ∧
    (inp.centering.getD "pixel" = "pixel" ∨ inp.centering.getD "pixel" = "interpixel") := by
  unfold stop at h
  cases h1 : inp.nbeam with
  | none => rw [h1] at h; cases h
  | some nbeam =>
  cases h2 : inp.ID with
  | none => rw [h1, h2] at h; cases h
  | some id =>
  cases h3 : inp.OD with
  | none => rw [h1, h2, h3] at h; cases h
  | some od =>
  cases h4 : inp.ang with
  | none => rw [h1, h2, h3, h4] at h; cases h
  | some ang =>
  rw [h1, h2, h3, h4] at h
  simp only [get, Except.bind] at h
  by_cases h0 : nbeam = 0
  · rw [if_pos h0] at h; cases h
  rw [if_neg h0] at h
  refine ⟨nbeam, id, od, ang, ⟨h1, h2, h3, h4⟩, h0, ?_⟩
  unfold size at h
  by_cases c1 : inp.centering.getD "pixel" = "pixel"
  · exact Or.inl c1
  · by_cases c2 : inp.centering.getD "pixel" = "interpixel"
    · exact Or.inr c2
    · rw [if_neg c1, if_neg c2] at h
      cases h

/-- What is drawn for given arguments. -/
theorem stop_parts {inp : Inputs} {s : Stop} {nbeam id od ang : ℝ} (hg : Given inp nbeam id od ang) (h : stop inp = .ok s) :
    size (inp.centering.getD "pixel") nbeam (inp.magfac.getD 1) ⟨inp.xShear.getD 0, inp.yShear.getD 0⟩ = .ok s.size ∧
    s.dx = 1 / nbeam ∧
    s.outer = ⟨1 * od / 2 * inp.magfac.getD 1, cshift (inp.centering.getD "pixel") (1 / nbeam) + ⟨inp.xShear.getD 0, inp.yShear.getD 0⟩⟩ ∧
    s.inner = ⟨1 * id / 2 * inp.magfac.getD 1, cshift (inp.centering.getD "pixel") (1 / nbeam) + ⟨inp.xShear.getD 0, inp.yShear.getD 0⟩⟩ ∧
    s.polygons = if ang < 180 then
        [(vertices (1.1 * (1 * od / 2 * inp.magfac.getD 1)) (90 - ang / 2) 1).map fun v =>
          cshift (inp.centering.getD "pixel") (1 / nbeam) + ⟨inp.xShear.getD 0, inp.yShear.getD 0⟩ + rot (inp.clocking.getD 0) * v,
         (vertices (1.1 * (1 * od / 2 * inp.magfac.getD 1)) (90 - ang / 2) (-1)).map fun v =>
          cshift (inp.centering.getD "pixel") (1 / nbeam) + ⟨inp.xShear.getD 0, inp.yShear.getD 0⟩ + rot (inp.clocking.getD 0) * v]
      else [] := by
  have hcl : (inp.clocking.map fun c => -c).getD 0 = -(inp.clocking.getD 0) := by
    cases inp.clocking with
    | none => simp
    | some c => rfl
  unfold stop at h
  rw [hg.nbeam, hg.ID, hg.OD, hg.ang] at h
  simp only [get, Except.bind] at h
  by_cases h0 : nbeam = 0
  · rw [if_pos h0] at h; cases h
  rw [if_neg h0, hcl] at h
  simp only [turned_eq] at h
  cases hs : size (inp.centering.getD "pixel") nbeam (inp.magfac.getD 1) ⟨inp.xShear.getD 0, inp.yShear.getD 0⟩ with
  | error e => rw [hs] at h; cases h
  | ok n =>
    rw [hs] at h
    have := Except.ok.inj h
    subst this
    exact ⟨rfl, rfl, rfl, rfl, rfl⟩

/-- The stop is the annulus with its two open wedges, moved as one body: for all diameters, opening angles that are not negative, positive magnifications, shears and clockings, and both
centerings, a place of the beam is clear exactly if it is a moved place of the stop at rest. -/
theorem C151_region (inp : Inputs) (s : Stop) (nbeam id od ang : ℝ) (hg : Given inp nbeam id od ang) (h : stop inp = .ok s)
    (ha : 0 ≤ ang) (hm : 0 < inp.magfac.getD 1) (w : ℂ) :
    s.clear (cshift (inp.centering.getD "pixel") (1 / nbeam) +
        moved ⟨inp.xShear.getD 0, inp.yShear.getD 0⟩ (inp.magfac.getD 1) (inp.clocking.getD 0) w) ↔ Open id od ang w := by
  obtain ⟨_, _, ho, hi, hp⟩ := stop_parts hg h
  obtain ⟨cs, hcs⟩ : ∃ cs, cs = cshift (inp.centering.getD "pixel") (1 / nbeam) := ⟨_, rfl⟩
  obtain ⟨sh, hsh⟩ : ∃ sh : ℂ, sh = ⟨inp.xShear.getD 0, inp.yShear.getD 0⟩ := ⟨_, rfl⟩
  obtain ⟨mag, hmag⟩ : ∃ mag, mag = inp.magfac.getD 1 := ⟨_, rfl⟩
  rw [← hcs, ← hsh, ← hmag] at ho hi hp ⊢
  rw [← hmag] at hm
  obtain ⟨e, he⟩ : ∃ e, e = rot (inp.clocking.getD 0) := ⟨_, rfl⟩
  have hen : ‖e‖ = 1 := by rw [he, rot_norm]
  have he0 : e ≠ 0 := by rw [he]; exact rot_ne _
  have hq : cs + moved sh mag (inp.clocking.getD 0) w = (cs + sh) + e * (mag * w) := by
    rw [he]
    unfold moved rot
    ring
  rw [hq]
  rw [← he] at hp
  have hnorm : ‖(mag : ℂ) * w‖ = mag * ‖w‖ := by
    rw [norm_mul, Complex.norm_real, Real.norm_eq_abs, abs_of_pos hm]
  have hdisc : ∀ r : ℝ, (Disc.mk (1 * r / 2 * mag) (cs + sh)).has ((cs + sh) + e * (mag * w)) ↔ ‖w‖ ≤ r / 2 := by
    intro r
    unfold Disc.has
    simp only
    rw [add_sub_cancel_left, norm_mul, hen, one_mul, hnorm]
    constructor
    · intro h
      have : mag * ‖w‖ ≤ mag * (r / 2) := by linarith
      exact le_of_mul_le_mul_left this hm
    · intro h
      have := mul_le_mul_of_nonneg_left h hm.le
      linarith
  unfold Stop.clear Open
  rw [ho, hi, hp, hdisc, hdisc, not_le]
  by_cases h180 : ang < 180
  · rw [if_pos h180]
    simp only [List.forall_mem_cons, List.not_mem_nil, false_implies, implies_true, and_true, h180, true_implies]
    rw [hull_moved _ e he0, hull_moved _ e he0]
    -- the angle
    have hpi := Real.pi_pos
    have hc1 : cosd (90 - ang / 2) = Real.sin (ang / 2 * (Real.pi / 180)) := by
      unfold cosd
      have : (90 - ang / 2) * Real.pi / 180 = Real.pi / 2 - ang / 2 * (Real.pi / 180) := by ring
      rw [this, Real.cos_pi_div_two_sub]
    have hs1 : sind (90 - ang / 2) = Real.cos (ang / 2 * (Real.pi / 180)) := by
      unfold sind
      have : (90 - ang / 2) * Real.pi / 180 = Real.pi / 2 - ang / 2 * (Real.pi / 180) := by ring
      rw [this, Real.sin_pi_div_two_sub]
    have hc : 0 ≤ Real.sin (ang / 2 * (Real.pi / 180)) := by
      refine Real.sin_nonneg_of_nonneg_of_le_pi (by positivity) ?_
      have : ang / 2 * (Real.pi / 180) ≤ 90 * (Real.pi / 180) := mul_le_mul_of_nonneg_right (by linarith) (by positivity)
      linarith
    have hs : 0 < Real.cos (ang / 2 * (Real.pi / 180)) := by
      refine Real.cos_pos_of_mem_Ioo ⟨?_, ?_⟩
      · have : 0 ≤ ang / 2 * (Real.pi / 180) := by positivity
        linarith
      · have : ang / 2 * (Real.pi / 180) < 90 * (Real.pi / 180) := mul_lt_mul_of_pos_right (by linarith) (by positivity)
        linarith
    have hcs2 : Real.sin (ang / 2 * (Real.pi / 180)) ^ 2 + Real.cos (ang / 2 * (Real.pi / 180)) ^ 2 = 1 := Real.sin_sq_add_cos_sq _
    unfold vertices
    rw [hc1, hs1]
    generalize Real.sin (ang / 2 * (Real.pi / 180)) = c at *
    generalize Real.cos (ang / 2 * (Real.pi / 180)) = sn at *
    have hre : ((mag : ℂ) * w).re = mag * w.re := by simp
    have him : ((mag : ℂ) * w).im = mag * w.im := by simp
    have him' : |((mag : ℂ) * w).im| = mag * |w.im| := by rw [him, abs_mul, abs_of_pos hm]
    have key : ‖w‖ ≤ od / 2 → ∀ side : ℝ, (side = 1 ∨ side = -1) →
        (((mag : ℂ) * w) ∉ convexHull ℝ {z : ℂ | z ∈ ([⟨side * 0, 0⟩, ⟨side * (1.1 * (1 * od / 2 * mag) * c), 1.1 * (1 * od / 2 * mag) * sn⟩,
          ⟨side * (1.1 * (1 * od / 2 * mag)), 1.1 * (1 * od / 2 * mag) * sn⟩, ⟨side * (1.1 * (1 * od / 2 * mag)), -(1.1 * (1 * od / 2 * mag)) * sn⟩,
          ⟨side * (1.1 * (1 * od / 2 * mag) * c), -(1.1 * (1 * od / 2 * mag)) * sn⟩, ⟨side * 0, 0⟩] : List ℂ)} ↔ side * w.re * sn < |w.im| * c) := by
      intro hw side hside
      have hss : side * side = 1 := by rcases hside with h | h <;> rw [h] <;> norm_num
      have hod : 0 ≤ 1 * od / 2 * mag := by
        have := le_trans (norm_nonneg w) hw
        have := mul_nonneg this hm.le
        linarith
      have hiff : |((mag : ℂ) * w).im| * c ≤ side * ((mag : ℂ) * w).re * sn ↔ |w.im| * c ≤ side * w.re * sn := by
        rw [him', hre]
        have e1 : mag * |w.im| * c = mag * (|w.im| * c) := by ring
        have e2 : side * (mag * w.re) * sn = mag * (side * w.re * sn) := by ring
        rw [e1, e2, mul_le_mul_iff_right₀ hm]
      rw [← not_le, ← hiff, not_iff_not]
      constructor
      · exact wedge_min _ c sn side hs.le hc (by linarith) (by nlinarith) hss _
      · refine wedge_max _ (1 * od / 2 * mag) c sn side hs hc hcs2 (by linarith) hside _ ?_
        rw [hnorm]
        have := mul_le_mul_of_nonneg_left hw hm.le
        linarith
    constructor
    · rintro ⟨h1, h2, h3, h4⟩
      refine ⟨h2, h1, ?_⟩
      have k1 := (key h1 1 (Or.inl rfl)).1 h3
      have k2 := (key h1 (-1) (Or.inr rfl)).1 h4
      rcases abs_cases w.re with ⟨hx, _⟩ | ⟨hx, _⟩ <;> rw [hx] <;> linarith
    · rintro ⟨h1, h2, h3⟩
      have hx := abs_le.1 (le_refl |w.re|)
      refine ⟨h2, h1, (key h2 1 (Or.inl rfl)).2 ?_, (key h2 (-1) (Or.inr rfl)).2 ?_⟩
      · nlinarith
      · nlinarith
  · rw [if_neg h180]
    simp only [List.not_mem_nil, false_implies, implies_true, and_true, h180]
    exact and_comm

/-! ## The pixels -/

theorem place_coord {inp : Inputs} {s : Stop} {nbeam id od ang : ℝ} (hg : Given inp nbeam id od ang) (h : stop inp = .ok s) (i j : ℤ) :
    s.place i j = cshift (inp.centering.getD "pixel") (1 / nbeam) +
      coord (inp.centering.getD "pixel" = "interpixel") s.size nbeam i j := by
  obtain ⟨_, hdx, _, _, _⟩ := stop_parts hg h
  unfold Stop.place cshift coord
  rw [hdx]
  by_cases hc : inp.centering.getD "pixel" = "interpixel"
  · rw [if_pos hc, if_pos (by simpa using hc)]
    apply Complex.ext <;> simp <;> ring
  · rw [if_neg hc, if_neg (by simpa using hc)]
    apply Complex.ext <;> simp <;> ring

/-- Every place is a moved place. -/
theorem moved_onto (shear : ℂ) (mag clock : ℝ) (hm : 0 < mag) (q : ℂ) : ∃ w, moved shear mag clock w = q := by
  refine ⟨(q - shear) / (mag * rot clock), ?_⟩
  have h1 : (mag : ℂ) ≠ 0 := by exact_mod_cast hm.ne'
  have h2 := rot_ne clock
  unfold moved
  change shear + mag * rot clock * _ = q
  field_simp
  ring

theorem moved_inj (shear : ℂ) (mag clock : ℝ) (hm : 0 < mag) {w w' : ℂ} (h : moved shear mag clock w = moved shear mag clock w') : w = w' := by
  have h1 : (mag : ℂ) ≠ 0 := by exact_mod_cast hm.ne'
  exact mul_left_cancel₀ (mul_ne_zero h1 (rot_ne clock)) (add_left_cancel h)

/-- A pixel is clear exactly if its centre is a moved place of the open part. -/
theorem C151_pixel (inp : Inputs) (s : Stop) (nbeam id od ang : ℝ) (hg : Given inp nbeam id od ang) (h : stop inp = .ok s)
    (ha : 0 ≤ ang) (hm : 0 < inp.magfac.getD 1) (i j : ℤ) :
    s.clear (s.place i j) ↔ ∃ w, Open id od ang w ∧ coord (inp.centering.getD "pixel" = "interpixel") s.size nbeam i j =
      moved ⟨inp.xShear.getD 0, inp.yShear.getD 0⟩ (inp.magfac.getD 1) (inp.clocking.getD 0) w := by
  obtain ⟨w, hw⟩ := moved_onto ⟨inp.xShear.getD 0, inp.yShear.getD 0⟩ (inp.magfac.getD 1) (inp.clocking.getD 0) hm
    (coord (inp.centering.getD "pixel" = "interpixel") s.size nbeam i j)
  have hr := C151_region inp s nbeam id od ang hg h ha hm w
  rw [place_coord hg h, ← hw, hr]
  constructor
  · intro ho
    exact ⟨w, ho, rfl⟩
  · rintro ⟨w', ho, he⟩
    rw [moved_inj _ _ _ hm he]
    exact ho

open Classical in
/-- The array that is returned: where the images of the discs and of the polygons are one in their clear part and zero in their dark part, the mask is one at the pixels
whose centre is a moved place of the open part, and zero at the others. -/
theorem C151_image (inp : Inputs) (s : Stop) (nbeam id od ang : ℝ) (hg : Given inp nbeam id od ang) (h : stop inp = .ok s)
    (ha : 0 ≤ ang) (hm : 0 < inp.magfac.getD 1) (disc : Disc → Bool → ℂ → ℝ) (poly : List ℂ → ℂ → ℝ) (i j : ℤ)
    (hd : ∀ d, disc d false (s.place i j) = (if ‖s.place i j - d.centre‖ ≤ d.radius then 1 else 0) ∧
      disc d true (s.place i j) = if ‖s.place i j - d.centre‖ ≤ d.radius then 0 else 1)
    (hp : ∀ v ∈ s.polygons, poly v (s.place i j) = if s.place i j ∈ convexHull ℝ {z | z ∈ v} then 0 else 1) :
    s.value disc poly i j = if ∃ w, Open id od ang w ∧ coord (inp.centering.getD "pixel" = "interpixel") s.size nbeam i j =
      moved ⟨inp.xShear.getD 0, inp.yShear.getD 0⟩ (inp.magfac.getD 1) (inp.clocking.getD 0) w then 1 else 0 := by
  rw [← C151_pixel inp s nbeam id od ang hg h ha hm i j]
  unfold Stop.value
  rw [(hd _).1, (hd _).2]
  have hprod : ∀ l : List (List ℂ), (∀ v ∈ l, poly v (s.place i j) = if s.place i j ∈ convexHull ℝ {z | z ∈ v} then 0 else 1) →
      (l.map fun v => poly v (s.place i j)).prod = if ∀ v ∈ l, s.place i j ∉ convexHull ℝ {z | z ∈ v} then 1 else 0 := by
    intro l
    induction l with
    | nil => intro _; simp
    | cons v l ih =>
      intro hl
      rw [List.map_cons, List.prod_cons, hl v (by simp), ih fun u hu => hl u (List.mem_cons_of_mem _ hu)]
      have hc := List.forall_mem_cons (p := fun u => s.place i j ∉ convexHull ℝ {z | z ∈ u}) (a := v) (l := l)
      by_cases h1 : s.place i j ∈ convexHull ℝ {z | z ∈ v}
      · rw [if_pos h1, if_neg (fun h => (hc.1 h).1 h1), zero_mul]
      · rw [if_neg h1, one_mul]
        by_cases h2 : ∀ u ∈ l, s.place i j ∉ convexHull ℝ {z | z ∈ u}
        · rw [if_pos h2, if_pos (hc.2 ⟨h1, h2⟩)]
        · rw [if_neg h2, if_neg (fun h => h2 (hc.1 h).2)]
  rw [hprod _ hp]
  unfold Stop.clear Disc.has
  by_cases h1 : ‖s.place i j - s.outer.centre‖ ≤ s.outer.radius
  · by_cases h2 : ‖s.place i j - s.inner.centre‖ ≤ s.inner.radius
    · simp [h1, h2]
    · simp [h1, h2]
  · simp [h1]

/-- The mask never amplifies: with images between zero and one, the mask is between zero and one. -/
theorem C151_passive (s : Stop) (disc : Disc → Bool → ℂ → ℝ) (poly : List ℂ → ℂ → ℝ) (i j : ℤ)
    (hd : ∀ d b, 0 ≤ disc d b (s.place i j) ∧ disc d b (s.place i j) ≤ 1)
    (hp : ∀ v, 0 ≤ poly v (s.place i j) ∧ poly v (s.place i j) ≤ 1) :
    0 ≤ s.value disc poly i j ∧ s.value disc poly i j ≤ 1 := by
  have hprod : ∀ l : List (List ℂ), 0 ≤ (l.map fun v => poly v (s.place i j)).prod ∧ (l.map fun v => poly v (s.place i j)).prod ≤ 1 := by
    intro l
    induction l with
    | nil => simp
    | cons v l ih =>
      rw [List.map_cons, List.prod_cons]
      exact ⟨mul_nonneg (hp v).1 ih.1, mul_le_one₀ (hp v).2 ih.1 ih.2⟩
  unfold Stop.value
  have h1 := hd s.outer false
  have h2 := hd s.inner true
  have h3 := hprod s.polygons
  rw [abs_mul, abs_of_nonneg h1.1, abs_of_nonneg h2.1]
  exact ⟨mul_nonneg (mul_nonneg h1.1 h2.1) h3.1, mul_le_one₀ (mul_le_one₀ h1.2 h2.1 h2.2) h3.1 h3.2⟩

/-! ## The shape of the stop at rest -/

/-- The open part is symmetric about the middle and about both axes. -/
theorem C151_symmetric (id od ang : ℝ) (w : ℂ) :
    (Open id od ang (-w) ↔ Open id od ang w) ∧ (Open id od ang ⟨w.re, -w.im⟩ ↔ Open id od ang w) ∧
      (Open id od ang ⟨-w.re, w.im⟩ ↔ Open id od ang w) := by
  have h1 : ‖(⟨w.re, -w.im⟩ : ℂ)‖ = ‖w‖ := by
    rw [Complex.norm_def, Complex.norm_def, Complex.normSq_apply, Complex.normSq_apply]; simp
  have h2 : ‖(⟨-w.re, w.im⟩ : ℂ)‖ = ‖w‖ := by
    rw [Complex.norm_def, Complex.norm_def, Complex.normSq_apply, Complex.normSq_apply]; simp
  unfold Open
  rw [h1, h2, norm_neg, neg_re, neg_im, abs_neg, abs_neg]
  simp

/-- The open part in polar coordinates: the places at the radius `r` and the direction `t` degrees away from upwards (up to a quarter turn to either side) are open exactly
for radii in the annulus and `|t| < ang/2`. -/
theorem C151_polar (id od ang r t : ℝ) (ha : 0 ≤ ang) (h180 : ang < 180) (hr : 0 < r) (ht : |t| ≤ 90) :
    Open id od ang (r * exp ((90 + t) * (Real.pi / 180) * I)) ↔ id / 2 < r ∧ r ≤ od / 2 ∧ |t| < ang / 2 := by
  have hpi := Real.pi_pos
  have e : ((90 : ℂ) + t) * (Real.pi / 180) * I = ((Real.pi / 2 + t * (Real.pi / 180) : ℝ) : ℂ) * I := by push_cast; ring
  have hn : ‖(r : ℂ) * exp ((90 + t) * (Real.pi / 180) * I)‖ = r := by
    rw [e, norm_mul, norm_exp_ofReal_mul_I, Complex.norm_real, Real.norm_eq_abs, abs_of_pos hr, mul_one]
  have hre : ((r : ℂ) * exp ((90 + t) * (Real.pi / 180) * I)).re = -(r * Real.sin (t * (Real.pi / 180))) := by
    rw [e, re_ofReal_mul, exp_ofReal_mul_I_re, add_comm, Real.cos_add_pi_div_two]; ring
  have him : ((r : ℂ) * exp ((90 + t) * (Real.pi / 180) * I)).im = r * Real.cos (t * (Real.pi / 180)) := by
    rw [e, im_ofReal_mul, exp_ofReal_mul_I_im, add_comm, Real.sin_add_pi_div_two]
  unfold Open
  rw [hn, hre, him, abs_neg, abs_mul, abs_mul, abs_of_pos hr]
  obtain ⟨u, hu⟩ : ∃ u, u = |t| * (Real.pi / 180) := ⟨_, rfl⟩
  have hu0 : 0 ≤ u := by rw [hu]; positivity
  have hu1 : u ≤ Real.pi / 2 := by
    rw [hu]
    have := mul_le_mul_of_nonneg_right ht (by positivity : 0 ≤ Real.pi / 180)
    linarith
  have hsin : |Real.sin (t * (Real.pi / 180))| = Real.sin u := by
    have : t * (Real.pi / 180) = u ∨ t * (Real.pi / 180) = -u := by
      rcases abs_cases t with ⟨h, _⟩ | ⟨h, _⟩
      · left; rw [hu, h]
      · right; rw [hu, h]; ring
    have h0 : 0 ≤ Real.sin u := Real.sin_nonneg_of_nonneg_of_le_pi hu0 (by linarith)
    rcases this with h | h <;> rw [h]
    · exact abs_of_nonneg h0
    · rw [Real.sin_neg, abs_neg, abs_of_nonneg h0]
  have hcos : |Real.cos (t * (Real.pi / 180))| = Real.cos u := by
    have : t * (Real.pi / 180) = u ∨ t * (Real.pi / 180) = -u := by
      rcases abs_cases t with ⟨h, _⟩ | ⟨h, _⟩
      · left; rw [hu, h]
      · right; rw [hu, h]; ring
    have h0 : 0 ≤ Real.cos u := Real.cos_nonneg_of_mem_Icc ⟨by linarith, hu1⟩
    rcases this with h | h <;> rw [h]
    · exact abs_of_nonneg h0
    · rw [Real.cos_neg, abs_of_nonneg h0]
  rw [hsin, hcos]
  obtain ⟨g, hgd⟩ : ∃ g, g = ang / 2 * (Real.pi / 180) := ⟨_, rfl⟩
  have hg0 : 0 ≤ g := by rw [hgd]; positivity
  have hg1 : g < Real.pi / 2 := by
    rw [hgd]
    have : ang / 2 * (Real.pi / 180) < 90 * (Real.pi / 180) := mul_lt_mul_of_pos_right (by linarith) (by positivity)
    linarith
  rw [← hgd]
  have hlt : |t| < ang / 2 ↔ u < g := by
    rw [hu, hgd, mul_lt_mul_iff_left₀ (by positivity)]
  rw [hlt]
  simp only [h180, true_implies]
  have key : r * Real.sin u * Real.cos g < r * Real.cos u * Real.sin g ↔ u < g := by
    have : r * Real.cos u * Real.sin g - r * Real.sin u * Real.cos g = r * Real.sin (g - u) := by
      rw [Real.sin_sub]; ring
    constructor
    · intro h
      by_contra hcon
      have : Real.sin (u - g) ≥ 0 := Real.sin_nonneg_of_nonneg_of_le_pi (by linarith) (by linarith)
      have h2 : Real.sin (g - u) = -Real.sin (u - g) := by rw [← Real.sin_neg]; ring_nf
      have := mul_nonneg hr.le this
      nlinarith
    · intro h
      have h2 : 0 < Real.sin (g - u) := Real.sin_pos_of_pos_of_lt_pi (by linarith) (by linarith)
      have := mul_pos hr h2
      linarith
  rw [key]

/-- From an opening angle of 180 degrees on, the stop is the whole annulus; with an angle of zero, nothing is open. -/
theorem C151_extremes (id od ang : ℝ) (w : ℂ) : (180 ≤ ang → (Open id od ang w ↔ id / 2 < ‖w‖ ∧ ‖w‖ ≤ od / 2)) ∧ ¬ Open id od 0 w := by
  constructor
  · intro h
    unfold Open
    simp [not_lt.2 h]
  · rintro ⟨_, _, h⟩
    have := h (by norm_num)
    simp at this
    exact absurd this (not_lt.2 (abs_nonneg _))

/-- A wider opening, a larger outer and a smaller inner diameter only add clear places. -/
theorem C151_monotone (id id' od od' ang ang' : ℝ) (h1 : id' ≤ id) (h2 : od ≤ od') (h0 : 0 ≤ ang) (h3 : ang ≤ ang') (w : ℂ) (h : Open id od ang w) :
    Open id' od' ang' w := by
  obtain ⟨g1, g2, g3⟩ := h
  refine ⟨by linarith, by linarith, fun h180 => ?_⟩
  have hpi := Real.pi_pos
  have g4 := g3 (by linarith)
  have a0 : 0 ≤ ang / 2 * (Real.pi / 180) := by positivity
  have a1 : ang / 2 * (Real.pi / 180) ≤ ang' / 2 * (Real.pi / 180) := mul_le_mul_of_nonneg_right (by linarith) (by positivity)
  have a2 : ang' / 2 * (Real.pi / 180) < Real.pi / 2 := by
    have : ang' / 2 * (Real.pi / 180) < 90 * (Real.pi / 180) := mul_lt_mul_of_pos_right (by linarith) (by positivity)
    linarith
  have hs : Real.sin (ang / 2 * (Real.pi / 180)) ≤ Real.sin (ang' / 2 * (Real.pi / 180)) :=
    Real.sin_le_sin_of_le_of_le_pi_div_two (by linarith) (by linarith) a1
  have hc : Real.cos (ang' / 2 * (Real.pi / 180)) ≤ Real.cos (ang / 2 * (Real.pi / 180)) :=
    Real.cos_le_cos_of_nonneg_of_le_pi a0 (by linarith) a1
  have t1 := mul_le_mul_of_nonneg_left hs (abs_nonneg w.im)
  have t2 := mul_le_mul_of_nonneg_left hc (abs_nonneg w.re)
  linarith

/-! ## The array -/

theorem in_cell (N : ℤ) (hN : 1 ≤ N) (v : ℝ) (h0 : 0 ≤ v) (h1 : v ≤ N) : ∃ j : ℤ, 0 ≤ j ∧ j < N ∧ (j : ℝ) ≤ v ∧ v ≤ j + 1 := by
  by_cases h : ⌊v⌋ < N
  · exact ⟨⌊v⌋, Int.floor_nonneg.2 h0, h, Int.floor_le v, (Int.lt_floor_add_one v).le⟩
  · have hv : v = N := le_antisymm h1 (le_trans (by exact_mod_cast not_lt.1 h) (Int.floor_le v))
    refine ⟨N - 1, by omega, by omega, ?_, ?_⟩ <;> rw [hv] <;> push_cast <;> linarith

/-- The array holds the stop: with an outer diameter of at most one pupil, for every sampling, magnification, shear and clocking, every open place lies in a pixel of the array. -/
theorem C151_fits (inp : Inputs) (s : Stop) (nbeam id od ang : ℝ) (hg : Given inp nbeam id od ang) (h : stop inp = .ok s) (hn : 0 < nbeam)
    (ho : od ≤ 1) (hm : 0 < inp.magfac.getD 1) (w : ℂ) (hw : Open id od ang w) (p : ℂ)
    (hp : p = moved ⟨inp.xShear.getD 0, inp.yShear.getD 0⟩ (inp.magfac.getD 1) (inp.clocking.getD 0) w) :
    ∃ i j : ℤ, 0 ≤ i ∧ i < s.size ∧ 0 ≤ j ∧ j < s.size ∧
      |p.re - (coord (inp.centering.getD "pixel" = "interpixel") s.size nbeam i j).re| ≤ 1 / nbeam / 2 ∧
      |p.im - (coord (inp.centering.getD "pixel" = "interpixel") s.size nbeam i j).im| ≤ 1 / nbeam / 2 := by
  obtain ⟨hs, _⟩ := stop_parts hg h
  obtain ⟨_, hw2, _⟩ := hw
  have hr := rot_norm (inp.clocking.getD 0)
  obtain ⟨mag, hmag⟩ : ∃ mag, mag = inp.magfac.getD 1 := ⟨_, rfl⟩
  obtain ⟨sx, hsx⟩ : ∃ sx, sx = inp.xShear.getD 0 := ⟨_, rfl⟩
  obtain ⟨sy, hsy⟩ : ∃ sy, sy = inp.yShear.getD 0 := ⟨_, rfl⟩
  rw [← hmag, ← hsx, ← hsy] at hs hp
  rw [← hmag] at hm
  have hd : ‖p - ⟨sx, sy⟩‖ ≤ mag / 2 := by
    have : p - ⟨sx, sy⟩ = mag * rot (inp.clocking.getD 0) * w := by rw [hp]; unfold moved rot; ring
    rw [this, norm_mul, norm_mul, hr, Complex.norm_real, Real.norm_eq_abs, abs_of_pos hm, mul_one]
    have : ‖w‖ ≤ 1 / 2 := by linarith
    have := mul_le_mul_of_nonneg_left this hm.le
    linarith
  have hx : |p.re| ≤ |sx| + mag / 2 := by
    have h1 := Complex.abs_re_le_norm (p - ⟨sx, sy⟩)
    rw [sub_re] at h1
    have h2 := abs_sub_abs_le_abs_sub p.re sx
    simp only at h1
    linarith
  have hy : |p.im| ≤ |sy| + mag / 2 := by
    have h1 := Complex.abs_im_le_norm (p - ⟨sx, sy⟩)
    rw [sub_im] at h1
    have h2 := abs_sub_abs_le_abs_sub p.im sy
    simp only at h1
    linarith
  have hceil : ∀ x : ℝ, x ≤ (Util.ceilEven x : ℤ) := by
    intro x
    have := Int.le_ceil ((0.5 : ℝ) * x)
    unfold Util.ceilEven
    push_cast
    norm_num at this ⊢
    linarith
  obtain ⟨N, hN⟩ : ∃ N, N = s.size := ⟨_, rfl⟩
  rw [← hN] at hs ⊢
  have tx := le_max_left |sx| |sy|
  have ty := le_max_right |sx| |sy|
  have t0 : 0 ≤ max |sx| |sy| := le_trans (abs_nonneg _) tx
  have t1 : 0 < mag * nbeam := mul_pos hm hn
  have t2 : 0 ≤ 2 * nbeam * max |sx| |sy| := by positivity
  have bx : |p.re| * (2 * nbeam) ≤ mag * nbeam + 2 * nbeam * max |sx| |sy| := by nlinarith
  have bY : |p.im| * (2 * nbeam) ≤ mag * nbeam + 2 * nbeam * max |sx| |sy| := by nlinarith
  unfold size at hs
  by_cases hc : inp.centering.getD "pixel" = "interpixel"
  · rw [if_neg (by rw [hc]; decide), if_pos hc] at hs
    have hsz := hceil (mag * nbeam + 2 * nbeam * max |sx| |sy|)
    have hs' := Except.ok.inj hs
    simp only at hs'
    rw [hs'] at hsz
    have hN1 : 1 ≤ N := by
      have : (0 : ℝ) < N := by linarith
      exact_mod_cast this
    have cell : ∀ x : ℝ, |x| * (2 * nbeam) ≤ N → ∃ j : ℤ, 0 ≤ j ∧ j < N ∧ |x - (j - ((N : ℝ) - 1) / 2) / nbeam| ≤ 1 / nbeam / 2 := by
      intro x hx
      have ab := abs_le.1 (le_refl |x|)
      obtain ⟨j, j0, j1, j2, j3⟩ := in_cell N hN1 (x * nbeam + N / 2) (by nlinarith [ab.1]) (by nlinarith [ab.2])
      refine ⟨j, j0, j1, ?_⟩
      rw [abs_le]
      have e : x - (j - ((N : ℝ) - 1) / 2) / nbeam = (x * nbeam + N / 2 - 1 / 2 - j) / nbeam := by field_simp; ring
      rw [e, div_div, ← neg_div, div_le_div_iff₀ (by positivity) hn, div_le_div_iff₀ hn (by positivity)]
      constructor <;> nlinarith
    obtain ⟨j, j0, j1, j2⟩ := cell p.re (by linarith)
    obtain ⟨i, i0, i1, i2⟩ := cell p.im (by linarith)
    refine ⟨i, j, i0, i1, j0, j1, ?_⟩
    unfold coord
    rw [if_pos (by simpa using hc)]
    exact ⟨j2, i2⟩
  · obtain ⟨_, _, _, _, _, _, hcc⟩ := stop_ok h
    rcases hcc with hcc | hcc
    · rw [if_pos hcc] at hs
      have hsz := hceil (mag * nbeam + 1 + 2 * nbeam * max |sx| |sy|)
      have hs' := Except.ok.inj hs
      simp only at hs'
      rw [hs'] at hsz
      have hN1 : 1 ≤ N := by
        have : (0 : ℝ) < N := by linarith
        exact_mod_cast this
      have cell : ∀ x : ℝ, |x| * (2 * nbeam) + 1 ≤ N → ∃ j : ℤ, 0 ≤ j ∧ j < N ∧ |x - (j - (N : ℝ) / 2) / nbeam| ≤ 1 / nbeam / 2 := by
        intro x hx
        have ab := abs_le.1 (le_refl |x|)
        obtain ⟨j, j0, j1, j2, j3⟩ := in_cell N hN1 (x * nbeam + N / 2 + 1 / 2) (by nlinarith [ab.1]) (by nlinarith [ab.2])
        refine ⟨j, j0, j1, ?_⟩
        rw [abs_le]
        have e : x - (j - (N : ℝ) / 2) / nbeam = (x * nbeam + N / 2 - j) / nbeam := by field_simp; ring
        rw [e, div_div, ← neg_div, div_le_div_iff₀ (by positivity) hn, div_le_div_iff₀ hn (by positivity)]
        constructor <;> nlinarith
      obtain ⟨j, j0, j1, j2⟩ := cell p.re (by linarith)
      obtain ⟨i, i0, i1, i2⟩ := cell p.im (by linarith)
      refine ⟨i, j, i0, i1, j0, j1, ?_⟩
      unfold coord
      rw [if_neg (by simpa using hc)]
      exact ⟨j2, i2⟩
    · exact absurd hcc hc

/-- The size of the array is even. -/
theorem C151_even (inp : Inputs) (s : Stop) (h : stop inp = .ok s) : Even s.size := by
  obtain ⟨nbeam, id, od, ang, hg, _, hc⟩ := stop_ok h
  obtain ⟨hs, _⟩ := stop_parts hg h
  have hev : ∀ x : ℝ, Even (Util.ceilEven x) := fun x => by unfold Util.ceilEven; exact ⟨_, two_mul _⟩
  unfold size at hs
  rcases hc with hc | hc
  · rw [if_pos hc] at hs
    rw [← Except.ok.inj hs]
    exact hev _
  · rw [if_neg (by rw [hc]; decide), if_pos hc] at hs
    rw [← Except.ok.inj hs]
    exact hev _

/-! ## Errors -/

/-- What can go wrong before anything is drawn: a missing sampling, diameter or angle is a KeyError, a sampling of zero is a ZeroDivisionError, another centering fails because the size is
unbound; all else is drawn. -/
theorem C151_errors (inp : Inputs) :
    ((inp.nbeam = none ∨ inp.ID = none ∨ inp.OD = none ∨ inp.ang = none) → stop inp = .error .keyError) ∧
    (∀ nbeam id od ang, Given inp nbeam id od ang →
      (nbeam = 0 → stop inp = .error .zeroDivision) ∧
      (nbeam ≠ 0 → inp.centering ≠ none → inp.centering ≠ some "pixel" → inp.centering ≠ some "interpixel" → stop inp = .error .unboundLocal) ∧
      (nbeam ≠ 0 → (inp.centering = none ∨ inp.centering = some "pixel" ∨ inp.centering = some "interpixel") → ∃ s, stop inp = .ok s)) := by
  constructor
  · unfold stop
    cases inp.nbeam with
    | none => intro _; rfl
    | some a =>
    cases inp.ID with
    | none => intro _; rfl
    | some b =>
    cases inp.OD with
    | none => intro _; rfl
    | some c =>
    cases inp.ang with
    | none => intro _; rfl
    | some d => simp
  · intro nbeam id od ang hg
    unfold stop
    rw [hg.nbeam, hg.ID, hg.OD, hg.ang]
    simp only [get, Except.bind]
    refine ⟨fun h0 => if_pos h0, fun h0 c0 c1 c2 => ?_, fun h0 c => ?_⟩
    · rw [if_neg h0]
      unfold size
      cases hc : inp.centering with
      | none => exact absurd hc c0
      | some x =>
        rw [hc] at c1 c2
        rw [Option.getD_some, if_neg (fun h => c1 (by rw [h])), if_neg (fun h => c2 (by rw [h]))]
    · rw [if_neg h0]
      unfold size
      rcases c with c | c | c <;> rw [c]
      · exact ⟨_, by rw [Option.getD_none, if_pos rfl]⟩
      · exact ⟨_, by rw [Option.getD_some, if_pos rfl]⟩
      · exact ⟨_, by rw [Option.getD_some, if_neg (by decide), if_pos rfl]⟩

/-- A stop of the kind that is used: diameters 0.38 and 0.92, open over 115 degrees, 300 pixels across, sheared, turned and magnified; the place straight up at 0.3 diameters is open,
the one to the right is not. -/
example : ∃ s, stop { nbeam := some 300, ID := some 0.38, OD := some 0.92, ang := some 115, xShear := some 0.01, clocking := some 2, magfac := some 1.02 } = .ok s ∧
    Open 0.38 0.92 115 ⟨0, 0.3⟩ ∧ ¬ Open 0.38 0.92 115 ⟨0.3, 0⟩ := by
  obtain ⟨_, h⟩ := C151_errors { nbeam := some 300, ID := some 0.38, OD := some 0.92, ang := some 115, xShear := some 0.01, clocking := some 2, magfac := some 1.02 }
  obtain ⟨s, hs⟩ := (h 300 0.38 0.92 115 ⟨rfl, rfl, rfl, rfl⟩).2.2 (by norm_num) (Or.inl rfl)
  refine ⟨s, hs, ?_, ?_⟩
  · have hpi := Real.pi_pos
    have hsn : 0 < Real.sin (115 / 2 * (Real.pi / 180)) := Real.sin_pos_of_pos_of_lt_pi (by positivity) (by linarith)
    have hn : ‖(⟨0, 0.3⟩ : ℂ)‖ = 0.3 := by
      have : (⟨0, 0.3⟩ : ℂ) = ((0.3 : ℝ) : ℂ) * I := by apply Complex.ext <;> simp
      rw [this, norm_mul, Complex.norm_real, norm_I, mul_one, Real.norm_eq_abs, abs_of_pos (by norm_num)]
    refine ⟨by rw [hn]; norm_num, by rw [hn]; norm_num, fun _ => ?_⟩
    simp only [abs_zero, zero_mul]
    positivity
  · rintro ⟨_, _, h⟩
    have hpi := Real.pi_pos
    have h1 := h (by norm_num)
    have hcs : 0 < Real.cos (115 / 2 * (Real.pi / 180)) := Real.cos_pos_of_mem_Ioo ⟨by linarith, by linarith⟩
    simp only [abs_zero, zero_mul] at h1
    have : 0 ≤ |(0.3 : ℝ)| * Real.cos (115 / 2 * (Real.pi / 180)) := by positivity
    linarith

end Verif.BowtieLyot
