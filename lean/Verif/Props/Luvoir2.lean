import Verif.Props.Luvoir
import Verif.Props.Polygon2

/-!
# C139, continued: clocked LUVOIR A pupils
-/

namespace Verif.Luvoir
open Verif Verif.Shape Verif.Proper Verif.Masks Verif.HexWave Verif.Polygon

/-- If the loops succeed, every hexagon drawn was drawn successfully. -/
theorem fold_needs (a : HexArgs) (s1 s2 : List ℕ) (centre : Seg → ℝ × ℝ) (l : List Seg) :
    ∀ c ap s, l.foldlM (a.step s1 s2 centre) ⟨c, ap⟩ = .ok s → ∀ q ∈ kept a.nrings a.dark s1 s2 c l, ∃ img, a.hexagon (centre q) = .ok img := by
  induction l with
  | nil => intro c ap s _ q hq; simp [kept] at hq
  | cons x l ih =>
    intro c ap s h
    rw [List.foldlM_cons] at h
    have hdraw : ∀ c1, kept a.nrings a.dark s1 s2 c (x :: l) = x :: kept a.nrings a.dark s1 s2 c1 l →
        a.step s1 s2 centre ⟨c, ap⟩ x = (a.hexagon (centre x)).map (fun h => ⟨c1, fun i j => ap i j + h i j⟩) →
        ∀ q ∈ kept a.nrings a.dark s1 s2 c (x :: l), ∃ img, a.hexagon (centre q) = .ok img := by
      intro c1 e1 e2 q hq
      rw [e2] at h
      cases hx : a.hexagon (centre x) with
      | error e => rw [hx] at h; cases h
      | ok img =>
        rw [hx] at h
        rw [e1] at hq
        rcases List.mem_cons.mp hq with rfl | hq
        · exact ⟨img, hx⟩
        · exact ih _ _ _ h q hq
    have hpass : ∀ c1, kept a.nrings a.dark s1 s2 c (x :: l) = kept a.nrings a.dark s1 s2 c1 l → a.step s1 s2 centre ⟨c, ap⟩ x = .ok ⟨c1, ap⟩ →
        ∀ q ∈ kept a.nrings a.dark s1 s2 c (x :: l), ∃ img, a.hexagon (centre q) = .ok img := by
      intro c1 e1 e2 q hq
      rw [e2] at h
      rw [e1] at hq
      exact ih _ _ _ h q hq
    by_cases hf : x.first = true
    · by_cases hc : x.iring ≠ 0 ∨ ¬ (x.iseg = a.nrings ∧ a.dark = true)
      · by_cases hs : c + 1 ∉ s1
        · exact hdraw (c + 1) (by rw [kept, if_pos hf, if_pos hc, if_pos hs]) (by rw [HexArgs.step, if_pos hf, if_pos hc, if_pos hs])
        · exact hpass (c + 1) (by rw [kept, if_pos hf, if_pos hc, if_neg hs]) (by rw [HexArgs.step, if_pos hf, if_pos hc, if_neg hs])
      · exact hpass c (by rw [kept, if_pos hf, if_neg hc]) (by rw [HexArgs.step, if_pos hf, if_neg hc])
    · by_cases hs : c + 1 ∉ s2
      · exact hdraw (c + 1) (by rw [kept, if_neg hf, if_pos hs]) (by rw [HexArgs.step, if_neg hf, if_pos hs])
      · exact hpass (c + 1) (by rw [kept, if_neg hf, if_neg hs]) (by rw [HexArgs.step, if_neg hf, if_neg hs])

/-- A LUVOIR A aperture that succeeds has drawn each of its 120 segments. -/
theorem A_needs (a : HexArgs) (hr : a.nrings = 6) (hd : a.dark = true) (ap : ZMod a.n → ZMod a.n → ℝ) (h : hexApertureA a = .ok ap) :
    ∀ c ∈ cellsA, ∃ img, a.hexagon (place a c) = .ok img := by
  intro c hc
  unfold hexApertureA at h
  cases hf : (segs a.nrings).foldlM (a.step skipA skipA a.centreA) ⟨0, fun _ _ => 0⟩ with
  | error e => rw [hf] at h; cases h
  | ok s =>
    rw [← keptA.2, List.mem_toFinset, List.mem_map] at hc
    obtain ⟨q, hq, rfl⟩ := hc
    have := fold_needs a skipA skipA a.centreA _ _ _ _ hf q (by rw [hr, hd]; exact hq)
    rwa [centreA_eq, hr] at this

/-- The LUVOIR A pupil with its default gaps, clocked by 15 degrees, `2k` points across, not sheared. -/
noncomputable def clocked (k : ℕ) : Pupil := ⟨2 * k, .pixel, 0, 0, 15, 1, 6e-3, false, none, none⟩

theorem clocked_size (k : ℕ) : A.size (clocked k) = 2 * k + 4 := by
  have h : (1 + 2 * (clocked k).shearMax) * (clocked k).nbeam * max (clocked k).magFac 1 + 1 = 2 * k + 1 := by
    simp [clocked, Pupil.shearMax]
  unfold A.size
  show (2 + Util.ceilEven _).toNat = _
  rw [h]
  unfold Util.ceilEven
  have : ⌈0.5 * (2 * (k : ℝ) + 1)⌉ = (k : ℤ) + 1 := by
    rw [Int.ceil_eq_iff]
    push_cast
    constructor <;> linarith
  rw [this]
  omega

/-- C139 (violated): a clocked LUVOIR A pupil can reach past its array, and then there is no pupil at all: clocked by 15 degrees, with default gaps, no shear, and any even number of points
across from 200 to 260, the call fails. (The array is made for the flat-to-flat diameter, but the corners of the outer segments are further out.) -/
theorem A.C139_clock_violated (k : ℕ) (h1 : 100 ≤ k) (h2 : k ≤ 130) (mask : ZMod (A.size (clocked k)) → ZMod (A.size (clocked k)) → ℝ) : A.pupil (clocked k) ≠ .ok mask := by
  have hk1 : (100 : ℝ) ≤ k := by exact_mod_cast h1
  have hk2 : (k : ℝ) ≤ 130 := by exact_mod_cast h2
  intro hp
  set p := clocked k with hpd
  have hN : p.nbeam = 2 * k := rfl
  have hN0 : 0 < p.nbeam := by rw [hN]; linarith
  have hD : A.Dap p = 14.736 := by unfold A.Dap A.width0; simp only [hpd, clocked]; norm_num
  have hdx : (A.bm p).dx = 14.736 / (2 * k) := by rw [A.bm_dx p hN0]; unfold A.dx; rw [hD, hN]
  obtain ⟨ap, ha⟩ : ∃ ap, hexApertureA (A.hexArgs p) = .ok ap := by
    unfold A.pupil at hp
    rw [show p.lyot = none from rfl] at hp
    cases h : hexApertureA (A.hexArgs p) with
    | error e => rw [h] at hp; cases hp
    | ok ap => exact ⟨ap, rfl⟩
  obtain ⟨img, hi⟩ := A_needs (A.hexArgs p) rfl rfl ap ha (1, 5) (by decide +kernel)
  have h3a : 1.73205 < √3 := by rw [Real.lt_sqrt (by norm_num)]; norm_num
  have h3b : √3 < 1.73206 := by rw [Real.sqrt_lt' (by norm_num)]; norm_num
  have h3 : √3 * √3 = 3 := Real.mul_self_sqrt (by norm_num)
  set t : ℝ := 15 * Real.pi / 180 with ht
  have h2a : 1.41421 < √2 := by rw [Real.lt_sqrt (by norm_num)]; norm_num
  have h2b : √2 < 1.41422 := by rw [Real.sqrt_lt' (by norm_num)]; norm_num
  have hc : Real.cos t = √2 / 2 * (√3 / 2) + √2 / 2 * (1 / 2) := by
    rw [show t = Real.pi / 4 - Real.pi / 6 by rw [ht]; ring, Real.cos_sub, Real.cos_pi_div_four, Real.sin_pi_div_four, Real.cos_pi_div_six, Real.sin_pi_div_six]
  have hs : Real.sin t = √2 / 2 * (√3 / 2) - √2 / 2 * (1 / 2) := by
    rw [show t = Real.pi / 4 - Real.pi / 6 by rw [ht]; ring, Real.sin_sub, Real.cos_pi_div_four, Real.sin_pi_div_four, Real.cos_pi_div_six, Real.sin_pi_div_six]
  have hcl : 0.96592 < Real.cos t := by rw [hc]; nlinarith
  have hcu : Real.cos t < 0.96594 := by rw [hc]; nlinarith
  have hsl : 0.25881 < Real.sin t := by rw [hs]; nlinarith
  have hsu : Real.sin t < 0.25883 := by rw [hs]; nlinarith
  have hrad : A.hexrad p = 1.2225 / √3 := by
    unfold A.hexrad A.width A.width0
    rw [show p.magFac = 1 from rfl]
    field_simp
  have hrad' : A.hexrad p = 1.2225 * √3 / 3 := by rw [hrad]; field_simp; linarith
  have hsep : A.hexsep p = 1.2285 := by
    unfold A.hexsep A.width A.width0
    simp only [hpd, clocked]
    norm_num
  have hcs : A.cShift p = 0 := rfl
  -- the height of the centre of the segment
  have hy : (place (A.hexArgs p) (1, 5)).2 = 1.2285 * (√3 / 2) * Real.sin t + 1.2285 * 5.5 * Real.cos t := by
    unfold place A.hexArgs cellPos
    simp only
    rw [hsep, hcs]
    rw [show p.clock = 15 from rfl, show p.yShear = 0 from rfl]
    push_cast
    rw [← ht]
    ring
  have hyl : 6.8017 < (place (A.hexArgs p) (1, 5)).2 := by rw [hy]; nlinarith
  have hyu : (place (A.hexArgs p) (1, 5)).2 < 6.8021 := by rw [hy]; nlinarith
  have hbad := C115_top_violated (A.size p) 33 (by norm_num) (A.bm p).dx (beamradius (A.bm p)) false false 6 (by norm_num) (A.hexrad p) (some (place (A.hexArgs p) (1, 5)).1)
    (some (place (A.hexArgs p) (1, 5)).2) p.clock
  have hsz : ((A.size p : ℕ) : ℝ) = 2 * k + 4 := by rw [hpd, clocked_size]; push_cast; ring
  have hreg : ∀ l : ℕ, regY (A.size p) (A.bm p).dx (beamradius (A.bm p)) false 6 (A.hexrad p) (some (place (A.hexArgs p) (1, 5)).2) p.clock l =
      (A.hexrad p * Real.sin (vertexAngle 6 15 l) + (place (A.hexArgs p) (1, 5)).2) * (2 * k / 14.736) + (k + 2) := by
    intro l
    unfold regY radPix centrePix
    rw [hsz, hdx]
    simp only [Bool.false_eq_true, if_false]
    rw [show p.clock = 15 from rfl]
    field_simp
    ring
  have hang : ∀ l : ℕ, vertexAngle 6 15 l = t - l * (Real.pi / 3) := by intro l; unfold vertexAngle; rw [ht]; push_cast; ring
  have hradl : 0.7058 < A.hexrad p := by rw [hrad']; linarith
  have hradu : A.hexrad p < 0.70582 := by rw [hrad']; linarith
  have hfr : 2 * (k : ℝ) / 14.736 = k * (125 / 921) := by norm_num; ring
  have hres := hbad ⟨2, by norm_num, ?_⟩ ⟨5, by norm_num, ?_⟩ ?_
  · unfold HexArgs.hexagon at hi
    have : (Except.ok img : Except PyErr _) = .error .indexError := hi.symm.trans hres
    cases this
  · -- the vertex at -105 degrees
    rw [hreg, hang, hsz]
    have : Real.sin (t - ((2 : ℕ) : ℝ) * (Real.pi / 3)) ≤ 0 := by
      apply Real.sin_nonpos_of_nonpos_of_neg_pi_le <;> rw [ht] <;> push_cast <;> linarith [Real.pi_pos]
    have h5 : A.hexrad p * Real.sin (t - ((2 : ℕ) : ℝ) * (Real.pi / 3)) ≤ 0 := mul_nonpos_of_nonneg_of_nonpos (by linarith) this
    have h6 : (A.hexrad p * Real.sin (t - ((2 : ℕ) : ℝ) * (Real.pi / 3)) + (place (A.hexArgs p) (1, 5)).2) * (2 * k / 14.736) ≤ 6.8021 * (2 * k / 14.736) :=
      mul_le_mul_of_nonneg_right (by linarith) (by positivity)
    refine le_trans (add_le_add_left h6 _) ?_
    rw [hfr]
    linarith
  · -- the vertex at 75 degrees
    rw [hreg, hang, hsz]
    have e : Real.sin (t - ((5 : ℕ) : ℝ) * (Real.pi / 3)) = Real.cos t := by
      rw [show t - ((5 : ℕ) : ℝ) * (Real.pi / 3) = (Real.pi / 2 - t) - 2 * Real.pi by rw [ht]; push_cast; ring, Real.sin_sub_two_pi, Real.sin_pi_div_two_sub]
    rw [e]
    have h5 : 0.6817 ≤ A.hexrad p * Real.cos t := by nlinarith
    have h6 : 7.4834 * (2 * k / 14.736) ≤ (A.hexrad p * Real.cos t + (place (A.hexArgs p) (1, 5)).2) * (2 * k / 14.736) :=
      mul_le_mul_of_nonneg_right (by linarith) (by positivity)
    refine le_trans ?_ (add_le_add_left h6 _)
    rw [hfr]
    push_cast
    linarith
  · intro l _
    rw [hreg, hsz]
    have h5 : A.hexrad p * Real.sin (vertexAngle 6 15 l) ≤ A.hexrad p * 1 := mul_le_mul_of_nonneg_left (Real.sin_le_one _) (by linarith)
    have h6 : (A.hexrad p * Real.sin (vertexAngle 6 15 l) + (place (A.hexArgs p) (1, 5)).2) * (2 * k / 14.736) ≤ 7.508 * (2 * k / 14.736) :=
      mul_le_mul_of_nonneg_right (by linarith) (by positivity)
    refine lt_of_le_of_lt (add_le_add_left h6 _) ?_
    rw [hfr]
    linarith

end Verif.Luvoir
