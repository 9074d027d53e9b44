import Verif.Model.Luvoir
import Verif.Props.HexWave
import Verif.Props.PupilSimple

/-!
# C139: the LUVOIR pupils

Specification: the segments are cells of a hexagonal lattice (C126): six rings without the six corner cells and without the central one (LUVOIR A, 120 segments), four rings without the six
corner cells (LUVOIR B, 55 segments). A pixel of the pupil is the sum of the parts of it covered by the hexagons.
-/

namespace Verif.Luvoir
open Verif Verif.Shape Verif.Proper Verif.Masks Verif.HexWave Verif.Polygon

/-- The six cells at the corners of the outermost ring. -/
def corners (N : ℤ) : List (ℤ × ℤ) := [(N, 0), (-N, 0), (0, N), (0, -N), (N, -N), (-N, N)]

/-- The segments of LUVOIR A. -/
noncomputable def cellsA : Finset (ℤ × ℤ) := (Finset.Icc (-6 : ℤ) 6 ×ˢ Finset.Icc (-6 : ℤ) 6).filter fun c => -6 ≤ c.1 + c.2 ∧ c.1 + c.2 ≤ 6 ∧ c ≠ (0, 0) ∧ c ∉ corners 6
/-- The segments of LUVOIR B. -/
noncomputable def cellsB : Finset (ℤ × ℤ) := (Finset.Icc (-4 : ℤ) 4 ×ˢ Finset.Icc (-4 : ℤ) 4).filter fun c => -4 ≤ c.1 + c.2 ∧ c.1 + c.2 ≤ 4 ∧ c ∉ corners 4

/-- The place of a cell: its lattice position turned counter-clockwise by `angle` degrees and moved to `(xc, yc)`. -/
noncomputable def place (a : HexArgs) (c : ℤ × ℤ) : ℝ × ℝ :=
  let p := cellPos a.hexsep c
  let t := a.angle * Real.pi / 180
  (p.1 * Real.cos t - p.2 * Real.sin t + a.xc, p.1 * Real.sin t + p.2 * Real.cos t + a.yc)

/-- The segments that get drawn, from the counter's value `c` on. -/
def kept (nrings : ℕ) (dark : Bool) (skip1 skip2 : List ℕ) : ℕ → List Seg → List Seg
  | _, [] => []
  | c, q :: l =>
    if q.first then
      if q.iring ≠ 0 ∨ ¬ (q.iseg = nrings ∧ dark = true) then
        if c + 1 ∉ skip1 then q :: kept nrings dark skip1 skip2 (c + 1) l else kept nrings dark skip1 skip2 (c + 1) l
      else kept nrings dark skip1 skip2 c l
    else if c + 1 ∉ skip2 then q :: kept nrings dark skip1 skip2 (c + 1) l else kept nrings dark skip1 skip2 (c + 1) l

theorem kept_sub (nrings : ℕ) (dark : Bool) (s1 s2 : List ℕ) (l : List Seg) : ∀ c, ∀ q ∈ kept nrings dark s1 s2 c l, q ∈ l := by
  induction l with
  | nil => intro c q h; simp [kept] at h
  | cons x l ih =>
    intro c q h
    unfold kept at h
    split_ifs at h <;> first
      | (rcases List.mem_cons.mp h with rfl | h
         · exact List.mem_cons_self
         · exact List.mem_cons_of_mem _ (ih _ _ h))
      | exact List.mem_cons_of_mem _ (ih _ _ h)

theorem fold_step (a : HexArgs) (s1 s2 : List ℕ) (centre : Seg → ℝ × ℝ) (img : Seg → ZMod a.n → ZMod a.n → ℝ) (l : List Seg) :
    ∀ c ap, (∀ q ∈ kept a.nrings a.dark s1 s2 c l, a.hexagon (centre q) = .ok (img q)) →
    ∃ c', l.foldlM (a.step s1 s2 centre) ⟨c, ap⟩ = .ok ⟨c', fun i j => ap i j + ((kept a.nrings a.dark s1 s2 c l).map fun q => img q i j).sum⟩ := by
  induction l with
  | nil => intro c ap _; exact ⟨c, by simp [kept]; rfl⟩
  | cons q l ih =>
    intro c ap h
    have hdraw : ∀ c1, kept a.nrings a.dark s1 s2 c (q :: l) = q :: kept a.nrings a.dark s1 s2 c1 l →
        a.step s1 s2 centre ⟨c, ap⟩ q = (a.hexagon (centre q)).map (fun h => ⟨c1, fun i j => ap i j + h i j⟩) →
        ∃ c', (q :: l).foldlM (a.step s1 s2 centre) ⟨c, ap⟩ = .ok ⟨c', fun i j => ap i j + ((kept a.nrings a.dark s1 s2 c (q :: l)).map fun q => img q i j).sum⟩ := by
      intro c1 e1 e2
      rw [e1] at h ⊢
      have hq := h q List.mem_cons_self
      obtain ⟨c', e⟩ := ih c1 (fun i j => ap i j + img q i j) fun q' hq' => h q' (List.mem_cons_of_mem _ hq')
      refine ⟨c', ?_⟩
      rw [List.foldlM_cons, e2, hq]
      show List.foldlM _ _ _ = _
      rw [e]
      congr 2
      funext i j
      simp only [List.map_cons, List.sum_cons]
      ring
    have hpass : ∀ c1, kept a.nrings a.dark s1 s2 c (q :: l) = kept a.nrings a.dark s1 s2 c1 l → a.step s1 s2 centre ⟨c, ap⟩ q = .ok ⟨c1, ap⟩ →
        ∃ c', (q :: l).foldlM (a.step s1 s2 centre) ⟨c, ap⟩ = .ok ⟨c', fun i j => ap i j + ((kept a.nrings a.dark s1 s2 c (q :: l)).map fun q => img q i j).sum⟩ := by
      intro c1 e1 e2
      rw [e1] at h ⊢
      obtain ⟨c', e⟩ := ih c1 ap h
      refine ⟨c', ?_⟩
      rw [List.foldlM_cons, e2]
      exact e
    by_cases hf : q.first = true
    · by_cases hc : q.iring ≠ 0 ∨ ¬ (q.iseg = a.nrings ∧ a.dark = true)
      · by_cases hs : c + 1 ∉ s1
        · exact hdraw (c + 1) (by rw [kept, if_pos hf, if_pos hc, if_pos hs]) (by rw [HexArgs.step, if_pos hf, if_pos hc, if_pos hs])
        · exact hpass (c + 1) (by rw [kept, if_pos hf, if_pos hc, if_neg hs]) (by rw [HexArgs.step, if_pos hf, if_pos hc, if_neg hs])
      · exact hpass c (by rw [kept, if_pos hf, if_neg hc]) (by rw [HexArgs.step, if_pos hf, if_neg hc])
    · by_cases hs : c + 1 ∉ s2
      · exact hdraw (c + 1) (by rw [kept, if_neg hf, if_pos hs]) (by rw [HexArgs.step, if_neg hf, if_pos hs])
      · exact hpass (c + 1) (by rw [kept, if_neg hf, if_neg hs]) (by rw [HexArgs.step, if_neg hf, if_neg hs])

/-- The cells drawn by LUVOIR A. -/
theorem keptA : ((kept 6 true skipA skipA 0 (segs 6)).map (cell 6)).Nodup ∧ ((kept 6 true skipA skipA 0 (segs 6)).map (cell 6)).toFinset = cellsA := by
  constructor <;> decide +kernel

/-- The cells drawn by LUVOIR B. -/
theorem keptB : ((kept 4 false skipB1 skipB2 0 (segs 4)).map (cell 4)).Nodup ∧ ((kept 4 false skipB1 skipB2 0 (segs 4)).map (cell 4)).toFinset = cellsB := by
  constructor <;> decide +kernel

theorem centreA_eq (a : HexArgs) (q : Seg) : a.centreA q = place a (cell a.nrings q) := by
  have h1 : cosd 30 = √3 / 2 := by
    unfold cosd; rw [show (30 : ℝ) * Real.pi / 180 = Real.pi / 6 by ring, Real.cos_pi_div_six]
  have h2 : cosd 60 = 1 / 2 := by
    unfold cosd; rw [show (60 : ℝ) * Real.pi / 180 = Real.pi / 3 by ring, Real.cos_pi_div_three]
  obtain ⟨k, i, f⟩ := q
  unfold HexArgs.centreA place cellPos cell
  rw [h1, h2]
  unfold cosd sind
  cases f <;> simp only [if_true, Bool.false_eq_true, if_false, Prod.mk.injEq] <;> push_cast <;> constructor <;> ring

theorem centreB_eq (a : HexArgs) (q : Seg) : a.centreB q = place a (cell a.nrings q) := by
  have h1 : Real.cos (30 * Real.pi / 180) = √3 / 2 := by
    rw [show (30 : ℝ) * Real.pi / 180 = Real.pi / 6 by ring, Real.cos_pi_div_six]
  obtain ⟨k, i, f⟩ := q
  unfold HexArgs.centreB place cellPos cell
  rw [h1]
  cases f <;> simp only [if_true, Bool.false_eq_true, if_false, Prod.mk.injEq] <;> push_cast <;> constructor <;> ring

theorem sum_cells {N : ℕ} {l : List Seg} {S : Finset (ℤ × ℤ)} (h : (l.map (cell N)).Nodup ∧ (l.map (cell N)).toFinset = S) (f : ℤ × ℤ → ℝ) :
    (l.map fun q => f (cell N q)).sum = ∑ c ∈ S, f c := by
  rw [← h.2, List.sum_toFinset _ h.1, List.map_map]
  rfl

/-- C139: the cells of the segments. A: the cells within six rings of the centre without the central one and without the six corner cells, 120 of them; B: those within four rings without
the six corner cells, 55 of them. -/
theorem C139_cells : (∀ c, c ∈ cellsA ↔ InRings 6 c ∧ c ≠ (0, 0) ∧ c ∉ corners 6) ∧ cellsA.card = 120 ∧
    (∀ c, c ∈ cellsB ↔ InRings 4 c ∧ c ∉ corners 4) ∧ cellsB.card = 55 := by
  refine ⟨fun c => ?_, by decide +kernel, fun c => ?_, by decide +kernel⟩
  · unfold cellsA InRings
    simp only [Finset.mem_filter, Finset.mem_product, Finset.mem_Icc, abs_le]
    push_cast
    tauto
  · unfold cellsB InRings
    simp only [Finset.mem_filter, Finset.mem_product, Finset.mem_Icc, abs_le]
    push_cast
    tauto

/-- C139: `falco_hex_aperture_LUVOIR_A` with six rings and DARK is, at each pixel, the sum of the hexagons drawn by `prop_polygon` at the places of the 120 cells: each cell of LUVOIR A
once, and no other. For every spacing, size, rotation, offset and grid. -/
theorem C139_aperture_A (a : HexArgs) (hr : a.nrings = 6) (hd : a.dark = true) (img : ℤ × ℤ → ZMod a.n → ZMod a.n → ℝ) (h : ∀ c ∈ cellsA, a.hexagon (place a c) = .ok (img c)) :
    hexApertureA a = .ok fun i j => ∑ c ∈ cellsA, img c i j := by
  obtain ⟨c', e⟩ := fold_step a skipA skipA a.centreA (fun q => img (cell 6 q)) (segs a.nrings) 0 (fun _ _ => 0) (by
    intro q hq
    rw [centreA_eq]
    rw [hr, hd] at hq
    rw [hr]
    apply h
    rw [← keptA.2, List.mem_toFinset]
    exact List.mem_map_of_mem hq)
  unfold hexApertureA
  rw [e]
  simp only [Except.map, hr, hd]
  congr 1
  funext i j
  rw [zero_add]
  exact sum_cells keptA fun c => img c i j

/-- C139: the same for `falco_hex_aperture_LUVOIR_B` with four rings and without DARK: the 55 cells of LUVOIR B. -/
theorem C139_aperture_B (a : HexArgs) (hr : a.nrings = 4) (hd : a.dark = false) (img : ℤ × ℤ → ZMod a.n → ZMod a.n → ℝ) (h : ∀ c ∈ cellsB, a.hexagon (place a c) = .ok (img c)) :
    hexApertureB a = .ok fun i j => ∑ c ∈ cellsB, img c i j := by
  obtain ⟨c', e⟩ := fold_step a skipB1 skipB2 a.centreB (fun q => img (cell 4 q)) (segs a.nrings) 0 (fun _ _ => 0) (by
    intro q hq
    rw [centreB_eq]
    rw [hr, hd] at hq
    rw [hr]
    apply h
    rw [← keptB.2, List.mem_toFinset]
    exact List.mem_map_of_mem hq)
  unfold hexApertureB
  rw [e]
  simp only [Except.map, hr, hd]
  congr 1
  funext i j
  rw [zero_add]
  exact sum_cells keptB fun c => img c i j

/-! ## The hexagons of an unclocked pupil -/

/-- The hexagon around `(X, Y)` with corners at distance `R`, two of its edges horizontal. -/
noncomputable def hexSet (X Y R : ℝ) : Set (ℝ × ℝ) :=
  convexHull ℝ {v | ∃ k : ℕ, k < 6 ∧ v = (X + R * Real.cos (-(k * (Real.pi / 3))), Y + R * Real.sin (-(k * (Real.pi / 3))))}

theorem sin_six (k : ℕ) (hk : k < 6) : |Real.sin (-(k * (Real.pi / 3)))| ≤ √3 / 2 := by
  have h0 : (0 : ℝ) ≤ √3 / 2 := by positivity
  rw [Real.sin_neg, abs_neg]
  have e3 : Real.sin ((3 : ℕ) * (Real.pi / 3)) = 0 := by
    rw [show ((3 : ℕ) : ℝ) * (Real.pi / 3) = Real.pi by push_cast; ring, Real.sin_pi]
  interval_cases k
  · simpa using h0
  · rw [show ((1 : ℕ) : ℝ) * (Real.pi / 3) = Real.pi / 3 by push_cast; ring, Real.sin_pi_div_three, abs_of_nonneg h0]
  · rw [show ((2 : ℕ) : ℝ) * (Real.pi / 3) = Real.pi - Real.pi / 3 by push_cast; ring, Real.sin_pi_sub, Real.sin_pi_div_three, abs_of_nonneg h0]
  · rw [e3]; simpa using h0
  · rw [show ((4 : ℕ) : ℝ) * (Real.pi / 3) = Real.pi / 3 + Real.pi by push_cast; ring, Real.sin_add_pi, Real.sin_pi_div_three, abs_neg, abs_of_nonneg h0]
  · rw [show ((5 : ℕ) : ℝ) * (Real.pi / 3) = Real.pi - Real.pi / 3 + Real.pi by push_cast; ring, Real.sin_add_pi, Real.sin_pi_sub, Real.sin_pi_div_three, abs_neg, abs_of_nonneg h0]

/-- A hexagon with horizontal edges within the array is drawn right. -/
theorem flat_hexagon (n mag : ℕ) [NeZero n] (hm : 0 < mag) (dx br rad xc yc X Y R : ℝ) (hX : X = xc / dx + (n : ℝ) / 2) (hY : Y = yc / dx + (n : ℝ) / 2) (hR0 : R = rad / dx)
    (hR : 1 / (mag : ℝ) ≤ R * (√3 / 2)) (hx0 : -1 / 2 ≤ X - R) (hx1 : X + R < n - 1 / 2) (hy0 : -1 / 2 ≤ Y - R * (√3 / 2)) (hy1 : Y + R * (√3 / 2) < n - 1 / 2) :
    ∃ img, regularPolygon n mag dx br false false 6 rad (some xc) (some yc) 0 = .ok img ∧ ∀ i j : ZMod n, img i j = stripMean mag (hexSet X Y R) j.val i.val := by
  have hM : 0 < 1 / (mag : ℝ) := by positivity
  have eR : radPix dx br false rad = R := by unfold radPix; rw [hR0]; simp [div_eq_mul_inv]
  have eX : centrePix n dx br false (some xc) = X := by unfold centrePix; rw [hX]; simp [div_eq_mul_inv]
  have eY : centrePix n dx br false (some yc) = Y := by unfold centrePix; rw [hY]; simp [div_eq_mul_inv]
  have hpos : 0 < R := by
    by_contra h
    push Not at h
    nlinarith [Real.sqrt_nonneg 3]
  have eA : ∀ k : ℕ, vertexAngle 6 0 k = -(k * (Real.pi / 3)) := by intro k; unfold vertexAngle; push_cast; ring
  have hhull : hull 6 (regX n dx br false 6 rad (some xc) 0) (regY n dx br false 6 rad (some yc) 0) = hexSet X Y R := by
    unfold hull hexSet regX regY
    rw [eR, eX, eY]
    congr 1
    ext v
    constructor <;> rintro ⟨k, hk, rfl⟩ <;> refine ⟨k, hk, ?_⟩ <;> rw [eA] <;> rw [add_comm, add_comm Y]
  have hrow : ∀ k < 6, -1 / 2 ≤ regY n dx br false 6 rad (some yc) 0 k ∧ regY n dx br false 6 rad (some yc) 0 k < n - 1 / 2 := by
    intro k hk
    unfold regY
    rw [eR, eY, eA]
    have := abs_le.mp (sin_six k hk)
    constructor <;> nlinarith
  have hcol := reg_inside n dx br false rad (some xc) (some yc) 0 6 (by rw [eR]; exact hpos.le) (-1 / 2) (n - 1 / 2) X eX (by rw [eR]; exact hx0) (by rw [eR]; exact hx1)
  obtain ⟨img, e, h⟩ := C115_regular n dx br false 6 rad (some xc) (some yc) 0 mag hm false (by norm_num) (by rw [eR]; exact hpos.ne')
    (hex_slow n dx br false rad (some xc) (some yc) 0 mag hm (by rw [eR]; exact hR))
    (Or.inl fun k hk => (hrow k hk).1) (fun x y hxy _ _ => ⟨x, hxy, hcol x y hxy⟩) (Or.inl fun k hk => by
      have := (hrow k hk).2
      have h2 : (0 : ℝ) < 1 / (2 * mag) := by positivity
      linarith)
  refine ⟨img, e, fun i j => ?_⟩
  rw [h i j (Or.inr fun x y hxy => (hcol x y hxy).2), hhull]
  simp

/-- The positions of the cells of A: at most six columns and five and a half rows from the centre. -/
theorem cellsA_bounds : ∀ c ∈ cellsA, -6 ≤ c.1 ∧ c.1 ≤ 6 ∧ -11 ≤ c.1 + 2 * c.2 ∧ c.1 + 2 * c.2 ≤ 11 := by decide +kernel

/-- The positions of the cells of B. -/
theorem cellsB_bounds : ∀ c ∈ cellsB, -4 ≤ c.1 ∧ c.1 ≤ 4 ∧ -7 ≤ c.1 + 2 * c.2 ∧ c.1 + 2 * c.2 ≤ 7 := by decide +kernel

/-- Where the centre of the pupil is put before the array is turned, in pixels from the pixel `N/2`: a pixel before it for an array that is to be turned, half a pixel before it for
interpixel centering. -/
noncomputable def shiftPix (p : Pupil) : ℝ := match p.centering with
  | .pixel => if p.rot180 then -1 else 0
  | .interpixel => -1 / 2

theorem shiftPix_bounds (p : Pupil) : -1 ≤ shiftPix p ∧ shiftPix p ≤ 0 := by
  unfold shiftPix
  cases p.centering <;> dsimp only <;> (try split_ifs) <;> norm_num

namespace A
/-- Metres to pixels. -/
noncomputable def ppm (p : Pupil) : ℝ := p.nbeam / (12 * 1.2225 + 11 * p.wGap)
/-- Column of the centre of the pupil. -/
noncomputable def ctrX (p : Pupil) : ℝ := (size p : ℝ) / 2 + shiftPix p + p.nbeam * p.xShear
/-- Row of the centre of the pupil. -/
noncomputable def ctrY (p : Pupil) : ℝ := (size p : ℝ) / 2 + shiftPix p + p.nbeam * p.yShear
/-- Centre to corner of a segment, in metres. -/
noncomputable def corner (p : Pupil) : ℝ := p.magFac * 1.2225 / √3
/-- Centre to centre of neighbouring segments, in metres. -/
noncomputable def pitch (p : Pupil) : ℝ := p.magFac * (1.2225 + p.wGap)

theorem size_bounds (p : Pupil) (hN : 0 < p.nbeam) : Even (size p) ∧ 2 ≤ size p ∧
    (1 + 2 * p.shearMax) * p.nbeam * max p.magFac 1 / 2 ≤ (size p : ℝ) / 2 + shiftPix p - 1 / 2 ∧
    (1 + 2 * p.shearMax) * p.nbeam * max p.magFac 1 / 2 ≤ (size p : ℝ) / 2 - shiftPix p - 3 / 2 := by
  have h0 : 0 ≤ p.shearMax := le_trans (abs_nonneg _) (le_max_left _ _)
  have hm : 0 < max p.magFac 1 := lt_of_lt_of_le one_pos (le_max_right _ _)
  have hq : 0 < (1 + 2 * p.shearMax) * p.nbeam * max p.magFac 1 := by positivity
  unfold size shiftPix
  generalize (1 + 2 * p.shearMax) * p.nbeam * max p.magFac 1 = q at *
  cases p.centering with
  | pixel =>
    obtain ⟨h1, h2, h3, h4⟩ := two_le_ceilEven (q + 1) (by linarith)
    obtain ⟨m, hm'⟩ : ∃ m : ℕ, Util.ceilEven (q + 1) = m := ⟨(Util.ceilEven (q + 1)).toNat, by omega⟩
    dsimp only
    rw [hm'] at h1 h2 h3 h4 ⊢
    have e : ((2 : ℤ) + m).toNat = 2 + m := by omega
    rw [e]
    refine ⟨by have := (Int.even_coe_nat m).mp h4; exact (by decide : Even 2).add this, by omega, ?_, ?_⟩ <;> push_cast at h2 ⊢ <;> split_ifs <;> linarith
  | interpixel =>
    obtain ⟨h1, h2, h3, h4⟩ := two_le_ceilEven q hq
    obtain ⟨m, hm'⟩ : ∃ m : ℕ, Util.ceilEven q = m := ⟨(Util.ceilEven q).toNat, by omega⟩
    dsimp only
    rw [hm'] at h1 h2 h3 h4 ⊢
    have e : ((2 : ℤ) + m).toNat = 2 + m := by omega
    rw [e]
    refine ⟨by have := (Int.even_coe_nat m).mp h4; exact (by decide : Even 2).add this, by omega, ?_, ?_⟩ <;> push_cast at h2 ⊢ <;> linarith

theorem bm_dx (p : Pupil) (hN : 0 < p.nbeam) : (bm p).dx = dx p := by
  have := (size_bounds p hN).2.1
  have h : (size p : ℝ) ≠ 0 := by positivity
  show Dap p / (size p * (p.nbeam / size p)) = Dap p / p.nbeam
  rw [mul_div_cancel₀ _ h]

theorem Dap_eq (p : Pupil) : Dap p = 12 * 1.2225 + 11 * p.wGap := rfl

theorem cShift_eq (p : Pupil) (h : dx p ≠ 0) : cShift p / dx p = shiftPix p := by
  unfold cShift shiftPix
  cases p.centering <;> dsimp only
  · split_ifs
    · rw [neg_div, div_self h]
    · simp
  · rw [neg_div, neg_div, div_right_comm, div_self h]; ring

set_option maxHeartbeats 1000000 in
/-- C139: no segment of an unclocked LUVOIR A pupil leaves the array: for every beam size, centering, shear, magnification and gap each of the 120 segments is drawn whole (the part of each
pixel it covers, as means over 33 sub-rows). -/
theorem C139_contained_A (p : Pupil) (hclock : p.clock = 0) (hN : 0 < p.nbeam) (hm : 0 < p.magFac) (hg : 0 ≤ p.wGap) (hres : 2 / 33 ≤ p.magFac * 1.2225 * ppm p) :
    ∃ ap : ZMod (size p) → ZMod (size p) → ℝ, hexApertureA (hexArgs p) = .ok ap ∧ ∀ i j, ap i j = ∑ c ∈ cellsA,
      stripMean 33 (hexSet (ctrX p + ppm p * pitch p * (√3 / 2 * c.1)) (ctrY p + ppm p * pitch p * (c.1 / 2 + c.2)) (ppm p * corner p)) j.val i.val := by
  obtain ⟨hev, h2, hlo, hhi⟩ := size_bounds p hN
  have : NeZero (size p) := ⟨by omega⟩
  have hD : 0 < Dap p := by rw [Dap_eq]; positivity
  have hdx : 0 < dx p := div_pos hD hN
  have hk : ppm p = 1 / dx p := by unfold ppm dx; rw [← Dap_eq]; field_simp
  have hkp : 0 < ppm p := by rw [hk]; positivity
  have hkD : ppm p * Dap p = p.nbeam := by unfold ppm; rw [← Dap_eq]; field_simp
  have h3 : √3 ^ 2 = 3 := Real.sq_sqrt (by norm_num)
  have h3a : 1.732 < √3 := by rw [Real.lt_sqrt (by norm_num)]; norm_num
  have h3b : √3 < 1.7321 := by rw [Real.sqrt_lt' (by norm_num)]; norm_num
  have hxs : |p.xShear| ≤ p.shearMax := le_max_left _ _
  have hys : |p.yShear| ≤ p.shearMax := le_max_right _ _
  have hs0 : 0 ≤ p.shearMax := le_trans (abs_nonneg _) hxs
  have hM1 : p.magFac ≤ max p.magFac 1 := le_max_left _ _
  have hM2 : 1 ≤ max p.magFac 1 := le_max_right _ _
  -- half of the pupil, in pixels
  have hext : p.magFac * p.nbeam / 2 + p.nbeam * p.shearMax ≤ (1 + 2 * p.shearMax) * p.nbeam * max p.magFac 1 / 2 := by
    have a1 : p.nbeam * p.magFac ≤ p.nbeam * max p.magFac 1 := by gcongr
    have a2 : p.nbeam * p.shearMax * 1 ≤ p.nbeam * p.shearMax * max p.magFac 1 := by gcongr
    linarith
  have hx1 := abs_le.mp hxs
  have hy1 := abs_le.mp hys
  have hR : hexrad p / dx p = ppm p * corner p := by
    rw [hk]; unfold hexrad corner width width0; field_simp
  have hcr : corner p * √3 = p.magFac * 1.2225 := by unfold corner; field_simp
  have hc0 : 0 < corner p := by unfold corner; positivity
  have hpt : hexsep p = pitch p := by unfold hexsep pitch width width0; ring
  have key : ∀ c ∈ cellsA, ∃ img, (hexArgs p).hexagon (place (hexArgs p) c) = .ok img ∧ ∀ i j : ZMod (size p),
      img i j = stripMean 33 (hexSet (ctrX p + ppm p * pitch p * (√3 / 2 * c.1)) (ctrY p + ppm p * pitch p * (c.1 / 2 + c.2)) (ppm p * corner p)) j.val i.val := by
    intro c hc
    obtain ⟨b1, b2, b3, b4⟩ := cellsA_bounds c hc
    have b1' : (-6 : ℝ) ≤ c.1 := by exact_mod_cast b1
    have b2' : (c.1 : ℝ) ≤ 6 := by exact_mod_cast b2
    have b3' : (-11 : ℝ) ≤ c.1 + 2 * c.2 := by exact_mod_cast b3
    have b4' : (c.1 : ℝ) + 2 * c.2 ≤ 11 := by exact_mod_cast b4
    have hpl : place (hexArgs p) c = (hexsep p * (√3 / 2 * c.1) + (cShift p + Dap p * p.xShear), hexsep p * (c.1 / 2 + c.2) + (cShift p + Dap p * p.yShear)) := by
      unfold place hexArgs cellPos
      simp only [hclock, zero_mul, zero_div, Real.cos_zero, Real.sin_zero, mul_one, mul_zero, sub_zero, zero_add]
    -- vertical and horizontal reach
    have hpk : 0 ≤ ppm p * pitch p := by unfold pitch; positivity
    have hDm : p.magFac * p.nbeam / 2 = ppm p * (p.magFac * (6 * 1.2225 + 5.5 * p.wGap)) := by
      rw [← hkD, Dap_eq]; ring
    have hv : ppm p * pitch p * 5.5 + ppm p * corner p * (√3 / 2) = p.magFac * p.nbeam / 2 := by
      rw [hDm]; unfold pitch; linear_combination (ppm p / 2) * hcr
    have hh : ppm p * pitch p * (√3 / 2 * 6) + ppm p * corner p ≤ p.magFac * p.nbeam / 2 := by
      have e : ppm p * corner p = ppm p * (p.magFac * 1.2225 * (√3 / 3)) := by
        rw [show corner p = p.magFac * 1.2225 * (√3 / 3) by unfold corner; field_simp; rw [h3]]
      rw [hDm, e]
      unfold pitch
      have f1 : 1.2225 * (√3 * 3) + 1.2225 * (√3 / 3) ≤ 6 * 1.2225 := by linarith
      have f2 : p.wGap * (√3 * 3) ≤ p.wGap * 5.5 := by gcongr; linarith
      have f3 : p.magFac * ((1.2225 + p.wGap) * (√3 * 3) + 1.2225 * (√3 / 3)) ≤ p.magFac * (6 * 1.2225 + 5.5 * p.wGap) := mul_le_mul_of_nonneg_left (by linarith) hm.le
      have f4 : ppm p * (p.magFac * ((1.2225 + p.wGap) * (√3 * 3) + 1.2225 * (√3 / 3))) ≤ ppm p * (p.magFac * (6 * 1.2225 + 5.5 * p.wGap)) := mul_le_mul_of_nonneg_left f3 hkp.le
      linarith
    have hvy : -(ppm p * pitch p * 5.5) ≤ ppm p * pitch p * (c.1 / 2 + c.2) ∧ ppm p * pitch p * (c.1 / 2 + c.2) ≤ ppm p * pitch p * 5.5 := by
      rw [← mul_neg]
      exact ⟨mul_le_mul_of_nonneg_left (by linarith) hpk, mul_le_mul_of_nonneg_left (by linarith) hpk⟩
    have hhx : -(ppm p * pitch p * (√3 / 2 * 6)) ≤ ppm p * pitch p * (√3 / 2 * c.1) ∧ ppm p * pitch p * (√3 / 2 * c.1) ≤ ppm p * pitch p * (√3 / 2 * 6) := by
      have h30 : 0 ≤ √3 / 2 := by positivity
      rw [← mul_neg, ← mul_neg]
      exact ⟨mul_le_mul_of_nonneg_left (mul_le_mul_of_nonneg_left b1' h30) hpk, mul_le_mul_of_nonneg_left (mul_le_mul_of_nonneg_left b2' h30) hpk⟩
    have hsx : -(p.nbeam * p.shearMax) ≤ p.nbeam * p.xShear ∧ p.nbeam * p.xShear ≤ p.nbeam * p.shearMax := by
      rw [← mul_neg]
      exact ⟨mul_le_mul_of_nonneg_left hx1.1 hN.le, mul_le_mul_of_nonneg_left hx1.2 hN.le⟩
    have hsy : -(p.nbeam * p.shearMax) ≤ p.nbeam * p.yShear ∧ p.nbeam * p.yShear ≤ p.nbeam * p.shearMax := by
      rw [← mul_neg]
      exact ⟨mul_le_mul_of_nonneg_left hy1.1 hN.le, mul_le_mul_of_nonneg_left hy1.2 hN.le⟩
    have hres' : 1 / ((33 : ℕ) : ℝ) ≤ ppm p * corner p * (√3 / 2) := by
      have : ppm p * corner p * (√3 / 2) = p.magFac * 1.2225 * ppm p / 2 := by linear_combination (ppm p / 2) * hcr
      rw [this]; push_cast; linarith
    have hpos : ∀ (u v t : ℝ), (hexsep p * u + (cShift p + Dap p * t)) / (bm p).dx + (size p : ℝ) / 2 = (size p : ℝ) / 2 + shiftPix p + p.nbeam * t + ppm p * pitch p * u := by
      intro u v t
      rw [bm_dx p hN, add_div, add_div, cShift_eq p hdx.ne', hpt, ← hkD, hk]
      field_simp
      ring
    obtain ⟨img, e, h⟩ := flat_hexagon (size p) 33 (by norm_num) (bm p).dx (beamradius (bm p)) (hexrad p) (hexsep p * (√3 / 2 * c.1) + (cShift p + Dap p * p.xShear))
      (hexsep p * (c.1 / 2 + c.2) + (cShift p + Dap p * p.yShear)) (ctrX p + ppm p * pitch p * (√3 / 2 * c.1)) (ctrY p + ppm p * pitch p * (c.1 / 2 + c.2)) (ppm p * corner p)
      (hpos _ 0 _).symm (hpos _ 0 _).symm (by rw [bm_dx p hN, hR]) hres' (by unfold ctrX; linarith) (by unfold ctrX; linarith) (by unfold ctrY; linarith) (by unfold ctrY; linarith)
    refine ⟨img, ?_, h⟩
    rw [hpl]
    unfold HexArgs.hexagon hexArgs
    simp only [hclock]
    exact e
  classical
  choose! img hi hv using key
  refine ⟨_, C139_aperture_A (hexArgs p) rfl rfl img hi, fun i j => ?_⟩
  exact Finset.sum_congr rfl fun c hc => hv c hc i j

/-- Width of the struts, in metres: given in pupil diameters, by default 15 cm magnified. -/
noncomputable def strutWidth (p : Pupil) : ℝ := (p.wStrut.map fun w => w * (12 * 1.2225 + 11 * p.wGap)).getD (0.15 * p.magFac)

/-- The three struts in the frame of the pupil, in metres and degrees: centre, length, and angle from the vertical (counter-clockwise). -/
noncomputable def strutsAt (p : Pupil) : List ((ℝ × ℝ) × ℝ × ℝ) :=
  [((0, p.magFac * (12 * 1.2225 + 11 * p.wGap) / 4), 7 * (p.magFac * 1.2225), 0),
   ((1.5 * corner p, -(11 * √3 / 4) * corner p), (√93 + 1 / 2) * corner p, 12.7),
   ((-(1.5 * corner p), -(11 * √3 / 4) * corner p), (√93 + 1 / 2) * corner p, -12.7)]

/-- A strut in pixels: the whole frame is turned counter-clockwise by `clock_deg`. -/
noncomputable def strutSet (p : Pupil) (t : (ℝ × ℝ) × ℝ × ℝ) : Set (ℝ × ℝ) :=
  let a := p.clock * Real.pi / 180
  rectSet (ctrX p + ppm p * (t.1.1 * Real.cos a - t.1.2 * Real.sin a)) (ctrY p + ppm p * (t.1.1 * Real.sin a + t.1.2 * Real.cos a)) (ppm p * strutWidth p / 2) (ppm p * t.2.1 / 2)
    ((t.2.2 + p.clock) * Real.pi / 180)

open Classical in
/-- What the struts leave of a pixel. -/
noncomputable def open_ (p : Pupil) (j i : ℕ) : ℝ := if 0 < strutWidth p then ((strutsAt p).map fun t => 1 - stripMean 33 (strutSet p t) j i).prod else 1

theorem strutWidth_eq (p : Pupil) : wStrutM p = strutWidth p := by
  unfold wStrutM strutWidth
  cases p.wStrut <;> simp [Dap, width0]

theorem strut_mask (p : Pupil) (hN : 0 < p.nbeam) (hm : 0 < p.magFac) (hg : 0 ≤ p.wGap) (hw : 0 < strutWidth p) (t : Strut) (hlen : 0 < t.len) :
    ∃ G : ZMod (size p) → ZMod (size p) → ℝ, (∀ s : WF (size p), s.dx = dx p → addStrut p s t = applyMask s G) ∧ (∀ i j, 0 ≤ G i j ∧ G i j ≤ 1) ∧
      ∀ i j, G i j = 1 - stripMean 33 (strutSet p (t.at_, t.len, t.ang)) j.val i.val := by
  obtain ⟨hev, h2, hlo, hhi⟩ := size_bounds p hN
  have : NeZero (size p) := ⟨by omega⟩
  have hD : 0 < Dap p := by rw [Dap_eq]; positivity
  have hdx : 0 < dx p := div_pos hD hN
  have hk : ppm p = 1 / dx p := by unfold ppm dx; rw [← Dap_eq]; field_simp
  have hkD : ppm p * Dap p = p.nbeam := by unfold ppm; rw [← Dap_eq]; field_simp
  have hrx : 0 < 0.5 * strutWidth p / dx p := by positivity
  have hry : 0 < 0.5 * t.len / dx p := by positivity
  have hhalf : ((size p / 2 : ℕ) : ℝ) = (size p : ℝ) / 2 := by
    obtain ⟨m, hm⟩ := hev
    rw [hm, show (m + m) / 2 = m by omega]; push_cast; ring
  have hpos : ∀ u v : ℝ, (u + Dap p * v + cShift p) / dx p + ((size p / 2 : ℕ) : ℝ) = (size p : ℝ) / 2 + shiftPix p + p.nbeam * v + ppm p * u := by
    intro u v
    rw [add_div, add_div, cShift_eq p hdx.ne', hhalf, ← hkD, hk]
    field_simp
    ring
  let r : Rect := Rect.ofArgs (size p) (dx p) 0 false (strutWidth p) t.len (some ((rotated p t.at_).1 + Dap p * p.xShear + cShift p)) (some ((rotated p t.at_).2 + Dap p * p.yShear + cShift p)) (t.ang + p.clock)
  have hset : rectSet r.xc r.yc r.rx r.ry r.t = strutSet p (t.at_, t.len, t.ang) := by
    simp only [r, Rect.ofArgs, Bool.false_eq_true, if_false]
    unfold strutSet ctrX ctrY
    dsimp only
    rw [hpos, hpos, hk]
    unfold rotated cosd sind
    congr 1
    · ring
    · ring
    · ring
    · ring
  refine ⟨rectangle (size p) 33 r true, ?_, ?_, ?_⟩
  · intro s hs
    unfold addStrut
    dsimp only
    rw [strutWidth_eq, obscuration_eq 33 s (dx p) _ _ _ _ _ hs]
  · intro i j
    have := C101_range (n := size p) (mag := 33) r (by norm_num) hrx hry i j
    exact ⟨by linarith [this.2.1, this.2.2], by linarith [this.1, this.2.2]⟩
  · intro i j
    rw [C101_strips (n := size p) (mag := 33) r (by norm_num) hrx hry, if_pos rfl, hset]

/-- The struts: what is left of the wavefront, and bounds. -/
theorem struts_value (p : Pupil) (hN : 0 < p.nbeam) (hm : 0 < p.magFac) (hg : 0 ≤ p.wGap) (s : WF (size p)) (hs : s.dx = dx p) (i j : ZMod (size p)) :
    readOut (addStruts p s) i j = readOut s i j * open_ p j.val i.val ∧ 0 ≤ open_ p j.val i.val ∧ open_ p j.val i.val ≤ 1 := by
  unfold addStruts open_
  rw [strutWidth_eq]
  by_cases hw : 0 < strutWidth p
  · rw [if_pos hw, if_pos hw]
    have hc0 : 0 < corner p := by unfold corner; positivity
    have hce : hexrad p = corner p := by unfold hexrad corner width width0; field_simp
    have hlen : ∀ t ∈ struts p, 0 < t.len := by
      intro t ht
      unfold struts at ht
      rw [hce] at ht
      simp only [List.mem_cons, List.not_mem_nil, or_false] at ht
      rcases ht with rfl | rfl | rfl <;> (try unfold width width0) <;> positivity
    obtain ⟨t1, t2, t3, ht⟩ : ∃ t1 t2 t3, struts p = [t1, t2, t3] := ⟨_, _, _, rfl⟩
    rw [ht] at hlen ⊢
    have hsp : strutsAt p = [(t1.at_, t1.len, t1.ang), (t2.at_, t2.len, t2.ang), (t3.at_, t3.len, t3.ang)] := by
      unfold struts at ht
      simp only [List.cons.injEq, and_true] at ht
      obtain ⟨rfl, rfl, rfl⟩ := ht
      unfold strutsAt
      rw [hce]
      simp only [Dap_eq, width, width0, List.cons.injEq, Prod.mk.injEq, and_true, true_and]
      norm_num
      repeat' constructor
      all_goals ring
    obtain ⟨G1, a1, b1, c1⟩ := strut_mask p hN hm hg hw t1 (hlen _ (by simp))
    obtain ⟨G2, a2, b2, c2⟩ := strut_mask p hN hm hg hw t2 (hlen _ (by simp))
    obtain ⟨G3, a3, b3, c3⟩ := strut_mask p hN hm hg hw t3 (hlen _ (by simp))
    have e : [t1, t2, t3].foldl (addStrut p) s = [G1, G2, G3].foldl (fun s G => applyMask s G) s := by
      simp only [List.foldl_cons, List.foldl_nil]
      rw [a1 s hs, a2 _ (by exact hs), a3 _ (by exact hs)]
    have hprod : ((strutsAt p).map fun t => 1 - stripMean 33 (strutSet p t) j.val i.val).prod = G1 i j * G2 i j * G3 i j := by
      rw [hsp]
      simp only [List.map_cons, List.map_nil, List.prod_cons, List.prod_nil, mul_one]
      rw [c1, c2, c3, mul_assoc]
    rw [hprod, e]
    refine ⟨?_, ?_, ?_⟩
    · simp only [List.foldl_cons, List.foldl_nil]
      have key : ∀ (s : WF (size p)) (G : ZMod (size p) → ZMod (size p) → ℝ), (∀ i j, 0 ≤ G i j) → readOut (applyMask s G) i j = readOut s i j * G i j := by
        intro s G h
        have := readOut_fold (fun _ : Unit => G) (fun _ => h) [()] i j s
        simpa using this
      rw [key _ _ fun i j => (b3 i j).1, key _ _ fun i j => (b2 i j).1, key _ _ fun i j => (b1 i j).1]
      ring
    · have := (b1 i j).1; have := (b2 i j).1; have := (b3 i j).1
      positivity
    · exact mul_le_one₀ (mul_le_one₀ (b1 i j).2 (b2 i j).1 (b2 i j).2) (b3 i j).1 (b3 i j).2
  · rw [if_neg hw, if_neg hw]
    exact ⟨by ring, zero_le_one, le_rfl⟩

/-- The pixel of the array before the turn by 180 degrees: pixel `N - 1 - k` for pixel `k`. -/
noncomputable def unturned (p : Pupil) (k : ZMod (size p)) : ZMod (size p) := if p.rot180 then -1 - k else k

theorem finish_eq (p : Pupil) (s : WF (size p)) (ap : ZMod (size p) → ZMod (size p) → ℝ) (i j : ZMod (size p)) :
    finish p s ap i j = min 1 (readOut s (unturned p i) (unturned p j) * ap (unturned p i) (unturned p j)) := by
  unfold finish unturned
  cases p.rot180 <;> simp only [if_true, Bool.false_eq_true, if_false] <;> split_ifs with h
  · rw [min_eq_left h.le]
  · rw [min_eq_right (not_lt.mp h)]
  · rw [min_eq_left h.le]
  · rw [min_eq_right (not_lt.mp h)]

/-- C139: the unclocked LUVOIR A pupil. The call succeeds on an even-sized array, and each pixel is the part of it covered by the segments, times the parts the three struts leave open, at most 1;
with `flagRot180deg` the array is turned by 180 degrees. -/
theorem C139_value_A (p : Pupil) (hclock : p.clock = 0) (hl : p.lyot = none) (hN : 0 < p.nbeam) (hm : 0 < p.magFac) (hg : 0 ≤ p.wGap) (hres : 2 / 33 ≤ p.magFac * 1.2225 * ppm p) :
    Even (size p) ∧ ∃ mask, pupil p = .ok mask ∧ ∀ i j, mask i j = min 1 (open_ p (unturned p j).val (unturned p i).val * ∑ c ∈ cellsA,
      stripMean 33 (hexSet (ctrX p + ppm p * pitch p * (√3 / 2 * c.1)) (ctrY p + ppm p * pitch p * (c.1 / 2 + c.2)) (ppm p * corner p)) (unturned p j).val (unturned p i).val) := by
  obtain ⟨ap, e, h⟩ := C139_contained_A p hclock hN hm hg hres
  refine ⟨(size_bounds p hN).1, ?_⟩
  unfold pupil
  rw [hl, e]
  refine ⟨_, rfl, fun i j => ?_⟩
  show finish p (addStruts p (bm p)) ap i j = _
  rw [finish_eq, (struts_value p hN hm hg (bm p) (bm_dx p hN) _ _).1, readOut_one _ _ _ (fun _ _ => rfl), one_mul, h]

/-- C139: in Lyot-stop mode (no clocking assumed): the outer disc without the inner one, times what the struts leave open. -/
theorem C139_value_lyot (p : Pupil) (ID OD : ℝ) (hl : p.lyot = some (ID, OD)) (hID : 0 < ID) (hOD : 0 < OD) (hN : 0 < p.nbeam) (hm : 0 < p.magFac) (hg : 0 ≤ p.wGap)
    (hb1 : p.magFac * (ID / 2) * p.nbeam ≤ 1e7) (hb2 : p.magFac * (OD / 2) * p.nbeam ≤ 1e7) :
    ∃ mask, pupil p = .ok mask ∧ ∀ i j, mask i j = open_ p (unturned p j).val (unturned p i).val *
      (coverage 33 (discD (ctrX p) (ctrY p) (p.magFac * (OD / 2) * p.nbeam)) 1 (unturned p j).val (unturned p i).val *
        (1 - coverage 33 (discD (ctrX p) (ctrY p) (p.magFac * (ID / 2) * p.nbeam)) 1 (unturned p j).val (unturned p i).val)) := by
  obtain ⟨hev, h2, hlo, hhi⟩ := size_bounds p hN
  have : NeZero (size p) := ⟨by omega⟩
  have hD : 0 < Dap p := by rw [Dap_eq]; positivity
  have hdx : 0 < dx p := div_pos hD hN
  have hhalf : ((size p / 2 : ℕ) : ℝ) = (size p : ℝ) / 2 := by
    obtain ⟨m, hm⟩ := hev
    rw [hm, show (m + m) / 2 = m by omega]; push_cast; ring
  have hDx : Dap p / dx p = p.nbeam := by unfold dx; field_simp
  have hell : ∀ (br q : ℝ), Ell.ofArgs (size p) (dx p) br false (p.magFac * (q / 2) * Dap p) (p.magFac * (q / 2) * Dap p) (cShift p + Dap p * p.xShear) (cShift p + Dap p * p.yShear) 0 =
      ⟨ctrX p, ctrY p, p.magFac * (q / 2) * p.nbeam, p.magFac * (q / 2) * p.nbeam, 0 * Real.pi / 180⟩ := by
    intro br q
    rw [ofArgs_circ, hhalf, add_div, add_div, cShift_eq p hdx.ne', mul_div_assoc (p.magFac * (q / 2)), mul_div_right_comm, mul_div_right_comm, hDx]
    unfold ctrX ctrY
    congr 1 <;> ring
  have hs0 : 0 ≤ p.shearMax := le_trans (abs_nonneg _) (le_max_left _ _)
  have hM2 : 1 ≤ max p.magFac 1 := le_max_right _ _
  have hreach : p.nbeam * p.shearMax ≤ (1 + 2 * p.shearMax) * p.nbeam * max p.magFac 1 / 2 := by
    have : p.nbeam * p.shearMax * 1 ≤ p.nbeam * p.shearMax * max p.magFac 1 := by gcongr
    have : 0 ≤ p.nbeam * max p.magFac 1 := by positivity
    linarith
  have hin : ∀ t, |t| ≤ p.shearMax → -(1 / 2) < (size p : ℝ) / 2 + shiftPix p + p.nbeam * t ∧ (size p : ℝ) / 2 + shiftPix p + p.nbeam * t < size p - 1 / 2 := by
    intro t ht
    obtain ⟨h3, h4⟩ := abs_le.mp ht
    have a1 : p.nbeam * -p.shearMax ≤ p.nbeam * t := mul_le_mul_of_nonneg_left h3 hN.le
    have a2 : p.nbeam * t ≤ p.nbeam * p.shearMax := mul_le_mul_of_nonneg_left h4 hN.le
    constructor <;> linarith
  have hx := hin p.xShear (le_max_left _ _)
  have hy := hin p.yShear (le_max_right _ _)
  obtain ⟨o, eo, ho⟩ := circle_ok (size p) 33 h2 (by decide) (by norm_num) (ctrX p) (ctrY p) (p.magFac * (OD / 2) * p.nbeam) (by positivity) hb2 hx hy false
  obtain ⟨q, eq, hq⟩ := circle_ok (size p) 33 h2 (by decide) (by norm_num) (ctrX p) (ctrY p) (p.magFac * (ID / 2) * p.nbeam) (by positivity) hb1 hx hy true
  simp only [Bool.false_eq_true, if_false, if_true] at ho hq
  have ho0 : ∀ i j, 0 ≤ o i j ∧ o i j ≤ 1 := fun i j => by rw [ho]; exact ⟨coverage_nonneg .., coverage_le_one ..⟩
  have hq0 : ∀ i j, 0 ≤ q i j ∧ q i j ≤ 1 := fun i j => by
    rw [hq]
    have h1 := coverage_nonneg 33 (discD (ctrX p) (ctrY p) (p.magFac * (ID / 2) * p.nbeam)) 1 j.val i.val
    have h2 := coverage_le_one 33 (discD (ctrX p) (ctrY p) (p.magFac * (ID / 2) * p.nbeam)) 1 j.val i.val
    constructor <;> linarith
  have hbd := bm_dx p hN
  have e : pupil p = .ok (finish p (addStruts p (applyMask (applyMask (bm p) o) q)) fun _ _ => 1) := by
    unfold pupil
    rw [hl]
    simp only [circularAperture, ellipticalObscuration, hbd, hell, eo, bind, Except.bind, pure, Except.pure]
    have hbd' : (applyMask (bm p) o).dx = dx p := hbd
    simp only [hbd', hell, eq, Except.map]
  refine ⟨_, e, fun i j => ?_⟩
  have key : ∀ (s : WF (size p)) (G : ZMod (size p) → ZMod (size p) → ℝ) (i j : ZMod (size p)), (∀ i j, 0 ≤ G i j) → readOut (applyMask s G) i j = readOut s i j * G i j := by
    intro s G i j h
    have := readOut_fold (fun _ : Unit => G) (fun _ => h) [()] i j s
    simpa using this
  obtain ⟨v1, v2, v3⟩ := struts_value p hN hm hg (applyMask (applyMask (bm p) o) q) hbd (unturned p i) (unturned p j)
  rw [finish_eq, v1, key _ _ _ _ fun i j => (hq0 i j).1, key _ _ _ _ fun i j => (ho0 i j).1, readOut_one _ _ _ (fun _ _ => rfl), one_mul, mul_one, ← ho, ← hq, mul_comm (open_ p _ _)]
  rw [min_eq_right]
  exact mul_le_one₀ (mul_le_one₀ (ho0 _ _).2 (hq0 _ _).1 (hq0 _ _).2) v2 v3

/-- C139: in the array that is handed back, the centre of the pupil is at pixel `N/2` (`(N-1)/2` for interpixel centering) moved by the shear, and with `flagRot180deg` by the opposite shear: the
pupil is turned about its nominal centre. -/
theorem C139_centre (p : Pupil) (hN : 0 < p.nbeam) (k : ZMod (size p)) :
    let nominal := (size p : ℝ) / 2 + (if p.centering = .interpixel then -1 / 2 else 0)
    ((unturned p k).val : ℝ) - ctrX p = if p.rot180 then -(k.val - (nominal - p.nbeam * p.xShear)) else k.val - (nominal + p.nbeam * p.xShear) := by
  obtain ⟨hev, h2, -⟩ := size_bounds p hN
  have : NeZero (size p) := ⟨by omega⟩
  have hv : ((-1 - k : ZMod (size p)).val : ℝ) = size p - 1 - k.val := by
    have hk := ZMod.val_lt k
    have : (-1 - k : ZMod (size p)) = ((size p - 1 - k.val : ℕ) : ZMod (size p)) := by
      rw [Nat.cast_sub (by omega), Nat.cast_sub (by omega)]
      simp
    rw [this, ZMod.val_cast_of_lt (by omega), Nat.cast_sub (by omega), Nat.cast_sub (by omega)]
    simp
  unfold unturned ctrX shiftPix
  dsimp only
  cases p.centering <;> cases p.rot180 <;> simp only [if_true, Bool.false_eq_true, if_false, reduceCtorEq] <;> (try rw [hv]) <;> ring

/-- C139: the values of every LUVOIR A pupil, of any clocking, are at most 1. -/
theorem C139_range_A (p : Pupil) (mask : ZMod (size p) → ZMod (size p) → ℝ) (h : pupil p = .ok mask) (i j : ZMod (size p)) : mask i j ≤ 1 := by
  have hf : ∀ s ap, finish p s ap i j ≤ 1 := fun s ap => by rw [finish_eq]; exact min_le_left _ _
  unfold pupil at h
  split at h
  · cases ha : hexApertureA (hexArgs p) with
    | error e => rw [ha] at h; cases h
    | ok ap =>
      rw [ha] at h
      simp only [Except.map, Except.ok.injEq] at h
      rw [← h]; exact hf _ _
  · rename_i ID OD _
    revert h
    generalize circularAperture _ _ _ _ _ _ = r
    cases r with
    | error e => intro h; cases h
    | ok s =>
      simp only [Except.bind]
      generalize ellipticalObscuration _ _ _ _ _ _ _ _ = r
      cases r with
      | error e => intro h; cases h
      | ok s =>
        simp only [Except.map, Except.ok.injEq]
        intro h
        rw [← h]; exact hf _ _

end A

namespace B
/-- Metres to pixels: `Nbeam` points across the circumscribed circle, 0.96075 of which the flat-to-flat diameter takes. -/
noncomputable def ppm (p : Pupil) : ℝ := 0.96075 * p.nbeam / (8 * 0.955 + 7 * p.wGap)
/-- Column of the centre of the pupil: the shear is in diameters of the circumscribed circle. -/
noncomputable def ctrX (p : Pupil) : ℝ := (size p : ℝ) / 2 + shiftPix p + p.nbeam * p.xShear
/-- Row of the centre of the pupil. -/
noncomputable def ctrY (p : Pupil) : ℝ := (size p : ℝ) / 2 + shiftPix p + p.nbeam * p.yShear
/-- Centre to corner of a segment, in metres. -/
noncomputable def corner (p : Pupil) : ℝ := p.magFac * 0.955 / √3
/-- Centre to centre of neighbouring segments, in metres. -/
noncomputable def pitch (p : Pupil) : ℝ := p.magFac * (0.955 + p.wGap)

theorem size_bounds (p : Pupil) (hN : 0 < p.nbeam) : Even (size p) ∧ 2 ≤ size p ∧
    (1 + 2 * p.shearMax) * 1.02 * (0.96075 * p.nbeam) * max p.magFac 1 / 2 ≤ (size p : ℝ) / 2 + shiftPix p + 1 / 2 ∧
    (1 + 2 * p.shearMax) * 1.02 * (0.96075 * p.nbeam) * max p.magFac 1 / 2 ≤ (size p : ℝ) / 2 - shiftPix p - 1 / 2 := by
  have h0 : 0 ≤ p.shearMax := le_trans (abs_nonneg _) (le_max_left _ _)
  have hm : 0 < max p.magFac 1 := lt_of_lt_of_le one_pos (le_max_right _ _)
  have hq : 0 < (1 + 2 * p.shearMax) * 1.02 * (0.96075 * p.nbeam) * max p.magFac 1 := by positivity
  unfold size shiftPix nbeam scaleFac
  generalize (1 + 2 * p.shearMax) * 1.02 * (0.96075 * p.nbeam) * max p.magFac 1 = q at *
  cases p.centering with
  | pixel =>
    obtain ⟨h1, h2, h3, h4⟩ := two_le_ceilEven (q + 1) (by linarith)
    obtain ⟨m, hm'⟩ : ∃ m : ℕ, Util.ceilEven (q + 1) = m := ⟨(Util.ceilEven (q + 1)).toNat, by omega⟩
    dsimp only
    rw [hm'] at h1 h2 h3 h4 ⊢
    rw [Int.toNat_natCast]
    refine ⟨(Int.even_coe_nat m).mp h4, by omega, ?_, ?_⟩ <;> push_cast at h2 ⊢ <;> split_ifs <;> linarith
  | interpixel =>
    obtain ⟨h1, h2, h3, h4⟩ := two_le_ceilEven q hq
    obtain ⟨m, hm'⟩ : ∃ m : ℕ, Util.ceilEven q = m := ⟨(Util.ceilEven q).toNat, by omega⟩
    dsimp only
    rw [hm'] at h1 h2 h3 h4 ⊢
    rw [Int.toNat_natCast]
    refine ⟨(Int.even_coe_nat m).mp h4, by omega, ?_, ?_⟩ <;> push_cast at h2 ⊢ <;> linarith

theorem Dap_eq (p : Pupil) : Dap p = 8 * 0.955 + 7 * p.wGap := rfl

theorem bm_dx (p : Pupil) (hN : 0 < p.nbeam) : (bm p).dx = dx p := by
  have := (size_bounds p hN).2.1
  have h : (size p : ℝ) ≠ 0 := by positivity
  show Dap p / (size p * (nbeam p / size p)) = Dap p / nbeam p
  rw [mul_div_cancel₀ _ h]

theorem cShift_eq (p : Pupil) (h : dx p ≠ 0) : cShift p / dx p = shiftPix p := by
  unfold cShift shiftPix
  cases p.centering <;> dsimp only
  · split_ifs
    · rw [neg_div, div_self h]
    · simp
  · rw [neg_div, neg_div, div_right_comm, div_self h]; ring

set_option maxHeartbeats 1000000 in
/-- C139: no segment of an unclocked LUVOIR B pupil leaves the array: for every beam size, centering, magnification and gap, and shears up to a fifth of the diameter, each of the 55 segments is drawn whole (the part of each
pixel it covers, as means over 33 sub-rows). -/
theorem C139_contained_B (p : Pupil) (hclock : p.clock = 0) (hN : 0 < p.nbeam) (hm : 0 < p.magFac) (hg : 0 ≤ p.wGap) (hshear : p.shearMax ≤ 1 / 5) (hres : 2 / 33 ≤ p.magFac * 0.955 * ppm p) :
    ∃ ap : ZMod (size p) → ZMod (size p) → ℝ, hexApertureB (hexArgs p) = .ok ap ∧ ∀ i j, ap i j = ∑ c ∈ cellsB,
      stripMean 33 (hexSet (ctrX p + ppm p * pitch p * (√3 / 2 * c.1)) (ctrY p + ppm p * pitch p * (c.1 / 2 + c.2)) (ppm p * corner p)) j.val i.val := by
  obtain ⟨hev, h2, hlo, hhi⟩ := size_bounds p hN
  have : NeZero (size p) := ⟨by omega⟩
  have hD : 0 < Dap p := by rw [Dap_eq]; positivity
  have hdx : 0 < dx p := div_pos hD (by unfold nbeam scaleFac; positivity)
  have hk : ppm p = 1 / dx p := by unfold ppm dx nbeam scaleFac; rw [← Dap_eq]; field_simp
  have hkp : 0 < ppm p := by rw [hk]; positivity
  have hkD : ppm p * Dap p = 0.96075 * p.nbeam := by unfold ppm; rw [← Dap_eq]; field_simp
  have h3 : √3 ^ 2 = 3 := Real.sq_sqrt (by norm_num)
  have h3a : 1.732 < √3 := by rw [Real.lt_sqrt (by norm_num)]; norm_num
  have h3b : √3 < 1.7321 := by rw [Real.sqrt_lt' (by norm_num)]; norm_num
  have hxs : |p.xShear| ≤ p.shearMax := le_max_left _ _
  have hys : |p.yShear| ≤ p.shearMax := le_max_right _ _
  have hs0 : 0 ≤ p.shearMax := le_trans (abs_nonneg _) hxs
  have hM1 : p.magFac ≤ max p.magFac 1 := le_max_left _ _
  have hM2 : 1 ≤ max p.magFac 1 := le_max_right _ _
  -- half of the pupil, in pixels
  have hext : 1.0105 * (p.magFac * (0.96075 * p.nbeam) / 2) + p.nbeam * p.shearMax < (1 + 2 * p.shearMax) * 1.02 * (0.96075 * p.nbeam) * max p.magFac 1 / 2 := by
    have a1 : p.nbeam * p.magFac ≤ p.nbeam * max p.magFac 1 := by gcongr
    have a2 : p.nbeam * p.shearMax * 1 ≤ p.nbeam * p.shearMax * max p.magFac 1 := by gcongr
    have a3 : p.nbeam * p.shearMax * 1 ≤ p.nbeam * (1 / 5) := by rw [mul_one]; gcongr
    have a4 : p.nbeam * 1 ≤ p.nbeam * max p.magFac 1 := by gcongr
    have a5 : 0 ≤ p.nbeam * p.shearMax := by positivity
    generalize max p.magFac 1 = M at *
    generalize p.shearMax = s at *
    nlinarith
  have hx1 := abs_le.mp hxs
  have hy1 := abs_le.mp hys
  have hR : hexrad p / dx p = ppm p * corner p := by
    rw [hk]; unfold hexrad corner width width0; field_simp
  have hcr : corner p * √3 = p.magFac * 0.955 := by unfold corner; field_simp
  have hc0 : 0 < corner p := by unfold corner; positivity
  have hpt : hexsep p = pitch p := by unfold hexsep pitch width width0; ring
  have key : ∀ c ∈ cellsB, ∃ img, (hexArgs p).hexagon (place (hexArgs p) c) = .ok img ∧ ∀ i j : ZMod (size p),
      img i j = stripMean 33 (hexSet (ctrX p + ppm p * pitch p * (√3 / 2 * c.1)) (ctrY p + ppm p * pitch p * (c.1 / 2 + c.2)) (ppm p * corner p)) j.val i.val := by
    intro c hc
    obtain ⟨b1, b2, b3, b4⟩ := cellsB_bounds c hc
    have b1' : (-4 : ℝ) ≤ c.1 := by exact_mod_cast b1
    have b2' : (c.1 : ℝ) ≤ 4 := by exact_mod_cast b2
    have b3' : (-7 : ℝ) ≤ c.1 + 2 * c.2 := by exact_mod_cast b3
    have b4' : (c.1 : ℝ) + 2 * c.2 ≤ 7 := by exact_mod_cast b4
    have hpl : place (hexArgs p) c = (hexsep p * (√3 / 2 * c.1) + (cShift p + 1 / scaleFac * Dap p * p.xShear), hexsep p * (c.1 / 2 + c.2) + (cShift p + 1 / scaleFac * Dap p * p.yShear)) := by
      unfold place hexArgs cellPos
      simp only [hclock, zero_mul, zero_div, Real.cos_zero, Real.sin_zero, mul_one, mul_zero, sub_zero, zero_add]
    -- vertical and horizontal reach
    have hpk : 0 ≤ ppm p * pitch p := by unfold pitch; positivity
    have hDm : p.magFac * (0.96075 * p.nbeam) / 2 = ppm p * (p.magFac * (4 * 0.955 + 3.5 * p.wGap)) := by
      rw [← hkD, Dap_eq]; ring
    have hv : ppm p * pitch p * 3.5 + ppm p * corner p * (√3 / 2) = p.magFac * (0.96075 * p.nbeam) / 2 := by
      rw [hDm]; unfold pitch; linear_combination (ppm p / 2) * hcr
    have hh : ppm p * pitch p * (√3 / 2 * 4) + ppm p * corner p ≤ 1.0105 * (p.magFac * (0.96075 * p.nbeam) / 2) := by
      have e : ppm p * corner p = ppm p * (p.magFac * 0.955 * (√3 / 3)) := by
        rw [show corner p = p.magFac * 0.955 * (√3 / 3) by unfold corner; field_simp; rw [h3]]
      rw [hDm, e]
      unfold pitch
      have f1 : 0.955 * (√3 * 2) + 0.955 * (√3 / 3) ≤ 1.0105 * (4 * 0.955) := by linarith
      have f2 : p.wGap * (√3 * 2) ≤ p.wGap * (1.0105 * 3.5) := mul_le_mul_of_nonneg_left (by linarith) hg
      have f3 : p.magFac * ((0.955 + p.wGap) * (√3 * 2) + 0.955 * (√3 / 3)) ≤ p.magFac * (1.0105 * (4 * 0.955 + 3.5 * p.wGap)) := mul_le_mul_of_nonneg_left (by linarith) hm.le
      have f4 : ppm p * (p.magFac * ((0.955 + p.wGap) * (√3 * 2) + 0.955 * (√3 / 3))) ≤ ppm p * (p.magFac * (1.0105 * (4 * 0.955 + 3.5 * p.wGap))) := mul_le_mul_of_nonneg_left f3 hkp.le
      linarith
    have hnn : 0 ≤ p.magFac * (0.96075 * p.nbeam) / 2 := by positivity
    have hvy : -(ppm p * pitch p * 3.5) ≤ ppm p * pitch p * (c.1 / 2 + c.2) ∧ ppm p * pitch p * (c.1 / 2 + c.2) ≤ ppm p * pitch p * 3.5 := by
      rw [← mul_neg]
      exact ⟨mul_le_mul_of_nonneg_left (by linarith) hpk, mul_le_mul_of_nonneg_left (by linarith) hpk⟩
    have hhx : -(ppm p * pitch p * (√3 / 2 * 4)) ≤ ppm p * pitch p * (√3 / 2 * c.1) ∧ ppm p * pitch p * (√3 / 2 * c.1) ≤ ppm p * pitch p * (√3 / 2 * 4) := by
      have h30 : 0 ≤ √3 / 2 := by positivity
      rw [← mul_neg, ← mul_neg]
      exact ⟨mul_le_mul_of_nonneg_left (mul_le_mul_of_nonneg_left b1' h30) hpk, mul_le_mul_of_nonneg_left (mul_le_mul_of_nonneg_left b2' h30) hpk⟩
    have hsx : -(p.nbeam * p.shearMax) ≤ p.nbeam * p.xShear ∧ p.nbeam * p.xShear ≤ p.nbeam * p.shearMax := by
      rw [← mul_neg]
      exact ⟨mul_le_mul_of_nonneg_left hx1.1 hN.le, mul_le_mul_of_nonneg_left hx1.2 hN.le⟩
    have hsy : -(p.nbeam * p.shearMax) ≤ p.nbeam * p.yShear ∧ p.nbeam * p.yShear ≤ p.nbeam * p.shearMax := by
      rw [← mul_neg]
      exact ⟨mul_le_mul_of_nonneg_left hy1.1 hN.le, mul_le_mul_of_nonneg_left hy1.2 hN.le⟩
    have hres' : 1 / ((33 : ℕ) : ℝ) ≤ ppm p * corner p * (√3 / 2) := by
      have : ppm p * corner p * (√3 / 2) = p.magFac * 0.955 * ppm p / 2 := by linear_combination (ppm p / 2) * hcr
      rw [this]; push_cast; linarith
    have hpos : ∀ (u v t : ℝ), (hexsep p * u + (cShift p + 1 / scaleFac * Dap p * t)) / (bm p).dx + (size p : ℝ) / 2 = (size p : ℝ) / 2 + shiftPix p + p.nbeam * t + ppm p * pitch p * u := by
      intro u v t
      have hD' : 1 / scaleFac * Dap p * t / dx p = p.nbeam * t := by
        have : Dap p / dx p = 0.96075 * p.nbeam := by rw [← hkD, hk]; field_simp
        unfold scaleFac
        rw [show 1 / 0.96075 * Dap p * t / dx p = 1 / 0.96075 * t * (Dap p / dx p) by ring, this]
        ring
      rw [bm_dx p hN, add_div, add_div, cShift_eq p hdx.ne', hpt, hD', hk]
      field_simp
      ring
    obtain ⟨img, e, h⟩ := flat_hexagon (size p) 33 (by norm_num) (bm p).dx (beamradius (bm p)) (hexrad p) (hexsep p * (√3 / 2 * c.1) + (cShift p + 1 / scaleFac * Dap p * p.xShear))
      (hexsep p * (c.1 / 2 + c.2) + (cShift p + 1 / scaleFac * Dap p * p.yShear)) (ctrX p + ppm p * pitch p * (√3 / 2 * c.1)) (ctrY p + ppm p * pitch p * (c.1 / 2 + c.2)) (ppm p * corner p)
      (hpos _ 0 _).symm (hpos _ 0 _).symm (by rw [bm_dx p hN, hR]) hres' (by unfold ctrX; linarith) (by unfold ctrX; linarith) (by unfold ctrY; linarith) (by unfold ctrY; linarith)
    refine ⟨img, ?_, h⟩
    rw [hpl]
    unfold HexArgs.hexagon hexArgs
    simp only [hclock]
    exact e
  classical
  choose! img hi hv using key
  refine ⟨_, C139_aperture_B (hexArgs p) rfl rfl img hi, fun i j => ?_⟩
  exact Finset.sum_congr rfl fun c hc => hv c hc i j

/-- C139: the unclocked LUVOIR B pupil: each pixel is the part of it covered by the 55 segments. -/
theorem C139_value_B (p : Pupil) (hclock : p.clock = 0) (hN : 0 < p.nbeam) (hm : 0 < p.magFac) (hg : 0 ≤ p.wGap) (hshear : p.shearMax ≤ 1 / 5) (hres : 2 / 33 ≤ p.magFac * 0.955 * ppm p) :
    Even (size p) ∧ ∃ mask, pupil p = .ok mask ∧ ∀ i j, mask i j = ∑ c ∈ cellsB,
      stripMean 33 (hexSet (ctrX p + ppm p * pitch p * (√3 / 2 * c.1)) (ctrY p + ppm p * pitch p * (c.1 / 2 + c.2)) (ppm p * corner p)) j.val i.val := by
  obtain ⟨ap, e, h⟩ := C139_contained_B p hclock hN hm hg hshear hres
  refine ⟨(size_bounds p hN).1, ?_⟩
  unfold pupil
  rw [e]
  refine ⟨_, rfl, fun i j => ?_⟩
  show readOut (bm p) i j * ap i j = _
  rw [readOut_one _ _ _ (fun _ _ => rfl), one_mul, h]

/-- C139 (violated for B): `flagRot180deg` does not turn the LUVOIR B pupil. With interpixel centering it has no effect at all, whatever the shear and the clocking (LUVOIR A is turned:
`C139_centre`); with pixel centering the pupil is put one pixel lower and further left, and not turned back. -/
theorem C139_rot_violated (p : Pupil) (hc : p.centering = .interpixel) : pupil { p with rot180 := true } = pupil p ∧ pupil { p with rot180 := false } = pupil p := by
  obtain ⟨a, c, x, y, k, m, w, r, s, l⟩ := p
  simp only at hc
  subst hc
  exact ⟨rfl, rfl⟩

theorem C139_rot_pixel (p : Pupil) (hc : p.centering = .pixel) (hr : p.rot180 = true) : ctrX p = ctrX { p with rot180 := false } - 1 ∧ ctrY p = ctrY { p with rot180 := false } - 1 := by
  have hsz : size { p with rot180 := false } = size p := rfl
  unfold ctrX ctrY shiftPix
  rw [hsz]
  simp only [hc, hr, if_true, Bool.false_eq_true, if_false]
  constructor <;> ring

end B

/-- A pupil of 200 points across (and 1/20 of shear), to which the theorems apply. -/
noncomputable def demo (c : Util.Centering) (r : Bool) (l : Option (ℝ × ℝ)) : Pupil := ⟨200, c, 1 / 20, -1 / 50, 0, 1, 6e-3, r, none, l⟩

example (c : Util.Centering) (r : Bool) : ∃ mask, A.pupil (demo c r none) = .ok mask := by
  obtain ⟨-, m, h, -⟩ := A.C139_value_A (demo c r none) rfl rfl (by norm_num [demo]) (by norm_num [demo]) (by norm_num [demo]) (by norm_num [demo, A.ppm])
  exact ⟨m, h⟩

example (c : Util.Centering) (r : Bool) : ∃ mask, A.pupil (demo c r (some (0.3, 0.8))) = .ok mask := by
  obtain ⟨m, h, -⟩ := A.C139_value_lyot (demo c r (some (0.3, 0.8))) _ _ rfl (by norm_num) (by norm_num) (by norm_num [demo]) (by norm_num [demo]) (by norm_num [demo]) (by norm_num [demo]) (by norm_num [demo])
  exact ⟨m, h⟩

example (c : Util.Centering) (r : Bool) : ∃ mask, B.pupil (demo c r none) = .ok mask := by
  obtain ⟨-, m, h, -⟩ := B.C139_value_B (demo c r none) rfl (by norm_num [demo]) (by norm_num [demo]) (by norm_num [demo]) (by norm_num [demo, Pupil.shearMax, abs_le]) (by norm_num [demo, B.ppm])
  exact ⟨m, h⟩

end Verif.Luvoir
