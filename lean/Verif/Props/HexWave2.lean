import Verif.Props.HexWave

/-!
# C126, second part: the aperture and the phase of prop_hex_wavefront
-/

namespace Verif.HexWave
open Verif Verif.Proper Verif.Polygon Verif.Shape MeasureTheory

variable {n : ℕ}

/-! ## Specification -/

/-- The centre of a segment, in metres. -/
noncomputable def ctr (a : Args) (q : Seg) : ℝ × ℝ := q.centre a.nrings a.hexsep (a.rotation * Real.pi / 180) a.xcenter a.ycenter

/-- The hexagon of a segment in pixels: the hull of the six points at distance `hexrad` from its centre, at ROTATION and every 60 degrees from there. -/
noncomputable def hexagon (n : ℕ) (dx : ℝ) (a : Args) (q : Seg) : Set (ℝ × ℝ) :=
  convexHull ℝ {v | ∃ k : ℕ, k < 6 ∧ v = (((ctr a q).1 + a.hexrad * Real.cos (a.rotation * Real.pi / 180 - k * (Real.pi / 3))) / dx + (n : ℝ) / 2,
    ((ctr a q).2 + a.hexrad * Real.sin (a.rotation * Real.pi / 180 - k * (Real.pi / 3))) / dx + (n : ℝ) / 2)}

/-- The segments with their numbers, without the omitted ones. -/
def drawn (a : Args) (l : List ℤ) : List (Seg × ℕ) := (segs a.nrings).zipIdx.filter fun q => !l.contains (q.2 : ℤ)

/-- Those that let light through: all that are drawn, but not the central one with DARKCENTER. -/
def bright (a : Args) (l : List ℤ) : List (Seg × ℕ) := (drawn a l).filter fun q => !(a.darkcenter && decide (cell a.nrings q.1 = (0, 0)))

/-- The whole aperture lies within the grid, at least half a pixel from its upper and right edge, and the hexagons are not smaller than the sub-rows of the drawing. -/
structure Fits (n mag : ℕ) (dx : ℝ) (a : Args) : Prop where
  dx_pos : 0 < dx
  sep_nonneg : 0 ≤ a.hexsep
  big : dx / mag ≤ a.hexrad * (√3 / 2)
  x : |a.xcenter| + a.nrings * a.hexsep + a.hexrad < ((n : ℝ) / 2 - 1 / 2) * dx
  y : |a.ycenter| + a.nrings * a.hexsep + a.hexrad < ((n : ℝ) / 2 - 1 / 2) * dx

/-! ## Lemmas -/

theorem hexagon_hull (n : ℕ) (dx br : ℝ) (a : Args) (q : Seg) :
    hull 6 (regX n dx br false 6 a.hexrad (some (ctr a q).1) a.rotation) (regY n dx br false 6 a.hexrad (some (ctr a q).2) a.rotation) = hexagon n dx a q := by
  unfold hull hexagon
  congr 1
  ext v
  constructor
  · rintro ⟨k, hk, rfl⟩
    refine ⟨k, hk, ?_⟩
    simp only [regX, regY, radPix, centrePix, vertexAngle, Bool.false_eq_true, if_false]
    have : a.rotation * Real.pi / 180 - 2 * Real.pi * k / (6 : ℕ) = a.rotation * Real.pi / 180 - k * (Real.pi / 3) := by push_cast; ring
    rw [this]
    congr 1 <;> ring
  · rintro ⟨k, hk, rfl⟩
    refine ⟨k, hk, ?_⟩
    simp only [regX, regY, radPix, centrePix, vertexAngle, Bool.false_eq_true, if_false]
    have : a.rotation * Real.pi / 180 - 2 * Real.pi * k / (6 : ℕ) = a.rotation * Real.pi / 180 - k * (Real.pi / 3) := by push_cast; ring
    rw [this]
    congr 1 <;> ring

theorem rings_norm {N : ℕ} {c : ℤ × ℤ} (h : InRings N c) : c.1 ^ 2 + c.1 * c.2 + c.2 ^ 2 ≤ (N : ℤ) ^ 2 := by
  obtain ⟨h1, h2, h3⟩ := h
  rw [abs_le] at h1 h2 h3
  obtain ⟨a, b⟩ := c
  dsimp only at *
  by_cases hab : 0 ≤ a * b
  · nlinarith
  · push Not at hab
    rcases lt_or_ge a 0 with ha | ha
    · have hb : 0 < b := by
        by_contra hb
        push Not at hb
        nlinarith
      by_cases hs : 0 ≤ a + b <;> nlinarith
    · have hb : b < 0 := by
        by_contra hb
        push Not at hb
        nlinarith
      by_cases hs : 0 ≤ a + b <;> nlinarith

theorem centre_bound {a : Args} (h0 : 0 ≤ a.hexsep) {q : Seg} (hq : q ∈ segs a.nrings) :
    |(ctr a q).1 - a.xcenter| ≤ a.nrings * a.hexsep ∧ |(ctr a q).2 - a.ycenter| ≤ a.nrings * a.hexsep := by
  have hin : InRings a.nrings (cell a.nrings q) := (cell_mem _).mp ⟨q, hq, rfl⟩
  have hr := rings_norm hin
  have hs : ((ctr a q).1 - a.xcenter) ^ 2 + ((ctr a q).2 - a.ycenter) ^ 2 ≤ (a.nrings * a.hexsep) ^ 2 := by
    have e : ((ctr a q).1 - a.xcenter) ^ 2 + ((ctr a q).2 - a.ycenter) ^ 2 =
        a.hexsep ^ 2 * (((cell a.nrings q).1 ^ 2 + (cell a.nrings q).1 * (cell a.nrings q).2 + (cell a.nrings q).2 ^ 2 : ℤ) : ℝ) := by
      simp only [ctr, Seg.centre, pos_cell, cellPos]
      have h3 : √3 ^ 2 = 3 := Real.sq_sqrt (by norm_num)
      have hs := Real.sin_sq_add_cos_sq (a.rotation * Real.pi / 180)
      push_cast
      generalize Real.sin (a.rotation * Real.pi / 180) = s at *
      generalize Real.cos (a.rotation * Real.pi / 180) = c at *
      generalize √3 = w at *
      generalize ((cell a.nrings q).1 : ℝ) = a1
      generalize ((cell a.nrings q).2 : ℝ) = b1
      linear_combination (a.hexsep ^ 2 * (w ^ 2 / 4 * a1 ^ 2 + (a1 / 2 + b1) ^ 2)) * hs + (a.hexsep ^ 2 * a1 ^ 2 / 4) * h3
    rw [e]
    have : (((cell a.nrings q).1 ^ 2 + (cell a.nrings q).1 * (cell a.nrings q).2 + (cell a.nrings q).2 ^ 2 : ℤ) : ℝ) ≤ (a.nrings : ℝ) ^ 2 := by exact_mod_cast hr
    nlinarith [sq_nonneg a.hexsep]
  have hN : 0 ≤ (a.nrings : ℝ) * a.hexsep := by positivity
  constructor
  · apply abs_le_of_sq_le_sq _ hN
    nlinarith [sq_nonneg ((ctr a q).2 - a.ycenter)]
  · apply abs_le_of_sq_le_sq _ hN
    nlinarith [sq_nonneg ((ctr a q).1 - a.xcenter)]

theorem Fits.rad_pos {mag : ℕ} {dx : ℝ} {a : Args} (hm : 0 < mag) (h : Fits n mag dx a) : 0 < a.hexrad := by
  have h1 : 0 < dx / mag := div_pos h.dx_pos (by exact_mod_cast hm)
  have h2 := h.big
  by_contra hc
  push Not at hc
  nlinarith [Real.sqrt_nonneg 3]

/-- Each segment is drawn right (C115). -/
theorem segment_ok [NeZero n] {mag : ℕ} (hm : 0 < mag) {dx br : ℝ} {a : Args} (h : Fits n mag dx a) {q : Seg} (hq : q ∈ segs a.nrings) :
    regularPolygon n mag dx br false false 6 a.hexrad (some (ctr a q).1) (some (ctr a q).2) a.rotation = .ok fun i j => stripMean mag (hexagon n dx a q) j.val i.val := by
  have hdx := h.dx_pos
  obtain ⟨b1, b2⟩ := centre_bound h.sep_nonneg hq
  have hx := h.x
  have hy := h.y
  have hp := h.rad_pos hm
  have bx : |(ctr a q).1| ≤ |a.xcenter| + a.nrings * a.hexsep := by
    have := abs_add_le ((ctr a q).1 - a.xcenter) a.xcenter
    rw [sub_add_cancel] at this
    linarith
  have bY : |(ctr a q).2| ≤ |a.ycenter| + a.nrings * a.hexsep := by
    have := abs_add_le ((ctr a q).2 - a.ycenter) a.ycenter
    rw [sub_add_cancel] at this
    linarith
  have key : ∀ c : ℝ, |c| + a.hexrad < ((n : ℝ) / 2 - 1 / 2) * dx →
      -1 / 2 ≤ centrePix n dx br false (some c) - radPix dx br false a.hexrad ∧ centrePix n dx br false (some c) + radPix dx br false a.hexrad < n - 1 / 2 := by
    intro c hc
    obtain ⟨c1, c2⟩ := abs_le.mp (le_refl |c|)
    have e1 : centrePix n dx br false (some c) = c / dx + (n : ℝ) / 2 := by simp [centrePix]; ring
    have e2 : radPix dx br false a.hexrad = a.hexrad / dx := by simp [radPix]; ring
    rw [e1, e2]
    have h1 : (c + a.hexrad) / dx < (n : ℝ) / 2 - 1 / 2 := by rw [div_lt_iff₀ hdx]; linarith
    have h2 : -((n : ℝ) / 2 - 1 / 2) < (c - a.hexrad) / dx := by rw [lt_div_iff₀ hdx]; linarith
    rw [add_div] at h1
    rw [sub_div] at h2
    constructor <;> linarith
  obtain ⟨x0, x1⟩ := key (ctr a q).1 (by linarith)
  obtain ⟨y0, y1⟩ := key (ctr a q).2 (by linarith)
  have hR : 1 / (mag : ℝ) ≤ radPix dx br false a.hexrad * (√3 / 2) := by
    have e2 : radPix dx br false a.hexrad = a.hexrad / dx := by simp [radPix]; ring
    rw [e2]
    have := h.big
    have hmm : (0 : ℝ) < mag := by exact_mod_cast hm
    rw [div_le_iff₀ hmm] at this
    rw [div_le_iff₀ hmm]
    have e : a.hexrad / dx * (√3 / 2) * mag = (a.hexrad * (√3 / 2) * mag) / dx := by ring
    rw [e, le_div_iff₀ hdx]
    linarith
  obtain ⟨img, e, hi⟩ := C115_hexagon n dx br false a.hexrad (some (ctr a q).1) (some (ctr a q).2) a.rotation mag hm false hR x0 x1 y0 y1
  rw [e]
  congr 1
  funext i j
  rw [hi i j, if_neg (by simp), hexagon_hull]


/-! ## The loop -/

/-- The value of the aberration of a segment at pixel `(i, j)`: the sum of coefficient times hexagonal Zernike polynomial (Z1, Z2, ... in the order of the coefficients) at the position of the
pixel relative to the segment, in units of `hexrad`, turned back by ROTATION. -/
noncomputable def aberration (dx : ℝ) (a : Args) (col : List ℝ) (q : Seg) (i j : ZMod n) : ℝ :=
  let x := HexZ.offsetM n dx (ctr a q).1 j / a.hexrad
  let y := HexZ.offsetM n dx (ctr a q).2 i / a.hexrad
  let c := Real.cos (a.rotation * Real.pi / 180)
  let s := Real.sin (a.rotation * Real.pi / 180)
  (col.zipIdx.map fun z => z.1 * HexZ.H (z.2 + 1) (x * c + y * s) (y * c - x * s)).sum

theorem term_zip (col : List ℝ) (hc : col.length ≤ 22) (x y : ℝ) :
    ((zernikeIndex.zip col).map fun q => HexZ.term q x y).sum = (col.zipIdx.map fun z => z.1 * HexZ.H (z.2 + 1) x y).sum := by
  have hl : zernikeIndex.length = 22 := rfl
  congr 1
  apply List.ext_getElem
  · simp [hl, hc]
  · intro k h1 h2
    have hk : k < 22 := by
      simp [hl] at h1
      omega
    have hz : zernikeIndex[k]'(by omega) = (k : ℤ) + 1 := by
      unfold zernikeIndex
      rw [List.getElem_map, List.getElem_range]
    simp only [List.getElem_map, List.getElem_zip, List.getElem_zipIdx, hz, HexZ.term]
    rw [if_pos ⟨by omega, by omega⟩]
    congr 2
    all_goals omega

/-- A pixel whose value in the drawing of the hexagon is not 0 lies within `hexrad + dx/2` of its centre. -/
theorem touched [NeZero n] {mag : ℕ} {dx : ℝ} {a : Args} (hdx : 0 < dx) (hr : 0 < a.hexrad) (hn : Even n) {q : Seg} {i j : ZMod n}
    (h : stripMean mag (hexagon n dx a q) j.val i.val ≠ 0) :
    |HexZ.offsetM n dx (ctr a q).1 j| ≤ a.hexrad + dx ∧ |HexZ.offsetM n dx (ctr a q).2 i| ≤ a.hexrad + dx := by
  have hmag : 0 < mag := by
    by_contra hc
    have : mag = 0 := by omega
    apply h
    simp [stripMean, this]
  obtain ⟨s, hs⟩ : ∃ s : Fin mag, sectionLength (hexagon n dx a q) ((i.val : ℝ) - 1 / 2 + ((s : ℕ) + 1 / 2) / mag) j.val ≠ 0 := by
    by_contra hc
    push Not at hc
    apply h
    unfold stripMean
    rw [Finset.sum_eq_zero fun s _ => hc s, zero_div]
  obtain ⟨x, hx1, hx2⟩ : ∃ x : ℝ, |x - (j.val : ℝ)| ≤ 1 / 2 ∧ (x, (i.val : ℝ) - 1 / 2 + ((s : ℕ) + 1 / 2) / mag) ∈ hexagon n dx a q := by
    by_contra hc
    push Not at hc
    apply hs
    unfold sectionLength
    have : {x : ℝ | |x - (j.val : ℝ)| ≤ 1 / 2 ∧ (x, (i.val : ℝ) - 1 / 2 + ((s : ℕ) + 1 / 2) / mag) ∈ hexagon n dx a q} = ∅ := by
      ext x
      simp only [Set.mem_ofPred_eq, Set.mem_empty_iff_false, iff_false, not_and]
      exact fun h => hc x h
    rw [this]
    simp
  have hsub : hexagon n dx a q ⊆ {p | |(p.1 - (n : ℝ) / 2) * dx - (ctr a q).1| ≤ a.hexrad ∧ |(p.2 - (n : ℝ) / 2) * dx - (ctr a q).2| ≤ a.hexrad} := by
    apply convexHull_min
    · rintro v ⟨k, _, rfl⟩
      simp only [Set.mem_ofPred_eq, add_sub_cancel_right]
      constructor
      · rw [div_mul_cancel₀ _ hdx.ne', add_sub_cancel_left, abs_mul, abs_of_pos hr]
        exact mul_le_of_le_one_right hr.le (Real.abs_cos_le_one _)
      · rw [div_mul_cancel₀ _ hdx.ne', add_sub_cancel_left, abs_mul, abs_of_pos hr]
        exact mul_le_of_le_one_right hr.le (Real.abs_sin_le_one _)
    · intro u hu v hv s t h1 h2 h3
      simp only [Set.mem_ofPred_eq, abs_le, Prod.fst_add, Prod.snd_add, Prod.smul_fst, Prod.smul_snd, smul_eq_mul] at hu hv ⊢
      obtain ⟨⟨u1, u2⟩, u3, u4⟩ := hu
      obtain ⟨⟨v1, v2⟩, v3, v4⟩ := hv
      have ht : t = 1 - s := by linarith
      subst ht
      refine ⟨⟨?_, ?_⟩, ?_, ?_⟩ <;> nlinarith
  obtain ⟨p1, p2⟩ := hsub hx2
  have hn2 : ((n / 2 : ℕ) : ℝ) = (n : ℝ) / 2 := by
    obtain ⟨m, rfl⟩ := hn
    rw [show (m + m) / 2 = m by omega]
    push_cast
    ring
  have hsm : |((i.val : ℝ) - 1 / 2 + ((s : ℕ) + 1 / 2) / mag) - i.val| ≤ 1 / 2 := by
    have hm' : (0 : ℝ) < mag := by exact_mod_cast hmag
    have h1 : 0 ≤ (((s : ℕ) : ℝ) + 1 / 2) / mag := by positivity
    have h2 : (((s : ℕ) : ℝ) + 1 / 2) / mag ≤ 1 := by
      rw [div_le_one hm']
      have : ((s : ℕ) : ℝ) + 1 ≤ mag := by exact_mod_cast s.2
      linarith
    rw [abs_le]
    constructor <;> linarith
  simp only at p1 p2
  unfold HexZ.offsetM
  rw [hn2]
  rw [abs_le] at p1 p2 hx1 hsm ⊢
  rw [abs_le]
  constructor
  · constructor <;> nlinarith
  · constructor <;> nlinarith

theorem dark_iff {N : ℕ} {q : Seg} (hq : q ∈ segs N) : (q.first ∧ q.iring = 0 ∧ q.iseg = N) ↔ cell N q = (0, 0) := by
  obtain ⟨k, i, f⟩ := q
  rw [mem_segs] at hq
  cases f <;> simp only [cell, if_true, Bool.false_eq_true, if_false, Prod.mk.injEq, false_or, false_and, false_iff, true_and] at hq ⊢ <;> omega

open Classical in
theorem fold_maps [NeZero n] {mag : ℕ} (hm : 0 < mag) {dx br : ℝ} {a : Args} (h : Fits n mag dx a) (l : List ℤ) (hl : a.omitted = .list l)
    (Z : Seg × ℕ → ZMod n → ZMod n → ℝ) (L : List (Seg × ℕ)) (hL : ∀ q ∈ L, q.1 ∈ segs a.nrings)
    (hZ : a.phaseErrors = true → ∀ q ∈ L, l.contains (q.2 : ℤ) = false → ∃ col, column a q.2 = .ok col ∧
      HexZ.hexZernikes zernikeIndex col n dx a.hexrad (ctr a q.1).1 (ctr a q.1).2 a.rotation = .ok (Z q)) :
    ∀ m0 : Maps n, L.foldlM (segment mag dx br a) m0 = .ok
      ⟨fun i j => m0.aperture i j + (((L.filter fun q => !l.contains (q.2 : ℤ)).filter fun q => !(a.darkcenter && decide (cell a.nrings q.1 = (0, 0)))).map fun q =>
          stripMean mag (hexagon n dx a q.1) j.val i.val).sum,
        fun i j => m0.phase i j + if a.phaseErrors then ((L.filter fun q => !l.contains (q.2 : ℤ)).map fun q =>
          if stripMean mag (hexagon n dx a q.1) j.val i.val ≠ 0 then Z q i j else 0).sum else 0⟩ := by
  induction L with
  | nil =>
    intro m0
    simp [pure, Except.pure]
  | cons q L ih =>
    intro m0
    have hq := hL q (by simp)
    rw [List.foldlM_cons]
    have ih' := ih (fun p hp => hL p (by simp [hp])) (fun hp p hp' => hZ hp p (by simp [hp']))
    have hseg : segment mag dx br a m0 q = .ok
      ⟨fun i j => m0.aperture i j + ((([q].filter fun q => !l.contains (q.2 : ℤ)).filter fun q => !(a.darkcenter && decide (cell a.nrings q.1 = (0, 0)))).map fun q =>
          stripMean mag (hexagon n dx a q.1) j.val i.val).sum,
        fun i j => m0.phase i j + if a.phaseErrors then (([q].filter fun q => !l.contains (q.2 : ℤ)).map fun q =>
          if stripMean mag (hexagon n dx a q.1) j.val i.val ≠ 0 then Z q i j else 0).sum else 0⟩ := by
      unfold segment
      rw [hl]
      show (if (!l.contains (q.2 : ℤ)) = true then _ else _) = _
      cases hc : l.contains (q.2 : ℤ) with
      | true =>
        rw [if_neg (by decide)]
        have e1 : [q].filter (fun q => !l.contains (q.2 : ℤ)) = [] := by
          rw [List.filter_cons, if_neg (by rw [hc]; decide), List.filter_nil]
        rw [e1]
        obtain ⟨A, B⟩ := m0
        simp
      | false =>
        rw [if_pos (by rfl)]
        show Except.bind (regularPolygon n mag dx br false false 6 a.hexrad (some (ctr a q.1).1) (some (ctr a q.1).2) a.rotation) _ = _
        rw [segment_ok hm h hq]
        show (if a.phaseErrors = true then _ else _) = _
        have hd := dark_iff hq
        have hap : (if q.1.first = true ∧ q.1.iring = 0 ∧ q.1.iseg = a.nrings ∧ a.darkcenter = true then m0.aperture else
            fun i j => m0.aperture i j + stripMean mag (hexagon n dx a q.1) j.val i.val) = fun i j => m0.aperture i j +
            ((([q].filter fun q => !l.contains (q.2 : ℤ)).filter fun q => !(a.darkcenter && decide (cell a.nrings q.1 = (0, 0)))).map fun q =>
              stripMean mag (hexagon n dx a q.1) j.val i.val).sum := by
          have e1 : [q].filter (fun q => !l.contains (q.2 : ℤ)) = [q] := by simp only [List.filter_cons, hc, Bool.not_false, if_true, List.filter_nil]
          rw [e1]
          by_cases hdk : cell a.nrings q.1 = (0, 0) ∧ a.darkcenter = true
          · obtain ⟨hd1, hd2⟩ := hdk
            obtain ⟨f1, f2, f3⟩ := hd.mpr hd1
            rw [if_pos ⟨f1, f2, f3, hd2⟩]
            simp [hd1, hd2]
          · rw [if_neg]
            · have : (!(a.darkcenter && decide (cell a.nrings q.1 = (0, 0)))) = true := by
                by_contra hcon
                apply hdk
                simp only [Bool.not_eq_true', Bool.not_eq_false] at hcon
                rw [Bool.and_eq_true, decide_eq_true_eq] at hcon
                exact ⟨hcon.2, hcon.1⟩
              simp only [List.filter_cons, this, if_true, List.filter_nil, List.map_cons, List.map_nil, List.sum_cons, List.sum_nil, add_zero]
            · rintro ⟨f1, f2, f3, f4⟩
              exact hdk ⟨hd.mp ⟨f1, f2, f3⟩, f4⟩
        by_cases hp : a.phaseErrors = true
        · rw [if_pos hp]
          obtain ⟨col, c1, c2⟩ := hZ hp q (by simp) hc
          rw [c1]
          show Except.map _ (HexZ.hexZernikes zernikeIndex col n dx a.hexrad (ctr a q.1).1 (ctr a q.1).2 a.rotation) = _
          rw [c2]
          show Except.ok _ = _
          congr 1
          rw [Maps.mk.injEq]
          refine ⟨hap, ?_⟩
          funext i j
          rw [if_pos hp]
          simp only [List.filter_cons, hc, Bool.not_false, if_true, List.filter_nil, List.map_cons, List.map_nil, List.sum_cons, List.sum_nil, add_zero]
          congr 1
          split_ifs <;> simp
        · rw [if_neg hp]
          congr 1
          rw [Maps.mk.injEq]
          refine ⟨hap, ?_⟩
          funext i j
          rw [if_neg hp, add_zero]
    rw [hseg]
    show List.foldlM (segment mag dx br a) _ L = _
    rw [ih']
    congr 1
    rw [Maps.mk.injEq]
    have e1 : ∀ f : Seg × ℕ → Bool, (q :: L).filter f = [q].filter f ++ L.filter f := by
      intro f
      rw [← List.filter_append]
      rfl
    constructor
    · funext i j
      dsimp only
      rw [e1, List.filter_append, List.map_append, List.sum_append, add_assoc]
    · funext i j
      dsimp only
      rw [e1, List.map_append, List.sum_append]
      split_ifs <;> ring

/-- C126: the aperture. If the whole aperture lies within the grid and OMIT is a list (possibly empty), the call without phase errors returns the map whose value at each pixel is the sum, over the segments
that are neither omitted nor (with DARKCENTER) the central one, of the part of the pixel the segment's hexagon covers (means of exact section lengths over the sub-rows, as in C115); the field the user sees is
multiplied by it (even grid), or left alone with NO_APPLY. -/
theorem C126_aperture [NeZero n] (mag : ℕ) (hm : 0 < mag) (br : ℝ) (s : WF n) (a : Args) (l : List ℤ) (hl : a.omitted = .list l) (h : Fits n mag s.dx a) (hp : a.phaseErrors = false) :
    ∃ s' ap, hexWavefront mag br s a = .ok (s', ap, none) ∧
      (∀ i j, ap i j = ((bright a l).map fun q => stripMean mag (hexagon n s.dx a q.1) j.val i.val).sum) ∧
      (a.noApply = true → s' = s) ∧ (a.noApply = false → SameButField s s' ∧ (Even n → ∀ i j, getWavefront s' i j = getWavefront s i j * ap i j)) := by
  have hf := fold_maps hm (br := br) h l hl (fun _ _ _ => 0) (segs a.nrings).zipIdx (fun q hq => (List.mem_zipIdx' hq).2 ▸ List.getElem_mem _) (fun hp' => by rw [hp] at hp'; cases hp')
    ⟨fun _ _ => 0, fun _ _ => 0⟩
  have hm' : maps n mag s.dx br a = _ := hf
  unfold hexWavefront
  rw [hm']
  set ap : ZMod n → ZMod n → ℝ := fun i j => 0 + ((((segs a.nrings).zipIdx.filter fun q => !l.contains (q.2 : ℤ)).filter fun q => !(a.darkcenter && decide (cell a.nrings q.1 = (0, 0)))).map fun q =>
          stripMean mag (hexagon n s.dx a q.1) j.val i.val).sum with hap
  have hapv : ∀ i j, ap i j = ((bright a l).map fun q => stripMean mag (hexagon n s.dx a q.1) j.val i.val).sum := fun i j => zero_add _
  cases hna : a.noApply with
  | true =>
    refine ⟨s, ap, ?_, hapv, fun _ => rfl, fun h => by cases h⟩
    simp [Except.bind, Except.map, hp, hap]
  | false =>
    have hmul : multiply s (realVal ap) = .ok { s with arr := fun i j => s.arr i j * shiftCenter (fun i j => (ap i j : ℂ)) i j } := by
      unfold multiply
      show Except.map _ (operand (n := n) (Val.full fun i j => (ap i j : ℂ))) = _
      rw [operand_full]
      rfl
    refine ⟨{ s with arr := fun i j => s.arr i j * shiftCenter (fun i j => (ap i j : ℂ)) i j }, ap, ?_, hapv, ?_, ?_⟩
    · simp only [Except.bind, hp, Bool.false_eq_true, if_false]
      rw [hmul]
      rfl
    · intro h
      cases h
    · refine fun _ => ⟨rfl, fun hn i j => ?_⟩
      exact congrArg (getWavefront s i j * ·) (congrFun (congrFun (C58_twice_even hn hn fun i j => (ap i j : ℂ)) i) j)

/-- C126: the phase. Even grid, at least as many columns of coefficients as segments, each with 2 to 22 coefficients, not all zero: the returned phase is, at each pixel, the sum over the drawn segments that touch
the pixel of that segment's aberration (coefficient times hexagonal Zernike polynomial, C125, in the frame of the segment); the field the user sees is multiplied by aperture · exp(2πi/λ · phase). -/
theorem C126_phase [NeZero n] (hn : Even n) (mag : ℕ) (hm : 0 < mag) (br : ℝ) (s : WF n) (a : Args) (l : List ℤ) (hl : a.omitted = .list l) (h : Fits n mag s.dx a)
    (c : ℕ) (col : ℕ → List ℝ) (hz : a.zernikes = some (c, col)) (hc : 3 * a.nrings * (a.nrings + 1) + 1 ≤ c) (hlen : ∀ k < c, 2 ≤ (col k).length ∧ (col k).length ≤ 22) (hp : a.phaseErrors = true) :
    ∃ s' ap ph, hexWavefront mag br s a = .ok (s', ap, some ph) ∧
      (∀ i j, ap i j = ((bright a l).map fun q => stripMean mag (hexagon n s.dx a q.1) j.val i.val).sum) ∧
      (∀ i j, ph i j = ((drawn a l).map fun q => open Classical in if stripMean mag (hexagon n s.dx a q.1) j.val i.val = 0 then 0 else aberration s.dx a (col q.2) q.1 i j).sum) ∧
      (a.noApply = true → s' = s) ∧
      (a.noApply = false → SameButField s s' ∧ ∀ i j, getWavefront s' i j = getWavefront s i j * (ap i j * Complex.exp (2 * Real.pi * Complex.I / s.lam * ph i j))) := by
  classical
  have hr := h.rad_pos hm
  have hcol : ∀ q ∈ (segs a.nrings).zipIdx, q.2 < c := by
    intro q hq
    have := (List.mem_zipIdx' hq).1
    rw [(C126_segments a.nrings 0 0 0 0).2.2.1] at this
    omega
  have hex : ∀ q : Seg × ℕ, ∃ Z : ZMod n → ZMod n → ℝ, q ∈ (segs a.nrings).zipIdx →
      (HexZ.hexZernikes zernikeIndex (col q.2) n s.dx a.hexrad (ctr a q.1).1 (ctr a q.1).2 a.rotation = .ok Z ∧
        ∀ i j, stripMean mag (hexagon n s.dx a q.1) j.val i.val ≠ 0 → Z i j = aberration s.dx a (col q.2) q.1 i j) := by
    intro q
    by_cases hq : q ∈ (segs a.nrings).zipIdx
    · obtain ⟨l1, l2⟩ := hlen q.2 (hcol q hq)
      have hzl : zernikeIndex.length = 22 := rfl
      obtain ⟨Z, hZ, hv⟩ := HexZ.C125_map n hn zernikeIndex (col q.2) s.dx a.hexrad (ctr a q.1).1 (ctr a q.1).2 a.rotation h.dx_pos hr (by omega) ⟨(2, (col q.2)[1]'(by omega)), by
        rw [List.mem_iff_getElem]
        exact ⟨1, by rw [List.length_zip]; omega, by rw [List.getElem_zip]; rfl⟩, by show (2 : ℤ) ≤ 2; decide, by show (2 : ℤ) ≤ 22; decide⟩
      refine ⟨Z, fun _ => ⟨hZ, fun i j ht => ?_⟩⟩
      obtain ⟨t1, t2⟩ := touched h.dx_pos hr hn ht
      rw [((hv i j).2.1 t1 t2)]
      exact term_zip (col q.2) l2 _ _
    · exact ⟨fun _ _ => 0, fun h => absurd h hq⟩
  choose Z hZ using hex
  have hf := fold_maps hm (br := br) h l hl Z (segs a.nrings).zipIdx (fun q hq => (List.mem_zipIdx' hq).2 ▸ List.getElem_mem _)
    (fun _ q hq _ => ⟨col q.2, by unfold column; rw [hz]; exact if_pos (hcol q hq), (hZ q hq).1⟩) ⟨fun _ _ => 0, fun _ _ => 0⟩
  have hm' : maps n mag s.dx br a = _ := hf
  unfold hexWavefront
  rw [hm']
  set ap : ZMod n → ZMod n → ℝ := fun i j => 0 + ((((segs a.nrings).zipIdx.filter fun q => !l.contains (q.2 : ℤ)).filter fun q => !(a.darkcenter && decide (cell a.nrings q.1 = (0, 0)))).map fun q =>
          stripMean mag (hexagon n s.dx a q.1) j.val i.val).sum with hap
  have hapv : ∀ i j, ap i j = ((bright a l).map fun q => stripMean mag (hexagon n s.dx a q.1) j.val i.val).sum := fun i j => zero_add _
  set ph : ZMod n → ZMod n → ℝ := fun i j => 0 + if a.phaseErrors = true then (((segs a.nrings).zipIdx.filter fun q => !l.contains (q.2 : ℤ)).map fun q =>
          if stripMean mag (hexagon n s.dx a q.1) j.val i.val ≠ 0 then Z q i j else 0).sum else 0 with hph
  have hphv : ∀ i j, ph i j = ((drawn a l).map fun q => if stripMean mag (hexagon n s.dx a q.1) j.val i.val = 0 then 0 else aberration s.dx a (col q.2) q.1 i j).sum := by
    intro i j
    rw [hph]
    dsimp only
    rw [zero_add, if_pos hp]
    congr 1
    apply List.map_congr_left
    intro q hq
    have hq' := List.mem_of_mem_filter hq
    by_cases h0 : stripMean mag (hexagon n s.dx a q.1) j.val i.val = 0
    · rw [if_neg (not_not_intro h0), if_pos h0]
    · rw [if_pos h0, if_neg h0, (hZ q hq').2 i j h0]
  cases hna : a.noApply with
  | true =>
    refine ⟨s, ap, ph, ?_, hapv, hphv, fun _ => rfl, fun h => by cases h⟩
    simp [Except.bind, Except.map, hp, hap, hph]
  | false =>
    set s1 : WF n := { s with arr := fun i j => s.arr i j * shiftCenter (fun i j => (ap i j : ℂ)) i j } with hs1
    have hmul : multiply s (realVal ap) = .ok s1 := by
      unfold multiply
      show Except.map _ (operand (n := n) (Val.full fun i j => (ap i j : ℂ))) = _
      rw [operand_full]
      rfl
    obtain ⟨s', hs', hsame, hv⟩ := (C124_arrays hn s1 fun i j => (ph i j : ℂ)).2.2.2
    refine ⟨s', ap, ph, ?_, hapv, hphv, ?_, ?_⟩
    · simp only [Except.bind, hp, Bool.false_eq_true, if_false, if_true]
      rw [hmul]
      dsimp only
      have : addPhaseV s1 (realVal ph) = .ok s' := hs'
      rw [this]
      rfl
    · intro h
      cases h
    · refine fun _ => ⟨?_, fun i j => ?_⟩
      · have e : SameButField s s1 := rfl
        unfold SameButField at *
        rw [hsame, e]
      · rw [hv i j]
        have e : getWavefront s1 i j = getWavefront s i j * ap i j := 
          congrArg (getWavefront s i j * ·) (congrFun (congrFun (C58_twice_even hn hn fun i j => (ap i j : ℂ)) i) j)
        rw [e, mul_assoc]

end Verif.HexWave
