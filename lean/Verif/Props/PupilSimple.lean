import Verif.Props.GenEllipse
import Verif.Props.Rectangle
import Verif.Props.Masks

/-!
# C103: simple pupils (falco_gen_pupil_Simple)
-/

namespace Verif.Masks
open Verif Verif.Shape Verif.Proper

/-! ## Specification -/

/-- Pixel coordinate of the centre of the array, as the grid of `falco_gen_ellipse` has it. -/
noncomputable def gridCentre (N : ℕ) : Util.Centering → ℝ
  | .pixel => (N : ℝ) / 2
  | .interpixel => ((N : ℝ) - 1) / 2

/-- A strut of width `w` leaving the point `(x, y)` (pixels) at the angle `deg` (degrees, counter-clockwise) and 0.6 beam diameters long; `nbeam` pixels per beam diameter. -/
noncomputable def strut (x y nbeam w deg : ℝ) : Set (ℝ × ℝ) :=
  rectSet (x + 0.3 * nbeam * Real.cos (deg * Real.pi / 180)) (y + 0.3 * nbeam * Real.sin (deg * Real.pi / 180)) (0.3 * nbeam) (w * nbeam / 2) (deg * Real.pi / 180)

/-- Misregistration of the struts (pixels): arrays of odd size. -/
noncomputable def strutOffset (N : ℕ) : ℝ := if Even N then 0 else 1 / 2

/-! ## Proofs -/

/-- Several masks in turn. -/
theorem readOut_fold {n : ℕ} {α : Type*} (img : α → ZMod n → ZMod n → ℝ) (h0 : ∀ x i j, 0 ≤ img x i j) (l : List α) (i j : ZMod n) :
    ∀ s : WF n, readOut (l.foldl (fun s x => applyMask s (img x)) s) i j = readOut s i j * (l.map fun x => img x i j).prod := by
  induction l with
  | nil => intro s; simp
  | cons x l ih =>
    intro s
    rw [List.foldl_cons, ih, List.map_cons, List.prod_cons, ← mul_assoc]
    congr 1
    simp only [readOut, applyMask, Optics.ifftshift, Optics.roll2, shiftCenter, norm_mul, Complex.norm_real, Real.norm_eq_abs]
    rw [abs_of_nonneg (h0 _ _ _)]
    push_cast
    congr 2 <;> ring

theorem ofArgs_norm (n : ℕ) (dx b b' xs ys rot : ℝ) (xc yc : Option ℝ) : Rect.ofArgs n dx b false xs ys xc yc rot = Rect.ofArgs n dx b' false xs ys xc yc rot := by
  unfold Rect.ofArgs; simp

theorem fold_masks {n : ℕ} {α : Type*} (d : ℝ) (F : WF n → α → WF n) (G : α → ZMod n → ZMod n → ℝ) (h : ∀ s x, s.dx = d → F s x = applyMask s (G x)) (l : List α) :
    ∀ s : WF n, s.dx = d → l.foldl F s = l.foldl (fun s x => applyMask s (G x)) s := by
  induction l with
  | nil => intro s _; rfl
  | cons x l ih =>
    intro s hs
    rw [List.foldl_cons, List.foldl_cons, h s x hs]
    exact ih _ (by rw [← hs]; simp only [applyMask])

theorem obscuration_eq {n : ℕ} (nsub : ℕ) (s : WF n) (d len w x y r : ℝ) (hs : s.dx = d) :
    rectangularObscuration nsub s len w x y r = applyMask s (rectangle n nsub (Rect.ofArgs n d 0 false len w (some x) (some y) r) true) := by
  unfold rectangularObscuration
  rw [ofArgs_norm n s.dx (beamradius s) 0, hs]

/-- The fold over the struts is a fold over fixed masks. -/
theorem struts_fold {n : ℕ} (nsub : ℕ) (d len w : ℝ) (f g h : ℝ → ℝ) (l : List ℝ) (s : WF n) (hs : s.dx = d) :
    l.foldl (fun bm a => rectangularObscuration nsub bm len w (f a) (g a) (h a)) s =
      l.foldl (fun bm a => applyMask bm (rectangle n nsub (Rect.ofArgs n d 0 false len w (some (f a)) (some (g a)) (h a)) true)) s :=
  fold_masks d _ (fun a => rectangle n nsub (Rect.ofArgs n d 0 false len w (some (f a)) (some (g a)) (h a)) true)
    (fun s x hd => obscuration_eq nsub s d len w (f x) (g x) (h x) hd) l s hs

theorem struts_dx (a : Simple) (hN : 2 ≤ a.N) (hb : 0 < a.nbeam) (s : WF a.N) (hs : s = begin_ a.N 1 1e-6 (1 / (a.N * (1 / a.nbeam)))) : s.dx = 1 / a.nbeam := by
  have hN' : (0 : ℝ) < a.N := by exact_mod_cast (by omega : 0 < a.N)
  rw [hs]; simp only [begin_]; field_simp

theorem centre_eq (N : ℕ) (c : Util.Centering) : ((N / 2 : ℕ) : ℝ) + (match c with | .pixel => 0 | .interpixel => -1 / 2) = gridCentre N c - strutOffset N := by
  unfold gridCentre strutOffset
  rcases Nat.even_or_odd N with h | h
  · rw [if_pos h]
    obtain ⟨k, hk⟩ := h
    have : N / 2 = k := by omega
    have h2 : (N : ℝ) = 2 * k := by rw [hk]; push_cast; ring
    rw [this, h2]; cases c <;> simp only <;> ring
  · rw [if_neg (Nat.not_even_iff_odd.mpr h)]
    obtain ⟨k, hk⟩ := h
    have : N / 2 = k := by omega
    have h2 : (N : ℝ) = 2 * k + 1 := by rw [hk]; push_cast; ring
    rw [this, h2]; cases c <;> simp only <;> ring

theorem struts_spec (a : Simple) (hN : 2 ≤ a.N) (hb : 0 < a.nbeam) (hw : 0 < a.wStrut) (i j : ZMod a.N) :
    readOut a.struts i j = (a.angStrut.map fun deg => 1 - stripMean 101 (strut (gridCentre a.N a.centering - strutOffset a.N + a.xShear * a.nbeam)
      (gridCentre a.N a.centering - strutOffset a.N + a.yShear * a.nbeam) a.nbeam a.wStrut (deg + a.clocking)) j.val i.val).prod := by
  have : NeZero a.N := ⟨by omega⟩
  unfold Simple.struts
  dsimp only
  rw [struts_fold 101 (1 / a.nbeam) 0.6 a.wStrut (fun ang0 => 0.6 / 2 * cosd (ang0 + a.clocking) + cshift (1 / a.nbeam) a.centering + a.xShear)
    (fun ang0 => 0.6 / 2 * sind (ang0 + a.clocking) + cshift (1 / a.nbeam) a.centering + a.yShear) (fun ang0 => ang0 + a.clocking) _ _ (struts_dx a hN hb _ rfl)]
  have hpos : 0 < 0.5 * 0.6 / (1 / a.nbeam) := by positivity
  have hpos2 : 0 < 0.5 * a.wStrut / (1 / a.nbeam) := by positivity
  have hr : ∀ (deg : ℝ) (i j : ZMod a.N), rectangle a.N 101 (Rect.ofArgs a.N (1 / a.nbeam) 0 false 0.6 a.wStrut
      (some (0.6 / 2 * cosd (deg + a.clocking) + cshift (1 / a.nbeam) a.centering + a.xShear))
      (some (0.6 / 2 * sind (deg + a.clocking) + cshift (1 / a.nbeam) a.centering + a.yShear)) (deg + a.clocking)) true i j =
      1 - stripMean 101 (strut (gridCentre a.N a.centering - strutOffset a.N + a.xShear * a.nbeam)
      (gridCentre a.N a.centering - strutOffset a.N + a.yShear * a.nbeam) a.nbeam a.wStrut (deg + a.clocking)) j.val i.val := by
    intro deg i j
    rw [C101_strips _ _ _ (by norm_num) hpos hpos2]
    rw [if_pos rfl]
    congr 2
    unfold strut Rect.ofArgs
    dsimp only
    rw [if_neg (by decide), if_neg (by decide), if_neg (by decide), if_neg (by decide), ← centre_eq]
    unfold cosd sind cshift
    congr 1
    · cases a.centering <;> simp only <;> field_simp <;> ring
    · cases a.centering <;> simp only <;> field_simp <;> ring
    · field_simp; ring
    · field_simp; norm_num
  rw [readOut_fold _ (fun deg i j => ?_), readOut_one _ _ _ (fun _ _ => rfl), one_mul]
  · congr 1
    exact List.map_congr_left fun deg _ => hr deg i j
  · have := C101_range (n := a.N) (mag := 101) (Rect.ofArgs a.N (1 / a.nbeam) 0 false 0.6 a.wStrut
      (some (0.6 / 2 * cosd (deg + a.clocking) + cshift (1 / a.nbeam) a.centering + a.xShear))
      (some (0.6 / 2 * sind (deg + a.clocking) + cshift (1 / a.nbeam) a.centering + a.yShear)) (deg + a.clocking)) (by norm_num)
      hpos hpos2 i j
    linarith [this.2.1, this.2.2]

theorem ellSet_disc0 (xc yc r t : ℝ) (hr : 0 < r) : ellSet xc yc r r t 0 = disc xc yc r := by
  ext p
  simp only [ellSet, disc, Set.mem_ofPred_eq]
  have h : (((p.1 - xc) * Real.cos t + (p.2 - yc) * Real.sin t) / r) ^ 2 + ((-(p.1 - xc) * Real.sin t + (p.2 - yc) * Real.cos t) / r) ^ 2 =
      ((p.1 - xc) ^ 2 + (p.2 - yc) ^ 2) / r ^ 2 := by
    rw [div_pow, div_pow, ← add_div]
    congr 1
    linear_combination ((p.1 - xc) ^ 2 + (p.2 - yc) ^ 2) * Real.cos_sq_add_sin_sq t
  rw [h, div_le_iff₀ (by positivity), add_zero, one_mul]

/-- **C103.** Refusals: a negative strut width, an inner diameter larger than the outer one, an array of fewer than two pixels. -/
theorem C103_refusals (a : Simple) : (a.wStrut < 0 → pupilSimple a = .error .typeError) ∧ (0 ≤ a.wStrut → a.OD < a.ID → pupilSimple a = .error .valueError) ∧
    (0 ≤ a.wStrut → a.ID ≤ a.OD → a.N < 2 → pupilSimple a = .error .indexError) := by
  refine ⟨fun h => ?_, fun h h2 => ?_, fun h h2 h3 => ?_⟩
  · unfold pupilSimple; rw [if_pos h]
  · unfold pupilSimple; rw [if_neg (not_lt.mpr h), if_pos h2]
  · unfold pupilSimple; rw [if_neg (not_lt.mpr h), if_neg (not_lt.mpr h2)]
    have : a.ellImg a.OD = .error .indexError := (C102_range _).1 h3
    rw [this]; rfl

/-- The ellipse with diameter `D` along the second axis. -/
noncomputable def edge (a : Simple) (D : ℝ) : GenEll := ⟨a.N, a.nbeam, a.xStretch * (D / 2), D / 2, a.clocking * Real.pi / 180, a.xShear, a.yShear, 1, a.centering⟩

/-- Its image. -/
noncomputable def edgeImg (a : Simple) (D : ℝ) : Except PyErr (ZMod a.N → ZMod a.N → ℝ) := genEllipse (edge a D)

theorem ell_eq_edge (a : Simple) (D : ℝ) : a.ellImg D = edgeImg a D := by
  unfold Simple.ellImg edgeImg Simple.ell edge
  rw [show a.xStretch * 0.5 * D = a.xStretch * (D / 2) by ring, show 0.5 * D = D / 2 by ring, show Real.pi / 180 * a.clocking = a.clocking * Real.pi / 180 by ring]

theorem edgeImg_range (a : Simple) (hN : 2 ≤ a.N) (D : ℝ) : ∃ img, edgeImg a D = .ok img ∧ ∀ i j, 0 ≤ img i j ∧ img i j ≤ 1 := (C102_range (edge a D)).2 hN

theorem pupil_ok (a : Simple) (hw : 0 ≤ a.wStrut) (hID : a.ID ≤ a.OD) (o : ZMod a.N → ZMod a.N → ℝ) (ho : a.ellImg a.OD = .ok o) (e : ZMod a.N → ZMod a.N → ℝ)
    (he : a.ellImg a.ID = .ok e) : pupilSimple a = .ok fun i j => o i j * (if 0 < a.ID then 1 - e i j else 1) * (if a.angStrut.length = 0 then 1 else readOut a.struts i j) := by
  unfold pupilSimple
  rw [if_neg (not_lt.mpr hw), if_neg (not_lt.mpr hID), ho]
  by_cases hi : 0 < a.ID
  · simp only [bind, Except.bind, pure, Except.pure, he, gt_iff_lt, if_pos hi]
    congr 1; funext i j; split_ifs <;> rfl
  · simp only [bind, Except.bind, pure, Except.pure, gt_iff_lt, if_neg hi]
    congr 1; funext i j; split_ifs <;> rfl

/-- **C103.** Any stretch, clocking and shear: the pupil is the product of the outer ellipse, the complement of the inner one (when the inner diameter is positive) and, for every
strut angle, the complement of the strut leaving the centre of the ellipses at that angle plus the clocking. On arrays of odd size the struts are displaced by half a pixel in both directions (`strutOffset`). -/
theorem C103_product (a : Simple) (hN : 2 ≤ a.N) (hb : 0 < a.nbeam) (hw : 0 ≤ a.wStrut) (hs : a.angStrut ≠ [] → 0 < a.wStrut) (hID : a.ID ≤ a.OD) :
    ∃ o e img, edgeImg a a.OD = .ok o ∧ edgeImg a a.ID = .ok e ∧ pupilSimple a = .ok img ∧ ∀ i j, img i j = o i j * (if 0 < a.ID then 1 - e i j else 1) *
      (a.angStrut.map fun deg => 1 - stripMean 101 (strut (gridCentre a.N a.centering - strutOffset a.N + a.xShear * a.nbeam)
        (gridCentre a.N a.centering - strutOffset a.N + a.yShear * a.nbeam) a.nbeam a.wStrut (deg + a.clocking)) j.val i.val).prod := by
  obtain ⟨o, ho, _⟩ := edgeImg_range a hN a.OD
  obtain ⟨e, he, _⟩ := edgeImg_range a hN a.ID
  refine ⟨o, e, _, ho, he, pupil_ok a hw hID o (by rw [ell_eq_edge]; exact ho) e (by rw [ell_eq_edge]; exact he), fun i j => ?_⟩
  congr 1
  by_cases hl : a.angStrut = []
  · rw [hl]; simp
  · rw [if_neg (by simpa using hl), struts_spec a hN hb (hs hl)]

/-- **C103.** A circular pupil (no stretch; the array reaching at least 26 pixels beyond the centre): every pixel is the 101 × 101 coverage of the outer disc, times the uncovered
part of the inner disc, times the uncovered part of every strut. -/
theorem C103_circular (a : Simple) (hN : 2 ≤ a.N) (hb : 0 < a.nbeam) (hw : 0 ≤ a.wStrut) (hs : a.angStrut ≠ [] → 0 < a.wStrut) (hOD : 0 < a.OD) (hID : a.ID ≤ a.OD) (hx : a.xStretch = 1)
    (hf : FarCorner a.N a.centering a.nbeam a.xShear a.yShear ∨ FarCorner a.N a.centering a.nbeam a.yShear a.xShear) :
    ∃ img, pupilSimple a = .ok img ∧ ∀ i j, img i j =
      coverage 101 (disc a.xShear a.yShear (a.OD / 2)) (1 / a.nbeam) ((j.val - gridCentre a.N a.centering) / a.nbeam) ((i.val - gridCentre a.N a.centering) / a.nbeam) *
      (if 0 < a.ID then 1 - coverage 101 (disc a.xShear a.yShear (a.ID / 2)) (1 / a.nbeam) ((j.val - gridCentre a.N a.centering) / a.nbeam) ((i.val - gridCentre a.N a.centering) / a.nbeam)
        else 1) *
      (a.angStrut.map fun deg => 1 - stripMean 101 (strut (gridCentre a.N a.centering - strutOffset a.N + a.xShear * a.nbeam)
        (gridCentre a.N a.centering - strutOffset a.N + a.yShear * a.nbeam) a.nbeam a.wStrut (deg + a.clocking)) j.val i.val).prod := by
  obtain ⟨o, e, img, ho, he, hi, h⟩ := C103_product a hN hb hw hs hID
  refine ⟨img, hi, fun i j => ?_⟩
  rw [h i j]
  have hc : ∀ (D : ℝ) (k : ℕ), (edge a D).coord k = (k - gridCentre a.N a.centering) / a.nbeam := by
    intro D k; unfold edge GenEll.coord gridCentre; cases a.centering <;> simp only <;> ring
  have hcov : ∀ (D : ℝ) (m : ZMod a.N → ZMod a.N → ℝ), 0 < D → edgeImg a D = .ok m → m i j =
      coverage 101 (disc a.xShear a.yShear (D / 2)) (1 / a.nbeam) ((j.val - gridCentre a.N a.centering) / a.nbeam) ((i.val - gridCentre a.N a.centering) / a.nbeam) := by
    intro D m hD hm
    have hr : 0 < (edge a D).radX := by simp only [edge, hx]; linarith
    have he : (edge a D).radX = (edge a D).radY := by simp only [edge, hx]; ring
    obtain ⟨m', hm', hspec⟩ := C102_circle (edge a D) hN hb rfl hr he hf
    have hmm : m = m' := Except.ok.inj (hm.symm.trans hm')
    have h1 := hspec i j
    rw [hmm]
    refine h1.trans ?_
    have e1 := hc D j.val
    have e2 := hc D i.val
    rw [← e1, ← e2, ← ellSet_disc0 _ _ _ (edge a D).clock (by linarith : 0 < D / 2)]
    rw [he]
    rfl
  rw [hcov a.OD o hOD ho]
  by_cases hi0 : 0 < a.ID
  · rw [if_pos hi0, if_pos hi0, hcov a.ID e hi0 he]
  · rw [if_neg hi0, if_neg hi0]

/-- **C103.** The pupil always stays between 0 and 1, and adding a strut never brightens a pixel. -/
theorem C103_range (a : Simple) (hN : 2 ≤ a.N) (hb : 0 < a.nbeam) (hw : 0 < a.wStrut) (hID : a.ID ≤ a.OD) :
    ∃ img, pupilSimple a = .ok img ∧ (∀ i j, 0 ≤ img i j ∧ img i j ≤ 1) ∧
      ∀ deg, ∃ img', pupilSimple { a with angStrut := a.angStrut ++ [deg] } = .ok img' ∧ ∀ i j, img' i j ≤ img i j := by
  have hst : ∀ (a : Simple), 2 ≤ a.N → 0 < a.nbeam → 0 < a.wStrut → ∀ (deg : ℝ) (i j : ZMod a.N), 0 ≤ 1 - stripMean 101 (strut (gridCentre a.N a.centering - strutOffset a.N + a.xShear * a.nbeam)
        (gridCentre a.N a.centering - strutOffset a.N + a.yShear * a.nbeam) a.nbeam a.wStrut (deg + a.clocking)) j.val i.val ∧
      1 - stripMean 101 (strut (gridCentre a.N a.centering - strutOffset a.N + a.xShear * a.nbeam)
        (gridCentre a.N a.centering - strutOffset a.N + a.yShear * a.nbeam) a.nbeam a.wStrut (deg + a.clocking)) j.val i.val ≤ 1 := by
    intro a hN hb hw deg i j
    have : NeZero a.N := ⟨by omega⟩
    let r : Rect := ⟨gridCentre a.N a.centering - strutOffset a.N + a.xShear * a.nbeam + 0.3 * a.nbeam * Real.cos ((deg + a.clocking) * Real.pi / 180),
      gridCentre a.N a.centering - strutOffset a.N + a.yShear * a.nbeam + 0.3 * a.nbeam * Real.sin ((deg + a.clocking) * Real.pi / 180), 0.3 * a.nbeam, a.wStrut * a.nbeam / 2,
      (deg + a.clocking) * Real.pi / 180⟩
    have hr1 : 0 < r.rx := by show 0 < 0.3 * a.nbeam; positivity
    have hr2 : 0 < r.ry := by show 0 < a.wStrut * a.nbeam / 2; positivity
    have h1 := C101_range r a.N 101 (by norm_num) hr1 hr2 i j
    have h2 := C101_strips r a.N 101 (by norm_num) hr1 hr2 false i j
    rw [if_neg (by decide)] at h2
    rw [h2] at h1
    show 0 ≤ 1 - stripMean 101 (rectSet r.xc r.yc r.rx r.ry r.t) j.val i.val ∧ 1 - stripMean 101 (rectSet r.xc r.yc r.rx r.ry r.t) j.val i.val ≤ 1
    exact ⟨by linarith [h1.2.1], by linarith [h1.1]⟩
  obtain ⟨o, e, img, ho, he, hi, h⟩ := C103_product a hN hb hw.le (fun _ => hw) hID
  have hbase : ∀ i j, 0 ≤ o i j * (if 0 < a.ID then 1 - e i j else 1) ∧ o i j * (if 0 < a.ID then 1 - e i j else 1) ≤ 1 := by
    intro i j
    obtain ⟨o', ho', hr⟩ := edgeImg_range a hN a.OD
    obtain ⟨e', he', hr'⟩ := edgeImg_range a hN a.ID
    have h1 : o' = o := by rw [ho'] at ho; exact Except.ok.inj ho
    have h2 : e' = e := by rw [he'] at he; exact Except.ok.inj he
    rw [h1] at hr; rw [h2] at hr'
    have := hr i j; have h4 := hr' i j
    have h5 : 0 ≤ (if 0 < a.ID then 1 - e i j else 1) ∧ (if 0 < a.ID then 1 - e i j else 1) ≤ 1 := by
      split_ifs
      · exact ⟨by linarith, by linarith⟩
      · exact ⟨by norm_num, le_refl _⟩
    exact ⟨mul_nonneg this.1 h5.1, mul_le_one₀ this.2 h5.1 h5.2⟩
  have hprod : ∀ (l : List ℝ) (f : ℝ → ℝ), (∀ x, 0 ≤ f x ∧ f x ≤ 1) → 0 ≤ (l.map f).prod ∧ (l.map f).prod ≤ 1 := by
    intro l f hf
    induction l with
    | nil => simp
    | cons x l ih => rw [List.map_cons, List.prod_cons]; exact ⟨mul_nonneg (hf x).1 ih.1, mul_le_one₀ (hf x).2 ih.1 ih.2⟩
  refine ⟨img, hi, fun i j => ?_, fun deg => ?_⟩
  · rw [h i j]
    have h1 := hbase i j
    have h2 := hprod a.angStrut _ fun deg => hst a hN hb hw deg i j
    exact ⟨mul_nonneg h1.1 h2.1, mul_le_one₀ h1.2 h2.1 h2.2⟩
  · obtain ⟨o', e', img', ho', he', hi', h'⟩ := C103_product { a with angStrut := a.angStrut ++ [deg] } hN hb hw.le (fun _ => hw) hID
    refine ⟨img', hi', fun i j => ?_⟩
    have h1 : o' = o := by have : (Except.ok o' : Except PyErr _) = .ok o := by rw [← ho', ← ho]; rfl
                           exact Except.ok.inj this
    have h2 : e' = e := by have : (Except.ok e' : Except PyErr _) = .ok e := by rw [← he', ← he]; rfl
                           exact Except.ok.inj this
    rw [h i j, h' i j, h1, h2]
    simp only [List.map_append, List.map_cons, List.map_nil, List.prod_append, List.prod_cons, List.prod_nil, mul_one]
    have h3 := hbase i j
    have h4 := hprod a.angStrut _ fun deg => hst a hN hb hw deg i j
    have h5 := hst a hN hb hw deg i j
    exact mul_le_mul_of_nonneg_left (mul_le_of_le_one_right h4.1 h5.2) h3.1

/-- A 61 × 61 pupil with one horizontal strut one pixel wide. -/
noncomputable def oddPupil : Simple := ⟨50, 61, 1, 0, 1 / 50, [0], .pixel, 1, 0, 0, 0⟩

/-- **C103.** Violated on arrays of odd size: the struts are not registered with the apertures. The pixel in row 30, column 40 is fully dark although half of it lies outside the
strut that starts at the centre of the aperture. -/
theorem C103_odd_violated : ∃ a : Simple, Odd a.N ∧ ∃ img, pupilSimple a = .ok img ∧ ∃ i j, img i j = 0 ∧
    ∀ u v : ℝ, |u - j.val| ≤ 1 / 2 → i.val - 1 / 2 ≤ v → v < i.val → (u, v) ∉ strut (gridCentre a.N a.centering) (gridCentre a.N a.centering) a.nbeam a.wStrut 0 := by
  obtain ⟨o, e, img, ho, he, hi, h⟩ := C103_product oddPupil (by decide) (by simp only [oddPupil]; norm_num) (by simp only [oddPupil]; norm_num)
    (fun _ => by simp only [oddPupil]; norm_num) (by simp only [oddPupil]; norm_num)
  have v1 : ((30 : ℕ) : ZMod oddPupil.N).val = 30 := by decide
  have v2 : ((40 : ℕ) : ZMod oddPupil.N).val = 40 := by decide
  refine ⟨oddPupil, by decide, img, hi, ((30 : ℕ) : ZMod oddPupil.N), ((40 : ℕ) : ZMod oddPupil.N), ?_, ?_⟩
  · rw [h, v1, v2]
    have hoff : strutOffset 61 = 1 / 2 := by unfold strutOffset; rw [if_neg (by decide)]
    let r : Rect := ⟨45, 30, 15, 1 / 2, 0⟩
    have hset : strut (gridCentre oddPupil.N oddPupil.centering - strutOffset oddPupil.N + oddPupil.xShear * oddPupil.nbeam)
        (gridCentre oddPupil.N oddPupil.centering - strutOffset oddPupil.N + oddPupil.yShear * oddPupil.nbeam) oddPupil.nbeam oddPupil.wStrut (0 + oddPupil.clocking) =
        rectSet r.xc r.yc r.rx r.ry r.t := by
      show strut (gridCentre 61 .pixel - strutOffset 61 + 0 * 50) (gridCentre 61 .pixel - strutOffset 61 + 0 * 50) 50 (1 / 50) (0 + 0) = rectSet 45 30 15 (1 / 2) 0
      unfold strut gridCentre
      rw [hoff]
      simp only [add_zero, zero_mul, zero_div, Real.cos_zero, Real.sin_zero]
      congr 1 <;> norm_num
    have hone : stripMean 101 (rectSet r.xc r.yc r.rx r.ry r.t) ((40 : ℕ) : ℝ) ((30 : ℕ) : ℝ) = 1 := by
      have : NeZero 61 := ⟨by decide⟩
      have h1 := C101_strips r 61 101 (by norm_num) (by show (0 : ℝ) < 15; norm_num) (by show (0 : ℝ) < 1 / 2; norm_num) false ((30 : ℕ) : ZMod 61) ((40 : ℕ) : ZMod 61)
      rw [if_neg (by decide)] at h1
      have h2 := (C101_solid r 61 101 (by norm_num) (by show (0 : ℝ) < 15; norm_num) (by show (0 : ℝ) < 1 / 2; norm_num) ((30 : ℕ) : ZMod 61) ((40 : ℕ) : ZMod 61)).1 ?_
      · rw [h1] at h2; exact h2
      · rintro u v hu hv
        have e1 : ((40 : ℕ) : ZMod 61).val = 40 := v2
        have e2 : ((30 : ℕ) : ZMod 61).val = 30 := v1
        rw [e1] at hu; rw [e2] at hv
        show |(u - 45) * Real.cos 0 + (v - 30) * Real.sin 0| ≤ 15 ∧ |-(u - 45) * Real.sin 0 + (v - 30) * Real.cos 0| ≤ 1 / 2
        rw [Real.cos_zero, Real.sin_zero]
        push_cast at hu hv
        rw [abs_le] at hu hv ⊢
        rw [abs_le]
        refine ⟨⟨by linarith, by linarith⟩, by linarith, by linarith⟩
    have hl : oddPupil.angStrut = [0] := rfl
    rw [hl, List.map_cons, List.map_nil, List.prod_cons, List.prod_nil, hset, hone]
    ring
  · rw [v1, v2]
    rintro u v hu hv1 hv2 hmem
    have hm : (u, v) ∈ rectSet (61 / 2 + 0.3 * 50 * Real.cos (0 * Real.pi / 180)) (61 / 2 + 0.3 * 50 * Real.sin (0 * Real.pi / 180)) (0.3 * 50) (1 / 50 * 50 / 2) (0 * Real.pi / 180) := by
      simpa [strut, gridCentre, oddPupil] using hmem
    simp only [rectSet, Set.mem_ofPred_eq, zero_mul, zero_div, Real.cos_zero, Real.sin_zero] at hm
    have h2 := (abs_le.mp hm.2).1
    push_cast at hv1 hv2
    linarith

/-- The hypotheses of `C103_circular`: a pupil with a central obscuration and three struts on 64 × 64 pixels. -/
example : ∃ img, pupilSimple ⟨60, 64, 1, 0.3, 0.02, [90, 210, 330], .pixel, 1, 5, 0.01, -0.02⟩ = .ok img :=
  let ⟨img, h, _⟩ := C103_circular ⟨60, 64, 1, 0.3, 0.02, [90, 210, 330], .pixel, 1, 5, 0.01, -0.02⟩ (by decide) (by norm_num) (by norm_num) (fun _ => by norm_num) (by norm_num) (by norm_num) rfl
    (.inl (by unfold FarCorner; norm_num [abs_le]))
  ⟨img, h⟩

end Verif.Masks
