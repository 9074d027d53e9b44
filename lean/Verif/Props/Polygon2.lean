import Verif.Props.Polygon

/-! # C115 polygons (continued): where the code departs from the claim, and concrete cases -/

namespace Verif.Polygon
open Verif MeasureTheory Verif.Shape

/-! ## Lemmas on pixels -/

theorem stripMean_one {mag : ℕ} (hm : 0 < mag) (S : Set (ℝ × ℝ)) (j i : ℝ) (h : ∀ x y, |x - j| ≤ 1 / 2 → |y - i| ≤ 1 / 2 → (x, y) ∈ S) : stripMean mag S j i = 1 := by
  have hm' : (0 : ℝ) < mag := by exact_mod_cast hm
  have hs : ∀ s : Fin mag, sectionLength S (i - 1 / 2 + ((s : ℕ) + 1 / 2) / mag) j = 1 := by
    intro s
    have h0 : 0 < (((s : ℕ) : ℝ) + 1 / 2) / mag := by positivity
    have h1 : (((s : ℕ) : ℝ) + 1 / 2) / mag < 1 := by
      rw [div_lt_one hm']
      have : ((s : ℕ) : ℝ) + 1 ≤ mag := by exact_mod_cast s.isLt
      linarith
    unfold sectionLength
    have : {x : ℝ | |x - j| ≤ 1 / 2 ∧ (x, i - 1 / 2 + (((s : ℕ) : ℝ) + 1 / 2) / mag) ∈ S} = Set.Icc (j - 1 / 2) (j + 1 / 2) := by
      ext x
      simp only [Set.mem_ofPred_eq, Set.mem_Icc]
      constructor
      · rintro ⟨hx, -⟩
        have := abs_le.mp hx
        exact ⟨by linarith, by linarith⟩
      · rintro ⟨h2, h3⟩
        have hx : |x - j| ≤ 1 / 2 := abs_le.mpr ⟨by linarith, by linarith⟩
        exact ⟨hx, h x _ hx (abs_le.mpr ⟨by linarith, by linarith⟩)⟩
    rw [this, Real.volume_Icc, show j + 1 / 2 - (j - 1 / 2) = 1 by ring]
    simp
  unfold stripMean
  simp only [hs, Finset.sum_const, Finset.card_univ, Fintype.card_fin, nsmul_eq_mul, mul_one]
  field_simp

/-! ## The range of values -/

/-- **C115.** The values lie between 0 and 1: with and without DARK. -/
theorem C115_range (n mag : ℕ) [NeZero n] (hm : 0 < mag) (dx beamrad : ℝ) (hdx : dx ≠ 0) (hr : beamrad ≠ 0) (norm dark : Bool) (nv : ℕ) (xv yv : ℕ → ℝ)
    (hconv : StrictlyConvex nv xv yv)
    (hs : Slow nv (fun k => toPixel n dx beamrad norm (xv k)) (fun k => toPixel n dx beamrad norm (yv k)) mag)
    (hb : Begins nv (fun k => toPixel n dx beamrad norm (xv k)) (fun k => toPixel n dx beamrad norm (yv k)) mag)
    (hmeet : Meets (hull nv (fun k => toPixel n dx beamrad norm (xv k)) (fun k => toPixel n dx beamrad norm (yv k))) n) :
    ∃ img, irregularPolygon n mag dx beamrad norm dark nv xv yv = .ok img ∧ ∀ i j : ZMod n, 0 ≤ img i j ∧ img i j ≤ 1 := by
  have hm' : (0 : ℝ) < mag := by exact_mod_cast hm
  obtain ⟨g1, g2, g3, g4⟩ := ofVertices_good n dx beamrad norm nv xv yv hdx hr hconv mag hs hb
  obtain ⟨h1, h2⟩ := hiIrr_ok (ofVertices n dx beamrad norm nv xv yv) n
  obtain ⟨img, e, h⟩ := draw_spec g1 hm g2 g3 (by rw [g4]; exact hmeet) (Or.inl h1) h2 dark
  refine ⟨img, e, fun i j => ?_⟩
  rw [h i j]
  set S := hull (ofVertices n dx beamrad norm nv xv yv).nv (ofVertices n dx beamrad norm nv xv yv).x (ofVertices n dx beamrad norm nv xv yv).y
  have hseen : ∀ y j, 0 ≤ seen n S y j ∧ seen n S y j ≤ 1 := by
    intro y j
    unfold seen
    split_ifs
    · exact ⟨le_rfl, zero_le_one⟩
    · exact sectionLength_bounds S y j
  have hmean : 0 ≤ seenMean mag n S j.val i.val ∧ seenMean mag n S j.val i.val ≤ 1 := by
    unfold seenMean rowMean
    constructor
    · exact div_nonneg (Finset.sum_nonneg fun s _ => (hseen _ _).1) hm'.le
    · rw [div_le_one hm']
      calc _ ≤ ∑ s : Fin mag, (1 : ℝ) := Finset.sum_le_sum fun s _ => (hseen _ _).2
        _ = mag := by simp
  cases dark
  · exact hmean
  · exact ⟨by simp only [if_true]; linarith [hmean.2], by simp only [if_true]; linarith [hmean.1]⟩

/-! ## The upper edge in prop_polygon -/

theorem bind_err {α β : Type} {A : Except PyErr α} {f : α → Except PyErr β} {e : PyErr} (h : A.bind f = .error e) : A = .error e ∨ ∃ v, A = .ok v ∧ f v = .error e := by
  cases A with
  | error e' => left; simpa [Except.bind] using h
  | ok v => right; exact ⟨v, rfl, h⟩

/-- All errors of the scan are IndexErrors. -/
theorem addRow_error (n mag : ℕ) (img : ℤ → ℤ → ℝ) (yp : ℤ) (xl xr : ℝ) (e : PyErr) (h : addRow n mag img yp xl xr = .error e) : e = .indexError := by
  have hadd : ∀ (img : ℤ → ℤ → ℝ) c v e, addAt n img yp c v = .error e → e = .indexError := by
    intro img c v e h
    unfold addAt at h
    dsimp only at h
    split_ifs at h
    all_goals (injection h with h; exact h.symm)
  unfold addRow at h
  dsimp only at h
  by_cases hab : Dm.npRound xl ≠ Dm.npRound xr
  · rw [if_pos hab] at h
    rcases bind_err h with h | ⟨v, -, h⟩
    · split_ifs at h
      exact hadd _ _ _ _ h
    · rcases bind_err h with h | ⟨v, -, h⟩
      · split_ifs at h
        exact hadd _ _ _ _ h
      · split_ifs at h
  · rw [if_neg hab] at h
    split_ifs at h
    exact hadd _ _ _ _ h

theorem scan_error (p : Poly) (n mag : ℕ) (s : Scan) (q : ℤ × ℕ) (e : PyErr) (h : p.scan n mag s q = .error e) : e = .indexError := by
  unfold Poly.scan at h
  dsimp only at h
  split at h
  · cases h
  · split at h
    · cases h
    · split at h
      · injection h with h; exact h.symm
      · revert h
        generalize hA : addRow n mag s.img q.1 _ _ = A
        intro h
        cases A with
        | error e' => simp only [Except.map] at h; injection h with h; rw [← h]; exact addRow_error _ _ _ _ _ _ _ hA
        | ok v => cases h

theorem fold_error (p : Poly) (n mag : ℕ) (l : List (ℤ × ℕ)) (s : Scan) (e : PyErr) (h : l.foldlM (p.scan n mag) s = .error e) : e = .indexError := by
  induction l generalizing s with
  | nil => cases h
  | cons q l ih =>
    rw [List.foldlM_cons] at h
    simp only [bind] at h
    cases hA : p.scan n mag s q with
    | error e' => rw [hA] at h; injection h with h; rw [← h]; exact scan_error _ _ _ _ _ _ hA
    | ok s' => rw [hA] at h; exact ih s' h

theorem draw_error (p : Poly) (n mag : ℕ) (hi : ℤ) (dark : Bool) (h : ∀ s, (rows mag p.lo hi).foldlM (p.scan n mag) ⟨p.lowest, p.lowest, fun _ _ => 0⟩ ≠ .ok s) :
    p.draw n mag hi dark = .error .indexError := by
  unfold Poly.draw
  cases hA : (rows mag p.lo hi).foldlM (p.scan n mag) ⟨p.lowest, p.lowest, fun _ _ => 0⟩ with
  | error e => rw [fold_error p n mag _ _ e hA]; rfl
  | ok s => exact absurd hA (h s)

theorem fold_left (p : Poly) (n mag : ℕ) (Y : ℝ) (l : List (ℤ × ℕ)) (hl : ∀ q ∈ l, rowY mag q ≤ Y) (s s' : Scan) (hs : p.y s.left ≤ Y) (h : l.foldlM (p.scan n mag) s = .ok s') :
    p.y s'.left ≤ Y := by
  induction l generalizing s with
  | nil => injection h with h; rw [← h]; exact hs
  | cons q l ih =>
    rw [List.foldlM_cons] at h
    simp only [bind] at h
    cases hA : p.scan n mag s q with
    | error e' => rw [hA] at h; cases h
    | ok s1 =>
      rw [hA] at h
      refine ih (fun q hq => hl q (List.mem_cons_of_mem _ hq)) s1 ?_ h
      have hq := hl q List.mem_cons_self
      unfold Poly.scan at hA
      dsimp only at hA
      split at hA
      · injection hA with hA; rw [← hA]; exact hs
      · split at hA
        · injection hA with hA; rw [← hA]; exact hs
        · split at hA
          · cases hA
          · revert hA
            generalize addRow n mag s.img q.1 _ _ = A
            intro hA
            cases A with
            | error e' => cases hA
            | ok v =>
              simp only [Except.map] at hA
              injection hA with hA
              rw [← hA]
              dsimp only
              split_ifs with hc
              · linarith
              · exact hs

/-- **C115, violated.** A regular polygon whose top lies within the pixel row just above the array makes `prop_polygon` fail with an IndexError (whatever its size and rotation), as the
loop then runs over one row too many. -/
theorem C115_top_violated (n mag : ℕ) (hm : 0 < mag) (dx beamrad : ℝ) (norm dark : Bool) (nvert : ℕ) (h3 : 0 < nvert) (rad : ℝ) (xc yc : Option ℝ) (rotation : ℝ)
    (hlow : ∃ k < nvert, regY n dx beamrad norm nvert rad yc rotation k ≤ n - 1 / 2)
    (htop : ∃ k < nvert, (n : ℝ) - 1 / 2 + 1 / (2 * mag) ≤ regY n dx beamrad norm nvert rad yc rotation k)
    (htop' : ∀ k < nvert, regY n dx beamrad norm nvert rad yc rotation k < n + 1 / 2) :
    regularPolygon n mag dx beamrad norm dark nvert rad xc yc rotation = .error .indexError := by
  have hm' : (0 : ℝ) < mag := by exact_mod_cast hm
  unfold regularPolygon
  rw [regular_eq]
  dsimp only
  set p : Poly := ⟨nvert, regX n dx beamrad norm nvert rad xc rotation, regY n dx beamrad norm nvert rad yc rotation⟩ with hp
  apply draw_error
  have hmag0 : (0 : ℝ) < 1 / (2 * mag) := by positivity
  obtain ⟨kl, hkl, hl⟩ := hlow
  obtain ⟨kt, hkt, ht⟩ := htop
  have hmin : p.ymin ≤ n - 1 / 2 := le_trans (ymin_le p hkl) hl
  have hmax1 : (n : ℝ) - 1 / 2 + 1 / (2 * mag) ≤ p.ymax := le_trans ht (le_ymax p hkt)
  have hmax2 : p.ymax < n + 1 / 2 := by
    obtain ⟨k, hk, e⟩ := ymax_mem p h3
    rw [← e]; exact htop' k hk
  have hround : Dm.npRound p.ymax = n := by
    obtain ⟨b1, b2⟩ := Dm.npRound_bounds p.ymax
    have h1 : (Dm.npRound p.ymax : ℝ) < n + 1 := by linarith
    have h2 : (n : ℝ) - 1 < Dm.npRound p.ymax := by linarith
    have h1' : Dm.npRound p.ymax < n + 1 := by exact_mod_cast h1
    have h2' : (n : ℤ) - 1 < Dm.npRound p.ymax := by exact_mod_cast h2
    omega
  have hhi : p.hiReg n = n + 1 := by unfold Poly.hiReg; rw [hround, if_neg (by omega)]
  have hlo : p.lo ≤ n := by
    unfold Poly.lo
    split_ifs
    · omega
    · obtain ⟨b1, b2⟩ := Dm.npRound_bounds p.ymin
      have h1 : (Dm.npRound p.ymin : ℝ) ≤ n := by linarith
      exact_mod_cast h1
  obtain ⟨hL, hLy, -⟩ := lowest_spec p h3
  rw [hhi]
  -- the rows below, then the row that is not there
  have hsplit : rows mag p.lo (n + 1) = rows mag p.lo n ++ (List.range mag).map fun s => ((n : ℤ), s) := by
    unfold rows
    rw [show ((n : ℤ) + 1 - p.lo).toNat = ((n : ℤ) - p.lo).toNat + 1 by omega, List.range_succ, List.flatMap_append]
    congr 1
    simp only [List.flatMap_cons, List.flatMap_nil, List.append_nil]
    apply List.map_congr_left
    intro s _
    congr 1
    omega
  have hrest : ∃ l, (List.range mag).map (fun s => ((n : ℤ), s)) = ((n : ℤ), 0) :: l := by
    obtain ⟨m, rfl⟩ : ∃ m, mag = m + 1 := ⟨mag - 1, by omega⟩
    rw [List.range_succ_eq_map, List.map_cons]
    exact ⟨_, rfl⟩
  obtain ⟨rest, hrest⟩ := hrest
  intro s hs
  rw [hsplit, List.foldlM_append, hrest] at hs
  simp only [bind] at hs
  cases hA : (rows mag p.lo n).foldlM (p.scan n mag) ⟨p.lowest, p.lowest, fun _ _ => 0⟩ with
  | error e => rw [hA] at hs; cases hs
  | ok s1 =>
    rw [hA] at hs
    have hleft := fold_left p n mag (n - 1 / 2) (rows mag p.lo n) (by
      intro q hq
      unfold rows at hq
      obtain ⟨k, hk, hq⟩ := List.mem_flatMap.mp hq
      obtain ⟨s, hs, rfl⟩ := List.mem_map.mp hq
      have hk' := List.mem_range.mp hk
      have hs' : (s : ℝ) + 1 ≤ mag := by exact_mod_cast List.mem_range.mp hs
      have hkn : (p.lo : ℝ) + k + 1 ≤ n := by
        have : p.lo + (k : ℤ) + 1 ≤ n := by omega
        exact_mod_cast this
      unfold rowY
      have h1 : ((0.5 : ℝ) + s) / mag < 1 := by rw [div_lt_one hm']; linarith
      push_cast
      linarith) _ s1 (by show p.y p.lowest ≤ _; rw [hLy]; exact hmin) hA
    have herr : p.scan n mag s1 ((n : ℤ), 0) = .error .indexError := by
      have hy : rowY mag ((n : ℤ), 0) = (n : ℝ) - 1 / 2 + 1 / (2 * mag) := by
        unfold rowY; push_cast; field_simp; ring
      unfold Poly.scan
      rw [hy]
      dsimp only
      rw [if_neg (by linarith), if_neg (by linarith), if_pos (by omega)]
    simp only [Except.bind, List.foldlM_cons, bind, herr] at hs
    cases hs

/-! ## The last column -/

section irregular
variable (n mag : ℕ) (dx beamrad : ℝ) (norm : Bool) (nv : ℕ) (xv yv : ℕ → ℝ)

/-- The polygon in pixels. -/
def figure : Set (ℝ × ℝ) := hull nv (fun k => toPixel n dx beamrad norm (xv k)) (fun k => toPixel n dx beamrad norm (yv k))

theorem mid_row {mag : ℕ} (hm : 0 < mag) (i : ℝ) (s : Fin mag) : |(i - 1 / 2 + ((s : ℕ) + 1 / 2) / mag) - i| ≤ 1 / 2 := by
  have hm' : (0 : ℝ) < mag := by exact_mod_cast hm
  have h0 : 0 < (((s : ℕ) : ℝ) + 1 / 2) / mag := by positivity
  have h1 : (((s : ℕ) : ℝ) + 1 / 2) / mag < 1 := by
    rw [div_lt_one hm']
    have : ((s : ℕ) : ℝ) + 1 ≤ mag := by exact_mod_cast s.isLt
    linarith
  exact abs_le.mpr ⟨by linarith, by linarith⟩

/-- **C115, violated.** The last column stays empty where the polygon crosses it from its left to the outside of the array: there the pixels are 0 (with DARK: 1) however much of them the
polygon covers. -/
theorem C115_last_column_violated [NeZero n] (hm : 0 < mag) (hdx : dx ≠ 0) (hr : beamrad ≠ 0) (dark : Bool)
    (hconv : StrictlyConvex nv xv yv)
    (hs : Slow nv (fun k => toPixel n dx beamrad norm (xv k)) (fun k => toPixel n dx beamrad norm (yv k)) mag)
    (hb : Begins nv (fun k => toPixel n dx beamrad norm (xv k)) (fun k => toPixel n dx beamrad norm (yv k)) mag)
    (hmeet : Meets (figure n dx beamrad norm nv xv yv) n) :
    ∃ img, irregularPolygon n mag dx beamrad norm dark nv xv yv = .ok img ∧ ∀ i j : ZMod n, j.val + 1 = n →
      (∀ y : ℝ, |y - (i.val : ℝ)| ≤ 1 / 2 → (∃ x, (x, y) ∈ figure n dx beamrad norm nv xv yv ∧ (n : ℝ) - 1 / 2 < x) ∧ ∃ x, (x, y) ∈ figure n dx beamrad norm nv xv yv ∧ x < n - 3 / 2) →
      img i j = if dark then 1 else 0 := by
  obtain ⟨g1, g2, g3, g4⟩ := ofVertices_good n dx beamrad norm nv xv yv hdx hr hconv mag hs hb
  obtain ⟨h1, h2⟩ := hiIrr_ok (ofVertices n dx beamrad norm nv xv yv) n
  obtain ⟨img, e, h⟩ := draw_spec g1 hm g2 g3 (by rw [g4]; exact hmeet) (Or.inl h1) h2 dark
  refine ⟨img, e, fun i j hj hcross => ?_⟩
  rw [h i j, g4]
  have : seenMean mag n (hull nv (fun k => toPixel n dx beamrad norm (xv k)) (fun k => toPixel n dx beamrad norm (yv k))) (j.val : ℤ) (i.val : ℤ) = 0 := by
    unfold seenMean rowMean
    rw [Finset.sum_eq_zero, zero_div]
    intro s _
    have hmid := mid_row hm (((i.val : ℤ) : ℝ)) s
    obtain ⟨⟨x, hx, hxn⟩, ⟨x', hx', hxn'⟩⟩ := hcross _ (by simpa using hmid)
    unfold seen
    rw [if_pos]
    refine ⟨by exact_mod_cast hj, ⟨x, by simpa [figure] using hx, ?_⟩, ⟨x', by simpa [figure] using hx', ?_⟩⟩
    · have hb := Dm.npRound_bounds x
      have : (n : ℝ) - 1 < Dm.npRound x := by linarith [hb.1, hb.2]
      have : (n : ℤ) - 1 < Dm.npRound x := by exact_mod_cast this
      omega
    · have hb := Dm.npRound_bounds x'
      have : (Dm.npRound x' : ℝ) < (n : ℝ) - 1 := by linarith [hb.1, hb.2]
      have : Dm.npRound x' < (n : ℤ) - 1 := by exact_mod_cast this
      omega
  rw [this]
  cases dark <;> simp

/-! ## The right edge -/

/-- The scan of a prefix either fails or keeps its corners. -/
theorem fold_pos {p : Poly} (hc : Clockwise p.nv p.x p.y) {mag n : ℕ} (hm : 0 < mag) (hs : Slow p.nv p.x p.y mag) (hb : Begins p.nv p.x p.y mag) {a i0 b : ℕ}
    (C : Chain p p.next 0 a) (C' : Chain p p.prev i0 b) (T : ℕ) (s : Scan)
    (h : ((List.range T).map fun t => (p.lo + ((t / mag : ℕ) : ℤ), t % mag)).foldlM (p.scan n mag) ⟨p.lowest, p.lowest, fun _ _ => 0⟩ = .ok s) : Pos p mag a i0 b T s := by
  induction T generalizing s with
  | zero => injection h with h; rw [← h]; exact Or.inl ⟨rfl, rfl, by simp⟩
  | succ T ih =>
    rw [List.range_succ, List.map_append, List.foldlM_append] at h
    simp only [List.map_cons, List.map_nil, List.foldlM_cons, List.foldlM_nil, bind] at h
    cases hA : ((List.range T).map fun t => (p.lo + ((t / mag : ℕ) : ℤ), t % mag)).foldlM (p.scan n mag) ⟨p.lowest, p.lowest, fun _ _ => 0⟩ with
    | error e => rw [hA] at h; cases h
    | ok s1 =>
      rw [hA] at h
      simp only [Except.bind] at h
      rcases scan_cases hc hm hs (n := n) C C' T s1 (ih s1 hA) (fun _ => hb) with ⟨e, hp, -⟩ | ⟨-, -, xl, xr, l, r, -, -, hp, e⟩
      · rw [e] at h
        injection h with h; rw [← h]; exact hp
      · rw [e] at h
        split_ifs at h
        revert h
        generalize addRow n mag s1.img _ xl xr = A
        intro h
        cases A with
        | error e => cases h
        | ok v => injection h with h; rw [← h]; exact hp v

/-- A sub-row on which the section begins outside of the last column and is longer than a pixel: the scan fails. -/
theorem draw_right {p : Poly} (hc : Clockwise p.nv p.x p.y) {mag n : ℕ} (hm : 0 < mag) (hs : Slow p.nv p.x p.y mag) (hb : Begins p.nv p.x p.y mag) {hi : ℤ}
    (hcov : ∀ i : ℤ, i < n → i ≤ Dm.npRound p.ymax → i < hi) (dark : Bool) (i : ℕ) (hin : i < n) (s : Fin mag) (x1 x2 : ℝ)
    (h1 : (x1, (i : ℝ) - 1 / 2 + ((s : ℕ) + 1 / 2) / mag) ∈ hull p.nv p.x p.y) (h2 : (x2, (i : ℝ) - 1 / 2 + ((s : ℕ) + 1 / 2) / mag) ∈ hull p.nv p.x p.y) (h12 : x1 + 1 < x2)
    (hout : ∀ x, (x, (i : ℝ) - 1 / 2 + ((s : ℕ) + 1 / 2) / mag) ∈ hull p.nv p.x p.y → (n : ℝ) - 1 / 2 < x) :
    p.draw n mag hi dark = .error .indexError := by
  have hm' : (0 : ℝ) < mag := by exact_mod_cast hm
  apply draw_error
  intro sf hsf
  obtain ⟨a, C⟩ := left_chain p hc
  obtain ⟨i0, b, C'⟩ := right_chain p hc
  rw [rows_eq mag hm] at hsf
  -- the number of the sub-row
  obtain ⟨o1, o2⟩ := hull_heights h1
  have hmid := abs_le.mp (mid_row hm (i : ℝ) s)
  have hb1 := Dm.npRound_bounds p.ymin
  have hb2 := Dm.npRound_bounds p.ymax
  have hstrict0 : 0 < (((s : ℕ) : ℝ) + 1 / 2) / mag := by positivity
  have hstrict1 : (((s : ℕ) : ℝ) + 1 / 2) / mag < 1 := by
    rw [div_lt_one hm']
    have : ((s : ℕ) : ℝ) + 1 ≤ mag := by exact_mod_cast s.isLt
    linarith
  have q1 : Dm.npRound p.ymin < (i : ℤ) + 1 := by
    have : (Dm.npRound p.ymin : ℝ) < ((i : ℤ) : ℝ) + 1 := by push_cast; linarith [hb1.2]
    exact_mod_cast this
  have q2 : (i : ℤ) < Dm.npRound p.ymax + 1 := by
    have : ((i : ℤ) : ℝ) < (Dm.npRound p.ymax : ℝ) + 1 := by push_cast; linarith [hb2.1]
    exact_mod_cast this
  have hlo : p.lo ≤ i := by unfold Poly.lo; split_ifs <;> omega
  have hhi : (i : ℤ) < hi := hcov i (by omega) (by omega)
  obtain ⟨u, hu⟩ : ∃ u : ℕ, (i : ℤ) = p.lo + u := ⟨((i : ℤ) - p.lo).toNat, by omega⟩
  set T := u * mag + (s : ℕ) with hT
  have hTd : T / mag = u := by rw [hT, Nat.mul_comm, Nat.mul_add_div hm, Nat.div_eq_of_lt s.isLt, add_zero]
  have hTm : T % mag = s := by rw [hT, Nat.mul_comm, Nat.mul_add_mod, Nat.mod_eq_of_lt s.isLt]
  have hTlt : T + 1 ≤ (hi - p.lo).toNat * mag := by
    have : u + 1 ≤ (hi - p.lo).toNat := by omega
    have := Nat.mul_le_mul_right mag this
    have := s.isLt
    rw [hT]; nlinarith
  have hY : subY mag p.lo T = (i : ℝ) - 1 / 2 + ((s : ℕ) + 1 / 2) / mag := by
    unfold subY
    have : (i : ℝ) = (p.lo : ℝ) + u := by exact_mod_cast hu
    rw [this, hT]; push_cast; field_simp; ring
  obtain ⟨k, hk⟩ := Nat.exists_eq_add_of_le hTlt
  rw [hk, List.range_add, List.map_append, List.foldlM_append] at hsf
  simp only [bind] at hsf
  cases hA : ((List.range (T + 1)).map fun t => (p.lo + ((t / mag : ℕ) : ℤ), t % mag)).foldlM (p.scan n mag) ⟨p.lowest, p.lowest, fun _ _ => 0⟩ with
  | error e => rw [hA] at hsf; cases hsf
  | ok s2 =>
    clear hsf
    rw [List.range_succ, List.map_append, List.foldlM_append] at hA
    simp only [List.map_cons, List.map_nil, List.foldlM_cons, List.foldlM_nil, bind] at hA
    cases hB : ((List.range T).map fun t => (p.lo + ((t / mag : ℕ) : ℤ), t % mag)).foldlM (p.scan n mag) ⟨p.lowest, p.lowest, fun _ _ => 0⟩ with
    | error e => rw [hB] at hA; cases hA
    | ok s1 =>
      rw [hB] at hA
      simp only [Except.bind] at hA
      rw [← hY] at h1 h2 hout
      rcases scan_cases hc hm hs (n := n) C C' T s1 (fold_pos hc hm hs hb C C' T s1 hB) (fun _ => hb) with ⟨e, -, hmiss⟩ | ⟨-, -, xl, xr, l, r, hlr, hsec, hp, e⟩
      · exact hmiss x1 h1
      · have hxl := hout xl ((hsec xl).mpr ⟨le_rfl, hlr⟩)
        have hx1 := ((hsec x1).mp h1).1
        have hx2 := ((hsec x2).mp h2).2
        have bl := Dm.npRound_bounds xl
        have br := Dm.npRound_bounds xr
        have ha : (n : ℤ) - 1 < Dm.npRound xl := by
          have : (n : ℝ) - 1 < Dm.npRound xl := by linarith [bl.1, bl.2]
          exact_mod_cast this
        have hne : Dm.npRound xl ≠ Dm.npRound xr := by
          have : (Dm.npRound xl : ℝ) < Dm.npRound xr := by linarith [bl.1, bl.2, br.1, br.2]
          have : Dm.npRound xl < Dm.npRound xr := by exact_mod_cast this
          omega
        rw [e] at hA
        split_ifs at hA
        unfold addRow at hA
        dsimp only at hA
        rw [if_pos hne, if_pos (by omega)] at hA
        unfold addAt at hA
        dsimp only at hA
        rw [if_neg (show ¬ Dm.npRound xl < 0 by omega), if_neg (by omega)] at hA
        cases hA

/-- **C115, violated.** A polygon with a sub-row that begins to the right of the array, and is longer than a pixel there, is not ignored: `prop_irregular_polygon` fails with an IndexError. -/
theorem C115_right_violated (hm : 0 < mag) (hdx : dx ≠ 0) (hr : beamrad ≠ 0) (dark : Bool)
    (hconv : StrictlyConvex nv xv yv)
    (hs : Slow nv (fun k => toPixel n dx beamrad norm (xv k)) (fun k => toPixel n dx beamrad norm (yv k)) mag)
    (hb : Begins nv (fun k => toPixel n dx beamrad norm (xv k)) (fun k => toPixel n dx beamrad norm (yv k)) mag)
    (i : ℕ) (hin : i < n) (s : Fin mag) (x1 x2 : ℝ) (h12 : x1 + 1 < x2)
    (h1 : (x1, (i : ℝ) - 1 / 2 + ((s : ℕ) + 1 / 2) / mag) ∈ figure n dx beamrad norm nv xv yv) (h2 : (x2, (i : ℝ) - 1 / 2 + ((s : ℕ) + 1 / 2) / mag) ∈ figure n dx beamrad norm nv xv yv)
    (hout : ∀ x, (x, (i : ℝ) - 1 / 2 + ((s : ℕ) + 1 / 2) / mag) ∈ figure n dx beamrad norm nv xv yv → (n : ℝ) - 1 / 2 < x) :
    irregularPolygon n mag dx beamrad norm dark nv xv yv = .error .indexError := by
  obtain ⟨g1, g2, g3, g4⟩ := ofVertices_good n dx beamrad norm nv xv yv hdx hr hconv mag hs hb
  obtain ⟨-, h⟩ := hiIrr_ok (ofVertices n dx beamrad norm nv xv yv) n
  unfold figure at h1 h2 hout
  rw [← g4] at h1 h2 hout
  exact draw_right g1 hm g2 g3 h dark i hin s x1 x2 h1 h2 h12 hout

/-! ## The left edge -/

open Classical in
/-- What a sub-row wholly to the left of the array adds: a copy from the far end, and the row up to it. -/
noncomputable def ghost (n : ℕ) (xl xr : ℝ) (j : ℤ) : ℝ :=
  if Dm.npRound xl = Dm.npRound xr then 0
  else if j = n + Dm.npRound xr then xr - (Dm.npRound xr - 1 / 2)
  else if j < n + Dm.npRound xr ∧ 1 < Dm.npRound xr - Dm.npRound xl then 1 else 0

theorem addRow_ghost (n mag : ℕ) (img : ℤ → ℤ → ℝ) (yp : ℤ) (xl xr : ℝ) (hlr : xl ≤ xr) (h0 : Dm.npRound xr < 0) (hn : -(n : ℤ) ≤ Dm.npRound xr) :
    ∃ out, addRow n mag img yp xl xr = .ok out ∧ ∀ i j : ℤ, 0 ≤ j → j < n → out i j = img i j + if i = yp then mag * ghost n xl xr j else 0 := by
  have hab : Dm.npRound xl ≤ Dm.npRound xr := npRound_mono hlr
  unfold addRow
  dsimp only
  by_cases hne : Dm.npRound xl = Dm.npRound xr
  · rw [if_neg (by simpa using hne), if_neg (by omega)]
    refine ⟨img, rfl, fun i j _ _ => ?_⟩
    unfold ghost
    rw [if_pos hne, mul_zero, ite_self, add_zero]
  · rw [if_pos hne, if_neg (show ¬ Dm.npRound xl ≥ 0 by omega)]
    have hA : addAt n img yp (Dm.npRound xr) (mag * (xr - (Dm.npRound xr - 0.5))) = .ok (Function.update img yp (Function.update (img yp) (n + Dm.npRound xr)
        (img yp (n + Dm.npRound xr) + mag * (xr - (Dm.npRound xr - 0.5))))) := by
      unfold addAt
      dsimp only
      rw [if_pos h0, if_pos (by omega), add_comm (Dm.npRound xr)]
    show ∃ out, (if Dm.npRound xr < n then addAt n img yp (Dm.npRound xr) (mag * (xr - (Dm.npRound xr - 0.5))) else Except.ok img).bind _ = _ ∧ _
    rw [if_pos (show Dm.npRound xr < (n : ℤ) by omega), hA]
    have hf : (0.5 : ℝ) = 1 / 2 := by norm_num
    show ∃ out, (if Dm.npRound xr - Dm.npRound xl > 1 then Except.ok (addSlice n _ yp (if Dm.npRound xl + 1 < 0 then 0 else Dm.npRound xl + 1) (if Dm.npRound xr ≥ n then (n : ℤ) - 1 else Dm.npRound xr) mag)
      else Except.ok _) = _ ∧ _
    by_cases h1 : Dm.npRound xr - Dm.npRound xl > 1
    · rw [if_pos h1, if_pos (by omega), if_neg (show ¬ Dm.npRound xr ≥ (n : ℤ) by omega)]
      refine ⟨_, rfl, fun i j hj0 hjn => ?_⟩
      unfold addSlice ghost
      rw [if_neg hne, if_pos h0]
      by_cases hi : i = yp
      · subst hi
        rw [Function.update_self, Function.update_self, if_pos rfl]
        by_cases hj : j = n + Dm.npRound xr
        · subst hj
          rw [if_neg (by omega), Function.update_self, if_pos rfl, hf]
        · rw [if_neg hj, Function.update_of_ne hj]
          by_cases hjl : j < n + Dm.npRound xr
          · rw [if_pos ⟨hj0, by omega⟩, if_pos ⟨hjl, by omega⟩, mul_one]
          · rw [if_neg (by omega), if_neg (by omega), mul_zero, add_zero]
      · rw [Function.update_of_ne hi, Function.update_of_ne hi, if_neg hi, add_zero]
    · rw [if_neg h1]
      refine ⟨_, rfl, fun i j hj0 hjn => ?_⟩
      unfold ghost
      rw [if_neg hne]
      by_cases hi : i = yp
      · subst hi
        rw [Function.update_self, if_pos rfl]
        by_cases hj : j = n + Dm.npRound xr
        · subst hj
          rw [Function.update_self, if_pos rfl, hf]
        · rw [if_neg hj, Function.update_of_ne hj, if_neg (by omega), mul_zero, add_zero]
      · rw [Function.update_of_ne hi, if_neg hi, add_zero]

open Classical in
/-- The same in terms of the figure. -/
noncomputable def ghostSeen (n : ℕ) (S : Set (ℝ × ℝ)) (y : ℝ) (j : ℤ) : ℝ :=
  if h : ∃ q : ℝ × ℝ, q.1 ≤ q.2 ∧ ∀ x, (x, y) ∈ S ↔ q.1 ≤ x ∧ x ≤ q.2 then ghost n h.choose.1 h.choose.2 j else 0

theorem ghostSeen_eq (n : ℕ) (S : Set (ℝ × ℝ)) (y xl xr : ℝ) (j : ℤ) (h : ∀ x, (x, y) ∈ S ↔ xl ≤ x ∧ x ≤ xr) (hlr : xl ≤ xr) : ghostSeen n S y j = ghost n xl xr j := by
  have hex : ∃ q : ℝ × ℝ, q.1 ≤ q.2 ∧ ∀ x, (x, y) ∈ S ↔ q.1 ≤ x ∧ x ≤ q.2 := ⟨(xl, xr), hlr, h⟩
  unfold ghostSeen
  rw [dif_pos hex]
  obtain ⟨c1, c2⟩ := hex.choose_spec
  generalize hex.choose = q at c1 c2
  have e1 : q.1 = xl := le_antisymm ((c2 xl).mp ((h xl).mpr ⟨le_rfl, hlr⟩)).1 ((h q.1).mp ((c2 q.1).mpr ⟨le_rfl, c1⟩)).1
  have e2 : q.2 = xr := le_antisymm ((h q.2).mp ((c2 q.2).mpr ⟨c1, le_rfl⟩)).2 ((c2 xr).mp ((h xr).mpr ⟨hlr, le_rfl⟩)).2
  rw [e1, e2]

/-- Every section of the polygon is an interval. -/
theorem hull_section {nv : ℕ} {X Y : ℕ → ℝ} {x y : ℝ} (h : (x, y) ∈ hull nv X Y) : ∃ xl xr, xl ≤ xr ∧ ∀ w, (w, y) ∈ hull nv X Y ↔ xl ≤ w ∧ w ≤ xr := by
  have hfin : {v : ℝ × ℝ | ∃ k < nv, v = (X k, Y k)}.Finite := by
    refine ((Set.finite_lt_nat nv).image fun k => (X k, Y k)).subset ?_
    rintro v ⟨k, hk, rfl⟩
    exact ⟨k, hk, rfl⟩
  have hcomp : IsCompact (hull nv X Y) := hfin.isCompact_convexHull ℝ
  have hconv : Convex ℝ (hull nv X Y) := convex_convexHull ℝ _
  set K : Set ℝ := {w | (w, y) ∈ hull nv X Y} with hK
  have hKc : IsCompact K := by
    have : K = Prod.fst '' (hull nv X Y ∩ {q | q.2 = y}) := by
      ext w
      constructor
      · intro hw; exact ⟨(w, y), ⟨hw, rfl⟩, rfl⟩
      · rintro ⟨⟨a, b⟩, ⟨ha, hb⟩, rfl⟩
        have : b = y := hb
        subst this
        exact ha
    rw [this]
    exact (hcomp.inter_right (isClosed_eq continuous_snd continuous_const)).image continuous_fst
  have hKv : Convex ℝ K := by
    intro a ha b hb s t hs ht hst
    have := hconv ha hb hs ht hst
    have e : s • (a, y) + t • (b, y) = (s • a + t • b, y) := by
      ext
      · simp
      · simp only [Prod.snd_add, Prod.smul_snd, smul_eq_mul]; rw [← add_mul, hst, one_mul]
    rw [e] at this
    exact this
  have hne : K.Nonempty := ⟨x, h⟩
  have hI := eq_Icc_of_connected_compact ⟨hne, hKv.isPreconnected⟩ hKc
  have hxI : x ∈ Set.Icc (sInf K) (sSup K) := hI ▸ (show x ∈ K from h)
  refine ⟨sInf K, sSup K, le_trans hxI.1 hxI.2, fun w => ?_⟩
  have : w ∈ K ↔ w ∈ Set.Icc (sInf K) (sSup K) := by rw [← hI]
  exact this

/-- **C115, violated.** A polygon wholly to the left of the array (by less than its width) is not ignored either: it fills the rows beside it.  A pixel in such a row is 1 when the polygon
reaches, at all heights of the row, further right than the pixel moved left by the width of the array, and is at least three pixels wide. -/
theorem C115_left_violated [NeZero n] (hm : 0 < mag) (hdx : dx ≠ 0) (hr : beamrad ≠ 0) (dark : Bool)
    (hconv : StrictlyConvex nv xv yv)
    (hs : Slow nv (fun k => toPixel n dx beamrad norm (xv k)) (fun k => toPixel n dx beamrad norm (yv k)) mag)
    (hb : Begins nv (fun k => toPixel n dx beamrad norm (xv k)) (fun k => toPixel n dx beamrad norm (yv k)) mag)
    (hleft : ∀ x y, (x, y) ∈ figure n dx beamrad norm nv xv yv → -(n : ℝ) ≤ x ∧ x < -1 / 2) :
    ∃ img, irregularPolygon n mag dx beamrad norm dark nv xv yv = .ok img ∧ ∀ i j : ZMod n,
      (∀ y : ℝ, |y - (i.val : ℝ)| ≤ 1 / 2 → ∃ x x', (x, y) ∈ figure n dx beamrad norm nv xv yv ∧ (x', y) ∈ figure n dx beamrad norm nv xv yv ∧ x + 3 ≤ x' ∧ (j.val : ℝ) + 1 / 2 - n < x') →
      img i j = if dark then 0 else 1 := by
  obtain ⟨g1, g2, g3, g4⟩ := ofVertices_good n dx beamrad norm nv xv yv hdx hr hconv mag hs hb
  obtain ⟨h1, h2⟩ := hiIrr_ok (ofVertices n dx beamrad norm nv xv yv) n
  unfold figure at hleft
  obtain ⟨img, e, h⟩ := draw_gen g1 hm g2 g3 (ghostSeen n (hull nv (fun k => toPixel n dx beamrad norm (xv k)) (fun k => toPixel n dx beamrad norm (yv k))))
    (by
      intro y j hy
      rw [g4] at hy
      unfold ghostSeen
      rw [dif_neg]
      rintro ⟨q, hq, hq'⟩
      exact hy q.1 ((hq' q.1).mpr ⟨le_rfl, hq⟩))
    (by
      intro y xl xr hy0 hyn hlr hsec img yp
      rw [g4] at hsec
      obtain ⟨l1, l2⟩ := hleft xr y ((hsec xr).mpr ⟨hlr, le_rfl⟩)
      have br := Dm.npRound_bounds xr
      have hb0 : Dm.npRound xr < 0 := by
        have : (Dm.npRound xr : ℝ) < 0 := by linarith [br.1, br.2]
        exact_mod_cast this
      have hbn : -(n : ℤ) - 1 < Dm.npRound xr := by
        have : -(n : ℝ) - 1 < Dm.npRound xr := by linarith [br.1, br.2]
        exact_mod_cast this
      obtain ⟨out, e, ho⟩ := addRow_ghost n mag img yp xl xr hlr hb0 (by omega)
      refine ⟨out, e, fun i j hj0 hjn => ?_⟩
      rw [ho i j hj0 hjn, ghostSeen_eq n _ y xl xr j hsec hlr]) (Or.inl h1) h2 dark
  refine ⟨img, e, fun i j hw => ?_⟩
  have hm' : (0 : ℝ) < mag := by exact_mod_cast hm
  have key : rowMean mag (ghostSeen n (hull nv (fun k => toPixel n dx beamrad norm (xv k)) (fun k => toPixel n dx beamrad norm (yv k)))) (j.val : ℤ) (i.val : ℤ) = 1 := by
    unfold rowMean
    rw [Finset.sum_congr rfl (g := fun _ => (1 : ℝ))]
    · simp only [Finset.sum_const, Finset.card_univ, Fintype.card_fin, nsmul_eq_mul, mul_one]; field_simp
    · intro s _
      have hmid := mid_row hm (((i.val : ℤ) : ℝ)) s
      obtain ⟨x, x', hx, hx', hxx, hj⟩ := hw (((i.val : ℤ) : ℝ) - 1 / 2 + ((s : ℕ) + 1 / 2) / mag) (by simpa using hmid)
      unfold figure at hx hx'
      obtain ⟨xl, xr, hlr, hsec⟩ : ∃ xl xr, xl ≤ xr ∧ ∀ w, (w, ((i.val : ℤ) : ℝ) - 1 / 2 + ((s : ℕ) + 1 / 2) / mag) ∈
          hull nv (fun k => toPixel n dx beamrad norm (xv k)) (fun k => toPixel n dx beamrad norm (yv k)) ↔ xl ≤ w ∧ w ≤ xr := by
        exact hull_section hx
      rw [ghostSeen_eq n _ _ xl xr _ hsec hlr]
      have b1 := ((hsec x).mp hx).1
      have b2 := ((hsec x').mp hx').2
      have bl := Dm.npRound_bounds xl
      have br := Dm.npRound_bounds xr
      have hgap : Dm.npRound xl + 1 < Dm.npRound xr := by
        have : (Dm.npRound xl : ℝ) + 1 < Dm.npRound xr := by linarith [bl.1, bl.2, br.1, br.2]
        exact_mod_cast this
      have hjr : (j.val : ℤ) - n < Dm.npRound xr := by
        have : (j.val : ℝ) - n < Dm.npRound xr := by linarith [br.1, br.2]
        exact_mod_cast this
      unfold ghost
      rw [if_neg (by omega), if_neg (by omega), if_pos ⟨by omega, by omega⟩]
  rw [h i j, key]
  cases dark <;> simp

end irregular

/-! ## A concrete family: squares on their corner -/

/-- The corners of a square on its corner, clockwise from the right. -/
def diamondX (a r : ℝ) : ℕ → ℝ
  | 0 => a + r
  | 1 => a
  | 2 => a - r
  | _ => a
/-- The same for the rows. -/
def diamondY (b r : ℝ) : ℕ → ℝ
  | 0 => b
  | 1 => b - r
  | 2 => b
  | _ => b + r

theorem diamond_mem (a b r : ℝ) (hr : 0 < r) (x y : ℝ) : (x, y) ∈ hull 4 (diamondX a r) (diamondY b r) ↔ |x - a| + |y - b| ≤ r := by
  constructor
  · intro h
    have hsub : hull 4 (diamondX a r) (diamondY b r) ⊆ {q : ℝ × ℝ | |q.1 - a| + |q.2 - b| ≤ r} := by
      apply convexHull_min
      · rintro q ⟨k, hk, rfl⟩
        show |diamondX a r k - a| + |diamondY b r k - b| ≤ r
        interval_cases k <;> simp [diamondX, diamondY, abs_of_pos hr]
      · intro p hp q hq s t hs ht hst
        have hp' : |p.1 - a| + |p.2 - b| ≤ r := hp
        have hq' : |q.1 - a| + |q.2 - b| ≤ r := hq
        show |(s • p + t • q).1 - a| + |(s • p + t • q).2 - b| ≤ r
        simp only [Prod.fst_add, Prod.snd_add, Prod.smul_fst, Prod.smul_snd, smul_eq_mul]
        have e1 : s * p.1 + t * q.1 - a = s * (p.1 - a) + t * (q.1 - a) := by
          have : a = (s + t) * a := by rw [hst, one_mul]
          linear_combination -this
        have e2 : s * p.2 + t * q.2 - b = s * (p.2 - b) + t * (q.2 - b) := by
          have : b = (s + t) * b := by rw [hst, one_mul]
          linear_combination -this
        rw [e1, e2]
        have b1 := abs_add_le (s * (p.1 - a)) (t * (q.1 - a))
        have b2 := abs_add_le (s * (p.2 - b)) (t * (q.2 - b))
        rw [abs_mul, abs_mul, abs_of_nonneg hs, abs_of_nonneg ht] at b1 b2
        nlinarith [mul_le_mul_of_nonneg_left hp' hs, mul_le_mul_of_nonneg_left hq' ht]
    exact hsub h
  · intro h
    -- weights: the positive and negative parts of the offsets, and the rest in equal parts
    set u := x - a with hu
    set v := y - b with hv
    set e := (r - |u| - |v|) / 4 with he
    have he0 : 0 ≤ e := by rw [he]; linarith
    have hmem : ∀ k < 4, (diamondX a r k, diamondY b r k) ∈ hull 4 (diamondX a r) (diamondY b r) := fun k hk => subset_convexHull ℝ _ ⟨k, hk, rfl⟩
    have hconv : Convex ℝ (hull 4 (diamondX a r) (diamondY b r)) := convex_convexHull ℝ _
    let w : Fin 4 → ℝ := ![(max u 0 + e) / r, (max (-v) 0 + e) / r, (max (-u) 0 + e) / r, (max v 0 + e) / r]
    have hw0 : ∀ k ∈ Finset.univ, 0 ≤ w k := by
      intro k _
      fin_cases k
      · exact div_nonneg (add_nonneg (le_max_right _ _) he0) hr.le
      · exact div_nonneg (add_nonneg (le_max_right _ _) he0) hr.le
      · exact div_nonneg (add_nonneg (le_max_right _ _) he0) hr.le
      · exact div_nonneg (add_nonneg (le_max_right _ _) he0) hr.le
    have au : max u 0 + max (-u) 0 = |u| := by
      rcases le_total 0 u with h | h
      · rw [max_eq_left h, max_eq_right (by linarith), abs_of_nonneg h, add_zero]
      · rw [max_eq_right h, max_eq_left (by linarith), abs_of_nonpos h, zero_add]
    have av : max v 0 + max (-v) 0 = |v| := by
      rcases le_total 0 v with h | h
      · rw [max_eq_left h, max_eq_right (by linarith), abs_of_nonneg h, add_zero]
      · rw [max_eq_right h, max_eq_left (by linarith), abs_of_nonpos h, zero_add]
    have du : max u 0 - max (-u) 0 = u := by
      rcases le_total 0 u with h | h
      · rw [max_eq_left h, max_eq_right (by linarith), sub_zero]
      · rw [max_eq_right h, max_eq_left (by linarith), zero_sub, neg_neg]
    have dv : max v 0 - max (-v) 0 = v := by
      rcases le_total 0 v with h | h
      · rw [max_eq_left h, max_eq_right (by linarith), sub_zero]
      · rw [max_eq_right h, max_eq_left (by linarith), zero_sub, neg_neg]
    have hw1 : ∑ k, w k = 1 := by
      rw [Fin.sum_univ_four]
      show (max u 0 + e) / r + (max (-v) 0 + e) / r + (max (-u) 0 + e) / r + (max v 0 + e) / r = 1
      rw [← add_div, ← add_div, ← add_div, div_eq_one_iff_eq hr.ne']
      rw [he]; linarith
    have key := hconv.sum_mem hw0 hw1 (z := fun k : Fin 4 => (diamondX a r k, diamondY b r k)) (fun k _ => hmem k k.isLt)
    rw [Fin.sum_univ_four] at key
    convert key using 1
    show (x, y) = ((max u 0 + e) / r) • (a + r, b) + ((max (-v) 0 + e) / r) • (a, b - r) + ((max (-u) 0 + e) / r) • (a - r, b) + ((max v 0 + e) / r) • (a, b + r)
    have hx : x = u + a := by rw [hu]; ring
    have hy : y = v + b := by rw [hv]; ring
    have hsum : (max u 0 + e) / r + (max (-v) 0 + e) / r + (max (-u) 0 + e) / r + (max v 0 + e) / r = 1 := by
      have := hw1
      rw [Fin.sum_univ_four] at this
      exact this
    ext
    · simp only [Prod.fst_add, Prod.smul_fst, smul_eq_mul]
      rw [hx]
      have : (max u 0 + e) / r * r - (max (-u) 0 + e) / r * r = u := by
        rw [div_mul_cancel₀ _ hr.ne', div_mul_cancel₀ _ hr.ne']; linarith
      linear_combination (-a) * hsum - this
    · simp only [Prod.snd_add, Prod.smul_snd, smul_eq_mul]
      rw [hy]
      have : (max v 0 + e) / r * r - (max (-v) 0 + e) / r * r = v := by
        rw [div_mul_cancel₀ _ hr.ne', div_mul_cancel₀ _ hr.ne']; linarith
      linear_combination (-b) * hsum - this

theorem diamond_convex (a b r : ℝ) (hr : 0 < r) : StrictlyConvex 4 (diamondX a r) (diamondY b r) := by
  left
  refine ⟨by norm_num, fun k hk m hm h1 h2 => ?_⟩
  interval_cases k <;> interval_cases m <;> first | (exfalso; simp at h1 h2; done) | (simp [side, diamondX, diamondY]; nlinarith)

theorem diamond_start (a b r : ℝ) (hr : 0 < r) : StartAt 4 (diamondY b r) (diamondX a r) 1 := by
  refine ⟨by norm_num, fun m hm => ?_⟩
  interval_cases m
  · exact ⟨by show b - r ≤ b; linarith, fun h => absurd (show b = b - r from h) (by linarith)⟩
  · exact ⟨le_rfl, fun _ => le_rfl⟩
  · exact ⟨by show b - r ≤ b; linarith, fun h => absurd (show b = b - r from h) (by linarith)⟩
  · exact ⟨by show b - r ≤ b + r; linarith, fun h => absurd (show b + r = b - r from h) (by linarith)⟩

theorem diamond_slow (a b r : ℝ) (hr : 0 < r) (mag : ℕ) : Slow 4 (diamondX a r) (diamondY b r) mag := by
  intro k hk l hl hadj hlt hns htop
  exfalso
  obtain ⟨m, hm, h⟩ := htop
  have h1 := diamond_start a b r hr
  interval_cases k
  · interval_cases l <;> interval_cases m <;> simp [diamondY] at hlt h hadj <;> linarith
  · exact hns h1
  · interval_cases l <;> interval_cases m <;> simp [diamondY] at hlt h hadj <;> linarith
  · interval_cases l <;> simp [diamondY] at hlt <;> linarith

theorem diamond_begins (a b r : ℝ) (hr : 0 < r) (mag : ℕ) : Begins 4 (diamondX a r) (diamondY b r) mag := by
  right
  intro k hk hns hnb htop
  exfalso
  have h1 := diamond_start a b r hr
  interval_cases k
  · exact hnb 1 (by norm_num) (by norm_num) h1
  · exact hns h1
  · exact hnb 1 (by norm_num) (by norm_num) h1
  · obtain ⟨m, hm, h⟩ := htop
    interval_cases m <;> simp [diamondY] at h <;> linarith

theorem diamond_pixel (n : ℕ) (a b r : ℝ) : (fun k => toPixel n 1 1 false (diamondX (a - (n / 2 : ℕ)) r k)) = diamondX a r ∧
    (fun k => toPixel n 1 1 false (diamondY (b - (n / 2 : ℕ)) r k)) = diamondY b r := by
  unfold toPixel
  generalize ((n / 2 : ℕ) : ℝ) = c
  constructor
  · funext k; match k with
    | 0 => simp [diamondX]; ring
    | 1 => simp [diamondX]
    | 2 => simp [diamondX]; ring
    | k + 3 => simp [diamondX]
  · funext k; match k with
    | 0 => simp [diamondY]
    | 1 => simp [diamondY]; ring
    | 2 => simp [diamondY]
    | k + 3 => simp [diamondY]; ring

/-- **C115.** A concrete case of `C115_irregular`: every square on its corner whose corners lie within the array, given by its corners, on a grid with unit sampling. -/
theorem C115_diamond (n mag : ℕ) [NeZero n] (hm : 0 < mag) (a b r : ℝ) (hr : 0 < r) (h0 : -1 / 2 ≤ a - r) (h1 : a + r < n - 1 / 2) (dark : Bool) :
    ∃ img, irregularPolygon n mag 1 1 false dark 4 (diamondX (a - (n / 2 : ℕ)) r) (diamondY (b - (n / 2 : ℕ)) r) = .ok img ∧ ∀ i j : ZMod n,
      img i j = if dark then 1 - stripMean mag {q | |q.1 - a| + |q.2 - b| ≤ r} j.val i.val else stripMean mag {q | |q.1 - a| + |q.2 - b| ≤ r} j.val i.val := by
  obtain ⟨e1, e2⟩ := diamond_pixel n a b r
  have hS : hull 4 (diamondX a r) (diamondY b r) = {q : ℝ × ℝ | |q.1 - a| + |q.2 - b| ≤ r} := by
    ext ⟨x, y⟩; exact diamond_mem a b r hr x y
  have hin : ∀ x y, (x, y) ∈ hull 4 (diamondX a r) (diamondY b r) → -1 / 2 ≤ x ∧ x < n - 1 / 2 := by
    intro x y h
    have h := (diamond_mem a b r hr x y).mp h
    have h2 := abs_le.mp (show |x - a| ≤ r by linarith [abs_nonneg (y - b)])
    exact ⟨by linarith, by linarith⟩
  obtain ⟨img, e, h⟩ := C115_irregular n mag hm 1 1 one_ne_zero one_ne_zero false dark 4 (diamondX (a - (n / 2 : ℕ)) r) (diamondY (b - (n / 2 : ℕ)) r) (diamond_convex _ _ r hr)
    (by rw [e1, e2]; exact diamond_slow a b r hr mag) (by rw [e1, e2]; exact diamond_begins a b r hr mag)
    (by rw [e1, e2]; intro x y hxy _ _; exact ⟨x, hxy, hin x y hxy⟩)
  refine ⟨img, e, fun i j => ?_⟩
  rw [e1, e2, hS] at h
  exact h i j (Or.inr fun x y hxy => (hin x y (by rw [hS]; exact hxy)).2)

/-- **C115, violated.** A concrete case of the last column: a square that covers the whole array yields 1 everywhere but in the last column, which is 0. -/
theorem C115_covered_violated (n mag : ℕ) [NeZero n] (hm : 0 < mag) :
    ∃ img, irregularPolygon n mag 1 1 false false 4 (diamondX 0 (4 * n)) (diamondY 0 (4 * n)) = .ok img ∧ ∀ i j : ZMod n, img i j = if j.val + 1 = n then 0 else 1 := by
  have hn : (1 : ℝ) ≤ n := by exact_mod_cast Nat.one_le_iff_ne_zero.mpr (NeZero.ne n)
  have hr : (0 : ℝ) < 4 * n := by linarith
  obtain ⟨e1, e2⟩ := diamond_pixel n (n / 2 : ℕ) (n / 2 : ℕ) (4 * n)
  have hc0 : (0 : ℝ) ≤ ((n / 2 : ℕ) : ℝ) := Nat.cast_nonneg _
  have hcn : ((n / 2 : ℕ) : ℝ) ≤ n := by exact_mod_cast Nat.div_le_self n 2
  rw [sub_self] at e1 e2
  generalize ((n / 2 : ℕ) : ℝ) = c at *
  have hmem : ∀ x y : ℝ, -1 ≤ x → x ≤ n → -1 ≤ y → y ≤ n → (x, y) ∈ hull 4 (diamondX c (4 * n)) (diamondY c (4 * n)) := by
    intro x y h1 h2 h3 h4
    rw [diamond_mem c c _ hr]
    have : |x - c| ≤ 2 * n := abs_le.mpr ⟨by linarith, by linarith⟩
    have : |y - c| ≤ 2 * n := abs_le.mpr ⟨by linarith, by linarith⟩
    linarith
  have hs : Slow 4 (fun k => toPixel n 1 1 false (diamondX 0 (4 * n) k)) (fun k => toPixel n 1 1 false (diamondY 0 (4 * n) k)) mag := by
    rw [e1, e2]; exact diamond_slow c c _ hr mag
  have hb : Begins 4 (fun k => toPixel n 1 1 false (diamondX 0 (4 * n) k)) (fun k => toPixel n 1 1 false (diamondY 0 (4 * n) k)) mag := by
    rw [e1, e2]; exact diamond_begins c c _ hr mag
  have hmeet : Meets (hull 4 (fun k => toPixel n 1 1 false (diamondX 0 (4 * n) k)) (fun k => toPixel n 1 1 false (diamondY 0 (4 * n) k))) n := by
    rw [e1, e2]; intro x y _ h1 h2; exact ⟨0, hmem 0 y (by linarith) (by linarith) (by linarith) (by linarith), by norm_num, by linarith⟩
  obtain ⟨img, e, h⟩ := C115_irregular n mag hm 1 1 one_ne_zero one_ne_zero false false 4 (diamondX 0 (4 * n)) (diamondY 0 (4 * n)) (diamond_convex _ _ _ hr) hs hb hmeet
  obtain ⟨img', e', h'⟩ := C115_last_column_violated n mag 1 1 false 4 (diamondX 0 (4 * n)) (diamondY 0 (4 * n)) hm one_ne_zero one_ne_zero false (diamond_convex _ _ _ hr) hs hb hmeet
  have : img = img' := by rw [e] at e'; exact Except.ok.inj e'
  subst this
  refine ⟨img, e, fun i j => ?_⟩
  have hi0 : (0 : ℝ) ≤ i.val := Nat.cast_nonneg _
  have hj0 : (0 : ℝ) ≤ j.val := Nat.cast_nonneg _
  have hin : (i.val : ℝ) + 1 ≤ n := by exact_mod_cast ZMod.val_lt i
  have hjn : (j.val : ℝ) + 1 ≤ n := by exact_mod_cast ZMod.val_lt j
  split_ifs with hj
  · have := h' i j hj (by
      intro y hy
      have hy := abs_le.mp hy
      unfold figure
      rw [e1, e2]
      refine ⟨⟨n, hmem n y (by linarith) le_rfl (by linarith) (by linarith), by linarith⟩, ⟨-1, hmem (-1) y le_rfl (by linarith) (by linarith) (by linarith), by linarith⟩⟩)
    simpa using this
  · rw [h i j (Or.inl hj), e1, e2]
    simp only [Bool.false_eq_true, if_false]
    refine stripMean_one hm _ _ _ fun x y hx hy => ?_
    have hx := abs_le.mp hx
    have hy := abs_le.mp hy
    exact hmem x y (by linarith) (by linarith) (by linarith) (by linarith)

/-- The hypotheses of `C115_right_violated` are met: a square on its corner beside the array. -/
example (n mag : ℕ) (hm : 0 < mag) (i : ℕ) (hin : i < n) (a r : ℝ) (hr : 3 / 2 < r) (ha : (n : ℝ) - 1 / 2 < a - r) :
    irregularPolygon n mag 1 1 false false 4 (diamondX (a - (n / 2 : ℕ)) r) (diamondY (i - (n / 2 : ℕ)) r) = .error .indexError := by
  obtain ⟨e1, e2⟩ := diamond_pixel n a i r
  have hr0 : 0 < r := by linarith
  have hmid := mid_row hm (i : ℝ) ⟨0, hm⟩
  refine C115_right_violated n mag 1 1 false 4 _ _ hm one_ne_zero one_ne_zero false (diamond_convex _ _ r hr0)
    (by rw [e1, e2]; exact diamond_slow a i r hr0 mag) (by rw [e1, e2]; exact diamond_begins a i r hr0 mag) i hin ⟨0, hm⟩ (a - (r - 1 / 2)) (a + (r - 1 / 2)) (by linarith) ?_ ?_ ?_
  · unfold figure; rw [e1, e2, diamond_mem a i r hr0]
    rw [show a - (r - 1 / 2) - a = -(r - 1 / 2) by ring, abs_neg, abs_of_pos (by linarith)]; linarith
  · unfold figure; rw [e1, e2, diamond_mem a i r hr0]
    rw [show a + (r - 1 / 2) - a = (r - 1 / 2) by ring, abs_of_pos (by linarith)]; linarith
  · intro x hx
    unfold figure at hx; rw [e1, e2, diamond_mem a i r hr0] at hx
    have := abs_le.mp (show |x - a| ≤ r by linarith [abs_nonneg ((i : ℝ) - 1 / 2 + (((⟨0, hm⟩ : Fin mag) : ℕ) + 1 / 2) / mag - i)])
    linarith

/-- The hypotheses of `C115_left_violated` are met: a square on its corner to the left of the array fills the row beside it. -/
example (n mag : ℕ) [NeZero n] (hm : 0 < mag) (i : ZMod n) (a r : ℝ) (hr : 2 ≤ r) (ha : a + r < -1 / 2) (ha' : -(n : ℝ) ≤ a - r) :
    ∃ img, irregularPolygon n mag 1 1 false false 4 (diamondX (a - (n / 2 : ℕ)) r) (diamondY (i.val - (n / 2 : ℕ)) r) = .ok img ∧
      ∀ j : ZMod n, (j.val : ℝ) + 1 < n + a + r → img i j = 1 := by
  obtain ⟨e1, e2⟩ := diamond_pixel n a i.val r
  have hr0 : 0 < r := by linarith
  obtain ⟨img, e, h⟩ := C115_left_violated n mag 1 1 false 4 (diamondX (a - (n / 2 : ℕ)) r) (diamondY (i.val - (n / 2 : ℕ)) r) hm one_ne_zero one_ne_zero false (diamond_convex _ _ r hr0)
    (by rw [e1, e2]; exact diamond_slow a i.val r hr0 mag) (by rw [e1, e2]; exact diamond_begins a i.val r hr0 mag) (by
      intro x y hx
      unfold figure at hx; rw [e1, e2, diamond_mem a i.val r hr0] at hx
      have := abs_le.mp (show |x - a| ≤ r by linarith [abs_nonneg (y - i.val)])
      exact ⟨by linarith, by linarith⟩)
  refine ⟨img, e, fun j hj => ?_⟩
  have := h i j (by
    intro y hy
    refine ⟨a - (r - 1 / 2), a + (r - 1 / 2), ?_, ?_, by linarith, by linarith⟩
    · unfold figure; rw [e1, e2, diamond_mem a i.val r hr0]
      rw [show a - (r - 1 / 2) - a = -(r - 1 / 2) by ring, abs_neg, abs_of_pos (by linarith)]; linarith
    · unfold figure; rw [e1, e2, diamond_mem a i.val r hr0]
      rw [show a + (r - 1 / 2) - a = (r - 1 / 2) by ring, abs_of_pos (by linarith)]; linarith)
  simpa using this

end Verif.Polygon
