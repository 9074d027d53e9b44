import Verif.Props.HexWave2

/-!
# C126, third part: segments that do not touch never overlap, and a case that meets the hypotheses
-/

namespace Verif.HexWave
open Verif Verif.Proper Verif.Polygon Verif.Shape MeasureTheory

variable {n : ℕ}

/-- The lengths of disjoint measurable sets within a pixel's width add up to at most 1. -/
theorem disjoint_sections (j y : ℝ) (L : List (Set (ℝ × ℝ))) (hd : L.Pairwise Disjoint) (hc : ∀ S ∈ L, IsClosed S) :
    (L.map fun S => sectionLength S y j).sum ≤ 1 := by
  have key : ∀ L : List (Set (ℝ × ℝ)), L.Pairwise Disjoint → (∀ S ∈ L, IsClosed S) →
      (L.map fun S => sectionLength S y j).sum = (volume {x : ℝ | |x - j| ≤ 1 / 2 ∧ ∃ S ∈ L, (x, y) ∈ S}).toReal ∧ IsClosed {x : ℝ | |x - j| ≤ 1 / 2 ∧ ∃ S ∈ L, (x, y) ∈ S} := by
    intro L
    induction L with
    | nil => intro _ _; simp
    | cons T L ih =>
      intro hd hc
      rw [List.pairwise_cons] at hd
      obtain ⟨e, c⟩ := ih hd.2 fun S hS => hc S (by simp [hS])
      have hT : IsClosed {x : ℝ | |x - j| ≤ 1 / 2 ∧ (x, y) ∈ T} := by
        have c1 : IsClosed {x : ℝ | |x - j| ≤ 1 / 2} := isClosed_le (by fun_prop) (by fun_prop)
        apply c1.inter
        exact (hc T (by simp)).preimage (by fun_prop)
      have hu : {x : ℝ | |x - j| ≤ 1 / 2 ∧ ∃ S ∈ T :: L, (x, y) ∈ S} = {x : ℝ | |x - j| ≤ 1 / 2 ∧ (x, y) ∈ T} ∪ {x : ℝ | |x - j| ≤ 1 / 2 ∧ ∃ S ∈ L, (x, y) ∈ S} := by
        ext x
        simp only [List.mem_cons, exists_eq_or_imp, Set.mem_union, Set.mem_ofPred_eq]
        tauto
      have hb : ∀ A : Set ℝ, A ⊆ Set.Icc (j - 1 / 2) (j + 1 / 2) → volume A ≠ ⊤ := fun A hA => ne_top_of_le_ne_top (by simp) (measure_mono hA)
      have hsub : ∀ x : ℝ, |x - j| ≤ 1 / 2 → x ∈ Set.Icc (j - 1 / 2) (j + 1 / 2) := by
        intro x hx
        rw [abs_le] at hx
        constructor <;> linarith
      refine ⟨?_, by rw [hu]; exact hT.union c⟩
      rw [List.map_cons, List.sum_cons, e, hu, measure_union, ENNReal.toReal_add]
      · rfl
      · exact hb _ fun x hx => hsub x hx.1
      · exact hb _ fun x hx => hsub x hx.1
      · rw [Set.disjoint_left]
        rintro x ⟨_, hx⟩ ⟨_, S, hS, hx'⟩
        exact Set.disjoint_left.mp (hd.1 S hS) hx hx'
      · exact c.measurableSet
  rw [(key L hd hc).1]
  have : volume {x : ℝ | |x - j| ≤ 1 / 2 ∧ ∃ S ∈ L, (x, y) ∈ S} ≤ volume (Set.Icc (j - 1 / 2) (j + 1 / 2)) := by
    apply measure_mono
    rintro x ⟨hx, _⟩
    rw [abs_le] at hx
    constructor <;> linarith
  have h1 : volume (Set.Icc (j - 1 / 2) (j + 1 / 2)) = 1 := by
    rw [Real.volume_Icc]
    norm_num
  rw [h1] at this
  exact ENNReal.toReal_le_of_le_ofReal zero_le_one (by simpa using this)

theorem disjoint_strips {mag : ℕ} (hm : 0 < mag) (x y : ℝ) (L : List (Set (ℝ × ℝ))) (hd : L.Pairwise Disjoint) (hc : ∀ S ∈ L, IsClosed S) :
    (L.map fun S => stripMean mag S x y).sum ≤ 1 := by
  have e : (L.map fun S => stripMean mag S x y).sum = (∑ s : Fin mag, (L.map fun S => sectionLength S (y - 1 / 2 + ((s : ℕ) + 1 / 2) / mag) x).sum) / mag := by
    clear hd hc
    induction L with
    | nil => simp
    | cons S L ih =>
      simp only [List.map_cons, List.sum_cons, Finset.sum_add_distrib]
      rw [ih, add_div (∑ s : Fin mag, sectionLength S _ x)]
      rfl
  have hm' : (0 : ℝ) < mag := by exact_mod_cast hm
  rw [e, div_le_one hm']
  calc _ ≤ ∑ s : Fin mag, (1 : ℝ) := Finset.sum_le_sum fun s _ => disjoint_sections x _ L hd hc
    _ = mag := by simp

/-- The extent of the hexagon along the directions of its three pairs of sides. -/
theorem hexagon_slab {dx : ℝ} {a : Args} (hdx : 0 < dx) (hr : 0 ≤ a.hexrad) (q : Seg) (m : ℕ) {p : ℝ × ℝ} (hp : p ∈ hexagon n dx a q) :
    |((p.1 - (n : ℝ) / 2) * dx - (ctr a q).1) * Real.cos (a.rotation * Real.pi / 180 + Real.pi / 6 + m * (Real.pi / 3)) +
      ((p.2 - (n : ℝ) / 2) * dx - (ctr a q).2) * Real.sin (a.rotation * Real.pi / 180 + Real.pi / 6 + m * (Real.pi / 3))| ≤ √3 / 2 * a.hexrad := by
  set t := a.rotation * Real.pi / 180 with ht
  set C := Real.cos (t + Real.pi / 6 + m * (Real.pi / 3)) with hC
  set S := Real.sin (t + Real.pi / 6 + m * (Real.pi / 3)) with hS
  have hsub : hexagon n dx a q ⊆ {p | |((p.1 - (n : ℝ) / 2) * dx - (ctr a q).1) * C + ((p.2 - (n : ℝ) / 2) * dx - (ctr a q).2) * S| ≤ √3 / 2 * a.hexrad} := by
    apply convexHull_min
    · rintro v ⟨k, _, rfl⟩
      simp only [Set.mem_ofPred_eq, add_sub_cancel_right]
      rw [div_mul_cancel₀ _ hdx.ne', add_sub_cancel_left, div_mul_cancel₀ _ hdx.ne', add_sub_cancel_left]
      have e : a.hexrad * Real.cos (t - k * (Real.pi / 3)) * C + a.hexrad * Real.sin (t - k * (Real.pi / 3)) * S = a.hexrad * Real.cos (Real.pi / 6 + ((m + k : ℕ) : ℝ) * (Real.pi / 3)) := by
        have := Real.cos_sub (t + Real.pi / 6 + m * (Real.pi / 3)) (t - k * (Real.pi / 3))
        rw [show t + Real.pi / 6 + m * (Real.pi / 3) - (t - k * (Real.pi / 3)) = Real.pi / 6 + ((m + k : ℕ) : ℝ) * (Real.pi / 3) by push_cast; ring] at this
        rw [this]
        ring
      rw [e, abs_mul, abs_of_nonneg hr, mul_comm]
      apply mul_le_mul_of_nonneg_right _ hr
      have hstep : ∀ N : ℕ, |Real.cos (Real.pi / 6 + (N : ℝ) * (Real.pi / 3))| ≤ √3 / 2 := by
        have h3 : (0 : ℝ) ≤ √3 / 2 := by positivity
        have b0 : |Real.cos (Real.pi / 6)| ≤ √3 / 2 := by rw [Real.cos_pi_div_six, abs_of_nonneg h3]
        have b1 : |Real.cos (Real.pi / 6 + Real.pi / 3)| ≤ √3 / 2 := by
          rw [show Real.pi / 6 + Real.pi / 3 = Real.pi / 2 by ring, Real.cos_pi_div_two, abs_zero]
          exact h3
        have b2 : |Real.cos (Real.pi / 6 + 2 * (Real.pi / 3))| ≤ √3 / 2 := by
          rw [show Real.pi / 6 + 2 * (Real.pi / 3) = Real.pi - Real.pi / 6 by ring, Real.cos_pi_sub, abs_neg]
          exact b0
        have turn : ∀ x : ℝ, |Real.cos (x + Real.pi)| = |Real.cos x| := fun x => by rw [Real.cos_add_pi, abs_neg]
        intro N
        induction N using Nat.strong_induction_on with
        | _ N ih =>
          rcases Nat.lt_or_ge N 3 with hN | hN
          · interval_cases N
            · simpa using b0
            · simpa using b1
            · simpa using b2
          · have := ih (N - 3) (by omega)
            rw [← turn] at this
            have e : Real.pi / 6 + ((N - 3 : ℕ) : ℝ) * (Real.pi / 3) + Real.pi = Real.pi / 6 + (N : ℝ) * (Real.pi / 3) := by
              rw [Nat.cast_sub hN]
              push_cast
              ring
            rwa [e] at this
      exact hstep _
    · intro u hu v hv s t h1 h2 h3
      simp only [Set.mem_ofPred_eq, abs_le, Prod.fst_add, Prod.snd_add, Prod.smul_fst, Prod.smul_snd, smul_eq_mul] at hu hv ⊢
      obtain ⟨u1, u2⟩ := hu
      obtain ⟨v1, v2⟩ := hv
      have ht : t = 1 - s := by linarith
      subst ht
      constructor <;> nlinarith
  exact hsub hp

/-- Different segments do not meet when neighbours are further apart than twice the apothem. -/
theorem hexagons_disjoint {dx : ℝ} {a : Args} (hdx : 0 < dx) (hr : 0 ≤ a.hexrad) (hgap : √3 * a.hexrad < a.hexsep) {p q : Seg} (hp : p ∈ segs a.nrings) (hq : q ∈ segs a.nrings) (hne : p ≠ q) :
    Disjoint (hexagon n dx a p) (hexagon n dx a q) := by
  rw [Set.disjoint_left]
  intro v hvp hvq
  have hcne : cell a.nrings p ≠ cell a.nrings q := by
    intro he
    exact hne (List.inj_on_of_nodup_map (C126_segments a.nrings 0 0 0 0).1 hp hq he)
  have hs0 : 0 < a.hexsep := lt_of_le_of_lt (by positivity) hgap
  set t := a.rotation * Real.pi / 180 with ht
  have ctr_eq : ∀ q : Seg, ctr a q = ((cellPos a.hexsep (cell a.nrings q)).1 * Real.cos t - (cellPos a.hexsep (cell a.nrings q)).2 * Real.sin t + a.xcenter,
      (cellPos a.hexsep (cell a.nrings q)).1 * Real.sin t + (cellPos a.hexsep (cell a.nrings q)).2 * Real.cos t + a.ycenter) := fun q => (C126_segments a.nrings a.hexsep t a.xcenter a.ycenter).2.2.2.2 q
  have gap : ∀ m : ℕ, |((cellPos a.hexsep (cell a.nrings p)).1 - (cellPos a.hexsep (cell a.nrings q)).1) * Real.cos (Real.pi / 6 + m * (Real.pi / 3)) +
      ((cellPos a.hexsep (cell a.nrings p)).2 - (cellPos a.hexsep (cell a.nrings q)).2) * Real.sin (Real.pi / 6 + m * (Real.pi / 3))| < a.hexsep := by
    intro m
    have h1 := hexagon_slab hdx hr p m hvp
    have h2 := hexagon_slab hdx hr q m hvq
    rw [ctr_eq] at h1 h2
    rw [← ht] at h1 h2
    have e : t + Real.pi / 6 + m * (Real.pi / 3) = t + (Real.pi / 6 + m * (Real.pi / 3)) := by ring
    rw [e, Real.cos_add t, Real.sin_add t] at h1 h2
    generalize Real.cos (Real.pi / 6 + m * (Real.pi / 3)) = C at *
    generalize Real.sin (Real.pi / 6 + m * (Real.pi / 3)) = S at *
    have hsc := Real.sin_sq_add_cos_sq t
    generalize Real.sin t = s at *
    generalize Real.cos t = c at *
    generalize (cellPos a.hexsep (cell a.nrings p)).1 = x1 at *
    generalize (cellPos a.hexsep (cell a.nrings p)).2 = y1 at *
    generalize (cellPos a.hexsep (cell a.nrings q)).1 = x2 at *
    generalize (cellPos a.hexsep (cell a.nrings q)).2 = y2 at *
    dsimp only at h1 h2
    rw [show (x1 - x2) * C + (y1 - y2) * S = ((v.1 - (n : ℝ) / 2) * dx - (x2 * c - y2 * s + a.xcenter)) * (c * C - s * S) + ((v.2 - (n : ℝ) / 2) * dx - (x2 * s + y2 * c + a.ycenter)) * (s * C + c * S) -
      (((v.1 - (n : ℝ) / 2) * dx - (x1 * c - y1 * s + a.xcenter)) * (c * C - s * S) + ((v.2 - (n : ℝ) / 2) * dx - (x1 * s + y1 * c + a.ycenter)) * (s * C + c * S)) by
      linear_combination (-((x1 - x2) * C + (y1 - y2) * S)) * hsc]
    rw [abs_le] at h1 h2
    rw [abs_lt]
    constructor <;> linarith [h1.1, h1.2, h2.1, h2.2]
  have g0 := gap 0
  have g1 := gap 1
  have g2 := gap 2
  rw [show Real.pi / 6 + ((0 : ℕ) : ℝ) * (Real.pi / 3) = Real.pi / 6 by push_cast; ring, Real.cos_pi_div_six, Real.sin_pi_div_six] at g0
  rw [show Real.pi / 6 + ((1 : ℕ) : ℝ) * (Real.pi / 3) = Real.pi / 2 by push_cast; ring, Real.cos_pi_div_two, Real.sin_pi_div_two] at g1
  rw [show Real.pi / 6 + ((2 : ℕ) : ℝ) * (Real.pi / 3) = Real.pi - Real.pi / 6 by push_cast; ring, Real.cos_pi_sub, Real.sin_pi_sub, Real.cos_pi_div_six, Real.sin_pi_div_six] at g2
  simp only [cellPos] at g0 g1 g2
  obtain ⟨A, hA⟩ : ∃ A, A = (cell a.nrings p).1 - (cell a.nrings q).1 := ⟨_, rfl⟩
  obtain ⟨B, hB⟩ : ∃ B, B = (cell a.nrings p).2 - (cell a.nrings q).2 := ⟨_, rfl⟩
  have hA' : (A : ℝ) = ((cell a.nrings p).1 : ℝ) - ((cell a.nrings q).1 : ℝ) := by rw [hA]; push_cast; ring
  have hB' : (B : ℝ) = ((cell a.nrings p).2 : ℝ) - ((cell a.nrings q).2 : ℝ) := by rw [hB]; push_cast; ring
  have w : √3 * √3 = 3 := Real.mul_self_sqrt (by norm_num)
  have lt2 : ∀ (k : ℤ) (z : ℝ), z = a.hexsep * (k : ℝ) / 2 → |z| < a.hexsep → |k| < 2 := by
    intro k z e hz
    rw [e, abs_div, abs_mul, abs_of_pos hs0, abs_two] at hz
    have : |(k : ℝ)| < 2 := by
      by_contra hc
      push Not at hc
      nlinarith
    exact_mod_cast this
  have k0 := lt2 (2 * A + B) _ (by push_cast; rw [hA', hB']; linear_combination (a.hexsep * (((cell a.nrings p).1 : ℝ) - ((cell a.nrings q).1 : ℝ)) / 4) * w) g0
  have k1 := lt2 (A + 2 * B) _ (by push_cast; rw [hA', hB']; ring) g1
  have k2 := lt2 (B - A) _ (by push_cast; rw [hA', hB']; linear_combination (-(a.hexsep * (((cell a.nrings p).1 : ℝ) - ((cell a.nrings q).1 : ℝ)) / 4)) * w) g2
  rw [abs_lt] at k0 k1 k2
  apply hcne
  ext <;> omega

theorem hexagon_closed (dx : ℝ) (a : Args) (q : Seg) : IsClosed (hexagon n dx a q) := by
  apply IsCompact.isClosed
  apply Set.Finite.isCompact_convexHull
  apply (Set.finite_range fun k : Fin 6 => ((((ctr a q).1 + a.hexrad * Real.cos (a.rotation * Real.pi / 180 - (k : ℕ) * (Real.pi / 3))) / dx + (n : ℝ) / 2,
    ((ctr a q).2 + a.hexrad * Real.sin (a.rotation * Real.pi / 180 - (k : ℕ) * (Real.pi / 3))) / dx + (n : ℝ) / 2))).subset
  rintro v ⟨k, hk, rfl⟩
  exact ⟨⟨k, hk⟩, rfl⟩

/-- C126: segments with a gap between them (`hexsep > √3·hexrad`) have no point in common, whatever the rotation and offset; so the aperture returned has all its values between 0 and 1. -/
theorem C126_range [NeZero n] (mag : ℕ) (hm : 0 < mag) (br : ℝ) (s : WF n) (a : Args) (l : List ℤ) (hl : a.omitted = .list l) (h : Fits n mag s.dx a) (hgap : √3 * a.hexrad < a.hexsep) :
    (∀ p ∈ segs a.nrings, ∀ q ∈ segs a.nrings, p ≠ q → Disjoint (hexagon n s.dx a p) (hexagon n s.dx a q)) ∧
    (a.phaseErrors = false → ∃ s' ap, hexWavefront mag br s a = .ok (s', ap, none) ∧ ∀ i j, 0 ≤ ap i j ∧ ap i j ≤ 1) := by
  have hr := (h.rad_pos hm).le
  have hdis : ∀ p ∈ segs a.nrings, ∀ q ∈ segs a.nrings, p ≠ q → Disjoint (hexagon n s.dx a p) (hexagon n s.dx a q) := fun p hp q hq hne => hexagons_disjoint h.dx_pos hr hgap hp hq hne
  refine ⟨hdis, fun hp => ?_⟩
  obtain ⟨s', ap, e, hv, _⟩ := C126_aperture mag hm br s a l hl h hp
  refine ⟨s', ap, e, fun i j => ?_⟩
  rw [hv]
  constructor
  · apply List.sum_nonneg
    intro x hx
    rw [List.mem_map] at hx
    obtain ⟨q, _, rfl⟩ := hx
    exact (stripMean_bounds _ hm _ _ _).1
  · have hb : (bright a l).Sublist (segs a.nrings).zipIdx := List.filter_sublist.trans List.filter_sublist
    have hmem : ∀ q ∈ bright a l, q.1 ∈ segs a.nrings := fun q hq => (List.mem_zipIdx' (hb.subset hq)).2 ▸ List.getElem_mem _
    have hnd : ((bright a l).map Prod.fst).Nodup := by
      apply (hb.map Prod.fst).nodup
      rw [List.zipIdx_map_fst]
      exact List.Nodup.of_map _ (C126_segments a.nrings 0 0 0 0).1
    have hd : ((bright a l).map fun q => hexagon n s.dx a q.1).Pairwise Disjoint := by
      rw [List.pairwise_map]
      unfold List.Nodup at hnd
      rw [List.pairwise_map] at hnd
      exact hnd.imp_of_mem fun hp hq hne => hdis _ (hmem _ hp) _ (hmem _ hq) hne
    have := disjoint_strips hm j.val i.val _ hd (by
      intro S hS
      rw [List.mem_map] at hS
      obtain ⟨q, _, rfl⟩ := hS
      exact hexagon_closed s.dx a q.1)
    rw [List.map_map] at this
    exact this

/-- C126: a phase map is returned (and applied) exactly when some coefficient of some column is not zero, whatever its sign. -/
theorem C126_detect {n : ℕ} [NeZero n] (mag : ℕ) (br : ℝ) (s : WF n) (a : Args) (s' : WF n) (ap : ZMod n → ZMod n → ℝ) (ph : Option (ZMod n → ZMod n → ℝ))
    (h : hexWavefront mag br s a = .ok (s', ap, ph)) :
    ph.isSome = true ↔ ∃ c col, a.zernikes = some (c, col) ∧ ∃ k < c, ∃ z ∈ col k, z ≠ 0 := by
  unfold hexWavefront at h
  cases hm : maps n mag s.dx br a with
  | error e => rw [hm] at h; cases h
  | ok m =>
    rw [hm] at h
    simp only [Except.bind] at h
    have hph : ph = if a.phaseErrors then some m.phase else none := by
      revert h
      generalize (if a.noApply = true then (Except.ok s : Except PyErr (WF n)) else _) = r
      intro h
      cases r with
      | error e => cases h
      | ok v =>
        simp only [Except.map, Except.ok.injEq, Prod.mk.injEq] at h
        exact h.2.2.symm
    have key : a.phaseErrors = true ↔ ∃ c col, a.zernikes = some (c, col) ∧ ∃ k < c, ∃ z ∈ col k, z ≠ 0 := by
      unfold Args.phaseErrors
      cases a.zernikes with
      | none => simp
      | some q =>
        obtain ⟨c, col⟩ := q
        simp only [decide_eq_true_eq, Option.some.injEq, Prod.mk.injEq]
        constructor
        · rintro h; exact ⟨c, col, ⟨rfl, rfl⟩, h⟩
        · rintro ⟨c', col', ⟨rfl, rfl⟩, h⟩; exact h
    rw [hph, ← key]
    cases a.phaseErrors <;> simp

/-- The cases are met: seven hexagons of radius 1 at distance 2 on a 16 × 16 grid, segment 5 left out, tilt on all. -/
noncomputable def sample (z : Option (ℕ × (ℕ → List ℝ))) : Args := ⟨1, 1, 2, z, .list [5], false, false, 10, 1 / 2, 0⟩

example (z : Option (ℕ × (ℕ → List ℝ))) : Fits 16 11 1 (sample z) ∧ √3 * (sample z).hexrad < (sample z).hexsep := by
  have h3 : (1 : ℝ) ≤ √3 := by rw [Real.one_le_sqrt]; norm_num
  have h4 : √3 < 2 := by rw [Real.sqrt_lt' (by norm_num)]; norm_num
  refine ⟨⟨one_pos, by norm_num [sample], ?_, ?_, ?_⟩, by simpa [sample] using h4⟩
  · simp only [sample]
    push_cast
    linarith
  · norm_num [sample, abs_of_pos]
  · norm_num [sample]

example : (sample (some (7, fun _ => [0, 1]))).phaseErrors = true ∧ (sample none).phaseErrors = false := by
  simp [sample, Args.phaseErrors]
  exact ⟨0, by norm_num⟩

example (z : Option (ℕ × (ℕ → List ℝ))) : ((drawn (sample z) [5]).map fun q => q.2) = [0, 1, 2, 3, 4, 6] ∧ bright (sample z) [5] = drawn (sample z) [5] := by
  constructor <;> rfl

end Verif.HexWave
