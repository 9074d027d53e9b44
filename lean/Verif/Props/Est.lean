import Verif.Props.EstProbe
import Verif.Lemmas.Pinv
import Verif.Model.DmConstraints
import Verif.Props.DmConstraints

/-!
# Pairwise-probing estimator: C33, C35, C36, C65, C66, C67; perfect estimator: C37
-/

namespace Verif.Est
open Verif Matrix Complex

/-! ## One pixel -/

/-- Cost minimised at one pixel: squared misfit of the measured `z` over the good pairs, for a candidate field `x`. -/
noncomputable def pixelCost {Np : ℕ} (amp ph z : Fin Np → ℝ) (x : ℂ) : ℝ :=
  ((goodPairs amp).map fun k => (amp k * (Real.cos (ph k) * x.re + Real.sin (ph k) * x.im) - z k) ^ 2).sum

theorem obs_mulVec {Np : ℕ} (amp ph : Fin Np → ℝ) (good : List (Fin Np)) (x : Fin 2 → ℝ) (r : Fin good.length) :
    (obsMatrix amp ph good *ᵥ x) r = amp (good.get r) * (Real.cos (ph (good.get r)) * x 0 + Real.sin (ph (good.get r)) * x 1) := by
  simp [obsMatrix, Matrix.mulVec, dotProduct, Fin.sum_univ_two]; ring

theorem pixelCost_eq {Np : ℕ} (amp ph z : Fin Np → ℝ) (x : Fin 2 → ℝ) :
    pixelCost amp ph z ⟨x 0, x 1⟩ = ∑ r, ((obsMatrix amp ph (goodPairs amp) *ᵥ x) r - z ((goodPairs amp).get r)) ^ 2 := by
  unfold pixelCost
  simp only [obs_mulVec]
  rw [← List.sum_ofFn]
  conv_lhs => rw [← List.ofFn_get (goodPairs amp), List.map_ofFn]
  rfl

/-- C33. For arbitrary (noisy) measurements with at least two good pairs, the pixel estimate minimises the squared misfit. -/
theorem C33_least_squares {Np : ℕ} (amp ph z : Fin Np → ℝ) (hg : 2 ≤ (goodPairs amp).length) (x : ℂ) :
    pixelCost amp ph z (estPixel amp ph z) ≤ pixelCost amp ph z x := by
  unfold estPixel
  simp only [if_neg (not_lt.2 hg)]
  set H := obsMatrix amp ph (goodPairs amp) with hH
  set b : Fin (goodPairs amp).length → ℝ := fun r => z ((goodPairs amp).get r) with hb
  set x0 := Pinv.pinv H *ᵥ b with hx0
  rw [pixelCost_eq, show x = ⟨(![x.re, x.im] : Fin 2 → ℝ) 0, (![x.re, x.im] : Fin 2 → ℝ) 1⟩ from rfl, pixelCost_eq]
  set y : Fin 2 → ℝ := ![x.re, x.im]
  have hn := Pinv.pinv_normal H b
  rw [← hx0] at hn
  have e : ∀ r, (H *ᵥ y) r - b r = ((H *ᵥ x0) r - b r) + (H *ᵥ (y - x0)) r := by intro r; rw [mulVec_sub]; simp
  have hcross : ∑ r, ((H *ᵥ x0) r - b r) * (H *ᵥ (y - x0)) r = 0 := by
    have : (H *ᵥ x0 - b) ⬝ᵥ (H *ᵥ (y - x0)) = 0 := by
      rw [dotProduct_mulVec, ← mulVec_transpose, hn]; simp
    simpa [dotProduct] using this
  change ∑ r, ((H *ᵥ x0) r - b r) ^ 2 ≤ ∑ r, ((H *ᵥ y) r - b r) ^ 2
  simp only [e, add_sq, Finset.sum_add_distrib]
  have h2 : ∑ r, 2 * ((H *ᵥ x0) r - b r) * (H *ᵥ (y - x0)) r = 0 := by
    simp only [mul_assoc]; rw [← Finset.mul_sum, hcross, mul_zero]
  have h3 : 0 ≤ ∑ r, (H *ᵥ (y - x0)) r ^ 2 := Finset.sum_nonneg fun r _ => sq_nonneg _
  linarith

/-- Two probe fields at a pixel are not collinear (as real vectors in the complex plane). -/
def NonCollinear (p q : ℂ) : Prop := p.re * q.im - p.im * q.re ≠ 0

theorem mem_goodPairs {Np : ℕ} (amp : Fin Np → ℝ) (k : Fin Np) : k ∈ goodPairs amp ↔ 0 < amp k := by simp [goodPairs]

theorem probeAmp_eq (E p : ℂ) (J : ℝ) : probeAmp (normSq E + J) (normSq (E + p) + J) (normSq (E - p) + J) = ‖p‖ := by
  unfold probeAmp
  have : (normSq (E + p) + J + (normSq (E - p) + J)) / 2 - (normSq E + J) = ‖p‖ ^ 2 := by
    rw [← normSq_eq_norm_sq]; simp [normSq_apply]; ring
  rw [this, if_neg (not_lt.2 (by positivity)), Real.sqrt_sq (norm_nonneg _)]

theorem zMeas_eq (E p : ℂ) (J : ℝ) : zMeas (normSq (E + p) + J) (normSq (E - p) + J) = p.re * E.re + p.im * E.im := by
  unfold zMeas; simp [normSq_apply]; ring

theorem arg_two (p : ℂ) (hp : p ≠ 0) : ‖p‖ * Real.cos (arg (p - (-p))) = p.re ∧ ‖p‖ * Real.sin (arg (p - (-p))) = p.im := by
  have e : p - -p = ((2 : ℝ) : ℂ) * p := by push_cast; ring
  rw [e, arg_real_mul p (by norm_num), cos_arg hp, sin_arg]
  have : ‖p‖ ≠ 0 := norm_ne_zero_iff.2 hp
  constructor <;> field_simp

/-- C33 at one pixel: with field `E`, incoherent light `J`, probes `±p_k` (any number, some possibly zero), two of them not collinear,
the estimate is exactly `E`. -/
theorem C33_exact_pixel {Np : ℕ} (E : ℂ) (J : ℝ) (p : Fin Np → ℂ) (h : ∃ k l, NonCollinear (p k) (p l)) :
    estPixel (fun k => probeAmp (normSq E + J) (normSq (E + p k) + J) (normSq (E - p k) + J)) (fun k => arg (p k - (-p k)))
      (fun k => zMeas (normSq (E + p k) + J) (normSq (E - p k) + J)) = E := by
  obtain ⟨k, l, hkl⟩ := h
  simp only [probeAmp_eq, zMeas_eq]
  set amp : Fin Np → ℝ := fun k => ‖p k‖
  set ph : Fin Np → ℝ := fun k => arg (p k - (-p k))
  have hk0 : p k ≠ 0 := fun hz => hkl (by simp [hz])
  have hl0 : p l ≠ 0 := fun hz => hkl (by simp [hz])
  have hne : k ≠ l := fun hz => hkl (by rw [hz]; ring)
  have hkm : k ∈ goodPairs amp := (mem_goodPairs _ _).2 (norm_pos_iff.2 hk0)
  have hlm : l ∈ goodPairs amp := (mem_goodPairs _ _).2 (norm_pos_iff.2 hl0)
  have hlen : ¬ (goodPairs amp).length < 2 := by
    intro hlt
    match hgp : goodPairs amp, hlt with
    | [], _ => rw [hgp] at hkm; simp at hkm
    | [a], _ =>
      rw [hgp] at hkm hlm
      simp at hkm hlm
      exact hne (hkm.trans hlm.symm)
  unfold estPixel
  simp only [if_neg hlen]
  set H := obsMatrix amp ph (goodPairs amp) with hH
  have hrow : ∀ (r : Fin (goodPairs amp).length) (x : Fin 2 → ℝ),
      (H *ᵥ x) r = (p ((goodPairs amp).get r)).re * x 0 + (p ((goodPairs amp).get r)).im * x 1 := by
    intro r x
    rw [hH, obs_mulVec]
    have hpos : p ((goodPairs amp).get r) ≠ 0 := norm_pos_iff.1 ((mem_goodPairs amp _).1 (List.get_mem _ r))
    obtain ⟨h1, h2⟩ := arg_two _ hpos
    rw [mul_add, ← mul_assoc, ← mul_assoc, h1, h2]
  have hz : (fun r => (p ((goodPairs amp).get r)).re * E.re + (p ((goodPairs amp).get r)).im * E.im) = H *ᵥ ![E.re, E.im] := by
    funext r; rw [hrow]; rfl
  have hinj : ∀ v, H *ᵥ v = 0 → v = 0 := by
    intro v hv
    obtain ⟨rk, hrk⟩ := List.get_of_mem hkm
    obtain ⟨rl, hrl⟩ := List.get_of_mem hlm
    have e1 := congrFun hv rk
    have e2 := congrFun hv rl
    rw [hrow, hrk] at e1
    rw [hrow, hrl] at e2
    simp only [Pi.zero_apply] at e1 e2
    unfold NonCollinear at hkl
    have h0 : ((p k).re * (p l).im - (p k).im * (p l).re) * v 0 = 0 := by linear_combination (p l).im * e1 - (p k).im * e2
    have h1 : ((p k).re * (p l).im - (p k).im * (p l).re) * v 1 = 0 := by linear_combination (p k).re * e2 - (p l).re * e1
    have v0 := (mul_eq_zero.1 h0).resolve_left hkl
    have v1 := (mul_eq_zero.1 h1).resolve_left hkl
    funext i; fin_cases i <;> simp [v0, v1]
  have : (fun r => (fun k => (p k).re * E.re + (p k).im * E.im) ((goodPairs amp).get r)) = H *ᵥ ![E.re, E.im] := hz
  rw [this, Pinv.pinv_mulVec H hinj]
  rfl

/-! ## The whole procedure -/

variable {P : Type} {n1 n2 : ℕ} {R : Type}

/-- Ideal optics around the nominal commands: taking an image or evaluating the compact model has no side effect, the image of sub-band `si` is
`|E + δ|² + J` with the field change `δ` produced by the DMs, and the compact model predicts the field change correctly (its own unprobed field
`F` may be anything). -/
structure Ideal (o : Optics P n1 n2 R) (nom1 : Fin n1 × Fin n1 → ℝ) (nom2 : Fin n2 × Fin n2 → ℝ) (E : ℕ → P → ℂ) (J : ℕ → P → ℝ)
    (F : ℕ → ℕ → P → ℂ) (A : ℕ → P → (Fin n1 × Fin n1 → ℝ) → (Fin n2 × Fin n2 → ℝ) → ℂ) : Prop where
  image_pure : ∀ si w, (o.image si w).2 = w
  field_pure : ∀ s si w, (o.field s si w).2 = w
  odd : ∀ si q d1 d2, A si q (-d1) (-d2) = -A si q d1 d2
  zero : ∀ si q, A si q 0 0 = 0
  image : ∀ si w q, (o.image si w).1 q = normSq (E si q + A si q (w.V1 - nom1) (w.V2 - nom2)) + J si q
  field : ∀ s si w q, (o.field s si w).1 q = F s si q + A si q (w.V1 - nom1) (w.V2 - nom2)

theorem delta_other (c : Cfg P n1 n2) (star : ℕ) (I0 : P → ℝ) (k : ℕ) (d) (h : c.delta star I0 k = .ok d) :
    (c.whichDM = 1 → d.2 = 0) ∧ (c.whichDM ≠ 1 → d.1 = 0) := by
  unfold Cfg.delta at h
  split_ifs at h with h1
  · cases hg : c.gen1 star I0 k with
    | error e => rw [hg] at h; simp [Except.map] at h
    | ok p => rw [hg] at h; simp [Except.map] at h; exact ⟨fun _ => by rw [← h], fun h' => absurd h1 h'⟩
  · cases hg : c.gen2 star I0 k with
    | error e => rw [hg] at h; simp [Except.map] at h
    | ok p => rw [hg] at h; simp [Except.map] at h; exact ⟨fun h' => absurd h' h1, fun _ => by rw [← h]⟩

/-- The images and commands recorded while probing with ideal optics, and the state afterwards (both DMs of `dm_ind` hold nominal + last probe). -/
theorem probeImages_ideal (c : Cfg P n1 n2) (o : Optics P n1 n2 R) (nom1 : Fin n1 × Fin n1 → ℝ) (nom2 : Fin n2 × Fin n2 → ℝ)
    (E : ℕ → P → ℂ) (J : ℕ → P → ℝ) (F : ℕ → ℕ → P → ℂ) (A) (hi : Ideal o nom1 nom2 E J F A) (star si : ℕ) (I0 : P → ℝ) (ks : List ℕ)
    (d : ℕ → (Fin n1 × Fin n1 → ℝ) × (Fin n2 × Fin n2 → ℝ)) (hd : ∀ k ∈ ks, c.delta star I0 k = .ok (d k)) (w : World n1 n2 R)
    (hw : (c.whichDM ≠ 1 → w.V1 = nom1) ∧ (c.whichDM = 1 → w.V2 = nom2)) (hwhich : c.whichDM = 1 ∨ c.whichDM = 2) :
    ∃ w', probeImages c o nom1 nom2 star si I0 ks w =
        .ok (ks.map fun k => (fun i => normSq (E si (c.corr i) + A si (c.corr i) (d k).1 (d k).2) + J si (c.corr i), (nom1 + (d k).1, nom2 + (d k).2)), w') ∧
      ((c.whichDM ≠ 1 → w'.V1 = nom1) ∧ (c.whichDM = 1 → w'.V2 = nom2)) ∧ w'.rest = w.rest := by
  induction ks generalizing w with
  | nil => exact ⟨w, rfl, hw, rfl⟩
  | cons k ks ih =>
    have hdk := hd k (by simp)
    obtain ⟨ho1, ho2⟩ := delta_other c star I0 k (d k) hdk
    have hV1 : (setV c w (nom1 + (d k).1) (nom2 + (d k).2)).V1 = nom1 + (d k).1 := by
      unfold setV
      simp only
      split_ifs with hin
      · rfl
      · by_cases h1 : c.whichDM = 1
        · exact absurd (by unfold Cfg.ind; rw [if_pos hwhich, h1]; simp) hin
        · rw [hw.1 h1, ho2 h1, add_zero]
    have hV2 : (setV c w (nom1 + (d k).1) (nom2 + (d k).2)).V2 = nom2 + (d k).2 := by
      unfold setV
      simp only
      split_ifs with hin
      · rfl
      · by_cases h1 : c.whichDM = 1
        · rw [hw.2 h1, ho1 h1, add_zero]
        · exact absurd (by unfold Cfg.ind; rw [if_pos hwhich, hwhich.resolve_left h1]; simp) hin
    obtain ⟨w', h1, h2, h3⟩ := ih (fun k' hk' => hd k' (by simp [hk'])) (setV c w (nom1 + (d k).1) (nom2 + (d k).2))
      ⟨fun h => by rw [hV1, ho2 h, add_zero], fun h => by rw [hV2, ho1 h, add_zero]⟩
    refine ⟨w', ?_, h2, h3⟩
    rw [probeImages, hdk]
    simp only [bind, Except.bind, hi.image_pure, h1, pure, Except.pure, List.map_cons, hi.image, hV1, hV2, add_sub_cancel_left]

theorem modelFields_ideal (c : Cfg P n1 n2) (o : Optics P n1 n2 R) (nom1 : Fin n1 × Fin n1 → ℝ) (nom2 : Fin n2 × Fin n2 → ℝ)
    (E : ℕ → P → ℂ) (J : ℕ → P → ℝ) (F : ℕ → ℕ → P → ℂ) (A) (hi : Ideal o nom1 nom2 E J F A) (star si : ℕ)
    (ds : List ((Fin n1 × Fin n1 → ℝ) × (Fin n2 × Fin n2 → ℝ)))
    (hd : ∀ d ∈ ds, (c.whichDM = 1 → d.2 = 0) ∧ (c.whichDM ≠ 1 → d.1 = 0)) (w : World n1 n2 R)
    (hw : (c.whichDM ≠ 1 → w.V1 = nom1) ∧ (c.whichDM = 1 → w.V2 = nom2)) :
    ∃ w', modelFields c o star si (ds.map fun d => (nom1 + d.1, nom2 + d.2)) w =
      (ds.map fun d => fun i => F star si (c.corr i) + A si (c.corr i) d.1 d.2, w') ∧ w'.rest = w.rest := by
  induction ds generalizing w with
  | nil => exact ⟨w, rfl, rfl⟩
  | cons d ds ih =>
    simp only [List.map_cons, modelFields, hi.field_pure, hi.field]
    by_cases h1 : c.whichDM = 1
    · obtain ⟨w', e, hr⟩ := ih (fun d' h' => hd d' (by simp [h'])) { w with V1 := nom1 + d.1 } ⟨fun h => absurd h1 h, fun _ => hw.2 h1⟩
      refine ⟨w', ?_, hr⟩
      rw [if_pos h1, e]
      simp only [hw.2 h1, add_sub_cancel_left, sub_self, (hd d (by simp)).1 h1]
    · obtain ⟨w', e, hr⟩ := ih (fun d' h' => hd d' (by simp [h'])) { w with V2 := nom2 + d.2 } ⟨fun _ => hw.1 h1, fun h => absurd h h1⟩
      refine ⟨w', ?_, hr⟩
      rw [if_neg h1, e]
      simp only [hw.1 h1, add_sub_cancel_left, sub_self, (hd d (by simp)).2 h1]

theorem evens_map {α β : Type} (f : α → β) : ∀ l : List α, evens (l.map f) = (evens l).map f
  | [] => rfl
  | [_] => rfl
  | _ :: _ :: l => by simp [evens, evens_map f l]
theorem odds_map {α β : Type} (f : α → β) : ∀ l : List α, odds (l.map f) = (odds l).map f
  | [] => rfl
  | [_] => rfl
  | _ :: _ :: l => by simp [odds, odds_map f l]
theorem evens_odds_flatMap {α β : Type} (f g : α → β) : ∀ l : List α,
    evens (l.flatMap fun k => [f k, g k]) = l.map f ∧ odds (l.flatMap fun k => [f k, g k]) = l.map g
  | [] => ⟨rfl, rfl⟩
  | a :: l => by simp [evens, odds, evens_odds_flatMap f g l]
theorem range_two_mul (n : ℕ) : List.range (2 * n) = (List.range n).flatMap fun k => [2 * k, 2 * k + 1] := by
  induction n with
  | zero => rfl
  | succ n ih => rw [Nat.mul_succ, List.range_succ, List.range_succ, ih, List.range_succ, List.flatMap_append]; simp

/-- The generated probe `2k+1` is minus probe `2k` (C34), and generation succeeds. -/
structure ProbePairs (c : Cfg P n1 n2) (star : ℕ) (I0 : P → ℝ) (d : ℕ → (Fin n1 × Fin n1 → ℝ) × (Fin n2 × Fin n2 → ℝ)) : Prop where
  plus : ∀ k < c.Npairs, c.delta star I0 (2 * k) = .ok (d k)
  minus : ∀ k < c.Npairs, c.delta star I0 (2 * k + 1) = .ok (-d k)

theorem analyse_ideal {npix : ℕ} (Np : ℕ) (Ith : ℝ) (E : Fin npix → ℂ) (J : Fin npix → ℝ) (F : Fin npix → ℂ) (p : ℕ → Fin npix → ℂ)
    (hnc : ∀ i, ∃ k l : Fin Np, NonCollinear (p k i) (p l i)) :
    analyse Np Ith (fun i => normSq (E i) + J i)
      ((List.range Np).flatMap fun k => [fun i => normSq (E i + p k i) + J i, fun i => normSq (E i - p k i) + J i]) F
      ((List.range Np).flatMap fun k => [fun i => F i + p k i, fun i => F i - p k i]) = fun i => threshold Ith (E i) := by
  funext i
  unfold analyse
  simp only
  rw [(evens_odds_flatMap _ _ _).1, (evens_odds_flatMap _ _ _).2, (evens_odds_flatMap _ _ _).1, (evens_odds_flatMap _ _ _).2]
  have hget : ∀ (g : ℕ → Fin npix → ℝ) (k : Fin Np), ((List.range Np).map g).getD k 0 i = g k i := by
    intro g k; simp [List.getD, k.2]
  have hgetC : ∀ (g : ℕ → Fin npix → ℂ) (k : Fin Np), ((List.range Np).map g).getD k 0 i = g k i := by
    intro g k; simp [List.getD, k.2]
  simp only [hget, hgetC]
  have e : ∀ k : Fin Np, F i + p k i - F i - (F i - p k i - F i) = p k i - (-p k i) := fun k => by ring
  simp only [e]
  rw [C33_exact_pixel (E i) (J i) (fun k : Fin Np => p k i) (hnc i)]

theorem estMode_ideal (c : Cfg P n1 n2) (o : Optics P n1 n2 R) (nom1 : Fin n1 × Fin n1 → ℝ) (nom2 : Fin n2 × Fin n2 → ℝ)
    (E : ℕ → P → ℂ) (J : ℕ → P → ℝ) (F : ℕ → ℕ → P → ℂ) (A) (hi : Ideal o nom1 nom2 E J F A) (hwhich : c.whichDM = 1 ∨ c.whichDM = 2)
    (hsize : c.whichDM = 2 → n1 = n2) (star si : ℕ) (w : World n1 n2 R)
    (d : ℕ → (Fin n1 × Fin n1 → ℝ) × (Fin n2 × Fin n2 → ℝ))
    (hd : ProbePairs c star (o.image si { w with V1 := nom1, V2 := nom2 }).1 d)
    (hnc : ∀ i : Fin c.npix, ∃ k l : Fin c.Npairs, NonCollinear (A si (c.corr i) (d k).1 (d k).2) (A si (c.corr i) (d l).1 (d l).2)) :
    ∃ w', estMode c o nom1 nom2 star si w = .ok ((fun i => threshold c.Ithreshold (E si (c.corr i)),
      fun i => normSq (E si (c.corr i)) + J si (c.corr i) - normSq (threshold c.Ithreshold (E si (c.corr i)))), w') ∧ w'.rest = w.rest := by
  set I0 := (o.image si { w with V1 := nom1, V2 := nom2 }).1 with hI0
  let dd : ℕ → (Fin n1 × Fin n1 → ℝ) × (Fin n2 × Fin n2 → ℝ) := fun j => if j % 2 = 0 then d (j / 2) else -d (j / 2)
  have hdd : ∀ j ∈ List.range (2 * c.Npairs), c.delta star I0 j = .ok (dd j) := by
    intro j hj
    have hj' : j < 2 * c.Npairs := by simpa using hj
    simp only [dd]
    split_ifs with hp
    · have := hd.plus (j / 2) (by omega); rwa [show 2 * (j / 2) = j by omega] at this
    · have := hd.minus (j / 2) (by omega); rwa [show 2 * (j / 2) + 1 = j by omega] at this
  obtain ⟨w1, h1, hw1, hr1⟩ := probeImages_ideal c o nom1 nom2 E J F A hi star si I0 _ dd hdd { w with V1 := nom1, V2 := nom2 } ⟨fun _ => rfl, fun _ => rfl⟩ hwhich
  have hsz : ¬ (c.whichDM = 2 ∧ 0 < c.Npairs ∧ n1 ≠ n2 ∧ n1 ≠ 1) := fun h => h.2.2.1 (hsize h.1)
  have hset : (c.whichDM ≠ 1 → (setV c w1 nom1 nom2).V1 = nom1) ∧ (c.whichDM = 1 → (setV c w1 nom1 nom2).V2 = nom2) := by
    constructor
    · intro h; unfold setV; simp only; split_ifs; · rfl
      exact hw1.1 h
    · intro h; unfold setV; simp only; split_ifs; · rfl
      exact hw1.2 h
  have hset' : (setV c w1 nom1 nom2).V1 = nom1 ∧ (setV c w1 nom1 nom2).V2 = nom2 := by
    by_cases h : c.whichDM = 1
    · refine ⟨?_, hset.2 h⟩
      unfold setV; simp only; rw [if_pos]
      unfold Cfg.ind; rw [if_pos hwhich, h]; simp
    · refine ⟨hset.1 h, ?_⟩
      unfold setV; simp only; rw [if_pos]
      unfold Cfg.ind; rw [if_pos hwhich, hwhich.resolve_left h]; simp
  have hother : ∀ x ∈ (List.range (2 * c.Npairs)).map dd, (c.whichDM = 1 → x.2 = 0) ∧ (c.whichDM ≠ 1 → x.1 = 0) := by
    intro x hx
    obtain ⟨j, hj, rfl⟩ := List.mem_map.1 hx
    exact delta_other c star I0 j _ (hdd j hj)
  obtain ⟨w2, h2, hr2⟩ := modelFields_ideal c o nom1 nom2 E J F A hi star si _ hother (setV c w1 nom1 nom2) hset
  refine ⟨w2, ?_, hr2.trans hr1⟩
  have hdd0 : ∀ k, dd (2 * k) = d k := fun k => by simp [dd]
  have hdd1 : ∀ k, dd (2 * k + 1) = -d k := fun k => by
    simp only [dd]; rw [if_neg (by omega), show (2 * k + 1) / 2 = k by omega]
  have I0eq : ∀ q, I0 q = normSq (E si q) + J si q := by
    intro q; rw [hI0, hi.image]; simp [hi.zero]
  have hmap : ∀ {β : Type} (g : ℕ → β), List.map g (List.range (2 * c.Npairs)) =
      (List.range c.Npairs).flatMap fun k => [g (2 * k), g (2 * k + 1)] := by
    intro β g; rw [range_two_mul, List.map_flatMap]; rfl
  have hA := analyse_ideal c.Npairs c.Ithreshold (fun i => E si (c.corr i)) (fun i => J si (c.corr i)) (fun i => F star si (c.corr i))
    (fun k i => A si (c.corr i) (d k).1 (d k).2) hnc
  unfold estMode
  simp only [hi.image_pure, ← hI0, h1, bind, Except.bind, if_neg hsz, pure, Except.pure]
  rw [List.map_map] at h2
  have hL : List.map (fun x : (Fin c.npix → ℝ) × ((Fin n1 × Fin n1 → ℝ) × (Fin n2 × Fin n2 → ℝ)) => x.2)
      (List.map (fun k => ((fun i => normSq (E si (c.corr i) + A si (c.corr i) (dd k).1 (dd k).2) + J si (c.corr i)), (nom1 + (dd k).1, nom2 + (dd k).2)))
        (List.range (2 * c.Npairs))) = List.map ((fun d : (Fin n1 × Fin n1 → ℝ) × (Fin n2 × Fin n2 → ℝ) => (nom1 + d.1, nom2 + d.2)) ∘ dd) (List.range (2 * c.Npairs)) := by
    rw [List.map_map]; rfl
  have hL1 : List.map (fun x : (Fin c.npix → ℝ) × ((Fin n1 × Fin n1 → ℝ) × (Fin n2 × Fin n2 → ℝ)) => x.1)
      (List.map (fun k => ((fun i => normSq (E si (c.corr i) + A si (c.corr i) (dd k).1 (dd k).2) + J si (c.corr i)), (nom1 + (dd k).1, nom2 + (dd k).2)))
        (List.range (2 * c.Npairs))) = (List.range c.Npairs).flatMap fun k => [fun i => normSq (E si (c.corr i) + A si (c.corr i) (d k).1 (d k).2) + J si (c.corr i),
          fun i => normSq (E si (c.corr i) - A si (c.corr i) (d k).1 (d k).2) + J si (c.corr i)] := by
    rw [List.map_map, hmap]
    simp only [Function.comp, hdd0, hdd1, Prod.fst_neg, Prod.snd_neg, hi.odd, ← sub_eq_add_neg]
  have hF : List.map (fun d : (Fin n1 × Fin n1 → ℝ) × (Fin n2 × Fin n2 → ℝ) => fun i : Fin c.npix => F star si (c.corr i) + A si (c.corr i) d.1 d.2)
      (List.map dd (List.range (2 * c.Npairs))) = (List.range c.Npairs).flatMap fun k => [fun i => F star si (c.corr i) + A si (c.corr i) (d k).1 (d k).2,
          fun i => F star si (c.corr i) - A si (c.corr i) (d k).1 (d k).2] := by
    rw [List.map_map, hmap]
    simp only [Function.comp, hdd0, hdd1, Prod.fst_neg, Prod.snd_neg, hi.odd, ← sub_eq_add_neg]
  rw [hF] at h2
  have hf0 : ∀ q, (o.field star si (setV c w1 nom1 nom2)).1 q = F star si q := by
    intro q; rw [hi.field, hset'.1, hset'.2, sub_self, sub_self, hi.zero, add_zero]
  rw [hL, hL1]
  rw [hi.field_pure, h2]
  simp only [hf0, I0eq, hA]

/-- C33. With ideal optics (images `|E + δ|² + J`, correct model of the probe response, no noise), one star, probe pairs that are exact negatives
and at every correction pixel two non-collinear probe fields, `pairwise_probing` returns for every sub-band exactly the field `E`
and the incoherent intensity `J` wherever `|E|²` is within the threshold. -/
theorem C33_exact (c : Cfg P n1 n2) (o : Optics P n1 n2 R) (w : World n1 n2 R) (E : ℕ → P → ℂ) (J : ℕ → P → ℝ) (F : ℕ → ℕ → P → ℂ) (A)
    (hwhich : c.whichDM = 1 ∨ c.whichDM = 2) (hsize : c.whichDM = 2 → n1 = n2) (hstar : c.Nstar = 1)
    (hi : Ideal o (if 1 ∈ c.ind then w.V1 else 0) (if 2 ∈ c.ind then w.V2 else 0) E J F A)
    (d : ℕ → ℕ → (Fin n1 × Fin n1 → ℝ) × (Fin n2 × Fin n2 → ℝ))
    (hd : ∀ si < c.Nsbp, ∀ I0, (∀ q, I0 q = normSq (E si q) + J si q) → ProbePairs c 0 I0 (d si))
    (hnc : ∀ si < c.Nsbp, ∀ i : Fin c.npix, ∃ k l : Fin c.Npairs,
      NonCollinear (A si (c.corr i) (d si k).1 (d si k).2) (A si (c.corr i) (d si l).1 (d si l).2))
    (hth : ∀ si < c.Nsbp, ∀ i : Fin c.npix, normSq (E si (c.corr i)) ≤ c.Ithreshold) :
    ∃ w', pairwise c o w = .ok ((List.range c.Nsbp).map fun si => (fun i => E si (c.corr i), fun i => J si (c.corr i)), w') := by
  unfold pairwise
  have hmodes : c.modes = (List.range c.Nsbp).map fun b => (0, b) := by unfold Cfg.modes; rw [hstar]; simp
  rw [if_neg (not_not.2 hwhich), hmodes]
  set nom1 := if 1 ∈ c.ind then w.V1 else 0
  set nom2 := if 2 ∈ c.ind then w.V2 else 0
  have hloop : ∀ (l : List ℕ), (∀ si ∈ l, si < c.Nsbp) → ∀ w, ∃ w', estLoop c o nom1 nom2 (l.map fun b => (0, b)) w =
      .ok (l.map fun si => (fun i => E si (c.corr i), fun i => J si (c.corr i)), w') := by
    intro l
    induction l with
    | nil => intro _ w; exact ⟨w, rfl⟩
    | cons si l ih =>
      intro hl w
      have hsi := hl si (by simp)
      obtain ⟨w1, h1, -⟩ := estMode_ideal c o nom1 nom2 E J F A hi hwhich hsize 0 si w (d si)
        (hd si hsi _ (fun q => by rw [hi.image]; simp [hi.zero])) (hnc si hsi)
      obtain ⟨w2, h2⟩ := ih (fun s hs => hl s (by simp [hs])) w1
      refine ⟨w2, ?_⟩
      rw [List.map_cons, estLoop]
      simp only [h1, h2, bind, Except.bind, pure, Except.pure, List.map_cons]
      have ht : ∀ i, threshold c.Ithreshold (E si (c.corr i)) = E si (c.corr i) := fun i => by
        unfold threshold; rw [if_neg (not_lt.2 (hth si hsi i))]
      simp only [ht, add_sub_cancel_left]
  obtain ⟨w', hw'⟩ := hloop (List.range c.Nsbp) (by simp) w
  refine ⟨setV c w' nom1 nom2, ?_⟩
  simp only [hw', bind, Except.bind, pure, Except.pure]

/-! ### non-vacuity of C33 -/

/-- four actuators, one pixel: actuator (0,0) changes the real part, (0,1) the imaginary part -/
noncomputable def demoA : ℕ → Unit → (Fin 2 × Fin 2 → ℝ) → (Fin 1 × Fin 1 → ℝ) → ℂ := fun _ _ d1 _ => ⟨d1 (0, 0), d1 (0, 1)⟩

noncomputable def demoOptics : Optics Unit 2 1 Unit where
  image := fun si w => (fun q => normSq ((1 + 2 * I) + demoA si q w.V1 w.V2) + 3, w)
  field := fun _ si w => (fun q => 7 + demoA si q w.V1 w.V2, w)

noncomputable def demoProbe (k : ℕ) : Fin 2 × Fin 2 → ℝ := fun p => if p = (0, if k = 0 then 0 else 1) then 1 else 0

noncomputable def demoCfg : Cfg Unit 2 1 where
  npix := 1
  corr := fun _ => ()
  Npairs := 2
  Nsbp := 3
  Nstar := 1
  Ithreshold := 10
  whichDM := 1
  dmInd := [2]
  gen1 := fun _ _ k => .ok (if k % 2 = 0 then demoProbe (k / 2) else -demoProbe (k / 2))
  gen2 := fun _ _ _ => .ok 0

/-- The hypotheses of `C33_exact` are met by a concrete system with two probe pairs, three sub-bands and an incoherent background. -/
example : ∃ w', pairwise demoCfg demoOptics { V1 := 0, V2 := 0, rest := () } =
    .ok ((List.range 3).map fun _ => (fun _ => 1 + 2 * I, fun _ => 3), w') := by
  have hind : (1 : ℤ) ∈ demoCfg.ind := by simp [Cfg.ind, demoCfg]
  have hind2 : (2 : ℤ) ∈ demoCfg.ind := by simp [Cfg.ind, demoCfg]
  refine C33_exact demoCfg demoOptics _ (fun _ _ => 1 + 2 * I) (fun _ _ => 3) (fun _ _ _ => 7) demoA (Or.inl rfl) (by simp [demoCfg]) rfl ?_
    (fun _ k => (demoProbe k, 0)) ?_ ?_ ?_
  · rw [if_pos hind, if_pos hind2]
    refine ⟨fun _ _ => rfl, fun _ _ _ => rfl, ?_, ?_, ?_, ?_⟩
    · intro si q d1 d2; apply Complex.ext <;> simp [demoA]
    · intro si q; apply Complex.ext <;> simp [demoA]
    · intro si w q; simp [demoOptics]
    · intro s si w q; simp [demoOptics]
  · intro si _ I0 _
    constructor
    · intro k _
      simp [Cfg.delta, demoCfg, Except.map]
    · intro k _
      have : (2 * k + 1) / 2 = k := by omega
      simp [Cfg.delta, demoCfg, Except.map, this]
  · intro si _ i
    refine ⟨(0 : Fin 2), (1 : Fin 2), ?_⟩
    simp [NonCollinear, demoA, demoProbe]
  · intro si _ i
    have : normSq (1 + 2 * I) = 5 := by simp [normSq_apply]; norm_num
    rw [this]; norm_num [demoCfg]

/-! ## C35: DM commands after probing -/

theorem pairwise_ok (c : Cfg P n1 n2) (o : Optics P n1 n2 R) (w w' : World n1 n2 R) (r) (h : pairwise c o w = .ok (r, w')) :
    (c.whichDM = 1 ∨ c.whichDM = 2) ∧ ∃ w1, estLoop c o (if 1 ∈ c.ind then w.V1 else 0) (if 2 ∈ c.ind then w.V2 else 0) c.modes w = .ok (r, w1) ∧
      w' = setV c w1 (if 1 ∈ c.ind then w.V1 else 0) (if 2 ∈ c.ind then w.V2 else 0) := by
  unfold pairwise at h
  by_cases hw : c.whichDM = 1 ∨ c.whichDM = 2
  · rw [if_neg (not_not.2 hw)] at h
    refine ⟨hw, ?_⟩
    simp only at h
    cases hl : estLoop c o (if 1 ∈ c.ind then w.V1 else 0) (if 2 ∈ c.ind then w.V2 else 0) c.modes w with
    | error e => rw [hl] at h; simp [bind, Except.bind] at h
    | ok p =>
      rw [hl] at h
      simp only [bind, Except.bind, pure, Except.pure, Except.ok.injEq, Prod.mk.injEq] at h
      exact ⟨p.2, by rw [← h.1], h.2.symm⟩
  · rw [if_pos hw] at h
    simp [bind, Except.bind, throw, throwThe, MonadExceptOf.throw] at h

/-- C35. Whatever imaging and model evaluation do to the DM state, a DM that is used for control or for probing has exactly its old command
after `pairwise_probing` returns. -/
theorem C35_restored (c : Cfg P n1 n2) (o : Optics P n1 n2 R) (w w' : World n1 n2 R) (r) (h : pairwise c o w = .ok (r, w')) :
    ((1 ∈ c.dmInd ∨ c.whichDM = 1) → w'.V1 = w.V1) ∧ ((2 ∈ c.dmInd ∨ c.whichDM = 2) → w'.V2 = w.V2) := by
  obtain ⟨hw, w1, -, rfl⟩ := pairwise_ok c o w w' r h
  have hmem : ∀ k : ℤ, (k ∈ c.dmInd ∨ c.whichDM = k) → k ∈ c.ind := by
    intro k hk
    unfold Cfg.ind
    rw [if_pos hw]
    rcases hk with hk | hk
    · exact List.mem_append_left _ hk
    · rw [← hk]; simp
  constructor
  · intro h1; unfold setV; simp only [if_pos (hmem 1 h1)]
  · intro h2; unfold setV; simp only [if_pos (hmem 2 h2)]

/-- The optics never touch DM 1's command. -/
def KeepsV1 (o : Optics P n1 n2 R) : Prop := (∀ si w, (o.image si w).2.V1 = w.V1) ∧ ∀ s si w, (o.field s si w).2.V1 = w.V1

theorem probeImages_V1 (c : Cfg P n1 n2) (o : Optics P n1 n2 R) (hk : KeepsV1 o) (h1 : 1 ∉ c.ind) (nom1) (nom2) (star si I0) (ks : List ℕ)
    (w w' : World n1 n2 R) (r) (h : probeImages c o nom1 nom2 star si I0 ks w = .ok (r, w')) : w'.V1 = w.V1 := by
  induction ks generalizing w r with
  | nil => simp [probeImages] at h; rw [h.2]
  | cons k ks ih =>
    rw [probeImages] at h
    cases hd : c.delta star I0 k with
    | error e => rw [hd] at h; simp [bind, Except.bind] at h
    | ok d =>
      rw [hd] at h
      simp only [bind, Except.bind] at h
      cases hp : probeImages c o nom1 nom2 star si I0 ks (o.image si (setV c w (nom1 + d.1) (nom2 + d.2))).2 with
      | error e => rw [hp] at h; simp at h
      | ok t =>
        rw [hp] at h
        simp only [pure, Except.pure, Except.ok.injEq, Prod.mk.injEq] at h
        have e := ih _ t.1 (by rw [hp, ← h.2])
        rw [e, hk.1]
        simp [setV, h1]

theorem modelFields_V1 (c : Cfg P n1 n2) (o : Optics P n1 n2 R) (hk : KeepsV1 o) (h1 : c.whichDM ≠ 1) (star si) (ds)
    (w : World n1 n2 R) : (modelFields c o star si ds w).2.V1 = w.V1 := by
  induction ds generalizing w with
  | nil => rfl
  | cons d ds ih => simp only [modelFields, if_neg h1, ih, hk.2]

theorem estMode_V1 (c : Cfg P n1 n2) (o : Optics P n1 n2 R) (hk : KeepsV1 o) (h1 : 1 ∉ c.ind) (h2 : c.whichDM ≠ 1) (nom1 nom2 star si)
    (w w' : World n1 n2 R) (r) (h : estMode c o nom1 nom2 star si w = .ok (r, w')) : w'.V1 = nom1 := by
  unfold estMode at h
  cases hp : probeImages c o nom1 nom2 star si (o.image si { w with V1 := nom1, V2 := nom2 }).1 (List.range (2 * c.Npairs))
      (o.image si { w with V1 := nom1, V2 := nom2 }).2 with
  | error e => simp [hp, bind, Except.bind] at h
  | ok p =>
    simp only [hp, bind, Except.bind] at h
    split_ifs at h with hs
    · simp only [pure, Except.pure, Except.ok.injEq, Prod.mk.injEq] at h
      rw [← h.2, modelFields_V1 c o hk h2, hk.2]
      have e1 : p.2.V1 = nom1 := by
        rw [probeImages_V1 c o hk h1 nom1 nom2 star si _ _ _ p.2 p.1 hp, hk.1]
      simp [setV, h1, e1]

/-- C35: a DM that is neither controlled nor probing is zeroed: after probing with DM 2 only (any number of modes ≥ 1, any command before,
optics that do not touch DM 1 at all), DM 1's command is zero. -/
theorem C35_unused_dm1 (c : Cfg P n1 n2) (o : Optics P n1 n2 R) (hk : KeepsV1 o) (hwh : c.whichDM = 2) (h1 : 1 ∉ c.dmInd)
    (hN : 0 < c.Nstar ∧ 0 < c.Nsbp) (w w' : World n1 n2 R) (r) (h : pairwise c o w = .ok (r, w')) : w'.V1 = 0 := by
  have hind : 1 ∉ c.ind := by unfold Cfg.ind; rw [hwh]; simp [h1]
  obtain ⟨-, w1, hl, rfl⟩ := pairwise_ok c o w w' r h
  rw [if_neg hind] at hl ⊢
  have hne : c.modes ≠ [] := by
    unfold Cfg.modes
    intro hc
    rw [List.flatMap_eq_nil_iff] at hc
    have := hc 0 (by simpa using hN.1)
    simp at this; omega
  have key : ∀ (ms : List (ℕ × ℕ)) (w w1 : World n1 n2 R) (r) (nom2), ms ≠ [] → estLoop c o 0 nom2 ms w = .ok (r, w1) → w1.V1 = 0 := by
    intro ms
    induction ms with
    | nil => intro _ _ _ _ hn; exact absurd rfl hn
    | cons m ms ih =>
      intro w w1 r nom2 _ hl
      rw [estLoop] at hl
      cases hm : estMode c o 0 nom2 m.1 m.2 w with
      | error e => simp [hm, bind, Except.bind] at hl
      | ok p =>
        simp only [hm, bind, Except.bind] at hl
        cases ht : estLoop c o 0 nom2 ms p.2 with
        | error e => simp [ht] at hl
        | ok t =>
          simp only [ht, pure, Except.pure, Except.ok.injEq, Prod.mk.injEq] at hl
          rw [← hl.2]
          cases ms with
          | nil =>
            simp only [estLoop, Except.ok.injEq] at ht
            rw [← ht]
            exact estMode_V1 c o hk hind (by omega) 0 nom2 m.1 m.2 w p.2 p.1 hm
          | cons m' ms' => exact ih p.2 t.2 t.1 nom2 (by simp) ht
  simp only [setV, if_neg hind]
  exact key _ _ _ _ _ hne hl

/-- The optics never touch DM 2's command. -/
def KeepsV2 (o : Optics P n1 n2 R) : Prop := (∀ si w, (o.image si w).2.V2 = w.V2) ∧ ∀ s si w, (o.field s si w).2.V2 = w.V2

theorem probeImages_V2 (c : Cfg P n1 n2) (o : Optics P n1 n2 R) (hk : KeepsV2 o) (h1 : 2 ∉ c.ind) (nom1) (nom2) (star si I0) (ks : List ℕ)
    (w w' : World n1 n2 R) (r) (h : probeImages c o nom1 nom2 star si I0 ks w = .ok (r, w')) : w'.V2 = w.V2 := by
  induction ks generalizing w r with
  | nil => simp [probeImages] at h; rw [h.2]
  | cons k ks ih =>
    rw [probeImages] at h
    cases hd : c.delta star I0 k with
    | error e => rw [hd] at h; simp [bind, Except.bind] at h
    | ok d =>
      rw [hd] at h
      simp only [bind, Except.bind] at h
      cases hp : probeImages c o nom1 nom2 star si I0 ks (o.image si (setV c w (nom1 + d.1) (nom2 + d.2))).2 with
      | error e => rw [hp] at h; simp at h
      | ok t =>
        rw [hp] at h
        simp only [pure, Except.pure, Except.ok.injEq, Prod.mk.injEq] at h
        have e := ih _ t.1 (by rw [hp, ← h.2])
        rw [e, hk.1]
        simp [setV, h1]

theorem modelFields_V2 (c : Cfg P n1 n2) (o : Optics P n1 n2 R) (hk : KeepsV2 o) (h1 : c.whichDM = 1) (star si) (ds)
    (w : World n1 n2 R) : (modelFields c o star si ds w).2.V2 = w.V2 := by
  induction ds generalizing w with
  | nil => rfl
  | cons d ds ih => simp only [modelFields, if_pos h1, ih, hk.2]

theorem estMode_V2 (c : Cfg P n1 n2) (o : Optics P n1 n2 R) (hk : KeepsV2 o) (h1 : 2 ∉ c.ind) (h2 : c.whichDM = 1) (nom1 nom2 star si)
    (w w' : World n1 n2 R) (r) (h : estMode c o nom1 nom2 star si w = .ok (r, w')) : w'.V2 = nom2 := by
  unfold estMode at h
  cases hp : probeImages c o nom1 nom2 star si (o.image si { w with V1 := nom1, V2 := nom2 }).1 (List.range (2 * c.Npairs))
      (o.image si { w with V1 := nom1, V2 := nom2 }).2 with
  | error e => simp [hp, bind, Except.bind] at h
  | ok p =>
    simp only [hp, bind, Except.bind] at h
    split_ifs at h with hs
    · simp only [pure, Except.pure, Except.ok.injEq, Prod.mk.injEq] at h
      rw [← h.2, modelFields_V2 c o hk h2, hk.2]
      have e1 : p.2.V2 = nom2 := by
        rw [probeImages_V2 c o hk h1 nom1 nom2 star si _ _ _ p.2 p.1 hp, hk.1]
      simp [setV, h1, e1]

/-- C35: a DM that is neither controlled nor probing is zeroed: after probing with DM 1 only (any number of modes ≥ 1, any command before,
optics that do not touch DM 2 at all), DM 2's command is zero. -/
theorem C35_unused_dm2 (c : Cfg P n1 n2) (o : Optics P n1 n2 R) (hk : KeepsV2 o) (hwh : c.whichDM = 1) (h1 : 2 ∉ c.dmInd)
    (hN : 0 < c.Nstar ∧ 0 < c.Nsbp) (w w' : World n1 n2 R) (r) (h : pairwise c o w = .ok (r, w')) : w'.V2 = 0 := by
  have hind : 2 ∉ c.ind := by unfold Cfg.ind; rw [hwh]; simp [h1]
  obtain ⟨-, w1, hl, rfl⟩ := pairwise_ok c o w w' r h
  rw [if_neg hind] at hl ⊢
  have hne : c.modes ≠ [] := by
    unfold Cfg.modes
    intro hc
    rw [List.flatMap_eq_nil_iff] at hc
    have := hc 0 (by simpa using hN.1)
    simp at this; omega
  have key : ∀ (ms : List (ℕ × ℕ)) (w w1 : World n1 n2 R) (r) (nom1), ms ≠ [] → estLoop c o nom1 0 ms w = .ok (r, w1) → w1.V2 = 0 := by
    intro ms
    induction ms with
    | nil => intro _ _ _ _ hn; exact absurd rfl hn
    | cons m ms ih =>
      intro w w1 r nom1 _ hl
      rw [estLoop] at hl
      cases hm : estMode c o nom1 0 m.1 m.2 w with
      | error e => simp [hm, bind, Except.bind] at hl
      | ok p =>
        simp only [hm, bind, Except.bind] at hl
        cases ht : estLoop c o nom1 0 ms p.2 with
        | error e => simp [ht] at hl
        | ok t =>
          simp only [ht, pure, Except.pure, Except.ok.injEq, Prod.mk.injEq] at hl
          rw [← hl.2]
          cases ms with
          | nil =>
            simp only [estLoop, Except.ok.injEq] at ht
            rw [← ht]
            exact estMode_V2 c o hk hind (by omega) nom1 0 m.1 m.2 w p.2 p.1 hm
          | cons m' ms' => exact ih p.2 t.2 t.1 nom1 (by simp) ht
  simp only [setV, if_neg hind]
  exact key _ _ _ _ _ hne hl

/-! ## C36 -/

theorem threshold_le (Ith : ℝ) (h0 : 0 ≤ Ith) (E : ℂ) : normSq (threshold Ith E) ≤ Ith := by
  unfold threshold
  split_ifs with h
  · simpa using h0
  · exact not_lt.1 h

theorem estMode_ok (c : Cfg P n1 n2) (o : Optics P n1 n2 R) (nom1 nom2 star si) (w w' : World n1 n2 R) (r)
    (h : estMode c o nom1 nom2 star si w = .ok (r, w')) : ∃ imgs E0 flds,
    r = (analyse c.Npairs c.Ithreshold (fun i => (o.image si { w with V1 := nom1, V2 := nom2 }).1 (c.corr i)) imgs E0 flds,
      fun i => (o.image si { w with V1 := nom1, V2 := nom2 }).1 (c.corr i) - normSq (analyse c.Npairs c.Ithreshold
        (fun i => (o.image si { w with V1 := nom1, V2 := nom2 }).1 (c.corr i)) imgs E0 flds i)) := by
  unfold estMode at h
  cases hp : probeImages c o nom1 nom2 star si (o.image si { w with V1 := nom1, V2 := nom2 }).1 (List.range (2 * c.Npairs))
      (o.image si { w with V1 := nom1, V2 := nom2 }).2 with
  | error e => simp [hp, bind, Except.bind] at h
  | ok p =>
    simp only [hp, bind, Except.bind] at h
    split_ifs at h with hs
    · simp only [pure, Except.pure, Except.ok.injEq, Prod.mk.injEq] at h
      exact ⟨_, _, _, h.1.symm⟩

/-- Every estimate in the result of the loops comes from one `estMode` call. -/
theorem estLoop_mem (c : Cfg P n1 n2) (o : Optics P n1 n2 R) (nom1 nom2) (ms : List (ℕ × ℕ)) (w w' : World n1 n2 R) (r)
    (h : estLoop c o nom1 nom2 ms w = .ok (r, w')) : r.length = ms.length ∧ ∀ j (hj : j < r.length) (hj' : j < ms.length),
      ∃ w1 w2, estMode c o nom1 nom2 ms[j].1 ms[j].2 w1 = .ok (r[j], w2) := by
  induction ms generalizing w r with
  | nil => simp [estLoop] at h; rw [h.1]; simp
  | cons m ms ih =>
    rw [estLoop] at h
    cases hm : estMode c o nom1 nom2 m.1 m.2 w with
    | error e => simp [hm, bind, Except.bind] at h
    | ok p =>
      simp only [hm, bind, Except.bind] at h
      cases ht : estLoop c o nom1 nom2 ms p.2 with
      | error e => simp [ht] at h
      | ok t =>
        simp only [ht, pure, Except.pure, Except.ok.injEq, Prod.mk.injEq] at h
        obtain ⟨rfl, rfl⟩ := h
        obtain ⟨e1, e2⟩ := ih p.2 t.1 ht
        refine ⟨by simp [e1], ?_⟩
        intro j hj hj'
        cases j with
        | zero => exact ⟨w, p.2, hm⟩
        | succ j => exact e2 j (by simpa using hj) (by simpa using hj')

/-- C36. For arbitrary optics (noise, wrong model, saturating DMs), every estimated field returned by `pairwise_probing` is within the
threshold, there is one estimate per star and sub-band in star-major order, and at each correction pixel coherent + incoherent estimate
equals the intensity of an unprobed image of that sub-band taken at the nominal DM commands. -/
theorem C36_threshold_and_sum (c : Cfg P n1 n2) (o : Optics P n1 n2 R) (hI : 0 ≤ c.Ithreshold) (w w' : World n1 n2 R) (r)
    (h : pairwise c o w = .ok (r, w')) :
    r.length = c.Nstar * c.Nsbp ∧ ∀ j (hj : j < r.length), ∀ i,
      normSq (r[j].1 i) ≤ c.Ithreshold ∧
      ∃ w1 : World n1 n2 R, ((1 ∈ c.dmInd ∨ c.whichDM = 1) → w1.V1 = w.V1) ∧ ((2 ∈ c.dmInd ∨ c.whichDM = 2) → w1.V2 = w.V2) ∧
        normSq (r[j].1 i) + r[j].2 i = (o.image (j % c.Nsbp) w1).1 (c.corr i) := by
  obtain ⟨hw, w1, hl, -⟩ := pairwise_ok c o w w' r h
  obtain ⟨hlen, hmem⟩ := estLoop_mem c o _ _ _ _ _ _ hl
  have hml : c.modes.length = c.Nstar * c.Nsbp := by unfold Cfg.modes; simp [List.length_flatMap]
  refine ⟨hlen.trans hml, fun j hj i => ?_⟩
  have hj' : j < c.modes.length := by omega
  have hget : c.modes[j].2 = j % c.Nsbp := by
    have hN : 0 < c.Nsbp := by
      rcases Nat.eq_zero_or_pos c.Nsbp with h0 | h0
      · rw [hml, h0] at hj'; omega
      · exact h0
    have gen : ∀ (l : List ℕ) (j : ℕ) (hj : j < (l.flatMap fun s => (List.range c.Nsbp).map fun b => (s, b)).length),
        ((l.flatMap fun s => (List.range c.Nsbp).map fun b => (s, b))[j]).2 = j % c.Nsbp := by
      intro l
      induction l with
      | nil => intro j hj; simp at hj
      | cons a l ih =>
        intro j hj
        simp only [List.flatMap_cons]
        by_cases hlt : j < c.Nsbp
        · rw [List.getElem_append_left (by simpa using hlt)]
          simp [Nat.mod_eq_of_lt hlt]
        · rw [List.getElem_append_right (by simpa using hlt)]
          rw [ih]
          simp only [List.length_map, List.length_range]
          exact (Nat.mod_eq_sub_mod (by omega)).symm
    exact gen _ j hj'
  obtain ⟨wa, wb, he⟩ := hmem j hj hj'
  obtain ⟨imgs, E0, flds, hr⟩ := estMode_ok c o _ _ _ _ _ _ _ he
  rw [hr]
  refine ⟨threshold_le _ hI _, ⟨(if 1 ∈ c.ind then w.V1 else 0), (if 2 ∈ c.ind then w.V2 else 0), wa.rest⟩, ?_, ?_, ?_⟩
  · intro hh; change (if 1 ∈ c.ind then w.V1 else 0) = _
    rw [if_pos]; unfold Cfg.ind; rw [if_pos hw]
    rcases hh with hh | hh
    · exact List.mem_append_left _ hh
    · rw [← hh]; simp
  · intro hh; change (if 2 ∈ c.ind then w.V2 else 0) = _
    rw [if_pos]; unfold Cfg.ind; rw [if_pos hw]
    rcases hh with hh | hh
    · exact List.mem_append_left _ hh
    · rw [← hh]; simp
  · rw [← hget]; simp

/-- C36. A pixel with fewer than two probe pairs of positive measured amplitude is estimated as 0, for arbitrary measurements. -/
theorem C36_few_pairs {Np : ℕ} (I0 : ℝ) (Ip Im : Fin Np → ℝ) (ph : Fin Np → ℝ)
    (h : ∀ k l, I0 < (Ip k + Im k) / 2 → I0 < (Ip l + Im l) / 2 → k = l) :
    estPixel (fun k => probeAmp I0 (Ip k) (Im k)) ph (fun k => zMeas (Ip k) (Im k)) = 0 := by
  unfold estPixel
  rw [if_pos]
  have hpos : ∀ k, 0 < probeAmp I0 (Ip k) (Im k) → I0 < (Ip k + Im k) / 2 := by
    intro k hk
    unfold probeAmp at hk
    by_contra hc
    split_ifs at hk with hh
    · simp at hk
    · have : (Ip k + Im k) / 2 - I0 = 0 := by linarith
      rw [this] at hk; simp at hk
  have hnd : (goodPairs fun k => probeAmp I0 (Ip k) (Im k)).Nodup := by
    unfold goodPairs; exact (List.nodup_finRange Np).filter _
  by_contra hlen
  push Not at hlen
  have h0 := List.getElem_mem (l := goodPairs fun k => probeAmp I0 (Ip k) (Im k)) (n := 0) (by omega)
  have h1 := List.getElem_mem (l := goodPairs fun k => probeAmp I0 (Ip k) (Im k)) (n := 1) (by omega)
  have e := h _ _ (hpos _ ((mem_goodPairs _ _).1 h0)) (hpos _ ((mem_goodPairs _ _).1 h1))
  have := (List.Nodup.getElem_inj_iff hnd).1 e
  omega

/-- In particular one probe pair never gives a non-zero estimate. -/
theorem C36_one_pair (I0 : ℝ) (Ip Im ph : Fin 1 → ℝ) :
    estPixel (fun k => probeAmp I0 (Ip k) (Im k)) ph (fun k => zMeas (Ip k) (Im k)) = 0 :=
  C36_few_pairs I0 Ip Im ph fun k l _ _ => Subsingleton.elim k l

example : estPixel (fun k : Fin 3 => probeAmp 5 (![9, 4, 1] k) (![9, 4, 1] k)) (fun _ => 0) (fun k => zMeas (![9, 4, 1] k) (![9, 4, 1] k)) = 0 := by
  apply C36_few_pairs
  intro k l hk hl
  fin_cases k <;> fin_cases l <;> first | rfl | (exfalso; norm_num at hk; done) | (exfalso; norm_num at hl; done)

/-! ## C37: perfect estimator -/

theorem perfect_fst {Q : Type} (weights : List ℝ) (E : Mode → ℕ → Q → ℂ) (modes : List Mode) (acc : (ℕ → Q → ℝ) × List (Q → ℂ))
    (hnd : (modes.filter fun m => m.zern = 1).Pairwise fun a b => a.sbp ≠ b.sbp)
    (hz : ∀ m ∈ modes, m.zern = 1 → acc.1 m.sbp = fun _ => 0) :
    modes.foldl (serialStep weights E) acc = modes.foldl (parallelStep weights E) acc := by
  induction modes generalizing acc with
  | nil => rfl
  | cons m ms ih =>
    simp only [List.foldl_cons]
    have he : serialStep weights E acc m = parallelStep weights E acc m := by
      unfold serialStep parallelStep
      by_cases h1 : m.zern = 1
      · simp only [if_pos h1, hz m (by simp) h1, zero_add]
      · simp only [if_neg h1]
    rw [he]
    by_cases h1 : m.zern = 1
    · rw [List.filter_cons_of_pos (by simpa using h1), List.pairwise_cons] at hnd
      refine ih _ hnd.2 ?_
      intro m' hm' hz'
      have hne := hnd.1 m' (List.mem_filter.2 ⟨hm', by simpa using hz'⟩)
      simp only [parallelStep, if_pos h1, Function.update_of_ne hne.symm]
      exact hz m' (by simp [hm']) hz'
    · rw [List.filter_cons_of_neg (by simpa using h1)] at hnd
      refine ih _ hnd fun m' hm' hz' => ?_
      simp only [parallelStep, if_neg h1]
      exact hz m' (by simp [hm']) hz'

theorem perfect_snd {Q : Type} (weights : List ℝ) (E : Mode → ℕ → Q → ℂ) (modes : List Mode) (acc : (ℕ → Q → ℝ) × List (Q → ℂ)) :
    (modes.foldl (serialStep weights E) acc).2 = acc.2 ++ modes.map (subbandField weights E) ∧
    (modes.foldl (parallelStep weights E) acc).2 = acc.2 ++ modes.map (subbandField weights E) := by
  induction modes generalizing acc with
  | nil => simp
  | cons m ms ih =>
    simp only [List.foldl_cons]
    have h1 := (ih (serialStep weights E acc m)).1
    have h2 := (ih (parallelStep weights E acc m)).2
    rw [h1, h2]
    simp [serialStep, parallelStep]

theorem subbandField_eq {Q : Type} (weights : List ℝ) (E : Mode → ℕ → Q → ℂ) :
    subbandField weights E = fun m q => ∑ w ∈ Finset.range weights.length, (weights.getD w 0 : ℂ) * E m w q := by
  funext m q
  unfold subbandField
  generalize weights.length = n
  induction n with
  | zero => simp
  | succ n ih => rw [List.range_succ, List.map_append, List.sum_append, ih, Finset.sum_range_succ]; simp

/-- C37. The estimated fields of the serial and the parallel branch coincide for every list of modes, and they are the wavelength-averaged
model fields in mode order. -/
theorem C37_fields {Q : Type} (weights : List ℝ) (E : Mode → ℕ → Q → ℂ) (modes : List Mode) :
    (perfectSerial weights E modes).2 = modes.map (fun m q => ∑ w ∈ Finset.range weights.length, (weights.getD w 0 : ℂ) * E m w q) ∧
    (perfectParallel weights E modes).2 = modes.map (fun m q => ∑ w ∈ Finset.range weights.length, (weights.getD w 0 : ℂ) * E m w q) := by
  have := perfect_snd weights E modes (fun _ _ => 0, [])
  rw [← subbandField_eq]
  simpa [perfectSerial, perfectParallel] using this

/-- C37. The images coincide if each sub-band has at most one piston mode (one star). -/
theorem C37_images {Q : Type} (weights : List ℝ) (E : Mode → ℕ → Q → ℂ) (modes : List Mode)
    (h : (modes.filter fun m => m.zern = 1).Pairwise fun a b => a.sbp ≠ b.sbp) :
    perfectSerial weights E modes = perfectParallel weights E modes :=
  perfect_fst weights E modes _ h fun _ _ _ => rfl

/-- C37. What each branch returns as the image of sub-band `si`, for every list of modes: the parallel branch the sum over the piston modes of that
sub-band (one per star), the serial branch the last of them only (0 if there is none). -/
theorem C37_images_exact {Q : Type} (weights : List ℝ) (E : Mode → ℕ → Q → ℂ) (modes : List Mode) (si : ℕ) (q : Q) :
    (perfectParallel weights E modes).1 si q =
      ((modes.filter fun m => m.zern = 1 ∧ m.sbp = si).map fun m =>
        Complex.normSq (∑ w ∈ Finset.range weights.length, (weights.getD w 0 : ℂ) * E m w q)).sum ∧
    (perfectSerial weights E modes).1 si q =
      ((modes.filter fun m => m.zern = 1 ∧ m.sbp = si).map fun m =>
        Complex.normSq (∑ w ∈ Finset.range weights.length, (weights.getD w 0 : ℂ) * E m w q)).getLastD 0 := by
  have he : ∀ m, ∑ w ∈ Finset.range weights.length, (weights.getD w 0 : ℂ) * E m w q = subbandField weights E m q := fun m => by
    rw [subbandField_eq]
  simp only [he]
  have hp : ∀ (ms : List Mode) (acc : (ℕ → Q → ℝ) × List (Q → ℂ)), (ms.foldl (parallelStep weights E) acc).1 si q =
      acc.1 si q + ((ms.filter fun m => m.zern = 1 ∧ m.sbp = si).map fun m => Complex.normSq (subbandField weights E m q)).sum := by
    intro ms
    induction ms with
    | nil => intro acc; simp
    | cons m ms ih =>
      intro acc
      rw [List.foldl_cons, ih]
      by_cases hz : m.zern = 1
      · by_cases hs : m.sbp = si
        · subst hs; simp [parallelStep, hz, add_assoc]
        · simp [parallelStep, hz, hs, Function.update_of_ne (Ne.symm hs)]
      · simp [parallelStep, hz]
  have hs : ∀ (ms : List Mode) (acc : (ℕ → Q → ℝ) × List (Q → ℂ)), (ms.foldl (serialStep weights E) acc).1 si q =
      ((ms.filter fun m => m.zern = 1 ∧ m.sbp = si).map fun m => Complex.normSq (subbandField weights E m q)).getLastD (acc.1 si q) := by
    intro ms
    induction ms with
    | nil => intro acc; simp
    | cons m ms ih =>
      intro acc
      rw [List.foldl_cons, ih]
      by_cases hz : m.zern = 1
      · by_cases hs : m.sbp = si
        · subst hs
          rw [List.filter_cons_of_pos (by simp [hz]), List.map_cons, List.getLastD_cons]
          simp [serialStep, hz]
        · simp [serialStep, hz, hs, Function.update_of_ne (Ne.symm hs)]
      · simp [serialStep, hz]
  constructor
  · have := hp modes (fun _ _ => 0, [])
    simpa [perfectParallel] using this
  · exact hs modes (fun _ _ => 0, [])

/-- C37 fails with two stars: the serial image is that of the last star only, the parallel one is the sum. -/
theorem C37_images_violated : ∃ (weights : List ℝ) (E : Mode → ℕ → Unit → ℂ) (modes : List Mode),
    (perfectSerial weights E modes).1 0 () = 1 ∧ (perfectParallel weights E modes).1 0 () = 2 := by
  refine ⟨[1], fun _ _ _ => 1, [⟨0, 1, 0⟩, ⟨0, 1, 1⟩], ?_, ?_⟩
  · simp [perfectSerial, serialStep, subbandField]
  · simp [perfectParallel, parallelStep, subbandField]; norm_num

example : ([⟨0, 1, 0⟩, ⟨0, 2, 0⟩, ⟨1, 1, 0⟩, ⟨1, 2, 0⟩] : List Mode).filter (fun m => m.zern = 1) = [⟨0, 1, 0⟩, ⟨1, 1, 0⟩] ∧
    ([⟨0, 1, 0⟩, ⟨1, 1, 0⟩] : List Mode).Pairwise fun a b => a.sbp ≠ b.sbp := by
  constructor
  · simp
  · simp

/-! ## C66: scheduled probe parameters -/

/-- C66. Scheduling any of the probe parameters makes every call of `pairwise_probing` fail with `TypeError`, whatever the schedule. -/
theorem C66_schedule_violated (s : Schedule) (Nitr Itr : ℕ) (x y rot I : ℝ)
    (h : s.xOffset.isSome ∨ s.yOffset.isSome ∨ s.rotation.isSome ∨ s.InormProbe.isSome) :
    schedApply s Nitr Itr x y rot I = .error .typeError := by
  have hs : ∀ (o : Option (List ℝ)) (cur : ℝ), o.isSome → schedEntry Nitr Itr cur o = .error .typeError := by
    intro o cur ho
    cases o with
    | none => simp at ho
    | some v => rfl
  have hn : ∀ (o : Option (List ℝ)) (cur : ℝ), ¬ o.isSome → schedEntry Nitr Itr cur o = .ok cur := by
    intro o cur ho
    cases o with
    | none => rfl
    | some v => simp at ho
  unfold schedApply
  by_cases h1 : s.xOffset.isSome
  · rw [hs _ _ h1]; rfl
  rw [hn _ _ h1]
  by_cases h2 : s.yOffset.isSome
  · rw [hs _ _ h2]; rfl
  rw [hn _ _ h2]
  by_cases h3 : s.rotation.isSome
  · rw [hs _ _ h3]; rfl
  rw [hn _ _ h3]
  have h4 : s.InormProbe.isSome := by tauto
  rw [hs _ _ h4]; rfl

/-- Without schedules the configured values are used. -/
theorem C66_unscheduled (Nitr Itr : ℕ) (x y rot I : ℝ) :
    schedApply ⟨none, none, none, none⟩ Nitr Itr x y rot I = .ok (x, y, rot, I) := rfl

/-! ## C67: estimation with the Jacobian -/

/-- C67. The Jacobian-based pixel estimate is a shape error for every number of probe pairs other than two. -/
theorem C67_shape_violated {Np : ℕ} (h : Np ≠ 2) (dE : Fin Np → ℂ) (z : Fin Np → ℝ) : estPixelJac dE z = .error .valueError := by
  unfold estPixelJac; rw [dif_neg h]

/-- C67. For two pairs the observation matrix is transposed: already with two non-collinear noise-free probes the estimate is not the field. -/
theorem C67_two_pairs_violated : ∃ (E : ℂ) (p : Fin 2 → ℂ), NonCollinear (p 0) (p 1) ∧
    estPixelJac p (fun k => zMeas (normSq (E + p k)) (normSq (E - p k))) ≠ .ok E := by
  refine ⟨1, ![1, 1 + I], by simp [NonCollinear], ?_⟩
  unfold estPixelJac
  rw [dif_pos rfl]
  set H : Matrix (Fin 2) (Fin 2) ℝ := ![fun k => ((![1, 1 + I] : Fin 2 → ℂ) k).re, fun k => ((![1, 1 + I] : Fin 2 → ℂ) k).im] with hH
  intro hc
  have hz : (fun i => (fun k => zMeas (normSq ((1 : ℂ) + (![1, 1 + I] : Fin 2 → ℂ) k)) (normSq ((1 : ℂ) - (![1, 1 + I] : Fin 2 → ℂ) k))) (Fin.cast rfl i)) = H *ᵥ ![0, 1] := by
    funext i
    fin_cases i
    · simp [hH, zMeas, normSq_apply, mulVec, dotProduct, Fin.sum_univ_two]; norm_num
    · simp [hH, zMeas, normSq_apply, mulVec, dotProduct, Fin.sum_univ_two]; norm_num
  have hinj : ∀ v, H *ᵥ v = 0 → v = 0 := by
    intro v hv
    have e0 := congrFun hv 0
    have e1 := congrFun hv 1
    simp [hH, mulVec, dotProduct, Fin.sum_univ_two] at e0 e1
    funext i; fin_cases i
    · simpa [e1] using e0
    · simpa using e1
  simp only at hc
  rw [hz, Pinv.pinv_mulVec H hinj] at hc
  have := congrArg Complex.re (Except.ok.inj hc)
  simp at this

/-! ## C65: later evaluations at the restored command -/

/-- Optics whose every evaluation enforces the DM-1 constraints (falco/dm.py:68), with an arbitrary image and field of the enforced command.
`rest` is DM 1's constraint record (pinned actuators etc.); DM 2 is ideal. -/
noncomputable def enforcingOptics (n1 : ℕ) (img : (Fin (n1 * n1) → ℝ) → P → ℝ) (fld : (Fin (n1 * n1) → ℝ) → P → ℂ) :
    Optics P n1 n2 (Dm.State (n1 * n1)) where
  image := fun _ w =>
    let d := Dm.enforce { w.rest with V := fun i => w.V1 (finProdFinEquiv.symm i) }
    (img d.V, { w with V1 := fun p => d.V (finProdFinEquiv p), rest := d })
  field := fun _ _ w =>
    let d := Dm.enforce { w.rest with V := fun i => w.V1 (finProdFinEquiv.symm i) }
    (fld d.V, { w with V1 := fun p => d.V (finProdFinEquiv p), rest := d })

/-- DM without dead, pinned or tied actuators. -/
structure Healthy {n : ℕ} (d : Dm.State n) : Prop where
  dead : ∀ i, d.dead i = false
  pinned : d.pinned = []
  tied : d.tied = []

theorem enforce_healthy {n : ℕ} (d : Dm.State n) (h : Healthy d) (hr : ∀ i, d.Vmin ≤ d.V i + d.biasMap i ∧ d.V i + d.biasMap i ≤ d.Vmax) :
    Dm.enforce d = d := by
  have hz : Dm.zeroDead d = d.V := by funext i; simp [Dm.zeroDead, h.dead i]
  have hn : Dm.newPins d = [] := by
    unfold Dm.newPins
    rw [hz]
    have h1 : (List.finRange n).filter (fun i => d.V i + d.biasMap i < d.Vmin) = [] := by
      rw [List.filter_eq_nil_iff]; intro i _; simpa using (hr i).1
    have h2 : (List.finRange n).filter (fun i => d.V i + d.biasMap i > d.Vmax) = [] := by
      rw [List.filter_eq_nil_iff]; intro i _; simpa using (hr i).2
    simp only [List.append_eq_nil_iff, List.map_eq_nil_iff]
    exact ⟨by convert h1, by convert h2⟩
  unfold Dm.enforce
  simp only [hz, hn, h.pinned, h.tied, List.append_nil, List.map_nil, Dm.scatter]
  cases d
  simp only [Dm.State.mk.injEq, true_and, and_true]
  exact ⟨h.pinned.symm, h.tied.symm⟩

/-- A command keeps every actuator of the DM record within its voltage limits. -/
def WithinLimits {n1 : ℕ} (d : Dm.State (n1 * n1)) (v : Fin n1 × Fin n1 → ℝ) : Prop :=
  ∀ p, d.Vmin ≤ v p + d.biasMap (finProdFinEquiv p) ∧ v p + d.biasMap (finProdFinEquiv p) ≤ d.Vmax

/-- The constraint record agrees with `d` except possibly for the stored command. -/
def SameRecord {n : ℕ} (d r : Dm.State n) : Prop := r = { d with V := r.V }

theorem enforcing_eval {n1 : ℕ} (d : Dm.State (n1 * n1)) (hd : Healthy d) (r : Dm.State (n1 * n1)) (hr : SameRecord d r) (v : Fin n1 × Fin n1 → ℝ)
    (hv : WithinLimits d v) :
    Dm.enforce { r with V := fun i => v (finProdFinEquiv.symm i) } = { d with V := fun i => v (finProdFinEquiv.symm i) } := by
  rw [hr]
  refine enforce_healthy _ ⟨hd.dead, hd.pinned, hd.tied⟩ ?_
  intro i
  have := hv (finProdFinEquiv.symm i)
  rw [Equiv.apply_symm_apply] at this
  exact this

variable {n1' : ℕ}

theorem enforcing_image (img : (Fin (n1 * n1) → ℝ) → P → ℝ) (fld : (Fin (n1 * n1) → ℝ) → P → ℂ) (d : Dm.State (n1 * n1)) (hd : Healthy d)
    (w : World n1 n2 (Dm.State (n1 * n1))) (hr : SameRecord d w.rest) (hv : WithinLimits d w.V1) :
    (∀ si, ((enforcingOptics n1 img fld : Optics P n1 n2 _).image si w).2.V1 = w.V1 ∧ SameRecord d ((enforcingOptics n1 img fld : Optics P n1 n2 _).image si w).2.rest) ∧
    ∀ s si, ((enforcingOptics n1 img fld : Optics P n1 n2 _).field s si w).2.V1 = w.V1 ∧ SameRecord d ((enforcingOptics n1 img fld : Optics P n1 n2 _).field s si w).2.rest := by
  have he := enforcing_eval d hd w.rest hr w.V1 hv
  constructor
  · intro si
    simp only [enforcingOptics, he]
    exact ⟨by funext p; simp, rfl⟩
  · intro s si
    simp only [enforcingOptics, he]
    exact ⟨by funext p; simp, rfl⟩

/-- C65. Probing with DM 1 leaves no trace in the constraint record (and hence later evaluations at the restored command are the same) if every
probed command stays within the voltage limits of a DM without dead, pinned or tied actuators. -/
theorem C65_no_trace (c : Cfg P n1 n2) (img : (Fin (n1 * n1) → ℝ) → P → ℝ) (fld : (Fin (n1 * n1) → ℝ) → P → ℂ) (hwh : c.whichDM = 1)
    (w w' : World n1 n2 (Dm.State (n1 * n1))) (hd : Healthy w.rest) (hv : WithinLimits w.rest w.V1)
    (hp : ∀ star I0 k p, c.gen1 star I0 k = .ok p → WithinLimits w.rest (w.V1 + p)) (r)
    (h : pairwise c (enforcingOptics n1 img fld) w = .ok (r, w')) : SameRecord w.rest w'.rest ∧
      ∀ si, ((enforcingOptics n1 img fld : Optics P n1 n2 _).image si w').1 = ((enforcingOptics n1 img fld : Optics P n1 n2 _).image si w).1 := by
  set d := w.rest with hdd
  set o : Optics P n1 n2 _ := enforcingOptics n1 img fld with ho
  have hmem : (1 : ℤ) ∈ c.ind := by unfold Cfg.ind; rw [if_pos (Or.inl hwh), hwh]; simp
  obtain ⟨-, w1, hl, hw'⟩ := pairwise_ok c o w w' r h
  rw [if_pos hmem] at hl hw'
  set nom2 := (if 2 ∈ c.ind then w.V2 else 0)
  have hrec0 : SameRecord d w.rest := rfl
  -- images
  have hPI : ∀ star si I0 (ks : List ℕ) (wa wb : World n1 n2 (Dm.State (n1 * n1))) q, SameRecord d wa.rest →
      probeImages c o w.V1 nom2 star si I0 ks wa = .ok (q, wb) → SameRecord d wb.rest ∧ ∀ x ∈ q, WithinLimits d x.2.1 := by
    intro star si I0 ks
    induction ks with
    | nil => intro wa wb q ha hq; simp [probeImages] at hq; rw [← hq.2]; exact ⟨ha, by rw [hq.1]; simp⟩
    | cons k ks ih =>
      intro wa wb q ha hq
      rw [probeImages] at hq
      cases hdl : c.delta star I0 k with
      | error e => rw [hdl] at hq; simp [bind, Except.bind] at hq
      | ok dl =>
        rw [hdl] at hq
        simp only [bind, Except.bind] at hq
        have hlim : WithinLimits d (w.V1 + dl.1) := by
          unfold Cfg.delta at hdl
          rw [if_pos hwh] at hdl
          cases hg : c.gen1 star I0 k with
          | error e => rw [hg] at hdl; simp [Except.map] at hdl
          | ok p => rw [hg] at hdl; simp [Except.map] at hdl; rw [← hdl]; exact hp _ _ _ _ hg
        cases hpi : probeImages c o w.V1 nom2 star si I0 ks (o.image si (setV c wa (w.V1 + dl.1) (nom2 + dl.2))).2 with
        | error e => rw [hpi] at hq; simp at hq
        | ok t =>
          rw [hpi] at hq
          simp only [pure, Except.pure, Except.ok.injEq, Prod.mk.injEq] at hq
          have hV : (setV c wa (w.V1 + dl.1) (nom2 + dl.2)).V1 = w.V1 + dl.1 := by simp [setV, hmem]
          have hi := (enforcing_image img fld d hd (setV c wa (w.V1 + dl.1) (nom2 + dl.2)) ha (by rw [hV]; exact hlim)).1 si
          obtain ⟨h1, h2⟩ := ih _ t.2 t.1 hi.2 hpi
          rw [← hq.1, ← hq.2]
          refine ⟨h1, ?_⟩
          intro x hx
          rcases List.mem_cons.1 hx with rfl | hx
          · exact hlim
          · exact h2 x hx
  have hMF : ∀ star si (ds : List ((Fin n1 × Fin n1 → ℝ) × (Fin n2 × Fin n2 → ℝ))) (wa : World n1 n2 (Dm.State (n1 * n1))), SameRecord d wa.rest →
      (∀ x ∈ ds, WithinLimits d x.1) → SameRecord d (modelFields c o star si ds wa).2.rest := by
    intro star si ds
    induction ds with
    | nil => intro wa ha _; exact ha
    | cons x ds ih =>
      intro wa ha hx
      simp only [modelFields, if_pos hwh]
      refine ih _ ?_ fun y hy => hx y (by simp [hy])
      exact ((enforcing_image img fld d hd { wa with V1 := x.1 } ha (hx x (by simp))).2 star si).2
  have hEM : ∀ star si (wa wb : World n1 n2 (Dm.State (n1 * n1))) q, SameRecord d wa.rest → estMode c o w.V1 nom2 star si wa = .ok (q, wb) → SameRecord d wb.rest := by
    intro star si wa wb q ha hq
    unfold estMode at hq
    have h0 := (enforcing_image img fld d hd { wa with V1 := w.V1, V2 := nom2 } ha hv).1 si
    cases hpi : probeImages c o w.V1 nom2 star si (o.image si { wa with V1 := w.V1, V2 := nom2 }).1 (List.range (2 * c.Npairs))
        (o.image si { wa with V1 := w.V1, V2 := nom2 }).2 with
    | error e => simp [hpi, bind, Except.bind] at hq
    | ok t =>
      simp only [hpi, bind, Except.bind] at hq
      split_ifs at hq with hs
      · simp only [pure, Except.pure, Except.ok.injEq, Prod.mk.injEq] at hq
        obtain ⟨h1, h2⟩ := hPI star si _ _ _ t.2 t.1 h0.2 hpi
        rw [← hq.2]
        have hV : (setV c t.2 w.V1 nom2).V1 = w.V1 := by simp [setV, hmem]
        refine hMF star si _ _ ?_ ?_
        · exact ((enforcing_image img fld d hd (setV c t.2 w.V1 nom2) h1 (by rw [hV]; exact hv)).2 star si).2
        · intro x hx
          obtain ⟨y, hy, rfl⟩ := List.mem_map.1 hx
          exact h2 y hy
  have hEL : ∀ (ms : List (ℕ × ℕ)) (wa wb : World n1 n2 (Dm.State (n1 * n1))) q, SameRecord d wa.rest → estLoop c o w.V1 nom2 ms wa = .ok (q, wb) → SameRecord d wb.rest := by
    intro ms
    induction ms with
    | nil => intro wa wb q ha hq; simp [estLoop] at hq; rw [← hq.2]; exact ha
    | cons m ms ih =>
      intro wa wb q ha hq
      rw [estLoop] at hq
      cases hm : estMode c o w.V1 nom2 m.1 m.2 wa with
      | error e => simp [hm, bind, Except.bind] at hq
      | ok p =>
        simp only [hm, bind, Except.bind] at hq
        cases ht : estLoop c o w.V1 nom2 ms p.2 with
        | error e => simp [ht] at hq
        | ok t =>
          simp only [ht, pure, Except.pure, Except.ok.injEq, Prod.mk.injEq] at hq
          rw [← hq.2]
          exact ih p.2 t.2 t.1 (hEM _ _ _ _ _ ha hm) ht
  have hfin : SameRecord d w'.rest := by
    have := hEL _ _ w1 _ hrec0 hl
    rw [hw']; exact this
  refine ⟨hfin, fun si => ?_⟩
  have hV' : w'.V1 = w.V1 := (C35_restored c o w w' r h).1 (Or.inr hwh)
  have e1 := enforcing_eval d hd w'.rest hfin w.V1 hv
  have e2 := enforcing_eval d hd w.rest hrec0 w.V1 hv
  simp only [ho, enforcingOptics, hV', e1]
  rw [e2]

/-- One-actuator DM probed with ±600 V. -/
noncomputable def railCfg : Cfg Unit 1 1 where
  npix := 1
  corr := fun _ => ()
  Npairs := 1
  Nsbp := 1
  Nstar := 1
  Ithreshold := 1
  whichDM := 1
  dmInd := [1]
  gen1 := fun _ _ k => .ok (if k % 2 = 0 then fun _ => 600 else fun _ => -600)
  gen2 := fun _ _ _ => .ok 0

/-- The image is the actuator's voltage, the field is constant. -/
noncomputable def railOptics : Optics Unit 1 1 (Dm.State (1 * 1)) := enforcingOptics 1 (fun V _ => V 0) (fun _ _ => 0)

/-- Before probing: default limits (0…1000 V, bias 500 V), command 100 V. -/
noncomputable def railWorld : World 1 1 (Dm.State (1 * 1)) := { V1 := fun _ => 100, V2 := 0, rest := Dm.defaultDm fun _ => 100 }

/-- The actuator is pinned to one of the limits. -/
def Railed (r : Dm.State (1 * 1)) : Prop := r = { Dm.defaultDm r.V with pinned := r.pinned } ∧ r.pinned ≠ [] ∧ ∀ x ∈ r.pinned, x.2 = 0 ∨ x.2 = 1000

theorem scatter_mem {n : ℕ} {α : Type} (i : Fin n) : ∀ (l : List (Fin n × α)) (x : Fin n → α),
    Dm.scatter x l i = x i ∨ ∃ p ∈ l, Dm.scatter x l i = p.2
  | [], x => Or.inl rfl
  | (j, v) :: t, x => by
    rcases scatter_mem i t (Function.update x j v) with h | ⟨p, hp, h⟩
    · by_cases hij : i = j
      · subst hij
        right; exact ⟨(i, v), by simp, by rw [Dm.scatter, h]; simp⟩
      · left; rw [Dm.scatter, h]; simp [hij]
    · right; exact ⟨p, by simp [hp], by rw [Dm.scatter, h]⟩

theorem scatter_one_mem {α : Type} (i : Fin (1 * 1)) (l : List (Fin (1 * 1) × α)) (hl : l ≠ []) (x : Fin (1 * 1) → α) : ∃ p ∈ l, Dm.scatter x l i = p.2 := by
  cases l with
  | nil => exact absurd rfl hl
  | cons a t =>
    obtain ⟨j, v⟩ := a
    rcases scatter_mem i t (Function.update x j v) with h | ⟨p, hp, h⟩
    · have hij : i = j := Fin.ext (by have := i.2; have := j.2; omega)
      subst hij
      exact ⟨(i, v), by simp, by rw [Dm.scatter, h]; simp⟩
    · exact ⟨p, by simp [hp], by rw [Dm.scatter, h]⟩

theorem newPins_vals {n : ℕ} (d : Dm.State n) : ∀ x ∈ Dm.newPins d, x.2 = d.Vmin ∨ x.2 = d.Vmax := by
  intro x hx
  unfold Dm.newPins at hx
  rcases List.mem_append.1 hx with hx | hx
  · obtain ⟨i, -, rfl⟩ := List.mem_map.1 hx; exact Or.inl rfl
  · obtain ⟨i, -, rfl⟩ := List.mem_map.1 hx; exact Or.inr rfl

theorem railed_enforce (r : Dm.State (1 * 1)) (hr : Railed r) (v : Fin (1 * 1) → ℝ) :
    Railed (Dm.enforce { r with V := v }) ∧ ∀ i, (Dm.enforce { r with V := v }).V i = 0 ∨ (Dm.enforce { r with V := v }).V i = 1000 := by
  obtain ⟨h1, h2, h3⟩ := hr
  have hmin : r.Vmin = 0 := by rw [h1]; rfl
  have hmax : r.Vmax = 1000 := by rw [h1]; rfl
  have ht : r.tied = [] := by rw [h1]; rfl
  have hp : ∀ x ∈ r.pinned ++ Dm.newPins { r with V := v }, x.2 = 0 ∨ x.2 = 1000 := by
    intro x hx
    rcases List.mem_append.1 hx with hx | hx
    · exact h3 x hx
    · rcases newPins_vals _ x hx with h | h
      · left; rw [h]; exact hmin
      · right; rw [h]; exact hmax
  refine ⟨⟨?_, ?_, hp⟩, ?_⟩
  · have hb : r.biasMap = fun _ => 500 := by rw [h1]; rfl
    have hdd : r.dead = fun _ => false := by rw [h1]; rfl
    unfold Dm.enforce Dm.defaultDm
    simp only [hmin, hmax, ht, hb, hdd]
  · intro h
    exact h2 (List.append_eq_nil_iff.1 h).1
  · intro i
    obtain ⟨p, hp', he⟩ := scatter_one_mem i (r.pinned ++ Dm.newPins { r with V := v }) (by simp [h2]) (Dm.zeroDead { r with V := v })
    have : (Dm.enforce { r with V := v }).V i = p.2 := by
      unfold Dm.enforce
      simp only [ht, List.map_nil, Dm.scatter]
      exact he
    rw [this]
    exact hp p hp'

theorem default_pinned (v : Fin (1 * 1) → ℝ) (hv : ∀ i, v i = 700) : Railed (Dm.enforce { Dm.defaultDm (fun _ => (100 : ℝ)) with V := v }) := by
  refine ⟨rfl, ?_, ?_⟩
  · intro h
    have h' : Dm.newPins { Dm.defaultDm (fun _ => (100 : ℝ)) with V := v } = [] := (List.append_eq_nil_iff.1 h).2
    unfold Dm.newPins at h'
    have h'' := (List.append_eq_nil_iff.1 h').2
    rw [List.map_eq_nil_iff, List.filter_eq_nil_iff] at h''
    have := h'' 0 (List.mem_finRange _)
    simp [Dm.zeroDead, Dm.defaultDm, hv] at this
    norm_num at this
  · intro x hx
    have hx' : x ∈ Dm.newPins { Dm.defaultDm (fun _ => (100 : ℝ)) with V := v } := by
      have := List.mem_append.1 hx
      rcases this with h | h
      · simp [Dm.defaultDm] at h
      · exact h
    exact newPins_vals _ x hx'

theorem rail_image (si : ℕ) (w : World 1 1 (Dm.State (1 * 1))) (h : Railed w.rest) : Railed (railOptics.image si w).2.rest :=
  (railed_enforce w.rest h _).1

theorem rail_field (s si : ℕ) (w : World 1 1 (Dm.State (1 * 1))) (h : Railed w.rest) : Railed (railOptics.field s si w).2.rest :=
  (railed_enforce w.rest h _).1

theorem rail_modelFields (s si : ℕ) : ∀ (ds) (w : World 1 1 (Dm.State (1 * 1))), Railed w.rest → Railed (modelFields railCfg railOptics s si ds w).2.rest
  | [], _, h => h
  | x :: ds, w, h => by
    simp only [modelFields]
    exact rail_modelFields s si ds _ (rail_field s si _ (by split_ifs <;> exact h))

/-- C65 (negative). There is a DM with the default limits, a command inside them and a probe whose pairs saturate the actuator, such that probing
succeeds and restores the command, yet the next image at that restored command differs from the image before probing: the saturated actuator has
been pinned for good. -/
theorem C65_violated : ∃ (c : Cfg Unit 1 1) (o : Optics Unit 1 1 (Dm.State (1 * 1))) (w w' : World 1 1 (Dm.State (1 * 1))) (r : _),
    Healthy w.rest ∧ WithinLimits w.rest w.V1 ∧ pairwise c o w = .ok (r, w') ∧ w'.V1 = w.V1 ∧ (o.image 0 w').1 ≠ (o.image 0 w).1 := by
  have hex : ∃ p, pairwise railCfg railOptics railWorld = .ok p := ⟨_, rfl⟩
  obtain ⟨⟨r, w'⟩, hp⟩ := hex
  have hheal : Healthy railWorld.rest := ⟨fun _ => rfl, rfl, rfl⟩
  have hlim : WithinLimits railWorld.rest railWorld.V1 := by
    intro p; simp [railWorld, Dm.defaultDm]; norm_num
  have hV : w'.V1 = railWorld.V1 := (C35_restored railCfg railOptics railWorld w' r hp).1 (Or.inr rfl)
  refine ⟨railCfg, railOptics, railWorld, w', r, hheal, hlim, hp, hV, ?_⟩
  -- the record is railed after probing
  have hR : Railed w'.rest := by
    obtain ⟨-, w1, hl, hw'⟩ := pairwise_ok _ _ _ _ _ hp
    rw [hw']
    show Railed w1.rest
    have hm : railCfg.modes = [(0, 0)] := rfl
    rw [hm] at hl
    have hl' := Except.ok.inj hl
    have hw1 := congrArg Prod.snd hl'
    simp only at hw1
    rw [← hw1]
    refine rail_modelFields 0 0 _ _ (rail_field 0 0 _ ?_)
    show Railed (railOptics.image 0 _).2.rest
    refine rail_image 0 _ ?_
    show Railed (railOptics.image 0 _).2.rest
    have h0 : Dm.enforce { Dm.defaultDm (fun _ : Fin (1 * 1) => (100 : ℝ)) with V := fun _ => 100 } = Dm.defaultDm (fun _ => 100) := by
      have := enforcing_eval (n1 := 1) railWorld.rest hheal railWorld.rest rfl railWorld.V1 hlim
      exact this
    show Railed (Dm.enforce { Dm.enforce { Dm.defaultDm (fun _ : Fin (1 * 1) => (100 : ℝ)) with V := fun _ => 100 } with V := _ })
    rw [h0]
    refine default_pinned _ ?_
    intro i
    show (100 : ℝ) + 600 = 700
    norm_num
  intro he
  have h1 := congrFun he ()
  have h2 : (railOptics.image 0 railWorld).1 () = 100 := by
    have := enforcing_eval (n1 := 1) railWorld.rest hheal railWorld.rest rfl railWorld.V1 hlim
    show (Dm.enforce { railWorld.rest with V := fun i => railWorld.V1 (finProdFinEquiv.symm i) }).V 0 = 100
    rw [this]
    rfl
  rw [h2] at h1
  have h3 := (railed_enforce w'.rest hR fun i => w'.V1 (finProdFinEquiv.symm i)).2 0
  have h4 : (railOptics.image 0 w').1 () = (Dm.enforce { w'.rest with V := fun i => w'.V1 (finProdFinEquiv.symm i) }).V 0 := rfl
  rw [← h4, h1] at h3
  norm_num at h3

/-- `C65_no_trace` applies to the same DM with the ±600 V probes replaced by ±30 V. -/
example : ∃ (c : Cfg Unit 1 1) (w w' : World 1 1 (Dm.State (1 * 1))) (r : _), c.whichDM = 1 ∧ Healthy w.rest ∧ WithinLimits w.rest w.V1 ∧
    (∀ star I0 k p, c.gen1 star I0 k = .ok p → p ≠ 0 ∧ WithinLimits w.rest (w.V1 + p)) ∧ pairwise c railOptics w = .ok (r, w') := by
  have hex : ∃ p, pairwise { railCfg with gen1 := fun _ _ k => .ok (if k % 2 = 0 then fun _ => 30 else fun _ => -30) } railOptics railWorld = .ok p := ⟨_, rfl⟩
  obtain ⟨⟨r, w'⟩, hp⟩ := hex
  refine ⟨_, railWorld, w', r, rfl, ⟨fun _ => rfl, rfl, rfl⟩, ?_, ?_, hp⟩
  · intro p; simp [railWorld, Dm.defaultDm]; norm_num
  · intro s I k p h
    have h' := (Except.ok.inj h).symm
    refine ⟨?_, ?_⟩
    · intro h0
      rw [h0] at h'
      have := congrFun h' (0, 0)
      split_ifs at this <;> simp at this
    · intro q
      rw [h']
      split_ifs <;> simp [railWorld, Dm.defaultDm] <;> norm_num

end Verif.Est
