import Verif.Model.Region
import Verif.Props.Util
import Mathlib.Tactic

/-! # C40: Lyot-stop crop; C42: DM padding; C43: spatial weights -/

namespace Verif.Region
open Verif Verif.Util

/-! ## C40 -/

/-- A square array. -/
def Square (A : Img ℝ) (N : ℕ) : Prop := A.h = N ∧ A.w = N

/-- Crop of a square array to a smaller square: pixel `(i, j)` of the result is pixel `(o+i, o+j)` of the input, `o = N/2 - n/2`. -/
theorem crop_spec (A : Img ℝ) (N n : ℕ) (hA : Square A N) (hn : 0 < n) (hnN : n ≤ N) :
    ∃ B, padCrop A (.one (.int (n : ℕ))) 0 = .ok B ∧ B.h = n ∧ B.w = n ∧
      ∀ i j : ℤ, 0 ≤ i → i < n → 0 ≤ j → j < n → B.get? i j = A.get? ((N / 2 : ℕ) - (n / 2 : ℕ) + i) ((N / 2 : ℕ) - (n / 2 : ℕ) + j) := by
  obtain ⟨B, h1, h2, h3, h4⟩ := C01_pad_crop A n n hn hn 0
  refine ⟨B, ?_, h2, h3, ?_⟩
  · rw [(C01_pad_crop_sizes A 0).1]; exact h1
  · intro i j hi hi' hj hj'
    rw [h4 i j hi hi' hj hj', hA.1, hA.2]
    have e1 : ((N : ℤ) / 2 + (i - (n : ℤ) / 2)) = ((N / 2 : ℕ) : ℤ) - ((n / 2 : ℕ) : ℤ) + i := by push_cast; ring
    have e2 : ((N : ℤ) / 2 + (j - (n : ℤ) / 2)) = ((N / 2 : ℕ) : ℤ) - ((n / 2 : ℕ) : ℤ) + j := by push_cast; ring
    rw [e1, e2]
    have hs : (A.get? (((N / 2 : ℕ) : ℤ) - ((n / 2 : ℕ) : ℤ) + i) (((N / 2 : ℕ) : ℤ) - ((n / 2 : ℕ) : ℤ) + j)).isSome := by
      rw [Img.get?_isSome_iff, hA.1, hA.2]; omega
    obtain ⟨v, hv⟩ := Option.isSome_iff_exists.1 hs
    rw [hv]; rfl

/-- Non-negative transmission. -/
def NonNeg (A : Img ℝ) : Prop := ∀ i j, 0 ≤ A.px i j

/-- Position `(i, j)` of an `N × N` array lies in the centred `n × n` window. -/
def InWindow (N n : ℕ) (i j : ℕ) : Prop := N / 2 - n / 2 ≤ i ∧ i < N / 2 - n / 2 + n ∧ N / 2 - n / 2 ≤ j ∧ j < N / 2 - n / 2 + n

theorem crop_sum_le (A B : Img ℝ) (N n : ℕ) (hA : Square A N) (hnn : NonNeg A) (hn : 0 < n) (hnN : n ≤ N) (hB : padCrop A (.one (.int (n : ℕ))) 0 = .ok B)
    (i : Fin A.h) (j : Fin A.w) (hout : ¬ InWindow N n i j) : A.px i j ≤ A.sum - B.sum := by
  obtain ⟨B', h1, h2, h3, h4⟩ := crop_spec A N n hA hn hnN
  rw [hB] at h1
  obtain rfl := Except.ok.inj h1
  obtain ⟨hAh, hAw⟩ := hA
  set o := N / 2 - n / 2 with ho
  have ho' : o + n ≤ N := by omega
  let e : Fin B.h × Fin B.w → Fin A.h × Fin A.w := fun p => (⟨o + p.1, by have := p.1.2; omega⟩, ⟨o + p.2, by have := p.2.2; omega⟩)
  have he : Function.Injective e := by
    intro p q h
    simp only [e, Prod.mk.injEq, Fin.mk.injEq] at h
    ext <;> omega
  have hBA : ∀ p : Fin B.h × Fin B.w, B.px p.1 p.2 = A.px (e p).1 (e p).2 := by
    intro p
    have g1 := Img.get?_px B p.1 p.2
    have g2 := Img.get?_px A (e p).1 (e p).2
    have g3 := h4 p.1 p.2 (by omega) (by have := p.1.2; omega) (by omega) (by have := p.2.2; omega)
    have e1 : ((N / 2 : ℕ) : ℤ) - ((n / 2 : ℕ) : ℤ) + ((p.1 : ℕ) : ℤ) = (((e p).1 : ℕ) : ℤ) := by simp only [e]; omega
    have e2 : ((N / 2 : ℕ) : ℤ) - ((n / 2 : ℕ) : ℤ) + ((p.2 : ℕ) : ℤ) = (((e p).2 : ℕ) : ℤ) := by simp only [e]; omega
    rw [e1, e2, g2, g1] at g3
    exact Option.some.inj g3
  have hBs : B.sum = ∑ p ∈ Finset.univ.map ⟨e, he⟩, A.px p.1 p.2 := by
    rw [Finset.sum_map]
    unfold Img.sum
    rw [← Finset.univ_product_univ, Finset.sum_product]
    refine Finset.sum_congr rfl fun a _ => Finset.sum_congr rfl fun b _ => ?_
    exact hBA (a, b)
  have hAs : A.sum = ∑ p : Fin A.h × Fin A.w, A.px p.1 p.2 := by
    unfold Img.sum
    rw [← Finset.univ_product_univ, Finset.sum_product]
  have hnot : ((i, j) : Fin A.h × Fin A.w) ∉ Finset.univ.map ⟨e, he⟩ := by
    intro hmem
    obtain ⟨p, -, hp⟩ := Finset.mem_map.1 hmem
    simp only [e, Function.Embedding.coeFn_mk, Prod.mk.injEq] at hp
    have q1 := congrArg Fin.val hp.1
    have q2 := congrArg Fin.val hp.2
    simp only at q1 q2
    refine hout ⟨by omega, ?_, by omega, ?_⟩
    · have := p.1.2; omega
    · have := p.2.2; omega
  have : B.sum + A.px i j ≤ A.sum := by
    rw [hBs, hAs, add_comm, ← Finset.sum_insert (f := fun p : Fin A.h × Fin A.w => A.px p.1 p.2) hnot]
    exact Finset.sum_le_sum_of_subset_of_nonneg (Finset.subset_univ _) fun p _ _ => hnn p.1 p.2
  linarith

theorem crop_sum_le' (A B : Img ℝ) (N n : ℕ) (hA : Square A N) (hnn : NonNeg A) (hn : 0 < n) (hnN : n ≤ N) (hB : padCrop A (.one (.int (n : ℕ))) 0 = .ok B)
    (hout : ∀ i j, ¬ InWindow N n i j → ∀ (hi : i < A.h) (hj : j < A.w), A.px ⟨i, hi⟩ ⟨j, hj⟩ = 0) : B.sum = A.sum := by
  obtain ⟨B', h1, h2, h3, h4⟩ := crop_spec A N n hA hn hnN
  rw [hB] at h1
  obtain rfl := Except.ok.inj h1
  obtain ⟨hAh, hAw⟩ := hA
  set o := N / 2 - n / 2 with ho
  have ho' : o + n ≤ N := by omega
  let e : Fin B.h × Fin B.w → Fin A.h × Fin A.w := fun p => (⟨o + p.1, by have := p.1.2; omega⟩, ⟨o + p.2, by have := p.2.2; omega⟩)
  have he : Function.Injective e := by
    intro p q h
    simp only [e, Prod.mk.injEq, Fin.mk.injEq] at h
    ext <;> omega
  have hBA : ∀ p : Fin B.h × Fin B.w, B.px p.1 p.2 = A.px (e p).1 (e p).2 := by
    intro p
    have g1 := Img.get?_px B p.1 p.2
    have g2 := Img.get?_px A (e p).1 (e p).2
    have g3 := h4 p.1 p.2 (by omega) (by have := p.1.2; omega) (by omega) (by have := p.2.2; omega)
    have e1 : ((N / 2 : ℕ) : ℤ) - ((n / 2 : ℕ) : ℤ) + ((p.1 : ℕ) : ℤ) = (((e p).1 : ℕ) : ℤ) := by simp only [e]; omega
    have e2 : ((N / 2 : ℕ) : ℤ) - ((n / 2 : ℕ) : ℤ) + ((p.2 : ℕ) : ℤ) = (((e p).2 : ℕ) : ℤ) := by simp only [e]; omega
    rw [e1, e2, g2, g1] at g3
    exact Option.some.inj g3
  have hBs : B.sum = ∑ p ∈ Finset.univ.map ⟨e, he⟩, A.px p.1 p.2 := by
    rw [Finset.sum_map]
    unfold Img.sum
    rw [← Finset.univ_product_univ, Finset.sum_product]
    refine Finset.sum_congr rfl fun a _ => Finset.sum_congr rfl fun b _ => ?_
    exact hBA (a, b)
  have hAs : A.sum = ∑ p : Fin A.h × Fin A.w, A.px p.1 p.2 := by
    unfold Img.sum
    rw [← Finset.univ_product_univ, Finset.sum_product]
  rw [hBs, hAs]
  refine Finset.sum_subset (Finset.subset_univ _) ?_
  intro p _ hp
  refine hout p.1 p.2 ?_ p.1.2 p.2.2
  intro hw
  refine hp (Finset.mem_map.2 ⟨(⟨p.1 - o, ?_⟩, ⟨p.2 - o, ?_⟩), Finset.mem_univ _, ?_⟩)
  · have := hw.2.1; have := hw.1; omega
  · have := hw.2.2.2; have := hw.2.2.1; omega
  · simp only [e, Function.Embedding.coeFn_mk]
    have := hw.1
    have := hw.2.2.1
    ext <;> simp only <;> omega

/-- What the loop guarantees about its exit size. -/
theorem lyotNarr_spec (A : Img ℝ) (N : ℕ) (hA : Square A N) (S : ℝ) : ∀ (m : ℕ), m + 2 ≤ N → ∀ n, lyotNarr A S m = .ok n → 3 ≤ n ∧ n ≤ m ∧ m % 2 = n % 2 ∧
    (∀ B, padCrop A (.one (.int ((n - 2 : ℕ) : ℕ))) 0 = .ok B → 1 / 10 ^ 7 < |S - B.sum|) ∧
    (n = m ∨ ∃ B, padCrop A (.one (.int (n : ℕ))) 0 = .ok B ∧ |S - B.sum| ≤ 1 / 10 ^ 7) := by
  intro m
  induction m using Nat.strong_induction_on with
  | _ m ih =>
    intro hm n h
    match m, ih, hm, h with
    | 0, _, _, h => simp [lyotNarr] at h
    | 1, _, _, h => simp [lyotNarr] at h
    | 2, _, _, h => simp [lyotNarr] at h
    | k + 3, ih, hm, h =>
      obtain ⟨B, hB, -⟩ := crop_spec A N (k + 1) hA (by omega) (by omega)
      rw [lyotNarr, hB] at h
      simp only [bind, Except.bind] at h
      by_cases hc : |S - B.sum| ≤ 1 / 10 ^ 7
      · rw [if_pos hc] at h
        obtain ⟨h1, h2, h3, h4, h5⟩ := ih (k + 1) (by omega) (by omega) n h
        refine ⟨h1, by omega, by omega, h4, ?_⟩
        right
        rcases h5 with h5 | h5
        · exact ⟨B, by rw [h5]; exact hB, hc⟩
        · exact h5
      · rw [if_neg hc] at h
        obtain rfl := Except.ok.inj h
        refine ⟨by omega, le_refl _, rfl, ?_, Or.inl rfl⟩
        intro B' hB'
        have : (k + 3 - 2 : ℕ) = k + 1 := by omega
        rw [this, hB] at hB'
        obtain rfl := Except.ok.inj hB'
        exact not_le.1 hc

/-- C40. If the outermost pixel ring of a non-negative square Lyot stop is zero, the crop keeps every pixel of transmission above 1e-7 (hence every
transmitting pixel of a binary mask), at the position with the same offset from the centre pixel; and the crop cannot be narrowed by a further ring
without losing more than 1e-7 in total. -/
theorem C40_keeps (A B : Img ℝ) (N : ℕ) (hA : Square A N) (hnn : NonNeg A)
    (hring : ∀ i j, ∀ (hi : i < A.h) (hj : j < A.w), i = 0 ∨ i = N - 1 ∨ j = 0 ∨ j = N - 1 → A.px ⟨i, hi⟩ ⟨j, hj⟩ = 0)
    (h : cropLyot A = .ok B) :
    B.h = B.w ∧ B.h + 2 ≤ N ∧
    (∀ (i : Fin A.h) (j : Fin A.w), 1 / 10 ^ 7 < A.px i j →
      B.get? (((B.h / 2 : ℕ) : ℤ) + (i - ((N / 2 : ℕ) : ℤ))) (((B.w / 2 : ℕ) : ℤ) + (j - ((N / 2 : ℕ) : ℤ))) = some (A.px i j)) ∧
    ∀ C, padCrop A (.one (.int ((B.h - 2 : ℕ) : ℕ))) 0 = .ok C → 1 / 10 ^ 7 < A.sum - C.sum := by
  unfold cropLyot at h
  cases hn : lyotNarr A A.sum (A.h - 2) with
  | error e => rw [hn] at h; simp [bind, Except.bind] at h
  | ok n =>
    rw [hn] at h
    simp only [bind, Except.bind] at h
    have hN : 2 ≤ N := by
      by_contra hN
      have : A.h - 2 = 0 := by have := hA.1; omega
      rw [this] at hn
      simp [lyotNarr] at hn
    obtain ⟨h1, h2, h3, h4, h5⟩ := lyotNarr_spec A N hA A.sum (A.h - 2) (by have := hA.1; omega) n hn
    have hAh := hA.1
    have hAw := hA.2
    obtain ⟨B', e1, e2, e3, e4⟩ := crop_spec A N n hA (by omega) (by omega)
    rw [h] at e1
    obtain rfl := Except.ok.inj e1
    have hsum : ∀ (i : Fin A.h) (j : Fin A.w), ¬ InWindow N n i j → A.px i j ≤ 1 / 10 ^ 7 := by
      intro i j hout
      rcases h5 with h5 | ⟨C, hC, hC'⟩
      · have : A.px i j = 0 := by
          refine hring i j i.2 j.2 ?_
          unfold InWindow at hout
          have := i.2
          have := j.2
          omega
        rw [this]; positivity
      · rw [h] at hC
        obtain rfl := Except.ok.inj hC
        exact (crop_sum_le A B N n hA hnn (by omega) (by omega) h i j hout).trans ((le_abs_self _).trans hC')
    refine ⟨by rw [e2, e3], by omega, ?_, ?_⟩
    · intro i j hij
      have hw : InWindow N n i j := by
        by_contra hw
        exact absurd (hsum i j hw) (not_le.2 hij)
      obtain ⟨w1, w2, w3, w4⟩ := hw
      rw [e4 _ _ (by rw [e2]; omega) (by rw [e2]; omega) (by rw [e3]; omega) (by rw [e3]; omega), e2, e3]
      have f1 : ((N / 2 : ℕ) : ℤ) - ((n / 2 : ℕ) : ℤ) + (((n / 2 : ℕ) : ℤ) + ((i : ℕ) - ((N / 2 : ℕ) : ℤ))) = ((i : ℕ) : ℤ) := by ring
      have f2 : ((N / 2 : ℕ) : ℤ) - ((n / 2 : ℕ) : ℤ) + (((n / 2 : ℕ) : ℤ) + ((j : ℕ) - ((N / 2 : ℕ) : ℤ))) = ((j : ℕ) : ℤ) := by ring
      rw [f1, f2, Img.get?_px]
    · intro C hC
      rw [e2] at hC
      have := h4 C hC
      obtain ⟨C', g1, g2, g3, g4⟩ := crop_spec A N (n - 2) hA (by omega) (by omega)
      have hle : C.sum ≤ A.sum := by
        -- a pixel outside the window exists: the corner
        have := crop_sum_le A C N (n - 2) hA hnn (by omega) (by omega) hC ⟨0, by omega⟩ ⟨0, by omega⟩ (by unfold InWindow; simp only; omega)
        have := hnn ⟨0, by omega⟩ ⟨0, by omega⟩
        linarith
      rwa [abs_of_nonneg (by linarith)] at this

/-- C40. For every square array, whenever the crop succeeds the result is at least one pixel ring smaller than the input on every side: the
outermost ring is always cut off, whether it transmits or not, and what is kept stays at its offset from the centre pixel. -/
theorem C40_ring_always_cut (A B : Img ℝ) (N : ℕ) (hA : Square A N) (h : cropLyot A = .ok B) :
    B.h = B.w ∧ 3 ≤ B.h ∧ B.h + 2 ≤ N ∧ N % 2 = B.h % 2 ∧
    ∀ (a b : ℤ), 0 ≤ a → a < B.h → 0 ≤ b → b < B.w →
      B.get? a b = A.get? (((N / 2 : ℕ) : ℤ) - ((B.h / 2 : ℕ) : ℤ) + a) (((N / 2 : ℕ) : ℤ) - ((B.w / 2 : ℕ) : ℤ) + b) := by
  unfold cropLyot at h
  cases hn : lyotNarr A A.sum (A.h - 2) with
  | error e => rw [hn] at h; simp [bind, Except.bind] at h
  | ok n =>
    rw [hn] at h
    simp only [bind, Except.bind] at h
    have hN : 2 ≤ N := by
      by_contra hN
      have : A.h - 2 = 0 := by have := hA.1; omega
      rw [this] at hn
      simp [lyotNarr] at hn
    obtain ⟨h1, h2, h3, h4, h5⟩ := lyotNarr_spec A N hA A.sum (A.h - 2) (by have := hA.1; omega) n hn
    have hAh := hA.1
    obtain ⟨B', e1, e2, e3, e4⟩ := crop_spec A N n hA (by omega) (by omega)
    rw [h] at e1
    obtain rfl := Except.ok.inj e1
    refine ⟨by rw [e2, e3], by omega, by omega, by omega, ?_⟩
    intro a b ha ha' hb hb'
    have := e4 a b ha (by rw [← e2]; exact ha') hb (by rw [← e3]; exact hb')
    rw [this, e2, e3]

/-- C40 (negative). A Lyot stop that transmits in the outermost ring loses it: a clear `N × N` mask (`N ≥ 5`) is cropped to `N-2`. -/
theorem C40_edge_violated (N : ℕ) (hN : 5 ≤ N) : ∃ B, cropLyot (Img.full N N 1) = .ok B ∧ B.h = N - 2 ∧ B.w = N - 2 := by
  have hsq : Square (Img.full N N (1 : ℝ)) N := ⟨rfl, rfl⟩
  have hnn : NonNeg (Img.full N N (1 : ℝ)) := fun _ _ => zero_le_one
  obtain ⟨k, rfl⟩ : ∃ k, N = k + 5 := ⟨N - 5, by omega⟩
  have hn : lyotNarr (Img.full (k + 5) (k + 5) (1 : ℝ)) (Img.full (k + 5) (k + 5) (1 : ℝ)).sum ((Img.full (k + 5) (k + 5) (1 : ℝ)).h - 2) = .ok (k + 3) := by
    have : (Img.full (k + 5) (k + 5) (1 : ℝ)).h - 2 = k + 3 := rfl
    rw [this, lyotNarr]
    obtain ⟨B, hB, -⟩ := crop_spec (Img.full (k + 5) (k + 5) (1 : ℝ)) (k + 5) (k + 1) hsq (by omega) (by omega)
    rw [hB]
    simp only [bind, Except.bind]
    rw [if_neg]
    have h1 := crop_sum_le (Img.full (k + 5) (k + 5) (1 : ℝ)) B (k + 5) (k + 1) hsq hnn (by omega) (by omega) hB ⟨0, by simp [Img.full]⟩ ⟨0, by simp [Img.full]⟩ (by unfold InWindow; simp only; omega)
    have h2 : (1 : ℝ) ≤ (Img.full (k + 5) (k + 5) (1 : ℝ)).sum - B.sum := h1
    rw [not_le]
    refine lt_of_lt_of_le ?_ ((h2).trans (le_abs_self _))
    norm_num
  obtain ⟨B, hB, h2, h3, -⟩ := crop_spec (Img.full (k + 5) (k + 5) (1 : ℝ)) (k + 5) (k + 3) hsq (by omega) (by omega)
  refine ⟨B, ?_, by omega, by omega⟩
  unfold cropLyot
  rw [hn]
  exact hB

/-- C40 (negative). An opaque mask, and more generally one whose transmission sits in the centre so that cropping never loses any, ends in `TypeError`. -/
theorem C40_opaque_violated (N : ℕ) : cropLyot (Img.full N N 0) = .error .typeError := by
  have hsq : Square (Img.full N N (0 : ℝ)) N := ⟨rfl, rfl⟩
  have hl : ∀ m, m + 2 ≤ N ∨ m = 0 → lyotNarr (Img.full N N 0) (Img.full N N (0 : ℝ)).sum m = .error .typeError := by
    intro m
    induction m using Nat.strong_induction_on with
    | _ m ih =>
      match m, ih with
      | 0, _ => intro _; rfl
      | 1, _ => intro _; rfl
      | 2, _ => intro _; rfl
      | k + 3, ih =>
        intro hm
        obtain ⟨B, hB, -⟩ := crop_spec (Img.full N N (0 : ℝ)) N (k + 1) hsq (by omega) (by omega)
        have hs := crop_sum_le' (Img.full N N (0 : ℝ)) B N (k + 1) hsq (fun _ _ => le_refl _) (by omega) (by omega) hB (fun _ _ _ _ _ => rfl)
        rw [lyotNarr, hB]
        simp only [bind, Except.bind]
        rw [if_pos (by rw [hs]; simp), ih (k + 1) (by omega) (by omega)]
  unfold cropLyot
  have : (Img.full N N (0 : ℝ)).h - 2 = N - 2 := rfl
  rw [this, hl (N - 2) (by omega)]
  rfl

/-- The hypotheses of `C40_keeps` are met by a 9 × 9 array with a clear 5 × 5 centre, which is cropped to 5 × 5. -/
example : ∃ A B : Img ℝ, Square A 9 ∧ NonNeg A ∧
    (∀ i j, ∀ (hi : i < A.h) (hj : j < A.w), i = 0 ∨ i = 9 - 1 ∨ j = 0 ∨ j = 9 - 1 → A.px ⟨i, hi⟩ ⟨j, hj⟩ = 0) ∧ cropLyot A = .ok B ∧ B.h = 5 := by
  let A : Img ℝ := ⟨9, 9, fun i j => if 2 ≤ i.1 ∧ i.1 ≤ 6 ∧ 2 ≤ j.1 ∧ j.1 ≤ 6 then 1 else 0⟩
  have hsq : Square A 9 := ⟨rfl, rfl⟩
  have hnn : NonNeg A := by intro i j; simp only [A]; split_ifs <;> norm_num
  obtain ⟨B, hB, hBh, -⟩ := crop_spec A 9 5 hsq (by norm_num) (by norm_num)
  refine ⟨A, B, hsq, hnn, ?_, ?_, hBh⟩
  · intro i j hi hj h
    simp only [A]
    rw [if_neg]
    omega
  · have h5 : ∀ C, padCrop A (.one (.int (5 : ℕ))) 0 = .ok C → C.sum = A.sum := by
      intro C hC
      refine crop_sum_le' A C 9 5 hsq hnn (by norm_num) (by norm_num) hC ?_
      intro i j hw hi hj
      simp only [A]
      rw [if_neg]
      intro hcon
      apply hw
      unfold InWindow
      omega
    obtain ⟨D, hD, -⟩ := crop_spec A 9 3 hsq (by norm_num) (by norm_num)
    have h3 := crop_sum_le A D 9 3 hsq hnn (by norm_num) (by norm_num) hD ⟨2, by simp [A]⟩ ⟨2, by simp [A]⟩ (by unfold InWindow; simp)
    have h3' : (1 : ℝ) ≤ A.sum - D.sum := by
      refine le_trans ?_ h3
      simp [A]
    have hn : lyotNarr A A.sum 7 = .ok 5 := by
      rw [lyotNarr, show ((4 + 1 : ℕ) : ℤ) = ((5 : ℕ) : ℤ) from rfl, hB]
      simp only [bind, Except.bind]
      rw [if_pos (by rw [h5 B hB]; simp), lyotNarr, show ((2 + 1 : ℕ) : ℤ) = ((3 : ℕ) : ℤ) from rfl, hD]
      simp only [bind, Except.bind]
      rw [if_neg]
      rw [not_le]
      refine lt_of_lt_of_le ?_ (h3'.trans (le_abs_self _))
      norm_num
    unfold cropLyot
    have : A.h - 2 = 7 := rfl
    rw [this, hn]
    exact hB

/-! ## C42 -/

theorem doubling_reaches (a c : ℝ) : ∀ (k : ℕ) (N : ℝ), 0 < N → max a c ≤ 2 ^ k * N → ∃ M, Doubling a c N M
  | 0, N, _, h => ⟨N, .stop (by
      unfold TooSmall; push Not
      have := (max_le_iff.1 h)
      simpa using this)⟩
  | k + 1, N, hN, h => by
    by_cases ht : TooSmall a c N
    · obtain ⟨M, hM⟩ := doubling_reaches a c k (2 * N) (by linarith) (by rw [pow_succ] at h; linarith)
      exact ⟨M, .double ht hM⟩
    · exact ⟨N, .stop ht⟩

/-- C42. The padding loop terminates from every positive start, with one possible result: the smallest doubling of the start that is at least both
thresholds. -/
theorem C42_terminates (a c N : ℝ) (hN : 0 < N) : ∃! M, Doubling a c N M := by
  obtain ⟨k, hk⟩ : ∃ k : ℕ, max a c / N < 2 ^ k := pow_unbounded_of_one_lt _ one_lt_two
  obtain ⟨M, hM⟩ := doubling_reaches a c k N hN (by rw [div_lt_iff₀ hN] at hk; exact hk.le)
  refine ⟨M, hM, ?_⟩
  intro M' hM'
  clear hk
  induction hM with
  | stop h => cases hM' with
    | stop _ => rfl
    | double h' _ => exact absurd h' h
  | double h _ ih => cases hM' with
    | stop h' => exact absurd h h'
    | double _ t => exact ih (by linarith) t

/-- C42. See `C42_terminates`. -/
theorem C42_result (a c N M : ℝ) (h : Doubling a c N M) : a ≤ M ∧ c ≤ M ∧ ∃ k : ℕ, M = 2 ^ k * N ∧ ∀ j < k, 2 ^ j * N < a ∨ 2 ^ j * N < c := by
  induction h with
  | stop h => unfold TooSmall at h; push Not at h; exact ⟨h.1, h.2, 0, by simp, by simp⟩
  | double h _ ih =>
    obtain ⟨h1, h2, k, h3, h4⟩ := ih
    refine ⟨h1, h2, k + 1, by rw [h3, pow_succ]; ring, ?_⟩
    intro j hj
    cases j with
    | zero => simpa [TooSmall] using h
    | succ j =>
      have := h4 j (by omega)
      rw [pow_succ, mul_assoc]
      exact this

theorem foldl_max_ge (ps : List ℕ) : ∀ (p q : ℕ), q ∈ p :: ps → q ≤ ps.foldl max p := by
  induction ps with
  | nil => intro p q h; simp at h; simp [h]
  | cons a ps ih =>
    intro p q h
    rw [List.foldl_cons]
    rcases List.mem_cons.1 h with rfl | h
    · exact le_trans (le_max_left _ _) (ih (max q a) (max q a) (by simp))
    · rcases List.mem_cons.1 h with rfl | h
      · exact le_trans (le_max_right _ _) (ih (max p q) (max p q) (by simp))
      · exact ih _ q (by simp [h])

theorem padStart_pos (c : PadCfg) (h : c.pads ≠ [] ∨ 0 < c.Nbeam) : 0 < padStart c.pads c.Nbeam := by
  unfold padStart
  cases hp : c.pads with
  | nil => simp only; rcases h with h | h; exact absurd hp h; linarith
  | cons p ps => simp only; positivity

/-- C42. With a DM in use (positive surface sizes) the padded size of either model is a power of two, at least twice every DM's surface array. -/
theorem C42_power_of_two (c : PadCfg) (a b M : ℝ) (hp : c.pads ≠ []) (hpos : ∀ p ∈ c.pads, 0 < p) (h : Doubling a b (padStart c.pads c.Nbeam) M) :
    (∃ m : ℕ, M = 2 ^ m) ∧ ∀ p ∈ c.pads, 2 * (p : ℝ) ≤ M := by
  obtain ⟨-, -, k, hk, -⟩ := C42_result a b _ M h
  unfold padStart at hk
  cases hpads : c.pads with
  | nil => exact absurd hpads hp
  | cons p ps =>
    rw [hpads] at hk
    simp only at hk
    set m := ps.foldl max p with hm
    have hm1 : 1 ≤ m := le_trans (hpos p (by rw [hpads]; simp)) (foldl_max_ge ps p p (by simp))
    have hmR : (1 : ℝ) ≤ m := by exact_mod_cast hm1
    have hlog : 0 ≤ Real.logb 2 m := Real.logb_nonneg one_lt_two hmR
    have hc : (0 : ℤ) ≤ ⌈1 + Real.logb 2 (m : ℝ)⌉ := Int.ceil_nonneg (by linarith)
    obtain ⟨q, hq⟩ := Int.eq_ofNat_of_zero_le hc
    rw [hq, zpow_natCast] at hk
    refine ⟨⟨k + q, by rw [hk, pow_add]⟩, ?_⟩
    intro r hr
    have hrm : (r : ℝ) ≤ m := by exact_mod_cast foldl_max_ge ps p r hr
    have hge : (2 : ℝ) * m ≤ 2 ^ q := by
      have h1 : 1 + Real.logb 2 (m : ℝ) ≤ (q : ℝ) := by
        have := Int.le_ceil (1 + Real.logb 2 (m : ℝ))
        rw [hq] at this
        exact_mod_cast this
      have h2 : (m : ℝ) = 2 ^ (Real.logb 2 (m : ℝ)) := (Real.rpow_logb two_pos (by norm_num) (by linarith)).symm
      calc (2 : ℝ) * m = 2 ^ (1 : ℝ) * 2 ^ (Real.logb 2 (m : ℝ)) := by rw [← h2, Real.rpow_one]
        _ = 2 ^ (1 + Real.logb 2 (m : ℝ)) := by rw [Real.rpow_add two_pos]
        _ ≤ 2 ^ (q : ℝ) := Real.rpow_le_rpow_of_exponent_le one_le_two h1
        _ = 2 ^ q := Real.rpow_natCast 2 q
    have : (1 : ℝ) ≤ 2 ^ k := one_le_pow₀ one_le_two
    have h0 : (0 : ℝ) < 2 ^ q := by positivity
    nlinarith

/-- Angular-spectrum sampling requirement at one wavelength. -/
def Sampled (M lam d dx : ℝ) : Prop := lam * |d| / dx ^ 2 ≤ M

/-- C42 (shortest wavelength). The full model's padding meets the sampling requirement of both propagations at the shortest
wavelength, and the compact model's does so if its pupil sampling is not finer than the full model's. For the other wavelengths see
`C42_long_wavelength_violated`. -/
theorem C42_sampled (c : PadCfg) (lamMin N M : ℝ) (h0 : 0 ≤ lamMin) (hdx : 0 < c.dxFull) :
    (Doubling (fullThresholds c lamMin).1 (fullThresholds c lamMin).2 N M → Sampled M lamMin c.dDm1Dm2 c.dxFull ∧ Sampled M lamMin c.dP2Dm1 c.dxFull) ∧
    (Doubling (compactThresholds c lamMin).1 (compactThresholds c lamMin).2 N M → c.dxFull ≤ c.dxCompact →
      Sampled M lamMin c.dDm1Dm2 c.dxCompact ∧ Sampled M lamMin c.dP2Dm1 c.dxCompact) := by
  constructor
  · intro h
    have := C42_result _ _ _ _ h
    exact ⟨this.1, this.2.1⟩
  · intro h hle
    have := C42_result _ _ _ _ h
    refine ⟨le_trans ?_ this.1, this.2.1⟩
    unfold compactThresholds
    simp only
    gcongr

/-- C42 (negative). Two wavelengths (400 and 900 nm, `d = 1 m`, 35 µm sampling): the loop started at 512 leaves 512, which is enough for the shorter
wavelength but not for the longer one. -/
theorem C42_long_wavelength_violated : ∃ (c : PadCfg) (lamMin lamMax N M : ℝ), lamMin < lamMax ∧
    Doubling (fullThresholds c lamMin).1 (fullThresholds c lamMin).2 N M ∧ ¬ Sampled M lamMax c.dDm1Dm2 c.dxFull := by
  refine ⟨⟨[256], 250, 1, 0, 35e-6, 35e-6⟩, 4e-7, 9e-7, 512, 512, by norm_num, .stop ?_, ?_⟩
  · unfold TooSmall fullThresholds; norm_num
  · unfold Sampled; norm_num

/-- C42 (negative). The compact model's DM1–DM2 test uses the full model's sampling: with a finer compact sampling even the shortest wavelength is
undersampled. -/
theorem C42_compact_sampling_violated : ∃ (c : PadCfg) (lam N M : ℝ), Doubling (compactThresholds c lam).1 (compactThresholds c lam).2 N M ∧
    ¬ Sampled M lam c.dDm1Dm2 c.dxCompact := by
  refine ⟨⟨[256], 250, 1, 0, 35e-6, 20e-6⟩, 4e-7, 512, 512, .stop ?_, ?_⟩
  · unfold TooSmall compactThresholds; norm_num
  · unfold Sampled; norm_num

/-! ## C43 -/

theorem ringWeight_eq (rho : ℝ) (rings : List (ℝ × ℝ × ℝ)) (w : ℝ) :
    ringWeight rho rings w = w * ((rings.filter fun r => r.1 ≤ rho ∧ rho < r.2.1).map fun r => Real.sqrt r.2.2).prod := by
  unfold ringWeight
  induction rings generalizing w with
  | nil => simp
  | cons r rs ih =>
    rw [List.foldl_cons, ih]
    by_cases h : r.1 ≤ rho ∧ rho < r.2.1
    · rw [List.filter_cons_of_pos (by simpa using h), if_pos h, List.map_cons, List.prod_cons]; ring
    · rw [List.filter_cons_of_neg (by simpa using h), if_neg h]; ring

/-- C43. The spatial weight is 0 outside the correction region; inside it is the product of the square roots of the weights of all rings that contain
the pixel (inner radius included, outer excluded; 1 if there is none); the control weight of a star multiplies this by the star's weight. -/
theorem C43_weights (P : Prop) (starW xi eta : ℝ) (rings : List (ℝ × ℝ × ℝ)) :
    (¬ P → wspatial P xi eta rings = 0) ∧
    (P → wspatial P xi eta rings = ((rings.filter fun r => r.1 ≤ Real.sqrt (xi ^ 2 + eta ^ 2) ∧ Real.sqrt (xi ^ 2 + eta ^ 2) < r.2.1).map fun r => Real.sqrt r.2.2).prod) ∧
    wspatialVec starW xi eta rings = starW * ((rings.filter fun r => r.1 ≤ Real.sqrt (xi ^ 2 + eta ^ 2) ∧ Real.sqrt (xi ^ 2 + eta ^ 2) < r.2.1).map fun r => Real.sqrt r.2.2).prod := by
  refine ⟨?_, ?_, ?_⟩
  · intro h; unfold wspatial; rw [ringWeight_eq, if_neg h, zero_mul]
  · intro h; unfold wspatial; rw [ringWeight_eq, if_pos h, one_mul]
  · unfold wspatialVec wspatial; rw [ringWeight_eq, if_pos trivial, one_mul]

/-- C43. Consequently a ring with weight `w ≥ 0` multiplies the intensity (squared field) of its pixels by `w` in the control cost. -/
theorem C43_intensity (xi eta : ℝ) (a b w : ℝ) (rings : List (ℝ × ℝ × ℝ)) (hw : 0 ≤ w) (e : ℂ)
    (hin : a ≤ Real.sqrt (xi ^ 2 + eta ^ 2) ∧ Real.sqrt (xi ^ 2 + eta ^ 2) < b) :
    Complex.normSq ((wspatial True xi eta ((a, b, w) :: rings) : ℂ) * e) = w * Complex.normSq ((wspatial True xi eta rings : ℂ) * e) := by
  have h1 := (C43_weights True 1 xi eta ((a, b, w) :: rings)).2.1 trivial
  have h2 := (C43_weights True 1 xi eta rings).2.1 trivial
  rw [List.filter_cons_of_pos (by simpa using hin), List.map_cons, List.prod_cons, ← h2] at h1
  rw [h1]
  simp only [map_mul, Complex.normSq_ofReal, Complex.ofReal_mul]
  rw [Real.mul_self_sqrt hw]
  ring

/-- Two overlapping rings: a pixel at 5 λ/D with rings [2,6) of weight 4 and [4,10) of weight 9 gets field weight 6. -/
example : wspatial True 3 4 [(2, 6, 4), (4, 10, 9)] = 6 := by
  have hr : Real.sqrt (3 ^ 2 + 4 ^ 2) = 5 := by rw [show (3 : ℝ) ^ 2 + 4 ^ 2 = 5 ^ 2 by norm_num]; exact Real.sqrt_sq (by norm_num)
  rw [(C43_weights True 1 3 4 _).2.1 trivial, hr]
  have h1 : Real.sqrt 4 = 2 := by rw [show (4 : ℝ) = 2 ^ 2 by norm_num]; exact Real.sqrt_sq (by norm_num)
  have h2 : Real.sqrt 9 = 3 := by rw [show (9 : ℝ) = 3 ^ 2 by norm_num]; exact Real.sqrt_sq (by norm_num)
  norm_num [List.filter, h1, h2]

end Verif.Region
