import Verif.Model.FitZern
import Verif.Props.ZernMap
import Verif.Lemmas.Pinv

/-!
# C128: fitting Zernike polynomials (prop_fit_zernikes)
-/

namespace Verif.FitZern
open Verif Verif.Noll Verif.ZernMap Matrix

/-! ## Specification -/

/-- `Z` is Zernike polynomial `k` in Cartesian coordinates: the Noll polynomial without obscuration, the annular one with obscuration `eps`. -/
def IsZern (eps : ℝ) (k : ℕ) (Z : ℝ → ℝ → ℝ) : Prop :=
  if eps = 0 then IsNoll k Z else ∀ x y : ℝ, annular eps (Real.sqrt (x ^ 2 + y ^ 2)) (Complex.arg ⟨x, y⟩) k = some (Z x y)

/-- The number of polynomials that can be fitted. -/
def Fittable (eps : ℝ) (nzer : ℕ) : Prop := 1 ≤ nzer ∧ ((eps = 0 ∧ nzer ≤ 276) ∨ (eps ≠ 0 ∧ nzer ≤ 22))

/-- Place of row or column `i` of `n` relative to the centre `n/2` (integer division), in units of the pupil radius. -/
noncomputable def place (n : ℕ) (R : ℝ) (i : Fin n) : ℝ := ((i : ℕ) - ((n / 2 : ℕ) : ℝ)) / R

/-- The pixel at row `i`, column `j` counts: inside of the unit circle and not masked by the pupil. -/
def Counts {n : ℕ} (pupil : Fin n → Fin n → ℝ) (R : ℝ) (i j : Fin n) : Prop := place n R j ^ 2 + place n R i ^ 2 < 1 ∧ pupil i j ≠ 0

open Classical in
/-- Sum over the pixels that count. -/
noncomputable def sumOver {n : ℕ} (pupil : Fin n → Fin n → ℝ) (R : ℝ) (g : Fin n → Fin n → ℝ) : ℝ := ∑ i, ∑ j, if Counts pupil R i j then g i j else 0

/-! ## Lemmas -/

theorem scale_polar {R : ℝ} (hR : 0 < R) (x y : ℝ) : radius x y / R = Real.sqrt ((x / R) ^ 2 + (y / R) ^ 2) ∧ angle x y = Complex.arg ⟨x / R, y / R⟩ := by
  constructor
  · unfold radius
    rw [show (x / R) ^ 2 + (y / R) ^ 2 = (x ^ 2 + y ^ 2) / R ^ 2 by ring, Real.sqrt_div' _ (by positivity), Real.sqrt_sq hR.le]
  · unfold angle
    have : (⟨x / R, y / R⟩ : ℂ) = ((R⁻¹ : ℝ) : ℂ) * ⟨x, y⟩ := by
      apply Complex.ext <;> simp <;> ring
    rw [this, Complex.arg_real_mul _ (by positivity)]

theorem isNoll_one {Z : ℝ → ℝ → ℝ} (h : IsNoll 1 Z) (x y : ℝ) : Z x y = 1 := by
  rw [h 0 0 (by simp [Slot, T])]
  simp [entry, zernVal]

theorem column_val {eps : ℝ} {nzer : ℕ} (hf : Fittable eps nzer) {s : St} (hs : noll nzer = .ok s) {R : ℝ} (hR : 0 < R) (k : Fin nzer) {Z : ℝ → ℝ → ℝ} (hZ : IsZern eps (k + 1) Z) (x y : ℝ) :
    column s eps nzer k (radius x y / R) (angle x y) = .ok (Z (x / R) (y / R)) := by
  obtain ⟨h1, h2⟩ := hf
  rw [(scale_polar hR x y).1, (scale_polar hR x y).2]
  unfold column
  have hk := k.2
  by_cases he : eps = 0
  · have hn : nzer ≤ 276 := by
      rcases h2 with h | h
      · exact h.2
      · exact absurd he h.1
    unfold IsZern at hZ
    rw [if_pos he] at hZ
    by_cases h0 : (k : ℕ) = 0
    · rw [if_pos h0]
      rw [h0] at hZ
      rw [isNoll_one hZ]
    · rw [if_neg h0, if_neg (by simpa using he)]
      obtain ⟨s', hs', _, _, hsl⟩ := C54_index nzer
      rw [hs] at hs'
      obtain rfl := Except.ok.inj hs'
      obtain ⟨n, m, sl⟩ := slot_exists (show 1 ≤ (k : ℕ) + 1 by omega)
      rw [hsl _ n m (by omega) (by omega) sl]
      dsimp only
      rw [C127_fits sl (by omega), hZ n m sl]
  · have hn : nzer ≤ 22 := by
      rcases h2 with h | h
      · exact absurd h.1 he
      · exact h.2
    unfold IsZern at hZ
    rw [if_neg he] at hZ
    by_cases h0 : (k : ℕ) = 0
    · rw [if_pos h0]
      have := hZ (x / R) (y / R)
      rw [h0] at this
      exact congrArg Except.ok (Option.some.inj this)
    · rw [if_neg h0, if_pos he, if_neg (by omega), hZ]
      rfl

theorem check_ok {eps : ℝ} {nzer : ℕ} (hf : Fittable eps nzer) {s : St} (hs : noll nzer = .ok s) (Z : ℕ → ℝ → ℝ → ℝ) (hZ : ∀ k, 1 ≤ k → k ≤ nzer → IsZern eps k (Z k)) :
    checkColumns s eps nzer = .ok () := by
  unfold checkColumns
  have : ∀ l : List ℕ, (∀ k ∈ l, k < nzer) → (l.forM fun k => (column s eps nzer k 0 0).map fun _ => ()) = .ok () := by
    intro l
    induction l with
    | nil => intro _; rfl
    | cons k l ih =>
      intro h
      have := column_val hf hs one_pos ⟨k, h k (by simp)⟩ (hZ (k + 1) (by omega) (h k (by simp))) 0 0
      have e : radius 0 0 / 1 = 0 := by simp [radius]
      have e2 : angle 0 0 = 0 := by
        have : (⟨0, 0⟩ : ℂ) = 0 := rfl
        simp [angle, this]
      rw [e, e2] at this
      dsimp only at this
      show Except.bind (Except.map _ (column s eps nzer k 0 0)) (fun _ => List.forM l _) = _
      rw [this]
      exact ih fun p hp => h p (by simp [hp])
  exact this _ fun k hk => List.mem_range.mp hk

/-- What the call computes, for an array of any shape. -/
theorem fit_eq {nx ny : ℕ} (W pupil : Fin nx → Fin ny → ℝ) {R : ℝ} (hR : 0 < R) {nzer : ℕ} {eps : ℝ} (hf : Fittable eps nzer) (Z : ℕ → ℝ → ℝ → ℝ)
    (hZ : ∀ k, 1 ≤ k → k ≤ nzer → IsZern eps k (Z k)) (fit : Bool) :
    let P : Fin (nx * ny) → ℝ × ℝ := fun f => ((coords nx ny f).1 / R, (coords nx ny f).2 / R)
    let A : Matrix {f : Fin (nx * ny) // rad nx ny R f < 1 ∧ ravel pupil f ≠ 0} (Fin nzer) ℝ := Matrix.of fun f k => Z (k + 1) (P f.1).1 (P f.1).2
    let c := open Classical in Pinv.pinv A *ᵥ fun f => ravel W f.1
    fitZernikes W pupil R nzer eps false fit = .ok (c, if fit then some fun i j => ∑ k : Fin nzer, c k * Z (k + 1) (P (finProdFinEquiv (i, j))).1 (P (finProdFinEquiv (i, j))).2 else none) := by
  intro P A c
  obtain ⟨s, hs, _⟩ := C54_index nzer
  have hv : ∀ (k : Fin nzer) (f : Fin (nx * ny)), columnVal s eps nzer k (rad nx ny R f) (ang nx ny f) = Z (k + 1) (P f).1 (P f).2 := by
    intro k f
    unfold columnVal rad ang
    rw [column_val hf hs hR k (hZ (k + 1) (by omega) k.2)]
  unfold fitZernikes
  rw [if_neg (by rintro ⟨h1, h2⟩; rcases hf.2 with h | h <;> [exact h1.ne' h.1; omega]), if_neg (by simp), if_neg (by have := hf.1; omega), hs]
  simp only [Except.bind]
  rw [check_ok hf hs Z hZ]
  simp only [Except.map, hv]
  rfl

/-- The pseudo-inverse gives a least-squares solution. -/
theorem pinv_least {m n : Type*} [Fintype m] [Fintype n] [DecidableEq n] (A : Matrix m n ℝ) (w : m → ℝ) (c' : n → ℝ) :
    ∑ f, (w f - (A *ᵥ (Pinv.pinv A *ᵥ w)) f) ^ 2 ≤ ∑ f, (w f - (A *ᵥ c') f) ^ 2 := by
  set c := Pinv.pinv A *ᵥ w with hc
  have hn : Aᵀ *ᵥ (A *ᵥ c - w) = 0 := Pinv.pinv_normal A w
  have horth : (A *ᵥ c - w) ⬝ᵥ (A *ᵥ (c - c')) = 0 := by
    rw [Matrix.dotProduct_mulVec, ← Matrix.mulVec_transpose, hn, zero_dotProduct]
  have e : ∀ f, (w f - (A *ᵥ c') f) ^ 2 = (w f - (A *ᵥ c) f) ^ 2 + (A *ᵥ (c - c')) f ^ 2 - 2 * ((A *ᵥ c - w) f * (A *ᵥ (c - c')) f) := by
    intro f
    rw [Matrix.mulVec_sub, Pi.sub_apply, Pi.sub_apply]
    ring
  simp only [e, Finset.sum_sub_distrib, Finset.sum_add_distrib, ← Finset.mul_sum]
  have h0 : ∑ f, (A *ᵥ c - w) f * (A *ᵥ (c - c')) f = 0 := horth
  rw [h0]
  have : 0 ≤ ∑ f, (A *ᵥ (c - c')) f ^ 2 := Finset.sum_nonneg fun f _ => sq_nonneg _
  linarith

/-- In a square array the flat element of pixel `(i, j)` has the coordinates of that pixel. -/
theorem coords_square {n : ℕ} (i j : Fin n) : coords n n (finProdFinEquiv (i, j)) = (((j : ℕ) : ℝ) - ((n / 2 : ℕ) : ℝ), ((i : ℕ) : ℝ) - ((n / 2 : ℕ) : ℝ)) := by
  unfold coords
  have h1 : ((finProdFinEquiv (i, j) : Fin (n * n)) : ℕ) = j + n * i := rfl
  have hn : 0 < n := lt_of_le_of_lt (Nat.zero_le _) i.2
  rw [h1, Nat.add_mul_mod_self_left, Nat.mod_eq_of_lt j.2, Nat.add_mul_div_left _ _ hn, Nat.div_eq_of_lt j.2, zero_add]

theorem sum_valid {n : ℕ} (pupil : Fin n → Fin n → ℝ) {R : ℝ} (hR : 0 < R) (g : Fin (n * n) → ℝ) : open Classical in
    ∑ f : {f : Fin (n * n) // rad n n R f < 1 ∧ ravel pupil f ≠ 0}, g f = sumOver pupil R fun i j => g (finProdFinEquiv (i, j)) := by
  classical
  have h1 : ∑ f : {f : Fin (n * n) // rad n n R f < 1 ∧ ravel pupil f ≠ 0}, g f = ∑ f : Fin (n * n), if rad n n R f < 1 ∧ ravel pupil f ≠ 0 then g f else 0 := by
    rw [← Finset.sum_filter]
    exact (Finset.sum_subtype _ (by simp) g).symm
  rw [h1, ← Equiv.sum_comp finProdFinEquiv, Fintype.sum_prod_type]
  unfold sumOver
  refine Finset.sum_congr rfl fun i _ => Finset.sum_congr rfl fun j _ => ?_
  have h2 : (rad n n R (finProdFinEquiv (i, j)) < 1 ∧ ravel pupil (finProdFinEquiv (i, j)) ≠ 0) ↔ Counts pupil R i j := by
    unfold Counts ravel place rad
    rw [Equiv.symm_apply_apply, (scale_polar hR _ _).1, coords_square, Real.sqrt_lt' one_pos, one_pow]
  simp only [h2]

/-! ## Results -/

/-- C128: on a square array, without XC and YC: the coefficients returned make the sum of squared differences between the map and the sum of coefficient times Zernike polynomial, over the valid pixels, as small
as any coefficients can; the remaining differences are orthogonal, over these pixels, to each polynomial; with FIT the second result is the fitted sum at every pixel of the array; and if the map is, on the valid
pixels, a sum of these polynomials, the fit reproduces it there, and returns its coefficients if no other coefficients give the same values on these pixels. -/
theorem C128_least_squares {n : ℕ} (W pupil : Fin n → Fin n → ℝ) {R : ℝ} (hR : 0 < R) {nzer : ℕ} {eps : ℝ} (hf : Fittable eps nzer) (Z : ℕ → ℝ → ℝ → ℝ)
    (hZ : ∀ k, 1 ≤ k → k ≤ nzer → IsZern eps k (Z k)) :
    let S : (Fin nzer → ℝ) → Fin n → Fin n → ℝ := fun c i j => ∑ k : Fin nzer, c k * Z (k + 1) (place n R j) (place n R i)
    ∃ c : Fin nzer → ℝ, fitZernikes W pupil R nzer eps false false = .ok (c, none) ∧ fitZernikes W pupil R nzer eps false true = .ok (c, some (S c)) ∧
      (∀ c', sumOver pupil R (fun i j => (W i j - S c i j) ^ 2) ≤ sumOver pupil R fun i j => (W i j - S c' i j) ^ 2) ∧
      (∀ k : Fin nzer, sumOver pupil R (fun i j => (W i j - S c i j) * Z (k + 1) (place n R j) (place n R i)) = 0) ∧
      (∀ a, (∀ i j, Counts pupil R i j → W i j = S a i j) → (∀ i j, Counts pupil R i j → S c i j = W i j) ∧
        ((∀ b, (∀ i j, Counts pupil R i j → S b i j = 0) → b = 0) → c = a)) := by
  classical
  intro S
  have hfit := fun fit => fit_eq W pupil hR hf Z hZ fit
  dsimp only at hfit
  set A : Matrix {f : Fin (n * n) // rad n n R f < 1 ∧ ravel pupil f ≠ 0} (Fin nzer) ℝ := Matrix.of fun f k => Z (k + 1) ((coords n n f.1).1 / R) ((coords n n f.1).2 / R) with hA
  set w : {f : Fin (n * n) // rad n n R f < 1 ∧ ravel pupil f ≠ 0} → ℝ := fun f => ravel W f.1 with hw
  set c := Pinv.pinv A *ᵥ w with hc
  have hAS : ∀ (b : Fin nzer → ℝ) f, (A *ᵥ b) f = S b (finProdFinEquiv.symm f.1).1 (finProdFinEquiv.symm f.1).2 := by
    intro b f
    obtain ⟨⟨i, j⟩, hij⟩ := finProdFinEquiv.surjective f.1
    rw [← hij, Equiv.symm_apply_apply]
    simp only [hA, Matrix.mulVec, dotProduct, Matrix.of_apply, S]
    refine Finset.sum_congr rfl fun k _ => ?_
    rw [← hij, coords_square, mul_comm]
    rfl
  have hsq : ∀ b : Fin nzer → ℝ, ∑ f, (w f - (A *ᵥ b) f) ^ 2 = sumOver pupil R fun i j => (W i j - S b i j) ^ 2 := by
    intro b
    have := sum_valid pupil hR fun f => (ravel W f - S b (finProdFinEquiv.symm f).1 (finProdFinEquiv.symm f).2) ^ 2
    simp only [ravel, Equiv.symm_apply_apply] at this
    rw [← this]
    exact Finset.sum_congr rfl fun f _ => by rw [hAS]; rfl
  have hcounts : ∀ i j, Counts pupil R i j → rad n n R (finProdFinEquiv (i, j)) < 1 ∧ ravel pupil (finProdFinEquiv (i, j)) ≠ 0 := by
    rintro i j ⟨h1, h2⟩
    unfold ravel rad
    rw [Equiv.symm_apply_apply, (scale_polar hR _ _).1, coords_square, Real.sqrt_lt' one_pos, one_pow]
    exact ⟨h1, h2⟩
  have hcounts' : ∀ f : {f : Fin (n * n) // rad n n R f < 1 ∧ ravel pupil f ≠ 0}, Counts pupil R (finProdFinEquiv.symm f.1).1 (finProdFinEquiv.symm f.1).2 := by
    rintro ⟨f, h1, h2⟩
    obtain ⟨⟨i, j⟩, rfl⟩ := finProdFinEquiv.surjective f
    rw [Equiv.symm_apply_apply]
    unfold ravel at h2
    unfold rad at h1
    rw [(scale_polar hR _ _).1, coords_square, Real.sqrt_lt' one_pos, one_pow] at h1
    rw [Equiv.symm_apply_apply] at h2
    exact ⟨h1, h2⟩
  refine ⟨c, ?_, ?_, ?_, ?_, ?_⟩
  · rw [hfit false]
    simp
  · rw [hfit true]
    simp only [if_true]
    congr 3
    funext i j
    refine Finset.sum_congr rfl fun k _ => ?_
    rw [coords_square]
    rfl
  · intro c'
    rw [← hsq, ← hsq]
    exact pinv_least A w c'
  · intro k
    have h0 : ∑ f, A f k * ((A *ᵥ c) f - w f) = 0 := congrFun (Pinv.pinv_normal A w) k
    have := sum_valid pupil hR fun f => (ravel W f - S c (finProdFinEquiv.symm f).1 (finProdFinEquiv.symm f).2) *
      Z (k + 1) (place n R (finProdFinEquiv.symm f).2) (place n R (finProdFinEquiv.symm f).1)
    simp only [ravel, Equiv.symm_apply_apply] at this
    rw [← this]
    rw [← neg_eq_zero, ← Finset.sum_neg_distrib]
    have key : ∀ f : {f : Fin (n * n) // rad n n R f < 1 ∧ ravel pupil f ≠ 0}, -((W (finProdFinEquiv.symm f.1).1 (finProdFinEquiv.symm f.1).2 - S c (finProdFinEquiv.symm f.1).1 (finProdFinEquiv.symm f.1).2) *
        Z (k + 1) (place n R (finProdFinEquiv.symm f.1).2) (place n R (finProdFinEquiv.symm f.1).1)) = A f k * ((A *ᵥ c) f - w f) := by
      intro f
      rw [hAS]
      obtain ⟨⟨i, j⟩, hij⟩ := finProdFinEquiv.surjective f.1
      have e1 : A f k = Z (k + 1) (place n R j) (place n R i) := by
        show Z (k + 1) ((coords n n f.1).1 / R) ((coords n n f.1).2 / R) = _
        rw [← hij, coords_square]
        rfl
      have e2 : w f = W i j := by
        show W (finProdFinEquiv.symm f.1).1 (finProdFinEquiv.symm f.1).2 = _
        rw [← hij, Equiv.symm_apply_apply]
      rw [e1, e2, ← hij, Equiv.symm_apply_apply]
      ring
    exact Eq.trans (Finset.sum_congr rfl fun f _ => key f) h0
  · intro a ha
    have hw' : w = A *ᵥ a := by
      funext f
      rw [hAS]
      exact ha _ _ (hcounts' f)
    have hfitw : A *ᵥ c = w := by
      rw [hc, hw', Matrix.mulVec_mulVec, Matrix.mulVec_mulVec, (Pinv.IsPinv_pinv A).hph]
    refine ⟨fun i j h => ?_, fun hinj => ?_⟩
    · have := congrFun hfitw ⟨finProdFinEquiv (i, j), hcounts i j h⟩
      rw [hAS] at this
      simp only [hw, ravel, Equiv.symm_apply_apply] at this
      exact this
    · rw [hc, hw']
      refine Pinv.pinv_mulVec A (fun b hb => hinj b fun i j h => ?_) a
      have := congrFun hb ⟨finProdFinEquiv (i, j), hcounts i j h⟩
      rw [hAS] at this
      simpa using this

/-- C128: the coefficients depend linearly on the map. -/
theorem C128_linear {n : ℕ} (W1 W2 pupil : Fin n → Fin n → ℝ) (t : ℝ) {R : ℝ} (hR : 0 < R) {nzer : ℕ} {eps : ℝ} (hf : Fittable eps nzer) (Z : ℕ → ℝ → ℝ → ℝ)
    (hZ : ∀ k, 1 ≤ k → k ≤ nzer → IsZern eps k (Z k)) :
    ∃ c1 c2, fitZernikes W1 pupil R nzer eps false false = .ok (c1, none) ∧ fitZernikes W2 pupil R nzer eps false false = .ok (c2, none) ∧
      fitZernikes (fun i j => W1 i j + t * W2 i j) pupil R nzer eps false false = .ok (c1 + t • c2, none) := by
  have h1 := fit_eq W1 pupil hR hf Z hZ false
  have h2 := fit_eq W2 pupil hR hf Z hZ false
  have h3 := fit_eq (fun i j => W1 i j + t * W2 i j) pupil hR hf Z hZ false
  dsimp only at h1 h2 h3
  refine ⟨_, _, h1, h2, ?_⟩
  rw [h3]
  congr 2
  rw [← Matrix.mulVec_smul, ← Matrix.mulVec_add]
  rfl

/-- C128: refused calls: XC or YC given raises UnboundLocalError whatever the map (they are documented, but never read); more than 22 polynomials with an obscuration raise ValueError, and none at all IndexError. -/
theorem C128_refused {nx ny : ℕ} (W pupil : Fin nx → Fin ny → ℝ) (R : ℝ) (nzer : ℕ) (eps : ℝ) (fit : Bool) :
    ((eps ≤ 0 ∨ nzer ≤ 22) → fitZernikes W pupil R nzer eps true fit = .error .unboundLocal) ∧
    (∀ g, eps > 0 → nzer > 22 → fitZernikes W pupil R nzer eps g fit = .error .valueError) ∧ (fitZernikes W pupil R 0 eps false fit = .error .indexError) := by
  refine ⟨fun h => ?_, fun g h1 h2 => if_pos ⟨h1, h2⟩, ?_⟩
  · unfold fitZernikes
    rw [if_neg (by rintro ⟨a, b⟩; rcases h with h | h <;> [linarith; omega]), if_pos rfl]
  · unfold fitZernikes
    rw [if_neg (by rintro ⟨a, b⟩; omega), if_neg (by simp), if_pos rfl]

/-- C128, violated beyond index 276: a fit of so many polynomials (the docstring says "arbitrary for unobscured polynomials") raises SyntaxError. -/
theorem C128_many_violated {nx ny : ℕ} (W pupil : Fin nx → Fin ny → ℝ) (R : ℝ) (nzer : ℕ) (h : 277 ≤ nzer) (fit : Bool) :
    fitZernikes W pupil R nzer 0 false fit = .error .syntaxError := by
  obtain ⟨s, hs, _, _, hsl⟩ := C54_index nzer
  have hcol : ∀ k, k < 276 → ∃ v, column s 0 nzer k 0 0 = .ok v := by
    intro k hk
    unfold column
    by_cases h0 : k = 0
    · exact ⟨1, if_pos h0⟩
    · rw [if_neg h0, if_neg (by simp)]
      obtain ⟨n, m, sl⟩ := slot_exists (show 1 ≤ k + 1 by omega)
      rw [hsl _ n m (by omega) (by omega) sl]
      dsimp only
      rw [C127_fits sl (by omega)]
      exact ⟨_, rfl⟩
  have hbad : column s 0 nzer 276 0 0 = .error .syntaxError := by
    unfold column
    rw [if_neg (by norm_num), if_neg (by simp), hsl _ 23 1 (by norm_num) h (C127_first_violated 0 0).1]
    dsimp only
    exact (C127_first_violated 0 0).2
  have hpre : ∀ (l r : List ℕ), (∀ k ∈ l, k < 276) → ((l ++ 276 :: r).forM fun k => (column s 0 nzer k 0 0).map fun _ => ()) = .error .syntaxError := by
    intro l r
    induction l with
    | nil =>
      intro _
      show Except.bind (Except.map _ (column s 0 nzer 276 0 0)) (fun _ => List.forM r _) = _
      rw [hbad]
      rfl
    | cons k l ih =>
      intro hl
      obtain ⟨v, hv⟩ := hcol k (hl k (by simp))
      show Except.bind (Except.map _ (column s 0 nzer k 0 0)) (fun _ => List.forM (l ++ 276 :: r) _) = _
      rw [hv]
      exact ih fun p hp => hl p (by simp [hp])
  have hsplit : List.range nzer = List.range 276 ++ 276 :: (List.range (nzer - 277)).map (fun x => 277 + x) := by
    have gen : ∀ a d : ℕ, List.range (a + 1 + d) = List.range a ++ a :: (List.range d).map (fun x => a + 1 + x) := by
      intro a d
      rw [List.range_add, List.range_succ, List.append_assoc]
      rfl
    have := gen 276 (nzer - 277)
    rwa [show 276 + 1 + (nzer - 277) = nzer by omega] at this
  have hc : checkColumns s 0 nzer = .error .syntaxError := by
    unfold checkColumns
    rw [hsplit]
    exact hpre _ _ fun k hk => List.mem_range.mp hk
  unfold fitZernikes
  rw [if_neg (by rintro ⟨a, b⟩; exact absurd a (lt_irrefl _)), if_neg (by simp), if_neg (by omega), hs]
  simp only [Except.bind]
  rw [hc]
  rfl

/-- C128, violated: an array that is not square is taken apart with rows and columns exchanged. The tilt map of 2 rows and 3 columns (value: column minus 1), all pixels valid, is not reproduced by a fit of
piston and the two tilts, although it is a tilt. -/
theorem C128_nonsquare_violated (R : ℝ) (hR : 2 < R) : ∃ c F, fitZernikes (nx := 2) (ny := 3) (fun _ j => ((j : ℕ) : ℝ) - 1) (fun _ _ => 1) R 3 0 false true = .ok (c, some F) ∧
    ¬ ∀ i j, F i j = ((j : ℕ) : ℝ) - 1 := by
  classical
  have hR0 : 0 < R := by linarith
  let Z : ℕ → ℝ → ℝ → ℝ := fun k => if h : 1 ≤ k then (isNoll_exists h).choose else fun _ _ => 0
  have hZ' : ∀ k, 1 ≤ k → IsNoll k (Z k) := fun k h => by
    have : Z k = (isNoll_exists h).choose := dif_pos h
    rw [this]
    exact (isNoll_exists h).choose_spec
  have h := fit_eq (nx := 2) (ny := 3) (fun _ j => ((j : ℕ) : ℝ) - 1) (fun _ _ => 1) hR0 (nzer := 3) (eps := 0) ⟨by norm_num, Or.inl ⟨rfl, by norm_num⟩⟩ Z
    (fun k h1 _ => by unfold IsZern; rw [if_pos rfl]; exact hZ' k h1) true
  dsimp only at h
  obtain ⟨c, h⟩ : ∃ c : Fin 3 → ℝ, fitZernikes (nx := 2) (ny := 3) (fun _ j => ((j : ℕ) : ℝ) - 1) (fun _ _ => 1) R 3 0 false true = .ok (c, some fun i j => ∑ k : Fin 3, c k *
      Z (k + 1) ((coords 2 3 (finProdFinEquiv (i, j))).1 / R) ((coords 2 3 (finProdFinEquiv (i, j))).2 / R)) := ⟨_, h⟩
  refine ⟨_, _, h, ?_⟩
  intro hF
  have h1 : ∀ x y, Z 1 x y = 1 := isNoll_one (hZ' 1 le_rfl)
  have h2 : ∀ x y, Z 2 x y = 2 * x := by
    intro x y
    rw [hZ' 2 (by norm_num) 1 1 (by simp [Slot, T]), ← isNoll_tilt 1 1 (by simp [Slot, T]) x y]
  have h3 : ∀ x y, Z 3 x y = 2 * y := by
    intro x y
    rw [hZ' 3 (by norm_num) 1 1 (by simp [Slot, T])]
    have : entry 1 1 3 = ⟨4, [(1, 1)], some (1, false)⟩ := by decide +kernel
    rw [this]
    simp only [zernVal, List.map_cons, List.map_nil, List.sum_cons, List.sum_nil]
    have e2 : Real.sqrt (x ^ 2 + y ^ 2) = ‖(⟨x, y⟩ : ℂ)‖ := by
      rw [Complex.norm_def, Complex.normSq_mk]; congr 1; ring
    have h4 : Real.sqrt ((4 : ℕ) : ℝ) = 2 := by
      rw [show ((4 : ℕ) : ℝ) = 2 ^ 2 by norm_num, Real.sqrt_sq (by norm_num)]
    rw [e2, h4]
    have := Complex.norm_mul_sin_arg (⟨x, y⟩ : ℂ)
    simp only at this
    push_cast
    rw [one_mul, pow_one, one_mul, add_zero]
    linarith
  have a1 := hF 0 0
  have a2 := hF 0 1
  have a3 := hF 0 2
  have a4 := hF 1 0
  simp only [Fin.sum_univ_three, coords, finProdFinEquiv_apply_val] at a1 a2 a3 a4
  norm_num [h1, h2, h3] at a1 a2 a3 a4
  linarith

/-- The hypotheses are met: three polynomials, all pixels of a 4 × 4 array within the circle valid, a sum of tilt and piston. -/
example : Fittable 0 3 ∧ Fittable (1 / 3) 22 ∧ (∃ Z : ℕ → ℝ → ℝ → ℝ, ∀ k, 1 ≤ k → k ≤ 3 → IsZern 0 k (Z k)) ∧ Counts (n := 4) (fun _ _ => 1) 2 1 3 := by
  classical
  refine ⟨⟨by norm_num, Or.inl ⟨rfl, by norm_num⟩⟩, ⟨by norm_num, Or.inr ⟨by norm_num, by norm_num⟩⟩, ?_, ?_⟩
  · refine ⟨fun k => if h : 1 ≤ k then (isNoll_exists h).choose else fun _ _ => 0, fun k h _ => ?_⟩
    unfold IsZern
    rw [if_pos rfl]
    dsimp only
    rw [dif_pos h]
    exact (isNoll_exists h).choose_spec
  · norm_num [Counts, place]

end Verif.FitZern
