import Verif.Props.Annular
import Verif.Props.NollCut
import Mathlib.Tactic.FieldSimp
import Mathlib.Analysis.SpecialFunctions.Trigonometric.Bounds

/-!
# C93: normalised Zernike maps

Specification: the map of mode `k` for a beam of `Nbeam` pixels samples the Noll polynomial of `k` at the pixel centres, with the radius normalised so that it is 1 at `Nbeam/2` pixels.
-/

namespace Verif.ZernMap
open Verif Verif.Noll

/-- Noll polynomial `k` (`k ≥ 1`) in Cartesian coordinates: the polynomial of the radial and azimuthal order that the Noll ordering gives to `k`, at radius `√(x²+y²)` and the polar angle. -/
def IsNoll (k : ℕ) (Z : ℝ → ℝ → ℝ) : Prop := ∀ n m, Slot k n m → ∀ x y, Z x y = zernVal (entry n m k) (Real.sqrt (x ^ 2 + y ^ 2)) (Complex.arg ⟨x, y⟩)

theorem isNoll_exists {k : ℕ} (hk : 1 ≤ k) : ∃ Z, IsNoll k Z := by
  obtain ⟨n, m, h⟩ := slot_exists hk
  refine ⟨fun x y => zernVal (entry n m k) (Real.sqrt (x ^ 2 + y ^ 2)) (Complex.arg ⟨x, y⟩), fun n' m' h' x y => ?_⟩
  obtain ⟨rfl, rfl⟩ := slot_unique h h'
  rfl

/-- Distance in pixels of sample `i` from the centre of the array: the centre is sample `N/2` for pixel centering and lies half a pixel before it for interpixel centering. -/
noncomputable def fromCentre (N : ℕ) (c : Util.Centering) (i : Fin N) : ℝ := (i : ℕ) - (N : ℝ) / 2 + if c = .interpixel then 1 / 2 else 0

theorem ceilEven_even (x : ℝ) : Even (Util.ceilEven x) := by unfold Util.ceilEven; exact even_two_mul _

theorem narray_even (Nbeam : ℝ) (c : Util.Centering) : Even (narray Nbeam c) := by
  unfold narray
  have : Even (if c = .interpixel then Util.ceilEven Nbeam else Util.ceilEven (Nbeam + 1)) := by split_ifs <;> exact ceilEven_even _
  obtain ⟨a, ha⟩ := this
  rw [ha]
  refine ⟨a.toNat, by omega⟩

theorem coord_eq {N : ℕ} (hN : Even N) (dx : ℝ) (c : Util.Centering) (i : Fin N) : coord N dx (if c = .interpixel then dx / 2 else 0) i = fromCentre N c i * dx := by
  obtain ⟨a, rfl⟩ := hN
  unfold coord fromCentre
  rw [show (a + a) / 2 = a by omega]
  split_ifs <;> push_cast <;> ring

/-- The map of a single mode. -/
theorem customMap_single {N : ℕ} (hN : Even N) (dx : ℝ) (c : Util.Centering) (k : ℕ) (hk : 1 ≤ k) (hk2 : k ≤ 276) (v : ℝ) (Z : ℝ → ℝ → ℝ) (hZ : IsNoll k Z) (j i : Fin N) :
    customMap N dx c [(k, v)] 0 j i = .ok (v * Z (fromCentre N c i * dx) (fromCentre N c j * dx)) := by
  unfold customMap pixel
  dsimp only [maxIndex, List.foldl_nil]
  rw [coord_eq hN, coord_eq hN]
  obtain ⟨s, hs, _, _, hsl⟩ := C54_index k
  obtain ⟨n, m, sl⟩ := slot_exists hk
  simp only [bind, Except.bind, hs, ne_eq, not_true_eq_false, false_and, if_false, if_true, assemble, hsl k n m hk le_rfl sl, C127_fits sl hk2, Except.map, add_zero]
  rw [hZ n m sl]
  rfl

/-- C93: an invalid centering is refused. -/
theorem C93_refused (Nbeam : ℝ) (s : String) (inds : List ℕ) (h1 : s ≠ "pixel") (h2 : s ≠ "interpixel") : genMaps Nbeam s inds = .error .valueError := by
  unfold genMaps parseCentering
  rw [if_neg h1, if_neg h2]
  rfl

/-- C93: what the cube holds. The array has the smallest even size that is at least `Nbeam` (interpixel) or `Nbeam + 1` (pixel); slice `iz` samples the Noll polynomial of its index, but with
the pixel distances from the centre multiplied by `2 Nbeam / Narray²`. -/
theorem C93_value (Nbeam : ℝ) (hb : 0 < Nbeam) (c : Util.Centering) (inds : List ℕ) (hi : ∀ k ∈ inds, 1 ≤ k ∧ k ≤ 276) :
    ∃ (N : ℕ) (f : Fin inds.length → Fin N → Fin N → Except PyErr ℝ), genMaps Nbeam (if c = .interpixel then "interpixel" else "pixel") inds = .ok ⟨N, f⟩ ∧
      Even N ∧ (if c = .interpixel then Nbeam else Nbeam + 1) ≤ N ∧ (N : ℝ) < (if c = .interpixel then Nbeam else Nbeam + 1) + 2 ∧
      ∀ iz Z, IsNoll (inds.get iz) Z → ∀ j i, f iz j i = .ok (Z (fromCentre N c i * (2 * Nbeam / N ^ 2)) (fromCentre N c j * (2 * Nbeam / N ^ 2))) := by
  have hN := narray_even Nbeam c
  have hp : parseCentering (if c = .interpixel then "interpixel" else "pixel") = .ok c := by
    cases c <;> simp [parseCentering]
  have hbound : ∀ x : ℝ, 0 < x → x ≤ ((Util.ceilEven x).toNat : ℝ) ∧ ((Util.ceilEven x).toNat : ℝ) < x + 2 := by
    intro x hx
    have h1 := Int.le_ceil ((0.5 : ℝ) * x)
    have h2 := Int.ceil_lt_add_one ((0.5 : ℝ) * x)
    have h3 : 0 < ⌈(0.5 : ℝ) * x⌉ := Int.ceil_pos.mpr (by linarith)
    have h4 : ((Util.ceilEven x).toNat : ℝ) = 2 * (⌈(0.5 : ℝ) * x⌉ : ℝ) := by
      unfold Util.ceilEven
      have : ((2 * ⌈(0.5 : ℝ) * x⌉).toNat : ℤ) = 2 * ⌈(0.5 : ℝ) * x⌉ := Int.toNat_of_nonneg (by omega)
      exact_mod_cast congrArg (fun z : ℤ => (z : ℝ)) this
    rw [h4]
    constructor <;> linarith
  refine ⟨narray Nbeam c, _, by unfold genMaps; rw [hp]; rfl, hN, ?_, ?_, ?_⟩
  · unfold narray
    split_ifs
    · exact (hbound Nbeam hb).1
    · exact (hbound (Nbeam + 1) (by linarith)).1
  · unfold narray
    split_ifs
    · exact (hbound Nbeam hb).2
    · exact (hbound (Nbeam + 1) (by linarith)).2
  · intro iz Z hZ j i
    have hs : step Nbeam (narray Nbeam c) = 2 * Nbeam / (narray Nbeam c : ℝ) ^ 2 := by
      unfold step
      by_cases h0 : (narray Nbeam c : ℝ) = 0
      · rw [h0]; simp
      · field_simp
    rw [customMap_single hN _ c _ (hi _ (List.get_mem _ _)).1 (hi _ (List.get_mem _ _)).2 1 Z hZ, one_mul, hs]

/-- The intended cube: the Noll polynomials at the pixel centres, radius 1 at `Nbeam/2` pixels. -/
def Intended (Nbeam : ℝ) (c : Util.Centering) (inds : List ℕ) : Prop :=
  ∃ (N : ℕ) (f : Fin inds.length → Fin N → Fin N → Except PyErr ℝ), genMaps Nbeam (if c = .interpixel then "interpixel" else "pixel") inds = .ok ⟨N, f⟩ ∧
    ∀ iz Z, IsNoll (inds.get iz) Z → ∀ j i, f iz j i = .ok (Z (fromCentre N c i * (2 / Nbeam)) (fromCentre N c j * (2 / Nbeam)))

/-- Tilt, index 2, is `2x`. -/
theorem isNoll_tilt : IsNoll 2 fun x _ => 2 * x := by
  intro n m h x y
  obtain ⟨rfl, rfl⟩ := slot_unique h (show Slot 2 1 1 by simp [Slot, T])
  have : entry 1 1 2 = ⟨4, [(1, 1)], some (1, true)⟩ := by decide +kernel
  rw [this]
  simp only [zernVal, List.map_cons, List.map_nil, List.sum_cons, List.sum_nil]
  have h2 : Real.sqrt (x ^ 2 + y ^ 2) = ‖(⟨x, y⟩ : ℂ)‖ := by
    rw [Complex.norm_def, Complex.normSq_mk]; congr 1; ring
  have h4 : Real.sqrt ((4 : ℕ) : ℝ) = 2 := by
    rw [show ((4 : ℕ) : ℝ) = 2 ^ 2 by norm_num, Real.sqrt_sq (by norm_num)]
  rw [h2, h4]
  have := Complex.norm_mul_cos_arg (⟨x, y⟩ : ℂ)
  simp only at this
  push_cast
  rw [one_mul, pow_one, one_mul, add_zero]
  linarith

/-- C93: the cube is the intended one whenever the array is as wide as the beam, i.e. for interpixel centering and an even integer `Nbeam`. -/
theorem C93_intended (b : ℕ) (hb : 0 < b) (inds : List ℕ) (hi : ∀ k ∈ inds, 1 ≤ k ∧ k ≤ 276) : Intended (2 * b) .interpixel inds := by
  obtain ⟨N, f, e, hE, h1, h2, h3⟩ := C93_value (2 * b) (by positivity) .interpixel inds hi
  have hN : N = 2 * b := by
    rw [if_pos rfl] at h1 h2
    obtain ⟨a, rfl⟩ := hE
    have h1' : 2 * b ≤ a + a := by exact_mod_cast h1
    have h2' : a + a < 2 * b + 2 := by exact_mod_cast h2
    omega
  refine ⟨N, f, e, fun iz Z hZ j i => ?_⟩
  rw [h3 iz Z hZ j i]
  have hb' : (b : ℝ) ≠ 0 := by positivity
  have : 2 * (2 * (b : ℝ)) / (N : ℝ) ^ 2 = 2 / (2 * (b : ℝ)) := by
    rw [hN]; push_cast; field_simp
  rw [this]

/-- C93 is violated for every other beam: if the array is not as wide as the beam, the map of tilt is not the intended one; it is the intended one times `(Nbeam/Narray)²`. In particular no
pixel-centred map is right. -/
theorem C93_tilt_scaled (Nbeam : ℝ) (hb : 0 < Nbeam) (c : Util.Centering) :
    ∃ (N : ℕ) (f : Fin 1 → Fin N → Fin N → Except PyErr ℝ), genMaps Nbeam (if c = .interpixel then "interpixel" else "pixel") [2] = .ok ⟨N, f⟩ ∧
      ∀ j i, f 0 j i = .ok ((Nbeam / N) ^ 2 * (2 * (fromCentre N c i * (2 / Nbeam)))) := by
  obtain ⟨N, f, e, hE, h1, h2, h3⟩ := C93_value Nbeam hb c [2] (by simp)
  refine ⟨N, f, e, fun j i => ?_⟩
  have := h3 0 (fun x _ => 2 * x) isNoll_tilt j i
  rw [this]
  have hn : (N : ℝ) ≠ 0 := by
    have : 0 < (if c = .interpixel then Nbeam else Nbeam + 1) := by split_ifs <;> linarith
    intro h; linarith
  congr 1
  field_simp
  try ring

/-- C93: when the maps are right: exactly if the array has the width of the beam, so never for pixel centering. -/
theorem C93_iff (Nbeam : ℝ) (hb : 0 < Nbeam) (c : Util.Centering) : (∀ inds : List ℕ, (∀ k ∈ inds, 1 ≤ k ∧ k ≤ 276) → Intended Nbeam c inds) ↔ c = .interpixel ∧ ∃ b : ℕ, Nbeam = 2 * b := by
  constructor
  · intro h
    obtain ⟨N, f, e, hI⟩ := h [2] (by simp)
    obtain ⟨N', f', e', hT⟩ := C93_tilt_scaled Nbeam hb c
    rw [e] at e'
    obtain ⟨rfl, hf⟩ := Sigma.mk.inj_iff.mp (Except.ok.inj e')
    obtain rfl := eq_of_heq hf
    obtain ⟨N'', f'', e'', hE, h1, h2, -⟩ := C93_value Nbeam hb c [2] (by simp)
    rw [e] at e''
    obtain ⟨rfl, -⟩ := Sigma.mk.inj_iff.mp (Except.ok.inj e'')
    have hpos : 0 < (if c = .interpixel then Nbeam else Nbeam + 1) := by split_ifs <;> linarith
    have hN0 : 0 < N := by
      have : (0 : ℝ) < N := lt_of_lt_of_le hpos h1
      exact_mod_cast this
    have e1 := hI 0 (fun x _ => 2 * x) isNoll_tilt ⟨0, hN0⟩ ⟨0, hN0⟩
    rw [hT] at e1
    have e2 := Except.ok.inj e1
    have hc : fromCentre N c ⟨0, hN0⟩ ≠ 0 := by
      unfold fromCentre
      obtain ⟨a, rfl⟩ := hE
      have ha : (1 : ℝ) ≤ a := by exact_mod_cast (by omega : 1 ≤ a)
      split_ifs <;> push_cast <;> intro h <;> linarith
    have hx : 2 * (fromCentre N c ⟨0, hN0⟩ * (2 / Nbeam)) ≠ 0 := by positivity
    have e3 : (Nbeam / N) ^ 2 = 1 := by
      have := mul_right_cancel₀ hx (e2.trans (one_mul _).symm)
      exact this
    have hNr : (0 : ℝ) < N := by exact_mod_cast hN0
    have e4 : Nbeam / N = 1 := by
      have : 0 < Nbeam / N := by positivity
      nlinarith
    have e5 : Nbeam = N := by field_simp at e4; exact e4
    constructor
    · by_contra hc'
      rw [if_neg hc'] at h1
      linarith
    · obtain ⟨a, rfl⟩ := hE
      exact ⟨a, by rw [e5]; push_cast; ring⟩
  · rintro ⟨rfl, b, rfl⟩ inds hi
    have : 0 < b := by
      rcases Nat.eq_zero_or_pos b with h | h
      · subst h; simp at hb
      · exact h
    exact C93_intended b this inds hi

/-- C93 is violated at the default-like setting of a pixel-centred beam, e.g. 100 pixels: tilt is `(100/102)²` times what it should be. -/
theorem C93_violated : ¬ Intended 100 .pixel [2] := by
  intro h
  obtain ⟨N, f, e, hI⟩ := h
  obtain ⟨N', f', e', hT⟩ := C93_tilt_scaled 100 (by norm_num) .pixel
  rw [e] at e'
  obtain ⟨rfl, hf⟩ := Sigma.mk.inj_iff.mp (Except.ok.inj e')
  obtain rfl := eq_of_heq hf
  obtain ⟨N'', f'', e'', hE, h1, h2, -⟩ := C93_value 100 (by norm_num) .pixel [2] (by simp)
  rw [e] at e''
  obtain ⟨rfl, -⟩ := Sigma.mk.inj_iff.mp (Except.ok.inj e'')
  rw [if_neg (by simp)] at h1 h2
  have hN : N = 102 := by
    have a1 : 101 ≤ N := by exact_mod_cast (by linarith : (101 : ℝ) ≤ N)
    have a2 : N < 103 := by exact_mod_cast (by linarith : (N : ℝ) < 103)
    obtain ⟨a, rfl⟩ := hE
    omega
  subst hN
  have e1 := hI 0 (fun x _ => 2 * x) isNoll_tilt 0 0
  rw [hT] at e1
  have e2 := Except.ok.inj e1
  simp only [fromCentre, reduceCtorEq, if_false] at e2
  norm_num at e2

theorem rad_zero {m b : ℕ} (hm : m ≠ 0) : rad m b 0 = 0 := by
  unfold rad
  exact Finset.sum_eq_zero fun u _ => by rw [zero_pow (by omega), mul_zero]

/-- Turning by half a turn multiplies mode (n, m) by `(-1)^m`. -/
theorem isNoll_parity {k n m : ℕ} (hs : Slot k n m) {Z : ℝ → ℝ → ℝ} (hZ : IsNoll k Z) (x y : ℝ) : Z (-x) (-y) = (-1) ^ m * Z x y := by
  rw [hZ n m hs, hZ n m hs]
  obtain ⟨b, hn, ha, hv, hz⟩ := entry_spec hs
  rw [hz, hz, ha, neg_sq, neg_sq]
  by_cases h0 : m = 0
  · simp [h0, angF]
  rw [if_neg h0]
  by_cases hxy : (⟨x, y⟩ : ℂ) = 0
  · have h1 : x = 0 := congrArg Complex.re hxy
    have h2 : y = 0 := congrArg Complex.im hxy
    subst h1 h2
    simp [rad_zero h0]
  have hneg : (⟨-x, -y⟩ : ℂ) = -⟨x, y⟩ := by apply Complex.ext <;> simp
  rw [hneg]
  have := Complex.arg_neg_coe_angle hxy
  rw [← Real.Angle.coe_add, Real.Angle.angle_eq_iff_two_pi_dvd_sub] at this
  obtain ⟨q, hq⟩ := this
  have ht : (m : ℝ) * Complex.arg (-⟨x, y⟩) = ((m : ℝ) * Complex.arg ⟨x, y⟩ + m * Real.pi) + ((m * q : ℤ) : ℝ) * (2 * Real.pi) := by
    push_cast
    linear_combination (m : ℝ) * hq
  rcases Bool.eq_false_or_eq_true (decide (k % 2 = 0)) with h | h <;> rw [h] <;> simp only [angF]
  · rw [ht, Real.cos_add_int_mul_two_pi, Real.cos_add_nat_mul_pi]; ring
  · rw [ht, Real.sin_add_int_mul_two_pi, Real.sin_add_nat_mul_pi]; ring

/-- C93: every map of the cube is even or odd about the centre of the array, as its mode is: for two pixels opposite each other, the values agree up to the sign `(-1)^m`. -/
theorem C93_parity (Nbeam : ℝ) (hb : 0 < Nbeam) (c : Util.Centering) (inds : List ℕ) (hi : ∀ k ∈ inds, 1 ≤ k ∧ k ≤ 276) :
    ∃ (N : ℕ) (f : Fin inds.length → Fin N → Fin N → Except PyErr ℝ), genMaps Nbeam (if c = .interpixel then "interpixel" else "pixel") inds = .ok ⟨N, f⟩ ∧
      ∀ iz n m, Slot (inds.get iz) n m → ∀ j i j' i', fromCentre N c j' = -fromCentre N c j → fromCentre N c i' = -fromCentre N c i →
        ∃ v, f iz j i = .ok v ∧ f iz j' i' = .ok ((-1) ^ m * v) := by
  obtain ⟨N, f, e, _, _, _, h3⟩ := C93_value Nbeam hb c inds hi
  refine ⟨N, f, e, fun iz n m hs j i j' i' hj hi' => ?_⟩
  obtain ⟨Z, hZ⟩ := isNoll_exists (hi _ (List.get_mem inds iz)).1
  refine ⟨_, h3 iz Z hZ j i, ?_⟩
  rw [h3 iz Z hZ j' i', hj, hi', neg_mul, neg_mul, isNoll_parity hs hZ]

theorem pixel_unobscured (obs : ℝ → ℝ → ℝ → List (ℕ × ℝ) → Except PyErr ℝ) (qs : List (ℕ × ℝ)) (hne : qs ≠ []) (h1 : ∀ q ∈ qs, 1 ≤ q.1 ∧ q.1 ≤ 276) (Z : ℕ → ℝ → ℝ → ℝ)
    (hZ : ∀ k, 1 ≤ k → IsNoll k (Z k)) (x y : ℝ) : pixel obs qs 0 x y = .ok (qs.map fun q => q.2 * Z q.1 x y).sum := by
  obtain ⟨mx, hm, hle, _⟩ := maxIndex_ok qs hne
  obtain ⟨s, hs, _, _, hsl⟩ := C54_index mx
  unfold pixel
  simp only [hm, bind, Except.bind, hs, ne_eq, not_true_eq_false, false_and, if_false, if_true]
  have : ∀ l : List (ℕ × ℝ), (∀ q ∈ l, (1 ≤ q.1 ∧ q.1 ≤ 276) ∧ q.1 ≤ mx) → assemble s (radius x y) (angle x y) l = .ok (l.map fun q => q.2 * Z q.1 x y).sum := by
    intro l
    induction l with
    | nil => intro _; rfl
    | cons q l ih =>
      intro h
      have hq := h q List.mem_cons_self
      obtain ⟨n, m, sl⟩ := slot_exists hq.1.1
      unfold assemble
      rw [hsl q.1 n m hq.1.1 hq.2 sl]
      dsimp only
      rw [C127_fits sl hq.1.2, ih fun p hp => h p (List.mem_cons_of_mem _ hp), List.map_cons, List.sum_cons, hZ q.1 hq.1.1 n m sl]
      rfl
  exact this qs fun q h => ⟨h1 q h, hle q h⟩

/-- C94: without obscuration both functions return, at every pixel, the sum over the requested modes of coefficient times Noll polynomial, for any number of modes. -/
theorem C94_sum (n : ℕ) (dx : ℝ) (c : Util.Centering) (qs : List (ℕ × ℝ)) (hne : qs ≠ []) (h1 : ∀ q ∈ qs, 1 ≤ q.1 ∧ q.1 ≤ 276) (Z : ℕ → ℝ → ℝ → ℝ) (hZ : ∀ k, 1 ≤ k → IsNoll k (Z k)) (j i : Fin n) :
    (∃ off, off = (if c = .interpixel then dx / 2 else 0) ∧ customMap n dx c qs 0 j i =
      .ok (qs.map fun q => q.2 * Z q.1 (((i : ℕ) - ((n / 2 : ℕ) : ℝ)) * dx + off) (((j : ℕ) - ((n / 2 : ℕ) : ℝ)) * dx + off)).sum) ∧
    properMap n dx qs 0 j i = .ok (qs.map fun q => q.2 * Z q.1 (((i : ℕ) - ((n / 2 : ℕ) : ℝ)) * dx) (((j : ℕ) - ((n / 2 : ℕ) : ℝ)) * dx)).sum := by
  refine ⟨⟨_, rfl, ?_⟩, ?_⟩
  · unfold customMap
    rw [pixel_unobscured _ qs hne h1 Z hZ]
    rfl
  · unfold properMap
    rw [pixel_unobscured _ qs hne h1 Z hZ]
    simp only [coord, add_zero]

/-- The family of polynomials exists, and a request of two modes meets the hypotheses. -/
example : (∃ Z : ℕ → ℝ → ℝ → ℝ, ∀ k, 1 ≤ k → IsNoll k (Z k)) ∧ ([(2, 1), (4, 3)] : List (ℕ × ℝ)) ≠ [] ∧ ∀ q ∈ ([(2, 1), (4, 3)] : List (ℕ × ℝ)), 1 ≤ q.1 ∧ q.1 ≤ 276 := by
  classical
  exact ⟨⟨fun k => if h : 1 ≤ k then (isNoll_exists h).choose else fun _ _ => 0, fun k h => by dsimp only; rw [dif_pos h]; exact (isNoll_exists h).choose_spec⟩, by simp, by simp⟩

/-- Opposite pixels exist: with interpixel centering the opposite of sample `i` is `N - 1 - i`. -/
example : fromCentre 6 .interpixel 4 = -fromCentre 6 .interpixel 1 := by
  simp only [fromCentre]; norm_num [Fin.val_ofNat]

end Verif.ZernMap

namespace Verif.ZernMap
open Verif Verif.Noll

/-- A single mode with its index, evaluated by either function without obscuration. -/
theorem pixel_single (obs : ℝ → ℝ → ℝ → List (ℕ × ℝ) → Except PyErr ℝ) {k n m : ℕ} (hk : 1 ≤ k) (sl : Slot k n m) (v x y : ℝ) :
    pixel obs [(k, v)] 0 x y = (evalStr (entry n m k) (radius x y) (angle x y)).map fun z => v * z := by
  obtain ⟨s, hs, _, _, hsl⟩ := C54_index k
  unfold pixel
  simp only [maxIndex, List.foldl_nil, bind, Except.bind, hs, ne_eq, not_true_eq_false, false_and, if_false, if_true, assemble, hsl k n m hk le_rfl sl, Except.map, add_zero]

/-- C127, violated: both functions raise SyntaxError for one mode of index 277, and for the first modes (lowest azimuthal order) of every radial order from 24 on, on every grid; and a request for the pair 357, 358
returns the same map for both, `coefficient · R(r)` without the factors sin 6θ and cos 6θ (so the maps of two modes that should be orthogonal are equal). -/
theorem C127_map_violated (N : ℕ) (dx : ℝ) (c : Util.Centering) (v : ℝ) (j i : Fin N) :
    (properMap N dx [(277, v)] 0 j i = .error .syntaxError ∧ customMap N dx c [(277, v)] 0 j i = .error .syntaxError) ∧
    (∀ k n, 24 ≤ n → Slot k n (n % 2) → properMap N dx [(k, v)] 0 j i = .error .syntaxError ∧ customMap N dx c [(k, v)] 0 j i = .error .syntaxError) ∧
    (∃ w : ℝ, properMap N dx [(357, v)] 0 j i = .ok (v * w) ∧ properMap N dx [(358, v)] 0 j i = .ok (v * w) ∧
      ∀ Z, IsNoll 357 Z → Z (coord N dx 0 i) (coord N dx 0 j) = w * Real.sin (6 * angle (coord N dx 0 i) (coord N dx 0 j))) := by
  refine ⟨⟨?_, ?_⟩, fun k n hn sl => ⟨?_, ?_⟩, ?_⟩
  · unfold properMap
    rw [pixel_single _ (by norm_num) (C127_first_violated 0 0).1, (C127_first_violated _ _).2]
    rfl
  · unfold customMap
    dsimp only
    rw [pixel_single _ (by norm_num) (C127_first_violated 0 0).1, (C127_first_violated _ _).2]
    rfl
  · unfold properMap
    have hk : 1 ≤ k := by obtain ⟨_, _, h⟩ := sl; omega
    rw [pixel_single _ hk sl, C127_high_orders_violated hn]
    rfl
  · unfold customMap
    have hk : 1 ≤ k := by obtain ⟨_, _, h⟩ := sl; omega
    dsimp only
    rw [pixel_single _ hk sl, C127_high_orders_violated hn]
    rfl
  · obtain ⟨s1, s2, w, e1, e2, z1, _⟩ := C127_silent_violated (radius (coord N dx 0 i) (coord N dx 0 j)) (angle (coord N dx 0 i) (coord N dx 0 j))
    refine ⟨w, ?_, ?_, ?_⟩
    · unfold properMap
      rw [pixel_single _ (by norm_num) s1, e1]
      rfl
    · unfold properMap
      rw [pixel_single _ (by norm_num) s2, e2]
      rfl
    · intro Z hZ
      rw [hZ 26 6 s1]
      exact z1

/-- Such modes exist: index 301 has radial order 24, azimuthal order 0. -/
example : Slot 301 24 (24 % 2) := by simp [Slot, T]

end Verif.ZernMap
