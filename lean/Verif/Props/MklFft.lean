import Verif.Model.MklFft
import Verif.Props.SimpleMap
import Verif.Props.Prop
import Verif.Lemmas.Prop
import Mathlib.Tactic.Linarith
import Mathlib.Tactic.LinearCombination

/-!
# C158: falco.mkl_fft: shifts, half spectra and transforms in place

`Optics.fft2` and `Optics.ifft2` are `numpy.fft.fft2` and `numpy.fft.ifft2` (C09).
-/

namespace Verif.MklFft

open Complex

/-! ## Specification -/

/-- A shift by `s` samples of an axis of length `n` that `fftshift` makes as documented: up to half the
axis forwards, and one and a half times its length (even lengths) or less than half of it (odd ones)
backwards. -/
def Fits (n : ℕ) (s : ℤ) : Prop := 2 * s ≤ n + (n % 2 : ℕ) ∧ (if n % 2 = 0 then -(3 * n) ≤ 2 * s else 1 - (n : ℤ) < 2 * s)

/-- Where sample `r` of an axis of length `n` belongs after centering and a further shift by `s`: cyclically
`n/2 + s` samples further (`numpy.fft.fftshift` is `s = 0`). -/
def dest (n : ℕ) (s : ℤ) (r : ℕ) : ℕ := (((r : ℤ) + (n / 2 : ℕ) + s) % n).toNat

/-! ## The order of the samples of one axis -/

theorem length_arange (a b : ℤ) : (arange a b).length = (b - a).toNat := by simp [arange]

theorem mem_arange {a b i : ℤ} : i ∈ arange a b ↔ a ≤ i ∧ i < b := by
  simp only [arange, List.mem_map, List.mem_range]
  constructor
  · rintro ⟨k, hk, rfl⟩; omega
  · intro h; exact ⟨(i - a).toNat, by omega, by omega⟩

theorem arange_getD {a b : ℤ} {j : ℕ} (h : j < (b - a).toNat) : (arange a b).getD j 0 = a + (j : ℕ) := by
  unfold arange
  rw [List.getD_eq_getElem?_getD, List.getElem?_map, List.getElem?_range h]; rfl

theorem order_getD {n : ℕ} {p : ℤ} (h0 : 0 ≤ p) (h1 : p ≤ n) {j : ℕ} (hj : j < n) :
    (arange p n ++ arange 0 p).getD j 0 = if (j : ℤ) < n - p then p + j else j + p - n := by
  split
  · next h =>
    rw [List.getD_eq_getElem?_getD, List.getElem?_append_left (by rw [length_arange]; omega), ← List.getD_eq_getElem?_getD, arange_getD (by omega)]
  · next h =>
    rw [List.getD_eq_getElem?_getD, List.getElem?_append_right (by rw [length_arange]; omega), ← List.getD_eq_getElem?_getD, length_arange, arange_getD (by omega)]
    omega

theorem pyIdx_of {n : ℕ} {i : ℤ} (h0 : 0 ≤ i) (h1 : i < n) : pyIdx n i = some i.toNat := by simp [pyIdx, h0, h1]

theorem pyIdx_isSome {n : ℕ} {i : ℤ} : (pyIdx n i).isSome ↔ -(n : ℤ) ≤ i ∧ i < n := by
  unfold pyIdx; split_ifs <;> simp <;> omega

theorem cut_fits {n : ℕ} {s : ℤ} (h : Fits n s) : 0 ≤ cut n s ∧ cut n s ≤ n ∧ ∃ q : ℤ, cut n s + n / 2 + s = n * q := by
  obtain ⟨h1, h2⟩ := h
  unfold cut
  rcases Nat.mod_two_eq_zero_or_one n with he | he
  · rw [if_pos he] at h2
    split
    · exact ⟨by omega, by omega, 1, by omega⟩
    · next hc =>
      rw [abs_of_nonpos (by omega)]
      exact ⟨by omega, by omega, 0, by omega⟩
  · rw [if_neg (by omega)] at h2
    rw [if_pos (by omega)]
    exact ⟨by omega, by omega, 1, by omega⟩

theorem order_ok {n : ℕ} {p : ℤ} (h0 : 0 ≤ p) (h1 : p ≤ n) : ((arange p n ++ arange 0 p).all fun i => (pyIdx n i).isSome) = true := by
  rw [List.all_eq_true]
  intro i hi
  rw [List.mem_append, mem_arange, mem_arange] at hi
  exact pyIdx_isSome.2 (by omega)

theorem order_length {n : ℕ} {p : ℤ} (h0 : 0 ≤ p) (h1 : p ≤ n) : (arange p n ++ arange 0 p).length = n := by
  rw [List.length_append, length_arange, length_arange]; omega

/-- A cut `p` brings sample `r` to the place `j` if `j ≡ r - p`. -/
theorem order_at {n : ℕ} {p : ℤ} (h0 : 0 ≤ p) (h1 : p ≤ n) {r : ℕ} (hr : r < n) {t : ℤ} (ht : ∃ q : ℤ, p + t = n * q) :
    pyIdx n ((arange p n ++ arange 0 p).getD (((r : ℤ) + t) % n).toNat 0) = some r := by
  obtain ⟨q, hq⟩ := ht
  have hn : (0 : ℤ) < n := by omega
  have hj0 := Int.emod_nonneg ((r : ℤ) + t) hn.ne'
  have hj1 := Int.emod_lt_of_pos ((r : ℤ) + t) hn
  have hd := Int.emod_add_mul_ediv ((r : ℤ) + t) n
  generalize ((r : ℤ) + t) / n = d at hd
  generalize hjj : ((r : ℤ) + t) % n = j at hd hj0 hj1
  have hv : (arange p n ++ arange 0 p).getD j.toNat 0 = r := by
    rw [order_getD h0 h1 (by omega)]
    have key : ∀ v : ℤ, 0 ≤ v → v < n → (∃ c : ℤ, v = r + n * c) → v = r := by
      rintro v hv0 hv1 ⟨c, hc⟩
      have h2 : v % n = r % n := by rw [hc]; simp
      rwa [Int.emod_eq_of_lt hv0 hv1, Int.emod_eq_of_lt (by omega) (by omega)] at h2
    have hc1 : j + p = r + n * (q - d) := by linear_combination hd + hq
    split
    · exact key _ (by omega) (by omega) ⟨q - d, by rw [← hc1]; omega⟩
    · exact key _ (by omega) (by omega) ⟨q - d - 1, by
        have : (r : ℤ) + n * (q - d - 1) = j + p - n := by linear_combination -hc1
        rw [this]; omega⟩
  rw [hv, pyIdx_of (by omega) (by omega), Int.toNat_natCast]

/-! ## Shifts -/

/-- Cutting one axis at `p`. -/
theorem take_cut {α : Type*} (y : Nd α) (k : ℕ) {n : ℕ} (hn : y.shape.getD k 0 = n) (hk : k < y.shape.length) {p : ℤ} (h0 : 0 ≤ p) (h1 : p ≤ n) :
    ∃ z, take y (arange p n ++ arange 0 p) k = .ok z ∧ z.shape = y.shape ∧
      ∀ (ix : List ℕ) (r : ℕ) (t : ℤ), r < n → k < ix.length → (∃ q : ℤ, p + t = n * q) → z.at_ (ix.set k (((r : ℤ) + t) % n).toNat) = y.at_ (ix.set k r) := by
  refine ⟨_, by unfold take; rw [hn, if_pos (order_ok h0 h1)], ?_, ?_⟩
  · dsimp only
    rw [order_length h0 h1]
    apply List.ext_getElem (by simp)
    intro i hi1 hi2
    rw [List.getElem_set]
    split
    · next h => subst h; rw [← hn, List.getD_eq_getElem?_getD, List.getElem?_eq_getElem hk, Option.getD_some]
    · rfl
  · intro ix r t hr hix ht
    dsimp only
    have e : ∀ v : ℕ, (ix.set k v).getD k 0 = v := fun v => by rw [List.getD_eq_getElem?_getD, List.getElem?_set_self hix, Option.getD_some]
    rw [List.set_set, e, order_at h0 h1 hr ht, Option.getD_some]

/-- C158. `fftshift` with the additional shifts `s`, `t`: the sample at index `(r, c)` of the first two axes goes to
the place centering and shifting by `s` and `t` give it (the first number moves along the first axis), for
every shift that fits and any further axes, along which nothing moves. -/
theorem C158_shift {α : Type*} (x : Nd α) (M N : ℕ) (rest : List ℕ) (hx : x.shape = M :: N :: rest) (s t : ℤ) (hs : Fits M s) (ht : Fits N t) :
    ∃ y, fftshift x (some [s, t]) none = .ok y ∧ y.shape = x.shape ∧
      ∀ r c ks, r < M → c < N → y.at_ (dest M s r :: dest N t c :: ks) = x.at_ (r :: c :: ks) := by
  obtain ⟨p0, p1, q, hq⟩ := cut_fits hs
  obtain ⟨p0', p1', q', hq'⟩ := cut_fits ht
  obtain ⟨y1, e1, s1, a1⟩ := take_cut x 0 (by rw [hx]; rfl) (by rw [hx]; simp) p0 p1
  obtain ⟨y2, e2, s2, a2⟩ := take_cut y1 1 (n := N) (by rw [s1, hx]; rfl) (by rw [s1, hx]; simp) p0' p1'
  refine ⟨y2, ?_, by rw [s2, s1], ?_⟩
  · have hz : (List.range x.shape.length).zip [s, t] = [(0, s), (1, t)] := by
      rw [hx]; simp [List.range_succ_eq_map]
    simp only [fftshift, Option.isSome_none, Bool.false_eq_true, if_false, Option.getD_some, hz, List.foldlM_cons, List.foldlM_nil]
    have g0 : x.shape.getD 0 0 = M := by rw [hx]; rfl
    have g1 : x.shape.getD 1 0 = N := by rw [hx]; rfl
    rw [g0, g1]
    unfold order
    rw [e1]
    change (take y1 _ 1 >>= fun y => pure y) = _
    rw [e2]; rfl
  · intro r c ks hr hc
    have h2 := a2 (dest M s r :: 0 :: ks) c ((N / 2 : ℕ) + t) hc (by simp) ⟨q', by push_cast; linear_combination hq'⟩
    have h1 := a1 (0 :: c :: ks) r ((M / 2 : ℕ) + s) hr (by simp) ⟨q, by push_cast; linear_combination hq⟩
    simp only [List.set_cons_succ, List.set_cons_zero, ← add_assoc] at h1 h2
    exact h2.trans h1

/-- C158. Without further arguments `fftshift` of a 2-D array is `numpy.fft.fftshift`, if no axis has
length 1. -/
theorem C158_shift_numpy {α : Type*} (x : Nd α) (M N : ℕ) (hx : x.shape = [M, N]) (hM : M ≠ 1) (hN : N ≠ 1) :
    ∃ y, fftshift x none none = .ok y ∧ y.shape = [M, N] ∧
      ∀ r c, r < M → c < N → y.at_ [(r + M / 2) % M, (c + N / 2) % N] = x.at_ [r, c] := by
  have fit : ∀ n : ℕ, n ≠ 1 → Fits n 0 := by
    intro n hn; unfold Fits; split <;> omega
  obtain ⟨y, e, s, a⟩ := C158_shift x M N [] hx 0 0 (fit M hM) (fit N hN)
  refine ⟨y, e, by rw [s, hx], fun r c hr hc => ?_⟩
  have := a r c [] hr hc
  have hd : ∀ n k : ℕ, dest n 0 k = (k + n / 2) % n := by
    intro n k
    unfold dest
    rw [add_zero]; norm_cast
  rwa [hd, hd] at this

/-- C158. Violated: documented to shift all axes, `fftshift` of a cube leaves the third axis (and any further one)
as it is. -/
theorem C158_cube_violated {α : Type*} (x : Nd α) (M N K : ℕ) (hx : x.shape = [M, N, K]) (hM : M ≠ 1) (hN : N ≠ 1) :
    ∃ y, fftshift x none none = .ok y ∧ ∀ r c k, r < M → c < N → k < K → y.at_ [(r + M / 2) % M, (c + N / 2) % N, k] = x.at_ [r, c, k] := by
  have fit : ∀ n : ℕ, n ≠ 1 → Fits n 0 := by
    intro n hn; unfold Fits; split <;> omega
  obtain ⟨y, e, s, a⟩ := C158_shift x M N [K] hx 0 0 (fit M hM) (fit N hN)
  refine ⟨y, e, fun r c k hr hc _ => ?_⟩
  have := a r c [k] hr hc
  have hd : ∀ n k : ℕ, dest n 0 k = (k + n / 2) % n := by
    intro n k
    unfold dest
    rw [add_zero]; norm_cast
  rwa [hd, hd] at this

/-- The shift of an array with one axis. -/
theorem fftshift_one {α : Type*} (x : Nd α) (n : ℕ) (hx : x.shape = [n]) (s : ℤ) : fftshift x (some [s]) none = take x (order n s) 0 := by
  have hz : (List.range x.shape.length).zip [s] = [(0, s)] := by rw [hx]; rfl
  have g0 : x.shape.getD 0 0 = n := by rw [hx]; rfl
  simp only [fftshift, Option.isSome_none, Bool.false_eq_true, if_false, Option.getD_some, hz, List.foldlM_cons, List.foldlM_nil, g0]
  cases take x (order n s) 0 <;> rfl

/-- C158. Violated: on an axis of odd length, a shift backwards by more than half of it arrives one sample too far
forwards. -/
theorem C158_shift_odd_violated {α : Type*} (x : Nd α) (n : ℕ) (hx : x.shape = [n]) (hn : n % 2 = 1) (s : ℤ) (h1 : 2 * s ≤ -1 - n)
    (h2 : -(3 * n + 1) ≤ 2 * s) :
    ∃ y, fftshift x (some [s]) none = .ok y ∧ y.shape = [n] ∧ ∀ r, r < n → y.at_ [(dest n s r + 1) % n] = x.at_ [r] := by
  have hc : cut n s = -s - (n + 1) / 2 := by
    unfold cut
    rw [if_neg (by omega), abs_of_nonpos (by omega)]
  obtain ⟨y, e, sy, a⟩ := take_cut x 0 (n := n) (p := cut n s) (by rw [hx]; rfl) (by rw [hx]; simp) (by omega) (by omega)
  refine ⟨y, by rw [fftshift_one x n hx]; exact e, by rw [sy, hx], fun r hr => ?_⟩
  have := a [0] r ((n / 2 : ℕ) + s + 1) hr (by simp) ⟨0, by rw [hc]; omega⟩
  simp only [List.set_cons_zero] at this
  rw [← this]
  congr 2
  unfold dest
  have hn0 : (0 : ℤ) < n := by omega
  have e1 := Int.emod_nonneg ((r : ℤ) + (n : ℤ) / 2 + s) hn0.ne'
  rw [← Int.natCast_inj]
  push_cast
  rw [Int.toNat_of_nonneg e1, Int.toNat_of_nonneg (Int.emod_nonneg _ hn0.ne'), Int.emod_add_emod]
  congr 1; ring

/-- C158. Violated: by exactly half of an axis of odd length (rounded down) backwards returns one sample too many; without
an additional shift this is the axis of length 1. -/
theorem C158_shift_half_violated {α : Type*} (x : Nd α) (n : ℕ) (hx : x.shape = [n]) (s : ℤ) (h : 2 * s = 1 - n) :
    ∃ y, fftshift x (some [s]) none = .ok y ∧ y.shape = [n + 1] := by
  have hp : cut n s = -1 := by
    unfold cut
    rw [if_neg (by omega), abs_of_nonpos (by omega)]; omega
  have g0 : x.shape.getD 0 0 = n := by rw [hx]; rfl
  have hl : (order n s).length = n + 1 := by
    unfold order
    rw [List.length_append, length_arange, length_arange]; omega
  rw [fftshift_one x n hx]
  refine ⟨_, by
    unfold take
    rw [g0, if_pos]
    rw [List.all_eq_true]
    intro i hi
    unfold order at hi
    rw [List.mem_append, mem_arange, mem_arange] at hi
    exact pyIdx_isSome.2 (by omega), ?_⟩
  dsimp only
  rw [hx, hl]; rfl

/-- C158. Violated: a shift forwards by more than half of the axis returns a longer array, and by more than one and a half
times its length raises IndexError. -/
theorem C158_shift_long_violated {α : Type*} (x : Nd α) (n : ℕ) (hx : x.shape = [n]) (s : ℤ) (h1 : n + (n % 2 : ℕ) < 2 * s) :
    (2 * s ≤ 3 * n + (n % 2 : ℕ) → ∃ y, fftshift x (some [s]) none = .ok y ∧ ∃ len, y.shape = [len] ∧ n < len ∧ (len : ℤ) = n / 2 + s) ∧
    (3 * n + (n % 2 : ℕ) < 2 * s → fftshift x (some [s]) none = .error .indexError) := by
  have hp : cut n s < 0 ∧ (n : ℤ) - cut n s = n / 2 + s := by
    unfold cut
    rw [if_pos (by omega)]; omega
  have hl : arange 0 (cut n s) = [] := by
    rw [← List.length_eq_zero_iff, length_arange]; omega
  have ho : order n s = arange (cut n s) n := by unfold order; rw [hl, List.append_nil]
  have g0 : x.shape.getD 0 0 = n := by rw [hx]; rfl
  rw [fftshift_one x n hx, ho]
  constructor
  · intro h2
    refine ⟨_, by unfold take; rw [g0, if_pos]; rw [List.all_eq_true]; intro i hi; rw [mem_arange] at hi; exact pyIdx_isSome.2 (by omega), _, by rw [hx, length_arange]; rfl, by omega, by omega⟩
  · intro h2
    unfold take
    rw [g0, if_neg]
    rw [List.all_eq_true]
    intro h
    have := pyIdx_isSome.1 (h (cut n s) (mem_arange.2 (by omega)))
    omega

/-- C158. Violated: an array with a single row comes back with two, each the shifted row. -/
theorem C158_single_row_violated {α : Type*} (x : Nd α) (N : ℕ) (hx : x.shape = [1, N]) (hN : N ≠ 1) :
    ∃ y, fftshift x none none = .ok y ∧ y.shape = [2, N] ∧ ∀ r c, r < 2 → c < N → y.at_ [r, (c + N / 2) % N] = x.at_ [0, c] := by
  have fit : Fits N 0 := by unfold Fits; split <;> omega
  obtain ⟨p0, p1, q, hq⟩ := cut_fits fit
  have o1 : order 1 0 = [-1, 0] := by decide
  have e1 : ∃ y1, take x (order 1 0) 0 = .ok y1 ∧ y1.shape = [2, N] ∧ ∀ r c, r < 2 → y1.at_ [r, c] = x.at_ [0, c] := by
    refine ⟨_, by unfold take; rw [o1, hx]; exact if_pos rfl, ?_, ?_⟩
    · rfl
    · intro r c hr
      have : r = 0 ∨ r = 1 := by omega
      rcases this with rfl | rfl <;> rfl
  obtain ⟨y1, e1, s1, a1⟩ := e1
  obtain ⟨y2, e2, s2, a2⟩ := take_cut y1 1 (n := N) (by rw [s1]; rfl) (by rw [s1]; simp) p0 p1
  refine ⟨y2, ?_, by rw [s2, s1], ?_⟩
  · have hz : (List.range x.shape.length).zip [(0 : ℤ), 0] = [(0, 0), (1, 0)] := by rw [hx]; rfl
    have g0 : x.shape.getD 0 0 = 1 := by rw [hx]; rfl
    have g1 : x.shape.getD 1 0 = N := by rw [hx]; rfl
    simp only [fftshift, Option.isSome_none, Bool.false_eq_true, if_false, Option.getD_none, hz, List.foldlM_cons, List.foldlM_nil, g0, g1]
    rw [e1]
    change (take y1 _ 1 >>= fun y => pure y) = _
    unfold order
    rw [e2]; rfl
  · intro r c hr hc
    have h2 := a2 [r, 0] c (N / 2 : ℕ) hc (by simp) ⟨q, by push_cast; linear_combination hq⟩
    simp only [List.set_cons_succ, List.set_cons_zero] at h2
    rw [a1 r c hr] at h2
    rw [← h2]
    norm_cast

/-- C158. Violated: a request for particular axes raises NameError. -/
theorem C158_axes_violated {α : Type*} (x : Nd α) (additional : Option (List ℤ)) (axes : List ℕ) : fftshift x additional (some axes) = .error .nameError := rfl

/-! ## Transforms -/

/-- The array with the entries of `E`. -/
def arr {M N : ℕ} (E : ZMod M → ZMod N → ℂ) : Nd ℂ := ⟨[M, N], fun ix => E (ix.getD 0 0 : ℕ) (ix.getD 1 0 : ℕ)⟩

/-- The argument holds the entries `E`. -/
def Holds {M N : ℕ} (a : Nd ℂ) (E : ZMod M → ZMod N → ℂ) : Prop := a.shape = [M, N] ∧ ∀ r c, r < M → c < N → a.at_ [r, c] = E r c

theorem holds_arr {M N : ℕ} (E : ZMod M → ZMod N → ℂ) : Holds (arr E) E := ⟨rfl, fun _ _ _ _ => rfl⟩

theorem proper_holds {M N : ℕ} [NeZero M] [NeZero N] {a : Nd ℂ} {E : ZMod M → ZMod N → ℂ} (h : Holds a E) (norm : Norm) :
    (∃ b, properFft2 true a norm true = .ok b ∧
      Holds b fun k l => (if norm = .ortho then 1 / (Real.sqrt ((M : ℝ) * N) : ℂ) else 1) * Optics.fft2 E k l) ∧
    (∃ b, properFft2 true a norm false = .ok b ∧
      Holds b fun k l => (if norm = .ortho then (M : ℂ) * N / (Real.sqrt ((M : ℝ) * N) : ℂ) else if norm = .none then 1 else (M : ℂ) * N) * Optics.ifft2 E k l) := by
  obtain ⟨m, rfl⟩ := Nat.exists_eq_succ_of_ne_zero (NeZero.ne M)
  obtain ⟨n, rfl⟩ := Nat.exists_eq_succ_of_ne_zero (NeZero.ne N)
  obtain ⟨hs, ha⟩ := h
  have hE : (fun (i : ZMod (m + 1)) (j : ZMod (n + 1)) => a.at_ [i.val, j.val]) = E := by
    funext i j
    rw [ha _ _ (ZMod.val_lt i) (ZMod.val_lt j), ZMod.natCast_zmod_val, ZMod.natCast_zmod_val]
  simp only [Nat.succ_eq_add_one] at hs
  constructor
  · refine ⟨_, by unfold properFft2; rw [if_neg (by simp), hs]; exact if_pos rfl, rfl, ?_⟩
    intro r c _ _
    dsimp only
    rw [hE]; rfl
  · refine ⟨_, by unfold properFft2; rw [if_neg (by simp), hs]; exact if_neg (by simp), rfl, ?_⟩
    intro r c _ _
    dsimp only
    rw [hE]
    have hM : (((m + 1 : ℕ) : ℂ)) ≠ 0 := by exact_mod_cast Nat.succ_ne_zero m
    have hN : (((n + 1 : ℕ) : ℂ)) ≠ 0 := by exact_mod_cast Nat.succ_ne_zero n
    simp only [List.getD_cons_zero, List.getD_cons_succ, Nat.succ_eq_add_one]
    cases norm <;> simp only [reduceCtorEq, if_true, if_false] <;> field_simp

/-- C158. What `fft2` of a complex array does, for any sizes but 1: its argument is overwritten with numpy's `fft2` (over
`√(MN)` for 'ortho'), and the array returned is that, centered.  Likewise `ifft2`. -/
theorem C158_fft2 {M N : ℕ} [NeZero M] [NeZero N] (hM : M ≠ 1) (hN : N ≠ 1) (a : Nd ℂ) (E : ZMod M → ZMod N → ℂ) (ha : Holds a E) (norm : Norm) :
    (∃ a' y, fft2 true a norm = .ok (a', y) ∧ Holds a' (fun k l => (if norm = .ortho then 1 / (Real.sqrt ((M : ℝ) * N) : ℂ) else 1) * Optics.fft2 E k l) ∧
      y.shape = [M, N] ∧ ∀ r c, r < M → c < N → y.at_ [(r + M / 2) % M, (c + N / 2) % N] = a'.at_ [r, c]) ∧
    (∃ a' y, ifft2 true a norm = .ok (a', y) ∧
      Holds a' (fun k l => (if norm = .ortho then (M : ℂ) * N / (Real.sqrt ((M : ℝ) * N) : ℂ) else if norm = .none then 1 else (M : ℂ) * N) * Optics.ifft2 E k l) ∧
      y.shape = [M, N] ∧ ∀ r c, r < M → c < N → y.at_ [(r + M / 2) % M, (c + N / 2) % N] = a'.at_ [r, c]) := by
  obtain ⟨⟨b, e, hb⟩, b', e', hb'⟩ := proper_holds ha norm
  obtain ⟨y, ey, sy, ay⟩ := C158_shift_numpy b M N hb.1 hM hN
  obtain ⟨y', ey', sy', ay'⟩ := C158_shift_numpy b' M N hb'.1 hM hN
  refine ⟨⟨b, y, ?_, hb, sy, ay⟩, b', y', ?_, hb', sy', ay'⟩
  · unfold fft2; rw [e]; change (fftshift b none none >>= fun y => pure (b, y)) = _; rw [ey]; rfl
  · unfold ifft2; rw [e']; change (fftshift b' none none >>= fun y => pure (b', y)) = _; rw [ey']; rfl

/-- C158. Real arrays are refused, unlike by numpy. -/
theorem C158_real_violated (a : Nd ℂ) (norm : Norm) : fft2 false a norm = .error .valueError ∧ ifft2 false a norm = .error .valueError := ⟨rfl, rfl⟩

/-- C158. `ifft2` of an array that `fft2` has overwritten restores it: for `norm` None and 'ortho' the array holds
its entries from before `fft2` again. -/
theorem C158_restored {M N : ℕ} [NeZero M] [NeZero N] (hM : M ≠ 1) (hN : N ≠ 1) (a : Nd ℂ) (E : ZMod M → ZMod N → ℂ) (ha : Holds a E) (norm : Norm)
    (hn : norm ≠ .other) : ∃ a' y a'' y', fft2 true a norm = .ok (a', y) ∧ ifft2 true a' norm = .ok (a'', y') ∧ Holds a'' E := by
  obtain ⟨⟨a', y, e, h, -⟩, -⟩ := C158_fft2 hM hN a E ha norm
  obtain ⟨-, a'', y', e', h', -⟩ := C158_fft2 hM hN a' _ h norm
  refine ⟨a', y, a'', y', e, e', h'.1, fun r c hr hc => ?_⟩
  rw [h'.2 r c hr hc]
  dsimp only
  have hsm : ∀ (w : ℂ) (F : ZMod M → ZMod N → ℂ) (k : ZMod M) (l : ZMod N), Optics.ifft2 (fun i j => w * F i j) k l = w * Optics.ifft2 F k l := by
    intro w F k l
    unfold Optics.ifft2 Optics.ifft1
    simp only [Finset.mul_sum]
    refine Finset.sum_congr rfl fun i _ => Finset.sum_congr rfl fun j _ => ?_
    ring
  rw [hsm, Optics.ifft2_fft2]
  have hM0 : (M : ℝ) ≠ 0 := by exact_mod_cast NeZero.ne M
  have hN0 : (N : ℝ) ≠ 0 := by exact_mod_cast NeZero.ne N
  have hpos : (0 : ℝ) < (M : ℝ) * N := by
    have h1 : (0 : ℝ) < M := by exact_mod_cast NeZero.pos M
    have h2 : (0 : ℝ) < N := by exact_mod_cast NeZero.pos N
    exact mul_pos h1 h2
  have hs : ((Real.sqrt ((M : ℝ) * N) : ℝ) : ℂ) ≠ 0 := by exact_mod_cast (Real.sqrt_pos.2 hpos).ne'
  have hsq : ((Real.sqrt ((M : ℝ) * N) : ℝ) : ℂ) * (Real.sqrt ((M : ℝ) * N) : ℝ) = M * N := by
    rw [← Complex.ofReal_mul, Real.mul_self_sqrt hpos.le]; push_cast; rfl
  cases norm
  · simp
  · simp only [if_true]
    rw [← hsq]; field_simp
  · exact absurd rfl hn

/-- C158. Violated: documented as `numpy.fft`'s, `ifft2` of what `fft2` returns is not the array transformed: of a single one at the
index (0, 0) it makes one at (M/2, N/2). -/
theorem C158_inverse_violated {M N : ℕ} [NeZero M] [NeZero N] (hM : M ≠ 1) (hN : N ≠ 1) (a : Nd ℂ) (ha : a.shape = [M, N])
    (h1 : ∀ r c, r < M → c < N → a.at_ [r, c] = if r = 0 ∧ c = 0 then 1 else 0) :
    ∃ a' y y' z, fft2 true a .none = .ok (a', y) ∧ ifft2 true y .none = .ok (y', z) ∧ z.at_ [M / 2, N / 2] = 1 ∧ a.at_ [M / 2, N / 2] = 0 := by
  have hM0 := NeZero.pos M
  have hN0 := NeZero.pos N
  have hz : ∀ (K k : ℕ) [NeZero K], k < K → (((k : ℕ) : ZMod K) = 0 ↔ k = 0) := by
    intro K k _ hk
    rw [ZMod.natCast_eq_zero_iff]
    exact ⟨fun h => Nat.eq_zero_of_dvd_of_lt h hk, fun h => h ▸ dvd_zero _⟩
  let E : ZMod M → ZMod N → ℂ := fun i j => if i = 0 ∧ j = 0 then 1 else 0
  have hE : Holds a E := by
    refine ⟨ha, fun r c hr hc => ?_⟩
    rw [h1 r c hr hc]
    simp only [E, hz M r hr, hz N c hc]
  obtain ⟨⟨a', y, e, h, sy, ay⟩, -⟩ := C158_fft2 hM hN a E hE .none
  have hF : ∀ k l, Optics.fft2 E k l = 1 := by
    intro k l
    unfold Optics.fft2 Optics.fft1
    rw [Finset.sum_eq_single (0 : ZMod M)]
    · dsimp only
      rw [Finset.sum_eq_single (0 : ZMod N)]
      · simp [E]
      · intro b _ hb; simp [E, hb]
      · simp
    · intro b _ hb; simp [E, hb]
    · simp
  have hy : Holds y fun (_ : ZMod M) (_ : ZMod N) => (1 : ℂ) := by
    refine ⟨sy, fun r c hr hc => ?_⟩
    have back : ∀ (K k : ℕ), k < K → ∃ r, r < K ∧ (r + K / 2) % K = k := by
      intro K k hk
      refine ⟨(k + (K - K / 2)) % K, Nat.mod_lt _ (by omega), ?_⟩
      rw [Nat.mod_add_mod]
      have : k + (K - K / 2) + K / 2 = k + K := by omega
      rw [this, Nat.add_mod_right, Nat.mod_eq_of_lt hk]
    obtain ⟨r', hr', er⟩ := back M r hr
    obtain ⟨c', hc', ec⟩ := back N c hc
    have := ay r' c' hr' hc'
    rw [er, ec, h.2 r' c' hr' hc'] at this
    rw [this]; dsimp only; rw [hF]; simp
  obtain ⟨-, y', z, e', h', -, az⟩ := C158_fft2 hM hN y _ hy .none
  refine ⟨a', y, y', z, e, e', ?_, ?_⟩
  · have := az 0 0 hM0 hN0
    rw [zero_add, zero_add, Nat.mod_eq_of_lt (by omega), Nat.mod_eq_of_lt (by omega), h'.2 0 0 hM0 hN0] at this
    rw [this]
    unfold Optics.ifft2 Optics.ifft1
    have hMc : (M : ℂ) ≠ 0 := by exact_mod_cast NeZero.ne M
    have hNc : (N : ℂ) ≠ 0 := by exact_mod_cast NeZero.ne N
    simp [ZMod.card, hMc, hNc]
  · rw [h1 _ _ (by omega) (by omega), if_neg (by omega)]

/-! ## Half spectra -/

theorem conj_at {n : ℕ} [NeZero n] (a : ZMod n → ZMod n → ℝ) {k l k' l' : ℕ} (hk : k + k' = n ∨ k + k' = 0) (hl : l + l' = n ∨ l + l' = 0) :
    starRingEnd ℂ (Optics.fft2 (fun i j => (a i j : ℂ)) (k' : ZMod n) (l' : ZMod n)) = Optics.fft2 (fun i j => (a i j : ℂ)) (k : ZMod n) (l : ZMod n) := by
  have h := SimpleMap.dft_neg a (k : ZMod n) (l : ZMod n)
  unfold PsdMap.dft at h
  have neg : ∀ {p q : ℕ}, (p + q = n ∨ p + q = 0) → -(p : ZMod n) = (q : ZMod n) := by
    intro p q hpq
    rw [neg_eq_iff_add_eq_zero, ← Nat.cast_add]
    rcases hpq with h | h <;> rw [h] <;> simp
  rw [neg hk, neg hl] at h
  exact h

/-- C158. For a real square array of even size `cce2full` completes what `rfft2` returns to the full spectrum: numpy's
`fft2` of the array, whatever `norm` is. -/
theorem C158_full {m : ℕ} (he : Even (m + 1)) (a : ZMod (m + 1) → ZMod (m + 1) → ℝ) (norm : Norm) :
    ∃ A B, rfft2 .real a norm = .ok (.complex, A) ∧ cce2full A = .ok B ∧ B.h = m + 1 ∧ B.w = m + 1 ∧
      ∀ k l, k < m + 1 → l < m + 1 → B.at_ k l = Optics.fft2 (fun i j => (a i j : ℂ)) (k : ZMod (m + 1)) (l : ZMod (m + 1)) := by
  obtain ⟨t, ht⟩ := he
  refine ⟨⟨m + 1, (m + 1) / 2 + 1, fun i j => Optics.fft2 (fun k l => (a k l : ℂ)) (i : ZMod (m + 1)) (j : ZMod (m + 1))⟩, _, by unfold rfft2; rw [if_pos rfl], by
    unfold cce2full assigned
    dsimp only
    rw [if_pos ⟨.inl rfl, .inl (by omega)⟩, if_pos ⟨.inl rfl, .inl (by omega)⟩]
    dsimp only [bind, Except.bind]
    rw [if_neg (show ¬ (m + 1 = 0) by omega), if_pos ⟨.inl rfl, .inl (by omega)⟩], rfl, rfl, ?_⟩
  · intro k l hk hl
    dsimp only
    split
    · next hlt =>
      have e1 : (if m + 1 = 1 then 0 else k) = k := by split <;> omega
      have e2 : (if (m + 1) / 2 + 1 = 1 then 0 else l) = l := by split <;> omega
      rw [e1, e2]
    · next hlt =>
      split
      · next h0 =>
        subst h0
        have e2 : (if (m + 1) / 2 + 1 - 2 = 1 then 0 else l - ((m + 1) / 2 + 1)) = l - ((m + 1) / 2 + 1) := by split <;> omega
        rw [e2]
        exact conj_at a (.inr rfl) (.inl (by omega))
      · next h0 =>
        have e1 : (if m + 1 - 1 = 1 then 0 else k - 1) = k - 1 := by split <;> omega
        have e2 : (if (m + 1) / 2 + 1 - 2 = 1 then 0 else l - ((m + 1) / 2 + 1)) = l - ((m + 1) / 2 + 1) := by split <;> omega
        rw [e1, e2]
        exact conj_at a (.inl (by omega)) (.inl (by omega))

/-- C158. Violated: for odd sizes other than 1 and 5 `cce2full` raises ValueError; for 5 it returns an array in which the column 3
repeats the column 4, so it is the spectrum only if those agree. -/
theorem C158_full_odd_violated {m : ℕ} (a : ZMod (m + 1) → ZMod (m + 1) → ℝ) (norm : Norm) (A : Mat ℂ) (hA : rfft2 .real a norm = .ok (.complex, A)) :
    (Odd (m + 1) → m + 1 ≠ 1 → m + 1 ≠ 5 → cce2full A = .error .valueError) ∧
    (m + 1 = 5 → ∃ B, cce2full A = .ok B ∧ ∀ k, k < 5 → B.at_ k 3 = Optics.fft2 (fun i j => (a i j : ℂ)) (k : ZMod (m + 1)) (4 : ℕ)) := by
  unfold rfft2 at hA
  rw [if_pos rfl] at hA
  simp only [Except.ok.injEq, Prod.mk.injEq, true_and] at hA
  subst hA
  constructor
  · rintro ⟨t, ht⟩ h1 h5
    unfold cce2full assigned
    dsimp only
    rw [if_pos ⟨.inl rfl, .inl (by omega)⟩, if_neg (by omega)]
    rfl
  · intro h5
    obtain rfl : m = 4 := by omega
    refine ⟨_, by
      unfold cce2full assigned
      dsimp only
      rw [if_pos ⟨.inl rfl, .inl (by omega)⟩, if_pos ⟨.inl rfl, .inr (by omega)⟩]
      dsimp only [bind, Except.bind]
      rw [if_neg (show ¬ (4 + 1 = 0) by norm_num), if_pos ⟨.inl rfl, .inr (by omega)⟩], fun k hk => ?_⟩
    dsimp only
    rw [if_neg (by norm_num)]
    split
    · next h0 =>
      subst h0
      exact conj_at a (.inr rfl) (.inl (by norm_num))
    · next h0 =>
      exact conj_at a (.inl (by simp; omega)) (.inl (by norm_num))

/-- C158. Violated: `rfft2` ignores its `norm`. -/
theorem C158_norm_violated {m n : ℕ} (d : Dtype) (a : ZMod (m + 1) → ZMod (n + 1) → ℝ) (p q : Norm) : rfft2 d a p = rfft2 d a q := rfl

/-- C158. Violated: `irfft2`, documented to take what `rfft2` returns, refuses all of it with AssertionError. -/
theorem C158_irfft2_violated {m n : ℕ} (d : Dtype) (a : ZMod (m + 1) → ZMod (n + 1) → ℝ) (p q : Norm) (A : Dtype × Mat ℂ) (hA : rfft2 d a p = .ok A) :
    irfft2 A q = .error .assertion := by
  unfold rfft2 at hA
  split at hA
  · simp only [Except.ok.injEq] at hA
    subst hA
    rfl
  · cases hA

/-! ## The hypotheses are met -/

/-- An axis of 8 samples shifted by -12 … 4, one of 7 by -2 … 4. -/
example : Fits 8 (-12) ∧ Fits 8 4 ∧ ¬ Fits 8 5 ∧ Fits 7 (-2) ∧ Fits 7 4 ∧ ¬ Fits 7 (-3) := by unfold Fits; decide

/-- Centering eight samples and shifting them by two more. -/
example : (List.range 8).map (dest 8 2) = [6, 7, 0, 1, 2, 3, 4, 5] := by decide

example : ∃ y, fftshift (⟨[4, 3], fun ix => ix⟩ : Nd (List ℕ)) none none = .ok y ∧ y.at_ [2, 1] = [0, 0] ∧ y.at_ [3, 0] = [1, 2] := by
  obtain ⟨y, e, -, a⟩ := C158_shift_numpy (⟨[4, 3], fun ix => ix⟩ : Nd (List ℕ)) 4 3 rfl (by norm_num) (by norm_num)
  exact ⟨y, e, a 0 0 (by norm_num) (by norm_num), a 1 2 (by norm_num) (by norm_num)⟩

/-- Odd and long shifts, as in the violations: 7 samples by -5, by 9, and by 12. -/
example : (∃ y, fftshift (⟨[7], fun ix => ix⟩ : Nd (List ℕ)) (some [-5]) none = .ok y ∧ y.at_ [6] = [0]) ∧
    (∃ y, fftshift (⟨[7], fun ix => ix⟩ : Nd (List ℕ)) (some [9]) none = .ok y ∧ y.shape = [12]) ∧
    fftshift (⟨[7], fun ix => ix⟩ : Nd (List ℕ)) (some [12]) none = .error .indexError := by
  refine ⟨?_, ?_, (C158_shift_long_violated _ 7 rfl 12 (by norm_num)).2 (by norm_num)⟩
  · obtain ⟨y, e, -, a⟩ := C158_shift_odd_violated (⟨[7], fun ix => ix⟩ : Nd (List ℕ)) 7 rfl rfl (-5) (by norm_num) (by norm_num)
    exact ⟨y, e, a 0 (by norm_num)⟩
  · obtain ⟨y, e, len, h, -, hl⟩ := (C158_shift_long_violated (⟨[7], fun ix => ix⟩ : Nd (List ℕ)) 7 rfl 9 (by norm_num)).1 (by norm_num)
    exact ⟨y, e, by rw [h]; congr 1; omega⟩

/-- A single one on a 4 × 6 grid. -/
example : ∃ a' y y' z, fft2 true (arr fun (i : ZMod 4) (j : ZMod 6) => if i = 0 ∧ j = 0 then 1 else 0) .none = .ok (a', y) ∧
    ifft2 true y .none = .ok (y', z) ∧ z.at_ [2, 3] = 1 := by
  obtain ⟨a', y, y', z, e, e', h, -⟩ := C158_inverse_violated (M := 4) (N := 6) (by norm_num) (by norm_num)
    (arr fun (i : ZMod 4) (j : ZMod 6) => if i = 0 ∧ j = 0 then 1 else 0) rfl (by
      intro r c hr hc
      have h4 : ((r : ZMod 4) = 0 ↔ r = 0) := by
        rw [ZMod.natCast_eq_zero_iff]; omega
      have h6 : ((c : ZMod 6) = 0 ↔ c = 0) := by
        rw [ZMod.natCast_eq_zero_iff]; omega
      simp only [arr, List.getD_cons_zero, List.getD_cons_succ, h4, h6])
  exact ⟨a', y, y', z, e, e', h⟩

end Verif.MklFft
