import Verif.Model.Masks
import Verif.Props.Ellipse
import Verif.Props.Prop
import Verif.Props.Util

/-!
# C99, C100: DM stops and annular focal-plane masks
-/

namespace Verif.Masks
open Verif Verif.Shape Verif.Proper

/-- The closed disc. -/
def disc (xc yc r : ℝ) : Set (ℝ × ℝ) := {p | (p.1 - xc) ^ 2 + (p.2 - yc) ^ 2 ≤ r ^ 2}

/-- The disc as drawn: the square of the radius is enlarged by the relative amount `1e-10`. -/
def discD (xc yc r : ℝ) : Set (ℝ × ℝ) := {p | (p.1 - xc) ^ 2 + (p.2 - yc) ^ 2 ≤ r ^ 2 * (1 + 1e-10)}

theorem ellSet_disc (xc yc r t : ℝ) (hr : 0 < r) : ellSet xc yc r r t 1e-10 = discD xc yc r := by
  ext p
  simp only [ellSet, discD, Set.mem_setOf_eq]
  have h : (((p.1 - xc) * Real.cos t + (p.2 - yc) * Real.sin t) / r) ^ 2 + ((-(p.1 - xc) * Real.sin t + (p.2 - yc) * Real.cos t) / r) ^ 2 =
      ((p.1 - xc) ^ 2 + (p.2 - yc) ^ 2) / r ^ 2 := by
    rw [div_pow, div_pow, ← add_div]
    congr 1
    linear_combination ((p.1 - xc) ^ 2 + (p.2 - yc) ^ 2) * Real.cos_sq_add_sin_sq t
  rw [h, div_le_iff₀ (by positivity), mul_comm]

theorem circ_hx (xc yc r : ℝ) : Ell.hx ⟨xc, yc, r, r, 0 * Real.pi / 180⟩ = r := by simp [Ell.hx]
theorem circ_hy (xc yc r : ℝ) : Ell.hy ⟨xc, yc, r, r, 0 * Real.pi / 180⟩ = r := by simp [Ell.hy]

/-- Undoing PROPER's shift. -/
theorem readOut_apply {n : ℕ} (s : WF n) (img : ZMod n → ZMod n → ℝ) (i j : ZMod n) (h0 : ∀ i j, 0 ≤ img i j) (hs : ∀ i j, s.arr i j = 1) : readOut (applyMask s img) i j = img i j := by
  simp only [readOut, applyMask, Optics.ifftshift, Optics.roll2, shiftCenter, hs, one_mul, Complex.norm_real, Real.norm_eq_abs]
  rw [abs_of_nonneg (h0 _ _)]
  push_cast
  congr 1 <;> ring

theorem readOut_one {n : ℕ} (s : WF n) (i j : ZMod n) (hs : ∀ i j, s.arr i j = 1) : readOut s i j = 1 := by
  simp [readOut, Optics.ifftshift, Optics.roll2, hs]

theorem two_le_ceilEven (x : ℝ) (hx : 0 < x) : 2 ≤ Util.ceilEven x ∧ x ≤ Util.ceilEven x ∧ (Util.ceilEven x : ℝ) < x + 2 ∧ Even (Util.ceilEven x) := by
  unfold Util.ceilEven
  have h1 : 0 < ⌈(0.5 : ℝ) * x⌉ := Int.ceil_pos.mpr (by linarith)
  have h2 := Int.le_ceil ((0.5 : ℝ) * x)
  have h3 := Int.ceil_lt_add_one ((0.5 : ℝ) * x)
  refine ⟨by omega, ?_, ?_, ⟨⌈(0.5 : ℝ) * x⌉, by ring⟩⟩ <;> push_cast <;> linarith

/-- A centred disc is on the grid. -/
theorem onGrid_of (n : ℕ) (hn : 2 ≤ n) (c r : ℝ) (hr : 0 < r) (h0 : -(1 / 2) < c) (h1 : c < n - 1 / 2) : OnGrid n c r := by
  constructor
  · have h := (Dm.npRound_bounds (c + r)).1
    have : (-1 : ℝ) < Dm.npRound (c + r) := by linarith
    have : (-1 : ℤ) < Dm.npRound (c + r) := by exact_mod_cast this
    omega
  · have h := (Dm.npRound_bounds (c - r)).2
    have : (Dm.npRound (c - r) : ℝ) < n := by linarith
    exact_mod_cast this

/-- The centre of the mask in pixels. -/
noncomputable def centre (n : ℕ) (c : Util.Centering) : ℝ := match c with
  | .pixel => (n : ℝ) / 2
  | .interpixel => ((n : ℝ) - 1) / 2

theorem dmStop_size (dx D : ℝ) (hdx : 0 < dx) (hD : 0 < D) (c : Util.Centering) :
    2 ≤ initSize D dx c ∧ Even (initSize D dx c) ∧ D / dx + slack c ≤ initSize D dx c ∧
      (initSize D dx c : ℝ) < D / dx + slack c + 2 := by
  have hq : 0 < D / dx := div_pos hD hdx
  have hp : 0 < D / dx + slack c := by cases c <;> simp only [slack] <;> linarith
  obtain ⟨h1, h2, h3, h4⟩ := two_le_ceilEven _ hp
  have h5 : ((initSize D dx c : ℕ) : ℤ) = Util.ceilEven (D / dx + slack c) := by
    unfold initSize; exact Int.toNat_of_nonneg (by omega)
  have h6 : ((initSize D dx c : ℕ) : ℝ) = (Util.ceilEven (D / dx + slack c) : ℝ) := by exact_mod_cast h5
  refine ⟨by omega, ?_, by rw [h6]; exact h2, by rw [h6]; exact h3⟩
  rw [← h5] at h4; exact_mod_cast h4

/-- **C99.** `falco_gen_DM_stop` succeeds for every positive sampling and diameter, on an even-sized array, and every pixel is the fraction of its `nsub × nsub` points lying in the
centred disc of the given diameter (centre: pixel `N/2`, or half a pixel before it for interpixel centering). -/
theorem C99_dm_stop (p : Proc) (hk : Odd p.nsub) (hk3 : p.nsub ≤ 1000) (dx D : ℝ) (hdx : 0 < dx) (hD : 0 < D) (hbig : D / dx ≤ 1e7) (c : Util.Centering) :
    Even (initSize D dx c) ∧ ∃ img, dmStop p dx D c = .ok img ∧ ∀ i j, img i j =
      coverage p.nsub (discD (centre (initSize D dx c) c) (centre (initSize D dx c) c) (D / dx / 2)) 1 j.val i.val := by
  obtain ⟨hn2, hev, -, -⟩ := dmStop_size dx D hdx hD c
  refine ⟨hev, ?_⟩
  unfold dmStop
  generalize hn : initSize D dx c = n at *
  have hn0 : (n : ℝ) ≠ 0 := by have : 0 < n := by omega
                               positivity
  have hhalf : ((n / 2 : ℕ) : ℝ) = (n : ℝ) / 2 := by
    obtain ⟨m, rfl⟩ := hev
    have : (m + m) / 2 = m := by omega
    rw [this]; push_cast; ring
  have hwdx : (begin_ n (n * dx) 1e-6 1).dx = dx := by simp only [begin_]; field_simp
  set cs : ℝ := cshift dx c with hcs
  have hcen : ((n / 2 : ℕ) : ℝ) + cs / dx = centre n c := by
    rw [hhalf, hcs]
    cases c
    · simp [centre, cshift]
    · simp only [centre, cshift]; field_simp; ring
  set e : Ell := Ell.ofArgs n (begin_ n (n * dx) 1e-6 1).dx (beamradius (begin_ n (n * dx) 1e-6 1)) false (D / 2) (D / 2) cs cs 0 with he
  have he' : e = ⟨centre n c, centre n c, D / dx / 2, D / dx / 2, 0 * Real.pi / 180⟩ := by
    rw [he]
    simp only [Ell.ofArgs, Bool.false_eq_true, if_false, hwdx, hcen]
    congr 1 <;> ring
  have hr : 0 < D / dx / 2 := by positivity
  have hng : OnGrid n (centre n c) (D / dx / 2) := by
    have hn2' : (2 : ℝ) ≤ n := by exact_mod_cast hn2
    apply onGrid_of n hn2 _ _ hr <;> cases c <;> simp only [centre] <;> linarith
  have hok := (C98_error_iff n p.nsub e (by rw [he']; exact hr) (by rw [he']; exact hr) false).2.mpr (by
    rw [he']; rw [circ_hx, circ_hy]; exact ⟨hn2, hng, hng⟩)
  obtain ⟨img, himg⟩ := hok
  have hcov := C98_coverage n p.nsub hk hk3 e (by rw [he']; exact hr) (by rw [he']; exact hr) (by rw [he']; norm_num at hbig ⊢; linarith) (by rw [he']; norm_num at hbig ⊢; linarith) false img himg
  refine ⟨readOut (applyMask (begin_ n (n * dx) 1e-6 1) img), ?_, fun i j => ?_⟩
  · simp only [circularAperture, ← he, himg, bind, Except.bind, pure, Except.pure]
  · rw [readOut_apply _ _ _ _ (fun i j => by rw [hcov]; simp only [Bool.false_eq_true, if_false]; exact coverage_nonneg ..) (fun _ _ => rfl), hcov]
    simp only [Bool.false_eq_true, if_false]
    rw [he', ellSet_disc _ _ _ _ hr]


/-- The area of the array: the squares of all its pixels. -/
def arrayArea (n : ℕ) : Set (ℝ × ℝ) := {p | -(1 / 2) ≤ p.1 ∧ p.1 ≤ n - 1 / 2 ∧ -(1 / 2) ≤ p.2 ∧ p.2 ≤ n - 1 / 2}

theorem disc_subset (n : ℕ) (xc yc r : ℝ) (hr : 0 ≤ r) (h1 : -(1 / 2) ≤ xc - r) (h2 : xc + r ≤ n - 1 / 2) (h3 : -(1 / 2) ≤ yc - r) (h4 : yc + r ≤ n - 1 / 2) :
    disc xc yc r ⊆ arrayArea n := by
  intro p hp
  simp only [disc, Set.mem_setOf_eq] at hp
  have hx : |p.1 - xc| ≤ r := abs_le_of_sq_le_sq (by nlinarith [sq_nonneg (p.2 - yc)]) hr
  have hy : |p.2 - yc| ≤ r := abs_le_of_sq_le_sq (by nlinarith [sq_nonneg (p.1 - xc)]) hr
  rw [abs_le] at hx hy
  exact ⟨by linarith [hx.1], by linarith [hx.2], by linarith [hy.1], by linarith [hy.2]⟩

/-- **C99 (containment).** With interpixel centering the array of the DM stop contains the whole disc; with pixel centering it does exactly when the diameter is at most `N - 1` pixels. -/
theorem C99_contained_iff (dx D : ℝ) (hdx : 0 < dx) (hD : 0 < D) (c : Util.Centering) :
    disc (centre (initSize D dx c) c) (centre (initSize D dx c) c) (D / dx / 2) ⊆ arrayArea (initSize D dx c) ↔
      (c = .interpixel ∨ D / dx ≤ initSize D dx c - 1) := by
  obtain ⟨hn2, hev, hle, hlt⟩ := dmStop_size dx D hdx hD c
  have hr : 0 < D / dx := div_pos hD hdx
  cases c with
  | interpixel =>
    simp only [slack, add_zero] at hle
    refine ⟨fun _ => Or.inl rfl, fun _ => ?_⟩
    apply disc_subset _ _ _ _ (by positivity) <;> simp only [centre] <;> linarith
  | pixel =>
    simp only [slack] at hle
    constructor
    · intro h
      right
      have hm := @h (centre (initSize D dx .pixel) .pixel + D / dx / 2, centre (initSize D dx .pixel) .pixel) (by simp [disc])
      have := hm.2.1
      simp only [centre] at this
      linarith
    · intro h
      have h : D / dx ≤ (initSize D dx .pixel : ℝ) - 1 := by simpa using h
      apply disc_subset _ _ _ _ (by positivity) <;> simp only [centre] <;> linarith

/-- **C99 (violated).** "Cropped down to the smallest even-sized array with no extra zero padding": a pixel-centred DM stop of diameter `2m + 3/2` pixels is put into an array of
`2m + 2` pixels.  Its first column (row `m + 1`) has a positive transmission, and the pixel symmetric to it, in column `2m + 2`, has the same positive coverage but is not in the
array: padded back into the beam array the stop is cut on one side. -/
theorem C99_clipped_violated (p : Proc) (hk : Odd p.nsub) (hk3 : 3 ≤ p.nsub ∧ p.nsub ≤ 1000) (dx : ℝ) (hdx : 0 < dx) (m : ℕ) (hm : m ≤ 1000000) :
    let D := (2 * m + 3 / 2) * dx
    initSize D dx .pixel = 2 * m + 2 ∧ (∃ img, dmStop p dx D .pixel = .ok img ∧ 0 < img ((m + 1 : ℕ)) 0) ∧
      0 < coverage p.nsub (discD (centre (2 * m + 2) .pixel) (centre (2 * m + 2) .pixel) (D / dx / 2)) 1 (2 * m + 2 : ℕ) (m + 1 : ℕ) := by
  intro D
  have hq : D / dx = 2 * m + 3 / 2 := by simp only [D]; field_simp
  have hD : 0 < D := by simp only [D]; positivity
  have hsz : initSize D dx .pixel = 2 * m + 2 := by
    obtain ⟨hn2, hev, hle, hlt⟩ := dmStop_size dx D hdx hD .pixel
    simp only [slack, hq] at hle hlt
    obtain ⟨q, hq'⟩ := hev
    have h1 : (2 * m + 2 : ℕ) ≤ initSize D dx .pixel := by
      have : ((2 * m + 2 : ℕ) : ℝ) ≤ initSize D dx .pixel := by push_cast; linarith
      exact_mod_cast this
    have h2 : initSize D dx .pixel < 2 * m + 4 := by
      have : (initSize D dx .pixel : ℝ) < ((2 * m + 4 : ℕ) : ℝ) := by push_cast; linarith
      exact_mod_cast this
    omega
  have hmr : (m : ℝ) ≤ 1000000 := by exact_mod_cast hm
  -- coverage of the symmetric pixels
  have hk0 : (0 : ℝ) < p.nsub := by exact_mod_cast hk.pos
  have hk3' : (3 : ℝ) ≤ p.nsub := by exact_mod_cast hk3.1
  have hpos : 0 < coverage p.nsub (discD (centre (2 * m + 2) .pixel) (centre (2 * m + 2) .pixel) (D / dx / 2)) 1 (2 * m + 2 : ℕ) (m + 1 : ℕ) := by
    classical
    unfold coverage
    apply div_pos _ (by positivity)
    have hne : ((Finset.univ : Finset (Fin p.nsub × Fin p.nsub)).filter fun q =>
        ((((2 * m + 2 : ℕ) : ℝ) - 1 / 2 + (((q.2 : ℕ) : ℝ) + 1 / 2) * (1 / p.nsub), ((m + 1 : ℕ) : ℝ) - 1 / 2 + (((q.1 : ℕ) : ℝ) + 1 / 2) * (1 / p.nsub)) : ℝ × ℝ) ∈
          discD (centre (2 * m + 2) .pixel) (centre (2 * m + 2) .pixel) (D / dx / 2)).Nonempty := by
      obtain ⟨l, hl⟩ := hk
      refine ⟨(⟨l, by omega⟩, ⟨0, by omega⟩), ?_⟩
      simp only [Finset.mem_filter, Finset.mem_univ, true_and, discD, Set.mem_setOf_eq, centre, hq]
      have hl' : (p.nsub : ℝ) = 2 * l + 1 := by rw [hl]; push_cast; ring
      have e2 : ((l : ℝ) + 1 / 2) * (1 / p.nsub) = 1 / 2 := by rw [hl']; field_simp
      push_cast
      rw [e2]
      have h6 : (0 + 1 / 2) * (1 / (p.nsub : ℝ)) ≤ 1 / 6 := by
        rw [zero_add, one_div_mul_one_div, one_div_le_one_div (by positivity) (by norm_num)]; linarith
      have h0 : 0 < (0 + 1 / 2) * (1 / (p.nsub : ℝ)) := by positivity
      set s := (0 + 1 / 2) * (1 / (p.nsub : ℝ))
      have hm0 : (0 : ℝ) ≤ m := by positivity
      have a1 : 0 ≤ 2 * (m : ℝ) + 2 - 1 / 2 + s - (2 * m + 2) / 2 := by linarith
      have a2 : 2 * (m : ℝ) + 2 - 1 / 2 + s - (2 * m + 2) / 2 ≤ (2 * m + 3 / 2) / 2 := by linarith
      have := pow_le_pow_left₀ a1 a2 2
      nlinarith [sq_nonneg ((2 * (m : ℝ) + 3 / 2) / 2)]
    have := Finset.card_pos.mpr hne
    exact_mod_cast this
  refine ⟨hsz, ?_, hpos⟩
  obtain ⟨_, img, hok, hv⟩ := C99_dm_stop p hk hk3.2 dx D hdx hD (by rw [hq]; norm_num; linarith) .pixel
  refine ⟨img, hok, ?_⟩
  rw [hv]
  have hrow : ((((m + 1 : ℕ)) : ZMod (initSize D dx .pixel)).val) = m + 1 := by
    rw [ZMod.val_natCast, hsz]; exact Nat.mod_eq_of_lt (by omega)
  have hcol : ((0 : ZMod (initSize D dx .pixel)).val) = 0 := ZMod.val_zero
  rw [hrow, hcol, hsz]
  have hrf := coverage_reflect p.nsub (discD (centre (2 * m + 2) .pixel) (centre (2 * m + 2) .pixel) (D / dx / 2)) 1 ((2 * m + 2 : ℕ)) ((m + 1 : ℕ))
    (centre (2 * m + 2) .pixel) (centre (2 * m + 2) .pixel) (by
      intro u v
      simp only [discD, Set.mem_setOf_eq]
      refine iff_of_eq (congrArg (· ≤ (D / dx / 2) ^ 2 * ((1 : ℝ) + 1e-10)) ?_)
      ring)
  have e1 : 2 * centre (2 * m + 2) .pixel - ((2 * m + 2 : ℕ) : ℝ) = ((0 : ℕ) : ℝ) := by simp only [centre]; push_cast; ring
  have e2 : 2 * centre (2 * m + 2) .pixel - ((m + 1 : ℕ) : ℝ) = ((m + 1 : ℕ) : ℝ) := by simp only [centre]; push_cast; ring
  rw [e1, e2] at hrf
  rw [hrf]
  exact hpos

/-- Grey values of different sub-sampling factors never agree. -/
theorem coverage_grey_ne (k l : ℕ) (hk : 0 < k) (hl : 0 < l) (hc : Nat.Coprime k l) (S : Set (ℝ × ℝ)) (w x y : ℝ) (h0 : 0 < coverage k S w x y) (h1 : coverage k S w x y < 1) :
    coverage k S w x y ≠ coverage l S w x y := by
  classical
  intro h
  have hk0 : (0 : ℝ) < k := by exact_mod_cast hk
  have hl0 : (0 : ℝ) < l := by exact_mod_cast hl
  unfold coverage at h h0 h1
  generalize ((Finset.univ : Finset (Fin k × Fin k)).filter fun p =>
    (x - w / 2 + (((p.2 : ℕ) : ℝ) + 1 / 2) * (w / k), y - w / 2 + (((p.1 : ℕ) : ℝ) + 1 / 2) * (w / k)) ∈ S).card = a at h h0 h1
  generalize ((Finset.univ : Finset (Fin l × Fin l)).filter fun p =>
    (x - w / 2 + (((p.2 : ℕ) : ℝ) + 1 / 2) * (w / l), y - w / 2 + (((p.1 : ℕ) : ℝ) + 1 / 2) * (w / l)) ∈ S).card = b at h
  rw [div_eq_div_iff (by positivity) (by positivity)] at h
  have h' : a * (l * l) = b * (k * k) := by exact_mod_cast h
  have hd : k * k ∣ a * (l * l) := ⟨b, by rw [h']; ring⟩
  have hcop : Nat.Coprime (k * k) (l * l) := Nat.Coprime.mul_left (hc.mul_right hc) (hc.mul_right hc)
  have hda : k * k ∣ a := hcop.dvd_of_dvd_mul_right hd
  rw [div_lt_one (by positivity)] at h1
  have h1' : a < k * k := by exact_mod_cast h1
  have h0' : a ≠ 0 := by rintro rfl; simp at h0
  exact absurd (Nat.le_of_dvd (Nat.pos_of_ne_zero h0') hda) (by omega)

/-- **C99 (history).** The stop depends on what the process did before: made after a focal-plane mask (which leaves the sub-sampling factor at 101), every pixel with a grey
value differs from that of the stop made in a fresh process with the same arguments. -/
theorem C99_history_violated (a : Annular) (q : Proc) (fpm : ZMod a.size → ZMod a.size → ℝ) (after : Proc) (hfpm : annular a q = .ok (fpm, after))
    (dx D : ℝ) (hdx : 0 < dx) (hD : 0 < D) (hbig : D / dx ≤ 1e7) (c : Util.Centering) :
    ∃ fresh late, dmStop Proc.start dx D c = .ok fresh ∧ dmStop after dx D c = .ok late ∧ ∀ i j, 0 < fresh i j → fresh i j < 1 → fresh i j ≠ late i j := by
  have haf : after = ⟨101⟩ := by
    unfold annular at hfpm
    simp only [bind, Except.bind, pure, Except.pure] at hfpm
    repeat' split at hfpm
    all_goals first | (cases hfpm; done) | (simp only [Except.ok.injEq, Prod.mk.injEq] at hfpm; exact hfpm.2.symm)
  obtain ⟨-, fresh, hf, hfv⟩ := C99_dm_stop Proc.start (by decide) (by decide) dx D hdx hD hbig c
  obtain ⟨-, late, hl, hlv⟩ := C99_dm_stop after (by rw [haf]; decide) (by rw [haf]; decide) dx D hdx hD hbig c
  refine ⟨fresh, late, hf, hl, fun i j h0 h1 => ?_⟩
  rw [hfv] at h0 h1 ⊢
  rw [hlv, haf]
  exact coverage_grey_ne 11 101 (by norm_num) (by norm_num) (by norm_num) _ _ _ _ h0 h1


/-- Not vacuous: a stop of whole radius `R ≥ 1` pixels has a grey pixel, at the right end of its horizontal diameter. -/
theorem dm_stop_grey (dx : ℝ) (hdx : 0 < dx) (R : ℕ) (hR : 1 ≤ R) (hR2 : R ≤ 1000000) :
    ∃ img, dmStop Proc.start dx (2 * R * dx) .pixel = .ok img ∧ 0 < img ((R + 1 : ℕ)) ((2 * R + 1 : ℕ)) ∧ img ((R + 1 : ℕ)) ((2 * R + 1 : ℕ)) < 1 := by
  classical
  set D := 2 * R * dx with hDdef
  have hq : D / dx = 2 * R := by rw [hDdef]; field_simp
  have hRr : (1 : ℝ) ≤ R := by exact_mod_cast hR
  have hRr2 : (R : ℝ) ≤ 1000000 := by exact_mod_cast hR2
  have hD : 0 < D := by rw [hDdef]; positivity
  have hsz : initSize D dx .pixel = 2 * R + 2 := by
    obtain ⟨hn2, hev, hle, hlt⟩ := dmStop_size dx D hdx hD .pixel
    simp only [slack, hq] at hle hlt
    obtain ⟨q, hq'⟩ := hev
    have h1 : 2 * R < initSize D dx .pixel := by
      have : ((2 * R : ℕ) : ℝ) < initSize D dx .pixel := by push_cast; linarith
      exact_mod_cast this
    have h2 : initSize D dx .pixel < 2 * R + 3 := by
      have : (initSize D dx .pixel : ℝ) < ((2 * R + 3 : ℕ) : ℝ) := by push_cast; linarith
      exact_mod_cast this
    omega
  obtain ⟨_, img, hok, hv⟩ := C99_dm_stop Proc.start (by decide) (by decide) dx D hdx hD (by rw [hq]; norm_num; linarith) .pixel
  refine ⟨img, hok, ?_⟩
  rw [hv]
  have hrow : ((((R + 1 : ℕ)) : ZMod (initSize D dx .pixel)).val) = R + 1 := by
    rw [ZMod.val_natCast, hsz]; exact Nat.mod_eq_of_lt (by omega)
  have hcol : ((((2 * R + 1 : ℕ)) : ZMod (initSize D dx .pixel)).val) = 2 * R + 1 := by
    rw [ZMod.val_natCast, hsz]; exact Nat.mod_eq_of_lt (by omega)
  rw [hrow, hcol, hsz, hq]
  have hstart : Proc.start.nsub = 11 := rfl
  rw [hstart]
  unfold coverage
  set F := (Finset.univ : Finset (Fin 11 × Fin 11)).filter fun p =>
    ((((2 * R + 1 : ℕ) : ℝ) - 1 / 2 + (((p.2 : ℕ) : ℝ) + 1 / 2) * (1 / (11 : ℕ)), ((R + 1 : ℕ) : ℝ) - 1 / 2 + (((p.1 : ℕ) : ℝ) + 1 / 2) * (1 / (11 : ℕ))) : ℝ × ℝ) ∈
      discD (centre (2 * R + 2) .pixel) (centre (2 * R + 2) .pixel) (2 * R / 2) with hF
  have hin : ((5 : Fin 11), (5 : Fin 11)) ∈ F := by
    rw [hF, Finset.mem_filter]
    refine ⟨Finset.mem_univ _, ?_⟩
    simp only [discD, Set.mem_ofPred_eq, centre]
    have : (((5 : Fin 11) : ℕ) : ℝ) = 5 := by norm_num
    rw [this]; push_cast
    nlinarith
  have hout : ((5 : Fin 11), (10 : Fin 11)) ∉ F := by
    rw [hF, Finset.mem_filter]
    rintro ⟨-, h⟩
    simp only [discD, Set.mem_ofPred_eq, centre] at h
    have h5 : (((5 : Fin 11) : ℕ) : ℝ) = 5 := by norm_num
    have h10 : (((10 : Fin 11) : ℕ) : ℝ) = 10 := by norm_num
    rw [h5, h10] at h; push_cast at h
    nlinarith
  constructor
  · apply div_pos _ (by norm_num)
    exact_mod_cast Finset.card_pos.mpr ⟨_, hin⟩
  · rw [div_lt_one (by norm_num)]
    have : F.card < (Finset.univ : Finset (Fin 11 × Fin 11)).card := Finset.card_lt_card (Finset.ssubset_iff_subset_ne.mpr ⟨Finset.subset_univ _, fun h => hout (h ▸ Finset.mem_univ _)⟩)
    simp only [Finset.card_univ, Fintype.card_prod, Fintype.card_fin] at this
    have h2 : (F.card : ℝ) < ((11 * 11 : ℕ) : ℝ) := by exact_mod_cast this
    norm_num at h2 ⊢
    exact h2

/-! ## Annular masks -/

/-- Column of the centre of the mask. -/
noncomputable def Annular.cx (a : Annular) : ℝ := ((a.size / 2 : ℕ) : ℝ) + cshift 1 a.centering + a.xOffset * a.pixres
/-- Row of the centre of the mask. -/
noncomputable def Annular.cy (a : Annular) : ℝ := ((a.size / 2 : ℕ) : ℝ) + cshift 1 a.centering + a.yOffset * a.pixres

/-- What a pixel should be: the outer disc's coverage, times 1 outside and `FPMampFac` inside the inner spot. -/
noncomputable def Annular.ideal (a : Annular) (i j : ℕ) : ℝ :=
  (match a.rhoOuter with
    | none => 1
    | some r => coverage 101 (discD a.cx a.cy (r * a.pixres)) 1 j i) *
  (a.ampFac * coverage 101 (discD a.cx a.cy (a.rhoInner * a.pixres)) 1 j i + (1 - coverage 101 (discD a.cx a.cy (a.rhoInner * a.pixres)) 1 j i))

theorem ofArgs_circ (n : ℕ) (dx br R xc yc : ℝ) : Ell.ofArgs n dx br false R R xc yc 0 =
    ⟨((n / 2 : ℕ) : ℝ) + xc / dx, ((n / 2 : ℕ) : ℝ) + yc / dx, R / dx, R / dx, 0 * Real.pi / 180⟩ := rfl

/-- A disc drawn with `prop_ellipse`. -/
theorem circle_ok (n k : ℕ) (hn : 2 ≤ n) (hk : Odd k) (hk3 : k ≤ 1000) (xc yc R : ℝ) (hR : 0 < R) (hR2 : R ≤ 1e7)
    (hx : -(1 / 2) < xc ∧ xc < n - 1 / 2) (hy : -(1 / 2) < yc ∧ yc < n - 1 / 2) (dark : Bool) :
    ∃ img, ellipse n k ⟨xc, yc, R, R, 0 * Real.pi / 180⟩ dark = .ok img ∧ ∀ i j, img i j =
      if dark then 1 - coverage k (discD xc yc R) 1 j.val i.val else coverage k (discD xc yc R) 1 j.val i.val := by
  obtain ⟨img, himg⟩ := (C98_error_iff n k ⟨xc, yc, R, R, 0 * Real.pi / 180⟩ hR hR dark).2.mpr (by
    rw [circ_hx, circ_hy]; exact ⟨hn, onGrid_of n hn _ _ hR hx.1 hx.2, onGrid_of n hn _ _ hR hy.1 hy.2⟩)
  refine ⟨img, himg, fun i j => ?_⟩
  rw [C98_coverage n k hk hk3 _ hR hR hR2 hR2 dark img himg i j, ellSet_disc _ _ _ _ hR]

/-- **C100.** `gen_annular_fpm`: if the centre of the mask lies in an array of at least two pixels, every pixel is exactly the antialiased annulus: outer-disc coverage times the
average of `FPMampFac` over the covered and 1 over the uncovered part of the inner spot. -/
theorem C100_value (a : Annular) (p : Proc) (hpx : 0 < a.pixres) (hin : 0 < a.rhoInner) (hout : ∀ r, a.rhoOuter = some r → 0 < r ∧ r * a.pixres ≤ 1e7)
    (hbig : a.rhoInner * a.pixres ≤ 1e7) (hn : 2 ≤ a.size) (hx : -(1 / 2) < a.cx ∧ a.cx < a.size - 1 / 2) (hy : -(1 / 2) < a.cy ∧ a.cy < a.size - 1 / 2) :
    ∃ mask, annular a p = .ok (mask, ⟨101⟩) ∧ ∀ i j, mask i j = a.ideal i.val j.val := by
  have hn0 : (a.size : ℝ) ≠ 0 := by have : 0 < a.size := by omega
                                    positivity
  have hrho : 0 < a.rhoOuter.getD a.rhoInner := by
    cases h : a.rhoOuter with
    | none => simpa using hin
    | some r => simpa using (hout r h).1
  -- the sampling
  have hdx : (begin_ a.size (2 * a.pixres * a.rhoOuter.getD a.rhoInner) 1e-6 (2 * a.pixres * a.rhoOuter.getD a.rhoInner / (a.size * (1 / a.pixres)))).dx = 1 / a.pixres := by
    simp only [begin_]
    field_simp
  have hcs : cshift (a.size * (1 / a.pixres) / a.size) a.centering = cshift 1 a.centering / a.pixres := by
    cases a.centering with
    | pixel => simp [cshift]
    | interpixel => simp only [cshift]; field_simp
  have hcx : ((a.size / 2 : ℕ) : ℝ) + (0 + cshift (a.size * (1 / a.pixres) / a.size) a.centering + a.xOffset) / (1 / a.pixres) = a.cx := by
    rw [hcs, Annular.cx]; field_simp; ring
  have hcy : ((a.size / 2 : ℕ) : ℝ) + (0 + cshift (a.size * (1 / a.pixres) / a.size) a.centering + a.yOffset) / (1 / a.pixres) = a.cy := by
    rw [hcs, Annular.cy]; field_simp; ring
  have hR : ∀ r : ℝ, r / (1 / a.pixres) = r * a.pixres := fun r => by field_simp
  obtain ⟨spot, hspot, hspotv⟩ := circle_ok a.size 101 hn (by decide) (by norm_num) a.cx a.cy (a.rhoInner * a.pixres) (by positivity) hbig hx hy true
  simp only [if_true] at hspotv
  unfold annular
  cases ho : a.rhoOuter with
  | none =>
    rw [ho] at hdx
    simp only [bind, Except.bind, pure, Except.pure, hdx, ofArgs_circ]
    simp only [hcx, hcy]
    simp only [hR]
    simp only [hspot]
    refine ⟨_, rfl, fun i j => ?_⟩
    rw [readOut_one _ _ _ (fun _ _ => rfl), hspotv, Annular.ideal, ho]
    ring
  | some r =>
    obtain ⟨hr0, hr1⟩ := hout r ho
    obtain ⟨img, himg, himgv⟩ := circle_ok a.size 101 hn (by decide) (by norm_num) a.cx a.cy (r * a.pixres) (by positivity) hr1 hx hy false
    simp only [Bool.false_eq_true, if_false] at himgv
    rw [ho] at hdx
    simp only [bind, Except.bind, pure, Except.pure, circularAperture, hdx, ofArgs_circ]
    simp only [hcx, hcy]
    simp only [hR]
    simp only [himg]
    have h2 : ∀ s : WF a.size, (applyMask s img).dx = s.dx := fun _ => rfl
    simp only [h2, hdx]
    simp only [hcx, hcy]
    simp only [hR]
    simp only [hspot]
    refine ⟨_, rfl, fun i j => ?_⟩
    rw [readOut_apply _ _ _ _ (fun i j => by rw [himgv]; exact coverage_nonneg ..) (fun _ _ => rfl), hspotv, himgv, Annular.ideal, ho]
    ring

/-- The automatic array size. -/
theorem annular_size (a : Annular) (hpx : 0 < a.pixres) (hin : 0 < a.rhoInner) (hout : ∀ r, a.rhoOuter = some r → 0 < r) (hauto : a.narray = none) :
    2 ≤ a.size ∧ Even a.size ∧ 2 * (a.rhoOuter.getD a.rhoInner) * a.pixres + 2 * max |a.xOffset| |a.yOffset| * a.pixres + 2 * slack a.centering ≤ a.size := by
  have hrho : 0 < a.rhoOuter.getD a.rhoInner := by
    cases h : a.rhoOuter with
    | none => simpa using hin
    | some r => simpa using hout r h
  have hmax : 0 ≤ max |a.xOffset| |a.yOffset| := le_max_of_le_left (abs_nonneg _)
  have e1 : ∀ x : ℝ, x / (1 / a.pixres) = x * a.pixres := fun x => by field_simp
  have hsl : 0 ≤ 2 * slack a.centering := by cases a.centering <;> norm_num [slack]
  set X := 2 * (a.rhoOuter.getD a.rhoInner) * a.pixres + 2 * max |a.xOffset| |a.yOffset| * a.pixres + 2 * slack a.centering with hX
  have hX0 : 0 < X := by
    have : 0 < 2 * (a.rhoOuter.getD a.rhoInner) * a.pixres := by positivity
    have : 0 ≤ 2 * max |a.xOffset| |a.yOffset| * a.pixres := by positivity
    linarith
  have hsz : a.size = (Util.ceilEven X).toNat := by
    unfold Annular.size
    rw [hauto, hX]
    simp only [Option.getD_none, e1]
    cases a.centering with
    | pixel => simp only [slack]; norm_num
    | interpixel => simp only [slack]; norm_num
  obtain ⟨h1, h2, -, h4⟩ := two_le_ceilEven X hX0
  have h5 : ((a.size : ℕ) : ℤ) = Util.ceilEven X := by rw [hsz]; exact Int.toNat_of_nonneg (by omega)
  have h6 : ((a.size : ℕ) : ℝ) = (Util.ceilEven X : ℝ) := by exact_mod_cast h5
  refine ⟨by omega, ?_, by rw [h6]; exact h2⟩
  rw [← h5] at h4; exact_mod_cast h4

/-- **C100 (automatic size).** Without `Narray` the array always contains the mask: the outer disc (or the inner spot, when the outer edge is at infinity), wherever the offsets put it,
lies within the array, for both centerings; so the call succeeds and no part of the mask is cut off. -/
theorem C100_contained (a : Annular) (p : Proc) (hpx : 0 < a.pixres) (hin : 0 < a.rhoInner) (hio : ∀ r, a.rhoOuter = some r → a.rhoInner ≤ r)
    (hbig : a.rhoOuter.getD a.rhoInner * a.pixres ≤ 1e7) (hauto : a.narray = none) :
    Even a.size ∧ disc a.cx a.cy (a.rhoOuter.getD a.rhoInner * a.pixres) ⊆ arrayArea a.size ∧
      ∃ mask, annular a p = .ok (mask, ⟨101⟩) ∧ ∀ i j, mask i j = a.ideal i.val j.val := by
  have hout : ∀ r, a.rhoOuter = some r → 0 < r := fun r h => lt_of_lt_of_le hin (hio r h)
  obtain ⟨hn, hev, hle⟩ := annular_size a hpx hin hout hauto
  have hrho : 0 < a.rhoOuter.getD a.rhoInner := by
    cases h : a.rhoOuter with
    | none => simpa using hin
    | some r => simpa using hout r h
  have hhalf : ((a.size / 2 : ℕ) : ℝ) = (a.size : ℝ) / 2 := by
    obtain ⟨m, hm⟩ := hev
    rw [hm]
    have : (m + m) / 2 = m := by omega
    rw [this]; push_cast; ring
  have hxo : |a.xOffset * a.pixres| ≤ max |a.xOffset| |a.yOffset| * a.pixres := by
    rw [abs_mul, abs_of_pos hpx]; exact mul_le_mul_of_nonneg_right (le_max_left _ _) hpx.le
  have hyo : |a.yOffset * a.pixres| ≤ max |a.xOffset| |a.yOffset| * a.pixres := by
    rw [abs_mul, abs_of_pos hpx]; exact mul_le_mul_of_nonneg_right (le_max_right _ _) hpx.le
  have hRpos : 0 < a.rhoOuter.getD a.rhoInner * a.pixres := by positivity
  have hcs : cshift 1 a.centering = slack a.centering - 1 / 2 := by cases a.centering <;> simp only [cshift, slack] <;> norm_num
  have hsl : 0 ≤ slack a.centering ∧ slack a.centering ≤ 1 / 2 := by cases a.centering <;> simp only [slack] <;> norm_num
  have bx1 : -(1 / 2) ≤ a.cx - a.rhoOuter.getD a.rhoInner * a.pixres := by
    rw [Annular.cx, hhalf, hcs]; linarith [(abs_le.mp hxo).1, hsl.1, hsl.2]
  have bx2 : a.cx + a.rhoOuter.getD a.rhoInner * a.pixres ≤ a.size - 1 / 2 := by
    rw [Annular.cx, hhalf, hcs]; linarith [(abs_le.mp hxo).2, hsl.1, hsl.2]
  have by1 : -(1 / 2) ≤ a.cy - a.rhoOuter.getD a.rhoInner * a.pixres := by
    rw [Annular.cy, hhalf, hcs]; linarith [(abs_le.mp hyo).1, hsl.1, hsl.2]
  have by2 : a.cy + a.rhoOuter.getD a.rhoInner * a.pixres ≤ a.size - 1 / 2 := by
    rw [Annular.cy, hhalf, hcs]; linarith [(abs_le.mp hyo).2, hsl.1, hsl.2]
  refine ⟨hev, disc_subset _ _ _ _ hRpos.le bx1 bx2 by1 by2, ?_⟩
  apply C100_value a p hpx hin _ _ hn ⟨by linarith, by linarith⟩ ⟨by linarith, by linarith⟩
  · intro r hr
    refine ⟨hout r hr, ?_⟩
    rw [hr] at hbig; exact hbig
  · refine le_trans (mul_le_mul_of_nonneg_right ?_ hpx.le) hbig
    cases h : a.rhoOuter with
    | none => simp
    | some r => simpa using hio r h

/-- **C100 (regions).** Pixels wholly inside the inner spot transmit exactly `FPMampFac`, pixels wholly between the edges exactly 1, pixels wholly beyond the outer edge exactly 0; with the
outer edge at infinity everything outside the spot transmits 1.  For `0 ≤ FPMampFac ≤ 1` every pixel is between 0 and 1. -/
theorem C100_regions (a : Annular) (hio : ∀ r, a.rhoOuter = some r → 0 < a.rhoInner ∧ a.rhoInner ≤ r) (hpx : 0 < a.pixres) (i j : ℕ) :
    ((∀ u v, |u - (j : ℝ)| ≤ 1 / 2 → |v - (i : ℝ)| ≤ 1 / 2 → (u, v) ∈ disc a.cx a.cy (a.rhoInner * a.pixres)) → a.ideal i j = a.ampFac) ∧
    ((∀ u v, |u - (j : ℝ)| ≤ 1 / 2 → |v - (i : ℝ)| ≤ 1 / 2 → (u, v) ∉ discD a.cx a.cy (a.rhoInner * a.pixres) ∧ ∀ r, a.rhoOuter = some r → (u, v) ∈ disc a.cx a.cy (r * a.pixres)) → a.ideal i j = 1) ∧
    (∀ r, a.rhoOuter = some r → (∀ u v, |u - (j : ℝ)| ≤ 1 / 2 → |v - (i : ℝ)| ≤ 1 / 2 → (u, v) ∉ discD a.cx a.cy (r * a.pixres)) → a.ideal i j = 0) ∧
    (0 ≤ a.ampFac → a.ampFac ≤ 1 → 0 ≤ a.ideal i j ∧ a.ideal i j ≤ 1) := by
  have hsub : ∀ R, disc a.cx a.cy R ⊆ discD a.cx a.cy R := by
    intro R x hx
    simp only [disc, discD, Set.mem_ofPred_eq] at hx ⊢
    nlinarith [sq_nonneg R]
  refine ⟨fun h => ?_, fun h => ?_, fun r hr h => ?_, fun h0 h1 => ?_⟩
  · have hc : coverage 101 (discD a.cx a.cy (a.rhoInner * a.pixres)) 1 j i = 1 :=
      coverage_full 101 (by norm_num) _ 1 _ _ (by norm_num) fun u v hu hv => hsub _ (h u v hu hv)
    unfold Annular.ideal
    rw [hc]
    cases ho : a.rhoOuter with
    | none => simp
    | some r =>
      have hc2 : coverage 101 (discD a.cx a.cy (r * a.pixres)) 1 j i = 1 :=
        coverage_full 101 (by norm_num) _ 1 _ _ (by norm_num) fun u v hu hv => by
          obtain ⟨q1, q2⟩ := hio r ho
          have h3 := h u v hu hv
          apply hsub
          simp only [disc, Set.mem_ofPred_eq] at h3 ⊢
          have : (a.rhoInner * a.pixres) ^ 2 ≤ (r * a.pixres) ^ 2 := by
            apply pow_le_pow_left₀ (by positivity); exact mul_le_mul_of_nonneg_right q2 hpx.le
          linarith
      simp only [hc2]; ring
  · have hc : coverage 101 (discD a.cx a.cy (a.rhoInner * a.pixres)) 1 j i = 0 :=
      coverage_empty 101 _ 1 _ _ (by norm_num) fun u v hu hv => (h u v hu hv).1
    unfold Annular.ideal
    rw [hc]
    cases ho : a.rhoOuter with
    | none => simp
    | some r =>
      have hc2 : coverage 101 (discD a.cx a.cy (r * a.pixres)) 1 j i = 1 :=
        coverage_full 101 (by norm_num) _ 1 _ _ (by norm_num) fun u v hu hv => hsub _ ((h u v hu hv).2 r ho)
      simp only [hc2]; ring
  · unfold Annular.ideal
    have hc : coverage 101 (discD a.cx a.cy (r * a.pixres)) 1 j i = 0 := coverage_empty 101 _ 1 _ _ (by norm_num) h
    rw [hr]
    simp only [hc, zero_mul]
  · unfold Annular.ideal
    have c0 := coverage_nonneg 101 (discD a.cx a.cy (a.rhoInner * a.pixres)) 1 j i
    have c1 := coverage_le_one 101 (discD a.cx a.cy (a.rhoInner * a.pixres)) 1 j i
    set c := coverage 101 (discD a.cx a.cy (a.rhoInner * a.pixres)) 1 j i
    have hb0 : 0 ≤ a.ampFac * c + (1 - c) := by nlinarith
    have hb1 : a.ampFac * c + (1 - c) ≤ 1 := by nlinarith
    cases ho : a.rhoOuter with
    | none => simp only [one_mul]; exact ⟨hb0, hb1⟩
    | some r =>
      have d0 := coverage_nonneg 101 (discD a.cx a.cy (r * a.pixres)) 1 j i
      have d1 := coverage_le_one 101 (discD a.cx a.cy (r * a.pixres)) 1 j i
      simp only
      exact ⟨mul_nonneg d0 hb0, by nlinarith⟩

/-- A mask of 6 pixels per lambda/D, from 2.7 to 10 lambda/D, off-centred, meets the hypotheses of C100. -/
example : ∃ mask, annular ⟨6, 2.7, some 10, 1.5, -2, .pixel, 0.1, none⟩ Proc.start = .ok (mask, ⟨101⟩) ∧
    ∀ i j, mask i j = (⟨6, 2.7, some 10, 1.5, -2, .pixel, 0.1, none⟩ : Annular).ideal i.val j.val :=
  (C100_contained ⟨6, 2.7, some 10, 1.5, -2, .pixel, 0.1, none⟩ Proc.start (by norm_num) (by norm_num)
    (by intro r h; simp only [Option.some.injEq] at h; subst h; norm_num) (by norm_num [Option.getD]) rfl).2.2

end Verif.Masks
