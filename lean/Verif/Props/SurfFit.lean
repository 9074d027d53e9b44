import Verif.Model.SurfFit
import Verif.Props.DmTilt
import Verif.Props.DmSurf

/-!
# C119: fitting the DM to a surface in the beam

The specification of positions is that of C117: `beamPoint` is where a point of the DM is seen in the beam, `pos` the position of a pixel.  Points of the DM are given on its
subsampled grid, on which actuator number `a` along an axis is at `off + a·mag`.
-/

namespace Verif.SurfFit
open Verif Verif.Dm Verif.Util Verif.DmTilt

variable {gd : GridData} {spl : Spline}

/-! ## Specification -/

/-- The grid coordinate of a point of the DM, in actuators. -/
noncomputable def onGrid (d : DmTilt.Dm) (a : ℝ) : ℝ := a * d.mag + d.off

/-- `surf` shows the DM whose height at a point of the grid is `F x y`: every pixel of the window has the height of the DM point seen there. -/
def Shows (d : DmTilt.Dm) (F : ℝ → ℝ → ℝ) (n : ℕ) (dx : ℝ) (surf : ℕ → ℕ → ℝ) : Prop :=
  ∀ i j, InWindow d n dx i → InWindow d n dx j → ∀ u v, beamPoint d u v = (pos .pixel n dx j, pos .pixel n dx i) →
    surf i j = F (onGrid d (d.xc + u / d.spacing)) (onGrid d (d.yc + v / d.spacing))

/-- The interpolations reproduce the heights `F` of the DM at its actuators up to `δ`: `griddata`, given the heights at the points of the DM seen by the pixels, yields them up to `ε`
on a square lattice of DM points with the spacing of the pixels and the middle of the DM at index `N/2`; and the spline through values on that lattice, if they are right up to `ε`, yields
the heights at the actuators up to `δ` (its coordinate is the distance from the middle of the DM in DM widths). -/
def Reproduces (gd : GridData) (spl : Spline) (d : DmTilt.Dm) (F : ℝ → ℝ → ℝ) (n : ℕ) (dx δ : ℝ) : Prop :=
  let N := d.window n dx
  let lattice : ℕ → ℝ := fun k => onGrid d (((k : ℝ) - (N / 2 : ℕ)) * (dx / d.spacing) + ((d.nact : ℝ) - 1) / 2)
  ∃ ε, (∀ pts : Fin N → Fin N → ℝ × ℝ,
      (∀ i j, ∃ u v, pts i j = (onGrid d (d.xc + u / d.spacing), onGrid d (d.yc + v / d.spacing)) ∧
        beamPoint d u v = ((((j : ℕ) : ℝ) - (N / 2 : ℕ)) * dx, (((i : ℕ) : ℝ) - (N / 2 : ℕ)) * dx)) →
      ∀ k l : Fin N, |gd N pts (fun i j => F (pts i j).1 (pts i j).2) (lattice l, lattice k) - F (lattice l) (lattice k)| ≤ ε) ∧
    ∀ A : Fin N → Fin N → ℝ, (∀ k l, |A k l - F (lattice l) (lattice k)| ≤ ε) →
      ∀ r < d.nact, ∀ c < d.nact, |spl N (fun k => ((k : ℕ) - (N / 2 : ℕ)) * (dx / d.spacing) / d.nact) A ((r - ((d.nact : ℝ) - 1) / 2) / d.nact)
        ((c - ((d.nact : ℝ) - 1) / 2) / d.nact) - F (onGrid d c) (onGrid d r)| ≤ δ

/-! ## Coordinates -/

theorem ratio {d : DmTilt.Dm} (h : Valid d) (x : ℝ) : x / d.dxInf = x / d.spacing * d.mag := by
  have hm : (d.mag : ℝ) ≠ 0 := by have := h.mag; positivity
  have hd := h.dxInf
  rw [h.pitch]; field_simp

theorem spacing_ne {d : DmTilt.Dm} (h : Valid d) : d.spacing ≠ 0 := by
  have hm : (d.mag : ℝ) ≠ 0 := by have := h.mag; positivity
  rw [h.pitch]; exact mul_ne_zero hm h.dxInf

theorem seen_eq {d : DmTilt.Dm} (h : Valid d) (N : ℕ) (dx : ℝ) (i j : ℕ) :
    ∃ u v, seen d N dx i j = (onGrid d (d.xc + u / d.spacing), onGrid d (d.yc + v / d.spacing)) ∧ beamPoint d u v = (winAxis N dx j, winAxis N dx i) := by
  refine ⟨_, _, ?_, beam_back d h.slope0 h.slope1 h.minor _ _⟩
  have hs := spacing_ne h
  simp only [seen, onGrid, ratio h]
  refine Prod.ext ?_ ?_ <;> (dsimp only; field_simp; ring)

theorem wanted_eq {d : DmTilt.Dm} (h : Valid d) (N : ℕ) (dx : ℝ) (i j : ℕ) :
    wanted d N dx i j = (onGrid d (((j : ℝ) - (N / 2 : ℕ)) * (dx / d.spacing) + ((d.nact : ℝ) - 1) / 2), onGrid d (((i : ℝ) - (N / 2 : ℕ)) * (dx / d.spacing) + ((d.nact : ℝ) - 1) / 2)) := by
  have hs := spacing_ne h
  have hb (x y : ℝ) : backProject 1 x y = (x, y) := by
    simp [backProject, Matrix.vecMul_one]
    norm_num
  simp only [wanted, hb, ratio h, onGrid, winAxis]
  generalize ((N / 2 : ℕ) : ℝ) = H
  refine Prod.ext ?_ ?_ <;> (dsimp only; field_simp)

theorem xs2_eq {d : DmTilt.Dm} (h : Valid d) (N : ℕ) (dx : ℝ) (k : ℕ) (hN : 0 < N) (hn : 0 < d.nact) :
    xs2 d N dx k = ((k : ℕ) - (N / 2 : ℕ)) * (dx / d.spacing) / d.nact := by
  have hs := spacing_ne h
  have hN' : (N : ℝ) ≠ 0 := by positivity
  have hn' : (d.nact : ℝ) ≠ 0 := by positivity
  unfold xs2
  split_ifs with h2
  · rw [show ((N / 2 : ℕ) : ℝ) = (N : ℝ) / 2 from Nat.cast_div_charZero (Nat.dvd_of_mod_eq_zero h2)]
    field_simp; ring
  · have : ((N / 2 : ℕ) : ℝ) = ((N : ℝ) - 1) / 2 := by
      have : N = 2 * (N / 2) + 1 := by omega
      have : (N : ℝ) = 2 * (N / 2 : ℕ) + 1 := by exact_mod_cast this
      linarith
    rw [this]
    field_simp; ring

theorem multiple_odd {d : DmTilt.Dm} {dx : ℝ} (hp : 0 < d.spacing / dx) : multiple d dx % 2 = 1 := by
  have h1 : 0 < ⌈d.spacing / dx⌉ := Int.ceil_pos.mpr hp
  have h2 : ceilOdd (d.spacing / dx) % 2 = 1 ∧ 0 < ceilOdd (d.spacing / dx) := by
    unfold ceilOdd
    dsimp only
    split_ifs <;> omega
  unfold multiple
  omega

theorem xs1_eq {d : DmTilt.Dm} {dx : ℝ} (hp : 0 < d.spacing / dx) (hn : 0 < d.nact) (r : ℕ) :
    xs1 d dx (multiple d dx / 2 + r * multiple d dx) = (r - ((d.nact : ℝ) - 1) / 2) / d.nact := by
  have ho := multiple_odd hp
  have hn' : (d.nact : ℝ) ≠ 0 := by positivity
  unfold xs1
  dsimp only
  generalize multiple d dx = m at *
  have hm : (m : ℝ) = 2 * (m / 2 : ℕ) + 1 := by
    have : m = 2 * (m / 2) + 1 := by omega
    exact_mod_cast this
  have hm0 : (m : ℝ) ≠ 0 := by have : 0 < m := by omega
                               positivity
  have hh : ((m / 2 : ℕ) : ℝ) = ((m : ℝ) - 1) / 2 := by linarith
  rw [Nat.cast_add, Nat.cast_mul, hh]
  field_simp
  ring

/-- **C119.** A surface that shows a DM - of any size, pitch, centre, tilts and rotation, in either order of rotations - is turned into the heights of that DM at its actuators: entry `(r, c)`
is the height at the actuator in row `r`, column `c`, to the accuracy of the interpolations. -/
theorem C119_heights (d : DmTilt.Dm) (h : Valid d) (F : ℝ → ℝ → ℝ) (n : ℕ) (hn : n % 2 = 0) (dx δ : ℝ) (hp : 0 < d.spacing / dx) (hw : 0 < d.window n dx)
    (surf : ℕ → ℕ → ℝ) (hs : Shows d F n dx surf) (hr : Reproduces gd spl d F n dx δ) (r c : ℕ) (hr' : r < d.nact) (hc : c < d.nact) :
    |derotateResize gd spl d n dx surf r c - F (onGrid d c) (onGrid d r)| ≤ δ := by
  have h0 : 0 < d.nact := by omega
  obtain ⟨ε, h1, h2⟩ := hr
  unfold derotateResize
  dsimp only
  rw [xs1_eq hp h0, xs1_eq hp h0]
  simp only [xs2_eq h _ _ _ hw h0]
  refine h2 _ ?_ r hr' c hc
  intro k l
  have hN : d.window n dx ≤ n := min_le_right _ _
  have hwin (i : Fin (d.window n dx)) : InWindow d n dx (n / 2 - d.window n dx / 2 + i) := by
    have := i.2
    unfold InWindow
    constructor <;> omega
  have hpos (i : Fin (d.window n dx)) : winAxis (d.window n dx) dx i = pos .pixel n dx (n / 2 - d.window n dx / 2 + i) := by
    have h2 : d.window n dx / 2 ≤ n / 2 := Nat.div_le_div_right hN
    have h3 : ((n / 2 : ℕ) : ℝ) = (n : ℝ) / 2 := Nat.cast_div_charZero (Nat.dvd_of_mod_eq_zero hn)
    unfold winAxis pos
    rw [Nat.cast_add, Nat.cast_sub h2, h3]
    ring
  have hv : (fun i j : Fin (d.window n dx) => surf (n / 2 - d.window n dx / 2 + i) (n / 2 - d.window n dx / 2 + j)) =
      fun i j : Fin (d.window n dx) => F (seen d (d.window n dx) dx i j).1 (seen d (d.window n dx) dx i j).2 := by
    funext i j
    obtain ⟨u, v, e1, e2⟩ := seen_eq h (d.window n dx) dx i j
    rw [e1]
    rw [hpos, hpos] at e2
    exact hs _ _ (hwin i) (hwin j) u v e2
  unfold derot
  dsimp only
  rw [hv, wanted_eq h]
  exact h1 (fun i j => seen d (d.window n dx) dx i j) (fun i j => by
    obtain ⟨u, v, e1, e2⟩ := seen_eq h (d.window n dx) dx i j
    exact ⟨u, v, e1, e2⟩) k l

/-! ## Surfaces made by the DM itself -/

theorem beam_inj {d : DmTilt.Dm} (h : Valid d) {u v u' v' : ℝ} (e : beamPoint d u v = beamPoint d u' v') : u = u' ∧ v = v' := by
  rw [beam_eq, beam_eq, Prod.mk.injEq] at e
  obtain ⟨e1, e2⟩ := e
  have hD := h.minor
  constructor
  · apply mul_right_cancel₀ hD
    linear_combination d.m 1 1 * e1 - d.m 1 0 * e2
  · apply mul_right_cancel₀ hD
    linear_combination d.m 0 0 * e2 - d.m 0 1 * e1

/-- What `propcustom_dm` makes shows the DM. -/
theorem shows_surface (d : DmTilt.Dm) (h : Valid d) (interp : (ℕ → ℕ → ℝ) → ℝ → ℝ → ℝ) (z : Fin d.nact → Fin d.nact → ℝ) (n : ℕ) (hn : n % 2 = 0) (dx : ℝ) :
    Shows d (interp (d.surfGrid z)) n dx (d.surface interp z n dx) := by
  intro i j hi hj u v e
  obtain ⟨u', v', e1, e2⟩ := (C117_surface d h interp z n hn dx i j).1 hi hj
  obtain ⟨rfl, rfl⟩ := beam_inj h (e.trans e1.symm)
  exact e2

/-- A spline passes through its values. -/
def ExactAtNodes (spl : Spline) : Prop := ∀ (N : ℕ) (t : Fin N → ℝ) (A : Fin N → Fin N → ℝ) (i j : Fin N), StrictMono t → spl N t A (t i) (t j) = A i j

/-- **C119.** The influence function used by the least-squares fit, for an array with an odd number of pixels `2h + 1`, `mag` per actuator, and any spline that passes through its values: it has
`2p + 1` entries across, `p` being the number of whole actuators from the middle to the edge, and they are the values of the influence function one actuator apart, the middle one its middle. -/
theorem C119_kernel (hx : ExactAtNodes spl) (h mag : ℕ) (hm : 1 ≤ mag) (inf : ℤ → ℤ → ℝ) :
    (resampleInf spl (2 * h + 1) inf mag 1).1 = 2 * (h / mag) + 1 ∧
    ∀ a b : ℕ, a < 2 * (h / mag) + 1 → b < 2 * (h / mag) + 1 →
      (resampleInf spl (2 * h + 1) inf mag 1).2 a b = inf (h + ((a : ℤ) - (h / mag : ℕ)) * mag) (h + ((b : ℤ) - (h / mag : ℕ)) * mag) := by
  by_cases h1 : mag = 1
  · subst h1
    simp only [resampleInf, Nat.cast_one, ne_eq, not_true_eq_false, if_false, Nat.div_one, true_and]
    intro a b _ _
    congr 1 <;> ring
  have hmr : (0 : ℝ) < mag := by positivity
  have hne : (mag : ℝ) ≠ 1 := by exact_mod_cast h1
  set p := h / mag with hp
  have hp1 : p * mag ≤ h := Nat.div_mul_le_self h mag
  have hp2 : h < (p + 1) * mag := by
    have := Nat.lt_div_mul_add (a := h) (b := mag) (by omega)
    rw [← hp] at this; linarith
  have hfl : ⌊(0.5 : ℝ) * (2 * h + 1 : ℕ) * 1 / mag⌋ = p := by
    rw [Int.floor_eq_iff]
    have a1 : (p : ℝ) * mag ≤ h := by exact_mod_cast hp1
    have a2 : (h : ℝ) + 1 ≤ (p + 1) * mag := by exact_mod_cast hp2
    constructor
    · rw [le_div_iff₀ hmr]; push_cast; linarith
    · rw [div_lt_iff₀ hmr]; push_cast; linarith
  have hn1 : (2 * ⌊(0.5 : ℝ) * (2 * h + 1 : ℕ) * 1 / mag⌋ + 1).toNat = 2 * p + 1 := by rw [hfl]; omega
  unfold resampleInf
  rw [if_pos hne]
  dsimp only
  rw [hn1]
  refine ⟨rfl, fun a b ha hb => ?_⟩
  have node (a : ℕ) (ha : a < 2 * p + 1) : ∃ i : Fin (2 * h + 1), ((i : ℕ) : ℤ) = h + ((a : ℤ) - p) * mag ∧
      (-(((2 * p + 1 : ℕ) : ℝ) - 1) / 2 + a) / 1 = (-(((2 * h + 1 : ℕ) : ℝ) - 1) / 2 + (i : ℕ)) / mag := by
    have b1 : p * mag ≤ h + a * mag := by nlinarith
    have b2 : a * mag ≤ 2 * p * mag := Nat.mul_le_mul_right _ (by omega)
    refine ⟨⟨h + a * mag - p * mag, by rw [Nat.sub_lt_iff_lt_add b1]; nlinarith⟩, ?_, ?_⟩
    · push_cast [Nat.cast_sub b1]; ring
    · dsimp only
      push_cast [Nat.cast_sub b1]
      field_simp; ring
  obtain ⟨i, i1, i2⟩ := node a ha
  obtain ⟨j, j1, j2⟩ := node b hb
  have := hx (2 * h + 1) (fun k : Fin (2 * h + 1) => (-(((2 * h + 1 : ℕ) : ℝ) - 1) / 2 + (k : ℕ)) / mag) (fun i j => inf (i : ℕ) (j : ℕ)) i j (by
    intro x y hxy
    have : ((x : ℕ) : ℝ) < (y : ℕ) := by exact_mod_cast hxy
    dsimp only
    gcongr)
  rw [i2, j2, this, i1, j1]

/-- The influence function at actuator resolution: `p` actuators on each side of the middle, where the array has `2h + 1` pixels. -/
def kernel (d : DmTilt.Dm) (h p : ℕ) : Fin (2 * p + 1) → Fin (2 * p + 1) → ℝ := fun a b => d.inf (h + (((a : ℕ) : ℤ) - p) * d.mag) (h + (((b : ℕ) : ℤ) - p) * d.mag)

/-- The heights of the DM at its actuators are the commanded heights convolved with the influence function at actuator resolution. -/
theorem grid_at_actuators (d : DmTilt.Dm) (hm : 1 ≤ d.mag) (h : ℕ) (hK : d.K = 2 * h + 1)
    (hinf : ∀ a b : ℤ, (a < 0 ∨ (d.K : ℤ) ≤ a ∨ b < 0 ∨ (d.K : ℤ) ≤ b) → d.inf a b = 0) (z : Fin d.nact → Fin d.nact → ℝ) (r c : Fin d.nact) :
    d.surfGrid z (d.off + r.val * d.mag) (d.off + c.val * d.mag) = convolve (kernel d h (h / d.mag)) (fun p => z p.1 p.2) (r, c) := by
  rw [(C117_superposition d hm z _ _ h).1 hK, convolve, Fintype.sum_prod_type]
  refine Finset.sum_congr rfl fun r' _ => Finset.sum_congr rfl fun c' _ => ?_
  have e1 (a b : Fin d.nact) : (h : ℤ) + (((d.off + a.val * d.mag : ℕ) : ℤ) - (d.off + b.val * d.mag : ℕ)) = h + ((a.val : ℤ) - b.val) * d.mag := by push_cast; ring
  rw [e1, e1]
  dsimp only
  set p := h / d.mag with hp
  have hp2 : h < (p + 1) * d.mag := by
    have := Nat.lt_div_mul_add (a := h) (b := d.mag) (by omega)
    rw [← hp] at this; linarith
  split_ifs with hin
  · congr 1
    unfold kernel
    dsimp only
    congr 2
    · rw [Int.toNat_of_nonneg hin.1]; ring
    · rw [Int.toNat_of_nonneg hin.2.2.1]; ring
  · rw [hinf, mul_zero]
    rw [hK]
    have far (t : ℤ) (ht : ¬ (0 ≤ t + p ∧ t + p < 2 * p + 1)) : (h : ℤ) + t * d.mag < 0 ∨ ((2 * h + 1 : ℕ) : ℤ) ≤ h + t * d.mag := by
      have hp3 : (h : ℤ) + 1 ≤ (p + 1) * d.mag := by exact_mod_cast hp2
      have hm0 : (0 : ℤ) ≤ d.mag := by positivity
      by_cases hlow : t + p < 0
      · left
        have : t * (d.mag : ℤ) ≤ -(p + 1) * d.mag := mul_le_mul_of_nonneg_right (by omega) hm0
        linarith
      · right
        have : ((p : ℤ) + 1) * d.mag ≤ t * d.mag := mul_le_mul_of_nonneg_right (by omega) hm0
        push_cast; linarith
    by_cases h1 : 0 ≤ (r.val : ℤ) - r'.val + p ∧ (r.val : ℤ) - r'.val + p < 2 * p + 1
    · have h2 : ¬ (0 ≤ (c.val : ℤ) - c'.val + p ∧ (c.val : ℤ) - c'.val + p < 2 * p + 1) := fun h2 => hin ⟨h1.1, h1.2, h2.1, h2.2⟩
      rcases far _ h2 with h3 | h3
      · exact Or.inr (Or.inr (Or.inl h3))
      · exact Or.inr (Or.inr (Or.inr h3))
    · rcases far _ h1 with h3 | h3
      · exact Or.inl h3
      · exact Or.inr (Or.inl h3)

end Verif.SurfFit
