import Verif.Model.DmTilt
import Verif.Props.DmSurf
import Verif.Props.DiffDm
import Verif.Props.FocalCoords

/-!
# C117: DM surfaces, poke stamps and the tilted differentiable DM are in the same place

The specification: `beamPoint` turns a point of the DM plane about the three axes, in the order asked for, and looks at it along the beam; `Dm.node` is the position of
an actuator on the DM; `pos` the position of a pixel in the array.
-/

namespace Verif.DmTilt
open Verif Verif.Dm Verif.Util Verif.Optics Verif.Compact

/-- Where the point `(u, v)` of the DM plane is seen in the beam: rotations by `xtilt`, `ytilt` and `-zrot` degrees about X, Y, Z, in that order for `xyz`, in the
opposite order otherwise. -/
noncomputable def beamPoint (d : Dm) (u v : ℝ) : ℝ × ℝ :=
  let R := if d.xyz then Rz (-rad d.zrot) * (Ry (rad d.ytilt) * Rx (rad d.xtilt)) else Rx (rad d.xtilt) * (Ry (rad d.ytilt) * Rz (-rad d.zrot))
  let w := R.mulVec ![u, v, 0]
  (w 0, w 1)

/-- position of pixel `i` of `n` with sampling `dx` -/
noncomputable def pos (c : Centering) (n : ℕ) (dx : ℝ) (i : ℕ) : ℝ := match c with
  | .pixel => ((i : ℝ) - (n : ℝ) / 2) * dx
  | .interpixel => ((i : ℝ) - ((n : ℝ) - 1) / 2) * dx

theorem pos_axis (c : Centering) (n : ℕ) (hn : n % 2 = 0) (dx : ℝ) (i : ℕ) (hi : i < n) : (createAxis n dx c)[i]? = some (pos c n dx i) := by
  rw [FocalCoords.axis_entry n dx c i hi]
  cases c
  · rw [if_neg (by simp [hn])]; rfl
  · rw [if_pos (Or.inl rfl)]; rfl

theorem beam_eq (d : Dm) (u v : ℝ) : beamPoint d u v = (u * d.m 0 0 + v * d.m 1 0, u * d.m 0 1 + v * d.m 1 1) := by
  unfold beamPoint Dm.m
  cases d.xyz
  · simp [Rx, Ry, Rz, mZYX, Matrix.mul_apply, Matrix.mulVec, dotProduct, Fin.sum_univ_three]
    constructor <;> ring
  · simp [Rx, Ry, Rz, mXYZ, Matrix.mul_apply, Matrix.mulVec, dotProduct, Fin.sum_univ_three]
    constructor <;> ring

theorem m_minor (d : Dm) : d.m 0 0 * d.m 1 1 - d.m 0 1 * d.m 1 0 = Real.cos (rad d.xtilt) * Real.cos (rad d.ytilt) := by
  have sa := Real.sin_sq_add_cos_sq (rad d.xtilt)
  have sb := Real.sin_sq_add_cos_sq (rad d.ytilt)
  have sg := Real.sin_sq_add_cos_sq (rad d.zrot)
  unfold Dm.m
  cases d.xyz
  · simp [mZYX]
    linear_combination (Real.cos (rad d.xtilt) * Real.cos (rad d.ytilt)) * sg
  · simp [mXYZ]
    linear_combination (Real.cos (rad d.xtilt) * Real.cos (rad d.ytilt)) * sg

theorem beam_back (d : Dm) (h0 : d.m 0 0 ≠ 0) (h1 : d.m 1 1 ≠ 0) (hd : d.m 0 0 * d.m 1 1 - d.m 0 1 * d.m 1 0 ≠ 0) (x y : ℝ) :
    beamPoint d (backProject d.m x y).1 (backProject d.m x y).2 = (x, y) := by
  set D := d.m 0 0 * d.m 1 1 - d.m 0 1 * d.m 1 0 with hD
  have hb : backProject d.m x y = ((x * d.m 1 1 - y * d.m 1 0) / D, (y * d.m 0 0 - x * d.m 0 1) / D) := by
    have := C18_back_projection d.m h0 h1 hd ((x * d.m 1 1 - y * d.m 1 0) / D) ((y * d.m 0 0 - x * d.m 0 1) / D)
    rw [← this]
    congr 1
    · field_simp; rw [hD]; ring
    · field_simp; rw [hD]; ring
  rw [hb, beam_eq]
  refine Prod.ext ?_ ?_
  · change (x * d.m 1 1 - y * d.m 1 0) / D * d.m 0 0 + (y * d.m 0 0 - x * d.m 0 1) / D * d.m 1 0 = x
    field_simp; rw [hD]; ring
  · change (x * d.m 1 1 - y * d.m 1 0) / D * d.m 0 1 + (y * d.m 0 0 - x * d.m 0 1) / D * d.m 1 1 = y
    field_simp; rw [hD]; ring

/-! ## Surfaces -/

/-- The DM is one `propcustom_dm` can project: a whole number of pixels per actuator, not seen edge-on, and not turned by a quarter (the code divides by the two
diagonal slopes). -/
structure Valid (d : Dm) : Prop where
  mag : 1 ≤ d.mag
  pitch : d.spacing = d.mag * d.dxInf
  dxInf : d.dxInf ≠ 0
  slope0 : d.m 0 0 ≠ 0
  slope1 : d.m 1 1 ≠ 0
  tiltx : Real.cos (rad d.xtilt) ≠ 0
  tilty : Real.cos (rad d.ytilt) ≠ 0

theorem Valid.minor {d : Dm} (h : Valid d) : d.m 0 0 * d.m 1 1 - d.m 0 1 * d.m 1 0 ≠ 0 := by
  rw [m_minor]; exact mul_ne_zero h.tiltx h.tilty

/-- pixel `(i, j)` is in the part of the output that is computed -/
def InWindow (d : Dm) (n : ℕ) (dx : ℝ) (i : ℕ) : Prop := n / 2 - d.window n dx / 2 ≤ i ∧ i < n / 2 - d.window n dx / 2 + d.window n dx

/-- **C117.** Surface of `propcustom_dm`: at every pixel of the window it is the subsampled surface of the DM, interpolated at the point `(u, v)` (in metres from
the point `(xc, yc)`, given in actuators) that is seen in the beam at the position of the pixel; zero outside of the window.  All sizes, samplings, tilts, rotations, both orders. -/
theorem C117_surface (d : Dm) (h : Valid d) (interp : (ℕ → ℕ → ℝ) → ℝ → ℝ → ℝ) (z : Fin d.nact → Fin d.nact → ℝ) (n : ℕ) (hn : n % 2 = 0) (dx : ℝ) (i j : ℕ) :
    (InWindow d n dx i → InWindow d n dx j → ∃ u v, beamPoint d u v = (pos .pixel n dx j, pos .pixel n dx i) ∧
      d.surface interp z n dx i j = interp (d.surfGrid z) ((d.xc + u / d.spacing) * d.mag + d.off) ((d.yc + v / d.spacing) * d.mag + d.off)) ∧
    (¬ (InWindow d n dx i ∧ InWindow d n dx j) → d.surface interp z n dx i j = 0) := by
  have hs : d.spacing / d.dxInf = d.mag := by rw [h.pitch]; field_simp [h.dxInf]
  have hm : (d.mag : ℝ) ≠ 0 := by have := h.mag; positivity
  have hd := h.dxInf
  constructor
  · intro hi hj
    have hw : d.window n dx ≤ n := min_le_right _ _
    have e : ∀ k, InWindow d n dx k → (((k - (n / 2 - d.window n dx / 2) : ℕ) : ℝ) - ((d.window n dx / 2 : ℕ) : ℝ)) * dx = pos .pixel n dx k := by
      intro k hk
      have h1 : (n / 2 - d.window n dx / 2) ≤ k := hk.1
      have h2 : d.window n dx / 2 ≤ n / 2 := Nat.div_le_div_right hw
      have h3 : ((n / 2 : ℕ) : ℝ) = (n : ℝ) / 2 := Nat.cast_div_charZero (Nat.dvd_of_mod_eq_zero hn)
      unfold pos
      rw [Nat.cast_sub h1, Nat.cast_sub h2, h3]
      ring
    refine ⟨(backProject d.m (pos .pixel n dx j) (pos .pixel n dx i)).1, (backProject d.m (pos .pixel n dx j) (pos .pixel n dx i)).2,
      beam_back d h.slope0 h.slope1 h.minor _ _, ?_⟩
    unfold Dm.surface
    dsimp only
    rw [if_pos ⟨⟨hi.1, hi.2⟩, hj.1, hj.2⟩, e i hi, e j hj]
    have f : ∀ s c : ℝ, (s + c * d.spacing) / d.dxInf + d.off = (c + s / d.spacing) * d.mag + d.off := by
      intro s c
      rw [h.pitch]; field_simp; ring
    rw [f, f]
  · intro hnot
    unfold Dm.surface
    dsimp only
    rw [if_neg fun hh => hnot ⟨⟨hh.1.1, hh.1.2⟩, hh.2.1, hh.2.2⟩]

theorem poke_sum (d : Dm) (hm : 1 ≤ d.mag) (z : Fin d.nact → Fin d.nact → ℝ) (φ : ℕ → ℕ → ℝ) :
    ∑ a ∈ Finset.range d.grid, ∑ b ∈ Finset.range d.grid, d.poke z a b * φ a b = ∑ r, ∑ c, z r c * φ (d.off + r.val * d.mag) (d.off + c.val * d.mag) := by
  have hsite : ∀ r : Fin d.nact, d.off + r.val * d.mag < d.grid := by
    intro r
    unfold Dm.off Dm.grid
    have : r.val * d.mag + d.mag ≤ d.nact * d.mag := by
      calc r.val * d.mag + d.mag = (r.val + 1) * d.mag := by ring
        _ ≤ _ := Nat.mul_le_mul_right _ r.isLt
    omega
  have hp : ∀ r c : Fin d.nact, d.poke z (d.off + r.val * d.mag) (d.off + c.val * d.mag) = z r c := by
    intro r c
    unfold Dm.poke
    have e : ∀ k : ℕ, (d.off + k * d.mag - d.off) = k * d.mag := fun k => by omega
    have hdv : ∀ k : ℕ, k * d.mag / d.mag = k := fun k => Nat.mul_div_cancel _ hm
    rw [dif_pos ⟨⟨by omega, by rw [e]; exact Nat.mul_mod_left _ _, by rw [e, hdv]; exact r.isLt⟩,
      ⟨by omega, by rw [e]; exact Nat.mul_mod_left _ _, by rw [e, hdv]; exact c.isLt⟩⟩]
    congr 1 <;> (apply Fin.ext; dsimp only; rw [e, hdv])
  have hoff : ∀ a b, d.poke z a b ≠ 0 → ∃ r c : Fin d.nact, a = d.off + r.val * d.mag ∧ b = d.off + c.val * d.mag := by
    intro a b hne
    unfold Dm.poke at hne
    split_ifs at hne with hh
    · refine ⟨⟨_, hh.1.2.2⟩, ⟨_, hh.2.2.2⟩, ?_, ?_⟩
      · have := Nat.div_mul_cancel (Nat.dvd_of_mod_eq_zero hh.1.2.1)
        dsimp only; omega
      · have := Nat.div_mul_cancel (Nat.dvd_of_mod_eq_zero hh.2.2.1)
        dsimp only; omega
    · exact absurd rfl hne
  rw [← Finset.sum_product', ← Finset.sum_product']
  symm
  refine Finset.sum_bij_ne_zero (fun p _ _ => (d.off + p.1.val * d.mag, d.off + p.2.val * d.mag)) ?_ ?_ ?_ ?_
  · intro p _ _
    simp only [Finset.mem_product, Finset.mem_range]
    exact ⟨hsite p.1, hsite p.2⟩
  · intro p _ _ q _ _ hpq
    simp only [Prod.mk.injEq] at hpq
    refine Prod.ext (Fin.ext ?_) (Fin.ext ?_)
    · exact Nat.eq_of_mul_eq_mul_right hm (by omega : p.1.val * d.mag = q.1.val * d.mag)
    · exact Nat.eq_of_mul_eq_mul_right hm (by omega : p.2.val * d.mag = q.2.val * d.mag)
  · intro b _ hb
    obtain ⟨r, c, h1, h2⟩ := hoff b.1 b.2 (left_ne_zero_of_mul hb)
    refine ⟨(r, c), by simp, ?_, ?_⟩
    · dsimp only
      rw [← hp r c, ← h1, ← h2]; exact hb
    · exact Prod.ext h1.symm h2.symm
  · intro p _ _
    dsimp only
    rw [hp]

/-- **C117.** The subsampled surface is the superposition of the influence functions: for an array of odd size `2h + 1` the middle pixel `h` of each is on the node of its
actuator, `mag` pixels apart; for an even size `2h` it is pixel `h - 1` that is. -/
theorem C117_superposition (d : Dm) (hm : 1 ≤ d.mag) (z : Fin d.nact → Fin d.nact → ℝ) (y x : ℕ) (h : ℕ) :
    (d.K = 2 * h + 1 → d.surfGrid z y x = ∑ r, ∑ c, z r c * d.inf (h + ((y : ℤ) - (d.off + r.val * d.mag : ℕ))) (h + ((x : ℤ) - (d.off + c.val * d.mag : ℕ)))) ∧
    (d.K = 2 * h → 1 ≤ h → d.surfGrid z y x = ∑ r, ∑ c, z r c * d.inf (h - 1 + ((y : ℤ) - (d.off + r.val * d.mag : ℕ))) (h - 1 + ((x : ℤ) - (d.off + c.val * d.mag : ℕ)))) := by
  have key := poke_sum d hm z fun a b => d.inf ((y : ℤ) + ((d.K - 1) / 2 : ℕ) - a) ((x : ℤ) + ((d.K - 1) / 2 : ℕ) - b)
  constructor
  · intro hK
    unfold Dm.surfGrid
    rw [key]
    refine Finset.sum_congr rfl fun r _ => Finset.sum_congr rfl fun c _ => ?_
    have : (d.K - 1) / 2 = h := by omega
    rw [this]
    congr 2 <;> ring
  · intro hK h1
    unfold Dm.surfGrid
    rw [key]
    refine Finset.sum_congr rfl fun r _ => Finset.sum_congr rfl fun c _ => ?_
    have : (d.K - 1) / 2 = h - 1 := by omega
    rw [this]
    congr 2 <;> (push_cast [Nat.cast_sub h1]; ring)

/-- **C117.** At a pixel where the actuator in row `r`, column `c` is seen, the surface is the superposition of the influence functions at the node of that actuator
(its own has its middle there), for every interpolation that is exact at the pixels. -/
theorem C117_at_actuator (d : Dm) (h : Valid d) (hK : d.K % 2 = 1) (interp : (ℕ → ℕ → ℝ) → ℝ → ℝ → ℝ)
    (hI : ∀ (A : ℕ → ℕ → ℝ) (x y : ℕ), x < d.grid → y < d.grid → interp A x y = A y x)
    (z : Fin d.nact → Fin d.nact → ℝ) (n : ℕ) (hn : n % 2 = 0) (dx : ℝ) (i j : ℕ) (hi : InWindow d n dx i) (hj : InWindow d n dx j)
    (r c : Fin d.nact) (hrc : beamPoint d ((c.val - d.xc) * d.spacing) ((r.val - d.yc) * d.spacing) = (pos .pixel n dx j, pos .pixel n dx i)) :
    d.surface interp z n dx i j =
      ∑ r', ∑ c', z r' c' * d.inf ((d.K / 2 : ℕ) + ((r.val : ℤ) - r'.val) * d.mag) ((d.K / 2 : ℕ) + ((c.val : ℤ) - c'.val) * d.mag) := by
  obtain ⟨u, v, huv, hs⟩ := (C117_surface d h interp z n hn dx i j).1 hi hj
  have hsp : d.spacing ≠ 0 := by
    rw [h.pitch]; have := h.mag; have := h.dxInf
    exact mul_ne_zero (by positivity) h.dxInf
  have inj : ∀ p q : ℝ × ℝ, beamPoint d p.1 p.2 = beamPoint d q.1 q.2 → p = q := by
    intro p q hpq
    rw [beam_eq, beam_eq, Prod.mk.injEq] at hpq
    have hD := h.minor
    refine Prod.ext ?_ ?_
    · refine mul_right_cancel₀ hD ?_
      linear_combination d.m 1 1 * hpq.1 - d.m 1 0 * hpq.2
    · refine mul_right_cancel₀ hD ?_
      linear_combination d.m 0 0 * hpq.2 - d.m 0 1 * hpq.1
  have he := inj (u, v) ((c.val - d.xc) * d.spacing, (r.val - d.yc) * d.spacing) (huv.trans hrc.symm)
  simp only [Prod.mk.injEq] at he
  have cx : (d.xc + u / d.spacing) * d.mag + d.off = ((d.off + c.val * d.mag : ℕ) : ℝ) := by
    rw [he.1]; push_cast; field_simp; ring
  have cy : (d.yc + v / d.spacing) * d.mag + d.off = ((d.off + r.val * d.mag : ℕ) : ℝ) := by
    rw [he.2]; push_cast; field_simp; ring
  have hsite : ∀ r : Fin d.nact, d.off + r.val * d.mag < d.grid := by
    intro r
    unfold Dm.off Dm.grid
    have : r.val * d.mag + d.mag ≤ d.nact * d.mag := by
      calc r.val * d.mag + d.mag = (r.val + 1) * d.mag := by ring
        _ ≤ _ := Nat.mul_le_mul_right _ r.isLt
    have := h.mag
    omega
  rw [hs, cx, cy, hI _ _ _ (hsite c) (hsite r), (C117_superposition d h.mag z _ _ (d.K / 2)).1 (by omega)]
  refine Finset.sum_congr rfl fun r' _ => Finset.sum_congr rfl fun c' _ => ?_
  congr 2 <;> (push_cast; ring)

/-- **C117.** `gen_surf_from_act`: with centering 'pixel' the surface is the one above; with 'interpixel' the DM point `(u, v)` used for a pixel is the one seen at the
position of the pixel moved by `beamPoint (dx/2, dx/2) - (dx/2, dx/2)`, which is nothing for a DM without tilt and rotation. -/
theorem C117_centering (d : Dm) (h : Valid d) (c : Centering) (interp : (ℕ → ℕ → ℝ) → ℝ → ℝ → ℝ) (z : Fin d.nact → Fin d.nact → ℝ) (n : ℕ) (hn : n % 2 = 0) (h0 : n ≠ 0) (dx : ℝ) (i j : ℕ)
    (hi : InWindow d n dx i) (hj : InWindow d n dx j) :
    ∃ u v, d.fromAct c interp z n dx i j = interp (d.surfGrid z) ((d.xc + u / d.spacing) * d.mag + d.off) ((d.yc + v / d.spacing) * d.mag + d.off) ∧
      (c = .pixel ∨ (d.xtilt = 0 ∧ d.ytilt = 0 ∧ d.zrot = 0) → beamPoint d u v = (pos c n dx j, pos c n dx i)) ∧
      (c = .interpixel → beamPoint d u v = (pos c n dx j + ((beamPoint d (dx / 2) (dx / 2)).1 - dx / 2), pos c n dx i + ((beamPoint d (dx / 2) (dx / 2)).2 - dx / 2))) := by
  have hsp : d.spacing ≠ 0 := by
    rw [h.pitch]; have := h.mag; have := h.dxInf
    exact mul_ne_zero (by positivity) h.dxInf
  set d' : Dm := { d with xc := d.xc - surfShift c n dx d.spacing, yc := d.yc - surfShift c n dx d.spacing } with hd'
  have hv : Valid d' := ⟨h.mag, h.pitch, h.dxInf, h.slope0, h.slope1, h.tiltx, h.tilty⟩
  obtain ⟨u, v, huv, hs⟩ := (C117_surface d' hv interp z n hn dx i j).1 hi hj
  have hb : ∀ u v, beamPoint d' u v = beamPoint d u v := fun _ _ => rfl
  rw [hb] at huv
  have hsh : surfShift .interpixel n dx d.spacing = -(dx / 2) / d.spacing := by
    unfold surfShift; have : (n : ℝ) ≠ 0 := by exact_mod_cast h0
    dsimp only
    field_simp
  have e : ∀ (x s t : ℝ), (x - s + t / d.spacing) = (x + (t - s * d.spacing) / d.spacing) := by
    intro x s t; field_simp; ring
  refine ⟨u - surfShift c n dx d.spacing * d.spacing, v - surfShift c n dx d.spacing * d.spacing, ?_, ?_, ?_⟩
  · have : d.fromAct c interp z n dx i j = d'.surface interp z n dx i j := rfl
    rw [this, hs, ← e, ← e]
    rfl
  · rintro (rfl | ⟨hx, hy, hz⟩)
    · simp only [surfShift, zero_mul, sub_zero]; exact huv
    · have hid : ∀ u v, beamPoint d u v = (u, v) := by
        intro u v
        unfold beamPoint
        rw [hx, hy, hz]
        cases d.xyz <;> simp [rad, Rx, Ry, Rz, Matrix.mul_apply, Matrix.mulVec, dotProduct, Fin.sum_univ_three]
      rw [hid] at huv ⊢
      simp only [Prod.mk.injEq] at huv ⊢
      cases c
      · simp only [surfShift, zero_mul, sub_zero]; exact huv
      · rw [hsh, huv.1, huv.2]
        unfold pos
        constructor <;> (field_simp; ring)
  · rintro rfl
    rw [hsh]
    rw [beam_eq] at huv ⊢
    rw [beam_eq]
    simp only [Prod.mk.injEq] at huv ⊢
    have hq : -(dx / 2) / d.spacing * d.spacing = -(dx / 2) := by field_simp
    rw [hq]
    unfold pos at huv ⊢
    constructor
    · linear_combination huv.1
    · linear_combination huv.2

/-- **C117, violated.** With centering 'interpixel' and a DM turned by 180 degrees, the surface is one pixel off in both directions: the pixel at `p` shows the point of
the DM that is seen at `p - (dx, dx)`. -/
theorem C117_rotated_interpixel_violated (d : Dm) (h : Valid d) (interp : (ℕ → ℕ → ℝ) → ℝ → ℝ → ℝ) (z : Fin d.nact → Fin d.nact → ℝ) (n : ℕ) (hn : n % 2 = 0) (h0 : n ≠ 0) (dx : ℝ) (i j : ℕ)
    (hi : InWindow d n dx i) (hj : InWindow d n dx j) (hx : d.xtilt = 0) (hy : d.ytilt = 0) (hz : d.zrot = 180) :
    ∃ u v, d.fromAct .interpixel interp z n dx i j = interp (d.surfGrid z) ((d.xc + u / d.spacing) * d.mag + d.off) ((d.yc + v / d.spacing) * d.mag + d.off) ∧
      beamPoint d u v = (pos .interpixel n dx j - dx, pos .interpixel n dx i - dx) := by
  obtain ⟨u, v, h1, -, h3⟩ := C117_centering d h .interpixel interp z n hn h0 dx i j hi hj
  refine ⟨u, v, h1, ?_⟩
  rw [h3 rfl]
  have hb : beamPoint d (dx / 2) (dx / 2) = (-(dx / 2), -(dx / 2)) := by
    unfold beamPoint
    rw [hx, hy, hz]
    have : rad 180 = Real.pi := by unfold rad; ring
    rw [this]
    cases d.xyz <;> simp [rad, Rx, Ry, Rz, Matrix.mul_apply, Matrix.mulVec, dotProduct, Fin.sum_univ_three]
  rw [hb]
  refine Prod.ext ?_ ?_ <;> (dsimp only; ring)

end Verif.DmTilt
