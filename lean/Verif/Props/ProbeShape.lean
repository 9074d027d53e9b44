import Verif.Props.EstProbe

/-! # C83: where the probe sits on the DM -/

namespace Verif.Est
open Verif

/-- Rotation of the plane by the angle `-r`, as a matrix. -/
noncomputable def turn (r x y : ℝ) : ℝ × ℝ := (x * Real.cos r + y * Real.sin r, y * Real.cos r - x * Real.sin r)

/-- The polar form of `rotCoord` is a rigid rotation; angles of at most `10·eps` degrees are treated as zero. -/
theorem rotCoord_eq (rotation x y : ℝ) :
    rotCoord rotation x y = if |rotation| ≤ 10 * 2 ^ (-52 : ℤ) then (x, y) else turn (rotation * Real.pi / 180) x y := by
  have hre : Real.sqrt (x ^ 2 + y ^ 2) * Real.cos (Complex.arg ⟨x, y⟩) = x ∧ Real.sqrt (x ^ 2 + y ^ 2) * Real.sin (Complex.arg ⟨x, y⟩) = y := by
    have hn : ‖(⟨x, y⟩ : ℂ)‖ = Real.sqrt (x ^ 2 + y ^ 2) := by
      rw [Complex.norm_def, Complex.normSq_mk]; ring_nf
    constructor
    · rw [← hn, Complex.norm_mul_cos_arg]
    · rw [← hn, Complex.norm_mul_sin_arg]
  unfold rotCoord turn
  by_cases h : |rotation| ≤ 10 * 2 ^ (-52 : ℤ)
  · rw [if_neg (not_lt.2 h), if_pos h]
  · rw [if_pos (not_le.1 h), if_neg h]
    simp only [Real.cos_sub, Real.sin_sub]
    ext
    · simp only
      linear_combination Real.cos (rotation * Real.pi / 180) * hre.1 + Real.sin (rotation * Real.pi / 180) * hre.2
    · simp only
      linear_combination Real.cos (rotation * Real.pi / 180) * hre.2 - Real.sin (rotation * Real.pi / 180) * hre.1

/-- Where an actuator in row `p.1`, column `p.2` of an `Nact × Nact` DM lies in the frame of a probe moved by `(xOff, yOff)` actuators (rounded to
whole actuators, ties to even) and turned by `rotation` degrees; unit = width of the DM, origin = centre of the probe. -/
noncomputable def probeFrame (Nact : ℕ) (xOff yOff rotation : ℝ) (p : Fin Nact × Fin Nact) : ℝ × ℝ :=
  let x := ((p.2 : ℝ) - ((Nact : ℝ) - 1) / 2 - Dm.npRound xOff) / Nact
  let y := ((p.1 : ℝ) - ((Nact : ℝ) - 1) / 2 - Dm.npRound yOff) / Nact
  if |rotation| ≤ 10 * 2 ^ (-52 : ℤ) then (x, y) else turn (rotation * Real.pi / 180) x y

theorem probeCmd_eq {N : ℕ} (fit : (Fin N × Fin N → ℝ) → Fin N × Fin N → ℝ) (VtoH : Fin N × Fin N → ℝ) (g : ℝ) (surf : ℝ → ℝ → ℝ)
    (xo yo r : ℝ) (p : Fin N × Fin N) (hV : VtoH p ≠ 0) :
    VtoH p * probeCmd fit VtoH g surf xo yo r p = g * fit (fun q => surf (probeFrame N xo yo r q).1 (probeFrame N xo yo r q).2) p := by
  have hc : ∀ q : Fin N × Fin N, rotCoord r (actCoord N xo q.2) (actCoord N yo q.1) = probeFrame N xo yo r q := by
    intro q
    have e : ∀ (o : ℝ) (i : Fin N), actCoord N o i = ((i : ℝ) - ((N : ℝ) - 1) / 2 - Dm.npRound o) / N := by
      intro o i; unfold actCoord; ring
    rw [rotCoord_eq, e, e]
    rfl
  unfold probeCmd toVolts
  simp only [hc]
  field_simp

/-- C83, rectangular probes.  `gen_pairwise_probe` raises `ValueError` exactly when the probed region is centred on the star; otherwise the
commanded height (gain of the actuator times commanded voltage) of every actuator with a non-zero gain is the probe's gain times the fit of the
probe surface: a product of two sincs and a cosine in the probe's own frame, `Nact/(D/spacing)` cycles per λ/D, with the requested phase. -/
theorem C83_rect {N : ℕ} (fit : (Fin N × Fin N → ℝ) → Fin N × Fin N → ℝ) (VtoH : Fin N × Fin N → ℝ) (c : RectCfg) (Inorm phase : ℝ) :
    (genProbeRect fit VtoH c Inorm phase = .error .valueError ↔ c.xiOffset = 0 ∧ c.etaOffset = 0) ∧
    ∀ cmd, genProbeRect fit VtoH c Inorm phase = .ok cmd → ∀ p, VtoH p ≠ 0 →
      VtoH p * cmd p = c.gainFudge * fit (fun q =>
        let u := (N : ℝ) * c.spacing / c.beamD * (probeFrame N c.xOffset c.yOffset c.rotation q).1
        let v := (N : ℝ) * c.spacing / c.beamD * (probeFrame N c.xOffset c.yOffset c.rotation q).2
        4 * Real.pi * c.lambda0 * Real.sqrt Inorm * sinc (c.width * u) * sinc (c.height * v) *
          Real.cos (2 * Real.pi * (c.xiOffset * u + c.etaOffset * v) + phase)) p := by
  unfold genProbeRect
  constructor
  · by_cases h : c.xiOffset = 0 ∧ c.etaOffset = 0 <;> simp [h]
  · intro cmd hc p hV
    split_ifs at hc
    rw [← Except.ok.inj hc, probeCmd_eq _ _ _ _ _ _ _ _ hV]
    congr 2
    funext q
    unfold rectSurf
    have e : (N : ℝ) / (c.beamD / c.spacing) = (N : ℝ) * c.spacing / c.beamD := by
      rw [div_div_eq_mul_div]
    simp only [e]
    ring_nf

/-- C83, square probes (the half-plane to avoid is left or right of the y axis for `'y'`, above or below the x axis for `'x'`). -/
theorem C83_square {N : ℕ} (fit : (Fin N × Fin N → ℝ) → Fin N × Fin N → ℝ) (VtoH : Fin N × Fin N → ℝ) (c : SquareCfg) (Inorm psi : ℝ) (a : Char) :
    ((∃ e, genProbeSquare fit VtoH c Inorm psi a = .error e) ↔ Inorm ≤ 0 ∨ (a ≠ 'x' ∧ a ≠ 'y')) ∧
    ∀ cmd, genProbeSquare fit VtoH c Inorm psi a = .ok cmd → ∀ p, VtoH p ≠ 0 →
      VtoH p * cmd p = c.gainFudge * fit (fun q =>
        let x := (probeFrame N c.xOffset c.yOffset c.rotation q).1
        let y := (probeFrame N c.xOffset c.yOffset c.rotation q).2
        4 * Real.pi * c.lambda0 * Real.sqrt Inorm *
          (if psi = 0 then sinc (2 * c.radius * x) * sinc (2 * c.radius * y)
           else if a = 'y' then sinc (c.radius * x) * sinc (2 * c.radius * y) * Real.cos (Real.pi * c.radius * x + psi)
           else sinc (2 * c.radius * x) * sinc (c.radius * y) * Real.cos (Real.pi * c.radius * y + psi))) p := by
  unfold genProbeSquare
  constructor
  · by_cases h : Inorm ≤ 0
    · simp [h]
    · by_cases hx : a = 'x'
      · subst hx; simp [h]
      · by_cases hy : a = 'y'
        · subst hy; simp [h]
        · by_cases hm : a = 'm' <;> simp [h, hx, hy, hm]
  · intro cmd hc p hV
    split_ifs at hc
    rw [← Except.ok.inj hc, probeCmd_eq _ _ _ _ _ _ _ _ hV]
    congr 2
    funext q
    unfold squareSurf
    dsimp only
    split_ifs
    · ring
    · ring_nf
    · ring_nf

/-- The turn keeps distances, so the probe is never stretched. -/
theorem C83_rigid (r x y x' y' : ℝ) :
    ((turn r x y).1 - (turn r x' y').1) ^ 2 + ((turn r x y).2 - (turn r x' y').2) ^ 2 = (x - x') ^ 2 + (y - y') ^ 2 := by
  unfold turn
  have := Real.sin_sq_add_cos_sq r
  linear_combination ((x - x') ^ 2 + (y - y') ^ 2) * this

/-- A probe 3 λ/D off axis is accepted, on a DM with unit gains. -/
example : ∃ cmd, genProbeRect (Nact := 2) id (fun _ => 1) ⟨1, 0, 0, 30, 3, 0, 2, 2, 1, 2, 1⟩ 1 0 = .ok cmd :=
  ⟨_, by unfold genProbeRect; rw [if_neg (by norm_num)]⟩

end Verif.Est
