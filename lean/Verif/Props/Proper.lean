import Verif.Model.Proper
import Verif.Props.Prop
import Mathlib.Tactic.FieldSimp

/-! # Properties of the PROPER propagation core -/

namespace Verif.Proper
open Verif Complex Verif.Optics

variable {n : ℕ} [NeZero n]

/-- Total intensity of an array: `np.sum(np.abs(wfarr)**2)`. -/
noncomputable def energy (a : ZMod n → ZMod n → ℂ) : ℝ := ∑ i, ∑ j, normSq (a i j)

theorem n_ne : (n : ℂ) ≠ 0 := by exact_mod_cast NeZero.ne n

theorem n_ne' : (n : ℝ) ≠ 0 := by exact_mod_cast NeZero.ne n

theorem unit_exp (t : ℝ) : normSq (exp ((t : ℂ) * I)) = 1 := by
  rw [normSq_eq_norm_sq, norm_exp_ofReal_mul_I]; norm_num

theorem energy_mul (a u : ZMod n → ZMod n → ℂ) (h : ∀ i j, normSq (u i j) = 1) : energy (fun i j => a i j * u i j) = energy a := by
  unfold energy
  simp only [map_mul, h, mul_one]

theorem energy_fwd (a : ZMod n → ZMod n → ℂ) : energy (fwd a) = energy a := by
  unfold energy fwd
  have e : ∀ x : ℂ, normSq (x / ((n : ℂ) * n) * n) = ((n : ℝ) * n)⁻¹ * normSq x := by
    intro x
    have : x / ((n : ℂ) * n) * n = (((n : ℝ)⁻¹ : ℝ) : ℂ) * x := by push_cast; field_simp [n_ne (n := n)]
    rw [this, map_mul, normSq_ofReal, mul_inv]
  simp only [e, ← Finset.mul_sum]
  rw [parseval2]
  field_simp [n_ne' (n := n)]

theorem energy_bwd (a : ZMod n → ZMod n → ℂ) : energy (bwd a) = energy a := by
  unfold energy bwd
  have e : ∀ x : ℂ, normSq (x * ((n : ℂ) * n) / n) = ((n : ℝ) * n) * normSq x := by
    intro x
    have : x * ((n : ℂ) * n) / n = ((n : ℝ) : ℂ) * x := by push_cast; field_simp [n_ne (n := n)]
    rw [this, map_mul, normSq_ofReal]
  simp only [e, ← Finset.mul_sum]
  rw [← parseval2_inv]

theorem bwd_fwd (a : ZMod n → ZMod n → ℂ) : bwd (fwd a) = a := by
  have h : fwd a = fun i j => ((n : ℂ)⁻¹) * fft2 a i j := by
    funext i j; unfold fwd; field_simp [n_ne (n := n)]
  funext i j
  unfold bwd
  rw [h, ifft2_smul, ifft2_fft2]
  field_simp [n_ne (n := n)]

theorem fwd_bwd (a : ZMod n → ZMod n → ℂ) : fwd (bwd a) = a := by
  have h : bwd a = fun i j => (n : ℂ) * ifft2 a i j := by
    funext i j; unfold bwd; field_simp [n_ne (n := n)]
  funext i j
  unfold fwd
  rw [h, fft2_smul, fft2_ifft2]
  field_simp [n_ne (n := n)]

theorem offset_unit (po : Bool) (lam dz : ℝ) : normSq (offset po lam dz) = 1 := by
  unfold offset
  split_ifs
  · have : I * 2 * Real.pi * dz / lam = ((2 * Real.pi * dz / lam : ℝ) : ℂ) * I := by push_cast; ring
    rw [this, unit_exp]
  · simp

theorem energy_qphase (s : WF n) (c : ℝ) : energy (qphase s c).arr = energy s.arr := by
  unfold qphase
  split_ifs
  · rfl
  · apply energy_mul
    intro i j
    have : I * Real.pi / (s.lam * c) * (roll2 (rsqr s.dx) (-((n / 2 : ℕ) : ℤ)) (-((n / 2 : ℕ) : ℤ)) i j : ℝ)
      = ((Real.pi / (s.lam * c) * roll2 (rsqr s.dx) (-((n / 2 : ℕ) : ℤ)) (-((n / 2 : ℕ) : ℤ)) i j : ℝ) : ℂ) * I := by push_cast; ring
    rw [this, unit_exp]

theorem energy_addPhase (s : WF n) (ph : ZMod n → ZMod n → ℝ) : energy (addPhase s ph).arr = energy s.arr := by
  apply energy_mul
  intro i j
  have : 2 * Real.pi * I / s.lam * (shiftCenter ph i j : ℝ) = ((2 * Real.pi / s.lam * shiftCenter ph i j : ℝ) : ℂ) * I := by push_cast; ring
  rw [this, unit_exp]

/-- Everything but the array, the position, the sampling and the reference surface is the same. -/
def SameBeam (s s' : WF n) : Prop := s'.lam = s.lam ∧ s'.zw0 = s.zw0 ∧ s'.w0 = s.w0 ∧ s'.zR = s.zR

theorem ptp_spec (po : Bool) (s : WF n) (dz : ℝ) (h : s.planar = true) : ∃ s', ptp po s dz = .ok s' ∧ SameBeam s s' ∧ s'.inside = s.inside ∧ s'.planar = true ∧
    s'.z = (if |dz| < 1e-12 then s.z else s.z + dz) ∧ s'.dx = s.dx ∧ energy s'.arr = energy s.arr := by
  unfold ptp
  split_ifs with h1 h2
  · exact ⟨s, rfl, ⟨rfl, rfl, rfl, rfl⟩, rfl, h, rfl, rfl, rfl⟩
  · rw [h] at h2; cases h2
  · refine ⟨_, rfl, ⟨rfl, rfl, rfl, rfl⟩, rfl, rfl, rfl, rfl, ?_⟩
    simp only
    rw [energy_mul _ _ (fun _ _ => offset_unit po s.lam dz), energy_bwd, energy_mul, energy_fwd]
    intro i j
    have : -I * Real.pi * s.lam * dz * (rhosqr s.dx i j : ℝ) = ((-(Real.pi * s.lam * dz * rhosqr s.dx i j) : ℝ) : ℂ) * I := by push_cast; ring
    rw [this, unit_exp]

theorem qphase_fields (s : WF n) (c : ℝ) : (qphase s c).lam = s.lam ∧ (qphase s c).zw0 = s.zw0 ∧ (qphase s c).w0 = s.w0 ∧ (qphase s c).zR = s.zR ∧
    (qphase s c).z = s.z ∧ (qphase s c).dx = s.dx ∧ (qphase s c).inside = s.inside ∧ (qphase s c).planar = s.planar := by
  unfold qphase; split_ifs <;> exact ⟨rfl, rfl, rfl, rfl, rfl, rfl, rfl, rfl⟩

theorem stw_spec (po : Bool) (s : WF n) (dz : ℝ) : ∃ s', stw po s dz = .ok s' ∧ SameBeam s s' ∧ s'.inside = s.inside ∧ s'.planar = true ∧
    s'.z = (if s.planar = true then (if |dz| < 1e-12 then s.z else s.z + dz) else s.z + if dz = 0 then s.zw0 - s.z else dz) ∧ energy s'.arr = energy s.arr := by
  unfold stw
  split_ifs with h1 h2 h3 h4 h5
  case pos => obtain ⟨s', a, b, c, d, e, -, f⟩ := ptp_spec po s dz h1; rw [if_pos h2] at e; exact ⟨s', a, b, c, d, e, f⟩
  case neg => obtain ⟨s', a, b, c, d, e, -, f⟩ := ptp_spec po s dz h1; rw [if_neg h2] at e; exact ⟨s', a, b, c, d, e, f⟩
  all_goals
    refine ⟨_, rfl, ?_, ?_, rfl, ?_, ?_⟩
    · simp only [SameBeam, qphase_fields]; exact ⟨trivial, trivial, trivial, trivial⟩
    · simp only [qphase_fields]
    · simp only [qphase_fields]
    · simp only
      rw [energy_mul _ _ (fun _ _ => offset_unit po _ _), energy_qphase]
      dsimp only
      split_ifs <;> first | rw [energy_fwd] | rw [energy_bwd]

theorem wts_spec (po : Bool) (s : WF n) (dz : ℝ) : SameBeam s (wts po s dz) ∧ (wts po s dz).inside = s.inside ∧ (wts po s dz).planar = false ∧
    (wts po s dz).z = s.z + dz ∧ energy (wts po s dz).arr = energy s.arr := by
  unfold wts
  split_ifs with h1 h2
  · exact ⟨⟨rfl, rfl, rfl, rfl⟩, rfl, rfl, by simp [h1], rfl⟩
  all_goals
    refine ⟨?_, ?_, ?_, ?_, ?_⟩
    · simp only [SameBeam, qphase_fields]; exact ⟨trivial, trivial, trivial, trivial⟩
    · simp only [qphase_fields]
    · simp only [qphase_fields]
    · simp only [qphase_fields]
    · simp only
      rw [energy_mul _ _ (fun _ _ => offset_unit po _ _)]
      first | rw [energy_fwd, energy_qphase] | rw [energy_bwd, energy_qphase]

/-- The state condition that makes plane propagation legal. -/
def Inv (s : WF n) : Prop := s.inside = true → s.planar = true

theorem propagate_spec (po : Bool) (s : WF n) (dz : ℝ) (tp : Bool) (h : Inv s) : ∃ s', propagate po s dz tp = .ok s' ∧ SameBeam s s' ∧ Inv s' ∧
    |s'.z - (s.z + dz)| < 2e-12 ∧ ((s.inside = true ∨ s.planar = false) → |s'.z - (s.z + dz)| < 1e-12) ∧ energy s'.arr = energy s.arr := by
  unfold propagate
  generalize decide (|s.zw0 - (s.z + dz)| < s.zR) = new
  obtain ⟨arr, lam, dx, z, zw0, w0, zR, inside, planar⟩ := s
  simp only [Inv] at h
  simp only [SameBeam, Inv]
  generalize htg : (if tp = true then true else new) = target
  have htn : new = true → target = true := by intro hn; rw [← htg, hn]; simp
  cases inside
  · obtain ⟨s1, e1, ⟨b1, b2, b3, b4⟩, c1, d1, z1, en1⟩ := stw_spec po (WF.mk arr lam dx z zw0 w0 zR new planar) (zw0 - z)
    simp only at b1 b2 b3 b4 c1 d1 z1 en1
    have hz1 : |s1.z - zw0| < 1e-12 ∧ (planar = false → s1.z = zw0) := by
      rw [z1]
      cases planar
      · simp only [Bool.false_eq_true, if_false]
        have : (z + if zw0 - z = 0 then zw0 - z else zw0 - z) = zw0 := by split_ifs <;> ring
        rw [this]; norm_num
      · simp only [if_true]
        refine ⟨?_, by simp⟩
        split_ifs with hh
        · rw [abs_sub_comm]; exact hh
        · norm_num
    clear z1
    cases target
    · simp only [e1, bind, Except.bind, pure, Except.pure]
      obtain ⟨⟨a1, a2, a3, a4⟩, a5, a6, a7, a8⟩ := wts_spec po s1 (z + dz - s1.zw0)
      refine ⟨_, rfl, ⟨a1.trans b1, a2.trans b2, a3.trans b3, a4.trans b4⟩, ?_, ?_, ?_, a8.trans en1⟩
      · rw [a5, c1]; intro hn; exact absurd (htn hn) (by simp)
      all_goals
        have e : (wts po s1 (z + dz - s1.zw0)).z - (z + dz) = s1.z - zw0 := by rw [a7, b2]; ring
        rw [e]
      · linarith [hz1.1]
      · intro _; exact hz1.1
    · obtain ⟨s2, e2, ⟨a1, a2, a3, a4⟩, a5, a6, a7, -, a8⟩ := ptp_spec po s1 (z + dz - zw0) d1
      simp only [e1, bind, Except.bind, b2, e2]
      have hz2 : |s2.z - (s1.z + (z + dz - zw0))| < 1e-12 := by
        rw [a7]
        split_ifs with hh
        · have : s1.z - (s1.z + (z + dz - zw0)) = -(z + dz - zw0) := by ring
          rw [this, abs_neg]; exact hh
        · norm_num
      refine ⟨s2, rfl, ⟨a1.trans b1, a2.trans rfl |>.trans b2, a3.trans b3, a4.trans b4⟩, fun _ => a6, ?_, ?_, a8.trans en1⟩
      · have e : s2.z - (z + dz) = (s2.z - (s1.z + (z + dz - zw0))) + (s1.z - zw0) := by ring
        rw [e]
        have := abs_add_le (s2.z - (s1.z + (z + dz - zw0))) (s1.z - zw0)
        linarith [hz1.1]
      · intro hp
        rcases hp with hp | hp
        · cases hp
        · have e : s2.z - (z + dz) = (s2.z - (s1.z + (z + dz - zw0))) := by rw [hz1.2 hp]; ring
          rw [e]; exact hz2
  · have hpl := h rfl
    subst hpl
    cases target
    · obtain ⟨s1, e1, ⟨b1, b2, b3, b4⟩, c1, d1, z1, -, en1⟩ := ptp_spec po (WF.mk arr lam dx z zw0 w0 zR new true) (zw0 - z) rfl
      simp only at b1 b2 b3 b4 c1 d1 z1 en1
      simp only [e1, bind, Except.bind, pure, Except.pure]
      obtain ⟨⟨a1, a2, a3, a4⟩, a5, a6, a7, a8⟩ := wts_spec po s1 (z + dz - s1.zw0)
      have key : |(wts po s1 (z + dz - s1.zw0)).z - (z + dz)| < 1e-12 := by
        have e : (wts po s1 (z + dz - s1.zw0)).z - (z + dz) = s1.z - zw0 := by rw [a7, b2]; ring
        rw [e, z1]
        split_ifs with hh
        · rw [abs_sub_comm]; exact hh
        · norm_num
      refine ⟨_, rfl, ⟨a1.trans b1, a2.trans b2, a3.trans b3, a4.trans b4⟩, ?_, by linarith, fun _ => key, a8.trans en1⟩
      rw [a5, c1]; intro hn; exact absurd (htn hn) (by simp)
    · obtain ⟨s1, e1, ⟨b1, b2, b3, b4⟩, c1, d1, z1, -, en1⟩ := ptp_spec po (WF.mk arr lam dx z zw0 w0 zR new true) dz rfl
      simp only at b1 b2 b3 b4 c1 d1 z1 en1
      have key : |s1.z - (z + dz)| < 1e-12 := by
        rw [z1]
        split_ifs with hh
        · have : z - (z + dz) = -dz := by ring
          rw [this, abs_neg]; exact hh
        · norm_num
      exact ⟨s1, e1, ⟨b1, b2, b3, b4⟩, fun _ => d1, by linarith, fun _ => key, en1⟩

theorem lens_spec (s : WF n) (fl : ℝ) {s' : WF n} (h : lens s fl = .ok s') : s'.z = s.z ∧ s'.planar = s'.inside ∧ s'.lam = s.lam ∧ s'.dx = s.dx ∧ energy s'.arr = energy s.arr ∧
    s'.zw0 = (lensBeam s fl).zw0 ∧ s'.w0 = (lensBeam s fl).w0 ∧ s'.zR = (lensBeam s fl).zR ∧ (s'.inside = true ↔ |s'.zw0 - s'.z| < s'.zR) := by
  unfold lens at h
  dsimp only at h
  have hb : (lensBeam s fl).arr = s.arr ∧ (lensBeam s fl).z = s.z ∧ (lensBeam s fl).lam = s.lam ∧ (lensBeam s fl).dx = s.dx := by
    unfold lensBeam; split <;> simp
  cases hp : lensPhase s (lensBeam s fl) fl with
  | error e => rw [hp] at h; cases h
  | ok p =>
    rw [hp] at h
    simp only [bind, Except.bind, pure, Except.pure] at h
    injection h with h
    subst h
    refine ⟨hb.2.1, rfl, hb.2.2.1, hb.2.2.2, ?_, rfl, rfl, rfl, by simp⟩
    show energy (addPhase (lensBeam s fl) _).arr = _
    rw [energy_addPhase, hb.1]

theorem lensCurv_error {a b : Bool} {x y w : ℝ} {e : PyErr} (h : lensCurv a b x y w = .error e) : e = .zeroDivision := by
  unfold lensCurv pyInv at h
  cases a <;> cases b <;> simp only [bind, Except.bind, pure, Except.pure] at h <;> split_ifs at h <;> simp_all

theorem lens_error (s : WF n) (fl : ℝ) {e : PyErr} (h : lens s fl = .error e) : e = .zeroDivision := by
  unfold lens at h
  dsimp only at h
  cases hp : lensPhase s (lensBeam s fl) fl with
  | ok p => rw [hp] at h; simp [bind, Except.bind, pure, Except.pure] at h
  | error e' =>
    rw [hp] at h
    simp only [bind, Except.bind] at h
    injection h with h
    subst h
    exact lensCurv_error hp

/-- The situations a prescription can reach: states obtained from `prop_begin` by successful calls. -/
def Reachable (po : Bool) (s : WF n) : Prop := ∃ diam lam frac ops, run po (begin_ n diam lam frac) ops = .ok s

theorem step_inv (po : Bool) (s : WF n) (h : Inv s) (op : Op n) {s' : WF n} (hs : step po s op = .ok s') : Inv s' ∧ energy s'.arr = energy s.arr := by
  cases op with
  | lens fl => have := lens_spec s fl hs; exact ⟨fun hi => this.2.1.trans hi, this.2.2.2.2.1⟩
  | propagate dz tp =>
    obtain ⟨s2, e, -, i, -, -, en⟩ := propagate_spec po s dz tp h
    have : s2 = s' := by have := e.symm.trans hs; injection this
    subst this; exact ⟨i, en⟩
  | addPhase ph => simp only [step, Except.ok.injEq] at hs; subst hs; exact ⟨h, energy_addPhase s ph⟩

theorem run_inv (po : Bool) (ops : List (Op n)) : ∀ s : WF n, Inv s → ∀ {s'}, run po s ops = .ok s' → Inv s' ∧ energy s'.arr = energy s.arr := by
  induction ops with
  | nil => intro s h s' hs; simp only [run, List.foldlM_nil, pure, Except.pure, Except.ok.injEq] at hs; subst hs; exact ⟨h, rfl⟩
  | cons op ops ih =>
    intro s h s' hs
    simp only [run, List.foldlM_cons, bind, Except.bind] at hs
    cases h1 : step po s op with
    | error e => rw [h1] at hs; cases hs
    | ok s1 =>
      rw [h1] at hs
      obtain ⟨i1, e1⟩ := step_inv po s h op h1
      obtain ⟨i2, e2⟩ := ih s1 i1 hs
      exact ⟨i2, e2.trans e1⟩

theorem run_error (po : Bool) (ops : List (Op n)) : ∀ s : WF n, Inv s → ∀ {e}, run po s ops = .error e → e = .zeroDivision := by
  induction ops with
  | nil => intro s h e hs; simp [run, pure, Except.pure] at hs
  | cons op ops ih =>
    intro s h e hs
    simp only [run, List.foldlM_cons, bind, Except.bind] at hs
    cases h1 : step po s op with
    | error e' =>
      rw [h1] at hs; injection hs with hs; subst hs
      cases op with
      | lens fl => exact lens_error s fl h1
      | propagate dz tp =>
        obtain ⟨s2, e2, -⟩ := propagate_spec po s dz tp h
        have : Except.ok s2 = Except.error e' := e2.symm.trans h1
        cases this
      | addPhase ph => cases h1
    | ok s1 =>
      rw [h1] at hs
      exact ih s1 (step_inv po s h op h1).1 hs

/-- **C56** For every sequence of `prop_lens`, `prop_propagate` (with or without TO_PLANE) and `prop_add_phase` calls after `prop_begin`, the error "input reference surface not planar" is not reached. -/
theorem C56_never_not_planar (po : Bool) (diam lam frac : ℝ) (ops : List (Op n)) : run po (begin_ n diam lam frac) ops ≠ .error .valueError := by
  intro h
  have := run_error po ops (begin_ n diam lam frac) (fun _ => rfl) h
  cases this

/-- **C56** In every reachable state a propagation by `dz` succeeds and moves the position by `dz`, up to the tolerance of the plane propagator (twice that after a TO_PLANE propagation). -/
theorem C56_position (po : Bool) (s : WF n) (hr : Reachable po s) (dz : ℝ) (tp : Bool) :
    ∃ s', propagate po s dz tp = .ok s' ∧ |s'.z - (s.z + dz)| < 2e-12 ∧ ((s.inside = true ∨ s.planar = false) → |s'.z - (s.z + dz)| < 1e-12) := by
  obtain ⟨diam, lam, frac, ops, h⟩ := hr
  obtain ⟨s', e, -, -, h1, h2, -⟩ := propagate_spec po s dz tp (run_inv po ops _ (fun _ => rfl) h).1
  exact ⟨s', e, h1, h2⟩

/-- **C72** The total intensity is conserved by every prescription of lenses, propagations and phase errors. -/
theorem C72_energy (po : Bool) (diam lam frac : ℝ) (ops : List (Op n)) {s' : WF n} (h : run po (begin_ n diam lam frac) ops = .ok s') :
    ∑ i, ∑ j, ‖s'.arr i j‖ ^ 2 = ∑ i, ∑ j, ‖(begin_ n diam lam frac).arr i j‖ ^ 2 := by
  have := (run_inv po ops _ (fun _ => rfl) h).2
  simpa only [energy, normSq_eq_norm_sq] using this

/-- **C72** The same from any field: intensity is conserved by each sequence of calls in any reachable state. -/
theorem C72_energy_from (po : Bool) (s : WF n) (hr : Reachable po s) (arr : ZMod n → ZMod n → ℂ) (ops : List (Op n)) {s' : WF n} (h : run po { s with arr := arr } ops = .ok s') :
    ∑ i, ∑ j, ‖s'.arr i j‖ ^ 2 = ∑ i, ∑ j, ‖arr i j‖ ^ 2 := by
  obtain ⟨diam, lam, frac, ops0, h0⟩ := hr
  have hi : Inv { s with arr := arr } := (run_inv po ops0 _ (fun _ => rfl) h0).1
  have := (run_inv po ops _ hi h).2
  simpa only [energy, normSq_eq_norm_sq] using this

/-! ## The lens and the Gaussian beam -/

/-- Complex beam parameter of the pilot beam at the current position. -/
noncomputable def beamQ (s : WF n) : ℂ := ⟨s.z - s.zw0, s.zR⟩

/-- Beam parameters as `prop_begin` and every lens leave them. -/
def Beam (s : WF n) : Prop := 0 < s.lam ∧ 0 < s.w0 ∧ s.zR = Real.pi * s.w0 ^ 2 / s.lam

theorem Beam.zR_pos {s : WF n} (h : Beam s) : 0 < s.zR := by
  obtain ⟨h1, h2, h3⟩ := h; rw [h3]; have := Real.pi_pos; positivity

/-- Size of the beam in units of a Rayleigh length: `π w² / λ`. -/
theorem wAt_sq {s : WF n} (h : Beam s) : Real.pi * wAt s ^ 2 / s.lam = ((s.z - s.zw0) ^ 2 + s.zR ^ 2) / s.zR ∧ 0 < wAt s := by
  have hz := h.zR_pos
  obtain ⟨h1, h2, h3⟩ := h
  unfold wAt
  rw [← h3]
  constructor
  · rw [mul_pow, Real.sq_sqrt (by positivity), ← mul_assoc, mul_div_right_comm, ← h3]
    field_simp; ring
  · positivity

theorem lensBeam_some {s : WF n} (h : Beam s) {fl g : ℝ} (hg : lensR s.z s.zw0 (Real.pi * s.w0 ^ 2 / s.lam) fl = some g) (hg0 : g ≠ 0) :
    Beam (lensBeam s fl) ∧ (lensBeam s fl).lam = s.lam ∧
    1 / beamQ (lensBeam s fl) = 1 / (g : ℂ) - I * (s.zR / ((s.z - s.zw0) ^ 2 + s.zR ^ 2) : ℝ) := by
  obtain ⟨hw, hwp⟩ := wAt_sq h
  have hz := h.zR_pos
  obtain ⟨h1, h2, h3⟩ := h
  have hpi := Real.pi_pos
  set S := Real.pi * wAt s ^ 2 / s.lam with hS
  have hSp : 0 < S := by positivity
  have hinv : s.zR / ((s.z - s.zw0) ^ 2 + s.zR ^ 2) = 1 / S := by rw [hw, one_div_div]
  have e1 : s.lam * g / (Real.pi * wAt s ^ 2) = g / S := by rw [hS]; field_simp
  have e2 : Real.pi * wAt s ^ 2 / (s.lam * g) = S / g := by rw [hS]; field_simp
  have hlb : lensBeam s fl = { s with zw0 := -g / (1 + (g / S) ^ 2) + s.z, w0 := wAt s / Real.sqrt (1 + (S / g) ^ 2), zR := Real.pi * (wAt s / Real.sqrt (1 + (S / g) ^ 2)) ^ 2 / s.lam } := by
    unfold lensBeam; simp only [hg, e1, e2]
  have hzR' : Real.pi * (wAt s / Real.sqrt (1 + (S / g) ^ 2)) ^ 2 / s.lam = S / (1 + (S / g) ^ 2) := by
    rw [div_pow, Real.sq_sqrt (by positivity), hS]; field_simp
  refine ⟨?_, by rw [hlb], ?_⟩
  · rw [hlb]; exact ⟨h1, by simp only; positivity, rfl⟩
  · rw [hlb, hinv]
    simp only [beamQ, hzR']
    have hden : 0 < S ^ 2 + g ^ 2 := by positivity
    have f1 : s.z - (-g / (1 + (g / S) ^ 2) + s.z) = g * S ^ 2 / (S ^ 2 + g ^ 2) := by field_simp; ring
    have f2 : S / (1 + (S / g) ^ 2) = S * g ^ 2 / (S ^ 2 + g ^ 2) := by field_simp; ring
    rw [f1, f2]
    have hq : (⟨g * S ^ 2 / (S ^ 2 + g ^ 2), S * g ^ 2 / (S ^ 2 + g ^ 2)⟩ : ℂ) * (1 / (g : ℂ) - I * ((1 / S : ℝ) : ℂ)) = 1 := by
      apply Complex.ext
      · simp; field_simp
      · simp; field_simp; ring
    exact (eq_one_div_of_mul_eq_one_right hq).symm

theorem lensBeam_none {s : WF n} (h : Beam s) {fl : ℝ} (hg : lensR s.z s.zw0 (Real.pi * s.w0 ^ 2 / s.lam) fl = none) :
    Beam (lensBeam s fl) ∧ (lensBeam s fl).lam = s.lam ∧ 1 / beamQ (lensBeam s fl) = - I * (s.zR / ((s.z - s.zw0) ^ 2 + s.zR ^ 2) : ℝ) := by
  obtain ⟨hw, hwp⟩ := wAt_sq h
  have hz := h.zR_pos
  obtain ⟨h1, h2, h3⟩ := h
  have hpi := Real.pi_pos
  have hlb : lensBeam s fl = { s with zw0 := s.z, w0 := wAt s, zR := Real.pi * wAt s ^ 2 / s.lam } := by
    unfold lensBeam; simp only [hg]
  set S := Real.pi * wAt s ^ 2 / s.lam with hS
  have hSp : 0 < S := by positivity
  have hinv : s.zR / ((s.z - s.zw0) ^ 2 + s.zR ^ 2) = 1 / S := by rw [hw, one_div_div]
  refine ⟨?_, by rw [hlb], ?_⟩
  · rw [hlb]; exact ⟨h1, hwp, rfl⟩
  · rw [hlb, hinv]
    simp only [beamQ, sub_self]
    have hq : (⟨0, S⟩ : ℂ) * (-I * ((1 / S : ℝ) : ℂ)) = 1 := by
      apply Complex.ext
      · simp; field_simp
      · simp
    exact (eq_one_div_of_mul_eq_one_right hq).symm

theorem inv_beamQ {s : WF n} (h : Beam s) : 1 / beamQ s = (((s.z - s.zw0) / ((s.z - s.zw0) ^ 2 + s.zR ^ 2) : ℝ) : ℂ) - I * (s.zR / ((s.z - s.zw0) ^ 2 + s.zR ^ 2) : ℝ) := by
  have hz := h.zR_pos
  have hden : 0 < (s.z - s.zw0) ^ 2 + s.zR ^ 2 := by positivity
  have hq : beamQ s * ((((s.z - s.zw0) / ((s.z - s.zw0) ^ 2 + s.zR ^ 2) : ℝ) : ℂ) - I * (s.zR / ((s.z - s.zw0) ^ 2 + s.zR ^ 2) : ℝ)) = 1 := by
    unfold beamQ
    generalize s.z - s.zw0 = D at *
    apply Complex.ext <;> simp only [Complex.mul_re, Complex.sub_re, Complex.sub_im, Complex.mul_im, Complex.ofReal_re, Complex.ofReal_im, Complex.I_re, Complex.I_im, Complex.one_re, Complex.one_im] <;> field_simp <;> ring
  exact (eq_one_div_of_mul_eq_one_right hq).symm

theorem lensBeam_law {s : WF n} (h : Beam s) {fl : ℝ} (hfl : fl ≠ 0) :
    Beam (lensBeam s fl) ∧ (lensBeam s fl).lam = s.lam ∧ 1 / beamQ (lensBeam s fl) = 1 / beamQ s - 1 / (fl : ℂ) := by
  rw [inv_beamQ h]
  have hz := h.zR_pos
  have hden : 0 < (s.z - s.zw0) ^ 2 + s.zR ^ 2 := by positivity
  cases hg : lensR s.z s.zw0 (Real.pi * s.w0 ^ 2 / s.lam) fl with
  | none =>
    obtain ⟨a, b, c⟩ := lensBeam_none h hg
    refine ⟨a, b, ?_⟩
    rw [c]
    unfold lensR at hg
    rw [← h.2.2] at hg
    dsimp only at hg
    split_ifs at hg with h1 h2
    have h2 : (s.z - s.zw0) + s.zR ^ 2 / (s.z - s.zw0) = fl := by by_contra hc; exact h2 hc
    have : (s.z - s.zw0) / ((s.z - s.zw0) ^ 2 + s.zR ^ 2) = 1 / fl := by rw [← h2]; field_simp
    rw [this]; push_cast; ring
  | some g =>
    have hgv : g ≠ 0 ∧ 1 / g = (s.z - s.zw0) / ((s.z - s.zw0) ^ 2 + s.zR ^ 2) - 1 / fl := by
      unfold lensR at hg
      rw [← h.2.2] at hg
      dsimp only at hg
      split_ifs at hg with h1 h2
      · have h2 : ¬ (s.z - s.zw0) + s.zR ^ 2 / (s.z - s.zw0) = fl := h2
        injection hg with hg
        have hold : (s.z - s.zw0) / ((s.z - s.zw0) ^ 2 + s.zR ^ 2) = 1 / ((s.z - s.zw0) + s.zR ^ 2 / (s.z - s.zw0)) := by field_simp
        have hold0 : (s.z - s.zw0) + s.zR ^ 2 / (s.z - s.zw0) ≠ 0 := by
          have : (s.z - s.zw0) + s.zR ^ 2 / (s.z - s.zw0) = ((s.z - s.zw0) ^ 2 + s.zR ^ 2) / (s.z - s.zw0) := by field_simp
          rw [this]; exact div_ne_zero hden.ne' h1
        have hne : 1 / ((s.z - s.zw0) + s.zR ^ 2 / (s.z - s.zw0)) - 1 / fl ≠ 0 := by
          intro hc
          apply h2
          have := sub_eq_zero.1 hc
          rw [div_eq_div_iff hold0 hfl] at this
          linarith
        rw [hold, ← hg]
        exact ⟨one_div_ne_zero hne, by rw [one_div_one_div]⟩
      · injection hg with hg
        have h1 : s.z - s.zw0 = 0 := by by_contra hc; exact h1 hc
        rw [← hg, h1]
        refine ⟨neg_ne_zero.2 hfl, ?_⟩
        rw [zero_div, one_div, inv_neg, one_div]; ring
    obtain ⟨a, b, c⟩ := lensBeam_some h hg hgv.1
    refine ⟨a, b, ?_⟩
    rw [c]
    have := congrArg (fun x : ℝ => (x : ℂ)) hgv.2
    push_cast at this ⊢
    rw [this]; ring

/-- **C73** A lens changes the pilot Gaussian beam by the thin-lens law `1/q' = 1/q - 1/f` at an unchanged position, whether the lens is at the waist, collimates the beam or neither. -/
theorem C73_lens_law {s s' : WF n} (h : Beam s) {fl : ℝ} (hfl : fl ≠ 0) (hl : lens s fl = .ok s') : s'.z = s.z ∧ Beam s' ∧ 1 / beamQ s' = 1 / beamQ s - 1 / (fl : ℂ) := by
  obtain ⟨a1, -, a3, -, -, a6, a7, a8, -⟩ := lens_spec s fl hl
  obtain ⟨⟨b1, b2, b3⟩, b4, b5⟩ := lensBeam_law h hfl
  have hz : (lensBeam s fl).z = s.z := by unfold lensBeam; split <;> rfl
  have hq : beamQ s' = beamQ (lensBeam s fl) := by unfold beamQ; rw [a1, a6, a8, hz]
  refine ⟨a1, ⟨by rw [a3]; exact h.1, by rw [a7]; exact b2, ?_⟩, by rw [hq, b5]⟩
  rw [a8, a7, a3, b3, b4]

/-- **C73** Propagation moves along the same beam: waist and Rayleigh length are unchanged. -/
theorem C73_propagate_same_beam (po : Bool) (s : WF n) (hi : Inv s) (dz : ℝ) (tp : Bool) {s' : WF n} (h : propagate po s dz tp = .ok s') (hb : Beam s) :
    Beam s' ∧ s'.zw0 = s.zw0 ∧ s'.w0 = s.w0 ∧ s'.zR = s.zR := by
  obtain ⟨s2, e, ⟨a1, a2, a3, a4⟩, -⟩ := propagate_spec po s dz tp hi
  have : s2 = s' := by have := e.symm.trans h; injection this
  subst this
  exact ⟨⟨by rw [a1]; exact hb.1, by rw [a3]; exact hb.2.1, by rw [a1, a3, a4]; exact hb.2.2⟩, a2, a3, a4⟩

/-- A collimated beam focused by a lens: the hypotheses of `C73_lens_law` hold after `prop_begin`. -/
example : Beam (begin_ 4 2 (1 / 2) (1 / 2)) := by refine ⟨?_, ?_, ?_⟩ <;> norm_num [begin_]

/-! ## The phase a lens adds -/

/-- Curvature of the reference surface of the array: 0 for a plane, that of the sphere about the waist otherwise. -/
noncomputable def refCurv (s : WF n) : ℝ := if s.planar = true then 0 else 1 / (s.z - s.zw0)

theorem lensCurv_spec {oldIn newIn : Bool} {fl Rold Rnew : ℝ} (h1 : oldIn = true → Rold = 0) (h2 : newIn = true ↔ Rnew = 0) (hfl : fl ≠ 0) :
    lensCurv oldIn newIn fl Rold Rnew = if oldIn = false ∧ newIn = true ∧ Rold = 0 then .error .zeroDivision else .ok (1 / fl - 1 / Rold + 1 / Rnew) := by
  unfold lensCurv pyInv
  cases oldIn <;> cases newIn <;> simp_all [bind, Except.bind, pure, Except.pure]
  split_ifs <;> simp_all

/-- Behind the lens the beam is inside the Rayleigh range. -/
def Inside' (s : WF n) (fl : ℝ) : Prop := |(lensBeam s fl).zw0 - (lensBeam s fl).z| < (lensBeam s fl).zR

open Classical in
theorem lensPhase_spec {s : WF n} (h : Beam s) (hi : Inv s) {fl : ℝ} (hfl : fl ≠ 0) :
    (s.inside = false ∧ Inside' s fl ∧ (s.planar = true ∨ s.z = s.zw0) → lensPhase s (lensBeam s fl) fl = .error .zeroDivision) ∧
    (¬ (s.inside = false ∧ Inside' s fl ∧ (s.planar = true ∨ s.z = s.zw0)) → lensPhase s (lensBeam s fl) fl =
      .ok (1 / fl - refCurv s + if Inside' s fl then 0 else 1 / ((lensBeam s fl).z - (lensBeam s fl).zw0))) := by
  have hz := (lensBeam_law h hfl).1.zR_pos
  have hR : (if s.inside = true ∨ s.planar = true then (0 : ℝ) else s.z - s.zw0) = if s.planar = true then 0 else s.z - s.zw0 := by
    by_cases hp : s.planar = true
    · simp [hp]
    · have : ¬ s.inside = true := fun hh => hp (hi hh)
      simp [hp, this]
  unfold lensPhase
  simp only [hR]
  rw [lensCurv_spec (newIn := decide (|(lensBeam s fl).zw0 - (lensBeam s fl).z| < (lensBeam s fl).zR)) ?_ ?_ hfl]
  · have hR0 : (if s.planar = true then (0 : ℝ) else s.z - s.zw0) = 0 ↔ (s.planar = true ∨ s.z = s.zw0) := by
      by_cases hp : s.planar = true
      · simp [hp]
      · simp [hp, sub_eq_zero]
    have hc : 1 / (if s.planar = true then (0 : ℝ) else s.z - s.zw0) = refCurv s := by unfold refCurv; split_ifs <;> simp
    rw [hc]
    simp only [hR0, decide_eq_true_eq]
    unfold Inside'
    constructor
    · intro hh; rw [if_pos hh]
    · intro hh; rw [if_neg hh]; congr 2; split_ifs <;> simp
  · intro hh; simp [hi hh]
  · simp only [decide_eq_true_eq]
    constructor
    · intro hh; rw [if_pos hh]
    · intro hh
      by_contra hc
      rw [if_neg hc] at hh
      apply hc
      rw [abs_sub_comm, hh, abs_zero]; exact hz

open Classical in
/-- the phase a successful lens call adds -/
theorem lens_phase {s s' : WF n} (h : Beam s) (hi : Inv s) {fl : ℝ} (hfl : fl ≠ 0) (hl : lens s fl = .ok s') (i j : ZMod n) :
    s'.arr i j = s.arr i j * exp (2 * Real.pi * I / s.lam * (shiftCenter (fun i j => -(radius s i j) ^ 2 * ((1 / fl - refCurv s + refCurv s') / 2)) i j : ℝ)) := by
  obtain ⟨p1, p2⟩ := lensPhase_spec h hi hfl
  have hb : (lensBeam s fl).arr = s.arr ∧ (lensBeam s fl).z = s.z ∧ (lensBeam s fl).lam = s.lam ∧ (lensBeam s fl).dx = s.dx := by
    unfold lensBeam; split <;> simp
  have hr : (if Inside' s fl then (0 : ℝ) else 1 / ((lensBeam s fl).z - (lensBeam s fl).zw0)) = refCurv s' := by
    obtain ⟨a1, a2, -, -, -, a6, -, a8, a9⟩ := lens_spec s fl hl
    have : (s'.planar = true) ↔ Inside' s fl := by rw [a2, a9, a6, a8, a1, ← hb.2.1]; rfl
    unfold refCurv
    simp only [this, a6, a1, hb.2.1]
  by_cases hc : (s.inside = false ∧ Inside' s fl ∧ (s.planar = true ∨ s.z = s.zw0))
  · unfold lens at hl; dsimp only at hl; rw [p1 hc] at hl; cases hl
  · have hp := p2 hc
    unfold lens at hl; dsimp only at hl; rw [hp] at hl
    simp only [bind, Except.bind, pure, Except.pure] at hl
    injection hl with hl
    rw [← hr, ← hl]
    simp only [addPhase, hb.1, hb.2.2.1]

/-- The phase factor of a surface of curvature `c` at the distance of `p`, `q` pixels from the axis. -/
noncomputable def curvFactor (lam dx c : ℝ) (p q : ℤ) : ℂ := exp (-(I * Real.pi / lam * ((((p : ℝ) * dx) ^ 2 + ((q : ℝ) * dx) ^ 2) * c : ℝ)))

theorem lens_pixel (s s' : WF n) (fl : ℝ) (i j : ZMod n) (p q : ℤ) (hp : (((i - ((n / 2 : ℕ) : ZMod n)).val : ℕ) : ℤ) - ((n / 2 : ℕ) : ℤ) = p)
    (hq : (((j - ((n / 2 : ℕ) : ZMod n)).val : ℕ) : ℤ) - ((n / 2 : ℕ) : ℤ) = q) :
    exp (2 * Real.pi * I / s.lam * (shiftCenter (fun i j => -(radius s i j) ^ 2 * ((1 / fl - refCurv s + refCurv s') / 2)) i j : ℝ))
      = curvFactor s.lam s.dx (1 / fl - refCurv s + refCurv s') p q := by
  have h1 : ∀ i : ZMod n, ∀ p : ℤ, (((i - ((n / 2 : ℕ) : ZMod n)).val : ℕ) : ℤ) - ((n / 2 : ℕ) : ℤ) = p →
      (((i - ((n / 2 : ℕ) : ZMod n)).val : ℕ) : ℝ) - ((n / 2 : ℕ) : ℝ) = (p : ℝ) := by
    intro i p h
    rw [← h]; generalize n / 2 = c; push_cast; ring
  unfold shiftCenter roll2 curvFactor radius
  rw [Int.cast_natCast]
  dsimp only
  rw [h1 i p hp, h1 j q hq, mul_pow, Real.sq_sqrt (by positivity)]
  congr 1
  push_cast
  ring

/-- **C74** On arrays of even size, whenever a lens call succeeds, the phase added to the sample `p`, `q` pixels from the axis (stored at the array origin, negative offsets at the end) is
the thin-lens phase `exp(-iπ r²/(λ f))`, `r² = (p dx)² + (q dx)²`, corrected by exactly the change of the reference surface, so that array times reference surface is multiplied by the lens phase. -/
theorem C74_phase {s s' : WF n} (hn : n % 2 = 0) (h : Beam s) (hi : Inv s) {fl : ℝ} (hfl : fl ≠ 0) (hl : lens s fl = .ok s') (p q : ℤ)
    (hp : -(n : ℤ) ≤ 2 * p ∧ 2 * p < n) (hq : -(n : ℤ) ≤ 2 * q ∧ 2 * q < n) :
    s'.arr p q = s.arr p q * curvFactor s.lam s.dx (1 / fl - refCurv s + refCurv s') p q := by
  rw [lens_phase h hi hfl hl]
  have key : ∀ p : ℤ, -(n : ℤ) ≤ 2 * p ∧ 2 * p < n → ((((p : ZMod n) - ((n / 2 : ℕ) : ZMod n)).val : ℕ) : ℤ) - ((n / 2 : ℕ) : ℤ) = p := by
    intro p hp
    have e : (p : ZMod n) - ((n / 2 : ℕ) : ZMod n) = ((p + ((n / 2 : ℕ) : ℤ) : ℤ) : ZMod n) := by
      have : ((n / 2 : ℕ) : ZMod n) + ((n / 2 : ℕ) : ZMod n) = 0 := by
        rw [← Nat.cast_add, show n / 2 + n / 2 = n by omega, ZMod.natCast_self]
      rw [Int.cast_add, Int.cast_natCast]
      linear_combination -this
    rw [e, ZMod.val_intCast, Int.emod_eq_of_lt] <;> omega
  rw [lens_pixel s s' fl _ _ p q (key p hp) (key q hq)]

/-- **C74** fails on arrays of odd size: the lens is decentred, the sample on the axis gets the phase of the sample one pixel away on both axes. -/
theorem C74_odd_grid_violated {s s' : WF n} (hn : n % 2 = 1) (h3 : 3 ≤ n) (h : Beam s) (hi : Inv s) {fl : ℝ} (hfl : fl ≠ 0) (hl : lens s fl = .ok s') :
    s'.arr 0 0 = s.arr 0 0 * curvFactor s.lam s.dx (1 / fl - refCurv s + refCurv s') 1 1 := by
  rw [lens_phase h hi hfl hl]
  have key : ((((0 : ZMod n) - ((n / 2 : ℕ) : ZMod n)).val : ℕ) : ℤ) - ((n / 2 : ℕ) : ℤ) = 1 := by
    have e : (0 : ZMod n) - ((n / 2 : ℕ) : ZMod n) = ((((n / 2 : ℕ) : ℤ) + 1 : ℤ) : ZMod n) := by
      have : ((n / 2 : ℕ) : ZMod n) + ((n / 2 : ℕ) : ZMod n) + 1 = 0 := by
        rw [← Nat.cast_add, ← Nat.cast_add_one, show n / 2 + n / 2 + 1 = n by omega, ZMod.natCast_self]
      rw [Int.cast_add, Int.cast_natCast, Int.cast_one]
      linear_combination -this
    rw [e, ZMod.val_intCast, Int.emod_eq_of_lt] <;> omega
  rw [lens_pixel s s' fl _ _ 1 1 key key]

open Classical in
/-- **C74** Exactly when a lens call with nonzero focal length fails. -/
theorem C74_fails_iff {s : WF n} (h : Beam s) (hi : Inv s) {fl : ℝ} (hfl : fl ≠ 0) :
    lens s fl = .error .zeroDivision ↔ (s.inside = false ∧ Inside' s fl ∧ (s.planar = true ∨ s.z = s.zw0)) := by
  obtain ⟨p1, p2⟩ := lensPhase_spec h hi hfl
  unfold lens; dsimp only
  by_cases hc : (s.inside = false ∧ Inside' s fl ∧ (s.planar = true ∨ s.z = s.zw0))
  · rw [p1 hc]; simp only [bind, Except.bind, hc]; simp
  · rw [p2 hc]; simp only [bind, Except.bind, pure, Except.pure, hc]; simp

/-- **C74** violated: there is a prescription with nonzero focal lengths, `prop_begin; prop_propagate(2, TO_PLANE=True); prop_lens(5/2)`, that ends in a ZeroDivisionError. -/
theorem C74_to_plane_violated (po : Bool) : run po (begin_ n 2 Real.pi (1 / 2)) [.propagate 2 true, .lens (5 / 2)] = .error .zeroDivision := by
  have hpi := Real.pi_pos
  have hb0 : Beam (begin_ n 2 Real.pi (1 / 2)) := ⟨hpi, by norm_num [begin_], rfl⟩
  have hzR : (begin_ n 2 Real.pi (1 / 2)).zR = 1 := by simp [begin_, hpi.ne']
  obtain ⟨s1, e1, ⟨a1, a2, a3, a4⟩, i1, -⟩ := propagate_spec po (begin_ n 2 Real.pi (1 / 2)) 2 true (fun _ => rfl)
  have e1' := e1
  unfold propagate at e1
  have hd : decide (|(begin_ n 2 Real.pi (1 / 2)).zw0 - ((begin_ n 2 Real.pi (1 / 2)).z + 2)| < (begin_ n 2 Real.pi (1 / 2)).zR) = false := by
    rw [hzR]; simp [begin_]
  rw [hd] at e1
  obtain ⟨s2, f1, -, f3, f4, f5, -⟩ := ptp_spec po { begin_ n 2 Real.pi (1 / 2) with inside := false } 2 rfl
  have h12 : s1 = s2 := by
    have h : ptp po { begin_ n 2 Real.pi (1 / 2) with inside := false } 2 = Except.ok s1 := e1
    rw [f1] at h; injection h with h; exact h.symm
  subst h12
  have hz : s1.z = 2 := by rw [f5]; norm_num [begin_]
  have hzw : s1.zw0 = 0 := a2
  have hw : s1.w0 = 1 := by rw [a3]; norm_num [begin_]
  have hl : s1.lam = Real.pi := a1
  have hb1 : Beam s1 := ⟨by rw [hl]; exact hpi, by rw [hw]; norm_num, by rw [a4, hzR, hl, hw]; field_simp⟩
  have hg : lensR s1.z s1.zw0 (Real.pi * s1.w0 ^ 2 / s1.lam) (5 / 2) = none := by
    rw [hz, hzw, hw, hl]
    have : Real.pi * 1 ^ 2 / Real.pi = 1 := by field_simp
    rw [this]; unfold lensR; norm_num
  have hin : Inside' s1 (5 / 2) := by
    have hz' := (lensBeam_none hb1 hg).1.zR_pos
    have e : (lensBeam s1 (5 / 2)).zw0 = (lensBeam s1 (5 / 2)).z := by unfold lensBeam; simp only [hg]
    unfold Inside'; rw [e, sub_self, abs_zero]; exact hz'
  have hfail := (C74_fails_iff hb1 i1 (show (5 / 2 : ℝ) ≠ 0 by norm_num)).2 ⟨f3, hin, Or.inl f4⟩
  have e1s : step po (begin_ n 2 Real.pi (1 / 2)) (.propagate 2 true) = .ok s1 := e1'
  have e2s : step po s1 (.lens (5 / 2)) = .error .zeroDivision := hfail
  simp only [run, List.foldlM_cons, List.foldlM_nil, bind, Except.bind, e1s, e2s]

/-! ## Reversibility -/

/-- The bookkeeping of a state agrees with the geometry: inside the Rayleigh range with a plane reference, or outside with a spherical one. -/
def Consistent (s : WF n) : Prop := Beam s ∧ 0 < s.dx ∧ (s.inside = true ↔ |s.zw0 - s.z| < s.zR) ∧ s.planar = s.inside

/-- A leg the plane propagator does not drop silently. -/
def NotTiny (x : ℝ) : Prop := x = 0 ∨ 1e-12 ≤ |x|

theorem fwd_smul (c : ℂ) (a : ZMod n → ZMod n → ℂ) : fwd (fun i j => a i j * c) = fun i j => fwd a i j * c := by
  funext i j
  unfold fwd
  have : (fun i j => a i j * c) = fun i j => c * a i j := by funext i j; ring
  rw [this, fft2_smul]; ring

theorem bwd_smul (c : ℂ) (a : ZMod n → ZMod n → ℂ) : bwd (fun i j => a i j * c) = fun i j => bwd a i j * c := by
  funext i j
  unfold bwd
  have : (fun i j => a i j * c) = fun i j => c * a i j := by funext i j; ring
  rw [this, ifft2_smul]; ring

theorem offset_neg (po : Bool) (lam dz : ℝ) : offset po lam dz * offset po lam (-dz) = 1 := by
  unfold offset
  split_ifs
  · rw [← exp_add]
    have : I * 2 * Real.pi * dz / lam + I * 2 * Real.pi * ((-dz : ℝ) : ℂ) / lam = 0 := by push_cast; ring
    rw [this, exp_zero]
  · simp

theorem ptp_zero (po : Bool) (s : WF n) : ptp po s 0 = .ok s := by unfold ptp; norm_num

theorem ptp_reverse (po : Bool) (s : WF n) (dz : ℝ) (hp : s.planar = true) (ht : NotTiny dz) : ∃ s1, ptp po s dz = .ok s1 ∧ s1.z = s.z + dz ∧ SameBeam s s1 ∧ s1.planar = true ∧ s1.dx = s.dx ∧
    s1.inside = s.inside ∧ ∀ b, ptp po { s1 with inside := b } (-dz) = .ok { s with inside := b } := by
  rcases ht with rfl | ht
  · refine ⟨s, ptp_zero po s, by ring, ⟨rfl, rfl, rfl, rfl⟩, hp, rfl, rfl, fun b => ?_⟩
    rw [neg_zero, ptp_zero]
  · obtain ⟨s1, e1, b1, c1, d1, z1, x1, -⟩ := ptp_spec po s dz hp
    rw [if_neg (not_lt.2 ht)] at z1
    refine ⟨s1, e1, z1, b1, d1, x1, c1, fun b => ?_⟩
    unfold ptp at e1
    rw [if_neg (not_lt.2 ht), if_neg (by rw [hp]; simp)] at e1
    injection e1 with e1
    subst e1
    unfold ptp
    rw [if_neg (by rw [abs_neg]; exact not_lt.2 ht), if_neg (by simp)]
    obtain ⟨arr, lam, dx, z, zw0, w0, zR, inside, planar⟩ := s
    simp only at hp
    subst hp
    simp only [Except.ok.injEq, WF.mk.injEq, and_true, true_and]
    refine ⟨?_, by ring⟩
    rw [fwd_smul, fwd_bwd]
    have e : (fun i j => fwd arr i j * exp (-I * Real.pi * lam * dz * (rhosqr dx i j : ℝ)) * offset po lam dz * exp (-I * Real.pi * lam * ((-dz : ℝ) : ℂ) * (rhosqr dx i j : ℝ)))
        = fun i j => fwd arr i j * offset po lam dz := by
      funext i j
      have : exp (-I * Real.pi * lam * dz * (rhosqr dx i j : ℝ)) * exp (-I * Real.pi * lam * ((-dz : ℝ) : ℂ) * (rhosqr dx i j : ℝ)) = 1 := by
        rw [← exp_add]
        have : -I * Real.pi * lam * dz * (rhosqr dx i j : ℝ) + -I * Real.pi * lam * ((-dz : ℝ) : ℂ) * (rhosqr dx i j : ℝ) = 0 := by push_cast; ring
        rw [this, exp_zero]
      linear_combination (fwd arr i j * offset po lam dz) * this
    rw [e, bwd_smul, bwd_fwd]
    funext i j
    rw [mul_assoc, offset_neg, mul_one]

/-- The quadratic phase factor. -/
noncomputable def qf (lam dx c : ℝ) : ZMod n → ZMod n → ℂ := fun i j =>
  exp (I * Real.pi / (lam * c) * (roll2 (rsqr dx) (-((n / 2 : ℕ) : ℤ)) (-((n / 2 : ℕ) : ℤ)) i j : ℝ))

theorem qf_neg (lam dx c : ℝ) (i j : ZMod n) : qf lam dx c i j * qf lam dx (-c) i j = 1 := by
  unfold qf
  rw [← exp_add]
  generalize ((roll2 (rsqr dx) (-((n / 2 : ℕ) : ℤ)) (-((n / 2 : ℕ) : ℤ)) i j : ℝ) : ℂ) = r
  have : I * Real.pi / (lam * c) * r + I * Real.pi / (lam * ((-c : ℝ) : ℂ)) * r = 0 := by
    push_cast; rw [mul_neg, div_neg]; ring
  rw [this, exp_zero]

/-- The transform of a spherical leg: forward for positive distances. -/
noncomputable def tr (dz : ℝ) (a : ZMod n → ZMod n → ℂ) : ZMod n → ZMod n → ℂ := open Classical in if 0 ≤ dz then fwd a else bwd a

theorem tr_neg (dz : ℝ) (h : dz ≠ 0) (a : ZMod n → ZMod n → ℂ) : tr (-dz) (tr dz a) = a := by
  unfold tr
  rcases lt_or_gt_of_ne h with h | h
  · rw [if_neg (not_le.2 h), if_pos (by linarith), fwd_bwd]
  · rw [if_pos h.le, if_neg (by linarith), bwd_fwd]

theorem tr_smul (dz : ℝ) (c : ℂ) (a : ZMod n → ZMod n → ℂ) : tr dz (fun i j => a i j * c) = fun i j => tr dz a i j * c := by
  unfold tr; split_ifs
  · exact fwd_smul c a
  · exact bwd_smul c a

theorem stw_eq (po : Bool) (s : WF n) (dz : ℝ) (hp : s.planar = false) (h : dz ≠ 0) : stw po s dz = .ok { s with
    z := s.z + dz, dx := s.lam * |dz| / (n * s.dx), planar := true,
    arr := fun i j => tr dz s.arr i j * qf s.lam (s.lam * |dz| / (n * s.dx)) dz i j * offset po s.lam dz } := by
  unfold stw
  simp only [hp, Bool.false_eq_true, if_false, if_neg h]
  unfold qphase
  simp only [if_neg h]
  rfl

theorem wts_eq (po : Bool) (s : WF n) (dz : ℝ) (h : dz ≠ 0) : wts po s dz = { s with
    z := s.z + dz, dx := s.lam * |dz| / (n * s.dx), planar := false,
    arr := fun i j => tr dz (fun i j => s.arr i j * qf s.lam s.dx dz i j) i j * offset po s.lam dz } := by
  unfold wts
  simp only [if_neg h]
  unfold qphase
  simp only [if_neg h]
  rfl

theorem dx_back {lam dx b : ℝ} (hl : 0 < lam) (hd : 0 < dx) (hb : b ≠ 0) : lam * |b| / (n * (lam * |b| / (n * dx))) = dx := by
  have := n_ne' (n := n)
  have : |b| ≠ 0 := abs_ne_zero.2 hb
  field_simp

theorem dx_pos {lam dx b : ℝ} (hl : 0 < lam) (hd : 0 < dx) (hb : b ≠ 0) : 0 < lam * |b| / (n * dx) := by
  have : 0 < (n : ℝ) := by exact_mod_cast Nat.pos_of_ne_zero (NeZero.ne n)
  have : 0 < |b| := abs_pos.2 hb
  positivity

theorem wts_stw (po : Bool) (s : WF n) (b : ℝ) (hp : s.planar = true) (hb : b ≠ 0) (hl : 0 < s.lam) (hd : 0 < s.dx) (c : Bool) :
    stw po { wts po s b with inside := c } (-b) = .ok { s with inside := c } := by
  rw [wts_eq po s b hb, stw_eq po _ (-b) rfl (neg_ne_zero.2 hb)]
  obtain ⟨arr, lam, dx, z, zw0, w0, zR, inside, planar⟩ := s
  simp only at hp hl hd
  subst hp
  simp only [Except.ok.injEq, WF.mk.injEq, and_true, true_and, abs_neg]
  refine ⟨?_, dx_back hl hd hb, by ring⟩
  rw [dx_back hl hd hb, tr_smul, tr_neg b hb]
  funext i j
  linear_combination arr i j * offset po lam b * offset po lam (-b) * (qf_neg lam dx b i j) + arr i j * offset_neg po lam b

theorem stw_wts (po : Bool) (s : WF n) (b : ℝ) (hp : s.planar = false) (hb : b ≠ 0) (hl : 0 < s.lam) (hd : 0 < s.dx) : ∃ s1, stw po s b = .ok s1 ∧ s1.z = s.z + b ∧ SameBeam s s1 ∧ s1.planar = true ∧
    0 < s1.dx ∧ s1.inside = s.inside ∧ ∀ c, wts po { s1 with inside := c } (-b) = { s with inside := c } := by
  refine ⟨_, stw_eq po s b hp hb, rfl, ⟨rfl, rfl, rfl, rfl⟩, rfl, dx_pos hl hd hb, rfl, fun c => ?_⟩
  rw [wts_eq po _ (-b) (neg_ne_zero.2 hb)]
  obtain ⟨arr, lam, dx, z, zw0, w0, zR, inside, planar⟩ := s
  simp only at hp hl hd
  subst hp
  simp only [WF.mk.injEq, and_true, true_and, abs_neg]
  refine ⟨?_, dx_back hl hd hb, by ring⟩
  set d' := lam * |b| / (n * dx)
  have e : (fun i j => tr b arr i j * qf lam d' b i j * offset po lam b * qf lam d' (-b) i j) = fun i j => tr b arr i j * offset po lam b := by
    funext i j
    linear_combination (tr b arr i j * offset po lam b) * qf_neg lam d' b i j
  rw [e, tr_smul, tr_neg b hb]
  funext i j
  rw [mul_assoc, offset_neg, mul_one]

theorem propagate_to_in (po : Bool) (s : WF n) (dz : ℝ) (h : |s.zw0 - (s.z + dz)| < s.zR) : propagate po s dz false =
    if s.inside = true then ptp po { s with inside := true } dz
    else (stw po { s with inside := true } (s.zw0 - s.z)).bind fun s1 => ptp po s1 (s.z + dz - s1.zw0) := by
  unfold propagate
  simp only [decide_eq_true h, Bool.false_eq_true, if_false]
  cases s.inside <;> simp [bind]

theorem propagate_to_out (po : Bool) (s : WF n) (dz : ℝ) (h : ¬ |s.zw0 - (s.z + dz)| < s.zR) : propagate po s dz false =
    if s.inside = true then (ptp po { s with inside := false } (s.zw0 - s.z)).map fun s1 => wts po s1 (s.z + dz - s1.zw0)
    else (stw po { s with inside := false } (s.zw0 - s.z)).map fun s1 => wts po s1 (s.z + dz - s1.zw0) := by
  unfold propagate
  simp only [decide_eq_false h, Bool.false_eq_true, if_false]
  cases s.inside <;> rfl

theorem wts_fields (po : Bool) (s : WF n) (b : ℝ) (hb : b ≠ 0) (hl : 0 < s.lam) (hd : 0 < s.dx) : SameBeam s (wts po s b) ∧ (wts po s b).z = s.z + b ∧ (wts po s b).planar = false ∧
    (wts po s b).inside = s.inside ∧ 0 < (wts po s b).dx := by
  rw [wts_eq po s b hb]
  exact ⟨⟨rfl, rfl, rfl, rfl⟩, rfl, rfl, rfl, dx_pos hl hd hb⟩

theorem Beam.same {s s1 : WF n} (h : Beam s) (hs : SameBeam s s1) : Beam s1 := by
  obtain ⟨a1, a2, a3, a4⟩ := hs
  exact ⟨by rw [a1]; exact h.1, by rw [a3]; exact h.2.1, by rw [a1, a3, a4]; exact h.2.2⟩

theorem NotTiny.neg {x : ℝ} (h : NotTiny x) : NotTiny (-x) := by
  rcases h with h | h
  · left; rw [h, neg_zero]
  · right; rwa [abs_neg]

theorem ne_of_out {x R : ℝ} (hR : 0 < R) (h : ¬ |x| < R) : x ≠ 0 := by
  rintro rfl; apply h; rwa [abs_zero]

theorem with_inside {s : WF n} {b : Bool} (h : s.inside = b) : { s with inside := b } = s := by subst h; rfl

/-- **C75** Propagation is reversible: from any consistent state, propagating by `dz` and then by `-dz` restores the whole wavefront object (field, sampling, position, reference surface), whatever
regimes of propagation are involved, and the state in between is consistent. Legs shorter than the tolerance of the plane propagator are excluded. -/
theorem C75_reversible (po : Bool) (s : WF n) (h : Consistent s) (dz : ℝ) (h0 : NotTiny dz) (h1 : NotTiny (s.zw0 - s.z)) (h2 : NotTiny (s.z + dz - s.zw0)) :
    ∃ s1, propagate po s dz false = .ok s1 ∧ Consistent s1 ∧ s1.z = s.z + dz ∧ propagate po s1 (-dz) false = .ok s := by
  obtain ⟨hb, hd, hin, hpl⟩ := h
  have hzR := hb.zR_pos
  have hl := hb.1
  by_cases hi : s.inside = true
  · have hin1 := hin.1 hi
    have hp : s.planar = true := hpl.trans hi
    by_cases hn : |s.zw0 - (s.z + dz)| < s.zR
    · -- inside to inside
      obtain ⟨s1, e1, z1, b1, p1, d1, i1, r1⟩ := ptp_reverse po { s with inside := true } dz hp h0
      refine ⟨s1, by rw [propagate_to_in po s dz hn, if_pos hi, e1], ⟨hb.same b1, by rw [d1]; exact hd, ?_, by rw [p1, i1]⟩, z1, ?_⟩
      · rw [b1.2.1, z1, b1.2.2.2, i1]; exact ⟨fun _ => hn, fun _ => rfl⟩
      · rw [propagate_to_in po s1 (-dz) (by rw [b1.2.1, z1, b1.2.2.2]; simpa using hin1), if_pos i1, r1 true, with_inside hi]
    · -- inside to outside
      obtain ⟨s1, e1, z1, b1, p1, d1, i1, r1⟩ := ptp_reverse po { s with inside := false } (s.zw0 - s.z) hp h1
      have hz1 : s1.z = s.zw0 := by rw [z1]; ring
      have hbz : s.z + dz - s.zw0 ≠ 0 := ne_of_out hzR (by rw [← neg_sub, abs_neg] at hn; exact hn)
      have hzw1 : s1.zw0 = s.zw0 := b1.2.1
      obtain ⟨b2, z2, p2, i2, d2⟩ := wts_fields po s1 (s.z + dz - s1.zw0) (by rw [hzw1]; exact hbz) (by rw [b1.1]; exact hl) (by rw [d1]; exact hd)
      have b12 : SameBeam s (wts po s1 (s.z + dz - s1.zw0)) := ⟨b2.1.trans b1.1, b2.2.1.trans b1.2.1, b2.2.2.1.trans b1.2.2.1, b2.2.2.2.trans b1.2.2.2⟩
      have hz2 : (wts po s1 (s.z + dz - s1.zw0)).z = s.z + dz := by rw [z2, hz1, hzw1]; ring
      refine ⟨wts po s1 (s.z + dz - s1.zw0), by rw [propagate_to_out po s dz hn, if_pos hi, e1]; rfl, ⟨hb.same b12, d2, ?_, by rw [p2, i2, i1]⟩, hz2, ?_⟩
      · rw [b12.2.1, hz2, b12.2.2.2, i2, i1]; exact ⟨fun hh => (by cases hh), fun hh => absurd hh hn⟩
      · rw [propagate_to_in po _ (-dz) (by rw [b12.2.1, hz2, b12.2.2.2]; simpa using hin1), if_neg (by rw [i2, i1]; simp)]
        have e2 : (wts po s1 (s.z + dz - s1.zw0)).zw0 - (wts po s1 (s.z + dz - s1.zw0)).z = -(s.z + dz - s1.zw0) := by rw [b12.2.1, hz2, hzw1]; ring
        rw [e2, wts_stw po s1 _ p1 (by rw [hzw1]; exact hbz) (by rw [b1.1]; exact hl) (by rw [d1]; exact hd) true]
        simp only [Except.bind]
        have e3 : (wts po s1 (s.z + dz - s1.zw0)).z + -dz - s1.zw0 = -(s.zw0 - s.z) := by rw [hz2, hzw1]; ring
        rw [e3, r1 true, with_inside hi]
  · have hi' : s.inside = false := by simpa using hi
    have hout1 : ¬ |s.zw0 - s.z| < s.zR := fun hh => hi (hin.2 hh)
    have hp : s.planar = false := hpl.trans hi'
    have hne := ne_of_out hzR hout1
    by_cases hn : |s.zw0 - (s.z + dz)| < s.zR
    · -- outside to inside
      obtain ⟨s1, e1, z1, b1, p1, d1, i1, r1⟩ := stw_wts po { s with inside := true } (s.zw0 - s.z) hp hne hl hd
      have hz1 : s1.z = s.zw0 := by rw [z1]; ring
      have hzw1 : s1.zw0 = s.zw0 := b1.2.1
      obtain ⟨s2, e2, z2, b2, p2, d2, i2, r2⟩ := ptp_reverse po s1 (s.z + dz - s1.zw0) p1 (by rw [hzw1]; exact h2)
      have b12 : SameBeam s s2 := ⟨b2.1.trans b1.1, b2.2.1.trans b1.2.1, b2.2.2.1.trans b1.2.2.1, b2.2.2.2.trans b1.2.2.2⟩
      have hz2 : s2.z = s.z + dz := by rw [z2, hz1, hzw1]; ring
      refine ⟨s2, by rw [propagate_to_in po s dz hn, if_neg hi, e1]; exact e2, ⟨hb.same b12, by rw [d2]; exact d1, ?_, by rw [p2, i2, i1]⟩, hz2, ?_⟩
      · rw [b12.2.1, hz2, b12.2.2.2, i2, i1]; exact ⟨fun _ => hn, fun _ => rfl⟩
      · rw [propagate_to_out po s2 (-dz) (by rw [b12.2.1, hz2, b12.2.2.2]; simpa using hout1), if_pos (i2.trans i1)]
        have e3 : s2.zw0 - s2.z = -(s.z + dz - s1.zw0) := by rw [b12.2.1, hz2, hzw1]; ring
        rw [e3, r2 false]
        simp only [Except.map]
        have e4 : s2.z + -dz - s1.zw0 = -(s.zw0 - s.z) := by rw [hz2, hzw1]; ring
        rw [e4, r1 false, with_inside hi']
    · -- outside to outside
      obtain ⟨s1, e1, z1, b1, p1, d1, i1, r1⟩ := stw_wts po { s with inside := false } (s.zw0 - s.z) hp hne hl hd
      have hz1 : s1.z = s.zw0 := by rw [z1]; ring
      have hzw1 : s1.zw0 = s.zw0 := b1.2.1
      have hbz : s.z + dz - s.zw0 ≠ 0 := ne_of_out hzR (by rw [← neg_sub, abs_neg] at hn; exact hn)
      obtain ⟨b2, z2, p2, i2, d2⟩ := wts_fields po s1 (s.z + dz - s1.zw0) (by rw [hzw1]; exact hbz) (by rw [b1.1]; exact hl) d1
      have b12 : SameBeam s (wts po s1 (s.z + dz - s1.zw0)) := ⟨b2.1.trans b1.1, b2.2.1.trans b1.2.1, b2.2.2.1.trans b1.2.2.1, b2.2.2.2.trans b1.2.2.2⟩
      have hz2 : (wts po s1 (s.z + dz - s1.zw0)).z = s.z + dz := by rw [z2, hz1, hzw1]; ring
      refine ⟨wts po s1 (s.z + dz - s1.zw0), by rw [propagate_to_out po s dz hn, if_neg hi, e1]; rfl, ⟨hb.same b12, d2, ?_, by rw [p2, i2, i1]⟩, hz2, ?_⟩
      · rw [b12.2.1, hz2, b12.2.2.2, i2, i1]; exact ⟨fun hh => (by cases hh), fun hh => absurd hh hn⟩
      · rw [propagate_to_out po _ (-dz) (by rw [b12.2.1, hz2, b12.2.2.2]; simpa using hout1), if_neg (by rw [i2, i1]; simp)]
        have e2 : (wts po s1 (s.z + dz - s1.zw0)).zw0 - (wts po s1 (s.z + dz - s1.zw0)).z = -(s.z + dz - s1.zw0) := by rw [b12.2.1, hz2, hzw1]; ring
        rw [e2, wts_stw po s1 _ p1 (by rw [hzw1]; exact hbz) (by rw [b1.1]; exact hl) d1 false]
        simp only [Except.map]
        have e3 : (wts po s1 (s.z + dz - s1.zw0)).z + -dz - s1.zw0 = -(s.zw0 - s.z) := by rw [hz2, hzw1]; ring
        rw [e3, r1 false, with_inside hi']

/-- `prop_begin` gives a consistent state, and every lens of nonzero focal length succeeds in a consistent state and gives a consistent one; so only TO_PLANE (or a leg below the tolerance) leads
to the failure of `C74_to_plane_violated`. -/
theorem C74_consistent (s : WF n) (h : Consistent s) {fl : ℝ} (hfl : fl ≠ 0) : ∃ s', lens s fl = .ok s' ∧ Consistent s' := by
  obtain ⟨hb, hd, hin, hpl⟩ := h
  have hi : Inv s := fun hh => hpl.trans hh
  have hzR := hb.zR_pos
  cases hl : lens s fl with
  | error e =>
    have := lens_error s fl hl
    subst this
    obtain ⟨a, -, c⟩ := (C74_fails_iff hb hi hfl).1 hl
    rcases c with c | c
    · rw [hpl, a] at c; cases c
    · have : s.inside = true := hin.2 (by rw [c, sub_self, abs_zero]; exact hzR)
      rw [a] at this; cases this
  | ok s' =>
    obtain ⟨a1, a2, a3, a4, -, a6, a7, a8, a9⟩ := lens_spec s fl hl
    exact ⟨s', rfl, (C73_lens_law hb hfl hl).2.1, by rw [a4]; exact hd, a9, a2⟩

theorem begin_consistent {diam lam frac : ℝ} (h1 : 0 < diam) (h2 : 0 < lam) (h3 : 0 < frac) : Consistent (begin_ n diam lam frac) := by
  have : 0 < (n : ℝ) := by exact_mod_cast Nat.pos_of_ne_zero (NeZero.ne n)
  have := Real.pi_pos
  have hb : Beam (begin_ n diam lam frac) := ⟨h2, by simp only [begin_]; positivity, rfl⟩
  refine ⟨hb, by simp only [begin_]; positivity, ⟨fun _ => ?_, fun _ => rfl⟩, rfl⟩
  have := hb.zR_pos
  simpa [begin_] using this

/-- The hypotheses of `C75_reversible` are met by a beam propagated far outside its Rayleigh range. -/
example : Consistent (begin_ 8 1 (1 / 2) (1 / 2)) ∧ NotTiny 100 ∧ NotTiny ((begin_ 8 1 (1 / 2) (1 / 2)).zw0 - (begin_ 8 1 (1 / 2) (1 / 2)).z) := by
  refine ⟨begin_consistent (by norm_num) (by norm_num) (by norm_num), Or.inr (by norm_num), Or.inl (by simp [begin_])⟩

/-! ## PROPER's and FALCO's plane-to-plane propagation -/

theorem shift_shift_even {α : Type*} (hn : Even n) (A : ZMod n → ZMod n → α) : shiftCenter (shiftCenter A) = A := by
  obtain ⟨m, hm⟩ := hn
  have h2 : n / 2 = m := by omega
  funext i j
  have : ((m : ℕ) : ZMod n) + (m : ℕ) = 0 := by rw [← Nat.cast_add, ← hm, ZMod.natCast_self]
  unfold shiftCenter roll2
  rw [h2]
  push_cast
  rw [sub_sub, sub_sub, this, sub_zero, sub_zero]

end Verif.Proper
