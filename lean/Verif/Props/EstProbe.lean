import Verif.Model.Est
import Verif.Lemmas.Dm
import Mathlib.Tactic

/-!
# Probe shapes: C34 (probe pairs are exact negatives), C64 (surface fit terminates and does not get worse)
-/

namespace Verif.Est
open Verif

/-! ## phases -/

theorem phaseInts_foldl (Np m : ℕ) : (List.range m).foldl (fun l _ =>
    let l1 := l ++ [l.getLastD 0 - ((Np : ℤ) - 1)]
    l1 ++ [l1.getLastD 0 + Np]) [0, (Np : ℤ)] = (List.range (m + 1)).flatMap fun (k : ℕ) => [(k : ℤ), (k : ℤ) + Np] := by
  induction m with
  | zero => simp
  | succ m ih =>
    rw [List.range_succ, List.foldl_append, ih]
    rw [show List.range (m + 1 + 1) = List.range (m + 1) ++ [m + 1] from List.range_succ]
    rw [List.flatMap_append]
    rw [List.range_succ, List.flatMap_append]
    simp
    ring

theorem flatMap_pair_get {α β : Type} (f g : α → β) (l : List α) (k : ℕ) (hk : k < l.length) :
    (l.flatMap fun a => [f a, g a])[2 * k]? = some (f l[k]) ∧ (l.flatMap fun a => [f a, g a])[2 * k + 1]? = some (g l[k]) := by
  induction l generalizing k with
  | nil => simp at hk
  | cons a l ih =>
    cases k with
    | zero => simp
    | succ k =>
      have := ih k (by simpa using hk)
      simpa [Nat.mul_add] using this

/-- C34. `probePhaseVec` has one entry per probe image, probe pair `k` has phases `kπ/Npairs` and `kπ/Npairs + π`. -/
theorem C34_phases (Np : ℕ) (h : 0 < Np) : (probePhase Np).length = 2 * Np ∧
    ∀ k < Np, (probePhase Np)[2 * k]? = some (k * Real.pi / Np) ∧ (probePhase Np)[2 * k + 1]? = some (k * Real.pi / Np + Real.pi) := by
  have e : phaseInts Np = (List.range Np).flatMap fun (k : ℕ) => [(k : ℤ), (k : ℤ) + Np] := by
    unfold phaseInts
    rw [phaseInts_foldl, Nat.sub_add_cancel h]
  unfold probePhase
  rw [e]
  refine ⟨by simp [List.length_flatMap, mul_comm], fun k hk => ?_⟩
  have h2 := flatMap_pair_get (fun k : ℕ => (k : ℤ)) (fun k : ℕ => (k : ℤ) + Np) (List.range Np) k (by simpa using hk)
  rw [List.getElem?_map, List.getElem?_map, h2.1, h2.2]
  have hN : (Np : ℝ) ≠ 0 := by positivity
  constructor
  · simp
  · simp only [List.getElem_range, Option.map_some, Option.some.injEq]
    push_cast
    field_simp

/-- C34. Both images of a probe pair use the same axis, for every axis option and iteration. -/
theorem C34_axes (axis : String) (Itr Np : ℕ) (l : List Char) (h : badAxes axis Itr Np = .ok l) :
    l.length = 2 * Np ∧ ∀ k < Np, ∃ a, (a = 'x' ∨ a = 'y' ∨ a = 'm') ∧ l[2 * k]? = some a ∧ l[2 * k + 1]? = some a := by
  have key : ∀ f : ℕ → Char, (∀ i, f i = 'x' ∨ f i = 'y' ∨ f i = 'm') → (∀ k, f (2 * k) = f (2 * k + 1)) → l = (List.range (2 * Np)).map f →
      l.length = 2 * Np ∧ ∀ k < Np, ∃ a, (a = 'x' ∨ a = 'y' ∨ a = 'm') ∧ l[2 * k]? = some a ∧ l[2 * k + 1]? = some a := by
    rintro f h1 h2 rfl
    refine ⟨by simp, fun k hk => ⟨f (2 * k), h1 _, ?_, ?_⟩⟩
    · rw [List.getElem?_map, List.getElem?_range (by omega)]; rfl
    · rw [List.getElem?_map, List.getElem?_range (by omega), h2]; rfl
  unfold badAxes at h
  simp only at h
  split_ifs at h
  · exact key _ (by simp) (by simp) (Except.ok.inj h).symm
  · exact key _ (by simp) (by simp) (Except.ok.inj h).symm
  · refine key _ ?_ ?_ (Except.ok.inj h).symm
    · intro i; split_ifs <;> simp
    · intro k
      have : ((2 * k + 1) % 4 = 1 ∨ (2 * k + 1) % 4 = 2) ↔ ((2 * k + 1 + 1) % 4 = 1 ∨ (2 * k + 1 + 1) % 4 = 2) := by omega
      simp only [this]
  · refine key _ ?_ ?_ (Except.ok.inj h).symm
    · intro i; split_ifs <;> simp
    · intro k
      have : ((2 * k + 1) % 4 = 1 ∨ (2 * k + 1) % 4 = 2) ↔ ((2 * k + 1 + 1) % 4 = 1 ∨ (2 * k + 1 + 1) % 4 = 2) := by omega
      simp only [this]
  · exact key _ (by simp) (by simp) (Except.ok.inj h).symm

/-! ## shapes -/

theorem sinc_double (x : ℝ) : sinc (2 * x) = sinc x * Real.cos (Real.pi * x) := by
  unfold sinc
  by_cases h : x = 0
  · simp [h]
  · have hp := Real.pi_ne_zero
    rw [if_neg (by simpa using h), if_neg h, show Real.pi * (2 * x) = 2 * (Real.pi * x) by ring, Real.sin_two_mul]
    field_simp

theorem squareSurf_neg (c : SquareCfg) (I psi : ℝ) (a : Char) (h0 : 0 ≤ psi) (x y : ℝ) :
    squareSurf c I (psi + Real.pi) a x y = -squareSurf c I psi a x y := by
  have hp := Real.pi_pos
  unfold squareSurf
  simp only
  rw [if_neg (show psi + Real.pi ≠ 0 by positivity)]
  have e1 : ∀ t, Real.cos (t + (psi + Real.pi)) = -Real.cos (t + psi) := fun t => by rw [← add_assoc, Real.cos_add_pi]
  by_cases hpsi : psi = 0
  · subst hpsi
    have d1 : ∀ t, sinc (2 * c.radius * t) = sinc (c.radius * t) * Real.cos (2 * Real.pi * (c.radius / 2) * t) := fun t => by
      rw [mul_assoc, sinc_double]; congr 2; ring
    rw [if_pos rfl]
    by_cases ha : a = 'y'
    · rw [if_pos ha, e1, add_zero]
      rw [d1 x]; ring
    · rw [if_neg ha, e1, add_zero]
      rw [d1 y]; ring
  · rw [if_neg hpsi]
    split_ifs <;> rw [e1] <;> ring

theorem rectSurf_neg (c : RectCfg) (N : ℕ) (I psi x y : ℝ) : rectSurf c N I (psi + Real.pi) x y = -rectSurf c N I psi x y := by
  unfold rectSurf
  simp only
  rw [← add_assoc, Real.cos_add_pi]; ring

/-- The surface fit maps the negative surface to the negative command. -/
def OddFit {ι : Type} (fit : (ι → ℝ) → ι → ℝ) : Prop := ∀ s, fit (-s) = -fit s

theorem probeCmd_neg {N : ℕ} (fit : (Fin N × Fin N → ℝ) → Fin N × Fin N → ℝ) (hf : OddFit fit) (VtoH : Fin N × Fin N → ℝ) (g : ℝ)
    (s s' : ℝ → ℝ → ℝ) (h : ∀ x y, s' x y = -s x y) (xo yo r : ℝ) : probeCmd fit VtoH g s' xo yo r = -probeCmd fit VtoH g s xo yo r := by
  unfold probeCmd
  funext p
  simp only [h, Pi.neg_apply]
  have := hf (fun p => s (rotCoord r (actCoord N xo p.2) (actCoord N yo p.1)).1 (rotCoord r (actCoord N xo p.2) (actCoord N yo p.1)).2)
  have e : (fun p : Fin N × Fin N => -s (rotCoord r (actCoord N xo p.2) (actCoord N yo p.1)).1 (rotCoord r (actCoord N xo p.2) (actCoord N yo p.1)).2) =
    -(fun p => s (rotCoord r (actCoord N xo p.2) (actCoord N yo p.1)).1 (rotCoord r (actCoord N xo p.2) (actCoord N yo p.1)).2) := rfl
  rw [e, this]
  simp [toVolts, neg_div]

/-- C34, square probes.  For every axis option, iteration, number of pairs, pair `k`, offsets, rotation, radius, gain map and every odd surface
fit (see `C34_fit_proper`, `C34_fit_lsq`): the second image of pair `k` is commanded with exactly minus the probe of the first one.  This
includes the pair of phases `0, π`, where the first probe has its own formula. -/
theorem C34_square {N : ℕ} (fit : (Fin N × Fin N → ℝ) → Fin N × Fin N → ℝ) (hf : OddFit fit) (VtoH : Fin N × Fin N → ℝ) (c : SquareCfg)
    (I : ℝ) (axis : String) (Itr Np k : ℕ) (hk : k < Np) (axes : List Char) (hax : badAxes axis Itr Np = .ok axes)
    (psiP psiM : ℝ) (aP aM : Char) (h1 : (probePhase Np)[2 * k]? = some psiP) (h2 : (probePhase Np)[2 * k + 1]? = some psiM)
    (h3 : axes[2 * k]? = some aP) (h4 : axes[2 * k + 1]? = some aM) (cmd : Fin N × Fin N → ℝ)
    (hc : genProbeSquare fit VtoH c I psiP aP = .ok cmd) : genProbeSquare fit VtoH c I psiM aM = .ok (-cmd) := by
  obtain ⟨a, -, ha1, ha2⟩ := (C34_axes axis Itr Np axes hax).2 k hk
  obtain ⟨hp1, hp2⟩ := (C34_phases Np (by omega)).2 k hk
  have e1 : psiP = k * Real.pi / Np := Option.some.inj (h1.symm.trans hp1)
  have e2 : psiM = psiP + Real.pi := by rw [e1]; exact Option.some.inj (h2.symm.trans hp2)
  have e3 : aP = a := Option.some.inj (h3.symm.trans ha1)
  have e4 : aM = a := Option.some.inj (h4.symm.trans ha2)
  subst e3 e2
  rw [e4]
  have hpos : 0 ≤ psiP := by rw [e1]; have := Real.pi_pos; positivity
  unfold genProbeSquare at hc ⊢
  split_ifs at hc ⊢
  rw [← Except.ok.inj hc]
  congr 1
  exact probeCmd_neg fit hf VtoH _ _ _ (fun x y => squareSurf_neg c I psiP aP hpos x y) _ _ _

/-- C34, rectangular probes. -/
theorem C34_rect {N : ℕ} (fit : (Fin N × Fin N → ℝ) → Fin N × Fin N → ℝ) (hf : OddFit fit) (VtoH : Fin N × Fin N → ℝ) (c : RectCfg)
    (I : ℝ) (Np k : ℕ) (hk : k < Np) (psiP psiM : ℝ) (h1 : (probePhase Np)[2 * k]? = some psiP) (h2 : (probePhase Np)[2 * k + 1]? = some psiM)
    (cmd : Fin N × Fin N → ℝ) (hc : genProbeRect fit VtoH c I psiP = .ok cmd) : genProbeRect fit VtoH c I psiM = .ok (-cmd) := by
  obtain ⟨hp1, hp2⟩ := (C34_phases Np (by omega)).2 k hk
  have e1 : psiP = k * Real.pi / Np := Option.some.inj (h1.symm.trans hp1)
  have e2 : psiM = psiP + Real.pi := by rw [e1]; exact Option.some.inj (h2.symm.trans hp2)
  subst e2
  unfold genProbeRect at hc ⊢
  split_ifs at hc ⊢
  rw [← Except.ok.inj hc]
  congr 1
  exact probeCmd_neg fit hf VtoH _ _ _ (fun x y => rectSurf_neg c N I psiP x y) _ _ _

/-! ## the two surface fits -/

variable {ι : Type} [Fintype ι]

/-- the state of the iteration for the negative surface -/
def FitState.neg (s : FitState ι) : FitState ι := { s with cmd := -s.cmd, lastGood := -s.lastGood, surf := -s.surf, diff := -s.diff }

theorem rms_neg (d : ι → ℝ) : rms (-d) = rms d := by unfold rms; simp

theorem fitLoop_neg (L : (ι → ℝ) →ₗ[ℝ] (ι → ℝ)) (z : ι → ℝ) (fuel : ℕ) (s : FitState ι) :
    fitLoop L (-z) fuel s.neg = (fitLoop L z fuel s).map FitState.neg := by
  induction fuel generalizing s with
  | zero => rfl
  | succ n ih =>
    unfold fitLoop
    have hc : fitCond s.neg = fitCond s := rfl
    rw [hc]
    by_cases h : fitCond s = true
    · rw [if_pos h, if_pos h]
      have e1 : s.neg.cmd + s.neg.diff = -(s.cmd + s.diff) := by simp [FitState.neg]; abel
      have e2 : -z - L (-(s.cmd + s.diff)) = -(z - L (s.cmd + s.diff)) := by rw [map_neg]; abel
      simp only [e1, e2]
      have hb : (∀ i, |(-(z - L (s.cmd + s.diff))) i| < 1e-15) ↔ ∀ i, |(z - L (s.cmd + s.diff)) i| < 1e-15 := by
        simp only [Pi.neg_apply, abs_neg]
      by_cases hh : ∀ i, |(z - L (s.cmd + s.diff)) i| < 1e-15
      · rw [if_pos hh, if_pos (hb.2 hh)]
        simp [FitState.neg, map_neg]
      · rw [if_neg hh, if_neg (fun a => hh (hb.1 a))]
        rw [← ih]
        congr 1
        unfold FitState.neg
        simp only [rms_neg, map_neg]
    · rw [if_neg h, if_neg h]; rfl

/-- C34: the fit of PROPER (`surfFitMethod = 'proper'`) is odd at every iteration bound, for every linear convolution. -/
theorem C34_fit_proper (L : (ι → ℝ) →ₗ[ℝ] (ι → ℝ)) (z : ι → ℝ) (fuel : ℕ) :
    propFitDm L (-z) fuel = (propFitDm L z fuel).map fun r => (-r.1, -r.2) := by
  unfold propFitDm
  have : fitInit L (-z) = (fitInit L z).neg := by
    unfold fitInit FitState.neg
    have e : -z - L (-z) = -(z - L z) := by rw [map_neg]; abel
    rw [e, rms_neg, map_neg]
  rw [this, fitLoop_neg, Option.map_map, Option.map_map]
  congr 1
  funext s
  by_cases h : s.e > s.e0
  · have h' : s.neg.e > s.neg.e0 := h
    simp only [Function.comp, fitResult, if_pos h, if_pos h']; rfl
  · have h' : ¬ s.neg.e > s.neg.e0 := h
    simp only [Function.comp, fitResult, if_neg h, if_neg h']; rfl

/-- C34: the least-squares fit (`surfFitMethod = 'lsq'`) is odd: the solution of the linear system for minus the surface is minus
the solution, for every non-singular matrix. -/
theorem C34_fit_lsq [DecidableEq ι] (A : Matrix ι ι ℝ) (hA : ∀ v, A.mulVec v = 0 → v = 0) (solve : (ι → ℝ) → ι → ℝ)
    (hs : ∀ b, A.mulVec (solve b) = b) : OddFit solve := by
  intro s
  have : A.mulVec (solve (-s) + solve s) = 0 := by rw [Matrix.mulVec_add, hs, hs]; simp
  exact eq_neg_of_add_eq_zero_left (hA _ this)

/-! ## C64: the PROPER fit -/

theorem rms_ge (d : ι → ℝ) (i : ι) : |d i| ≤ rms d := by
  unfold rms
  rw [← Real.sqrt_sq_eq_abs]
  exact Real.sqrt_le_sqrt (Finset.single_le_sum (f := fun i => d i ^ 2) (fun j _ => sq_nonneg _) (Finset.mem_univ i))

theorem fitLoop_terminates (L : (ι → ℝ) → ι → ℝ) (z : ι → ℝ) (fuel : ℕ) (s : FitState ι) (he : 1e-15 ≤ s.e)
    (h0 : s.e0 ≤ 1e-15 * 1.01 ^ fuel) : fitLoop L z (fuel + 1) s ≠ none := by
  induction fuel generalizing s with
  | zero =>
    unfold fitLoop
    have : fitCond s = false := by
      unfold fitCond
      simp only [decide_eq_false_iff_not, not_and]
      intro h; exfalso
      norm_num at h0 he ⊢
      linarith
    rw [this]; simp
  | succ n ih =>
    unfold fitLoop
    by_cases hc : fitCond s = true
    · rw [if_pos hc]
      simp only
      split_ifs with hb
      · simp
      · refine ih _ ?_ ?_
        · push Not at hb
          obtain ⟨i, hi⟩ := hb
          exact hi.trans (rms_ge _ i)
        · unfold fitCond at hc
          simp only [decide_eq_true_eq] at hc
          have hpos : 0 < s.e := lt_of_lt_of_le (by norm_num) he
          rcases hc.2 with h | h
          · linarith
          · rw [gt_iff_lt, lt_div_iff₀ hpos] at h
            change s.e ≤ _
            rw [pow_succ] at h0
            norm_num at h h0 ⊢
            linarith
    · rw [if_neg hc]; simp

/-- C64. There is one iteration count that suffices for every surface, kernel and DM size: `prop_fit_dm` always terminates. -/
theorem C64_terminates : ∃ N : ℕ, ∀ (ι : Type) [Fintype ι] (L : (ι → ℝ) → ι → ℝ) (z : ι → ℝ), ∃ r, propFitDm L z N = some r := by
  obtain ⟨n, hn⟩ := pow_unbounded_of_one_lt (1e21 : ℝ) (show (1 : ℝ) < 1.01 by norm_num)
  refine ⟨n + 2, fun ι _ L z => ?_⟩
  suffices h : fitLoop L z (n + 2) (fitInit L z) ≠ none by
    obtain ⟨s, hs⟩ := Option.ne_none_iff_exists'.1 h
    exact ⟨fitResult s, by unfold propFitDm; rw [hs]; rfl⟩
  rw [show n + 2 = (n + 1) + 1 from rfl]
  unfold fitLoop
  by_cases hc : fitCond (fitInit L z) = true
  · rw [if_pos hc]
    simp only
    split_ifs with hb
    · simp
    · refine fitLoop_terminates L z n _ ?_ ?_
      · push Not at hb
        obtain ⟨i, hi⟩ := hb
        exact hi.trans (rms_ge _ i)
      · unfold fitCond at hc
        simp only [decide_eq_true_eq] at hc
        have : (fitInit L z).e < 1000000 := hc.1
        change (fitInit L z).e ≤ _
        norm_num at hn ⊢
        linarith
  · rw [if_neg hc]; simp

/-- bookkeeping invariant of the loop -/
structure FitInv (L : (ι → ℝ) → ι → ℝ) (z : ι → ℝ) (s : FitState ι) : Prop where
  he : s.e = rms (z - L s.cmd)
  hd : s.diff = z - L s.cmd
  hle : rms (z - L s.lastGood) ≤ rms (z - L z)
  hgood : s.e ≤ s.e0 → s.e ≤ rms (z - L z)
  hsurf : s.surf = L s.cmd
  he0 : s.e0 ≤ rms (z - L z) ∨ s.cmd = z

theorem fitLoop_result (L : (ι → ℝ) → ι → ℝ) (z : ι → ℝ) (fuel : ℕ) (s s' : FitState ι) (hi : FitInv L z s) (h : fitLoop L z fuel s = some s') :
    ((∀ i, |(z - L (fitResult s').1) i| < 1e-15) ∨ rms (z - L (fitResult s').1) ≤ rms (z - L z)) ∧ s'.surf = L s'.cmd := by
  induction fuel generalizing s with
  | zero => simp [fitLoop] at h
  | succ n ih =>
    unfold fitLoop at h
    by_cases hc : fitCond s = true
    · rw [if_pos hc] at h
      simp only at h
      have hlt : s.e < s.e0 := by unfold fitCond at hc; simp only [decide_eq_true_eq] at hc; exact hc.1
      have hle := hi.hgood hlt.le
      split_ifs at h with hb
      · rw [← Option.some.inj h]
        refine ⟨Or.inl ?_, rfl⟩
        simpa [fitResult] using hb
      · refine ih _ ?_ h
        refine ⟨rfl, rfl, ?_, ?_, rfl, ?_⟩
        · change rms (z - L s.cmd) ≤ _
          rw [← hi.he]; exact hle
        · intro h2
          exact h2.trans hle
        · exact Or.inl hle
    · rw [if_neg hc] at h
      rw [← Option.some.inj h]
      refine ⟨Or.inr ?_, hi.hsurf⟩
      unfold fitResult
      by_cases h2 : s.e > s.e0
      · simp only [if_pos h2]; exact hi.hle
      · simp only [if_neg h2]; rw [← hi.he]; exact hi.hgood (not_lt.1 h2)

theorem fitInv_init (L : (ι → ℝ) → ι → ℝ) (z : ι → ℝ) : FitInv L z (fitInit L z) :=
  ⟨rfl, rfl, le_rfl, fun _ => le_rfl, rfl, Or.inr rfl⟩

/-- C64. The returned command never reproduces the requested surface worse than using the surface itself as the command, unless it reproduces
it to better than 1e-15 everywhere. -/
theorem C64_not_worse (L : (ι → ℝ) → ι → ℝ) (z : ι → ℝ) (fuel : ℕ) (r : (ι → ℝ) × (ι → ℝ)) (h : propFitDm L z fuel = some r) :
    (∀ i, |(z - L r.1) i| < 1e-15) ∨ rms (z - L r.1) ≤ rms (z - L z) := by
  unfold propFitDm at h
  obtain ⟨s, hs, rfl⟩ := Option.map_eq_some_iff.1 h
  exact (fitLoop_result L z fuel _ s (fitInv_init L z) hs).1

/-- C64. The second returned array is documented as the surface of the returned command.  It is always the surface of the last command tried; that
is the returned command when the last step did not diverge, and otherwise the returned command is the one of an earlier iteration. -/
theorem C64_surface (L : (ι → ℝ) → ι → ℝ) (z : ι → ℝ) (fuel : ℕ) (s : FitState ι) (h : fitLoop L z fuel (fitInit L z) = some s) :
    (s.e ≤ s.e0 → propFitDm L z fuel = some (s.cmd, L s.cmd)) ∧ (s.e0 < s.e → propFitDm L z fuel = some (s.lastGood, L s.cmd)) := by
  unfold propFitDm
  rw [h]
  have := (fitLoop_result L z fuel _ s (fitInv_init L z) h).2
  constructor
  · intro hd
    simp only [Option.map_some, fitResult, if_neg (not_lt.2 hd), this]
  · intro hd
    simp only [Option.map_some, fitResult, if_pos hd, this]

/-- C64 fails for a diverging fit: with a one-actuator mirror whose influence function peaks at 3, fitting the surface 1 returns the command 1
and the "surface" −3, while the surface of the command is 3. -/
theorem C64_surface_violated : ∃ (L : (Unit → ℝ) →ₗ[ℝ] (Unit → ℝ)) (z : Unit → ℝ) (fuel : ℕ) (r : (Unit → ℝ) × (Unit → ℝ)),
    propFitDm L z fuel = some r ∧ r.1 = (fun _ => 1) ∧ r.2 = (fun _ => -3) ∧ L r.1 = fun _ => 3 := by
  refine ⟨(3 : ℝ) • LinearMap.id, fun _ => 1, 2, (fun _ => 1, fun _ => -3), ?_, rfl, rfl, ?_⟩
  · have r1 : rms (fun _ : Unit => (-2 : ℝ)) = 2 := by
      unfold rms; simp
    have r2 : rms (fun _ : Unit => (4 : ℝ)) = 4 := by unfold rms; simp [Real.sqrt_sq]
    have hi : fitInit (⇑((3 : ℝ) • LinearMap.id : (Unit → ℝ) →ₗ[ℝ] (Unit → ℝ))) (fun _ => 1) =
        { e0 := 1000000, e := 2, cmd := fun _ => 1, lastGood := fun _ => 1, surf := fun _ => 3, diff := fun _ => -2 } := by
      unfold fitInit
      have e : (fun _ => 1 : Unit → ℝ) - ((3 : ℝ) • LinearMap.id : (Unit → ℝ) →ₗ[ℝ] (Unit → ℝ)) (fun _ => 1) = fun _ => -2 := by
        funext i; simp; norm_num
      rw [e, r1]
      congr 1
      funext i; simp
    unfold propFitDm
    rw [hi]
    have c1 : fitCond ({ e0 := 1000000, e := 2, cmd := fun _ => 1, lastGood := fun _ => 1, surf := fun _ => 3, diff := fun _ => -2 } : FitState Unit) = true := by
      unfold fitCond; norm_num
    have e2 : ((fun _ => 1 : Unit → ℝ) + fun _ => -2) = fun _ => -1 := by funext i; simp; norm_num
    have e3 : ((3 : ℝ) • LinearMap.id : (Unit → ℝ) →ₗ[ℝ] (Unit → ℝ)) (fun _ => -1) = fun _ => -3 := by funext i; simp
    have e4 : ((fun _ => 1 : Unit → ℝ) - fun _ => -3) = fun _ => 4 := by funext i; simp; norm_num
    rw [fitLoop, if_pos c1]
    simp only [e2, e3, e4]
    rw [if_neg (by push Not; exact ⟨(), by norm_num⟩)]
    rw [r2, fitLoop]
    have c2 : fitCond ({ e0 := 2, e := 4, cmd := fun _ => -1, lastGood := fun _ => 1, surf := fun _ => -3, diff := fun _ => 4 } : FitState Unit) = false := by
      unfold fitCond; norm_num
    rw [c2]
    have : ¬ (4 : ℝ) ≤ 2 := by norm_num
    simp [fitResult, this]
  · funext i; simp

/-- Non-vacuity of C34: a 3-pair square probing with alternating axes, identity fit, has axes and phases as required. -/
example : OddFit (fun s : Fin 2 × Fin 2 → ℝ => s) ∧
    badAxes "alt" 0 3 = .ok ['x', 'x', 'y', 'y', 'x', 'x'] ∧ badAxes "alt" 1 3 = .ok ['y', 'y', 'x', 'x', 'y', 'y'] ∧
    phaseInts 3 = [0, 3, 1, 4, 2, 5] :=
  ⟨fun _ => rfl, by decide +kernel, by decide +kernel, by decide +kernel⟩

end Verif.Est
