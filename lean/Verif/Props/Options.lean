import Verif.Model.Options

/-!
# Property C141: every option accepted at set-up chooses something, and the same thing everywhere

The specification: `Documented` lists the options by name; `kindOf` is the type of coronagraph that a name stands for.
-/

namespace Verif.Options
open Verif

/-- The options of the documentation, in the spelling used inside. -/
def Documented (k : Keys) : Prop :=
  (k.centering = "pixel" ∨ k.centering = "interpixel") ∧
  (k.coro = "VC" ∨ k.coro = "VORTEX" ∨ k.coro = "LC" ∨ k.coro = "APLC" ∨ k.coro = "FLC" ∨ k.coro = "SPLC" ∨ k.coro = "HLC") ∧
  (k.layout = "fourier" ∨ k.layout = "fpm_scale" ∨ k.layout = "proper" ∨ k.layout = "roman_phasec_proper" ∨ k.layout = "wfirst_phaseb_proper") ∧
  (k.estimator = "perfect" ∨ k.estimator = "pairwise" ∨ k.estimator = "pairwise-square" ∨ k.estimator = "pwp-bp-square" ∨ k.estimator = "pairwise-rect" ∨ k.estimator = "pwp-bp" ∨
    k.estimator = "pwp-kf") ∧
  (k.controller = "gridsearchefc" ∨ k.controller = "plannedefc" ∨ k.controller = "ad-efc")

/-- The type of coronagraph that a name stands for. -/
def kindOf (coro : String) : Branch :=
  if coro = "VC" ∨ coro = "VORTEX" then .vortex else if coro = "FLC" ∨ coro = "SPLC" then .flc else if coro = "HLC" then .hlc else .lyot

/-- The options with the case folded. -/
def fold (lower upper : String → String) (k : Keys) : Keys := ⟨lower k.centering, upper k.coro, lower k.layout, lower k.estimator, lower k.controller⟩

variable (lower upper : String → String)

/-- **C141.** The check at set-up passes exactly when the options, whatever their case, are documented ones, and it then stores them with the case folded;
otherwise it raises ValueError. -/
theorem C141_verify (k : Keys) :
    (Documented (fold lower upper k) → verify lower upper k = (.ok (), fold lower upper k)) ∧
    (¬ Documented (fold lower upper k) → (verify lower upper k).1 = .error .valueError) := by
  have hc : ∀ s, s ∈ allowedCenterings ↔ (s = "pixel" ∨ s = "interpixel") := by intro s; simp [allowedCenterings]
  have ho : ∀ s, s ∈ allowedCoronagraphTypes ↔ (s = "VC" ∨ s = "VORTEX" ∨ s = "LC" ∨ s = "APLC" ∨ s = "FLC" ∨ s = "SPLC" ∨ s = "HLC") := by intro s; simp [allowedCoronagraphTypes]
  have hl : ∀ s, s ∈ allowedLayouts ↔ (s = "fourier" ∨ s = "fpm_scale" ∨ s = "proper" ∨ s = "roman_phasec_proper" ∨ s = "wfirst_phaseb_proper") := by intro s; simp [allowedLayouts]
  have he : ∀ s, s ∈ allowedEstimators ↔ (s = "perfect" ∨ s = "pairwise" ∨ s = "pairwise-square" ∨ s = "pwp-bp-square" ∨ s = "pairwise-rect" ∨ s = "pwp-bp" ∨ s = "pwp-kf") := by
    intro s; simp [allowedEstimators]
  have hk : ∀ s, s ∈ allowedControllers ↔ (s = "gridsearchefc" ∨ s = "plannedefc" ∨ s = "ad-efc") := by intro s; simp [allowedControllers]
  unfold Documented fold verify
  dsimp only
  rw [← hc, ← ho, ← hl, ← he, ← hk]
  by_cases h1 : lower k.centering ∈ allowedCenterings
  swap
  · simp [h1]
  by_cases h2 : upper k.coro ∈ allowedCoronagraphTypes
  swap
  · simp [h1, h2]
  by_cases h3 : lower k.layout ∈ allowedLayouts
  swap
  · simp [h1, h2, h3]
  by_cases h4 : lower k.estimator ∈ allowedEstimators
  swap
  · simp [h1, h2, h3, h4]
  by_cases h5 : lower k.controller ∈ allowedControllers
  swap
  · simp [h1, h2, h3, h4, h5]
  simp [h1, h2, h3, h4, h5]

/-- what is known of the options after the check -/
theorem accepted {k k' : Keys} (h : verify lower upper k = (.ok (), k')) : k' = fold lower upper k ∧ Documented k' := by
  by_cases hd : Documented (fold lower upper k)
  · have := (C141_verify lower upper k).1 hd
    rw [this] at h
    have e : fold lower upper k = k' := congrArg Prod.snd h
    exact ⟨e.symm, e ▸ hd⟩
  · have := (C141_verify lower upper k).2 hd
    rw [h] at this
    cases this

/-- **C141 (again).** Checking checked options changes nothing. -/
theorem C141_again (hl : ∀ s, lower (lower s) = lower s) (hu : ∀ s, upper (upper s) = upper s) {k k' : Keys} (h : verify lower upper k = (.ok (), k')) :
    verify lower upper k' = (.ok (), k') := by
  obtain ⟨rfl, hd⟩ := accepted lower upper h
  have hf : fold lower upper (fold lower upper k) = fold lower upper k := by unfold fold; simp [hl, hu]
  have := (C141_verify lower upper (fold lower upper k)).1 (by rw [hf]; exact hd)
  rw [this, hf]

/-- **C141 (estimators).** With checked options an estimator is run in every iteration: the perfect one for 'perfect', otherwise pairwise probing, with square probes
for 'pairwise', 'pairwise-square' and 'pwp-bp-square' and rectangular ones for the others, and its result is stored – except for 'pwp-kf', below. -/
theorem C141_estimators {k k' : Keys} (h : verify lower upper k = (.ok (), k')) (useJac : Bool) (itr start npix : ℕ) :
    (k'.estimator = "perfect" ∧ estWrapper k'.estimator useJac = some .perfect) ∨
    (k'.estimator ≠ "perfect" ∧ estWrapper k'.estimator useJac = some (.pairwise useJac) ∧
      probeKind k'.estimator = .ok (if k'.estimator = "pairwise" ∨ k'.estimator = "pairwise-square" ∨ k'.estimator = "pwp-bp-square" then .square else .rect) ∧
      (k'.estimator ≠ "pwp-kf" → saveEstimate k'.estimator itr start npix = .ok ())) := by
  obtain ⟨-, -, -, -, he, -⟩ := accepted lower upper h
  rcases he with e | e | e | e | e | e | e <;> rw [e] <;> simp [estWrapper, probeKind, saveEstimate]

/-- A misspelt estimator that is not checked is not noticed: the call returns without an estimate. -/
theorem C141_unchecked (s : String) (hs : s ∉ allowedEstimators) (useJac : Bool) : estWrapper s useJac = none := by
  simp [allowedEstimators] at hs
  simp [estWrapper, hs]

/-- **C141 (Kalman filter, violated).** The accepted estimator 'pwp-kf' never gives an estimate: before the iteration at which the filter starts (`ItrStartKF`) the call
raises ValueError, from it on UnboundLocalError. -/
theorem C141_kalman_violated (itr start npix : ℕ) (hp : 0 < npix) :
    saveEstimate "pwp-kf" itr start npix = .error (if itr < start then .valueError else .unboundLocal) := by
  unfold saveEstimate
  by_cases h : itr < start
  · rw [if_pos (Or.inr ⟨rfl, h⟩), if_pos rfl, if_pos h]
    obtain ⟨m, rfl⟩ := Nat.exists_eq_succ_of_ne_zero hp.ne'
    rw [List.range_succ_eq_map, List.foldlM_cons]
    rfl
  · rw [if_neg (by simp [h]), if_neg h]

/-- **C141 (controllers).** With checked options the control step finds its controller: the one of that name. -/
theorem C141_controllers (hl : ∀ s, lower (lower s) = lower s) {k k' : Keys} (h : verify lower upper k = (.ok (), k')) :
    ctrlWrapper lower k'.controller = .ok (if k'.controller = "ad-efc" then .adEfc else if k'.controller = "plannedefc" then .planned else .gridSearch) := by
  obtain ⟨hk, -, -, -, -, hc⟩ := accepted lower upper h
  have hf : lower k'.controller = k'.controller := by rw [hk]; exact hl _
  unfold ctrlWrapper
  rw [hf]
  rcases hc with e | e | e <;> rw [e] <;> decide

/-- **C141 (names of controllers, any case).** Also without the check, only the lower-case form of the name counts: names with the same lower-case form choose the same controller, and those that
choose one are the three names in any case. -/
theorem C141_controller_case (c : String) :
    (∀ c', lower c = lower c' → ctrlWrapper lower c = ctrlWrapper lower c') ∧
      ((∃ r, ctrlWrapper lower c = .ok r) ↔ lower c = "ad-efc" ∨ lower c = "plannedefc" ∨ lower c = "gridsearchefc") := by
  unfold ctrlWrapper
  refine ⟨fun c' h => by rw [h], ?_⟩
  by_cases h1 : lower c = "ad-efc"
  · simp [h1]
  · by_cases h2 : lower c = "plannedefc"
    · simp [h2]
    · by_cases h3 : lower c = "gridsearchefc"
      · simp [h3]
      · simp [h1, h2, h3]

/-- **C141 (coronagraphs).** With checked options the full model, the compact model, its gradient and the slices of the Jacobian all propagate through the same type of mask,
the one the name stands for. -/
theorem C141_coronagraphs (hu : ∀ s, upper (upper s) = upper s) {k k' : Keys} (h : verify lower upper k = (.ok (), k')) :
    fullBranch upper k'.coro = .ok (kindOf k'.coro) ∧ compactBranch upper k'.coro = .ok (kindOf k'.coro) ∧ gradBranch upper k'.coro = .ok (kindOf k'.coro) ∧
    sliceBranch upper k'.coro = .ok (kindOf k'.coro) := by
  obtain ⟨hk, -, hc, -⟩ := accepted lower upper h
  have hf : upper k'.coro = k'.coro := by rw [hk]; exact hu _
  unfold fullBranch compactBranch gradBranch sliceBranch lyotBranch
  rw [hf]
  rcases hc with e | e | e | e | e | e | e <;> rw [e] <;> decide

/-- **C141 (Jacobian).** With checked options the control Jacobian propagates through that type of mask too, except for the two Roman layouts: there it raises ValueError
for all coronagraphs but HLC and SPLC, although the other models accept them. -/
theorem C141_jacobian (hl : ∀ s, lower (lower s) = lower s) (hu : ∀ s, upper (upper s) = upper s) {k k' : Keys} (h : verify lower upper k = (.ok (), k')) :
    jacBranch lower upper k'.layout k'.coro =
      if (k'.layout = "roman_phasec_proper" ∨ k'.layout = "wfirst_phaseb_proper") ∧ k'.coro ≠ "HLC" ∧ k'.coro ≠ "SPLC" then .error .valueError else .ok (kindOf k'.coro) := by
  obtain ⟨hk, -, hc, hy, -⟩ := accepted lower upper h
  have hf : upper k'.coro = k'.coro := by rw [hk]; exact hu _
  have hg : lower k'.layout = k'.layout := by rw [hk]; exact hl _
  unfold jacBranch lyotBranch
  rw [hf, hg]
  rcases hc with e | e | e | e | e | e | e <;> rcases hy with e' | e' | e' | e' | e' <;> rw [e, e'] <;> decide

/-- **C141 (scale of the mask).** With checked options and away from the central wavelength, the control Jacobian and the compact model agree about the size of the
focal-plane mask exactly for the layout 'fourier', for 'fpm_scale' with an HLC and for the other layouts with another coronagraph. -/
theorem C141_scale (hl : ∀ s, lower (lower s) = lower s) (hu : ∀ s, upper (upper s) = upper s) {k k' : Keys} (h : verify lower upper k = (.ok (), k'))
    (wvl lambda0 : ℝ) (h0 : 0 < lambda0) (hw : wvl ≠ lambda0) :
    compactScale lower upper k'.layout k'.coro wvl lambda0 = .ok (jacScale lower k'.layout wvl lambda0) ↔
      (k'.layout = "fourier" ∨ (k'.layout = "fpm_scale" ∧ k'.coro = "HLC") ∨ (k'.layout ≠ "fpm_scale" ∧ k'.coro ≠ "HLC")) := by
  obtain ⟨hk, -, hc, hy, -⟩ := accepted lower upper h
  have hf : upper k'.coro = k'.coro := by rw [hk]; exact hu _
  have hg : lower k'.layout = k'.layout := by rw [hk]; exact hl _
  have hne : wvl / lambda0 ≠ 1 := by
    intro e; exact hw ((div_eq_one_iff_eq h0.ne').mp e)
  unfold compactScale jacScale
  rw [hf, hg]
  rcases hy with e' | e' | e' | e' | e' <;> rw [e'] <;> by_cases e : k'.coro = "HLC" <;> simp [e, hne, hne.symm]

/-- **C141 (scale, violated).** An HLC with one of the PROPER layouts: the Jacobian is that of a mask of fixed size, the compact model used for the estimate has a mask
that grows with the wavelength. -/
theorem C141_scale_hlc_violated (hl : ∀ s, lower (lower s) = lower s) (hu : ∀ s, upper (upper s) = upper s) {k k' : Keys} (h : verify lower upper k = (.ok (), k'))
    (hc : k'.coro = "HLC") (hy : k'.layout = "proper" ∨ k'.layout = "roman_phasec_proper" ∨ k'.layout = "wfirst_phaseb_proper") (wvl lambda0 : ℝ) :
    compactScale lower upper k'.layout k'.coro wvl lambda0 = .ok (wvl / lambda0) ∧ jacScale lower k'.layout wvl lambda0 = 1 ∧ gradScale = 1 := by
  obtain ⟨hk, -⟩ := accepted lower upper h
  have hf : upper k'.coro = k'.coro := by rw [hk]; exact hu _
  have hg : lower k'.layout = k'.layout := by rw [hk]; exact hl _
  unfold compactScale jacScale gradScale
  rw [hf, hg, hc]
  rcases hy with e' | e' | e' <;> rw [e'] <;> simp

/-- **C141 (scale, violated).** Layout 'fpm_scale' with a coronagraph other than an HLC: the Jacobian is that of a mask which grows with the wavelength, the compact
model has a mask of fixed size. -/
theorem C141_scale_lyot_violated (hl : ∀ s, lower (lower s) = lower s) (hu : ∀ s, upper (upper s) = upper s) {k k' : Keys} (h : verify lower upper k = (.ok (), k'))
    (hc : k'.coro ≠ "HLC") (hy : k'.layout = "fpm_scale") (wvl lambda0 : ℝ) :
    compactScale lower upper k'.layout k'.coro wvl lambda0 = .ok 1 ∧ jacScale lower k'.layout wvl lambda0 = wvl / lambda0 := by
  obtain ⟨hk, -⟩ := accepted lower upper h
  have hf : upper k'.coro = k'.coro := by rw [hk]; exact hu _
  have hg : lower k'.layout = k'.layout := by rw [hk]; exact hl _
  unfold compactScale jacScale
  rw [hf, hg, hy]
  simp [hc]

/-- the singular modes read blocks that no Jacobian has -/
theorem svd_fails (o : Opts) (hs : o.svd = true) (jac : Option (List String)) (hj : jac = none ∨ jac = some jacAttributes) : iterSvd o jac = .error .attributeError := by
  unfold iterSvd
  rw [hs]
  rcases hj with rfl | rfl <;> rfl

/-- **C141 (iterations).** With checked options, what the options let an iteration of the loop do: it runs the controller asked for, exactly if
* the estimator is not 'pwp-kf' (with pixels in the dark hole),
* the singular mode spectrum is not asked for (`flagSVD`),
* 'ad-efc' is not combined with probing that uses the Jacobian (`flagUseJac`), and
* a Jacobian-based controller is not combined with a Roman layout for coronagraphs other than HLC and SPLC. -/
theorem C141_iteration (hl : ∀ s, lower (lower s) = lower s) (hu : ∀ s, upper (upper s) = upper s) (o : Opts) {k : Keys} (h : verify lower upper k = (.ok (), o.keys))
    (hp : 0 < o.npix) (probeDm itr : ℕ) :
    (∃ c, iteration lower upper o probeDm itr = .ok c) ↔
      o.keys.estimator ≠ "pwp-kf" ∧ o.svd = false ∧ ¬ (o.keys.controller = "ad-efc" ∧ o.useJac = true ∧ o.keys.estimator ≠ "perfect") ∧
      ¬ (o.keys.controller ≠ "ad-efc" ∧ (o.keys.layout = "roman_phasec_proper" ∨ o.keys.layout = "wfirst_phaseb_proper") ∧ o.keys.coro ≠ "HLC" ∧ o.keys.coro ≠ "SPLC") := by
  have hJ := C141_jacobian lower upper hl hu h
  have hE := C141_estimators lower upper h o.useJac itr o.start o.npix
  have hC := C141_controllers lower upper hl h
  have hK := C141_kalman_violated itr o.start o.npix hp
  obtain ⟨hk, -⟩ := accepted lower upper h
  have hg : lower o.keys.controller = o.keys.controller := by rw [hk]; exact hl _
  -- the Jacobian
  by_cases had : o.keys.controller = "ad-efc"
  · have hj : iterJac lower upper o = .ok none := by unfold iterJac; rw [hg, if_neg (by simp [had])]
    obtain ⟨c₀, hct⟩ : ∃ c, ctrlWrapper lower o.keys.controller = .ok c := ⟨_, hC⟩
    unfold iteration
    rw [hj]
    change (∃ c, ((iterEst o probeDm itr none).bind fun _ => (iterSvd o none).bind fun _ => ctrlWrapper lower o.keys.controller) = .ok c) ↔ _
    rcases hE with ⟨e, hw⟩ | ⟨e, hw, hpk, hsv⟩
    · have hi : iterEst o probeDm itr none = .ok () := by unfold iterEst; rw [hw]
      rw [hi]
      cases hs : o.svd with
      | true => simp [svd_fails o hs none (Or.inl rfl), Except.bind]
      | false =>
        have : iterSvd o none = .ok () := by unfold iterSvd; rw [hs]; rfl
        rw [this]
        rw [hct]
        simp [e, had, Except.bind]
    · cases hj' : o.useJac with
      | true =>
        have hi : iterEst o probeDm itr none = .error .attributeError := by
          unfold iterEst; rw [hw, hpk, hj']; rfl
        rw [hi]
        simp [e, had, Except.bind]
      | false =>
        by_cases hkf : o.keys.estimator = "pwp-kf"
        · have hi : ∃ x, iterEst o probeDm itr none = .error x := by
            unfold iterEst; rw [hw, hpk, hj', hkf, hK]; exact ⟨_, rfl⟩
          obtain ⟨x, hi⟩ := hi
          rw [hi]
          simp [hkf, Except.bind]
        · have hi : iterEst o probeDm itr none = .ok () := by
            unfold iterEst; rw [hw, hpk, hj', hsv hkf]; rfl
          rw [hi]
          cases hs : o.svd with
          | true => simp [svd_fails o hs none (Or.inl rfl), Except.bind]
          | false =>
            have : iterSvd o none = .ok () := by unfold iterSvd; rw [hs]; rfl
            rw [this]
            rw [hct]
            simp [had, hkf, Except.bind]
  · have hjb : iterJac lower upper o = (jacBranch lower upper o.keys.layout o.keys.coro).map fun _ => some jacAttributes := by
      unfold iterJac; rw [hg, if_pos had]
    obtain ⟨c₀, hct⟩ : ∃ c, ctrlWrapper lower o.keys.controller = .ok c := ⟨_, hC⟩
    unfold iteration
    rw [hjb, hJ]
    by_cases hr : (o.keys.layout = "roman_phasec_proper" ∨ o.keys.layout = "wfirst_phaseb_proper") ∧ o.keys.coro ≠ "HLC" ∧ o.keys.coro ≠ "SPLC"
    · rw [if_pos hr]
      simp [Except.bind, Except.map, hr, had]
    rw [if_neg hr]
    change (∃ c, ((iterEst o probeDm itr (some jacAttributes)).bind fun _ => (iterSvd o (some jacAttributes)).bind fun _ => ctrlWrapper lower o.keys.controller) = .ok c) ↔ _
    have hga : ∀ a, getAttr (some jacAttributes) (if probeDm = 1 then "G1" else "G2") = .ok a ↔ a = () := by
      intro a; split_ifs <;> simp [getAttr, jacAttributes]
    have hga' : getAttr (some jacAttributes) (if probeDm = 1 then "G1" else "G2") = .ok () := (hga ()).2 rfl
    have hfin : (¬ (o.keys.controller = "ad-efc" ∧ o.useJac = true ∧ o.keys.estimator ≠ "perfect") ∧
      ¬ (o.keys.controller ≠ "ad-efc" ∧ (o.keys.layout = "roman_phasec_proper" ∨ o.keys.layout = "wfirst_phaseb_proper") ∧ o.keys.coro ≠ "HLC" ∧ o.keys.coro ≠ "SPLC")) ↔ True := by
      refine iff_true_intro ⟨fun hh => had hh.1, fun hh => hr hh.2⟩
    rw [hfin, and_true]
    rcases hE with ⟨e, hw⟩ | ⟨e, hw, hpk, hsv⟩
    · have hi : iterEst o probeDm itr (some jacAttributes) = .ok () := by unfold iterEst; rw [hw]
      rw [hi]
      cases hs : o.svd with
      | true => simp [svd_fails o hs _ (Or.inr rfl), Except.bind]
      | false =>
        have : iterSvd o (some jacAttributes) = .ok () := by unfold iterSvd; rw [hs]; rfl
        rw [this]
        simp [e, hct, Except.bind]
    · have hq : iterEst o probeDm itr (some jacAttributes) = saveEstimate o.keys.estimator itr o.start o.npix := by
        unfold iterEst; rw [hw, hpk]
        cases o.useJac
        · rfl
        · dsimp only [Except.bind]; rw [if_pos rfl, hga']
      rw [hq]
      by_cases hkf : o.keys.estimator = "pwp-kf"
      · rw [hkf, hK]
        simp [Except.bind]
      · rw [hsv hkf]
        cases hs : o.svd with
        | true => simp [svd_fails o hs _ (Or.inr rfl), Except.bind]
        | false =>
          have : iterSvd o (some jacAttributes) = .ok () := by unfold iterSvd; rw [hs]; rfl
          rw [this]
          simp [hct, hkf, Except.bind]

/-- Options in mixed case which pass the check, with `str.lower` and `str.upper` on ASCII letters: the configuration of the Roman HLC. -/
example : verify String.toLower String.toUpper ⟨"pixel", "hlc", "Roman_PhaseC_Proper", "pwp-bp", "gridsearchEFC"⟩ =
    (.ok (), ⟨"pixel", "HLC", "roman_phasec_proper", "pwp-bp", "gridsearchefc"⟩) := by decide +kernel

/-- The hypotheses about the case hold, for instance, for a function that folds a single word. -/
example : ∃ f : String → String, (∀ s, f (f s) = f s) ∧ f "Pairwise" = "pairwise" := by
  refine ⟨fun s => if s = "Pairwise" then "pairwise" else s, ?_, by decide⟩
  intro s
  dsimp only
  by_cases h : s = "Pairwise"
  · rw [if_pos h]; decide
  · rw [if_neg h, if_neg h]

end Verif.Options
