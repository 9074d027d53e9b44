import Verif.Props.NoFpm
import Verif.Model.FullModel

/-!
# C88: the truth model and the compact model agree when they are configured identically
-/

set_option linter.unusedSectionVars false

namespace Verif.Compact
open Verif Complex Verif.Optics

variable {N N4 Neta Nxi Meta Mxi N3 : ℕ} [NeZero N] [NeZero N4] [NeZero N3]

theorem fullToP2_eq (S : Sys N N4 Neta Nxi Meta Mxi) (hw : S.flagDMwfe = false) (Ein : Pl N) (S1 S2 : ZMod N → ZMod N → ℝ) :
    fullToP2 S Ein S1 S2 = toP2 S Ein S1 S2 := by
  rw [toP2_eq S hw]
  unfold fullToP2
  simp only [hw, Bool.false_eq_true, if_false, ptp_eq_core, bind, Except.bind, pure, Except.pure]
  unfold p2f dm2pre dm1post dm1pre
  have hk : ∀ s : ℝ, exp (2 * 2 * Real.pi * I * s / S.wvl) = exp (I * S.kk * s) := by
    intro s; congr 1; unfold Sys.kk; push_cast; ring
  simp only [hk, mul_one, one_mul]
  congr 1
  rw [show -1 * (S.d12 + S.dP2dm1) = -(S.dP2dm1 + S.d12) by ring]
  congr 1
  funext i j
  ring

/-- The Lyot stop is opaque at distances of half the array (the smaller of the arrays before and after cropping) from the axis. -/
def StopInside (M : ℕ) (lyot : Pl N4) : Prop :=
  ∀ i j : ZMod N4, (min (M / 2) (N4 / 2) : ℕ) ≤ |(i.val : ℤ) - ((N4 / 2 : ℕ) : ℤ)| ∨ (min (M / 2) (N4 / 2) : ℕ) ≤ |(j.val : ℤ) - ((N4 / 2 : ℕ) : ℤ)| → lyot i j = 0

theorem mirror_val {q : ℕ} [NeZero q] (i : ZMod q) : (mirror .interpixel i).val = q - 1 - i.val := by
  unfold mirror
  have hi := ZMod.val_lt i
  have e : (-1 - i : ZMod q) = ((q - 1 - i.val : ℕ) : ZMod q) := by
    have h2 : ((q - 1 - i.val : ℕ) : ZMod q) + 1 + (i.val : ZMod q) = (q : ZMod q) := by
      have h3 : (q - 1 - i.val) + 1 + i.val = q := by omega
      exact_mod_cast congrArg (fun n : ℕ => (n : ZMod q)) h3
    rw [ZMod.natCast_zmod_val, ZMod.natCast_self] at h2
    linear_combination -h2
  simp only [reduceCtorEq, if_false]
  rw [e, ZMod.val_natCast, Nat.mod_eq_of_lt (by omega)]

/-- Cropping or padding commutes with relays at the pixels strictly inside both arrays. -/
theorem padF_relay_inside {M : ℕ} [NeZero M] (hM : Even M) (h4 : Even N4) (k : ℤ) (c : Util.Centering) (E : Pl M) (i j : ZMod N4)
    (hi : |(i.val : ℤ) - ((N4 / 2 : ℕ) : ℤ)| < (min (M / 2) (N4 / 2) : ℕ)) (hj : |(j.val : ℤ) - ((N4 / 2 : ℕ) : ℤ)| < (min (M / 2) (N4 / 2) : ℕ)) :
    padF N4 (relay E k c) i j = relay (padF N4 E) k c i j := by
  by_cases hk : k % 2 = 1
  · rw [relay_odd _ _ hk, relay_odd _ _ hk]
    have hMe := Nat.even_iff.1 hM
    have h4e := Nat.even_iff.1 h4
    have hMpos := NeZero.pos M
    have h4pos := NeZero.pos N4
    have key : ∀ i : ZMod N4, |(i.val : ℤ) - ((N4 / 2 : ℕ) : ℤ)| < (min (M / 2) (N4 / 2) : ℕ) →
        (0 ≤ ((M / 2 : ℕ) : ℤ) + ((i.val : ℤ) - ((N4 / 2 : ℕ) : ℤ)) ∧ ((M / 2 : ℕ) : ℤ) + ((i.val : ℤ) - ((N4 / 2 : ℕ) : ℤ)) < M) ∧
        (0 ≤ ((M / 2 : ℕ) : ℤ) + (((mirror c i).val : ℤ) - ((N4 / 2 : ℕ) : ℤ)) ∧ ((M / 2 : ℕ) : ℤ) + (((mirror c i).val : ℤ) - ((N4 / 2 : ℕ) : ℤ)) < M) ∧
        mirror c (((((M / 2 : ℕ) : ℤ) + ((i.val : ℤ) - ((N4 / 2 : ℕ) : ℤ)) : ℤ)) : ZMod M) =
          ((((M / 2 : ℕ) : ℤ) + (((mirror c i).val : ℤ) - ((N4 / 2 : ℕ) : ℤ)) : ℤ) : ZMod M) := by
      intro i hi
      rw [abs_lt] at hi
      have hv := ZMod.val_lt i
      cases c
      · have hi0 : i ≠ 0 := by
          rintro rfl
          rw [ZMod.val_zero] at hi
          have := hi.1
          omega
        have : NeZero i := ⟨hi0⟩
        have e1 : (mirror .pixel i).val = N4 - i.val := by unfold mirror; simp only [if_true]; exact ZMod.val_neg_of_ne_zero i
        rw [e1]
        refine ⟨by omega, by omega, ?_⟩
        unfold mirror
        simp only [if_true]
        rw [← Int.cast_neg, ZMod.intCast_eq_intCast_iff_dvd_sub]
        refine ⟨1, ?_⟩
        omega
      · rw [mirror_val i]
        refine ⟨by omega, by omega, ?_⟩
        unfold mirror
        simp only [reduceCtorEq, if_false]
        rw [show (-1 : ZMod M) = ((-1 : ℤ) : ZMod M) by simp, ← Int.cast_sub, ZMod.intCast_eq_intCast_iff_dvd_sub]
        refine ⟨1, ?_⟩
        omega
    obtain ⟨a1, a2, a3⟩ := key i hi
    obtain ⟨b1, b2, b3⟩ := key j hj
    unfold padF
    dsimp only
    rw [if_pos ⟨a1, b1⟩, if_pos ⟨a2, b2⟩, a3, b3]
  · rw [relay_even _ _ hk, relay_even _ _ hk]

/-- The vortex branch crops before relaying; this matters only outside the Lyot stop. -/
def VortexOk (S : Sys N N4 Neta Nxi Meta Mxi) (M : ℕ) : Prop :=
  ∀ D NB vm tk, S.coro = .vortex D NB vm tk → S.normFac ≠ 0 → S.rel S.n34 % 2 = 1 ∨ (Even M ∧ Even N4 ∧ StopInside M S.lyot)

theorem fullP3toEnd_eq {M : ℕ} [NeZero M] (S : Sys N N4 Neta Nxi Meta Mxi) (name : CoroName) (hf : name.Fits S.coro) (ha : name ≠ .avc) (hs : name = .lc → S.fpmScale = 1)
    (hv : VortexOk S M) (EP3 : Pl M) :
    fullP3toEnd S name EP3 = .ok (if S.normFac = 0 then
      (if name = .vortex ∨ name = .avc then p3toEndNoFpm S.unnorm EP3 else p4toEnd S.unnorm (p3to4 S.unnorm EP3))
      else p4toEnd S (p3to4 S EP3)) := by
  have hmul : ∀ E : Pl N4, (fun i j => E i j * S.lyot i j : Pl N4) = fun i j => S.lyot i j * E i j := fun E => by funext i j; ring
  have hend : ∀ E : Pl N4, p4toEnd S.unnorm E =
      mftP2f (toFin (relay (fun i j => E i j * S.lyot i j) (S.rel S.nEnd) S.centering)) S.fl S.wvl S.dx4 S.dxi Mxi S.deta Meta S.centering := by
    intro E
    rw [hmul]
    unfold p4toEnd
    funext e x
    simp only [Sys.unnorm, Real.sqrt_one, ofReal_one, div_one]
    rfl
  have hend' : ∀ E : Pl N4, p4toEnd S E = fun e x =>
      mftP2f (toFin (relay (fun i j => E i j * S.lyot i j) (S.rel S.nEnd) S.centering)) S.fl S.wvl S.dx4 S.dxi Mxi S.deta Meta S.centering e x / Real.sqrt S.normFac := by
    intro E; rw [hmul]; rfl
  have h34 : p3to4 S.unnorm EP3 = p3to4 S EP3 := rfl
  unfold fullP3toEnd
  obtain ⟨E4, h4, hE4⟩ : ∃ E4, fullP3to4 S name EP3 = .ok E4 ∧
      ((name = .vortex → S.normFac ≠ 0) → (fun i j => E4 i j * S.lyot i j : Pl N4) = fun i j => p3to4 S EP3 i j * S.lyot i j) := by
    unfold fullP3to4 p3to4
    unfold CoroName.Fits at hf
    unfold VortexOk at hv
    cases hc : S.coro with
    | babinet mask t =>
      rw [hc] at hf
      rcases hf with ⟨rfl, rfl⟩ | rfl
      · refine ⟨_, rfl, fun _ => ?_⟩
        simp only [hs rfl, one_mul]
      · exact ⟨_, rfl, fun _ => rfl⟩
    | flc mask => rw [hc] at hf; exact ⟨_, rfl, fun _ => rfl⟩
    | vortex D NB vm tk =>
      rw [hc] at hf
      have hn : name = .vortex := hf.resolve_right ha
      refine ⟨relay (padF N4 (ofFin (mftP2v2pOf false D 4 5 NB vm tk (toFin EP3)))) (S.rel S.n34 - 1) S.centering, by simp only [ha, if_false], fun hnf => ?_⟩
      rcases hv D NB vm tk hc (hnf hn) with h | ⟨hM, hN, hz⟩
      · have h' : ¬ (S.rel S.n34 - 1) % 2 = 1 := by omega
        dsimp only
        rw [relay_even _ _ h', relay_even _ _ h']
      · funext i j
        by_cases hz' : S.lyot i j = 0
        · rw [hz', mul_zero, mul_zero]
        · congr 1
          symm
          apply padF_relay_inside hM hN
          · by_contra h; exact hz' (hz i j (Or.inl (not_lt.1 h)))
          · by_contra h; exact hz' (hz i j (Or.inr (not_lt.1 h)))
  rw [h4]
  simp only [bind, Except.bind, pure, Except.pure]
  congr 1
  by_cases h0 : S.normFac = 0
  · simp only [h0, true_and, if_true]
    by_cases hnv : name = .vortex ∨ name = .avc
    · simp only [hnv, if_true]
      unfold p3toEndNoFpm
      have hn : name = .vortex := hnv.resolve_right ha
      have ht : S.unnorm.transOuter = 1 := by
        unfold Sys.transOuter Sys.unnorm
        dsimp only
        cases hc : S.coro with
        | babinet mask t => rw [hc, hn] at hf; simp [CoroName.Fits] at hf
        | flc mask => rfl
        | vortex D NB vm tk => rfl
      dsimp only
      rw [ht]
      simp only [mul_one]
      rw [hend]
      rfl
    · simp only [hnv, if_false]
      rw [hE4 (fun h => absurd (Or.inl h) hnv), hend, h34]
  · simp only [h0, false_and, if_false]
    rw [hE4 (fun _ => h0), hend']

/-- size of the array at P3 -/
def p3Size (N : ℕ) {N3 : ℕ} (apod : Option (Pl N3)) : ℕ := match apod with | none => N | some _ => N3

theorem fullFourier_eq (S : Sys N N4 Neta Nxi Meta Mxi) (hw : S.flagDMwfe = false) (name : CoroName) (hf : name.Fits S.coro) (ha : name ≠ .avc) (hs : name = .lc → S.fpmScale = 1)
    (apod : Option (Pl N3)) (hv : VortexOk S (p3Size N apod)) (Ein : Pl N) (S1 S2 : ZMod N → ZMod N → ℝ) :
    fullFourier S name apod Ein S1 S2 = compactAny S name apod Ein S1 S2 := by
  unfold fullFourier compactAny compactNoFpm compactApod
  rw [fullToP2_eq S hw, toP2_eq S hw, toP2_eq S.unnorm hw]
  have hp : p2f S.unnorm Ein S1 S2 = p2f S Ein S1 S2 := rfl
  simp only [bind, Except.bind, pure, Except.pure, hp]
  unfold p2toEnd p2toEndNoFpm
  cases apod with
  | none =>
    dsimp only
    rw [fullP3toEnd_eq (M := N) S name hf ha hs hv]
    split_ifs <;> rfl
  | some m =>
    dsimp only
    rw [fullP3toEnd_eq (M := N3) S name hf ha hs hv]
    split_ifs <;> rfl

theorem compactAny_vortex (S : Sys N N4 Neta Nxi Meta Mxi) (D : ℝ) (NB : ℕ) (vm : (n : ℕ) → Fin n → Fin n → ℂ) (tk : ℝ → Fin NB → Fin NB → ℝ) (hc : S.coro = .vortex D NB vm tk) (f g : ℝ)
    (hw : S.flagDMwfe = false) (name : CoroName) (apod : Option (Pl N3)) (Ein : Pl N) (S1 S2 : ZMod N → ZMod N → ℝ) :
    compactAny (S.withScale f) name apod Ein S1 S2 = compactAny (S.withScale g) name apod Ein S1 S2 := by
  have h1 : ∀ {M : ℕ} [NeZero M] (E : Pl M), p3to4 (S.withScale f) E = p3to4 (S.withScale g) E := by
    intro M _ E
    unfold p3to4
    have h : ∀ f, (S.withScale f).coro = .vortex D NB vm tk := fun f => hc
    rw [h f, h g]
    rfl
  have h2 : ∀ {M : ℕ} [NeZero M] (E : Pl M), p3to4 (S.withScale f).unnorm E = p3to4 (S.withScale g).unnorm E := fun E => h1 E
  unfold compactAny compactNoFpm compactApod
  rw [toP2_eq (S.withScale f) hw, toP2_eq (S.withScale f).unnorm hw, toP2_eq (S.withScale g) hw, toP2_eq (S.withScale g).unnorm hw]
  simp only [bind, Except.bind, pure, Except.pure]
  have e1 : p2toEnd (S.withScale f) apod = p2toEnd (S.withScale g) apod := by
    funext E
    unfold p2toEnd
    cases apod <;> dsimp only <;> rw [h1] <;> rfl
  have e2 : p2toEnd (S.withScale f).unnorm apod = p2toEnd (S.withScale g).unnorm apod := by
    funext E
    unfold p2toEnd
    cases apod <;> dsimp only <;> rw [h2] <;> rfl
  rw [e1, e2]
  rfl

/-- **C88** With the same parameters in both models (no DM wavefront errors, no Zernike mode), the truth model and the compact model return the same field: in the layout `fourier` for every
coronagraph type the truth model accepts, in the layout `fpm_scale` for HLC and vortex; with or without apodizer, for every star position and weight, off-axis source and pair of DM surfaces, and
with or without normalisation.  (Vortex: the Lyot stop must be opaque at the edge of the array, `VortexOk`.) -/
theorem C88_same_field {n : ℕ} (S : Sys N N4 Neta Nxi Meta Mxi) (hw : S.flagDMwfe = false) (l : Layout) (name : CoroName) (hl : l = .fourier ∨ name = .hlc ∨ name = .vortex)
    (hf : name.Fits S.coro) (ha : name ≠ .avc) (apod : Option (Pl N3)) (hv : VortexOk S (p3Size N apod)) (lambda0 : ℝ) (X Y : ZMod n → ZMod n → ℝ) (E : Pl n) (s : Source n)
    (hz : s.zern = none) (S1 S2 : ZMod N → ZMod N → ℝ) :
    full S l name apod lambda0 X Y E s S1 S2 = compact S l name apod lambda0 X Y E s S1 S2 := by
  unfold full compact
  have he : einFull lambda0 S.wvl X Y E S.normFac s = einComp lambda0 S.wvl X Y E S.normFac s := by unfold einFull einComp; rw [hz]
  rw [he]
  have h1 := fullFourier_eq (S.withScale (l.fullScale S.wvl lambda0)) hw name hf ha
    (fun hn => by subst hn; have h := hl.resolve_right (by simp); subst h; rfl) apod hv (padF N (einComp lambda0 S.wvl X Y E S.normFac s)) S1 S2
  rw [h1]
  by_cases hnv : name = .vortex
  · cases hc : S.coro with
    | babinet mask t => rw [hc, hnv] at hf; simp [CoroName.Fits] at hf
    | flc mask => rw [hc, hnv] at hf; simp [CoroName.Fits] at hf
    | vortex D NB vm tk => exact compactAny_vortex S D NB vm tk hc _ _ hw name apod _ S1 S2
  · have : l.fullScale S.wvl lambda0 = l.compactScale name S.wvl lambda0 := by
      rcases hl with rfl | rfl | h
      · rfl
      · cases l <;> simp [Layout.fullScale, Layout.compactScale]
      · exact absurd h hnv
    rw [this]

theorem compactAny_smul (S : Sys N N4 Neta Nxi Meta Mxi) (hw : S.flagDMwfe = false) (name : CoroName) (apod : Option (Pl N3)) (c : ℂ) (Ein : Pl N) (S1 S2 : ZMod N → ZMod N → ℝ) :
    compactAny S name apod (c • Ein) S1 S2 = (compactAny S name apod Ein S1 S2).map fun F => c • F := by
  have hp : p2f S (c • Ein) S1 S2 = c • p2f S Ein S1 S2 := p2f_smul S c Ein S1 S2
  have hp' : p2f S.unnorm (c • Ein) S1 S2 = c • p2f S.unnorm Ein S1 S2 := p2f_smul S.unnorm c Ein S1 S2
  unfold compactAny
  split_ifs
  · rw [compactNoFpm_eq S.unnorm hw, compactNoFpm_eq S.unnorm hw, hp', (lin_p2toEndNoFpm S.unnorm apod).map_smul]; rfl
  · rw [compactApod_eq S.unnorm hw, compactApod_eq S.unnorm hw, hp', (lin_p2toEnd S.unnorm apod).map_smul]; rfl
  · rw [compactApod_eq _ hw, compactApod_eq _ hw, hp, (lin_p2toEnd S apod).map_smul]; rfl

/-- **C88** violated for Zernike modes: with the same parameters the truth model returns the field of the compact model divided by the imaginary unit. -/
theorem C88_zernike_violated {n : ℕ} (S : Sys N N4 Neta Nxi Meta Mxi) (hw : S.flagDMwfe = false) (l : Layout) (name : CoroName) (hl : l = .fourier ∨ name = .hlc ∨ name = .vortex)
    (hf : name.Fits S.coro) (ha : name ≠ .avc) (apod : Option (Pl N3)) (hv : VortexOk S (p3Size N apod)) (lambda0 : ℝ) (X Y : ZMod n → ZMod n → ℝ) (E : Pl n) (s : Source n)
    (hz : s.zern ≠ none) (S1 S2 : ZMod N → ZMod N → ℝ) :
    compact S l name apod lambda0 X Y E s S1 S2 = (full S l name apod lambda0 X Y E s S1 S2).map fun F e x => I * F e x := by
  obtain ⟨⟨Z, c⟩, hz⟩ := Option.ne_none_iff_exists'.1 hz
  -- the same source with the Zernike factor moved into the pupil field
  have he : einComp lambda0 S.wvl X Y E S.normFac s = I • einFull lambda0 S.wvl X Y E S.normFac s := by
    unfold einComp einFull; rw [hz]
    funext i j
    simp only [Pi.smul_apply, smul_eq_mul]
    ring
  have key : fullFourier (S.withScale (l.fullScale S.wvl lambda0)) name apod (padF N (einFull lambda0 S.wvl X Y E S.normFac s)) S1 S2 =
      compactAny (S.withScale (l.compactScale name S.wvl lambda0)) name apod (padF N (einFull lambda0 S.wvl X Y E S.normFac s)) S1 S2 := by
    have h1 := fullFourier_eq (S.withScale (l.fullScale S.wvl lambda0)) hw name hf ha
      (fun hn => by subst hn; have h := hl.resolve_right (by simp); subst h; rfl) apod hv (padF N (einFull lambda0 S.wvl X Y E S.normFac s)) S1 S2
    rw [h1]
    by_cases hnv : name = .vortex
    · cases hc : S.coro with
      | babinet mask t => rw [hc, hnv] at hf; simp [CoroName.Fits] at hf
      | flc mask => rw [hc, hnv] at hf; simp [CoroName.Fits] at hf
      | vortex D NB vm tk => exact compactAny_vortex S D NB vm tk hc _ _ hw name apod _ S1 S2
    · have : l.fullScale S.wvl lambda0 = l.compactScale name S.wvl lambda0 := by
        rcases hl with rfl | rfl | h
        · rfl
        · cases l <;> simp [Layout.fullScale, Layout.compactScale]
        · exact absurd h hnv
      rw [this]
  unfold full compact
  rw [key, he, (lin_padF N).map_smul, compactAny_smul (S.withScale (l.compactScale name S.wvl lambda0)) hw]
  rfl

/-- **C88** violated for the name `AVC`: the compact model accepts it, the truth model raises ValueError for every input. -/
theorem C88_avc_violated {n : ℕ} (S : Sys N N4 Neta Nxi Meta Mxi) (hw : S.flagDMwfe = false) (l : Layout) (hf : CoroName.avc.Fits S.coro) (apod : Option (Pl N3))
    (lambda0 : ℝ) (X Y : ZMod n → ZMod n → ℝ) (E : Pl n) (s : Source n) (S1 S2 : ZMod N → ZMod N → ℝ) :
    full S l .avc apod lambda0 X Y E s S1 S2 = .error .valueError ∧ ∃ F, compact S l .avc apod lambda0 X Y E s S1 S2 = .ok F := by
  constructor
  · unfold full fullFourier
    rw [fullToP2_eq (S.withScale (l.fullScale S.wvl lambda0)) hw, toP2_eq (S.withScale (l.fullScale S.wvl lambda0)) hw]
    have h : ∀ {M : ℕ} [NeZero M] (E : Pl M), fullP3toEnd (S.withScale (l.fullScale S.wvl lambda0)) .avc E = .error .valueError := by
      intro M _ E
      unfold fullP3toEnd fullP3to4
      cases hc : S.coro with
      | babinet mask t => rw [hc] at hf; simp [CoroName.Fits] at hf
      | flc mask => rw [hc] at hf; simp [CoroName.Fits] at hf
      | vortex D NB vm tk =>
        have h : (S.withScale (l.fullScale S.wvl lambda0)).coro = .vortex D NB vm tk := hc
        rw [h]
        simp [bind, Except.bind]
    simp only [bind, Except.bind]
    cases apod <;> simp only [h]
  · unfold compact compactAny
    split_ifs
    · rw [compactNoFpm_eq (S.withScale (l.compactScale .avc S.wvl lambda0)).unnorm hw]; exact ⟨_, rfl⟩
    · rw [compactApod_eq (S.withScale (l.compactScale .avc S.wvl lambda0)).unnorm hw]; exact ⟨_, rfl⟩
    · rw [compactApod_eq (S.withScale (l.compactScale .avc S.wvl lambda0)) hw]; exact ⟨_, rfl⟩

/-- **C88** With `flagDMwfe` neither model ever returns: UnboundLocalError in the truth model, TypeError in the compact model. -/
theorem C88_dm_wfe_violated {n : ℕ} (S : Sys N N4 Neta Nxi Meta Mxi) (hw : S.flagDMwfe = true) (l : Layout) (name : CoroName) (apod : Option (Pl N3))
    (lambda0 : ℝ) (X Y : ZMod n → ZMod n → ℝ) (E : Pl n) (s : Source n) (S1 S2 : ZMod N → ZMod N → ℝ) :
    full S l name apod lambda0 X Y E s S1 S2 = .error .unboundLocal ∧ compact S l name apod lambda0 X Y E s S1 S2 = .error .typeError := by
  have hw' : ∀ f, (S.withScale f).flagDMwfe = true := fun f => hw
  have hw'' : ∀ f, (S.withScale f).unnorm.flagDMwfe = true := fun f => hw
  constructor
  · unfold full fullFourier fullToP2
    simp only [hw', if_true, ptp_eq_core, bind, Except.bind, throw, throwThe, MonadExceptOf.throw]
  · have ht : ∀ (T : Sys N N4 Neta Nxi Meta Mxi), T.flagDMwfe = true → ∀ Ein, toP2 T Ein S1 S2 = .error .typeError := by
      intro T hT Ein
      unfold toP2
      simp only [hT, if_true, bind, Except.bind, throw, throwThe, MonadExceptOf.throw]
    unfold compact compactAny compactNoFpm compactApod
    rw [ht _ (hw' _), ht _ (hw'' _)]
    split_ifs <;> rfl

/-! ## One-pixel systems -/

/-- One pixel everywhere, wavelength 2, all samplings 1. -/
noncomputable def oneSys (c : Coro 1 1) : Sys 1 1 1 1 1 1 where
  wvl := 2
  fl := 1
  dx := 1
  dx4 := 1
  dxiF3 := 1
  detaF3 := 1
  fpmScale := 1
  dxi := 1
  deta := 1
  dP2dm1 := 0
  d12 := 0
  centering := .pixel
  flagRotation := true
  n12 := 1
  n23 := 1
  n34 := 1
  nEnd := 1
  pupil := fun _ _ => 1
  stop1 := fun _ _ => 1
  stop2 := fun _ _ => 1
  flagDMwfe := false
  coro := c
  lyot := fun _ _ => 1
  normFac := 1

theorem ax_one (step : ℝ) (i : Fin 1) : ax 1 step .pixel i = 0 := by rw [ax_eq]; simp

theorem mft_one (E : Fin 1 → Fin 1 → ℂ) (fl wvl dx dxi deta : ℝ) :
    mftP2f E fl wvl dx dxi 1 deta 1 .pixel = fun _ _ => Real.sqrt (dx * dx * dxi * deta) / (1 * wvl * fl) * E 0 0 := by
  funext e x
  unfold mftP2f
  simp [ax_one]

theorem mftF_one (E : Fin 1 → Fin 1 → ℂ) (fl wvl dxi deta dx : ℝ) :
    mftF2p E fl wvl dxi deta dx 1 .pixel = fun _ _ => Real.sqrt (dx * dx * dxi * deta) / (1 * wvl * fl) * E 0 0 := by
  funext e x
  unfold mftF2p
  simp [ax_one]

theorem relay_one (E : Pl 1) (k : ℤ) (c : Util.Centering) : relay E k c = E := by
  by_cases hk : k % 2 = 1
  · rw [relay_odd _ _ hk]; funext i j; exact congrArg₂ E (Subsingleton.elim _ _) (Subsingleton.elim _ _)
  · exact relay_even _ _ hk _

/-- on-axis star of weight one -/
def oneSource : Source 1 := { xi := 0, eta := 0, weight := 1, offaxis := none, xNorm := 0, yNorm := 0, zern := none }

theorem oneSource_ein (wvl : ℝ) : einFull 1 wvl (fun _ _ => 0) (fun _ _ => 0) (fun _ _ => 1) 1 oneSource = (fun _ _ => 1) ∧
    einComp 1 wvl (fun _ _ => 0) (fun _ _ => 0) (fun _ _ => 1) 1 oneSource = (fun _ _ => 1) := by
  have : einBase 1 wvl (fun _ _ => 0) (fun _ _ => 0) (fun _ _ => 1) 1 oneSource = fun _ _ => 1 := by
    unfold einBase tilt oneSource
    funext i j
    simp
  unfold einFull einComp
  exact ⟨this, this⟩

theorem oneSys_p2 (c : Coro 1 1) (f : ℝ) : p2f ((oneSys c).withScale f) (fun _ _ => 1) (fun _ _ => 0) (fun _ _ => 0) = fun _ _ => 1 := by
  unfold p2f dm2pre dm1post dm1pre
  simp only [relay_one]
  simp [Sys.withScale, oneSys, ptpCore_zero]

/-- **C88** violated in the layout `fpm_scale` for Lyot (LC, APLC) and shaped-pupil (SPLC, FLC) coronagraphs: only the truth model scales the mask with wavelength, so the same parameters give
different fields away from the central wavelength. -/
theorem C88_fpm_scale_violated :
    (∃ S : Sys 1 1 1 1 1 1, S.flagDMwfe = false ∧ CoroName.lc.Fits S.coro ∧
      full S .fpmScale .lc (none : Option (Pl 1)) 1 (fun _ _ => 0) (fun _ _ => 0) (fun _ _ => 1) oneSource (fun _ _ => 0) (fun _ _ => 0) = .ok (fun _ _ => (1 - Real.sqrt 2) / 2) ∧
      full S .fpmScale .hlc (none : Option (Pl 1)) 1 (fun _ _ => 0) (fun _ _ => 0) (fun _ _ => 1) oneSource (fun _ _ => 0) (fun _ _ => 0) = .ok (fun _ _ => 0) ∧
      compact S .fpmScale .lc (none : Option (Pl 1)) 1 (fun _ _ => 0) (fun _ _ => 0) (fun _ _ => 1) oneSource (fun _ _ => 0) (fun _ _ => 0) = .ok (fun _ _ => 3 / 8)) ∧
    ∃ S : Sys 1 1 1 1 1 1, S.flagDMwfe = false ∧ CoroName.splc.Fits S.coro ∧
      full S .fpmScale .splc (none : Option (Pl 1)) 1 (fun _ _ => 0) (fun _ _ => 0) (fun _ _ => 1) oneSource (fun _ _ => 0) (fun _ _ => 0) = .ok (fun _ _ => 1 / 2) ∧
      compact S .fpmScale .splc (none : Option (Pl 1)) 1 (fun _ _ => 0) (fun _ _ => 0) (fun _ _ => 1) oneSource (fun _ _ => 0) (fun _ _ => 0) = .ok (fun _ _ => 1 / 8) := by
  have hE := oneSource_ein 2
  have hF : ∀ (c : Coro 1 1) (name : CoroName), full (oneSys c) .fpmScale name (none : Option (Pl 1)) 1 (fun _ _ => 0) (fun _ _ => 0) (fun _ _ => 1) oneSource (fun _ _ => 0) (fun _ _ => 0) =
      fullP3toEnd ((oneSys c).withScale 2) name (fun _ _ => 1 : Pl 1) := by
    intro c name
    unfold full fullFourier
    rw [fullToP2_eq _ rfl, toP2_eq _ rfl]
    have : einFull 1 (oneSys c).wvl (fun _ _ => 0) (fun _ _ => 0) (fun _ _ => 1) (oneSys c).normFac oneSource = fun _ _ => 1 := hE.1
    simp only [bind, Except.bind, relay_one, this, padF_self]
    rw [show Layout.fpmScale.fullScale (oneSys c).wvl 1 = 2 by simp [Layout.fullScale, oneSys], oneSys_p2]
  have hC : ∀ (c : Coro 1 1) (name : CoroName), name ≠ .hlc → compact (oneSys c) .fpmScale name (none : Option (Pl 1)) 1 (fun _ _ => 0) (fun _ _ => 0) (fun _ _ => 1) oneSource (fun _ _ => 0)
      (fun _ _ => 0) = .ok (p4toEnd ((oneSys c).withScale 1) (p3to4 ((oneSys c).withScale 1) (fun _ _ => 1 : Pl 1))) := by
    intro c name hn
    unfold compact compactAny
    have h1 : ∀ f, ((oneSys c).withScale f).normFac ≠ 0 := fun f => by simp [Sys.withScale, oneSys]
    rw [if_neg (h1 _), compactApod_eq _ rfl]
    have : einComp 1 (oneSys c).wvl (fun _ _ => 0) (fun _ _ => 0) (fun _ _ => 1) (oneSys c).normFac oneSource = fun _ _ => 1 := hE.2
    simp only [this, padF_self]
    rw [show Layout.fpmScale.compactScale name (oneSys c).wvl 1 = 1 by simp [Layout.compactScale, hn], oneSys_p2]
    unfold p2toEnd
    simp only [relay_one]
  refine ⟨⟨oneSys (.babinet (fun _ _ => 0) 1), rfl, Or.inl ⟨rfl, rfl⟩, ?_, ?_, ?_⟩, ⟨oneSys (.flc fun _ _ => 1), rfl, rfl, ?_, ?_⟩⟩
  · rw [hF]
    have h8 : Real.sqrt (2 * 1 * (2 * 1) * (2 * 1) * 1) = 2 * Real.sqrt 2 := by
      rw [show (2 : ℝ) * 1 * (2 * 1) * (2 * 1) * 1 = 2 ^ 2 * 2 by norm_num, Real.sqrt_mul (by norm_num), Real.sqrt_sq (by norm_num)]
    have h4 : Real.sqrt (1 * 1 * (2 * 1) * (2 * 1)) = 2 := by
      rw [show (1 : ℝ) * 1 * (2 * 1) * (2 * 1) = 2 ^ 2 by norm_num, Real.sqrt_sq (by norm_num)]
    unfold fullP3toEnd fullP3to4
    simp only [Sys.withScale, oneSys, relay_one, mft_one, mftF_one, padF_self, h8, h4, ofFin, toFin, bind, Except.bind, pure, Except.pure]
    congr 1
    funext e x
    simp
    ring
  · rw [hF]
    have h4 : Real.sqrt (1 * 1 * (2 * 1) * (2 * 1)) = 2 := by
      rw [show (1 : ℝ) * 1 * (2 * 1) * (2 * 1) = 2 ^ 2 by norm_num, Real.sqrt_sq (by norm_num)]
    unfold fullP3toEnd fullP3to4
    simp only [Sys.withScale, oneSys, relay_one, mft_one, mftF_one, padF_self, h4, ofFin, toFin, bind, Except.bind, pure, Except.pure]
    congr 1
    funext e x
    simp
  · rw [hC _ _ (by simp)]
    unfold p4toEnd p3to4
    simp only [Sys.withScale, oneSys, relay_one, mft_one, mftF_one, padF_self, ofFin, toFin]
    congr 1
    funext e x
    simp
    norm_num
  · rw [hF]
    have h4 : Real.sqrt (1 * 1 * (2 * 1) * (2 * 1)) = 2 := by
      rw [show (1 : ℝ) * 1 * (2 * 1) * (2 * 1) = 2 ^ 2 by norm_num, Real.sqrt_sq (by norm_num)]
    unfold fullP3toEnd fullP3to4
    simp only [Sys.withScale, oneSys, relay_one, mft_one, mftF_one, padF_self, h4, ofFin, toFin, bind, Except.bind, pure, Except.pure]
    congr 1
    funext e x
    simp
    rfl
  · rw [hC _ _ (by simp)]
    unfold p4toEnd p3to4
    simp only [Sys.withScale, oneSys, relay_one, mft_one, mftF_one, padF_self, ofFin, toFin]
    congr 1
    funext e x
    simp
    norm_num

/-- `pixSys` (two pixels, SPLC) with an on-axis star meets the hypotheses of `C88_same_field`; so does a vortex on a four-pixel Lyot plane whose stop is open at the two inner pixels -/
example : pixSys.flagDMwfe = false ∧ CoroName.splc.Fits pixSys.coro ∧ VortexOk pixSys (p3Size 2 (none : Option (Pl 2))) ∧
    StopInside 4 (fun i j : ZMod 4 => if (i = 2 ∨ i = 1 ∨ i = 3) ∧ (j = 2 ∨ j = 1 ∨ j = 3) then (1 : ℂ) else 0) := by
  refine ⟨rfl, rfl, fun D NB vm tk h => by simp [pixSys] at h, ?_⟩
  intro i j h
  have h' : ¬ ((i = 2 ∨ i = 1 ∨ i = 3) ∧ (j = 2 ∨ j = 1 ∨ j = 3)) := by
    revert i j; decide
  exact if_neg h'

end Verif.Compact
