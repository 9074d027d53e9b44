import Verif.Props.Source
import Verif.Props.Imaging
import Verif.Model.Norm

/-!
# C107: image normalisation
-/

set_option linter.unusedSectionVars false

namespace Verif.Compact
open Verif Complex Verif.Optics

variable {N N4 Neta Nxi Meta Mxi N3 n : ℕ} [NeZero N] [NeZero N4] [NeZero N3] [NeZero n]

/-! ## normalising divides the field -/

theorem p2toEnd_norm (S : Sys N N4 Neta Nxi Meta Mxi) (v : ℝ) (apod : Option (Pl N3)) (EP2 : Pl N) :
    p2toEnd (S.withNorm v) apod EP2 = fun e x => p2toEnd S.unnorm apod EP2 e x / Real.sqrt v := by
  have h : ∀ {M : ℕ} [NeZero M] (E : Pl M), p4toEnd (S.withNorm v) (p3to4 (S.withNorm v) E) = fun e x => p4toEnd S.unnorm (p3to4 S.unnorm E) e x / Real.sqrt v := by
    intro M _ E
    have e : p3to4 (S.withNorm v) E = p3to4 S.unnorm E := rfl
    rw [e]
    unfold p4toEnd
    funext a b
    simp only [Sys.unnorm, Sys.withNorm, Real.sqrt_one, ofReal_one, div_one]
    rfl
  unfold p2toEnd
  cases apod with
  | none => exact h _
  | some m => exact h _

theorem p2toEndNoFpm_norm (S : Sys N N4 Neta Nxi Meta Mxi) (v : ℝ) (apod : Option (Pl N3)) (EP2 : Pl N) :
    p2toEndNoFpm (S.withNorm v) apod EP2 = fun e x => p2toEndNoFpm S.unnorm apod EP2 e x / Real.sqrt v := by
  have h : ∀ {M : ℕ} [NeZero M] (E : Pl M), p3toEndNoFpm (S.withNorm v) E = fun e x => p3toEndNoFpm S.unnorm E e x / Real.sqrt v := by
    intro M _ E
    unfold p3toEndNoFpm p4toEnd
    funext a b
    simp only [Sys.unnorm, Sys.withNorm, Real.sqrt_one, ofReal_one, div_one]
    rfl
  unfold p2toEndNoFpm
  cases apod with
  | none => exact h _
  | some m => exact h _

theorem einBase_norm (lambda0 wvl : ℝ) (X Y : ZMod n → ZMod n → ℝ) (E : Pl n) (v : ℝ) (hv : v ≠ 0) (c : Scene N N3 n) (star : ℝ × ℝ × ℝ) :
    einBase lambda0 wvl X Y E v (c.source star (some (c.xNorm, c.yNorm))) = einBase lambda0 wvl X Y E 0 (c.source star none) := by
  unfold einBase Scene.source
  simp [hv]

/-- no vortex: the FPM stays in when the factor is being computed -/
def NotVortex (name : CoroName) : Prop := name ≠ .vortex ∧ name ≠ .avc

theorem compact_norm (c : Scene N N3 n) (ch : Chan N N4 Neta Nxi Meta Mxi n) (hw : ch.sys.flagDMwfe = false) (hn : NotVortex c.name) (v : ℝ) (hv : v ≠ 0) (star : ℝ × ℝ × ℝ) :
    ∃ F, compact (ch.sys.withNorm 0) c.layout c.name c.apod c.lambda0 c.X c.Y ch.E (c.source star none) c.S1 c.S2 = .ok F ∧
      compact (ch.sys.withNorm v) c.layout c.name c.apod c.lambda0 c.X c.Y ch.E (c.source star (some (c.xNorm, c.yNorm))) c.S1 c.S2 = .ok fun e x => F e x / Real.sqrt v := by
  set S := ch.sys.withScale (c.layout.compactScale c.name ch.sys.wvl c.lambda0) with hS
  set Ein : Pl N := padF N (einBase c.lambda0 ch.sys.wvl c.X c.Y ch.E 0 (c.source star none)) with hE
  refine ⟨p2toEnd S.unnorm c.apod (p2f S Ein c.S1 c.S2), ?_, ?_⟩
  · unfold compact compactAny
    rw [if_pos (show ((ch.sys.withNorm 0).withScale (c.layout.compactScale c.name (ch.sys.withNorm 0).wvl c.lambda0)).normFac = 0 from rfl), if_neg (by rintro (h | h); exacts [hn.1 h, hn.2 h])]
    exact compactApod_eq S.unnorm hw _ _ _ _
  · unfold compact compactAny
    rw [if_neg (show ¬ ((ch.sys.withNorm v).withScale (c.layout.compactScale c.name (ch.sys.withNorm v).wvl c.lambda0)).normFac = 0 from hv)]
    have e : einComp c.lambda0 (ch.sys.withNorm v).wvl c.X c.Y ch.E (ch.sys.withNorm v).normFac (c.source star (some (c.xNorm, c.yNorm))) =
        einBase c.lambda0 ch.sys.wvl c.X c.Y ch.E 0 (c.source star none) := einBase_norm _ _ _ _ _ _ hv c star
    rw [e]
    have h := compactApod_eq (S.withNorm v) hw c.apod Ein c.S1 c.S2
    rw [p2toEnd_norm] at h
    exact h

theorem fullP3toEnd_norm {M : ℕ} [NeZero M] (S : Sys N N4 Neta Nxi Meta Mxi) (name : CoroName) (hn : NotVortex name) (v : ℝ) (hv : v ≠ 0) (EP3 : Pl M) :
    fullP3toEnd (S.withNorm v) name EP3 = (fullP3toEnd (S.withNorm 0) name EP3).map fun (F : Fin Meta → Fin Mxi → ℂ) e x => F e x / (Real.sqrt v : ℂ) := by
  unfold fullP3toEnd
  have e : fullP3to4 (S.withNorm v) name EP3 = fullP3to4 (S.withNorm 0) name EP3 := rfl
  rw [e]
  have hnn : ¬ (name = .vortex ∨ name = .avc) := by rintro (h | h); exacts [hn.1 h, hn.2 h]
  have h1 : (S.withNorm v).normFac = v := rfl
  have h0 : (S.withNorm 0).normFac = 0 := rfl
  cases fullP3to4 (S.withNorm 0) name EP3 with
  | error err => rfl
  | ok E4 =>
    simp only [bind, Except.bind, pure, Except.pure, Except.map, h1, h0, hv, hnn, if_false, and_false, if_true]
    rfl

theorem full_norm (c : Scene N N3 n) (ch : Chan N N4 Neta Nxi Meta Mxi n) (hn : NotVortex c.name) (v : ℝ) (hv : v ≠ 0) (star : ℝ × ℝ × ℝ) :
    full (ch.sys.withNorm v) c.layout c.name c.apod c.lambda0 c.X c.Y ch.E (c.source star (some (c.xNorm, c.yNorm))) c.S1 c.S2 =
      (full (ch.sys.withNorm 0) c.layout c.name c.apod c.lambda0 c.X c.Y ch.E (c.source star none) c.S1 c.S2).map fun (F : Fin Meta → Fin Mxi → ℂ) e x => F e x / (Real.sqrt v : ℂ) := by
  unfold full
  have e : einFull c.lambda0 (ch.sys.withNorm v).wvl c.X c.Y ch.E (ch.sys.withNorm v).normFac (c.source star (some (c.xNorm, c.yNorm))) =
      einFull c.lambda0 (ch.sys.withNorm 0).wvl c.X c.Y ch.E (ch.sys.withNorm 0).normFac (c.source star none) := einBase_norm _ _ _ _ _ _ hv c star
  rw [e]
  set Ein : Pl N := padF N (einFull c.lambda0 (ch.sys.withNorm 0).wvl c.X c.Y ch.E (ch.sys.withNorm 0).normFac (c.source star none))
  set S := ch.sys.withScale (c.layout.fullScale ch.sys.wvl c.lambda0) with hS
  have e1 : (ch.sys.withNorm v).withScale (c.layout.fullScale (ch.sys.withNorm v).wvl c.lambda0) = S.withNorm v := rfl
  have e0 : (ch.sys.withNorm 0).withScale (c.layout.fullScale (ch.sys.withNorm 0).wvl c.lambda0) = S.withNorm 0 := rfl
  rw [e1, e0]
  unfold fullFourier
  have h2 : fullToP2 (S.withNorm v) Ein c.S1 c.S2 = fullToP2 (S.withNorm 0) Ein c.S1 c.S2 := rfl
  rw [h2]
  cases fullToP2 (S.withNorm 0) Ein c.S1 c.S2 with
  | error err => rfl
  | ok E2 =>
    simp only [bind, Except.bind]
    cases c.apod with
    | none => exact fullP3toEnd_norm S c.name hn v hv _
    | some m => exact fullP3toEnd_norm S c.name hn v hv _

/-! ## C107: peak of the reference source -/

/-- The image has values at most 1, and reaches 1. -/
def PeakOne (F : Fin Meta → Fin Mxi → ℂ) : Prop := (∀ e x, ‖F e x‖ ^ 2 ≤ 1) ∧ ∃ e x, ‖F e x‖ ^ 2 = 1

theorem peakOne_div (F : Fin Meta → Fin Mxi → ℂ) (v : ℝ) (hp : peak F = .ok v) (hv : 0 < v) : PeakOne fun e x => F e x / Real.sqrt v := by
  unfold peak at hp
  split_ifs at hp with h
  push Not at h
  have hM : NeZero Meta := ⟨h.1⟩
  have hX : NeZero Mxi := ⟨h.2⟩
  simp only [Except.ok.injEq] at hp
  have hfin := Set.finite_range fun p : Fin Meta × Fin Mxi => ‖F p.1 p.2‖ ^ 2
  have key : ∀ e x, ‖F e x / (Real.sqrt v : ℂ)‖ ^ 2 = ‖F e x‖ ^ 2 / v := by
    intro e x
    rw [norm_div, norm_real, Real.norm_eq_abs, div_pow, sq_abs, Real.sq_sqrt hv.le]
  refine ⟨fun e x => ?_, ?_⟩
  · rw [key, div_le_one hv, ← hp]
    exact le_ciSup hfin.bddAbove (e, x)
  · have hne : (Set.range fun p : Fin Meta × Fin Mxi => ‖F p.1 p.2‖ ^ 2).Nonempty := Set.range_nonempty _
    obtain ⟨p, hp'⟩ := hne.csSup_mem hfin
    refine ⟨p.1, p.2, ?_⟩
    rw [key]
    dsimp only at hp'
    rw [hp', show sSup (Set.range fun p : Fin Meta × Fin Mxi => ‖F p.1 p.2‖ ^ 2) = v from hp, div_self hv.ne']

theorem mapM_get {α β : Type} (f : α → Except PyErr β) : ∀ (l : List α) (rs : List β), l.mapM f = .ok rs → rs.length = l.length ∧ ∀ (i : ℕ) (x : α), l[i]? = some x → ∃ y, rs[i]? = some y ∧ f x = .ok y
  | [], rs, h => by
    simp only [List.mapM_nil, pure, Except.pure, Except.ok.injEq] at h
    subst h
    simp
  | a :: l, rs, h => by
    rw [List.mapM_cons] at h
    cases ha : f a with
    | error e => simp [ha, bind, Except.bind] at h
    | ok y =>
      cases hl : l.mapM f with
      | error e => simp [ha, hl, bind, Except.bind] at h
      | ok ys =>
        simp only [ha, hl, bind, Except.bind, pure, Except.pure, Except.ok.injEq] at h
        subst h
        obtain ⟨h1, h2⟩ := mapM_get f l ys hl
        refine ⟨by simp [h1], fun i x hx => ?_⟩
        cases i with
        | zero => simp only [List.getElem?_cons_zero, Option.some.injEq] at hx; subst hx; exact ⟨y, by simp, ha⟩
        | succ i => simp only [List.getElem?_cons_succ] at hx ⊢; exact h2 i x hx

section
variable {N' N4' Neta' Nxi' Meta' Mxi' N3' n' Meta'' Mxi'' : ℕ} [NeZero N'] [NeZero N4'] [NeZero N3'] [NeZero n']

theorem calcNorm_ok (sim : Bool) (cc : Scene N N3 n) (bc : List (Chan N N4 Neta Nxi Meta Mxi n)) (be : List (Chan N N4 Neta Nxi Meta'' Mxi'' n))
    (cf : Scene N' N3' n') (bf : List (List (Chan N' N4' Neta' Nxi' Meta' Mxi' n'))) (out : Norms) (h : calcNorm sim cc bc be cf bf = .ok out) :
    bc.mapM (normCompact cc) = .ok out.compact ∧ be.mapM (normCompact cc) = .ok out.eval ∧
      (sim = true → bf.mapM (fun row => row.mapM (normFull cf)) = .ok out.full) ∧ (sim = false → out.full = bf.map fun row => row.map fun _ => 1) := by
  unfold calcNorm at h
  simp only [bind, Except.bind, pure, Except.pure] at h
  cases h1 : bc.mapM (normCompact cc) with
  | error e => simp [h1] at h
  | ok c =>
    cases h2 : be.mapM (normCompact cc) with
    | error e => simp [h1, h2] at h
    | ok e =>
      cases sim with
      | false => simp only [h1, h2, Bool.false_eq_true, if_false, Except.ok.injEq] at h; subst h; simp
      | true =>
        cases h3 : bf.mapM (fun row => row.mapM (normFull cf)) with
        | error e => simp [h1, h2, h3] at h
        | ok f => simp only [h1, h2, h3, if_true, Except.ok.injEq] at h; subst h; simp

theorem peak_compact (c : Scene N N3 n) (ch : Chan N N4 Neta Nxi Meta Mxi n) (hw : ch.sys.flagDMwfe = false) (hn : NotVortex c.name) (v : ℝ) (hv : 0 < v)
    (h : normCompact c ch = .ok v) : ∃ F, evalCompact c ch v 0 (some (c.xNorm, c.yNorm)) = .ok F ∧ PeakOne F := by
  unfold normCompact evalCompact at h
  unfold evalCompact
  cases hs : c.stars[0]? with
  | none => simp [hs, bind, Except.bind] at h
  | some star =>
    obtain ⟨F, h0, h1⟩ := compact_norm c ch hw hn v hv.ne' star
    simp only [hs, h0, bind, Except.bind] at h
    exact ⟨_, h1, peakOne_div F v h hv⟩

theorem peak_full (c : Scene N N3 n) (ch : Chan N N4 Neta Nxi Meta Mxi n) (hn : NotVortex c.name) (v : ℝ) (hv : 0 < v)
    (h : normFull c ch = .ok v) : ∃ F, evalFull c ch v 0 (some (c.xNorm, c.yNorm)) = .ok F ∧ PeakOne F := by
  unfold normFull evalFull at h
  unfold evalFull
  cases hs : c.stars[0]? with
  | none => simp [hs, bind, Except.bind] at h
  | some star =>
    have h1 := full_norm c ch hn v hv.ne' star
    simp only [hs, bind, Except.bind] at h
    dsimp only
    rw [h1]
    cases h0 : full (ch.sys.withNorm 0) c.layout c.name c.apod c.lambda0 c.X c.Y ch.E (c.source star none) c.S1 c.S2 with
    | error e => simp [h0] at h
    | ok F => simp only [h0] at h; exact ⟨_, rfl, peakOne_div F v h hv⟩

/-- **C107** Lyot-type coronagraphs: after `calc_psf_norm_factor`, the normalised image of the first star displaced to the reference position (`mp.source_x_offset_norm`, `…_y_…`), with the
DMs as they were, has peak exactly 1 - in the compact model, in its evaluation mode and (in simulation) in the full model, at every sub-band and wavelength at which any light arrives. -/
theorem C107_peak (sim : Bool) (cc : Scene N N3 n) (bc : List (Chan N N4 Neta Nxi Meta Mxi n)) (be : List (Chan N N4 Neta Nxi Meta'' Mxi'' n))
    (cf : Scene N' N3' n') (bf : List (List (Chan N' N4' Neta' Nxi' Meta' Mxi' n'))) (out : Norms) (h : calcNorm sim cc bc be cf bf = .ok out)
    (hn : NotVortex cc.name) (hnf : NotVortex cf.name) (hwc : ∀ ch ∈ bc, ch.sys.flagDMwfe = false) (hwe : ∀ ch ∈ be, ch.sys.flagDMwfe = false) :
    (∀ (si : ℕ) (ch : Chan N N4 Neta Nxi Meta Mxi n), bc[si]? = some ch → ∃ v, out.compact[si]? = some v ∧ (0 < v → ∃ F, evalCompact cc ch v 0 (some (cc.xNorm, cc.yNorm)) = .ok F ∧ PeakOne F)) ∧
    (∀ (si : ℕ) (ch : Chan N N4 Neta Nxi Meta'' Mxi'' n), be[si]? = some ch → ∃ v, out.eval[si]? = some v ∧ (0 < v → ∃ F, evalCompact cc ch v 0 (some (cc.xNorm, cc.yNorm)) = .ok F ∧ PeakOne F)) ∧
    (sim = true → ∀ (si wi : ℕ) (row : List (Chan N' N4' Neta' Nxi' Meta' Mxi' n')) (ch : Chan N' N4' Neta' Nxi' Meta' Mxi' n'), bf[si]? = some row → row[wi]? = some ch → ∃ (rowv : List ℝ) (v : ℝ), out.full[si]? = some rowv ∧ rowv[wi]? = some v ∧
      (0 < v → ∃ F, evalFull cf ch v 0 (some (cf.xNorm, cf.yNorm)) = .ok F ∧ PeakOne F)) := by
  obtain ⟨h1, h2, h3, -⟩ := calcNorm_ok sim cc bc be cf bf out h
  refine ⟨fun si ch hch => ?_, fun si ch hch => ?_, fun hsim si wi row ch hr hch => ?_⟩
  · obtain ⟨v, hv, hnc⟩ := (mapM_get _ _ _ h1).2 si ch hch
    exact ⟨v, hv, fun h0 => peak_compact cc ch (hwc ch (List.mem_of_getElem? hch)) hn v h0 hnc⟩
  · obtain ⟨v, hv, hnc⟩ := (mapM_get _ _ _ h2).2 si ch hch
    exact ⟨v, hv, fun h0 => peak_compact cc ch (hwe ch (List.mem_of_getElem? hch)) hn v h0 hnc⟩
  · obtain ⟨rowv, hrv, hrow⟩ := (mapM_get _ _ _ (h3 hsim)).2 si row hr
    obtain ⟨v, hv, hnc⟩ := (mapM_get _ _ _ hrow).2 wi ch hch
    exact ⟨rowv, v, hrv, hv, fun h0 => peak_full cf ch hnf v h0 hnc⟩

/-- **C107** Outside simulation the factors of the full model are all 1. -/
theorem C107_no_simulation (cc : Scene N N3 n) (bc : List (Chan N N4 Neta Nxi Meta Mxi n)) (be : List (Chan N N4 Neta Nxi Meta'' Mxi'' n))
    (cf : Scene N' N3' n') (bf : List (List (Chan N' N4' Neta' Nxi' Meta' Mxi' n'))) (out : Norms) (h : calcNorm false cc bc be cf bf = .ok out) :
    ∀ row ∈ out.full, ∀ v ∈ row, v = 1 := by
  rw [(calcNorm_ok false cc bc be cf bf out h).2.2.2 rfl]
  intro row hr v hv
  simp only [List.mem_map] at hr
  obtain ⟨r, -, rfl⟩ := hr
  simp only [List.mem_map] at hv
  obtain ⟨-, -, rfl⟩ := hv
  rfl
end

/-- **C107** Vortex coronagraphs: it is the image *without the focal-plane mask* (`useFPM = False`) of the first star at the reference position that has peak 1. -/
theorem C107_vortex (c : Scene N N3 n) (ch : Chan N N4 Neta Nxi Meta Mxi n) (hw : ch.sys.flagDMwfe = false) (hn : c.name = .vortex ∨ c.name = .avc) (v : ℝ) (hv : 0 < v)
    (star : ℝ × ℝ × ℝ) (hs : c.stars[0]? = some star) (h : normCompact c ch = .ok v) :
    ∃ F, compactUnocc (ch.sys.withNorm v) c.apod c.lambda0 c.X c.Y ch.E (c.source star (some (c.xNorm, c.yNorm))) c.S1 c.S2 = .ok F ∧ PeakOne F := by
  set S := ch.sys.withScale (c.layout.compactScale c.name ch.sys.wvl c.lambda0) with hS
  set Ein : Pl N := padF N (einBase c.lambda0 ch.sys.wvl c.X c.Y ch.E 0 (c.source star none)) with hE
  have h0 : compact (ch.sys.withNorm 0) c.layout c.name c.apod c.lambda0 c.X c.Y ch.E (c.source star none) c.S1 c.S2 = .ok (p2toEndNoFpm S.unnorm c.apod (p2f S Ein c.S1 c.S2)) := by
    unfold compact compactAny
    rw [if_pos (show ((ch.sys.withNorm 0).withScale (c.layout.compactScale c.name (ch.sys.withNorm 0).wvl c.lambda0)).normFac = 0 from rfl), if_pos hn]
    exact compactNoFpm_eq S.unnorm hw _ _ _ _
  unfold normCompact evalCompact at h
  simp only [hs, h0, bind, Except.bind] at h
  refine ⟨_, ?_, peakOne_div _ v h hv⟩
  unfold compactUnocc
  have e : einComp c.lambda0 (ch.sys.withNorm v).wvl c.X c.Y ch.E (ch.sys.withNorm v).normFac (c.source star (some (c.xNorm, c.yNorm))) =
      einBase c.lambda0 ch.sys.wvl c.X c.Y ch.E 0 (c.source star none) := einBase_norm _ _ _ _ _ _ hv.ne' c star
  rw [e, compactNoFpm_eq (ch.sys.withNorm v) hw, p2toEndNoFpm_norm]
  have e2 : ∀ (E : Pl N), p2toEndNoFpm ch.sys.unnorm c.apod E = p2toEndNoFpm S.unnorm c.apod E := by intro E; rfl
  rw [e2]
  rfl

/-! ## C107: the brightness of the source does not matter -/

theorem einBase_smul (lambda0 wvl : ℝ) (X Y : ZMod n → ZMod n → ℝ) (a : ℂ) (E : Pl n) (v : ℝ) (s : Source n) :
    einBase lambda0 wvl X Y (a • E) v s = a • einBase lambda0 wvl X Y E v s := by
  unfold einBase
  funext i j
  simp only [Pi.smul_apply, smul_eq_mul]
  cases s.offaxis with
  | none => by_cases h : v = 0 <;> simp only [h, if_true, if_false, Pi.smul_apply, smul_eq_mul] <;> ring
  | some p => obtain ⟨x, y⟩ := p; by_cases h : v = 0 <;> simp only [h, if_true, if_false, Pi.smul_apply, smul_eq_mul] <;> ring

theorem einBase_ne (lambda0 wvl : ℝ) (X Y : ZMod n → ZMod n → ℝ) (E : Pl n) (v v' : ℝ) (hv : v ≠ 0) (hv' : v' ≠ 0) (s : Source n) :
    einBase lambda0 wvl X Y E v s = einBase lambda0 wvl X Y E v' s := by
  unfold einBase; simp [hv, hv']

/-- A model as a function of the normalisation factor and the input field: either it always raises, or it is linear in the field, and normalising divides. -/
def LinModel (M : ℝ → Pl N → Except PyErr (Fin Meta → Fin Mxi → ℂ)) : Prop :=
  (∃ err, ∀ v E, M v E = .error err) ∨ ∃ L L0 : Pl N → Fin Meta → Fin Mxi → ℂ, IsLinearMap ℂ L ∧ IsLinearMap ℂ L0 ∧
    (∀ E, M 0 E = .ok (L0 E)) ∧ ∀ v E, v ≠ 0 → M v E = .ok fun e x => L E e x / Real.sqrt v

theorem linModel_compact (c : Scene N N3 n) (S : Sys N N4 Neta Nxi Meta Mxi) :
    LinModel fun v Ein => compactAny ((S.withNorm v).withScale (c.layout.compactScale c.name S.wvl c.lambda0)) c.name c.apod Ein c.S1 c.S2 := by
  set T := S.withScale (c.layout.compactScale c.name S.wvl c.lambda0) with hT
  by_cases hw : S.flagDMwfe = false
  · right
    obtain ⟨L0, hL0, h0⟩ := compactAny_lin (T.withNorm 0) hw c.name c.apod c.S1 c.S2
    refine ⟨fun Ein => p2toEnd T.unnorm c.apod (p2f T Ein c.S1 c.S2), L0, IsLinearMap.comp' (lin_p2toEnd T.unnorm c.apod) (lin_p2f T c.S1 c.S2), hL0, h0, fun v E hv => ?_⟩
    dsimp only
    unfold compactAny
    rw [if_neg (show ¬ ((S.withNorm v).withScale (c.layout.compactScale c.name S.wvl c.lambda0)).normFac = 0 from hv)]
    have h := compactApod_eq (T.withNorm v) hw c.apod E c.S1 c.S2
    rw [p2toEnd_norm] at h
    exact h
  · left
    have hw' : S.flagDMwfe = true := by simpa using hw
    refine ⟨.typeError, fun v E => ?_⟩
    have hx : ∀ U : Sys N N4 Neta Nxi Meta Mxi, U.flagDMwfe = true → toP2 U E c.S1 c.S2 = .error .typeError := by
      intro U hU
      unfold toP2
      simp only [hU, if_true, bind, Except.bind, throw, throwThe, MonadExceptOf.throw]
    dsimp only
    unfold compactAny compactNoFpm compactApod
    rw [hx _ (show ((S.withNorm v).withScale (c.layout.compactScale c.name S.wvl c.lambda0)).flagDMwfe = true from hw'),
      hx _ (show ((S.withNorm v).withScale (c.layout.compactScale c.name S.wvl c.lambda0)).unnorm.flagDMwfe = true from hw')]
    simp only [bind, Except.bind]
    split_ifs <;> rfl

theorem fullP3to4_lin {M : ℕ} [NeZero M] (S : Sys N N4 Neta Nxi Meta Mxi) (name : CoroName) :
    (∃ err, ∀ E : Pl M, fullP3to4 S name E = .error err) ∨ ∃ L : Pl M → Pl N4, IsLinearMap ℂ L ∧ ∀ E, fullP3to4 S name E = .ok (L E) := by
  unfold fullP3to4
  cases S.coro with
  | babinet mask t =>
    have hinc := IsLinearMap.comp' (lin_mftP2f S.fl S.wvl S.dx (S.fpmScale * S.dxiF3) Nxi (S.fpmScale * S.detaF3) Neta S.centering) (lin_toFin (N := M))
    cases name with
    | lc =>
      right
      have h1 : IsLinearMap ℂ (fun E : Pl M => padF N4 (relay E (S.rel S.n34) S.centering)) := IsLinearMap.comp' (lin_padF N4) (lin_relay _ _)
      have h2 := IsLinearMap.comp' (lin_relay (N := N4) (S.rel S.n34 - 1) S.centering) (IsLinearMap.comp' lin_ofFin
        (IsLinearMap.comp' (lin_mftF2p S.fl S.wvl (S.fpmScale * S.dxiF3) S.detaF3 (S.fpmScale * S.dx4) N4 S.centering)
          (IsLinearMap.comp' (lin_mul fun e x => 1 - mask e x) hinc)))
      exact ⟨_, IsLinearMap.sub' h1 h2, fun E => rfl⟩
    | hlc =>
      right
      have h1 : IsLinearMap ℂ (fun E : Pl M => fun i j => t * padF N4 (relay E (S.rel S.n34) S.centering) i j) :=
        IsLinearMap.comp' (lin_mul (fun _ _ => t)) (IsLinearMap.comp' (lin_padF N4) (lin_relay _ _))
      have h2 := IsLinearMap.comp' (lin_relay (N := N4) (S.rel S.n34 - 1) S.centering) (IsLinearMap.comp' lin_ofFin
        (IsLinearMap.comp' (lin_mftF2p S.fl S.wvl (S.fpmScale * S.dxiF3) (S.fpmScale * S.detaF3) S.dx4 N4 S.centering)
          (IsLinearMap.comp' (lin_mul fun e x => t - mask e x) hinc)))
      exact ⟨_, IsLinearMap.sub' h1 h2, fun E => rfl⟩
    | splc => left; exact ⟨.valueError, fun E => rfl⟩
    | vortex => left; exact ⟨.valueError, fun E => rfl⟩
    | avc => left; exact ⟨.valueError, fun E => rfl⟩
  | flc mask =>
    right
    exact ⟨_, IsLinearMap.comp' (lin_relay (N := N4) (S.rel S.n34 - 1) S.centering) (IsLinearMap.comp' lin_ofFin
      (IsLinearMap.comp' (lin_mftF2p S.fl S.wvl (S.fpmScale * S.dxiF3) (S.fpmScale * S.detaF3) S.dx4 N4 S.centering)
        (IsLinearMap.comp' (lin_mul fun e x => mask e x) (IsLinearMap.comp'
          (lin_mftP2f S.fl S.wvl S.dx (S.fpmScale * S.dxiF3) Nxi (S.fpmScale * S.detaF3) Neta S.centering) (lin_toFin (N := M)))))), fun E => rfl⟩
  | vortex D NB vm tk =>
    by_cases hn : name = .avc
    · left; exact ⟨.valueError, fun E => by simp [hn]⟩
    · right
      have a : IsLinearMap ℂ (fun E : Pl M => (mftP2v2pOf false D 4 5 NB vm tk (toFin E) : Matrix (Fin M) (Fin M) ℂ)) :=
        IsLinearMap.comp' (B := Matrix (Fin M) (Fin M) ℂ) (C := Matrix (Fin M) (Fin M) ℂ) (lin_vortex false D 4 5 NB vm tk) lin_toFinM
      have b : IsLinearMap ℂ (fun E : Pl M => ofFin (mftP2v2pOf false D 4 5 NB vm tk (toFin E))) :=
        IsLinearMap.comp' (B := Matrix (Fin M) (Fin M) ℂ) lin_ofFinM a
      exact ⟨_, IsLinearMap.comp' (lin_relay (S.rel S.n34 - 1) S.centering) (IsLinearMap.comp' (lin_padF N4) b), fun E => by simp only [hn, if_false]⟩

theorem fullP3toEnd_lin {M : ℕ} [NeZero M] (S : Sys N N4 Neta Nxi Meta Mxi) (name : CoroName) :
    (∃ err, ∀ v (E : Pl M), fullP3toEnd (S.withNorm v) name E = .error err) ∨ ∃ L L0 : Pl M → Fin Meta → Fin Mxi → ℂ, IsLinearMap ℂ L ∧ IsLinearMap ℂ L0 ∧
      (∀ E, fullP3toEnd (S.withNorm 0) name E = .ok (L0 E)) ∧ ∀ v E, v ≠ 0 → fullP3toEnd (S.withNorm v) name E = .ok fun e x => L E e x / Real.sqrt v := by
  rcases fullP3to4_lin (M := M) S name with ⟨err, h⟩ | ⟨L, hL, h⟩
  · left
    refine ⟨err, fun v E => ?_⟩
    unfold fullP3toEnd
    rw [show fullP3to4 (S.withNorm v) name E = fullP3to4 S name E from rfl, h E]
    rfl
  · right
    have hend := IsLinearMap.comp' (lin_mftP2f (N := N4) S.fl S.wvl S.dx4 S.dxi Mxi S.deta Meta S.centering)
      (IsLinearMap.comp' lin_toFin (IsLinearMap.comp' (lin_relay (N := N4) (S.rel S.nEnd) S.centering) (lin_mul S.lyot)))
    have hno : IsLinearMap ℂ (fun E : Pl M => padF N4 (relay E (S.rel S.n34) S.centering)) := IsLinearMap.comp' (lin_padF N4) (lin_relay _ _)
    have hmul : ∀ E : Pl N4, (fun i j => E i j * S.lyot i j : Pl N4) = fun i j => S.lyot i j * E i j := fun E => by funext i j; ring
    have h0 : (S.withNorm 0).normFac = 0 := rfl
    by_cases hn : name = .vortex ∨ name = .avc
    · refine ⟨_, _, IsLinearMap.comp' hend hL, IsLinearMap.comp' hend hno, fun E => ?_, fun v E hv => ?_⟩
      · unfold fullP3toEnd
        rw [show fullP3to4 (S.withNorm 0) name E = fullP3to4 S name E from rfl, h E]
        simp only [bind, Except.bind, pure, Except.pure, h0, hn, and_self, if_true]
        rw [← hmul]
        rfl
      · unfold fullP3toEnd
        rw [show fullP3to4 (S.withNorm v) name E = fullP3to4 S name E from rfl, h E]
        have h1 : (S.withNorm v).normFac = v := rfl
        simp only [bind, Except.bind, pure, Except.pure, h1, hv, false_and, if_false]
        rw [← hmul]
        rfl
    · refine ⟨_, _, IsLinearMap.comp' hend hL, IsLinearMap.comp' hend hL, fun E => ?_, fun v E hv => ?_⟩
      · unfold fullP3toEnd
        rw [show fullP3to4 (S.withNorm 0) name E = fullP3to4 S name E from rfl, h E]
        simp only [bind, Except.bind, pure, Except.pure, h0, hn, and_false, if_false, if_true]
        rw [← hmul]
        rfl
      · unfold fullP3toEnd
        rw [show fullP3to4 (S.withNorm v) name E = fullP3to4 S name E from rfl, h E]
        have h1 : (S.withNorm v).normFac = v := rfl
        simp only [bind, Except.bind, pure, Except.pure, h1, hv, false_and, if_false]
        rw [← hmul]
        rfl

theorem linModel_full (c : Scene N N3 n) (S : Sys N N4 Neta Nxi Meta Mxi) :
    LinModel fun v Ein => fullFourier ((S.withNorm v).withScale (c.layout.fullScale S.wvl c.lambda0)) c.name c.apod Ein c.S1 c.S2 := by
  set T := S.withScale (c.layout.fullScale S.wvl c.lambda0) with hT
  by_cases hw : S.flagDMwfe = false
  · have h2 : ∀ v E, fullToP2 ((S.withNorm v).withScale (c.layout.fullScale S.wvl c.lambda0)) E c.S1 c.S2 = .ok (p2f T E c.S1 c.S2) := by
      intro v E
      have := fullToP2_eq (T.withNorm v) hw E c.S1 c.S2
      rw [toP2_eq (T.withNorm v) hw] at this
      exact this
    have hlin : IsLinearMap ℂ (fun E : Pl N => relay (p2f T E c.S1 c.S2) (T.rel T.n23) T.centering) := IsLinearMap.comp' (lin_relay _ _) (lin_p2f T c.S1 c.S2)
    cases ha : c.apod with
    | none =>
      rcases fullP3toEnd_lin (M := N) T c.name with ⟨err, h⟩ | ⟨L, L0, hL, hL0, h0, h1⟩
      · left
        refine ⟨err, fun v E => ?_⟩
        dsimp only
        unfold fullFourier
        rw [h2]
        exact h v _
      · right
        refine ⟨_, _, IsLinearMap.comp' hL hlin, IsLinearMap.comp' hL0 hlin, fun E => ?_, fun v E hv => ?_⟩
        · dsimp only
          unfold fullFourier
          rw [h2]
          exact h0 _
        · dsimp only
          unfold fullFourier
          rw [h2]
          exact h1 v _ hv
    | some m =>
      have hlin' := IsLinearMap.comp' (lin_mul m) (IsLinearMap.comp' (lin_padF N3) hlin)
      rcases fullP3toEnd_lin (M := N3) T c.name with ⟨err, h⟩ | ⟨L, L0, hL, hL0, h0, h1⟩
      · left
        refine ⟨err, fun v E => ?_⟩
        dsimp only
        unfold fullFourier
        rw [h2]
        exact h v _
      · right
        refine ⟨_, _, IsLinearMap.comp' hL hlin', IsLinearMap.comp' hL0 hlin', fun E => ?_, fun v E hv => ?_⟩
        · dsimp only
          unfold fullFourier
          rw [h2]
          exact h0 _
        · dsimp only
          unfold fullFourier
          rw [h2]
          exact h1 v _ hv
  · left
    have hw' : S.flagDMwfe = true := by simpa using hw
    refine ⟨.unboundLocal, fun v E => ?_⟩
    have h3 : ((S.withNorm v).withScale (c.layout.fullScale S.wvl c.lambda0)).flagDMwfe = true := hw'
    dsimp only
    unfold fullFourier fullToP2
    simp only [h3, if_true, bind, Except.bind, ptp_eq_core, throw, throwThe, MonadExceptOf.throw]

theorem peak_smul (a : ℂ) (F : Fin Meta → Fin Mxi → ℂ) (v : ℝ) (h : peak F = .ok v) : peak (a • F) = .ok (‖a‖ ^ 2 * v) := by
  unfold peak at h ⊢
  split_ifs at h ⊢ with hz
  simp only [Except.ok.injEq] at h ⊢
  rw [← h, Real.mul_iSup_of_nonneg (by positivity)]
  simp only [Pi.smul_apply, smul_eq_mul, norm_mul, mul_pow]

theorem brightness_aux (M : ℝ → Pl N → Except PyErr (Fin Meta → Fin Mxi → ℂ)) (hM : LinModel M) (a : ℂ) (ha : a ≠ 0) (E0 : Pl N) (E1 : Pl N) (v v' : ℝ) (hv : 0 < v)
    (h : (M 0 E0 >>= peak) = .ok v) (h' : (M 0 (a • E0) >>= peak) = .ok v') :
    v' = ‖a‖ ^ 2 * v ∧ ∃ F F', M v E1 = .ok F ∧ M v' (a • E1) = .ok F' ∧ ∀ e x, ‖F' e x‖ ^ 2 = ‖F e x‖ ^ 2 := by
  rcases hM with ⟨err, he⟩ | ⟨L, L0, hL, hL0, hM0, hMv⟩
  · rw [he] at h; simp [bind, Except.bind] at h
  · rw [hM0] at h h'
    simp only [bind, Except.bind] at h h'
    rw [hL0.map_smul, peak_smul a _ v h] at h'
    have hvv : v' = ‖a‖ ^ 2 * v := by simpa using h'.symm
    have hna : 0 < ‖a‖ := norm_pos_iff.2 ha
    have hv' : 0 < v' := by rw [hvv]; positivity
    refine ⟨hvv, _, _, hMv v E1 hv.ne', hMv v' _ hv'.ne', fun e x => ?_⟩
    rw [hL.map_smul]
    simp only [Pi.smul_apply, smul_eq_mul, norm_div, norm_mul, norm_real, Real.norm_eq_abs, div_pow, mul_pow, sq_abs]
    rw [Real.sq_sqrt hv.le, Real.sq_sqrt hv'.le, hvv]
    field_simp

/-- The same wavelength with the light source `‖a‖²` times as bright. -/
def Chan.scaled (ch : Chan N N4 Neta Nxi Meta Mxi n) (a : ℂ) : Chan N N4 Neta Nxi Meta Mxi n := { ch with E := a • ch.E }

/-- **C107** Compact model (both samplings), every coronagraph: if the input field is multiplied by `a ≠ 0`, the factor is multiplied by `‖a‖²` and no normalised image of any star or companion
changes. -/
theorem C107_brightness (c : Scene N N3 n) (ch : Chan N N4 Neta Nxi Meta Mxi n) (a : ℂ) (ha : a ≠ 0) (v v' : ℝ) (hv : 0 < v) (h : normCompact c ch = .ok v)
    (h' : normCompact c (ch.scaled a) = .ok v') (iStar : ℕ) (hi : iStar < c.stars.length) (off : Option (ℝ × ℝ)) :
    v' = ‖a‖ ^ 2 * v ∧ ∃ F F', evalCompact c ch v iStar off = .ok F ∧ evalCompact c (ch.scaled a) v' iStar off = .ok F' ∧ ∀ e x, ‖F' e x‖ ^ 2 = ‖F e x‖ ^ 2 := by
  unfold normCompact evalCompact at h h'
  unfold evalCompact
  have hs : c.stars[iStar]? = some c.stars[iStar] := List.getElem?_eq_getElem hi
  cases h0 : c.stars[0]? with
  | none => simp [h0, bind, Except.bind] at h
  | some star =>
    simp only [h0] at h h'
    rw [hs]
    dsimp only
    have key := brightness_aux _ (linModel_compact c ch.sys) a ha (padF N (einBase c.lambda0 ch.sys.wvl c.X c.Y ch.E 0 (c.source star none)))
      (padF N (einBase c.lambda0 ch.sys.wvl c.X c.Y ch.E 1 (c.source c.stars[iStar] off))) v v' hv h
      (by rw [← (lin_padF N).map_smul, ← einBase_smul]; exact h')
    obtain ⟨hvv, F, F', e1, e2, e3⟩ := key
    have hv' : v' ≠ 0 := by rw [hvv]; have := norm_pos_iff.2 ha; positivity
    refine ⟨hvv, F, F', ?_, ?_, e3⟩
    · rw [einBase_ne _ _ _ _ _ 1 v one_ne_zero hv.ne'] at e1; exact e1
    · rw [← (lin_padF N).map_smul, ← einBase_smul, einBase_ne _ _ _ _ _ 1 v' one_ne_zero hv'] at e2; exact e2

/-- **C107** The same for the full model. -/
theorem C107_brightness_full (c : Scene N N3 n) (ch : Chan N N4 Neta Nxi Meta Mxi n) (a : ℂ) (ha : a ≠ 0) (v v' : ℝ) (hv : 0 < v) (h : normFull c ch = .ok v)
    (h' : normFull c (ch.scaled a) = .ok v') (iStar : ℕ) (hi : iStar < c.stars.length) (off : Option (ℝ × ℝ)) :
    v' = ‖a‖ ^ 2 * v ∧ ∃ F F', evalFull c ch v iStar off = .ok F ∧ evalFull c (ch.scaled a) v' iStar off = .ok F' ∧ ∀ e x, ‖F' e x‖ ^ 2 = ‖F e x‖ ^ 2 := by
  unfold normFull evalFull at h h'
  unfold evalFull
  have hs : c.stars[iStar]? = some c.stars[iStar] := List.getElem?_eq_getElem hi
  cases h0 : c.stars[0]? with
  | none => simp [h0, bind, Except.bind] at h
  | some star =>
    simp only [h0] at h h'
    rw [hs]
    dsimp only
    have key := brightness_aux _ (linModel_full c ch.sys) a ha (padF N (einBase c.lambda0 ch.sys.wvl c.X c.Y ch.E 0 (c.source star none)))
      (padF N (einBase c.lambda0 ch.sys.wvl c.X c.Y ch.E 1 (c.source c.stars[iStar] off))) v v' hv h
      (by rw [← (lin_padF N).map_smul, ← einBase_smul]; exact h')
    obtain ⟨hvv, F, F', e1, e2, e3⟩ := key
    have hv' : v' ≠ 0 := by rw [hvv]; have := norm_pos_iff.2 ha; positivity
    refine ⟨hvv, F, F', ?_, ?_, e3⟩
    · rw [einBase_ne _ _ _ _ _ 1 v one_ne_zero hv.ne'] at e1; exact e1
    · rw [← (lin_padF N).map_smul, ← einBase_smul, einBase_ne _ _ _ _ _ 1 v' one_ne_zero hv'] at e2; exact e2

/-- **C107** violated when no light of the first star arrives (say its weight is 0): the factor is 0, which the models take for "not normalised".  A normalised call for any star raises nothing and
returns the image, divided by nothing, of that star displaced to the reference position. -/
theorem C107_dark_violated (c : Scene N N3 n) (ch : Chan N N4 Neta Nxi Meta Mxi n) (hw : ch.sys.flagDMwfe = false) (hn : NotVortex c.name) (xi eta : ℝ)
    (h0 : c.stars[0]? = some (xi, eta, 0)) (v : ℝ) (h : normCompact c ch = .ok v) (iStar : ℕ) (hi : iStar < c.stars.length) :
    v = 0 ∧ evalCompact c ch v iStar none = evalCompact c ch 1 iStar (some (c.xNorm, c.yNorm)) := by
  have hs : c.stars[iStar]? = some c.stars[iStar] := List.getElem?_eq_getElem hi
  have hv : v = 0 := by
    unfold normCompact evalCompact at h
    simp only [h0] at h
    obtain ⟨F, hF, -⟩ := compact_norm c ch hw hn 1 one_ne_zero (xi, eta, 0)
    have hlin := linModel_compact c ch.sys
    have hz : einBase c.lambda0 ch.sys.wvl c.X c.Y ch.E 0 (c.source (xi, eta, 0) none) = 0 := by
      funext i j
      simp [einBase, Scene.source]
    rcases hlin with ⟨err, he⟩ | ⟨L, L0, hL, hL0, hM0, -⟩
    · have := he 0 (padF N (einBase c.lambda0 ch.sys.wvl c.X c.Y ch.E 0 (c.source (xi, eta, 0) none)))
      have h2 : compact (ch.sys.withNorm 0) c.layout c.name c.apod c.lambda0 c.X c.Y ch.E (c.source (xi, eta, 0) none) c.S1 c.S2 = .error err := this
      rw [hF] at h2; cases h2
    · have := hM0 (padF N (einBase c.lambda0 ch.sys.wvl c.X c.Y ch.E 0 (c.source (xi, eta, 0) none)))
      have h2 : compact (ch.sys.withNorm 0) c.layout c.name c.apod c.lambda0 c.X c.Y ch.E (c.source (xi, eta, 0) none) c.S1 c.S2 =
        .ok (L0 (padF N (einBase c.lambda0 ch.sys.wvl c.X c.Y ch.E 0 (c.source (xi, eta, 0) none)))) := this
      rw [h2, hz, (lin_padF N).map_zero, hL0.map_zero] at h
      simp only [bind, Except.bind] at h
      unfold peak at h
      split_ifs at h
      simp only [Except.ok.injEq] at h
      rw [← h]
      simp
  refine ⟨hv, ?_⟩
  subst hv
  unfold evalCompact
  rw [hs]
  dsimp only
  obtain ⟨F, h1, h2⟩ := compact_norm c ch hw hn 1 one_ne_zero c.stars[iStar]
  rw [h1, h2]
  simp

/-! ## a concrete case: one pixel, a shaped pupil with a transparent mask, reference source at (7, 0) -/

def oneScene : Scene 1 1 1 := ⟨.fourier, .splc, none, 1, fun _ _ => 0, fun _ _ => 0, fun _ _ => 0, fun _ _ => 0, [(0, 0, 1)], 7, 0⟩
noncomputable def oneChan : Chan 1 1 1 1 1 1 1 := ⟨oneSys (.flc fun _ _ => 1), fun _ _ => 1⟩

theorem oneScene_eval : compact (oneChan.sys.withNorm 0) oneScene.layout oneScene.name oneScene.apod oneScene.lambda0 oneScene.X oneScene.Y oneChan.E (oneScene.source (0, 0, 1) none) oneScene.S1 oneScene.S2 =
    .ok fun _ _ => 1 / 8 := by
  unfold compact compactAny
  rw [if_pos (by rfl), if_neg (by simp [oneScene])]
  rw [compactApod_eq (((oneChan.sys.withNorm 0).withScale (oneScene.layout.compactScale oneScene.name (oneChan.sys.withNorm 0).wvl oneScene.lambda0)).unnorm) rfl]
  have h1 : einComp oneScene.lambda0 (oneChan.sys.withNorm 0).wvl oneScene.X oneScene.Y oneChan.E (oneChan.sys.withNorm 0).normFac (oneScene.source (0, 0, 1) none) = fun _ _ => 1 := by
    unfold einComp einBase tilt
    funext i j
    simp [oneScene, Scene.source, oneChan, Sys.withNorm]
  rw [h1, padF_self]
  have h2 : p2f (((oneChan.sys.withNorm 0).withScale (oneScene.layout.compactScale oneScene.name (oneChan.sys.withNorm 0).wvl oneScene.lambda0)).unnorm) (fun _ _ => 1) oneScene.S1 oneScene.S2 =
      fun _ _ => 1 := oneSys_p2 (.flc fun _ _ => 1) _
  rw [h2]
  congr 1
  unfold p2toEnd p4toEnd p3to4
  simp only [oneScene, oneChan, Sys.unnorm, Sys.withNorm, Sys.withScale, oneSys, relay_one, mft_one, mftF_one, toFin, ofFin, Layout.compactScale]
  norm_num

theorem oneScene_norm : normCompact oneScene oneChan = .ok (1 / 64) := by
  unfold normCompact evalCompact
  simp only [oneScene, List.getElem?_cons_zero]
  have h := oneScene_eval
  simp only [oneScene] at h
  rw [h]
  simp only [bind, Except.bind, peak]
  norm_num

/-- The hypotheses of `C107_peak` and `C107_brightness` are met, with a positive factor. -/
example : calcNorm true oneScene [oneChan] [oneChan] oneScene [[oneChan]] = .ok ⟨[1 / 64], [1 / 64], [[1 / 64]]⟩ ∧ NotVortex oneScene.name ∧ oneChan.sys.flagDMwfe = false := by
  have hf : normFull oneScene oneChan = .ok (1 / 64) := by
    have h := oneScene_norm
    unfold normCompact evalCompact at h
    unfold normFull evalFull
    simp only [oneScene, List.getElem?_cons_zero] at h ⊢
    rw [C88_same_field _ rfl _ _ (Or.inl rfl) (show CoroName.splc.Fits (oneChan.sys.withNorm 0).coro from rfl) (by decide) _ (by
      intro D NB vm tk hc; simp [Sys.withNorm, oneChan, oneSys] at hc) _ _ _ _ _ rfl]
    exact h
  refine ⟨?_, ⟨by decide, by decide⟩, rfl⟩
  unfold calcNorm
  simp [oneScene_norm, hf, bind, Except.bind, pure, Except.pure]

end Verif.Compact


namespace Verif.Imaging
open Verif Verif.Setup

variable {P V : Type}

theorem normProg_writesFirst (c : NormCfg P V) (si wi : ℕ) : WritesFirst (fun _ => False) (normProg c si wi) := by
  unfold normProg
  cases c.layout <;> cases c.hlc <;> cases c.hasCube <;> simp [WritesFirst]

/-- Calls cannot disturb each other: not an HLC, or a layout whose model does not use the shared mask, or one mask for all wavelengths. -/
def NormRaceFree (c : NormCfg P V) : Prop := c.hlc = false ∨ c.layout = .proper ∨ c.layout = .phase ∨ ∃ M, ∀ si wi, c.maskOf si wi = M

theorem normProg_consistent (c : NormCfg P V) (h : NormRaceFree c) (m : Unit → V) : ∃ (Rel : Unit → Prop) (val : Unit → V),
    ∀ si wi, Consistent Rel val (fun _ => False) (normProg c si wi) := by
  rcases h with h | h | h | ⟨M, h⟩
  · refine ⟨fun _ => False, m, fun si wi => ?_⟩
    unfold normProg; rw [h]; cases c.layout <;> simp [Consistent]
  · refine ⟨fun _ => False, m, fun si wi => ?_⟩
    unfold normProg; rw [h]; cases c.hlc <;> simp [Consistent]
  · refine ⟨fun _ => False, m, fun si wi => ?_⟩
    unfold normProg; rw [h]; cases c.hlc <;> simp [Consistent]
  · refine ⟨fun _ => True, fun _ => M, fun si wi => ?_⟩
    unfold normProg; rw [h]; cases c.layout <;> cases c.hlc <;> cases c.hasCube <;> simp [Consistent]

theorem normParallel_of_reads (c : NormCfg P V) (k : ℕ) (m m0 : Unit → V) (sched : List (Fin k)) (vs : List ℝ) (h : normParallel c k m sched = some vs)
    (hr : ∀ t rs, t < (normInds c).length → (Pool.run ((normInds c).map fun q => normProg c q.1 q.2) (Pool.init m k) sched).results t = some rs →
      rs = (runAlone m0 (((normInds c).map fun q => normProg c q.1 q.2).getD t [])).1) :
    vs = (normInds c).map fun q => normSerial c m0 q.1 q.2 := by
  unfold normParallel at h
  simp only [Option.map_eq_some_iff] at h
  obtain ⟨rs, h1, rfl⟩ := h
  have := mapM_some _ (fun t => (runAlone m0 (((normInds c).map fun q => normProg c q.1 q.2).getD t [])).1) _ _ h1 (by intro t ht y hy; exact hr t y (by simpa using ht) hy)
  rw [this]
  refine List.ext_getElem (by simp) ?_
  intro i h1 h2
  have hi : i < (normInds c).length := by simpa using h2
  simp [hi, normSerial]

theorem normTable_map (inds : List (ℕ × ℕ)) (f : ℕ × ℕ → ℝ) (I : ℕ → ℕ → ℝ) (si wi : ℕ) (h : (si, wi) ∈ inds ∨ I si wi = f (si, wi)) :
    ((inds.zip (inds.map f)).foldl (fun I p => Function.update I p.1.1 (Function.update (I p.1.1) p.1.2 p.2)) I) si wi = f (si, wi) := by
  induction inds generalizing I with
  | nil => simpa using h
  | cons q l ih =>
    simp only [List.map_cons, List.zip_cons_cons, List.foldl_cons]
    refine ih _ ?_
    by_cases hq : q = (si, wi)
    · right; subst hq; simp
    · rcases h with h | h
      · rcases List.mem_cons.1 h with h | h
        · exact absurd h.symm hq
        · exact .inl h
      · right
        by_cases h1 : si = q.1
        · subst h1
          have h2 : wi ≠ q.2 := fun h2 => hq (by rw [h2])
          simp [Function.update_of_ne h2, h]
        · simp [Function.update_of_ne h1, h]

theorem normTable_of (c : NormCfg P V) (vs : List ℝ) (m0 : Unit → V) (h : vs = (normInds c).map fun q => normSerial c m0 q.1 q.2) (si wi : ℕ) (h1 : si < c.nSbp) (h2 : wi < c.nWpsbp) :
    normTable c vs si wi = normSerial c m0 si wi := by
  subst h
  exact normTable_map _ (fun q => normSerial c m0 q.1 q.2) _ si wi (.inl (by simp [normInds, h1, h2]))

/-- **C107** The factors of the full model do not depend on whether, with how many threads and in which interleaving they are computed in parallel, provided the calls cannot disturb each other. -/
theorem C107_parallel (c : NormCfg P V) (h : NormRaceFree c) (k : ℕ) (m m0 : Unit → V) (sched : List (Fin k)) (vs : List ℝ) (hvs : normParallel c k m sched = some vs)
    (si wi : ℕ) (hsi : si < c.nSbp) (hwi : wi < c.nWpsbp) : normTable c vs si wi = normSerial c m0 si wi := by
  refine normTable_of c vs m0 ?_ si wi hsi hwi
  obtain ⟨Rel, val, hc⟩ := normProg_consistent c h m
  have hcons : ∀ p ∈ (normInds c).map fun q => normProg c q.1 q.2, Consistent Rel val (fun _ => False) p := by
    intro p hp
    simp only [List.mem_map] at hp
    obtain ⟨q, -, rfl⟩ := hp
    exact hc _ _
  refine normParallel_of_reads c k m m0 sched vs hvs fun t rs ht hr => ?_
  rw [pool_consistent _ Rel val hcons m sched t rs hr]
  symm
  refine runAlone_consistent Rel val _ (fun _ => False) m0 (fun _ _ h => h.elim) ?_
  have ht' : t < ((normInds c).map fun q => normProg c q.1 q.2).length := by simpa using ht
  rw [show ((normInds c).map fun q => normProg c q.1 q.2).getD t [] = ((normInds c).map fun q => normProg c q.1 q.2)[t] by simp [ht]]
  exact hcons _ (List.getElem_mem ht')

/-- **C107** With one thread this holds for every configuration. -/
theorem C107_one_thread (c : NormCfg P V) (m m0 : Unit → V) (sched : List (Fin 1)) (vs : List ℝ) (hvs : normParallel c 1 m sched = some vs)
    (si wi : ℕ) (hsi : si < c.nSbp) (hwi : wi < c.nWpsbp) : normTable c vs si wi = normSerial c m0 si wi := by
  refine normTable_of c vs m0 ?_ si wi hsi hwi
  refine normParallel_of_reads c 1 m m0 sched vs hvs fun t rs ht hr => ?_
  refine pool_one _ ?_ m m0 sched t rs hr
  intro p hp
  simp only [List.mem_map] at hp
  obtain ⟨q, -, rfl⟩ := hp
  exact normProg_writesFirst c _ _

/-- A hybrid Lyot coronagraph at two wavelengths, one camera pixel; the field is the transmission of the mask: 1 and 2. -/
noncomputable def twoNorm : NormCfg Unit ℝ where
  nSbp := 2
  nWpsbp := 1
  layout := .fourier
  hlc := true
  hasCube := true
  maskOf := fun si _ => si + 1
  field := fun _ _ reads _ => ((reads.getD 0 0 : ℝ) : ℂ)

/-- **C107** violated for a hybrid Lyot coronagraph with two threads: for some schedule both factors are those of the second wavelength's mask. -/
theorem C107_hlc_violated : ∃ (sched : List (Fin 2)) (vs : List ℝ), normParallel twoNorm 2 (fun _ => 0) sched = some vs ∧ normTable twoNorm vs 0 0 = 4 ∧ normTable twoNorm vs 1 0 = 4 ∧
    ∀ m0, normSerial twoNorm m0 0 0 = 1 ∧ normSerial twoNorm m0 1 0 = 4 := by
  refine ⟨[0, 1, 0, 1, 0, 0, 0, 1, 1, 1], [4, 4], ?_, ?_, ?_, fun m0 => ?_⟩
  · simp [normParallel, normInds, twoNorm, normProg, Pool.run, Pool.init, Pool.step, normPeak, Function.update, List.range_succ]
    norm_num
  · simp [normTable, normInds, twoNorm, List.range_succ, Function.update]
  · simp [normTable, normInds, twoNorm, List.range_succ, Function.update]
  · simp [twoNorm, normProg, normSerial, runAlone, normPeak, Function.update]
    norm_num

end Verif.Imaging
