import Verif.Props.Source
import Verif.Model.Thput
import Verif.Props.Energy
import Verif.Props.FullModel

/-!
# C96: off-axis throughput
-/

set_option linter.unusedSectionVars false

namespace Verif.Compact
open Verif Complex Verif.Optics

variable {N N4 Neta Nxi Meta Mxi N3 n : ℕ} [NeZero N] [NeZero N4] [NeZero N3] [NeZero n]

/-! ## the image -/

theorem offaxisBands_ok (c : ThputCfg N N4 Neta Nxi Meta Mxi N3 n) (star : ℝ × ℝ × ℝ) (F : EvalBand N N4 Neta Nxi Meta Mxi n → Fin Meta → Fin Mxi → ℂ)
    (bs : List (EvalBand N N4 Neta Nxi Meta Mxi n)) (hF : ∀ b ∈ bs, offaxisField c star b = .ok (F b)) (I : Fin Meta → Fin Mxi → ℝ) :
    offaxisBands c star bs I = .ok fun e x => I e x + (bs.map fun b => b.weight * ‖F b e x‖ ^ 2).sum := by
  induction bs generalizing I with
  | nil => simp [offaxisBands]
  | cons b bs ih =>
    unfold offaxisBands
    rw [hF b (List.mem_cons_self ..)]
    simp only [bind, Except.bind]
    rw [ih fun b hb => hF b (List.mem_cons_of_mem _ hb)]
    congr 1
    funext e x
    rw [List.map_cons, List.sum_cons]
    ring

theorem offaxisStars_ok (c : ThputCfg N N4 Neta Nxi Meta Mxi N3 n) (F : ℝ × ℝ × ℝ → EvalBand N N4 Neta Nxi Meta Mxi n → Fin Meta → Fin Mxi → ℂ)
    (hF : ∀ s ∈ c.stars, ∀ b ∈ c.bands, offaxisField c s b = .ok (F s b)) (k i : ℕ) (hk : i + k ≤ c.stars.length) (I : Fin Meta → Fin Mxi → ℝ) :
    offaxisStars c i k I = .ok fun e x => I e x + (((c.stars.drop i).take k).map fun s => (c.bands.map fun b => b.weight * ‖F s b e x‖ ^ 2).sum).sum := by
  induction k generalizing i I with
  | zero => simp [offaxisStars]
  | succ k ih =>
    unfold offaxisStars
    have hi : i < c.stars.length := by omega
    rw [List.getElem?_eq_getElem hi]
    dsimp only
    rw [offaxisBands_ok c _ (F c.stars[i]) c.bands (hF _ (List.getElem_mem hi))]
    simp only [bind, Except.bind]
    rw [ih (i + 1) (by omega)]
    congr 1
    funext e x
    rw [List.drop_eq_getElem_cons hi, List.take_succ_cons, List.map_cons, List.sum_cons]
    ring

/-- **C96** The image is the sum over the stars and sub-bands of weight times intensity; it needs as many stars in the compact model as `mp.star.count`. -/
theorem C96_image (c : ThputCfg N N4 Neta Nxi Meta Mxi N3 n) (F : ℝ × ℝ × ℝ → EvalBand N N4 Neta Nxi Meta Mxi n → Fin Meta → Fin Mxi → ℂ)
    (hF : ∀ s ∈ c.stars, ∀ b ∈ c.bands, offaxisField c s b = .ok (F s b)) (hk : c.starCount ≤ c.stars.length) :
    offaxisImage c = .ok fun e x => ((c.stars.take c.starCount).map fun s => (c.bands.map fun b => b.weight * ‖F s b e x‖ ^ 2).sum).sum := by
  unfold offaxisImage
  rw [offaxisStars_ok c F hF _ 0 (by omega)]
  simp

/-- **C96** violated with fewer stars in the compact model than in the full model. -/
theorem C96_star_count_violated (c : ThputCfg N N4 Neta Nxi Meta Mxi N3 n) (F : ℝ × ℝ × ℝ → EvalBand N N4 Neta Nxi Meta Mxi n → Fin Meta → Fin Mxi → ℂ)
    (hF : ∀ s ∈ c.stars, ∀ b ∈ c.bands, offaxisField c s b = .ok (F s b)) (hk : c.stars.length < c.starCount) (hb : c.bands ≠ []) :
    calcThput c = .error .indexError := by
  have key : ∀ k i (I : Fin Meta → Fin Mxi → ℝ), i ≤ c.stars.length → c.stars.length < i + k → offaxisStars c i k I = .error .indexError := by
    intro k
    induction k with
    | zero => intro i I h1 h2; omega
    | succ k ih =>
      intro i I h1 h2
      unfold offaxisStars
      rcases Nat.lt_or_ge i c.stars.length with hi | hi
      · rw [List.getElem?_eq_getElem hi]
        dsimp only
        rw [offaxisBands_ok c _ (F c.stars[i]) c.bands (hF _ (List.getElem_mem hi))]
        simp only [bind, Except.bind]
        exact ih (i + 1) _ (by omega) (by omega)
      · rw [List.getElem?_eq_none hi]
        dsimp only
        rw [if_neg hb]
  unfold calcThput offaxisImage
  rw [key _ 0 _ (Nat.zero_le _) (by omega)]
  rfl

/-! ## the throughput -/

/-- The sub-bands of a system that creates no light: masks and samplings as in C95, the aperture of every band is the telescope aperture. -/
def Legit (c : ThputCfg N N4 Neta Nxi Meta Mxi N3 n) (b : EvalBand N N4 Neta Nxi Meta Mxi n) : Prop :=
  b.sys.flagDMwfe = false ∧ b.sys.pupil = padF N c.mask ∧ Passive b.sys c.apod ∧
    ∃ K3 Kend, Sampled (b.sys.withScale (c.layout.compactScale c.name b.sys.wvl c.lambda0)) (sizeP3 N c.apod) K3 Kend

theorem normSq_tilt (lambda0 wvl : ℝ) (X Y : ZMod n → ZMod n → ℝ) (x y : ℝ) (i j : ZMod n) : ‖tilt lambda0 wvl X Y x y i j‖ = 1 := by
  unfold tilt
  rw [show (I * ((-1 * (2 * Real.pi * (x * X i j + y * Y i j)) : ℝ) : ℂ) * lambda0 / wvl) =
    ((-1 * (2 * Real.pi * (x * X i j + y * Y i j)) * lambda0 / wvl : ℝ) : ℂ) * I by push_cast; ring]
  exact norm_exp_ofReal_mul_I _

theorem field_energy (c : ThputCfg N N4 Neta Nxi Meta Mxi N3 n) (b : EvalBand N N4 Neta Nxi Meta Mxi n) (hb : Legit c b) (h0 : 0 < b.sys.normFac)
    (star : ℝ × ℝ × ℝ) (hs : 0 ≤ star.2.2) :
    ∃ F : Fin Meta → Fin Mxi → ℂ, offaxisField c star b = .ok F ∧
      b.sys.normFac * ∑ e, ∑ x, ‖F e x‖ ^ 2 ≤ star.2.2 * ∑ i, ∑ j, ‖c.mask i j * b.E i j‖ ^ 2 := by
  obtain ⟨hw, hpu, hpas, K3, Kend, hsam⟩ := hb
  set f := c.layout.compactScale c.name b.sys.wvl c.lambda0 with hf
  have hp' : Passive (b.sys.withScale f) c.apod := ⟨hpas.stop1, hpas.stop2, hpas.lyot, hpas.apod, hpas.fpm⟩
  obtain ⟨F, h1, h2⟩ := C95_energy (b.sys.withScale f) hw c.apod hp' K3 Kend hsam
    (padF N (einComp c.lambda0 b.sys.wvl c.X c.Y b.E b.sys.normFac
      { xi := star.1, eta := star.2.1, weight := star.2.2, offaxis := some (c.x, c.y), xNorm := 0, yNorm := 0, zern := none })) c.S1 c.S2
  refine ⟨F, ?_, h2.trans ?_⟩
  · unfold offaxisField compact compactAny
    rw [← hf, if_neg (show ¬ (b.sys.withScale f).normFac = 0 from h0.ne')]
    exact h1
  · set G := einComp c.lambda0 b.sys.wvl c.X c.Y b.E b.sys.normFac
      { xi := star.1, eta := star.2.1, weight := star.2.2, offaxis := some (c.x, c.y), xNorm := 0, yNorm := 0, zern := none } with hG
    have e1 : (fun i j => (b.sys.withScale f).pupil i j * padF N G i j) = padF N (fun i j => c.mask i j * G i j : Pl n) := by
      change (fun i j => b.sys.pupil i j * padF N G i j) = _
      rw [hpu]
      funext i j
      unfold padF
      dsimp only
      split
      · rfl
      · rw [zero_mul]
    have e2 := en_padF_le (m := N) (fun i j => c.mask i j * G i j : Pl n)
    rw [← e1] at e2
    simp only [en, normSq_eq_norm_sq] at e2
    refine e2.trans (le_of_eq ?_)
    rw [Finset.mul_sum]
    refine Finset.sum_congr rfl fun i _ => ?_
    rw [Finset.mul_sum]
    refine Finset.sum_congr rfl fun j _ => ?_
    have : ‖G i j‖ ^ 2 = star.2.2 * ‖b.E i j‖ ^ 2 := by
      rw [hG]
      unfold einComp einBase
      dsimp only
      rw [if_neg h0.ne', norm_mul, norm_mul, norm_mul, normSq_tilt, normSq_tilt, mul_one, mul_one, mul_pow, norm_real, Real.norm_eq_abs, sq_abs, Real.sq_sqrt hs]
    rw [norm_mul, norm_mul, mul_pow, mul_pow, this]
    ring

/-- the camera pixels counted by the metric -/
def Selects (c : ThputCfg N N4 Neta Nxi Meta Mxi N3 n) (I : Fin Meta → Fin Mxi → ℝ) (e : Fin Meta) (x : Fin Mxi) : Prop :=
  if c.metric.toLower = "hmi" then I e x ≥ 0.5 * ⨆ p : Fin Meta × Fin Mxi, I p.1 p.2 else c.RHOS e x ≤ c.radius

open Classical in
/-- The number reported is the light in the selected pixels over the light in the aperture, times the mean of the normalisation factors. -/
theorem thput_value (c : ThputCfg N N4 Neta Nxi Meta Mxi N3 n) (I : Fin Meta → Fin Mxi → ℝ) (hI : offaxisImage c = .ok I)
    (hm : c.metric.toLower ∈ ["hmi", "ee", "e.e."]) :
    calcThput c = .ok ((∑ e, ∑ x, if Selects c I e x then I e x else 0) / sumPupil c * meanI00 c) := by
  unfold calcThput Selects
  rw [hI]
  simp only [bind, Except.bind, pure, Except.pure]
  by_cases h : c.metric.toLower = "hmi"
  · simp only [if_pos h]
  · have h2 : c.metric.toLower = "ee" ∨ c.metric.toLower = "e.e." := by simpa [h] using hm
    simp only [if_neg h, if_pos h2]

/-- **C96** The source imaged for the star `(ξ, η)` of weight `w` is a companion of brightness `w` displaced from the star by the field point `(x, y)`: the compact model of a star at
`(ξ + x, η + y)` (whose image is located by `C90_position`). -/
theorem C96_source (c : ThputCfg N N4 Neta Nxi Meta Mxi N3 n) (ξ η w : ℝ) (b : EvalBand N N4 Neta Nxi Meta Mxi n) :
    offaxisField c (ξ, η, w) b = compact b.sys c.layout c.name c.apod c.lambda0 c.X c.Y b.E
      { xi := ξ + c.x, eta := η + c.y, weight := w, offaxis := none, xNorm := 0, yNorm := 0, zern := none } c.S1 c.S2 :=
  (C90_companion b.sys c.layout c.name c.apod c.lambda0 c.X c.Y b.E
    { xi := ξ, eta := η, weight := w, offaxis := none, xNorm := 0, yNorm := 0, zern := none } c.S1 c.S2 c.x c.y).1

open Classical in
/-- **C96** The number reported is the light in the selected pixels over the light in the aperture (of the mean input field of the sub-bands), times the mean of the normalisation factors. -/
theorem C96_value (c : ThputCfg N N4 Neta Nxi Meta Mxi N3 n) (I : Fin Meta → Fin Mxi → ℝ) (hI : offaxisImage c = .ok I)
    (hm : c.metric.toLower ∈ ["hmi", "ee", "e.e."]) :
    calcThput c = .ok ((∑ e, ∑ x, if Selects c I e x then I e x else 0) / (∑ i, ∑ j, ‖c.mask i j * ((c.bands.map fun b => b.E i j).sum / c.bands.length)‖ ^ 2) *
      ((c.bands.map fun b => b.sys.normFac).sum / c.bands.length)) :=
  thput_value c I hI hm

/-- **C96** Any other name of a metric is an `UnboundLocalError`. -/
theorem C96_metric (c : ThputCfg N N4 Neta Nxi Meta Mxi N3 n) (I : Fin Meta → Fin Mxi → ℝ) (hI : offaxisImage c = .ok I)
    (hm : c.metric.toLower ∉ ["hmi", "ee", "e.e."]) : calcThput c = .error .unboundLocal := by
  unfold calcThput
  rw [hI]
  simp only [List.mem_cons, List.not_mem_nil, or_false, not_or] at hm
  simp only [bind, Except.bind, hm, if_false, or_self]
  rfl

/-- the field returned, if any -/
noncomputable def fieldOf (c : ThputCfg N N4 Neta Nxi Meta Mxi N3 n) (s : ℝ × ℝ × ℝ) (b : EvalBand N N4 Neta Nxi Meta Mxi n) : Fin Meta → Fin Mxi → ℂ :=
  match offaxisField c s b with
  | .ok F => F
  | .error _ => fun _ _ => 0

theorem sum_map_const {α : Type*} (l : List α) (f : α → ℂ) (v : ℂ) (h : ∀ a ∈ l, f a = v) : (l.map f).sum = l.length * v := by
  induction l with
  | nil => simp
  | cons a l ih =>
    rw [List.map_cons, List.sum_cons, ih fun a ha => h a (List.mem_cons_of_mem _ ha), h a (List.mem_cons_self ..), List.length_cons]
    push_cast; ring

theorem sum_map_constR {α : Type*} (l : List α) (f : α → ℝ) (v : ℝ) (h : ∀ a ∈ l, f a = v) : (l.map f).sum = l.length * v := by
  induction l with
  | nil => simp
  | cons a l ih =>
    rw [List.map_cons, List.sum_cons, ih fun a ha => h a (List.mem_cons_of_mem _ ha), h a (List.mem_cons_self ..), List.length_cons]
    push_cast; ring

theorem sum_list_comm {α ι : Type*} [Fintype ι] (l : List α) (f : α → ι → ℝ) : ∑ i, (l.map fun a => f a i).sum = (l.map fun a => ∑ i, f a i).sum := by
  induction l with
  | nil => simp
  | cons a l ih => simp only [List.map_cons, List.sum_cons, Finset.sum_add_distrib, ih]

theorem sum_map_le {α : Type*} (l : List α) (f g : α → ℝ) (h : ∀ a ∈ l, f a ≤ g a) : (l.map f).sum ≤ (l.map g).sum := by
  induction l with
  | nil => simp
  | cons a l ih =>
    rw [List.map_cons, List.sum_cons, List.map_cons, List.sum_cons]
    exact add_le_add (h a (List.mem_cons_self ..)) (ih fun a ha => h a (List.mem_cons_of_mem _ ha))

/-- **C96** For a system that creates no light, with the same input field and normalisation factor in all sub-bands (in particular with one sub-band), the throughput reported lies between 0 and the
total weight of the stars, 1 for one star of weight 1: whichever metric, field point, radius, DM surfaces and coronagraph. -/
theorem C96_bounded (c : ThputCfg N N4 Neta Nxi Meta Mxi N3 n) (I00 : ℝ) (hI : 0 < I00) (E0 : Pl n)
    (hb : ∀ b ∈ c.bands, Legit c b ∧ b.sys.normFac = I00 ∧ b.E = E0 ∧ 0 ≤ b.weight) (hw : (c.bands.map fun b => b.weight).sum = 1)
    (hs : ∀ s ∈ c.stars, 0 ≤ s.2.2) (hk : c.starCount ≤ c.stars.length) (hm : c.metric.toLower ∈ ["hmi", "ee", "e.e."])
    (hpup : 0 < ∑ i, ∑ j, ‖c.mask i j * E0 i j‖ ^ 2) :
    ∃ t, calcThput c = .ok t ∧ 0 ≤ t ∧ t ≤ ((c.stars.take c.starCount).map fun s => s.2.2).sum := by
  classical
  set P := ∑ i, ∑ j, ‖c.mask i j * E0 i j‖ ^ 2 with hP
  have hne : (c.bands.length : ℝ) ≠ 0 := by
    intro h
    have : c.bands = [] := List.length_eq_zero_iff.1 (by exact_mod_cast h)
    rw [this] at hw; simp at hw
  have hF : ∀ s ∈ c.stars, ∀ b ∈ c.bands, offaxisField c s b = .ok (fieldOf c s b) ∧
      I00 * ∑ e, ∑ x, ‖fieldOf c s b e x‖ ^ 2 ≤ s.2.2 * P := by
    intro s h1 b h2
    obtain ⟨l, e1, e2, -⟩ := hb b h2
    obtain ⟨F, f1, f2⟩ := field_energy c b l (by rw [e1]; exact hI) s (hs s h1)
    have : fieldOf c s b = F := by unfold fieldOf; rw [f1]
    rw [this]
    refine ⟨f1, ?_⟩
    rw [e1, e2] at f2
    exact f2
  have him := C96_image c (fieldOf c) (fun s h1 b h2 => (hF s h1 b h2).1) hk
  refine ⟨_, thput_value c _ him hm, ?_⟩
  set I : Fin Meta → Fin Mxi → ℝ := fun e x => ((c.stars.take c.starCount).map fun s => (c.bands.map fun b => b.weight * ‖fieldOf c s b e x‖ ^ 2).sum).sum with hIdef
  have hI0 : ∀ e x, 0 ≤ I e x := by
    intro e x
    rw [hIdef]
    refine List.sum_nonneg fun r hr => ?_
    obtain ⟨s, -, rfl⟩ := List.mem_map.1 hr
    refine List.sum_nonneg fun r hr => ?_
    obtain ⟨b, h2, rfl⟩ := List.mem_map.1 hr
    exact mul_nonneg (hb b h2).2.2.2 (sq_nonneg _)
  have hmean : meanI00 c = I00 := by
    unfold meanI00
    rw [sum_map_constR _ _ I00 fun b h => (hb b h).2.1]
    field_simp
  have hsum : sumPupil c = P := by
    unfold sumPupil
    rw [hP]
    refine Finset.sum_congr rfl fun i _ => Finset.sum_congr rfl fun j _ => ?_
    have hne' : (c.bands.length : ℂ) ≠ 0 := by exact_mod_cast hne
    rw [sum_map_const _ _ (E0 i j) fun b h => by rw [(hb b h).2.2.1], mul_div_cancel_left₀ _ hne']
  rw [hmean, hsum]
  have hsel0 : 0 ≤ ∑ e, ∑ x, (if Selects c I e x then I e x else 0) :=
    Finset.sum_nonneg fun e _ => Finset.sum_nonneg fun x _ => by split; exacts [hI0 e x, le_refl _]
  refine ⟨mul_nonneg (div_nonneg hsel0 hpup.le) hI.le, ?_⟩
  have hsel : ∑ e, ∑ x, (if Selects c I e x then I e x else 0) ≤ ∑ e, ∑ x, I e x :=
    Finset.sum_le_sum fun e _ => Finset.sum_le_sum fun x _ => by split; exacts [le_refl _, hI0 e x]
  have htot : I00 * ∑ e, ∑ x, I e x ≤ ((c.stars.take c.starCount).map fun s => s.2.2).sum * P := by
    have e1 : ∑ e, ∑ x, I e x = ((c.stars.take c.starCount).map fun s => (c.bands.map fun b => b.weight * ∑ e, ∑ x, ‖fieldOf c s b e x‖ ^ 2).sum).sum := by
      rw [hIdef]
      simp only [sum_list_comm, Finset.mul_sum]
    rw [e1, ← List.sum_map_mul_left, ← List.sum_map_mul_right]
    refine sum_map_le _ _ _ fun s hs' => ?_
    have hs'' := List.mem_of_mem_take hs'
    have e2 : I00 * (c.bands.map fun b => b.weight * ∑ e, ∑ x, ‖fieldOf c s b e x‖ ^ 2).sum ≤ (c.bands.map fun b => b.weight * (s.2.2 * P)).sum := by
      rw [← List.sum_map_mul_left]
      refine sum_map_le _ _ _ fun b h2 => ?_
      have := mul_le_mul_of_nonneg_left (hF s hs'' b h2).2 (hb b h2).2.2.2
      linarith
    refine e2.trans (le_of_eq ?_)
    rw [List.sum_map_mul_right, hw, one_mul]
  rw [div_mul_eq_mul_div, div_le_iff₀ hpup]
  calc _ ≤ (∑ e, ∑ x, I e x) * I00 := mul_le_mul_of_nonneg_right hsel hI.le
    _ ≤ _ := by rw [mul_comm]; exact htot

/-- **C96** The encircled throughput does not decrease with the radius. -/
theorem C96_radius (c : ThputCfg N N4 Neta Nxi Meta Mxi N3 n) (r : ℝ) (hr : c.radius ≤ r) (hm : c.metric.toLower ∈ ["ee", "e.e."])
    (I : Fin Meta → Fin Mxi → ℝ) (hI : offaxisImage c = .ok I) (hI0 : ∀ e x, 0 ≤ I e x) (h0 : ∀ b ∈ c.bands, 0 ≤ b.sys.normFac) :
    ∃ t t', calcThput c = .ok t ∧ calcThput { c with radius := r } = .ok t' ∧ t ≤ t' := by
  classical
  have hm' : c.metric.toLower ∈ ["hmi", "ee", "e.e."] := List.mem_cons_of_mem _ hm
  have hnot : ¬ c.metric.toLower = "hmi" := by
    intro h; rw [h] at hm; revert hm; decide
  have hI' : offaxisImage { c with radius := r } = .ok I := by
    rw [← hI]
    have hbs : ∀ star bs (J : Fin Meta → Fin Mxi → ℝ), offaxisBands { c with radius := r } star bs J = offaxisBands c star bs J := by
      intro star bs
      induction bs with
      | nil => intro J; rfl
      | cons b bs ih =>
        intro J
        unfold offaxisBands
        simp only [ih]
        rfl
    have hst : ∀ k i (J : Fin Meta → Fin Mxi → ℝ), offaxisStars { c with radius := r } i k J = offaxisStars c i k J := by
      intro k
      induction k with
      | zero => intro i J; rfl
      | succ k ih =>
        intro i J
        unfold offaxisStars
        simp only [ih, hbs]
    exact hst _ _ _
  refine ⟨_, _, thput_value c I hI hm', thput_value { c with radius := r } I hI' hm', ?_⟩
  have hmean : 0 ≤ meanI00 c := by
    unfold meanI00
    refine div_nonneg (List.sum_nonneg fun v hv => ?_) (Nat.cast_nonneg _)
    obtain ⟨b, h, rfl⟩ := List.mem_map.1 hv
    exact h0 b h
  have hsp : 0 ≤ sumPupil c := Finset.sum_nonneg fun i _ => Finset.sum_nonneg fun j _ => sq_nonneg _
  refine mul_le_mul_of_nonneg_right ?_ hmean
  refine div_le_div_of_nonneg_right ?_ hsp
  refine Finset.sum_le_sum fun e _ => Finset.sum_le_sum fun x _ => ?_
  unfold Selects
  simp only [if_neg hnot]
  by_cases h : c.RHOS e x ≤ c.radius
  · rw [if_pos h, if_pos (h.trans hr)]
  · rw [if_neg h]; split; exacts [hI0 e x, le_refl _]

/-! ## an example: a transparent spot, a square pupil of 2 × 2 pixels -/

/-- the pupil: pixels 2 and 3 (coordinates 0 and 1) of a 4 × 4 array -/
def lit (i : ZMod 4) : ℂ := if i = 2 ∨ i = 3 then 1 else 0

/-- A coronagraph with a transparent spot, without relays, at wavelength `K`. -/
noncomputable def openSys (K I00 : ℝ) : Sys 4 4 1 1 4 4 where
  wvl := K
  fl := 1
  dx := 1
  dx4 := 1
  dxiF3 := 1
  detaF3 := 1
  fpmScale := 1
  dxi := 1
  deta := 1
  dP2dm1 := 0
  d12 := 0
  centering := .pixel
  flagRotation := false
  n12 := 1
  n23 := 1
  n34 := 1
  nEnd := 1
  pupil := fun i j => lit i * lit j
  stop1 := fun _ _ => 1
  stop2 := fun _ _ => 1
  flagDMwfe := false
  coro := .babinet (fun _ _ => 1) 1
  lyot := fun i j => if i = 0 ∨ j = 0 then 0 else 1
  normFac := I00

theorem lit_lyot (i j : ZMod 4) : (if i = 0 ∨ j = 0 then (0 : ℂ) else 1) * (lit i * lit j) = lit i * lit j := by
  by_cases h : i = 0 ∨ j = 0
  · rw [if_pos h, zero_mul]
    rcases h with rfl | rfl
    · rw [show lit 0 = 0 by unfold lit; rw [if_neg (by decide)], zero_mul]
    · rw [show lit 0 = 0 by unfold lit; rw [if_neg (by decide)], mul_zero]
  · rw [if_neg h, one_mul]

theorem openSys_out (K I00 : ℝ) (f : ℝ) : compactApod ((openSys K I00).withScale f) (none : Option (Pl 4)) (fun _ _ => 1) (fun _ _ => 0) (fun _ _ => 0) =
    .ok fun e x => mftP2f (fun a b : Fin 4 => lit (a.val : ZMod 4) * lit (b.val : ZMod 4)) 1 K 1 1 4 1 4 .pixel e x / Real.sqrt I00 := by
  rw [compactApod_eq _ rfl]
  have hr : ∀ k, ((openSys K I00).withScale f).rel k = 0 := fun k => by unfold Sys.rel; simp [Sys.withScale, openSys]
  have hp2 : p2f ((openSys K I00).withScale f) (fun _ _ => 1) (fun _ _ => 0) (fun _ _ => 0) = fun i j => lit i * lit j := by
    unfold p2f dm2pre dm1post dm1pre
    simp only [hr]
    simp only [Sys.withScale, openSys, add_zero, neg_zero, ptpCore_zero, ofReal_zero, mul_zero, exp_zero, mul_one, one_mul]
    rw [relay_even _ _ (by decide)]
  rw [hp2]
  unfold p2toEnd p4toEnd p3to4
  simp only [hr]
  simp only [Sys.withScale, openSys, sub_self, zero_mul, one_mul]
  have h0 : ∀ (g h : ℝ), mftF2p (fun (_ : Fin 1) (_ : Fin 1) => (0 : ℂ)) 1 K g g 1 4 .pixel = fun _ _ => 0 := by
    intro g h; funext a b; unfold mftF2p; simp
  congr 1
  rw [relay_even _ 0 (by decide), relay_even _ 0 (by decide), relay_even _ 0 (by decide), padF_self, h0 _ 0]
  have hz : relay (ofFin (fun _ _ => 0 : Fin 4 → Fin 4 → ℂ) : Pl 4) (0 - 1) .pixel = fun _ _ => 0 := by
    rw [relay_odd _ _ (by decide)]; rfl
  rw [hz]
  simp only [sub_zero, lit_lyot]
  rfl

theorem normSq_one_add_exp (θ : ℝ) : ‖1 + exp (θ * I)‖ ^ 2 = 2 + 2 * Real.cos θ := by
  rw [← normSq_eq_norm_sq, normSq_apply]
  simp only [add_re, add_im, one_re, one_im, exp_ofReal_mul_I_re, exp_ofReal_mul_I_im]
  nlinarith [Real.sin_sq_add_cos_sq θ]

/-- The unnormalised intensity of the example: the product of two fringe patterns. -/
theorem openSys_int (K : ℝ) (hK : 0 < K) (e x : Fin 4) :
    ‖mftP2f (fun a b : Fin 4 => lit (a.val : ZMod 4) * lit (b.val : ZMod 4)) 1 K 1 1 4 1 4 .pixel e x‖ ^ 2 =
      (2 + 2 * Real.cos (2 * Real.pi * ((e.val : ℝ) - 2) / K)) * (2 + 2 * Real.cos (2 * Real.pi * ((x.val : ℝ) - 2) / K)) / K ^ 2 := by
  have hax : ∀ e : Fin 4, ax 4 1 .pixel e = (e.val : ℝ) - 2 := by
    intro e; rw [ax_eq]; norm_num; decide
  have l0 : lit ((0 : ℕ) : ZMod 4) = 0 := by unfold lit; rw [if_neg (by decide)]
  have l1 : lit ((1 : ℕ) : ZMod 4) = 0 := by unfold lit; rw [if_neg (by decide)]
  have l2 : lit ((2 : ℕ) : ZMod 4) = 1 := by unfold lit; rw [if_pos (by decide)]
  have l3 : lit ((3 : ℕ) : ZMod 4) = 1 := by unfold lit; rw [if_pos (by decide)]
  have key : mftP2f (fun a b : Fin 4 => lit (a.val : ZMod 4) * lit (b.val : ZMod 4)) 1 K 1 1 4 1 4 .pixel e x =
      ((K⁻¹ : ℝ) : ℂ) * ((1 + exp (((-(2 * Real.pi * ((e.val : ℝ) - 2) / K) : ℝ) : ℂ) * I)) * (1 + exp (((-(2 * Real.pi * ((x.val : ℝ) - 2) / K) : ℝ) : ℂ) * I))) := by
    unfold mftP2f
    dsimp only
    simp only [Fin.sum_univ_four, hax]
    simp only [Fin.isValue, Fin.val_zero, Fin.val_one, Fin.val_two, show ((3 : Fin 4).val) = 3 from rfl, l0, l1, l2, l3]
    have h1 : ((Real.sqrt (1 * 1 * 1 * 1) : ℝ) : ℂ) / (1 * K * ((1 : ℝ) : ℂ)) = ((K⁻¹ : ℝ) : ℂ) := by
      push_cast; simp
    rw [h1]
    have h2 : ∀ v : ℝ, exp (-2 * Real.pi * I / (K * ((1 : ℝ) : ℂ)) * ((v : ℂ) * (((((2 : ℕ) : ℝ) - 2 : ℝ)) : ℂ))) = 1 := by
      intro v; norm_num
    have h3 : ∀ v : ℝ, exp (-2 * Real.pi * I / (K * ((1 : ℝ) : ℂ)) * ((v : ℂ) * (((((3 : ℕ) : ℝ) - 2 : ℝ)) : ℂ))) = exp (((-(2 * Real.pi * v / K) : ℝ) : ℂ) * I) := by
      intro v; congr 1; push_cast; ring
    have h2' : ∀ v : ℝ, exp (-2 * Real.pi * I / (K * ((1 : ℝ) : ℂ)) * ((((((2 : ℕ) : ℝ) - 2 : ℝ)) : ℂ) * (v : ℂ))) = 1 := by
      intro v; rw [mul_comm ((((2 : ℕ) : ℝ) - 2 : ℝ) : ℂ)]; exact h2 v
    have h3' : ∀ v : ℝ, exp (-2 * Real.pi * I / (K * ((1 : ℝ) : ℂ)) * ((((((3 : ℕ) : ℝ) - 2 : ℝ)) : ℂ) * (v : ℂ))) = exp (((-(2 * Real.pi * v / K) : ℝ) : ℂ) * I) := by
      intro v; rw [mul_comm ((((3 : ℕ) : ℝ) - 2 : ℝ) : ℂ)]; exact h3 v
    rw [h2, h3, h2', h3']
    ring
  rw [key, norm_mul, norm_mul, mul_pow, mul_pow, normSq_one_add_exp, normSq_one_add_exp, Real.cos_neg, Real.cos_neg, norm_real, Real.norm_eq_abs, sq_abs]
  field_simp

theorem openSys_passive (K I00 : ℝ) : Passive (openSys K I00) (none : Option (Pl 4)) := by
  refine ⟨fun i j => by simp [openSys], fun i j => by simp [openSys], fun i j => ?_, (fun m h => by simp at h), ?_⟩
  · change ‖if i = 0 ∨ j = 0 then (0 : ℂ) else 1‖ ≤ 1
    split <;> simp
  · exact ⟨fun e x => by simp, by simp⟩

theorem openSys_sampled (K : ℕ) (hK : 4 ≤ K) (I00 : ℝ) : Sampled ((openSys K I00).withScale 1) (sizeP3 4 (none : Option (Pl 4))) K K := by
  have h4 : sizeP3 4 (none : Option (Pl 4)) = 4 := rfl
  refine ⟨one_pos, rfl, by simp [Sys.withScale, openSys], rfl, one_pos, rfl, by simp [Sys.withScale, openSys], by simp [Sys.withScale, openSys],
    ⟨h4 ▸ hK, by omega, by omega, hK⟩, ⟨hK, hK, hK⟩, fun mask t _ => ⟨by rw [h4]; decide, by decide, by rw [h4], Or.inr fun i j h => ?_⟩⟩
  change (if i = 0 ∨ j = 0 then (0 : ℂ) else 1) = 0
  rw [if_pos h]

/-- the example with the given sub-bands -/
noncomputable def openCfg (bands : List (EvalBand 4 4 1 1 4 4 4)) : ThputCfg 4 4 1 1 4 4 4 4 where
  layout := .fourier
  name := .lc
  apod := none
  lambda0 := 1
  X := fun _ _ => 0
  Y := fun _ _ => 0
  S1 := fun _ _ => 0
  S2 := fun _ _ => 0
  mask := fun i j => lit i * lit j
  stars := [(0, 0, 1)]
  starCount := 1
  bands := bands
  RHOS := fun _ _ => 0
  metric := "EE"
  radius := 1
  x := 0
  y := 0

theorem openCfg_legit (bands : List (EvalBand 4 4 1 1 4 4 4)) (K : ℕ) (hK : 4 ≤ K) (I00 w : ℝ) : Legit (openCfg bands) ⟨openSys K I00, fun _ _ => 1, w⟩ :=
  ⟨rfl, (padF_self _).symm, openSys_passive K I00, K, K, openSys_sampled K hK I00⟩

theorem openCfg_field (bands : List (EvalBand 4 4 1 1 4 4 4)) (K I00 w : ℝ) (h0 : 0 < I00) :
    offaxisField (openCfg bands) (0, 0, 1) ⟨openSys K I00, fun _ _ => 1, w⟩ =
      .ok fun e x => mftP2f (fun a b : Fin 4 => lit (a.val : ZMod 4) * lit (b.val : ZMod 4)) 1 K 1 1 4 1 4 .pixel e x / Real.sqrt I00 := by
  unfold offaxisField compact compactAny
  rw [if_neg (show ¬ ((openSys K I00).withScale _).normFac = 0 from h0.ne'), ← openSys_out K I00 1]
  have : (einComp (openCfg bands).lambda0 (openSys K I00).wvl (openCfg bands).X (openCfg bands).Y (fun _ _ => 1 : Pl 4) (openSys K I00).normFac
      { xi := 0, eta := 0, weight := 1, offaxis := some ((openCfg bands).x, (openCfg bands).y), xNorm := 0, yNorm := 0, zern := none }) = fun _ _ => 1 := by
    unfold einComp einBase
    dsimp only
    rw [if_neg (show ¬ (openSys K I00).normFac = 0 from h0.ne')]
    funext i j
    simp [tilt, openCfg]
  dsimp only
  rw [this, padF_self]
  rfl

theorem fringe4 : ∑ e : Fin 4, (2 + 2 * Real.cos (2 * Real.pi * ((e.val : ℝ) - 2) / 4)) = 8 := by
  have h0 : 2 * Real.pi * (((0 : ℕ) : ℝ) - 2) / 4 = -Real.pi := by push_cast; ring
  have h1 : 2 * Real.pi * (((1 : ℕ) : ℝ) - 2) / 4 = -(Real.pi / 2) := by push_cast; ring
  have h2 : 2 * Real.pi * (((2 : ℕ) : ℝ) - 2) / 4 = 0 := by push_cast; ring
  have h3 : 2 * Real.pi * (((3 : ℕ) : ℝ) - 2) / 4 = Real.pi / 2 := by push_cast; ring
  rw [Fin.sum_univ_four]
  simp only [Fin.isValue, Fin.val_zero, Fin.val_one, Fin.val_two, show ((3 : Fin 4).val) = 3 from rfl]
  rw [h0, h1, h2, h3, Real.cos_neg, Real.cos_neg, Real.cos_pi, Real.cos_pi_div_two, Real.cos_zero]
  norm_num

theorem fringe8 : ∑ e : Fin 4, (2 + 2 * Real.cos (2 * Real.pi * ((e.val : ℝ) - 2) / 8)) = 10 + 2 * Real.sqrt 2 := by
  have h0 : 2 * Real.pi * (((0 : ℕ) : ℝ) - 2) / 8 = -(Real.pi / 2) := by push_cast; ring
  have h1 : 2 * Real.pi * (((1 : ℕ) : ℝ) - 2) / 8 = -(Real.pi / 4) := by push_cast; ring
  have h2 : 2 * Real.pi * (((2 : ℕ) : ℝ) - 2) / 8 = 0 := by push_cast; ring
  have h3 : 2 * Real.pi * (((3 : ℕ) : ℝ) - 2) / 8 = Real.pi / 4 := by push_cast; ring
  rw [Fin.sum_univ_four]
  simp only [Fin.isValue, Fin.val_zero, Fin.val_one, Fin.val_two, show ((3 : Fin 4).val) = 3 from rfl]
  rw [h0, h1, h2, h3, Real.cos_neg, Real.cos_neg, Real.cos_pi_div_four, Real.cos_pi_div_two, Real.cos_zero]
  ring

/-- the pupil energy of the example -/
theorem lit_energy : ∑ i : ZMod 4, ∑ j : ZMod 4, ‖lit i * lit j * 1‖ ^ 2 = 4 := by
  have l0 : lit ((0 : ℕ) : ZMod 4) = 0 := by unfold lit; rw [if_neg (by decide)]
  have l1 : lit ((1 : ℕ) : ZMod 4) = 0 := by unfold lit; rw [if_neg (by decide)]
  have l2 : lit ((2 : ℕ) : ZMod 4) = 1 := by unfold lit; rw [if_pos (by decide)]
  have l3 : lit ((3 : ℕ) : ZMod 4) = 1 := by unfold lit; rw [if_pos (by decide)]
  rw [← sum_fin_zmod]
  simp only [← sum_fin_zmod (N := 4) (fun j => ‖lit _ * lit j * 1‖ ^ 2)]
  simp only [Fin.sum_univ_four, Fin.isValue, Fin.val_zero, Fin.val_one, Fin.val_two, show ((3 : Fin 4).val) = 3 from rfl, l0, l1, l2, l3]
  norm_num

/-- The normalisation factor of `calc_psf_norm_factor` (imaging.py:158-161): the brightest pixel of the unnormalised evaluation image of the first star. -/
def IsNorm (c : ThputCfg N N4 Neta Nxi Meta Mxi N3 n) (b : EvalBand N N4 Neta Nxi Meta Mxi n) : Prop :=
  ∃ U : Fin Meta → Fin Mxi → ℂ, compact ({ b.sys with normFac := 0 } : Sys N N4 Neta Nxi Meta Mxi) c.layout c.name c.apod c.lambda0 c.X c.Y b.E
      { xi := 0, eta := 0, weight := 1, offaxis := none, xNorm := 0, yNorm := 0, zern := none } c.S1 c.S2 = .ok U ∧
    (∀ e x, ‖U e x‖ ^ 2 ≤ b.sys.normFac) ∧ ∃ e x, ‖U e x‖ ^ 2 = b.sys.normFac

theorem openCfg_norm (bands : List (EvalBand 4 4 1 1 4 4 4)) (K w : ℝ) (hK : 0 < K) : IsNorm (openCfg bands) ⟨openSys K (16 / K ^ 2), fun _ _ => 1, w⟩ := by
  refine ⟨fun e x => mftP2f (fun a b : Fin 4 => lit (a.val : ZMod 4) * lit (b.val : ZMod 4)) 1 K 1 1 4 1 4 .pixel e x / Real.sqrt 1, ?_, fun e x => ?_, 2, 2, ?_⟩
  · unfold compact compactAny
    have h0 : (Sys.withScale ({ openSys K (16 / K ^ 2) with normFac := 0 } : Sys 4 4 1 1 4 4) (Layout.compactScale (openCfg bands).layout (openCfg bands).name
        ({ openSys K (16 / K ^ 2) with normFac := 0 } : Sys 4 4 1 1 4 4).wvl (openCfg bands).lambda0)).normFac = 0 := rfl
    rw [if_pos h0, if_neg (by simp [openCfg]), ← openSys_out K 1 1]
    have : (einComp (openCfg bands).lambda0 ({ openSys K (16 / K ^ 2) with normFac := 0 } : Sys 4 4 1 1 4 4).wvl (openCfg bands).X (openCfg bands).Y (fun _ _ => 1 : Pl 4)
        ({ openSys K (16 / K ^ 2) with normFac := 0 } : Sys 4 4 1 1 4 4).normFac
        { xi := 0, eta := 0, weight := 1, offaxis := none, xNorm := 0, yNorm := 0, zern := none }) = fun _ _ => 1 := by
      unfold einComp einBase
      dsimp only
      rw [if_pos (show ({ openSys K (16 / K ^ 2) with normFac := 0 } : Sys 4 4 1 1 4 4).normFac = 0 from rfl)]
      funext i j
      simp [tilt, openCfg]
    dsimp only
    rw [this, padF_self]
    rfl
  · beta_reduce
    rw [Real.sqrt_one, ofReal_one, div_one, openSys_int K hK]
    change _ ≤ 16 / K ^ 2
    refine div_le_div_of_nonneg_right ?_ (sq_nonneg K)
    have h1 := Real.cos_le_one (2 * Real.pi * ((e.val : ℝ) - 2) / K)
    have h2 := Real.cos_le_one (2 * Real.pi * ((x.val : ℝ) - 2) / K)
    have h3 := Real.neg_one_le_cos (2 * Real.pi * ((e.val : ℝ) - 2) / K)
    have h4 := Real.neg_one_le_cos (2 * Real.pi * ((x.val : ℝ) - 2) / K)
    nlinarith
  · beta_reduce
    rw [Real.sqrt_one, ofReal_one, div_one, openSys_int K hK]
    change _ = 16 / K ^ 2
    norm_num

/-- **C96** violated with several sub-bands: two equally weighted sub-bands of a passive system, sampled without aliasing and normalised as `calc_psf_norm_factor` does: `calc_thput` reports more
than 100 %, because the mean normalisation factor is applied to the sum of the separately normalised images. -/
theorem C96_bands_violated : ∃ b1 b2 : EvalBand 4 4 1 1 4 4 4, b1.weight = 1 / 2 ∧ b2.weight = 1 / 2 ∧ b1.E = (fun _ _ => 1) ∧ b2.E = (fun _ _ => 1) ∧
    Legit (openCfg [b1, b2]) b1 ∧ Legit (openCfg [b1, b2]) b2 ∧ IsNorm (openCfg [b1, b2]) b1 ∧ IsNorm (openCfg [b1, b2]) b2 ∧
    ∃ t, calcThput (openCfg [b1, b2]) = .ok t ∧ 1.1 < t := by
  refine ⟨⟨openSys (4 : ℕ) (16 / ((4 : ℕ) : ℝ) ^ 2), fun _ _ => 1, 1 / 2⟩, ⟨openSys (8 : ℕ) (16 / ((8 : ℕ) : ℝ) ^ 2), fun _ _ => 1, 1 / 2⟩, rfl, rfl, rfl, rfl,
    openCfg_legit _ 4 (by norm_num) _ _, openCfg_legit _ 8 (by norm_num) _ _, openCfg_norm _ _ _ (by norm_num), openCfg_norm _ _ _ (by norm_num), ?_⟩
  set b1 : EvalBand 4 4 1 1 4 4 4 := ⟨openSys (4 : ℕ) (16 / ((4 : ℕ) : ℝ) ^ 2), fun _ _ => 1, 1 / 2⟩ with hb1
  set b2 : EvalBand 4 4 1 1 4 4 4 := ⟨openSys (8 : ℕ) (16 / ((8 : ℕ) : ℝ) ^ 2), fun _ _ => 1, 1 / 2⟩ with hb2
  set c := openCfg [b1, b2] with hc
  have hF : ∀ s ∈ c.stars, ∀ b ∈ c.bands, offaxisField c s b = .ok (fieldOf c s b) := by
    intro s hs b hb
    have hs' : s = (0, 0, 1) := by simpa [hc, openCfg] using hs
    subst hs'
    have hb' : b = b1 ∨ b = b2 := by simpa [hc, openCfg] using hb
    rcases hb' with rfl | rfl
    · unfold fieldOf; rw [hc, hb1, openCfg_field _ _ _ _ (by positivity)]
    · unfold fieldOf; rw [hc, hb2, openCfg_field _ _ _ _ (by positivity)]
  have f1 : ∀ e x, ‖fieldOf c (0, 0, 1) b1 e x‖ ^ 2 =
      (2 + 2 * Real.cos (2 * Real.pi * ((e.val : ℝ) - 2) / 4)) * (2 + 2 * Real.cos (2 * Real.pi * ((x.val : ℝ) - 2) / 4)) / 16 := by
    intro e x
    have : fieldOf c (0, 0, 1) b1 = fun e x => mftP2f (fun a b : Fin 4 => lit (a.val : ZMod 4) * lit (b.val : ZMod 4)) 1 (4 : ℕ) 1 1 4 1 4 .pixel e x / Real.sqrt (16 / ((4 : ℕ) : ℝ) ^ 2) := by
      unfold fieldOf; rw [hc, hb1, openCfg_field _ _ _ _ (by positivity)]
    rw [this, norm_div, div_pow, openSys_int _ (by norm_num), norm_real, Real.norm_eq_abs, sq_abs, Real.sq_sqrt (by positivity)]
    push_cast; ring
  have f2 : ∀ e x, ‖fieldOf c (0, 0, 1) b2 e x‖ ^ 2 =
      (2 + 2 * Real.cos (2 * Real.pi * ((e.val : ℝ) - 2) / 8)) * (2 + 2 * Real.cos (2 * Real.pi * ((x.val : ℝ) - 2) / 8)) / 16 := by
    intro e x
    have : fieldOf c (0, 0, 1) b2 = fun e x => mftP2f (fun a b : Fin 4 => lit (a.val : ZMod 4) * lit (b.val : ZMod 4)) 1 (8 : ℕ) 1 1 4 1 4 .pixel e x / Real.sqrt (16 / ((8 : ℕ) : ℝ) ^ 2) := by
      unfold fieldOf; rw [hc, hb2, openCfg_field _ _ _ _ (by positivity)]
    rw [this, norm_div, div_pow, openSys_int _ (by norm_num), norm_real, Real.norm_eq_abs, sq_abs, Real.sq_sqrt (by positivity)]
    push_cast; ring
  have him := C96_image c (fieldOf c) hF (by simp [hc, openCfg])
  classical
  refine ⟨_, thput_value c _ him (by decide +kernel), ?_⟩
  have hm : meanI00 c = 5 / 8 := by
    simp only [meanI00, hc, openCfg, List.map_cons, List.map_nil, List.sum_cons, List.sum_nil, List.length_cons, List.length_nil, hb1, hb2, openSys]
    norm_num
  have hp : sumPupil c = 4 := by
    rw [← lit_energy]
    unfold sumPupil
    refine Finset.sum_congr rfl fun i _ => Finset.sum_congr rfl fun j _ => ?_
    simp only [hc, openCfg, List.map_cons, List.map_nil, List.sum_cons, List.sum_nil, List.length_cons, List.length_nil, hb1, hb2]
    norm_num
  rw [hm, hp]
  have hsel : ∀ I e x, Selects c I e x := by
    intro I e x
    unfold Selects
    rw [if_neg (by simp [hc, openCfg]; decide +kernel)]
    simp [hc, openCfg]
  simp only [hsel, if_true]
  have hst : c.stars.take c.starCount = [(0, 0, 1)] := by simp [hc, openCfg]
  have hbs : c.bands = [b1, b2] := rfl
  rw [hst, hbs]
  simp only [List.map_cons, List.map_nil, List.sum_cons, List.sum_nil, add_zero, f1, f2]
  have w1 : b1.weight = 1 / 2 := rfl
  rw [w1]
  have prod : ∀ g : Fin 4 → ℝ, ∑ e, ∑ x, (1 / 2 : ℝ) * (g e * g x / 16) = (∑ e, g e) ^ 2 / 32 := by
    intro g
    rw [sq, Finset.sum_mul_sum, Finset.sum_div]
    refine Finset.sum_congr rfl fun e _ => ?_
    rw [Finset.sum_div]
    exact Finset.sum_congr rfl fun x _ => by ring
  simp only [Finset.sum_add_distrib]
  rw [prod (fun e => 2 + 2 * Real.cos (2 * Real.pi * ((e.val : ℝ) - 2) / 4)), prod (fun e => 2 + 2 * Real.cos (2 * Real.pi * ((e.val : ℝ) - 2) / 8)), fringe4, fringe8]
  have hs2 := Real.sq_sqrt (show (0 : ℝ) ≤ 2 by norm_num)
  have hs0 := Real.sqrt_nonneg 2
  have hs1 : 1.4 ≤ Real.sqrt 2 := by
    rw [show (1.4 : ℝ) = Real.sqrt (1.4 ^ 2) by rw [Real.sqrt_sq (by norm_num)]]
    exact Real.sqrt_le_sqrt (by norm_num)
  nlinarith

/-- **C95** violated when the camera array is larger than `λ·fl/(dx·dξ)` pixels (2 here): the passive example at `K = 2` sends 4 times the light of the pupil to the camera. -/
theorem C95_aliased_violated : Passive (openSys 2 1) (none : Option (Pl 4)) ∧ ∃ out : Fin 4 → Fin 4 → ℂ,
    compactApod (openSys 2 1) (none : Option (Pl 4)) (fun _ _ => 1) (fun _ _ => 0) (fun _ _ => 0) = .ok out ∧
      (openSys 2 1).normFac * ∑ e, ∑ x, ‖out e x‖ ^ 2 = 4 * ∑ i, ∑ j, ‖(openSys 2 1).pupil i j * 1‖ ^ 2 := by
  refine ⟨openSys_passive 2 1, _, openSys_out 2 1 1, ?_⟩
  have h1 : ∑ i, ∑ j, ‖(openSys 2 1).pupil i j * 1‖ ^ 2 = 4 := lit_energy
  rw [h1]
  have h2 : ∀ e x : Fin 4, ‖mftP2f (fun a b : Fin 4 => lit (a.val : ZMod 4) * lit (b.val : ZMod 4)) 1 2 1 1 4 1 4 .pixel e x / ((Real.sqrt 1 : ℝ) : ℂ)‖ ^ 2 =
      (2 + 2 * Real.cos (2 * Real.pi * ((e.val : ℝ) - 2) / 2)) * (2 + 2 * Real.cos (2 * Real.pi * ((x.val : ℝ) - 2) / 2)) / 2 ^ 2 := by
    intro e x
    rw [Real.sqrt_one, ofReal_one, div_one, openSys_int 2 (by norm_num)]
  simp only [h2]
  have h3 : ∑ e : Fin 4, (2 + 2 * Real.cos (2 * Real.pi * ((e.val : ℝ) - 2) / 2)) = 8 := by
    have h0 : 2 * Real.pi * (((0 : ℕ) : ℝ) - 2) / 2 = -(2 * Real.pi) := by push_cast; ring
    have h1 : 2 * Real.pi * (((1 : ℕ) : ℝ) - 2) / 2 = -Real.pi := by push_cast; ring
    have h2 : 2 * Real.pi * (((2 : ℕ) : ℝ) - 2) / 2 = 0 := by push_cast; ring
    have h3 : 2 * Real.pi * (((3 : ℕ) : ℝ) - 2) / 2 = Real.pi := by push_cast; ring
    rw [Fin.sum_univ_four]
    simp only [Fin.isValue, Fin.val_zero, Fin.val_one, Fin.val_two, show ((3 : Fin 4).val) = 3 from rfl]
    rw [h0, h1, h2, h3, Real.cos_neg, Real.cos_neg, Real.cos_pi, Real.cos_two_pi, Real.cos_zero]
    norm_num
  have prod : ∀ g : Fin 4 → ℝ, ∑ e, ∑ x, (g e * g x / 2 ^ 2) = (∑ e, g e) ^ 2 / 4 := by
    intro g
    rw [sq (∑ e, g e), Finset.sum_mul_sum, Finset.sum_div]
    refine Finset.sum_congr rfl fun e _ => ?_
    rw [Finset.sum_div]
    exact Finset.sum_congr rfl fun x _ => by ring
  rw [prod (fun e => 2 + 2 * Real.cos (2 * Real.pi * ((e.val : ℝ) - 2) / 2)), h3]
  norm_num [openSys]

/-- C95_energy is not empty: the example meets its hypotheses, and the light in the aperture is not zero. -/
example : Passive ((openSys (8 : ℕ) 1).withScale 1) (none : Option (Pl 4)) ∧ Sampled ((openSys (8 : ℕ) 1).withScale 1) (sizeP3 4 (none : Option (Pl 4))) 8 8 ∧
    0 < ∑ i, ∑ j, ‖(openSys (8 : ℕ) 1).pupil i j * 1‖ ^ 2 :=
  ⟨openSys_passive _ _, openSys_sampled 8 (by norm_num) 1, by rw [show ∑ i, ∑ j, ‖(openSys (8 : ℕ) 1).pupil i j * 1‖ ^ 2 = 4 from lit_energy]; norm_num⟩

/-- C96_bounded is not empty: the example with one sub-band; the throughput is at most 1. -/
example : ∃ t, calcThput (openCfg [⟨openSys (8 : ℕ) (16 / ((8 : ℕ) : ℝ) ^ 2), fun _ _ => 1, 1⟩]) = .ok t ∧ 0 ≤ t ∧ t ≤ 1 := by
  obtain ⟨t, h1, h2, h3⟩ := C96_bounded (openCfg [⟨openSys (8 : ℕ) (16 / ((8 : ℕ) : ℝ) ^ 2), fun _ _ => 1, 1⟩]) (16 / ((8 : ℕ) : ℝ) ^ 2) (by positivity) (fun _ _ => 1)
    (fun b hb => by
      have : b = ⟨openSys (8 : ℕ) (16 / ((8 : ℕ) : ℝ) ^ 2), fun _ _ => 1, 1⟩ := by simpa [openCfg] using hb
      subst this
      exact ⟨openCfg_legit _ 8 (by norm_num) _ _, rfl, rfl, zero_le_one⟩)
    (by simp [openCfg]) (fun s hs => by
      have : s = (0, 0, 1) := by simpa [openCfg] using hs
      subst this; exact zero_le_one)
    (by simp [openCfg]) (by decide +kernel) (by
      have := lit_energy
      simp only [openCfg]
      rw [this]; norm_num)
  exact ⟨t, h1, h2, by simpa [openCfg] using h3⟩

end Verif.Compact
