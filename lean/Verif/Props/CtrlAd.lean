import Verif.Model.Ctrl
import Verif.Props.CtrlState
import Verif.Props.CtrlSearch
import Verif.Props.CtrlPack
import Verif.Props.CtrlEfc

/-!
# C105: trials of the AD-EFC controller
-/

namespace Verif.Ctrl
open Verif

variable {n : ℕ}

/-- The contract of the bounded optimiser: the point is within the bounds put on every controlled actuator. -/
def Feasible (d : Dm.State n) (act : Fin n → Bool) (du : Fin n → ℝ) : Prop := ∀ i, act i = true → (adBounds d i).1 ≤ du i ∧ du i ≤ (adBounds d i).2

/-- The delta command of a DM: control weight times the optimiser's vector at the controlled actuators, nothing at the others. -/
def weighted (act : Fin n → Bool) (weight : ℝ) (du : Fin n → ℝ) : Fin n → ℝ := fun i => if act i then weight * du i else 0

theorem inRange_of_settled (d : Dm.State n) (h : Dm.enforce d = d) (i : Fin n) : Dm.InRange d i := by
  have hp : Dm.newPins d = [] := by
    have := congrArg Dm.State.pinned h
    simpa [Dm.enforce] using this
  unfold Dm.newPins at hp
  rw [List.append_eq_nil_iff, List.map_eq_nil_iff, List.map_eq_nil_iff, List.filter_eq_nil_iff, List.filter_eq_nil_iff] at hp
  have h1 := hp.1 i (List.mem_finRange i)
  have h2 := hp.2 i (List.mem_finRange i)
  simp only [decide_eq_true_eq, not_lt, gt_iff_lt] at h1 h2
  exact ⟨h1, h2⟩

theorem inRange_weighted (d : Dm.State n) (act : Fin n → Bool) (weight : ℝ) (hw : 0 ≤ weight ∧ weight ≤ 1) (du : Fin n → ℝ) (hf : Feasible d act du)
    (h : Dm.enforce d = d) (i : Fin n) : Dm.InRange { d with V := fun i => d.V i + weighted act weight du i } i := by
  have hr := inRange_of_settled d h i
  unfold Dm.InRange Dm.total at hr ⊢
  by_cases hd : d.dead i = true
  · simpa [hd] using hr
  · simp only [hd, Bool.false_eq_true, if_false] at hr ⊢
    unfold weighted
    by_cases ha : act i = true
    · have hb := hf i ha
      unfold adBounds at hb
      simp only at hb
      simp only [ha, if_true]
      constructor
      · nlinarith [hb.1, hb.2, hr.1, hr.2, hw.1, hw.2, mul_nonneg hw.1 (sub_nonneg.2 hb.1), mul_nonneg (sub_nonneg.2 hw.2) (sub_nonneg.2 hr.1)]
      · nlinarith [hb.1, hb.2, hr.1, hr.2, hw.1, hw.2, mul_nonneg hw.1 (sub_nonneg.2 hb.2), mul_nonneg (sub_nonneg.2 hw.2) (sub_nonneg.2 hr.2)]
    · simpa [ha] using hr

theorem adTrial_eq (opt : ℝ → Dm.State n → List (Fin n → ℝ) × (Fin n → ℝ)) (act : Fin n → Bool) (weight : ℝ) (img : Dm.State n → ℝ) (d : Dm.State n)
    (h : Dm.enforce d = d) (hw : 0 ≤ weight ∧ weight ≤ 1) (v : ℝ × ℝ) (hv : ∀ du ∈ (opt v.1 d).1, Feasible d act du) (hr : Feasible d act (opt v.1 d).2) :
    adTrial opt act weight img v d = ((img (Dm.enforce { d with V := fun i => d.V i + weighted act weight (opt v.1 d).2 i }), weighted act weight (opt v.1 d).2), d) := by
  have hfold : (opt v.1 d).1.foldl (adCost act) d = d := by
    have := C22_no_trace d ((opt v.1 d).1.map fun du => weighted act 1 du) (by
      intro t ht i
      obtain ⟨du, hdu, rfl⟩ := List.mem_map.1 ht
      exact inRange_weighted d act 1 ⟨by norm_num, le_refl 1⟩ du (hv du hdu) h i)
    rw [List.foldl_map] at this
    have e : adCost act = fun (x : Dm.State n) (y : Fin n → ℝ) => dmTrial x (weighted act 1 y) := by
      funext x y
      unfold adCost weighted
      simp only [one_mul]
    rw [e]; exact this
  have htr := C22_no_trace d [weighted act weight (opt v.1 d).2] (by
    intro t ht i
    rw [List.mem_singleton] at ht
    subst ht
    exact inRange_weighted d act weight hw _ hr h i)
  simp only [List.foldl_cons, List.foldl_nil] at htr
  unfold dmTrial at htr
  simp only at htr
  unfold adTrial
  simp only [h, hfold]
  refine Prod.ext rfl ?_
  exact htr

/-- C105. AD-EFC never uses the gain: for every optimiser, DM state, control weight, image function, regularisation and pair of gains a trial gives the same intensity, the same delta command and the same
DM state. -/
theorem C105_gain_ignored (opt : ℝ → Dm.State n → List (Fin n → ℝ) × (Fin n → ℝ)) (act : Fin n → Bool) (weight : ℝ) (img : Dm.State n → ℝ) (d : Dm.State n) (reg f f' : ℝ) :
    adTrial opt act weight img (reg, f) d = adTrial opt act weight img (reg, f') d := rfl

/-- C105. From a DM state that satisfies its constraints, with a control weight between 0 and 1 and an optimiser that stays within its bounds, a trial returns the weighted optimum and leaves the DM exactly
as it was. -/
theorem C105_no_trace (opt : ℝ → Dm.State n → List (Fin n → ℝ) × (Fin n → ℝ)) (act : Fin n → Bool) (weight : ℝ) (img : Dm.State n → ℝ) (d : Dm.State n)
    (h : Dm.enforce d = d) (hw : 0 ≤ weight ∧ weight ≤ 1) (reg f : ℝ) (hv : ∀ du ∈ (opt reg d).1, Feasible d act du) (hr : Feasible d act (opt reg d).2) :
    (adTrial opt act weight img (reg, f) d).2 = d ∧ (adTrial opt act weight img (reg, f) d).1.2 = weighted act weight (opt reg d).2 := by
  rw [adTrial_eq opt act weight img d h hw (reg, f) hv hr]
  exact ⟨rfl, rfl⟩

/-- The image average at the trial command of one regularisation. -/
noncomputable def adIntensity (opt : ℝ → Dm.State n → List (Fin n → ℝ) × (Fin n → ℝ)) (act : Fin n → Bool) (weight : ℝ) (img : Dm.State n → ℝ) (d : Dm.State n) (reg : ℝ) : ℝ :=
  img (Dm.enforce { d with V := fun i => d.V i + weighted act weight (opt reg d).2 i })

/-- C105. The AD-EFC grid search under the same conditions: it always reports the first gain requested, and the regularisation with the smallest intensity, whose weighted optimum is the command returned; the
DM is left as it was. -/
theorem C105_search (opt : ℝ → Dm.State n → List (Fin n → ℝ) × (Fin n → ℝ)) (act : Fin n → Bool) (weight : ℝ) (img : Dm.State n → ℝ) (d : Dm.State n)
    (h : Dm.enforce d = d) (hw : 0 ≤ weight ∧ weight ≤ 1) (regs : List ℝ) (hne : regs ≠ []) (f : ℝ) (fs : List ℝ)
    (hv : ∀ reg ∈ regs, (∀ du ∈ (opt reg d).1, Feasible d act du) ∧ Feasible d act (opt reg d).2) :
    ∃ b, gridSearch (adTrial opt act weight img) regs (f :: fs) d = .ok (b, d) ∧ b.dmfac = f ∧ b.log10reg ∈ regs ∧
      b.cmd = weighted act weight (opt b.log10reg d).2 ∧ b.inorm = adIntensity opt act weight img d b.log10reg ∧
      ∀ reg ∈ regs, b.inorm ≤ adIntensity opt act weight img d reg := by
  obtain ⟨b, s', i, hg, hi, hreg, hfac, hb, hs, hmin⟩ := C21_best (adTrial opt act weight img) regs (f :: fs) d hne (by simp)
  have hst : ∀ k, stateBefore (adTrial opt act weight img) (valsList regs (f :: fs)) d k = d := by
    intro k
    unfold stateBefore
    have : ∀ l : List (ℝ × ℝ), (∀ v ∈ l, v.1 ∈ regs) → l.foldl (fun s v => (adTrial opt act weight img v s).2) d = d := by
      intro l hl
      induction l with
      | nil => rfl
      | cons v t ih =>
        rw [List.foldl_cons, adTrial_eq opt act weight img d h hw v (hv v.1 (hl v (by simp))).1 (hv v.1 (hl v (by simp))).2]
        exact ih fun w hw' => hl w (by simp [hw'])
    exact this _ fun v hv' => ((mem_valsList regs (f :: fs) v).1 (List.mem_of_mem_take hv')).1
  have hval : ∀ v : ℝ × ℝ, v.1 ∈ regs → adTrial opt act weight img v d = ((adIntensity opt act weight img d v.1, weighted act weight (opt v.1 d).2), d) :=
    fun v hv' => adTrial_eq opt act weight img d h hw v (hv v.1 hv').1 (hv v.1 hv').2
  rw [hst] at hb hs
  rw [hval (b.log10reg, b.dmfac) hreg] at hb
  simp only [Prod.mk.injEq] at hb
  subst hs
  have hpos : 0 < regs.length := List.length_pos_iff.2 hne
  have hpair := C21_pairs regs (f :: fs)
  -- the index found is in the first block
  have hlt : i < regs.length := by
    by_contra hge
    push Not at hge
    have hilt : i < (valsList regs (f :: fs)).length := (List.getElem?_eq_some_iff.1 hi).1
    rw [hpair.1] at hilt
    have hmod := Nat.mod_lt i hpos
    have hdiv : i / regs.length < (f :: fs).length := Nat.div_lt_of_lt_mul (by rw [Nat.mul_comm] at hilt; rwa [Nat.mul_comm])
    have e1 := hpair.2 (i % regs.length) (i / regs.length) hmod hdiv
    rw [Nat.div_add_mod'] at e1
    rw [hi] at e1
    simp only [Option.some.injEq, Prod.mk.injEq] at e1
    have e0 := hpair.2 (i % regs.length) 0 hmod (by simp)
    rw [Nat.zero_mul, Nat.zero_add] at e0
    have := (hmin (i % regs.length) _ e0).2 (lt_of_lt_of_le hmod hge)
    rw [hst, hval _ (List.getElem_mem _)] at this
    simp only at this
    rw [hb.1, e1.1] at this
    exact lt_irrefl _ this
  have e0 := hpair.2 i 0 hlt (by simp)
  rw [Nat.zero_mul, Nat.zero_add, hi] at e0
  simp only [List.getElem_cons_zero, Option.some.injEq, Prod.mk.injEq] at e0
  refine ⟨b, hg, e0.2, hreg, hb.2, hb.1, fun reg hr => ?_⟩
  obtain ⟨k, hk, rfl⟩ := List.getElem_of_mem hr
  have ek := hpair.2 k 0 hk (by simp)
  rw [Nat.zero_mul, Nat.zero_add] at ek
  have := (hmin k _ ek).1
  rw [hst, hval _ hr] at this
  exact this

/-- A requested gain of one half, expected by the documentation of `dmfac` ("Scaling factor for entire DM command"), does not halve the command: one actuator at 0 V, limits ±10 V, optimum 4 V. -/
theorem C105_gain_violated : ∃ (opt : ℝ → Dm.State 1 → List (Fin 1 → ℝ) × (Fin 1 → ℝ)) (d : Dm.State 1), Dm.enforce d = d ∧
    (∀ reg, Feasible d (fun _ => true) (opt reg d).2) ∧
    (adTrial opt (fun _ => true) 1 (fun _ => 0) (0, 1) d).1.2 0 = 4 ∧ (adTrial opt (fun _ => true) 1 (fun _ => 0) (0, 1 / 2) d).1.2 0 = 4 := by
  refine ⟨fun _ _ => ([], fun _ => 4), ⟨fun _ => 0, fun _ => 0, -10, 10, fun _ => false, [], []⟩, ?_, ?_, ?_, ?_⟩
  · have hp : Dm.newPins (n := 1) ⟨fun _ => 0, fun _ => 0, -10, 10, fun _ => false, [], []⟩ = [] := by
      unfold Dm.newPins Dm.zeroDead
      norm_num
    unfold Dm.enforce
    rw [hp]
    simp [Dm.scatter]
    rfl
  · intro reg i _
    unfold adBounds
    norm_num
  · simp [adTrial]
  · simp [adTrial]

/-- C105. AD-EFC with a single DM: whenever DM2 is not in `dm_ind` (its number does not occur in the legend) but has controlled actuators, the cost function raises, for every command vector; likewise for DM1. -/
theorem C105_one_dm_violated (leg : List ℕ) (num total : ℕ) (actEle : List ℕ) (command : List ℝ) (hn : num ∉ leg) (ha : actEle ≠ []) :
    revCommand leg num total actEle command = .error (if command.length = leg.length then .valueError else .indexError) := by
  unfold revCommand maskSelect
  by_cases hl : command.length = leg.length
  · have hnil : (command.zip leg).filter (fun p => p.2 == num) = [] := by
      rw [List.filter_eq_nil_iff]
      intro p hp
      have := (List.of_mem_zip hp).2
      simp only [beq_iff_eq]
      rintro rfl
      exact hn this
    simp only [hl, if_true, bind, Except.bind, hnil]
    unfold scatterList
    rw [if_pos (by simpa using ha)]
  · simp only [hl, if_false, bind, Except.bind]

/-- Where a list of values `p` goes: entry `k` to actuator `act[k]`, zero elsewhere. -/
def Placed (total : ℕ) (act : List ℕ) (p dv : List ℝ) : Prop :=
  dv.length = total ∧ (∀ (k : ℕ) (hk : k < act.length), dv[act[k]]? = p[k]?) ∧ ∀ i, i < total → i ∉ act → dv[i]? = some 0

theorem filter_leg (num : ℕ) (p1 p2 : List ℝ) (a b : ℕ) (h1 : p1.length = a) (h2 : p2.length = b) :
    ((((p1 ++ p2).zip (List.replicate a 1 ++ List.replicate b 2)).filter fun p => p.2 == num).map Prod.fst) = (if num = 1 then p1 else []) ++ if num = 2 then p2 else [] := by
  rw [List.zip_append (by simp [h1]), List.filter_append, List.map_append]
  have key : ∀ (p : List ℝ) (k c : ℕ), p.length = k → (((p.zip (List.replicate k c)).filter fun q => q.2 == num).map Prod.fst) = if num = c then p else [] := by
    intro p k c hk
    have hz : ∀ q ∈ p.zip (List.replicate k c), q.2 = c := fun q hq => List.eq_of_mem_replicate (List.of_mem_zip hq).2
    by_cases hc : num = c
    · rw [if_pos hc, List.filter_eq_self.2 fun q hq => by simp [hz q hq, hc], List.map_fst_zip (by simp [hk])]
    · rw [if_neg hc, List.filter_eq_nil_iff.2 fun q hq => by simpa [hz q hq] using fun e => hc e.symm, List.map_nil]
  rw [key p1 a 1 h1, key p2 b 2 h2]

theorem scatterList_placed (total : ℕ) (act : List ℕ) (hn : act.Nodup) (ha : ∀ i ∈ act, i < total) (p : List ℝ) (hp : p.length = act.length) :
    ∃ dv, scatterList (List.replicate total 0) act p = .ok dv ∧ Placed total act p dv := by
  unfold scatterList
  rw [if_neg (by simp [hp]), if_neg (by simpa using ha)]
  obtain ⟨h1, h2, h3⟩ := foldl_set_spec act p hp.symm hn (List.replicate total 0) (by simpa using ha)
  refine ⟨_, rfl, by rw [h1]; simp, fun k hk => ?_, fun i hi hni => ?_⟩
  · rw [h2 k hk, List.getElem?_eq_getElem (by omega)]
  · rw [h3 i hni]; simp [hi]

/-- C105. With both DMs in `dm_ind`: the cost is evaluated at the command the vector says, the first part going to DM1's controlled actuators in order and the second part to DM2's (without control weights). -/
theorem C105_command (total1 total2 : ℕ) (act1 act2 : List ℕ) (hn1 : act1.Nodup) (hn2 : act2.Nodup) (ha1 : ∀ i ∈ act1, i < total1) (ha2 : ∀ i ∈ act2, i < total2)
    (p1 p2 : List ℝ) (h1 : p1.length = act1.length) (h2 : p2.length = act2.length) :
    ∃ dv1 dv2, revCommand (List.replicate act1.length 1 ++ List.replicate act2.length 2) 1 total1 act1 (p1 ++ p2) = .ok dv1 ∧
      revCommand (List.replicate act1.length 1 ++ List.replicate act2.length 2) 2 total2 act2 (p1 ++ p2) = .ok dv2 ∧ Placed total1 act1 p1 dv1 ∧ Placed total2 act2 p2 dv2 := by
  obtain ⟨dv1, e1, q1⟩ := scatterList_placed total1 act1 hn1 ha1 p1 h1
  obtain ⟨dv2, e2, q2⟩ := scatterList_placed total2 act2 hn2 ha2 p2 h2
  have hl : (p1 ++ p2).length = (List.replicate act1.length 1 ++ List.replicate act2.length 2 : List ℕ).length := by simp [h1, h2]
  refine ⟨dv1, dv2, ?_, ?_, q1, q2⟩
  · unfold revCommand maskSelect
    simp only [if_pos hl, bind, Except.bind, filter_leg 1 p1 p2 _ _ h1 h2]
    simpa using e1
  · unfold revCommand maskSelect
    simp only [if_pos hl, bind, Except.bind, filter_leg 2 p1 p2 _ _ h1 h2]
    simpa using e2

/-- The hypotheses of `C105_search` are met by default DM settings: four actuators at 0 V with the default bias, full weight and any clipped target. -/
example : Dm.enforce (Dm.defaultDm (n := 4) fun _ => 0) = Dm.defaultDm (n := 4) (fun _ => 0) ∧
    Feasible (Dm.defaultDm (n := 4) fun _ => 0) (fun i => i.val ≠ 2) (fun i => 100 * (i.val : ℝ) - 50) := by
  constructor
  · have hp : Dm.newPins (Dm.defaultDm (n := 4) fun _ => 0) = [] := by
      unfold Dm.newPins Dm.zeroDead Dm.defaultDm
      norm_num
    unfold Dm.enforce
    rw [hp]
    simp [Dm.scatter, Dm.zeroDead, Dm.defaultDm]
    rfl
  · intro i _
    unfold adBounds Dm.defaultDm
    fin_cases i <;> norm_num

/-! ## C106: scale of the AD-EFC penalty -/

section C106
variable {P Md : Type} [Fintype P] [Fintype Md]

/-- Weighted response of one actuator: mode weights times the summed intensity of its Jacobian column. -/
noncomputable def columnStrength (w : Md → ℝ) (c : P → Md → ℂ) : ℝ := ∑ m, w m * ∑ p, Complex.normSq (c p m)

/-- The columns of the actuators selected for the scale. -/
def chosenColumns (use1 use2 : Bool) (sub1 sub2 : List ℕ) (G1 G2 : ℕ → P → Md → ℂ) : List (P → Md → ℂ) :=
  (if use1 then sub1.map G1 else []) ++ if use2 then sub2.map G2 else []

/-- C106. When the Jacobian can be computed, there is more than one pixel and each used DM has at least two selected actuators, `set_utu_scale_fac` succeeds, leaves the controlled actuators of both DMs as they
were, and sets the scale to the largest response among the selected actuators. -/
theorem C106_scale (use1 use2 : Bool) (sub1 sub2 : List ℕ) (jac : UtuMp → Except PyErr ((ℕ → P → Md → ℂ) × (ℕ → P → Md → ℂ))) (w : Md → ℝ) (s : UtuMp) (G1 G2 : ℕ → P → Md → ℂ)
    (hj : ∀ s', jac s' = .ok (G1, G2)) (hp : Fintype.card P ≠ 1) (h1 : use1 = true → 2 ≤ sub1.length) (h2 : use2 = true → 2 ≤ sub2.length) (hu : use1 = true ∨ use2 = true) :
    ∃ x, setUtu use1 use2 sub1 sub2 jac w s = (.ok (), { s with scale := some x }) ∧
      IsGreatest {y | ∃ c ∈ chosenColumns use1 use2 sub1 sub2 G1 G2, y = columnStrength w c} x := by
  have hne : utuDiag w (chosenColumns use1 use2 sub1 sub2 G1 G2) ≠ [] := by
    unfold utuDiag chosenColumns
    rw [Ne, List.map_eq_nil_iff]
    rcases hu with rfl | rfl
    · intro e
      have := h1 rfl
      simp only [if_true, List.append_eq_nil_iff, List.map_eq_nil_iff] at e
      rw [e.1] at this
      simp at this
    · intro e
      have := h2 rfl
      simp only [if_true, List.append_eq_nil_iff, List.map_eq_nil_iff] at e
      rw [e.2] at this
      simp at this
  obtain ⟨x, hx⟩ : ∃ x, (utuDiag w (chosenColumns use1 use2 sub1 sub2 G1 G2)).max? = some x := by
    cases h : (utuDiag w (chosenColumns use1 use2 sub1 sub2 G1 G2)).max? with
    | none => exact absurd (List.max?_eq_none_iff.1 h) hne
    | some x => exact ⟨x, rfl⟩
  refine ⟨x, ?_, ?_⟩
  · unfold setUtu hstackCheck
    unfold chosenColumns at hx
    cases use1 <;> cases use2 <;> simp only [Bool.false_eq_true, if_false, if_true, hj, bind, Except.bind, pure, Except.pure, or_false, hp, false_or] at hx ⊢
    · simp at hu
    · have := h2 rfl
      rw [if_neg (by omega)]
      simp only [hx]
    · have := h1 rfl
      rw [if_neg (by omega)]
      simp only [hx]
    · have := h1 rfl
      have := h2 rfl
      rw [if_neg (by omega)]
      simp only
      rw [if_neg (by omega)]
      simp only [hx]
  · rw [List.max?_eq_some_iff] at hx
    constructor
    · obtain ⟨c, hc, e⟩ := List.mem_map.1 hx.1
      exact ⟨c, hc, e.symm⟩
    · rintro y ⟨c, hc, rfl⟩
      exact hx.2 _ (List.mem_map.2 ⟨c, hc, rfl⟩)

/-- C106. With all actuators selected and uniform spatial weights the AD-EFC penalty `scale·10^reg` is the EFC penalty of C19 for the same regularisation. -/
theorem C106_same_penalty {St : Type*} {k : ℕ} [NeZero k] (pr : Problem P (Fin k) Md St) (hW : ∀ p t, pr.W p t = 1) (x reg : ℝ)
    (hx : IsGreatest {y | ∃ c ∈ List.ofFn (fun i : Fin k => fun p m => pr.G p i m), y = columnStrength pr.w c} x) : x * (10 : ℝ) ^ reg = penalty pr reg := by
  unfold penalty
  rw [mul_comm]
  congr 1
  have hs : ∀ i, strength pr i = columnStrength pr.w fun p m => pr.G p i m := by
    intro i
    unfold strength columnStrength
    simp [hW]
  apply le_antisymm
  · obtain ⟨c, hc, rfl⟩ := hx.1
    obtain ⟨i, rfl⟩ := (List.mem_ofFn' _ _).1 hc
    rw [← hs]
    exact Finset.le_sup' (strength pr) (Finset.mem_univ i)
  · refine Finset.sup'_le _ _ fun i _ => ?_
    rw [hs]
    exact hx.2 ⟨_, (List.mem_ofFn' _ _).2 ⟨i, rfl⟩, rfl⟩

/-- C106 fails when the Jacobian raises: the exception is passed on, and DM1 is left with the selected subset as its controlled actuators. -/
theorem C106_abort_violated (use2 : Bool) (sub1 sub2 : List ℕ) (jac : UtuMp → Except PyErr ((ℕ → P → Md → ℂ) × (ℕ → P → Md → ℂ))) (w : Md → ℝ) (s : UtuMp) (e : PyErr)
    (hj : ∀ s', jac s' = .error e) :
    (setUtu true use2 sub1 sub2 jac w s).1 = .error e ∧ (setUtu true use2 sub1 sub2 jac w s).2.act1 = sub1 ∧ (setUtu true use2 sub1 sub2 jac w s).2.nele1 = sub1.length := by
  unfold setUtu
  cases use2 <;> simp only [Bool.false_eq_true, if_false, if_true, hj, bind, Except.bind, and_self]

/-- C106 fails for exactly one selected actuator of DM1: `ValueError`, whatever the Jacobian is, and the subset stays in place. -/
theorem C106_single_violated (use2 : Bool) (a : ℕ) (sub2 : List ℕ) (jac : UtuMp → Except PyErr ((ℕ → P → Md → ℂ) × (ℕ → P → Md → ℂ))) (w : Md → ℝ) (s : UtuMp)
    (G1 G2 : ℕ → P → Md → ℂ) (hj : ∀ s', jac s' = .ok (G1, G2)) :
    (setUtu true use2 [a] sub2 jac w s).1 = .error .valueError ∧ (setUtu true use2 [a] sub2 jac w s).2.act1 = [a] := by
  unfold setUtu hstackCheck
  cases use2 <;> simp [hj, bind, Except.bind]

/-- A case with two pixels and two selected actuators of DM1: responses 1 and 5 give scale 5, and the three controlled actuators are kept. -/
example : ∃ x, setUtu (P := Fin 2) (Md := Unit) true false [0, 2] [] (fun _ => .ok (fun a p _ => if a = 2 then (p.val : ℂ) + 1 else if p = 0 then 1 else 0, fun _ _ _ => 0)) (fun _ => 1)
    ⟨[0, 1, 2], [], 3, 0, none⟩ = (.ok (), ⟨[0, 1, 2], [], 3, 0, some x⟩) ∧ x = 5 := by
  obtain ⟨x, h, hg⟩ := C106_scale (P := Fin 2) (Md := Unit) true false [0, 2] [] (fun _ => .ok (fun a p _ => if a = 2 then (p.val : ℂ) + 1 else if p = 0 then 1 else 0, fun _ _ _ => 0)) (fun _ => 1)
    ⟨[0, 1, 2], [], 3, 0, none⟩ _ _ (fun _ => rfl) (by simp) (by simp) (by simp) (by simp)
  refine ⟨x, h, ?_⟩
  have e5 : columnStrength (P := Fin 2) (Md := Unit) (fun _ => 1) (fun p _ => (p.val : ℂ) + 1) = 5 := by
    unfold columnStrength
    simp only [Finset.univ_unique, Finset.sum_singleton, Fin.sum_univ_two]
    norm_num [Complex.normSq_apply]
  have e1 : columnStrength (P := Fin 2) (Md := Unit) (fun _ => 1) (fun p _ => if p = 0 then 1 else 0) = 1 := by
    unfold columnStrength
    simp only [Finset.univ_unique, Finset.sum_singleton, Fin.sum_univ_two]
    norm_num [Complex.normSq_apply]
  apply le_antisymm
  · obtain ⟨c, hc, rfl⟩ := hg.1
    simp [chosenColumns] at hc
    rcases hc with rfl | rfl
    · rw [e1]; norm_num
    · rw [e5]
  · rw [← e5]
    exact hg.2 ⟨_, by simp [chosenColumns], rfl⟩

end C106

end Verif.Ctrl
