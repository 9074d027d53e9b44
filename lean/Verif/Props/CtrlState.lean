import Verif.Props.CtrlSearch
import Verif.Props.DmConstraints
import Mathlib.Data.Nat.Digits.Lemmas
import Mathlib.Data.List.Sort
import Mathlib.Tactic.Ring

/-!
# C22, C23, C25, C26, C27, C29, C63: what the controller leaves in the DMs, schedules, packing, culling, Jacobian sharing
-/

namespace Verif.Ctrl
open Verif Complex

/-! ## C22 -/

section C22
variable {n : ℕ}

/-- C22. After any number of trial commands the voltages and all settings of the DM are what they were; the pinned list can only have
grown. -/
theorem C22_voltages_restored (d : Dm.State n) (trials : List (Fin n → ℝ)) :
    ∃ extra, trials.foldl dmTrial d = { d with pinned := d.pinned ++ extra } := by
  induction trials generalizing d with
  | nil => exact ⟨[], by simp⟩
  | cons t ts ih =>
    rw [List.foldl_cons]
    obtain ⟨e, he⟩ := ih (dmTrial d t)
    refine ⟨Dm.newPins { d with V := fun i => d.V i + t i } ++ e, ?_⟩
    rw [he]
    simp [dmTrial, Dm.enforce, List.append_assoc]

/-- C22. If every trial keeps every actuator within its limits, trials leave no trace at all. -/
theorem C22_no_trace (d : Dm.State n) (trials : List (Fin n → ℝ))
    (h : ∀ t ∈ trials, ∀ i, Dm.InRange { d with V := fun i => d.V i + t i } i) : trials.foldl dmTrial d = d := by
  have one : ∀ t, (∀ i, Dm.InRange { d with V := fun i => d.V i + t i } i) → dmTrial d t = d := by
    intro t ht
    have : Dm.newPins { d with V := fun i => d.V i + t i } = [] := by
      rw [List.eq_nil_iff_forall_not_mem]
      intro p hp
      exact Dm.newPins_not_of_inRange _ p.1 (ht p.1) p hp rfl
    simp [dmTrial, Dm.enforce, this]
  induction trials with
  | nil => rfl
  | cons t ts ih =>
    rw [List.foldl_cons, one t (h t (by simp))]
    exact ih fun t ht => h t (by simp [ht])

theorem dmTrial_pinned (d : Dm.State n) (P : List (Fin n × ℝ)) (t : Fin n → ℝ) :
    dmTrial { d with pinned := P } t = { d with pinned := P ++ Dm.newPins { d with V := fun i => d.V i + t i } } := rfl

theorem foldl_dmTrial (d : Dm.State n) (trials : List (Fin n → ℝ)) (P : List (Fin n × ℝ)) :
    trials.foldl dmTrial { d with pinned := P } =
      { d with pinned := P ++ trials.flatMap fun t => Dm.newPins { d with V := fun i => d.V i + t i } } := by
  induction trials generalizing P with
  | nil => simp
  | cons t ts ih => rw [List.foldl_cons, dmTrial_pinned, ih, List.flatMap_cons, List.append_assoc]

/-- C22. Trials leave no trace exactly when no trial drives any actuator out of its limits. -/
theorem C22_no_trace_iff (d : Dm.State n) (trials : List (Fin n → ℝ)) :
    trials.foldl dmTrial d = d ↔ ∀ t ∈ trials, ∀ i, Dm.InRange { d with V := fun i => d.V i + t i } i := by
  refine ⟨fun h t ht i => ?_, C22_no_trace d trials⟩
  have h1 := (foldl_dmTrial d trials d.pinned).symm.trans h
  have h2 := congrArg Dm.State.pinned h1
  replace h2 : (trials.flatMap fun t => Dm.newPins { d with V := fun i => d.V i + t i }) = [] :=
    List.append_right_injective d.pinned (h2.trans (List.append_nil _).symm)
  by_contra hc
  have hm : ∃ v, (i, v) ∈ Dm.newPins { d with V := fun i => d.V i + t i } := by
    unfold Dm.InRange at hc
    rw [not_and_or, not_le, not_le] at hc
    rcases hc with hc | hc
    · exact ⟨_, Dm.mem_newPins.2 (Or.inl ⟨hc, rfl⟩)⟩
    · exact ⟨_, Dm.mem_newPins.2 (Or.inr ⟨hc, rfl⟩)⟩
  obtain ⟨v, hv⟩ := hm
  have : (i, v) ∈ trials.flatMap fun t => Dm.newPins { d with V := fun i => d.V i + t i } := List.mem_flatMap.2 ⟨t, ht, hv⟩
  rw [h2] at this
  cases this

/-- C22. The trace a trial leaves: an actuator (not a tied follower) that any trial drove out of its limits is from then on set to `Vmin` or
`Vmax` at every evaluation, whatever in-range command is written later. -/
theorem C22_trace (d : Dm.State n) (hv : d.Vmin ≤ d.Vmax) (trials : List (Fin n → ℝ)) (t : Fin n → ℝ) (ht : t ∈ trials) (i : Fin n)
    (ho : ¬ Dm.InRange { d with V := fun i => d.V i + t i } i) (hf : ¬ Dm.Follower d i) (cmd : Fin n → ℝ) :
    (Dm.enforce { trials.foldl dmTrial d with V := cmd }).V i = d.Vmin ∨
      (Dm.enforce { trials.foldl dmTrial d with V := cmd }).V i = d.Vmax := by
  rw [show trials.foldl dmTrial d = _ from foldl_dmTrial d trials d.pinned]
  set X := trials.flatMap fun t => Dm.newPins { d with V := fun i => d.V i + t i } with hX
  have hl : Dm.leader { d with V := cmd, pinned := d.pinned ++ X } i = i := by
    unfold Dm.leader
    rw [Dm.lastFor_eq_none.2]
    · rfl
    · intro p hp e
      obtain ⟨q, hq, rfl⟩ := List.mem_map.1 hp
      exact hf ⟨q.1, by rw [← e]; exact hq⟩
  have := Dm.C11_exact { d with V := cmd, pinned := d.pinned ++ X } hv i
  rw [hl] at this
  rw [this]
  unfold Dm.spec
  by_cases h1 : d.Vmax < Dm.total { d with V := cmd, pinned := d.pinned ++ X } i
  · rw [if_pos h1]; exact Or.inr rfl
  rw [if_neg h1]
  by_cases h2 : Dm.total { d with V := cmd, pinned := d.pinned ++ X } i < d.Vmin
  · rw [if_pos h2]; exact Or.inl rfl
  · rw [if_neg h2]
    dsimp only
    rw [Dm.lastFor_append]
    have hm : ∃ v, (i, v) ∈ X := by
      unfold Dm.InRange at ho
      rw [not_and_or, not_le, not_le] at ho
      rcases ho with hc | hc
      · exact ⟨_, List.mem_flatMap.2 ⟨t, ht, Dm.mem_newPins.2 (Or.inl ⟨hc, rfl⟩)⟩⟩
      · exact ⟨_, List.mem_flatMap.2 ⟨t, ht, Dm.mem_newPins.2 (Or.inr ⟨hc, rfl⟩)⟩⟩
    cases hc : Dm.lastFor X i with
    | none => obtain ⟨v, hv'⟩ := hm; exact absurd rfl (Dm.lastFor_eq_none.1 hc _ hv')
    | some w =>
      have hw := Dm.lastFor_eq_some_mem hc
      obtain ⟨s, -, hs⟩ := List.mem_flatMap.1 hw
      rcases Dm.mem_newPins.1 hs with ⟨-, e⟩ | ⟨-, e⟩
      · exact Or.inl e
      · exact Or.inr e

/-- one actuator with limits [-10, 10] and no bias -/
noncomputable def oneAct : Dm.State 1 :=
  { V := fun _ => 0, biasMap := fun _ => 0, Vmin := -10, Vmax := 10, dead := fun _ => false, pinned := [], tied := [] }

theorem oneAct_pins (v : ℝ) (P : List (Fin 1 × ℝ)) (hv : 10 < v) :
    Dm.newPins { oneAct with V := fun _ => v, pinned := P } = [(0, 10)] := by
  have h1 : ¬ (v < -10) := by linarith
  simp [Dm.newPins, Dm.zeroDead, oneAct, List.finRange_succ, h1, hv]

theorem oneAct_nopins (v : ℝ) (P : List (Fin 1 × ℝ)) (hv : -10 ≤ v ∧ v ≤ 10) :
    Dm.newPins { oneAct with V := fun _ => v, pinned := P } = [] := by
  have h1 : ¬ (v < -10) := by linarith [hv.1]
  have h2 : ¬ (10 < v) := by linarith [hv.2]
  simp [Dm.newPins, Dm.zeroDead, oneAct, List.finRange_succ, h1, h2]

/-- C22 is false: after a trial that exceeds the limit the actuator stays pinned, and a later in-range command of 1 V is turned
into 10 V although without the trial it would have been applied as is. -/
theorem C22_violated :
    ∃ (d : Dm.State 1) (trial cmd : Fin 1 → ℝ), (∀ i, Dm.InRange { d with V := cmd } i) ∧
      (Dm.enforce { d with V := cmd }).V 0 = 1 ∧ (Dm.enforce { dmTrial d trial with V := cmd }).V 0 = 10 := by
  refine ⟨oneAct, fun _ => 20, fun _ => 1, ?_, ?_, ?_⟩
  · intro i
    constructor <;> norm_num [Dm.total, oneAct]
  · have := oneAct_nopins 1 [] (by norm_num)
    unfold Dm.enforce
    simp only [oneAct] at this ⊢
    rw [this]
    simp [Dm.scatter, Dm.zeroDead]
  · have h1 := oneAct_pins 20 [] (by norm_num)
    have h2 := oneAct_nopins 1 [(0, 10)] (by norm_num)
    have e : ({ dmTrial oneAct (fun _ => 20) with V := fun _ => 1 } : Dm.State 1)
        = { oneAct with V := fun _ => 1, pinned := [(0, 10)] } := by
      simp only [dmTrial, Dm.enforce]
      have : ({ oneAct with V := fun i => oneAct.V i + 20 } : Dm.State 1) = { oneAct with V := fun _ => 20, pinned := [] } := by
        simp [oneAct]
      rw [this, h1]
      simp [oneAct]
    rw [e]
    unfold Dm.enforce
    rw [h2]
    simp [Dm.scatter, oneAct]

example : (∀ t ∈ [fun _ : Fin 1 => (3:ℝ), fun _ => -4], ∀ i, Dm.InRange { oneAct with V := fun i => oneAct.V i + t i } i) := by
  intro t ht i
  simp at ht
  rcases ht with rfl | rfl <;> constructor <;> norm_num [Dm.total, oneAct]

end C22

/-! ## C63: serial and parallel grid search -/

/-- When a trial leaves no trace, the serial and the parallel grid search return the same command, pair and state. -/
theorem parallel_agrees_of_no_trace {S C : Type} (trial : ℝ × ℝ → S → (ℝ × C) × S) (regs facs : List ℝ) (s : S)
    (h : ∀ v ∈ valsList regs facs, (trial v s).2 = s) : gridSearchPar trial regs facs s = gridSearch trial regs facs s := by
  have hl : ∀ l, (∀ v ∈ l, (trial v s).2 = s) → trialLoop trial l s = (l.map fun v => (trial v s).1, s) := by
    intro l hl
    induction l with
    | nil => rfl
    | cons v t ih => simp [trialLoop, hl v (by simp), ih fun v hv => hl v (by simp [hv])]
  unfold gridSearchPar gridSearch
  simp only [hl _ h]

/-- One trial of the grid search on a DM: the delta command `cmd v` of the pair `v` is applied, the image (any function of the DM state) is taken with
the constraints enforced, the command is taken back. -/
noncomputable def dmEval {n : ℕ} (cmd : ℝ × ℝ → Fin n → ℝ) (img : Dm.State n → ℝ) (v : ℝ × ℝ) (d : Dm.State n) : (ℝ × (Fin n → ℝ)) × Dm.State n :=
  ((img (Dm.enforce { d with V := fun i => d.V i + cmd v i }), cmd v), dmTrial d (cmd v))

theorem mem_valsList (regs facs : List ℝ) (v : ℝ × ℝ) : v ∈ valsList regs facs ↔ v.1 ∈ regs ∧ v.2 ∈ facs := by
  obtain ⟨x, y⟩ := v
  simp only [valsList, List.mem_flatMap, List.mem_map, Prod.mk.injEq]
  constructor
  · rintro ⟨b, hb, a, ha, rfl, rfl⟩; exact ⟨ha, hb⟩
  · rintro ⟨ha, hb⟩; exact ⟨y, hb, x, ha, rfl, rfl⟩

/-- C63. For every DM, every rule giving the delta command of a pair, every image function and every grid: the serial and the parallel grid search
return the same (command, pair, intensity and DM state) if and only if no trial drives any actuator out of its limits. -/
theorem C63_parallel_agrees_iff {n : ℕ} (cmd : ℝ × ℝ → Fin n → ℝ) (img : Dm.State n → ℝ) (regs facs : List ℝ) (d : Dm.State n) :
    gridSearchPar (dmEval cmd img) regs facs d = gridSearch (dmEval cmd img) regs facs d ↔
      ∀ r ∈ regs, ∀ f ∈ facs, ∀ i, Dm.InRange { d with V := fun i => d.V i + cmd (r, f) i } i := by
  constructor
  · intro h r hr f hf
    have hst : ∀ l d', (trialLoop (dmEval cmd img) l d').2 = (l.map cmd).foldl dmTrial d' := by
      intro l
      induction l with
      | nil => intro d'; rfl
      | cons v t ih => intro d'; simp [trialLoop, ih, dmEval]
    have hmem := (mem_valsList regs facs (r, f)).2 ⟨hr, hf⟩
    have hne : valsList regs facs ≠ [] := List.ne_nil_of_mem hmem
    have h2 : ((valsList regs facs).map cmd).foldl dmTrial d = d := by
      rw [← hst]
      have key : ∀ (rs : List (ℝ × (Fin n → ℝ))) (l : List (ℝ × ℝ)) , rs.length = l.length → l ≠ [] →
          ∃ i v r', argmin (rs.map Prod.fst) = .ok i ∧ l[i]? = some v ∧ rs[i]? = some r' := by
        intro rs l hlen hl
        obtain ⟨i, x, h1, h2, -⟩ := argmin_spec (rs.map Prod.fst) (by
          intro h0
          have := congrArg List.length h0
          rw [List.length_map, hlen] at this
          exact hl (List.length_eq_zero_iff.1 this))
        have hi : i < (rs.map Prod.fst).length := by
          by_contra hc
          rw [List.getElem?_eq_none (by omega)] at h2
          exact absurd h2 (by simp)
        rw [List.length_map] at hi
        exact ⟨i, _, _, h1, List.getElem?_eq_getElem (by omega), List.getElem?_eq_getElem hi⟩
      obtain ⟨i, v, r', e1, e2, e3⟩ := key ((valsList regs facs).map fun v => (dmEval cmd img v d).1) _ (by simp) hne
      obtain ⟨i', v', r'', e1', e2', e3'⟩ := key (trialLoop (dmEval cmd img) (valsList regs facs) d).1 _ (trialLoop_length _ _ _) hne
      unfold gridSearchPar gridSearch at h
      simp only [bind, Except.bind, pure, Except.pure, e1, e2, e3, e1', e2', e3'] at h
      have := (Prod.mk.inj (Except.ok.inj h)).2
      exact this.symm
    exact (C22_no_trace_iff d _).1 h2 (cmd (r, f)) (List.mem_map.2 ⟨_, hmem, rfl⟩)
  · intro h
    refine parallel_agrees_of_no_trace _ _ _ _ fun v hv => ?_
    obtain ⟨h1, h2⟩ := (mem_valsList regs facs v).1 hv
    exact C22_no_trace d [cmd v] (by simpa using h v.1 h1 v.2 h2)

/-- one trial of the controller on a one-actuator DM: command `dmfac` volts times `log10reg`, "intensity" = the resulting command -/
noncomputable def pinTrial (v : ℝ × ℝ) (d : Dm.State 1) : (ℝ × ℝ) × Dm.State 1 :=
  (((Dm.enforce { d with V := fun i => d.V i + v.1 }).V 0, v.1), dmTrial d fun _ => v.1)

/-- C63 is false in general: pins left by one serial trial change the intensities measured by later ones, so the serial search picks
20 V (pinned to 10 V) while the parallel one picks 1 V. -/
theorem C63_violated : ∃ b1 b2 s1 s2, gridSearch pinTrial [20, 1] [1] oneAct = .ok (b1, s1) ∧
    gridSearchPar pinTrial [20, 1] [1] oneAct = .ok (b2, s2) ∧ b1.cmd ≠ b2.cmd := by
  have p20 := oneAct_pins 20 [] (by norm_num)
  have n1 := oneAct_nopins 1 [] (by norm_num)
  have n1' := oneAct_nopins 1 [(0, 10)] (by norm_num)
  have e0 : ∀ x : ℝ, ({ oneAct with V := fun i => oneAct.V i + x } : Dm.State 1) = { oneAct with V := fun _ => x, pinned := [] } := by
    intro x; simp [oneAct]
  have r20 : (Dm.enforce { oneAct with V := fun i => oneAct.V i + 20 }).V 0 = 10 := by
    rw [e0]; unfold Dm.enforce; rw [p20]; simp [Dm.scatter, oneAct]
  have r1 : (Dm.enforce { oneAct with V := fun i => oneAct.V i + 1 }).V 0 = 1 := by
    rw [e0]; unfold Dm.enforce; rw [n1]; simp [Dm.scatter, oneAct, Dm.zeroDead]
  have hs : dmTrial oneAct (fun _ => 20) = { oneAct with pinned := [(0, 10)] } := by
    simp only [dmTrial, Dm.enforce]; rw [e0, p20]; simp [oneAct]
  have r1' : (Dm.enforce { (dmTrial oneAct fun _ => 20) with V := fun i => (dmTrial oneAct fun _ => 20).V i + 1 }).V 0 = 10 := by
    rw [hs]
    have : ({ ({ oneAct with pinned := [(0, 10)] } : Dm.State 1) with V := fun i => ({ oneAct with pinned := [(0, 10)] } : Dm.State 1).V i + 1 } : Dm.State 1)
        = { oneAct with V := fun _ => 1, pinned := [(0, 10)] } := by simp [oneAct]
    rw [this]; unfold Dm.enforce; rw [n1']; simp [Dm.scatter, oneAct]
  refine ⟨⟨20, 20, 1, 10⟩, ⟨1, 1, 1, 1⟩, (trialLoop pinTrial (valsList [20, 1] [1]) oneAct).2, oneAct, ?_, ?_, by norm_num⟩
  · unfold gridSearch
    simp only [valsList, List.flatMap_cons, List.flatMap_nil, List.map_cons, List.map_nil, List.append_nil, trialLoop, pinTrial, r20, r1',
      argmin, argminScan]
    norm_num
    rfl
  · unfold gridSearchPar
    simp only [valsList, List.flatMap_cons, List.flatMap_nil, List.map_cons, List.map_nil, List.append_nil, pinTrial, r20, r1,
      argmin, argminScan]
    norm_num
    rfl

/-! ## C23 -/

/-- first iteration of the row following `pre` -/
def startOf (pre : List Row) : ℕ := (pre.map Row.n).sum

theorem fillSlice_block {α : Type*} (A : List α) (m k : ℕ) (z v : α) (hk : k ≤ m) :
    fillSlice (A ++ List.replicate m z) A.length (A.length + k) v = A ++ List.replicate k v ++ List.replicate (m - k) z := by
  apply List.ext_getElem?
  intro i
  unfold fillSlice
  rw [List.getElem?_mapIdx]
  by_cases h1 : i < A.length
  · rw [List.getElem?_append_left h1, List.append_assoc, List.getElem?_append_left h1, List.getElem?_eq_getElem h1]
    simp; intro h; omega
  · rw [List.getElem?_append_right (by omega), List.append_assoc, List.getElem?_append_right (by omega)]
    by_cases h2 : i - A.length < k
    · rw [List.getElem?_append_left (by simpa using h2), List.getElem?_replicate, List.getElem?_replicate, if_pos (by omega), if_pos h2]
      simp; intro; omega
    · rw [List.getElem?_append_right (by simpa using h2), List.getElem?_replicate, List.getElem?_replicate, List.length_replicate]
      by_cases h3 : i - A.length < m
      · rw [if_pos h3, if_pos (by omega)]; simp; intro h; omega
      · rw [if_neg h3, if_neg (by omega)]; rfl

theorem sched_fold (pre post : List Row) (T : ℕ) (hT : startOf (pre ++ post) ≤ T) :
    ∃ a : SchedAcc, pre.foldl schedRow ⟨[], [], List.replicate T 0, List.replicate T 0, 0⟩ = a ∧ a.count = startOf pre ∧
      a.reg = pre.flatMap (fun r => List.replicate r.n r.log10reg) ++ List.replicate (T - startOf pre) 0 ∧
      a.dm = pre.flatMap (fun r => List.replicate r.n r.dm) ++ List.replicate (T - startOf pre) 0 ∧
      (∀ t, t ∈ a.relin ↔ ∃ p r q, pre = p ++ r :: q ∧ r.relin = true ∧ t = startOf p) ∧
      (∀ t, t ∈ a.grid ↔ ∃ p r q, pre = p ++ r :: q ∧ r.grid = true ∧ t = startOf p) := by
  induction pre using List.reverseRecOn generalizing post with
  | nil =>
    refine ⟨_, rfl, rfl, by simp [startOf], by simp [startOf], ?_, ?_⟩ <;> simp
  | append_singleton pre r ih =>
    obtain ⟨a, ha, hc, hr, hd, hrel, hgr⟩ := ih (r :: post) (by simpa [startOf] using hT)
    have hsum : startOf (pre ++ [r]) = startOf pre + r.n := by simp [startOf]
    have hle : startOf pre + r.n ≤ T := by
      have : startOf (pre ++ [r] ++ post) = startOf pre + r.n + startOf post := by simp [startOf, add_assoc]
      omega
    have hlen1 : (pre.flatMap (fun r => List.replicate r.n r.log10reg)).length = startOf pre := by
      simp [startOf, List.length_flatMap]
    have hlen2 : (pre.flatMap (fun r => List.replicate r.n r.dm)).length = startOf pre := by
      simp [startOf, List.length_flatMap]
    refine ⟨_, rfl, ?_, ?_, ?_, ?_, ?_⟩
    · rw [List.foldl_append, ha, hsum, ← hc]; rfl
    · rw [List.foldl_append, ha, List.foldl_cons, List.foldl_nil, hsum]
      simp only [schedRow]
      by_cases h0 : r.n = 0
      · simp [h0, hr]
      · rw [if_pos h0, hr, hc]
        have := fillSlice_block (pre.flatMap (fun r => List.replicate r.n r.log10reg)) (T - startOf pre) r.n 0 r.log10reg (by omega)
        rw [hlen1] at this
        rw [this, List.flatMap_append]
        simp only [List.flatMap_cons, List.flatMap_nil, List.append_nil]
        congr 2; omega
    · rw [List.foldl_append, ha, List.foldl_cons, List.foldl_nil, hsum]
      simp only [schedRow]
      by_cases h0 : r.n = 0
      · simp [h0, hd]
      · rw [if_pos h0, hd, hc]
        have := fillSlice_block (pre.flatMap (fun r => List.replicate r.n r.dm)) (T - startOf pre) r.n 0 r.dm (by omega)
        rw [hlen2] at this
        rw [this, List.flatMap_append]
        simp only [List.flatMap_cons, List.flatMap_nil, List.append_nil]
        congr 2; omega
    all_goals
      intro t
      rw [List.foldl_append, ha, List.foldl_cons, List.foldl_nil]
      simp only [schedRow]
    · constructor
      · intro h
        by_cases hrr : r.relin = true
        · rw [if_pos hrr, List.mem_append, List.mem_singleton] at h
          rcases h with h | h
          · obtain ⟨p, r', q, e, h1, h2⟩ := (hrel t).1 h
            exact ⟨p, r', q ++ [r], by rw [e]; simp, h1, h2⟩
          · exact ⟨pre, r, [], rfl, hrr, by rw [h, hc]⟩
        · rw [if_neg hrr] at h
          obtain ⟨p, r', q, e, h1, h2⟩ := (hrel t).1 h
          exact ⟨p, r', q ++ [r], by rw [e]; simp, h1, h2⟩
      · rintro ⟨p, r', q, e, h1, h2⟩
        rcases List.eq_nil_or_concat' q with rfl | ⟨q', x, rfl⟩
        · have e' := List.append_inj' e rfl
          obtain ⟨rfl, e2⟩ := e'
          simp at e2; subst e2
          rw [if_pos h1, List.mem_append]; right; simp [h2, hc]
        · have e' : pre ++ [r] = (p ++ r' :: q') ++ [x] := by rw [e]; simp
          have e2 := List.append_inj' e' rfl
          have hm := (hrel t).2 ⟨p, r', q', e2.1, h1, h2⟩
          split
          · exact List.mem_append_left _ hm
          · exact hm
    · constructor
      · intro h
        by_cases hrr : r.grid = true
        · rw [if_pos hrr, List.mem_append, List.mem_singleton] at h
          rcases h with h | h
          · obtain ⟨p, r', q, e, h1, h2⟩ := (hgr t).1 h
            exact ⟨p, r', q ++ [r], by rw [e]; simp, h1, h2⟩
          · exact ⟨pre, r, [], rfl, hrr, by rw [h, hc]⟩
        · rw [if_neg hrr] at h
          obtain ⟨p, r', q, e, h1, h2⟩ := (hgr t).1 h
          exact ⟨p, r', q ++ [r], by rw [e]; simp, h1, h2⟩
      · rintro ⟨p, r', q, e, h1, h2⟩
        rcases List.eq_nil_or_concat' q with rfl | ⟨q', x, rfl⟩
        · have e' := List.append_inj' e rfl
          obtain ⟨rfl, e2⟩ := e'
          simp at e2; subst e2
          rw [if_pos h1, List.mem_append]; right; simp [h2, hc]
        · have e' : pre ++ [r] = (p ++ r' :: q') ++ [x] := by rw [e]; simp
          have e2 := List.append_inj' e' rfl
          have hm := (hgr t).2 ⟨p, r', q', e2.1, h1, h2⟩
          split
          · exact List.mem_append_left _ hm
          · exact hm

/-- C23. The schedule is exactly the concatenation of the rows: each row contributes as many iterations as its first column says, with
its own regularisation and its own DM set, and the total is the sum of the first column. -/
theorem C23_expansion (rows : List Row) :
    (schedule rows).Nitr = (rows.map Row.n).sum ∧
    (schedule rows).log10regSched = rows.flatMap (fun r => List.replicate r.n r.log10reg) ∧
    (schedule rows).dm_ind_sched = rows.flatMap (fun r => List.replicate r.n (decDigits r.dm)) ∧
    (schedule rows).log10regSched.length = (schedule rows).Nitr ∧ (schedule rows).dm_ind_sched.length = (schedule rows).Nitr := by
  obtain ⟨a, ha, hc, hr, hd, -, -⟩ := sched_fold rows [] (rows.map Row.n).sum (by simp [startOf])
  have h1 : (schedule rows).log10regSched = rows.flatMap (fun r => List.replicate r.n r.log10reg) := by
    simp only [schedule, ha, hr]; simp [startOf]
  have h2 : (schedule rows).dm_ind_sched = rows.flatMap (fun r => List.replicate r.n (decDigits r.dm)) := by
    simp only [schedule, ha, hd]
    rw [List.map_append, List.map_flatMap]
    simp [startOf]
  refine ⟨rfl, h1, h2, ?_, ?_⟩
  · rw [h1]; simp [schedule, List.length_flatMap]
  · rw [h2]; simp [schedule, List.length_flatMap]

/-- C23. Relinearisation (grid search) is listed at exactly the iterations where a row flagged for it starts - also for rows of
zero length. -/
theorem C23_flags (rows : List Row) (t : ℕ) :
    (t ∈ (schedule rows).relinItrVec ↔ ∃ pre r post, rows = pre ++ r :: post ∧ r.relin = true ∧ t = (pre.map Row.n).sum) ∧
    (t ∈ (schedule rows).gridSearchItrVec ↔ ∃ pre r post, rows = pre ++ r :: post ∧ r.grid = true ∧ t = (pre.map Row.n).sum) := by
  obtain ⟨a, ha, hc, hr, hd, h1, h2⟩ := sched_fold rows [] (rows.map Row.n).sum (by simp [startOf])
  constructor
  · simp only [schedule, ha]; exact h1 t
  · simp only [schedule, ha]; exact h2 t

/-- C23. The DM list of an iteration spells the DM column in decimal: single digits that read back as the number, most significant
first. -/
theorem C23_digits (n : ℕ) : (∀ d ∈ decDigits n, d < 10) ∧ (decDigits n).foldl (fun v d => 10 * v + d) 0 = n ∧ decDigits n ≠ [] ∧
    (n ≠ 0 → (decDigits n).head? ≠ some 0) := by
  unfold decDigits
  by_cases h : n = 0
  · subst h; simp
  · rw [if_neg h]
    refine ⟨?_, ?_, ?_, ?_⟩
    · intro d hd
      exact Nat.digits_lt_base (by norm_num) (List.mem_reverse.1 hd)
    · rw [List.foldl_reverse]
      have : ∀ l : List ℕ, l.foldr (fun d v => 10 * v + d) 0 = Nat.ofDigits 10 l := by
        intro l
        induction l with
        | nil => rfl
        | cons x t ih => rw [List.foldr_cons, ih, Nat.ofDigits_cons]; simp [add_comm]
      rw [this, Nat.ofDigits_digits]
    · simp [Nat.digits_ne_nil_iff_ne_zero.2 h]
    · intro _
      rw [List.head?_reverse, List.getLast?_eq_getLast_of_ne_nil (Nat.digits_ne_nil_iff_ne_zero.2 h)]
      simp only [ne_eq, Option.some.injEq]
      exact Nat.getLast_digit_ne_zero 10 h

/-- the schedule `[[2, 1j, 12, 1, 1], [0, 0, 0, 1, 0], [3, -3, 1, 0, 0]]` -/
def sampleRows : List Row := [⟨2, I, 12, true, true⟩, ⟨0, 0, 0, true, false⟩, ⟨3, -3, 1, false, false⟩]

example : (schedule sampleRows).Nitr = 5 ∧ (schedule sampleRows).relinItrVec = [0, 2] ∧ (schedule sampleRows).gridSearchItrVec = [0] ∧
    (schedule sampleRows).log10regSched = [I, I, -3, -3, -3] ∧
    (schedule sampleRows).dm_ind_sched = [[1, 2], [1, 2], [1], [1], [1]] := by
  obtain ⟨-, h2, h3, -, -⟩ := C23_expansion sampleRows
  have d12 : decDigits 12 = [1, 2] := by simp [decDigits]
  have d1 : decDigits 1 = [1] := by simp [decDigits]
  refine ⟨by simp [schedule, sampleRows], by simp [schedule, schedRow, sampleRows], by simp [schedule, schedRow, sampleRows], ?_, ?_⟩
  · rw [h2]; simp [sampleRows, List.replicate_succ]
  · rw [h3]; simp [sampleRows, d12, d1, List.replicate_succ]

end Verif.Ctrl
