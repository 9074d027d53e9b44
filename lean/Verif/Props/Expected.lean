import Verif.Props.DmConstraints
import Verif.Props.Modes
import Verif.Model.Expected

/-!
# C89: the expected image of a trial command
-/

namespace Verif.Expected
open Verif Verif.Dm

variable {P : Type} {n1 n2 : ℕ}

theorem constrain_dm1 (c : Cfg P n1 n2) (w : World n1 n2) : (constrain c w).dm1 = if c.in1 then Dm.enforce w.dm1 else w.dm1 := rfl
theorem constrain_dm2 (c : Cfg P n1 n2) (w : World n1 n2) : (constrain c w).dm2 = if c.in2 then Dm.enforce w.dm2 else w.dm2 := rfl

theorem bands_eq (c : Cfg P n1 n2) (n : ℕ) (w : World n1 n2) :
    bands c n w = ((List.range n).map (fun (si : ℕ) => c.field si ((constrain c)^[si + 1] w).dm1.V ((constrain c)^[si + 1] w).dm2.V), (constrain c)^[n] w) := by
  induction n with
  | zero => rfl
  | succ n ih =>
    rw [bands, ih]
    simp only [List.range_succ, List.map_append, List.map_cons, List.map_nil, Function.iterate_succ_apply']

/-- A property of the two DMs that survives constraining survives any number of evaluations. -/
theorem iterate_keeps (c : Cfg P n1 n2) (Q : World n1 n2 → Prop) (h : ∀ w, Q w → Q (constrain c w)) (n : ℕ) (w : World n1 n2) (hw : Q w) : Q ((constrain c)^[n] w) := by
  induction n with
  | zero => exact hw
  | succ n ih => rw [Function.iterate_succ_apply']; exact h _ ih

/-- `e` differs from `d` at most in the command and in pins added at the end. -/
def OnlyPinsAdded {n : ℕ} (d e : State n) : Prop := ∃ extra V, e = { d with V := V, pinned := d.pinned ++ extra }

theorem onlyPins_constrain {n : ℕ} (d e : State n) (h : OnlyPinsAdded d e) : OnlyPinsAdded d (Dm.enforce e) := by
  obtain ⟨x, V, rfl⟩ := h
  refine ⟨x ++ newPins { d with V := V, pinned := d.pinned ++ x }, (Dm.enforce { d with V := V, pinned := d.pinned ++ x }).V, ?_⟩
  unfold Dm.enforce
  simp only [List.append_assoc]

/-- **C89** Computing the expected image leaves the commands of all DMs as they were; of the rest of the DM objects only the pinned lists can change, by growing. -/
theorem C89_restores (c : Cfg P n1 n2) (Eest : P → ℕ → ℂ) (d1 : Fin n1 → ℝ) (d2 : Fin n2 → ℝ) (w : World n1 n2) :
    ∃ x1 x2, (expected c Eest d1 d2 w).2 = { dm1 := { w.dm1 with pinned := w.dm1.pinned ++ x1 }, dm2 := { w.dm2 with pinned := w.dm2.pinned ++ x2 } } := by
  set Q : World n1 n2 → Prop := fun u => (if c.in1 then OnlyPinsAdded w.dm1 u.dm1 else u.dm1 = w.dm1) ∧ (if c.in2 then OnlyPinsAdded w.dm2 u.dm2 else u.dm2 = w.dm2) with hQ
  have hstep : ∀ u, Q u → Q (constrain c u) := by
    intro u hu
    simp only [hQ, constrain_dm1, constrain_dm2] at hu ⊢
    refine ⟨?_, ?_⟩
    · have := hu.1; split_ifs at this ⊢
      · exact onlyPins_constrain _ _ this
      · exact this
    · have := hu.2; split_ifs at this ⊢
      · exact onlyPins_constrain _ _ this
      · exact this
  have hrev : ∀ u, Q u → Q (revert c d1 d2 u) := by
    intro u hu
    simp only [hQ, revert] at hu ⊢
    refine ⟨?_, ?_⟩
    · have := hu.1; split_ifs at this ⊢
      · obtain ⟨x, V, h⟩ := this; rw [h]; exact ⟨x, _, rfl⟩
      · exact this
    · have := hu.2; split_ifs at this ⊢
      · obtain ⟨x, V, h⟩ := this; rw [h]; exact ⟨x, _, rfl⟩
      · exact this
  have h0 : Q w := by
    simp only [hQ]
    refine ⟨?_, ?_⟩
    · split_ifs
      · exact ⟨[], w.dm1.V, by simp⟩
    · split_ifs
      · exact ⟨[], w.dm2.V, by simp⟩
  have hend := iterate_keeps c Q hstep c.Nsbp _ (hrev _ (iterate_keeps c Q hstep c.Nsbp w h0))
  unfold expected
  simp only [bands_eq]
  set u := (constrain c)^[c.Nsbp] (revert c d1 d2 ((constrain c)^[c.Nsbp] w)) with hu
  simp only [hQ] at hend
  have e1 : ∃ x1, (if c.in1 = true then { u.dm1 with V := w.dm1.V } else u.dm1) = { w.dm1 with pinned := w.dm1.pinned ++ x1 } := by
    have := hend.1
    split_ifs at this ⊢
    · obtain ⟨x, V, h⟩ := this; exact ⟨x, by rw [h]⟩
    · exact ⟨[], by rw [this]; simp⟩
  have e2 : ∃ x2, (if c.in2 = true then { u.dm2 with V := w.dm2.V } else u.dm2) = { w.dm2 with pinned := w.dm2.pinned ++ x2 } := by
    have := hend.2
    split_ifs at this ⊢
    · obtain ⟨x, V, h⟩ := this; exact ⟨x, by rw [h]⟩
    · exact ⟨[], by rw [this]; simp⟩
  obtain ⟨x1, e1⟩ := e1
  obtain ⟨x2, e2⟩ := e2
  exact ⟨x1, x2, by rw [e1, e2]⟩

/-- The command of the DM obeys all its constraints: totals within the limits, dead actuators at zero, pinned ones at their pin, followers equal to their leaders. -/
def Obeys {n : ℕ} (d : State n) : Prop :=
  (∀ i, InRange d i) ∧ (∀ i, d.dead i = true → d.V i = 0) ∧ (∀ p ∈ d.pinned, d.V p.1 = p.2) ∧ ∀ p ∈ d.tied, d.V p.2 = d.V p.1

theorem scatter_same {n : ℕ} (x : Fin n → ℝ) (l : List (Fin n × ℝ)) (h : ∀ p ∈ l, x p.1 = p.2) : scatter x l = x := by
  induction l with
  | nil => rfl
  | cons p t ih =>
    obtain ⟨i, v⟩ := p
    rw [scatter]
    have : Function.update x i v = x := by
      have hv : x i = v := h (i, v) (by simp)
      rw [← hv]; exact Function.update_eq_self i x
    rw [this]
    exact ih fun p hp => h p (by simp [hp])

theorem enforce_of_obeys {n : ℕ} (d : State n) (h : Obeys d) : Dm.enforce d = d := by
  obtain ⟨h1, h2, h3, h4⟩ := h
  have hz : zeroDead d = d.V := by
    funext i
    unfold zeroDead
    split_ifs with hd
    · exact (h2 i hd).symm
    · rfl
  have hn : newPins d = [] := newPins_eq_nil h1
  unfold Dm.enforce
  simp only [hz, hn, List.append_nil]
  rw [scatter_same d.V d.pinned h3, scatter_same d.V]
  intro p hp
  obtain ⟨q, hq, rfl⟩ := List.mem_map.1 hp
  exact h4 q hq

/-- **C89** When the new and the previous command of every controlled DM obey the constraints, the expected image is, in the dark hole, the weighted sum over the sub-bands of the intensity of the
estimate plus the change of the model field from the previous to the new command, zero elsewhere; and the call changes nothing in the DM objects. -/
theorem C89_image (c : Cfg P n1 n2) (Eest : P → ℕ → ℂ) (d1 : Fin n1 → ℝ) (d2 : Fin n2 → ℝ) (w : World n1 n2)
    (h1 : c.in1 = true → Obeys w.dm1 ∧ Obeys { w.dm1 with V := fun i => w.dm1.V i - d1 i })
    (h2 : c.in2 = true → Obeys w.dm2 ∧ Obeys { w.dm2 with V := fun i => w.dm2.V i - d2 i }) :
    (∀ p, (expected c Eest d1 d2 w).1 p = if c.corr p then ∑ si ∈ Finset.range c.Nsbp, c.weight si *
      ‖Eest p si + (c.field si w.dm1.V w.dm2.V p -
        c.field si (fun i => w.dm1.V i - if c.in1 then d1 i else 0) (fun i => w.dm2.V i - if c.in2 then d2 i else 0) p)‖ ^ 2 else 0) ∧
    (expected c Eest d1 d2 w).2 = w := by
  have e1 : constrain c w = w := by
    unfold constrain
    have a : (if c.in1 = true then Dm.enforce w.dm1 else w.dm1) = w.dm1 := by
      split_ifs with h
      · exact enforce_of_obeys _ (h1 h).1
      · rfl
    have b : (if c.in2 = true then Dm.enforce w.dm2 else w.dm2) = w.dm2 := by
      split_ifs with h
      · exact enforce_of_obeys _ (h2 h).1
      · rfl
    rw [a, b]
  have e2 : constrain c (revert c d1 d2 w) = revert c d1 d2 w := by
    unfold constrain revert
    have a : (if c.in1 = true then Dm.enforce (if c.in1 = true then { w.dm1 with V := fun i => w.dm1.V i - d1 i } else w.dm1) else
        (if c.in1 = true then { w.dm1 with V := fun i => w.dm1.V i - d1 i } else w.dm1)) = if c.in1 = true then { w.dm1 with V := fun i => w.dm1.V i - d1 i } else w.dm1 := by
      split_ifs with h
      · exact enforce_of_obeys _ (h1 h).2
      · rfl
    have b : (if c.in2 = true then Dm.enforce (if c.in2 = true then { w.dm2 with V := fun i => w.dm2.V i - d2 i } else w.dm2) else
        (if c.in2 = true then { w.dm2 with V := fun i => w.dm2.V i - d2 i } else w.dm2)) = if c.in2 = true then { w.dm2 with V := fun i => w.dm2.V i - d2 i } else w.dm2 := by
      split_ifs with h
      · exact enforce_of_obeys _ (h2 h).2
      · rfl
    dsimp only
    rw [a, b]
  have r1 : (revert c d1 d2 w).dm1.V = fun i => w.dm1.V i - if c.in1 then d1 i else 0 := by
    unfold revert; dsimp only; funext i; split_ifs <;> simp
  have r2 : (revert c d1 d2 w).dm2.V = fun i => w.dm2.V i - if c.in2 then d2 i else 0 := by
    unfold revert; dsimp only; funext i; split_ifs <;> simp
  unfold expected
  simp only [bands_eq, Function.iterate_fixed e1, Function.iterate_fixed e2, r1, r2]
  constructor
  · intro p
    rw [Verif.Setup.sum_map_range]
    by_cases hp : c.corr p = true
    · rw [if_pos hp]
      refine Finset.sum_congr rfl fun si hsi => ?_
      have hs := Finset.mem_range.1 hsi
      rw [if_pos hp, Complex.normSq_eq_norm_sq]
      congr 3
      simp [List.getD_eq_getElem?_getD, hs]
    · rw [if_neg hp]
      exact Finset.sum_eq_zero fun si _ => by simp [hp]
  · have a : (if c.in1 = true then { (revert c d1 d2 w).dm1 with V := w.dm1.V } else (revert c d1 d2 w).dm1) = w.dm1 := by
      unfold revert; dsimp only; split_ifs <;> rfl
    have b : (if c.in2 = true then { (revert c d1 d2 w).dm2 with V := w.dm2.V } else (revert c d1 d2 w).dm2) = w.dm2 := by
      unfold revert; dsimp only; split_ifs <;> rfl
    rw [a, b]

/-- A default DM whose commands stay within ±500 V obeys its constraints. -/
theorem defaultDm_obeys {n : ℕ} (V : Fin n → ℝ) (h : ∀ i, |V i| ≤ 500) : Obeys (defaultDm V) := by
  refine ⟨fun i => ?_, fun i hd => by simp [defaultDm] at hd, fun p hp => by simp [defaultDm] at hp, fun p hp => by simp [defaultDm] at hp⟩
  have := abs_le.1 (h i)
  simp only [InRange, total, defaultDm]
  constructor <;> simp <;> linarith [this.1, this.2]

/-- State of a DM of the shipped type of which actuator `i` is stuck at 1000 V and the others are untouched. -/
def Stuck {n : ℕ} (i : Fin n) (V : Fin n → ℝ) (d : State n) : Prop :=
  ∃ x, d = { defaultDm (n := n) V with V := Function.update V i 1000, pinned := x } ∧ (∀ p ∈ x, p = (i, 1000)) ∧ x ≠ []

theorem scatter_const {n : ℕ} (i : Fin n) (y : Fin n → ℝ) (x : List (Fin n × ℝ)) (hx : ∀ p ∈ x, p = (i, 1000)) (hne : x ≠ []) : scatter y x = Function.update y i 1000 := by
  induction x generalizing y with
  | nil => exact absurd rfl hne
  | cons p t ih =>
    rw [hx p (by simp), scatter]
    by_cases ht : t = []
    · rw [ht]; rfl
    · rw [ih _ (fun q hq => hx q (by simp [hq])) ht, Function.update_idem]

theorem newPins_stuck {n : ℕ} (i : Fin n) (d : State n) (hdef : ∃ V x, d = { defaultDm (n := n) V with pinned := x }) (hj : ∀ j, j ≠ i → |d.V j| ≤ 500) (hi : -500 ≤ d.V i) :
    ∀ p ∈ newPins d, p = (i, 1000) := by
  obtain ⟨V, x, rfl⟩ := hdef
  rintro ⟨j, v⟩ hp
  have hnd : ∀ j, zeroDead { defaultDm (n := n) V with pinned := x } j = V j := fun j => by simp [zeroDead, defaultDm]
  rcases mem_newPins.1 hp with ⟨h, hv⟩ | ⟨h, hv⟩
  · exfalso
    rw [hnd] at h
    replace h : V j + 500 < 0 := h
    by_cases hji : j = i
    · subst hji
      have hi' : -500 ≤ V j := hi
      linarith
    · have := abs_le.1 (hj j hji)
      have h' : -500 ≤ V j := this.1
      linarith
  · by_cases hji : j = i
    · subst hji; rw [show v = 1000 from hv]
    · exfalso
      rw [hnd] at h
      replace h : V j + 500 > 1000 := h
      have := (abs_le.1 (hj j hji)).2
      have h' : V j ≤ 500 := this
      linarith

/-- Constraining a default DM whose actuator `i` was pinned, or is above the limit now. -/
theorem enforce_stuck {n : ℕ} (i : Fin n) (V : Fin n → ℝ) (x : List (Fin n × ℝ)) (hx : ∀ p ∈ x, p = (i, 1000)) (hj : ∀ j, j ≠ i → |V j| ≤ 500) (hi : -500 ≤ V i) (hne : x ≠ [] ∨ 500 < V i) :
    Stuck i V (Dm.enforce { defaultDm (n := n) V with pinned := x }) := by
  set d : State n := { defaultDm (n := n) V with pinned := x } with hd
  have hnd : zeroDead d = V := by funext j; simp [zeroDead, hd, defaultDm]
  have hnp := newPins_stuck i d ⟨V, x, rfl⟩ hj hi
  have hall : ∀ p ∈ x ++ newPins d, p = (i, 1000) := fun p hp => (List.mem_append.1 hp).elim (hx p) (hnp p)
  have hne' : x ++ newPins d ≠ [] := by
    rcases hne with h | h
    · simp [h]
    · have : (i, (1000 : ℝ)) ∈ newPins d := by
        refine mem_newPins.2 (Or.inr ⟨?_, rfl⟩)
        rw [hnd]
        show (1000 : ℝ) < V i + 500
        linarith
      intro h0
      have h1 := List.mem_append_right x this
      rw [h0] at h1
      simp at h1
  refine ⟨x ++ newPins d, ?_, hall, hne'⟩
  unfold Dm.enforce
  have ht : d.tied = [] := rfl
  have hp : d.pinned = x := rfl
  simp only [ht, hp, hnd, List.map_nil, scatter]
  rw [scatter_const i V _ hall hne']
  rfl

theorem iterate_stuck (c : Cfg P n1 n2) (hin : c.in1 = true) (h2 : c.in2 = false) (i : Fin n1) (V : Fin n1 → ℝ) (hj : ∀ j, j ≠ i → |V j| ≤ 500) (m : ℕ) (u : World n1 n2)
    (hu : Stuck i V u.dm1) : Stuck i V ((constrain c)^[m] u).dm1 ∧ ((constrain c)^[m] u).dm2 = u.dm2 := by
  refine iterate_keeps c (fun v => Stuck i V v.dm1 ∧ v.dm2 = u.dm2) (fun v hv => ?_) m u ⟨hu, rfl⟩
  rw [constrain_dm1, constrain_dm2, hin, h2]
  simp only [if_true, Bool.false_eq_true, if_false]
  refine ⟨?_, hv.2⟩
  obtain ⟨x, e, hx, hne⟩ := hv.1
  rw [e]
  have key := enforce_stuck i (Function.update V i 1000) x hx (fun j hji => by rw [Function.update_of_ne hji]; exact hj j hji) (by simp; norm_num) (Or.inl hne)
  obtain ⟨y, hy, hy2, hy3⟩ := key
  refine ⟨y, ?_, hy2, hy3⟩
  rw [Function.update_idem] at hy
  exact hy

/-- **C89** violated for commands beyond the limits.  Shipped DM limits and bias, one actuator moved by `δ ≤ 1500` so that it exceeds its range: both the new and the previous command are
evaluated at the rail, so the expected image predicts no change at all, whatever the optical model says. -/
theorem C89_rail_violated (c : Cfg P n1 n2) (hin : c.in1 = true) (h2 : c.in2 = false) (hs : 1 ≤ c.Nsbp) (Eest : P → ℕ → ℂ) (V0 : Fin n1 → ℝ) (hV0 : ∀ j, |V0 j| ≤ 500) (i : Fin n1) (δ : ℝ)
    (hover : 500 < V0 i + δ) (hδ : δ ≤ 1500) (d2 : Fin n2 → ℝ) (dm2 : State n2) (p : P) :
    (expected c Eest (Pi.single i δ) d2 { dm1 := defaultDm (fun j => V0 j + (Pi.single i δ : Fin n1 → ℝ) j), dm2 := dm2 }).1 p =
      if c.corr p then ∑ si ∈ Finset.range c.Nsbp, c.weight si * ‖Eest p si‖ ^ 2 else 0 := by
  set V : Fin n1 → ℝ := fun j => V0 j + (Pi.single i δ : Fin n1 → ℝ) j with hV
  have hVj : ∀ j, j ≠ i → V j = V0 j := fun j h => by simp [hV, Pi.single_eq_of_ne h]
  have hVi : V i = V0 i + δ := by simp [hV]
  have hj : ∀ j, j ≠ i → |V j| ≤ 500 := fun j h => by rw [hVj j h]; exact hV0 j
  set w : World n1 n2 := { dm1 := defaultDm V, dm2 := dm2 } with hw
  have hfirst : Stuck i V (constrain c w).dm1 := by
    rw [constrain_dm1, hin]
    simp only [if_true]
    exact enforce_stuck i V [] (by simp) hj (by rw [hVi]; linarith) (Or.inr (by rw [hVi]; exact hover))
  have hnew : ∀ m, Stuck i V ((constrain c)^[m + 1] w).dm1 ∧ ((constrain c)^[m + 1] w).dm2 = dm2 := by
    intro m
    rw [Function.iterate_succ_apply]
    have := iterate_stuck c hin h2 i V hj m (constrain c w) hfirst
    refine ⟨this.1, this.2.trans ?_⟩
    rw [constrain_dm2, h2]; rfl
  obtain ⟨k, hk⟩ : ∃ k, c.Nsbp = k + 1 := ⟨c.Nsbp - 1, by omega⟩
  set w1 := (constrain c)^[c.Nsbp] w with hw1
  have hw1s : Stuck i V w1.dm1 ∧ w1.dm2 = dm2 := by rw [hw1, hk]; exact hnew k
  set u := revert c (Pi.single i δ) d2 w1 with hu
  have hu2 : u.dm2 = dm2 := by rw [hu]; unfold revert; simp only [h2, Bool.false_eq_true, if_false]; exact hw1s.2
  have husecond : Stuck i V (constrain c u).dm1 := by
    rw [constrain_dm1, hin]
    simp only [if_true]
    obtain ⟨x, e, hx, hne⟩ := hw1s.1
    have e2 : u.dm1 = { defaultDm (n := n1) (Function.update V i (1000 - δ)) with pinned := x } := by
      rw [hu]; unfold revert
      simp only [hin, if_true, e]
      have : (fun j => Function.update V i 1000 j - (Pi.single i δ : Fin n1 → ℝ) j) = Function.update V i (1000 - δ) := by
        funext j
        by_cases hji : j = i
        · subst hji; simp
        · simp [Function.update_of_ne hji, Pi.single_eq_of_ne hji]
      simp only [this]
      rfl
    rw [e2]
    obtain ⟨y, hy, hy2, hy3⟩ := enforce_stuck i (Function.update V i (1000 - δ)) x hx (fun j h => by rw [Function.update_of_ne h]; exact hj j h) (by simp; linarith) (Or.inl hne)
    refine ⟨y, ?_, hy2, hy3⟩
    rw [Function.update_idem] at hy
    exact hy
  have hold : ∀ m, Stuck i V ((constrain c)^[m + 1] u).dm1 ∧ ((constrain c)^[m + 1] u).dm2 = dm2 := by
    intro m
    rw [Function.iterate_succ_apply]
    have := iterate_stuck c hin h2 i V hj m (constrain c u) husecond
    refine ⟨this.1, this.2.trans ?_⟩
    rw [constrain_dm2, h2]; exact hu2
  have hVs : ∀ d : State n1, Stuck i V d → d.V = Function.update V i 1000 := by
    rintro d ⟨x, rfl, -, -⟩; rfl
  unfold expected
  simp only [bands_eq]
  rw [Verif.Setup.sum_map_range]
  by_cases hp : c.corr p = true
  · rw [if_pos hp]
    refine Finset.sum_congr rfl fun si hsi => ?_
    have hsn := Finset.mem_range.1 hsi
    rw [if_pos hp, ← hw1, ← hu, Complex.normSq_eq_norm_sq]
    congr 3
    simp only [List.getD_eq_getElem?_getD, List.getElem?_map, List.getElem?_range hsn, Option.map_some, Option.getD_some]
    rw [hVs _ (hnew si).1, hVs _ (hold si).1, (hnew si).2, (hold si).2, sub_self, add_zero]
  · rw [if_neg hp]
    exact Finset.sum_eq_zero fun si _ => by simp [hp]

/-- A system with two actuators and one pixel meeting the hypotheses of `C89_image` with a command change of 200 V, and of `C89_rail_violated` with one of 600 V. -/
example : ∃ (c : Cfg Unit 2 2) (w : World 2 2) (d1 : Fin 2 → ℝ), c.in1 = true ∧ c.in2 = false ∧ c.Nsbp = 3 ∧ d1 0 = 200 ∧
    (Obeys w.dm1 ∧ Obeys { w.dm1 with V := fun i => w.dm1.V i - d1 i }) ∧ (500 : ℝ) < 0 + 600 := by
  refine ⟨⟨true, false, 3, fun _ => 1 / 3, fun _ => true, fun _ V _ _ => V 0⟩, ⟨defaultDm (fun _ => 100), defaultDm (fun _ => 0)⟩, fun i => if i = 0 then 200 else 0, rfl, rfl, rfl, rfl,
    ⟨defaultDm_obeys _ fun _ => by norm_num, ?_⟩, by norm_num⟩
  refine defaultDm_obeys (fun i => 100 - if i = 0 then 200 else 0) fun i => ?_
  fin_cases i <;> norm_num

/-! ## The columns of the estimate -/

open Verif.Setup

/-- **C89** With piston the only controlled Zernike, column `si` of the estimate (as used by the expected image) is that of sub-band `si`, star 0, piston. -/
theorem C89_columns (c : ModeCfg) (ms : List JMode) (h : 1 ≤ c.Nsbp) (hS : 1 ≤ c.Nstar) (a : ℝ) (hz : c.zerns = [(1, a)]) (hok : jacModes c = .ok ms) (si : ℕ) (hsi : si < c.Nsbp) :
    ∃ m, ms[si]? = some m ∧ m.star = 0 ∧ m.sbp = si ∧ m.zern = 1 := by
  classical
  obtain ⟨h1, h2, rfl⟩ := jacModes_ok c ms hok
  have hz0 : c.z 0 = 1 := by simp [ModeCfg.z, hz]
  have hp : PistonFirst c := ⟨by simp [hz], hz0⟩
  rw [weightMatInd_eq c h hp (by simp [hz])]
  have hact : Active c 0 := by simp [Active, zcoef, hz]
  have e : (List.range c.Nsbp).flatMap (fun si => ((List.range c.zerns.length).filter fun iz => Active c iz ∧ Controlled c.Nsbp si (c.z iz)).map
      fun iz => (si, iz, weightMat1 c si iz / colSum c iz)) = (List.range c.Nsbp).map fun si => (si, 0, weightMat1 c si 0 / colSum c 0) := by
    rw [← List.flatMap_singleton' ((List.range c.Nsbp).map _), List.flatMap_map]
    refine List.flatMap_congr fun s _ => ?_
    have : (List.range c.zerns.length).filter (fun iz => Active c iz ∧ Controlled c.Nsbp s (c.z iz)) = [0] := by
      rw [hz]
      simp [hact, Controlled, hz0]
    rw [this]
    rfl
  rw [e]
  obtain ⟨k, hk⟩ : ∃ k, c.Nstar = k + 1 := ⟨c.Nstar - 1, by omega⟩
  rw [hk, List.range_succ_eq_map, List.flatMap_cons, List.getElem?_append_left (by simp; exact hsi)]
  refine ⟨_, by simp only [List.map_map, List.getElem?_map, List.getElem?_range hsi, Option.map_some]; rfl, rfl, rfl, ?_⟩
  exact hz0

/-- **C89** violated with more controlled Zernikes: with piston and one further Zernike `z` over at least two sub-bands, column 1 of the estimate, which the expected image takes for sub-band 1, is that
of sub-band 0 and Zernike `z`. -/
theorem C89_columns_violated (c : ModeCfg) (ms : List JMode) (h : 2 ≤ c.Nsbp) (hS : 1 ≤ c.Nstar) (a b : ℝ) (z : ℕ) (hb : b ≠ 0) (hz1 : z ≠ 1) (hz : c.zerns = [(1, a), (z, b)])
    (hok : jacModes c = .ok ms) : ∃ m, ms[1]? = some m ∧ m.sbp = 0 ∧ m.zern = z := by
  classical
  obtain ⟨h1, h2, rfl⟩ := jacModes_ok c ms hok
  have hz0 : c.z 0 = 1 := by simp [ModeCfg.z, hz]
  have hzz : c.z 1 = z := by simp [ModeCfg.z, hz]
  have hp : PistonFirst c := ⟨by simp [hz], hz0⟩
  rw [weightMatInd_eq c (by omega) hp (by simp [hz]; exact fun h => hz1 h.symm)]
  have hact : Active c 0 := by simp [Active, zcoef, hz]
  have hact1 : Active c 1 := by simp [Active, zcoef, hz, hz1, hb]
  obtain ⟨k, hk⟩ : ∃ k, c.Nstar = k + 1 := ⟨c.Nstar - 1, by omega⟩
  obtain ⟨l, hl⟩ : ∃ l, c.Nsbp = l + 1 := ⟨c.Nsbp - 1, by omega⟩
  have e0 : (List.range c.zerns.length).filter (fun iz => Active c iz ∧ Controlled c.Nsbp 0 (c.z iz)) = [0, 1] := by
    rw [hz]
    have : List.range [(1, a), (z, b)].length = [0, 1] := rfl
    rw [this]
    simp [hact, hact1, Controlled]
  rw [hk, List.range_succ_eq_map (n := k), List.flatMap_cons]
  have hlist : ∀ f : ℕ → List (ℕ × ℕ × ℝ), (List.range c.Nsbp).flatMap f = f 0 ++ (List.map Nat.succ (List.range l)).flatMap f := by
    intro f; rw [hl, List.range_succ_eq_map (n := l), List.flatMap_cons]
  rw [hlist, e0]
  refine ⟨_, rfl, rfl, ?_⟩
  exact hzz

/-- piston and tip over five sub-bands, accepted when the set keeps the order -/
example : ∃ (c : ModeCfg) (ms : List JMode), 2 ≤ c.Nsbp ∧ 1 ≤ c.Nstar ∧ c.zerns = [(1, 1), (2, 1e-9)] ∧ jacModes c = .ok ms :=
  ⟨⟨5, 1, [(1, 1), (2, 1e-9)], true, fun _ => [1, 2]⟩, _, by norm_num, by norm_num, rfl, rfl⟩

end Verif.Expected
