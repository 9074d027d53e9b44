import Verif.Model.DmStats
import Verif.Props.DmConstraints
import Verif.Props.FocalCoords

/-! # C118: the DM command history and the DM statistics of a run belong together -/

namespace Verif.DmStats
open Verif Verif.Util

variable {n1 n2 : ℕ} {q : Pupil}

/-! ## Specification -/

/-- `v` is the largest minus the smallest value. -/
def PeakToValley {ι : Type} (f : ι → ℝ) (v : ℝ) : Prop := ∃ hi lo, IsGreatest (Set.range f) hi ∧ IsLeast (Set.range f) lo ∧ v = hi - lo

/-- The distance of a pixel from the centre of the beam in beam diameters: the centre is pixel `N/2` for pixel centering, the middle of the array for interpixel centering (and odd
arrays). -/
noncomputable def pixelRadius (q : Pupil) (N : ℕ) (i j : ℕ) : ℝ :=
  let c : ℝ := if q.centering = .interpixel ∨ N % 2 = 1 then ((N : ℝ) - 1) / 2 else (N : ℝ) / 2
  Real.sqrt (((j - c) * (q.dx / q.D)) ^ 2 + ((i - c) * (q.dx / q.D)) ^ 2)

/-- The pixels of the beam outside of the central obscuration. -/
noncomputable def annulus (q : Pupil) (N : ℕ) : Set (Fin N × Fin N) := {p | q.IDnorm / 2 ≤ pixelRadius q N p.1 p.2 ∧ pixelRadius q N p.1 p.2 ≤ 1 / 2}

open Classical in
/-- `r` is the root of the mean square of the surface over the beam. -/
def RootMeanSquare {N : ℕ} (q : Pupil) (s : Fin N → Fin N → ℝ) (r : ℝ) : Prop :=
  0 ≤ r ∧ r ^ 2 * (annulus q N).toFinset.card = ∑ p ∈ (annulus q N).toFinset, s p.1 p.2 ^ 2

/-- The DMs in use in iteration `k`: the last scheduled set, or the initial one. -/
def inUse (r : Run n1 n2) (ind : List ℕ) : ℕ → List ℕ
  | 0 => (r.sched 0).getD ind
  | k + 1 => (r.sched (k + 1)).getD (inUse r ind k)

/-- No bias, limits on both sides of zero, pinned actuators within the limits, no chains of tied actuators. -/
structure Tame {n : ℕ} (d : Dm.State n) : Prop where
  bias : ∀ i, d.biasMap i = 0
  zero : d.Vmin ≤ 0 ∧ 0 ≤ d.Vmax
  pins : ∀ p ∈ d.pinned, d.Vmin ≤ p.2 ∧ p.2 ≤ d.Vmax
  ties : ∀ p ∈ d.tied, ¬ Dm.Follower d p.1

/-! ## Helpers -/

theorem peak {ι : Type} [Finite ι] [Nonempty ι] (f : ι → ℝ) : PeakToValley f ((⨆ i, f i) - ⨅ i, f i) := by
  refine ⟨_, _, ⟨?_, ?_⟩, ⟨?_, ?_⟩, rfl⟩
  · obtain ⟨i, hi⟩ := exists_eq_ciSup_of_finite (f := f)
    exact ⟨i, hi⟩
  · rintro _ ⟨i, rfl⟩
    exact le_ciSup (Set.finite_range f).bddAbove i
  · obtain ⟨i, hi⟩ := exists_eq_ciInf_of_finite (f := f)
    exact ⟨i, hi⟩
  · rintro _ ⟨i, rfl⟩
    exact ciInf_le (Set.finite_range f).bddBelow i

theorem peak_unique {ι : Type} {f : ι → ℝ} {v w : ℝ} (hv : PeakToValley f v) (hw : PeakToValley f w) : v = w := by
  obtain ⟨a, b, h1, h2, rfl⟩ := hv
  obtain ⟨c, d, h3, h4, rfl⟩ := hw
  rw [h1.unique h3, h2.unique h4]

theorem peak2 {N : ℕ} [NeZero N] (s : Fin N → Fin N → ℝ) : PeakToValley (fun p : Fin N × Fin N => s p.1 p.2) (max2 s - min2 s) := peak _

theorem rmsEle_iff (q : Pupil) (N : ℕ) (i j : Fin N) : rmsEle q N i j ↔ (i, j) ∈ annulus q N := by
  have h (k : Fin N) : (createAxis N (q.dx / q.D) q.centering).getD k 0 =
      ((k : ℝ) - (if q.centering = .interpixel ∨ N % 2 = 1 then ((N : ℝ) - 1) / 2 else (N : ℝ) / 2)) * (q.dx / q.D) := by
    rw [List.getD_eq_getElem?_getD, FocalCoords.axis_entry N _ _ k k.2, Option.getD_some]
    split_ifs <;> rfl
  simp only [rmsEle, radialGrid, annulus, Set.mem_ofPred_eq, pixelRadius, h, ge_iff_le]

theorem rms_spec {N : ℕ} (q : Pupil) (s : Fin N → Fin N → ℝ) (hne : (annulus q N).Nonempty) : RootMeanSquare q s (rms s (rmsEle q N)) := by
  classical
  have hsel : (Finset.univ : Finset (Fin N × Fin N)).filter (fun p => rmsEle q N p.1 p.2) = (annulus q N).toFinset := by
    ext p
    simp [rmsEle_iff]
  have hc : (0 : ℝ) < (annulus q N).toFinset.card := by
    exact_mod_cast Finset.card_pos.mpr (by simpa using hne)
  have hr : rms s (rmsEle q N) = Real.sqrt ((∑ p ∈ (annulus q N).toFinset, s p.1 p.2 ^ 2) / (annulus q N).toFinset.card) := by
    rw [← hsel, rms]
    simp only [sq_abs]
  rw [hr]
  refine ⟨Real.sqrt_nonneg _, ?_⟩
  rw [Real.sq_sqrt (div_nonneg (Finset.sum_nonneg fun _ _ => sq_nonneg _) hc.le), div_mul_cancel₀ _ hc.ne']

/-! ### The trajectory -/

/-- DM1 after the controller of iteration `k`. -/
noncomputable def after1 (S : Surfaces n1 n2 q) (r : Run n1 n2) (mp : Mp n1 n2) (k : ℕ) : Dm.State n1 :=
  ((r.work k).foldl act ⟨(iterations S r mp k).1.dm1, (iterations S r mp k).1.dm2, (r.sched k).getD (iterations S r mp k).1.ind⟩).dm1

/-- DM2 after the controller of iteration `k`. -/
noncomputable def after2 (S : Surfaces n1 n2 q) (r : Run n1 n2) (mp : Mp n1 n2) (k : ℕ) : Dm.State n2 :=
  ((r.work k).foldl act ⟨(iterations S r mp k).1.dm1, (iterations S r mp k).1.dm2, (r.sched k).getD (iterations S r mp k).1.ind⟩).dm2

theorem work_ind (l : List (Act n1 n2)) (mp : Mp n1 n2) : (l.foldl act mp).ind = mp.ind := by
  induction l generalizing mp with
  | nil => rfl
  | cons a l ih => rw [List.foldl_cons, ih]; cases a <;> rfl

theorem evals_eq (mp : Mp n1 n2) (m : ℕ) : evals mp m = ⟨Dm.enforce^[m] mp.dm1, Dm.enforce^[m] mp.dm2, mp.ind⟩ := by
  induction m generalizing mp with
  | zero => rfl
  | succ m ih => rw [evals, ih]; rfl

theorem constrain_eq (mp : Mp n1 n2) :
    constrain mp = ⟨if 1 ∈ mp.ind then Dm.enforce mp.dm1 else mp.dm1, if 2 ∈ mp.ind then Dm.enforce mp.dm2 else mp.dm2, mp.ind⟩ := by
  unfold constrain
  by_cases h1 : 1 ∈ mp.ind <;> by_cases h2 : 2 ∈ mp.ind <;> simp [h1, h2]

theorem stats_mp (S : Surfaces n1 n2 q) (mp : Mp n1 n2) (out : Out n1 n2) (k : ℕ) :
    (stats S mp out k).1 = ⟨if 1 ∈ mp.ind then Dm.enforce mp.dm1 else mp.dm1, if 2 ∈ mp.ind then Dm.enforce mp.dm2 else mp.dm2, mp.ind⟩ := by
  unfold stats
  by_cases h1 : 1 ∈ mp.ind <;> by_cases h2 : 2 ∈ mp.ind <;> simp [h1, h2]

theorem stats_out (S : Surfaces n1 n2 q) (mp : Mp n1 n2) (out : Out n1 n2) (k : ℕ) :
    (stats S mp out k).2 = ⟨out.Vall1, out.Vall2,
      if 1 ∈ mp.ind then put out.Vpv1 k ((⨆ i, mp.dm1.V i) - ⨅ i, mp.dm1.V i) else out.Vpv1,
      if 2 ∈ mp.ind then put out.Vpv2 k ((⨆ i, mp.dm2.V i) - ⨅ i, mp.dm2.V i) else out.Vpv2,
      if 1 ∈ mp.ind then put out.Spv1 k (max2 (S.s1 (Dm.enforce mp.dm1).V) - min2 (S.s1 (Dm.enforce mp.dm1).V)) else out.Spv1,
      if 2 ∈ mp.ind then put out.Spv2 k (max2 (S.s2 (Dm.enforce mp.dm2).V) - min2 (S.s2 (Dm.enforce mp.dm2).V)) else out.Spv2,
      if 1 ∈ mp.ind then put out.Srms1 k (rms (S.s1 (Dm.enforce mp.dm1).V) (rmsEle q q.Ndm1)) else out.Srms1,
      if 2 ∈ mp.ind then put out.Srms2 k (rms (S.s2 (Dm.enforce mp.dm2).V) (rmsEle q q.Ndm2)) else out.Srms2⟩ := by
  unfold stats
  by_cases h1 : 1 ∈ mp.ind <;> by_cases h2 : 2 ∈ mp.ind <;> simp [h1, h2]

theorem iterations_ind (S : Surfaces n1 n2 q) (r : Run n1 n2) (mp : Mp n1 n2) (k : ℕ) : (iterations S r mp (k + 1)).1.ind = inUse r mp.ind k := by
  have step (k : ℕ) : (iterations S r mp (k + 1)).1.ind = (r.sched k).getD (iterations S r mp k).1.ind := by
    rw [iterations, iteration]
    simp only [evals_eq, stats_mp, constrain_eq, work_ind]
  induction k with
  | zero => rw [step]; rfl
  | succ k ih => rw [step, ih]; rfl

/-- What one iteration does to the DMs and the histories. -/
theorem iteration_eq (S : Surfaces n1 n2 q) (r : Run n1 n2) (mp : Mp n1 n2) (k : ℕ) :
    let u := inUse r mp.ind k
    let a := after1 S r mp k
    let b := after2 S r mp k
    let o := (iterations S r mp k).2
    iterations S r mp (k + 1) =
      (⟨Dm.enforce^[r.later k + if 1 ∈ u then 2 else 0] a, Dm.enforce^[r.later k + if 2 ∈ u then 2 else 0] b, u⟩,
       ⟨put o.Vall1 k (iterations S r mp k).1.dm1.V, put o.Vall2 k (iterations S r mp k).1.dm2.V,
        if 1 ∈ u then put o.Vpv1 k ((⨆ i, (Dm.enforce a).V i) - ⨅ i, (Dm.enforce a).V i) else o.Vpv1,
        if 2 ∈ u then put o.Vpv2 k ((⨆ i, (Dm.enforce b).V i) - ⨅ i, (Dm.enforce b).V i) else o.Vpv2,
        if 1 ∈ u then put o.Spv1 k (max2 (S.s1 (Dm.enforce (Dm.enforce a)).V) - min2 (S.s1 (Dm.enforce (Dm.enforce a)).V)) else o.Spv1,
        if 2 ∈ u then put o.Spv2 k (max2 (S.s2 (Dm.enforce (Dm.enforce b)).V) - min2 (S.s2 (Dm.enforce (Dm.enforce b)).V)) else o.Spv2,
        if 1 ∈ u then put o.Srms1 k (rms (S.s1 (Dm.enforce (Dm.enforce a)).V) (rmsEle q q.Ndm1)) else o.Srms1,
        if 2 ∈ u then put o.Srms2 k (rms (S.s2 (Dm.enforce (Dm.enforce b)).V) (rmsEle q q.Ndm2)) else o.Srms2⟩) := by
  intro u a b o
  set s := iterations S r mp k with hs
  have hu : u = (⟨s.1.dm1, s.1.dm2, (r.sched k).getD s.1.ind⟩ : Mp n1 n2).ind := by
    have h := iterations_ind S r mp k
    rw [iterations, iteration] at h
    simp only [evals_eq, stats_mp, constrain_eq, work_ind] at h
    exact h.symm
  have hi : ((r.work k).foldl act (⟨s.1.dm1, s.1.dm2, (r.sched k).getD s.1.ind⟩ : Mp n1 n2)).ind = u := by rw [work_ind, hu]
  rw [iterations, iteration]
  simp only [evals_eq, stats_mp, stats_out, constrain_eq]
  rw [← hs, hi]
  have ha : ((r.work k).foldl act (⟨s.1.dm1, s.1.dm2, (r.sched k).getD s.1.ind⟩ : Mp n1 n2)).dm1 = a := rfl
  have hb : ((r.work k).foldl act (⟨s.1.dm1, s.1.dm2, (r.sched k).getD s.1.ind⟩ : Mp n1 n2)).dm2 = b := rfl
  rw [ha, hb]
  simp only [storeCommands]
  by_cases h1 : 1 ∈ u <;> by_cases h2 : 2 ∈ u <;> simp [h1, h2, Function.iterate_add_apply, o, hs]

theorem put_same {α : Type} (a : ℕ → Option α) (i : ℕ) (v : α) : put a i v i = some v := by simp [put]
theorem put_other {α : Type} (a : ℕ → Option α) {i k : ℕ} (v : α) (h : k ≠ i) : put a i v k = a k := by simp [put, h]

/-- Entries of earlier iterations are never overwritten. -/
theorem stable (S : Surfaces n1 n2 q) (r : Run n1 n2) (mp : Mp n1 n2) (k m : ℕ) (h : k < m) :
    let o := (iterations S r mp m).2
    let o' := (iterations S r mp (k + 1)).2
    o.Vall1 k = o'.Vall1 k ∧ o.Vall2 k = o'.Vall2 k ∧ o.Vpv1 k = o'.Vpv1 k ∧ o.Vpv2 k = o'.Vpv2 k ∧ o.Spv1 k = o'.Spv1 k ∧ o.Spv2 k = o'.Spv2 k ∧
      o.Srms1 k = o'.Srms1 k ∧ o.Srms2 k = o'.Srms2 k := by
  induction m with
  | zero => omega
  | succ m ih =>
    rcases Nat.lt_succ_iff_lt_or_eq.mp h with h | rfl
    · obtain ⟨a1, a2, a3, a4, a5, a6, a7, a8⟩ := ih h
      have hne : k ≠ m := by omega
      simp only [iteration_eq S r mp m] 
      refine ⟨?_, ?_, ?_, ?_, ?_, ?_, ?_, ?_⟩
      · rw [put_other _ _ hne, a1]
      · rw [put_other _ _ hne, a2]
      all_goals split_ifs <;> simp only [put_other _ _ hne, *]
    · simp

/-- Entries of iterations that have not begun are untouched. -/
theorem untouched (S : Surfaces n1 n2 q) (r : Run n1 n2) (mp : Mp n1 n2) (m k : ℕ) (h : m ≤ k) :
    let o := (iterations S r mp m).2
    o.Vpv1 k = none ∧ o.Vpv2 k = none ∧ o.Spv1 k = none ∧ o.Spv2 k = none ∧ o.Srms1 k = none ∧ o.Srms2 k = none := by
  induction m with
  | zero => simp [iterations, Out.init]
  | succ m ih =>
    obtain ⟨a1, a2, a3, a4, a5, a6⟩ := ih (by omega)
    have hne : k ≠ m := by omega
    simp only [iteration_eq S r mp m]
    refine ⟨?_, ?_, ?_, ?_, ?_, ?_⟩
    all_goals split_ifs <;> simp only [put_other _ _ hne, *]

theorem vall (S : Surfaces n1 n2 q) (r : Run n1 n2) (mp : Mp n1 n2) (k : ℕ) (hk : k ≤ r.Nitr) :
    (histories S r mp).Vall1 k = some (iterations S r mp k).1.dm1.V ∧ (histories S r mp).Vall2 k = some (iterations S r mp k).1.dm2.V := by
  rcases hk.lt_or_eq with h | rfl
  · obtain ⟨e1, e2, -⟩ := stable S r mp k r.Nitr h
    have hne : k ≠ r.Nitr := by omega
    simp only [histories, storeCommands, put_other _ _ hne, e1, e2]
    rw [iteration_eq]
    simp only [put_same, and_self]
  · simp only [histories, storeCommands, put_same, and_self]

theorem hist_eq (S : Surfaces n1 n2 q) (r : Run n1 n2) (mp : Mp n1 n2) :
    (histories S r mp).Vpv1 = (iterations S r mp r.Nitr).2.Vpv1 ∧ (histories S r mp).Vpv2 = (iterations S r mp r.Nitr).2.Vpv2 ∧
    (histories S r mp).Spv1 = (iterations S r mp r.Nitr).2.Spv1 ∧ (histories S r mp).Spv2 = (iterations S r mp r.Nitr).2.Spv2 ∧
    (histories S r mp).Srms1 = (iterations S r mp r.Nitr).2.Srms1 ∧ (histories S r mp).Srms2 = (iterations S r mp r.Nitr).2.Srms2 := ⟨rfl, rfl, rfl, rfl, rfl, rfl⟩

theorem tame_enforce {n : ℕ} {d : Dm.State n} (h : Tame d) : Tame (Dm.enforce d) := by
  obtain ⟨e1, e2, e3, e4, e5, l, e6, e7, -⟩ := Dm.C11_pins d
  refine ⟨by rw [e1]; exact h.bias, by rw [e2, e3]; exact h.zero, ?_, ?_⟩
  · intro p hp
    rw [e6, List.mem_append] at hp
    rw [e2, e3]
    rcases hp with hp | hp
    · exact h.pins p hp
    · have hz := h.zero
      rcases (e7 p.1 p.2).mp hp with ⟨-, h⟩ | ⟨-, h⟩ <;> rw [h] <;> constructor <;> linarith
  · intro p hp
    rw [e5] at hp
    have := h.ties p hp
    simpa [Dm.Follower, e5] using this

theorem tame_step {n : ℕ} {d : Dm.State n} (h : Tame d) (op : Dm.Op n) : Tame (Dm.step d op) := by
  cases op with
  | setV V => exact ⟨h.bias, h.zero, h.pins, h.ties⟩
  | eval => exact tame_enforce h

theorem tame_twice {n : ℕ} {d : Dm.State n} (h : Tame d) : Dm.enforce (Dm.enforce d) = Dm.enforce d := by
  have := Dm.C12_repeat_zero_bias d h.bias h.zero h.pins h.ties 1
  simpa [Dm.run, Dm.step, List.replicate] using this

theorem tame_iterate {n : ℕ} {d : Dm.State n} (h : Tame d) (m : ℕ) : Dm.enforce^[m + 2] d = Dm.enforce d := by
  induction m with
  | zero => exact tame_twice h
  | succ m ih => rw [show m + 1 + 2 = (m + 2) + 1 by ring, Function.iterate_succ_apply', ih, tame_twice h]

theorem tame_evals {n : ℕ} {d : Dm.State n} (h : Tame d) (m : ℕ) : Tame (Dm.enforce^[m] d) := by
  induction m with
  | zero => exact h
  | succ m ih => rw [Function.iterate_succ_apply']; exact tame_enforce ih

theorem work_tame (l : List (Act n1 n2)) (mp : Mp n1 n2) : (Tame mp.dm1 → Tame (l.foldl act mp).dm1) ∧ (Tame mp.dm2 → Tame (l.foldl act mp).dm2) := by
  induction l generalizing mp with
  | nil => exact ⟨id, id⟩
  | cons a l ih =>
    rw [List.foldl_cons]
    obtain ⟨i1, i2⟩ := ih (act mp a)
    cases a with
    | dm1 op => exact ⟨fun h => i1 (tame_step h op), i2⟩
    | dm2 op => exact ⟨i1, fun h => i2 (tame_step h op)⟩

theorem iterations_tame (S : Surfaces n1 n2 q) (r : Run n1 n2) (mp : Mp n1 n2) (k : ℕ) :
    (Tame mp.dm1 → Tame (iterations S r mp k).1.dm1) ∧ (Tame mp.dm2 → Tame (iterations S r mp k).1.dm2) := by
  induction k with
  | zero => exact ⟨id, id⟩
  | succ k ih =>
    rw [iteration_eq]
    exact ⟨fun h => tame_evals ((work_tame (r.work k) ⟨(iterations S r mp k).1.dm1, (iterations S r mp k).1.dm2, (r.sched k).getD (iterations S r mp k).1.ind⟩).1 (ih.1 h)) _, fun h => tame_evals ((work_tame (r.work k) ⟨(iterations S r mp k).1.dm1, (iterations S r mp k).1.dm2, (r.sched k).getD (iterations S r mp k).1.ind⟩).2 (ih.2 h)) _⟩

theorem after_tame (S : Surfaces n1 n2 q) (r : Run n1 n2) (mp : Mp n1 n2) (k : ℕ) :
    (Tame mp.dm1 → Tame (after1 S r mp k)) ∧ (Tame mp.dm2 → Tame (after2 S r mp k)) :=
  ⟨fun h => (work_tame (r.work k) ⟨(iterations S r mp k).1.dm1, (iterations S r mp k).1.dm2, (r.sched k).getD (iterations S r mp k).1.ind⟩).1 ((iterations_tame S r mp k).1 h), fun h => (work_tame (r.work k) ⟨(iterations S r mp k).1.dm1, (iterations S r mp k).1.dm2, (r.sched k).getD (iterations S r mp k).1.ind⟩).2 ((iterations_tame S r mp k).2 h)⟩

/-! ## The properties -/

/-- **C118, in general.** The stored command of entry `0` is the initial one.  For every run, iteration and DM in use there is a state `d` of the DM (the one after the
controller) such that: `Vpv` is the peak-to-valley of the command that `enforce_constraints` makes of it; `Spv` and `Srms` are the peak-to-valley over the whole array and the RMS over
the beam of the surface for the constraints enforced twice; and the next entry of the command history is the command after the constraints were enforced once more for every model
evaluated in between. -/
theorem C118_general (S : Surfaces n1 n2 q) (r : Run n1 n2) (mp : Mp n1 n2) [NeZero n1] [NeZero n2] [NeZero q.Ndm1] [NeZero q.Ndm2]
    (h1 : (annulus q q.Ndm1).Nonempty) (h2 : (annulus q q.Ndm2).Nonempty) :
    (histories S r mp).Vall1 0 = some mp.dm1.V ∧ (histories S r mp).Vall2 0 = some mp.dm2.V ∧
    (∀ k < r.Nitr, 1 ∈ inUse r mp.ind k → ∃ d : Dm.State n1,
      (∃ v, (histories S r mp).Vpv1 k = some v ∧ PeakToValley (Dm.enforce d).V v) ∧
      (∃ v, (histories S r mp).Spv1 k = some v ∧ PeakToValley (fun p : Fin q.Ndm1 × Fin q.Ndm1 => S.s1 (Dm.enforce (Dm.enforce d)).V p.1 p.2) v) ∧
      (∃ v, (histories S r mp).Srms1 k = some v ∧ RootMeanSquare q (S.s1 (Dm.enforce (Dm.enforce d)).V) v) ∧
      (histories S r mp).Vall1 (k + 1) = some (Dm.enforce^[r.later k + 2] d).V) ∧
    (∀ k < r.Nitr, 2 ∈ inUse r mp.ind k → ∃ d : Dm.State n2,
      (∃ v, (histories S r mp).Vpv2 k = some v ∧ PeakToValley (Dm.enforce d).V v) ∧
      (∃ v, (histories S r mp).Spv2 k = some v ∧ PeakToValley (fun p : Fin q.Ndm2 × Fin q.Ndm2 => S.s2 (Dm.enforce (Dm.enforce d)).V p.1 p.2) v) ∧
      (∃ v, (histories S r mp).Srms2 k = some v ∧ RootMeanSquare q (S.s2 (Dm.enforce (Dm.enforce d)).V) v) ∧
      (histories S r mp).Vall2 (k + 1) = some (Dm.enforce^[r.later k + 2] d).V) := by
  refine ⟨(vall S r mp 0 (Nat.zero_le _)).1, (vall S r mp 0 (Nat.zero_le _)).2, ?_, ?_⟩
  · intro k hk hu
    obtain ⟨-, -, e3, -, e5, -, e7, -⟩ := stable S r mp k r.Nitr hk
    refine ⟨after1 S r mp k, ⟨_, ?_, peak _⟩, ⟨_, ?_, peak2 _⟩, ⟨_, ?_, rms_spec q _ h1⟩, ?_⟩
    · rw [(hist_eq S r mp).1, e3, iteration_eq]
      simp only [hu, if_true, put_same]
    · rw [(hist_eq S r mp).2.2.1, e5, iteration_eq]
      simp only [hu, if_true, put_same]
    · rw [(hist_eq S r mp).2.2.2.2.1, e7, iteration_eq]
      simp only [hu, if_true, put_same]
    · rw [(vall S r mp (k + 1) hk).1, iteration_eq]
      simp only [hu, if_true]
  · intro k hk hu
    obtain ⟨-, -, -, e3, -, e5, -, e7⟩ := stable S r mp k r.Nitr hk
    refine ⟨after2 S r mp k, ⟨_, ?_, peak _⟩, ⟨_, ?_, peak2 _⟩, ⟨_, ?_, rms_spec q _ h2⟩, ?_⟩
    · rw [(hist_eq S r mp).2.1, e3, iteration_eq]
      simp only [hu, if_true, put_same]
    · rw [(hist_eq S r mp).2.2.2.1, e5, iteration_eq]
      simp only [hu, if_true, put_same]
    · rw [(hist_eq S r mp).2.2.2.2.2, e7, iteration_eq]
      simp only [hu, if_true, put_same]
    · rw [(vall S r mp (k + 1) hk).2, iteration_eq]
      simp only [hu, if_true]

/-- **C118.** Without bias voltages, with limits around zero, pins within them and no chains of ties: for every run, whatever the controllers and models do, every iteration `k` and
DM in use, the entries `k` of `Vpv`, `Spv` and `Srms` are the peak-to-valley command, the peak-to-valley surface and the RMS surface of entry `k + 1` of the command history. -/
theorem C118_statistics (S : Surfaces n1 n2 q) (r : Run n1 n2) (mp : Mp n1 n2) [NeZero n1] [NeZero n2] [NeZero q.Ndm1] [NeZero q.Ndm2]
    (h1 : (annulus q q.Ndm1).Nonempty) (h2 : (annulus q q.Ndm2).Nonempty) (k : ℕ) (hk : k < r.Nitr) :
    (Tame mp.dm1 → 1 ∈ inUse r mp.ind k → ∃ V v s t, (histories S r mp).Vall1 (k + 1) = some V ∧
      (histories S r mp).Vpv1 k = some v ∧ PeakToValley V v ∧
      (histories S r mp).Spv1 k = some s ∧ PeakToValley (fun p : Fin q.Ndm1 × Fin q.Ndm1 => S.s1 V p.1 p.2) s ∧
      (histories S r mp).Srms1 k = some t ∧ RootMeanSquare q (S.s1 V) t) ∧
    (Tame mp.dm2 → 2 ∈ inUse r mp.ind k → ∃ V v s t, (histories S r mp).Vall2 (k + 1) = some V ∧
      (histories S r mp).Vpv2 k = some v ∧ PeakToValley V v ∧
      (histories S r mp).Spv2 k = some s ∧ PeakToValley (fun p : Fin q.Ndm2 × Fin q.Ndm2 => S.s2 V p.1 p.2) s ∧
      (histories S r mp).Srms2 k = some t ∧ RootMeanSquare q (S.s2 V) t) := by
  constructor
  · intro ht hu
    obtain ⟨-, -, e3, -, e5, -, e7, -⟩ := stable S r mp k r.Nitr hk
    have hd : Tame (after1 S r mp k) := (after_tame S r mp k).1 ht
    have hV := (vall S r mp (k + 1) hk).1
    rw [iteration_eq] at hV
    simp only [hu, if_true, tame_iterate hd] at hV
    refine ⟨_, _, _, _, hV, ?_, peak _, ?_, peak2 _, ?_, rms_spec q _ h1⟩
    · rw [(hist_eq S r mp).1, e3, iteration_eq]
      simp only [hu, if_true, put_same]
    · rw [(hist_eq S r mp).2.2.1, e5, iteration_eq]
      simp only [hu, if_true, put_same, tame_twice hd]
    · rw [(hist_eq S r mp).2.2.2.2.1, e7, iteration_eq]
      simp only [hu, if_true, put_same, tame_twice hd]
  · intro ht hu
    obtain ⟨-, -, -, e3, -, e5, -, e7⟩ := stable S r mp k r.Nitr hk
    have hd : Tame (after2 S r mp k) := (after_tame S r mp k).2 ht
    have hV := (vall S r mp (k + 1) hk).2
    rw [iteration_eq] at hV
    simp only [hu, if_true, tame_iterate hd] at hV
    refine ⟨_, _, _, _, hV, ?_, peak _, ?_, peak2 _, ?_, rms_spec q _ h2⟩
    · rw [(hist_eq S r mp).2.1, e3, iteration_eq]
      simp only [hu, if_true, put_same]
    · rw [(hist_eq S r mp).2.2.2.1, e5, iteration_eq]
      simp only [hu, if_true, put_same, tame_twice hd]
    · rw [(hist_eq S r mp).2.2.2.2.2, e7, iteration_eq]
      simp only [hu, if_true, put_same, tame_twice hd]

/-- **C118.** A DM that is not in use in an iteration keeps the initial zeros in the statistics of that iteration, whatever its command and surface are. -/
theorem C118_not_in_use (S : Surfaces n1 n2 q) (r : Run n1 n2) (mp : Mp n1 n2) (k : ℕ) (hk : k < r.Nitr) :
    (1 ∉ inUse r mp.ind k → (histories S r mp).Vpv1 k = none ∧ (histories S r mp).Spv1 k = none ∧ (histories S r mp).Srms1 k = none) ∧
    (2 ∉ inUse r mp.ind k → (histories S r mp).Vpv2 k = none ∧ (histories S r mp).Spv2 k = none ∧ (histories S r mp).Srms2 k = none) := by
  obtain ⟨-, -, e1, e2, e3, e4, e5, e6⟩ := stable S r mp k r.Nitr hk
  obtain ⟨u1, u2, u3, u4, u5, u6⟩ := untouched S r mp k k le_rfl
  refine ⟨fun h => ⟨?_, ?_, ?_⟩, fun h => ⟨?_, ?_, ?_⟩⟩
  · rw [(hist_eq S r mp).1, e1, iteration_eq]; simp only [h, if_false, u1]
  · rw [(hist_eq S r mp).2.2.1, e3, iteration_eq]; simp only [h, if_false, u3]
  · rw [(hist_eq S r mp).2.2.2.2.1, e5, iteration_eq]; simp only [h, if_false, u5]
  · rw [(hist_eq S r mp).2.1, e2, iteration_eq]; simp only [h, if_false, u2]
  · rw [(hist_eq S r mp).2.2.2.1, e4, iteration_eq]; simp only [h, if_false, u4]
  · rw [(hist_eq S r mp).2.2.2.2.2, e6, iteration_eq]; simp only [h, if_false, u6]

/-- **C118, violated.** The peak-to-valley voltage of the statistics is then not that of the command history, for every run of which the schedule leaves out a DM: here DM2 keeps
a command with a peak-to-valley of 5 V and the statistics say zero. -/
theorem C118_schedule_violated (S : Surfaces 1 2 q) :
    ∃ (r : Run 1 2) (mp : Mp 1 2) (V : Fin 2 → ℝ), Tame mp.dm2 ∧ 2 ∈ mp.ind ∧ 0 < r.Nitr ∧
      (histories S r mp).Vall2 0 = some V ∧ (histories S r mp).Vall2 1 = some V ∧ PeakToValley V 5 ∧ (histories S r mp).Vpv2 0 = none := by
  refine ⟨⟨1, fun _ => some [1], fun _ => [], fun _ => 0⟩, ⟨⟨fun _ => 0, fun _ => 0, -100, 100, fun _ => false, [], []⟩, ⟨![0, 5], fun _ => 0, -100, 100, fun _ => false, [], []⟩, [1, 2]⟩,
    ![0, 5], ⟨fun _ => rfl, by norm_num, by simp, by simp⟩, by simp, by norm_num, ?_, ?_, ?_, ?_⟩
  · exact (vall S _ _ 0 (by norm_num)).2
  · rw [(vall S _ _ 1 le_rfl).2, iteration_eq]
    simp only [inUse, Option.getD_some, List.mem_singleton, OfNat.ofNat_ne_one, if_false, Function.iterate_zero, id]
    rfl
  · refine ⟨5, 0, ⟨⟨1, rfl⟩, ?_⟩, ⟨⟨0, rfl⟩, ?_⟩, by norm_num⟩
    · rintro _ ⟨i, rfl⟩
      fin_cases i <;> norm_num
    · rintro _ ⟨i, rfl⟩
      fin_cases i <;> norm_num
  · exact ((C118_not_in_use S _ _ 0 (by norm_num)).2 (by simp [inUse])).1

/-- **C118, violated.** With the bias voltages of the default configuration (500 V, limits 0 V and 1000 V) and an actuator pinned at a command of 600 V, the statistics report a
peak-to-valley of 600 V for an iteration after which the stored command has 1000 V: making the surface for the statistics changes the command. -/
theorem C118_bias_violated (S : Surfaces 2 1 q) :
    ∃ (r : Run 2 1) (mp : Mp 2 1) (V : Fin 2 → ℝ), mp.dm1.biasMap = (fun _ => 500) ∧ mp.dm1.Vmin = 0 ∧ mp.dm1.Vmax = 1000 ∧ 1 ∈ inUse r mp.ind 0 ∧ 0 < r.Nitr ∧
      (∃ v, (histories S r mp).Vpv1 0 = some v ∧ v = 600) ∧ (histories S r mp).Vall1 1 = some V ∧ PeakToValley V 1000 := by
  set d : Dm.State 2 := ⟨fun _ => 0, fun _ => 500, 0, 1000, fun _ => false, [(0, 600)], []⟩ with hd
  have hnf (e : Dm.State 2) (he : e.tied = []) (i : Fin 2) : ¬ Dm.Follower e i := by
    rintro ⟨a, h⟩; simp [he] at h
  have a0 : (Dm.enforce d).V 0 = 600 := Dm.C11_pinned _ [] [] 0 600 rfl (by simp) (hnf d rfl 0) (by norm_num [Dm.InRange, Dm.total, d])
  have a1 : (Dm.enforce d).V 1 = 0 := by
    rw [Dm.C11_free_unchanged d 1 rfl (by rintro ⟨v, h⟩; simp [d] at h) (hnf d rfl 1) (by norm_num [Dm.InRange, Dm.total, d])]
  obtain ⟨p1, p2, p3, p4, p5, l, p6, p7, -⟩ := Dm.C11_pins d
  have t0 : Dm.total (Dm.enforce d) 0 = 1100 := by rw [Dm.total, p4, p1, a0]; norm_num [d]
  have t1 : Dm.total (Dm.enforce d) 1 = 500 := by rw [Dm.total, p4, p1, a1]; norm_num [d]
  have b0 : (Dm.enforce (Dm.enforce d)).V 0 = 1000 := by
    rw [(Dm.C11_over_limit_total (Dm.enforce d) 0 (hnf _ (by rw [p5]) 0) (by rw [p2, p3]; norm_num [d]) (by rw [t0, p3]; norm_num [d])).1, p3]
  have b1 : (Dm.enforce (Dm.enforce d)).V 1 = 0 := by
    rw [Dm.C11_free_unchanged (Dm.enforce d) 1 (by rw [p4]) ?_ (hnf _ (by rw [p5]) 1) (by rw [Dm.InRange, p2, p3, t1]; norm_num [d]), a1]
    rintro ⟨v, h⟩
    rw [p6, List.mem_append] at h
    rcases h with h | h
    · simp [d] at h
    · rcases (p7 1 v).mp h with ⟨h, -⟩ | ⟨h, -⟩ <;> norm_num [Dm.total, d] at h
  refine ⟨⟨1, fun _ => none, fun _ => [], fun _ => 0⟩, ⟨d, ⟨fun _ => 0, fun _ => 0, -100, 100, fun _ => false, [], []⟩, [1]⟩, (Dm.enforce (Dm.enforce d)).V, rfl, rfl, rfl,
    by simp [inUse], by norm_num, ?_, ?_, ?_⟩
  · obtain ⟨-, -, e1, -⟩ := stable S ⟨1, fun _ => none, fun _ => [], fun _ => 0⟩ ⟨d, ⟨fun _ => 0, fun _ => 0, -100, 100, fun _ => false, [], []⟩, [1]⟩ 0 1 (by norm_num)
    refine ⟨_, ?_, peak_unique (peak (Dm.enforce d).V) ?_⟩
    · rw [(hist_eq S _ _).1, e1, iteration_eq]
      simp only [inUse, Option.getD_none, List.mem_singleton, if_true, put_same]
      rfl
    · refine ⟨600, 0, ⟨⟨0, a0⟩, ?_⟩, ⟨⟨1, a1⟩, ?_⟩, by norm_num⟩
      · rintro _ ⟨i, rfl⟩
        fin_cases i
        · exact a0.le
        · exact a1.le.trans (by norm_num)
      · rintro _ ⟨i, rfl⟩
        fin_cases i
        · exact (by norm_num : (0 : ℝ) ≤ 600).trans a0.ge
        · exact a1.ge
  · rw [(vall S _ _ 1 le_rfl).1, iteration_eq]
    simp only [inUse, Option.getD_none, List.mem_singleton, if_true]
    rfl
  · refine ⟨1000, 0, ⟨⟨0, b0⟩, ?_⟩, ⟨⟨1, b1⟩, ?_⟩, by norm_num⟩
    · rintro _ ⟨i, rfl⟩
      fin_cases i
      · exact b0.le
      · exact b1.le.trans (by norm_num)
    · rintro _ ⟨i, rfl⟩
      fin_cases i
      · exact (by norm_num : (0 : ℝ) ≤ 1000).trans b0.ge
      · exact b1.ge

/-- **C118.** What the numbers mean: a flat surface `c` has peak-to-valley `0` and RMS `|c|` - the piston counts; and the RMS is at most the largest height within the beam. -/
theorem C118_meaning {N : ℕ} [NeZero N] (q : Pupil) (hne : (annulus q N).Nonempty) :
    (∀ (c v r : ℝ), PeakToValley (fun _ : Fin N × Fin N => c) v → RootMeanSquare q (fun _ _ : Fin N => c) r → v = 0 ∧ r = |c|) ∧
    ∀ (s : Fin N → Fin N → ℝ) (r b : ℝ), RootMeanSquare q s r → 0 ≤ b → (∀ p ∈ annulus q N, |s p.1 p.2| ≤ b) → r ≤ b := by
  classical
  have hc : (0 : ℝ) < (annulus q N).toFinset.card := by
    exact_mod_cast Finset.card_pos.mpr (by simpa using hne)
  constructor
  · rintro c v r ⟨a, b, ⟨⟨i, hi⟩, -⟩, ⟨⟨j, hj⟩, -⟩, rfl⟩ ⟨h0, h⟩
    refine ⟨by rw [← hi, ← hj]; ring, ?_⟩
    have h' : r ^ 2 = c ^ 2 := by
      have : r ^ 2 * (annulus q N).toFinset.card = c ^ 2 * (annulus q N).toFinset.card := by
        rw [h]
        dsimp only
        rw [Finset.sum_const, nsmul_eq_mul, mul_comm]
      exact mul_right_cancel₀ hc.ne' this
    rw [← abs_of_nonneg h0]
    exact (sq_eq_sq_iff_abs_eq_abs _ _).mp h'
  · rintro s r b ⟨h0, h⟩ hb hs
    have h' : r ^ 2 * (annulus q N).toFinset.card ≤ b ^ 2 * (annulus q N).toFinset.card := by
      have : ∑ p ∈ (annulus q N).toFinset, s p.1 p.2 ^ 2 ≤ ∑ p ∈ (annulus q N).toFinset, b ^ 2 := by
        refine Finset.sum_le_sum fun p hp => ?_
        rw [← sq_abs]
        exact pow_le_pow_left₀ (abs_nonneg _) (hs p (by simpa using hp)) 2
      rw [Finset.sum_const, nsmul_eq_mul] at this
      calc r ^ 2 * (annulus q N).toFinset.card = ∑ p ∈ (annulus q N).toFinset, s p.1 p.2 ^ 2 := h
        _ ≤ _ := this
        _ = _ := by ring
    exact abs_le_of_sq_le_sq' (le_of_mul_le_mul_right h' hc) hb |>.2

/-- The hypotheses are met: with pixel centering and no central obscuration the beam contains the centre pixel. -/
example (N : ℕ) (hN : 0 < N) (h2 : N % 2 = 0) (dx D : ℝ) : (annulus ⟨dx, D, 0, .pixel, N, N⟩ N).Nonempty := by
  refine ⟨(⟨N / 2, by omega⟩, ⟨N / 2, by omega⟩), ?_⟩
  have hc : ((N / 2 : ℕ) : ℝ) - (N : ℝ) / 2 = 0 := by
    have : (N : ℝ) = 2 * (N / 2 : ℕ) := by
      have : N = 2 * (N / 2) := by omega
      exact_mod_cast this
    linarith
  have h1 : ¬ N % 2 = 1 := by omega
  simp [annulus, pixelRadius, h1, hc]

/-- A tame DM with dead, pinned and tied actuators. -/
example : Tame (⟨fun _ => 70, fun _ => 0, -100, 100, ![true, false, false, false], [(1, 30)], [(2, 3)]⟩ : Dm.State 4) := by
  refine ⟨fun _ => rfl, by norm_num, ?_, ?_⟩
  · intro p hp
    simp only [List.mem_singleton] at hp
    subst hp; norm_num
  · rintro p hp ⟨a, ha⟩
    simp only [List.mem_singleton] at hp ha
    subst hp; simp at ha

end Verif.DmStats
