import Verif.Model.DeltaField
import Verif.Props.Modes
import Mathlib.Analysis.InnerProductSpace.PiL2

/-!
# C152: the recorded agreement of the measured and the expected change of the field
-/

namespace Verif.DeltaField
open Verif Complex

/-! ## Specification -/

/-- The number is the quotient, as numpy has it. -/
def IsQuot (x : Num) (a b : ℝ) : Prop := (b ≠ 0 → x = .real (a / b)) ∧ (b = 0 → a ≠ 0 → x = .inf) ∧ (b = 0 → a = 0 → x = .nan)

/-- The size of the step in units of the expected step, as it is recorded: WITHOUT complex conjugation, over the pixels whose estimate has changed. -/
def ProjectionIs {n : ℕ} (x : Num) (meas sim : Fin n → ℂ) : Prop :=
  IsQuot x ‖∑ p, sim p * meas p‖ ‖∑ p, if meas p = 0 then 0 else sim p ^ 2‖

/-- The similarity of the two changes, as it is recorded. -/
def CorrelationIs {n : ℕ} (x : Num) (meas sim : Fin n → ℂ) : Prop :=
  IsQuot x ‖∑ p, sim p * meas p‖ (Real.sqrt ‖∑ p, meas p ^ 2‖ * Real.sqrt ‖∑ p, if meas p = 0 then 0 else sim p ^ 2‖)

/-- The correlation of two complex vectors: `|⟨a, b⟩| / (‖a‖ ‖b‖)`. -/
noncomputable def trueCorrelation {n : ℕ} (a b : Fin n → ℂ) : ℝ :=
  ‖∑ p, starRingEnd ℂ (a p) * b p‖ / (Real.sqrt (∑ p, ‖a p‖ ^ 2) * Real.sqrt (∑ p, ‖b p‖ ^ 2))

/-- The projection of `b` on `a`: `|⟨a, b⟩| / ‖a‖²`. -/
noncomputable def trueProjection {n : ℕ} (a b : Fin n → ℂ) : ℝ :=
  ‖∑ p, starRingEnd ℂ (a p) * b p‖ / ∑ p, ‖a p‖ ^ 2

/-! ## The formulas -/

theorem npDiv_is (a b : ℝ) : IsQuot (npDiv a b) a b := by
  unfold npDiv IsQuot
  refine ⟨fun h => if_pos h, fun h h' => ?_, fun h h' => ?_⟩
  · rw [if_neg (not_not.2 h), if_neg h']
  · rw [if_neg (not_not.2 h), if_pos h']

theorem quot_unique {x y : Num} {a b : ℝ} (hx : IsQuot x a b) (hy : IsQuot y a b) : x = y := by
  by_cases h : b = 0
  · by_cases h' : a = 0
    · rw [hx.2.2 h h', hy.2.2 h h']
    · rw [hx.2.1 h h', hy.2.1 h h']
  · rw [hx.1 h, hy.1 h]

theorem dot_sum {n : ℕ} (dm x y : Fin n → ℂ) : dot dm x y = ∑ p, if dm p = 0 then 0 else x p * y p := by
  unfold dot
  rw [Finset.sum_filter]
  refine Finset.sum_congr rfl fun p _ => ?_
  by_cases h : dm p = 0
  · rw [if_neg (not_not.2 h), if_pos h]
  · rw [if_pos h, if_neg h]

theorem dot_meas {n : ℕ} (dm x : Fin n → ℂ) : dot dm x dm = ∑ p, x p * dm p := by
  rw [dot_sum]
  refine Finset.sum_congr rfl fun p _ => ?_
  by_cases h : dm p = 0
  · rw [if_pos h, h, mul_zero]
  · rw [if_neg h]

theorem dot_sim {n : ℕ} (dm x : Fin n → ℂ) : dot dm x x = ∑ p, if dm p = 0 then 0 else x p ^ 2 := by
  rw [dot_sum]
  refine Finset.sum_congr rfl fun p _ => ?_
  rw [sq]

theorem projection_is {n : ℕ} (dm ds : Fin n → ℂ) : ProjectionIs (projection dm ds) dm ds := by
  unfold ProjectionIs projection
  rw [dot_meas, dot_sim]
  exact npDiv_is _ _

theorem correlation_is {n : ℕ} (dm ds : Fin n → ℂ) : CorrelationIs (correlation dm ds) dm ds := by
  unfold CorrelationIs correlation
  rw [dot_meas dm ds, dot_meas dm dm, dot_sim dm ds]
  simp only [← sq]
  exact npDiv_is _ _

/-! ## The history -/

/-- The two entries of an iteration and a subband are those of a pair of changes. -/
def EntryIs {n : ℕ} (o : Out) (k s : ℕ) (E Eprev S Sprev : Cols n) : Prop :=
  ProjectionIs (o.proj k s) (fun p => E.val p s - Eprev.val p s) (fun p => S.val p s - Sprev.val p s) ∧
    CorrelationIs (o.corr k s) (fun p => E.val p s - Eprev.val p s) (fun p => S.val p s - Sprev.val p s)

theorem change_ok {n : ℕ} {A P : Cols n} {s : ℕ} (h1 : s < A.count) (h2 : s < P.count) : change A P s = .ok fun p => A.val p s - P.val p s := by
  unfold change Cols.col
  rw [if_pos h1, if_pos h2]
  rfl

theorem change_error {n : ℕ} {A P : Cols n} {s : ℕ} (h : ¬ (s < A.count ∧ s < P.count)) : change A P s = .error .indexError := by
  unfold change Cols.col
  by_cases h1 : s < A.count
  · rw [if_pos h1, if_neg (fun h2 => h ⟨h1, h2⟩)]
    rfl
  · rw [if_neg h1]
    rfl

theorem change_inv {n : ℕ} {A P : Cols n} {s : ℕ} {d : Fin n → ℂ} (h : change A P s = .ok d) :
    (s < A.count ∧ s < P.count) ∧ d = fun p => A.val p s - P.val p s := by
  by_cases hs : s < A.count ∧ s < P.count
  · rw [change_ok hs.1 hs.2] at h
    exact ⟨hs, (Except.ok.inj h).symm⟩
  · rw [change_error hs] at h
    cases h

theorem subband_inv {n : ℕ} {E Ep S Sp : Cols n} {itr s : ℕ} {o o' : Out} (h : subband E Ep S Sp itr s o = .ok o') :
    o'.rows = o.rows ∧ o'.nsbp = o.nsbp ∧ EntryIs o' (itr - 1) s E Ep S Sp ∧
      ∀ k b, ¬ (k = itr - 1 ∧ b = s) → o'.proj k b = o.proj k b ∧ o'.corr k b = o.corr k b := by
  unfold subband at h
  cases h1 : change E Ep s with
  | error e => rw [h1] at h; cases h
  | ok dm =>
    rw [h1] at h
    simp only [Except.bind] at h
    by_cases hn : n = 1
    · rw [if_pos hn] at h; cases h
    · rw [if_neg hn] at h
      cases h2 : change S Sp s with
      | error e => rw [h2] at h; cases h
      | ok ds =>
        rw [h2] at h
        simp only at h
        by_cases hr : itr - 1 < o.rows ∧ s < o.nsbp
        · rw [if_pos hr] at h
          have h' := Except.ok.inj h
          subst h'
          obtain ⟨_, rfl⟩ := change_inv h1
          obtain ⟨_, rfl⟩ := change_inv h2
          refine ⟨rfl, rfl, ⟨?_, ?_⟩, fun k b hkb => ⟨if_neg hkb, if_neg hkb⟩⟩
          · simp only [and_self, if_true]
            exact projection_is _ _
          · simp only [and_self, if_true]
            exact correlation_is _ _
        · rw [if_neg hr] at h; cases h

theorem subband_ok {n : ℕ} {E Ep S Sp : Cols n} {itr s : ℕ} {o : Out} (hn : n ≠ 1) (h1 : s < E.count) (h2 : s < Ep.count) (h3 : s < S.count) (h4 : s < Sp.count)
    (h5 : itr - 1 < o.rows) (h6 : s < o.nsbp) : ∃ o', subband E Ep S Sp itr s o = .ok o' := by
  unfold subband
  rw [change_ok h1 h2, change_ok h3 h4]
  simp only [Except.bind]
  rw [if_neg hn, if_pos ⟨h5, h6⟩]
  exact ⟨_, rfl⟩

theorem delta_inv {n : ℕ} {E Ep S Sp : Cols n} {itr : ℕ} : ∀ {l : List ℕ} {o o' : Out}, l.Nodup → deltaEfield E Ep S Sp itr l o = .ok o' →
    o'.rows = o.rows ∧ o'.nsbp = o.nsbp ∧ (∀ s ∈ l, EntryIs o' (itr - 1) s E Ep S Sp) ∧
      ∀ k b, ¬ (k = itr - 1 ∧ b ∈ l) → o'.proj k b = o.proj k b ∧ o'.corr k b = o.corr k b
  | [], o, o', _, h => by
    have h' := Except.ok.inj h
    subst h'
    exact ⟨rfl, rfl, by simp, fun _ _ _ => ⟨rfl, rfl⟩⟩
  | s :: l, o, o', hnd, h => by
    unfold deltaEfield at h
    cases h1 : subband E Ep S Sp itr s o with
    | error e => rw [h1] at h; cases h
    | ok o1 =>
      rw [h1] at h
      obtain ⟨hs, hl⟩ := List.nodup_cons.1 hnd
      obtain ⟨a1, a2, a3, a4⟩ := subband_inv h1
      obtain ⟨b1, b2, b3, b4⟩ := delta_inv hl h
      refine ⟨b1.trans a1, b2.trans a2, ?_, fun k b hkb => ?_⟩
      · intro b hb
        rcases List.mem_cons.1 hb with rfl | hb
        · obtain ⟨c1, c2⟩ := b4 (itr - 1) b (fun h => hs h.2)
          unfold EntryIs
          rw [c1, c2]
          exact a3
        · exact b3 b hb
      · obtain ⟨c1, c2⟩ := b4 k b (fun h => hkb ⟨h.1, List.mem_cons_of_mem _ h.2⟩)
        obtain ⟨d1, d2⟩ := a4 k b (fun h => hkb ⟨h.1, by rw [h.2]; exact List.mem_cons_self⟩)
        exact ⟨c1.trans d1, c2.trans d2⟩

theorem delta_ok {n : ℕ} {E Ep S Sp : Cols n} {itr : ℕ} (hn : n ≠ 1) : ∀ {l : List ℕ} {o : Out},
    (∀ s ∈ l, s < E.count ∧ s < Ep.count ∧ s < S.count ∧ s < Sp.count ∧ s < o.nsbp) → itr - 1 < o.rows → ∃ o', deltaEfield E Ep S Sp itr l o = .ok o'
  | [], o, _, _ => ⟨o, rfl⟩
  | s :: l, o, h, hr => by
    obtain ⟨h1, h2, h3, h4, h5⟩ := h s List.mem_cons_self
    obtain ⟨o1, ho1⟩ := subband_ok (itr := itr) (o := o) hn h1 h2 h3 h4 hr h5
    obtain ⟨a1, a2, _⟩ := subband_inv ho1
    obtain ⟨o', ho'⟩ := delta_ok (l := l) (o := o1) hn (fun b hb => by rw [a2]; exact h b (List.mem_cons_of_mem _ hb)) (by rw [a1]; exact hr)
    exact ⟨o', by unfold deltaEfield; rw [ho1]; exact ho'⟩

theorem run_inv {n : ℕ} {nitr nsbp : ℕ} {E S : ℕ → Cols n} : ∀ {k : ℕ} {st : State n}, run nitr nsbp E S k = .ok st →
    st.out.rows = nitr - 1 ∧ st.out.nsbp = nsbp ∧ (0 < k → st.eest = some (E (k - 1)) ∧ st.esim = some (S (k - 1))) ∧
      (∀ i, i + 1 < k → ∀ s < nsbp, EntryIs st.out i s (E (i + 1)) (E i) (S (i + 1)) (S i)) ∧
      ∀ i s, (i + 1 < k ∧ s < nsbp) ∨ (st.out.proj i s = .real 0 ∧ st.out.corr i s = .real 0)
  | 0, st, h => by
    have h' := Except.ok.inj h
    subst h'
    exact ⟨rfl, rfl, by simp, fun i hi => by omega, fun i s => Or.inr ⟨rfl, rfl⟩⟩
  | k + 1, st, h => by
    unfold run at h
    cases h1 : run nitr nsbp E S k with
    | error e => rw [h1] at h; cases h
    | ok st0 =>
      rw [h1] at h
      obtain ⟨a1, a2, a3, a4, a5⟩ := run_inv h1
      simp only [Except.bind] at h
      unfold iteration at h
      by_cases hk : k > 0
      · rw [if_pos hk] at h
        obtain ⟨e1, e2⟩ := a3 hk
        rw [e1, e2] at h
        simp only at h
        cases h2 : deltaEfield (E k) (E (k - 1)) (S k) (S (k - 1)) k (List.range nsbp) st0.out with
        | error e => rw [h2] at h; cases h
        | ok o =>
          rw [h2] at h
          have h' := Except.ok.inj h
          subst h'
          obtain ⟨b1, b2, b3, b4⟩ := delta_inv List.nodup_range h2
          refine ⟨b1.trans a1, b2.trans a2, fun _ => ⟨rfl, rfl⟩, ?_, ?_⟩
          · intro i hi s hs
            by_cases hik : i = k - 1
            · have := b3 s (List.mem_range.2 hs)
              have e : i + 1 = k := by omega
              rw [e, hik]
              exact this
            · obtain ⟨c1, c2⟩ := b4 i s (fun h => hik h.1)
              have := a4 i (by omega) s hs
              unfold EntryIs at this ⊢
              simp only
              rw [c1, c2]
              exact this
          · intro i s
            by_cases hi : i = k - 1 ∧ s < nsbp
            · exact Or.inl ⟨by omega, hi.2⟩
            · obtain ⟨c1, c2⟩ := b4 i s (fun h => hi ⟨h.1, List.mem_range.1 h.2⟩)
              rcases a5 i s with h | h
              · exact Or.inl ⟨by omega, h.2⟩
              · right
                simp only
                rw [c1, c2]
                exact h
      · rw [if_neg hk] at h
        have h' := Except.ok.inj h
        subst h'
        have hk0 : k = 0 := by omega
        subst hk0
        refine ⟨a1, a2, fun _ => ⟨rfl, rfl⟩, fun i hi => by omega, fun i s => ?_⟩
        rcases a5 i s with h | h
        · exact absurd h.1 (by omega)
        · exact Or.inr h

/-- The recorded history: over a run of any length, row `i` holds for every subband the two quotients for the changes from iteration `i` to iteration `i + 1`, and all other entries are
still zero. -/
theorem C152_history {n : ℕ} (nitr nsbp : ℕ) (E S : ℕ → Cols n) (k : ℕ) (st : State n) (h : run nitr nsbp E S k = .ok st) :
    (∀ i, i + 1 < k → ∀ s < nsbp,
      ProjectionIs (st.out.proj i s) (fun p => (E (i + 1)).val p s - (E i).val p s) (fun p => (S (i + 1)).val p s - (S i).val p s) ∧
      CorrelationIs (st.out.corr i s) (fun p => (E (i + 1)).val p s - (E i).val p s) (fun p => (S (i + 1)).val p s - (S i).val p s)) ∧
    ∀ i s, ¬ (i + 1 < k ∧ s < nsbp) → st.out.proj i s = .real 0 ∧ st.out.corr i s = .real 0 := by
  obtain ⟨_, _, _, h4, h5⟩ := run_inv h
  exact ⟨h4, fun i s hi => (h5 i s).resolve_left hi⟩

/-- The arrays have exactly the rows that are needed: with at least two pixels and a column per subband, no run fails here, and all its entries are in range. -/
theorem C152_completes {n : ℕ} (hn : n ≠ 1) (nitr nsbp : ℕ) (E S : ℕ → Cols n) (hE : ∀ k, nsbp ≤ (E k).count) (hS : ∀ k, nsbp ≤ (S k).count) :
    ∀ k ≤ nitr, ∃ st, run nitr nsbp E S k = .ok st := by
  intro k
  induction k with
  | zero => exact fun _ => ⟨_, rfl⟩
  | succ k ih =>
    intro hk
    obtain ⟨st, hst⟩ := ih (by omega)
    obtain ⟨a1, a2, a3, _⟩ := run_inv hst
    unfold run
    rw [hst]
    simp only [Except.bind]
    unfold iteration
    by_cases hk0 : k > 0
    · rw [if_pos hk0, (a3 hk0).1, (a3 hk0).2]
      simp only
      obtain ⟨o, ho⟩ := delta_ok (E := E k) (Ep := E (k - 1)) (S := S k) (Sp := S (k - 1)) (itr := k) hn (l := List.range nsbp) (o := st.out)
        (fun s hs => by
          have hs' := List.mem_range.1 hs
          exact ⟨lt_of_lt_of_le hs' (hE _), lt_of_lt_of_le hs' (hE _), lt_of_lt_of_le hs' (hS _), lt_of_lt_of_le hs' (hS _), by rw [a2]; exact hs'⟩)
        (by rw [a1]; omega)
      rw [ho]
      exact ⟨_, rfl⟩
    · rw [if_neg hk0]
      exact ⟨_, rfl⟩

/-- Violated: with a dark hole of a single pixel the run ends with a ValueError at the second iteration. -/
theorem C152_violated_single_pixel (nitr nsbp : ℕ) (hs : 0 < nsbp) (E S : ℕ → Cols 1) (hE : ∀ k, nsbp ≤ (E k).count) :
    run nitr nsbp E S 2 = .error .valueError := by
  have h1 : run nitr nsbp E S 1 = .ok ⟨some (E 0), some (S 0), Out.init nitr nsbp⟩ := rfl
  unfold run
  rw [h1]
  simp only [Except.bind]
  unfold iteration
  rw [if_pos (by norm_num)]
  simp only
  obtain ⟨m, rfl⟩ := Nat.exists_eq_succ_of_ne_zero hs.ne'
  rw [List.range_succ_eq_map]
  unfold deltaEfield subband
  have e0 := hE 0
  have e1 := hE 1
  rw [change_ok (by omega) (by omega)]
  rfl

/-! ## What the numbers mean -/

/-- Where the measured change is a multiple `c` of the expected one, the projection is `|c|` and the correlation one, provided that the squares of the expected change do not cancel. -/
theorem C152_proportional {n : ℕ} (meas sim : Fin n → ℂ) (c : ℂ) (hc : c ≠ 0) (h : ∀ p, meas p = c * sim p) (hs : ∑ p, sim p ^ 2 ≠ 0) (x y : Num)
    (hx : ProjectionIs x meas sim) (hy : CorrelationIs y meas sim) : x = .real ‖c‖ ∧ y = .real 1 := by
  have h1 : (∑ p, if meas p = 0 then 0 else sim p ^ 2) = ∑ p, sim p ^ 2 := by
    refine Finset.sum_congr rfl fun p _ => ?_
    by_cases hp : meas p = 0
    · rw [if_pos hp]
      rw [h p] at hp
      rw [(mul_eq_zero.1 hp).resolve_left hc]
      ring
    · rw [if_neg hp]
  have h2 : ∑ p, sim p * meas p = c * ∑ p, sim p ^ 2 := by
    rw [Finset.mul_sum]
    exact Finset.sum_congr rfl fun p _ => by rw [h p]; ring
  have h3 : ∑ p, meas p ^ 2 = c ^ 2 * ∑ p, sim p ^ 2 := by
    rw [Finset.mul_sum]
    exact Finset.sum_congr rfl fun p _ => by rw [h p]; ring
  unfold ProjectionIs at hx
  unfold CorrelationIs at hy
  rw [h1, h2] at hx
  rw [h1, h2, h3] at hy
  have hS : 0 < ‖∑ p, sim p ^ 2‖ := norm_pos_iff.2 hs
  have hC : 0 < ‖c‖ := norm_pos_iff.2 hc
  generalize (∑ p, sim p ^ 2) = A at *
  have hq : Real.sqrt ‖c ^ 2 * A‖ * Real.sqrt ‖A‖ = ‖c * A‖ := by
    rw [norm_mul, norm_mul, norm_pow, Real.sqrt_mul (by positivity), Real.sqrt_sq hC.le, mul_assoc, Real.mul_self_sqrt hS.le]
  constructor
  · rw [hx.1 hS.ne', norm_mul, mul_div_cancel_right₀ _ hS.ne']
  · rw [hq] at hy
    have hne : ‖c * A‖ ≠ 0 := by rw [norm_mul]; positivity
    rw [hy.1 hne, div_self hne]

/-- A model that explains the estimates completely gives ones, under the same proviso. -/
theorem C152_perfect {n : ℕ} (nitr nsbp : ℕ) (E : ℕ → Cols n) (k : ℕ) (st : State n) (h : run nitr nsbp E E k = .ok st) (i s : ℕ) (hi : i + 1 < k) (hs : s < nsbp)
    (hne : ∑ p, ((E (i + 1)).val p s - (E i).val p s) ^ 2 ≠ 0) : st.out.proj i s = .real 1 ∧ st.out.corr i s = .real 1 := by
  obtain ⟨h1, h2⟩ := (C152_history nitr nsbp E E k st h).1 i hi s hs
  have := C152_proportional _ _ 1 one_ne_zero (fun p => (one_mul _).symm) hne _ _ h1 h2
  rwa [norm_one] at this

/-- The values do not depend on a common complex factor of the measured changes, except that the projection grows with its size. -/
theorem C152_scaling {n : ℕ} (meas sim : Fin n → ℂ) (c : ℂ) (hc : c ≠ 0) (hs : (∑ p, if meas p = 0 then 0 else sim p ^ 2) ≠ 0) (hm : ∑ p, meas p ^ 2 ≠ 0) (x x' y y' : Num)
    (hx : ProjectionIs x meas sim) (hx' : ProjectionIs x' (fun p => c * meas p) sim)
    (hy : CorrelationIs y meas sim) (hy' : CorrelationIs y' (fun p => c * meas p) sim) :
    (∃ v, x = .real v ∧ x' = .real (‖c‖ * v)) ∧ ∃ v, y = .real v ∧ y' = .real v := by
  have h1 : ∀ p, (c * meas p = 0) = (meas p = 0) := fun p => by simp [hc]
  have h2 : ∑ p, sim p * (c * meas p) = c * ∑ p, sim p * meas p := by
    rw [Finset.mul_sum]
    exact Finset.sum_congr rfl fun p _ => by ring
  have h3 : ∑ p, (c * meas p) ^ 2 = c ^ 2 * ∑ p, meas p ^ 2 := by
    rw [Finset.mul_sum]
    exact Finset.sum_congr rfl fun p _ => by ring
  unfold ProjectionIs at hx hx'
  unfold CorrelationIs at hy hy'
  simp only [h1] at hx' hy'
  rw [h2] at hx'
  rw [h2, h3] at hy'
  have hS := norm_pos_iff.2 hs
  have hM := norm_pos_iff.2 hm
  have hC := norm_pos_iff.2 hc
  generalize (∑ p, if meas p = 0 then 0 else sim p ^ 2) = A at *
  generalize (∑ p, sim p * meas p) = B at *
  generalize (∑ p, meas p ^ 2) = D at *
  refine ⟨⟨_, hx.1 hS.ne', ?_⟩, ⟨_, hy.1 (by positivity), ?_⟩⟩
  · rw [hx'.1 hS.ne', norm_mul, mul_div_assoc]
  · have hq : Real.sqrt ‖c ^ 2 * D‖ = ‖c‖ * Real.sqrt ‖D‖ := by
      rw [norm_mul, norm_pow, Real.sqrt_mul (by positivity), Real.sqrt_sq hC.le]
    rw [hq] at hy'
    rw [hy'.1 (by positivity), norm_mul, mul_assoc, mul_div_mul_left _ _ hC.ne']

/-- Pixels whose estimate has not changed do not count: the expected change there is irrelevant. -/
theorem C152_unchanged_pixels {n : ℕ} (meas sim sim' : Fin n → ℂ) (h : ∀ p, meas p ≠ 0 → sim p = sim' p) (x x' y y' : Num)
    (hx : ProjectionIs x meas sim) (hx' : ProjectionIs x' meas sim') (hy : CorrelationIs y meas sim) (hy' : CorrelationIs y' meas sim') : x = x' ∧ y = y' := by
  have h1 : (∑ p, if meas p = 0 then 0 else sim p ^ 2) = ∑ p, if meas p = 0 then 0 else sim' p ^ 2 := by
    refine Finset.sum_congr rfl fun p _ => ?_
    by_cases hp : meas p = 0
    · rw [if_pos hp, if_pos hp]
    · rw [if_neg hp, if_neg hp, h p hp]
  have h2 : ∑ p, sim p * meas p = ∑ p, sim' p * meas p := by
    refine Finset.sum_congr rfl fun p _ => ?_
    by_cases hp : meas p = 0
    · rw [hp, mul_zero, mul_zero]
    · rw [h p hp]
  unfold ProjectionIs at hx hx'
  unfold CorrelationIs at hy hy'
  rw [h1, h2] at hx hy
  exact ⟨quot_unique hx hx', quot_unique hy hy'⟩

/-- Without any change of the estimate both numbers are undefined (NaN), without an error. -/
theorem C152_no_change {n : ℕ} (sim : Fin n → ℂ) (x y : Num) (hx : ProjectionIs x (fun _ => 0) sim) (hy : CorrelationIs y (fun _ => 0) sim) : x = .nan ∧ y = .nan := by
  unfold ProjectionIs at hx
  unfold CorrelationIs at hy
  simp at hx hy
  exact ⟨hx.2.2 (by simp) (by simp), hy.2.2 (by simp) (by simp)⟩

/-- In the only case in which the conjugation does not matter, that all changes have a common phase, the two numbers are the projection and the correlation of complex vectors (over the pixels
whose estimate has changed), and the correlation is at most one. -/
theorem C152_common_phase {n : ℕ} (r t : Fin n → ℝ) (u v : ℂ) (hu : ‖u‖ = 1) (hv : ‖v‖ = 1) (hr : ∀ p, r p ≠ 0) (ht : ∃ p, t p ≠ 0) (x y : Num)
    (hx : ProjectionIs x (fun p => u * r p) (fun p => v * t p)) (hy : CorrelationIs y (fun p => u * r p) (fun p => v * t p)) :
    x = .real (trueProjection (fun p => v * t p) (fun p => u * r p)) ∧ y = .real (trueCorrelation (fun p => v * t p) (fun p => u * r p)) ∧
      trueCorrelation (fun p => v * t p) (fun p => u * r p) ≤ 1 := by
  have hu0 : u ≠ 0 := norm_ne_zero_iff.1 (by rw [hu]; norm_num)
  have h0 : ∀ p, (u * (r p : ℂ) = 0) = False := fun p => by simp [hu0, hr p]
  have e1 : ‖∑ p, v * (t p : ℂ) * (u * r p)‖ = |∑ p, t p * r p| := by
    have : ∑ p, v * (t p : ℂ) * (u * r p) = v * u * ((∑ p, t p * r p : ℝ) : ℂ) := by
      push_cast
      rw [Finset.mul_sum]
      exact Finset.sum_congr rfl fun p _ => by ring
    rw [this, norm_mul, norm_mul, hu, hv, Complex.norm_real, Real.norm_eq_abs]; ring
  have e2 : ∀ (z : ℂ) (q : Fin n → ℝ), ‖z‖ = 1 → ‖∑ p, (z * (q p : ℂ)) ^ 2‖ = ∑ p, q p ^ 2 := by
    intro z q hz
    have : ∑ p, (z * (q p : ℂ)) ^ 2 = z ^ 2 * ((∑ p, q p ^ 2 : ℝ) : ℂ) := by
      push_cast
      rw [Finset.mul_sum]
      exact Finset.sum_congr rfl fun p _ => by ring
    rw [this, norm_mul, norm_pow, hz, Complex.norm_real, Real.norm_eq_abs, abs_of_nonneg (Finset.sum_nonneg fun p _ => sq_nonneg _)]; ring
  have e3 : ∀ (z : ℂ) (q : Fin n → ℝ), ‖z‖ = 1 → ∑ p, ‖z * (q p : ℂ)‖ ^ 2 = ∑ p, q p ^ 2 := by
    intro z q hz
    refine Finset.sum_congr rfl fun p _ => ?_
    rw [norm_mul, hz, Complex.norm_real, Real.norm_eq_abs, one_mul, sq_abs]
  have e4 : ‖∑ p, starRingEnd ℂ (v * t p) * (u * r p)‖ = |∑ p, t p * r p| := by
    have : ∑ p, starRingEnd ℂ (v * t p) * (u * r p) = starRingEnd ℂ v * u * ((∑ p, t p * r p : ℝ) : ℂ) := by
      push_cast
      rw [Finset.mul_sum]
      refine Finset.sum_congr rfl fun p _ => ?_
      rw [map_mul, Complex.conj_ofReal]; ring
    rw [this, norm_mul, norm_mul, RCLike.norm_conj, hu, hv, Complex.norm_real, Real.norm_eq_abs]; ring
  have hT : 0 < ∑ p, t p ^ 2 := by
    obtain ⟨p, hp⟩ := ht
    exact Finset.sum_pos' (fun p _ => sq_nonneg _) ⟨p, Finset.mem_univ _, by positivity⟩
  have hR : 0 < ∑ p, r p ^ 2 := by
    obtain ⟨p, hp⟩ := ht
    exact Finset.sum_pos (fun p _ => by have := hr p; positivity) ⟨p, Finset.mem_univ _⟩
  unfold ProjectionIs at hx
  unfold CorrelationIs at hy
  unfold trueProjection trueCorrelation
  simp only [h0, if_false] at hx hy
  rw [e1, e2 v t hv] at hx
  rw [e1, e2 v t hv, e2 u r hu] at hy
  rw [e4, e3 v t hv, e3 u r hu]
  refine ⟨hx.1 hT.ne', ?_, ?_⟩
  · rw [hy.1 (by positivity), mul_comm (Real.sqrt (∑ p, r p ^ 2))]
  · rw [div_le_one (by positivity), ← Real.sqrt_mul hT.le, ← Real.sqrt_sq_eq_abs]
    exact Real.sqrt_le_sqrt (Finset.sum_mul_sq_le_sq_mul_sq _ _ _)

theorem trueCorrelation_le {n : ℕ} (a b : Fin n → ℂ) : trueCorrelation a b ≤ 1 := by
  unfold trueCorrelation
  refine div_le_one_of_le₀ ?_ (by positivity)
  refine le_trans (norm_sum_le _ _) ?_
  have h1 : ∀ p, ‖starRingEnd ℂ (a p) * b p‖ = ‖a p‖ * ‖b p‖ := fun p => by rw [norm_mul, RCLike.norm_conj]
  simp only [h1]
  rw [← Real.sqrt_mul (Finset.sum_nonneg fun p _ => by positivity)]
  refine Real.le_sqrt_of_sq_le ?_
  exact Finset.sum_mul_sq_le_sq_mul_sq _ _ _

/-- Violated: the recorded correlation is not one.  It exceeds every bound, on two pixels, while the correlation of the two complex vectors is at most one. -/
theorem C152_violated_bound (B : ℝ) : ∃ meas sim : Fin 2 → ℂ, trueCorrelation sim meas ≤ 1 ∧ (∀ p, meas p ≠ 0 ∧ sim p ≠ 0) ∧
    ∀ y, CorrelationIs y meas sim → ∃ v, y = .real v ∧ B < v := by
  -- the changes (1, i t) and (1, -i t) with t near one
  obtain ⟨e, he⟩ : ∃ e : ℝ, e = 1 / (|B| + 2) := ⟨_, rfl⟩
  have hB := abs_nonneg B
  have he0 : 0 < e := by rw [he]; positivity
  have he1 : e ≤ 1 / 2 := by rw [he]; exact one_div_le_one_div_of_le (by norm_num) (by linarith)
  have hmul : e * (|B| + 2) = 1 := by rw [he]; field_simp
  have ht0 : 0 ≤ 1 - e := by linarith
  refine ⟨![1, Complex.I * (Real.sqrt (1 - e) : ℝ)], ![1, -(Complex.I * (Real.sqrt (1 - e) : ℝ))], trueCorrelation_le _ _, ?_, ?_⟩
  · have hne : (Real.sqrt (1 - e) : ℂ) ≠ 0 := by
      have : 0 < Real.sqrt (1 - e) := Real.sqrt_pos.2 (by linarith)
      exact_mod_cast this.ne'
    intro p
    fin_cases p <;> simp [hne]
  · intro y hy
    have hne : (Real.sqrt (1 - e) : ℂ) ≠ 0 := by
      have : 0 < Real.sqrt (1 - e) := Real.sqrt_pos.2 (by linarith)
      exact_mod_cast this.ne'
    have hsq : ((Real.sqrt (1 - e) : ℝ) : ℂ) ^ 2 = ((1 - e : ℝ) : ℂ) := by
      rw [← Complex.ofReal_pow, Real.sq_sqrt ht0]
    have hII : Complex.I ^ 2 = -1 := Complex.I_sq
    unfold CorrelationIs at hy
    simp only [Fin.sum_univ_two, Matrix.cons_val_zero, Matrix.cons_val_one, one_ne_zero, mul_eq_zero, Complex.I_ne_zero, hne, or_self, if_false] at hy
    have n1 : (1 : ℂ) * 1 + -(Complex.I * (Real.sqrt (1 - e) : ℝ)) * (Complex.I * (Real.sqrt (1 - e) : ℝ)) = ((2 - e : ℝ) : ℂ) := by
      have : (1 : ℂ) * 1 + -(Complex.I * (Real.sqrt (1 - e) : ℝ)) * (Complex.I * (Real.sqrt (1 - e) : ℝ)) =
        1 - Complex.I ^ 2 * ((Real.sqrt (1 - e) : ℝ) : ℂ) ^ 2 := by ring
      rw [this, hsq, hII]; push_cast; ring
    have n2 : (1 : ℂ) ^ 2 + (Complex.I * (Real.sqrt (1 - e) : ℝ)) ^ 2 = ((e : ℝ) : ℂ) := by
      rw [mul_pow, hsq, hII]; push_cast; ring
    have n3 : (1 : ℂ) ^ 2 + (-(Complex.I * (Real.sqrt (1 - e) : ℝ))) ^ 2 = ((e : ℝ) : ℂ) := by
      rw [neg_sq, n2]
    rw [n1, n2, n3, Complex.norm_real, Complex.norm_real, Real.norm_eq_abs, Real.norm_eq_abs, abs_of_pos he0, abs_of_pos (by linarith : (0 : ℝ) < 2 - e),
      Real.mul_self_sqrt he0.le] at hy
    refine ⟨_, hy.1 he0.ne', ?_⟩
    rw [lt_div_iff₀ he0]
    have := le_abs_self B
    nlinarith

/-- Violated: two equal changes, to which the model agrees completely, can have undefined numbers. -/
theorem C152_violated_undefined : ∃ d : Fin 2 → ℂ, (∀ p, d p ≠ 0) ∧ trueCorrelation d d = 1 ∧ trueProjection d d = 1 ∧
    ∀ x y, ProjectionIs x d d → CorrelationIs y d d → x = .nan ∧ y = .nan := by
  refine ⟨![1, Complex.I], ?_, ?_, ?_, ?_⟩
  · intro p
    fin_cases p <;> simp
  · unfold trueCorrelation
    simp [Fin.sum_univ_two]
    norm_num
  · unfold trueProjection
    simp [Fin.sum_univ_two]
    norm_num
  · intro x y hx hy
    unfold ProjectionIs at hx
    unfold CorrelationIs at hy
    simp [Fin.sum_univ_two] at hx hy
    exact ⟨hx.2.2 (by simp) (by simp), hy.2.2 (by simp) (by simp)⟩

/-! ## Which fields are compared -/

/-- The expected field of a subband is that of the compact model for the first star and piston, at the pixels of the dark hole. -/
theorem C152_simulated {n : ℕ} {P : Type} (nsbp : ℕ) (compact : ModVar → P → ℂ) (pixel : Fin n → P) :
    (simulated nsbp compact pixel).count = nsbp ∧
    ∀ p s, (simulated nsbp compact pixel).val p s =
      compact { sbpIndex := s, wpsbpIndex := 0, starIndex := 0, zernIndex := 1, whichSource := "star", xOffset := 0, yOffset := 0 } (pixel p) :=
  ⟨rfl, fun _ _ => rfl⟩

open Verif.Setup in
/-- With piston as the only Zernike, the column of a subband of the estimate is the same: mode `s` is piston of subband `s` and of the first star. -/
theorem C152_columns (c : ModeCfg) (a : ℝ) (hz : c.zerns = [(1, a)]) (hN : 1 ≤ c.Nsbp) (hS : 1 ≤ c.Nstar) (ms : List JMode)
    (hok : jacModes c = .ok ms) (s : ℕ) (hs : s < c.Nsbp) : ∃ m, ms[s]? = some m ∧ m.star = 0 ∧ m.sbp = s ∧ m.zern = 1 := by
  classical
  obtain ⟨_, _, rfl⟩ := jacModes_ok c ms hok
  have hz1 : c.z 0 = 1 := by rw [z_eq c 0 (by rw [hz]; simp)]; simp [hz]
  have hp : PistonFirst c := ⟨by rw [hz]; simp, hz1⟩
  have hn : (c.zerns.map (·.1)).Nodup := by rw [hz]; simp
  rw [weightMatInd_eq c hN hp hn]
  have hact : Active c 0 := by
    unfold Active zcoef
    simp [hz]
  have hctl : ∀ si, Controlled c.Nsbp si (c.z 0) := fun si => Or.inl hz1
  have hlen : c.zerns.length = 1 := by rw [hz]; rfl
  have hflat : (List.range c.Nsbp).flatMap (fun si => ((List.range c.zerns.length).filter fun iz => Active c iz ∧ Controlled c.Nsbp si (c.z iz)).map
      fun iz => (si, iz, weightMat1 c si iz / colSum c iz)) = (List.range c.Nsbp).map fun si => (si, 0, weightMat1 c si 0 / colSum c 0) := by
    rw [hlen, List.map_eq_flatMap]
    refine List.flatMap_congr fun si _ => ?_
    rw [List.range_one, List.filter_cons_of_pos (by simp [hact, hctl])]
    rfl
  rw [hflat]
  obtain ⟨m, hm⟩ := Nat.exists_eq_succ_of_ne_zero (by omega : c.Nstar ≠ 0)
  rw [hm, List.range_succ_eq_map, List.flatMap_cons, List.getElem?_append_left (by simp [hs])]
  rw [List.map_map, List.getElem?_map, List.getElem?_range hs]
  exact ⟨_, rfl, rfl, rfl, hz1⟩

open Verif.Setup in
/-- Violated: with piston and a second Zernike, column 1 of the estimate, which is compared with the expected change of subband 1, is the second Zernike in subband 0. -/
theorem C152_violated_zernikes (c : ModeCfg) (z : ℕ) (a b : ℝ) (hzn : z ≠ 1) (hb : b ≠ 0) (hz : c.zerns = [(1, a), (z, b)]) (hN : 1 ≤ c.Nsbp) (hS : 1 ≤ c.Nstar)
    (ms : List JMode) (hok : jacModes c = .ok ms) : ∃ m, ms[1]? = some m ∧ m.star = 0 ∧ m.sbp = 0 ∧ m.zern = z := by
  classical
  obtain ⟨_, _, rfl⟩ := jacModes_ok c ms hok
  have hz1 : c.z 0 = 1 := by rw [z_eq c 0 (by rw [hz]; simp)]; simp [hz]
  have hz2 : c.z 1 = z := by rw [z_eq c 1 (by rw [hz]; simp)]; simp [hz]
  have hp : PistonFirst c := ⟨by rw [hz]; simp, hz1⟩
  have hn : (c.zerns.map (·.1)).Nodup := by rw [hz]; simp [hzn.symm]
  rw [weightMatInd_eq c hN hp hn]
  have hact0 : Active c 0 := by unfold Active zcoef; simp [hz]
  have hact1 : Active c 1 := by unfold Active zcoef; simp [hz, hzn, hb]
  have hlen : c.zerns.length = 2 := by rw [hz]; rfl
  obtain ⟨N, hNe⟩ := Nat.exists_eq_succ_of_ne_zero (by omega : c.Nsbp ≠ 0)
  have hhead : ((List.range c.zerns.length).filter fun iz => Active c iz ∧ Controlled c.Nsbp 0 (c.z iz)) = [0, 1] := by
    rw [hlen]
    have h0 : Controlled c.Nsbp 0 (c.z 0) := Or.inl hz1
    have h1 : Controlled c.Nsbp 0 (c.z 1) := Or.inr (Or.inl rfl)
    simp [List.range_succ, hact0, hact1, h0, h1]
  obtain ⟨m, hm⟩ := Nat.exists_eq_succ_of_ne_zero (by omega : c.Nstar ≠ 0)
  have hr : List.range c.Nsbp = 0 :: (List.range N).map Nat.succ := by rw [hNe, List.range_succ_eq_map]
  rw [hm, hr, List.range_succ_eq_map, List.flatMap_cons, List.flatMap_cons, hhead]
  simp only [List.map_cons, List.map_nil, List.cons_append, List.nil_append]
  exact ⟨_, rfl, rfl, rfl, hz2⟩

/-! ## Non-vacuity -/

/-- A run of three iterations over two pixels and one subband, whose estimate is twice the model. -/
example : ∃ st, run (n := 2) 3 1 (fun k => ⟨1, fun p _ => 2 * (k : ℂ) ^ 2 * ((p : ℕ) + 1)⟩) (fun k => ⟨1, fun p _ => (k : ℂ) ^ 2 * ((p : ℕ) + 1)⟩) 3 = .ok st ∧
    st.out.proj 1 0 = .real 2 ∧ st.out.corr 1 0 = .real 1 := by
  obtain ⟨st, hst⟩ := C152_completes (n := 2) (by norm_num) 3 1 (fun k => ⟨1, fun p _ => 2 * (k : ℂ) ^ 2 * ((p : ℕ) + 1)⟩)
    (fun k => ⟨1, fun p _ => (k : ℂ) ^ 2 * ((p : ℕ) + 1)⟩) (fun _ => le_refl _) (fun _ => le_refl _) 3 le_rfl
  refine ⟨st, hst, ?_⟩
  obtain ⟨h1, h2⟩ := (C152_history _ _ _ _ _ _ hst).1 1 (by norm_num) 0 (by norm_num)
  have := C152_proportional _ _ 2 (by norm_num) (fun p => by simp only; push_cast; ring) (by simp [Fin.sum_univ_two]; norm_num) _ _ h1 h2
  simpa using this

end Verif.DeltaField
