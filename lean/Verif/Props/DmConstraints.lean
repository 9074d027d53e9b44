import Verif.Lemmas.DmConstraints
import Mathlib.Tactic.NormNum
import Mathlib.Data.Fin.VecNotation

/-!
# Properties of `dm.enforce_constraints` (C11, C12)

Vocabulary used by the statements:
* `Follower d b` - `b` is the second entry of some tied pair;
* `Pinned d i` - `i` is in the pinned list;
* `total d i` - the voltage actually put on actuator `i`: command (0 if dead) plus bias.
-/

namespace Verif.Dm
open Verif
variable {n : ℕ}

/-- `b` is the second actuator of some tied pair. -/
def Follower (d : State n) (b : Fin n) : Prop := ∃ a, (a, b) ∈ d.tied
/-- `i` is listed in `dm.pinned`. -/
def Pinned (d : State n) (i : Fin n) : Prop := ∃ v, (i, v) ∈ d.pinned
/-- command (0 for a dead actuator) plus bias voltage -/
noncomputable def total (d : State n) (i : Fin n) : ℝ := (if d.dead i then 0 else d.V i) + d.biasMap i
/-- the total voltage of `i` is within the limits -/
def InRange (d : State n) (i : Fin n) : Prop := d.Vmin ≤ total d i ∧ total d i ≤ d.Vmax

theorem total_def (d : State n) (i : Fin n) : total d i = zeroDead d i + d.biasMap i := rfl

/-- value at a non-follower -/
theorem enforce_V_of_not_follower (d : State n) (i : Fin n) (h : ¬ Follower d i) :
    (enforce d).V i = scatter (zeroDead d) (d.pinned ++ newPins d) i := by
  unfold enforce
  dsimp only
  apply scatter_of_not_mem
  intro p hp
  obtain ⟨q, hq, rfl⟩ := List.mem_map.1 hp
  intro e
  exact h ⟨q.1, by rw [← e]; exact hq⟩

theorem newPins_not_of_inRange (d : State n) (i : Fin n) (h : InRange d i) : ∀ p ∈ newPins d, p.1 ≠ i := by
  intro p hp e
  rw [mem_newPins, e] at hp
  unfold InRange at h
  rw [total_def] at h
  rcases hp with hp | hp
  · linarith [hp.1, h.1]
  · linarith [hp.1, h.2]

/-- C11. A tied follower (last pair wins) ends up with the command of its leader, for leaders that are not
followers themselves. -/
theorem C11_tied (d : State n) (l1 l2 : List (Fin n × Fin n)) (a b : Fin n) (ht : d.tied = l1 ++ (a, b) :: l2)
    (hlast : ∀ p ∈ l2, p.2 ≠ b) (ha : ¬ Follower d a) : (enforce d).V b = (enforce d).V a := by
  rw [enforce_V_of_not_follower d a ha]
  unfold enforce
  dsimp only
  rw [ht, List.map_append, List.map_cons]
  apply scatter_last
  intro p hp
  obtain ⟨q, hq, rfl⟩ := List.mem_map.1 hp
  exact hlast q hq

/-- C11. A pinned actuator that is not a tied follower holds its last listed pinned value - provided its incoming total
voltage is within limits (see `C11_pinned_overridden` otherwise). -/
theorem C11_pinned (d : State n) (l1 l2 : List (Fin n × ℝ)) (i : Fin n) (v : ℝ)
    (hp : d.pinned = l1 ++ (i, v) :: l2) (hlast : ∀ p ∈ l2, p.1 ≠ i) (hf : ¬ Follower d i) (hr : InRange d i) :
    (enforce d).V i = v := by
  rw [enforce_V_of_not_follower d i hf, hp, List.append_assoc, List.cons_append]
  apply scatter_last
  intro p hp
  rcases List.mem_append.1 hp with hp | hp
  · exact hlast p hp
  · exact newPins_not_of_inRange d i hr p hp

/-- C11. A dead actuator that is neither pinned nor a tied follower gets the command 0 (its bias being in range). -/
theorem C11_dead (d : State n) (i : Fin n) (hd : d.dead i = true) (hp : ¬ Pinned d i) (hf : ¬ Follower d i)
    (hr : d.Vmin ≤ d.biasMap i ∧ d.biasMap i ≤ d.Vmax) : (enforce d).V i = 0 := by
  rw [enforce_V_of_not_follower d i hf, scatter_of_not_mem]
  · simp [zeroDead, hd]
  · intro p hp' e
    rcases List.mem_append.1 hp' with h | h
    · exact hp ⟨p.2, by rw [← e]; exact h⟩
    · exact newPins_not_of_inRange d i (by unfold InRange total; simpa [hd] using hr) p h e

/-- C11. Every other actuator (alive, not pinned, not a follower, in range) keeps its command. -/
theorem C11_free_unchanged (d : State n) (i : Fin n) (hd : d.dead i = false) (hp : ¬ Pinned d i)
    (hf : ¬ Follower d i) (hr : InRange d i) : (enforce d).V i = d.V i := by
  rw [enforce_V_of_not_follower d i hf, scatter_of_not_mem]
  · simp [zeroDead, hd]
  · intro p hp' e
    rcases List.mem_append.1 hp' with h | h
    · exact hp ⟨p.2, by rw [← e]; exact h⟩
    · exact newPins_not_of_inRange d i hr p h e

/-- C11. With zero bias and pinned values inside the limits, every command is within `[Vmin, Vmax]` afterwards, for any
dead, pinned and tied lists. For non-zero bias maps see `C11_exact` and `C11_limits_exceeded`. -/
theorem C11_limits_zero_bias (d : State n) (hb : ∀ i, d.biasMap i = 0) (hv : d.Vmin ≤ d.Vmax)
    (hp : ∀ p ∈ d.pinned, d.Vmin ≤ p.2 ∧ p.2 ≤ d.Vmax) (i : Fin n) :
    d.Vmin ≤ (enforce d).V i ∧ (enforce d).V i ≤ d.Vmax := by
  have key : ∀ j, d.Vmin ≤ scatter (zeroDead d) (d.pinned ++ newPins d) j ∧
      scatter (zeroDead d) (d.pinned ++ newPins d) j ≤ d.Vmax := by
    intro j
    rcases scatter_cases (zeroDead d) (d.pinned ++ newPins d) j with ⟨h1, h2⟩ | ⟨p, hp', rfl, h2⟩
    · rw [h2]
      constructor
      · by_contra hc
        push Not at hc
        exact h1 (j, d.Vmin) (List.mem_append_right _ (mem_newPins.2 (Or.inl ⟨by simpa [hb j] using hc, rfl⟩))) rfl
      · by_contra hc
        push Not at hc
        exact h1 (j, d.Vmax) (List.mem_append_right _ (mem_newPins.2 (Or.inr ⟨by simpa [hb j] using hc, rfl⟩))) rfl
    · rw [h2]
      rcases List.mem_append.1 hp' with h | h
      · exact hp p h
      · rcases mem_newPins.1 h with h | h
        · rw [h.2]; exact ⟨le_rfl, hv⟩
        · rw [h.2]; exact ⟨hv, le_rfl⟩
  unfold enforce
  dsimp only
  rcases scatter_cases (scatter (zeroDead d) (d.pinned ++ newPins d))
      (d.tied.map fun p => (p.2, scatter (zeroDead d) (d.pinned ++ newPins d) p.1)) i with ⟨_, h2⟩ | ⟨p, hp', _, h2⟩
  · rw [h2]; exact key i
  · rw [h2]
    obtain ⟨q, _, rfl⟩ := List.mem_map.1 hp'
    exact key q.1

/-- C11. What the code really does with an over-range actuator: the *command* becomes `Vmax`, so the total voltage
becomes `Vmax + biasMap`. Holds for every DM and every non-follower. -/
theorem C11_over_limit_total (d : State n) (i : Fin n) (hf : ¬ Follower d i) (hv : d.Vmin ≤ d.Vmax)
    (ho : d.Vmax < total d i) : (enforce d).V i = d.Vmax ∧ (enforce d).V i + d.biasMap i = d.Vmax + d.biasMap i := by
  rw [total_def] at ho
  have : (enforce d).V i = d.Vmax := by
    rw [enforce_V_of_not_follower d i hf, scatter_append]
    rcases scatter_cases (scatter (zeroDead d) d.pinned) (newPins d) i with ⟨h1, _⟩ | ⟨p, hp, rfl, h2⟩
    · exact absurd rfl (h1 (i, d.Vmax) (mem_newPins.2 (Or.inr ⟨ho, rfl⟩)))
    · rw [h2]
      rcases mem_newPins.1 hp with h | h
      · linarith [h.1]
      · exact h.2
  exact ⟨this, by rw [this]⟩

/-- C11 (the voltage-limit clause is false of the code). With the shipped default limits (0 to 1000 V, bias 500 V) and a
command of 600 V, the total voltage after `enforce_constraints` is 1500 V. -/
theorem C11_limits_exceeded :
    ∃ d : State 1, d = defaultDm (fun _ => 600) ∧ d.Vmax < (enforce d).V 0 + d.biasMap 0 ∧
      (enforce d).V 0 + d.biasMap 0 = 1500 := by
  refine ⟨_, rfl, ?_⟩
  have h := C11_over_limit_total (defaultDm (fun _ : Fin 1 => 600)) 0 (by rintro ⟨a, h⟩; simp [defaultDm] at h)
    (by norm_num [defaultDm]) (by norm_num [defaultDm, total])
  rw [h.2]; norm_num [defaultDm]

/-- C11 (the pinned-value clause is false in general). A user-pinned actuator (pinned to 0 V) whose incoming command is out
of range ends at `Vmax`, not at its pinned value. -/
theorem C11_pinned_overridden :
    ∃ d : State 1, d.pinned = [(0, 0)] ∧ d.tied = [] ∧ (enforce d).V 0 = 1000 := by
  refine ⟨{ defaultDm (fun _ : Fin 1 => 600) with pinned := [(0, 0)] }, rfl, rfl, ?_⟩
  exact (C11_over_limit_total { defaultDm (fun _ : Fin 1 => 600) with pinned := [(0, 0)] } 0
    (by rintro ⟨a, h⟩; simp [defaultDm] at h) (by norm_num [defaultDm]) (by norm_num [defaultDm, total])).1

/-- Non-vacuity: a 4-actuator DM with a dead (0), a pinned (1, value 7), a tied pair (1 leads 2) and a free actuator (3)
meets the hypotheses of the four theorems above simultaneously. -/
noncomputable def sampleDm : State 4 :=
  { V := ![5, 6, 8, 9], biasMap := fun _ => 0, Vmin := -10, Vmax := 10,
    dead := fun i => i == 0, pinned := [(1, 7)], tied := [(1, 2)] }

theorem sampleDm_not_follower (i : Fin 4) (h : i ≠ 2) : ¬ Follower sampleDm i := by
  rintro ⟨a, ha⟩; simp [sampleDm] at ha; exact h ha.2

example : (enforce sampleDm).V 0 = 0 ∧ (enforce sampleDm).V 1 = 7 ∧
    (enforce sampleDm).V 2 = (enforce sampleDm).V 1 ∧ (enforce sampleDm).V 3 = 9 := by
  refine ⟨?_, ?_, ?_, ?_⟩
  · exact C11_dead _ 0 rfl (by rintro ⟨a, ha⟩; simp [sampleDm] at ha) (sampleDm_not_follower 0 (by decide))
      (by norm_num [sampleDm])
  · exact C11_pinned _ [] [] 1 7 rfl (by simp) (sampleDm_not_follower 1 (by decide))
      (by norm_num [sampleDm, InRange, total])
  · exact C11_tied _ [] [] 1 2 rfl (by simp) (sampleDm_not_follower 1 (by decide))
  · have := C11_free_unchanged sampleDm 3 rfl (by rintro ⟨a, ha⟩; simp [sampleDm] at ha)
      (sampleDm_not_follower 3 (by decide)) (by
        have : (![5, 6, 8, 9] : Fin 4 → ℝ) 3 = 9 := rfl
        norm_num [sampleDm, InRange, total, Fin.ext_iff, this])
    rw [this]; rfl

/-! ## C12 -/

/-! ### C11: the exact outcome -/

/-- The value listed last for `i` in a list of (index, value) pairs, if any. -/
def lastFor {α : Type*} (l : List (Fin n × α)) (i : Fin n) : Option α := l.reverse.lookup i

/-- The command an actuator gets before ties are applied: railed high, railed low, last pinned value, 0 if dead, or its own
command - in this order of priority. -/
noncomputable def spec (d : State n) (i : Fin n) : ℝ :=
  if d.Vmax < total d i then d.Vmax
  else if total d i < d.Vmin then d.Vmin
  else match lastFor d.pinned i with
    | some v => v
    | none => if d.dead i then 0 else d.V i

/-- The actuator `i` takes its command from: the first entry of the last tied pair whose second entry is `i`, else itself. -/
def leader (d : State n) (i : Fin n) : Fin n := (lastFor (d.tied.map Prod.swap) i).getD i

theorem scatter_eq_lastFor {α : Type*} (x : Fin n → α) (l : List (Fin n × α)) (i : Fin n) :
    scatter x l i = (lastFor l i).getD (x i) := by
  induction l generalizing x with
  | nil => rfl
  | cons p t ih =>
    obtain ⟨j, v⟩ := p
    simp only [scatter]
    rw [ih]
    unfold lastFor
    rw [List.reverse_cons, List.lookup_append]
    cases h : List.lookup i t.reverse with
    | some w => simp
    | none =>
      by_cases e : i = j
      · subst e; simp [List.lookup]
      · have : (i == j) = false := by simpa using e
        simp [List.lookup, this, Function.update_of_ne e]

theorem lastFor_append {α : Type*} (l m : List (Fin n × α)) (i : Fin n) :
    lastFor (l ++ m) i = (lastFor m i).or (lastFor l i) := by
  unfold lastFor
  rw [List.reverse_append, List.lookup_append]

theorem lastFor_eq_some_mem {α : Type*} {l : List (Fin n × α)} {i : Fin n} {v : α} (h : lastFor l i = some v) : (i, v) ∈ l := by
  unfold lastFor at h
  rw [List.lookup_eq_some_iff] at h
  obtain ⟨l1, l2, e, -⟩ := h
  rw [← List.mem_reverse, e]
  simp

theorem lastFor_eq_none {α : Type*} {l : List (Fin n × α)} {i : Fin n} : lastFor l i = none ↔ ∀ p ∈ l, p.1 ≠ i := by
  unfold lastFor
  rw [List.lookup_eq_none_iff]
  constructor
  · intro h p hp e
    have := h p (List.mem_reverse.2 hp)
    simp [e] at this
  · intro h p hp
    have := h p (List.mem_reverse.1 hp)
    simpa using fun e => this e.symm

theorem spec_eq (d : State n) (hv : d.Vmin ≤ d.Vmax) (i : Fin n) :
    scatter (zeroDead d) (d.pinned ++ newPins d) i = spec d i := by
  rw [scatter_eq_lastFor, lastFor_append]
  unfold spec
  by_cases h1 : d.Vmax < total d i
  · rw [if_pos h1]
    cases h : lastFor (newPins d) i with
    | none =>
      exact absurd rfl (lastFor_eq_none.1 h (i, d.Vmax) (mem_newPins.2 (Or.inr ⟨h1, rfl⟩)))
    | some v =>
      rcases mem_newPins.1 (lastFor_eq_some_mem h) with ⟨h2, h3⟩ | ⟨h2, h3⟩
      · rw [total_def] at h1; dsimp only at h2; linarith
      · simpa using h3
  · rw [if_neg h1]
    by_cases h2 : total d i < d.Vmin
    · rw [if_pos h2]
      cases h : lastFor (newPins d) i with
      | none =>
        exact absurd rfl (lastFor_eq_none.1 h (i, d.Vmin) (mem_newPins.2 (Or.inl ⟨h2, rfl⟩)))
      | some v =>
        rcases mem_newPins.1 (lastFor_eq_some_mem h) with ⟨h3, h4⟩ | ⟨h3, h4⟩
        · simpa using h4
        · exact absurd h3 (by rw [← total_def]; exact h1)
    · rw [if_neg h2]
      have : lastFor (newPins d) i = none :=
        lastFor_eq_none.2 (newPins_not_of_inRange d i ⟨not_lt.1 h2, not_lt.1 h1⟩)
      rw [this, Option.none_or]
      cases lastFor d.pinned i <;> rfl

/-- C11. Exact outcome of `enforce_constraints` for every DM state with `Vmin ≤ Vmax`: each actuator ends with the pre-tie
command (`spec`) of the actuator it follows (itself when it follows none). -/
theorem C11_exact (d : State n) (hv : d.Vmin ≤ d.Vmax) (i : Fin n) : (enforce d).V i = spec d (leader d i) := by
  have h : (enforce d).V i = scatter (scatter (zeroDead d) (d.pinned ++ newPins d))
      (d.tied.map fun p => (p.2, scatter (zeroDead d) (d.pinned ++ newPins d) p.1)) i := rfl
  rw [h, ← spec_eq d hv, scatter_eq_lastFor]
  generalize scatter (zeroDead d) (d.pinned ++ newPins d) = V2
  unfold leader lastFor
  generalize d.tied = l
  rw [← List.map_reverse, ← List.map_reverse]
  induction l.reverse with
  | nil => rfl
  | cons p t ih =>
    simp only [List.map_cons, List.lookup, Prod.swap]
    by_cases e : i = p.2
    · simp [e]
    · have : (i == p.2) = false := by simpa using e
      simp only [this]
      exact ih

/-- C11. The other attributes: limits, bias, dead map and ties are untouched, and the pinned list is extended by exactly the
actuators that were out of range (low ones first, at `Vmin`; then high ones, at `Vmax`). -/
theorem C11_pins (d : State n) :
    (enforce d).biasMap = d.biasMap ∧ (enforce d).Vmin = d.Vmin ∧ (enforce d).Vmax = d.Vmax ∧ (enforce d).dead = d.dead ∧
    (enforce d).tied = d.tied ∧ ∃ l, (enforce d).pinned = d.pinned ++ l ∧
      (∀ i v, (i, v) ∈ l ↔ (total d i < d.Vmin ∧ v = d.Vmin) ∨ (d.Vmax < total d i ∧ v = d.Vmax)) ∧ l.Nodup := by
  refine ⟨rfl, rfl, rfl, rfl, rfl, newPins d, rfl, fun i v => mem_newPins, ?_⟩
  unfold newPins
  have hm : ∀ v : ℝ, Function.Injective fun i : Fin n => (i, v) := fun v a b h => (Prod.ext_iff.1 h).1
  by_cases hv : d.Vmin = d.Vmax
  · refine List.Nodup.append (((List.nodup_finRange n).filter _).map (hm _)) (((List.nodup_finRange n).filter _).map (hm _)) ?_
    intro p hp hq
    simp only [List.mem_map, List.mem_filter, decide_eq_true_eq] at hp hq
    obtain ⟨a, ⟨-, ha⟩, rfl⟩ := hp
    obtain ⟨b, ⟨-, hb⟩, e⟩ := hq
    have : b = a := (Prod.ext_iff.1 e).1
    subst this
    linarith
  · refine List.Nodup.append (((List.nodup_finRange n).filter _).map (hm _)) (((List.nodup_finRange n).filter _).map (hm _)) ?_
    intro p hp hq
    simp only [List.mem_map, List.mem_filter, decide_eq_true_eq] at hp hq
    obtain ⟨a, ⟨-, ha⟩, rfl⟩ := hp
    obtain ⟨b, ⟨-, hb⟩, e⟩ := hq
    exact hv (Prod.ext_iff.1 e).2.symm

/-- Non-vacuity of `C11_exact`: three actuators, one railed, one pinned, one tied to the railed one. -/
example : let d : State 3 := { V := ![600, 7, 3], biasMap := fun _ => 500, Vmin := 0, Vmax := 1000, dead := fun _ => false,
                               pinned := [(1, 5)], tied := [(0, 2)] }
    d.Vmin ≤ d.Vmax ∧ (enforce d).V 0 = 1000 ∧ (enforce d).V 1 = 5 ∧ (enforce d).V 2 = 1000 := by
  intro d
  have hv : d.Vmin ≤ d.Vmax := by norm_num [d]
  refine ⟨hv, ?_, ?_, ?_⟩
  · rw [C11_exact d hv, show leader d 0 = 0 from rfl]; norm_num [d, spec, total]
  · rw [C11_exact d hv, show leader d 1 = 1 from rfl, spec, show lastFor d.pinned 1 = some 5 from rfl]; norm_num [d, total]
  · rw [C11_exact d hv, show leader d 2 = 0 from rfl]; norm_num [d, spec, total]

/-- C12 (guarded). If the command produced by the first call is within limits and no tied leader is a follower, the second call changes neither the command nor the pinned list. -/
theorem C12_idempotent (d : State n) (hr : ∀ i, InRange (enforce d) i)
    (hl : ∀ p ∈ d.tied, ¬ Follower d p.1) :
    enforce (enforce d) = enforce d := by
  have hnil : newPins (enforce d) = [] := newPins_eq_nil (d := enforce d) (fun i => hr i)
  have hfol : ∀ i, Follower (enforce d) i ↔ Follower d i := fun i => Iff.rfl
  -- non-followers
  have hnf : ∀ i, ¬ Follower d i → (enforce (enforce d)).V i = (enforce d).V i := by
    intro i hi
    rw [enforce_V_of_not_follower _ i ((hfol i).not.2 hi), hnil, List.append_nil,
      enforce_V_of_not_follower d i hi]
    change scatter (zeroDead (enforce d)) (d.pinned ++ newPins d) i = _
    apply scatter_congr_at
    intro hn
    change (if d.dead i then 0 else (enforce d).V i) = zeroDead d i
    rw [enforce_V_of_not_follower d i hi, scatter_of_not_mem _ _ _ hn]
    unfold zeroDead
    split <;> rfl
  have hV : (enforce (enforce d)).V = (enforce d).V := by
    funext b
    by_cases hb : Follower d b
    · -- split the tied list at the last pair for b
      obtain ⟨a, l1, l2, ht, hlast⟩ : ∃ a l1 l2, d.tied = l1 ++ (a, b) :: l2 ∧ ∀ p ∈ l2, p.2 ≠ b := by
        obtain ⟨a, ha⟩ := hb
        clear hr hl hnil hfol hnf
        generalize d.tied = l at ha
        induction l generalizing a with
        | nil => cases ha
        | cons p t ih =>
          by_cases ht : ∃ a', (a', b) ∈ t
          · obtain ⟨a', ha'⟩ := ht
            obtain ⟨c, l1, l2, h1, h2⟩ := ih a' ha'
            exact ⟨c, p :: l1, l2, by rw [h1]; rfl, h2⟩
          · rcases List.mem_cons.1 ha with rfl | ha
            · exact ⟨a, [], t, rfl, fun q hq e => ht ⟨q.1, by rw [← e]; exact hq⟩⟩
            · exact absurd ⟨a, ha⟩ ht
      have hal : ¬ Follower d a := hl (a, b) (by rw [ht]; simp)
      rw [C11_tied (enforce d) l1 l2 a b ht hlast hal, hnf a hal, C11_tied d l1 l2 a b ht hlast hal]
    · exact hnf b hb
  have hpin : (enforce (enforce d)).pinned = (enforce d).pinned := by
    change (enforce d).pinned ++ newPins (enforce d) = _
    rw [hnil, List.append_nil]
  have : enforce (enforce d) = { enforce d with V := (enforce (enforce d)).V, pinned := (enforce (enforce d)).pinned } := rfl
  rw [this, hV, hpin]

/-- C12 (guarded). Under the same conditions any number of further model evaluations leaves the DM exactly as after the
first one. -/
theorem C12_repeat (d : State n) (hr : ∀ i, InRange (enforce d) i)
    (hl : ∀ p ∈ d.tied, ¬ Follower d p.1) (k : ℕ) :
    run d (List.replicate (k + 1) .eval) = enforce d := by
  induction k with
  | zero => rfl
  | succ k ih =>
    rw [List.replicate_succ', run, List.foldl_append]
    change step (run d (List.replicate (k + 1) .eval)) .eval = _
    rw [ih]
    exact C12_idempotent d hr hl

/-- C12. With zero bias, `0` within the limits, pins within the limits and no leader that follows, the guard above
holds, so evaluating the model any number of times moves the mirror at most once. -/
theorem C12_repeat_zero_bias (d : State n) (hb : ∀ i, d.biasMap i = 0) (h0 : d.Vmin ≤ 0 ∧ 0 ≤ d.Vmax)
    (hp : ∀ p ∈ d.pinned, d.Vmin ≤ p.2 ∧ p.2 ≤ d.Vmax) (hl : ∀ p ∈ d.tied, ¬ Follower d p.1) (k : ℕ) :
    run d (List.replicate (k + 1) .eval) = enforce d := by
  apply C12_repeat d _ hl
  · intro i
    have := C11_limits_zero_bias d hb (h0.1.trans h0.2) hp i
    unfold InRange total
    change d.Vmin ≤ (if d.dead i then 0 else (enforce d).V i) + d.biasMap i ∧
      (if d.dead i then 0 else (enforce d).V i) + d.biasMap i ≤ d.Vmax
    rw [hb i, add_zero]
    split
    · exact h0
    · exact this

/-- C12. Exactly when a second call is a no-op (for every DM state with `Vmin ≤ Vmax`): all totals after the first call
are within the limits, and every actuator whose leader is neither dead nor pinned already has its leader's command. -/
theorem C12_idempotent_iff (d : State n) (hv : d.Vmin ≤ d.Vmax) :
    enforce (enforce d) = enforce d ↔
      (∀ i, InRange (enforce d) i) ∧
      ∀ b, d.dead (leader d b) = false → ¬ Pinned (enforce d) (leader d b) → (enforce d).V b = (enforce d).V (leader d b) := by
  have hold : ∀ a, spec d a = (lastFor (enforce d).pinned a).getD (if d.dead a then 0 else d.V a) := by
    intro a
    rw [← spec_eq d hv, scatter_eq_lastFor]; rfl
  have hnew : (∀ i, InRange (enforce d) i) → ∀ a, spec (enforce d) a =
      (lastFor (enforce d).pinned a).getD (if d.dead a then 0 else (enforce d).V a) := by
    intro hr a
    unfold spec
    rw [if_neg (not_lt.2 (hr a).2), if_neg (not_lt.2 (hr a).1)]
    cases lastFor (enforce d).pinned a <;> rfl
  have hnone : ∀ a, ¬ Pinned (enforce d) a → lastFor (enforce d).pinned a = none := by
    intro a h
    refine lastFor_eq_none.2 fun p hp e => h ⟨p.2, ?_⟩
    rw [← e]; exact hp
  constructor
  · intro h
    have hp : (enforce d).pinned ++ newPins (enforce d) = (enforce d).pinned := congrArg State.pinned h
    have hnil : newPins (enforce d) = [] := by simpa using hp
    have hr : ∀ i, InRange (enforce d) i := by
      intro i
      constructor
      · by_contra hc
        have : (i, (enforce d).Vmin) ∈ newPins (enforce d) := mem_newPins.2 (Or.inl ⟨not_le.1 hc, rfl⟩)
        rw [hnil] at this; cases this
      · by_contra hc
        have : (i, (enforce d).Vmax) ∈ newPins (enforce d) := mem_newPins.2 (Or.inr ⟨not_le.1 hc, rfl⟩)
        rw [hnil] at this; cases this
    refine ⟨hr, fun b hd hb => ?_⟩
    have h1 : (enforce (enforce d)).V b = spec (enforce d) (leader d b) := C11_exact (enforce d) hv b
    rw [h, hnew hr, hnone _ hb] at h1
    simpa [hd] using h1
  · rintro ⟨hr, hl⟩
    have hnil : newPins (enforce d) = [] := newPins_eq_nil (d := enforce d) (fun i => hr i)
    have hV : (enforce (enforce d)).V = (enforce d).V := by
      funext b
      have h1 : (enforce (enforce d)).V b = spec (enforce d) (leader d b) := C11_exact (enforce d) hv b
      by_cases hp : Pinned (enforce d) (leader d b)
      · rw [h1, C11_exact d hv, hnew hr, hold]
        obtain ⟨v, hv'⟩ : ∃ v, lastFor (enforce d).pinned (leader d b) = some v := by
          obtain ⟨v, hv'⟩ := hp
          cases hc : lastFor (enforce d).pinned (leader d b) with
          | none => exact absurd rfl (lastFor_eq_none.1 hc _ hv')
          | some w => exact ⟨w, rfl⟩
        rw [hv']; rfl
      · by_cases hd : d.dead (leader d b) = true
        · rw [h1, C11_exact d hv, hnew hr, hold, hnone _ hp]; simp [hd]
        · have hd' : d.dead (leader d b) = false := by simpa using hd
          rw [h1, hnew hr, hnone _ hp, hl b hd' hp]; simp [hd']
    have hpin : (enforce (enforce d)).pinned = (enforce d).pinned := by
      change (enforce d).pinned ++ newPins (enforce d) = _
      rw [hnil, List.append_nil]
    have : enforce (enforce d) =
        { enforce d with V := (enforce (enforce d)).V, pinned := (enforce (enforce d)).pinned } := rfl
    rw [this, hV, hpin]

/-- C12 (false of the code with the shipped bias). A DM whose actuator the user pinned to 600 V (bias 500 V, limits
0-1000 V): the first evaluation commands 600 V, the second one 1000 V. -/
theorem C12_not_idempotent :
    ∃ d : State 1, (enforce d).V 0 = 600 ∧ (enforce (enforce d)).V 0 = 1000 := by
  have hnf : ¬ Follower { defaultDm (fun _ : Fin 1 => 0) with pinned := [(0, 600)] } 0 := by
    rintro ⟨a, h⟩; simp [defaultDm] at h
  have h1 : (enforce { defaultDm (fun _ : Fin 1 => 0) with pinned := [(0, 600)] }).V 0 = 600 :=
    C11_pinned _ [] [] 0 600 rfl (by simp) hnf (by norm_num [InRange, total, defaultDm])
  refine ⟨_, h1, ?_⟩
  refine (C11_over_limit_total (enforce { defaultDm (fun _ : Fin 1 => 0) with pinned := [(0, 600)] }) 0 hnf ?_ ?_).1
  · change (0:ℝ) ≤ 1000; norm_num
  · unfold total
    rw [h1]
    change (1000:ℝ) < (if false = true then 0 else 600) + 500
    norm_num

/-- C12. Along every history of command writes and model evaluations the pinned list only grows: it always has the initial
list as a prefix, so a pinned actuator never becomes unpinned. -/
theorem C12_pinned_monotone (d : State n) (ops : List (Op n)) :
    d.pinned <+: (run d ops).pinned ∧ ∀ i, Pinned d i → Pinned (run d ops) i := by
  have key : d.pinned <+: (run d ops).pinned := by
    induction ops using List.reverseRecOn with
    | nil => exact List.prefix_rfl
    | append_singleton l op ih =>
      rw [run, List.foldl_append]
      change d.pinned <+: (step (run d l) op).pinned
      cases op with
      | setV V => exact ih
      | eval => exact ih.trans (List.prefix_append _ _)
  exact ⟨key, fun i ⟨v, hv⟩ => ⟨v, key.subset hv⟩⟩

/-- C12. An actuator that once exceeded `Vmax` in a model evaluation is, after every later history, reset to a pinned value at
each evaluation: no command written by a controller can move it any more (if it is not a tied follower). -/
theorem C12_pinned_stuck (d : State n) (i : Fin n) (hf : ¬ Follower d i) (ho : d.Vmax < total d i)
    (ops : List (Op n)) (V : Fin n → ℝ) :
    ∃ v, (i, v) ∈ (run (enforce d) (ops ++ [.setV V, .eval])).pinned ∧
      (run (enforce d) (ops ++ [.setV V, .eval])).V i = v := by
  have hpin : Pinned (enforce d) i :=
    ⟨d.Vmax, List.mem_append_right _ (mem_newPins.2 (Or.inr ⟨ho, rfl⟩))⟩
  have h1 := (C12_pinned_monotone (enforce d) (ops ++ [.setV V])).2 i hpin
  have htied : ∀ (l : List (Op n)) (e : State n), (run e l).tied = e.tied := by
    intro l
    induction l with
    | nil => intro e; rfl
    | cons op t ih => intro e; change (run (step e op) t).tied = _; rw [ih]; cases op <;> rfl
  have e2 : run (enforce d) (ops ++ [.setV V, .eval]) = enforce (run (enforce d) (ops ++ [.setV V])) := by
    rw [run, run, List.foldl_append, List.foldl_append]; rfl
  rw [e2]
  set s := run (enforce d) (ops ++ [.setV V]) with hs
  have hnf : ¬ Follower s i := by
    rintro ⟨a, ha⟩; rw [hs, htied] at ha; exact hf ⟨a, ha⟩
  rw [enforce_V_of_not_follower s i hnf]
  rcases scatter_cases (zeroDead s) (s.pinned ++ newPins s) i with ⟨hn, _⟩ | ⟨p, hp, rfl, h2⟩
  · obtain ⟨v, hv⟩ := h1
    exact absurd rfl (hn (i, v) (List.mem_append_left _ hv))
  · exact ⟨p.2, hp, h2⟩

example (k : ℕ) : run sampleDm (List.replicate (k + 1) .eval) = enforce sampleDm :=
  C12_repeat_zero_bias _ (fun _ => rfl) (by norm_num [sampleDm])
    (by intro p hp; simp [sampleDm] at hp; subst hp; norm_num [sampleDm])
    (by intro p hp; simp [sampleDm] at hp; subst hp; exact sampleDm_not_follower 1 (by decide)) k

example : ∃ d : State 1, ¬ Follower d 0 ∧ d.Vmax < total d 0 :=
  ⟨defaultDm (fun _ => 600), by rintro ⟨a, h⟩; simp [defaultDm] at h, by norm_num [defaultDm, total]⟩

end Verif.Dm
