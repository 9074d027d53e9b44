import Verif.Model.Imaging
import Verif.Props.Spectral
import Mathlib.Tactic.Linarith
import Mathlib.Tactic.NormNum
import Mathlib.Tactic.Ring

/-! # C44, C45: summed images, serial and parallel -/

namespace Verif.Imaging
open Verif Verif.Setup

section Pool
variable {R V : Type} [DecidableEq R]

/-- The values a program reads if every register `r` holds `val r` when read. -/
def expected (val : R → V) : List (Step R V) → List V
  | [] => []
  | .write _ _ :: p => expected val p
  | .read r :: p => val r :: expected val p

/-- Every register is written before it is read (`W`: already written), and only `val r` is ever written to a register `r` that is read (`Rel r`). -/
def Consistent (Rel : R → Prop) (val : R → V) : (R → Prop) → List (Step R V) → Prop
  | _, [] => True
  | W, .write r v :: p => (Rel r → v = val r) ∧ Consistent Rel val (fun x => x = r ∨ W x) p
  | W, .read r :: p => (Rel r ∧ W r) ∧ Consistent Rel val W p

/-- Every register is written before it is read. -/
def WritesFirst : (R → Prop) → List (Step R V) → Prop
  | _, [] => True
  | W, .write r _ :: p => WritesFirst (fun x => x = r ∨ W x) p
  | W, .read r :: p => W r ∧ WritesFirst W p

theorem runAlone_consistent (Rel : R → Prop) (val : R → V) : ∀ (p : List (Step R V)) (W : R → Prop) (m : R → V),
    (∀ r, Rel r → W r → m r = val r) → Consistent Rel val W p → (runAlone m p).1 = expected val p
  | [], _, _, _, _ => rfl
  | .write r v :: p, W, m, hm, h => by
    refine runAlone_consistent Rel val p _ _ ?_ h.2
    intro x hr hx
    by_cases e : x = r
    · subst e; rw [Function.update_self]; exact h.1 hr
    · rw [Function.update_of_ne e]; exact hm x hr (hx.resolve_left e)
  | .read r :: p, W, m, hm, h => by
    simp only [runAlone, expected]
    rw [runAlone_consistent Rel val p W m hm h.2, hm r h.1.1 h.1.2]

theorem runAlone_writesFirst : ∀ (p : List (Step R V)) (W : R → Prop) (m m' : R → V),
    (∀ r, W r → m r = m' r) → WritesFirst W p → (runAlone m p).1 = (runAlone m' p).1
  | [], _, _, _, _, _ => rfl
  | .write r v :: p, W, m, m', hm, h => by
    refine runAlone_writesFirst p _ _ _ ?_ h
    intro x hx
    by_cases e : x = r
    · subst e; simp
    · rw [Function.update_of_ne e, Function.update_of_ne e]; exact hm x (hx.resolve_left e)
  | .read r :: p, W, m, m', hm, h => by
    simp only [runAlone]
    rw [runAlone_writesFirst p W m m' hm h.2, hm r h.1]

/-- Bookkeeping invariant of the pool for an invariant `J` of the memory and the running workers. -/
structure Good {k : ℕ} (tasks : List (List (Step R V))) (J : (R → V) → Worker R V → Prop) (out : ℕ → List V) (s : Pool R V k) : Prop where
  work : ∀ w x, s.workers w = some x → J s.mem x
  res : ∀ t rs, s.results t = some rs → rs = out t

theorem run_induction {k : ℕ} (tasks : List (List (Step R V))) (I : Pool R V k → Prop) (s : Pool R V k) (h0 : I s)
    (hs : ∀ s w, I s → I (Pool.step tasks s w)) : ∀ sched, I (Pool.run tasks s sched) := by
  intro sched
  unfold Pool.run
  induction sched generalizing s with
  | nil => exact h0
  | cons w sched ih => exact ih _ (hs _ _ h0)

/-- With consistent programs every finished task read the expected values, whatever the schedule. -/
theorem pool_consistent {k : ℕ} (tasks : List (List (Step R V))) (Rel : R → Prop) (val : R → V) (hc : ∀ p ∈ tasks, Consistent Rel val (fun _ => False) p)
    (m : R → V) (sched : List (Fin k)) (t : ℕ) (rs : List V) (h : (Pool.run tasks (Pool.init m k) sched).results t = some rs) :
    rs = expected val (tasks.getD t []) := by
  have key : Good tasks (fun mem x => ∃ W : R → Prop, (∀ r, Rel r → W r → mem r = val r) ∧ Consistent Rel val W x.prog ∧
      x.reads ++ expected val x.prog = expected val (tasks.getD x.task [])) (fun t => expected val (tasks.getD t []))
      (Pool.run tasks (Pool.init m k) sched) := by
    refine run_induction tasks _ _ ⟨fun w x hx => by simp [Pool.init] at hx, fun t rs hr => by simp [Pool.init] at hr⟩ ?_ sched
    intro s w hI
    unfold Pool.step
    cases hw : s.workers w with
    | none =>
      simp only
      cases ht : tasks[s.next]? with
      | none => exact hI
      | some p =>
        refine ⟨?_, hI.res⟩
        intro w' x hx
        simp only at hx
        by_cases e : w' = w
        · subst e
          rw [Function.update_self, Option.some.injEq] at hx
          subst hx
          refine ⟨fun _ => False, fun r _ hr => hr.elim, hc p (List.mem_of_getElem? ht), ?_⟩
          simp [ht]
        · rw [Function.update_of_ne e] at hx; exact hI.work w' x hx
    | some y =>
      obtain ⟨t', q, rs'⟩ := y
      obtain ⟨W, h1, h2, h3⟩ := hI.work w _ hw
      match q, h2, h3, hw with
      | [], h2, h3, hw =>
        simp only
        refine ⟨?_, ?_⟩
        · intro w' x hx
          by_cases e : w' = w
          · subst e; simp at hx
          · simp only [Function.update_of_ne e] at hx; exact hI.work w' x hx
        · intro t rs hr
          by_cases e : t = t'
          · subst e
            simp only [Function.update_self, Option.some.injEq] at hr
            subst hr
            simpa [expected] using h3
          · simp only [Function.update_of_ne e] at hr; exact hI.res t rs hr
      | .write r v :: q, h2, h3, hw =>
        simp only
        refine ⟨?_, hI.res⟩
        intro w' x hx
        by_cases e : w' = w
        · subst e
          simp only [Function.update_self, Option.some.injEq] at hx
          subst hx
          refine ⟨fun x => x = r ∨ W x, ?_, h2.2, h3⟩
          intro x hr hx
          by_cases e : x = r
          · subst e; simp only [Function.update_self]; exact h2.1 hr
          · simp only [Function.update_of_ne e]; exact h1 x hr (hx.resolve_left e)
        · simp only [Function.update_of_ne e] at hx
          obtain ⟨W', g1, g2, g3⟩ := hI.work w' x hx
          refine ⟨W', ?_, g2, g3⟩
          intro y hr hy
          by_cases e : y = r
          · subst e; simp only [Function.update_self]; exact h2.1 hr
          · simp only [Function.update_of_ne e]; exact g1 y hr hy
      | .read r :: q, h2, h3, hw =>
        simp only
        refine ⟨?_, hI.res⟩
        intro w' x hx
        by_cases e : w' = w
        · subst e
          simp only [Function.update_self, Option.some.injEq] at hx
          subst hx
          refine ⟨W, h1, h2.2, ?_⟩
          simp only [expected] at h3
          simp only [List.append_assoc, List.singleton_append]
          rw [h1 r h2.1.1 h2.1.2]; exact h3
        · simp only [Function.update_of_ne e] at hx
          exact hI.work w' x hx
  exact key.res t rs h

/-- With a single thread every finished task read what it would read if called alone. -/
theorem pool_one (tasks : List (List (Step R V))) (hc : ∀ p ∈ tasks, WritesFirst (fun _ => False) p)
    (m m0 : R → V) (sched : List (Fin 1)) (t : ℕ) (rs : List V) (h : (Pool.run tasks (Pool.init m 1) sched).results t = some rs) :
    rs = (runAlone m0 (tasks.getD t [])).1 := by
  have key : Good tasks (fun mem x => x.reads ++ (runAlone mem x.prog).1 = (runAlone m0 (tasks.getD x.task [])).1) (fun t => (runAlone m0 (tasks.getD t [])).1)
      (Pool.run tasks (Pool.init m 1) sched) := by
    refine run_induction tasks _ _ ⟨fun w x hx => by simp [Pool.init] at hx, fun t rs hr => by simp [Pool.init] at hr⟩ ?_ sched
    intro s w hI
    have hsub : ∀ w' : Fin 1, w' = w := fun w' => Subsingleton.elim _ _
    unfold Pool.step
    cases hw : s.workers w with
    | none =>
      simp only
      cases ht : tasks[s.next]? with
      | none => exact hI
      | some p =>
        refine ⟨?_, hI.res⟩
        intro w' x hx
        rw [hsub w'] at hx
        simp only [Function.update_self, Option.some.injEq] at hx
        subst hx
        simp only [List.nil_append]
        rw [show tasks.getD s.next [] = p by simp [ht]]
        exact runAlone_writesFirst p _ _ _ (fun r hr => hr.elim) (hc p (List.mem_of_getElem? ht))
    | some y =>
      obtain ⟨t', q, rs'⟩ := y
      have h3 := hI.work w _ hw
      match q, h3, hw with
      | [], h3, hw =>
        simp only
        refine ⟨?_, ?_⟩
        · intro w' x hx
          rw [hsub w'] at hx
          simp at hx
        · intro t rs hr
          by_cases e : t = t'
          · subst e
            simp only [Function.update_self, Option.some.injEq] at hr
            subst hr
            simpa [runAlone] using h3
          · simp only [Function.update_of_ne e] at hr; exact hI.res t rs hr
      | .write r v :: q, h3, hw =>
        simp only
        refine ⟨?_, hI.res⟩
        intro w' x hx
        rw [hsub w'] at hx
        simp only [Function.update_self, Option.some.injEq] at hx
        subst hx
        exact h3
      | .read r :: q, h3, hw =>
        simp only
        refine ⟨?_, hI.res⟩
        intro w' x hx
        rw [hsub w'] at hx
        simp only [Function.update_self, Option.some.injEq] at hx
        subst hx
        simpa [runAlone] using h3
  exact key.res t rs h

/-- Steps left in a pool. -/
def Pool.left {k : ℕ} (tasks : List (List (Step R V))) (s : Pool R V k) : ℕ :=
  ((tasks.drop s.next).map fun p => p.length + 2).sum + ∑ w, match s.workers w with | none => 0 | some x => x.prog.length + 1

theorem left_update {k : ℕ} (f : Fin k → Option (Worker R V)) (w : Fin k) (o : Option (Worker R V)) (g : Option (Worker R V) → ℕ) :
    (∑ v, g (Function.update f w o v)) + g (f w) = (∑ v, g (f v)) + g o := by
  have h1 : ∑ v, g (Function.update f w o v) = g o + ∑ v ∈ Finset.univ.erase w, g (f v) := by
    rw [← Finset.add_sum_erase _ _ (Finset.mem_univ w), Function.update_self]
    congr 1
    refine Finset.sum_congr rfl fun v hv => ?_
    rw [Function.update_of_ne (Finset.ne_of_mem_erase hv)]
  rw [h1, ← Finset.add_sum_erase _ (fun v => g (f v)) (Finset.mem_univ w)]
  omega

/-- Which results are in: every task handed out is either finished or being worked on. -/
def Handed {k : ℕ} (tasks : List (List (Step R V))) (s : Pool R V k) : Prop :=
  s.next ≤ tasks.length ∧ ∀ t < s.next, (s.results t).isSome ∨ ∃ w x, s.workers w = some x ∧ x.task = t

theorem handed_step {k : ℕ} (tasks : List (List (Step R V))) (s : Pool R V k) (w : Fin k) (h : Handed tasks s) : Handed tasks (Pool.step tasks s w) := by
  have keep : ∀ (o : Option (Worker R V)) (x : Worker R V), s.workers w = some x → (∀ y, o = some y → y.task = x.task) → o.isSome →
      ∀ t < s.next, (s.results t).isSome ∨ ∃ v y, Function.update s.workers w o v = some y ∧ y.task = t := by
    intro o x hx ho hso t ht
    rcases h.2 t ht with h1 | ⟨v, y, h1, h2⟩
    · exact Or.inl h1
    · right
      by_cases e : v = w
      · subst e
        obtain ⟨z, hz⟩ := Option.isSome_iff_exists.1 hso
        refine ⟨v, z, by rw [Function.update_self, hz], ?_⟩
        rw [ho z hz, ← h2]; rw [hx] at h1; simp at h1; rw [h1]
      · exact ⟨v, y, by rw [Function.update_of_ne e]; exact h1, h2⟩
  unfold Pool.step
  cases hw : s.workers w with
  | none =>
    simp only
    cases ht : tasks[s.next]? with
    | none => exact h
    | some p =>
      have hlt : s.next < tasks.length := by
        by_contra hcon
        rw [List.getElem?_eq_none (by omega)] at ht
        simp at ht
      refine ⟨by simp only; omega, ?_⟩
      intro t htt
      simp only at htt ⊢
      by_cases e : t = s.next
      · exact Or.inr ⟨w, ⟨s.next, p, []⟩, by rw [Function.update_self], e.symm⟩
      · rcases h.2 t (by omega) with h1 | ⟨v, y, h1, h2⟩
        · exact Or.inl h1
        · refine Or.inr ⟨v, y, ?_, h2⟩
          have : v ≠ w := by intro e; rw [e, hw] at h1; simp at h1
          rw [Function.update_of_ne this]; exact h1
  | some y =>
    obtain ⟨t', q, rs'⟩ := y
    match q, hw with
    | [], hw =>
      refine ⟨h.1, ?_⟩
      intro t ht
      simp only
      by_cases e : t = t'
      · left; rw [e, Function.update_self]; rfl
      · rcases h.2 t ht with h1 | ⟨v, y, h1, h2⟩
        · left; rw [Function.update_of_ne e]; exact h1
        · refine Or.inr ⟨v, y, ?_, h2⟩
          have : v ≠ w := by intro e'; rw [e', hw] at h1; simp at h1; subst h1; exact e h2.symm
          rw [Function.update_of_ne this]; exact h1
    | .write r v :: q, hw => exact ⟨h.1, keep _ _ hw (by rintro y hy; simp at hy; subst hy; rfl) rfl⟩
    | .read r :: q, hw => exact ⟨h.1, keep _ _ hw (by rintro y hy; simp at hy; subst hy; rfl) rfl⟩

theorem handed_run {k : ℕ} (tasks : List (List (Step R V))) (m : R → V) (sched : List (Fin k)) : Handed tasks (Pool.run tasks (Pool.init m k) sched) :=
  run_induction tasks _ _ ⟨by simp [Pool.init], by simp [Pool.init]⟩ (fun s w h => handed_step tasks s w h) sched

theorem left_step {k : ℕ} (tasks : List (List (Step R V))) (s : Pool R V k) (w : Fin k) (h : s.workers w ≠ none ∨ s.next < tasks.length) :
    (Pool.step tasks s w).left tasks + 1 = s.left tasks := by
  set g : Option (Worker R V) → ℕ := fun o => match o with | none => 0 | some x => x.prog.length + 1 with hg
  have hu := fun o => left_update s.workers w o g
  unfold Pool.step Pool.left
  cases hw : s.workers w with
  | none =>
    have hlt : s.next < tasks.length := h.resolve_left (by simp [hw])
    simp only
    rw [List.getElem?_eq_getElem hlt]
    simp only
    have hd : tasks.drop s.next = tasks[s.next] :: tasks.drop (s.next + 1) := List.drop_eq_getElem_cons hlt
    rw [hd, List.map_cons, List.sum_cons]
    have h1 := hu (some ⟨s.next, tasks[s.next], []⟩)
    rw [hw] at h1
    simp only [hg] at h1
    omega
  | some y =>
    obtain ⟨t', q, rs'⟩ := y
    match q, hw with
    | [], hw =>
      have h1 := hu none
      rw [hw] at h1
      simp only [hg, List.length_nil] at h1
      simp only
      omega
    | .write r v :: q, hw =>
      have h1 := hu (some ⟨t', q, rs'⟩)
      rw [hw] at h1
      simp only [hg, List.length_cons] at h1
      simp only
      omega
    | .read r :: q, hw =>
      have h1 := hu (some ⟨t', q, rs' ++ [s.mem r]⟩)
      rw [hw] at h1
      simp only [hg, List.length_cons] at h1
      simp only
      omega

/-- Any schedule of a pool with at least one thread extends to one under which all tasks are finished. -/
theorem pool_completes {k : ℕ} (hk : 0 < k) (tasks : List (List (Step R V))) : ∀ (n : ℕ) (s : Pool R V k), s.left tasks = n → Handed tasks s →
    ∃ sched, ∀ t < tasks.length, ((Pool.run tasks s sched).results t).isSome := by
  intro n
  induction n with
  | zero =>
    intro s hs hh
    refine ⟨[], fun t ht => ?_⟩
    simp only [Pool.left, Nat.add_eq_zero_iff] at hs
    have hidle : ∀ w, s.workers w = none := by
      intro w
      have := (Finset.sum_eq_zero_iff.1 hs.2) w (Finset.mem_univ w)
      cases hw : s.workers w with
      | none => rfl
      | some x => rw [hw] at this; simp at this
    have hnext : s.next = tasks.length := by
      by_contra hne
      have hlt : s.next < tasks.length := lt_of_le_of_ne hh.1 hne
      have h1 := hs.1
      rw [List.drop_eq_getElem_cons hlt, List.map_cons, List.sum_cons] at h1
      omega
    rcases hh.2 t (by omega) with h1 | ⟨w, x, h1, -⟩
    · exact h1
    · rw [hidle w] at h1; simp at h1
  | succ n ih =>
    intro s hs hh
    have : ∃ w, s.workers w ≠ none ∨ s.next < tasks.length := by
      by_contra hcon
      push Not at hcon
      have hz : s.left tasks = 0 := by
        unfold Pool.left
        rw [List.drop_eq_nil_of_le (hcon ⟨0, hk⟩).2]
        simp only [List.map_nil, List.sum_nil, zero_add]
        refine Finset.sum_eq_zero fun w _ => ?_
        rw [(hcon w).1]
      omega
    obtain ⟨w, hw⟩ := this
    obtain ⟨sched, h⟩ := ih (Pool.step tasks s w) (by have := left_step tasks s w hw; omega) (handed_step tasks s w hh)
    exact ⟨w :: sched, h⟩

end Pool

variable {P V : Type}

theorem prog_writesFirst (c : Cfg P V) (p : V) (si wi : ℕ) : WritesFirst (fun _ => False) (prog c p si wi) := by
  unfold prog
  cases c.layout <;> cases c.hlc <;> cases c.hasCube <;> simp [WritesFirst]

/-- What a component reads when called alone does not depend on the state `mp` was left in. -/
theorem alone_indep (c : Cfg P V) (m m' : Reg → V) (p : V) (si wi : ℕ) : (runAlone m (prog c p si wi)).1 = (runAlone m' (prog c p si wi)).1 :=
  runAlone_writesFirst _ _ _ _ (fun _ h => h.elim) (prog_writesFirst c p si wi)

/-- No two image components can disturb each other: a layout whose model reads the polarisation is used with a single polarisation state, and
a Fourier-type hybrid Lyot model has the same focal-plane mask at all wavelengths. -/
def RaceFree (c : Cfg P V) : Prop :=
  ((c.layout = .proper ∨ c.layout = .phase) → ∃ p, ∀ q ∈ c.pols, q = p) ∧
  ((c.layout = .fourier ∨ c.layout = .fpmScale) → c.hlc = true → ∃ M, ∀ si wi, c.maskOf si wi = M)


theorem prog_consistent (c : Cfg P V) (h : RaceFree c) (m : Reg → V) : ∃ (Rel : Reg → Prop) (val : Reg → V),
    ∀ p ∈ c.pols, ∀ si wi, Consistent Rel val (fun _ => False) (prog c p si wi) := by
  by_cases hl : c.layout = .proper ∨ c.layout = .phase
  · obtain ⟨p, hp⟩ := h.1 hl
    refine ⟨fun r => r = .pol, fun r => if r = .pol then p else m r, fun q hq si wi => ?_⟩
    have e := hp q hq
    subst e
    unfold prog
    rcases hl with hl | hl <;> rw [hl] <;> cases c.hlc <;> simp [Consistent]
  · have hl' : c.layout = .fourier ∨ c.layout = .fpmScale := by cases hc : c.layout <;> simp_all
    by_cases hh : c.hlc = true
    · obtain ⟨M, hM⟩ := h.2 hl' hh
      refine ⟨fun r => r = .mask, fun r => if r = .mask then M else m r, fun q hq si wi => ?_⟩
      unfold prog
      rcases hl' with hl | hl <;> rw [hl, hh] <;> cases c.hasCube <;> simp [Consistent, hM]
    · refine ⟨fun _ => False, m, fun q hq si wi => ?_⟩
      have hh' : c.hlc = false := by simpa using hh
      unfold prog
      rcases hl' with hl | hl <;> rw [hl, hh'] <;> simp [Consistent]

/-- The image computed by the parallel branch when its calls run one after the other. -/
noncomputable def sequentialImage (c : Cfg P V) (m : Reg → V) : P → ℝ := parImage c ((parProgs c).map fun p => (runAlone m p).1)

theorem mem_parProgs (c : Cfg P V) (q : List (Step Reg V)) (h : q ∈ parProgs c) : ∃ p ∈ c.pols, ∃ si wi, q = prog c p si wi := by
  unfold parProgs parTasks at h
  simp only [List.mem_map, List.mem_flatMap] at h
  obtain ⟨t, ⟨il, -, p, hp, rfl⟩, rfl⟩ := h
  exact ⟨p, hp, _, _, rfl⟩

theorem mapM_some {α β : Type} (f : α → Option β) (g : α → β) : ∀ (l : List α) (rs : List β), l.mapM f = some rs →
    (∀ x ∈ l, ∀ y, f x = some y → y = g x) → rs = l.map g
  | [], rs, h, _ => by simpa using h.symm
  | a :: l, rs, h, hg => by
    rw [List.mapM_cons] at h
    cases ha : f a with
    | none => simp [ha] at h
    | some y =>
      cases hl : l.mapM f with
      | none => simp [ha, hl] at h
      | some ys =>
        simp [ha, hl] at h
        subst h
        rw [List.map_cons, mapM_some f g l ys hl (fun x hx => hg x (by simp [hx])), hg a (by simp) y ha]

theorem mapM_isSome {α β : Type} (f : α → Option β) : ∀ (l : List α), (∀ x ∈ l, (f x).isSome) → ∃ rs, l.mapM f = some rs
  | [], _ => ⟨[], rfl⟩
  | a :: l, h => by
    obtain ⟨ys, hy⟩ := mapM_isSome f l (fun x hx => h x (by simp [hx]))
    obtain ⟨y, ha⟩ := Option.isSome_iff_exists.1 (h a (by simp))
    exact ⟨y :: ys, by rw [List.mapM_cons, ha, hy]; rfl⟩

theorem parallel_of_reads (c : Cfg P V) (k : ℕ) (m m0 : Reg → V) (sched : List (Fin k)) (im : P → ℝ) (h : parallelImage c k m sched = some im)
    (hr : ∀ t rs, t < (parProgs c).length → (Pool.run (parProgs c) (Pool.init m k) sched).results t = some rs → rs = (runAlone m0 ((parProgs c).getD t [])).1) :
    im = sequentialImage c m0 := by
  unfold parallelImage at h
  simp only [Option.map_eq_some_iff] at h
  obtain ⟨rs, h1, rfl⟩ := h
  have := mapM_some _ (fun t => (runAlone m0 ((parProgs c).getD t [])).1) _ _ h1 (by intro t ht y hy; exact hr t y (by simpa using ht) hy)
  unfold sequentialImage
  rw [this]
  congr 1
  refine List.ext_getElem (by simp) ?_
  intro i h1 h2
  have hi : i < (parProgs c).length := by simpa using h2
  simp [hi]

/-- C45. If image components cannot disturb each other - a layout whose model reads the polarisation is used with one polarisation
state, and a Fourier-type hybrid Lyot model has one focal-plane mask - the image returned by the parallel branch of `get_summed_image` is the one
its calls give when run one after the other, for any number of threads, any interleaving of their memory accesses and any previous state of `mp`.
`C45_polarisation_violated` and `C45_hlc_violated` show that both conditions are needed. -/
theorem C45_schedule (c : Cfg P V) (h : RaceFree c) (k : ℕ) (m m0 : Reg → V) (sched : List (Fin k)) (im : P → ℝ)
    (hi : parallelImage c k m sched = some im) : im = sequentialImage c m0 := by
  obtain ⟨Rel, val, hc⟩ := prog_consistent c h m
  have hcons : ∀ p ∈ parProgs c, Consistent Rel val (fun _ => False) p := by
    intro p hp
    obtain ⟨q, hq, si, wi, rfl⟩ := mem_parProgs c p hp
    exact hc q hq si wi
  refine parallel_of_reads c k m m0 sched im hi fun t rs ht hr => ?_
  rw [pool_consistent (parProgs c) Rel val hcons m sched t rs hr]
  symm
  refine runAlone_consistent Rel val _ (fun _ => False) m0 (fun _ _ h => h.elim) ?_
  rw [show (parProgs c).getD t [] = (parProgs c)[t] by simp [ht]]
  exact hcons _ (List.getElem_mem ht)

/-- C45. With one worker thread the image is the sequential one for every configuration. -/
theorem C45_one_thread (c : Cfg P V) (m m0 : Reg → V) (sched : List (Fin 1)) (im : P → ℝ)
    (hi : parallelImage c 1 m sched = some im) : im = sequentialImage c m0 := by
  refine parallel_of_reads c 1 m m0 sched im hi fun t rs ht hr => ?_
  refine pool_one (parProgs c) ?_ m m0 sched t rs hr
  intro p hp
  obtain ⟨q, -, si, wi, rfl⟩ := mem_parProgs c p hp
  exact prog_writesFirst c q si wi

/-- C45. With at least one thread no schedule can get stuck: after any sequence of steps the remaining workers can still finish and deliver an image. -/
theorem C45_completes (c : Cfg P V) (k : ℕ) (hk : 0 < k) (m : Reg → V) (sched : List (Fin k)) :
    ∃ more im, parallelImage c k m (sched ++ more) = some im := by
  obtain ⟨more, h⟩ := pool_completes hk (parProgs c) _ (Pool.run (parProgs c) (Pool.init m k) sched) rfl (handed_run _ _ _)
  refine ⟨more, ?_⟩
  unfold parallelImage
  have e : Pool.run (parProgs c) (Pool.init m k) (sched ++ more) = Pool.run (parProgs c) (Pool.run (parProgs c) (Pool.init m k) sched) more := by
    unfold Pool.run; rw [List.foldl_append]
  rw [e]
  obtain ⟨rs, hrs⟩ := mapM_isSome (Pool.run (parProgs c) (Pool.run (parProgs c) (Pool.init m k) sched) more).results (List.range (parProgs c).length)
    (by intro t ht; exact h t (by simpa using ht))
  exact ⟨parImage c rs, by simp only [hrs, Option.map_some]⟩

/-! ### Serial and parallel sums -/

theorem sum_zipWith_map {α β : Type} (f : α → β → ℝ) (g : α → β) : ∀ l : List α, (List.zipWith f l (l.map g)).sum = (l.map fun a => f a (g a)).sum
  | [] => rfl
  | a :: l => by simp [sum_zipWith_map f g l]

theorem sum_flatMap {α β : Type} (l : List α) (g : α → List β) (f : β → ℝ) : ((l.flatMap g).map f).sum = (l.map fun a => ((g a).map f).sum).sum := by
  induction l with
  | nil => simp
  | cons a l ih => simp [ih]

theorem map_getD_range {α : Type} (f : ℕ → α → ℝ) (l : List α) (d : α) : ((List.range l.length).map fun i => f i (l.getD i d)).sum = ∑ i ∈ Finset.range l.length, f i (l.getD i d) :=
  sum_map_range _ _

theorem sum_mul_left' {α : Type} (l : List α) (a : ℝ) (f : α → ℝ) : (l.map fun x => a * f x).sum = a * (l.map f).sum := by
  induction l with
  | nil => simp
  | cons x l ih => simp [ih, mul_add]

theorem sum_comm' {α β : Type} (l : List α) (l' : List β) (f : α → β → ℝ) : (l.map fun a => (l'.map fun b => f a b).sum).sum = (l'.map fun b => (l.map fun a => f a b).sum).sum := by
  induction l with
  | nil => simp
  | cons a l ih =>
    simp only [List.map_cons, List.sum_cons, ih]
    clear ih
    induction l' with
    | nil => simp
    | cons b l' ih => simp only [List.map_cons, List.sum_cons]; linarith

/-- Merging equal wavelengths does not change a weighted sum of a quantity that only depends on the wavelength. -/
theorem merged_sum (lam wt : List ℝ) (hs : Separated lam) (F : ℕ → ℝ) (hF : ∀ i < lam.length, ∀ j < lam.length, lam.getD i 0 = lam.getD j 0 → F i = F j) :
    ((List.range (indsUnique lam).length).map fun k => (uniqueWeights lam wt).getD k 0 * F ((indsUnique lam).getD k 0)).sum
      = ∑ i ∈ Finset.range lam.length, wt.getD i 0 * F i := by
  have h1 : ((List.range (indsUnique lam).length).map fun k => (uniqueWeights lam wt).getD k 0 * F ((indsUnique lam).getD k 0))
      = (indsUnique lam).map fun u => ∑ i ∈ Finset.range lam.length, (if lam.getD i 0 = lam.getD u 0 then wt.getD i 0 * F i else 0) := by
    rw [uniqueWeights_eq hs]
    refine List.ext_getElem (by simp) ?_
    intro k h1 h2
    have hk : k < (indsUnique lam).length := by simpa using h2
    have hu := (mem_indsUnique.1 (List.getElem_mem hk)).1
    simp only [List.getElem_map, List.getElem_range]
    rw [List.getD_eq_getElem?_getD, List.getElem?_map]
    unfold uniqueLambdas
    rw [List.getElem?_map, List.getElem?_eq_getElem hk]
    simp only [Option.map_some, Option.getD_some]
    rw [show (indsUnique lam).getD k 0 = (indsUnique lam)[k] by simp [hk]]
    rw [Finset.sum_mul]
    refine Finset.sum_congr rfl fun i hi => ?_
    split_ifs with h
    · rw [hF i (Finset.mem_range.1 hi) _ hu h]
    · simp
  rw [h1]
  have h2 : ∀ i ∈ Finset.range lam.length, wt.getD i 0 * F i = ((indsUnique lam).map fun u => if lam.getD i 0 = lam.getD u 0 then wt.getD i 0 * F i else 0).sum := by
    intro i hi
    have hnd : (uniqueLambdas lam).Nodup := by
      have := uniqueLambdas_sorted hs
      rw [List.sortedLT_iff_pairwise] at this
      exact this.imp fun h => h.ne
    have := nodup_sum_ite (uniqueLambdas lam) hnd (lam.getD i 0) ((uniqueLambdas_mem hs _).2 (getD_mem (Finset.mem_range.1 hi))) (wt.getD i 0 * F i)
    unfold uniqueLambdas at this
    rw [List.map_map] at this
    exact this.symm
  rw [Finset.sum_congr rfl h2]
  generalize indsUnique lam = l
  induction l with
  | nil => simp
  | cons u l ih => simp only [List.map_cons, List.sum_cons]; rw [ih, Finset.sum_add_distrib]

theorem sum_range_getD {α : Type} (l : List α) (d : α) (f : α → ℝ) : ∑ i ∈ Finset.range l.length, f (l.getD i d) = (l.map f).sum := by
  induction l with
  | nil => simp
  | cons a l ih => rw [List.length_cons, Finset.sum_range_succ']; simp only [List.getD_cons_succ, List.getD_cons_zero]; rw [ih, List.map_cons, List.sum_cons, add_comm]

/-- C44. For a single star, without image noise, if wavelength samples are equal or more than 10 pm apart, the light at equal
wavelengths in different sub-bands is the same, and image components cannot disturb each other, then the image of the parallel branch of
`get_summed_image` is the image of the serial branch, for every number of threads and every schedule.
`C44_stars_violated`, `C44_noise_violated`, `C44_subband_violated` and the theorems of C45 show that each condition is needed. -/
theorem C44_agree (c : Cfg P V) (hs : Separated (lambdasFlat c.band)) (hstar : c.nStar = 1) (hn : c.noise = none)
    (hw : ∀ si < c.band.Nsbp, ∀ wi < c.band.Nwpsbp, ∀ si' < c.band.Nsbp, ∀ wi' < c.band.Nwpsbp, lambdasMat c.band si wi = lambdasMat c.band si' wi' →
      ∀ p ∈ c.pols, ∀ m x, inten c si wi 0 (runAlone m (prog c p si wi)).1 x = inten c si' wi' 0 (runAlone m (prog c p si' wi')).1 x)
    (hr : RaceFree c) (k : ℕ) (m : Reg → V) (sched : List (Fin k)) (im : P → ℝ) (hi : parallelImage c k m sched = some im)
    (ms : ℕ → ℕ → V → ℕ → Reg → V) : im = serialImage c ms := by
  rw [C45_schedule c hr k m m sched im hi]
  funext x
  set I : V → ℕ × ℕ → ℝ := fun p q => inten c q.1 q.2 0 (runAlone m (prog c p q.1 q.2)).1 x with hI
  set G : ℕ × ℕ → ℝ := fun q => (c.pols.map fun p => 1 / (c.pols.length : ℝ) * I p q).sum with hG
  -- the parallel side
  have hpar : sequentialImage c m x = ∑ i ∈ Finset.range (lambdasFlat c.band).length, (weightsFlat c.band).getD i 0 * G ((indsLambdaMat c.band).getD i (0, 0)) := by
    have hlen : (lambdasFlat c.band).length = (indsLambdaMat c.band).length := by simp [lambdasFlat]
    rw [← merged_sum (lambdasFlat c.band) (weightsFlat c.band) hs (fun i => G ((indsLambdaMat c.band).getD i (0, 0)))]
    · unfold sequentialImage parImage parProgs
      rw [List.map_map, sum_zipWith_map]
      unfold parTasks
      rw [sum_flatMap]
      congr 1
      refine List.map_congr_left fun il _ => ?_
      rw [List.map_map, hG]
      simp only
      rw [← sum_mul_left']
      congr 1
      refine List.map_congr_left fun p _ => ?_
      simp only [Function.comp, hI]
      ring
    · intro i hi j hj hij
      rw [hlen] at hi hj
      have hpair : ∀ i < (indsLambdaMat c.band).length, ((indsLambdaMat c.band).getD i (0, 0)).1 < c.band.Nsbp ∧ ((indsLambdaMat c.band).getD i (0, 0)).2 < c.band.Nwpsbp ∧
          (lambdasFlat c.band).getD i 0 = lambdasMat c.band ((indsLambdaMat c.band).getD i (0, 0)).1 ((indsLambdaMat c.band).getD i (0, 0)).2 := by
        intro i hi
        have hmem : (indsLambdaMat c.band).getD i (0, 0) ∈ indsLambdaMat c.band := by
          rw [show (indsLambdaMat c.band).getD i (0, 0) = (indsLambdaMat c.band)[i] by simp [hi]]; exact List.getElem_mem hi
        have h2 := hmem
        unfold indsLambdaMat at h2
        simp only [List.mem_flatMap, List.mem_map, List.mem_range] at h2
        obtain ⟨si, h3, wi, h4, h5⟩ := h2
        have h6 : (indsLambdaMat c.band).getD i (0, 0) = (si, wi) := h5.symm
        refine ⟨by rw [h6]; exact h3, by rw [h6]; exact h4, ?_⟩
        unfold lambdasFlat
        rw [List.getD_eq_getElem?_getD, List.getElem?_map, List.getElem?_eq_getElem hi, List.getD_eq_getElem?_getD, List.getElem?_eq_getElem hi]
        rfl
      obtain ⟨a1, a2, a3⟩ := hpair i hi
      obtain ⟨b1, b2, b3⟩ := hpair j hj
      rw [a3, b3] at hij
      simp only [hG]
      congr 1
      refine List.map_congr_left fun p hp => ?_
      rw [show I p ((indsLambdaMat c.band).getD i (0, 0)) = I p ((indsLambdaMat c.band).getD j (0, 0)) from hw _ a1 _ a2 _ b1 _ b2 hij p hp m x]
  -- the serial side
  have hser : serialImage c ms x = ((indsLambdaMat c.band).map fun q => (sbpWeights c.band).getD q.1 0 * (lambdaWeights c.band).getD q.2 0 * G q).sum := by
    unfold serialImage indsLambdaMat
    rw [sum_flatMap]
    congr 1
    refine List.map_congr_left fun si _ => ?_
    rw [List.map_map]
    unfold sbpImage combos
    rw [hn]
    simp only
    rw [sum_flatMap, ← sum_mul_left']
    congr 1
    refine List.map_congr_left fun wi _ => ?_
    simp only [Function.comp, hG]
    rw [sum_flatMap, mul_assoc]
    congr 1
    rw [← sum_mul_left']
    congr 1
    refine List.map_congr_left fun p _ => ?_
    rw [hstar]
    simp only [List.range_one, List.map_cons, List.map_nil, List.sum_cons, List.sum_nil, add_zero, component, hI]
    rw [alone_indep c (ms si wi p 0) m]
    ring
  rw [hpar, hser]
  have hlen : (lambdasFlat c.band).length = (indsLambdaMat c.band).length := by simp [lambdasFlat]
  rw [hlen, ← sum_range_getD (indsLambdaMat c.band) (0, 0)]
  refine Finset.sum_congr rfl fun i hi => ?_
  have hi' := Finset.mem_range.1 hi
  unfold weightsFlat
  rw [List.getD_eq_getElem?_getD, List.getElem?_map, List.getElem?_eq_getElem hi', List.getD_eq_getElem?_getD, List.getElem?_eq_getElem hi']
  rfl

/-! ### Counterexamples -/

theorem indsUnique_one (x : ℝ) : indsUnique [x] = [0] := by
  rw [indsUnique_eq]
  simp

/-- Monochromatic light in one sub-band. -/
noncomputable def mono : Band := ⟨1, 1, true, 1, 0⟩

theorem mono_lambdas : lambdasFlat mono = [1] := by
  simp [lambdasFlat, indsLambdaMat, mono, lambdasMat, sbpCenters]

theorem mono_sbp : sbpWeights mono = [1] := by
  unfold sbpWeights
  rw [if_pos ⟨rfl, rfl⟩, if_pos (show mono.Nsbp = 1 from rfl), normalise_ones]
  simp [mono]

theorem mono_lam : lambdaWeights mono = [1] := (C38_wavelength_weights mono (by simp [mono])).2.2.1 rfl

theorem mono_separated : Separated (lambdasFlat mono) := by
  rw [mono_lambdas]
  intro x hx y hy
  left
  simp at hx hy
  rw [hx, hy]

theorem mono_weights : uniqueWeights (lambdasFlat mono) (weightsFlat mono) = [1] := by
  rw [uniqueWeights_eq mono_separated, mono_lambdas]
  simp [uniqueLambdas, indsUnique_one, weightsFlat, indsLambdaMat, mono_sbp, mono_lam, show mono.Nsbp = 1 from rfl, show mono.Nwpsbp = 1 from rfl]

theorem mono_tasks (c : Cfg P V) (h : c.band = mono) : parTasks c = c.pols.map fun p => (0, (0, 0), p) := by
  unfold parTasks
  rw [h, mono_lambdas]
  simp [indsUnique_one, indsLambdaMat, mono]

theorem mono_combos (c : Cfg P V) (h : c.band = mono) : combos c = c.pols.flatMap fun p => (List.range c.nStar).map fun s => (0, p, s) := by
  unfold combos
  rw [h]
  simp [mono]

/-- A PROPER full model with two polarisation states, whose field is the number of the polarisation state it was run with. -/
noncomputable def twoPol : Cfg Unit ℕ where
  band := mono
  nStar := 1
  pols := [1, 2]
  layout := .proper
  hlc := false
  hasCube := false
  maskOf := fun _ _ => 0
  field := fun _ _ _ rs _ => (rs.headD 0 : ℕ)
  noise := none

/-- C45: with two polarisation states and two threads, a schedule in which both threads set the polarisation before either model reads it evaluates the
second state twice: the image is 4 instead of (1+4)/2. -/
theorem C45_polarisation_violated : ∃ sched : List (Fin 2), ∃ im, parallelImage twoPol 2 (fun _ => 0) sched = some im ∧
    im () = 4 ∧ sequentialImage twoPol (fun _ => 0) () = 5 / 2 ∧ ∀ ms, serialImage twoPol ms () = 5 / 2 := by
  have ht : parTasks twoPol = [(0, (0, 0), 1), (0, (0, 0), 2)] := by rw [mono_tasks _ rfl]; rfl
  have hp : parProgs twoPol = [[.write .pol 1, .read .pol], [.write .pol 2, .read .pol]] := by unfold parProgs; rw [ht]; rfl
  have hwt : uniqueWeights (lambdasFlat twoPol.band) (weightsFlat twoPol.band) = [1] := mono_weights
  refine ⟨[0, 1, 0, 1, 0, 1, 0, 1], parImage twoPol [[2], [2]], ?_, ?_, ?_, ?_⟩
  · unfold parallelImage
    rw [hp]
    have : (List.range 2).mapM (Pool.run (k := 2) ([[.write .pol 1, .read .pol], [.write .pol 2, .read .pol]] : List (List (Step Reg ℕ))) (Pool.init (fun _ => 0) 2) [0, 1, 0, 1, 0, 1, 0, 1]).results
      = some [[2], [2]] := by decide +kernel
    exact congrArg (Option.map (parImage twoPol)) this
  · unfold parImage
    rw [ht, hwt]
    simp [inten, twoPol, Complex.normSq]
    norm_num
  · unfold sequentialImage parImage
    rw [ht, hp, hwt]
    simp [inten, twoPol, Complex.normSq, runAlone]
    norm_num
  · intro ms
    unfold serialImage sbpImage
    rw [mono_combos _ rfl]
    simp only [component]
    rw [show twoPol.band = mono from rfl, mono_sbp, mono_lam]
    simp [twoPol, mono, inten, Complex.normSq, runAlone, prog]
    norm_num

/-- Two wavelengths. -/
noncomputable def duo : Band := ⟨2, 1, true, 1, 1⟩

theorem duo_lambdas : lambdasFlat duo = [1 / 2, 3 / 2] := by
  have h : sbpCenters duo = [1 / 2, 3 / 2] := by
    unfold sbpCenters
    rw [if_pos ⟨rfl, rfl⟩, if_neg (by simp [duo])]
    simp only [duo, linspace]
    rw [show List.range 2 = [0, 1] from rfl]
    norm_num
  unfold lambdasFlat
  rw [show indsLambdaMat duo = [(0, 0), (1, 0)] from rfl]
  simp only [List.map_cons, List.map_nil, lambdasMat, h]
  simp [show duo.Nwpsbp = 1 from rfl]

theorem duo_separated : Separated (lambdasFlat duo) := by
  rw [duo_lambdas]
  intro x hx y hy
  simp only [List.mem_cons, List.not_mem_nil, or_false] at hx hy
  rcases hx with rfl | rfl <;> rcases hy with rfl | rfl
  · exact Or.inl rfl
  · right; rw [lt_abs]; right; norm_num
  · right; rw [lt_abs]; left; norm_num
  · exact Or.inl rfl

theorem duo_inds : indsUnique (lambdasFlat duo) = [0, 1] := by
  have e : ∀ n : ℤ, key ((n : ℝ) / 10 ^ 12) = n := by
    intro n
    unfold key
    rw [mul_div_cancel₀ _ (by positivity : (10 : ℝ) ^ 12 ≠ 0)]
    exact Dm.npRound_intCast n
  have hkeys : (lambdasFlat duo).map key = [500000000000, 1500000000000] := by
    rw [duo_lambdas]
    have e1 := e 500000000000
    have e2 := e 1500000000000
    push_cast at e1 e2
    simp only [List.map_cons, List.map_nil]
    rw [show (1 / 2 : ℝ) = 500000000000 / 10 ^ 12 by norm_num, show (3 / 2 : ℝ) = 1500000000000 / 10 ^ 12 by norm_num, e1, e2]
  rw [indsUnique_eq, hkeys]
  have : ([500000000000, 1500000000000] : List ℤ).toFinset.sort (· ≤ ·) = [500000000000, 1500000000000] := by
    refine List.SortedLT.eq_of_mem_iff (Finset.sortedLT_sort _) ?_ ?_
    · rw [List.sortedLT_iff_pairwise]; simp
    · intro x; simp
  rw [this]
  decide +kernel

theorem duo_sbp : sbpWeights duo = [1 / 2, 1 / 2] := by
  unfold sbpWeights
  rw [if_pos ⟨rfl, rfl⟩, if_neg (by simp [duo]), normalise_halfEnds _ (by simp [duo])]
  simp only [duo]
  rw [show List.range 2 = [0, 1] from rfl]
  simp [trapezoid]
  norm_num

theorem duo_lam : lambdaWeights duo = [1] := (C38_wavelength_weights duo (by simp [duo])).2.2.1 rfl

theorem duo_weights : uniqueWeights (lambdasFlat duo) (weightsFlat duo) = [1 / 2, 1 / 2] := by
  have hw : weightsFlat duo = [1 / 2, 1 / 2] := by
    unfold weightsFlat
    rw [show indsLambdaMat duo = [(0, 0), (1, 0)] from rfl, duo_sbp, duo_lam]
    simp
  rw [uniqueWeights_eq duo_separated]
  unfold uniqueLambdas
  rw [duo_inds, duo_lambdas, hw]
  simp [Finset.sum_range_succ]
  norm_num

/-- A Fourier-layout hybrid Lyot full model with one polarisation state and two wavelengths with different masks; the field is the mask. -/
noncomputable def twoMask : Cfg Unit ℕ where
  band := duo
  nStar := 1
  pols := [0]
  layout := .fourier
  hlc := true
  hasCube := false
  maskOf := fun si _ => si + 1
  field := fun _ _ _ rs _ => (rs.headD 0 : ℕ)
  noise := none

/-- C45: a hybrid Lyot coronagraph keeps its mask in a shared attribute as well, so even with one polarisation state a schedule with two threads evaluates
one wavelength with the mask of another: the image is 4 instead of (1+4)/2. -/
theorem C45_hlc_violated : ∃ sched : List (Fin 2), ∃ im, parallelImage twoMask 2 (fun _ => 0) sched = some im ∧
    im () = 4 ∧ sequentialImage twoMask (fun _ => 0) () = 5 / 2 ∧ ∀ ms, serialImage twoMask ms () = 5 / 2 := by
  have ht : parTasks twoMask = [(0, (0, 0), 0), (1, (1, 0), 0)] := by
    unfold parTasks
    rw [show twoMask.band = duo from rfl, duo_inds]
    rfl
  have hp : parProgs twoMask = [[.write .pol 0, .write .mask 1, .read .mask], [.write .pol 0, .write .mask 2, .read .mask]] := by unfold parProgs; rw [ht]; rfl
  have hwt : uniqueWeights (lambdasFlat twoMask.band) (weightsFlat twoMask.band) = [1 / 2, 1 / 2] := duo_weights
  refine ⟨[0, 1, 0, 1, 0, 1, 0, 1, 0, 1], parImage twoMask [[2], [2]], ?_, ?_, ?_, ?_⟩
  · unfold parallelImage
    rw [hp]
    have : (List.range 2).mapM (Pool.run (k := 2) ([[.write .pol 0, .write .mask 1, .read .mask], [.write .pol 0, .write .mask 2, .read .mask]] : List (List (Step Reg ℕ)))
        (Pool.init (fun _ => 0) 2) [0, 1, 0, 1, 0, 1, 0, 1, 0, 1]).results = some [[2], [2]] := by decide +kernel
    exact congrArg (Option.map (parImage twoMask)) this
  · unfold parImage
    rw [ht, hwt]
    simp [inten, twoMask, Complex.normSq]
    norm_num
  · unfold sequentialImage parImage
    rw [ht, hp, hwt]
    simp [inten, twoMask, Complex.normSq, runAlone]
    norm_num
  · intro ms
    unfold serialImage sbpImage combos
    simp only [component]
    rw [show twoMask.band = duo from rfl, duo_sbp, duo_lam, show duo.Nsbp = 2 from rfl, show duo.Nwpsbp = 1 from rfl, show List.range 2 = [0, 1] from rfl]
    simp [twoMask, inten, Complex.normSq, runAlone, prog]
    norm_num

/-- Two stars; the field of star `s` is `s + 1`. -/
noncomputable def twoStar : Cfg Unit ℕ where
  band := mono
  nStar := 2
  pols := [0]
  layout := .fourier
  hlc := false
  hasCube := false
  maskOf := fun _ _ => 0
  field := fun _ _ s _ _ => (s + 1 : ℕ)
  noise := none

/-- C44: with two stars the parallel branch gives the image of the first star only. -/
theorem C44_stars_violated : RaceFree twoStar ∧ ∀ ms m, serialImage twoStar ms () = 5 ∧ sequentialImage twoStar m () = 1 := by
  refine ⟨⟨by simp [twoStar], by simp [twoStar]⟩, fun ms m => ⟨?_, ?_⟩⟩
  · unfold serialImage sbpImage
    rw [mono_combos _ rfl]
    simp only [component]
    rw [show twoStar.band = mono from rfl, mono_sbp, mono_lam]
    simp [twoStar, mono, inten, Complex.normSq, List.range_succ]
    norm_num
  · unfold sequentialImage parImage parProgs
    rw [mono_tasks _ rfl, show twoStar.band = mono from rfl, mono_weights]
    simp [inten, twoStar, Complex.normSq]

/-- One star; the detector adds one unit to every pixel. -/
noncomputable def noisy : Cfg Unit ℕ := { twoStar with nStar := 1, noise := some fun _ im x => im x + 1 }

/-- C44: with `flagImageNoise` the serial branch returns a noisy image and the parallel branch a noiseless one. -/
theorem C44_noise_violated : RaceFree noisy ∧ ∀ ms m, serialImage noisy ms () = 2 ∧ sequentialImage noisy m () = 1 := by
  refine ⟨⟨by simp [noisy, twoStar], by simp [noisy, twoStar]⟩, fun ms m => ⟨?_, ?_⟩⟩
  · unfold serialImage sbpImage
    rw [mono_combos _ rfl]
    simp only [component]
    rw [show noisy.band = mono from rfl, mono_sbp, mono_lam]
    simp [noisy, twoStar, mono, inten, Complex.normSq, List.range_succ]
    norm_num
  · unfold sequentialImage parImage parProgs
    rw [mono_tasks _ rfl, show noisy.band = mono from rfl, mono_weights]
    simp [inten, noisy, twoStar, Complex.normSq]

/-- Two sub-bands of two wavelengths each, sharing the wavelength at their common edge. -/
noncomputable def quad : Band := ⟨2, 2, true, 1, 1⟩

/-- The input E-field differs between the two sub-bands (`mp.P1.full.E[:, :, wi, si]` depends on `si`): the field is `si + 1`. -/
noncomputable def twoInput : Cfg Unit ℕ where
  band := quad
  nStar := 1
  pols := [0]
  layout := .fourier
  hlc := false
  hasCube := false
  maskOf := fun _ _ => 0
  field := fun si _ _ _ _ => (si + 1 : ℕ)
  noise := none

/-- C44: the parallel branch evaluates a wavelength shared by two sub-bands only in the first of them, so if the input E-field given for that wavelength
differs between the sub-bands the two branches disagree. -/
theorem C44_subband_violated : RaceFree twoInput ∧ Separated (lambdasFlat twoInput.band) ∧
    ∀ ms m, serialImage twoInput ms () = 5 / 2 ∧ sequentialImage twoInput m () = 7 / 4 := by
  have hlm : ∀ si wi, si < 2 → lambdasMat quad si wi = 1 / 2 + ((si + wi : ℕ) : ℝ) * (1 / 2) := by
    intro si wi h
    rw [lambdasMat_lattice quad (by simp [quad]) (by simp [quad]) si wi (by simpa [quad] using h), dlam_eq _ (by simp [quad])]
    simp [quad]
    norm_num
  have hi : indsLambdaMat quad = [(0, 0), (0, 1), (1, 0), (1, 1)] := rfl
  have hlam : lambdasFlat quad = [1 / 2, 1, 1, 3 / 2] := by
    unfold lambdasFlat
    rw [hi]
    simp only [List.map_cons, List.map_nil]
    rw [hlm 0 0 (by norm_num), hlm 0 1 (by norm_num), hlm 1 0 (by norm_num), hlm 1 1 (by norm_num)]
    norm_num
  have hsep : Separated (lambdasFlat quad) := by
    rw [hlam]
    intro x hx y hy
    simp only [List.mem_cons, List.not_mem_nil, or_false] at hx hy
    rcases hx with rfl | rfl | rfl | rfl <;> rcases hy with rfl | rfl | rfl | rfl <;>
      first
        | exact Or.inl rfl
        | (right; rw [lt_abs]; left; norm_num; done)
        | (right; rw [lt_abs]; right; norm_num; done)
  have h1 : sbpWeights quad = [1 / 2, 1 / 2] := by
    unfold sbpWeights quad
    rw [if_neg (by simp), normalise_ones]
    norm_num [List.replicate]
  have h2 : lambdaWeights quad = [1 / 2, 1 / 2] := by
    rw [(C38_wavelength_weights quad (by simp [quad])).2.2.2 (by simp [quad])]
    rw [show quad.Nwpsbp = 2 from rfl, show List.range 2 = [0, 1] from rfl]
    simp [trapezoid]
    norm_num
  have hwt : weightsFlat quad = [1 / 4, 1 / 4, 1 / 4, 1 / 4] := by
    unfold weightsFlat
    rw [hi, h1, h2]
    norm_num
  have e : ∀ n : ℤ, key ((n : ℝ) / 10 ^ 12) = n := by
    intro n
    unfold key
    rw [mul_div_cancel₀ _ (by positivity : (10 : ℝ) ^ 12 ≠ 0)]
    exact Dm.npRound_intCast n
  have hkeys : (lambdasFlat quad).map key = [500000000000, 1000000000000, 1000000000000, 1500000000000] := by
    rw [hlam]
    have e1 := e 500000000000
    have e2 := e 1500000000000
    have e3 := e 1000000000000
    push_cast at e1 e2 e3
    simp only [List.map_cons, List.map_nil]
    rw [show (1 / 2 : ℝ) = 500000000000 / 10 ^ 12 by norm_num, show (3 / 2 : ℝ) = 1500000000000 / 10 ^ 12 by norm_num, show (1 : ℝ) = 1000000000000 / 10 ^ 12 by norm_num, e1, e2, e3]
  have hinds : indsUnique (lambdasFlat quad) = [0, 1, 3] := by
    rw [indsUnique_eq, hkeys]
    have : ([500000000000, 1000000000000, 1000000000000, 1500000000000] : List ℤ).toFinset.sort (· ≤ ·) = [500000000000, 1000000000000, 1500000000000] := by
      refine List.SortedLT.eq_of_mem_iff (Finset.sortedLT_sort _) ?_ ?_
      · rw [List.sortedLT_iff_pairwise]; simp
      · intro x; simp
    rw [this]
    decide +kernel
  have hw : uniqueWeights (lambdasFlat quad) (weightsFlat quad) = [1 / 4, 1 / 2, 1 / 4] := by
    rw [uniqueWeights_eq hsep]
    unfold uniqueLambdas
    rw [hinds, hlam, hwt]
    simp [Finset.sum_range_succ]
    norm_num
  refine ⟨⟨by simp [twoInput], by simp [twoInput]⟩, hsep, fun ms m => ⟨?_, ?_⟩⟩
  · unfold serialImage sbpImage combos
    simp only [component]
    rw [show twoInput.band = quad from rfl, h1, h2, show quad.Nsbp = 2 from rfl, show quad.Nwpsbp = 2 from rfl, show List.range 2 = [0, 1] from rfl]
    simp [twoInput, inten, Complex.normSq]
    norm_num
  · have ht : parTasks twoInput = [(0, (0, 0), 0), (1, (0, 1), 0), (2, (1, 1), 0)] := by
      unfold parTasks
      rw [show twoInput.band = quad from rfl, hinds]
      rfl
    unfold sequentialImage parImage parProgs
    rw [ht, show twoInput.band = quad from rfl, hw]
    simp [inten, twoInput, Complex.normSq]
    norm_num

/-- The hypotheses of `C44_agree` and `C45_schedule` are met by a configuration with two polarisation states, a Fourier layout and two
wavelengths with different fields. -/
example : ∃ c : Cfg Unit ℕ, RaceFree c ∧ Separated (lambdasFlat c.band) ∧ c.nStar = 1 ∧ c.noise = none ∧ c.pols = [1, 2] ∧ c.band.Nsbp = 2 ∧
    (∀ si < c.band.Nsbp, ∀ wi < c.band.Nwpsbp, ∀ si' < c.band.Nsbp, ∀ wi' < c.band.Nwpsbp, lambdasMat c.band si wi = lambdasMat c.band si' wi' →
      ∀ p ∈ c.pols, ∀ m x, inten c si wi 0 (runAlone m (prog c p si wi)).1 x = inten c si' wi' 0 (runAlone m (prog c p si' wi')).1 x) := by
  refine ⟨{ twoStar with band := duo, nStar := 1, pols := [1, 2], field := fun si wi _ _ _ => (lambdasMat duo si wi : ℂ) },
    ⟨by simp [twoStar], by simp [twoStar]⟩, duo_separated, rfl, rfl, rfl, rfl, ?_⟩
  intro si _ wi _ si' _ wi' _ h p _ m x
  simp only [inten] at h ⊢
  rw [h]

end Verif.Imaging
