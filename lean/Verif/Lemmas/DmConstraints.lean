import Verif.Model.DmConstraints
import Mathlib.Tactic.Linarith
import Mathlib.Tactic.SplitIfs

namespace Verif.Dm
variable {n : ℕ} {α : Type*}

theorem scatter_append (x : Fin n → α) (l1 l2 : List (Fin n × α)) :
    scatter x (l1 ++ l2) = scatter (scatter x l1) l2 := by
  induction l1 generalizing x with
  | nil => rfl
  | cons p t ih => obtain ⟨i, v⟩ := p; exact ih _

theorem scatter_of_not_mem (x : Fin n → α) (l : List (Fin n × α)) (i : Fin n) (h : ∀ p ∈ l, p.1 ≠ i) :
    scatter x l i = x i := by
  induction l generalizing x with
  | nil => rfl
  | cons p t ih =>
    obtain ⟨j, v⟩ := p
    simp only [scatter]
    rw [ih _ (fun q hq => h q (List.mem_cons_of_mem _ hq))]
    have : i ≠ j := fun e => h (j, v) (by simp) e.symm
    simp [Function.update_of_ne this]

theorem scatter_last (x : Fin n → α) (l1 l2 : List (Fin n × α)) (i : Fin n) (v : α) (h : ∀ p ∈ l2, p.1 ≠ i) :
    scatter x (l1 ++ (i, v) :: l2) i = v := by
  rw [scatter_append]
  simp only [scatter]
  rw [scatter_of_not_mem _ _ _ h]; simp

/-- Either index `i` is untouched, or it holds one of the assigned values. -/
theorem scatter_cases (x : Fin n → α) (l : List (Fin n × α)) (i : Fin n) :
    (∀ p ∈ l, p.1 ≠ i) ∧ scatter x l i = x i ∨ ∃ p ∈ l, p.1 = i ∧ scatter x l i = p.2 := by
  induction l generalizing x with
  | nil => left; simp [scatter]
  | cons p t ih =>
    obtain ⟨j, v⟩ := p
    simp only [scatter]
    rcases ih (Function.update x j v) with ⟨h1, h2⟩ | ⟨p, hp, h1, h2⟩
    · by_cases hij : j = i
      · right; refine ⟨(j, v), by simp, hij, ?_⟩; rw [h2, hij]; simp
      · left
        refine ⟨?_, ?_⟩
        · intro p hp
          rcases List.mem_cons.1 hp with rfl | hp
          · exact hij
          · exact h1 p hp
        · rw [h2, Function.update_of_ne (Ne.symm hij)]
    · right; exact ⟨p, List.mem_cons_of_mem _ hp, h1, h2⟩

/-- If two start vectors agree at `i`, or `i` is assigned, scatter agrees at `i`. -/
theorem scatter_congr_at (x y : Fin n → α) (l : List (Fin n × α)) (i : Fin n)
    (h : (∀ p ∈ l, p.1 ≠ i) → x i = y i) : scatter x l i = scatter y l i := by
  induction l generalizing x y with
  | nil => exact h (by simp)
  | cons p t ih =>
    obtain ⟨j, v⟩ := p
    simp only [scatter]
    apply ih
    intro ht
    by_cases hij : i = j
    · subst hij; simp
    · rw [Function.update_of_ne hij, Function.update_of_ne hij]
      apply h
      intro p hp
      rcases List.mem_cons.1 hp with rfl | hp
      · exact fun e => hij e.symm
      · exact ht p hp

theorem mem_newPins {d : State n} {p : Fin n × ℝ} :
    p ∈ newPins d ↔ (zeroDead d p.1 + d.biasMap p.1 < d.Vmin ∧ p.2 = d.Vmin) ∨
      (d.Vmax < zeroDead d p.1 + d.biasMap p.1 ∧ p.2 = d.Vmax) := by
  obtain ⟨i, v⟩ := p
  unfold newPins
  simp only [List.mem_append, List.mem_map, List.mem_filter, List.mem_finRange, true_and, decide_eq_true_eq,
    Prod.mk.injEq]
  constructor
  · rintro (⟨a, h, rfl, rfl⟩ | ⟨a, h, rfl, rfl⟩)
    · exact Or.inl ⟨h, rfl⟩
    · exact Or.inr ⟨h, rfl⟩
  · rintro (⟨h, rfl⟩ | ⟨h, rfl⟩)
    · exact Or.inl ⟨i, h, rfl, rfl⟩
    · exact Or.inr ⟨i, h, rfl, rfl⟩

theorem newPins_eq_nil {d : State n}
    (h : ∀ i, d.Vmin ≤ zeroDead d i + d.biasMap i ∧ zeroDead d i + d.biasMap i ≤ d.Vmax) : newPins d = [] := by
  rw [List.eq_nil_iff_forall_not_mem]
  intro p hp
  rw [mem_newPins] at hp
  have := h p.1
  rcases hp with hp | hp
  · linarith [hp.1, this.1]
  · linarith [hp.1, this.2]

end Verif.Dm
