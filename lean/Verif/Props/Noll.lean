import Verif.Model.Noll
import Mathlib.Tactic.Ring
import Mathlib.Tactic.Linarith

/-!
# C54: the Noll ordering produced by prop_noll_zernikes

Specification: radial order `n` occupies the indices `T(n)+1 … T(n)+n+1` (`T(n) = n(n+1)/2`), with azimuthal order not decreasing; for `m > 0` both indices of the pair carry `m`, the even one
with the cosine, the odd one with the sine.
-/

namespace Verif.Noll
open Verif

/-- Triangular number: how many modes have radial order below `n`. -/
def T (n : ℕ) : ℕ := n * (n + 1) / 2

theorem T_succ (n : ℕ) : T (n + 1) = T n + n + 1 := by
  unfold T
  have : (n + 1) * (n + 1 + 1) = n * (n + 1) + 2 * (n + 1) := by ring
  rw [this, Nat.add_mul_div_left _ _ (by norm_num)]
  omega

theorem T_mono {a b : ℕ} (h : a ≤ b) : T a ≤ T b := Nat.div_le_div_right (Nat.mul_le_mul h (by omega))

theorem le_T (n : ℕ) : n ≤ T n := by
  induction n with
  | zero => exact Nat.zero_le _
  | succ k ih => rw [T_succ]; omega

/-- Index `j` belongs to radial order `n` and azimuthal order `m`. -/
def Slot (j n m : ℕ) : Prop := m ≤ n ∧ m % 2 = n % 2 ∧ (j = T n + m + 1 ∨ m ≠ 0 ∧ j = T n + m)

theorem slot_unique {j n m n' m' : ℕ} (h : Slot j n m) (h' : Slot j n' m') : n = n' ∧ m = m' := by
  obtain ⟨h1, h2, h3⟩ := h
  obtain ⟨h1', h2', h3'⟩ := h'
  have hn : n = n' := by
    rcases lt_trichotomy n n' with hlt | he | hlt
    · have := T_mono hlt; rw [T_succ] at this; omega
    · exact he
    · have := T_mono hlt; rw [T_succ] at this; omega
  subst hn
  exact ⟨rfl, by omega⟩

theorem slot_exists {j : ℕ} (h : 1 ≤ j) : ∃ n m, Slot j n m := by
  have : ∃ n, j ≤ T (n + 1) := ⟨j, (le_T j).trans (T_mono (by omega))⟩
  classical
  let n := Nat.find this
  have h1 : j ≤ T (n + 1) := Nat.find_spec this
  have h2 : T n < j := by
    rcases Nat.eq_zero_or_pos n with h0 | hp
    · rw [h0]; simp only [T]; omega
    · have := Nat.find_min this (m := n - 1) (by omega)
      rw [show n - 1 + 1 = n by omega] at this
      omega
  rw [T_succ] at h1
  by_cases hpar : (j - T n - 1) % 2 = n % 2
  · exact ⟨n, j - T n - 1, by omega, hpar, Or.inl (by omega)⟩
  · exact ⟨n, j - T n, by omega, by omega, Or.inr ⟨by omega, by omega⟩⟩

/-- What has been written when `iz` is reached. -/
def Good (s : St) : Prop := 1 ≤ s.iz ∧ (∀ j n m, 1 ≤ j → j < s.iz → Slot j n m → s.zl j = some (entry n m j)) ∧ ∀ j, s.iz ≤ j ∨ j = 0 → s.zl j = none

theorem put_good {maxz n m : ℕ} {s : St} (hg : Good s) (hs : Slot s.iz n m) (hle : s.iz ≤ maxz) :
    ∃ s', put maxz s (entry n m s.iz) = .ok s' ∧ Good s' ∧ s'.iz = s.iz + 1 := by
  refine ⟨_, by unfold put; rw [if_pos hle], ⟨by simp, ?_, ?_⟩, rfl⟩
  · intro j n' m' h1 h2 h3
    by_cases hj : j = s.iz
    · subst hj
      obtain ⟨e1, e2⟩ := slot_unique hs h3
      subst e1 e2
      simp
    · dsimp only at h2 ⊢
      rw [Function.update_of_ne hj]
      exact hg.2.1 j n' m' h1 (by omega) h3
  · intro j h1
    have hj : j ≠ s.iz := by
      have := hg.1
      dsimp only at h1
      omega
    dsimp only at h1 ⊢
    rw [Function.update_of_ne hj]
    exact hg.2.2 j (by omega)

/-- First index of azimuthal order `m` in radial order `n`. -/
def startP (n m : ℕ) : ℕ := if m = 0 then T n + 1 else T n + m

theorem loopP_good {maxz n m : ℕ} {s : St} (hg : Good s) (hm : m ≤ n) (hpar : m % 2 = n % 2) (hs : s.iz = startP n m) (hle : s.iz ≤ maxz) :
    ∃ s', loopP maxz n m (List.range ((if m ≠ 0 then 1 else 0) + 1)) s = .ok s' ∧ Good s' ∧ (s'.iz = T n + m + 2 ∧ T n + m + 1 ≤ maxz ∨ s'.iz = maxz + 1) := by
  unfold startP at hs
  by_cases h0 : m = 0
  · subst h0
    rw [if_pos rfl] at hs
    obtain ⟨s1, e1, g1, i1⟩ := put_good (maxz := maxz) (n := n) (m := 0) hg ⟨hm, hpar, Or.inl (by omega)⟩ hle
    refine ⟨s1, ?_, g1, Or.inl ⟨by omega, by omega⟩⟩
    simp only [ne_eq, not_true_eq_false, if_false, zero_add, List.range_one, loopP, e1, bind, Except.bind, pure, Except.pure]
    split_ifs <;> rfl
  · rw [if_neg h0] at hs
    have hn : n ≠ 0 := by omega
    obtain ⟨s1, e1, g1, i1⟩ := put_good (maxz := maxz) (n := n) (m := m) hg ⟨hm, hpar, Or.inr ⟨h0, hs⟩⟩ hle
    by_cases hb : s1.iz > maxz
    · refine ⟨s1, ?_, g1, Or.inr (by omega)⟩
      simp only [ne_eq, h0, not_false_eq_true, if_true, List.range_succ, List.range_zero, List.nil_append, List.singleton_append, loopP, e1, bind, Except.bind, pure, Except.pure, if_neg hn, if_pos hb]
    · obtain ⟨s2, e2, g2, i2⟩ := put_good (maxz := maxz) (n := n) (m := m) g1 ⟨hm, hpar, Or.inl (by omega)⟩ (by omega)
      refine ⟨s2, ?_, g2, Or.inl ⟨by omega, by omega⟩⟩
      simp only [ne_eq, h0, not_false_eq_true, if_true, List.range_succ, List.range_zero, List.nil_append, List.singleton_append, loopP, e1, e2, bind, Except.bind, pure, Except.pure, if_neg hn, if_neg hb]
      split_ifs <;> rfl

theorem loopM_good {maxz n : ℕ} : ∀ (k : ℕ) (i : ℕ) (s : St), Good s → i + k = n / 2 + 1 → (k ≠ 0 → s.iz = startP n (n % 2 + 2 * i)) → (k ≠ 0 → s.iz ≤ maxz) → (k = 0 → s.iz = T (n + 1) + 1) →
    ∃ s', loopM maxz n ((List.range' i k).map fun i => n % 2 + 2 * i) s = .ok s' ∧ Good s' ∧ (s'.iz = T (n + 1) + 1 ∧ (k ≠ 0 → T (n + 1) ≤ maxz) ∨ s'.iz = maxz + 1) := by
  intro k
  induction k with
  | zero =>
    intro i s hg hik _ _ h0
    exact ⟨s, rfl, hg, Or.inl ⟨h0 rfl, fun h => absurd rfl h⟩⟩
  | succ k ih =>
    intro i s hg hik hs hle _
    obtain ⟨s1, e1, g1, d1⟩ := loopP_good (maxz := maxz) (n := n) (m := n % 2 + 2 * i) hg (by omega) (by omega) (hs (by omega)) (hle (by omega))
    rw [List.range'_succ, List.map_cons]
    unfold loopM
    simp only [e1, bind, Except.bind, pure, Except.pure]
    by_cases hb : s1.iz > maxz
    · refine ⟨s1, by rw [if_pos hb], g1, ?_⟩
      rcases d1 with ⟨a, b⟩ | a
      · by_cases hk : s1.iz = maxz + 1
        · exact Or.inr hk
        · omega
      · exact Or.inr a
    · rw [if_neg hb]
      rcases d1 with ⟨a, b⟩ | a
      swap
      · omega
      obtain ⟨s2, e2, g2, d2⟩ := ih (i + 1) s1 g1 (by omega) (by intro hk; rw [a]; unfold startP; rw [if_neg (by omega)]; omega) (by intro _; omega)
        (by intro hk; rw [a, T_succ]; omega)
      refine ⟨s2, e2, g2, ?_⟩
      rcases d2 with ⟨c, d⟩ | c
      · refine Or.inl ⟨c, fun _ => ?_⟩
        by_cases hk : k = 0
        · rw [T_succ]; omega
        · exact d hk
      · exact Or.inr c

theorem orders_eq (n : ℕ) : orders n = (List.range' 0 (n / 2 + 1)).map fun i => n % 2 + 2 * i := by
  unfold orders; rw [List.range_eq_range']

theorem loopN_good {maxz : ℕ} : ∀ (fuel n : ℕ) (s : St), Good s → (s.iz = T n + 1 ∧ T n ≤ maxz ∨ s.iz = maxz + 1) → maxz + 1 ≤ fuel + n →
    ∃ s', loopN maxz fuel n s = .ok s' ∧ Good s' ∧ s'.iz = maxz + 1 := by
  intro fuel
  induction fuel with
  | zero =>
    intro n s hg hi hf
    refine ⟨s, rfl, hg, ?_⟩
    rcases hi with ⟨a, b⟩ | a
    · have := le_T n; omega
    · exact a
  | succ f ih =>
    intro n s hg hi hf
    unfold loopN
    by_cases hle : s.iz ≤ maxz
    · rw [if_pos hle]
      rcases hi with ⟨a, b⟩ | a
      swap
      · omega
      obtain ⟨s1, e1, g1, d1⟩ := loopM_good (maxz := maxz) (n := n) (n / 2 + 1) 0 s hg (by omega)
        (by intro _; rw [a]; unfold startP; split_ifs <;> omega) (fun _ => hle) (by intro h; omega)
      rw [orders_eq]
      simp only [e1, bind, Except.bind]
      exact ih (n + 1) s1 g1 (by rcases d1 with ⟨c, d⟩ | c; exacts [Or.inl ⟨c, d (by omega)⟩, Or.inr c]) (by omega)
    · rw [if_neg hle]
      refine ⟨s, rfl, hg, ?_⟩
      rcases hi with ⟨a, b⟩ | a
      · omega
      · exact a

/-- C54: for every `maxz`, prop_noll_zernikes returns (no index error, the loop ends by its own condition with `iz = maxz + 1`); slot 0 is blank and slot `j` holds the entry of the radial
order `n` and azimuthal order `m` that the Noll ordering gives to `j`. -/
theorem C54_index (maxz : ℕ) : ∃ s, noll maxz = .ok s ∧ s.iz = maxz + 1 ∧ s.zl 0 = none ∧
    ∀ j n m, 1 ≤ j → j ≤ maxz → Slot j n m → s.zl j = some (entry n m j) := by
  obtain ⟨s, e, g, i⟩ := loopN_good (maxz := maxz) (maxz + 1) 0 ⟨1, fun _ => none⟩ ⟨le_rfl, by intro j n m h1 h2; dsimp only at h2; omega, by intro _ _; rfl⟩ (Or.inl ⟨rfl, Nat.zero_le _⟩) (by omega)
  exact ⟨s, e, i, g.2.2 0 (Or.inr rfl), fun j n m h1 h2 h3 => g.2.1 j n m h1 (by omega) h3⟩

/-- C54: every index from 1 up has exactly one (n, m), with `n(n+1)/2 < j ≤ (n+1)(n+2)/2`, `m ≤ n` and `n - m` even. -/
theorem C54_order (j : ℕ) (h : 1 ≤ j) : ∃! p : ℕ × ℕ, Slot j p.1 p.2 ∧ p.1 * (p.1 + 1) / 2 < j ∧ j ≤ (p.1 + 1) * (p.1 + 2) / 2 ∧ p.2 ≤ p.1 ∧ Even (p.1 - p.2) := by
  obtain ⟨n, m, hs⟩ := slot_exists h
  refine ⟨(n, m), ⟨hs, ?_, ?_, hs.1, ?_⟩, fun p hp => ?_⟩
  · change T n < j
    obtain ⟨_, _, h3⟩ := hs; omega
  · change j ≤ T (n + 1)
    rw [T_succ]
    obtain ⟨_, _, h3⟩ := hs; omega
  · obtain ⟨a, b, _⟩ := hs
    exact Nat.even_iff.mpr (by omega)
  · obtain ⟨e1, e2⟩ := slot_unique hp.1 hs
    exact Prod.ext e1 e2

/-- C54: each (n, m, cosine/sine) with `1 ≤ m ≤ n`, `n - m` even, occurs at exactly one index: the cosine at an even one, the sine at an odd one. -/
theorem C54_bijective_m (n m : ℕ) (c : Bool) (hm : 1 ≤ m) (hmn : m ≤ n) (hp : Even (n - m)) : ∃! j, Slot j n m ∧ (entry n m j).ang = some (m, c) := by
  have hpar : m % 2 = n % 2 := by have := Nat.even_iff.mp hp; omega
  have ha : ∀ j, (entry n m j).ang = some (m, decide (j % 2 = 0)) := by
    intro j
    unfold entry
    rw [if_neg (by omega : ¬ n = 0)]
    dsimp only
    rw [if_neg (by omega : ¬ m = 0)]
  have key : ∀ j, (entry n m j).ang = some (m, c) ↔ (j % 2 = 0 ↔ c = true) := by
    intro j
    rw [ha]
    cases c <;> simp
  by_cases h2 : (T n + m) % 2 = 0 ↔ c = true
  · refine ⟨T n + m, ⟨⟨hmn, hpar, Or.inr ⟨by omega, rfl⟩⟩, (key _).mpr h2⟩, ?_⟩
    rintro j ⟨⟨_, _, h3⟩, h4⟩
    rw [key] at h4
    rcases h3 with h3 | h3
    · exfalso
      cases c <;> simp at h2 h4 <;> omega
    · exact h3.2
  · refine ⟨T n + m + 1, ⟨⟨hmn, hpar, Or.inl rfl⟩, (key _).mpr ?_⟩, ?_⟩
    · cases c <;> simp at h2 ⊢ <;> omega
    · rintro j ⟨⟨_, _, h3⟩, h4⟩
      rw [key] at h4
      rcases h3 with h3 | h3
      · exact h3
      · exfalso
        rw [h3.2] at h4
        exact h2 h4

/-- C54: each even radial order has exactly one rotationally symmetric mode. -/
theorem C54_bijective_zero (n : ℕ) (hp : Even n) : ∃! j, Slot j n 0 := by
  have := Nat.even_iff.mp hp
  refine ⟨T n + 1, ⟨by omega, by omega, Or.inl rfl⟩, ?_⟩
  rintro j ⟨_, _, h⟩
  omega

/-- The orders are met: index 11 is (4, 0), index 12 is (4, 2) with the cosine, as in Noll's table. -/
example : Slot 11 4 0 ∧ Slot 12 4 2 ∧ (entry 4 2 12).ang = some (2, true) ∧ entry 4 0 11 = ⟨5, [(6, 4), (-6, 2), (1, 0)], none⟩ := by
  refine ⟨⟨by norm_num, by norm_num, Or.inl (by simp [T])⟩, ⟨by norm_num, by norm_num, Or.inr ⟨by norm_num, by simp [T]⟩⟩, by decide +kernel, by decide +kernel⟩

end Verif.Noll
