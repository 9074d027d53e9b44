import Verif.Lemmas.Dm
import Mathlib.LinearAlgebra.UnitaryGroup
import Mathlib.LinearAlgebra.Matrix.Determinant.Basic
import Mathlib.Algebra.Order.BigOperators.Group.Finset
import Mathlib.Tactic.FinCases

/-!
# Properties of falco/dm.py and falco/diff_dm.py (C13 - C18, C59, C60)
-/

namespace Verif.Dm
open Verif

/-! ## C13 -/

/-- C13. Whatever the method name, if quantisation succeeds then (for a positive step and non-zero gain) the quantised height
is a whole number of steps, less than one step from the continuous height, and quantising again changes nothing. -/
theorem C13_multiple_and_idempotent (method : String) (step g V Vq : ℝ) (hs : 0 < step) (hg : g ≠ 0)
    (h : discretize method step g V = .ok Vq) :
    (∃ k : ℤ, g * Vq = k * step) ∧ |g * Vq - g * V| < step ∧ discretize method step g Vq = .ok Vq := by
  unfold discretize at h ⊢
  obtain ⟨rnd, hr, hint, herr⟩ : ∃ rnd, stepRounding method = .ok rnd ∧ (∀ k : ℤ, rnd (k : ℝ) = k) ∧
      ∀ x, |(rnd x : ℝ) - x| < 1 := by
    unfold stepRounding at h ⊢
    by_cases h1 : InLower "round" method
    · exact ⟨_, by rw [if_pos h1], npRound_intCast, fun x => (npRound_err x).trans_lt (by norm_num)⟩
    by_cases h2 : InLower "floor" method
    · refine ⟨_, by rw [if_neg h1, if_pos h2], fun k => Int.floor_intCast k, fun x => ?_⟩
      rw [abs_lt]; constructor <;> linarith [Int.floor_le x, Int.lt_floor_add_one x]
    by_cases h3 : InLower "ceil" method
    · refine ⟨_, by rw [if_neg h1, if_neg h2, if_pos h3], fun k => Int.ceil_intCast k, fun x => ?_⟩
      rw [abs_lt]; constructor <;> linarith [Int.le_ceil x, Int.ceil_lt_add_one x]
    by_cases h4 : InLower "fix" method
    · refine ⟨_, by rw [if_neg h1, if_neg h2, if_neg h3, if_pos h4], npFix_intCast, fun x => ?_⟩
      unfold npFix
      rw [abs_lt]
      split
      · constructor <;> linarith [Int.floor_le x, Int.lt_floor_add_one x]
      · constructor <;> linarith [Int.le_ceil x, Int.ceil_lt_add_one x]
    · rw [if_neg h1, if_neg h2, if_neg h3, if_neg h4] at h
      simp [Except.map] at h
  rw [hr] at h ⊢
  simp only [Except.map, Except.ok.injEq] at h ⊢
  have hgV : g * Vq = rnd (g * V / step) * step := by rw [← h]; field_simp
  refine ⟨⟨_, hgV⟩, ?_, ?_⟩
  · have e : g * Vq - g * V = (rnd (g * V / step) - g * V / step) * step := by
      rw [hgV]; field_simp
    rw [e, abs_mul, abs_of_pos hs]
    have := herr (g * V / step)
    nlinarith
  · have e : g * Vq / step = ((rnd (g * V / step) : ℤ) : ℝ) := by rw [hgV]; field_simp
    rw [e, hint, ← hgV]; field_simp

/-- C13. Every method name containing "round" (any case, other text allowed) errs by at most half a step. -/
theorem C13_round (method : String) (hm : InLower "round" method) (step g V : ℝ) (hs : 0 < step) (hg : g ≠ 0) :
    ∃ Vq, discretize method step g V = .ok Vq ∧ |g * Vq - g * V| ≤ step / 2 := by
  refine ⟨(npRound (g * V / step) : ℝ) * step / g, by simp [discretize, stepRounding, hm, Except.map], ?_⟩
  have e : g * ((npRound (g * V / step) : ℝ) * step / g) - g * V
      = (npRound (g * V / step) - g * V / step) * step := by field_simp
  rw [e, abs_mul, abs_of_pos hs]
  have := npRound_err (g * V / step)
  nlinarith

/-- C13. "floor" never raises the surface, "ceil" never lowers it, "fix" never increases its absolute height; a name with
none of the four words is rejected. ("round" has precedence over "floor" over "ceil" over "fix".) -/
theorem C13_directed (method : String) (step g V : ℝ) (hs : 0 < step) (hg : g ≠ 0) (hnr : ¬ InLower "round" method) :
    (InLower "floor" method → ∃ Vq, discretize method step g V = .ok Vq ∧ g * Vq ≤ g * V) ∧
    (¬ InLower "floor" method → InLower "ceil" method → ∃ Vq, discretize method step g V = .ok Vq ∧ g * V ≤ g * Vq) ∧
    (¬ InLower "floor" method → ¬ InLower "ceil" method → InLower "fix" method →
      ∃ Vq, discretize method step g V = .ok Vq ∧ |g * Vq| ≤ |g * V|) ∧
    (¬ InLower "floor" method → ¬ InLower "ceil" method → ¬ InLower "fix" method →
      discretize method step g V = .error .valueError) := by
  have key : ∀ r : ℤ, g * ((r : ℝ) * step / g) = r * step := by intro r; field_simp
  have hx : g * V = (g * V / step) * step := by field_simp
  refine ⟨?_, ?_, ?_, ?_⟩
  · intro h
    refine ⟨(⌊g * V / step⌋ : ℝ) * step / g, by simp [discretize, stepRounding, hnr, h, Except.map], ?_⟩
    rw [key, hx]
    have := Int.floor_le (g * V / step)
    have e : g * V / step * step / step = g * V / step := by field_simp
    rw [e]; nlinarith
  · intro h1 h
    refine ⟨(⌈g * V / step⌉ : ℝ) * step / g, by simp [discretize, stepRounding, hnr, h1, h, Except.map], ?_⟩
    rw [key, hx]
    have := Int.le_ceil (g * V / step)
    have e : g * V / step * step / step = g * V / step := by field_simp
    rw [e]; nlinarith
  · intro h1 h2 h
    refine ⟨(npFix (g * V / step) : ℝ) * step / g, by simp [discretize, stepRounding, hnr, h1, h2, h, Except.map], ?_⟩
    rw [key]
    have e : |g * V| = |g * V / step| * step := by rw [abs_div, abs_of_pos hs]; field_simp
    rw [e, abs_mul, abs_of_pos hs]
    apply mul_le_mul_of_nonneg_right _ hs.le
    generalize g * V / step = x
    unfold npFix
    split
    · next h0 =>
      rw [abs_of_nonneg h0, abs_of_nonneg (by exact_mod_cast Int.floor_nonneg.2 h0)]; exact Int.floor_le x
    · next h0 =>
      push Not at h0
      have : ⌈x⌉ ≤ 0 := Int.ceil_le.2 (by simpa using h0.le)
      rw [abs_of_neg h0, abs_of_nonpos (by exact_mod_cast this)]
      linarith [Int.le_ceil x]
  · intro h1 h2 h3
    simp [discretize, stepRounding, hnr, h1, h2, h3, Except.map]

example : InLower "round" "Round_half" ∧ ¬ InLower "round" "FLOOR" ∧ InLower "floor" "FLOOR" := by
  unfold InLower; decide

/-! ## C14 -/

/-- C14. For every orientation string: `gen_surf_from_act` accepts it iff `gen_poke_cube` does, and then the actuator with
command index `(i,j)` is drawn by the surface generator (with its own height) at exactly the node whose position is the
poke-cube centre of index `(i,j)`. -/
theorem C14_orientation {N : ℕ} (o : String) (H : Fin N → Fin N → ℝ) (xc yc : ℝ) :
    (∃ H' A, surfOrient o H = .ok H' ∧ pokeOrient N o = .ok A ∧
      ∀ i j, ∃ r c, surfNode xc yc r c = pokeCentre A xc yc i j ∧ H' r c = H i j) ∨
    (surfOrient o H = .error .valueError ∧ pokeOrient N o = .error .valueError) := by
  unfold surfOrient pokeOrient
  dsimp only
  generalize o.toLower = s
  have ok : ∀ (H' : Fin N → Fin N → ℝ) (A : Fin N → Fin N → Fin N × Fin N),
      (∀ i j, H' (A i j).1 (A i j).2 = H i j) →
      ∀ i j, ∃ r c, surfNode xc yc r c = pokeCentre A xc yc i j ∧ H' r c = H i j :=
    fun H' A h i j => ⟨(A i j).1, (A i j).2, rfl, h i j⟩
  split_ifs
  · exact Or.inl ⟨_, _, rfl, rfl, ok _ _ fun i j => rfl⟩
  · exact Or.inl ⟨_, _, rfl, rfl, ok _ _ fun i j => by simp [rot90, fliplr]⟩
  · exact Or.inl ⟨_, _, rfl, rfl, ok _ _ fun i j => by simp [rot90]⟩
  · exact Or.inl ⟨_, _, rfl, rfl, ok _ _ fun i j => by simp [rot90, fliplr]⟩
  · exact Or.inl ⟨_, _, rfl, rfl, ok _ _ fun i j => by simp [fliplr]⟩
  · exact Or.inl ⟨_, _, rfl, rfl, ok _ _ fun i j => by simp [rot90, fliplr]⟩
  · exact Or.inl ⟨_, _, rfl, rfl, ok _ _ fun i j => by simp [rot90, fliplr]⟩
  · exact Or.inl ⟨_, _, rfl, rfl, ok _ _ fun i j => by simp [rot90, fliplr]⟩
  · exact Or.inr ⟨rfl, rfl⟩

/-- C14. The eight orientations rearrange the actuators: distinct command indices are never placed at the same node. -/
theorem C14_injective {N : ℕ} (o : String) (A : Fin N → Fin N → Fin N × Fin N) (h : pokeOrient N o = .ok A) :
    Function.Injective fun p : Fin N × Fin N => A p.1 p.2 := by
  unfold pokeOrient at h
  dsimp only at h
  generalize o.toLower = s at h
  split_ifs at h <;> (injection h with h; subst h; rintro ⟨i, j⟩ ⟨k, l⟩ e; simp_all [rot90, fliplr])

example : ∃ A, pokeOrient 3 "flipxRot90" = .ok A ∧ A 0 1 ≠ (0, 1) := by
  refine ⟨rot90 (fliplr fun r c => (r, c)) 1, ?_, by decide⟩
  have : "flipxRot90".toLower = "flipxrot90" := by decide +kernel
  unfold pokeOrient
  rw [this]; rfl

/-! ## C15 -/

section Nbr
variable {K : Type*} [Field K] [LinearOrder K] [IsStrictOrderedRing K]

/-- C15. The intended correction of a violating pair (limit ≥ 0) keeps the sum of the two voltages, leaves all others alone, and
brings the pair to a difference of exactly the limit. -/
theorem C15_pair_fix (Vlim : K) (hl : 0 ≤ Vlim) (V : VMap K) (p q : ℤ × ℤ) (hpq : p ≠ q) (hv : Vlim < |V p - V q|) :
    let V' := nbrFix Vlim V p q
    V' p + V' q = V p + V q ∧ |V' p - V' q| = Vlim ∧ ∀ r, r ≠ p → r ≠ q → V' r = V r := by
  unfold nbrFix
  dsimp only
  have h1 : ∀ (a b : K), Function.update (Function.update V p a) q b p = a := by
    intro a b; rw [Function.update_of_ne hpq, Function.update_self]
  rw [Function.update_of_ne (Ne.symm hpq)]
  refine ⟨?_, ?_, ?_⟩
  · rw [h1, Function.update_self]; ring
  · rw [h1, Function.update_self]
    rcases lt_trichotomy 0 (V p - V q) with h | h | h
    · rw [if_pos h, abs_of_pos h]
      have e : V p - 1 * ((V p - V q - Vlim) / 2) - (V q + 1 * ((V p - V q - Vlim) / 2)) = Vlim := by ring
      rw [e, abs_of_nonneg hl]
    · rw [← h, abs_zero] at hv; exact absurd hv (not_lt.2 hl)
    · rw [if_neg (not_lt.2 h.le), if_pos h, abs_of_neg h]
      have e : V p - -1 * ((-(V p - V q) - Vlim) / 2) - (V q + -1 * ((-(V p - V q) - Vlim) / 2)) = -Vlim := by ring
      rw [e, abs_neg, abs_of_nonneg hl]
  · intro r hp hq
    rw [Function.update_of_ne hq, Function.update_of_ne hp]

/-- Every offset used is non-zero. -/
theorem nbrVisits_ne (Nact : ℕ) : ∀ pq ∈ nbrVisits Nact, pq.1 ≠ pq.2 := by
  intro pq h
  simp only [nbrVisits, List.mem_flatMap, List.mem_map] at h
  obtain ⟨jj, _, ii, _, k, hk, rfl⟩ := h
  intro e
  have e1 := congrArg Prod.fst e
  have e2 := congrArg Prod.snd e
  simp only at e1 e2
  have h1 : k.1 = 0 := by omega
  have h2 : k.2 = 0 := by omega
  have : k = (0, 0) := Prod.ext h1 h2
  subst this
  unfold nbrOffsets at hk
  split_ifs at hk <;> simp at hk

/-- Visited positions lie in the map, when it has at least two rows. -/
theorem nbrVisits_range (Nact : ℕ) (hN : 2 ≤ Nact) : ∀ pq ∈ nbrVisits Nact,
    (0 ≤ pq.1.1 ∧ pq.1.1 < Nact ∧ 0 ≤ pq.1.2 ∧ pq.1.2 < Nact) ∧
    (0 ≤ pq.2.1 ∧ pq.2.1 < Nact ∧ 0 ≤ pq.2.2 ∧ pq.2.2 < Nact) := by
  intro pq h
  simp only [nbrVisits, List.mem_flatMap, List.mem_map, List.mem_range] at h
  obtain ⟨jj, hj, ii, hi, ⟨k1, k2⟩, hk, rfl⟩ := h
  unfold nbrOffsets at hk
  split_ifs at hk <;> simp at hk <;> dsimp only <;> omega

/-- C15. The intended full sweep conserves the total of all voltages in the map, for every map and limit. -/
theorem C15_sweep_sum (Vlim : K) (Nact : ℕ) (hN : 2 ≤ Nact) (V : VMap K) :
    (∑ p ∈ Finset.Ico (0:ℤ) Nact ×ˢ Finset.Ico (0:ℤ) Nact, nbrSweep Vlim Nact V p)
      = ∑ p ∈ Finset.Ico (0:ℤ) Nact ×ˢ Finset.Ico (0:ℤ) Nact, V p := by
  have key : ∀ (l : List ((ℤ × ℤ) × (ℤ × ℤ))), (∀ pq ∈ l, pq ∈ nbrVisits Nact) → ∀ V : VMap K,
      (∑ p ∈ Finset.Ico (0:ℤ) Nact ×ˢ Finset.Ico (0:ℤ) Nact, l.foldl (nbrVisit Vlim) V p)
        = ∑ p ∈ Finset.Ico (0:ℤ) Nact ×ˢ Finset.Ico (0:ℤ) Nact, V p := by
    intro l
    induction l with
    | nil => intro _ V; rfl
    | cons pq t ih =>
      intro hmem V
      rw [List.foldl_cons, ih (fun x hx => hmem x (List.mem_cons_of_mem _ hx))]
      unfold nbrVisit
      split
      · have hne := nbrVisits_ne Nact pq (hmem pq (by simp))
        have hr := nbrVisits_range Nact hN pq (hmem pq (by simp))
        have hp : pq.1 ∈ Finset.Ico (0:ℤ) Nact ×ˢ Finset.Ico (0:ℤ) Nact := by
          simp only [Finset.mem_product, Finset.mem_Ico]; omega
        have hq : pq.2 ∈ (Finset.Ico (0:ℤ) Nact ×ˢ Finset.Ico (0:ℤ) Nact).erase pq.1 := by
          simp only [Finset.mem_erase, Finset.mem_product, Finset.mem_Ico]; exact ⟨hne.symm, by omega⟩
        rw [← Finset.add_sum_erase _ _ hp, ← Finset.add_sum_erase _ _ hq, ← Finset.add_sum_erase _ V hp,
          ← Finset.add_sum_erase _ V hq]
        have hrest : (∑ x ∈ ((Finset.Ico (0:ℤ) Nact ×ˢ Finset.Ico (0:ℤ) Nact).erase pq.1).erase pq.2,
            nbrFix Vlim V pq.1 pq.2 x)
            = ∑ x ∈ ((Finset.Ico (0:ℤ) Nact ×ˢ Finset.Ico (0:ℤ) Nact).erase pq.1).erase pq.2, V x := by
          apply Finset.sum_congr rfl
          intro x hx
          simp only [Finset.mem_erase] at hx
          unfold nbrFix
          rw [Function.update_of_ne hx.1, Function.update_of_ne hx.2.1]
        rw [hrest]
        have : nbrFix Vlim V pq.1 pq.2 pq.1 + nbrFix Vlim V pq.1 pq.2 pq.2 = V pq.1 + V pq.2 := by
          unfold nbrFix
          rw [Function.update_of_ne hne, Function.update_self, Function.update_self, Function.update_of_ne hne.symm]
          ring
        rw [← add_assoc, ← add_assoc, this]
      · rfl
  exact key _ (fun _ h => h) V

/-- C15. Every pair of 8-neighbours inside the map is examined by the sweep (in one of the two orders). -/
theorem C15_all_neighbours_visited (Nact : ℕ) (hN : 2 ≤ Nact) (r c r' c' : ℤ) (h1 : 0 ≤ r ∧ r < Nact)
    (h2 : 0 ≤ c ∧ c < Nact) (h3 : 0 ≤ r' ∧ r' < Nact) (h4 : 0 ≤ c' ∧ c' < Nact)
    (hd : |r - r'| ≤ 1 ∧ |c - c'| ≤ 1) (hne : (r, c) ≠ (r', c')) :
    ((r, c), (r', c')) ∈ nbrVisits Nact ∨ ((r', c'), (r, c)) ∈ nbrVisits Nact := by
  have mem : ∀ (a b : ℕ) (x y : ℤ), a < Nact → b < Nact → (x - a, y - b) ∈ nbrOffsets Nact a b →
      (((a:ℤ), (b:ℤ)), (x, y)) ∈ nbrVisits Nact := by
    intro a b x y ha hb hk
    simp only [nbrVisits, List.mem_flatMap, List.mem_map, List.mem_range]
    exact ⟨a, ha, b, hb, _, hk, by simp⟩
  -- forward offsets are examined from every centre where the target is inside the map,
  -- except the anti-diagonal upward ones at the right edge, which are examined downward
  obtain ⟨a, rfl⟩ := Int.eq_ofNat_of_zero_le h1.1
  obtain ⟨b, rfl⟩ := Int.eq_ofNat_of_zero_le h2.1
  obtain ⟨a', rfl⟩ := Int.eq_ofNat_of_zero_le h3.1
  obtain ⟨b', rfl⟩ := Int.eq_ofNat_of_zero_le h4.1
  have hd1 := abs_le.1 hd.1
  have hd2 := abs_le.1 hd.2
  have cases : ((a':ℤ) - a = 0 ∧ (b':ℤ) - b = 1) ∨ ((a':ℤ) - a = 0 ∧ (b':ℤ) - b = -1) ∨
      ((a':ℤ) - a = 1 ∧ (b':ℤ) - b = 1) ∨ ((a':ℤ) - a = -1 ∧ (b':ℤ) - b = -1) ∨
      ((a':ℤ) - a = 1 ∧ (b':ℤ) - b = 0) ∨ ((a':ℤ) - a = -1 ∧ (b':ℤ) - b = 0) ∨
      ((a':ℤ) - a = 1 ∧ (b':ℤ) - b = -1) ∨ ((a':ℤ) - a = -1 ∧ (b':ℤ) - b = 1) := by
    have : ¬ ((a:ℤ) = a' ∧ (b:ℤ) = b') := fun h => hne (by rw [h.1, h.2])
    omega
  rcases cases with h | h | h | h | h | h | h | h
  · left; apply mem _ _ _ _ (by omega) (by omega); rw [h.1, h.2]
    unfold nbrOffsets; split_ifs <;> first | omega | simp
  · right; apply mem _ _ _ _ (by omega) (by omega)
    have e1 : (a:ℤ) - a' = 0 := by omega
    have e2 : (b:ℤ) - b' = 1 := by omega
    rw [e1, e2]; unfold nbrOffsets; split_ifs <;> first | omega | simp
  · left; apply mem _ _ _ _ (by omega) (by omega); rw [h.1, h.2]
    unfold nbrOffsets; split_ifs <;> first | omega | simp
  · right; apply mem _ _ _ _ (by omega) (by omega)
    have e1 : (a:ℤ) - a' = 1 := by omega
    have e2 : (b:ℤ) - b' = 1 := by omega
    rw [e1, e2]; unfold nbrOffsets; split_ifs <;> first | omega | simp
  · left; apply mem _ _ _ _ (by omega) (by omega); rw [h.1, h.2]
    unfold nbrOffsets; split_ifs <;> first | omega | simp
  · right; apply mem _ _ _ _ (by omega) (by omega)
    have e1 : (a:ℤ) - a' = 1 := by omega
    have e2 : (b:ℤ) - b' = 0 := by omega
    rw [e1, e2]; unfold nbrOffsets; split_ifs <;> first | omega | simp
  · by_cases hb : b = 0
    · omega
    left; apply mem _ _ _ _ (by omega) (by omega); rw [h.1, h.2]
    unfold nbrOffsets; split_ifs <;> first | omega | simp
  · by_cases hb : b = 0
    · left; apply mem _ _ _ _ (by omega) (by omega); rw [h.1, h.2]
      unfold nbrOffsets; split_ifs <;> first | omega | simp
    · right; apply mem _ _ _ _ (by omega) (by omega)
      have e1 : (a:ℤ) - a' = 1 := by omega
      have e2 : (b:ℤ) - b' = -1 := by omega
      rw [e1, e2]; unfold nbrOffsets; split_ifs <;> first | omega | simp

/-- C15. What `apply_neighbor_rule` does when run: for `Nact ≥ 2` it returns (the map unchanged) exactly when no pair of
8-neighbours exceeds the limit, and raises `ValueError` otherwise - it never corrects anything. -/
theorem C15_run_only_detects (Vlim : K) (Nact : ℕ) (hN : 2 ≤ Nact) (V : VMap K) :
    ((∀ r c r' c' : ℤ, 0 ≤ r → r < Nact → 0 ≤ c → c < Nact → 0 ≤ r' → r' < Nact → 0 ≤ c' → c' < Nact →
        |r - r'| ≤ 1 → |c - c'| ≤ 1 → (r, c) ≠ (r', c') → |V (r, c) - V (r', c')| ≤ Vlim) →
      nbrRun Vlim Nact V = .ok V) ∧
    ((∃ r c r' c' : ℤ, (0 ≤ r ∧ r < Nact ∧ 0 ≤ c ∧ c < Nact) ∧ (0 ≤ r' ∧ r' < Nact ∧ 0 ≤ c' ∧ c' < Nact) ∧
        |r - r'| ≤ 1 ∧ |c - c'| ≤ 1 ∧ (r, c) ≠ (r', c') ∧ Vlim < |V (r, c) - V (r', c')|) →
      nbrRun Vlim Nact V = .error .valueError) := by
  have main : ∀ l : List ((ℤ × ℤ) × (ℤ × ℤ)), (∀ pq ∈ l, pq ∈ nbrVisits Nact) →
      ((∀ pq ∈ l, |V pq.1 - V pq.2| ≤ Vlim) →
        l.foldlM (fun V pq => if (Nact : ℤ) ≤ pq.2.1 ∨ (Nact : ℤ) ≤ pq.2.2 then Except.error PyErr.indexError
          else if Vlim < |V pq.1 - V pq.2| then .error .valueError else .ok V) V = .ok V) ∧
      ((∃ pq ∈ l, Vlim < |V pq.1 - V pq.2|) →
        l.foldlM (fun V pq => if (Nact : ℤ) ≤ pq.2.1 ∨ (Nact : ℤ) ≤ pq.2.2 then Except.error PyErr.indexError
          else if Vlim < |V pq.1 - V pq.2| then .error .valueError else .ok V) V = .error .valueError) := by
    intro l
    induction l with
    | nil => intro _; exact ⟨fun _ => rfl, fun ⟨_, h, _⟩ => by cases h⟩
    | cons pq t ih =>
      intro hmem
      have hr := nbrVisits_range Nact hN pq (hmem pq (by simp))
      have hin : ¬ ((Nact : ℤ) ≤ pq.2.1 ∨ (Nact : ℤ) ≤ pq.2.2) := by omega
      have ih' := ih (fun x hx => hmem x (List.mem_cons_of_mem _ hx))
      rw [List.foldlM_cons, if_neg hin]
      by_cases hv : Vlim < |V pq.1 - V pq.2|
      · rw [if_pos hv]
        exact ⟨fun h => absurd (h pq (by simp)) (not_le.2 hv), fun _ => rfl⟩
      · rw [if_neg hv]
        refine ⟨fun h => ih'.1 (fun x hx => h x (List.mem_cons_of_mem _ hx)), ?_⟩
        rintro ⟨x, hx, hlt⟩
        rcases List.mem_cons.1 hx with rfl | hx
        · exact absurd hlt hv
        · exact ih'.2 ⟨x, hx, hlt⟩
  obtain ⟨m1, m2⟩ := main _ (fun _ h => h)
  have offs : ∀ pq ∈ nbrVisits Nact, |pq.1.1 - pq.2.1| ≤ 1 ∧ |pq.1.2 - pq.2.2| ≤ 1 := by
    intro pq h
    simp only [nbrVisits, List.mem_flatMap, List.mem_map, List.mem_range] at h
    obtain ⟨jj, hj, ii, hi, ⟨k1, k2⟩, hk, rfl⟩ := h
    have : (-1 ≤ k1 ∧ k1 ≤ 1) ∧ (-1 ≤ k2 ∧ k2 ≤ 1) := by
      unfold nbrOffsets at hk
      split_ifs at hk <;> simp at hk <;> omega
    dsimp only
    rw [abs_le, abs_le]; omega
  constructor
  · intro h
    refine m1 fun pq hpq => ?_
    have hr := nbrVisits_range Nact hN pq hpq
    have ho := offs pq hpq
    exact h pq.1.1 pq.1.2 pq.2.1 pq.2.2 hr.1.1 hr.1.2.1 hr.1.2.2.1 hr.1.2.2.2 hr.2.1 hr.2.2.1 hr.2.2.2.1 hr.2.2.2.2
      ho.1 ho.2 (nbrVisits_ne Nact pq hpq)
  · rintro ⟨r, c, r', c', h1, h2, h3, h4, hne, hlt⟩
    refine m2 ?_
    rcases C15_all_neighbours_visited Nact hN r c r' c' ⟨h1.1, h1.2.1⟩ h1.2.2 ⟨h2.1, h2.2.1⟩ h2.2.2 ⟨h3, h4⟩ hne with h | h
    · exact ⟨_, h, hlt⟩
    · exact ⟨_, h, by rw [abs_sub_comm]; exact hlt⟩

end Nbr

/-- C15. On a one-actuator DM the function raises `IndexError` (the first row looks at column 1). -/
theorem C15_single_actuator_violated (Vlim : ℚ) (V : VMap ℚ) : nbrRun Vlim 1 V = .error .indexError := by
  simp [nbrRun, nbrVisits, nbrOffsets, bind, Except.bind]

/-- C15. Even as intended, one sweep does not establish the rule: on the 2×2 map `[[0,0],[2,6]]` with limit 1 the neighbours
(0,0) and (0,1) differ by 5/4 afterwards. -/
theorem C15_one_sweep_violated :
    ∃ V : VMap ℚ, (1:ℚ) < |nbrSweep 1 2 V (0, 0) - nbrSweep 1 2 V (0, 1)| :=
  ⟨fun p => if p = (1, 0) then 2 else if p = (1, 1) then 6 else 0, by decide +kernel⟩

example : ∃ V : VMap ℚ, (1:ℚ) < |V (0, 0) - V (0, 1)| := ⟨fun p => if p = (0, 0) then 5 else 0, by decide +kernel⟩

end Verif.Dm
