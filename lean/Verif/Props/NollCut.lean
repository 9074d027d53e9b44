import Verif.Props.Noll

/-!
# C127: which formulas survive the cut at 250 bytes
-/

namespace Verif.Noll
open Verif

theorem sizes_small : ∀ n < 23, ∀ m < 23, m ≤ n → ∀ p < 2, (body (entry n m p)).length + (suffix (entry n m p)).length ≤ 250 := by decide +kernel

theorem entry_mod (n m j : ℕ) : entry n m j = entry n m (j % 2) := by
  unfold entry
  rw [Nat.mod_mod]

/-- C127: the formulas of all indices up to 276 fit: `eval` gives the polynomial. -/
theorem C127_fits {j n m : ℕ} (hs : Slot j n m) (hj : j ≤ 276) (r t : ℝ) : evalStr (entry n m j) r t = .ok (zernVal (entry n m j) r t) := by
  have hn : n < 23 := by
    by_contra hc
    have : T 23 ≤ T n := T_mono (by omega)
    have h23 : T 23 = 276 := by decide
    obtain ⟨h1, h2, h3⟩ := hs
    omega
  unfold evalStr
  have := sizes_small n hn m (by have := hs.1; omega) hs.1 (j % 2) (Nat.mod_lt _ (by norm_num))
  rw [← entry_mod] at this
  exact if_pos this

theorem sizes_mid : ∀ n < 90, 24 ≤ n → ∀ p < 2, 250 < (body (entry n (n % 2) p)).length := by decide +kernel

theorem termStr_long (s : ℕ) (c : ℤ × ℕ) (h : 2 ≤ c.2) : 6 ≤ (termStr s c).length := by
  unfold termStr
  dsimp only
  rw [if_neg (show c.2 ≠ 0 by omega), if_neg (show c.2 ≠ 1 by omega)]
  simp only [List.length_append]
  have : 1 ≤ (if c.1 ≠ 1 then str c.1.natAbs ++ ['.', '0'] ++ ['*', 'r'] else ['r'] : List Char).length := by
    split_ifs <;> simp
  simp only [List.length_cons, List.length_nil]
  omega

theorem flatten_long (l : List (ℤ × ℕ)) (K : ℕ) : ∀ k : ℕ, (∀ i < K, ∃ h : i < l.length, 2 ≤ (l[i]).2) →
    6 * K ≤ ((l.zipIdx k).map fun c => termStr c.2 c.1).flatten.length := by
  induction l generalizing K with
  | nil =>
    intro k h
    rcases K with _ | K
    · simp
    · obtain ⟨h0, _⟩ := h 0 (by omega)
      simp at h0
  | cons c l ih =>
    intro k h
    rcases K with _ | K
    · simp
    · obtain ⟨_, h0⟩ := h 0 (by omega)
      have := ih K (k + 1) fun i hi => by
        obtain ⟨h1, h2⟩ := h (i + 1) (by omega)
        exact ⟨by simpa using h1, by simpa using h2⟩
      rw [List.zipIdx_cons, List.map_cons, List.flatten_cons, List.length_append]
      have h6 := termStr_long k c (by simpa using h0)
      dsimp only
      omega

/-- C127, violated: every radial order from 24 on has modes that cannot be evaluated: the formulas of the lowest azimuthal order (0 or 1) are cut before the closing parenthesis and raise SyntaxError. -/
theorem C127_high_orders_violated {j n : ℕ} (hn : 24 ≤ n) (r t : ℝ) : evalStr (entry n (n % 2) j) r t = .error .syntaxError := by
  have hb : 250 < (body (entry n (n % 2) j)).length := by
    rcases Nat.lt_or_ge n 90 with h | h
    · rw [entry_mod]
      exact sizes_mid n h hn (j % 2) (Nat.mod_lt _ (by norm_num))
    · have ht : (entry n (n % 2) j).terms = (List.range ((n - n % 2) / 2 + 1)).map (term n (n % 2)) := by
        unfold entry
        rw [if_neg (by omega)]
      have := flatten_long (entry n (n % 2) j).terms 44 0 fun i hi => by
        have hl : (entry n (n % 2) j).terms.length = (n - n % 2) / 2 + 1 := by rw [ht]; simp
        refine ⟨by omega, ?_⟩
        have e : ((entry n (n % 2) j).terms[i]'(by omega)) = term n (n % 2) i := by
          simp only [ht, List.getElem_map, List.getElem_range]
        rw [e]
        show 2 ≤ n - 2 * i
        omega
      unfold body
      simp only [List.length_append]
      omega
  unfold evalStr
  dsimp only
  rw [if_neg (by omega), if_pos hb]

/-- C127, violated: index 277, the first that does not fit, raises SyntaxError. -/
theorem C127_first_violated (r t : ℝ) : Slot 277 23 1 ∧ evalStr (entry 23 1 277) r t = .error .syntaxError := by
  refine ⟨by simp [Slot, T], ?_⟩
  have h1 : (body (entry 23 1 277)).length = 248 := by decide +kernel
  have h2 : (suffix (entry 23 1 277)).length = 8 := by decide +kernel
  unfold evalStr
  dsimp only
  rw [h1, h2, if_neg (by norm_num), if_neg (by norm_num), if_neg (by norm_num), if_pos (by norm_num)]

/-- C127, violated: index 357 and 358 (sine and cosine of six times the angle, radial order 26) silently lose their angular factor: both evaluate to the same function of the radius alone, and the
polynomial is that function times the angular factor. -/
theorem C127_silent_violated (r t : ℝ) : Slot 357 26 6 ∧ Slot 358 26 6 ∧ ∃ v : ℝ, evalStr (entry 26 6 357) r t = .ok v ∧ evalStr (entry 26 6 358) r t = .ok v ∧
    zernVal (entry 26 6 357) r t = v * Real.sin (6 * t) ∧ zernVal (entry 26 6 358) r t = v * Real.cos (6 * t) := by
  refine ⟨by simp [Slot, T], by simp [Slot, T], zernVal { entry 26 6 357 with ang := none } r t, ?_, ?_, ?_, ?_⟩
  · have h1 : (body (entry 26 6 357)).length = 249 := by decide +kernel
    have h2 : (suffix (entry 26 6 357)).length = 8 := by decide +kernel
    unfold evalStr
    dsimp only
    rw [h1, h2, if_neg (by norm_num), if_neg (by norm_num), if_pos (by norm_num)]
  · have h1 : (body (entry 26 6 358)).length = 249 := by decide +kernel
    have h2 : (suffix (entry 26 6 358)).length = 8 := by decide +kernel
    have h3 : { entry 26 6 358 with ang := none } = { entry 26 6 357 with ang := none } := by decide +kernel
    unfold evalStr
    dsimp only
    rw [h1, h2, if_neg (by norm_num), if_neg (by norm_num), if_pos (by norm_num), h3]
  · simp [zernVal, entry]
  · simp [zernVal, entry]

end Verif.Noll
