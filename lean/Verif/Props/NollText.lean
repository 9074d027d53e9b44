import Verif.Model.Noll
import Mathlib.Tactic.Ring
import Mathlib.Tactic.Linarith

/-!
# C54: the text of the equations

A small grammar of the formulas that `prop_noll_zernikes(maxz, COMPACT=True)` writes, with their value for a radius `r` and an
angle `t`, as Python's `eval` reads them: `*` binds more than `+` and `-`, which are read from the left; `r_pow_k` is the variable
holding `r**k`, `coskt` and `sinkt` those holding `cos(k t)` and `sin(k t)` (prop_zernikes.py:99-107).  A number is
the list of its decimal digits, `Nat.toDigits 10 k`.
-/

namespace Verif.Noll

/-- A product without a sign. -/
inductive Product (r : ℝ) : List Char → ℝ → Prop
  | number (k : ℕ) : Product r (Nat.toDigits 10 k ++ ".0".toList) k
  | var : Product r "r".toList r
  | power (k : ℕ) : Product r ("r_pow_".toList ++ Nat.toDigits 10 k) (r ^ k)
  | times {a b : List Char} {x y : ℝ} : Product r a x → Product r b y → Product r (a ++ "*".toList ++ b) (x * y)

/-- A sum of products. -/
inductive Sum (r : ℝ) : List Char → ℝ → Prop
  | first {a : List Char} {x : ℝ} : Product r a x → Sum r a x
  | minusFirst {a : List Char} {x : ℝ} : Product r a x → Sum r ("-".toList ++ a) (-x)
  | plus {a b : List Char} {x y : ℝ} : Sum r a x → Product r b y → Sum r (a ++ " + ".toList ++ b) (x + y)
  | minus {a b : List Char} {x y : ℝ} : Sum r a x → Product r b y → Sum r (a ++ " - ".toList ++ b) (x - y)

/-- The formula of a polynomial: the factor in front, the radial sum in parentheses, the angular factor. -/
inductive Formula (r t : ℝ) : List Char → ℝ → Prop
  | root (k : ℕ) {a : List Char} {x : ℝ} : Sum r a x → Formula r t ("math.sqrt(".toList ++ Nat.toDigits 10 k ++ ") * (".toList ++ a ++ ")".toList) (Real.sqrt k * x)
  | whole (k : ℕ) {a : List Char} {x : ℝ} : Sum r a x → Formula r t (Nat.toDigits 10 k ++ " * (".toList ++ a ++ ")".toList) (k * x)
  | cos (m : ℕ) {a : List Char} {x : ℝ} : Formula r t a x → Formula r t (a ++ " * cos".toList ++ Nat.toDigits 10 m ++ "t".toList) (x * Real.cos (m * t))
  | sin (m : ℕ) {a : List Char} {x : ℝ} : Formula r t a x → Formula r t (a ++ " * sin".toList ++ Nat.toDigits 10 m ++ "t".toList) (x * Real.sin (m * t))

theorem power_text (r : ℝ) (k : ℕ) : ∃ a, Product r a (r ^ k) ∧ (k = 1 → a = ['r']) ∧ (2 ≤ k → a = ['r', '_', 'p', 'o', 'w', '_'] ++ str k) := by
  by_cases h1 : k = 1
  · subst h1
    exact ⟨['r'], by simpa using Product.var (r := r), fun _ => rfl, by omega⟩
  · exact ⟨_, Product.power k, fun h => absurd h h1, fun _ => rfl⟩

/-- A term is its sign and a product. -/
theorem term_text (r : ℝ) (s : ℕ) (c : ℤ × ℕ) : ∃ a, Product r a ((c.1.natAbs : ℝ) * r ^ c.2) ∧
    termStr s c = (if s = 0 then (if c.1 < 0 then "-".toList else []) else if c.1 < 0 then " - ".toList else " + ".toList) ++ a := by
  unfold termStr
  dsimp only
  by_cases h0 : c.2 = 0
  · refine ⟨str c.1.natAbs ++ ['.', '0'], ?_, by rw [h0]; rfl⟩
    rw [h0, pow_zero, mul_one]
    exact Product.number _
  · obtain ⟨p, hp, p1, p2⟩ := power_text r c.2
    by_cases hc : c.1 = 1
    · refine ⟨p, by rw [hc]; simpa using hp, ?_⟩
      by_cases h1 : c.2 = 1
      · rw [if_neg (show ¬ c.2 = 0 from h0), if_pos (show c.2 = 1 from h1), if_neg (show ¬ (c.1 ≠ 1) from fun q => q hc), p1 h1]; simp
      · rw [if_neg (show ¬ c.2 = 0 from h0), if_neg (show ¬ c.2 = 1 from h1), if_neg (show ¬ (c.1 ≠ 1) from fun q => q hc), p2 (by omega)]; simp
    · refine ⟨_, Product.times (Product.number c.1.natAbs) hp, ?_⟩
      by_cases h1 : c.2 = 1
      · rw [if_neg (show ¬ c.2 = 0 from h0), if_pos (show c.2 = 1 from h1), if_pos (show c.1 ≠ 1 from hc), p1 h1]
        simp [str]
      · rw [if_neg (show ¬ c.2 = 0 from h0), if_neg (show ¬ c.2 = 1 from h1), if_pos (show c.1 ≠ 1 from hc), p2 (by omega)]
        simp [str, List.append_assoc]

theorem signed_abs (c : ℤ) : (c : ℝ) = if c < 0 then -(c.natAbs : ℝ) else (c.natAbs : ℝ) := by
  have h' : (c.natAbs : ℝ) = |(c : ℝ)| := by rw [Nat.cast_natAbs]; push_cast; rfl
  rw [h']
  split
  · next hc => rw [abs_of_neg (by exact_mod_cast hc)]; ring
  · next hc => rw [abs_of_nonneg (by push Not at hc; exact_mod_cast hc)]

theorem terms_text (r : ℝ) : ∀ (l : List (ℤ × ℕ)) (k : ℕ) (a : List Char) (x : ℝ), 0 < k → Sum r a x →
    Sum r (a ++ ((l.zipIdx k).map fun c => termStr c.2 c.1).flatten) (x + (l.map fun c => (c.1 : ℝ) * r ^ c.2).sum) := by
  intro l
  induction l with
  | nil => intro k a x _ h; simpa using h
  | cons c l ih =>
    intro k a x hk h
    obtain ⟨b, hb, e⟩ := term_text r k c
    rw [if_neg (by omega)] at e
    have step : Sum r (a ++ termStr k c) (x + (c.1 : ℝ) * r ^ c.2) := by
      rw [e, signed_abs c.1]
      split
      · have := Sum.minus h hb
        rw [List.append_assoc] at this
        convert this using 1; ring
      · have := Sum.plus h hb
        rwa [List.append_assoc] at this
    have := ih (k + 1) _ _ (by omega) step
    simp only [List.zipIdx_cons, List.map_cons, List.flatten_cons, List.sum_cons]
    rw [← List.append_assoc, ← add_assoc]
    exact this

/-- C54. The text written for an index (COMPACT, before the cut at 250 characters) is a formula of the grammar whose value is the
Zernike polynomial: every sign, coefficient, power and angular factor (for `n = 0` the code writes `1`). -/
theorem C54_text (n m j : ℕ) (_hn : n ≠ 0) (r t : ℝ) : Formula r t (body (entry n m j) ++ suffix (entry n m j)) (zernVal (entry n m j) r t) := by
  have hne : (entry n m j).terms ≠ [] := by
    unfold entry
    split
    · simp
    · rw [List.range_succ_eq_map]; simp
  generalize entry n m j = z at hne
  obtain ⟨v, l, ang⟩ := z
  cases l with
  | nil => exact absurd rfl hne
  | cons c l =>
    obtain ⟨b, hb, e⟩ := term_text r 0 c
    rw [if_pos rfl] at e
    have h1 : Sum r (termStr 0 c) ((c.1 : ℝ) * r ^ c.2) := by
      rw [e, signed_abs c.1]
      split
      · have := Sum.minusFirst hb
        convert this using 1; ring
      · exact Sum.first hb
    have hs := terms_text r l 1 _ _ (by omega) h1
    have hb : Formula r t (body ⟨v, c :: l, ang⟩) (Real.sqrt v * (((c :: l).map fun c => (c.1 : ℝ) * r ^ c.2).sum)) := by
      unfold body
      simp only [List.zipIdx_cons, List.map_cons, List.flatten_cons, List.sum_cons, zero_add]
      split
      · next hq =>
        have := Formula.whole (t := t) (Nat.sqrt v) hs
        have hv : Real.sqrt v = (Nat.sqrt v : ℝ) := by
          rw [Real.sqrt_eq_iff_mul_self_eq (by positivity) (by positivity)]
          have : ((Nat.sqrt v ^ 2 : ℕ) : ℝ) = v := by rw [hq]
          rw [← this]; push_cast; ring
        rw [hv]
        simpa [str, List.append_assoc] using this
      · have := Formula.root (t := t) v hs
        simpa [str, List.append_assoc] using this
    cases ang with
    | none =>
      simp only [suffix, List.append_nil, zernVal, mul_one]
      exact hb
    | some p =>
      obtain ⟨m, c'⟩ := p
      cases c' with
      | true =>
        have := Formula.cos m hb
        simpa [suffix, zernVal, str, List.append_assoc] using this
      | false =>
        have := Formula.sin m hb
        simpa [suffix, zernVal, str, List.append_assoc] using this

/-- The texts of the defocus and of the first coma. -/
example : String.ofList (body (entry 2 0 4) ++ suffix (entry 2 0 4)) = "math.sqrt(3) * (2.0*r_pow_2 - 1.0)" ∧
    String.ofList (body (entry 3 1 7) ++ suffix (entry 3 1 7)) = "math.sqrt(8) * (3.0*r_pow_3 - 2.0*r) * sin1t" := by decide +kernel

end Verif.Noll
