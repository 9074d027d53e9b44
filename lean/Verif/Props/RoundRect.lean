import Verif.Model.RoundRect

/-!
# C131: rectangles with rounded corners (prop_rounded_rectangle)
-/

namespace Verif.RoundRect
open Verif Verif.Shape

theorem paste_ok {n : ℕ} {mask circle : ZMod n → ZMod n → ℝ} {a b c d : Bound} {m : ZMod n → ZMod n → ℝ} (h : paste mask circle a b c d = .ok m) :
    ∃ k1 k2 k3 k4, a = .int k1 ∧ b = .int k2 ∧ c = .int k3 ∧ d = .int k4 := by
  cases a <;> cases b <;> cases c <;> cases d <;> simp [paste] at h ⊢

theorem paste_err {n : ℕ} {mask circle : ZMod n → ZMod n → ℝ} {a b c d : Bound} {e : PyErr} (h : paste mask circle a b c d = .error e) : e = .typeError := by
  cases a <;> cases b <;> cases c <;> cases d <;> simp [paste] at h <;> exact h.symm

theorem lowPlus_int {p : ℝ} {k : ℤ} (h : lowPlus p = .int k) : p < 0 := by
  unfold lowPlus at h
  split_ifs at h with h'
  exact h'

theorem highMinus_int {n : ℕ} {p : ℝ} {k : ℤ} (h : highMinus n p = .int k) : p > n := by
  unfold highMinus at h
  split_ifs at h with h'
  exact h'

theorem corner_ok {n : ℕ} {nsub : ℕ} {dx cr width height xc yc : ℝ} {right upper : Bool} {mask m : ZMod n → ZMod n → ℝ}
    (h : corner nsub dx cr width height xc yc right upper mask = .ok m) :
    (upper = true → (height / 2 - cr + yc) / dx + ((n / 2 : ℕ) : ℝ) < 0) ∧ (upper = false → (-(height / 2 - cr) + yc) / dx + ((n / 2 : ℕ) : ℝ) > n) ∧
      (right = true → (width / 2 - cr + xc) / dx + ((n / 2 : ℕ) : ℝ) < 0) ∧ (right = false → (-(width / 2 - cr) + xc) / dx + ((n / 2 : ℕ) : ℝ) > n) := by
  unfold corner at h
  dsimp only at h
  cases he : ellipse n nsub (Ell.ofArgs n dx 0 false cr cr ((if right = true then width / 2 - cr else -(width / 2 - cr)) + xc) ((if upper = true then height / 2 - cr else -(height / 2 - cr)) + yc) 0) false with
  | error e => rw [he] at h; cases h
  | ok circle =>
    rw [he] at h
    obtain ⟨k1, k2, k3, k4, h1, h2, h3, h4⟩ := paste_ok h
    refine ⟨?_, ?_, ?_, ?_⟩ <;> rintro rfl
    · exact lowPlus_int h1
    · exact highMinus_int h2
    · exact lowPlus_int h3
    · exact highMinus_int h4

theorem bind_ok {α β : Type} {x : Except PyErr α} {f : α → Except PyErr β} {b : β} (h : x.bind f = .ok b) : ∃ a, x = .ok a ∧ f a = .ok b := by
  cases x with
  | error e => cases h
  | ok a => exact ⟨a, rfl, h⟩

theorem ellipse_err {n nsub : ℕ} {el : Ell} {dark : Bool} {e : PyErr} (h : ellipse n nsub el dark = .error e) : e = .indexError := by
  unfold ellipse at h
  dsimp only at h
  by_cases hb : (boxRange n el.xbox).2 - (boxRange n el.xbox).1 + 1 < 2 ∨ (boxRange n el.ybox).2 - (boxRange n el.ybox).1 + 1 < 2
  · rw [if_pos hb] at h
    exact (Except.error.inj h).symm
  · rw [if_neg hb] at h
    cases h

theorem corner_err {n : ℕ} {nsub : ℕ} {dx cr width height xc yc : ℝ} {right upper : Bool} {mask : ZMod n → ZMod n → ℝ} {e : PyErr}
    (h : corner nsub dx cr width height xc yc right upper mask = .error e) : e = .typeError ∨ e = .indexError := by
  unfold corner at h
  dsimp only at h
  cases he : ellipse n nsub (Ell.ofArgs n dx 0 false cr cr ((if right = true then width / 2 - cr else -(width / 2 - cr)) + xc) ((if upper = true then height / 2 - cr else -(height / 2 - cr)) + yc) 0) false with
  | error e' =>
    rw [he] at h
    right
    have h' : e' = e := by cases h; rfl
    rw [← h']
    exact ellipse_err he
  | ok circle =>
    rw [he] at h
    exact Or.inl (paste_err h)

/-- **C131 (violated).** No rectangle with rounded corners is ever drawn: whenever the radius of the corners is at most half the width or half the height, the call raises TypeError (or IndexError, where prop_ellipse does), for every grid, sampling, size and place. -/
theorem C131_violated (n nsub : ℕ) (dx cr width height xc yc : ℝ) (hdx : 0 < dx) (h : cr ≤ width / 2 ∨ cr ≤ height / 2) :
    roundedRectangle n nsub dx cr width height xc yc = .error .typeError ∨ roundedRectangle n nsub dx cr width height xc yc = .error .indexError := by
  cases hr : roundedRectangle n nsub dx cr width height xc yc with
  | ok m =>
    exfalso
    unfold roundedRectangle at hr
    obtain ⟨m1, h1, hr⟩ := bind_ok hr
    obtain ⟨m2, h2, hr⟩ := bind_ok hr
    obtain ⟨m3, h3, h4⟩ := bind_ok hr
    have a := corner_ok h1
    have b := corner_ok h4
    have x1 := a.2.2.1 rfl
    have x2 := b.2.2.2 rfl
    have y1 := a.1 rfl
    have y2 := b.2.1 rfl
    have hn : (0 : ℝ) ≤ n := Nat.cast_nonneg n
    rcases h with h | h
    · have : (-(width / 2 - cr) + xc) / dx ≤ (width / 2 - cr + xc) / dx := by
        apply div_le_div_of_nonneg_right _ hdx.le
        linarith
      linarith
    · have : (-(height / 2 - cr) + yc) / dx ≤ (height / 2 - cr + yc) / dx := by
        apply div_le_div_of_nonneg_right _ hdx.le
        linarith
      linarith
  | error e =>
    have he : e = .typeError ∨ e = .indexError := by
      unfold roundedRectangle at hr
      cases h1 : corner nsub dx cr width height xc yc true true (rectangle n nsub (Rect.ofArgs n dx 0 false width height (some xc) (some yc) 0) false) with
      | error e' => rw [h1] at hr; cases hr; exact corner_err h1
      | ok m1 =>
        rw [h1] at hr
        cases h2 : corner nsub dx cr width height xc yc true false m1 with
        | error e' => simp only [Except.bind, h2] at hr; cases hr; exact corner_err h2
        | ok m2 =>
          cases h3 : corner nsub dx cr width height xc yc false true m2 with
          | error e' => simp only [Except.bind, h2, h3] at hr; cases hr; exact corner_err h3
          | ok m3 =>
            simp only [Except.bind, h2, h3] at hr
            exact corner_err hr
    rcases he with rfl | rfl
    · exact Or.inl rfl
    · exact Or.inr rfl

/-- **C131 (in the array).** If the centre of the circle of the upper right corner lies in the array (and the circle can be drawn), the error is TypeError. -/
theorem C131_type_error (n nsub : ℕ) (dx cr width height xc yc : ℝ) (hx : 0 ≤ (width / 2 - cr + xc) / dx + ((n / 2 : ℕ) : ℝ))
    {circle : ZMod n → ZMod n → ℝ} (hc : ellipse n nsub (Ell.ofArgs n dx 0 false cr cr (width / 2 - cr + xc) (height / 2 - cr + yc) 0) false = .ok circle) :
    roundedRectangle n nsub dx cr width height xc yc = .error .typeError := by
  unfold roundedRectangle
  have h1 : corner nsub dx cr width height xc yc true true (rectangle n nsub (Rect.ofArgs n dx 0 false width height (some xc) (some yc) 0) false) = .error .typeError := by
    cases h : corner nsub dx cr width height xc yc true true (rectangle n nsub (Rect.ofArgs n dx 0 false width height (some xc) (some yc) 0) false) with
    | ok m =>
      have := (corner_ok h).2.2.1 rfl
      linarith
    | error e =>
      unfold corner at h
      simp only [if_true] at h
      rw [hc] at h
      rw [paste_err h]
  rw [h1]
  rfl

end Verif.RoundRect
