import Verif.Model.Dm
import Mathlib.Tactic.Linarith
import Mathlib.Tactic.NormNum
import Mathlib.Tactic.Ring
import Mathlib.Tactic.FieldSimp

namespace Verif.Dm
open Verif

theorem npRound_intCast (k : ℤ) : npRound (k : ℝ) = k := by
  unfold npRound; simp

theorem npRound_err (x : ℝ) : |(npRound x : ℝ) - x| ≤ 1 / 2 := by
  have h0 := Int.fract_nonneg x
  have h1 := Int.fract_lt_one x
  have h2 := Int.self_sub_floor x
  unfold npRound
  rw [abs_le]
  split
  · constructor <;> linarith
  · split
    · push_cast; constructor <;> linarith
    · have : Int.fract x = 1 / 2 := by linarith
      split
      · constructor <;> linarith
      · push_cast; constructor <;> linarith

theorem npFix_intCast (k : ℤ) : npFix (k : ℝ) = k := by
  unfold npFix; split <;> simp

theorem npRound_bounds (x : ℝ) : x - 1 / 2 ≤ npRound x ∧ (npRound x : ℝ) ≤ x + 1 / 2 := by
  have := abs_le.1 (npRound_err x)
  constructor <;> linarith [this.1, this.2]

end Verif.Dm
