import Verif.Model.Util
import Verif.Lemmas.Arr
import Mathlib.Tactic.Linarith
import Mathlib.Tactic.FieldSimp
import Mathlib.Tactic.Ring

namespace Verif.Util
open Verif
variable {α : Type*}

/-- Pixelwise description of the body of `pad_crop`. -/
theorem padCropCore_spec (A : Img α) (r c : ℕ) (v : α) :
    ∃ B, padCropCore A (r, c) v = .ok B ∧ B.h = r ∧ B.w = c ∧
      ∀ i j : ℤ, 0 ≤ i → i < r → 0 ≤ j → j < c →
        B.get? i j = some ((A.get? ((A.h / 2 : ℕ) + (i - (r / 2 : ℕ))) ((A.w / 2 : ℕ) + (j - (c / 2 : ℕ)))).getD v) := by
  unfold padCropCore
  simp only
  set xneg : ℕ := min (A.w / 2) (c / 2) with hxneg
  set xpos : ℕ := min (A.w - A.w / 2) (c - c / 2) with hxpos
  set yneg : ℕ := min (A.h / 2) (r / 2) with hyneg
  set ypos : ℕ := min (A.h - A.h / 2) (r - r / 2) with hypos
  have a1 : (0:ℤ) ≤ ((A.h / 2 : ℕ) : ℤ) - yneg := by omega
  have a2 : ((A.h / 2 : ℕ) : ℤ) - yneg ≤ ((A.h / 2 : ℕ) : ℤ) + ypos := by omega
  have a3 : ((A.h / 2 : ℕ) : ℤ) + ypos ≤ A.h := by omega
  have a4 : (0:ℤ) ≤ ((A.w / 2 : ℕ) : ℤ) - xneg := by omega
  have a5 : ((A.w / 2 : ℕ) : ℤ) - xneg ≤ ((A.w / 2 : ℕ) : ℤ) + xpos := by omega
  have a6 : ((A.w / 2 : ℕ) : ℤ) + xpos ≤ A.w := by omega
  have b1 : (0:ℤ) ≤ ((r / 2 : ℕ) : ℤ) - yneg := by omega
  have b2 : ((r / 2 : ℕ) : ℤ) - yneg ≤ ((r / 2 : ℕ) : ℤ) + ypos := by omega
  have b3 : ((r / 2 : ℕ) : ℤ) + ypos ≤ r := by omega
  have b4 : (0:ℤ) ≤ ((c / 2 : ℕ) : ℤ) - xneg := by omega
  have b5 : ((c / 2 : ℕ) : ℤ) - xneg ≤ ((c / 2 : ℕ) : ℤ) + xpos := by omega
  have b6 : ((c / 2 : ℕ) : ℤ) + xpos ≤ c := by omega
  obtain ⟨C, hC, hCh, hCw, hget⟩ := Img.setSlice_spec (Img.full r c v)
    (A.slice (((A.h / 2 : ℕ) : ℤ) - yneg) (((A.h / 2 : ℕ) : ℤ) + ypos)
             (((A.w / 2 : ℕ) : ℤ) - xneg) (((A.w / 2 : ℕ) : ℤ) + xpos))
    b1 b2 b3 b4 b5 b6
    (by rw [Img.slice_h A a1 a2 a3]; omega) (by rw [Img.slice_w A a4 a5 a6]; omega)
  refine ⟨C, hC, hCh, hCw, ?_⟩
  intro i j hi hi' hj hj'
  rw [hget i j hi hi' hj hj']
  split_ifs with hin
  · rw [Img.get?_slice A a1 a2 a3 a4 a5 a6 (by omega) (by omega) (by omega) (by omega)]
    have e1 : ((A.h / 2 : ℕ) : ℤ) - yneg + (i - (((r / 2 : ℕ) : ℤ) - yneg)) = (A.h / 2 : ℕ) + (i - (r / 2 : ℕ)) := by ring
    have e2 : ((A.w / 2 : ℕ) : ℤ) - xneg + (j - (((c / 2 : ℕ) : ℤ) - xneg)) = (A.w / 2 : ℕ) + (j - (c / 2 : ℕ)) := by ring
    rw [e1, e2, Img.get?_eq_some ⟨by omega, by omega⟩ ⟨by omega, by omega⟩]
    rfl
  · rw [Img.get?_eq_some (A := Img.full r c v) ⟨hi, hi'⟩ ⟨hj, hj'⟩,
      Img.get?_eq_none (A := A) (by omega)]
    rfl

theorem resolveOutsize_pair {r c : ℕ} (hr : 0 < r) (hc : 0 < c) :
    resolveOutsize (.seq [.int r, .int c]) = .ok (r, c) := by
  unfold resolveOutsize
  simp only
  rw [if_neg (by omega)]
  simp

theorem padCrop_pair (A : Img α) {r c : ℕ} (hr : 0 < r) (hc : 0 < c) (v : α) :
    padCrop A (.seq [.int r, .int c]) v = padCropCore A (r, c) v := by
  unfold padCrop; rw [resolveOutsize_pair hr hc]; rfl

theorem ceil_half (N : ℕ) : ⌈(N : ℝ) / 2⌉ = ((N : ℤ) + 1) / 2 := by
  rw [Int.ceil_eq_iff]
  have h1 : (2:ℤ) * (((N : ℤ) + 1) / 2) ≤ N + 1 := by omega
  have h2 : (N : ℤ) ≤ 2 * (((N : ℤ) + 1) / 2) := by omega
  have h1' : (2:ℝ) * ((((N : ℤ) + 1) / 2 : ℤ) : ℝ) ≤ N + 1 := by exact_mod_cast h1
  have h2' : (N : ℝ) ≤ 2 * ((((N : ℤ) + 1) / 2 : ℤ) : ℝ) := by exact_mod_cast h2
  constructor <;> linarith

theorem ceil_neg_half (N : ℕ) : ⌈-(N : ℝ) / 2⌉ = -((N : ℤ) / 2) := by
  rw [Int.ceil_eq_iff]
  have h1 : (2:ℤ) * ((N : ℤ) / 2) ≤ N := by omega
  have h2 : (N : ℤ) ≤ 2 * ((N : ℤ) / 2) + 1 := by omega
  have h1' : (2:ℝ) * (((N : ℤ) / 2 : ℤ) : ℝ) ≤ N := by exact_mod_cast h1
  have h2' : (N : ℝ) ≤ 2 * (((N : ℤ) / 2 : ℤ) : ℝ) + 1 := by exact_mod_cast h2
  push_cast at *
  constructor <;> linarith

/-- Closed form of the axis used below: entry `k`. -/
theorem createAxis_eq (N : ℕ) (step : ℝ) (c : Centering) :
    createAxis N step c = (List.range N).map fun k : ℕ =>
      ((k : ℝ) - ((N / 2 : ℕ) : ℝ)) * step + (if N % 2 = 0 ∧ c = .interpixel then 0.5 * step else 0) := by
  unfold createAxis
  simp only [ceil_half, ceil_neg_half]
  have e : (((N : ℤ) + 1) / 2 - -((N : ℤ) / 2)).toNat = N := by omega
  have e2 : ((-((N:ℤ)/2) : ℤ) : ℝ) = - ((N / 2 : ℕ) : ℝ) := by push_cast; rfl
  rw [e, e2]
  by_cases h : N % 2 = 0 ∧ c = .interpixel
  · simp only [h, decide_true, and_self, if_true, List.map_map]
    apply List.map_congr_left; intro k _; simp only [Function.comp]; ring
  · rw [if_neg (by simpa using h), if_neg h]
    apply List.map_congr_left; intro k _; ring

end Verif.Util
