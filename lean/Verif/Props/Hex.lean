import Verif.Model.Hlc
import Mathlib.Data.Real.Sqrt
import Mathlib.Tactic.Linarith
import Mathlib.Tactic.Ring
import Mathlib.Tactic.NormNum
import Mathlib.Tactic.IntervalCases

/-! # C53 segmented mirrors -/

namespace Verif.Hlc
open Verif

/-! ## Specification -/

/-- The point `a·e1 + b·e2` of the hexagonal lattice with spacing `s`: `e1` along rows, `e2` at 60 degrees to it; as (row, column). -/
noncomputable def hexPoint (s : ℝ) (p : ℤ × ℤ) : ℝ × ℝ := (s * (p.1 + p.2 / 2), s * (p.2 * (Real.sqrt 3 / 2)))

/-- `p` lies within `n` rings of the centre: the hexagonal norm of `p` is at most `n`. -/
def InRings (n : ℕ) (p : ℤ × ℤ) : Prop := |p.1| ≤ n ∧ |p.2| ≤ n ∧ |p.1 + p.2| ≤ n

/-! ## Lemmas: the walk in lattice coordinates -/

/-- The direction of each face. -/
def dir : ℕ → ℤ × ℤ
  | 1 => (0, -1)
  | 2 => (-1, 0)
  | 3 => (-1, 1)
  | 4 => (0, 1)
  | 5 => (1, 0)
  | _ => (1, -1)

theorem step_dir (s : ℝ) (face : ℕ) (h1 : 1 ≤ face) (h6 : face ≤ 6) : step s face = hexPoint s (dir face) := by
  unfold step hexPoint
  interval_cases face
  · have e : Real.pi / 6 * (2 * ((1 : ℕ) : ℝ) + 5) = Real.pi / 6 + Real.pi := by push_cast; ring
    rw [e, Real.sin_add_pi, Real.cos_add_pi, Real.sin_pi_div_six, Real.cos_pi_div_six]; simp [dir]; ring
  · have e : Real.pi / 6 * (2 * ((2 : ℕ) : ℝ) + 5) = Real.pi / 2 + Real.pi := by push_cast; ring
    rw [e, Real.sin_add_pi, Real.cos_add_pi, Real.sin_pi_div_two, Real.cos_pi_div_two]; simp [dir]
  · have e : Real.pi / 6 * (2 * ((3 : ℕ) : ℝ) + 5) = -(Real.pi / 6) + 2 * Real.pi := by push_cast; ring
    rw [e, Real.sin_add_two_pi, Real.cos_add_two_pi, Real.sin_neg, Real.cos_neg, Real.sin_pi_div_six, Real.cos_pi_div_six]; simp [dir]; ring
  · have e : Real.pi / 6 * (2 * ((4 : ℕ) : ℝ) + 5) = Real.pi / 6 + 2 * Real.pi := by push_cast; ring
    rw [e, Real.sin_add_two_pi, Real.cos_add_two_pi, Real.sin_pi_div_six, Real.cos_pi_div_six]; simp [dir]
  · have e : Real.pi / 6 * (2 * ((5 : ℕ) : ℝ) + 5) = Real.pi / 2 + 2 * Real.pi := by push_cast; ring
    rw [e, Real.sin_add_two_pi, Real.cos_add_two_pi, Real.sin_pi_div_two, Real.cos_pi_div_two]; simp [dir]
  · have e : Real.pi / 6 * (2 * ((6 : ℕ) : ℝ) + 5) = (Real.pi - Real.pi / 6) + 2 * Real.pi := by push_cast; ring
    rw [e, Real.sin_add_two_pi, Real.cos_add_two_pi, Real.sin_pi_sub, Real.cos_pi_sub, Real.sin_pi_div_six, Real.cos_pi_div_six]; simp [dir]; left; ring

theorem hexPoint_add (s : ℝ) (p q : ℤ × ℤ) : ((hexPoint s p).1 + (hexPoint s q).1, (hexPoint s p).2 + (hexPoint s q).2) = hexPoint s (p + q) := by
  unfold hexPoint
  simp only [Prod.fst_add, Prod.snd_add, Int.cast_add, Prod.mk.injEq]
  constructor <;> ring

theorem hexPoint_injective (s : ℝ) (hs : s ≠ 0) : Function.Injective (hexPoint s) := by
  rintro ⟨a, b⟩ ⟨c, d⟩ h
  simp only [hexPoint, Prod.mk.injEq] at h
  have h3 : Real.sqrt 3 / 2 ≠ 0 := by positivity
  have hb : (b : ℝ) = d := mul_right_cancel₀ h3 (mul_left_cancel₀ hs h.2)
  have ha : (a : ℝ) + b / 2 = c + d / 2 := mul_left_cancel₀ hs h.1
  have : (a : ℝ) = c := by rw [hb] at ha; linarith
  rw [Prod.mk.injEq]
  exact ⟨by exact_mod_cast this, by exact_mod_cast hb⟩

theorem faceLoop_eq (s : ℝ) (face r : ℕ) (h1 : 1 ≤ face) (h6 : face ≤ 6) : ∀ (left stepnum : ℕ) (p : ℤ × ℤ), stepnum + left = r + 1 →
    faceLoop s face r left stepnum (hexPoint s p) = (hexPoint s (p + (left : ℤ) • dir face),
      (List.range (if face = 6 then left - 1 else left)).map fun (k : ℕ) => hexPoint s (p + ((k : ℤ) + 1) • dir face))
  | 0, stepnum, p, h => by simp [faceLoop]
  | left + 1, stepnum, p, h => by
    rw [faceLoop, step_dir s face h1 h6, hexPoint_add]
    dsimp only
    rw [faceLoop_eq s face r h1 h6 left (stepnum + 1) _ (by omega)]
    dsimp only
    have e1 : p + dir face + (left : ℤ) • dir face = p + ((left + 1 : ℕ) : ℤ) • dir face := by
      push_cast; rw [add_smul, one_smul]; abel
    have e2 : ∀ k : ℕ, p + dir face + ((k : ℤ) + 1) • dir face = p + (((k + 1 : ℕ) : ℤ) + 1) • dir face := by
      intro k; push_cast; rw [add_smul ((k : ℤ) + 1), one_smul]; abel
    rw [e1]
    simp only [e2]
    congr 1
    by_cases hl : left = 0
    · subst hl
      by_cases hf : face = 6
      · rw [if_pos ⟨hf, by omega⟩, if_pos hf, if_pos hf]; rfl
      · rw [if_neg (fun h => hf h.1), if_neg hf, if_neg hf]; simp
    · rw [if_neg (fun h => by omega)]
      obtain ⟨m, hm⟩ : ∃ m, (if face = 6 then left - 1 else left) = m := ⟨_, rfl⟩
      rw [hm, show (if face = 6 then left + 1 - 1 else left + 1) = m + 1 by split_ifs at hm ⊢ <;> omega, List.range_succ_eq_map, List.map_cons, List.map_map]
      congr 1
      simp

/-- The points of ring `r` in the order visited. -/
def ringPts (r : ℕ) : List (ℤ × ℤ) :=
  ((r : ℤ), (0 : ℤ)) ::
    ((List.range r).map (fun (k : ℕ) => ((r : ℤ), -((k : ℤ) + 1))) ++ ((List.range r).map (fun (k : ℕ) => ((r : ℤ) - ((k : ℤ) + 1), -(r : ℤ))) ++
    ((List.range r).map (fun (k : ℕ) => (-((k : ℤ) + 1), -(r : ℤ) + ((k : ℤ) + 1))) ++ ((List.range r).map (fun (k : ℕ) => (-(r : ℤ), ((k : ℤ) + 1))) ++
    ((List.range r).map (fun (k : ℕ) => (-(r : ℤ) + ((k : ℤ) + 1), (r : ℤ))) ++ (List.range (r - 1)).map (fun (k : ℕ) => (((k : ℤ) + 1), (r : ℤ) - ((k : ℤ) + 1))))))))

theorem ring_eq (s : ℝ) (r : ℕ) : ((r : ℝ) * s, (0 : ℝ)) :: facesLoop s r 6 1 ((r : ℝ) * s, 0) = (ringPts r).map (hexPoint s) := by
  have h0 : ((r : ℝ) * s, (0 : ℝ)) = hexPoint s ((r : ℤ), 0) := by simp [hexPoint]; ring
  rw [h0]
  simp only [facesLoop]
  rw [faceLoop_eq s 1 r (by norm_num) (by norm_num) r 1 _ (by omega)]
  dsimp only
  rw [faceLoop_eq s 2 r (by norm_num) (by norm_num) r 1 _ (by omega)]
  dsimp only
  rw [faceLoop_eq s 3 r (by norm_num) (by norm_num) r 1 _ (by omega)]
  dsimp only
  rw [faceLoop_eq s 4 r (by norm_num) (by norm_num) r 1 _ (by omega)]
  dsimp only
  rw [faceLoop_eq s 5 r (by norm_num) (by norm_num) r 1 _ (by omega)]
  dsimp only
  rw [faceLoop_eq s 6 r (by norm_num) (by norm_num) r 1 _ (by omega)]
  unfold ringPts
  simp only [List.map_cons, List.map_append, List.map_map, List.append_nil]
  simp only [dir]
  norm_num [Function.comp_def, Prod.smul_mk]
  have e : ∀ k : ℤ, (r : ℤ) + (-1 + -k) = r - (k + 1) := by intro k; ring
  simp only [e]

theorem visits_eq (s : ℝ) (n : ℕ) : visits s n = ((List.range (n + 1)).flatMap ringPts).map (hexPoint s) := by
  unfold visits
  rw [List.map_flatMap]
  congr 1
  funext r
  exact ring_eq s r

theorem mem_ringPts (r : ℕ) (a b : ℤ) : (a, b) ∈ ringPts r ↔ (-(r : ℤ) ≤ a ∧ a ≤ r ∧ -(r : ℤ) ≤ b ∧ b ≤ r ∧ -(r : ℤ) ≤ a + b ∧ a + b ≤ r) ∧
    (a = r ∨ a = -r ∨ b = r ∨ b = -r ∨ a + b = r ∨ a + b = -r) := by
  simp only [ringPts, List.mem_cons, List.mem_append, List.mem_map, List.mem_range, Prod.mk.injEq]
  constructor
  · rintro (⟨rfl, rfl⟩ | ⟨k, hk, h1, h2⟩ | ⟨k, hk, h1, h2⟩ | ⟨k, hk, h1, h2⟩ | ⟨k, hk, h1, h2⟩ | ⟨k, hk, h1, h2⟩ | ⟨k, hk, h1, h2⟩) <;> omega
  · rintro ⟨h, hc⟩
    by_cases h0 : a = r ∧ b = 0
    · exact Or.inl h0
    by_cases h1 : a = r ∧ b < 0
    · exact Or.inr (Or.inl ⟨(-b - 1).toNat, by omega, by omega, by omega⟩)
    by_cases h2 : b = -r ∧ 0 ≤ a
    · exact Or.inr (Or.inr (Or.inl ⟨((r : ℤ) - a - 1).toNat, by omega, by omega, by omega⟩))
    by_cases h3 : a + b = -r ∧ a < 0 ∧ b ≤ 0
    · exact Or.inr (Or.inr (Or.inr (Or.inl ⟨(-a - 1).toNat, by omega, by omega, by omega⟩)))
    by_cases h4 : a = -r ∧ 0 < b
    · exact Or.inr (Or.inr (Or.inr (Or.inr (Or.inl ⟨(b - 1).toNat, by omega, by omega, by omega⟩))))
    by_cases h5 : b = r ∧ a ≤ 0
    · exact Or.inr (Or.inr (Or.inr (Or.inr (Or.inr (Or.inl ⟨(a + r - 1).toNat, by omega, by omega, by omega⟩)))))
    · exact Or.inr (Or.inr (Or.inr (Or.inr (Or.inr (Or.inr ⟨(a - 1).toNat, by omega, by omega, by omega⟩)))))

theorem ringPts_length (r : ℕ) : (ringPts r).length = if r = 0 then 1 else 6 * r := by
  simp only [ringPts, List.length_cons, List.length_append, List.length_map, List.length_range]
  split_ifs <;> omega

theorem ringPts_nodup (r : ℕ) : (ringPts r).Nodup := by
  have inj : ∀ (m : ℕ) (f : ℕ → ℤ × ℤ), (∀ i j, f i = f j → i = j) → ((List.range m).map f).Nodup := fun m f hf => (List.nodup_range).map (fun i j h => hf i j h)
  unfold ringPts
  simp only [List.nodup_cons, List.nodup_append', List.disjoint_left]
  refine ⟨?_, inj _ _ ?_, ⟨inj _ _ ?_, ⟨inj _ _ ?_, ⟨inj _ _ ?_, ⟨inj _ _ ?_, inj _ _ ?_, ?_⟩, ?_⟩, ?_⟩, ?_⟩, ?_⟩
  case refine_1 =>
    simp only [List.mem_append, List.mem_map, List.mem_range, Prod.mk.injEq]
    rintro (⟨k, hk, h1, h2⟩ | ⟨k, hk, h1, h2⟩ | ⟨k, hk, h1, h2⟩ | ⟨k, hk, h1, h2⟩ | ⟨k, hk, h1, h2⟩ | ⟨k, hk, h1, h2⟩) <;> omega
  all_goals first
    | (intro i j h; simp only [Prod.mk.injEq] at h; omega)
    | (rintro ⟨a, b⟩
       simp only [List.mem_append, List.mem_map, List.mem_range, Prod.mk.injEq]
       rintro ⟨k, hk, h1, h2⟩
       simp only [not_or, not_exists, not_and]
       repeat' constructor
       all_goals (intro k' hk' h3 h4; omega))

theorem rings_nodup (n : ℕ) : ((List.range n).flatMap ringPts).Nodup := by
  rw [List.nodup_flatMap]
  refine ⟨fun r _ => ringPts_nodup r, ?_⟩
  refine (List.nodup_range (n := n)).imp ?_
  rintro r r' hne ⟨a, b⟩ h1 h2
  rw [mem_ringPts] at h1 h2
  omega

theorem mem_rings (n : ℕ) (a b : ℤ) : (a, b) ∈ (List.range (n + 1)).flatMap ringPts ↔ InRings n (a, b) := by
  simp only [List.mem_flatMap, List.mem_range, mem_ringPts, InRings, abs_le]
  constructor
  · rintro ⟨r, hr, h⟩; omega
  · intro h
    refine ⟨(max |a| (max |b| |a + b|)).toNat, ?_⟩
    rcases abs_cases a with ⟨e1, _⟩ | ⟨e1, _⟩ <;> rcases abs_cases b with ⟨e2, _⟩ | ⟨e2, _⟩ <;> rcases abs_cases (a + b) with ⟨e3, _⟩ | ⟨e3, _⟩ <;>
      rw [e1, e2, e3] <;> omega

theorem rings_length : ∀ n : ℕ, ((List.range (n + 1)).flatMap ringPts).length = 3 * n * (n + 1) + 1
  | 0 => by simp [ringPts]
  | n + 1 => by
    rw [List.range_succ, List.flatMap_append, List.length_append, rings_length n]
    simp only [List.flatMap_cons, List.flatMap_nil, List.append_nil, ringPts_length]
    rw [if_neg (by omega)]
    ring

theorem count_inner (face r : ℕ) : ∀ (m a n : ℕ), a + m = r + 1 →
    (List.range' a m).foldl (fun n stepnum => if face = 6 ∧ stepnum = r then n else n + 1) n = n + (if face = 6 then m - 1 else m)
  | 0, a, n, h => by simp
  | m + 1, a, n, h => by
    rw [List.range'_succ, List.foldl_cons, count_inner face r m (a + 1) _ (by omega)]
    split_ifs <;> omega

theorem countSegments_eq (n : ℕ) : countSegments n = 3 * n * (n + 1) + 1 := by
  have hr : ∀ r m, (List.range' 1 6).foldl (fun n face => (List.range' 1 r).foldl (fun n stepnum => if face = 6 ∧ stepnum = r then n else n + 1) n) m
      = m + 5 * r + (r - 1) := by
    intro r m
    have : (List.range' 1 6) = [1, 2, 3, 4, 5, 6] := rfl
    rw [this]
    simp only [List.foldl_cons, List.foldl_nil, count_inner _ r r 1 _ (by omega)]
    norm_num
    omega
  unfold countSegments
  simp only [hr]
  induction n with
  | zero => rfl
  | succ n ih =>
    rw [List.range_succ, List.foldl_append, ih]
    simp only [List.foldl_cons, List.foldl_nil, Nat.add_sub_cancel]
    ring

/-! ## Properties -/

/-- C53: for every number of rings `n`, `count_segments(n) = 3n(n+1)+1`, both drawing functions visit exactly that many segments, and (for a non-zero
spacing) the segments visited are the points of the hexagonal lattice within `n` rings, each exactly once. -/
theorem C53_segments (s : ℝ) (n : ℕ) :
    countSegments n = 3 * n * (n + 1) + 1 ∧ (visits s n).length = countSegments n ∧
    (∀ c, c ∈ visits s n ↔ ∃ p, InRings n p ∧ c = hexPoint s p) ∧ (s ≠ 0 → (visits s n).Nodup) := by
  refine ⟨countSegments_eq n, ?_, fun c => ?_, fun hs => ?_⟩
  · rw [countSegments_eq, visits_eq, List.length_map, rings_length]
  · rw [visits_eq, List.mem_map]
    constructor
    · rintro ⟨⟨a, b⟩, h, rfl⟩; exact ⟨(a, b), (mem_rings n a b).1 h, rfl⟩
    · rintro ⟨⟨a, b⟩, h, rfl⟩; exact ⟨(a, b), (mem_rings n a b).2 h, rfl⟩
  · rw [visits_eq]
    exact (rings_nodup (n + 1)).map (hexPoint_injective s hs)

theorem drawn_ok (w : ℕ) (missing : List ℕ) : ∀ (cs : List (ℝ × ℝ)) (k : ℕ), k + cs.length ≤ missing.length →
    drawn w missing k cs = .ok ((cs.zip (missing.drop k)).filterMap fun p => if p.2 = w then some p.1 else none)
  | [], k, _ => by simp [drawn]
  | c :: cs, k, h => by
    simp only [List.length_cons] at h
    have hk : k < missing.length := by omega
    rw [drawn, List.getElem?_eq_getElem hk]
    simp only [drawn_ok w missing cs (k + 1) (by omega), bind, Except.bind, pure, Except.pure]
    rw [List.drop_eq_getElem_cons hk, List.zip_cons_cons, List.filterMap_cons]
    split_ifs <;> rfl

theorem drawn_error (w : ℕ) (missing : List ℕ) : ∀ (cs : List (ℝ × ℝ)) (k : ℕ), k ≤ missing.length → missing.length < k + cs.length →
    drawn w missing k cs = .error .indexError
  | [], k, h0, h => by simp at h; omega
  | c :: cs, k, h0, h => by
    simp only [List.length_cons] at h
    rw [drawn]
    by_cases hk : k < missing.length
    · rw [List.getElem?_eq_getElem hk]
      simp only [drawn_error w missing cs (k + 1) (by omega) (by omega), bind, Except.bind]
    · rw [List.getElem?_eq_none (by omega)]

/-- C53: `get_support` draws exactly the segments marked 1, in order, and raises an IndexError exactly if `missingSegments` is shorter than the number of
segments. By default all segments are drawn. -/
theorem C53_support (s : ℝ) (n : ℕ) (missing : List ℕ) :
    (countSegments n ≤ missing.length → support s n (some missing) = .ok (((visits s n).zip missing).filterMap fun p => if p.2 = 1 then some p.1 else none)) ∧
    (missing.length < countSegments n → support s n (some missing) = .error .indexError) ∧ support s n none = .ok (visits s n) := by
  have hl := (C53_segments s n).2.1
  refine ⟨fun h => ?_, fun h => ?_, ?_⟩
  · exact (drawn_ok 1 missing (visits s n) 0 (by omega)).trans (by simp)
  · exact drawn_error 1 missing (visits s n) 0 (by omega) (by omega)
  · unfold support
    rw [Option.getD_none, drawn_ok _ _ _ _ (by simp [hl])]
    congr 1
    rw [List.drop_zero, ← hl]
    induction visits s n with
    | nil => rfl
    | cons c cs ih => rw [List.length_cons, List.replicate_succ, List.zip_cons_cons, List.filterMap_cons]; simpa using ih

/-- C53: `get_field` draws exactly the segments that `get_support` leaves out: those marked 0. In particular by default it draws no segment at all. -/
theorem C53_field_violated (s : ℝ) (n : ℕ) (missing : List ℕ) (h : countSegments n ≤ missing.length) :
    field s n (some missing) = .ok (((visits s n).zip missing).filterMap fun p => if p.2 = 0 then some p.1 else none) ∧ field s n none = .ok [] := by
  have hl := (C53_segments s n).2.1
  refine ⟨(drawn_ok 0 missing (visits s n) 0 (by omega)).trans (by simp), ?_⟩
  unfold field
  rw [Option.getD_none, drawn_ok _ _ _ _ (by simp [hl])]
  congr 1
  rw [List.filterMap_eq_nil_iff]
  rintro ⟨c, m⟩ hm
  have := (List.of_mem_zip hm).2
  rw [List.drop_zero] at this
  have := List.eq_of_mem_replicate this
  simp [this]

/-- Two rings have 19 segments; with the first six missing. -/
example : countSegments 2 = 19 ∧ countSegments 2 ≤ (List.replicate 6 0 ++ List.replicate 13 1).length := by decide

end Verif.Hlc
