import Verif.Model.HexWave
import Verif.Props.HexMap
import Verif.Props.Polygon2
import Verif.Props.FieldOps

/-!
# C126: segmented hexagonal apertures (prop_hex_wavefront)

Specification: cells `(a, b)` of the hexagonal lattice; cell `(a, b)` has its centre at `hexsep · (√3/2 · a, a/2 + b)`, and lies within `N` rings when `|a|`, `|b|`, `|a + b| ≤ N`.
-/

namespace Verif.HexWave
open Verif Verif.Proper

/-- The centre of a cell. -/
noncomputable def cellPos (hexsep : ℝ) (c : ℤ × ℤ) : ℝ × ℝ := (hexsep * (√3 / 2 * c.1), hexsep * (c.1 / 2 + c.2))

/-- Within `N` rings of the central cell. -/
def InRings (N : ℕ) (c : ℤ × ℤ) : Prop := |c.1| ≤ N ∧ |c.2| ≤ N ∧ |c.1 + c.2| ≤ N

/-- The cell of a segment. -/
def cell (N : ℕ) (q : Seg) : ℤ × ℤ := if q.first then (q.iring, q.iseg - N) else (-q.iring, q.iseg - N + q.iring)

theorem mem_segs {N : ℕ} {q : Seg} : q ∈ segs N ↔ q.iring ≤ N ∧ q.iseg ≤ 2 * N - q.iring ∧ (q.first = true ∨ q.iring ≠ 0) := by
  obtain ⟨k, i, f⟩ := q
  unfold segs
  simp only [List.mem_flatMap, List.mem_range, List.mem_cons, Seg.mk.injEq]
  constructor
  · rintro ⟨k', hk, i', hi, h | h⟩
    · obtain ⟨rfl, rfl, rfl⟩ := h
      exact ⟨by omega, by omega, .inl rfl⟩
    · split_ifs at h with h0
      · simp only [List.mem_singleton, Seg.mk.injEq] at h
        obtain ⟨rfl, rfl, rfl⟩ := h
        exact ⟨by omega, by omega, .inr h0⟩
      · simp at h
  · rintro ⟨h1, h2, h3⟩
    refine ⟨k, by omega, i, by omega, ?_⟩
    cases f with
    | true => exact .inl ⟨rfl, rfl, rfl⟩
    | false =>
      right
      have : k ≠ 0 := by simpa using h3
      rw [if_pos this]
      simp

theorem segs_nodup (N : ℕ) : (segs N).Nodup := by
  unfold segs
  rw [List.nodup_flatMap]
  refine ⟨fun k _ => ?_, ?_⟩
  · rw [List.nodup_flatMap]
    refine ⟨fun i _ => ?_, ?_⟩
    · split_ifs <;> simp
    · refine List.Nodup.pairwise_of_forall_ne List.nodup_range ?_
      intro i _ j _ hij
      simp only [Function.onFun, List.disjoint_left]
      intro q h1 h2
      have e : ∀ i, q ∈ (⟨k, i, true⟩ : Seg) :: (if k ≠ 0 then [⟨k, i, false⟩] else []) → q.iseg = i := by
        intro i h
        rcases List.mem_cons.mp h with rfl | h
        · rfl
        · split_ifs at h with h0
          · rw [List.mem_singleton] at h; rw [h]
          · simp at h
      exact hij ((e i h1).symm.trans (e j h2))
  · refine List.Nodup.pairwise_of_forall_ne List.nodup_range ?_
    intro k _ l _ hkl
    simp only [Function.onFun, List.disjoint_left]
    intro q h1 h2
    have e : ∀ k, (q ∈ (List.range (2 * N - k + 1)).flatMap fun i => (⟨k, i, true⟩ : Seg) :: (if k ≠ 0 then [⟨k, i, false⟩] else [])) → q.iring = k := by
      intro k h
      obtain ⟨i, _, h⟩ := List.mem_flatMap.mp h
      rcases List.mem_cons.mp h with rfl | h
      · rfl
      · split_ifs at h with h0
        · rw [List.mem_singleton] at h; rw [h]
        · simp at h
    exact hkl ((e k h1).symm.trans (e l h2))

theorem cell_inj {N : ℕ} {p q : Seg} (hp : p ∈ segs N) (hq : q ∈ segs N) (h : cell N p = cell N q) : p = q := by
  rw [mem_segs] at hp hq
  obtain ⟨k, i, f⟩ := p
  obtain ⟨l, j, g⟩ := q
  cases f <;> cases g <;> simp only [cell, Prod.mk.injEq, if_true, Bool.false_eq_true, if_false, false_or] at hp hq h <;> simp only [Seg.mk.injEq] <;>
    (try simp only [and_true]) <;> omega

theorem cell_mem {N : ℕ} (c : ℤ × ℤ) : (∃ q ∈ segs N, cell N q = c) ↔ InRings N c := by
  obtain ⟨a, b⟩ := c
  unfold InRings
  simp only [abs_le]
  constructor
  · rintro ⟨⟨k, i, f⟩, hq, h⟩
    rw [mem_segs] at hq
    cases f <;> simp only [cell, Prod.mk.injEq, if_true, Bool.false_eq_true, if_false] at hq h <;> omega
  · rintro ⟨h1, h2, h3⟩
    by_cases ha : 0 ≤ a
    · refine ⟨⟨a.toNat, (b + N).toNat, true⟩, mem_segs.mpr ⟨?_, ?_, .inl rfl⟩, ?_⟩
      · dsimp only; omega
      · dsimp only; omega
      · simp only [cell, if_true, Prod.mk.injEq]; omega
    · refine ⟨⟨(-a).toNat, (b + N + a).toNat, false⟩, mem_segs.mpr ⟨?_, ?_, .inr ?_⟩, ?_⟩
      · dsimp only; omega
      · dsimp only; omega
      · dsimp only; omega
      · simp only [cell, Bool.false_eq_true, if_false, Prod.mk.injEq]; omega

theorem segs_length (N : ℕ) : (segs N).length = 3 * N * (N + 1) + 1 := by
  have key : ∀ m, m ≤ N → ((List.range (m + 1)).flatMap fun k => (List.range (2 * N - k + 1)).flatMap fun i =>
      (⟨k, i, true⟩ : Seg) :: if k ≠ 0 then [⟨k, i, false⟩] else []).length + m * (m + 1) = 2 * N + 1 + 2 * m * (2 * N + 1) := by
    intro m
    induction m with
    | zero => intro _; simp [List.length_flatMap]
    | succ m ih =>
      intro hm
      rw [List.range_succ, List.flatMap_append, List.length_append]
      have h1 := ih (by omega)
      have h2 : (List.flatMap (fun k => (List.range (2 * N - k + 1)).flatMap fun i => (⟨k, i, true⟩ : Seg) :: if k ≠ 0 then [⟨k, i, false⟩] else []) [m + 1]).length = 2 * (2 * N - (m + 1) + 1) := by
        simp [List.length_flatMap]
        ring
      rw [h2]
      have h3 : 2 * N - (m + 1) + 1 + m = 2 * N := by omega
      generalize 2 * N - (m + 1) + 1 = w at *
      nlinarith
  have := key N le_rfl
  unfold segs
  nlinarith

theorem pos_cell (N : ℕ) (hexsep : ℝ) (q : Seg) : q.pos N hexsep = cellPos hexsep (cell N q) := by
  have hc : Real.cos (30 * Real.pi / 180) = √3 / 2 := by
    rw [show 30 * Real.pi / 180 = Real.pi / 6 by ring, Real.cos_pi_div_six]
  obtain ⟨k, i, f⟩ := q
  unfold Seg.pos cellPos cell
  rw [hc]
  cases f <;> simp only [if_true, Bool.false_eq_true, if_false, Prod.mk.injEq] <;> push_cast <;> constructor <;> ring

/-- C126: the segments: their cells are exactly the cells of the hexagonal lattice within `nrings` rings, each once; there are `3·nrings·(nrings+1)+1` of them, number `nrings` is the
central one, and each is placed at the centre of its cell, turned by ROTATION counter-clockwise and moved by XCENTER, YCENTER. -/
theorem C126_segments (N : ℕ) (hexsep ang xc yc : ℝ) :
    ((segs N).map (cell N)).Nodup ∧ (∀ c, c ∈ (segs N).map (cell N) ↔ InRings N c) ∧ (segs N).length = 3 * N * (N + 1) + 1 ∧
    ((segs N).map (cell N))[N]? = some (0, 0) ∧
    ∀ q, let p := cellPos hexsep (cell N q)
      q.centre N hexsep ang xc yc = (p.1 * Real.cos ang - p.2 * Real.sin ang + xc, p.1 * Real.sin ang + p.2 * Real.cos ang + yc) := by
  refine ⟨?_, ?_, segs_length N, ?_, ?_⟩
  · exact List.Nodup.map_on (fun p hp q hq h => cell_inj hp hq h) (segs_nodup N)
  · intro c
    rw [List.mem_map]
    exact cell_mem c
  · rw [List.getElem?_map]
    have h : (segs N)[N]? = some ⟨0, N, true⟩ := by
      have e : segs N = ((List.range (2 * N + 1)).map fun i => (⟨0, i, true⟩ : Seg)) ++ (((List.range N).map (· + 1)).flatMap fun iring => (List.range (2 * N - iring + 1)).flatMap fun iseg =>
          ⟨iring, iseg, true⟩ :: if iring ≠ 0 then [⟨iring, iseg, false⟩] else []) := by
        unfold segs
        rw [List.range_succ_eq_map, List.flatMap_cons]
        congr 1
        simp [List.flatMap_singleton']
        rw [← List.map_eq_flatMap]
      rw [e, List.getElem?_append_left (by simp; omega), List.getElem?_map, List.getElem?_range (by omega)]
      rfl
    rw [h]
    simp [cell]
  · intro q
    simp only [Seg.centre, pos_cell]

/-- Distance of two points. -/
noncomputable def dist2 (p q : ℝ × ℝ) : ℝ := √((p.1 - q.1) ^ 2 + (p.2 - q.2) ^ 2)

theorem centre_dist (N : ℕ) (hexsep ang xc yc : ℝ) (p q : Seg) :
    (( p.centre N hexsep ang xc yc).1 - (q.centre N hexsep ang xc yc).1) ^ 2 + ((p.centre N hexsep ang xc yc).2 - (q.centre N hexsep ang xc yc).2) ^ 2 =
    hexsep ^ 2 * ((((cell N p).1 - (cell N q).1) ^ 2 + ((cell N p).1 - (cell N q).1) * ((cell N p).2 - (cell N q).2) + ((cell N p).2 - (cell N q).2) ^ 2 : ℤ) : ℝ) := by
  simp only [Seg.centre, pos_cell, cellPos]
  have h3 : √3 ^ 2 = 3 := Real.sq_sqrt (by norm_num)
  have hs := Real.sin_sq_add_cos_sq ang
  push_cast
  generalize Real.sin ang = s at *
  generalize Real.cos ang = c at *
  generalize √3 = w at *
  generalize ((cell N p).1 : ℝ) = a1
  generalize ((cell N p).2 : ℝ) = b1
  generalize ((cell N q).1 : ℝ) = a2
  generalize ((cell N q).2 : ℝ) = b2
  have hc : c ^ 2 = 1 - s ^ 2 := by linarith
  linear_combination (hexsep ^ 2 * (w ^ 2 / 4 * (a1 - a2) ^ 2 + ((a1 - a2) / 2 + (b1 - b2)) ^ 2)) * hs + (hexsep ^ 2 * (a1 - a2) ^ 2 / 4) * h3

/-- C126: any two different segments are at least `hexsep` apart, centre to centre, whatever the rotation and offset; neighbours along the three lattice directions are exactly `hexsep` apart. -/
theorem C126_spacing (N : ℕ) (hexsep ang xc yc : ℝ) (h0 : 0 ≤ hexsep) (p q : Seg) (hp : p ∈ segs N) (hq : q ∈ segs N) (hne : p ≠ q) :
    hexsep ≤ dist2 (p.centre N hexsep ang xc yc) (q.centre N hexsep ang xc yc) ∧
    ((cell N p - cell N q ∈ ({(1, 0), (0, 1), (1, -1)} : Set (ℤ × ℤ))) → dist2 (p.centre N hexsep ang xc yc) (q.centre N hexsep ang xc yc) = hexsep) := by
  unfold dist2
  rw [centre_dist]
  have hd : cell N p ≠ cell N q := fun h => hne (cell_inj hp hq h)
  generalize cell N p = c at *
  generalize cell N q = d at *
  obtain ⟨a1, b1⟩ := c
  obtain ⟨a2, b2⟩ := d
  dsimp only
  constructor
  · apply Real.le_sqrt_of_sq_le
    have h1 : 1 ≤ (a1 - a2) ^ 2 + (a1 - a2) * (b1 - b2) + (b1 - b2) ^ 2 := by
      by_contra hc
      push Not at hc
      have h4 : (2 * (a1 - a2) + (b1 - b2)) ^ 2 + 3 * (b1 - b2) ^ 2 < 4 := by nlinarith
      have hb : b1 - b2 = 0 := by
        by_contra hb
        have : 1 ≤ (b1 - b2) ^ 2 := by have := sq_pos_iff.mpr hb; linarith
        have h5 : (2 * (a1 - a2) + (b1 - b2)) ^ 2 < 1 := by nlinarith
        have h6 : 2 * (a1 - a2) + (b1 - b2) = 0 := by nlinarith [sq_nonneg (2 * (a1 - a2) + (b1 - b2)), Int.emod_emod_of_dvd 1 (dvd_refl (2 : ℤ))]
        have h7 : (b1 - b2) ^ 2 < 2 := by nlinarith
        have : (b1 - b2) ^ 2 = 4 * (a1 - a2) ^ 2 := by
          have : b1 - b2 = -(2 * (a1 - a2)) := by omega
          rw [this]; ring
        omega
      rw [hb] at h4
      have : a1 - a2 = 0 := by nlinarith [sq_nonneg (a1 - a2 - 1), sq_nonneg (a1 - a2 + 1)]
      exact hd (by simp only [Prod.mk.injEq]; omega)
    have h2 : (1 : ℝ) ≤ (((a1 - a2) ^ 2 + (a1 - a2) * (b1 - b2) + (b1 - b2) ^ 2 : ℤ) : ℝ) := by exact_mod_cast h1
    nlinarith [sq_nonneg hexsep]
  · intro h
    have h1 : (a1 - a2) ^ 2 + (a1 - a2) * (b1 - b2) + (b1 - b2) ^ 2 = 1 := by
      simp only [Prod.mk_sub_mk, Set.mem_insert_iff, Set.mem_singleton_iff, Prod.mk.injEq] at h
      rcases h with ⟨e1, e2⟩ | ⟨e1, e2⟩ | ⟨e1, e2⟩ <;> rw [e1, e2] <;> norm_num
    rw [h1, Int.cast_one, mul_one, Real.sqrt_sq h0]

/-- C126, violated: the default call. Without OMIT (or with a number for it) the function raises TypeError, for every wavefront, number of rings and all other arguments. -/
theorem C126_default_violated {n : ℕ} [NeZero n] (mag : ℕ) (br : ℝ) (s : WF n) (a : Args) (h : a.omitted = .absent ∨ ∃ k, a.omitted = .number k) :
    hexWavefront mag br s a = .error .typeError := by
  have hn : ∀ k, notIn k a.omitted = .error .typeError := by
    intro k
    rcases h with h | ⟨z, h⟩ <;> rw [h] <;> rfl
  have hm : maps n mag s.dx br a = .error .typeError := by
    unfold maps
    have hne : segs a.nrings ≠ [] := by
      intro h
      have := congrArg List.length h
      rw [segs_length] at this
      simp at this
    obtain ⟨q, l, e⟩ := List.exists_cons_of_ne_nil hne
    rw [e, List.zipIdx_cons, List.foldlM_cons]
    have : segment mag s.dx br a (n := n) ⟨fun _ _ => 0, fun _ _ => 0⟩ (q, 0) = .error .typeError := by
      unfold segment
      rw [hn]
      rfl
    rw [this]
    rfl
  unfold hexWavefront
  rw [hm]
  rfl

end Verif.HexWave
