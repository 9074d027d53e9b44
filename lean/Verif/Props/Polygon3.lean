import Verif.Props.Polygon2

/-!
# Polygons that begin below the array: only the first row of pixels can be wrong

The scan of `prop_irregular_polygon` moves on by at most one corner per sub-row on each side, so a polygon of which many corners lie below the array is drawn too wide in the first
sub-rows.  It has caught up after as many sub-rows as there are corners.
-/

namespace Verif.Polygon
open Verif MeasureTheory Verif.Shape

section late
variable {p : Poly} (hc : Clockwise p.nv p.x p.y) {mag n : ℕ} (hm : 0 < mag) (hs : Slow p.nv p.x p.y mag)

/-- The corners on a side are all different, so there are fewer edges up to the top than corners. -/
theorem Chain.short {σ : ℕ → ℕ} {i0 a : ℕ} (C : Chain p σ i0 a) : a ≤ p.nv := by
  -- the heights of the corners `i0, …, a` increase strictly
  have hmono : ∀ i k, i0 ≤ i → i < k → k ≤ a → p.y (σ^[i] p.lowest) < p.y (σ^[k] p.lowest) := by
    intro i k h0 hik hka
    induction k with
    | zero => omega
    | succ k ih =>
      have h1 := C.rise k (by omega) (by omega)
      rcases Nat.lt_succ_iff_lt_or_eq.mp hik with h | h
      · exact lt_trans (ih h (by omega)) h1
      · rw [h]; exact h1
  have hinj : Set.InjOn (fun i => σ^[i] p.lowest) (Finset.Icc i0 a : Set ℕ) := by
    intro i hi k hk e
    simp only [Finset.coe_Icc, Set.mem_Icc] at hi hk
    by_contra hne
    rcases Nat.lt_or_gt_of_ne hne with h | h
    · have := hmono i k hi.1 h hk.2
      simp only at e
      rw [e] at this; exact lt_irrefl _ this
    · have := hmono k i hk.1 h hi.2
      simp only at e
      rw [e] at this; exact lt_irrefl _ this
  have hcard := Finset.card_le_card_of_injOn (s := Finset.Icc i0 a) (t := Finset.range p.nv) (fun i => σ^[i] p.lowest) (by
    intro i _
    exact Finset.mem_coe.mpr (Finset.mem_range.mpr (C.mem i))) hinj
  rw [Nat.card_Icc, Finset.card_range] at hcard
  have := C.i0_le
  omega

/-- The position on a side before sub-row `T` (the first sub-rows are those of row 0): right for the height of the sub-row before, or still `T` corners after the start, with the next
corner below that height. -/
def Late (p : Poly) (σ : ℕ → ℕ) (mag i0 a T i : ℕ) : Prop :=
  Chain.At p σ i0 a i (subY mag p.lo (T - 1)) ∨ (i = T ∧ i < a ∧ p.y (σ^[i + 1] p.lowest) < subY mag p.lo (T - 1))

/-- Left of the figure: any rising edge of the left side. -/
theorem left_of {y : ℝ} (hc : Clockwise p.nv p.x p.y) {a i : ℕ} (C : Chain p p.next 0 a) (hi : i < a) :
    ∀ x, (x, y) ∈ hull p.nv p.x p.y → p.edgeX (p.next^[i] p.lowest) (p.next (p.next^[i] p.lowest)) y ≤ x := by
  have hr := C.rise i (by omega) hi
  rw [Function.iterate_succ_apply'] at hr
  intro x hx
  have hs := hull_side hc hx (C.mem i)
  have hd : 0 < p.y (p.next (p.next^[i] p.lowest)) - p.y (p.next^[i] p.lowest) := by linarith
  unfold Poly.edgeX
  dsimp only
  rw [if_pos hd.ne']
  generalize p.next^[i] p.lowest = k at *
  rw [div_mul_eq_mul_div, ← le_sub_iff_add_le, div_le_iff₀ hd]
  linarith

/-- Right of the figure: any rising edge of the right side. -/
theorem right_of {y : ℝ} (hc : Clockwise p.nv p.x p.y) {i0 b i : ℕ} (C : Chain p p.prev i0 b) (h0 : i0 ≤ i) (hi : i < b) :
    ∀ x, (x, y) ∈ hull p.nv p.x p.y → x ≤ p.edgeX (p.prev^[i] p.lowest) (p.prev (p.prev^[i] p.lowest)) y := by
  have hr := C.rise i h0 hi
  rw [Function.iterate_succ_apply'] at hr
  intro x hx
  have hs := hull_side hc hx (prev_lt p (C.mem i))
  rw [next_prev p (C.mem i)] at hs
  have hd : 0 < p.y (p.prev (p.prev^[i] p.lowest)) - p.y (p.prev^[i] p.lowest) := by linarith
  unfold Poly.edgeX
  dsimp only
  rw [if_pos hd.ne']
  generalize p.prev^[i] p.lowest = k at *
  rw [div_mul_eq_mul_div, ← sub_le_iff_le_add, le_div_iff₀ hd]
  linarith

open Classical in
/-- One sub-row later, on either side. -/
theorem Late.step {σ : ℕ → ℕ} {i0 a : ℕ} (hc : Clockwise p.nv p.x p.y) (hm : 0 < mag) (hs : Slow p.nv p.x p.y mag) (C : Chain p σ i0 a)
    (hadj : ∀ k < p.nv, σ k = (k + 1) % p.nv ∨ k = (σ k + 1) % p.nv) {T i : ℕ} (hT : 1 ≤ T) (h : Late p σ mag i0 a T i) (htop : subY mag p.lo T ≤ p.ymax) :
    Late p σ mag i0 a (T + 1) (if subY mag p.lo T ≥ p.y (σ^[i + 1] p.lowest) then i + 1 else i) := by
  have hm' : (0 : ℝ) < mag := by exact_mod_cast hm
  have hp : (0 : ℝ) < 1 / mag := by positivity
  have hy := subY_succ hm p.lo (T - 1)
  rw [show T - 1 + 1 = T by omega] at hy
  unfold Late
  rw [show T + 1 - 1 = T by omega]
  rcases h with h | ⟨h1, h2, h3⟩
  · left
    exact Chain.step hc C hadj hs h (by linarith) hy.le htop
  · rw [if_pos (by linarith)]
    by_cases hlt : i + 1 < a
    · by_cases hb : p.y (σ^[i + 1 + 1] p.lowest) < subY mag p.lo T
      · right; exact ⟨by omega, hlt, hb⟩
      · left
        push Not at hb
        exact ⟨by have := C.i0_le; omega, by omega, by linarith, fun _ => hb⟩
    · left
      exact ⟨by have := C.i0_le; omega, by omega, by linarith, fun h => absurd h hlt⟩

/-- The figure has a point at every height between its lowest and its highest. -/
theorem hull_height_exists (hc : Clockwise p.nv p.x p.y) {y : ℝ} (h1 : p.ymin ≤ y) (h2 : y ≤ p.ymax) : ∃ x, (x, y) ∈ hull p.nv p.x p.y := by
  have h3 := hc.1
  obtain ⟨k, hk, ek⟩ := ymin_mem p (by omega)
  obtain ⟨l, hl, el⟩ := ymax_mem p (by omega)
  have hlt : p.ymin < p.ymax := by
    have := first_left p hc
    exact lt_of_lt_of_le this (le_ymax p (next_lt p (lowest_spec p (by omega)).1))
  exact ⟨_, hull_edge hk hl (by rw [ek]; exact h1) (by rw [el]; exact h2) (by rw [ek, el]; exact hlt)⟩

/-- The corners before sub-row `T` of row 0. -/
def PosLate (p : Poly) (mag a i0 b T : ℕ) (s : Scan) : Prop :=
  (∃ i k, s.left = p.next^[i] p.lowest ∧ s.right = p.prev^[k] p.lowest ∧ Late p p.next mag 0 a T i ∧ Late p p.prev mag i0 b T k) ∨ p.ymax < subY mag p.lo (T - 1)

open Classical in
/-- A sub-row that is drawn from positions that may be late writes to its own row only, and raises nothing. -/
theorem late_draw (hc : Clockwise p.nv p.x p.y) (hmeet : Meets (hull p.nv p.x p.y) n) {a i0 b : ℕ} (C : Chain p p.next 0 a) (C' : Chain p p.prev i0 b) {T : ℕ} (img : ℤ → ℤ → ℝ) (yp : ℤ)
    (hmin : p.ymin ≤ subY mag p.lo T) (hmax : subY mag p.lo T ≤ p.ymax) (hy0 : -1 / 2 ≤ subY mag p.lo T) (hyn : subY mag p.lo T < n - 1 / 2) {il ir : ℕ}
    (hl : Late p p.next mag 0 a (T + 1) il) (hr : Late p p.prev mag i0 b (T + 1) ir) :
    ∃ out, addRow n mag img yp (p.edgeX (p.next^[il] p.lowest) (p.next (p.next^[il] p.lowest)) (subY mag p.lo T))
      (p.edgeX (p.prev^[ir] p.lowest) (p.prev (p.prev^[ir] p.lowest)) (subY mag p.lo T)) = .ok out ∧ ∀ i j : ℤ, 0 ≤ j → j < n → i ≠ yp → out i j = img i j := by
  obtain ⟨x0, hx0⟩ := hull_height_exists hc hmin hmax
  obtain ⟨x, hx, hxl, hxr⟩ := hmeet x0 _ hx0 hy0 hyn
  have e1 : p.edgeX (p.next^[il] p.lowest) (p.next (p.next^[il] p.lowest)) (subY mag p.lo T) ≤ x := by
    rcases hl with h | ⟨-, h, -⟩
    · exact (left_section hc C hmax h).2 x hx
    · exact left_of hc C h x hx
  have e2 : x ≤ p.edgeX (p.prev^[ir] p.lowest) (p.prev (p.prev^[ir] p.lowest)) (subY mag p.lo T) := by
    rcases hr with h | ⟨h0, h, -⟩
    · exact (right_section hc C' hmax h).2 x hx
    · exact right_of hc C' (by have := C'.i0_le; omega) h x hx
  obtain ⟨out, eo, ho⟩ := addRow_spec n mag img yp _ _ (e1.trans e2) (npRound_ge (hxl.trans e2)) (npRound_lt (lt_of_le_of_lt e1 hxr))
  refine ⟨out, eo, fun i j hj0 hjn hi => ?_⟩
  rw [ho i j hj0 hjn, if_neg hi, add_zero]

open Classical in
/-- The first sub-row of a polygon that begins below the array. -/
theorem Late.start {σ : ℕ → ℕ} {i0 a : ℕ} (C : Chain p σ i0 a) (h0 : p.ymin ≤ subY mag p.lo 0) :
    Late p σ mag i0 a 1 (if subY mag p.lo 0 ≥ p.y (σ^[0 + 1] p.lowest) then 0 + 1 else 0) := by
  have hi := C.i0_le
  have hia := C.i0_lt
  unfold Late
  rw [show 1 - 1 = 0 from rfl]
  split_ifs with hge
  · by_cases hlt : 0 + 1 < a
    · by_cases hb : p.y (σ^[0 + 1 + 1] p.lowest) < subY mag p.lo 0
      · right; exact ⟨rfl, hlt, hb⟩
      · left; push Not at hb; exact ⟨by omega, by omega, hge, fun _ => hb⟩
    · left; exact ⟨by omega, by omega, hge, fun h => absurd h hlt⟩
  · left
    push Not at hge
    refine ⟨?_, by omega, ?_, fun _ => hge.le⟩
    · by_contra hcon
      have := C.low 1 (by omega)
      rw [show 0 + 1 = 1 from rfl, this] at hge
      linarith
    · rw [C.low 0 (by omega)]; exact h0

open Classical in
/-- The sub-rows of row 0. -/
theorem late_fold (hc : Clockwise p.nv p.x p.y) (hm : 0 < mag) (hs : Slow p.nv p.x p.y mag) (hmeet : Meets (hull p.nv p.x p.y) n) (hn : 0 < n) (hneg : p.ymin < -1 / 2)
    {a i0 b : ℕ} (C : Chain p p.next 0 a) (C' : Chain p p.prev i0 b) (T : ℕ) (hT : T < mag) :
    ∃ s, ((List.range (T + 1)).map fun t => (p.lo + ((t / mag : ℕ) : ℤ), t % mag)).foldlM (p.scan n mag) ⟨p.lowest, p.lowest, fun _ _ => 0⟩ = .ok s ∧
      PosLate p mag a i0 b (T + 1) s ∧ ∀ i j : ℤ, 0 ≤ j → j < n → i ≠ 0 → s.img i j = 0 := by
  have h3 := hc.1
  have hm' : (0 : ℝ) < mag := by exact_mod_cast hm
  obtain ⟨hL, hLy, -⟩ := lowest_spec p (by omega)
  have hlo : p.lo = 0 := by
    unfold Poly.lo
    split_ifs with h
    · rfl
    · push Not at h
      have := Dm.npRound_bounds p.ymin
      have h' : (0 : ℝ) ≤ Dm.npRound p.ymin := by exact_mod_cast h
      linarith [this.1, this.2]
  have hy : ∀ t < mag, -1 / 2 ≤ subY mag p.lo t ∧ subY mag p.lo t < (n : ℝ) - 1 / 2 := by
    intro t ht
    unfold subY
    rw [hlo]
    have h1 : (0 : ℝ) ≤ (1 / 2 + t) / mag := by positivity
    have h2 : (1 / 2 + (t : ℝ)) / mag < 1 := by
      rw [div_lt_one hm']
      have : (t : ℝ) + 1 ≤ mag := by exact_mod_cast ht
      linarith
    have h4 : (1 : ℝ) ≤ n := by exact_mod_cast hn
    push_cast
    constructor <;> linarith
  have hq : ∀ t < mag, (p.lo + ((t / mag : ℕ) : ℤ)) = 0 := by
    intro t ht; rw [Nat.div_eq_of_lt ht, hlo]; rfl
  have hYt : ∀ t, rowY mag (p.lo + ((t / mag : ℕ) : ℤ), t % mag) = subY mag p.lo t := fun t => rowY_at mag hm p.lo t
  induction T with
  | zero =>
    obtain ⟨y0, yn⟩ := hy 0 hm
    have hmin : p.ymin ≤ subY mag p.lo 0 := by linarith
    simp only [zero_add, List.range_one, List.map_cons, List.map_nil, List.foldlM_cons, List.foldlM_nil]
    unfold Poly.scan
    rw [hYt 0]
    dsimp only
    rw [hLy, if_neg (not_lt.mpr hmin)]
    by_cases htop : subY mag p.lo 0 > p.ymax
    · rw [if_pos htop]
      exact ⟨_, rfl, .inr htop, fun _ _ _ _ _ => rfl⟩
    · rw [if_neg htop, if_neg (by have := hq 0 hm; omega)]
      push Not at htop
      have hl := Late.start C hmin
      have hr := Late.start C' hmin
      have el : (if subY mag p.lo 0 ≥ p.y (p.next p.lowest) then p.next p.lowest else p.lowest) =
          p.next^[if subY mag p.lo 0 ≥ p.y (p.next^[0 + 1] p.lowest) then 0 + 1 else 0] p.lowest := by
        show (if subY mag p.lo 0 ≥ p.y (p.next p.lowest) then p.next p.lowest else p.lowest) =
          p.next^[if subY mag p.lo 0 ≥ p.y (p.next p.lowest) then 0 + 1 else 0] p.lowest
        split_ifs <;> rfl
      have er : (if subY mag p.lo 0 ≥ p.y (p.prev p.lowest) then p.prev p.lowest else p.lowest) =
          p.prev^[if subY mag p.lo 0 ≥ p.y (p.prev^[0 + 1] p.lowest) then 0 + 1 else 0] p.lowest := by
        show (if subY mag p.lo 0 ≥ p.y (p.prev p.lowest) then p.prev p.lowest else p.lowest) =
          p.prev^[if subY mag p.lo 0 ≥ p.y (p.prev p.lowest) then 0 + 1 else 0] p.lowest
        split_ifs <;> rfl
      rw [el, er]
      obtain ⟨out, eo, ho⟩ := late_draw hc hmeet C C' (T := 0) (fun _ _ => 0) (p.lo + ((0 / mag : ℕ) : ℤ)) hmin htop y0 yn hl hr
      rw [eo]
      refine ⟨_, rfl, .inl ⟨_, _, rfl, rfl, hl, hr⟩, fun i j hj0 hjn hi => ?_⟩
      exact ho i j hj0 hjn (by rw [hq 0 hm]; exact hi)
  | succ T ih =>
    obtain ⟨s, e, hp, himg⟩ := ih (by omega)
    obtain ⟨y0, yn⟩ := hy (T + 1) hT
    have hmin : p.ymin ≤ subY mag p.lo (T + 1) := by linarith
    have hyT := subY_succ hm p.lo T
    have hpos1 : (0 : ℝ) < 1 / mag := by positivity
    have key : ∃ s', p.scan n mag s (p.lo + (((T + 1) / mag : ℕ) : ℤ), (T + 1) % mag) = .ok s' ∧ PosLate p mag a i0 b (T + 1 + 1) s' ∧
        ∀ i j : ℤ, 0 ≤ j → j < n → i ≠ 0 → s'.img i j = 0 := by
      unfold Poly.scan
      rw [hYt (T + 1)]
      dsimp only
      rcases hp with ⟨i, k, hl, hr, hil, hir⟩ | htop
      · have hleft : ¬ subY mag p.lo (T + 1) < p.y s.left := by
          rw [hl]
          rcases hil with h | ⟨-, h, h'⟩
          · have := h.2.2.1
            rw [show T + 1 - 1 = T by omega] at this
            linarith
          · have := C.rise i (by omega) h
            rw [show T + 1 - 1 = T by omega] at h'
            linarith
        rw [if_neg hleft]
        by_cases htop : subY mag p.lo (T + 1) > p.ymax
        · rw [if_pos htop]
          exact ⟨s, rfl, .inr htop, himg⟩
        · rw [if_neg htop, if_neg (by have := hq (T + 1) hT; omega)]
          push Not at htop
          have ha1 := Late.step hc hm hs C (fun k hk => Or.inl (next_eq p hk)) (by omega) hil htop
          have ha2 := Late.step hc hm hs C' (fun k hk => Or.inr (by rw [← next_eq p (prev_lt p hk), next_prev p hk])) (by omega) hir htop
          have el : (if subY mag p.lo (T + 1) ≥ p.y (p.next (p.next^[i] p.lowest)) then p.next (p.next^[i] p.lowest) else p.next^[i] p.lowest) =
              p.next^[if subY mag p.lo (T + 1) ≥ p.y (p.next^[i + 1] p.lowest) then i + 1 else i] p.lowest := by
            rw [← Function.iterate_succ_apply' p.next]
            split_ifs <;> rfl
          have er : (if subY mag p.lo (T + 1) ≥ p.y (p.prev (p.prev^[k] p.lowest)) then p.prev (p.prev^[k] p.lowest) else p.prev^[k] p.lowest) =
              p.prev^[if subY mag p.lo (T + 1) ≥ p.y (p.prev^[k + 1] p.lowest) then k + 1 else k] p.lowest := by
            rw [← Function.iterate_succ_apply' p.prev]
            split_ifs <;> rfl
          rw [hl, hr, el, er]
          obtain ⟨out, eo, ho⟩ := late_draw hc hmeet C C' (T := T + 1) s.img (p.lo + (((T + 1) / mag : ℕ) : ℤ)) hmin htop y0 yn ha1 ha2
          rw [eo]
          refine ⟨_, rfl, .inl ⟨_, _, rfl, rfl, ha1, ha2⟩, fun i j hj0 hjn hi => ?_⟩
          exact (ho i j hj0 hjn (by rw [hq (T + 1) hT]; exact hi)).trans (himg i j hj0 hjn hi)
      · rw [show T + 1 - 1 = T by omega] at htop
        have htop' : subY mag p.lo (T + 1) > p.ymax := by linarith
        rw [if_pos htop', ite_self]
        exact ⟨s, rfl, .inr htop', himg⟩
    obtain ⟨s', e', hp', himg'⟩ := key
    refine ⟨s', ?_, hp', himg'⟩
    rw [List.range_succ, List.map_append, List.foldlM_append, e]
    simp only [List.map_cons, List.map_nil, List.foldlM_cons, List.foldlM_nil, bind, Except.bind]
    rw [e']
    rfl

open Classical in
/-- **Late start.** A polygon of at most `mag` corners that begins below the array is drawn right in all rows but the first, however many of its corners lie below the array. -/
theorem draw_late (hc : Clockwise p.nv p.x p.y) (hm : 0 < mag) (hs : Slow p.nv p.x p.y mag) (hmeet : Meets (hull p.nv p.x p.y) n) (hneg : p.ymin < -1 / 2) (hnv : p.nv ≤ mag)
    {hi : ℤ} (hhi : hi ≤ n) (hcov : ∀ i : ℤ, i < n → i ≤ Dm.npRound p.ymax → i < hi) [NeZero n] (dark : Bool) :
    ∃ img, p.draw n mag hi dark = .ok img ∧ ∀ i j : ZMod n, i.val ≠ 0 → img i j =
      if dark then 1 - seenMean mag n (hull p.nv p.x p.y) j.val i.val else seenMean mag n (hull p.nv p.x p.y) j.val i.val := by
  have hn : 0 < n := Nat.pos_of_ne_zero (NeZero.ne n)
  have hm' : (0 : ℝ) < mag := by exact_mod_cast hm
  obtain ⟨a, C⟩ := left_chain p hc
  obtain ⟨i0, b, C'⟩ := right_chain p hc
  set E := seen n (hull p.nv p.x p.y) with hEdef
  have hE0 : ∀ y j, (∀ x, (x, y) ∉ hull p.nv p.x p.y) → E y j = 0 := fun y j h => seen_empty n _ y j h
  have hE : ∀ y xl xr : ℝ, -1 / 2 ≤ y → y < n - 1 / 2 → xl ≤ xr → (∀ x, (x, y) ∈ hull p.nv p.x p.y ↔ xl ≤ x ∧ x ≤ xr) → ∀ img (yp : ℤ),
      ∃ out, addRow n mag img yp xl xr = .ok out ∧ ∀ i j : ℤ, 0 ≤ j → j < n → out i j = img i j + if i = yp then mag * E y j else 0 := by
    intro y xl xr hy0 hyn hlr hsec img yp
    obtain ⟨x', hx', hx0, hxn⟩ := hmeet xl y ((hsec xl).mpr ⟨le_rfl, hlr⟩) hy0 hyn
    obtain ⟨b1, b2⟩ := (hsec x').mp hx'
    obtain ⟨out, e, hout⟩ := addRow_spec n mag img yp xl xr hlr (npRound_ge (le_trans hx0 b2)) (npRound_lt (lt_of_le_of_lt b1 hxn))
    refine ⟨out, e, fun i j hj0 hjn => ?_⟩
    rw [hout i j hj0 hjn, hEdef, seen_eq n _ _ xl xr j hsec hlr]
  have hlo : p.lo = 0 := by
    unfold Poly.lo
    split_ifs with h
    · rfl
    · push Not at h
      have := Dm.npRound_bounds p.ymin
      have h' : (0 : ℝ) ≤ Dm.npRound p.ymin := by exact_mod_cast h
      linarith [this.1, this.2]
  have hsub0 : p.ymin < subY mag p.lo 0 := by
    unfold subY
    rw [hlo]
    have : (0 : ℝ) ≤ (1 / 2 + ((0 : ℕ) : ℝ)) / mag := by positivity
    push_cast at this ⊢
    linarith
  have fold : ∃ s, (rows mag p.lo hi).foldlM (p.scan n mag) ⟨p.lowest, p.lowest, fun _ _ => 0⟩ = .ok s ∧
      ∀ i j : ℤ, 0 ≤ j → j < n → i ≠ 0 → s.img i j = ((rows mag p.lo hi).map fun q => if q.1 = i then mag * E (rowY mag q) j else 0).sum := by
    rw [rows_eq mag hm]
    rcases Nat.eq_zero_or_pos (hi - p.lo).toNat with hK | hK
    · rw [hK, Nat.zero_mul]; exact ⟨_, rfl, by simp⟩
    have key : ∀ T, mag ≤ T → T ≤ (hi - p.lo).toNat * mag → ∃ s,
        ((List.range T).map fun t => (p.lo + ((t / mag : ℕ) : ℤ), t % mag)).foldlM (p.scan n mag) ⟨p.lowest, p.lowest, fun _ _ => 0⟩ = .ok s ∧ Pos p mag a i0 b T s ∧
        ∀ i j : ℤ, 0 ≤ j → j < n → i ≠ 0 → s.img i j = (((List.range T).map fun t => (p.lo + ((t / mag : ℕ) : ℤ), t % mag)).map fun q =>
          if q.1 = i then mag * E (rowY mag q) j else 0).sum := by
      intro T hT1
      induction T, hT1 using Nat.le_induction with
      | base =>
        intro _
        obtain ⟨s, e, hp, himg⟩ := late_fold hc hm hs hmeet hn hneg C C' (mag - 1) (by omega)
        rw [show mag - 1 + 1 = mag by omega] at e hp
        refine ⟨s, e, ?_, fun i j hj0 hjn hi => ?_⟩
        · rcases hp with ⟨i, k, hl, hr, hil, hir⟩ | htop
          · refine .inr (.inl ⟨mag - 1, by omega, i, k, hl, hr, ?_, ?_⟩)
            · rcases hil with h | ⟨h1, h2, -⟩
              · exact h
              · have := C.short; omega
            · rcases hir with h | ⟨h1, h2, -⟩
              · exact h
              · have := C'.short; omega
          · exact .inr (.inr ⟨mag - 1, by omega, htop⟩)
        · rw [himg i j hj0 hjn hi]
          symm
          apply List.sum_eq_zero
          intro v hv
          simp only [List.map_map, List.mem_map, List.mem_range, Function.comp] at hv
          obtain ⟨t, ht, rfl⟩ := hv
          rw [if_neg]
          rw [Nat.div_eq_of_lt ht, hlo]
          simpa using hi.symm
      | succ T hT ih =>
        intro hT2
        obtain ⟨s, e, hp, himg⟩ := ih (by omega)
        obtain ⟨s', e', hp', himg'⟩ := scan_step hc hm hs E hE0 hE C C' T s hp (fun h => absurd (h 0 (by omega)) (not_lt.mpr hsub0.le)) (by
          intro hmin hmax
          have : T / mag < (hi - p.lo).toNat := Nat.div_lt_of_lt_mul (by rw [Nat.mul_comm]; omega)
          generalize T / mag = u at *
          omega)
        refine ⟨s', ?_, hp', fun i j hj0 hjn hi => ?_⟩
        · rw [List.range_succ, List.map_append, List.foldlM_append, e]
          simp only [List.map_cons, List.map_nil, List.foldlM_cons, List.foldlM_nil, bind, Except.bind]
          rw [e']
          rfl
        · rw [List.range_succ, List.map_append, List.map_append, List.sum_append, himg' i j hj0 hjn, himg i j hj0 hjn hi]
          congr 1
          simp only [List.map_cons, List.map_nil, List.sum_cons, List.sum_nil, add_zero]
          rw [rowY_at mag hm]
          rfl
    obtain ⟨s, e, -, h⟩ := key _ (Nat.le_mul_of_pos_left mag hK) le_rfl
    exact ⟨s, e, h⟩
  obtain ⟨s, e, h⟩ := fold
  unfold Poly.draw
  rw [e]
  refine ⟨_, rfl, fun i j hi0 => ?_⟩
  have key : s.img i.val j.val / (mag : ℝ) ^ 2 = seenMean mag n (hull p.nv p.x p.y) j.val i.val := by
    rw [h _ _ (by positivity) (by exact_mod_cast ZMod.val_lt j) (by exact_mod_cast hi0)]
    exact sum_rowMean p hm E hE0 hcov i j
  show (if dark then 1 - s.img i.val j.val / (mag : ℝ) ^ 2 else s.img i.val j.val / (mag : ℝ) ^ 2) = _
  rw [key]

end late

theorem ofVertices_convex (n : ℕ) (dx beamrad : ℝ) (norm : Bool) (nv : ℕ) (xv yv : ℕ → ℝ) (hdx : dx ≠ 0) (hr : beamrad ≠ 0) (h : StrictlyConvex nv xv yv) (mag : ℕ)
    (hs : Slow nv (fun k => toPixel n dx beamrad norm (xv k)) (fun k => toPixel n dx beamrad norm (yv k)) mag) :
    let p := ofVertices n dx beamrad norm nv xv yv
    Clockwise p.nv p.x p.y ∧ Slow p.nv p.x p.y mag ∧
      hull p.nv p.x p.y = hull nv (fun k => toPixel n dx beamrad norm (xv k)) (fun k => toPixel n dx beamrad norm (yv k)) := by
  intro p
  obtain ⟨hnv, hor⟩ := ofVertices_eq n dx beamrad norm nv xv yv
  have h3 : 3 ≤ nv := by rcases h with h | h <;> exact h.1
  have hcp : (xv 1 - xv 0) * (yv 2 - yv 1) - (yv 1 - yv 0) * (xv 2 - xv 1) = side nv xv yv 0 2 := by
    unfold side
    rw [Nat.mod_eq_of_lt (by omega : 0 + 1 < nv)]; ring
  have hne : (2 : ℕ) ≠ (0 + 1) % nv := by rw [Nat.mod_eq_of_lt (by omega)]; omega
  have hsc := toPixel_scale hdx hr norm
  rw [hcp] at hor
  rw [show p.nv = nv from hnv]
  rcases hor with ⟨hn, ex, ey⟩ | ⟨hp, ex, ey⟩
  · rw [show p.x = _ from ex, show p.y = _ from ey]
    refine ⟨?_, hs, rfl⟩
    rcases h with h | h
    · exact clockwise_affine _ _ hsc h
    · exact absurd (h.2 0 (by omega) 2 (by omega) (by omega) hne) hn
  · rw [show p.x = _ from ex, show p.y = _ from ey]
    refine ⟨?_, slow_rev hs, hull_rev (x := fun k => toPixel n dx beamrad norm (xv k)) (y := fun k => toPixel n dx beamrad norm (yv k))⟩
    rcases h with h | h
    · exact absurd (h.2 0 (by omega) 2 (by omega) (by omega) hne) (not_lt.mpr hp.le)
    · exact clockwise_affine (x := fun k => xv (nv - 1 - k)) (y := fun k => yv (nv - 1 - k)) _ _ hsc (clockwise_rev h3 h.2)

/-- **C115 (many corners below the array).** With at most `mag` vertices (11 unless changed) nothing need be assumed about how the polygon begins: every pixel outside the first row (and
the last column, unless the polygon ends within the array) is the mean over the strips as in `C115_irregular`, however many corners lie below the array. -/
theorem C115_late (n mag : ℕ) [NeZero n] (hm : 0 < mag) (dx beamrad : ℝ) (hdx : dx ≠ 0) (hr : beamrad ≠ 0) (norm dark : Bool) (nv : ℕ) (xv yv : ℕ → ℝ)
    (hconv : StrictlyConvex nv xv yv) (hnv : nv ≤ mag)
    (hs : Slow nv (fun k => toPixel n dx beamrad norm (xv k)) (fun k => toPixel n dx beamrad norm (yv k)) mag)
    (hmeet : Meets (hull nv (fun k => toPixel n dx beamrad norm (xv k)) (fun k => toPixel n dx beamrad norm (yv k))) n) :
    ∃ img, irregularPolygon n mag dx beamrad norm dark nv xv yv = .ok img ∧ ∀ i j : ZMod n, i.val ≠ 0 →
      (j.val + 1 ≠ n ∨ ∀ x y, (x, y) ∈ hull nv (fun k => toPixel n dx beamrad norm (xv k)) (fun k => toPixel n dx beamrad norm (yv k)) → x < n - 1 / 2) →
      img i j = if dark then 1 - stripMean mag (hull nv (fun k => toPixel n dx beamrad norm (xv k)) (fun k => toPixel n dx beamrad norm (yv k))) j.val i.val
        else stripMean mag (hull nv (fun k => toPixel n dx beamrad norm (xv k)) (fun k => toPixel n dx beamrad norm (yv k))) j.val i.val := by
  obtain ⟨g1, g2, g4⟩ := ofVertices_convex n dx beamrad norm nv xv yv hdx hr hconv mag hs
  obtain ⟨h1, h2⟩ := hiIrr_ok (ofVertices n dx beamrad norm nv xv yv) n
  have key : ∃ img, irregularPolygon n mag dx beamrad norm dark nv xv yv = .ok img ∧ ∀ i j : ZMod n, i.val ≠ 0 → img i j =
      if dark then 1 - seenMean mag n (hull (ofVertices n dx beamrad norm nv xv yv).nv (ofVertices n dx beamrad norm nv xv yv).x (ofVertices n dx beamrad norm nv xv yv).y) j.val i.val
      else seenMean mag n (hull (ofVertices n dx beamrad norm nv xv yv).nv (ofVertices n dx beamrad norm nv xv yv).x (ofVertices n dx beamrad norm nv xv yv).y) j.val i.val := by
    by_cases hneg : (ofVertices n dx beamrad norm nv xv yv).ymin < -1 / 2
    · exact draw_late g1 hm g2 (by rw [g4]; exact hmeet) hneg hnv h1 h2 dark
    · push Not at hneg
      obtain ⟨img, e, h⟩ := draw_spec g1 hm g2 (.inl fun k hk => hneg.trans (ymin_le _ hk)) (by rw [g4]; exact hmeet) (Or.inl h1) h2 dark
      exact ⟨img, e, fun i j _ => h i j⟩
  obtain ⟨img, e, h⟩ := key
  refine ⟨img, e, fun i j hi hj => ?_⟩
  rw [h i j hi, g4, seenMean_eq _ _ _ _ _ (by
    rcases hj with hj | hj
    · left; intro h; apply hj; exact_mod_cast h
    · exact Or.inr hj)]
  simp only [Int.cast_natCast]

end Verif.Polygon
