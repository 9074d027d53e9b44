import Verif.Model.Occulter
import Verif.Props.ThinFilm

/-!
# C150: complex occulters
-/

namespace Verif.Occulter
open Verif Verif.ThinFilm

/-! ## Specification -/

/-- `(x, y)` is on the curve through the points of a table: lines between neighbours, constant beyond the ends. -/
def OnCurve (tab : List (ℝ × ℝ)) (x y : ℝ) : Prop :=
  (∃ p, tab.head? = some p ∧ x ≤ p.1 ∧ y = p.2) ∨
  (∃ p, tab.getLast? = some p ∧ p.1 ≤ x ∧ y = p.2) ∨
  ∃ (k : ℕ) (p q : ℝ × ℝ), tab[k]? = some p ∧ tab[k + 1]? = some q ∧ p.1 < x ∧ x ≤ q.1 ∧ (y - p.2) * (q.1 - p.1) = (q.2 - p.2) * (x - p.1)

/-- The formula of a glass: `x` the wavelength in microns. -/
def Glass (a1 b1 a2 b2 a3 b3 x n : ℝ) : Prop :=
  0 < n ∧ n ^ 2 = 1 + a1 * x ^ 2 / (x ^ 2 - b1) + a2 * x ^ 2 / (x ^ 2 - b2) + a3 * x ^ 2 / (x ^ 2 - b3)

/-- The names of the materials, and the indices at the wavelength `lam` in metres. -/
def IsSubstrate (name : String) (lam n : ℝ) : Prop :=
  (name.toUpper ∈ ["FS", "FUSEDSILICA, FUSED_SILICA"] ∧
    Glass 0.683740494 0.00460352869 0.420323613 0.0133968856 0.58502748 64.4932732 (10 ^ 6 * lam) n) ∨
  (name.toUpper ∈ ["N-BK7", "NBK7", "BK7"] ∧
    Glass 1.03961212 0.00600069867 0.231792344 0.0200179144 1.01046945 103.560653 (10 ^ 6 * lam) n)

def IsDielectric (D : Data) (name : String) (lam n k : ℝ) : Prop :=
  (name.toLower = "pmgi" ∧ n = 1.524 + 0.005176 / (10 ^ 6 * lam) ^ 2 + 0.0002105 / (10 ^ 6 * lam) ^ 4 ∧ k = 0) ∨
  (name.toLower = "mgf2" ∧ OnCurve (D.mgf2.map fun r => (1000 * r.1, r.2.1)) (10 ^ 9 * lam) n ∧
    OnCurve (D.mgf2.map fun r => (1000 * r.1, r.2.2)) (10 ^ 9 * lam) k)

def IsMetal (D : Data) (name : String) (lam n k : ℝ) : Prop :=
  name.toLower ∈ ["nickel", "ni"] ∧ OnCurve (D.nickel.map fun r => (r.1, r.2.1)) (10 ^ 9 * lam) n ∧
    OnCurve (D.nickel.map fun r => (r.1, r.2.2)) (10 ^ 9 * lam) k

def IsTitanium (lam n k : ℝ) : Prop :=
  OnCurve (titanium.map fun r => (r.1, r.2.1)) (10 ^ 9 * lam) n ∧ OnCurve (titanium.map fun r => (r.1, r.2.2)) (10 ^ 9 * lam) k

/-- The tables of the files have rows, and their indices are positive (as in the files of the repository). -/
def Data.Good (D : Data) : Prop :=
  (D.mgf2 ≠ [] ∧ ∀ r ∈ D.mgf2, 0 < r.2.1 ∧ 0 < r.2.2) ∧ (D.nickel ≠ [] ∧ ∀ r ∈ D.nickel, 0 < r.2.1 ∧ 0 < r.2.2)

/-- The names and the polarisation are known. -/
def Known (A : Args) : Prop :=
  (A.substrate.toUpper = "FS" ∨ A.substrate.toUpper = "FUSEDSILICA, FUSED_SILICA" ∨ A.substrate.toUpper = "N-BK7" ∨
    A.substrate.toUpper = "NBK7" ∨ A.substrate.toUpper = "BK7") ∧
  (A.dielectric.toLower = "pmgi" ∨ A.dielectric.toLower = "mgf2") ∧
  (A.metal.toLower = "nickel" ∨ A.metal.toLower = "ni") ∧ (A.pol = 0 ∨ A.pol = 1 ∨ A.pol = 2)

/-- What is asked of `np.unique(…, axis=1)`. -/
def Unique (u : List Column → List Column) : Prop := ∀ l c, c ∈ u l ↔ c ∈ l

/-! ## Interpolation -/

theorem interp_aux (x : ℝ) : ∀ (l : List (ℝ × ℝ)) (p : ℝ × ℝ), p.1 < x →
    (∃ p', (p :: l).getLast? = some p' ∧ p'.1 ≤ x ∧ interp x (p :: l) = p'.2) ∨
    ∃ k a b, (p :: l)[k]? = some a ∧ (p :: l)[k + 1]? = some b ∧ a.1 < x ∧ x ≤ b.1 ∧
      (interp x (p :: l) - a.2) * (b.1 - a.1) = (b.2 - a.2) * (x - a.1)
  | [], p, hp => Or.inl ⟨p, rfl, hp.le, rfl⟩
  | q :: l, p, hp => by
    have hi : interp x (p :: q :: l) = if x < q.1 then (q.2 - p.2) / (q.1 - p.1) * (x - p.1) + p.2 else interp x (q :: l) := by
      rw [interp, if_neg (not_le.2 hp)]
    rcases lt_trichotomy x q.1 with h | h | h
    · refine Or.inr ⟨0, p, q, rfl, rfl, hp, h.le, ?_⟩
      rw [hi, if_pos h]
      have : q.1 - p.1 ≠ 0 := by linarith [hp.trans h]
      field_simp
      ring
    · refine Or.inr ⟨0, p, q, rfl, rfl, hp, h.le, ?_⟩
      have hq : interp x (q :: l) = q.2 := by
        cases l with
        | nil => rfl
        | cons r l => rw [interp, if_pos h.le]
      rw [hi, if_neg (by rw [h]; exact lt_irrefl _), hq, h]
    · rw [hi, if_neg h.not_gt]
      rcases interp_aux x l q h with ⟨p', h1, h2, h3⟩ | ⟨k, a, b, h1, h2, h3⟩
      · exact Or.inl ⟨p', by rw [← h1]; simp [List.getLast?_cons], h2, h3⟩
      · exact Or.inr ⟨k + 1, a, b, by simpa using h1, by simpa using h2, h3⟩

theorem interp_onCurve (x : ℝ) (tab : List (ℝ × ℝ)) (h : tab ≠ []) : OnCurve tab x (interp x tab) := by
  obtain ⟨p, l, rfl⟩ := List.exists_cons_of_ne_nil h
  by_cases hp : x ≤ p.1
  · refine Or.inl ⟨p, rfl, hp, ?_⟩
    cases l with
    | nil => rfl
    | cons q l => rw [interp, if_pos hp]
  · exact Or.inr (interp_aux x l p (not_le.1 hp))

/-- The curve of a table with increasing abscissas has one value at each place. -/
theorem C150_curve_unique (tab : List (ℝ × ℝ)) (hs : tab.Pairwise fun p q => p.1 < q.1) (x y y' : ℝ)
    (h : OnCurve tab x y) (h' : OnCurve tab x y') : y = y' := by
  have hlt : ∀ (i j : ℕ) (p q : ℝ × ℝ), i < j → tab[i]? = some p → tab[j]? = some q → p.1 < q.1 := by
    intro i j p q hij hi hj
    obtain ⟨hi1, rfl⟩ := List.getElem?_eq_some_iff.1 hi
    obtain ⟨hj1, rfl⟩ := List.getElem?_eq_some_iff.1 hj
    exact List.pairwise_iff_getElem.1 hs i j hi1 hj1 hij
  -- a point of the curve, by an index: at the ends the value of a point of the table
  have hd : ∀ p : ℝ × ℝ, tab.head? = some p → tab[0]? = some p := by
    intro p hp; rw [← hp, List.head?_eq_getElem?]
  have hl : ∀ p : ℝ × ℝ, tab.getLast? = some p → tab[tab.length - 1]? = some p := by
    intro p hp; rw [← hp, List.getLast?_eq_getElem?]
  -- every value is, in the cell `(k, k + 1]` or at an end, what the cell says
  have seg : ∀ z, OnCurve tab x z → ∀ (k : ℕ) (p q : ℝ × ℝ), tab[k]? = some p → tab[k + 1]? = some q → p.1 < x → x ≤ q.1 →
      (z - p.2) * (q.1 - p.1) = (q.2 - p.2) * (x - p.1) := by
    rintro z (⟨r, hr, hx, rfl⟩ | ⟨r, hr, hx, rfl⟩ | ⟨m, a, b, ha, hb, h1, h2, hz⟩) k p q hp hq hpx hxq
    · rcases Nat.eq_zero_or_pos k with rfl | hk
      · rw [hd r hr] at hp; cases hp; exact absurd hpx (not_lt.2 hx)
      · have := hlt 0 k r p hk (hd r hr) hp
        linarith
    · have hlast := hl r hr
      have hk : k + 1 < tab.length := (List.getElem?_eq_some_iff.1 hq).1
      rcases Nat.lt_or_ge (k + 1) (tab.length - 1) with h1 | h1
      · have := hlt _ _ q r h1 hq hlast
        linarith
      · have : k + 1 = tab.length - 1 := by omega
        rw [this, hlast] at hq
        cases hq
        have : x = r.1 := le_antisymm hxq hx
        rw [this]
    · rcases Nat.lt_trichotomy m k with h | h | h
      · rcases Nat.eq_or_lt_of_le (Nat.succ_le_of_lt h) with h3 | h3
        · have hbp : b = p := by
            have : m + 1 = k := h3
            rw [this, hp] at hb
            exact (Option.some.inj hb).symm
          rw [hbp] at h2
          linarith
        · have := hlt _ _ b p h3 hb hp
          linarith
      · subst h
        rw [ha] at hp; cases hp
        rw [hb] at hq; cases hq
        exact hz
      · rcases Nat.eq_or_lt_of_le (Nat.succ_le_of_lt h) with h3 | h3
        · have hqa : a = q := by
            have : k + 1 = m := h3
            rw [this, ha] at hq
            exact (Option.some.inj hq)
          rw [hqa] at h1
          linarith
        · have := hlt _ _ q a h3 hq ha
          linarith
  have fin : ∀ z z', OnCurve tab x z → (∃ (k : ℕ) (p q : ℝ × ℝ), tab[k]? = some p ∧ tab[k + 1]? = some q ∧ p.1 < x ∧ x ≤ q.1 ∧
      (z' - p.2) * (q.1 - p.1) = (q.2 - p.2) * (x - p.1)) → z = z' := by
    rintro z z' hz ⟨k, p, q, hp, hq, h1, h2, h3⟩
    have := seg z hz k p q hp hq h1 h2
    have hne : q.1 - p.1 ≠ 0 := by have := hlt k (k + 1) p q (by omega) hp hq; linarith
    have h4 : (z - p.2) * (q.1 - p.1) = (z' - p.2) * (q.1 - p.1) := by rw [this, h3]
    have := mul_right_cancel₀ hne h4
    linarith
  have ends : ∀ p q : ℝ × ℝ, tab.head? = some p → tab.getLast? = some q → x ≤ p.1 → q.1 ≤ x → p = q := by
    intro p q hp hq h1 h2
    rcases Nat.eq_zero_or_pos (tab.length - 1) with h3 | h3
    · have := hl q hq
      rw [h3, hd p hp] at this
      exact Option.some.inj this
    · have := hlt _ _ p q h3 (hd p hp) (hl q hq)
      linarith
  rcases h' with ⟨p, hp, hx, rfl⟩ | ⟨p, hp, hx, rfl⟩ | h3
  · rcases h with ⟨q, hq, _, rfl⟩ | ⟨q, hq, hx', rfl⟩ | h3
    · rw [hp] at hq; cases hq; rfl
    · rw [ends p q hp hq hx hx']
    · exact (fin _ _ (Or.inl ⟨p, hp, hx, rfl⟩) h3).symm
  · rcases h with ⟨q, hq, hx', rfl⟩ | ⟨q, hq, _, rfl⟩ | h3
    · rw [ends q p hq hp hx' hx]
    · rw [hp] at hq; cases hq; rfl
    · exact (fin _ _ (Or.inr (Or.inl ⟨p, hp, hx, rfl⟩)) h3).symm
  · exact fin _ _ h h3

/-- Between its neighbours: a curve of positive values is positive. -/
theorem onCurve_pos {tab : List (ℝ × ℝ)} (h0 : ∀ p ∈ tab, 0 < p.2) {x y : ℝ} (h : OnCurve tab x y) : 0 < y := by
  rcases h with ⟨p, hp, _, rfl⟩ | ⟨p, hp, _, rfl⟩ | ⟨k, p, q, hp, hq, h1, h2, h3⟩
  · exact h0 p (List.mem_of_mem_head? hp)
  · exact h0 p (List.mem_of_mem_getLast? hp)
  · have a := h0 p (List.mem_of_getElem? hp)
    have b := h0 q (List.mem_of_getElem? hq)
    have hd : 0 < q.1 - p.1 := by linarith
    by_contra hy
    have hy := not_lt.1 hy
    nlinarith [mul_nonneg hd.le (neg_nonneg.2 hy), mul_pos a (sub_pos.2 (lt_of_lt_of_le h1 h2)),
      mul_pos b (sub_pos.2 h1), mul_nonneg a.le (sub_nonneg.2 h2)]

/-! ## Indices -/

theorem glass_of {a1 b1 a2 b2 a3 b3 x : ℝ} (h1 : b1 < 0.04) (h2 : b2 < 0.04) (ha1 : 0.6 ≤ a1) (ha2 : 0 ≤ a2) (ha3 : 0 ≤ a3)
    (h3 : 64 ≤ b3) (ha3' : a3 ≤ b3 / 100) (hx : 0.2 ≤ x) (hx' : x ≤ 3) (hb1 : 0 ≤ b1) :
    1 < 1 + a1 * (x * x) / (x * x - b1) + a2 * (x * x) / (x * x - b2) + a3 * (x * x) / (x * x - b3) := by
  have hq : 0.04 ≤ x * x := by nlinarith
  have hq' : x * x ≤ 9 := by nlinarith
  have e1 : a1 ≤ a1 * (x * x) / (x * x - b1) := by
    rw [le_div_iff₀ (by linarith)]
    nlinarith
  have e2 : 0 ≤ a2 * (x * x) / (x * x - b2) := div_nonneg (by positivity) (by linarith)
  have e3 : -0.5 ≤ a3 * (x * x) / (x * x - b3) := by
    rw [le_div_iff_of_neg (by linarith)]
    nlinarith
  linarith

theorem substrate_spec {name : String} {lam n : ℝ} (h : substrateIndex name lam = .ok n) (h1 : 0.2e-6 ≤ lam) (h2 : lam ≤ 3e-6) :
    IsSubstrate name lam n ∧ 1 < n := by
  have hx : (0.2 : ℝ) ≤ lam * 1.0e6 := by norm_num at h1 ⊢; linarith
  have hx' : lam * 1.0e6 ≤ (3 : ℝ) := by norm_num at h2 ⊢; linarith
  have he : lam * 1.0e6 = 10 ^ 6 * lam := by norm_num; ring
  have key : ∀ r : ℝ, 1 < r → (0 < Real.sqrt r ∧ Real.sqrt r ^ 2 = r) ∧ 1 < Real.sqrt r := fun r hr =>
    ⟨⟨Real.sqrt_pos.2 (by linarith), Real.sq_sqrt (by linarith)⟩, by rw [Real.lt_sqrt (by norm_num)]; linarith⟩
  unfold substrateIndex at h
  simp only at h
  split_ifs at h with c1 c2
  · have hn := Except.ok.inj h
    have hg := key _ (glass_of (a1 := 0.68374049400) (b1 := 0.00460352869) (a2 := 0.42032361300) (b2 := 0.01339688560)
      (a3 := 0.58502748000) (b3 := 64.49327320000) (by norm_num) (by norm_num) (by norm_num) (by norm_num) (by norm_num)
      (by norm_num) (by norm_num) hx hx' (by norm_num))
    rw [hn] at hg
    refine ⟨Or.inl ⟨c1, hg.1.1, ?_⟩, hg.2⟩
    rw [hg.1.2, he]
    norm_num [pow_two]
  · have hn := Except.ok.inj h
    have hg := key _ (glass_of (a1 := 1.03961212) (b1 := 0.00600069867) (a2 := 0.231792344) (b2 := 0.0200179144)
      (a3 := 1.01046945) (b3 := 103.560653) (by norm_num) (by norm_num) (by norm_num) (by norm_num) (by norm_num)
      (by norm_num) (by norm_num) hx hx' (by norm_num))
    rw [hn] at hg
    refine ⟨Or.inr ⟨c2, hg.1.1, ?_⟩, hg.2⟩
    rw [hg.1.2, he]
    norm_num [pow_two]

theorem dielectric_spec {D : Data} (hD : D.Good) {name : String} {lam : ℝ} {p : ℝ × ℝ} (h : dielectricIndex D name lam = .ok p) (hl : 0 < lam) :
    IsDielectric D name lam p.1 p.2 ∧ 0 < p.1 ∧ 0 ≤ p.2 ∧ (0 < p.2 ∨ 1 < p.1) := by
  have e6 : lam * 1.0e6 = 10 ^ 6 * lam := by norm_num; ring
  have e9 : lam * 1.0e9 = 10 ^ 9 * lam := by norm_num; ring
  unfold dielectricIndex at h
  simp only [List.mem_singleton] at h
  split_ifs at h with c1 c2
  · have hp := Except.ok.inj h
    subst hp
    rw [e6]
    have a1 : 0 < 5.176e-03 / (10 ^ 6 * lam) ^ 2 := by positivity
    have a2 : 0 < 2.105e-4 / (10 ^ 6 * lam) ^ 4 := by positivity
    have hn : 1 < 1.524 + 5.176e-03 / (10 ^ 6 * lam) ^ 2 + 2.105e-4 / (10 ^ 6 * lam) ^ 4 := by
      have : (1 : ℝ) < 1.524 := by norm_num
      linarith
    exact ⟨Or.inl ⟨c1, by norm_num, rfl⟩, by linarith, le_rfl, Or.inr hn⟩
  · have hp := Except.ok.inj h
    subst hp
    have f1 : (D.mgf2.map fun r => (r.1 * 1e3, r.2.1)) = D.mgf2.map fun r => (1000 * r.1, r.2.1) := by
      refine List.map_congr_left fun r _ => ?_
      norm_num; ring
    have f2 : (D.mgf2.map fun r => (r.1 * 1e3, r.2.2)) = D.mgf2.map fun r => (1000 * r.1, r.2.2) := by
      refine List.map_congr_left fun r _ => ?_
      norm_num; ring
    rw [f1, f2, e9]
    have g1 := interp_onCurve (10 ^ 9 * lam) (D.mgf2.map fun r => (1000 * r.1, r.2.1)) (by simp [hD.1.1])
    have g2 := interp_onCurve (10 ^ 9 * lam) (D.mgf2.map fun r => (1000 * r.1, r.2.2)) (by simp [hD.1.1])
    have p1 := onCurve_pos (by
      intro p hp
      obtain ⟨r, hr, rfl⟩ := List.mem_map.1 hp
      exact (hD.1.2 r hr).1) g1
    have p2 := onCurve_pos (by
      intro p hp
      obtain ⟨r, hr, rfl⟩ := List.mem_map.1 hp
      exact (hD.1.2 r hr).2) g2
    exact ⟨Or.inr ⟨c2, g1, g2⟩, p1, p2.le, Or.inl p2⟩

theorem metal_spec {D : Data} (hD : D.Good) {name : String} {lam : ℝ} {p : ℝ × ℝ} (h : metalIndex D name lam = .ok p) :
    IsMetal D name lam p.1 p.2 ∧ 0 < p.1 ∧ 0 < p.2 := by
  have e9 : lam * 1.0e9 = 10 ^ 9 * lam := by norm_num; ring
  unfold metalIndex at h
  split_ifs at h with c1
  have hp := Except.ok.inj h
  subst hp
  rw [e9]
  have g1 := interp_onCurve (10 ^ 9 * lam) (D.nickel.map fun r => (r.1, r.2.1)) (by simp [hD.2.1])
  have g2 := interp_onCurve (10 ^ 9 * lam) (D.nickel.map fun r => (r.1, r.2.2)) (by simp [hD.2.1])
  refine ⟨⟨c1, g1, g2⟩, onCurve_pos ?_ g1, onCurve_pos ?_ g2⟩
  · intro p hp
    obtain ⟨r, hr, rfl⟩ := List.mem_map.1 hp
    exact (hD.2.2 r hr).1
  · intro p hp
    obtain ⟨r, hr, rfl⟩ := List.mem_map.1 hp
    exact (hD.2.2 r hr).2

theorem titanium_spec (lam : ℝ) : IsTitanium lam (titaniumIndex lam).1 (titaniumIndex lam).2 ∧ 0 < (titaniumIndex lam).1 ∧
    0 < (titaniumIndex lam).2 := by
  have e9 : lam * 1.0e9 = 10 ^ 9 * lam := by norm_num; ring
  unfold titaniumIndex
  rw [e9]
  have g1 := interp_onCurve (10 ^ 9 * lam) (titanium.map fun r => (r.1, r.2.1)) (by simp [titanium])
  have g2 := interp_onCurve (10 ^ 9 * lam) (titanium.map fun r => (r.1, r.2.2)) (by simp [titanium])
  refine ⟨⟨g1, g2⟩, onCurve_pos ?_ g1, onCurve_pos ?_ g2⟩
  · intro p hp
    simp only [titanium, List.map_cons, List.map_nil, List.mem_cons, List.not_mem_nil, or_false] at hp
    rcases hp with rfl | rfl | rfl | rfl | rfl | rfl | rfl | rfl | rfl | rfl | rfl | rfl | rfl | rfl | rfl | rfl | rfl | rfl <;> norm_num
  · intro p hp
    simp only [titanium, List.map_cons, List.map_nil, List.mem_cons, List.not_mem_nil, or_false] at hp
    rcases hp with rfl | rfl | rfl | rfl | rfl | rfl | rfl | rfl | rfl | rfl | rfl | rfl | rfl | rfl | rfl | rfl | rfl | rfl <;> norm_num

/-! ## The table -/

theorem mapM_ok {α β : Type} {f : α → Except PyErr β} : ∀ {l : List α} {r : List β}, l.mapM f = .ok r →
    r.length = l.length ∧ ∀ (i : ℕ) (x : α), l[i]? = some x → ∃ y, r[i]? = some y ∧ f x = .ok y
  | [], r, h => by
    simp only [List.mapM_nil, pure, Except.pure, Except.ok.injEq] at h
    subst h
    simp
  | x :: l, r, h => by
    rw [List.mapM_cons] at h
    cases hx : f x with
    | error e => rw [hx] at h; cases h
    | ok y =>
      rw [hx] at h
      cases hl : l.mapM f with
      | error e => rw [hl] at h; cases h
      | ok ys =>
        rw [hl] at h
        have hr : y :: ys = r := Except.ok.inj h
        subst hr
        obtain ⟨h1, h2⟩ := mapM_ok hl
        refine ⟨by simp [h1], ?_⟩
        intro i z hz
        cases i with
        | zero =>
          simp only [List.getElem?_cons_zero, Option.some.injEq] at hz
          exact ⟨y, rfl, by rw [← hz, hx]⟩
        | succ i =>
          obtain ⟨w, hw, hw'⟩ := h2 i z (by simpa using hz)
          exact ⟨w, by simpa using hw, hw'⟩

/-- What `calc_complex_trans_matrix` returns. For every wavelength between 0.2 and 3 microns: the indices of the four materials are those of their formulas and tables, and the entry in row `j`
and column `i` is that of one film: the thickness `j` of the dielectric on the thickness `i` of the metal, on titanium where there is at least 0.1 nm of metal. -/
theorem C150_table (D : Data) (hD : D.Good) (A : Args) (h1 : 0.2e-6 ≤ A.lam) (h2 : A.lam ≤ 3e-6) (ms ds : List ℝ)
    (T : List (List (ℂ × ℂ))) (h : transMatrix D A ms ds = .ok T) :
    ∃ ns nd kd nm km nt kt : ℝ, IsSubstrate A.substrate A.lam ns ∧ IsDielectric D A.dielectric A.lam nd kd ∧
      IsMetal D A.metal A.lam nm km ∧ IsTitanium A.lam nt kt ∧
      (1 < ns ∧ (0 < nd ∧ 0 ≤ kd ∧ (0 < kd ∨ 1 < nd)) ∧ (0 < nm ∧ 0 < km) ∧ 0 < nt ∧ 0 < kt) ∧
      T.length = ds.length ∧ ∀ (j : ℕ) (d : ℝ), ds[j]? = some d → ∃ row, T[j]? = some row ∧ row.length = ms.length ∧
        ∀ (i : ℕ) (m : ℝ), ms[i]? = some m → ∃ p, row[i]? = some p ∧
          Entry.coefs { nSub := ns, nDiel := nd, kDiel := kd, nMetal := nm, kMetal := km, nTi := nt, kTi := kt,
                        tDiel := d, tMetal := m, tTi := if m < 10⁻¹ ^ 10 then 0 else A.tTi, d0 := A.d0,
                        theta := Real.pi * A.aoi / 180, lam := A.lam } A.pol A.flagOPD = .ok p := by
  unfold transMatrix at h
  have hl : 0 < A.lam := lt_of_lt_of_le (by norm_num) h1
  cases hc : checks A with
  | error e => rw [hc] at h; cases h
  | ok u =>
  rw [hc] at h
  cases hs : substrateIndex A.substrate A.lam with
  | error e => rw [hs] at h; cases h
  | ok ns =>
  rw [hs] at h
  cases hd : dielectricIndex D A.dielectric A.lam with
  | error e => rw [hd] at h; cases h
  | ok diel =>
  rw [hd] at h
  cases hm : metalIndex D A.metal A.lam with
  | error e => rw [hm] at h; cases h
  | ok metal =>
  rw [hm] at h
  simp only [bind, Except.bind] at h
  obtain ⟨s1, s2⟩ := substrate_spec hs h1 h2
  obtain ⟨d1, d2⟩ := dielectric_spec hD hd hl
  obtain ⟨m1, m2⟩ := metal_spec hD hm
  obtain ⟨t1, t2⟩ := titanium_spec A.lam
  obtain ⟨hlen, hrow⟩ := mapM_ok h
  refine ⟨ns, diel.1, diel.2, metal.1, metal.2, (titaniumIndex A.lam).1, (titaniumIndex A.lam).2, s1, d1, m1, t1,
    ⟨s2, d2, m2, t2⟩, hlen, ?_⟩
  intro j d hj
  obtain ⟨row, hr, hr'⟩ := hrow j d hj
  obtain ⟨hlen', hrow'⟩ := mapM_ok hr'
  refine ⟨row, hr, hlen', ?_⟩
  intro i m hi
  obtain ⟨p, hp, hp'⟩ := hrow' i m hi
  refine ⟨p, hp, ?_⟩
  rw [← hp']
  congr 1
  unfold entry tiUnder
  have e1 : A.aoi * (Real.pi / 180) = Real.pi * A.aoi / 180 := by ring
  have e2 : (1e-10 : ℝ) = 10⁻¹ ^ 10 := by norm_num
  rw [e1, e2]

/-- One thickness of each. -/
theorem trans_one (D : Data) (A : Args) (m d : ℝ) :
    transMatrix D A [m] [d] = (checks A).bind fun _ => (substrateIndex A.substrate A.lam).bind fun n =>
      (dielectricIndex D A.dielectric A.lam).bind fun di => (metalIndex D A.metal A.lam).bind fun me =>
        ((entry A n di me m d).coefs A.pol A.flagOPD).map fun p => [[p]] := by
  unfold transMatrix
  simp only [bind]
  congr 1; funext _; congr 1; funext n; congr 1; funext di; congr 1; funext me
  cases h : (entry A n di me m d).coefs A.pol A.flagOPD <;>
    simp [List.mapM_cons, h, bind, Except.bind, pure, Except.pure, Except.map]

/-- Which error one film raises: none of the thicknesses matters. -/
theorem one_errors (D : Data) (A : Args) (m d : ℝ) :
    ((0 < A.lam ∧ 0 ≤ A.aoi ∧ 0 ≤ A.tTi) ∧ Known A → ∃ p, transMatrix D A [m] [d] = .ok [[p]]) ∧
    (¬ (0 < A.lam ∧ 0 ≤ A.aoi ∧ 0 ≤ A.tTi) → transMatrix D A [m] [d] = .error .typeError) ∧
    ((0 < A.lam ∧ 0 ≤ A.aoi ∧ 0 ≤ A.tTi) ∧ ¬ Known A → transMatrix D A [m] [d] = .error .valueError) := by
  have hck : (0 < A.lam ∧ 0 ≤ A.aoi ∧ 0 ≤ A.tTi) → checks A = .ok () := by
    rintro ⟨a, b, c⟩
    unfold checks
    rw [if_neg (not_le.2 a), if_neg (not_lt.2 b), if_neg (not_lt.2 c)]
  have hsub : (A.substrate.toUpper = "FS" ∨ A.substrate.toUpper = "FUSEDSILICA, FUSED_SILICA" ∨ A.substrate.toUpper = "N-BK7" ∨
      A.substrate.toUpper = "NBK7" ∨ A.substrate.toUpper = "BK7") ∧ (∃ n, substrateIndex A.substrate A.lam = .ok n) ∨
      ¬ (A.substrate.toUpper = "FS" ∨ A.substrate.toUpper = "FUSEDSILICA, FUSED_SILICA" ∨ A.substrate.toUpper = "N-BK7" ∨
      A.substrate.toUpper = "NBK7" ∨ A.substrate.toUpper = "BK7") ∧ substrateIndex A.substrate A.lam = .error .valueError := by
    unfold substrateIndex
    simp only [List.mem_cons, List.not_mem_nil, or_false]
    split_ifs with c1 c2
    · exact Or.inl ⟨by tauto, _, rfl⟩
    · exact Or.inl ⟨by tauto, _, rfl⟩
    · exact Or.inr ⟨by tauto, rfl⟩
  have hdi : (A.dielectric.toLower = "pmgi" ∨ A.dielectric.toLower = "mgf2") ∧ (∃ n, dielectricIndex D A.dielectric A.lam = .ok n) ∨
      ¬ (A.dielectric.toLower = "pmgi" ∨ A.dielectric.toLower = "mgf2") ∧ dielectricIndex D A.dielectric A.lam = .error .valueError := by
    unfold dielectricIndex
    simp only [List.mem_singleton]
    split_ifs with c1 c2
    · exact Or.inl ⟨by tauto, _, rfl⟩
    · exact Or.inl ⟨by tauto, _, rfl⟩
    · exact Or.inr ⟨by tauto, rfl⟩
  have hme : (A.metal.toLower = "nickel" ∨ A.metal.toLower = "ni") ∧ (∃ n, metalIndex D A.metal A.lam = .ok n) ∨
      ¬ (A.metal.toLower = "nickel" ∨ A.metal.toLower = "ni") ∧ metalIndex D A.metal A.lam = .error .valueError := by
    unfold metalIndex
    simp only [List.mem_cons, List.not_mem_nil, or_false]
    split_ifs with c1
    · exact Or.inl ⟨by tauto, _, rfl⟩
    · exact Or.inr ⟨by tauto, rfl⟩
  have hco : ∀ e : Entry, (A.pol = 0 ∨ A.pol = 1 ∨ A.pol = 2) ∧ (∃ p, e.coefs A.pol A.flagOPD = .ok p) ∨
      ¬ (A.pol = 0 ∨ A.pol = 1 ∨ A.pol = 2) ∧ e.coefs A.pol A.flagOPD = .error .valueError := by
    intro e
    unfold Entry.coefs
    generalize solver e.stack false = s0
    generalize solver e.stack true = s1
    by_cases h2 : A.pol = 2
    · exact Or.inl ⟨Or.inr (Or.inr h2), by simp only [if_pos h2]; exact ⟨_, rfl⟩⟩
    · by_cases h0 : A.pol = 0
      · exact Or.inl ⟨Or.inl h0, by simp only [if_neg h2, if_pos h0]; exact ⟨_, rfl⟩⟩
      · by_cases h1 : A.pol = 1
        · exact Or.inl ⟨Or.inr (Or.inl h1), by simp only [if_neg h2, if_neg h0, if_pos h1]; exact ⟨_, rfl⟩⟩
        · exact Or.inr ⟨by tauto, by simp only [if_neg h2, if_neg h0, if_neg h1]; rfl⟩
  rw [trans_one]
  refine ⟨?_, ?_, ?_⟩
  · rintro ⟨h, k1, k2, k3, k4⟩
    rw [hck h]
    obtain ⟨_, n, hn⟩ := hsub.resolve_right (fun h => h.1 k1)
    obtain ⟨_, di, hd⟩ := hdi.resolve_right (fun h => h.1 k2)
    obtain ⟨_, me, hm⟩ := hme.resolve_right (fun h => h.1 k3)
    obtain ⟨_, p, hp⟩ := (hco (entry A n di me m d)).resolve_right (fun h => h.1 k4)
    refine ⟨p, ?_⟩
    simp only [Except.bind, hn, hd, hm, hp, Except.map]
  · intro h
    have : checks A = .error .typeError := by
      unfold checks
      split_ifs with a b c
      · rfl
      · rfl
      · rfl
      · exact absurd ⟨not_le.1 a, not_lt.1 b, not_lt.1 c⟩ h
    rw [this]
    rfl
  · rintro ⟨h, hk⟩
    rw [hck h]
    rcases hsub with ⟨k1, n, hn⟩ | ⟨_, hn⟩
    · rcases hdi with ⟨k2, di, hd⟩ | ⟨_, hd⟩
      · rcases hme with ⟨k3, me, hm⟩ | ⟨_, hm⟩
        · rcases hco (entry A n di me m d) with ⟨k4, p, hp⟩ | ⟨_, hp⟩
          · exact absurd ⟨k1, k2, k3, k4⟩ hk
          · simp only [Except.bind, hn, hd, hm, hp, Except.map]
        · simp only [Except.bind, hn, hd, hm]
      · simp only [Except.bind, hn, hd]
    · simp only [Except.bind, hn]

/-! ## The map -/

theorem tiMap_cases (A : Args) (m : ThickMap) (i j : ℕ) : tiMap A m i j = A.tTi ∨ tiMap A m i j = 0 := by
  unfold tiMap
  cases m.val i j with
  | none => exact Or.inr rfl
  | some t =>
    simp only
    split_ifs
    · exact Or.inl rfl
    · exact Or.inr rfl

/-- The titanium of the map makes the film that the thickness of titanium makes. -/
theorem trans_ti (D : Data) (A : Args) (hT : 0 ≤ A.tTi) (m : ThickMap) (i j : ℕ) (t d : ℝ) (ht : m.val i j = some t) :
    transMatrix D { A with tTi := tiMap A m i j } [t] [d] = transMatrix D A [t] [d] := by
  rw [trans_one, trans_one]
  have hti : 0 ≤ tiMap A m i j := by rcases tiMap_cases A m i j with h | h <;> rw [h]; exact hT
  have hck : checks { A with tTi := tiMap A m i j } = checks A := by
    unfold checks
    simp only
    rw [if_neg (not_lt.2 hti), if_neg (not_lt.2 hT)]
  rw [hck]
  have hen : ∀ n di me, entry { A with tTi := tiMap A m i j } n di me t d = entry A n di me t d := by
    intro n di me
    unfold entry tiUnder
    simp only
    congr 1
    by_cases h : t < 1e-10
    · rw [if_pos h, if_pos h]
    · rw [if_neg h, if_neg h]
      unfold tiMap
      rw [ht]
      simp only
      rw [if_pos]
      have := not_lt.1 h
      refine lt_of_lt_of_le ?_ this
      norm_num
  simp only [hen]

theorem mem_flatten {α : Type} (rows cols : ℕ) (f : ℕ → ℕ → α) (x : α) :
    x ∈ ThickMap.flatten rows cols f ↔ ∃ i j, i < rows ∧ j < cols ∧ x = f i j := by
  unfold ThickMap.flatten
  simp only [List.mem_flatMap, List.mem_range, List.mem_map]
  constructor
  · rintro ⟨i, hi, j, hj, rfl⟩; exact ⟨i, j, hi, hj, rfl⟩
  · rintro ⟨i, j, hi, hj, rfl⟩; exact ⟨i, hi, j, hj, rfl⟩

theorem flatten_length {α : Type} (rows cols : ℕ) (f : ℕ → ℕ → α) : (ThickMap.flatten rows cols f).length = rows * cols := by
  unfold ThickMap.flatten
  rw [List.length_flatMap]
  simp

theorem flatten_zip {α β : Type} (rows cols : ℕ) (f : ℕ → ℕ → α) (g : ℕ → ℕ → β) :
    (ThickMap.flatten rows cols f).zip (ThickMap.flatten rows cols g) = ThickMap.flatten rows cols fun i j => (f i j, g i j) := by
  have key : ∀ l : List ℕ, (l.flatMap fun i => (List.range cols).map fun j => f i j).zip
      (l.flatMap fun i => (List.range cols).map fun j => g i j) =
      l.flatMap fun i => (List.range cols).map fun j => (f i j, g i j) := by
    intro l
    induction l with
    | nil => rfl
    | cons a l ih =>
      simp only [List.flatMap_cons]
      rw [List.zip_append (by simp), ih]
      congr 1
      induction List.range cols with
      | nil => rfl
      | cons b r ih => simpa using ih
  exact key _

/-- The columns are those of the pixels. -/
theorem columns_mem {A : Args} {m d : ThickMap} {cols : List Column} (h : columns A m d = .ok cols)
    (hs : m.rows = d.rows ∧ m.cols = d.cols) (c : Column) :
    c ∈ cols ↔ ∃ i j, i < m.rows ∧ j < m.cols ∧ c = (d.val i j, m.val i j, tiMap A m i j) := by
  unfold columns at h
  split_ifs at h with h1
  have := Except.ok.inj h
  subst this
  rw [← hs.1, ← hs.2, flatten_zip, flatten_zip, mem_flatten]

theorem fill_ok {D : Data} {A : Args} {m d : ThickMap} : ∀ {cs : List Column} {out0 out : ℕ → ℕ → ℂ},
    fill D A m d cs out0 = .ok out →
    (cs = [] ∨ (m.rows = d.rows ∧ m.cols = d.cols)) ∧
    ∀ i j, (∀ t s, m.val i j = some t → d.val i j = some s →
        ((d.val i j, m.val i j, tiMap A m i j) ∈ cs → coefOf D A (d.val i j, m.val i j, tiMap A m i j) = .ok (out i j)) ∧
        ((d.val i j, m.val i j, tiMap A m i j) ∉ cs → out i j = out0 i j)) ∧
      ((m.val i j = none ∨ d.val i j = none) → out i j = out0 i j)
  | [], out0, out, h => by
    have := Except.ok.inj h
    subst this
    exact ⟨Or.inl rfl, fun i j => ⟨fun t s _ _ => ⟨fun h => absurd h List.not_mem_nil, fun _ => rfl⟩, fun _ => rfl⟩⟩
  | c :: cs, out0, out, h => by
    unfold fill at h
    cases hv : coefOf D A c with
    | error e => rw [hv] at h; cases h
    | ok v =>
    rw [hv] at h
    simp only [Except.bind] at h
    cases ha : assign A m d c v out0 with
    | error e => rw [ha] at h; cases h
    | ok out1 =>
    rw [ha] at h
    simp only at h
    obtain ⟨_, ih⟩ := fill_ok h
    unfold assign at ha
    split_ifs at ha with hs
    have ho := Except.ok.inj ha
    refine ⟨Or.inr hs, fun i j => ⟨?_, ?_⟩⟩
    · intro t s ht hd
      obtain ⟨i1, i2⟩ := (ih i j).1 t s ht hd
      have hcol : c = (d.val i j, m.val i j, tiMap A m i j) ↔
          (eqFloat (m.val i j) c.2.1 ∧ eqFloat (d.val i j) c.1) ∧ tiMap A m i j = c.2.2 := by
        obtain ⟨c1, c2, c3⟩ := c
        simp only [eqFloat, ht, hd, Prod.mk.injEq, Option.some.injEq, exists_eq_left']
        constructor
        · rintro ⟨rfl, rfl, rfl⟩; exact ⟨⟨rfl, rfl⟩, rfl⟩
        · rintro ⟨⟨h1, h2⟩, h3⟩; exact ⟨h2, h1, h3.symm⟩
      constructor
      · intro hmem
        by_cases hin : (d.val i j, m.val i j, tiMap A m i j) ∈ cs
        · exact i1 hin
        · have hc : c = (d.val i j, m.val i j, tiMap A m i j) := by
            rcases List.mem_cons.1 hmem with h | h
            · exact h.symm
            · exact absurd h hin
          rw [i2 hin, ← ho, ← hc, hv]
          simp only
          rw [if_pos (hcol.1 hc)]
      · intro hmem
        rw [List.mem_cons, not_or] at hmem
        rw [i2 hmem.2, ← ho]
        simp only
        rw [if_neg (fun h => hmem.1 (hcol.2 h).symm)]
    · intro hn
      rw [(ih i j).2 hn, ← ho]
      simp only
      rw [if_neg]
      rintro ⟨⟨⟨x, hx, _⟩, ⟨y, hy, _⟩⟩, _⟩
      rcases hn with hn | hn
      · rw [hn] at hx; cases hx
      · rw [hn] at hy; cases hy

/-- Every pixel is the film of its own thicknesses, as `calc_complex_trans_matrix` gives it, whatever the other pixels are. -/
theorem C150_pixel (u : List Column → List Column) (hu : Unique u) (D : Data) (A : Args) (m d : ThickMap) (out : ℕ → ℕ → ℂ)
    (h : occulter u D A m d = .ok out) (i j : ℕ) (hi : i < m.rows) (hj : j < m.cols) (t s : ℝ)
    (ht : m.val i j = some t) (hs : d.val i j = some s) :
    ∃ r, transMatrix D A [t] [s] = .ok [[(out i j, r)]] := by
  unfold occulter at h
  split_ifs at h with hT
  have hT := not_lt.1 hT
  cases hc : columns A m d with
  | error e => rw [hc] at h; cases h
  | ok cols =>
  rw [hc] at h
  simp only [Except.bind] at h
  obtain ⟨f1, f2⟩ := fill_ok h
  have hsh : m.rows = d.rows ∧ m.cols = d.cols := by
    refine f1.resolve_left fun h0 => ?_
    have hpos : 0 < cols.length := by
      unfold columns at hc
      split_ifs at hc with hsz
      have := Except.ok.inj hc
      rw [← this]
      simp only [List.length_zip, flatten_length, ← hsz, min_self]
      exact Nat.mul_pos (by omega) (by omega)
    obtain ⟨c, l, rfl⟩ := List.exists_cons_of_length_pos hpos
    have := (hu (c :: l) c).2 List.mem_cons_self
    rw [h0] at this
    cases this
  have hmem : (d.val i j, m.val i j, tiMap A m i j) ∈ u cols :=
    (hu _ _).2 ((columns_mem hc hsh _).2 ⟨i, j, hi, hj, rfl⟩)
  have hco := ((f2 i j).1 t s ht hs).1 hmem
  unfold coefOf at hco
  simp only [ht, hs, Option.getD_some] at hco
  rw [trans_ti D A hT m i j t s ht] at hco
  obtain ⟨e1, e2, e3⟩ := one_errors D A t s
  by_cases hv : 0 < A.lam ∧ 0 ≤ A.aoi ∧ 0 ≤ A.tTi
  · by_cases hk : Known A
    · obtain ⟨p, hp⟩ := e1 ⟨hv, hk⟩
      rw [hp] at hco ⊢
      have := Except.ok.inj hco
      simp only [List.headD] at this
      exact ⟨p.2, by rw [← this]⟩
    · rw [e3 ⟨hv, hk⟩] at hco; cases hco
  · rw [e2 hv] at hco; cases hco

/-- Pixels of the same thicknesses have the same value, in the same mask or in two masks. -/
theorem C150_local (u u' : List Column → List Column) (hu : Unique u) (hu' : Unique u') (D : Data) (A : Args) (m d m' d' : ThickMap)
    (out out' : ℕ → ℕ → ℂ) (h : occulter u D A m d = .ok out) (h' : occulter u' D A m' d' = .ok out') (i j i' j' : ℕ)
    (hi : i < m.rows) (hj : j < m.cols) (hi' : i' < m'.rows) (hj' : j' < m'.cols)
    (hm : m.val i j = m'.val i' j') (hd : d.val i j = d'.val i' j') : out i j = out' i' j' := by
  have zero : ∀ (u : List Column → List Column) (m d : ThickMap) (out : ℕ → ℕ → ℂ), occulter u D A m d = .ok out → ∀ i j,
      (m.val i j = none ∨ d.val i j = none) → out i j = 0 := by
    intro u m d out h i j hn
    unfold occulter at h
    split_ifs at h with hT
    cases hc : columns A m d with
    | error e => rw [hc] at h; cases h
    | ok cols =>
    rw [hc] at h
    exact ((fill_ok h).2 i j).2 hn
  cases ht : m.val i j with
  | none =>
    rw [zero u m d out h i j (Or.inl ht), zero u' m' d' out' h' i' j' (Or.inl (by rw [← hm, ht]))]
  | some t =>
    cases hs : d.val i j with
    | none =>
      rw [zero u m d out h i j (Or.inr hs), zero u' m' d' out' h' i' j' (Or.inr (by rw [← hd, hs]))]
    | some s =>
      obtain ⟨r, hr⟩ := C150_pixel u hu D A m d out h i j hi hj t s ht hs
      obtain ⟨r', hr'⟩ := C150_pixel u' hu' D A m' d' out' h' i' j' hi' hj' t s (by rw [← hm, ht]) (by rw [← hd, hs])
      rw [hr] at hr'
      have := Except.ok.inj hr'
      simp only [List.cons.injEq, Prod.mk.injEq, and_true] at this
      exact this.1

/-- Violated: a pixel whose thickness is NaN is an opaque pixel (0), without an error. -/
theorem C150_violated_nan (u : List Column → List Column) (D : Data) (A : Args) (m d : ThickMap) (out : ℕ → ℕ → ℂ)
    (h : occulter u D A m d = .ok out) (i j : ℕ) (hn : m.val i j = none ∨ d.val i j = none) : out i j = 0 := by
  unfold occulter at h
  split_ifs at h with hT
  cases hc : columns A m d with
  | error e => rw [hc] at h; cases h
  | ok cols =>
  rw [hc] at h
  exact ((fill_ok h).2 i j).2 hn

theorem columns_ti {A : Args} {m d : ThickMap} {cols : List Column} (h : columns A m d = .ok cols) (c : Column) (hc : c ∈ cols) :
    c.2.2 = A.tTi ∨ c.2.2 = 0 := by
  unfold columns at h
  split_ifs at h with h1
  have := Except.ok.inj h
  subst this
  have h2 : c.2.2 ∈ ThickMap.flatten m.rows m.cols (tiMap A m) :=
    (List.of_mem_zip (show (c.2.1, c.2.2) ∈ _ from (List.of_mem_zip (show (c.1, c.2) ∈ _ from hc)).2)).2
  obtain ⟨i, j, _, _, h3⟩ := (mem_flatten _ _ _ _).1 h2
  rw [h3]
  exact tiMap_cases A m i j

/-- What the loop raises. -/
theorem coefOf_errors (D : Data) (A : Args) (hT : 0 ≤ A.tTi) (c : Column) (hc : c.2.2 = A.tTi ∨ c.2.2 = 0) :
    ((0 < A.lam ∧ 0 ≤ A.aoi) ∧ Known A → ∃ v, coefOf D A c = .ok v) ∧
    (¬ (0 < A.lam ∧ 0 ≤ A.aoi) → coefOf D A c = .error .typeError) ∧
    ((0 < A.lam ∧ 0 ≤ A.aoi) ∧ ¬ Known A → coefOf D A c = .error .valueError) := by
  have ht : 0 ≤ c.2.2 := by rcases hc with h | h <;> rw [h]; exact hT
  obtain ⟨e1, e2, e3⟩ := one_errors D { A with tTi := c.2.2 } (c.2.1.getD 0) (c.1.getD 0)
  unfold coefOf
  refine ⟨?_, ?_, ?_⟩
  · rintro ⟨⟨a, b⟩, k⟩
    obtain ⟨p, hp⟩ := e1 ⟨⟨a, b, ht⟩, k⟩
    rw [hp]
    exact ⟨_, rfl⟩
  · intro h
    rw [e2 (fun h' => h ⟨h'.1, h'.2.1⟩)]
    rfl
  · rintro ⟨⟨a, b⟩, k⟩
    rw [e3 ⟨⟨a, b, ht⟩, k⟩]
    rfl

/-- Maps of one shape with at least one pixel: which error is raised, and that there is no other. -/
theorem C150_errors (u : List Column → List Column) (hu : Unique u) (D : Data) (A : Args) (m d : ThickMap)
    (hs : m.rows = d.rows ∧ m.cols = d.cols) (hpos : 0 < m.rows ∧ 0 < m.cols) :
    (0 < A.lam ∧ 0 ≤ A.aoi ∧ 0 ≤ A.tTi → Known A → ∃ out, occulter u D A m d = .ok out) ∧
    (¬ (0 < A.lam ∧ 0 ≤ A.aoi ∧ 0 ≤ A.tTi) → occulter u D A m d = .error .typeError) ∧
    (0 < A.lam ∧ 0 ≤ A.aoi ∧ 0 ≤ A.tTi → ¬ Known A → occulter u D A m d = .error .valueError) := by
  obtain ⟨cols, hcols⟩ : ∃ cols, columns A m d = .ok cols := by
    unfold columns
    rw [if_pos (by rw [hs.1, hs.2])]
    exact ⟨_, rfl⟩
  have hocc : ∀ hT : 0 ≤ A.tTi, occulter u D A m d = fill D A m d (u cols) fun _ _ => 0 := by
    intro hT
    unfold occulter
    rw [if_neg (not_lt.2 hT), hcols]
    rfl
  obtain ⟨c0, l0, h0⟩ : ∃ c l, u cols = c :: l := by
    have : (d.val 0 0, m.val 0 0, tiMap A m 0 0) ∈ u cols :=
      (hu _ _).2 ((columns_mem hcols hs _).2 ⟨0, 0, hpos.1, hpos.2, rfl⟩)
    exact List.exists_cons_of_ne_nil (List.ne_nil_of_mem this)
  have hti : ∀ c ∈ u cols, c.2.2 = A.tTi ∨ c.2.2 = 0 := fun c hc => columns_ti hcols c ((hu _ _).1 hc)
  refine ⟨?_, ?_, ?_⟩
  · rintro ⟨a, b, hT⟩ hk
    rw [hocc hT]
    have : ∀ (cs : List Column) (out0 : ℕ → ℕ → ℂ), (∀ c ∈ cs, c.2.2 = A.tTi ∨ c.2.2 = 0) →
        ∃ out, fill D A m d cs out0 = .ok out := by
      intro cs
      induction cs with
      | nil => intro out0 _; exact ⟨_, rfl⟩
      | cons c cs ih =>
        intro out0 hc
        obtain ⟨v, hv⟩ := (coefOf_errors D A hT c (hc c List.mem_cons_self)).1 ⟨⟨a, b⟩, hk⟩
        unfold fill
        rw [hv]
        simp only [Except.bind]
        unfold assign
        rw [if_pos hs]
        exact ih _ fun c' h' => hc c' (List.mem_cons_of_mem _ h')
    exact this _ _ hti
  · intro h
    by_cases hT : 0 ≤ A.tTi
    · rw [hocc hT, h0]
      unfold fill
      rw [(coefOf_errors D A hT c0 (hti c0 (by rw [h0]; exact List.mem_cons_self))).2.1 (fun h' => h ⟨h'.1, h'.2, hT⟩)]
      rfl
    · unfold occulter
      rw [if_pos (not_le.1 hT)]
  · rintro ⟨a, b, hT⟩ hk
    rw [hocc hT, h0]
    unfold fill
    rw [(coefOf_errors D A hT c0 (hti c0 (by rw [h0]; exact List.mem_cons_self))).2.2 ⟨⟨a, b⟩, hk⟩]
    rfl

/-- Maps of different shapes are never accepted, if there is a pixel: maps of different sizes raise ValueError, and a row with a column of the same length IndexError when all else is right. -/
theorem C150_shapes (u : List Column → List Column) (hu : Unique u) (D : Data) (A : Args) (m d : ThickMap) (hT : 0 ≤ A.tTi) :
    (m.rows * m.cols ≠ d.rows * d.cols → occulter u D A m d = .error .valueError) ∧
    (¬ (m.rows = d.rows ∧ m.cols = d.cols) → 0 < m.rows → 0 < m.cols → ∀ out, occulter u D A m d ≠ .ok out) ∧
    (∀ n, 2 ≤ n → (m.rows = 1 ∧ m.cols = n ∧ d.rows = n ∧ d.cols = 1) → 0 < A.lam → 0 ≤ A.aoi → Known A →
      occulter u D A m d = .error .indexError) := by
  have hsize : m.rows * m.cols = d.rows * d.cols → 0 < m.rows → 0 < m.cols →
      ∃ cols c l, columns A m d = .ok cols ∧ u cols = c :: l ∧ (c.2.2 = A.tTi ∨ c.2.2 = 0) := by
    intro h h1 h2
    obtain ⟨cols, hcols⟩ : ∃ cols, columns A m d = .ok cols := by
      unfold columns
      rw [if_pos h]
      exact ⟨_, rfl⟩
    have hpos : 0 < cols.length := by
      have h' := hcols
      unfold columns at h'
      rw [if_pos h] at h'
      have := Except.ok.inj h'
      rw [← this]
      simp only [List.length_zip, flatten_length, ← h, min_self]
      exact Nat.mul_pos h1 h2
    obtain ⟨c, l, rfl⟩ := List.exists_cons_of_length_pos hpos
    obtain ⟨c0, l0, h0⟩ := List.exists_cons_of_ne_nil (List.ne_nil_of_mem ((hu (c :: l) c).2 List.mem_cons_self))
    refine ⟨_, c0, l0, hcols, h0, columns_ti hcols c0 ((hu _ _).1 ?_)⟩
    rw [h0]; exact List.mem_cons_self
  refine ⟨?_, ?_, ?_⟩
  · intro h
    unfold occulter columns
    rw [if_neg (not_lt.2 hT), if_neg h]
    rfl
  · intro hs h1 h2 out ho
    by_cases h : m.rows * m.cols = d.rows * d.cols
    · obtain ⟨cols, c, l, hc, hu', _⟩ := hsize h h1 h2
      unfold occulter at ho
      rw [if_neg (not_lt.2 hT), hc] at ho
      simp only [Except.bind] at ho
      rw [hu'] at ho
      rcases (fill_ok ho).1 with h3 | h3
      · cases h3
      · exact hs h3
    · unfold occulter columns at ho
      rw [if_neg (not_lt.2 hT), if_neg h] at ho
      cases ho
  · rintro n hn ⟨a, b, c, e⟩ hl ha hk
    obtain ⟨cols, c0, l, hc, hu', hti⟩ := hsize (by rw [a, b, c, e]; ring) (by omega) (by omega)
    unfold occulter
    rw [if_neg (not_lt.2 hT), hc]
    simp only [Except.bind]
    rw [hu']
    obtain ⟨v, hv⟩ := (coefOf_errors D A hT c0 hti).1 ⟨⟨hl, ha⟩, hk⟩
    unfold fill
    rw [hv]
    simp only [Except.bind]
    unfold assign
    rw [if_neg (by omega), if_pos ⟨Or.inr (Or.inl a), Or.inr (Or.inr e)⟩]

/-- A mask without pixels is returned whatever the materials are. -/
theorem C150_empty (u : List Column → List Column) (hu : Unique u) (D : Data) (A : Args) (m d : ThickMap)
    (h : m.rows * m.cols = 0) (h' : d.rows * d.cols = 0) :
    (0 ≤ A.tTi → occulter u D A m d = .ok fun _ _ => 0) ∧ (A.tTi < 0 → occulter u D A m d = .error .typeError) := by
  constructor
  · intro hT
    unfold occulter
    rw [if_neg (not_lt.2 hT)]
    have hcols : columns A m d = .ok [] := by
      unfold columns
      rw [if_pos (by rw [h, h'])]
      congr 1
      have : (ThickMap.flatten d.rows d.cols d.val) = [] := List.length_eq_zero_iff.1 (by rw [flatten_length, h'])
      rw [this]
      rfl
    rw [hcols]
    have : u [] = [] := List.eq_nil_iff_forall_not_mem.2 fun c hc => List.not_mem_nil ((hu _ _).1 hc)
    simp only [Except.bind, this, fill]
  · intro hT
    unfold occulter
    rw [if_pos hT]

/-- No pixel amplifies. For every wavelength between 0.2 and 3 microns, angle of incidence below 90 degrees and all thicknesses that are not negative, at any `d0`. -/
theorem C150_passive (u : List Column → List Column) (hu : Unique u) (D : Data) (hD : D.Good) (A : Args) (h1 : 0.2e-6 ≤ A.lam)
    (h2 : A.lam ≤ 3e-6) (ha : A.aoi < 90) (m d : ThickMap) (out : ℕ → ℕ → ℂ)
    (h : occulter u D A m d = .ok out) (i j : ℕ) (hi : i < m.rows) (hj : j < m.cols)
    (hm : ∀ t, m.val i j = some t → 0 ≤ t) (hd : ∀ t, d.val i j = some t → 0 ≤ t) : ‖out i j‖ ≤ 1 := by
  cases ht : m.val i j with
  | none => rw [C150_violated_nan u D A m d out h i j (Or.inl ht)]; simp
  | some t =>
  cases hs : d.val i j with
  | none => rw [C150_violated_nan u D A m d out h i j (Or.inr hs)]; simp
  | some s =>
  obtain ⟨r, hr⟩ := C150_pixel u hu D A m d out h i j hi hj t s ht hs
  have hv : 0 < A.lam ∧ 0 ≤ A.aoi ∧ 0 ≤ A.tTi := by
    by_contra hv
    rw [(one_errors D A t s).2.1 hv] at hr
    cases hr
  obtain ⟨ns, nd, kd, nm, km, nt, kt, _, _, _, _, ⟨b1, ⟨b2, b3, b4⟩, ⟨b5, b6⟩, b7, b8⟩, _, hT⟩ :=
    C150_table D hD A h1 h2 [t] [s] _ hr
  obtain ⟨row, hrow, _, hrow'⟩ := hT 0 s rfl
  obtain ⟨p, hp, hp'⟩ := hrow' 0 t rfl
  simp only [List.getElem?_cons_zero, Option.some.injEq] at hrow
  subst hrow
  simp only [List.getElem?_cons_zero, Option.some.injEq] at hp
  subst hp
  have hsin : ∀ x : ℝ, Real.sin x ≤ 1 := Real.sin_le_one
  have hth : Real.pi * A.aoi / 180 < Real.pi / 2 := by
    have := Real.pi_pos
    rw [div_lt_div_iff₀ (by norm_num) (by norm_num)]
    nlinarith
  have hphys := C55_table (t := out i j) (r := r) (e := { nSub := ns, nDiel := nd, kDiel := kd, nMetal := nm, kMetal := km, nTi := nt, kTi := kt, tDiel := s, tMetal := t, tTi := if t < 10⁻¹ ^ 10 then 0 else A.tTi, d0 := A.d0, theta := Real.pi * A.aoi / 180, lam := A.lam })
    ⟨hv.1, by have := Real.pi_pos; have := hv.2.1; positivity, hth, lt_of_le_of_lt (hsin _) b1,
      ⟨b2, b3, b4.imp_right fun h => lt_of_le_of_lt (hsin _) h⟩, ⟨b5, b6.le, Or.inl b6⟩, ⟨b7, b8.le, Or.inl b8⟩,
      hd s hs, hm t ht, by show 0 ≤ (if t < 10⁻¹ ^ 10 then 0 else A.tTi); split_ifs; exacts [le_rfl, hv.2.2]⟩
    A.pol A.flagOPD hp'
  have := sq_nonneg ‖r‖
  nlinarith [norm_nonneg (out i j)]

/-- Where there is less than 0.1 nm of metal, the titanium does not matter. -/
theorem C150_no_metal (u : List Column → List Column) (hu : Unique u) (D : Data) (A : Args) (x : ℝ) (m d : ThickMap) (out out' : ℕ → ℕ → ℂ)
    (h : occulter u D A m d = .ok out) (h' : occulter u D { A with tTi := x } m d = .ok out') (i j : ℕ)
    (hi : i < m.rows) (hj : j < m.cols) (t : ℝ) (ht : m.val i j = some t) (hlt : t < 10⁻¹ ^ 10) : out' i j = out i j := by
  cases hs : d.val i j with
  | none => rw [C150_violated_nan u D A m d out h i j (Or.inr hs), C150_violated_nan u D _ m d out' h' i j (Or.inr hs)]
  | some s =>
  obtain ⟨r, hr⟩ := C150_pixel u hu D A m d out h i j hi hj t s ht hs
  obtain ⟨r', hr'⟩ := C150_pixel u hu D _ m d out' h' i j hi hj t s ht hs
  have hlt' : t < 1e-10 := by norm_num at hlt ⊢; exact hlt
  have hen : ∀ n di me, entry { A with tTi := x } n di me t s = entry A n di me t s := by
    intro n di me
    unfold entry tiUnder
    simp only
    rw [if_pos hlt', if_pos hlt']
  have hv : 0 < A.lam ∧ 0 ≤ A.aoi ∧ 0 ≤ A.tTi := by
    by_contra hv
    rw [(one_errors D A t s).2.1 hv] at hr
    cases hr
  have hv' : 0 ≤ x := by
    by_contra hx
    rw [(one_errors D { A with tTi := x } t s).2.1 fun h => hx h.2.2] at hr'
    cases hr'
  have hck : checks { A with tTi := x } = checks A := by
    unfold checks
    simp only
    rw [if_neg (not_lt.2 hv.2.2), if_neg (not_lt.2 hv')]
  rw [trans_one] at hr hr'
  rw [hck] at hr'
  simp only [hen] at hr'
  rw [hr] at hr'
  have := Except.ok.inj hr'
  simp only [List.cons.injEq, Prod.mk.injEq, and_true] at this
  exact this.1.symm

/-- Violated: `FUSED_SILICA` and `FUSEDSILICA`, the long names of fused silica, are rejected: the tuple of its names has one entry `FUSEDSILICA, FUSED_SILICA`, which is accepted. -/
theorem C150_violated_fused_silica (D : Data) (A : Args) (h : 0 < A.lam ∧ 0 ≤ A.aoi ∧ 0 ≤ A.tTi) (ms ds : List ℝ)
    (hn : A.substrate = "FUSED_SILICA" ∨ A.substrate = "FUSEDSILICA" ∨ A.substrate = "fused_silica") :
    transMatrix D A ms ds = .error .valueError ∧ ∃ n, substrateIndex "FusedSilica, Fused_Silica" A.lam = .ok n := by
  have hck : checks A = .ok () := by
    unfold checks
    rw [if_neg (not_le.2 h.1), if_neg (not_lt.2 h.2.1), if_neg (not_lt.2 h.2.2)]
  have hup : A.substrate.toUpper = "FUSED_SILICA" ∨ A.substrate.toUpper = "FUSEDSILICA" := by
    rcases hn with hn | hn | hn <;> rw [hn]
    · exact Or.inl (by decide +kernel)
    · exact Or.inr (by decide +kernel)
    · exact Or.inl (by decide +kernel)
  constructor
  · unfold transMatrix substrateIndex
    rw [hck]
    simp only [bind, Except.bind]
    rcases hup with hup | hup <;> rw [hup] <;> simp
  · unfold substrateIndex
    have : "FusedSilica, Fused_Silica".toUpper = "FUSEDSILICA, FUSED_SILICA" := by decide +kernel
    rw [this]
    simp

/-- Violated: beyond the last wavelength of a table, the index is silently that of the last row: titanium from 1216 nm on. -/
theorem C150_violated_range (lam : ℝ) (h : 1216e-9 ≤ lam) : titaniumIndex lam = (3.62, 4.15) := by
  have hx : (1216 : ℝ) ≤ 10 ^ 9 * lam := by norm_num at h ⊢; linarith
  obtain ⟨⟨g1, g2⟩, _, _⟩ := titanium_spec lam
  have s1 : (titanium.map fun r => (r.1, r.2.1)).Pairwise fun p q => p.1 < q.1 := by
    simp only [titanium, List.map_cons, List.map_nil]
    norm_num
  have s2 : (titanium.map fun r => (r.1, r.2.2)).Pairwise fun p q => p.1 < q.1 := by
    simp only [titanium, List.map_cons, List.map_nil]
    norm_num
  refine Prod.ext ?_ ?_
  · exact C150_curve_unique _ s1 _ _ _ g1 (Or.inr (Or.inl ⟨(1216, 3.62), by simp [titanium], hx, rfl⟩))
  · exact C150_curve_unique _ s2 _ _ _ g2 (Or.inr (Or.inl ⟨(1216, 4.15), by simp [titanium], hx, rfl⟩))

/-! ## The hypotheses are met -/

/-- Nickel on fused silica under PMGI, with two rows of the files. -/
noncomputable def exArgs : Args where
  substrate := "fs"
  metal := "Nickel"
  dielectric := "PMGI"
  lam := 575e-9
  aoi := 5.5
  tTi := 3e-9
  d0 := 4 * 575e-9
  pol := 2
  flagOPD := false

noncomputable def exData : Data := ⟨[(0.5, 1.38, 0.0002), (0.6, 1.37, 0.0002)], [(500, 1.7, 3.1), (600, 1.8, 3.6)]⟩

theorem exData_good : exData.Good := by
  constructor
  · refine ⟨by simp [exData], fun r hr => ?_⟩
    simp only [exData, List.mem_cons, List.not_mem_nil, or_false] at hr
    rcases hr with rfl | rfl <;> norm_num
  · refine ⟨by simp [exData], fun r hr => ?_⟩
    simp only [exData, List.mem_cons, List.not_mem_nil, or_false] at hr
    rcases hr with rfl | rfl <;> norm_num

theorem exArgs_known : Known exArgs := by
  refine ⟨Or.inl ?_, Or.inl ?_, Or.inl ?_, Or.inr (Or.inr rfl)⟩ <;> (unfold exArgs; decide +kernel)

/-- A mask of two by two pixels: bare glass, metal, dielectric, and an unknown thickness. -/
noncomputable def exMetal : ThickMap :=
  ⟨2, 2, fun i j => if i = 0 ∧ j = 0 then some 0 else if i = 1 ∧ j = 1 then none else some 95e-9⟩

noncomputable def exDiel : ThickMap := ⟨2, 2, fun i _ => if i = 1 then some 500e-9 else some 0⟩

example : ∃ out, occulter id exData exArgs exMetal exDiel = .ok out ∧ ‖out 0 1‖ ≤ 1 ∧ out 1 1 = 0 := by
  have hu : Unique id := fun _ _ => Iff.rfl
  obtain ⟨out, ho⟩ := (C150_errors id hu exData exArgs exMetal exDiel ⟨rfl, rfl⟩ ⟨by simp [exMetal], by simp [exMetal]⟩).1
    (by refine ⟨?_, ?_, ?_⟩ <;> (unfold exArgs; norm_num)) exArgs_known
  refine ⟨out, ho, C150_passive id hu exData exData_good exArgs ?_ ?_ ?_ exMetal exDiel out ho 0 1 (by simp [exMetal]) (by simp [exMetal]) ?_ ?_,
    C150_violated_nan id exData exArgs exMetal exDiel out ho 1 1 (Or.inl (by simp [exMetal]))⟩
  · unfold exArgs; norm_num
  · unfold exArgs; norm_num
  · unfold exArgs; norm_num
  · intro t ht
    simp [exMetal] at ht
    rw [← ht]; norm_num
  · intro t ht
    simp [exDiel] at ht
    rw [← ht]

end Verif.Occulter
