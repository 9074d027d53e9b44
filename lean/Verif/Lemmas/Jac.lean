import Verif.Lemmas.Compact

/-! # Lemmas on boxed propagation (control Jacobian) -/

set_option linter.unusedSectionVars false

namespace Verif.Compact
open Verif Complex Verif.Optics

variable {N : ℕ} [NeZero N] {B : ℕ} [NeZero B]

/-- coordinate of index `i` -/
noncomputable def axZ (N : ℕ) [NeZero N] (dx : ℝ) (c : Util.Centering) (i : ZMod N) : ℝ := ax N dx c ⟨i.val, ZMod.val_lt i⟩

theorem sum_fin_zmod {β : Type*} [AddCommMonoid β] (f : ZMod N → β) : ∑ a : Fin N, f (a.val : ZMod N) = ∑ i : ZMod N, f i := by
  refine Fintype.sum_equiv ⟨fun a : Fin N => (a.val : ZMod N), fun i => ⟨i.val, ZMod.val_lt i⟩, ?_, ?_⟩ _ _ (fun _ => rfl)
  · intro a; ext; simp [ZMod.val_natCast, Nat.mod_eq_of_lt a.isLt]
  · intro i; simp

theorem ax_natCast (dx : ℝ) (c : Util.Centering) (a : Fin N) : axZ N dx c (a.val : ZMod N) = ax N dx c a := by
  unfold axZ
  congr 1
  ext; simp [ZMod.val_natCast, Nat.mod_eq_of_lt a.isLt]

/-- sum over an embedded segment -/
theorem sum_segment {β : Type*} [AddCommMonoid β] (y0 : ℤ) (h0 : 0 ≤ y0) (h1 : y0 + B ≤ N) (g : ZMod N → ZMod B → β) :
    ∑ i : ZMod N, (if y0 ≤ i.val ∧ (i.val : ℤ) < y0 + B then g i ((((i.val : ℤ) - y0) : ℤ) : ZMod B) else 0)
      = ∑ k : ZMod B, g (((y0 + (k.val : ℤ)) : ℤ) : ZMod N) k := by
  rw [← Finset.sum_filter]
  symm
  have hv : ∀ k : ZMod B, ((((y0 + (k.val : ℤ)) : ℤ) : ZMod N)).val = (y0 + k.val).toNat := by
    intro k
    have hk := ZMod.val_lt k
    have : ((y0 + (k.val : ℤ)) : ℤ) = (((y0 + k.val).toNat : ℕ) : ℤ) := by omega
    rw [this, Int.cast_natCast, ZMod.val_natCast, Nat.mod_eq_of_lt (by omega)]
    omega
  refine Finset.sum_bij (fun k _ => ((((y0 + (k.val : ℤ)) : ℤ) : ZMod N))) ?_ ?_ ?_ ?_
  · intro k _
    have hk := ZMod.val_lt k
    simp only [Finset.mem_filter, Finset.mem_univ, true_and]
    rw [hv]; omega
  · intro k _ k' _ h
    have := congrArg ZMod.val h
    rw [hv, hv] at this
    apply ZMod.val_injective B
    omega
  · intro i hi
    simp only [Finset.mem_filter, Finset.mem_univ, true_and] at hi
    refine ⟨((((i.val : ℤ) - y0).toNat : ℕ) : ZMod B), Finset.mem_univ _, ?_⟩
    apply ZMod.val_injective N
    rw [hv, ZMod.val_natCast, Nat.mod_eq_of_lt (by omega)]
    omega
  · intro k _
    congr 1
    rw [hv]
    have : (((y0 + (k.val : ℤ)).toNat : ℕ) : ℤ) - y0 = (k.val : ℤ) := by omega
    rw [this, Int.cast_natCast, ZMod.natCast_zmod_val]

/-- double sum of an embedded box -/
theorem sum_embed (y0 x0 : ℤ) (hy0 : 0 ≤ y0) (hy1 : y0 + B ≤ N) (hx0 : 0 ≤ x0) (hx1 : x0 + B ≤ N) (X : Pl B)
    (f g : ZMod N → ℂ) :
    ∑ j : ZMod N, (∑ i : ZMod N, f i * embedBox B y0 x0 X i j) * g j
      = ∑ b : ZMod B, (∑ a : ZMod B, f (((y0 + (a.val : ℤ)) : ℤ) : ZMod N) * X a b) * g (((x0 + (b.val : ℤ)) : ℤ) : ZMod N) := by
  have h1 : ∀ j : ZMod N, (∑ i : ZMod N, f i * embedBox B y0 x0 X i j) * g j
      = if x0 ≤ j.val ∧ (j.val : ℤ) < x0 + B then
          (fun (j : ZMod N) (b : ZMod B) => (∑ a : ZMod B, f (((y0 + (a.val : ℤ)) : ℤ) : ZMod N) * X a b) * g j) j
            ((((j.val : ℤ) - x0) : ℤ) : ZMod B) else 0 := by
    intro j
    by_cases hj : x0 ≤ j.val ∧ (j.val : ℤ) < x0 + B
    · rw [if_pos hj]
      dsimp only
      congr 1
      rw [← sum_segment y0 hy0 hy1 (fun i a => f i * X a ((((j.val : ℤ) - x0) : ℤ) : ZMod B))]
      refine Finset.sum_congr rfl fun i _ => ?_
      unfold embedBox
      by_cases hi : y0 ≤ i.val ∧ (i.val : ℤ) < y0 + B
      · rw [if_pos ⟨hi, hj⟩, if_pos hi]
      · rw [if_neg (fun h => hi h.1), if_neg hi, mul_zero]
    · rw [if_neg hj]
      have : ∀ i : ZMod N, f i * embedBox B y0 x0 X i j = 0 := by
        intro i; unfold embedBox; rw [if_neg (fun h => hj h.2), mul_zero]
      simp [this]
  simp only [h1]
  rw [sum_segment x0 hx0 hx1 (fun (j : ZMod N) (b : ZMod B) => (∑ a : ZMod B, f (((y0 + (a.val : ℤ)) : ℤ) : ZMod N) * X a b) * g j)]

/-- the index which an odd number of relays reads: `-i` for pixel centering, `-1-i` for interpixel -/
def mirror (c : Util.Centering) (i : ZMod N) : ZMod N := if c = .pixel then -i else -1 - i

theorem mirror_mirror (c : Util.Centering) (i : ZMod N) : mirror c (mirror c i) = i := by
  unfold mirror; split <;> ring

theorem relay_odd {α : Type*} (E : ZMod N → ZMod N → α) (n : ℤ) (hn : n % 2 = 1) (c : Util.Centering) :
    relay E n c = fun i j => E (mirror c i) (mirror c j) := by
  unfold relay mirror
  rw [if_pos hn]
  cases c
  · simp only [if_true]
    funext i j; unfold roll2 reverse2; push_cast; congr 1 <;> ring
  · rfl

theorem relay_even {α : Type*} (E : ZMod N → ZMod N → α) (n : ℤ) (hn : ¬ n % 2 = 1) (c : Util.Centering) : relay E n c = E := by
  unfold relay; rw [if_neg hn]

/-- Mirrored coordinates are negated, except for the first row/column of a pixel-centred array; `N` even. -/
theorem axZ_mirror (hN : Even N) (dx : ℝ) (c : Util.Centering) (i : ZMod N) (hi : c = .interpixel ∨ i ≠ 0) :
    axZ N dx c (mirror c i) = - axZ N dx c i := by
  unfold axZ
  rw [ax_eq, ax_eq]
  have hNe : N % 2 = 0 := Nat.even_iff.1 hN
  have hpos := NeZero.pos N
  have hv := ZMod.val_lt i
  have hh : ((N / 2 : ℕ) : ℝ) * 2 = N := by
    have : N / 2 * 2 = N := by omega
    exact_mod_cast this
  cases c
  · have hi' : i ≠ 0 := by simpa using hi
    have : NeZero i := ⟨hi'⟩
    have : (mirror .pixel i).val = N - i.val := by
      unfold mirror; simp only [if_true]
      exact ZMod.val_neg_of_ne_zero i
    simp only [this]
    rw [Nat.cast_sub hv.le]
    simp
    linear_combination dx * (-hh)
  · have : (mirror .interpixel i).val = N - 1 - i.val := by
      unfold mirror
      have e : (-1 - i : ZMod N) = ((N - 1 - i.val : ℕ) : ZMod N) := by
        have h2 : ((N - 1 - i.val : ℕ) : ZMod N) + 1 + (i.val : ZMod N) = (N : ZMod N) := by
          have h3 : (N - 1 - i.val) + 1 + i.val = N := by omega
          exact_mod_cast congrArg (fun n : ℕ => (n : ZMod N)) h3
        rw [ZMod.natCast_zmod_val, ZMod.natCast_self] at h2
        linear_combination -h2
      simp only [reduceCtorEq, if_false]
      rw [e, ZMod.val_natCast, Nat.mod_eq_of_lt (by omega)]
    simp only [this]
    rw [show N - 1 - i.val = N - (1 + i.val) by omega, Nat.cast_sub (by omega)]
    push_cast
    simp [hNe]
    linear_combination dx * (-hh)

/-- `mft_p2f` with sums over residues -/
theorem mftP2f_zmod (E : Pl N) (fl wvl dx dxi : ℝ) (Nxi : ℕ) (deta : ℝ) (Neta : ℕ) (c : Util.Centering) (e : Fin Neta) (x : Fin Nxi) :
    mftP2f (toFin E) fl wvl dx dxi Nxi deta Neta c e x =
      (Real.sqrt (dx * dx * dxi * deta) / (1 * wvl * fl) : ℂ) * ∑ j : ZMod N, (∑ i : ZMod N,
        exp (-2 * Real.pi * I / (wvl * fl) * (ax Neta deta c e * axZ N dx c i)) * E i j) *
          exp (-2 * Real.pi * I / (wvl * fl) * (axZ N dx c j * ax Nxi dxi c x)) := by
  unfold mftP2f
  congr 1
  rw [← sum_fin_zmod]
  refine Finset.sum_congr rfl fun b _ => ?_
  rw [← sum_fin_zmod, ax_natCast]
  congr 1
  refine Finset.sum_congr rfl fun a _ => ?_
  rw [ax_natCast]; rfl

/-- `X` has no light in the first row or column of the `N × N` array when embedded (only relevant for pixel centering). -/
def NoFirst (N : ℕ) [NeZero N] (B : ℕ) [NeZero B] (y0 x0 : ℤ) (X : Pl B) : Prop :=
  ∀ a b : ZMod B, (y0 + a.val = 0 ∨ x0 + b.val = 0) → X a b = 0

variable {N4 Neta Nxi Meta Mxi : ℕ} [NeZero N4]

/-- The box MFT equals the MFT of the relayed full array which holds the box. -/
theorem boxMft_eq (S : Sys N N4 Neta Nxi Meta Mxi) (hN : Even N)
    (y0 x0 : ℤ) (hy0 : 0 ≤ y0) (hy1 : y0 + B ≤ N) (hx0 : 0 ≤ x0) (hx1 : x0 + B ≤ N) (X : Pl B)
    (hc : S.rel S.n23 % 2 = 1 → S.centering = .interpixel ∨ NoFirst N B y0 x0 X) :
    boxMft S B y0 x0 X = mftP2f (toFin (relay (embedBox B y0 x0 X : Pl N) (S.rel S.n23) S.centering)) S.fl S.wvl S.dx
      (S.fpmScale * S.dxiF3) Nxi (S.fpmScale * S.detaF3) Neta S.centering := by
  funext e x
  rw [mftP2f_zmod]
  have hs : (Real.sqrt (S.dx * S.dx * (S.fpmScale * S.dxiF3) * (S.fpmScale * S.detaF3)) : ℂ) / (1 * S.wvl * S.fl)
      = Real.sqrt (S.dx * S.dx) * Real.sqrt ((S.fpmScale * S.dxiF3) * (S.fpmScale * S.detaF3)) / (S.wvl * S.fl) := by
    have h := Real.sqrt_mul (mul_self_nonneg S.dx) ((S.fpmScale * S.dxiF3) * (S.fpmScale * S.detaF3))
    rw [← mul_assoc (S.dx * S.dx)] at h
    rw [one_mul, h, ofReal_mul]
  rw [hs]
  set sc : ℂ := Real.sqrt (S.dx * S.dx) * Real.sqrt ((S.fpmScale * S.dxiF3) * (S.fpmScale * S.detaF3)) / (S.wvl * S.fl) with hsc
  set cf : ℂ := -2 * Real.pi * I / (S.wvl * S.fl) with hcf
  unfold boxMft
  dsimp only
  rw [← hsc, ← hcf]
  have hcoord : ∀ k : ℤ, boxMft.coordAt S k = axZ N S.dx S.centering (k : ZMod N) := fun k => rfl
  have pull : ∀ (F : ZMod B → ℂ) (Y : ZMod B → ZMod B → ℂ) (G : ZMod B → ℂ),
      ∑ b, (∑ a, F a * sc * Y a b) * G b = sc * ∑ b, (∑ a, F a * Y a b) * G b := by
    intro F Y G
    rw [Finset.mul_sum]
    refine Finset.sum_congr rfl fun b _ => ?_
    rw [← mul_assoc, Finset.mul_sum]
    congr 1
    exact Finset.sum_congr rfl fun a _ => by ring
  by_cases hodd : S.rel S.n23 % 2 = 1
  · simp only [if_pos hodd]
    rw [pull, relay_odd _ _ hodd]
    congr 1
    -- full-array side: reindex by the mirror
    have hm : ∀ (F : ZMod N → ℂ) (G : ZMod N → ℂ) (E : Pl N),
        ∑ j, (∑ i, F i * E (mirror S.centering i) (mirror S.centering j)) * G j
          = ∑ j, (∑ i, F (mirror S.centering i) * E i j) * G (mirror S.centering j) := by
      intro F G E
      let σ : ZMod N ≃ ZMod N := ⟨mirror S.centering, mirror S.centering, mirror_mirror _, mirror_mirror _⟩
      refine Fintype.sum_equiv σ _ _ fun j => ?_
      have : mirror S.centering (σ j) = j := mirror_mirror _ _
      rw [this]
      congr 1
      refine Fintype.sum_equiv σ _ _ fun i => ?_
      have : mirror S.centering (σ i) = i := mirror_mirror _ _
      rw [this]; rfl
    rw [hm, sum_embed y0 x0 hy0 hy1 hx0 hx1]
    -- box side: reindex by `-1 - ·`
    let τ : ZMod B ≃ ZMod B := ⟨fun b => -1 - b, fun b => -1 - b, fun b => by ring, fun b => by ring⟩
    have hb : ∀ (F : ZMod B → ℂ) (G : ZMod B → ℂ),
        ∑ b, (∑ a, F (-1 - a) * reverse2 X a b) * G (-1 - b) = ∑ b, (∑ a, F a * X a b) * G b := by
      intro F G
      refine Fintype.sum_equiv τ _ _ fun b => ?_
      congr 1
      exact Fintype.sum_equiv τ _ _ fun a => rfl
    rw [hb (fun a => exp (cf * (ax Neta (S.fpmScale * S.detaF3) S.centering e * ((-1 * boxMft.coordAt S (y0 + a.val) : ℝ) : ℂ))))
      (fun b => exp (cf * (((-1 * boxMft.coordAt S (x0 + b.val) : ℝ) : ℂ) * ax Nxi (S.fpmScale * S.dxiF3) S.centering x)))]
    simp only [Finset.sum_mul]
    refine Finset.sum_congr rfl fun b _ => Finset.sum_congr rfl fun a _ => ?_
    by_cases hX : X a b = 0
    · simp [hX]
    have hne : S.centering = .interpixel ∨ ((((y0 + (a.val : ℤ)) : ℤ) : ZMod N) ≠ 0 ∧ (((x0 + (b.val : ℤ)) : ℤ) : ZMod N) ≠ 0) := by
      rcases hc hodd with h | h
      · exact Or.inl h
      · right
        have ha := ZMod.val_lt a
        have hb := ZMod.val_lt b
        constructor
        · intro h0
          rw [ZMod.intCast_zmod_eq_zero_iff_dvd] at h0
          exact hX (h a b (Or.inl (Int.eq_zero_of_dvd_of_nonneg_of_lt (by omega) (by omega) h0)))
        · intro h0
          rw [ZMod.intCast_zmod_eq_zero_iff_dvd] at h0
          exact hX (h a b (Or.inr (Int.eq_zero_of_dvd_of_nonneg_of_lt (by omega) (by omega) h0)))
    rw [hcoord, hcoord, axZ_mirror hN _ _ _ (hne.imp id (·.1)), axZ_mirror hN _ _ _ (hne.imp id (·.2))]
    simp only [neg_mul, one_mul]
  · simp only [if_neg hodd]
    rw [pull, relay_even _ _ hodd, sum_embed y0 x0 hy0 hy1 hx0 hx1]
    simp only [hcoord]

/-- From the boxed P2 field to the camera: same as propagating the full array which holds the box. -/
theorem boxToEnd_eq (S : Sys N N4 Neta Nxi Meta Mxi) (hN : Even N) (hcoro : ∀ D NB vm tk, S.coro ≠ .vortex D NB vm tk)
    (y0 x0 : ℤ) (hy0 : 0 ≤ y0) (hy1 : y0 + B ≤ N) (hx0 : 0 ≤ x0) (hx1 : x0 + B ≤ N) (X : Pl B)
    (hc : S.rel S.n23 % 2 = 1 → S.centering = .interpixel ∨ NoFirst N B y0 x0 X) :
    boxToEnd S B y0 x0 X = .ok (p4toEnd S (p3to4 S (relay (embedBox B y0 x0 X : Pl N) (S.rel S.n23) S.centering))) := by
  have hm := boxMft_eq S hN y0 x0 hy0 hy1 hx0 hx1 X hc
  unfold boxToEnd p3to4
  have hco := hcoro
  cases hcr : S.coro with
  | babinet mask t =>
    dsimp only
    rw [hm, C07_compose]
    have : S.rel (S.n23 + S.n34) = S.rel S.n23 + S.rel S.n34 := by unfold Sys.rel; ring
    rw [this]
  | flc mask => dsimp only; rw [hm]
  | vortex D NB vm tk => exact absurd hcr (hco D NB vm tk)

end Verif.Compact
