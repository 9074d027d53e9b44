import Verif.Lemmas.Jac
import Mathlib.Tactic

/-! # Adjoint lemmas for the propagation steps of the compact model -/

set_option linter.unusedSectionVars false

namespace Verif.Compact
open Verif Complex Verif.Optics

/-- Hermitian inner product of two 2-D arrays. -/
noncomputable def ip {ι κ : Type*} [Fintype ι] [Fintype κ] (F G : ι → κ → ℂ) : ℂ := ∑ i, ∑ j, starRingEnd ℂ (F i j) * G i j

section
variable {ι κ : Type*} [Fintype ι] [Fintype κ]

theorem ip_add_right (F G H : ι → κ → ℂ) : ip F (G + H) = ip F G + ip F H := by
  simp only [ip, Pi.add_apply, mul_add, Finset.sum_add_distrib]
theorem ip_add_left (F G H : ι → κ → ℂ) : ip (F + G) H = ip F H + ip G H := by
  simp only [ip, Pi.add_apply, map_add, add_mul, Finset.sum_add_distrib]
theorem ip_smul_right (c : ℂ) (F G : ι → κ → ℂ) : ip F (c • G) = c * ip F G := by
  simp only [ip, Pi.smul_apply, smul_eq_mul, Finset.mul_sum]
  exact Finset.sum_congr rfl fun _ _ => Finset.sum_congr rfl fun _ _ => by ring
theorem ip_smul_left (c : ℂ) (F G : ι → κ → ℂ) : ip (c • F) G = starRingEnd ℂ c * ip F G := by
  simp only [ip, Pi.smul_apply, smul_eq_mul, Finset.mul_sum, map_mul]
  exact Finset.sum_congr rfl fun _ _ => Finset.sum_congr rfl fun _ _ => by ring
theorem ip_neg_left (F G : ι → κ → ℂ) : ip (-F) G = - ip F G := by
  simp [ip, Finset.sum_neg_distrib]
theorem ip_neg_right (F G : ι → κ → ℂ) : ip F (-G) = - ip F G := by
  simp [ip, Finset.sum_neg_distrib]
theorem ip_sub_right (F G H : ι → κ → ℂ) : ip F (fun i j => G i j - H i j) = ip F G - ip F H := by
  simp only [ip, mul_sub, Finset.sum_sub_distrib]

theorem ip_mul (m F G : ι → κ → ℂ) : ip F (fun i j => m i j * G i j) = ip (fun i j => starRingEnd ℂ (m i j) * F i j) G := by
  unfold ip
  refine Finset.sum_congr rfl fun _ _ => Finset.sum_congr rfl fun _ _ => ?_
  rw [map_mul, conj_conj]; ring

theorem ip_self (F : ι → κ → ℂ) : ip F F = ((∑ i, ∑ j, normSq (F i j) : ℝ) : ℂ) := by
  unfold ip
  push_cast
  exact Finset.sum_congr rfl fun i _ => Finset.sum_congr rfl fun j _ => (normSq_eq _).symm

/-- polarisation: a linear isometry preserves inner products -/
theorem ip_of_isometry {ι' κ' : Type*} [Fintype ι'] [Fintype κ'] (T : (ι → κ → ℂ) → (ι' → κ' → ℂ)) (hT : IsLinearMap ℂ T)
    (hiso : ∀ F, ip (T F) (T F) = ip F F) (F G : ι → κ → ℂ) : ip (T F) (T G) = ip F G := by
  have h1 := hiso (F + G)
  have h2 := hiso (F + I • G)
  simp only [hT.map_add, hT.map_smul, ip_add_left, ip_add_right, ip_smul_left, ip_smul_right, hiso, conj_I] at h1 h2
  linear_combination (1 / 2 : ℂ) * h1 - (I / 2) * h2 + (1 / 2) * (ip (T F) (T G) - ip (T G) (T F) - ip F G + ip G F) * (I_sq)
end

theorem ip_ofFin {N : ℕ} [NeZero N] (F : Pl N) (E : Fin N → Fin N → ℂ) : ip F (ofFin E) = ip (toFin F) E := by
  unfold ip
  rw [← sum_fin_zmod]
  refine Finset.sum_congr rfl fun a _ => ?_
  rw [← sum_fin_zmod]
  refine Finset.sum_congr rfl fun b _ => ?_
  have : ofFin E (a.val : ZMod N) (b.val : ZMod N) = toFin (ofFin E) a b := rfl
  rw [this, toFin_ofFin]; rfl

theorem ip_toFin {N : ℕ} [NeZero N] (F : Fin N → Fin N → ℂ) (E : Pl N) : ip F (toFin E) = ip (ofFin F) E := by
  have h := ip_ofFin (ofFin F) (toFin E)
  rw [ofFin_toFin, toFin_ofFin] at h
  exact h.symm

theorem ip_relay {N : ℕ} [NeZero N] (n : ℤ) (c : Util.Centering) (F E : Pl N) : ip F (relay E n c) = ip (relay F n c) E := by
  by_cases h : n % 2 = 1
  · rw [relay_odd _ _ h, relay_odd _ _ h]
    unfold ip
    let σ : ZMod N ≃ ZMod N := ⟨mirror c, mirror c, mirror_mirror c, mirror_mirror c⟩
    refine Fintype.sum_equiv σ _ _ fun i => ?_
    refine Fintype.sum_equiv σ _ _ fun j => ?_
    have h1 : mirror c (σ i) = i := mirror_mirror c i
    have h2 : mirror c (σ j) = j := mirror_mirror c j
    beta_reduce
    rw [h1, h2]; rfl
  · rw [relay_even _ _ h, relay_even _ _ h]

/-- pixel `i` of an `m`-array and pixel `a` of an `n`-array are the same point when both arrays are centred -/
def Same (m n : ℕ) (i : ZMod m) (a : ZMod n) : Prop := (a.val : ℤ) - ((n / 2 : ℕ) : ℤ) = (i.val : ℤ) - ((m / 2 : ℕ) : ℤ)

instance (m n : ℕ) (i : ZMod m) (a : ZMod n) : Decidable (Same m n i a) := by unfold Same; infer_instance

theorem padF_sum {n m : ℕ} [NeZero n] [NeZero m] (E : Pl n) (i j : ZMod m) :
    padF m E i j = ∑ a : ZMod n, ∑ b : ZMod n, if Same m n i a ∧ Same m n j b then E a b else 0 := by
  unfold padF
  simp only
  set A : ℤ := ((n / 2 : ℕ) : ℤ) + ((i.val : ℤ) - ((m / 2 : ℕ) : ℤ)) with hA
  set B : ℤ := ((n / 2 : ℕ) : ℤ) + ((j.val : ℤ) - ((m / 2 : ℕ) : ℤ)) with hB
  have sa : ∀ a : ZMod n, Same m n i a ↔ (a.val : ℤ) = A := by intro a; unfold Same; rw [hA]; constructor <;> intro h <;> linarith
  have sb : ∀ b : ZMod n, Same m n j b ↔ (b.val : ℤ) = B := by intro a; unfold Same; rw [hB]; constructor <;> intro h <;> linarith
  simp only [sa, sb]
  split
  · rename_i h
    have va : (((A : ℤ) : ZMod n).val : ℤ) = A := by rw [ZMod.val_intCast]; exact Int.emod_eq_of_lt h.1.1 h.1.2
    have vb : (((B : ℤ) : ZMod n).val : ℤ) = B := by rw [ZMod.val_intCast]; exact Int.emod_eq_of_lt h.2.1 h.2.2
    rw [Finset.sum_eq_single ((A : ℤ) : ZMod n), Finset.sum_eq_single ((B : ℤ) : ZMod n), if_pos ⟨va, vb⟩]
    · intro b _ hb
      rw [if_neg]
      rintro ⟨-, h2⟩
      exact hb (ZMod.val_injective n (by omega))
    · simp
    · intro a _ ha
      refine Finset.sum_eq_zero fun b _ => ?_
      rw [if_neg]
      rintro ⟨h1, -⟩
      exact ha (ZMod.val_injective n (by omega))
    · simp
  · rename_i h
    symm
    refine Finset.sum_eq_zero fun a _ => Finset.sum_eq_zero fun b _ => ?_
    rw [if_neg]
    rintro ⟨h1, h2⟩
    have := ZMod.val_lt a
    have := ZMod.val_lt b
    exact h ⟨by omega, by omega⟩

theorem ip_padF {n m : ℕ} [NeZero n] [NeZero m] (F : Pl m) (E : Pl n) : ip F (padF m E) = ip (padF n F) E := by
  unfold ip
  simp only [padF_sum, map_sum, Finset.mul_sum, Finset.sum_mul]
  have e : ∀ (i j : ZMod m) (a b : ZMod n), (starRingEnd ℂ) (F i j) * (if Same m n i a ∧ Same m n j b then E a b else 0)
      = (starRingEnd ℂ) (if Same n m a i ∧ Same n m b j then F i j else 0) * E a b := by
    intro i j a b
    have h1 : Same m n i a ↔ Same n m a i := by unfold Same; exact eq_comm
    have h2 : Same m n j b ↔ Same n m b j := by unfold Same; exact eq_comm
    simp only [h1, h2]
    split <;> simp
  simp only [e]
  calc _ = ∑ i : ZMod m, ∑ a : ZMod n, ∑ j : ZMod m, ∑ b : ZMod n, (starRingEnd ℂ) (if Same n m a i ∧ Same n m b j then F i j else 0) * E a b :=
        Finset.sum_congr rfl fun i _ => Finset.sum_comm
    _ = ∑ a : ZMod n, ∑ i : ZMod m, ∑ j : ZMod m, ∑ b : ZMod n, (starRingEnd ℂ) (if Same n m a i ∧ Same n m b j then F i j else 0) * E a b :=
        Finset.sum_comm
    _ = ∑ a : ZMod n, ∑ i : ZMod m, ∑ b : ZMod n, ∑ j : ZMod m, (starRingEnd ℂ) (if Same n m a i ∧ Same n m b j then F i j else 0) * E a b :=
        Finset.sum_congr rfl fun a _ => Finset.sum_congr rfl fun i _ => Finset.sum_comm
    _ = _ := Finset.sum_congr rfl fun a _ => Finset.sum_comm

theorem ip_ptpCore {N : ℕ} [NeZero N] (F E : Pl N) (w wvl d : ℝ) : ip F (ptpCore E w wvl d) = ip (ptpCore F w wvl (-d)) E := by
  have hiso : ∀ G : Pl N, ip (ptpCore G w wvl d) (ptpCore G w wvl d) = ip G G := by
    intro G
    obtain ⟨G', h1, h2⟩ := C08_energy G w wvl d
    rw [ptp_eq_core] at h1
    rw [Except.ok.inj h1, ip_self, ip_self, h2]
  have hback : ptpCore (ptpCore F w wvl (-d)) w wvl d = F := by
    have h := C08_reversible F w wvl (-d)
    rw [ptp_eq_core, neg_neg] at h
    change ptp (ptpCore F w wvl (-d)) w wvl d = _ at h
    rw [ptp_eq_core] at h
    exact Except.ok.inj h
  have h := ip_of_isometry (fun G : Pl N => ptpCore G w wvl d) (lin_ptpCore w wvl d) hiso (ptpCore F w wvl (-d)) E
  rw [hback] at h
  exact h

theorem conj_exp_imag (r wf : ℝ) : (starRingEnd ℂ) (exp (-2 * Real.pi * I / (wf : ℂ) * r)) = exp (-2 * Real.pi * I / ((-wf : ℝ) : ℂ) * r) := by
  rw [← exp_conj]
  congr 1
  simp only [map_mul, map_div₀, map_neg, conj_I, conj_ofReal, map_ofNat]
  push_cast
  rw [div_neg]; ring

/-- adjoint of the pupil-to-focus MFT, square focal pixels: minus the focus-to-pupil MFT with focal length `-fl` -/
theorem ip_mftP2f {N Neta Nxi : ℕ} (F : Fin Neta → Fin Nxi → ℂ) (E : Fin N → Fin N → ℂ) (fl wvl dx dxi : ℝ) (c : Util.Centering) :
    ip F (mftP2f E fl wvl dx dxi Nxi dxi Neta c) = ip (fun a b => - mftF2p F (-fl) wvl dxi dxi dx N c a b) E := by
  rw [show ∀ {ι κ : Type} [Fintype ι] [Fintype κ] (X Y : ι → κ → ℂ), ip (fun a b => - X a b) Y = - ip X Y from fun X Y => ip_neg_left X Y]
  unfold ip mftP2f mftF2p
  simp only [map_mul, map_sum, Finset.mul_sum, Finset.sum_mul]
  rw [← Finset.sum_neg_distrib]
  have L : ∀ (f : Fin Neta → Fin Nxi → Fin N → Fin N → ℂ), ∑ e, ∑ x, ∑ b, ∑ a, f e x a b = ∑ a, ∑ b, ∑ x, ∑ e, f e x a b := by
    intro f
    calc ∑ e, ∑ x, ∑ b, ∑ a, f e x a b = ∑ x, ∑ e, ∑ b, ∑ a, f e x a b := Finset.sum_comm
      _ = ∑ x, ∑ b, ∑ e, ∑ a, f e x a b := Finset.sum_congr rfl fun _ _ => Finset.sum_comm
      _ = ∑ x, ∑ b, ∑ a, ∑ e, f e x a b := Finset.sum_congr rfl fun _ _ => Finset.sum_congr rfl fun _ _ => Finset.sum_comm
      _ = ∑ b, ∑ x, ∑ a, ∑ e, f e x a b := Finset.sum_comm
      _ = ∑ b, ∑ a, ∑ x, ∑ e, f e x a b := Finset.sum_congr rfl fun _ _ => Finset.sum_comm
      _ = ∑ a, ∑ b, ∑ x, ∑ e, f e x a b := Finset.sum_comm
  rw [L]
  refine Finset.sum_congr rfl fun a _ => ?_
  rw [← Finset.sum_neg_distrib]
  refine Finset.sum_congr rfl fun b _ => ?_
  rw [← Finset.sum_neg_distrib]
  refine Finset.sum_congr rfl fun x _ => ?_
  rw [← Finset.sum_neg_distrib]
  refine Finset.sum_congr rfl fun e _ => ?_
  have hx : ∀ r s : ℝ, (starRingEnd ℂ) (exp (-2 * Real.pi * I / ((wvl : ℂ) * ((-fl : ℝ) : ℂ)) * ((r : ℂ) * (s : ℂ))))
      = exp (-2 * Real.pi * I / ((wvl : ℂ) * (fl : ℂ)) * ((s : ℂ) * (r : ℂ))) := by
    intro r s
    have h := conj_exp_imag (r * s) (wvl * (-fl))
    push_cast at h ⊢
    rw [h]
    congr 1
    ring
  rw [hx, hx]
  have hs : (starRingEnd ℂ) ((Real.sqrt (dx * dx * dxi * dxi) : ℂ) / (1 * (wvl : ℂ) * ((-fl : ℝ) : ℂ))) =
      - ((Real.sqrt (dx * dx * dxi * dxi) : ℂ) / (1 * (wvl : ℂ) * (fl : ℂ))) := by
    simp only [map_div₀, map_mul, map_one, conj_ofReal]
    push_cast
    rw [mul_neg, div_neg]
  rw [hs]
  ring

/-- adjoint of the focus-to-pupil MFT -/
theorem ip_mftF2p {N Neta Nxi : ℕ} (F : Fin N → Fin N → ℂ) (E : Fin Neta → Fin Nxi → ℂ) (fl wvl dx dxi : ℝ) (c : Util.Centering) :
    ip F (mftF2p E fl wvl dxi dxi dx N c) = ip (fun e x => - mftP2f F (-fl) wvl dx dxi Nxi dxi Neta c e x) E := by
  rw [show ∀ {ι κ : Type} [Fintype ι] [Fintype κ] (X Y : ι → κ → ℂ), ip (fun a b => - X a b) Y = - ip X Y from fun X Y => ip_neg_left X Y]
  unfold ip mftP2f mftF2p
  simp only [map_mul, map_sum, Finset.mul_sum, Finset.sum_mul]
  rw [← Finset.sum_neg_distrib]
  have L : ∀ (f : Fin N → Fin N → Fin Neta → Fin Nxi → ℂ), ∑ a, ∑ b, ∑ x, ∑ e, f a b e x = ∑ e, ∑ x, ∑ b, ∑ a, f a b e x := by
    intro f
    calc ∑ a, ∑ b, ∑ x, ∑ e, f a b e x = ∑ b, ∑ a, ∑ x, ∑ e, f a b e x := Finset.sum_comm
      _ = ∑ b, ∑ x, ∑ a, ∑ e, f a b e x := Finset.sum_congr rfl fun _ _ => Finset.sum_comm
      _ = ∑ b, ∑ x, ∑ e, ∑ a, f a b e x := Finset.sum_congr rfl fun _ _ => Finset.sum_congr rfl fun _ _ => Finset.sum_comm
      _ = ∑ x, ∑ b, ∑ e, ∑ a, f a b e x := Finset.sum_comm
      _ = ∑ x, ∑ e, ∑ b, ∑ a, f a b e x := Finset.sum_congr rfl fun _ _ => Finset.sum_comm
      _ = ∑ e, ∑ x, ∑ b, ∑ a, f a b e x := Finset.sum_comm
  rw [L]
  refine Finset.sum_congr rfl fun e _ => ?_
  rw [← Finset.sum_neg_distrib]
  refine Finset.sum_congr rfl fun x _ => ?_
  rw [← Finset.sum_neg_distrib]
  refine Finset.sum_congr rfl fun b _ => ?_
  rw [← Finset.sum_neg_distrib]
  refine Finset.sum_congr rfl fun a _ => ?_
  have hx : ∀ r s : ℝ, (starRingEnd ℂ) (exp (-2 * Real.pi * I / ((wvl : ℂ) * ((-fl : ℝ) : ℂ)) * ((r : ℂ) * (s : ℂ))))
      = exp (-2 * Real.pi * I / ((wvl : ℂ) * (fl : ℂ)) * ((s : ℂ) * (r : ℂ))) := by
    intro r s
    have h := conj_exp_imag (r * s) (wvl * (-fl))
    push_cast at h ⊢
    rw [h]
    congr 1
    ring
  rw [hx, hx]
  have hs : (starRingEnd ℂ) ((Real.sqrt (dx * dx * dxi * dxi) : ℂ) / (1 * (wvl : ℂ) * ((-fl : ℝ) : ℂ))) =
      - ((Real.sqrt (dx * dx * dxi * dxi) : ℂ) / (1 * (wvl : ℂ) * (fl : ℂ))) := by
    simp only [map_div₀, map_mul, map_one, conj_ofReal]
    push_cast
    rw [mul_neg, div_neg]
  rw [hs]
  ring

/-- For even sizes `m ≤ n`, padding and relaying commute when the field has no light in the first row and column (pixel centering), always
for interpixel centering. -/
theorem padF_relay {n m : ℕ} [NeZero n] [NeZero m] (hn : Even n) (hm : Even m) (hmn : m ≤ n) (k : ℤ) (c : Util.Centering) (g : Pl m)
    (hg : k % 2 = 1 → c = .interpixel ∨ ∀ i j : ZMod m, (i = 0 ∨ j = 0) → g i j = 0) :
    padF n (relay g k c) = relay (padF n g) k c := by
  by_cases hk : k % 2 = 1
  · rw [relay_odd _ _ hk, relay_odd _ _ hk]
    funext i j
    rw [padF_sum]
    change _ = padF n g (mirror c i) (mirror c j)
    rw [padF_sum]
    let σ : ZMod m ≃ ZMod m := ⟨mirror c, mirror c, mirror_mirror c, mirror_mirror c⟩
    refine Fintype.sum_equiv σ _ _ fun a => ?_
    refine Fintype.sum_equiv σ _ _ fun b => ?_
    change (if Same n m i a ∧ Same n m j b then g (mirror c a) (mirror c b) else 0) =
      if Same n m (mirror c i) (mirror c a) ∧ Same n m (mirror c j) (mirror c b) then g (mirror c a) (mirror c b) else 0
    by_cases hz : g (mirror c a) (mirror c b) = 0
    · simp [hz]
    have hgood : c = .interpixel ∨ (a ≠ 0 ∧ b ≠ 0) := by
      rcases hg hk with h | h
      · exact Or.inl h
      · cases c
        · right
          constructor
          · rintro rfl; exact hz (h _ _ (Or.inl (by simp [mirror])))
          · rintro rfl; exact hz (h _ _ (Or.inr (by simp [mirror])))
        · exact Or.inl rfl
    have hne : n % 2 = 0 := Nat.even_iff.1 hn
    have hme : m % 2 = 0 := Nat.even_iff.1 hm
    have key : ∀ (i : ZMod n) (a : ZMod m), (c = .interpixel ∨ a ≠ 0) → (Same n m i a ↔ Same n m (mirror c i) (mirror c a)) := by
      intro i a ha
      have hi := ZMod.val_lt i
      have ha' := ZMod.val_lt a
      unfold Same
      cases c
      · have ha0 : a ≠ 0 := by simpa using ha
        have : NeZero a := ⟨ha0⟩
        have e1 : (mirror .pixel a).val = m - a.val := by unfold mirror; simp only [if_true]; exact ZMod.val_neg_of_ne_zero a
        have hapos : 0 < a.val := by
          rw [Nat.pos_iff_ne_zero]; intro h; exact ha0 ((ZMod.val_eq_zero a).1 h)
        rw [e1]
        by_cases hi0 : i = 0
        · subst hi0
          have e2 : (mirror .pixel (0 : ZMod n)).val = 0 := by unfold mirror; simp
          rw [e2, ZMod.val_zero]
          constructor <;> intro h <;> omega
        · have : NeZero i := ⟨hi0⟩
          have e2 : (mirror .pixel i).val = n - i.val := by unfold mirror; simp only [if_true]; exact ZMod.val_neg_of_ne_zero i
          rw [e2]
          constructor <;> intro h <;> omega
      · have e : ∀ {q : ℕ} [NeZero q] (i : ZMod q), (mirror .interpixel i).val = q - 1 - i.val := by
          intro q _ i
          unfold mirror
          have hi := ZMod.val_lt i
          have e : (-1 - i : ZMod q) = ((q - 1 - i.val : ℕ) : ZMod q) := by
            have h2 : ((q - 1 - i.val : ℕ) : ZMod q) + 1 + (i.val : ZMod q) = (q : ZMod q) := by
              have h3 : (q - 1 - i.val) + 1 + i.val = q := by omega
              exact_mod_cast congrArg (fun n : ℕ => (n : ZMod q)) h3
            rw [ZMod.natCast_zmod_val, ZMod.natCast_self] at h2
            linear_combination -h2
          simp only [reduceCtorEq, if_false]
          rw [e, ZMod.val_natCast, Nat.mod_eq_of_lt (by omega)]
        rw [e, e]
        constructor <;> intro h <;> omega
    have k1 := key i a (hgood.imp id (·.1))
    have k2 := key j b (hgood.imp id (·.2))
    simp only [k1, k2]
  · rw [relay_even _ _ hk, relay_even _ _ hk]

end Verif.Compact
