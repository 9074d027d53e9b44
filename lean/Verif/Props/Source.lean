import Verif.Props.FullModel
import Verif.Model.Source

/-!
# C90: the source — brightness and position of the star and of an off-axis companion;  C91: Zernike modes
-/

set_option linter.unusedSectionVars false

namespace Verif.Compact
open Verif Complex Verif.Optics

variable {N N4 Neta Nxi Meta Mxi N3 : ℕ} [NeZero N] [NeZero N4] [NeZero N3] {n : ℕ} [NeZero n]

/-! ## tilts on arrays of any size -/

/-- linear phase with slopes `a` (rows) and `b` (columns) per unit length -/
noncomputable def lph (m : ℕ) [NeZero m] (dx : ℝ) (c : Util.Centering) (a b : ℝ) : Pl m := fun i j =>
  exp (I * (a * axZ m dx c i + b * axZ m dx c j : ℝ))

/-- nothing in the first row or column of a pixel-centred array -/
def Clear {m : ℕ} (c : Util.Centering) (X : Pl m) : Prop := c = .interpixel ∨ ∀ i j : ZMod m, (i = 0 ∨ j = 0) → X i j = 0

/-- the sign of the coordinates after `k` relays -/
def flip (k : ℤ) : ℝ := if k % 2 = 1 then -1 else 1

theorem relay_lph {m : ℕ} [NeZero m] (hm : Even m) (dx : ℝ) (c : Util.Centering) (a b : ℝ) (k : ℤ) (X : Pl m) (hX : Clear c X) :
    relay (fun i j => X i j * lph m dx c a b i j) k c = fun i j => relay X k c i j * lph m dx c (flip k * a) (flip k * b) i j := by
  by_cases hk : k % 2 = 1
  · rw [relay_odd _ _ hk, relay_odd _ _ hk]
    funext i j
    dsimp only
    unfold flip
    rw [if_pos hk]
    by_cases hz : X (mirror c i) (mirror c j) = 0
    · rw [hz]; ring
    · have hij : (c = .interpixel ∨ i ≠ 0) ∧ (c = .interpixel ∨ j ≠ 0) := by
        rcases hX with h | h
        · exact ⟨Or.inl h, Or.inl h⟩
        · cases c
          · refine ⟨Or.inr ?_, Or.inr ?_⟩
            · rintro rfl; exact hz (h _ _ (Or.inl (by simp [mirror])))
            · rintro rfl; exact hz (h _ _ (Or.inr (by simp [mirror])))
          · exact ⟨Or.inl rfl, Or.inl rfl⟩
      unfold lph
      rw [axZ_mirror hm dx c i hij.1, axZ_mirror hm dx c j hij.2]
      congr 4
      ring
  · rw [relay_even _ _ hk, relay_even _ _ hk]
    unfold flip
    rw [if_neg hk, one_mul, one_mul]

theorem clear_relay {m : ℕ} [NeZero m] (c : Util.Centering) (k : ℤ) (X : Pl m) (hX : Clear c X) : Clear c (relay X k c) := by
  rcases hX with h | h
  · exact Or.inl h
  · cases c
    · right
      intro i j hij
      by_cases hk : k % 2 = 1
      · rw [relay_odd _ _ hk]
        refine h _ _ ?_
        rcases hij with rfl | rfl
        · left; simp [mirror]
        · right; simp [mirror]
      · rw [relay_even _ _ hk]; exact h i j hij
    · exact Or.inl rfl

theorem clear_mul {m : ℕ} (c : Util.Centering) (X Y : Pl m) (hX : Clear c X) : Clear c (fun i j => X i j * Y i j) := by
  rcases hX with h | h
  · exact Or.inl h
  · right; intro i j hij; simp only [h i j hij, zero_mul]

theorem padF_lph {m p : ℕ} [NeZero m] [NeZero p] (hm : Even m) (hp : Even p) (dx : ℝ) (c : Util.Centering) (a b : ℝ) (X : Pl m) :
    (padF p (fun i j => X i j * lph m dx c a b i j) : Pl p) = fun i j => padF p X i j * lph p dx c a b i j := by
  funext i j
  unfold padF
  dsimp only
  split_ifs with h
  · congr 1
    unfold lph axZ
    rw [ax_eq, ax_eq, ax_eq, ax_eq]
    have hme := Nat.even_iff.1 hm
    have hpe := Nat.even_iff.1 hp
    have val : ∀ t : ZMod p, 0 ≤ ((m / 2 : ℕ) : ℤ) + ((t.val : ℤ) - ((p / 2 : ℕ) : ℤ)) → ((m / 2 : ℕ) : ℤ) + ((t.val : ℤ) - ((p / 2 : ℕ) : ℤ)) < m →
        (((((m / 2 : ℕ) : ℤ) + ((t.val : ℤ) - ((p / 2 : ℕ) : ℤ)) : ℤ) : ZMod m).val : ℝ) = ((m / 2 : ℕ) : ℝ) + ((t.val : ℝ) - ((p / 2 : ℕ) : ℝ)) := by
      intro t h0 h1
      have e : ((((m / 2 : ℕ) : ℤ) + ((t.val : ℤ) - ((p / 2 : ℕ) : ℤ)) : ℤ) : ZMod m).val = (((m / 2 : ℕ) : ℤ) + ((t.val : ℤ) - ((p / 2 : ℕ) : ℤ))).toNat := by
        have h2 : (((m / 2 : ℕ) : ℤ) + ((t.val : ℤ) - ((p / 2 : ℕ) : ℤ)) : ℤ) = (((((m / 2 : ℕ) : ℤ) + ((t.val : ℤ) - ((p / 2 : ℕ) : ℤ))).toNat : ℕ) : ℤ) := by omega
        rw [h2, Int.cast_natCast, ZMod.val_natCast, Nat.mod_eq_of_lt (by omega)]
        omega
      rw [e]
      have h3 : ((((((m / 2 : ℕ) : ℤ) + ((t.val : ℤ) - ((p / 2 : ℕ) : ℤ))).toNat : ℕ) : ℤ) : ℝ) = ((((m / 2 : ℕ) : ℤ) + ((t.val : ℤ) - ((p / 2 : ℕ) : ℤ)) : ℤ) : ℝ) := by
        congr 1; omega
      rw [Int.cast_natCast] at h3
      rw [h3]
      simp only [Int.cast_add, Int.cast_sub, Int.cast_natCast]
    rw [val i h.1.1 h.1.2, val j h.2.1 h.2.2]
    congr 3
    simp only [hme, hpe]
    ring
  · simp

theorem mul_lph {m : ℕ} [NeZero m] (dx : ℝ) (c : Util.Centering) (a b : ℝ) (M X : Pl m) :
    (fun i j => M i j * (X i j * lph m dx c a b i j)) = fun i j => (M i j * X i j) * lph m dx c a b i j := by
  funext i j; ring

/-! ## C90 -/

theorem tilt_lph (hn : Even n) (dx D lambda0 wvl : ℝ) (c : Util.Centering) (x y : ℝ) :
    tilt lambda0 wvl (XsDL n dx D c) (YsDL n dx D c) x y = lph n dx c (-(2 * Real.pi * lambda0 / (wvl * D)) * y) (-(2 * Real.pi * lambda0 / (wvl * D)) * x) := by
  have key : ∀ k : ZMod n, xsDL n dx D c k.val = axZ n dx c k / D := by
    intro k
    unfold xsDL axZ
    rw [ax_eq]
    have he := Nat.even_iff.1 hn
    have hh : ((n / 2 : ℕ) : ℝ) = (n : ℝ) / 2 := by
      have : n / 2 * 2 = n := by omega
      have h2 : ((n / 2 : ℕ) : ℝ) * 2 = n := by exact_mod_cast this
      linarith
    rw [hh]
    cases c
    · simp [he]; ring
    · simp only [he]; norm_num; ring
  funext i j
  unfold tilt lph XsDL YsDL
  rw [key, key]
  congr 1
  push_cast
  by_cases hw : wvl = 0
  · subst hw; simp
  by_cases hD : D = 0
  · subst hD; simp
  have hw' : (wvl : ℂ) ≠ 0 := by exact_mod_cast hw
  have hD' : (D : ℂ) ≠ 0 := by exact_mod_cast hD
  field_simp
  ring

theorem tilt_add {m : ℕ} (lambda0 wvl : ℝ) (X Y : ZMod m → ZMod m → ℝ) (x y x' y' : ℝ) (i j : ZMod m) :
    tilt lambda0 wvl X Y (x + x') (y + y') i j = tilt lambda0 wvl X Y x y i j * tilt lambda0 wvl X Y x' y' i j := by
  unfold tilt
  rw [← Complex.exp_add]
  congr 1
  push_cast
  ring

/-- Focal-plane field at the continuous coordinates `(v, u)` of a sampled pupil field `A`: the Fourier sum. -/
noncomputable def ft {m : ℕ} (A : Pl m) (fl wvl dx dxi deta : ℝ) (c : Util.Centering) (v u : ℝ) : ℂ :=
  (Real.sqrt (dx * dx * dxi * deta) / (1 * wvl * fl) : ℂ) * ∑ q, (∑ p, exp ((-2 * Real.pi * I / (wvl * fl)) * (v * ax m dx c p)) * toFin A p q) *
    exp ((-2 * Real.pi * I / (wvl * fl)) * (ax m dx c q * u))

/-- The camera field of a pupil field multiplied by a linear phase: the transform of the pupil field at shifted coordinates. -/
theorem mft_lph {m : ℕ} [NeZero m] (A : Pl m) (fl wvl dx dxi deta : ℝ) (hfl : fl ≠ 0) (hwvl : wvl ≠ 0) (c : Util.Centering) (a b : ℝ) (e : Fin Meta) (x : Fin Mxi) :
    mftP2f (toFin fun i j => A i j * lph m dx c a b i j) fl wvl dx dxi Mxi deta Meta c e x =
      ft A fl wvl dx dxi deta c (ax Meta deta c e - a * (wvl * fl) / (2 * Real.pi)) (ax Mxi dxi c x - b * (wvl * fl) / (2 * Real.pi)) := by
  unfold mftP2f ft
  congr 1
  refine Finset.sum_congr rfl fun q _ => ?_
  rw [Finset.sum_mul, Finset.sum_mul]
  refine Finset.sum_congr rfl fun p _ => ?_
  unfold toFin lph
  dsimp only
  rw [ax_natCast, ax_natCast]
  have hf' : (fl : ℂ) ≠ 0 := by exact_mod_cast hfl
  have hw' : (wvl : ℂ) ≠ 0 := by exact_mod_cast hwvl
  have hpi : (Real.pi : ℂ) ≠ 0 := by exact_mod_cast Real.pi_ne_zero
  have e1 : ∀ y1 y2 : ℂ, y1 * (A p.val q.val * y2) = A p.val q.val * (y1 * y2) := fun _ _ => by ring
  have e2 : ∀ y1 y2 : ℂ, y1 * A p.val q.val * y2 = A p.val q.val * (y1 * y2) := fun _ _ => by ring
  rw [e1, e2, mul_assoc]
  congr 1
  rw [← Complex.exp_add, ← Complex.exp_add, ← Complex.exp_add]
  congr 1
  push_cast
  field_simp
  ring

/-- The masks leave the first row and column of a pixel-centred array empty, and all arrays have even size (as FALCO makes them). -/
def ArraysOk (S : Sys N N4 Neta Nxi Meta Mxi) (apod : Option (Pl N3)) (n : ℕ) : Prop :=
  Even n ∧ Even N ∧ Even N4 ∧ Clear S.centering S.pupil ∧ Clear S.centering S.lyot ∧ ∀ m, apod = some m → Even N3 ∧ Clear S.centering m

theorem flip_mul (a b : ℤ) : flip a * flip b = flip (a + b) := by
  unfold flip
  rcases Int.emod_two_eq_zero_or_one a with ha | ha <;> rcases Int.emod_two_eq_zero_or_one b with hb | hb <;>
    simp [ha, hb, Int.add_emod]

theorem p3_lph {M : ℕ} [NeZero M] (S : Sys N N4 Neta Nxi Meta Mxi) (hM : Even M) (h4 : Even N4) (hly : Clear S.centering S.lyot) (hdx : S.dx4 = S.dx) (hfl : S.fl ≠ 0) (hwvl : S.wvl ≠ 0)
    (EP3 : Pl M) (hE : Clear S.centering EP3) : ∃ F : ℝ → ℝ → ℂ, ∀ a b : ℝ,
    p3toEndNoFpm S (fun i j => EP3 i j * lph M S.dx S.centering a b i j) = fun e x =>
      F (ax Meta S.deta S.centering e - flip (S.rel S.nEnd) * (flip (S.rel S.n34) * a) * (S.wvl * S.fl) / (2 * Real.pi))
        (ax Mxi S.dxi S.centering x - flip (S.rel S.nEnd) * (flip (S.rel S.n34) * b) * (S.wvl * S.fl) / (2 * Real.pi)) := by
  refine ⟨fun v u => ft (relay (fun i j => S.lyot i j * padF N4 (fun i j => relay EP3 (S.rel S.n34) S.centering i j * S.transOuter : Pl M) i j) (S.rel S.nEnd) S.centering)
    S.fl S.wvl S.dx S.dxi S.deta S.centering v u / Real.sqrt S.normFac, fun a b => ?_⟩
  · unfold p3toEndNoFpm p4toEnd
    dsimp only
    rw [relay_lph hM S.dx S.centering a b (S.rel S.n34) EP3 hE]
    have e1 : (fun i j => relay EP3 (S.rel S.n34) S.centering i j * lph M S.dx S.centering (flip (S.rel S.n34) * a) (flip (S.rel S.n34) * b) i j * S.transOuter : Pl M) =
        fun i j => (relay EP3 (S.rel S.n34) S.centering i j * S.transOuter) * lph M S.dx S.centering (flip (S.rel S.n34) * a) (flip (S.rel S.n34) * b) i j := by
      funext i j; ring
    rw [e1, padF_lph hM h4, mul_lph, relay_lph h4 S.dx S.centering _ _ _ _ (clear_mul _ _ _ hly), hdx]
    funext e x
    rw [mft_lph _ _ _ _ _ _ hfl hwvl]

/-- P2 to the camera, tilt at P2. -/
theorem p2_lph (S : Sys N N4 Neta Nxi Meta Mxi) (apod : Option (Pl N3)) (hN : Even N) (h4 : Even N4) (hly : Clear S.centering S.lyot) (h3 : ∀ m, apod = some m → Even N3 ∧ Clear S.centering m)
    (hdx : S.dx4 = S.dx) (hfl : S.fl ≠ 0) (hwvl : S.wvl ≠ 0) (EP2 : Pl N) (hE : Clear S.centering EP2) : ∃ F : ℝ → ℝ → ℂ, ∀ a b : ℝ,
    p2toEndNoFpm S apod (fun i j => EP2 i j * lph N S.dx S.centering a b i j) = fun e x =>
      F (ax Meta S.deta S.centering e - flip (S.rel S.nEnd) * (flip (S.rel S.n34) * (flip (S.rel S.n23) * a)) * (S.wvl * S.fl) / (2 * Real.pi))
        (ax Mxi S.dxi S.centering x - flip (S.rel S.nEnd) * (flip (S.rel S.n34) * (flip (S.rel S.n23) * b)) * (S.wvl * S.fl) / (2 * Real.pi)) := by
  unfold p2toEndNoFpm
  cases apod with
  | none =>
    obtain ⟨F, hF⟩ := p3_lph S hN h4 hly hdx hfl hwvl (relay EP2 (S.rel S.n23) S.centering) (clear_relay _ _ _ hE)
    refine ⟨F, fun a b => ?_⟩
    dsimp only
    rw [relay_lph hN _ _ _ _ _ _ hE, hF]
  | some m =>
    obtain ⟨h3e, hm⟩ := h3 m rfl
    obtain ⟨F, hF⟩ := p3_lph S h3e h4 hly hdx hfl hwvl (fun i j => m i j * padF N3 (relay EP2 (S.rel S.n23) S.centering) i j : Pl N3) (clear_mul _ _ _ hm)
    refine ⟨F, fun a b => ?_⟩
    dsimp only
    rw [relay_lph hN _ _ _ _ _ _ hE, padF_lph hN h3e, mul_lph, hF]

/-- input field with the star's tilt split off -/
theorem ein_split (lambda0 wvl : ℝ) (X Y : ZMod n → ZMod n → ℝ) (E : Pl n) (normFac : ℝ) (s : Source n) (hz : s.zern = none) (ξ η : ℝ) :
    einComp lambda0 wvl X Y E normFac { s with xi := ξ, eta := η } = fun i j =>
      einComp lambda0 wvl X Y E normFac { s with xi := 0, eta := 0 } i j * tilt lambda0 wvl X Y ξ η i j := by
  unfold einComp
  simp only [hz]
  unfold einBase
  have h0 : ∀ i j, tilt lambda0 wvl X Y 0 0 i j = 1 := by intro i j; simp [tilt]
  funext i j
  cases s.offaxis with
  | none => by_cases h : normFac = 0 <;> simp only [h, if_true, if_false, h0] <;> ring
  | some p => obtain ⟨x, y⟩ := p; by_cases h : normFac = 0 <;> simp only [h, if_true, if_false, h0] <;> ring

theorem position_aux (S : Sys N N4 Neta Nxi Meta Mxi) (hw : S.flagDMwfe = false) (h1 : S.dP2dm1 = 0) (h2 : S.d12 = 0) (hdx : S.dx4 = S.dx) (hfl : S.fl ≠ 0) (hwvl : S.wvl ≠ 0)
    (apod : Option (Pl N3)) (hA : ArraysOk S apod n) (lambda0 D : ℝ) (hD : D ≠ 0) (E : Pl n) (s : Source n) (hz : s.zern = none) (S1 S2 : ZMod N → ZMod N → ℝ) :
    ∃ F : ℝ → ℝ → ℂ, ∀ ξ η : ℝ,
      compactUnocc S apod lambda0 (XsDL n S.dx D S.centering) (YsDL n S.dx D S.centering) E { s with xi := ξ, eta := η } S1 S2 = .ok fun e x =>
        F (ax Meta S.deta S.centering e + flip (S.rel S.n12 + S.rel S.n23 + S.rel S.n34 + S.rel S.nEnd) * η * (lambda0 * S.fl / D))
          (ax Mxi S.dxi S.centering x + flip (S.rel S.n12 + S.rel S.n23 + S.rel S.n34 + S.rel S.nEnd) * ξ * (lambda0 * S.fl / D)) := by
  obtain ⟨hn, hN, h4, hpu, hly, h3⟩ := hA
  set Ein0 : Pl N := padF N (einComp lambda0 S.wvl (XsDL n S.dx D S.centering) (YsDL n S.dx D S.centering) E S.normFac { s with xi := 0, eta := 0 }) with hEin0
  set R : Pl N := relay (fun i j => S.pupil i j * Ein0 i j) (S.rel S.n12) S.centering with hR
  have hRc : Clear S.centering R := clear_relay _ _ _ (clear_mul _ _ _ hpu)
  set P2 : Pl N := fun i j => R i j * (S.stop1 i j * exp (I * S.kk * S1 i j) * S.stop2 i j * exp (I * S.kk * S2 i j)) with hP2
  obtain ⟨F, hF⟩ := p2_lph S apod hN h4 hly h3 hdx hfl hwvl P2 (clear_mul _ _ _ hRc)
  refine ⟨F, fun ξ η => ?_⟩
  unfold compactUnocc
  rw [compactNoFpm_eq S hw, ein_split _ _ _ _ _ _ s hz, tilt_lph hn, padF_lph hn hN, ← hEin0]
  set a : ℝ := -(2 * Real.pi * lambda0 / (S.wvl * D)) * η with ha
  set b : ℝ := -(2 * Real.pi * lambda0 / (S.wvl * D)) * ξ with hb
  have hp2 : p2f S (fun i j => Ein0 i j * lph N S.dx S.centering a b i j) S1 S2 =
      fun i j => P2 i j * lph N S.dx S.centering (flip (S.rel S.n12) * a) (flip (S.rel S.n12) * b) i j := by
    unfold p2f dm2pre dm1post dm1pre
    rw [h1, h2, add_zero, neg_zero]
    simp only [ptpCore_zero]
    rw [mul_lph, relay_lph hN _ _ _ _ _ _ (clear_mul _ _ _ hpu), ← hR]
    funext i j
    rw [hP2]
    ring
  rw [hp2, hF]
  congr 1
  have hpi : Real.pi ≠ 0 := Real.pi_ne_zero
  have key : ∀ t : ℝ, flip (S.rel S.nEnd) * (flip (S.rel S.n34) * (flip (S.rel S.n23) * (flip (S.rel S.n12) * (-(2 * Real.pi * lambda0 / (S.wvl * D)) * t)))) * (S.wvl * S.fl) / (2 * Real.pi) =
      -(flip (S.rel S.n12 + S.rel S.n23 + S.rel S.n34 + S.rel S.nEnd) * t * (lambda0 * S.fl / D)) := by
    intro t
    rw [← flip_mul, ← flip_mul, ← flip_mul]
    field_simp
  funext e x
  rw [ha, hb, key, key, sub_neg_eq_add, sub_neg_eq_add]

/-- **C90** Unocculted star, DMs conjugate to the pupil with any surfaces, an odd number of pupil relays (as in the shipped configurations): moving the star to `(ξ, η)` (in `λ0/D`) moves its image by
`(ξ, η)·λ0·fl/D` without changing it: the field at every camera pixel is a fixed function of the pixel's position relative to the star. -/
theorem C90_position (S : Sys N N4 Neta Nxi Meta Mxi) (hw : S.flagDMwfe = false) (h1 : S.dP2dm1 = 0) (h2 : S.d12 = 0) (hdx : S.dx4 = S.dx) (hfl : S.fl ≠ 0) (hwvl : S.wvl ≠ 0)
    (hrot : S.flagRotation = true) (hodd : Odd (S.n12 + S.n23 + S.n34 + S.nEnd))
    (apod : Option (Pl N3)) (hA : ArraysOk S apod n) (lambda0 D : ℝ) (hD : D ≠ 0) (E : Pl n) (s : Source n) (hz : s.zern = none) (S1 S2 : ZMod N → ZMod N → ℝ) :
    ∃ F : ℝ → ℝ → ℂ, ∀ ξ η : ℝ,
      compactUnocc S apod lambda0 (XsDL n S.dx D S.centering) (YsDL n S.dx D S.centering) E { s with xi := ξ, eta := η } S1 S2 = .ok fun e x =>
        F (ax Meta S.deta S.centering e - η * (lambda0 * S.fl / D)) (ax Mxi S.dxi S.centering x - ξ * (lambda0 * S.fl / D)) := by
  obtain ⟨F, hF⟩ := position_aux S hw h1 h2 hdx hfl hwvl apod hA lambda0 D hD E s hz S1 S2
  refine ⟨F, fun ξ η => ?_⟩
  rw [hF]
  have : flip (S.rel S.n12 + S.rel S.n23 + S.rel S.n34 + S.rel S.nEnd) = -1 := by
    unfold flip Sys.rel
    simp only [hrot, if_true, one_mul]
    rw [if_pos (Int.odd_iff.1 hodd)]
  simp only [this]
  congr 1
  funext e x
  congr 1 <;> ring

/-- **C90** violated when the number of relays is even, or with `flagRotation = False`: the star at `(ξ, η)` is imaged at `(-ξ, -η)`. -/
theorem C90_position_violated (S : Sys N N4 Neta Nxi Meta Mxi) (hw : S.flagDMwfe = false) (h1 : S.dP2dm1 = 0) (h2 : S.d12 = 0) (hdx : S.dx4 = S.dx) (hfl : S.fl ≠ 0) (hwvl : S.wvl ≠ 0)
    (hrot : S.flagRotation = false ∨ Even (S.n12 + S.n23 + S.n34 + S.nEnd))
    (apod : Option (Pl N3)) (hA : ArraysOk S apod n) (lambda0 D : ℝ) (hD : D ≠ 0) (E : Pl n) (s : Source n) (hz : s.zern = none) (S1 S2 : ZMod N → ZMod N → ℝ) :
    ∃ F : ℝ → ℝ → ℂ, ∀ ξ η : ℝ,
      compactUnocc S apod lambda0 (XsDL n S.dx D S.centering) (YsDL n S.dx D S.centering) E { s with xi := ξ, eta := η } S1 S2 = .ok fun e x =>
        F (ax Meta S.deta S.centering e + η * (lambda0 * S.fl / D)) (ax Mxi S.dxi S.centering x + ξ * (lambda0 * S.fl / D)) := by
  obtain ⟨F, hF⟩ := position_aux S hw h1 h2 hdx hfl hwvl apod hA lambda0 D hD E s hz S1 S2
  refine ⟨F, fun ξ η => ?_⟩
  rw [hF]
  have : flip (S.rel S.n12 + S.rel S.n23 + S.rel S.n34 + S.rel S.nEnd) = 1 := by
    unfold flip Sys.rel
    cases hr : S.flagRotation
    · simp
    · have h := hrot.resolve_left (by rw [hr]; simp)
      simp only [if_true, one_mul]
      rw [if_neg (by rw [Int.even_iff.1 h]; decide)]
  simp only [this]
  congr 1
  funext e x
  congr 1 <;> ring

/-- **C90** An off-axis companion at offset `(x, y)` of the star is the star moved by `(x, y)`, in both models. -/
theorem C90_companion (S : Sys N N4 Neta Nxi Meta Mxi) (l : Layout) (name : CoroName) (apod : Option (Pl N3)) (lambda0 : ℝ) (X Y : ZMod n → ZMod n → ℝ) (E : Pl n) (s : Source n)
    (S1 S2 : ZMod N → ZMod N → ℝ) (x y : ℝ) :
    compact S l name apod lambda0 X Y E { s with offaxis := some (x, y) } S1 S2 =
      compact S l name apod lambda0 X Y E { s with offaxis := none, xi := s.xi + x, eta := s.eta + y } S1 S2 ∧
    full S l name apod lambda0 X Y E { s with offaxis := some (x, y) } S1 S2 =
      full S l name apod lambda0 X Y E { s with offaxis := none, xi := s.xi + x, eta := s.eta + y } S1 S2 := by
  have hb : einBase lambda0 S.wvl X Y E S.normFac { s with offaxis := some (x, y) } =
      einBase lambda0 S.wvl X Y E S.normFac { s with offaxis := none, xi := s.xi + x, eta := s.eta + y } := by
    unfold einBase
    dsimp only
    have : (fun i j => Real.sqrt s.weight * tilt lambda0 S.wvl X Y s.xi s.eta i j * E i j * tilt lambda0 S.wvl X Y x y i j : Pl n) =
        fun i j => Real.sqrt s.weight * tilt lambda0 S.wvl X Y (s.xi + x) (s.eta + y) i j * E i j := by
      funext i j
      rw [tilt_add]
      ring
    split_ifs
    · funext i j; rw [congrFun (congrFun this i) j]
    · exact this
  constructor
  · unfold compact einComp
    dsimp only
    rw [hb]
  · unfold full einFull
    dsimp only
    rw [hb]

theorem lin_p2f (S : Sys N N4 Neta Nxi Meta Mxi) (S1 S2 : ZMod N → ZMod N → ℝ) : IsLinearMap ℂ (fun Ein : Pl N => p2f S Ein S1 S2) := by
  have h1 := IsLinearMap.comp' (lin_mul fun i j => S.stop1 i j * exp (I * S.kk * S1 i j)) (IsLinearMap.comp' (lin_ptpCore (N := N) (S.dx * N) S.wvl S.dP2dm1)
    (IsLinearMap.comp' (lin_relay (N := N) (S.rel S.n12) S.centering) (lin_mul S.pupil)))
  have h2 := IsLinearMap.comp' (lin_ptpCore (N := N) (S.dx * N) S.wvl (-(S.dP2dm1 + S.d12)))
    (IsLinearMap.comp' (lin_mul fun i j => S.stop2 i j * exp (I * S.kk * S2 i j)) (IsLinearMap.comp' (lin_ptpCore (N := N) (S.dx * N) S.wvl S.d12) h1))
  convert h2 using 2
  unfold p2f dm2pre dm1post dm1pre
  congr 1
  funext i j
  rw [mul_right_comm]
  congr 2
  congr 1
  funext i j
  ring

/-- Both models are linear in the input field. -/
theorem compactAny_lin (S : Sys N N4 Neta Nxi Meta Mxi) (hw : S.flagDMwfe = false) (name : CoroName) (apod : Option (Pl N3)) (S1 S2 : ZMod N → ZMod N → ℝ) :
    ∃ L : Pl N → Fin Meta → Fin Mxi → ℂ, IsLinearMap ℂ L ∧ ∀ Ein, compactAny S name apod Ein S1 S2 = .ok (L Ein) := by
  unfold compactAny
  split_ifs
  · exact ⟨_, IsLinearMap.comp' (lin_p2toEndNoFpm S.unnorm apod) (lin_p2f S.unnorm S1 S2), fun Ein => compactNoFpm_eq S.unnorm hw apod Ein S1 S2⟩
  · exact ⟨_, IsLinearMap.comp' (lin_p2toEnd S.unnorm apod) (lin_p2f S.unnorm S1 S2), fun Ein => compactApod_eq S.unnorm hw apod Ein S1 S2⟩
  · exact ⟨_, IsLinearMap.comp' (lin_p2toEnd S apod) (lin_p2f S S1 S2), fun Ein => compactApod_eq S hw apod Ein S1 S2⟩

theorem einBase_weight (lambda0 wvl : ℝ) (X Y : ZMod n → ZMod n → ℝ) (E : Pl n) (normFac : ℝ) (s : Source n) (w : ℝ) (i j : ZMod n) :
    einBase lambda0 wvl X Y E normFac { s with weight := w } i j = Real.sqrt w * einBase lambda0 wvl X Y E normFac { s with weight := 1 } i j := by
  unfold einBase
  cases s.offaxis with
  | none => by_cases h : normFac = 0 <;> simp only [h, if_true, if_false, Real.sqrt_one, ofReal_one] <;> ring
  | some p => obtain ⟨x, y⟩ := p; by_cases h : normFac = 0 <;> simp only [h, if_true, if_false, Real.sqrt_one, ofReal_one] <;> ring

theorem einComp_weight (lambda0 wvl : ℝ) (X Y : ZMod n → ZMod n → ℝ) (E : Pl n) (normFac : ℝ) (s : Source n) (w : ℝ) :
    einComp lambda0 wvl X Y E normFac { s with weight := w } = (Real.sqrt w : ℂ) • einComp lambda0 wvl X Y E normFac { s with weight := 1 } := by
  obtain ⟨xi, eta, wt, off, xN, yN, zern⟩ := s
  have hb := einBase_weight lambda0 wvl X Y E normFac ⟨xi, eta, wt, off, xN, yN, zern⟩ w
  unfold einComp
  cases zern with
  | none => funext i j; exact hb i j
  | some p =>
    obtain ⟨Z, c⟩ := p
    funext i j
    dsimp only at hb ⊢
    simp only [Pi.smul_apply, smul_eq_mul]
    rw [hb]
    ring

/-- **C90** The intensity at every pixel is proportional to the star's weight. -/
theorem C90_brightness (S : Sys N N4 Neta Nxi Meta Mxi) (hw : S.flagDMwfe = false) (l : Layout) (name : CoroName) (apod : Option (Pl N3)) (lambda0 : ℝ) (X Y : ZMod n → ZMod n → ℝ)
    (E : Pl n) (s : Source n) (S1 S2 : ZMod N → ZMod N → ℝ) (w : ℝ) (hw0 : 0 ≤ w) :
    ∃ F G, compact S l name apod lambda0 X Y E { s with weight := 1 } S1 S2 = .ok F ∧ compact S l name apod lambda0 X Y E { s with weight := w } S1 S2 = .ok G ∧
      ∀ e x, ‖G e x‖ ^ 2 = w * ‖F e x‖ ^ 2 := by
  obtain ⟨L, hL, hLe⟩ := compactAny_lin (S.withScale (l.compactScale name S.wvl lambda0)) hw name apod S1 S2
  refine ⟨_, _, hLe _, hLe _, fun e x => ?_⟩
  rw [einComp_weight, (lin_padF N).map_smul, hL.map_smul]
  simp only [Pi.smul_apply, smul_eq_mul, norm_mul, norm_real, mul_pow]
  rw [Real.norm_eq_abs, sq_abs, Real.sq_sqrt hw0]

/-! ## C91 -/

/-- The pupil field with the aberration of `ε` metres times the map `z` added to the wavefront. -/
noncomputable def aberrated {m : ℕ} (wvl : ℝ) (E : Pl m) (z : ZMod m → ZMod m → ℝ) (ε : ℝ) : Pl m := fun i j => E i j * exp (I * (2 * Real.pi / wvl * (ε * z i j) : ℝ))

theorem einComp_aberrated (lambda0 wvl : ℝ) (X Y : ZMod n → ZMod n → ℝ) (E : Pl n) (normFac : ℝ) (s : Source n) (z : ZMod n → ZMod n → ℝ) (ε : ℝ) :
    einComp lambda0 wvl X Y (aberrated wvl E z ε) normFac { s with zern := none } =
      fun i j => einBase lambda0 wvl X Y E normFac s i j * exp (I * (2 * Real.pi / wvl : ℝ) * ((0 : ℝ) + ε * z i j : ℝ)) := by
  unfold einComp
  dsimp only
  have e : ∀ i j : ZMod n, exp (I * (2 * Real.pi / wvl : ℝ) * ((0 : ℝ) + ε * z i j : ℝ)) = exp (I * (2 * Real.pi / wvl * (ε * z i j) : ℝ)) := by
    intro i j; congr 1; push_cast; ring
  funext i j
  rw [e]
  unfold einBase aberrated
  cases s.offaxis with
  | none => by_cases h : normFac = 0 <;> simp only [h, if_true, if_false] <;> ring
  | some p => obtain ⟨x, y⟩ := p; by_cases h : normFac = 0 <;> simp only [h, if_true, if_false] <;> ring

/-- **C91** For every coronagraph, the field which the compact model returns for a Zernike mode is the mode's coefficient times the derivative of the field with respect to the amount of that Zernike
(in metres) added to the wavefront at the entrance pupil. -/
theorem C91_zernike (S : Sys N N4 Neta Nxi Meta Mxi) (hw : S.flagDMwfe = false) (l : Layout) (name : CoroName) (apod : Option (Pl N3)) (lambda0 : ℝ) (X Y : ZMod n → ZMod n → ℝ)
    (E : Pl n) (s : Source n) (z : ZMod n → ZMod n → ℝ) (c : ℝ) (S1 S2 : ZMod N → ZMod N → ℝ) :
    ∃ (F : ℝ → Fin Meta → Fin Mxi → ℂ) (dF : Fin Meta → Fin Mxi → ℂ), (∀ ε, compact S l name apod lambda0 X Y (aberrated S.wvl E z ε) { s with zern := none } S1 S2 = .ok (F ε)) ∧
      HasDerivAt F dF 0 ∧ compact S l name apod lambda0 X Y E { s with zern := some (fun i j => z i j, c) } S1 S2 = .ok (fun e x => c * dF e x) := by
  obtain ⟨L, hL, hLe⟩ := compactAny_lin (S.withScale (l.compactScale name S.wvl lambda0)) hw name apod S1 S2
  have hLp : IsLinearMap ℂ (fun A : Pl n => L (padF N A)) := IsLinearMap.comp' hL (lin_padF N)
  have hd := hasDerivAt_lin_phase (N := n) _ hLp (einBase lambda0 S.wvl X Y E S.normFac s) (2 * Real.pi / S.wvl) (fun _ _ => 0) z
  refine ⟨_, (fun A : Pl n => L (padF N A)) fun i j => einBase lambda0 S.wvl X Y E S.normFac s i j * exp (I * (2 * Real.pi / S.wvl : ℝ) * ((0 : ℝ) : ℂ)) *
    (I * (2 * Real.pi / S.wvl : ℝ) * z i j), fun ε => hLe _, ?_, ?_⟩
  · simp only [einComp_aberrated]
    exact hd
  · unfold compact
    rw [hLe]
    congr 1
    have he : einComp lambda0 S.wvl X Y E S.normFac { s with zern := some (fun i j => (z i j : ℂ), c) } =
        (c : ℂ) • fun i j => einBase lambda0 S.wvl X Y E S.normFac s i j * exp (I * (2 * Real.pi / S.wvl : ℝ) * ((0 : ℝ) : ℂ)) * (I * (2 * Real.pi / S.wvl : ℝ) * z i j) := by
      funext i j
      unfold einComp
      simp only [Pi.smul_apply, smul_eq_mul, ofReal_zero, mul_zero, Complex.exp_zero, mul_one]
      have : einBase lambda0 S.wvl X Y E S.normFac { s with zern := some (fun i j => (z i j : ℂ), c) } = einBase lambda0 S.wvl X Y E S.normFac s := rfl
      rw [this]
      push_cast
      ring
    rw [he]
    exact hLp.map_smul _ _

/-- **C91** violated in the truth model: what it returns for a Zernike mode is `-i` times the coefficient times the derivative of its own field. -/
theorem C91_full_violated (S : Sys N N4 Neta Nxi Meta Mxi) (hw : S.flagDMwfe = false) (l : Layout) (name : CoroName) (hl : l = .fourier ∨ name = .hlc ∨ name = .vortex)
    (hf : name.Fits S.coro) (ha : name ≠ .avc) (apod : Option (Pl N3)) (hv : VortexOk S (p3Size N apod)) (lambda0 : ℝ) (X Y : ZMod n → ZMod n → ℝ)
    (E : Pl n) (s : Source n) (z : ZMod n → ZMod n → ℝ) (c : ℝ) (S1 S2 : ZMod N → ZMod N → ℝ) :
    ∃ (F : ℝ → Fin Meta → Fin Mxi → ℂ) (dF : Fin Meta → Fin Mxi → ℂ), (∀ ε, full S l name apod lambda0 X Y (aberrated S.wvl E z ε) { s with zern := none } S1 S2 = .ok (F ε)) ∧
      HasDerivAt F dF 0 ∧ full S l name apod lambda0 X Y E { s with zern := some (fun i j => z i j, c) } S1 S2 = .ok (fun e x => -I * (c * dF e x)) := by
  obtain ⟨F, dF, h1, h2, h3⟩ := C91_zernike S hw l name apod lambda0 X Y E s z c S1 S2
  refine ⟨F, dF, fun ε => ?_, h2, ?_⟩
  · rw [C88_same_field S hw l name hl hf ha apod hv lambda0 X Y _ _ rfl S1 S2, h1]
  · have h := C88_zernike_violated S hw l name hl hf ha apod hv lambda0 X Y E { s with zern := some (fun i j => z i j, c) } (by simp) S1 S2
    rw [h3] at h
    cases hfull : full S l name apod lambda0 X Y E { s with zern := some (fun i j => (z i j : ℂ), c) } S1 S2 with
    | error e => rw [hfull] at h; cases h
    | ok G =>
      rw [hfull] at h
      injection h with h
      congr 1
      funext e x
      rw [congrFun (congrFun h e) x, ← mul_assoc]
      simp

/-- A pixel-centred system with clear first rows and columns and three relays. -/
noncomputable def threeRelays : Sys 2 2 1 1 1 2 :=
  { pixSys with flagRotation := true, nEnd := 0, pupil := fun i j => if i = 1 ∧ j = 1 then 1 else 0, lyot := fun i j => if i = 1 ∧ j = 1 then 1 else 0 }

/-- It meets the hypotheses of `C90_position`, without apodizer and with one of the same shape. -/
example : threeRelays.flagDMwfe = false ∧ threeRelays.dP2dm1 = 0 ∧ threeRelays.d12 = 0 ∧ threeRelays.dx4 = threeRelays.dx ∧ threeRelays.fl ≠ 0 ∧ threeRelays.wvl ≠ 0 ∧
    threeRelays.flagRotation = true ∧ Odd (threeRelays.n12 + threeRelays.n23 + threeRelays.n34 + threeRelays.nEnd) ∧ ArraysOk threeRelays (none : Option (Pl 2)) 2 ∧
    ArraysOk threeRelays (some fun i j => if i = 1 ∧ j = 1 then 1 else 0 : Option (Pl 2)) 2 := by
  have hc : Clear Util.Centering.pixel (fun i j => if i = 1 ∧ j = 1 then 1 else 0 : Pl 2) := by
    right
    intro i j h
    rcases h with rfl | rfl <;> simp
  refine ⟨rfl, rfl, rfl, rfl, ?_, ?_, rfl, ?_, ?_, ?_⟩
  · simp [threeRelays, pixSys]
  · simp [threeRelays, pixSys]
  · simp only [threeRelays, pixSys]; decide
  · exact ⟨by decide, by decide, by decide, hc, hc, fun m h => by simp at h⟩
  · refine ⟨by decide, by decide, by decide, hc, hc, fun m h => ?_⟩
    injection h with h
    subst h
    exact ⟨by decide, hc⟩

/-- A position at a pixel of the camera of `threeRelays` (half of `λ0 fl/D` per pixel) other than the axis: the image of the star really moves. -/
example : ax 2 threeRelays.dxi threeRelays.centering (0 : Fin 2) - (-(1 / 2)) * (1 * threeRelays.fl / 1) = ax 2 threeRelays.dxi threeRelays.centering (1 : Fin 2) - 0 * (1 * threeRelays.fl / 1) := by
  rw [ax_eq, ax_eq]
  simp [threeRelays, pixSys]

end Verif.Compact
