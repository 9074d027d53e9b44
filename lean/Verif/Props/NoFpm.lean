import Verif.Props.JacDeriv
import Verif.Model.NoFpm

/-!
# The Jacobian of the normalised field, `mp.jac.minimizeNI` (C82)
-/

set_option linter.unusedSectionVars false

namespace Verif.Compact
open Verif Complex Verif.Optics

variable {N N4 Neta Nxi Meta Mxi N3 : ℕ} [NeZero N] [NeZero N4] [NeZero N3] {B : ℕ} [NeZero B] {n : ℕ} [NeZero n]

theorem padF_mul {m p : ℕ} [NeZero m] [NeZero p] (X Y : Pl m) :
    (padF p (fun i j => X i j * Y i j) : Pl p) = fun i j => padF p X i j * padF p Y i j := by
  funext i j
  unfold padF
  dsimp only
  split <;> simp

theorem p3toEndNoFpm_padF (S : Sys N N4 Neta Nxi Meta Mxi) {n m : ℕ} [NeZero n] [NeZero m]
    (hn : Even n) (hm : Even m) (hmn : m ≤ n) (X : Pl m)
    (hX : S.rel S.n34 % 2 = 1 → S.centering = .interpixel ∨ ∀ i j : ZMod m, (i = 0 ∨ j = 0) → X i j = 0) :
    p3toEndNoFpm S (padF n X : Pl n) = p3toEndNoFpm S X := by
  unfold p3toEndNoFpm
  dsimp only
  have e : (fun i j => relay (padF n X) (S.rel S.n34) S.centering i j * S.transOuter : Pl n) =
      padF n (fun i j => relay X (S.rel S.n34) S.centering i j * S.transOuter) := by
    rw [← padF_relay hn hm hmn _ _ _ hX]
    funext i j
    unfold padF
    dsimp only
    split <;> simp
  rw [e, padF_padF hmn]

theorem p2toEndNoFpm_eq (S : Sys N N4 Neta Nxi Meta Mxi) (hN : Even N) (apod : Option (Pl N3)) (ha : ApodOk S apod) (Y : Pl N) :
    p2toEndNoFpm S apod Y = p3toEndNoFpm S (relay (fun i j => apodReimaged S apod i j * Y i j) (S.rel S.n23) S.centering) := by
  cases apod with
  | none =>
    unfold p2toEndNoFpm apodReimaged
    simp only [one_mul]
  | some m =>
    obtain ⟨h3, h3N, hedge⟩ := ha m rfl
    rw [relay_apod]
    unfold p2toEndNoFpm
    dsimp only
    set E := relay Y (S.rel S.n23) S.centering with hE
    have hpad : (padF N (fun i j => m i j * padF N3 E i j : Pl N3) : Pl N) = fun i j => padF N m i j * E i j := by
      rw [padF_apod, padF_self]
    rw [← hpad]
    by_cases hlt : N3 = N
    · subst hlt
      simp only [padF_self]
    · symm
      refine p3toEndNoFpm_padF S hN h3 h3N _ fun ho => ?_
      rcases hedge ho with h | h | h
      · exact Or.inl h
      · exact absurd h hlt
      · right; intro i j hij; rw [h i j hij, zero_mul]

theorem lin_p3toEndNoFpm {M : ℕ} [NeZero M] (S : Sys N N4 Neta Nxi Meta Mxi) : IsLinearMap ℂ (p3toEndNoFpm S : Pl M → _) := by
  have h := IsLinearMap.comp' (lin_p4toEnd S) (IsLinearMap.comp' (lin_padF N4) (IsLinearMap.comp' (lin_mul fun _ _ => S.transOuter)
    (lin_relay (N := M) (S.rel S.n34) S.centering)))
  have e : (p3toEndNoFpm S : Pl M → _) = fun E : Pl M => p4toEnd S (padF N4 fun i j => S.transOuter * relay E (S.rel S.n34) S.centering i j) := by
    funext E
    unfold p3toEndNoFpm
    simp only [mul_comm]
  rw [e]; exact h

theorem lin_p2toEndNoFpm (S : Sys N N4 Neta Nxi Meta Mxi) (apod : Option (Pl N3)) : IsLinearMap ℂ (p2toEndNoFpm S apod) := by
  unfold p2toEndNoFpm
  cases apod with
  | none => exact IsLinearMap.comp' (lin_p3toEndNoFpm S) (lin_relay _ _)
  | some m =>
    have h := IsLinearMap.comp' (lin_p3toEndNoFpm S) (IsLinearMap.comp' (lin_mul m)
      (IsLinearMap.comp' (lin_padF (N := N) N3) (lin_relay (N := N) (S.rel S.n23) S.centering)))
    exact h

theorem compactNoFpm_eq (S : Sys N N4 Neta Nxi Meta Mxi) (hw : S.flagDMwfe = false) (apod : Option (Pl N3)) (Ein : Pl N) (S1 S2 : ZMod N → ZMod N → ℝ) :
    compactNoFpm S apod Ein S1 S2 = .ok (p2toEndNoFpm S apod (p2f S Ein S1 S2)) := by
  unfold compactNoFpm
  rw [toP2_eq S hw]
  rfl

/-! ## on-axis pixel -/

/-- sum over a plane -/
noncomputable def tot {m : ℕ} [NeZero m] (X : Pl m) : ℂ := ∑ i, ∑ j, X i j

theorem tot_relay {m : ℕ} [NeZero m] (X Y : Pl m) (k : ℤ) (c : Util.Centering) :
    tot (fun i j => X i j * relay Y k c i j) = tot fun i j => relay X k c i j * Y i j := by
  have h := ip_relay k c (fun i j => (starRingEnd ℂ) (X i j)) Y
  have e : relay (fun i j => (starRingEnd ℂ) (X i j)) k c = fun i j => (starRingEnd ℂ) (relay X k c i j) := by
    by_cases hk : k % 2 = 1
    · simp only [relay_odd _ _ hk]
    · simp only [relay_even _ _ hk]
  rw [e] at h
  simpa [ip, tot] using h

theorem tot_padF {m p : ℕ} [NeZero m] [NeZero p] (X : Pl p) (Y : Pl m) :
    tot (fun i j => X i j * padF p Y i j) = tot fun i j => padF m X i j * Y i j := by
  have h := ip_padF (fun i j => (starRingEnd ℂ) (X i j)) Y
  have e : padF m (fun i j => (starRingEnd ℂ) (X i j)) = fun i j => (starRingEnd ℂ) (padF m X i j) := by
    funext i j; unfold padF; dsimp only; split <;> simp
  rw [e] at h
  simpa [ip, tot] using h

/-- the camera pixel on the optical axis (pixel centering) -/
def centre (Meta Mxi : ℕ) [NeZero Meta] [NeZero Mxi] : Fin Meta × Fin Mxi :=
  (⟨Meta / 2, Nat.div_lt_self (NeZero.pos _) (by decide)⟩, ⟨Mxi / 2, Nat.div_lt_self (NeZero.pos _) (by decide)⟩)

variable [NeZero Meta] [NeZero Mxi]

theorem p4toEnd_centre (S : Sys N N4 Neta Nxi Meta Mxi) (hc : S.centering = .pixel) (E : Pl N4) :
    p4toEnd S E (centre Meta Mxi).1 (centre Meta Mxi).2 =
      Real.sqrt (S.dx4 * S.dx4) * Real.sqrt (S.dxi * S.deta) / (S.wvl * S.fl) * tot (fun i j => S.lyot i j * E i j) / Real.sqrt S.normFac := by
  have hz : ∀ (m : ℕ) (d : ℝ) (i : Fin m), i.val = m / 2 → ax m d Util.Centering.pixel i = 0 := by
    intro m d i hi
    rw [ax_eq, hi]
    simp
  unfold p4toEnd
  rw [mftP2f_zmod, hc, hz Meta S.deta _ rfl, hz Mxi S.dxi _ rfl]
  simp only [ofReal_zero, zero_mul, mul_zero, exp_zero, one_mul, mul_one]
  have hs : (Real.sqrt (S.dx4 * S.dx4 * S.dxi * S.deta) : ℂ) = Real.sqrt (S.dx4 * S.dx4) * Real.sqrt (S.dxi * S.deta) := by
    have h := Real.sqrt_mul (mul_self_nonneg S.dx4) (S.dxi * S.deta)
    rw [← mul_assoc (S.dx4 * S.dx4)] at h
    rw [h, ofReal_mul]
  rw [hs]
  congr 2
  have h := tot_relay (fun _ _ => 1 : Pl N4) (fun i j => S.lyot i j * E i j) (S.rel S.nEnd) .pixel
  have e1 : relay (fun _ _ => 1 : Pl N4) (S.rel S.nEnd) .pixel = fun _ _ => 1 := by
    by_cases hk : S.rel S.nEnd % 2 = 1
    · rw [relay_odd _ _ hk]
    · rw [relay_even _ _ hk]
  rw [e1] at h
  simp only [one_mul, tot] at h
  rw [Finset.sum_comm]
  exact h

/-- unocculted field on the axis as a sum over the plane P2 -/
theorem noFpm_centre (S : Sys N N4 Neta Nxi Meta Mxi) (hc : S.centering = .pixel) (hN : Even N) (apod : Option (Pl N3)) (ha : ApodOk S apod) (Y : Pl N) :
    p2toEndNoFpm S apod Y (centre Meta Mxi).1 (centre Meta Mxi).2 = S.transOuter *
      (Real.sqrt (S.dx4 * S.dx4) * Real.sqrt (S.dxi * S.deta) / (S.wvl * S.fl) *
        tot (fun i j => lyotReimaged S i j * (apodReimaged S apod i j * Y i j)) / Real.sqrt S.normFac) := by
  rw [p2toEndNoFpm_eq S hN apod ha]
  unfold p3toEndNoFpm
  rw [p4toEnd_centre S hc, tot_padF]
  have e1 : tot (fun i j => padF N S.lyot i j * (relay (relay (fun i j => apodReimaged S apod i j * Y i j) (S.rel S.n23) S.centering)
      (S.rel S.n34) S.centering i j * S.transOuter)) = S.transOuter * tot (fun i j => padF N S.lyot i j *
        relay (relay (fun i j => apodReimaged S apod i j * Y i j) (S.rel S.n23) S.centering) (S.rel S.n34) S.centering i j) := by
    unfold tot
    rw [Finset.mul_sum]
    refine Finset.sum_congr rfl fun i _ => ?_
    rw [Finset.mul_sum]
    exact Finset.sum_congr rfl fun j _ => by ring
  rw [e1, C07_compose, tot_relay, hc]
  have e2 : S.rel S.n23 + S.rel S.n34 = S.rel (S.n23 + S.n34) := by unfold Sys.rel; ring
  rw [e2]
  unfold lyotReimaged
  ring

theorem tot_embed (y0 x0 : ℤ) (hy0 : 0 ≤ y0) (hy1 : y0 + B ≤ N) (hx0 : 0 ≤ x0) (hx1 : x0 + B ≤ N) (X : Pl B) :
    tot (embedBox B y0 x0 X : Pl N) = ∑ i, ∑ j, X i j := by
  have h := sum_embed (N := N) y0 x0 hy0 hy1 hx0 hx1 X (fun _ => 1) (fun _ => 1)
  simp only [one_mul, mul_one] at h
  unfold tot
  rw [Finset.sum_comm, h, Finset.sum_comm]

/-- The Jacobian of the peak as a sum over the plane P2. -/
theorem noFpm_of_box (S : Sys N N4 Neta Nxi Meta Mxi) (hw : S.flagDMwfe = false) (apod : Option (Pl N3)) (Ett : Pl n)
    (Ein : Pl N) (dm2 : Bool) (S1 S2 : ZMod N → ZMod N → ℝ) (VtoH : ℝ) (y0 x0 : ℤ) (hB : BoxOk S B y0 x0) (inf : ZMod B → ZMod B → ℝ) (X : Pl B)
    (hX : (if dm2 then dm2Box S Ein S1 S2 VtoH B y0 x0 inf else dm1Box S Ein S1 S2 VtoH B y0 x0 inf) = .ok X) :
    noFpm S apod Ett Ein dm2 S1 S2 VtoH B y0 x0 inf = .ok (tot (fun i j => lyotReimaged S i j * (ettUndo S Ett i j *
      (apodReimaged S apod i j * (embedBox B y0 x0 X : Pl N) i j))) * Real.sqrt (S.dx * S.dx) * Real.sqrt (S.dxi * S.deta) / (S.wvl * S.fl) /
      Real.sqrt S.normFac) := by
  obtain ⟨hy0, hy1, hx0, hx1⟩ := hB.inside
  have e : (fun i j => lyotReimaged S i j * (ettUndo S Ett i j * (apodReimaged S apod i j * (embedBox B y0 x0 X : Pl N) i j))) =
      (embedBox B y0 x0 (fun i j => extractBox B y0 x0 (lyotReimaged S) i j * (extractBox B y0 x0 (ettUndo S Ett) i j *
        (extractBox B y0 x0 (apodReimaged S apod) i j * X i j))) : Pl N) := by
    rw [embed_extract_mul y0 x0 hy0 hy1 hx0 hx1, embed_extract_mul y0 x0 hy0 hy1 hx0 hx1, embed_extract_mul y0 x0 hy0 hy1 hx0 hx1]
  rw [e, tot_embed y0 x0 hy0 hy1 hx0 hx1]
  unfold noFpm
  cases dm2 <;>
    simp only [hw, Bool.false_eq_true, if_false, if_true, bind, Except.bind, pure, Except.pure] at hX ⊢ <;> simp only [hX, mul_one]

/-- The on-axis star of `mp.star`: no tilt. -/
theorem ettUndo_onaxis (S : Sys N N4 Neta Nxi Meta Mxi) : ettUndo S (fun _ _ => 1 : Pl n) = padF N (fun _ _ => 1 : Pl n) := by
  have e1 : relay (fun _ _ => 1 : Pl n) (S.rel S.n12) .pixel = fun _ _ => 1 := by
    by_cases hk : S.rel S.n12 % 2 = 1
    · rw [relay_odd _ _ hk]
    · rw [relay_even _ _ hk]
  unfold ettUndo
  rw [e1]
  simp only [div_one]

/-- The array on which the star's tilt is defined covers the re-imaged Lyot stop. -/
def TiltCovers (S : Sys N N4 Neta Nxi Meta Mxi) (n : ℕ) [NeZero n] : Prop :=
  ∀ i j, lyotReimaged S i j ≠ 0 → padF N (fun _ _ => 1 : Pl n) i j = 1

theorem peak_aux (S : Sys N N4 Neta Nxi Meta Mxi) (hw : S.flagDMwfe = false) (hN : Even N) (hc : S.centering = .pixel) (hdx : S.dx4 = S.dx)
    (apod : Option (Pl N3)) (ha : ApodOk S apod) (hU : TiltCovers S n) (y0 x0 : ℤ) (hB : BoxOk S B y0 x0)
    (Ein : Pl N) (dm2 : Bool) (S1 S2 : ZMod N → ZMod N → ℝ) (VtoH : ℝ) (inf : ZMod B → ZMod B → ℝ) (X : Pl B)
    (hX : (if dm2 then dm2Box S Ein S1 S2 VtoH B y0 x0 inf else dm1Box S Ein S1 S2 VtoH B y0 x0 inf) = .ok X) :
    ∃ J, noFpm S apod (fun _ _ => 1 : Pl n) Ein dm2 S1 S2 VtoH B y0 x0 inf = .ok J ∧
      S.transOuter * J = p2toEndNoFpm S apod (embedBox B y0 x0 X) (centre Meta Mxi).1 (centre Meta Mxi).2 := by
  refine ⟨_, noFpm_of_box S hw apod _ Ein dm2 S1 S2 VtoH y0 x0 hB inf X hX, ?_⟩
  rw [noFpm_centre S hc hN apod ha, hdx, ettUndo_onaxis]
  have e : (fun i j => lyotReimaged S i j * (padF N (fun _ _ => 1 : Pl n) i j * (apodReimaged S apod i j * (embedBox B y0 x0 X : Pl N) i j))) =
      fun i j => lyotReimaged S i j * (apodReimaged S apod i j * (embedBox B y0 x0 X : Pl N) i j) := by
    funext i j
    by_cases h : lyotReimaged S i j = 0
    · rw [h]; ring
    · rw [hU i j h]; ring
  rw [e]
  ring

theorem hasDerivAt_pixel {E : ℝ → Fin Meta → Fin Mxi → ℂ} {D : Fin Meta → Fin Mxi → ℂ} (h : HasDerivAt E D 0) (e : Fin Meta) (x : Fin Mxi) :
    HasDerivAt (fun t => E t e x) (D e x) 0 := by
  have h1 := hasDerivAt_pi.1 h e
  exact hasDerivAt_pi.1 h1 x

/-- `τ` is the transmission outside the focal-plane mask: the parameter given with the mask of a Lyot or hybrid Lyot coronagraph, 1 for the others. -/
def Outer (S : Sys N N4 Neta Nxi Meta Mxi) (τ : ℂ) : Prop := (∃ mask, S.coro = .babinet mask τ) ∨ (τ = 1 ∧ ∀ mask t, S.coro ≠ .babinet mask t)

theorem outer_eq {S : Sys N N4 Neta Nxi Meta Mxi} {τ : ℂ} (h : Outer S τ) : S.transOuter = τ := by
  unfold Sys.transOuter
  rcases h with ⟨mask, h⟩ | ⟨rfl, h⟩
  · rw [h]
  · cases hc : S.coro with
    | babinet m t => exact absurd hc (h m t)
    | flc m => rfl
    | vortex D NB vm tk => rfl

/-- C82 (DM1).  On-axis star, pixel-centred arrays: the transmission outside the mask times the value returned by `no_fpm` is the derivative of
the unocculted field at the on-axis pixel with respect to the voltage of the actuator. -/
theorem C82_peak_dm1 (S : Sys N N4 Neta Nxi Meta Mxi) (hw : S.flagDMwfe = false) (hN : Even N) (hc : S.centering = .pixel) (hdx : S.dx4 = S.dx)
    {τ : ℂ} (hτ : Outer S τ) (apod : Option (Pl N3)) (ha : ApodOk S apod) (hU : TiltCovers S n) (y0 x0 : ℤ) (hB : BoxOk S B y0 x0)
    (Ein : Pl N) (S1 S2 : ZMod N → ZMod N → ℝ) (VtoH : ℝ) (inf : ZMod B → ZMod B → ℝ) :
    ∃ (J : ℂ) (U : ℝ → Fin Meta → Fin Mxi → ℂ),
      noFpm S apod (fun _ _ => 1 : Pl n) Ein false S1 S2 VtoH B y0 x0 inf = .ok J ∧
      (∀ t : ℝ, compactNoFpm S apod Ein (fun i j => S1 i j + t * (VtoH * embedBox B y0 x0 inf i j)) S2 = .ok (U t)) ∧
      HasDerivAt (fun t => U t (centre Meta Mxi).1 (centre Meta Mxi).2) (τ * J) 0 := by
  obtain ⟨X, hX, hX2⟩ := dm1Box_ok S y0 x0 hB Ein S1 S2 VtoH inf
  obtain ⟨J, hJ, hJ2⟩ := peak_aux S hw hN hc hdx apod ha hU y0 x0 hB Ein false S1 S2 VtoH inf X hX
  refine ⟨J, _, hJ, fun t => compactNoFpm_eq S hw apod Ein _ S2, ?_⟩
  rw [← outer_eq hτ, hJ2, hX2]
  exact hasDerivAt_pixel (deriv_1 S Ein S1 S2 _ _ (lin_p2toEndNoFpm S apod)) _ _

/-- C82 (DM2). -/
theorem C82_peak_dm2 (S : Sys N N4 Neta Nxi Meta Mxi) (hw : S.flagDMwfe = false) (hN : Even N) (hc : S.centering = .pixel) (hdx : S.dx4 = S.dx)
    {τ : ℂ} (hτ : Outer S τ) (apod : Option (Pl N3)) (ha : ApodOk S apod) (hU : TiltCovers S n) (y0 x0 : ℤ) (hB : BoxOk S B y0 x0)
    (Ein : Pl N) (S1 S2 : ZMod N → ZMod N → ℝ) (VtoH : ℝ) (inf : ZMod B → ZMod B → ℝ) :
    ∃ (J : ℂ) (U : ℝ → Fin Meta → Fin Mxi → ℂ),
      noFpm S apod (fun _ _ => 1 : Pl n) Ein true S1 S2 VtoH B y0 x0 inf = .ok J ∧
      (∀ t : ℝ, compactNoFpm S apod Ein S1 (fun i j => S2 i j + t * (VtoH * embedBox B y0 x0 inf i j)) = .ok (U t)) ∧
      HasDerivAt (fun t => U t (centre Meta Mxi).1 (centre Meta Mxi).2) (τ * J) 0 := by
  obtain ⟨X, hX, hX2⟩ := dm2Box_ok S y0 x0 hB Ein S1 S2 VtoH inf
  obtain ⟨J, hJ, hJ2⟩ := peak_aux S hw hN hc hdx apod ha hU y0 x0 hB Ein true S1 S2 VtoH inf X hX
  refine ⟨J, _, hJ, fun t => compactNoFpm_eq S hw apod Ein S1 _, ?_⟩
  rw [← outer_eq hτ, hJ2, hX2]
  exact hasDerivAt_pixel (deriv_2 S Ein S1 S2 _ _ (lin_p2toEndNoFpm S apod)) _ _

/-- Quotient rule with a moving normalisation pixel: if the on-axis pixel is the only brightest pixel at `t = 0`, every brightest pixel for small
`t` is the on-axis pixel. -/
theorem ni_deriv {E U : ℝ → Fin Meta → Fin Mxi → ℂ} {D dU : Fin Meta → Fin Mxi → ℂ} (hE : HasDerivAt E D 0) (hU : HasDerivAt U dU 0)
    (c : Fin Meta × Fin Mxi) (hmax : ∀ q : Fin Meta × Fin Mxi, q ≠ c → ‖U 0 q.1 q.2‖ < ‖U 0 c.1 c.2‖) (hne : U 0 c.1 c.2 ≠ 0)
    (pk : ℝ → Fin Meta × Fin Mxi) (hpk : ∀ t, IsPeak (U t) (pk t)) (e : Fin Meta) (x : Fin Mxi) :
    HasDerivAt (fun t => E t e x / U t (pk t).1 (pk t).2)
      (D e x / U 0 c.1 c.2 - E 0 e x / (U 0 c.1 c.2 * U 0 c.1 c.2) * dU c.1 c.2) 0 := by
  have hev : ∀ᶠ t in nhds (0 : ℝ), pk t = c := by
    have h1 : ∀ q : Fin Meta × Fin Mxi, ∀ᶠ t in nhds (0 : ℝ), q ≠ c → ‖U t q.1 q.2‖ < ‖U t c.1 c.2‖ := by
      intro q
      by_cases hq : q = c
      · exact Filter.Eventually.of_forall fun t h => absurd hq h
      · have c1 := (hasDerivAt_pixel hU q.1 q.2).continuousAt.norm
        have c2 := (hasDerivAt_pixel hU c.1 c.2).continuousAt.norm
        filter_upwards [c1.eventually_lt c2 (hmax q hq)] with t ht _ using ht
    filter_upwards [Filter.eventually_all.2 h1] with t ht
    by_contra hne'
    exact absurd (hpk t c.1 c.2) (not_le.2 (ht _ hne'))
  have hq := (hasDerivAt_pixel hE e x).div (hasDerivAt_pixel hU c.1 c.2) hne
  have hval : (D e x * U 0 c.1 c.2 - E 0 e x * dU c.1 c.2) / U 0 c.1 c.2 ^ 2 =
      D e x / U 0 c.1 c.2 - E 0 e x / (U 0 c.1 c.2 * U 0 c.1 c.2) * dU c.1 c.2 := by
    field_simp
  rw [hval] at hq
  refine hq.congr_of_eventuallyEq ?_
  filter_upwards [hev] with t ht
  rw [ht]
  rfl

/-- C82 (column).  With `mp.jac.minimizeNI = True`, the column of a live actuator is the control weight times the derivative of the normalised
field - the final field divided by the unocculted field at its brightest pixel, wherever `argmax` finds it - when the on-axis pixel is the only
brightest pixel before the poke and the transmission outside the mask is 1. -/
theorem C82_column (S : Sys N N4 Neta Nxi Meta Mxi) (hw : S.flagDMwfe = false) (hN : Even N) (hc : S.centering = .pixel) (hdx : S.dx4 = S.dx)
    (hcoro : ∀ D NB vm tk, S.coro ≠ .vortex D NB vm tk) (htr : Outer S 1)
    (apod : Option (Pl N3)) (ha : ApodOk S apod) (hU : TiltCovers S n) (y0 x0 : ℤ) (hB : BoxOk S B y0 x0) (he : EdgeOk S apod y0 x0)
    (Ein : Pl N) (dm2 : Bool) (S1 S2 : ZMod N → ZMod N → ℝ) (weight VtoH : ℝ) (inf : ZMod B → ZMod B → ℝ)
    (poked : ℝ → (ZMod N → ZMod N → ℝ) × (ZMod N → ZMod N → ℝ))
    (hpoked : ∀ t, poked t = if dm2 then (S1, fun i j => S2 i j + t * (VtoH * embedBox B y0 x0 inf i j))
      else (fun i j => S1 i j + t * (VtoH * embedBox B y0 x0 inf i j), S2)) :
    ∃ E U : ℝ → Fin Meta → Fin Mxi → ℂ,
      (∀ t, compactApod S apod Ein (poked t).1 (poked t).2 = .ok (E t)) ∧ (∀ t, compactNoFpm S apod Ein (poked t).1 (poked t).2 = .ok (U t)) ∧
      ((∀ q : Fin Meta × Fin Mxi, q ≠ centre Meta Mxi → ‖U 0 q.1 q.2‖ < ‖U 0 (centre Meta Mxi).1 (centre Meta Mxi).2‖) →
        U 0 (centre Meta Mxi).1 (centre Meta Mxi).2 ≠ 0 →
        ∀ pk : ℝ → Fin Meta × Fin Mxi, (∀ t, IsPeak (U t) (pk t)) →
        ∃ G : Fin Meta → Fin Mxi → ℂ, lyotNI S apod (fun _ _ => 1 : Pl n) Ein dm2 S1 S2 (pk 0) weight VtoH B y0 x0 inf = .ok G ∧
          ∀ e x, ∃ D : ℂ, HasDerivAt (fun t => E t e x / U t (pk t).1 (pk t).2) D 0 ∧ G e x = D * weight) := by
  have hp : poked 0 = (S1, S2) := by rw [hpoked]; cases dm2 <;> simp
  have h0 : compactApod S apod Ein S1 S2 = compactApod S apod Ein (poked 0).1 (poked 0).2 := by rw [hp]
  have h0' : compactNoFpm S apod Ein S1 S2 = compactNoFpm S apod Ein (poked 0).1 (poked 0).2 := by rw [hp]
  have key : ∃ (E U : ℝ → Fin Meta → Fin Mxi → ℂ) (D dU : Fin Meta → Fin Mxi → ℂ) (J : ℂ),
      (∀ t, compactApod S apod Ein (poked t).1 (poked t).2 = .ok (E t)) ∧ (∀ t, compactNoFpm S apod Ein (poked t).1 (poked t).2 = .ok (U t)) ∧
      HasDerivAt E D 0 ∧ HasDerivAt U dU 0 ∧ lyotCol S apod Ein dm2 S1 S2 false 1 VtoH B y0 x0 inf = .ok D ∧
      noFpm S apod (fun _ _ => 1 : Pl n) Ein dm2 S1 S2 VtoH B y0 x0 inf = .ok J ∧ J = dU (centre Meta Mxi).1 (centre Meta Mxi).2 := by
    cases dm2 with
    | false =>
      obtain ⟨X, hX, hX2⟩ := dm1Box_ok S y0 x0 hB Ein S1 S2 VtoH inf
      obtain ⟨J, hJ, hJ2⟩ := peak_aux S hw hN hc hdx apod ha hU y0 x0 hB Ein false S1 S2 VtoH inf X hX
      obtain ⟨G, D, E, g1, g2, g3, g4⟩ := C32_dm1 S hw hN hcoro apod ha y0 x0 hB he Ein S1 S2 1 VtoH inf
      replace g4 : G = D := by simpa only [ofReal_one, mul_one] using g4
      refine ⟨E, _, D, p2toEndNoFpm S apod (dP2_1 S Ein S1 S2 fun i j => VtoH * embedBox B y0 x0 inf i j), J, fun t => ?_,
        fun t => compactNoFpm_eq S hw apod Ein _ _, g3, ?_, g4 ▸ g1, hJ, ?_⟩
      · rw [hpoked]; exact g2 t
      · have hd := deriv_1 S Ein S1 S2 (fun i j => VtoH * embedBox B y0 x0 inf i j) _ (lin_p2toEndNoFpm S apod)
        simp only [hpoked, Bool.false_eq_true, if_false]
        exact hd
      · rw [outer_eq htr, one_mul, hX2] at hJ2; exact hJ2
    | true =>
      obtain ⟨X, hX, hX2⟩ := dm2Box_ok S y0 x0 hB Ein S1 S2 VtoH inf
      obtain ⟨J, hJ, hJ2⟩ := peak_aux S hw hN hc hdx apod ha hU y0 x0 hB Ein true S1 S2 VtoH inf X hX
      obtain ⟨G, D, E, g1, g2, g3, g4⟩ := C32_dm2 S hw hN hcoro apod ha y0 x0 hB he Ein S1 S2 1 VtoH inf
      replace g4 : G = D := by simpa only [ofReal_one, mul_one] using g4
      refine ⟨E, _, D, p2toEndNoFpm S apod (dP2_2 S Ein S1 S2 fun i j => VtoH * embedBox B y0 x0 inf i j), J, fun t => ?_,
        fun t => compactNoFpm_eq S hw apod Ein _ _, g3, ?_, g4 ▸ g1, hJ, ?_⟩
      · rw [hpoked]; exact g2 t
      · have hd := deriv_2 S Ein S1 S2 (fun i j => VtoH * embedBox B y0 x0 inf i j) _ (lin_p2toEndNoFpm S apod)
        simp only [hpoked, if_true]
        exact hd
      · rw [outer_eq htr, one_mul, hX2] at hJ2; exact hJ2
  obtain ⟨E, U, D, dU, J, hE, hUU, dE, dUU, hcol, hJ, hJv⟩ := key
  refine ⟨E, U, hE, hUU, fun hmax hne pk hpk => ?_⟩
  have hp0 : pk 0 = centre Meta Mxi := by
    by_contra h
    exact absurd (hpk 0 _ _) (not_le.2 (hmax _ h))
  refine ⟨fun e x => (D e x / U 0 (centre Meta Mxi).1 (centre Meta Mxi).2 - E 0 e x /
      (U 0 (centre Meta Mxi).1 (centre Meta Mxi).2 * U 0 (centre Meta Mxi).1 (centre Meta Mxi).2) * dU (centre Meta Mxi).1 (centre Meta Mxi).2) * weight,
    ?_, fun e x => ⟨_, ni_deriv dE dUU (centre Meta Mxi) hmax hne pk hpk e x, ?_⟩⟩
  · unfold lyotNI
    rw [h0, h0', hE 0, hUU 0, hcol, hJ]
    simp only [bind, Except.bind, pure, Except.pure, hp0, hJv]
    rfl
  · rfl

/-- C82 fails for a coronagraph whose mask transmits less than 1 outside the occulting spot (HLC with `mask[0,0] ≠ 1`): `no_fpm` uses 1 for this
transmission, so its value is not the derivative of the peak unless that derivative is zero. -/
theorem C82_outer_transmission_violated (S : Sys N N4 Neta Nxi Meta Mxi) (hw : S.flagDMwfe = false) (hN : Even N) (hc : S.centering = .pixel)
    (hdx : S.dx4 = S.dx) {τ : ℂ} (hτ : Outer S τ) (htr : τ ≠ 1) (apod : Option (Pl N3)) (ha : ApodOk S apod) (hU : TiltCovers S n) (y0 x0 : ℤ)
    (hB : BoxOk S B y0 x0) (Ein : Pl N) (S1 S2 : ZMod N → ZMod N → ℝ) (VtoH : ℝ) (inf : ZMod B → ZMod B → ℝ) :
    ∃ (J : ℂ) (U : ℝ → Fin Meta → Fin Mxi → ℂ),
      noFpm S apod (fun _ _ => 1 : Pl n) Ein false S1 S2 VtoH B y0 x0 inf = .ok J ∧
      (∀ t : ℝ, compactNoFpm S apod Ein (fun i j => S1 i j + t * (VtoH * embedBox B y0 x0 inf i j)) S2 = .ok (U t)) ∧
      (J ≠ 0 → ¬ HasDerivAt (fun t => U t (centre Meta Mxi).1 (centre Meta Mxi).2) J 0) := by
  obtain ⟨J, U, h1, h2, h3⟩ := C82_peak_dm1 S hw hN hc hdx hτ apod ha hU y0 x0 hB Ein S1 S2 VtoH inf
  refine ⟨J, U, h1, h2, fun hJ hd => ?_⟩
  have := h3.unique hd
  have h4 : (τ - 1) * J = 0 := by linear_combination this
  rcases mul_eq_zero.1 h4 with h | h
  · exact htr (sub_eq_zero.1 h)
  · exact hJ h

/-- A pixel-centred system with a camera of two pixels (off axis, on axis). -/
noncomputable def pixSys : Sys 2 2 1 1 1 2 where
  wvl := 1
  fl := 1
  dx := 1
  dx4 := 1
  dxiF3 := 1
  detaF3 := 1
  fpmScale := 1
  dxi := 1 / 2
  deta := 1
  dP2dm1 := 0
  d12 := 0
  centering := .pixel
  flagRotation := false
  n12 := 1
  n23 := 1
  n34 := 1
  nEnd := 1
  pupil := fun _ _ => 1
  stop1 := fun _ _ => 1
  stop2 := fun _ _ => 1
  flagDMwfe := false
  coro := .flc fun _ _ => 1
  lyot := fun _ _ => 1
  normFac := 1

theorem pixSys_field :
    compactNoFpm pixSys (none : Option (Pl 2)) (fun _ _ => 1) (fun _ _ => 0) (fun _ _ => 0) =
      .ok (fun _ x => if x = 0 then 0 else Real.sqrt (1 / 2) * 4) := by
  have r0 : ∀ k : ℤ, pixSys.rel k = 0 := fun k => by simp [Sys.rel, pixSys]
  have rr : ∀ (E : Pl 2), relay E 0 Util.Centering.pixel = E := fun E => relay_even E (n := 0) (by decide) _
  have hp : p2f pixSys (fun _ _ => 1) (fun _ _ => 0) (fun _ _ => 0) = fun _ _ => 1 := by
    unfold p2f dm2pre dm1post dm1pre
    simp only [r0]
    simp only [pixSys, rr, ptpCore_zero, add_zero, neg_zero, ofReal_zero, mul_zero, exp_zero, mul_one]
  rw [compactNoFpm_eq _ rfl, hp]
  congr 1
  funext e x
  unfold p2toEndNoFpm p3toEndNoFpm p4toEnd
  dsimp only
  rw [mftP2f_zmod]
  simp only [r0, Sys.transOuter]
  simp only [pixSys, rr, padF_self, mul_one]
  have hs : ∀ f : ZMod 2 → ℂ, ∑ i, f i = f 0 + f 1 := fun f => Fin.sum_univ_two f
  have a0 : axZ 2 1 Util.Centering.pixel 0 = -1 := by unfold axZ; rw [ax_eq]; simp
  have a1 : axZ 2 1 Util.Centering.pixel 1 = 0 := by unfold axZ; rw [ax_eq]; simp [show (1 : ZMod 2).val = 1 from rfl]
  have b0 : ax 1 1 Util.Centering.pixel e = 0 := by rw [ax_eq]; simp
  have c0 : ax 2 (1 / 2) Util.Centering.pixel x = if x = 0 then -(1 / 2) else 0 := by
    rw [ax_eq]; fin_cases x <;> simp
  rw [hs, hs, a0, a1, b0, c0]
  have hpi : exp (-2 * Real.pi * I / ((1 : ℝ) * (1 : ℝ)) * ((-1 : ℝ) * (-(1 / 2) : ℝ))) = -1 := by
    rw [← exp_neg_pi_mul_I]
    congr 1
    push_cast; ring
  by_cases hx : x = 0
  · simp only [hx, if_true]
    rw [hpi]
    simp
  · simp only [hx, if_false]
    simp
    ring

/-- `pixSys` with DMs at rest and a uniform input field meets all the hypotheses of the C82 theorems, also those on the brightest pixel -/
example : pixSys.flagDMwfe = false ∧ Even 2 ∧ pixSys.centering = .pixel ∧ pixSys.dx4 = pixSys.dx ∧ Outer pixSys 1 ∧
    (∀ D NB vm tk, pixSys.coro ≠ .vortex D NB vm tk) ∧ ApodOk pixSys (none : Option (Pl 2)) ∧ TiltCovers pixSys 2 ∧ BoxOk pixSys 1 0 1 ∧
    EdgeOk pixSys (none : Option (Pl 2)) 0 1 ∧
    ∃ U, compactNoFpm pixSys (none : Option (Pl 2)) (fun _ _ => 1) (fun _ _ => 0) (fun _ _ => 0) = .ok U ∧
      (∀ q : Fin 1 × Fin 2, q ≠ centre 1 2 → ‖U q.1 q.2‖ < ‖U (centre 1 2).1 (centre 1 2).2‖) ∧ U (centre 1 2).1 (centre 1 2).2 ≠ 0 := by
  have h1 : (centre 1 2) = ((0 : Fin 1), (1 : Fin 2)) := by decide
  refine ⟨rfl, by decide, rfl, rfl, Or.inr ⟨rfl, fun mask t h => by unfold pixSys at h; exact Coro.noConfusion rfl rfl (heq_of_eq h)⟩, (by intro D NB vm tk h; unfold pixSys at h; exact Coro.noConfusion rfl rfl (heq_of_eq h)),
    (fun _ h => by simp at h), fun i j _ => by rw [padF_self], Or.inr ⟨rfl, rfl, by decide, by decide, by decide, by decide⟩,
    fun h => by simp [Sys.rel, pixSys] at h, _, pixSys_field, fun q hq => ?_, ?_⟩
  · rw [h1] at hq ⊢
    have : q.2 = 0 := by
      obtain ⟨a, b⟩ := q
      fin_cases a; fin_cases b
      · rfl
      · exact absurd rfl hq
    simp [this]
  · rw [h1]; simp

/-- `pixSys` with a mask that transmits a half outside the spot meets those of the failure theorem -/
example : Outer ({ pixSys with coro := .babinet (fun _ _ => 1) (1 / 2) } : Sys 2 2 1 1 1 2) (1 / 2) ∧ (1 / 2 : ℂ) ≠ 1 :=
  ⟨Or.inl ⟨_, rfl⟩, by norm_num⟩

end Verif.Compact
