import Verif.Model.PropDm
import Verif.Props.DmTilt
import Verif.Props.FieldOps
import Verif.Props.EstProbe

/-!
# C133, C134: the options of the DM calls, what they do to the wavefront, DMs that are not square; C64: convergence of the fit

The specification: `onlyTrue` says that no flag is passed as `False`; `rotation` is the matrix for an order.
-/

namespace Verif.PropDm
open Verif Verif.Dm Verif.DmTilt Verif.Proper

/-! ## C133: options -/

/-- No flag is passed as `False`. -/
def onlyTrue (o : Opts) : Prop := o.zyx ≠ some false ∧ o.xyz ≠ some false ∧ o.fit ≠ some false ∧ o.noApply ≠ some false

/-- `propcustom_dm` asked to do what `prop_dm` does: no sign, or '+'. -/
def plainSign (o : Opts) : Prop := o.infSign = none ∨ o.infSign = some "+"

/-- The file suits both functions: odd size, whole number of pixels per actuator. -/
def SuitsBoth (F : Inf) : Prop := F.nx % 2 = 1 ∧ F.ny % 2 = 1 ∧ |(F.mag : ℝ) - F.pitch / F.pix| ≤ 1e-8

theorem flag_same (f : Fn) (o : Option Bool) (h : o ≠ some false) : flag f o = o.isSome := by
  rcases o with _ | _ | _ <;> cases f <;> simp_all [flag, switchSet]

/-- **C133.** The two functions agree: for every wavefront, surface, centre and spacing and all options whose flags, if passed at all, are passed as `True`, `prop_dm`
and `propcustom_dm` return the same map, do the same to the wavefront and fail with the same error, if the influence function has odd size and a whole number of pixels
per actuator. -/
theorem C133_agree (cubic : Bool) (interp : (ℕ → ℕ → ℝ) → ℝ → ℝ → ℝ) (interpZ : (ℤ → ℤ → ℝ) → ℝ → ℝ → ℝ) (F : Inf) (hF : SuitsBoth F) {n : ℕ} (w : WF n)
    {ny nx : ℕ} (z : Fin ny × Fin nx → ℝ) (xc yc spacing : ℝ) (o : Opts) (ho : onlyTrue o) (hs : plainSign o) :
    dm .proper cubic interp interpZ F w z xc yc spacing o = dm .custom cubic interp interpZ F w z xc yc spacing o := by
  obtain ⟨h1, h2, h3, h4⟩ := ho
  have e1 : order .proper o = order .custom o := by unfold order; simp only [flag_same _ _ h1, flag_same _ _ h2]
  have e2 : sign .proper o = sign .custom o := by
    unfold sign
    rcases hs with h | h <;> rw [h]
    simp
  have e3 : checkInf .proper F = checkInf .custom F := by
    obtain ⟨a, b, c⟩ := hF
    unfold checkInf
    dsimp only
    rw [if_neg (by omega), if_neg (not_lt.mpr c)]
  unfold dm dmap
  rw [e1, e2, e3]
  simp only [flag_same _ _ h3, flag_same _ _ h4]

/-- **C133, violated.** `propcustom_dm` looks only at whether a flag is passed: passing `False` for `ZYX`, `XYZ`, `FIT` or `NO_APPLY` does what `True` does. -/
theorem C133_false_is_true_violated (cubic : Bool) (interp : (ℕ → ℕ → ℝ) → ℝ → ℝ → ℝ) (interpZ : (ℤ → ℤ → ℝ) → ℝ → ℝ → ℝ) (F : Inf) {n : ℕ} (w : WF n)
    {ny nx : ℕ} (z : Fin ny × Fin nx → ℝ) (xc yc spacing : ℝ) (o : Opts) (a b c d : Bool) :
    dm .custom cubic interp interpZ F w z xc yc spacing { o with zyx := o.zyx.map fun _ => a, xyz := o.xyz.map fun _ => b, fit := o.fit.map fun _ => c, noApply := o.noApply.map fun _ => d } =
      dm .custom cubic interp interpZ F w z xc yc spacing o := by
  have h : ∀ (x : Option Bool) (t : Bool), flag .custom (x.map fun _ => t) = flag .custom x := by
    intro x t; cases x <;> rfl
  have h' : ∀ (x : Option Bool) (t : Bool), (x.map fun _ => t).isNone = x.isNone := by
    intro x t; cases x <;> rfl
  have e1 : order .custom { o with zyx := o.zyx.map fun _ => a, xyz := o.xyz.map fun _ => b, fit := o.fit.map fun _ => c, noApply := o.noApply.map fun _ => d } = order .custom o := by
    unfold order; simp only [h, h']
  unfold dm dmap
  rw [e1]
  simp only [h]
  rfl

/-- **C133.** `prop_dm` honours the values of its switches: `False` for `FIT` or `NO_APPLY` is the same as leaving it out, and so is `False` for one rotation order when the
other is `True`. -/
theorem C133_false (cubic : Bool) (interp : (ℕ → ℕ → ℝ) → ℝ → ℝ → ℝ) (interpZ : (ℤ → ℤ → ℝ) → ℝ → ℝ → ℝ) (F : Inf) {n : ℕ} (w : WF n)
    {ny nx : ℕ} (z : Fin ny × Fin nx → ℝ) (xc yc spacing : ℝ) (o : Opts) :
    (o.fit = some false → dm .proper cubic interp interpZ F w z xc yc spacing o = dm .proper cubic interp interpZ F w z xc yc spacing { o with fit := none }) ∧
    (o.noApply = some false → dm .proper cubic interp interpZ F w z xc yc spacing o = dm .proper cubic interp interpZ F w z xc yc spacing { o with noApply := none }) ∧
    (o.zyx = some true → o.xyz = some false → dm .proper cubic interp interpZ F w z xc yc spacing o = dm .proper cubic interp interpZ F w z xc yc spacing { o with xyz := none }) ∧
    (o.zyx = some false → o.xyz = some true → dm .proper cubic interp interpZ F w z xc yc spacing o = dm .proper cubic interp interpZ F w z xc yc spacing { o with zyx := none }) := by
  refine ⟨fun h => ?_, fun h => ?_, fun h h' => ?_, fun h h' => ?_⟩
  · unfold dm dmap; rw [h]; rfl
  · unfold dm dmap; rw [h]; rfl
  · have e : order .proper o = order .proper { o with xyz := none } := by unfold order; simp [h, h', flag, switchSet]
    unfold dm dmap; rw [e]; rfl
  · have e : order .proper o = order .proper { o with zyx := none } := by unfold order; simp [h, h', flag, switchSet]
    unfold dm dmap; rw [e]; rfl

/-- **C133, violated.** ... but a rotation order passed as `False` and none as `True` is not the same as leaving both out: `prop_dm` then always fails
(UnboundLocalError, or ValueError if the spacing or the influence function is wrong too). -/
theorem C133_order_false_violated (cubic : Bool) (interp : (ℕ → ℕ → ℝ) → ℝ → ℝ → ℝ) (interpZ : (ℤ → ℤ → ℝ) → ℝ → ℝ → ℝ) (F : Inf) {n : ℕ} (w : WF n)
    {ny nx : ℕ} (z : Fin ny × Fin nx → ℝ) (xc yc spacing : ℝ) (o : Opts) (h1 : o.zyx ≠ some true) (h2 : o.xyz ≠ some true) (h : o.zyx = some false ∨ o.xyz = some false) :
    (∃ e, dm .proper cubic interp interpZ F w z xc yc spacing o = .error e) ∧
    (F.nx % 2 = 1 → F.ny % 2 = 1 → (o.nAct.isSome ↔ spacing = 0) → dm .proper cubic interp interpZ F w z xc yc spacing o = .error .unboundLocal) := by
  have e1 : order .proper o = .ok none := by
    unfold order flag switchSet
    have a : (o.zyx == some true) = false := by simpa using h1
    have b : (o.xyz == some true) = false := by simpa using h2
    have c : (o.zyx.isNone && o.xyz.isNone) = false := by rcases h with h | h <;> simp [h]
    rw [a, b, c]; rfl
  have key : ∀ dxDm, spacingOf spacing (Masks.beamradius w) o.nAct = .ok dxDm → F.nx % 2 = 1 → F.ny % 2 = 1 → dm .proper cubic interp interpZ F w z xc yc spacing o = .error .unboundLocal := by
    intro dxDm hd hx hy
    unfold dm dmap
    rw [e1, hd]
    simp only [sign, checkInf, Except.bind, if_neg (show ¬ (F.nx % 2 ≠ 1 ∨ F.ny % 2 ≠ 1) by omega)]
    rfl
  have hsp : (o.nAct.isSome ↔ spacing = 0) → ∃ dxDm, spacingOf spacing (Masks.beamradius w) o.nAct = .ok dxDm := by
    intro hh
    unfold spacingOf
    rcases hA : o.nAct with _ | k <;> rw [hA] at hh
    · exact ⟨spacing, if_neg (by simpa using hh)⟩
    · exact ⟨_, if_neg (by simpa using hh)⟩
  constructor
  · by_cases hp : F.nx % 2 = 1 ∧ F.ny % 2 = 1
    · by_cases hq : o.nAct.isSome ↔ spacing = 0
      · obtain ⟨d, hd⟩ := hsp hq
        exact ⟨_, key d hd hp.1 hp.2⟩
      · refine ⟨.valueError, ?_⟩
        have : spacingOf spacing (Masks.beamradius w) o.nAct = .error .valueError := by
          unfold spacingOf
          rcases hA : o.nAct with _ | k <;> rw [hA] at hq
          · exact if_pos (by simpa using hq)
          · exact if_pos (by simpa using hq)
        unfold dm dmap
        rw [e1, this]
        simp only [sign, checkInf, Except.bind, if_neg (show ¬ (F.nx % 2 ≠ 1 ∨ F.ny % 2 ≠ 1) by omega)]
        rfl
    · refine ⟨.valueError, ?_⟩
      unfold dm dmap
      rw [e1]
      simp only [sign, checkInf, Except.bind, if_pos (show (F.nx % 2 ≠ 1 ∨ F.ny % 2 ≠ 1) by omega)]
      rfl
  · intro hx hy hh
    obtain ⟨d, hd⟩ := hsp hh
    exact key d hd hx hy

/-- **C133.** Refusals: both rotation orders asked for, both or none of `spacing` and `N_ACT_ACROSS_PUPIL`, an influence function of even width or height (`prop_dm`) or
without a whole number of pixels per actuator (`propcustom_dm`): always ValueError (for a valid sign, and a rotation order that is defined). -/
theorem C133_refusals (f : Fn) (cubic : Bool) (interp : (ℕ → ℕ → ℝ) → ℝ → ℝ → ℝ) (interpZ : (ℤ → ℤ → ℝ) → ℝ → ℝ → ℝ) (F : Inf) {n : ℕ} (w : WF n)
    {ny nx : ℕ} (z : Fin ny × Fin nx → ℝ) (xc yc spacing : ℝ) (o : Opts) (hs : plainSign o ∨ o.infSign = some "-")
    (h : (o.zyx = some true ∧ o.xyz = some true) ∨ (o.nAct.isSome ∧ spacing ≠ 0) ∨ (o.nAct = none ∧ spacing = 0) ∨
      (f = .proper ∧ (F.nx % 2 = 0 ∨ F.ny % 2 = 0)) ∨ (f = .custom ∧ 1e-8 < |(F.mag : ℝ) - F.pitch / F.pix|)) :
    dm f cubic interp interpZ F w z xc yc spacing o = .error .valueError := by
  suffices hm : dmap f cubic interp interpZ F n w.dx (Masks.beamradius w) z xc yc spacing o = .error .valueError by
    unfold dm; rw [hm]; rfl
  obtain ⟨s, hsg⟩ : ∃ s, sign f o = .ok s := by
    unfold sign
    cases f
    · exact ⟨_, rfl⟩
    · rcases hs with (h | h) | h <;> rw [h]
      · exact ⟨_, rfl⟩
      · exact ⟨1, by simp⟩
      · exact ⟨-1, by simp⟩
  unfold dmap
  by_cases hb : flag f o.zyx && flag f o.xyz
  · have : order f o = .error .valueError := by unfold order; rw [if_pos hb]
    rw [this]; rfl
  · obtain ⟨x, hx⟩ : ∃ x, order f o = .ok x := by
      unfold order; rw [if_neg hb]; split_ifs <;> exact ⟨_, rfl⟩
    rw [hx, hsg]
    rcases hc : checkInf f F with e | u
    · have : e = .valueError := by
        unfold checkInf at hc
        cases f
        · dsimp only at hc; split_ifs at hc; simpa using hc.symm
        · dsimp only at hc; split_ifs at hc; simpa using hc.symm
      rw [this]; rfl
    · have hsp : spacingOf spacing (Masks.beamradius w) o.nAct = .error .valueError := by
        rcases h with h | h | h | h | h
        · exfalso; apply hb; rw [h.1, h.2]; cases f <;> rfl
        · obtain ⟨k, hk⟩ := Option.isSome_iff_exists.mp h.1
          unfold spacingOf; rw [hk]; exact if_pos h.2
        · unfold spacingOf; rw [h.1]; exact if_pos h.2
        · exfalso
          rw [h.1] at hc
          unfold checkInf at hc
          dsimp only at hc
          rw [if_pos (by omega)] at hc
          cases hc
        · exfalso
          rw [h.1] at hc
          unfold checkInf at hc
          dsimp only at hc
          rw [if_pos h.2] at hc
          cases hc
      rw [hsp]; rfl

/-- **C133, violated.** The setup accepts `inf_sign` values that begin with 'n', 'm', 'p', '+' or '-'; `propcustom_dm` works with exactly '+' and '-' only, and raises
UnboundLocalError for every other string. -/
theorem C133_sign_violated (cubic : Bool) (interp : (ℕ → ℕ → ℝ) → ℝ → ℝ → ℝ) (interpZ : (ℤ → ℤ → ℝ) → ℝ → ℝ → ℝ) (F : Inf) {n : ℕ} (w : WF n)
    {ny nx : ℕ} (z : Fin ny × Fin nx → ℝ) (xc yc spacing : ℝ) (o : Opts) (s : String) (h : o.infSign = some s) (hp : s ≠ "+") (hm : s ≠ "-")
    (ho : o.zyx = none ∨ o.xyz = none) : dm .custom cubic interp interpZ F w z xc yc spacing o = .error .unboundLocal := by
  obtain ⟨x, hx⟩ : ∃ x, order .custom o = .ok x := by
    unfold order
    rw [if_neg (by rcases ho with h | h <;> simp [h, flag])]
    split_ifs <;> exact ⟨_, rfl⟩
  have : sign .custom o = .error .unboundLocal := by
    unfold sign; rw [h]; simp [hp, hm]
  unfold dm dmap
  rw [hx, this]; rfl

/-- **C133.** The wavefront: unless `NO_APPLY` is on, the field seen at every pixel is multiplied by `exp(2πi/λ · 2 h)`, `h` the height returned for the pixel; with it, nothing
changes.  Sampling, wavelength and the other attributes never change.  Every even grid size. -/
theorem C133_applied (f : Fn) (cubic : Bool) (interp : (ℕ → ℕ → ℝ) → ℝ → ℝ → ℝ) (interpZ : (ℤ → ℤ → ℝ) → ℝ → ℝ → ℝ) (F : Inf) {n : ℕ} [NeZero n] (hn : n % 2 = 0) (w : WF n)
    {ny nx : ℕ} (z : Fin ny × Fin nx → ℝ) (xc yc spacing : ℝ) (o : Opts) (D : ℕ → ℕ → ℝ) (w' : WF n)
    (h : dm f cubic interp interpZ F w z xc yc spacing o = .ok (D, w')) :
    SameButField w w' ∧
    (flag f o.noApply = true → w' = w) ∧
    (flag f o.noApply = false → ∀ i j, getWavefront w' i j = getWavefront w i j * Complex.exp (2 * Real.pi * Complex.I / w.lam * ((2 * D i.val j.val : ℝ) : ℂ))) := by
  unfold dm at h
  rcases hm : dmap f cubic interp interpZ F n w.dx (Masks.beamradius w) z xc yc spacing o with e | D'
  · rw [hm] at h; cases h
  · rw [hm] at h
    simp only [Except.map, Except.ok.injEq, Prod.mk.injEq] at h
    obtain ⟨rfl, rfl⟩ := h
    refine ⟨?_, fun hh => if_pos hh, fun hh i j => ?_⟩
    · cases flag f o.noApply
      · rfl
      · rfl
    · rw [if_neg (by simp [hh])]
      have key := congrFun (congrFun (C58_twice_even (Nat.even_iff.mpr hn) (Nat.even_iff.mpr hn) (fun i j : ZMod n => 2 * D' i.val j.val)) i) j
      unfold getWavefront
      change w.arr _ _ * Complex.exp (2 * Real.pi * Complex.I / w.lam * ((shiftCenter (shiftCenter fun i j : ZMod n => 2 * D' i.val j.val) i j : ℝ) : ℂ)) = _
      rw [key]; rfl

/-! ## C134: DMs of any shape -/

/-- The turning of the DM asked for (only the angles and the order matter to `beamPoint`). -/
noncomputable def turned (o : Opts) : DmTilt.Dm where
  nact := 0
  mag := 0
  K := 0
  inf := fun _ _ => 0
  dxInf := 0
  spacing := 0
  xc := 0
  yc := 0
  xtilt := o.xtilt
  ytilt := o.ytilt
  zrot := o.ztilt
  xyz := o.zyx == none

/-- A call with nothing wrong: flags `True` or absent, at most one rotation order, commands as they are (no fit), the spacing given, an influence function of odd size with
exactly `mag` pixels per actuator, and a DM that is not seen edge-on nor turned by a quarter. -/
structure Good (F : Inf) (spacing : ℝ) (o : Opts) : Prop where
  flags : onlyTrue o
  one : o.zyx = none ∨ o.xyz = none
  sign : plainSign o
  noFit : o.fit = none
  noAct : o.nAct = none
  spacing : spacing ≠ 0
  oddx : F.nx % 2 = 1
  oddy : F.ny % 2 = 1
  mag : 1 ≤ F.mag
  whole : F.pitch = F.mag * F.pix
  pix : F.pix ≠ 0
  slope0 : (turned o).m 0 0 ≠ 0
  slope1 : (turned o).m 1 1 ≠ 0
  tiltx : Real.cos (rad o.xtilt) ≠ 0
  tilty : Real.cos (rad o.ytilt) ≠ 0

/-- Pixels across the part of the wavefront that the DM covers along an axis with `k` actuators: `√2 (k + 18)` actuators, at most `n`. -/
noncomputable def covered (k : ℕ) (spacing dx : ℝ) (n : ℕ) : ℕ := min (npRound (Real.sqrt 2 * ((k : ℝ) + 18) * (spacing / dx))).toNat n

theorem order_good (f : Fn) {F : Inf} {sp : ℝ} {o : Opts} (h : Good F sp o) : order f o = .ok (some (turned o).xyz) := by
  obtain ⟨h1, h2, -, -⟩ := h.flags
  unfold order turned
  simp only [flag_same f _ h1, flag_same f _ h2]
  rcases ho : o.zyx with _ | _ | _ <;> rcases ho' : o.xyz with _ | _ | _ <;> simp_all
  all_goals (have := h.one; simp_all)

theorem sign_good (f : Fn) {o : Opts} (h : plainSign o) : sign f o = .ok 1 := by
  unfold sign
  cases f
  · rfl
  · rcases h with h | h <;> rw [h]
    simp

theorem check_good (f : Fn) {F : Inf} {sp : ℝ} {o : Opts} (h : Good F sp o) : checkInf f F = .ok () := by
  unfold checkInf
  cases f
  · exact if_neg (by have := h.oddx; have := h.oddy; omega)
  · refine if_neg ?_
    have : F.pitch / F.pix = F.mag := by rw [h.whole]; field_simp [h.pix]
    rw [this]; simp; norm_num

theorem dim_good {F : Inf} {sp : ℝ} {o : Opts} (h : Good F sp o) (g : Grid) (hg : g.mag = F.mag) (k : ℕ) (dx : ℝ) (n : ℕ) :
    g.dim k (F.pix * sp / F.pitch) dx n = covered k sp dx n := by
  unfold Grid.dim covered Grid.size
  have hm : (F.mag : ℝ) ≠ 0 := by have := h.mag; positivity
  congr 3
  rw [h.whole, hg]
  have := h.pix
  push_cast
  field_simp
  ring

theorem reshaped_square (A : Arr2) (h : A.rows = A.cols) (i j : ℕ) (hj : j < A.cols) : A.reshaped.at_ i j = A.at_ i j := by
  unfold Arr2.reshaped
  dsimp only
  rw [h, Nat.add_comm, Nat.add_mul_div_right _ _ (by omega), Nat.div_eq_of_lt hj, Nat.zero_add, Nat.add_mul_mod_self_right, Nat.mod_eq_of_lt hj]

theorem put_square (n x : ℕ) (hx : x ≤ n) (A : Arr2) (hr : A.rows = x) (hc : A.cols = x) :
    put n x x A = .ok fun i j => if (n / 2 - x / 2 ≤ i ∧ i < n / 2 - x / 2 + x) ∧ (n / 2 - x / 2 ≤ j ∧ j < n / 2 - x / 2 + x) then
      A.at_ (i - (n / 2 - x / 2)) (j - (n / 2 - x / 2)) else 0 := by
  unfold put
  have e : min n (n / 2 - x / 2 + x) = n / 2 - x / 2 + x := by omega
  simp only [hr, hc, e, show n / 2 - x / 2 + x - (n / 2 - x / 2) = x by omega, true_or, and_self, if_true]
  congr 1
  funext i j
  by_cases h : (n / 2 - x / 2 ≤ i ∧ i < n / 2 - x / 2 + x) ∧ (n / 2 - x / 2 ≤ j ∧ j < n / 2 - x / 2 + x)
  · rw [if_pos h, if_pos h]
    by_cases h1 : x = 1
    · rw [if_pos h1, if_pos h1]
      congr 1 <;> omega
    · rw [if_neg h1, if_neg h1]
  · rw [if_neg h, if_neg h]

/-- **C134.** A DM of `ny × nx` actuators that covers as many pixels in X as in Y (square, or larger than the grid both ways): both functions return a map; at every pixel
of the part covered it is the surface of the DM at the point seen there (`(u, v)` metres from `(xc, yc)`), zero elsewhere. All sizes, both back ends. -/
theorem C134_surface (f : Fn) (cubic : Bool) (interp : (ℕ → ℕ → ℝ) → ℝ → ℝ → ℝ) (interpZ : (ℤ → ℤ → ℝ) → ℝ → ℝ → ℝ) (F : Inf) {n : ℕ} (hn : n % 2 = 0) (w : WF n)
    {ny nx : ℕ} (z : Fin ny × Fin nx → ℝ) (xc yc spacing : ℝ) (o : Opts) (h : Good F spacing o) (c : ℕ)
    (hcx : covered nx spacing w.dx n = c) (hcy : covered ny spacing w.dx n = c) :
    ∃ D w', dm f cubic interp interpZ F w z xc yc spacing o = .ok (D, w') ∧
      ∀ i j, if (n / 2 - c / 2 ≤ i ∧ i < n / 2 - c / 2 + c) ∧ (n / 2 - c / 2 ≤ j ∧ j < n / 2 - c / 2 + c) then
        ∃ u v, beamPoint (turned o) u v = (pos .pixel n w.dx j, pos .pixel n w.dx i) ∧
          D i j = interp ((⟨F.mag, ny, nx⟩ : Grid).surf F 1 z) ((xc + u / spacing) * F.mag + (9 * F.mag + F.mag / 2 : ℕ)) ((yc + v / spacing) * F.mag + (9 * F.mag + F.mag / 2 : ℕ))
      else D i j = 0 := by
  have hcn : c ≤ n := hcx ▸ min_le_right _ _
  have hsp : spacingOf spacing (Masks.beamradius w) o.nAct = .ok spacing := by unfold spacingOf; rw [h.noAct]; exact if_neg h.spacing
  have hfit : flag f o.fit = false := by rw [h.noFit]; cases f <;> rfl
  have hM : (if (turned o).xyz then mXYZ (rad o.xtilt) (rad o.ytilt) (rad o.ztilt) else mZYX (rad o.xtilt) (rad o.ytilt) (rad o.ztilt)) = (turned o).m := rfl
  unfold dm dmap
  rw [order_good f h, sign_good f h.sign, check_good f h, hsp]
  simp only [Except.bind, hfit, Bool.false_eq_true, if_false, dim_good h ⟨F.mag, ny, nx⟩ rfl, hcx, hcy, hM]
  set A : Arr2 := projected cubic interp (turned o).m ((⟨F.mag, ny, nx⟩ : Grid).surf F 1 z) (⟨F.mag, ny, nx⟩ : Grid).off spacing (F.pix * spacing / F.pitch) w.dx xc yc c c with hA
  have hr : A.rows = c := by rw [hA]; unfold projected; cases cubic <;> rfl
  have hc' : A.cols = c := by rw [hA]; unfold projected; cases cubic <;> rfl
  rw [put_square n c hcn A hr hc']
  refine ⟨_, _, rfl, fun i j => ?_⟩
  by_cases hin : (n / 2 - c / 2 ≤ i ∧ i < n / 2 - c / 2 + c) ∧ (n / 2 - c / 2 ≤ j ∧ j < n / 2 - c / 2 + c)
  · rw [if_pos hin]
    have hminor : (turned o).m 0 0 * (turned o).m 1 1 - (turned o).m 0 1 * (turned o).m 1 0 ≠ 0 := by
      rw [m_minor]; exact mul_ne_zero h.tiltx h.tilty
    refine ⟨(backProject (turned o).m (pos .pixel n w.dx j) (pos .pixel n w.dx i)).1, (backProject (turned o).m (pos .pixel n w.dx j) (pos .pixel n w.dx i)).2,
      beam_back (turned o) h.slope0 h.slope1 hminor _ _, ?_⟩
    rw [if_pos hin]
    have hAat : ∀ r s, s < c → A.at_ r s = interp ((⟨F.mag, ny, nx⟩ : Grid).surf F 1 z)
        (((backProject (turned o).m (((s : ℝ) - ((c / 2 : ℕ) : ℝ)) * w.dx) (((r : ℝ) - ((c / 2 : ℕ) : ℝ)) * w.dx)).1 + xc * spacing) / (F.pix * spacing / F.pitch) + (⟨F.mag, ny, nx⟩ : Grid).off)
        (((backProject (turned o).m (((s : ℝ) - ((c / 2 : ℕ) : ℝ)) * w.dx) (((r : ℝ) - ((c / 2 : ℕ) : ℝ)) * w.dx)).2 + yc * spacing) / (F.pix * spacing / F.pitch) + (⟨F.mag, ny, nx⟩ : Grid).off) := by
      intro r s hs
      rw [hA]
      unfold projected
      cases cubic
      · rfl
      · exact reshaped_square _ rfl r s hs
    have e : ∀ k : ℕ, n / 2 - c / 2 ≤ k → (((k - (n / 2 - c / 2) : ℕ) : ℝ) - ((c / 2 : ℕ) : ℝ)) * w.dx = pos .pixel n w.dx k := by
      intro k hk
      have h2 : c / 2 ≤ n / 2 := Nat.div_le_div_right hcn
      have h3 : ((n / 2 : ℕ) : ℝ) = (n : ℝ) / 2 := Nat.cast_div_charZero (Nat.dvd_of_mod_eq_zero hn)
      unfold pos
      rw [Nat.cast_sub hk, Nat.cast_sub h2, h3]
      ring
    rw [hAat _ _ (by omega), e i hin.1.1, e j hin.2.1]
    have hm : (F.mag : ℝ) ≠ 0 := by have := h.mag; positivity
    have hp := h.pix
    have hs' := h.spacing
    have q : ∀ s t : ℝ, (s + t * spacing) / (F.pix * spacing / F.pitch) = (t + s / spacing) * F.mag := by
      intro s t
      rw [h.whole]; field_simp; ring
    rw [q, q]
    rfl
  · rw [if_neg hin]
    rw [if_neg hin]

/-- **C134.** The surface before projection is the superposition of the influence functions, each with its middle pixel on its actuator: actuator `(r, c)` is `mag` pixels
from the next in either direction. -/
theorem C134_superposition (g : Grid) (hm : 1 ≤ g.mag) (F : Inf) (hx : F.nx % 2 = 1) (hy : F.ny % 2 = 1) (s : ℝ) (z : Fin g.ny × Fin g.nx → ℝ) (y x : ℕ) :
    g.surf F s z y x = ∑ r : Fin g.ny, ∑ c : Fin g.nx, z (r, c) * (s * F.inf ((F.ny / 2 : ℕ) + ((y : ℤ) - (g.off + r.val * g.mag : ℕ))) ((F.nx / 2 : ℕ) + ((x : ℤ) - (g.off + c.val * g.mag : ℕ)))) := by
  set φ : ℕ → ℕ → ℝ := fun a b => s * F.inf ((y : ℤ) + ((F.ny - 1) / 2 : ℕ) - a) ((x : ℤ) + ((F.nx - 1) / 2 : ℕ) - b) with hφ
  have hsite : ∀ (k : ℕ) (r : Fin k), g.off + r.val * g.mag < g.size k := by
    intro k r
    unfold Grid.off Grid.size
    have : r.val * g.mag + g.mag ≤ k * g.mag := by
      calc r.val * g.mag + g.mag = (r.val + 1) * g.mag := by ring
        _ ≤ _ := Nat.mul_le_mul_right _ r.isLt
    omega
  have hp : ∀ (r : Fin g.ny) (c : Fin g.nx), g.poke z (g.off + r.val * g.mag) (g.off + c.val * g.mag) = z (r, c) := by
    intro r c
    unfold Grid.poke
    have e : ∀ k : ℕ, (g.off + k * g.mag - g.off) = k * g.mag := fun k => by omega
    have hdv : ∀ k : ℕ, k * g.mag / g.mag = k := fun k => Nat.mul_div_cancel _ hm
    rw [dif_pos ⟨⟨by omega, by rw [e]; exact Nat.mul_mod_left _ _, by rw [e, hdv]; exact r.isLt⟩,
      ⟨by omega, by rw [e]; exact Nat.mul_mod_left _ _, by rw [e, hdv]; exact c.isLt⟩⟩]
    congr 2 <;> (apply Fin.ext; dsimp only; rw [e, hdv])
  have hoff : ∀ a b, g.poke z a b ≠ 0 → ∃ (r : Fin g.ny) (c : Fin g.nx), a = g.off + r.val * g.mag ∧ b = g.off + c.val * g.mag := by
    intro a b hne
    unfold Grid.poke at hne
    split_ifs at hne with hh
    · refine ⟨⟨_, hh.1.2.2⟩, ⟨_, hh.2.2.2⟩, ?_, ?_⟩
      · have := Nat.div_mul_cancel (Nat.dvd_of_mod_eq_zero hh.1.2.1)
        dsimp only; omega
      · have := Nat.div_mul_cancel (Nat.dvd_of_mod_eq_zero hh.2.2.1)
        dsimp only; omega
    · exact absurd rfl hne
  have key : g.surf F s z y x = ∑ r : Fin g.ny, ∑ c : Fin g.nx, z (r, c) * φ (g.off + r.val * g.mag) (g.off + c.val * g.mag) := by
    change ∑ a ∈ Finset.range (g.size g.ny), ∑ b ∈ Finset.range (g.size g.nx), g.poke z a b * φ a b = _
    rw [← Finset.sum_product', ← Finset.sum_product']
    symm
    refine Finset.sum_bij_ne_zero (fun p _ _ => (g.off + p.1.val * g.mag, g.off + p.2.val * g.mag)) ?_ ?_ ?_ ?_
    · intro p _ _
      simp only [Finset.mem_product, Finset.mem_range]
      exact ⟨hsite _ p.1, hsite _ p.2⟩
    · intro p _ _ q _ _ hpq
      simp only [Prod.mk.injEq] at hpq
      refine Prod.ext (Fin.ext ?_) (Fin.ext ?_)
      · exact Nat.eq_of_mul_eq_mul_right hm (by omega : p.1.val * g.mag = q.1.val * g.mag)
      · exact Nat.eq_of_mul_eq_mul_right hm (by omega : p.2.val * g.mag = q.2.val * g.mag)
    · intro b _ hb
      obtain ⟨r, c, h1, h2⟩ := hoff b.1 b.2 (left_ne_zero_of_mul hb)
      refine ⟨(r, c), by simp, ?_, ?_⟩
      · dsimp only
        rw [← hp r c, ← h1, ← h2]; exact hb
      · exact Prod.ext h1.symm h2.symm
    · intro p _ _
      dsimp only
      rw [hp]
  rw [key]
  refine Finset.sum_congr rfl fun r _ => Finset.sum_congr rfl fun c _ => ?_
  rw [hφ]
  dsimp only
  rw [show (F.ny - 1) / 2 = F.ny / 2 by omega, show (F.nx - 1) / 2 = F.nx / 2 by omega]
  congr 3 <;> ring

theorem put_mismatch (n x y : ℕ) (hx : x ≤ n) (hy : y ≤ n) (hne : x ≠ y) (h0 : 1 < x ∨ 1 < y) (A : Arr2) (hA : (A.rows = y ∧ A.cols = x) ∨ (A.rows = x ∧ A.cols = y)) :
    put n x y A = .error .valueError := by
  unfold put
  dsimp only
  rw [if_neg]
  rcases hA with ⟨h1, h2⟩ | ⟨h1, h2⟩ <;> rw [h1, h2] <;> omega

/-- **C134, violated.** A DM that covers more pixels in one direction than in the other cannot be used: every call that has nothing else wrong raises ValueError, with
both functions and both back ends. -/
theorem C134_not_square_violated (f : Fn) (cubic : Bool) (interp : (ℕ → ℕ → ℝ) → ℝ → ℝ → ℝ) (interpZ : (ℤ → ℤ → ℝ) → ℝ → ℝ → ℝ) (F : Inf) {n : ℕ} (w : WF n)
    {ny nx : ℕ} (z : Fin ny × Fin nx → ℝ) (xc yc spacing : ℝ) (o : Opts) (h : Good F spacing o)
    (hne : covered nx spacing w.dx n ≠ covered ny spacing w.dx n) (hbig : 1 < covered nx spacing w.dx n ∨ 1 < covered ny spacing w.dx n) :
    dm f cubic interp interpZ F w z xc yc spacing o = .error .valueError := by
  have hsp : spacingOf spacing (Masks.beamradius w) o.nAct = .ok spacing := by unfold spacingOf; rw [h.noAct]; exact if_neg h.spacing
  unfold dm dmap
  rw [order_good f h, sign_good f h.sign, check_good f h, hsp]
  simp only [Except.bind, dim_good h ⟨F.mag, ny, nx⟩ rfl]
  rw [put_mismatch n (covered nx spacing w.dx n) (covered ny spacing w.dx n) (min_le_right _ _) (min_le_right _ _) hne hbig]
  · rfl
  · unfold projected
    cases cubic
    · exact Or.inl ⟨rfl, rfl⟩
    · exact Or.inr ⟨rfl, rfl⟩

/-- **C134, violated.** This is so for every DM with different numbers of rows and columns, at least one pixel per actuator, that does not extend over the whole grid
in its shorter direction. -/
theorem C134_rows_columns_violated (f : Fn) (cubic : Bool) (interp : (ℕ → ℕ → ℝ) → ℝ → ℝ → ℝ) (interpZ : (ℤ → ℤ → ℝ) → ℝ → ℝ → ℝ) (F : Inf) {n : ℕ} (w : WF n)
    {ny nx : ℕ} (z : Fin ny × Fin nx → ℝ) (xc yc spacing : ℝ) (o : Opts) (h : Good F spacing o) (hne : ny ≠ nx) (hdx : 0 < w.dx) (hpix : w.dx ≤ spacing)
    (hshort : Real.sqrt 2 * ((min ny nx : ℕ) + 18) * (spacing / w.dx) + 1 < n) :
    dm f cubic interp interpZ F w z xc yc spacing o = .error .valueError := by
  have h2 : (1.4 : ℝ) < Real.sqrt 2 := by
    rw [Real.lt_sqrt (by norm_num)]; norm_num
  have hr : 1 ≤ spacing / w.dx := by rw [le_div_iff₀ hdx]; linarith
  have hbd := fun k : ℕ => npRound_bounds (Real.sqrt 2 * ((k : ℝ) + 18) * (spacing / w.dx))
  have hpos : ∀ k : ℕ, 25 < Real.sqrt 2 * ((k : ℝ) + 18) * (spacing / w.dx) := by
    intro k
    have hk : (0 : ℝ) ≤ k := Nat.cast_nonneg k
    have a : 25 < Real.sqrt 2 * ((k : ℝ) + 18) := by nlinarith
    nlinarith
  have hstep : ∀ k l : ℕ, k < l → Real.sqrt 2 * ((k : ℝ) + 18) * (spacing / w.dx) + 1.4 < Real.sqrt 2 * ((l : ℝ) + 18) * (spacing / w.dx) := by
    intro k l hkl
    have : (k : ℝ) + 1 ≤ l := by exact_mod_cast hkl
    have e : Real.sqrt 2 * ((l : ℝ) + 18) * (spacing / w.dx) - Real.sqrt 2 * ((k : ℝ) + 18) * (spacing / w.dx) = Real.sqrt 2 * (((l : ℝ) - k) * (spacing / w.dx)) := by ring
    have b : 1 ≤ ((l : ℝ) - k) * (spacing / w.dx) := by nlinarith
    nlinarith
  have hlt : ∀ k l : ℕ, k < l → Real.sqrt 2 * ((k : ℝ) + 18) * (spacing / w.dx) + 1 < n → covered k spacing w.dx n < covered l spacing w.dx n ∧ 1 < covered k spacing w.dx n := by
    intro k l hkl hs
    unfold covered
    have hk := hbd k
    have hl := hbd l
    have hst := hstep k l hkl
    have hp := hpos k
    generalize Real.sqrt 2 * ((k : ℝ) + 18) * (spacing / w.dx) = X at *
    generalize Real.sqrt 2 * ((l : ℝ) + 18) * (spacing / w.dx) = Y at *
    have c1 : npRound X < npRound Y := by
      have : (npRound X : ℝ) < npRound Y := by linarith [hk.1, hk.2, hl.1, hl.2]
      exact_mod_cast this
    have c2 : npRound X < n := by
      have : (npRound X : ℝ) < (n : ℤ) := by push_cast; linarith [hk.1, hk.2]
      exact_mod_cast this
    have c3 : 1 < npRound X := by
      have : ((1 : ℤ) : ℝ) < npRound X := by push_cast; linarith [hk.1, hk.2]
      exact_mod_cast this
    omega
  refine C134_not_square_violated f cubic interp interpZ F w z xc yc spacing o h ?_ ?_
  · rcases lt_or_gt_of_ne hne with hh | hh
    · rw [min_eq_left hh.le] at hshort
      exact (hlt _ _ hh hshort).1.ne'
    · rw [min_eq_right (le_of_lt hh)] at hshort
      exact (hlt _ _ hh hshort).1.ne
  · rcases lt_or_gt_of_ne hne with hh | hh
    · rw [min_eq_left hh.le] at hshort
      exact Or.inr (hlt _ _ hh hshort).2
    · rw [min_eq_right (le_of_lt hh)] at hshort
      exact Or.inl (hlt _ _ hh hshort).2

/-- Non-vacuity of C133 and C134: the default influence function (91 × 91 pixels, 10 per actuator), a DM without tilt. -/
noncomputable def xinetics : Inf := ⟨91, 91, fun i j => if i = 45 ∧ j = 45 then 1 else 0, 1, 10⟩

theorem xinetics_mag : xinetics.mag = 10 := by
  unfold Inf.mag xinetics
  have := npRound_bounds (10 / 1 : ℝ)
  have h : npRound (10 / 1 : ℝ) = 10 := by
    have h1 : ((9 : ℤ) : ℝ) < npRound (10 / 1 : ℝ) := by push_cast; linarith [this.1]
    have h2 : (npRound (10 / 1 : ℝ) : ℝ) < ((11 : ℤ) : ℝ) := by push_cast; linarith [this.2]
    have h1' : (9 : ℤ) < npRound (10 / 1 : ℝ) := by exact_mod_cast h1
    have h2' : npRound (10 / 1 : ℝ) < (11 : ℤ) := by exact_mod_cast h2
    omega
  dsimp only
  rw [h]; rfl

theorem good_example : Good xinetics 1 {} where
  flags := ⟨by simp, by simp, by simp, by simp⟩
  one := Or.inl rfl
  sign := Or.inl rfl
  noFit := rfl
  noAct := rfl
  spacing := one_ne_zero
  oddx := rfl
  oddy := rfl
  mag := by rw [xinetics_mag]; norm_num
  whole := by rw [xinetics_mag]; norm_num [xinetics]
  pix := one_ne_zero
  slope0 := by simp [turned, DmTilt.Dm.m, mXYZ, rad]
  slope1 := by simp [turned, DmTilt.Dm.m, mXYZ, rad]
  tiltx := by simp [rad]
  tilty := by simp [rad]

/-- A 48 × 64 DM with 1 mm actuators on a grid of 256 pixels of 0.5 mm cannot be used; a 48 × 48 one can. -/
example (z : Fin 48 × Fin 64 → ℝ) (z' : Fin 48 × Fin 48 → ℝ) (w : WF 256) (hw : w.dx = 0.5) :
    dm .proper false (fun A _ _ => A 0 0) (fun A _ _ => A 0 0) xinetics w z 23.5 31.5 1 {} = .error .valueError ∧
    ∃ r, dm .proper false (fun A _ _ => A 0 0) (fun A _ _ => A 0 0) xinetics w z' 23.5 23.5 1 {} = .ok r := by
  constructor
  · refine C134_rows_columns_violated _ _ _ _ _ w z _ _ 1 {} good_example (by norm_num) (by rw [hw]; norm_num) (by rw [hw]; norm_num) ?_
    rw [hw]
    have : Real.sqrt 2 < 1.5 := by rw [Real.sqrt_lt' (by norm_num)]; norm_num
    norm_num
    linarith
  · obtain ⟨D, w', h, -⟩ := C134_surface .proper false (fun A _ _ => A 0 0) (fun A _ _ => A 0 0) xinetics (by norm_num) w z' 23.5 23.5 1 {} good_example _ rfl rfl
    exact ⟨_, h⟩

end Verif.PropDm
