import Verif.Model.FilmFiles
import Mathlib.Tactic.IntervalCases
import Mathlib.Tactic.NormNum
import Mathlib.Tactic.Linarith
import Mathlib.Tactic.Ring

/-!
# C146: files of thin-film tables

`gen_complex_trans_table` keeps its tables in files, and takes a file with the right name instead of computing.  What a call returns therefore depends on the files that earlier calls (other
processes, runs that were cut off) left.
-/

namespace Verif.FilmFiles
open Verif

variable {S : Type}

/-! ## Specification -/

/-- The coefficient of the film for a wavelength `lam`: in reflection or in transmission, for thicknesses in metres, with the reference plane at `d0fac` wavelengths. -/
noncomputable def coefficient (film : FilmArgs → S × S) (c : Cfg) (lam : ℝ) : S :=
  (if c.refl = true then Prod.snd else Prod.fst)
    (film { substrate := c.substrate, metal := c.metal, dielectric := c.dielectric, lam := lam, aoi := c.aoi, tTi := c.tTi / 10 ^ 9,
            metalVec := c.metalVec.map (· / 10 ^ 9), dielVec := c.dielVec.map (· / 10 ^ 9), d0 := c.d0fac * lam })

/-- What a call should return: for the compact model one slice for each subband, at its centre; for the full model the same if there is one wavelength per subband, otherwise one slice for each
of the wavelengths of the full model, in a table of `Nsbp * Nwpsbp` (where there is no wavelength, zeros). -/
noncomputable def Right (film : FilmArgs → S × S) (c : Cfg) : Table S × Table S :=
  let compact := (List.range c.Nsbp).map fun si => some (coefficient film c (c.centers si))
  (compact, if c.Nwpsbp = 1 then compact else (List.range (c.Nsbp * c.Nwpsbp)).map fun li => (c.lambdas[li]?).map (coefficient film c))

/-- A call has written part of a file. -/
def Writing : PC S → Prop
  | .writeC => True
  | .writeF _ => True
  | _ => False

/-- No file is cut off. -/
def Whole (d : Disk S) : Prop := ∀ n, d n ≠ some .part

/-- Where a complete file can come from: some process with that name for its compact table, or some process with that name for its full table that used such a compact table. -/
def FromC {P : Type} (film : FilmArgs → S × S) (cfg : P → Cfg) (n : Name) (t : Table S) : Prop := ∃ p, nameC (cfg p) = n ∧ t = tableC film (cfg p)
def FromF {P : Type} (film : FilmArgs → S × S) (cfg : P → Cfg) (n : Name) (t : Table S) : Prop :=
  ∃ p tc, nameF (cfg p) = n ∧ FromC film cfg (nameC (cfg p)) tc ∧ t = tableF film (cfg p) tc

theorem slice_eq (film : FilmArgs → S × S) (c : Cfg) (lam : ℝ) : slice film c lam = coefficient film c lam := by
  have h9 : ∀ x : ℝ, (10 : ℝ) ^ (-9 : ℤ) * x = x / 10 ^ 9 := by
    intro x
    rw [zpow_neg, div_eq_inv_mul]
    norm_cast
  unfold slice coefficient
  simp only [h9, mul_comm lam c.d0fac]
  cases c.refl <;> rfl

theorem tables_eq (film : FilmArgs → S × S) (c : Cfg) : (tableC film c, tableF film c (tableC film c)) = Right film c := by
  unfold Right tableF tableC
  simp only [slice_eq]
  have : slice film c = coefficient film c := funext (slice_eq film c)
  rw [this]

/-! ## Names -/

theorem nameC_ne_nameF (c c' : Cfg) : nameC c ≠ nameF c' := by
  intro h
  have : (nameC c).nw = (nameF c').nw := by rw [h]
  simp [nameC, nameF] at this

theorem nameC_of_nameF {c c' : Cfg} (h : nameF c = nameF c') : nameC c = nameC c' := by
  have h' : ({ nameF c with nw := none } : Name) = { nameF c' with nw := none } := by rw [h]
  exact h'

/-- C146: what the names leave out.  Neither the offset factor, nor the wavelengths of the subbands, nor the inner points of the vectors of thicknesses matter; the centre wavelength counts in whole
nanometres only. -/
theorem C146_names (c : Cfg) (d0 lambda0 : ℝ) (centers : ℕ → ℝ) (lambdas metalVec dielVec : List ℝ)
    (hm : lmin metalVec = lmin c.metalVec ∧ lmax metalVec = lmax c.metalVec) (hd : lmin dielVec = lmin c.dielVec ∧ lmax dielVec = lmax c.dielVec)
    (h0 : 0 ≤ c.lambda0) (h1 : 0 ≤ lambda0) (hl : ⌊10 ^ 9 * lambda0⌋ = ⌊10 ^ 9 * c.lambda0⌋) :
    let c' := { c with d0fac := d0, lambda0 := lambda0, centers := centers, lambdas := lambdas, metalVec := metalVec, dielVec := dielVec }
    nameC c' = nameC c ∧ nameF c' = nameF c := by
  intro c'
  have : nameC c' = nameC c := by
    have hw : fmtInt (10 ^ 9 * lambda0) = fmtInt (10 ^ 9 * c.lambda0) := by
      unfold fmtInt
      rw [if_pos (by positivity), if_pos (by positivity), hl]
    simp only [nameC, c', hm.1, hm.2, hd.1, hd.2, hw]
  refine ⟨this, ?_⟩
  unfold nameF
  rw [this]

theorem fmt_close {k : ℕ} {x y : ℝ} (h : fmt k x = fmt k y) : |x - y| ≤ 1 / 10 ^ k := by
  unfold fmt at h
  have h1 := (Prod.mk.inj h).1
  have h2 := (Prod.mk.inj h).2
  have hk : (0 : ℝ) < 10 ^ k := by positivity
  have hr : round (10 ^ k * |x|) = round (10 ^ k * |y|) := by
    have hn : ∀ z : ℝ, 0 ≤ z → 0 ≤ round z := by
      intro z hz
      rw [round_eq]
      exact Int.floor_nonneg.2 (by linarith)
    have hx := hn (10 ^ k * |x|) (by positivity)
    have hy := hn (10 ^ k * |y|) (by positivity)
    omega
  have hx := abs_le.1 (abs_sub_round (10 ^ k * |x|))
  have hy := abs_le.1 (abs_sub_round (10 ^ k * |y|))
  rw [hr] at hx
  have hd : |(|x| - |y|)| ≤ 1 / 10 ^ k := by
    rw [abs_le, neg_le_iff_add_nonneg, ← mul_le_mul_iff_right₀ hk, ← mul_le_mul_iff_right₀ hk (b := |x| - |y|), mul_div_cancel₀ _ hk.ne', mul_add, mul_div_cancel₀ _ hk.ne', mul_zero, mul_sub]
    constructor <;> linarith
  have hs : (x < 0 ↔ y < 0) := by simpa using h1
  by_cases hx0 : x < 0
  · have hy0 := hs.1 hx0
    rw [abs_of_neg hx0, abs_of_neg hy0] at hd
    rw [show x - y = -(-x - -y) by ring, abs_neg]
    exact hd
  · have hy0 : ¬ y < 0 := fun h => hx0 (hs.2 h)
    rw [abs_of_nonneg (not_lt.1 hx0), abs_of_nonneg (not_lt.1 hy0)] at hd
    exact hd

/-- C146: what the names tell apart.  Calls that share a file agree in the materials, the number of subbands and the choice of transmission or reflection; in the thickness of the titanium, the
ends of the two vectors of thicknesses and the angle to 0.1, in the two steps to 0.01, in the bandwidth to 0.1 %, in the centre wavelength to 1 nm. -/
theorem C146_distinguish (c c' : Cfg) (h0 : 0 ≤ c.lambda0) (h0' : 0 ≤ c'.lambda0) (h : nameC c = nameC c') :
    (c.substrate = c'.substrate ∧ c.metal = c'.metal ∧ c.dielectric = c'.dielectric ∧ c.Nsbp = c'.Nsbp ∧ c.refl = c'.refl)
    ∧ |c.tTi - c'.tTi| ≤ 1 / 10 ∧ |lmin c.metalVec - lmin c'.metalVec| ≤ 1 / 10 ∧ |lmax c.metalVec - lmax c'.metalVec| ≤ 1 / 10 ∧ |c.dtMetal - c'.dtMetal| ≤ 1 / 100
    ∧ |lmin c.dielVec - lmin c'.dielVec| ≤ 1 / 10 ∧ |lmax c.dielVec - lmax c'.dielVec| ≤ 1 / 10 ∧ |c.dtDiel - c'.dtDiel| ≤ 1 / 100
    ∧ |c.fracBW - c'.fracBW| ≤ 1 / 1000 ∧ |c.aoi - c'.aoi| ≤ 1 / 10 ∧ |c.lambda0 - c'.lambda0| < 1 / 10 ^ 9 := by
  unfold nameC at h
  injection h with e1 e2 e3 e4 e5 e6 e7 e8 e9 e10 e11 e12 e13 e14 e15 e16
  have p1 : (10 : ℝ) ^ 1 = 10 := by norm_num
  have p2 : (10 : ℝ) ^ 2 = 100 := by norm_num
  have f2 := fmt_close e2
  have f4 := fmt_close e4
  have f5 := fmt_close e5
  have f6 := fmt_close e6
  have f8 := fmt_close e8
  have f9 := fmt_close e9
  have f10 := fmt_close e10
  have f12 := fmt_close e12
  have f15 := fmt_close e15
  rw [p1] at f2 f4 f5 f8 f9 f12 f15
  rw [p2] at f6 f10
  refine ⟨⟨e1, e3, e7, e13, e16⟩, f2, f4, f5, f6, f8, f9, f10, ?_, f15, ?_⟩
  · rw [abs_le] at f12 ⊢
    constructor <;> linarith
  · unfold fmtInt at e11
    rw [if_pos (by positivity), if_pos (by positivity)] at e11
    have := Int.abs_sub_lt_one_of_floor_eq_floor e11
    rw [abs_lt] at this ⊢
    constructor <;> linarith

/-! ## One call alone -/

theorem call_done_iff (film : FilmArgs → S × S) (c : Cfg) (d : Disk S) :
    call film c d =
      match d (nameC c) with
      | some .part => (.failed .valueError, d)
      | none =>
        let d1 := Function.update d (nameC c) (some (.complete (tableC film c)))
        (match d (nameF c) with
        | some .part => (.failed .valueError, d1)
        | some (.complete t) => (.done (tableC film c) t, d1)
        | none => (.done (tableC film c) (tableF film c (tableC film c)), Function.update d1 (nameF c) (some (.complete (tableF film c (tableC film c))))))
      | some (.complete tc) =>
        (match d (nameF c) with
        | some .part => (.failed .valueError, d)
        | some (.complete t) => (.done tc t, d)
        | none => (.done tc (tableF film c tc), Function.update d (nameF c) (some (.complete (tableF film c tc))))) := by
  have hne := nameC_ne_nameF c c
  unfold call
  rcases hC : d (nameC c) with _ | (_ | tc) <;> rcases hF : d (nameF c) with _ | (_ | tf) <;>
    simp [step, hC, hF, Function.update_of_ne hne.symm, Function.update_self]

/-- C146: from a directory without files of these names, a call returns the right tables and keeps them. -/
theorem C146_first_call (film : FilmArgs → S × S) (c : Cfg) (d : Disk S) (hC : d (nameC c) = none) (hF : d (nameF c) = none) :
    (call film c d).1 = .done (Right film c).1 (Right film c).2 ∧ (call film c d).2 (nameC c) = some (.complete (Right film c).1)
    ∧ (call film c d).2 (nameF c) = some (.complete (Right film c).2) := by
  have hne := nameC_ne_nameF c c
  rw [← tables_eq, call_done_iff, hC, hF]
  exact ⟨rfl, by simp [Function.update_of_ne hne], by simp⟩

/-- C146: a call after a finished call with the same names returns the same tables and changes nothing, whatever its own parameters. -/
theorem C146_stale (film film' : FilmArgs → S × S) (c c' : Cfg) (d : Disk S) (tc tf : Table S) (hc : nameC c' = nameC c) (hf : nameF c' = nameF c)
    (hdone : (call film c d).1 = .done tc tf) : call film' c' (call film c d).2 = (.done tc tf, (call film c d).2) := by
  have hne := nameC_ne_nameF c c
  have key : (call film c d).2 (nameC c) = some (.complete tc) ∧ (call film c d).2 (nameF c) = some (.complete tf) := by
    rw [call_done_iff] at hdone ⊢
    rcases hC : d (nameC c) with _ | (_ | t) <;> rcases hF : d (nameF c) with _ | (_ | t') <;> simp only [hC, hF] at hdone ⊢ <;>
      cases hdone <;> simp [Function.update_of_ne hne, Function.update_of_ne hne.symm, hC, hF]
  rw [call_done_iff film' c', hc, hf, key.1, key.2]

/-- C146, violated: after a call with one offset factor, a call with any other returns the tables of the first. -/
theorem C146_d0_violated (film : FilmArgs → S × S) (c : Cfg) (d0 : ℝ) (d : Disk S) (hC : d (nameC c) = none) (hF : d (nameF c) = none) :
    (call film { c with d0fac := d0 } (call film c d).2).1 = .done (Right film c).1 (Right film c).2 := by
  rw [C146_stale film film c { c with d0fac := d0 } d _ _ rfl rfl (C146_first_call film c d hC hF).1]

/-- … and so do calls with other wavelengths of the subbands, as long as the centre wavelength begins with the same whole number of nanometres. -/
theorem C146_wavelength_violated (film : FilmArgs → S × S) (c : Cfg) (lambda0 : ℝ) (centers : ℕ → ℝ) (lambdas : List ℝ) (d : Disk S) (h0 : 0 ≤ c.lambda0) (h1 : 0 ≤ lambda0)
    (hl : ⌊10 ^ 9 * lambda0⌋ = ⌊10 ^ 9 * c.lambda0⌋) (hC : d (nameC c) = none) (hF : d (nameF c) = none) :
    (call film { c with lambda0 := lambda0, centers := centers, lambdas := lambdas } (call film c d).2).1 = .done (Right film c).1 (Right film c).2 := by
  have hn := C146_names c c.d0fac lambda0 centers lambdas c.metalVec c.dielVec ⟨rfl, rfl⟩ ⟨rfl, rfl⟩ h0 h1 hl
  rw [C146_stale film film c { c with lambda0 := lambda0, centers := centers, lambdas := lambdas } d _ _ hn.1 hn.2 (C146_first_call film c d hC hF).1]

/-- … with tables of another shape, even: other vectors of thicknesses with the same ends. -/
theorem C146_shape_violated (film : FilmArgs → S × S) (c : Cfg) (metalVec dielVec : List ℝ) (d : Disk S) (h0 : 0 ≤ c.lambda0)
    (hm : lmin metalVec = lmin c.metalVec ∧ lmax metalVec = lmax c.metalVec) (hd : lmin dielVec = lmin c.dielVec ∧ lmax dielVec = lmax c.dielVec)
    (hC : d (nameC c) = none) (hF : d (nameF c) = none) :
    (call film { c with metalVec := metalVec, dielVec := dielVec } (call film c d).2).1 = .done (Right film c).1 (Right film c).2 := by
  have hn := C146_names c c.d0fac c.lambda0 c.centers c.lambdas metalVec dielVec hm hd h0 h0 rfl
  rw [C146_stale film film c { c with metalVec := metalVec, dielVec := dielVec } d _ _ hn.1 hn.2 (C146_first_call film c d hC hF).1]

/-- C146: calls one after another, from a directory in which no file is cut off, never fail. -/
theorem C146_sequential (film : FilmArgs → S × S) (cs : List Cfg) (d : Disk S) (h : Whole d) :
    Whole (cs.foldl (fun d c => (call film c d).2) d) ∧ ∀ c, ∃ tc tf, (call film c (cs.foldl (fun d c => (call film c d).2) d)).1 = .done tc tf := by
  have one : ∀ (c : Cfg) (d : Disk S), Whole d → Whole (call film c d).2 ∧ ∃ tc tf, (call film c d).1 = .done tc tf := by
    intro c d h
    have upd : ∀ (d : Disk S) (n : Name) (t : Table S), Whole d → Whole (Function.update d n (some (.complete t))) := by
      intro d n t h m
      by_cases hm : m = n
      · subst hm; simp
      · rw [Function.update_of_ne hm]; exact h m
    rw [call_done_iff]
    rcases hC : d (nameC c) with _ | (_ | t) <;> rcases hF : d (nameF c) with _ | (_ | t')
    · exact ⟨upd _ _ _ (upd _ _ _ h), _, _, rfl⟩
    · exact absurd hF (h _)
    · exact ⟨upd _ _ _ h, _, _, rfl⟩
    · exact absurd hC (h _)
    · exact absurd hC (h _)
    · exact absurd hC (h _)
    · exact ⟨upd _ _ _ h, _, _, rfl⟩
    · exact absurd hF (h _)
    · exact ⟨h, _, _, rfl⟩
  have all : ∀ (cs : List Cfg) (d : Disk S), Whole d → Whole (cs.foldl (fun d c => (call film c d).2) d) := by
    intro cs
    induction cs with
    | nil => intro d h; exact h
    | cons c cs ih => intro d h; exact ih _ (one c d h).1
  exact ⟨all cs d h, fun c => (one c _ (all cs d h)).2⟩

/-! ## Runs that are cut off -/

/-- C146: a call cut off anywhere but within `np.save` does no harm: the next call with the same parameters does what the first would have done. -/
theorem C146_cut_off (film : FilmArgs → S × S) (c : Cfg) (d : Disk S) (j : ℕ) (hw : ¬ Writing ((fun s : PC S × Disk S => step film c s.1 s.2)^[j] (.start, d)).1) :
    call film c ((fun s : PC S × Disk S => step film c s.1 s.2)^[j] (.start, d)).2 = call film c d := by
  have hne := nameC_ne_nameF c c
  -- from eight steps on nothing changes
  have hfix : ∀ k, (fun s : PC S × Disk S => step film c s.1 s.2)^[8 + k] (.start, d) = call film c d := by
    intro k
    rw [Nat.add_comm, Function.iterate_add_apply]
    change (fun s : PC S × Disk S => step film c s.1 s.2)^[k] (call film c d) = call film c d
    apply Function.iterate_fixed
    rw [call_done_iff]
    rcases hC : d (nameC c) with _ | (_ | t) <;> rcases hF : d (nameF c) with _ | (_ | t') <;> rfl
  rcases Nat.lt_or_ge j 8 with hj | hj
  · interval_cases j <;> revert hw <;> rcases hC : d (nameC c) with _ | (_ | t) <;> rcases hF : d (nameF c) with _ | (_ | t') <;>
      simp [step, hC, hF, Function.update_of_ne hne.symm, Function.update_of_ne hne, Function.update_self, Writing, call_done_iff]
  · obtain ⟨k, rfl⟩ := Nat.exists_eq_add_of_le hj
    rw [hfix]
    rw [call_done_iff film c d]
    rcases hC : d (nameC c) with _ | (_ | t) <;> rcases hF : d (nameF c) with _ | (_ | t') <;>
      simp [hC, hF, Function.update_of_ne hne.symm, Function.update_of_ne hne, Function.update_self, call_done_iff]

/-- C146, violated: a call cut off within `np.save` leaves a part of a file … -/
theorem C146_cut_off_violated (film : FilmArgs → S × S) (c : Cfg) (d : Disk S) (hC : d (nameC c) = none) :
    ((fun s : PC S × Disk S => step film c s.1 s.2)^[2] (.start, d)).2 (nameC c) = some .part := by
  simp [step, hC, Function.update_self]

/-- … and then, for all processes that start later and all schedules, the part stays and no call that needs it ever returns. -/
theorem C146_part_forever {P : Type} [DecidableEq P] (film : FilmArgs → S × S) (cfg : P → Cfg) (d : Disk S) (n : Name) (hn : d n = some .part) (sched : List P) :
    (sys film cfg d sched).2 n = some .part
    ∧ ∀ p, nameC (cfg p) = n ∨ nameF (cfg p) = n → ∀ tc tf, (sys film cfg d sched).1 p ≠ .done tc tf := by
  let okC : PC S → Prop := fun pc => match pc with | .start | .loadC | .failed _ => True | _ => False
  let okF : PC S → Prop := fun pc => match pc with | .saveF _ | .writeF _ | .done _ _ => False | _ => True
  have inv : ∀ (sched : List P) (s : (P → PC S) × Disk S), (s.2 n = some .part ∧ ∀ p, (nameC (cfg p) = n → okC (s.1 p)) ∧ (nameF (cfg p) = n → okF (s.1 p))) →
      ((sched.foldl (sysStep film cfg) s).2 n = some .part
        ∧ ∀ p, (nameC (cfg p) = n → okC ((sched.foldl (sysStep film cfg) s).1 p)) ∧ (nameF (cfg p) = n → okF ((sched.foldl (sysStep film cfg) s).1 p))) := by
    intro sched
    induction sched with
    | nil => intro s h; exact h
    | cons q sched ih =>
      intro s h
      apply ih
      obtain ⟨h1, h2⟩ := h
      have hq := h2 q
      have hstep : (step film (cfg q) (s.1 q) s.2).2 n = some .part
          ∧ (nameC (cfg q) = n → okC (step film (cfg q) (s.1 q) s.2).1) ∧ (nameF (cfg q) = n → okF (step film (cfg q) (s.1 q) s.2).1) := by
        revert hq
        by_cases hc : nameC (cfg q) = n
        · have hf : nameF (cfg q) ≠ n := fun h => nameC_ne_nameF (cfg q) (cfg q) (hc.trans h.symm)
          rcases hs : s.1 q <;> simp [step, hc, hf, h1, okC, okF]
        · by_cases hf : nameF (cfg q) = n
          · rcases hs : s.1 q with _ | _ | _ | _ | tc | tc | tc | tc | ⟨tc, tf⟩ | e <;> simp only [step]
            · split <;> simp [hc, hf, h1, okF]
            · split <;> simp [hc, hf, h1, okF]
            all_goals simp [hc, hf, h1, okC, okF, Function.update_of_ne (Ne.symm hc)]
          · rcases hs : s.1 q with _ | _ | _ | _ | tc | tc | tc | tc | ⟨tc, tf⟩ | e <;> simp only [step] <;> (try split) <;>
              simp [hc, hf, h1, Function.update_of_ne (Ne.symm hc), Function.update_of_ne (Ne.symm hf)]
      refine ⟨hstep.1, fun p => ?_⟩
      by_cases hp : p = q
      · subst hp
        simpa only [sysStep, Function.update_self] using hstep.2
      · simpa only [sysStep, Function.update_of_ne hp] using h2 p
  have := inv sched (fun _ => .start, d) ⟨hn, fun p => ⟨fun _ => trivial, fun _ => trivial⟩⟩
  refine ⟨this.1, ?_⟩
  intro p hp tc tf hd
  have h := this.2 p
  unfold sys at hd
  rw [hd] at h
  rcases hp with hp | hp
  · exact h.1 hp
  · exact h.2 hp

/-! ## Several processes -/

theorem inv_schedule {P : Type} [DecidableEq P] (film : FilmArgs → S × S) (cfg : P → Cfg) (sched : List P) :
    (∀ n t, (sys film cfg (fun _ => none) sched).2 n = some (.complete t) → FromC film cfg n t ∨ FromF film cfg n t)
    ∧ ∀ p, match (sys film cfg (fun _ => none) sched).1 p with
      | .startF tc | .loadF tc | .saveF tc | .writeF tc => FromC film cfg (nameC (cfg p)) tc
      | .done tc tf => FromC film cfg (nameC (cfg p)) tc ∧ FromF film cfg (nameF (cfg p)) tf
      | _ => True := by
  let ok : P → PC S → Prop := fun p pc => match pc with
      | .startF tc | .loadF tc | .saveF tc | .writeF tc => FromC film cfg (nameC (cfg p)) tc
      | .done tc tf => FromC film cfg (nameC (cfg p)) tc ∧ FromF film cfg (nameF (cfg p)) tf
      | _ => True
  have notF : ∀ (q : P) t, FromF film cfg (nameC (cfg q)) t → False := fun q t ⟨p, _, h, _⟩ => nameC_ne_nameF _ _ h.symm
  have notC : ∀ (q : P) t, FromC film cfg (nameF (cfg q)) t → False := fun q t ⟨p, h, _⟩ => nameC_ne_nameF _ _ h
  have inv : ∀ (sched : List P) (s : (P → PC S) × Disk S), ((∀ n t, s.2 n = some (.complete t) → FromC film cfg n t ∨ FromF film cfg n t) ∧ ∀ p, ok p (s.1 p)) →
      ((∀ n t, (sched.foldl (sysStep film cfg) s).2 n = some (.complete t) → FromC film cfg n t ∨ FromF film cfg n t) ∧ ∀ p, ok p ((sched.foldl (sysStep film cfg) s).1 p)) := by
    intro sched
    induction sched with
    | nil => intro s h; exact h
    | cons q sched ih =>
      intro s h
      apply ih
      obtain ⟨h1, h2⟩ := h
      have hq := h2 q
      have hstep : (∀ n t, (step film (cfg q) (s.1 q) s.2).2 n = some (.complete t) → FromC film cfg n t ∨ FromF film cfg n t) ∧ ok q (step film (cfg q) (s.1 q) s.2).1 := by
        have upd : ∀ (m : Name) (f : File S), (∀ t, f = .complete t → FromC film cfg m t ∨ FromF film cfg m t) →
            ∀ n t, Function.update s.2 m (some f) n = some (.complete t) → FromC film cfg n t ∨ FromF film cfg n t := by
          intro m f hf n t hnt
          by_cases hm : n = m
          · subst hm
            rw [Function.update_self] at hnt
            exact hf t (Option.some.inj hnt)
          · rw [Function.update_of_ne hm] at hnt
            exact h1 n t hnt
        revert hq
        rcases hs : s.1 q with _ | _ | _ | _ | tc | tc | tc | tc | ⟨tc, tf⟩ | e <;> intro hq <;> simp only [step]
        · split <;> exact ⟨h1, trivial⟩
        · split
          · rename_i t ht
            exact ⟨h1, (h1 _ _ ht).resolve_right (notF q t)⟩
          · exact ⟨h1, trivial⟩
        · exact ⟨upd _ _ (fun t h => by cases h), trivial⟩
        · exact ⟨upd _ _ (fun t h => by cases h; exact Or.inl ⟨q, rfl, rfl⟩), ⟨q, rfl, rfl⟩⟩
        · split <;> exact ⟨h1, hq⟩
        · split
          · rename_i t ht
            exact ⟨h1, hq, (h1 _ _ ht).resolve_left (notC q t)⟩
          · exact ⟨h1, trivial⟩
        · exact ⟨upd _ _ (fun t h => by cases h), hq⟩
        · exact ⟨upd _ _ (fun t h => by cases h; exact Or.inr ⟨q, tc, rfl, hq, rfl⟩), hq, ⟨q, tc, rfl, hq, rfl⟩⟩
        · exact ⟨h1, hq⟩
        · exact ⟨h1, trivial⟩
      refine ⟨hstep.1, fun p => ?_⟩
      by_cases hp : p = q
      · subst hp
        simpa only [sysStep, Function.update_self] using hstep.2
      · simpa only [sysStep, Function.update_of_ne hp] using h2 p
  exact inv sched (fun _ => .start, fun _ => none) ⟨fun n t h => by simp at h, fun p => trivial⟩

/-- C146: any number of processes, any schedule, any of them cut off anywhere, from an empty directory: a call that returns, returns the tables for the parameters of some process with the same
names. -/
theorem C146_schedule {P : Type} [DecidableEq P] (film : FilmArgs → S × S) (cfg : P → Cfg) (sched : List P) (p : P) (tc tf : Table S)
    (h : (sys film cfg (fun _ => none) sched).1 p = .done tc tf) :
    (∃ q, nameC (cfg q) = nameC (cfg p) ∧ tc = tableC film (cfg q))
    ∧ ∃ q r, nameF (cfg q) = nameF (cfg p) ∧ nameC (cfg r) = nameC (cfg p) ∧ tf = tableF film (cfg q) (tableC film (cfg r)) := by
  have := (inv_schedule film cfg sched).2 p
  rw [h] at this
  obtain ⟨h1, q, t, hq, ⟨r, hr, ht⟩, htf⟩ := this
  refine ⟨?_, q, r, hq, hr.trans (nameC_of_nameF hq), by rw [htf, ht]⟩
  obtain ⟨q, hq, h⟩ := h1
  exact ⟨q, hq, h⟩

/-- C146: so if processes with the same name have the same parameters (apart from the number of wavelengths per subband and the wavelengths of the full model, which only the full table needs),
every call that returns, returns the right tables. -/
theorem C146_right {P : Type} [DecidableEq P] (film : FilmArgs → S × S) (cfg : P → Cfg) (sched : List P)
    (hC : ∀ p q, nameC (cfg p) = nameC (cfg q) → { cfg p with Nwpsbp := 0, lambdas := [] } = ({ cfg q with Nwpsbp := 0, lambdas := [] } : Cfg))
    (hF : ∀ p q, nameF (cfg p) = nameF (cfg q) → cfg p = cfg q) (p : P) (tc tf : Table S)
    (h : (sys film cfg (fun _ => none) sched).1 p = .done tc tf) : (tc, tf) = Right film (cfg p) := by
  have tC : ∀ c c' : Cfg, ({ c with Nwpsbp := 0, lambdas := [] } : Cfg) = { c' with Nwpsbp := 0, lambdas := [] } → tableC film c = tableC film c' := by
    intro c c' h
    have : tableC film { c with Nwpsbp := 0, lambdas := [] } = tableC film { c' with Nwpsbp := 0, lambdas := [] } := by rw [h]
    exact this
  obtain ⟨⟨q, hq, h1⟩, q', r, hq', hr, h2⟩ := C146_schedule film cfg sched p tc tf h
  rw [h1, h2, tC _ _ (hC q p hq), tC _ _ (hC r p hr), hF q' p hq', tables_eq]

/-- C146, violated: two processes with the same parameters, nothing cut off: the second finds the file while the first still writes it, and raises. -/
theorem C146_race_violated (film : FilmArgs → S × S) (c : Cfg) :
    (sys film (fun _ : Bool => c) (fun _ => none) [false, false, true, true]).1 true = .failed .valueError
    ∧ (sys film (fun _ : Bool => c) (fun _ => none) [false, false, true, true, false, false, false, false]).1 false = .done (Right film c).1 (Right film c).2 := by
  have hne := nameC_ne_nameF c c
  rw [← tables_eq]
  constructor
  · simp [sys, sysStep, step]
  · simp [sys, sysStep, step, Function.update_of_ne hne.symm]

/-! ## The hypotheses are met -/

/-- Two configurations that differ and share their names. -/
example (c : Cfg) : nameC { c with d0fac := c.d0fac + 1 } = nameC c ∧ ({ c with d0fac := c.d0fac + 1 } : Cfg) ≠ c := by
  refine ⟨rfl, fun h => ?_⟩
  have := congrArg Cfg.d0fac h
  simp at this


/-- A configuration. -/
noncomputable def exCfg : Cfg := ⟨"FS", "Ni", "PMGI", 3, [0, 50, 100], 50, [0, 450, 900], 450, 575 / 10 ^ 9, 1 / 10, 3, 1, 55 / 10, fun si => (550 + 25 * si) / 10 ^ 9, [], 4, false⟩

example : 0 ≤ exCfg.lambda0 ∧ 0 ≤ (5757 / 10 ^ 10 : ℝ) ∧ ⌊(10 : ℝ) ^ 9 * (5757 / 10 ^ 10)⌋ = ⌊10 ^ 9 * exCfg.lambda0⌋ := by
  refine ⟨by simp only [exCfg]; positivity, by positivity, ?_⟩
  have h1 : ⌊(10 : ℝ) ^ 9 * (5757 / 10 ^ 10)⌋ = 575 := by rw [Int.floor_eq_iff]; norm_num
  have h2 : ⌊(10 : ℝ) ^ 9 * exCfg.lambda0⌋ = 575 := by rw [Int.floor_eq_iff]; simp only [exCfg]; norm_num
  rw [h1, h2]

example : lmin [0, 10, 20, 100] = lmin exCfg.metalVec ∧ lmax [0, 10, 20, 100] = lmax exCfg.metalVec := by
  constructor <;> norm_num [lmin, lmax, exCfg]

/-- The tables of two calls with the same names differ (a film whose transmission is the offset). -/
example : Right (fun a : FilmArgs => (a.d0, a.d0)) { exCfg with d0fac := 5 } ≠ Right (fun a : FilmArgs => (a.d0, a.d0)) exCfg := by
  intro h
  have h1 := congrArg Prod.fst h
  simp only [Right, exCfg, coefficient] at h1
  have h2 := congrArg List.head? h1
  simp [List.range_succ] at h2

/-- A schedule in which a process returns. -/
example : (sys (fun a : FilmArgs => (a.d0, a.d0)) (fun _ : Bool => exCfg) (fun _ => none) [false, false, true, true, false, false, false, false]).1 false
    = .done (Right (fun a : FilmArgs => (a.d0, a.d0)) exCfg).1 (Right (fun a : FilmArgs => (a.d0, a.d0)) exCfg).2 := (C146_race_violated _ exCfg).2

end Verif.FilmFiles
