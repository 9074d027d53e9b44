import Verif.Model.ProperState
import Verif.Props.Proper

/-!
# C57 (save states) and C77 (prop_define_entrance, prop_end)
-/

namespace Verif.Proper
open Verif Complex Verif.Optics

variable {n : ℕ}

/-! ### C57 -/

/-- A save-state call of a program. -/
inductive SOp (n : ℕ) where
  | init (num : ℕ)
  | state (wf : WF n)
  | fin

/-- A history of save-state calls (exceptions are caught by the caller and the program goes on). -/
noncomputable def history (ap : Bool) : Sys n → List (SOp n) → Sys n
  | y, [] => y
  | y, .init num :: r => history ap (initSavestate y num) r
  | y, .state wf :: r => history ap (propState ap y wf).sys r
  | y, .fin :: r => history ap (endSavestate y) r

/-- C57, what holds: with the system on, the first prop_state at a wavelength writes the wavefront to the file of that wavelength, marks the wavelength as saved and raises nothing. -/
theorem C57_first_call_saves (ap : Bool) (y : Sys n) (wf : WF n) (hon : y.on = true) (hnew : ∀ l ∈ y.lams, l ≠ wf.lam) :
    (propState ap y wf).exc = none ∧ (propState ap y wf).sys.files (stem y wf.lam ++ ".npz") = some (.state ⟨y.total, wf⟩) ∧ isStatesaved (propState ap y wf).sys wf = true := by
  classical
  have h1 : isStatesaved y wf = false := by
    unfold isStatesaved
    rw [List.any_eq_false]
    intro l hl
    simp [hnew l hl]
  have e : propState ap y wf = ⟨savestate y wf, wf, none⟩ := by
    unfold propState
    simp only [hon, Bool.true_eq_false, if_false, h1, if_true]
  rw [e]
  refine ⟨rfl, ?_, ?_⟩
  · simp [savestate, hon]
  · simp [savestate, hon, isStatesaved]

/-- C57: a call at a wavelength already saved leaves the file alone. -/
theorem C57_second_call_keeps_files (ap : Bool) (y : Sys n) (wf : WF n) (hsaved : wf.lam ∈ y.lams) : (propState ap y wf).sys.files = y.files := by
  classical
  have h1 : isStatesaved y wf = true := by
    unfold isStatesaved
    rw [List.any_eq_true]
    exact ⟨_, hsaved, by simp⟩
  unfold propState
  cases hon : y.on
  · simp
  · simp only [Bool.true_eq_false, if_false, h1]
    rcases hf : y.files (stem y wf.lam ++ ".npz") with _ | d | _
    · rfl
    · cases ap <;> rfl
    · rfl

/-- C57, the failing case with the pinned NumPy (`allow_pickle=False`): a second prop_state at a saved wavelength always raises ValueError, and leaves `proper.n` at 0. -/
theorem C57_restore_raises_violated (y : Sys n) (wf : WF n) (hon : y.on = true) (hsaved : wf.lam ∈ y.lams) :
    (propState false y wf).exc = some .valueError ∧ (propState false y wf).sys.gridN = 0 := by
  classical
  have h1 : isStatesaved y wf = true := by
    unfold isStatesaved
    rw [List.any_eq_true]
    exact ⟨_, hsaved, by simp⟩
  unfold propState
  simp only [hon, Bool.true_eq_false, if_false, h1]
  rcases hf : y.files (stem y wf.lam ++ ".npz") with _ | _ | d <;> simp

/-- C57, the failing case with any NumPy: whatever the file holds, the caller's wavefront is the one it passed in, not the saved one. -/
theorem C57_caller_unchanged_violated (ap : Bool) (y : Sys n) (wf : WF n) : (propState ap y wf).caller = wf := by
  classical
  unfold propState
  dsimp only
  rcases hf : y.files (stem y wf.lam ++ ".npz") with _ | d | _ <;> dsimp only <;> split_ifs <;> rfl

theorem propState_statefile (ap : Bool) (y : Sys n) (wf : WF n) : (propState ap y wf).sys.statefile = y.statefile := by
  classical
  unfold propState savestate
  dsimp only
  rcases hf : y.files (stem y wf.lam ++ ".npz") with _ | d | _ <;> dsimp only <;> split_ifs <;> rfl

/-- C57: two wavelengths that agree to a femtometre share one file: the second save overwrites the first. -/
theorem C57_file_shared (ap : Bool) (y : Sys n) (w1 w2 : WF n) (hon : y.on = true) (h1 : ∀ l ∈ y.lams, l ≠ w1.lam ∧ l ≠ w2.lam) (hne : w1.lam ≠ w2.lam)
    (hfm : ⌊w1.lam * 1e15⌋ = ⌊w2.lam * 1e15⌋) : (history ap y [.state w1, .state w2]).files (stem y w1.lam ++ ".npz") = some (.state ⟨y.total, w2⟩) := by
  classical
  have e1 : propState ap y w1 = ⟨savestate y w1, w1, none⟩ := by
    have : isStatesaved y w1 = false := by
      unfold isStatesaved; rw [List.any_eq_false]; intro l hl; simp [(h1 l hl).1]
    unfold propState
    simp only [hon, Bool.true_eq_false, if_false, this, if_true]
  have e0 : savestate y w1 = { y with files := Function.update y.files (stem y w1.lam ++ ".npz") (some (.state ⟨y.total, w1⟩)), lams := y.lams ++ [w1.lam] } := by simp [savestate, hon]
  have e2 := C57_first_call_saves ap (savestate y w1) w2 (by rw [e0]; exact hon) (by
    rw [e0]; intro l hl
    rcases List.mem_append.mp hl with h | h
    · exact (h1 l h).2
    · rw [List.mem_singleton.mp h]; exact hne)
  have e3 := e2.2.1
  have hst : stem (savestate y w1) w2.lam = stem y w1.lam := by
    rw [e0]; unfold stem; rw [hfm]
  have ht : (savestate y w1).total = y.total := by rw [e0]
  rw [hst, ht] at e3
  simp only [history, e1]
  exact e3

theorem not_suffix_npz (a f : String) : ¬ (a ++ "_prop_savestate").toList <:+ (f ++ ".npz").toList := by
  intro h
  rw [String.toList_append, String.toList_append] at h
  have h2 : ("_prop_savestate" : String).toList <:+ f.toList ++ (".npz" : String).toList := (List.suffix_append _ _).trans h
  obtain ⟨t, ht⟩ := h2
  have := congrArg List.getLast? ht
  rw [List.getLast?_append, List.getLast?_append] at this
  have e1 : ("_prop_savestate" : String).toList.getLast? = some 'e' := by decide +kernel
  have e2 : (".npz" : String).toList.getLast? = some 'z' := by decide +kernel
  rw [e1, e2] at this
  simp at this

/-- C57: the names of the state files end with `.npz`, so prop_end_savestate deletes none of them: in every history, whatever was saved after a prop_init_savestate is still there
after the prop_end_savestate. -/
theorem C57_files_remain_violated (ap : Bool) (y : Sys n) (num : ℕ) (wfs : List (WF n)) (f : String) (v : File n)
    (h : (history ap (initSavestate y num) (wfs.map .state)).files (f ++ ".npz") = some v) :
    (history ap (initSavestate y num) (wfs.map .state ++ [.fin])).files (f ++ ".npz") = some v := by
  classical
  have happ : ∀ (ops : List (SOp n)) (y : Sys n), history ap y (ops ++ [.fin]) = endSavestate (history ap y ops) := by
    intro ops
    induction ops with
    | nil => intro y; rfl
    | cons o r ih => intro y; cases o <;> simp only [List.cons_append, history, ih]
  have hsf : ∀ (wfs : List (WF n)) (y : Sys n), (history ap y (wfs.map .state)).statefile = y.statefile := by
    intro wfs
    induction wfs with
    | nil => intro y; rfl
    | cons w r ih =>
      intro y
      simp only [List.map_cons, history, ih, propState_statefile]
  rw [happ]
  unfold endSavestate
  dsimp only
  rw [hsf, if_neg]
  · exact h
  · rintro ⟨hs, -⟩
    exact not_suffix_npz ("_" ++ toString num) f (by simpa [initSavestate] using hs)

/-- C57: called in a program that never called prop_init_savestate, prop_end_savestate deletes every file of the working directory whose name does not begin with a dot. -/
theorem C57_end_without_init_deletes_all_violated (ap : Bool) (files : String → Option (File n)) (wfs : List (WF n)) (f : String) (hf : f.toList.head? ≠ some '.') :
    (endSavestate (history ap (importSys n files) (wfs.map .state))).files f = none := by
  classical
  have hsf : ∀ (wfs : List (WF n)) (y : Sys n), (history ap y (wfs.map .state)).statefile = y.statefile := by
    intro wfs
    induction wfs with
    | nil => intro y; rfl
    | cons w r ih =>
      intro y
      simp only [List.map_cons, history, ih, propState_statefile]
  unfold endSavestate
  dsimp only
  rw [hsf, if_pos ⟨by simp [importSys], hf⟩]

/-- The cases are met: import, init, one state at wavelength 1 (metre), a second at the same wavelength: it raises, and the file of the first is still there after prop_end_savestate. -/
example (files : String → Option (File 4)) : let w := begin_ 4 1 1 (1 / 2)
    let y := (propState false (initSavestate (importSys 4 files) 7) w).sys
    (propState false y w).exc = some .valueError ∧ (endSavestate y).files (stem (initSavestate (importSys 4 files) 7) 1 ++ ".npz") = some (.state ⟨0, w⟩) := by
  intro w y
  obtain ⟨a, b, c⟩ := C57_first_call_saves false (initSavestate (importSys 4 files) 7) w rfl (by simp [initSavestate])
  have hy : y.lams = [w.lam] ∧ y.on = true := by
    have h1 : isStatesaved (initSavestate (importSys 4 files) 7) w = false := by simp [isStatesaved, initSavestate]
    have : y = savestate (initSavestate (importSys 4 files) 7) w := by
      change (propState false (initSavestate (importSys 4 files) 7) w).sys = _
      unfold propState
      have hon : (initSavestate (importSys 4 files) 7).on = true := rfl
      simp only [hon, Bool.true_eq_false, if_false, h1, if_true]
    rw [this]
    simp [savestate, initSavestate]
  refine ⟨(C57_restore_raises_violated y w hy.2 (by rw [hy.1]; simp)).1, ?_⟩
  exact C57_files_remain_violated false (importSys 4 files) 7 [w] (stem (initSavestate (importSys 4 files) 7) 1) _ b

/-! ### C77 -/

variable [NeZero n]

theorem total_shift (a : ZMod n → ZMod n → ℝ) : ∑ i, ∑ j, shiftCenter a i j = ∑ i, ∑ j, a i j := sum_roll2 a _ _

/-- C77: after prop_define_entrance the total intensity is 1, and prop_end, after any prescription of lenses, propagations and phase errors, returns a non-negative image that sums to 1 (no
aperture or mask in between), with the current sampling. -/
theorem C77_image_sums_to_one (po : Bool) (s : WF n) (hr : Reachable po s) (arr : ZMod n → ZMod n → ℂ) (h0 : ∃ i j, arr i j ≠ 0) (ops : List (Op n)) {s' : WF n}
    (h : run po (defineEntrance { s with arr := arr }) ops = .ok s') :
    ∃ I : ZMod n → ZMod n → ℝ, end_ s' false none = .ok (fun i j => (I i j : ℂ), s'.dx) ∧ (∀ i j, 0 ≤ I i j) ∧ ∑ i, ∑ j, I i j = 1 := by
  refine ⟨shiftCenter fun i j => ‖s'.arr i j‖ ^ 2, rfl, fun i j => sq_nonneg _, ?_⟩
  rw [total_shift]
  have := C72_energy_from po s hr (fun i j => arr i j / (Real.sqrt (total arr) : ℂ)) ops h
  rw [this]
  have hpos : 0 < total arr := by
    obtain ⟨i, j, hij⟩ := h0
    unfold total
    refine Finset.sum_pos' (fun i _ => Finset.sum_nonneg fun j _ => sq_nonneg _) ⟨i, Finset.mem_univ _, ?_⟩
    exact Finset.sum_pos' (fun j _ => sq_nonneg _) ⟨j, Finset.mem_univ _, by have := norm_pos_iff.mpr hij; positivity⟩
  have e : ∀ i j, ‖arr i j / (Real.sqrt (total arr) : ℂ)‖ ^ 2 = ‖arr i j‖ ^ 2 / total arr := by
    intro i j
    rw [norm_div, Complex.norm_real, Real.norm_of_nonneg (Real.sqrt_nonneg _), div_pow, Real.sq_sqrt hpos.le]
  simp only [e]
  simp only [← Finset.sum_div]
  exact div_self hpos.ne'

/-- C77: the optical axis, which the array keeps at its origin, comes to the centre pixel n//2: the pixel p, q from the centre of the returned array holds the field (NOABS) or the
intensity at the offset p, q from the axis, for every array size. -/
theorem C77_centre (s : WF n) (p q : ZMod n) :
    (∃ a, end_ s false none = .ok (a, s.dx) ∧ a (((n / 2 : ℕ) : ZMod n) + p) (((n / 2 : ℕ) : ZMod n) + q) = ((‖s.arr p q‖ ^ 2 : ℝ) : ℂ)) ∧
    (∃ a, end_ s true none = .ok (a, s.dx) ∧ a (((n / 2 : ℕ) : ZMod n) + p) (((n / 2 : ℕ) : ZMod n) + q) = s.arr p q) := by
  refine ⟨⟨_, rfl, ?_⟩, ⟨_, rfl, ?_⟩⟩
  · simp only [Bool.false_eq_true, if_false]
    unfold shiftCenter roll2
    rw [Int.cast_natCast, add_sub_cancel_left, add_sub_cancel_left]
  · simp only [if_true]
    unfold shiftCenter roll2
    rw [Int.cast_natCast, add_sub_cancel_left, add_sub_cancel_left]

/-- C77, the failing case: the EXTRACT keyword makes prop_end raise TypeError for every wavefront and every size. -/
theorem C77_extract_violated (s : WF n) (noabs : Bool) (k : ℕ) : end_ s noabs (some k) = .error .typeError := rfl

/-- The hypotheses are met: the wavefront of prop_begin, focused by a lens. -/
example : ∃ s', run false (defineEntrance (begin_ 4 2 Real.pi (1 / 2))) [.addPhase fun i _ => i.val] = .ok s' ∧
    ∃ I : ZMod 4 → ZMod 4 → ℝ, end_ s' false none = .ok (fun i j => (I i j : ℂ), s'.dx) ∧ (∀ i j, 0 ≤ I i j) ∧ ∑ i, ∑ j, I i j = 1 :=
  ⟨_, rfl, C77_image_sums_to_one false (begin_ 4 2 Real.pi (1 / 2)) ⟨2, Real.pi, 1 / 2, [], rfl⟩ (fun _ _ => 1) ⟨0, 0, one_ne_zero⟩ [.addPhase fun i _ => i.val] rfl⟩

end Verif.Proper
