import Verif.Props.JacWork

/-! # C109 (continued): Jacobian slices in files -/

namespace Verif.JacWork
open Verif Verif.Imaging

variable {M : ℕ} {P : Type}

theorem sep_inj {l1 l2 r1 r2 : List Char} (h1 : '_' ∉ l1) (h2 : '_' ∉ l2) (h : l1 ++ '_' :: r1 = l2 ++ '_' :: r2) : l1 = l2 ∧ r1 = r2 := by
  induction l1 generalizing l2 with
  | nil =>
    cases l2 with
    | nil => simpa using h
    | cons a l2 =>
      simp only [List.nil_append, List.cons_append, List.cons.injEq] at h
      exact absurd (by simp [← h.1]) h2
  | cons a l1 ih =>
    cases l2 with
    | nil =>
      simp only [List.nil_append, List.cons_append, List.cons.injEq] at h
      exact absurd (by simp [h.1]) h1
    | cons b l2 =>
      simp only [List.cons_append, List.cons.injEq] at h
      obtain ⟨e1, e2⟩ := ih (fun hm => h1 (by simp [hm])) (fun hm => h2 (by simp [hm])) h.2
      exact ⟨by rw [h.1, e1], e2⟩

theorem toString_inj {m n : ℕ} (h : (toString m).toList = (toString n).toList) : m = n := by
  rw [Nat.toString_eq_ofList_toDigits, Nat.toString_eq_ofList_toDigits, String.toList_ofList, String.toList_ofList] at h
  have := congrArg (fun l => Nat.ofDigitChars 10 l 0) h
  simpa [Nat.ofDigitChars_toDigits] using this

theorem no_sep (n : ℕ) : '_' ∉ (toString n).toList := by
  rw [Nat.toString_eq_ofList_toDigits, String.toList_ofList]
  exact Nat.underscore_not_in_toDigits

/-- C109: no two slices share a file. -/
theorem C109_names (m d a m' d' a' : ℕ) (h : fileName m d a = fileName m' d' a') : m = m' ∧ d = d' ∧ a = a' := by
  have h := congrArg String.toList h
  simp only [fileName, String.toList_append, List.append_assoc] at h
  have h := List.append_cancel_left h
  obtain ⟨e1, h⟩ := sep_inj (no_sep m) (no_sep m') (show (toString m).toList ++ '_' :: _ = (toString m').toList ++ '_' :: _ from h)
  have h := List.append_cancel_left (as := ['d', 'm']) h
  obtain ⟨e2, h⟩ := sep_inj (no_sep d) (no_sep d') (show (toString d).toList ++ '_' :: _ = (toString d').toList ++ '_' :: _ from h)
  have h := List.append_cancel_left (as := ['a', 'c', 't']) h
  have h := List.append_cancel_right h
  exact ⟨toString_inj e1, toString_inj e2, toString_inj h⟩

/-- The file of a unit of work. -/
def file (c : Combo M) : String := fileName c.1 c.2.1 c.2.2

theorem file_inj {c c' : Combo M} (h : file c = file c') : c = c' := by
  obtain ⟨h1, h2, h3⟩ := C109_names _ _ _ _ _ _ h
  exact Prod.ext (Fin.ext h1) (Prod.ext h2 h3)

theorem writeSlice_ok (mp : Mp M P) (kd : Kind) (hk : sliceKind mp.coro = .ok kd) (mem : ℕ → Boxes) (c : Combo M) (hd : c.2.1 = 1 ∨ c.2.1 = 2) (dir : Dir P) :
    ∃ mem', writeSlice (some mp) mem c dir = .ok (Function.update dir (file c) (some (mp.col kd c.1 c.2.1 c.2.2)), mem') := by
  simp only [writeSlice, hk, alone_expected, column_expected mp kd c.1 c.2.1 c.2.2 hd]
  exact ⟨_, rfl⟩

/-- What holds at every moment: no process failed, the finished units of work have the right files, and every other file is untouched. -/
structure Sane {n : ℕ} (mp : Mp M P) (kd : Kind) (work : Fin n → List (Combo M)) (dir0 : Dir P) (s : Farm M P n) : Prop where
  fine : ∀ i, (s.procs i).failed = none
  split : ∀ i, ∃ done, work i = done ++ (s.procs i).todo ∧ ∀ c ∈ done, s.dir (file c) = some (mp.col kd c.1 c.2.1 c.2.2)
  files : ∀ f, s.dir f = dir0 f ∨ ∃ i, ∃ c ∈ work i, f = file c ∧ s.dir f = some (mp.col kd c.1 c.2.1 c.2.2)

theorem sane_step {n : ℕ} {mp : Mp M P} {kd : Kind} (hk : sliceKind mp.coro = .ok kd) {work : Fin n → List (Combo M)} (hw : ∀ i, ∀ c ∈ work i, c.2.1 = 1 ∨ c.2.1 = 2) {dir0 : Dir P} {s : Farm M P n}
    (h : Sane mp kd work dir0 s) (i : Fin n) : Sane mp kd work dir0 (s.step (some mp) i) := by
  unfold Farm.step
  rw [h.fine i]
  cases ht : (s.procs i).todo with
  | nil => exact h
  | cons c l =>
    obtain ⟨done, hd1, hd2⟩ := h.split i
    have hc : c ∈ work i := by rw [hd1, ht]; simp
    obtain ⟨mem', hwr⟩ := writeSlice_ok mp kd hk (s.procs i).mem c (hw i c hc) s.dir
    simp only [hwr]
    have keep : ∀ c' : Combo M, s.dir (file c') = some (mp.col kd c'.1 c'.2.1 c'.2.2) →
        Function.update s.dir (file c) (some (mp.col kd c.1 c.2.1 c.2.2)) (file c') = some (mp.col kd c'.1 c'.2.1 c'.2.2) := by
      intro c' h'
      by_cases e : file c' = file c
      · rw [file_inj e, Function.update_self]
      · rw [Function.update_of_ne e, h']
    constructor
    · intro j
      by_cases e : j = i
      · subst e; simp
      · simp [Function.update_of_ne e, h.fine j]
    · intro j
      by_cases e : j = i
      · subst e
        refine ⟨done ++ [c], by simp [hd1, ht], ?_⟩
        intro c' hc'
        rcases List.mem_append.1 hc' with hc' | hc'
        · exact keep c' (hd2 c' hc')
        · rw [List.mem_singleton.1 hc']; simp
      · obtain ⟨done', h1, h2⟩ := h.split j
        exact ⟨done', by simpa [Function.update_of_ne e] using h1, fun c' hc' => keep c' (h2 c' hc')⟩
    · intro f
      simp only
      by_cases e : f = file c
      · subst e; exact .inr ⟨i, c, hc, rfl, by simp⟩
      · rw [Function.update_of_ne e]; exact h.files f

theorem sane_run {n : ℕ} {mp : Mp M P} {kd : Kind} (hk : sliceKind mp.coro = .ok kd) {work : Fin n → List (Combo M)} (hw : ∀ i, ∀ c ∈ work i, c.2.1 = 1 ∨ c.2.1 = 2) (mem : ℕ → Boxes) (dir0 : Dir P) (sched : List (Fin n)) :
    Sane mp kd work dir0 ((Farm.init work mem dir0).run (some mp) sched) := by
  unfold Farm.run
  have h0 : Sane mp kd work dir0 (Farm.init work mem dir0) := ⟨fun _ => rfl, fun i => ⟨[], rfl, by simp⟩, fun _ => .inl rfl⟩
  generalize Farm.init work mem dir0 = s at h0
  induction sched generalizing s with
  | nil => exact h0
  | cons i l ih => exact ih _ (sane_step hk hw h0 i)

/-- C109, slices in files, at every moment (so also when processes are killed): however the work is divided between processes (with or without overlaps) and in whatever order they run, no process fails; what a process has
finished is in the file of that mode, DM and actuator; and a file in the directory is either as it was before or the complete, right column of a unit of work. -/
theorem C109_files_always {n : ℕ} (mp : Mp M P) (kd : Kind) (hk : sliceKind mp.coro = .ok kd) (work : Fin n → List (Combo M)) (hw : ∀ i, ∀ c ∈ work i, c.2.1 = 1 ∨ c.2.1 = 2) (mem : ℕ → Boxes) (dir0 : Dir P)
    (sched : List (Fin n)) (s : Farm M P n) (hs : s = (Farm.init work mem dir0).run (some mp) sched) :
    (∀ i, (s.procs i).failed = none) ∧ (∀ i, ∀ c ∈ work i, c ∉ (s.procs i).todo → s.dir (fileName c.1 c.2.1 c.2.2) = some (mp.col kd c.1 c.2.1 c.2.2)) ∧
      ∀ f, s.dir f = dir0 f ∨ ∃ i, ∃ c ∈ work i, f = fileName c.1 c.2.1 c.2.2 ∧ s.dir f = some (mp.col kd c.1 c.2.1 c.2.2) := by
  subst hs
  have h := sane_run hk hw mem dir0 sched
  refine ⟨h.fine, fun i c hc hn => ?_, h.files⟩
  obtain ⟨done, h1, h2⟩ := h.split i
  rw [h1] at hc
  exact h2 c ((List.mem_append.1 hc).resolve_right hn)

/-- C109: when all processes have finished, the files hold the columns of the serial Jacobian: for every mode and controlled actuator (its position `j` in `act_ele`) of a DM in `dm_ind` that was part of the work. -/
theorem C109_files_serial {n : ℕ} (mp : Mp M P) (kd : Kind) (hk : sliceKind mp.coro = .ok kd) (hl : middle mp.layout mp.coro = .ok kd) (h89 : 8 ∉ mp.dmInd ∧ 9 ∉ mp.dmInd) (hN : ∀ d, (d = 1 ∨ d = 2) → mp.Nele d = (mp.actEle d).length)
    (work : Fin n → List (Combo M)) (hw : ∀ i, ∀ c ∈ work i, c.2.1 = 1 ∨ c.2.1 = 2) (mem mem' : ℕ → Boxes) (dir0 : Dir P)
    (sched : List (Fin n)) (s : Farm M P n) (hs : s = (Farm.init work mem dir0).run (some mp) sched) (hend : ∀ i, (s.procs i).todo = []) :
    ∃ J, mp.serial mp.serialOrder mem' mp.zeros = .ok J ∧ ∀ (m : Fin M) (d j a : ℕ), (d = 1 ∨ d = 2) → d ∈ mp.dmInd → (mp.actEle d)[j]? = some a → (∃ i, (m, d, a) ∈ work i) →
      ∃ c : Jac.Col M P, (J.G d)[j]? = some c ∧ s.dir (fileName m d a) = some (c m) := by
  obtain ⟨-, h2, -⟩ := C109_files_always mp kd hk work hw mem dir0 sched s hs
  obtain ⟨J, e1, e2⟩ := C109_serial mp kd hl h89 hN mem'
  refine ⟨J, e1, fun m d j a hd hi ha ⟨i, hc⟩ => ?_⟩
  obtain ⟨c, c1, c2⟩ := (e2 d hd).2 m j a ha
  refine ⟨c, c1, ?_⟩
  rw [c2, if_pos hi]
  exact h2 i (m, d, a) hc (by rw [hend i]; simp)

/-- C109: in the layouts fourier, proper and fpm_scale the slices use the same model as `jacobian`. -/
theorem C109_same_model (layout coro : String) (h : layout = "fourier" ∨ layout = "proper" ∨ layout = "fpm_scale") : sliceKind coro = middle layout coro := by
  unfold sliceKind middle
  rw [if_pos (show layout ∈ ["fourier", "proper", "fpm_scale"] by simpa using h)]

/-- C109: a Jacobian is computed (serially or with threads) for exactly these layouts and coronagraphs, given in lower and upper case. -/
theorem C109_accepted (layout coro : String) : (∃ k, middle layout coro = .ok k) ↔
    (layout = "fourier" ∨ layout = "proper" ∨ layout = "fpm_scale") ∧ (coro = "LC" ∨ coro = "APLC" ∨ coro = "HLC" ∨ coro = "FLC" ∨ coro = "SPLC" ∨ coro = "VC" ∨ coro = "AVC" ∨ coro = "VORTEX") ∨
    (layout = "wfirst_phaseb_proper" ∨ layout = "roman_phasec_proper") ∧ (coro = "HLC" ∨ coro = "SPC" ∨ coro = "SPLC") := by
  unfold middle
  simp only [List.mem_cons, List.not_mem_nil, or_false]
  constructor
  · rintro ⟨k, h⟩
    split_ifs at h <;> first | cases h; done | tauto
  · rintro (⟨hl, hc⟩ | ⟨hl, hc⟩)
    · rw [if_pos hl]
      split_ifs <;> first | exact ⟨_, rfl⟩ | (exfalso; tauto)
    · have : ¬ (layout = "fourier" ∨ layout = "proper" ∨ layout = "fpm_scale") := by
        rcases hl with rfl | rfl <;> decide
      rw [if_neg this, if_pos hl, if_pos hc]
      exact ⟨_, rfl⟩

/-- C109, violated: for the coronagraph SPC of the Roman layouts, for which `jacobian` works, `write_jac_slices` has no model, so that every process with work to do ends with UnboundLocalError and writes nothing
(C109_files_fail). -/
theorem C109_spc_violated (layout : String) (h : layout = "wfirst_phaseb_proper" ∨ layout = "roman_phasec_proper") : (∃ k, middle layout "SPC" = .ok k) ∧ sliceKind "SPC" = .error .unboundLocal ∧
    "SPC" ∉ ["LC", "APLC", "HLC", "FLC", "SPLC", "VC", "AVC", "VORTEX"] :=
  ⟨(C109_accepted layout "SPC").2 (.inr ⟨h, .inr (.inl rfl)⟩), by simp [sliceKind], by decide⟩

/-- C109: if the pickle file cannot be read (AttributeError) or the coronagraph has no model (UnboundLocalError), every process with work to do ends with that exception at its first step, processes without work end normally,
and no file is written. -/
theorem C109_files_fail {n : ℕ} (mp : Option (Mp M P)) (e : PyErr) (he : (mp = none ∧ e = .attributeError) ∨ ∃ mp', mp = some mp' ∧ mp'.coro ∉ ["LC", "APLC", "HLC", "FLC", "SPLC", "VC", "AVC", "VORTEX"] ∧ e = .unboundLocal)
    (work : Fin n → List (Combo M)) (mem : ℕ → Boxes) (dir0 : Dir P) (sched : List (Fin n)) (s : Farm M P n) (hs : s = (Farm.init work mem dir0).run mp sched) :
    s.dir = dir0 ∧ ∀ i, (s.procs i).failed = if i ∈ sched ∧ work i ≠ [] then some e else none := by
  have hwr : ∀ mem c (dir : Dir P), writeSlice mp mem c dir = .error e := by
    intro mem c dir
    rcases he with ⟨rfl, rfl⟩ | ⟨mp', rfl, hc, rfl⟩
    · rfl
    · simp only [List.mem_cons, List.not_mem_nil, or_false, not_or] at hc
      simp [writeSlice, sliceKind, hc]
  have key : ∀ (sched pre : List (Fin n)) (s : Farm M P n), (s.dir = dir0 ∧ ∀ i, (s.procs i).todo = work i ∧ (s.procs i).failed = if i ∈ pre ∧ work i ≠ [] then some e else none) →
      ((s.run mp sched).dir = dir0 ∧ ∀ i, ((s.run mp sched).procs i).todo = work i ∧ ((s.run mp sched).procs i).failed = if i ∈ pre ++ sched ∧ work i ≠ [] then some e else none) := by
    intro sched
    induction sched with
    | nil => intro pre s h; simpa [Farm.run] using h
    | cons w l ih =>
      intro pre s h
      have := ih (pre ++ [w]) (s.step mp w) (by
        unfold Farm.step
        obtain ⟨h1, h2⟩ := h
        cases hf : (s.procs w).failed with
        | some e' =>
          refine ⟨h1, fun i => ⟨(h2 i).1, ?_⟩⟩
          by_cases hiw : i = w
          · subst hiw
            have := (h2 i).2
            rw [hf] at this
            simp only
            rw [hf, this]
            by_cases hp : i ∈ pre ∧ work i ≠ []
            · simp [hp]
            · rw [if_neg hp] at this; cases this
          · simp only; rw [(h2 i).2]; simp [hiw]
        | none =>
          cases ht : (s.procs w).todo with
          | nil =>
            refine ⟨h1, fun i => ⟨(h2 i).1, ?_⟩⟩
            simp only
            rw [(h2 i).2]
            by_cases hiw : i = w
            · subst hiw
              have := (h2 i).1
              rw [ht] at this
              simp [← this]
            · simp [hiw]
          | cons c l' =>
            simp only [hwr]
            refine ⟨h1, fun i => ?_⟩
            by_cases hiw : i = w
            · subst hiw
              have := (h2 i).1
              simp only [Function.update_self]
              refine ⟨this, ?_⟩
              rw [ht] at this
              simp [← this]
            · simp [Function.update_of_ne hiw, h2 i, hiw])
      simpa [Farm.run] using this
  subst hs
  have := key sched [] (Farm.init work mem dir0) ⟨rfl, fun i => ⟨rfl, by simp [Farm.init]⟩⟩
  exact ⟨this.1, fun i => by simpa using (this.2 i).2⟩

/-- C109: `reassemble_jac_from_slices` cannot read slices back: with at least one mode and one controlled actuator it raises TypeError whatever the directory contains (with nothing to read it returns the empty Jacobian). -/
theorem C109_reassemble_violated (mp : Mp M P) (dir : Dir P) :
    mp.reassemble dir = if 0 < M ∧ (mp.actEle 1 ≠ [] ∨ mp.actEle 2 ≠ []) then .error .typeError else .ok mp.zeros := by
  unfold Mp.reassemble unpackLoop
  rcases M with _ | M
  · simp [List.finRange_zero, List.mapM_nil, pure, Except.pure]
  · have h1 : ∀ (l : List (Fin (M + 1))), (mp.actEle 1 = [] ∧ mp.actEle 2 = []) → (l.mapM fun _ => (do (if mp.actEle 1 = [] then Except.ok () else Except.error PyErr.typeError); if mp.actEle 2 = [] then Except.ok () else Except.error PyErr.typeError : Except PyErr Unit)) = .ok (l.map fun _ => ()) :=
      fun l h => mapM_ok _ _ l fun _ _ => by simp [h.1, h.2, bind, Except.bind]
    by_cases h : mp.actEle 1 = [] ∧ mp.actEle 2 = []
    · rw [h1 _ h]
      simp [h.1, h.2]
    · rw [List.finRange_succ, List.mapM_cons]
      by_cases ha : mp.actEle 1 = []
      · have hb : mp.actEle 2 ≠ [] := fun hb => h ⟨ha, hb⟩
        simp [ha, hb, bind, Except.bind]
      · simp [ha, bind, Except.bind]

end Verif.JacWork
