import Verif.Model.Snippet
import Verif.Props.Loop

/-! # C156: the snippet file of a run, whatever interrupts it, and the plots made from it -/

namespace Verif.Snippet
open Verif Verif.Loop

variable {S C : Type}

/-! ## Specification -/

/-- `h` has `n` entries, `v i` at each `i < k`, and zeros from `k` on. -/
def FilledTo {α : Type} (h : Hist α) (n k : ℕ) (v : ℕ → α) : Prop :=
  h.length = n ∧ ∀ i < n, h[i]? = some (if i < k then some (v i) else none)

/-- The points `(0, a 0), ..., (n - 1, a (n - 1))`. -/
def points {α : Type} (n : ℕ) (a : ℕ → α) : List (ℕ × α) := (List.range n).map fun i => (i, a i)

/-- What is saved after `k` iterations: commands, throughputs, measured and estimated intensities and regularisations of these iterations, and zeros for all later ones, except
for the intensity of the image taken after the last control step (unless the controller is model-based). -/
def SavedAfter (o : Ops S C) (c : Cfg) (s : S) (k : ℕ) (out : Out C) : Prop :=
  FilledTo out.V (c.Nitr + 1) k (fun i => o.cmd (traj o s i)) ∧
  FilledTo out.thput (c.Nitr + 1) k (fun i => (o.prep i (traj o s i)).2) ∧
  FilledTo out.est c.Nitr k (fun i => o.estimated (sensed o s i)) ∧
  FilledTo out.log10reg c.Nitr k (fun i => (o.control i (sensed o s i)).2.1) ∧
  out.raw.length = c.Nitr + 1 ∧ (∀ i < k, out.raw[i]? = some (some (o.measured (sensed o s i)))) ∧
  (0 < k → out.raw[k]? = some (if c.useModel then none else some (o.control (k - 1) (sensed o s (k - 1))).2.2)) ∧
  ∀ i, k < i → i ≤ c.Nitr → out.raw[i]? = some none

/-! ## Proofs -/

theorem filled_map {α : Type} (n k : ℕ) (v : ℕ → α) : FilledTo ((List.range n).map fun i => if i < k then some (v i) else none) n k v := by
  refine ⟨by simp, fun i hi => ?_⟩
  rw [List.getElem?_map, List.getElem?_range hi]; rfl

theorem outAt_saved (o : Ops S C) (c : Cfg) (s : S) {k : ℕ} (hk : k ≤ c.Nitr) : SavedAfter o c s k (outAt o c s k) := by
  refine ⟨filled_map _ _ _, filled_map _ _ _, filled_map _ _ _, filled_map _ _ _, by simp [outAt], ?_, ?_, ?_⟩
  · intro i hi
    simp only [outAt]
    rw [List.getElem?_map, List.getElem?_range (by omega)]
    simp [hi]
  · intro h0
    simp only [outAt]
    rw [List.getElem?_map, List.getElem?_range (by omega)]
    cases c.useModel <;> simp [h0]
  · intro i hi hi2
    simp only [outAt]
    rw [List.getElem?_map, List.getElem?_range (by omega)]
    simp only [Option.map_some]
    rw [if_neg (by omega), if_neg (by omega)]

/-- The actions up to the end of iteration `k - 1`. -/
def upTo (k : ℕ) : List Act := (List.range k).flatMap fun k => [.iterate k, .truncate, .dump]

theorem upTo_succ (k : ℕ) : upTo (k + 1) = upTo k ++ [.iterate k, .truncate, .dump] := by
  simp [upTo, List.range_succ, List.flatMap_append]

theorem upTo_length (k : ℕ) : (upTo k).length = 3 * k := by
  induction k with
  | zero => rfl
  | succ k ih => rw [upTo_succ, List.length_append, ih]; simp; omega

theorem perform_append (o : Ops S C) (c : Cfg) : ∀ (l l' : List Act) (y y' : Sys S C), perform o c l y = (y', none) → perform o c (l ++ l') y = perform o c l' y' := by
  intro l
  induction l with
  | nil => intro l' y y' h; simp only [perform, Prod.mk.injEq] at h; obtain ⟨rfl, _⟩ := h; rfl
  | cons a l ih =>
    intro l' y y' h
    simp only [List.cons_append, perform] at h ⊢
    rcases hs : step o c y a with e | y1
    · rw [hs] at h; simp at h
    · rw [hs] at h; exact ih l' y1 y' h

/-- The file after `k` iterations. -/
def fileAt (o : Ops S C) (c : Cfg) (s : S) (f0 : File C) : ℕ → File C
  | 0 => f0
  | k + 1 => .holds (outAt o c s (k + 1))

theorem perform_upTo (o : Ops S C) (c : Cfg) (s : S) (f0 : File C) (hm : c.Nmode ≤ c.Nsbp * c.starCount) : ∀ k ≤ c.Nitr,
    perform o c (upTo k) ⟨s, outAt o c s 0, f0⟩ = (⟨traj o s k, outAt o c s k, fileAt o c s f0 k⟩, none) := by
  intro k
  induction k with
  | zero => intro _; rfl
  | succ k ih =>
    intro hk
    rw [upTo_succ, perform_append o c _ _ _ _ (ih (by omega))]
    simp only [perform, step, iteration_eq o c s k (by omega) hm]
    rfl

theorem program_take (c : Cfg) {k : ℕ} (hk : k < c.Nitr) (j : ℕ) (hj : j ≤ 3) : (program c).take (3 * k + j) = upTo k ++ [Act.iterate k, .truncate, .dump].take j := by
  have h1 : ∃ t, program c = upTo (k + 1) ++ t := by
    obtain ⟨d, hd⟩ : ∃ d, c.Nitr = (k + 1) + d := ⟨c.Nitr - (k + 1), by omega⟩
    unfold program
    rw [hd, List.range_add, List.flatMap_append, List.append_assoc]
    exact ⟨_, rfl⟩
  obtain ⟨t, ht⟩ := h1
  rw [ht, upTo_succ, List.append_assoc, List.take_append, upTo_length, List.take_of_length_le (by rw [upTo_length]; omega)]
  congr 1
  rw [show 3 * k + j - 3 * k = j from by omega, List.take_append_of_le_length (by simpa using hj)]

theorem program_eq (c : Cfg) : program c = upTo c.Nitr ++ [.finish, .truncate, .dump] := rfl

/-! ## Theorems -/

variable (o : Ops S C) (c : Cfg) (s : S) (f0 : File C)

/-- C156: if the process ends before or within iteration `k` (not while the file is written), the file holds exactly what the `k` complete iterations stored, and nothing of the
interrupted one; in the first iteration it is what it was before the run. -/
theorem C156_within (hN : 1 ≤ c.Nitr) (hm : c.Nmode ≤ c.Nsbp * c.starCount) {k j : ℕ} (hk : k < c.Nitr) (hj : j ≤ 1) :
    ∃ out0, initOut c = .ok out0 ∧ (crash o c s out0 f0 (3 * k + j)).2 = none ∧
      (k = 0 → (crash o c s out0 f0 (3 * k + j)).1.file = f0) ∧
      (0 < k → ∃ out, (crash o c s out0 f0 (3 * k + j)).1.file = .holds out ∧ SavedAfter o c s k out) := by
  refine ⟨_, initOut_eq o c s hN, ?_⟩
  have h : crash o c s (outAt o c s 0) f0 (3 * k + j) = perform o c ([Act.iterate k, .truncate, .dump].take j) ⟨traj o s k, outAt o c s k, fileAt o c s f0 k⟩ := by
    unfold crash
    rw [program_take c hk j (by omega), perform_append o c _ _ _ _ (perform_upTo o c s f0 hm k (by omega))]
  have h2 : (perform o c ([Act.iterate k, .truncate, .dump].take j) ⟨traj o s k, outAt o c s k, fileAt o c s f0 k⟩).2 = none ∧
      (perform o c ([Act.iterate k, .truncate, .dump].take j) ⟨traj o s k, outAt o c s k, fileAt o c s f0 k⟩).1.file = fileAt o c s f0 k := by
    have : j = 0 ∨ j = 1 := by omega
    rcases this with rfl | rfl
    · exact ⟨rfl, rfl⟩
    · simp only [List.take_succ_cons, List.take_zero, perform, step, iteration_eq o c s k hk hm, and_self]
  rw [h]
  refine ⟨h2.1, ?_, ?_⟩
  · rintro rfl; exact h2.2
  · intro h0
    obtain ⟨k', rfl⟩ : ∃ k', k = k' + 1 := ⟨k - 1, by omega⟩
    exact ⟨_, h2.2, outAt_saved o c s (by omega)⟩

/-- C156, violated: if the process ends while the file is written (after any iteration), what earlier iterations had saved is lost, and the file cannot be read. -/
theorem C156_writing_violated (hN : 1 ≤ c.Nitr) (hm : c.Nmode ≤ c.Nsbp * c.starCount) {k : ℕ} (hk : k < c.Nitr) :
    ∃ out0, initOut c = .ok out0 ∧ (crash o c s out0 f0 (3 * k + 2)).1.file = .broken ∧
      plotFile c.Nitr (crash o c s out0 f0 (3 * k + 2)).1.file = .error .unreadable := by
  refine ⟨_, initOut_eq o c s hN, ?_⟩
  have h : (crash o c s (outAt o c s 0) f0 (3 * k + 2)).1.file = .broken := by
    unfold crash
    rw [program_take c hk 2 (by omega), perform_append o c _ _ _ _ (perform_upTo o c s f0 hm k (by omega))]
    simp only [List.take_succ_cons, List.take_zero, perform, step, iteration_eq o c s k hk hm]
  rw [h]
  exact ⟨rfl, rfl⟩

theorem finish_eq (f : File C) :
    step o c ⟨traj o s c.Nitr, outAt o c s c.Nitr, f⟩ .finish = .ok ⟨traj o s c.Nitr, finalOut o c s, f⟩ := by
  have hV : store (outAt o c s c.Nitr).V c.Nitr (o.cmd (traj o s c.Nitr)) = .ok (outAt o c s (c.Nitr + 1)).V := by
    simp only [outAt]
    rw [store_map _ _ _ _ (by omega), map_ite_succ _ _ (fun i => o.cmd (traj o s i))]
  have hT : store (outAt o c s c.Nitr).thput c.Nitr (o.finalThput (traj o s c.Nitr)) = .ok (finalOut o c s).thput := by
    simp only [outAt, finalOut]
    rw [store_map _ _ _ _ (by omega)]
  simp only [step, hV, hT, bind, Except.bind, pure, Except.pure]
  rfl

/-- C156: a complete run leaves the file with what memory holds at the end (C46): all commands including the final one, all throughputs including that after the last control step,
and all measured intensities.  This also holds if the process ends later. -/
theorem C156_complete (hN : 1 ≤ c.Nitr) (hm : c.Nmode ≤ c.Nsbp * c.starCount) {n : ℕ} (hn : 3 * c.Nitr + 3 ≤ n) :
    ∃ out0 out, initOut c = .ok out0 ∧ crash o c s out0 f0 n = (⟨traj o s c.Nitr, out, .holds out⟩, none) ∧
      FilledTo out.V (c.Nitr + 1) (c.Nitr + 1) (fun i => o.cmd (traj o s i)) ∧
      FilledTo out.thput (c.Nitr + 1) (c.Nitr + 1) (fun i => if i = c.Nitr then o.finalThput (traj o s c.Nitr) else (o.prep i (traj o s i)).2) ∧
      FilledTo out.est c.Nitr c.Nitr (fun i => o.estimated (sensed o s i)) ∧
      FilledTo out.log10reg c.Nitr c.Nitr (fun i => (o.control i (sensed o s i)).2.1) ∧
      ∀ i < c.Nitr, out.raw[i]? = some (some (o.measured (sensed o s i))) := by
  refine ⟨_, finalOut o c s, initOut_eq o c s hN, ?_, filled_map _ _ _, ?_, filled_map _ _ _, filled_map _ _ _, ?_⟩
  · unfold crash
    rw [List.take_of_length_le (by rw [program_eq, List.length_append, upTo_length]; simpa using hn), program_eq,
      perform_append o c _ _ _ _ (perform_upTo o c s f0 hm c.Nitr (le_refl _))]
    have h := finish_eq o c s (fileAt o c s f0 c.Nitr)
    simp only [perform, h]
    rfl
  · refine ⟨by simp [finalOut], fun i hi => ?_⟩
    simp only [finalOut]
    rw [List.getElem?_map, List.getElem?_range hi]
    simp only [Option.map_some]
    rw [if_pos hi]
    by_cases h : i = c.Nitr
    · rw [if_pos h, if_pos h]
    · rw [if_neg h, if_neg h, if_pos (by omega)]
  · exact (outAt_saved o c s (le_refl _)).2.2.2.2.2.1

theorem curve_filled {α : Type} {h : Hist α} {n : ℕ} {a : ℕ → Option α} (hl : h.length = n) (he : ∀ i < n, h[i]? = some (a i)) : curve n h = .ok (points n a) := by
  unfold curve
  rw [if_pos hl]
  congr 1
  unfold points
  refine List.ext_getElem? fun i => ?_
  by_cases hi : i < n
  · rw [List.zip, List.getElem?_zipWith, List.getElem?_map, List.getElem?_range hi, he i hi]; rfl
  · rw [List.getElem?_eq_none_iff.mpr (by simp; omega), List.getElem?_eq_none_iff.mpr (by simp; omega)]

/-- C156: from any saved state the plots can be made: throughput and intensity against `0..Nitr`, the regularisation against `0..Nitr-1`, with zeros (nothing on the logarithmic
axis) for iterations that were not made, and the commands before iteration 1 and at the end. -/
theorem C156_plots (hN : 1 ≤ c.Nitr) {k : ℕ} {out : Out C} (hs : SavedAfter o c s k out) (hk : k ≤ c.Nitr) :
    ∃ f, plotFile c.Nitr (.holds out) = .ok f ∧
      f.thput = points (c.Nitr + 1) (fun i => if i < k then some (o.prep i (traj o s i)).2 else none) ∧
      f.log10reg = points c.Nitr (fun i => if i < k then some (o.control i (sensed o s i)).2.1 else none) ∧
      f.inorm.map Prod.fst = List.range (c.Nitr + 1) ∧ f.inorm.map Prod.snd = out.raw ∧
      f.firstV = (if 1 < k then some (o.cmd (traj o s 1)) else none) ∧ f.finalV = none := by
  obtain ⟨hV, hT, _, hR, hraw, _, _, _⟩ := hs
  have e1 := curve_filled hT.1 hT.2
  have e2 := curve_filled hR.1 hR.2
  have e3 : curve (c.Nitr + 1) out.raw = .ok ((List.range (c.Nitr + 1)).zip out.raw) := by unfold curve; rw [if_pos hraw]
  have e4 : out.V.getLast? = some none := by
    rw [List.getLast?_eq_getElem?, hV.1, show c.Nitr + 1 - 1 = c.Nitr from rfl, hV.2 c.Nitr (by omega), if_neg (by omega)]
  have e5 := hV.2 1 (by omega)
  refine ⟨⟨points (c.Nitr + 1) (fun i => if i < k then some (o.prep i (traj o s i)).2 else none), (List.range (c.Nitr + 1)).zip out.raw,
    points c.Nitr (fun i => if i < k then some (o.control i (sensed o s i)).2.1 else none), none, if 1 < k then some (o.cmd (traj o s 1)) else none⟩,
    ?_, rfl, rfl, ?_, ?_, rfl, rfl⟩
  · simp only [plotFile, plotTrial, e1, e2, e3, e4, e5, bind, Except.bind, pure, Except.pure]
  · exact List.map_fst_zip (by simp [hraw])
  · exact List.map_snd_zip (by simp [hraw])

/-- C156: the plots of a complete run: all points are measured ones, the final command is the one after the last control step. -/
theorem C156_plots_complete (hN : 1 ≤ c.Nitr) (hm : c.Nmode ≤ c.Nsbp * c.starCount) :
    ∃ out0 f, initOut c = .ok out0 ∧ plotFile c.Nitr (crash o c s out0 f0 (3 * c.Nitr + 3)).1.file = .ok f ∧
      f.thput = points (c.Nitr + 1) (fun i => some (if i = c.Nitr then o.finalThput (traj o s c.Nitr) else (o.prep i (traj o s i)).2)) ∧
      f.log10reg = points c.Nitr (fun i => some (o.control i (sensed o s i)).2.1) ∧
      f.firstV = some (o.cmd (traj o s 1)) ∧ f.finalV = some (o.cmd (traj o s c.Nitr)) := by
  obtain ⟨out0, out, h0, hc, hV, hT, _, hR, _⟩ := C156_complete o c s f0 hN hm (le_refl _)
  have hout : out = finalOut o c s := by
    have h1 := initOut_eq o c s hN
    rw [h0] at h1
    simp only [Except.ok.injEq] at h1
    subst h1
    have h2 : crash o c s (outAt o c s 0) f0 (3 * c.Nitr + 3) = (⟨traj o s c.Nitr, finalOut o c s, .holds (finalOut o c s)⟩, none) := by
      unfold crash
      rw [List.take_of_length_le (by rw [program_eq, List.length_append, upTo_length]; simp), program_eq,
        perform_append o c _ _ _ _ (perform_upTo o c s f0 hm c.Nitr (le_refl _))]
      have h := finish_eq o c s (fileAt o c s f0 c.Nitr)
      simp only [perform, h]
      rfl
    rw [h2] at hc
    simp only [Prod.mk.injEq, Sys.mk.injEq, and_true, true_and] at hc
    exact hc.1.symm
  have hraw : out.raw.length = c.Nitr + 1 := by rw [hout]; simp [finalOut, outAt]
  have e1 := curve_filled (a := fun i => some (if i = c.Nitr then o.finalThput (traj o s c.Nitr) else (o.prep i (traj o s i)).2)) hT.1
    (fun i hi => by rw [hT.2 i hi, if_pos hi])
  have e2 := curve_filled (a := fun i => some (o.control i (sensed o s i)).2.1) hR.1 (fun i hi => by rw [hR.2 i hi, if_pos hi])
  have e3 : curve (c.Nitr + 1) out.raw = .ok ((List.range (c.Nitr + 1)).zip out.raw) := by unfold curve; rw [if_pos hraw]
  have e4 : out.V.getLast? = some (some (o.cmd (traj o s c.Nitr))) := by
    rw [List.getLast?_eq_getElem?, hV.1, show c.Nitr + 1 - 1 = c.Nitr from rfl, hV.2 c.Nitr (by omega), if_pos (by omega)]
  have e5 := hV.2 1 (by omega)
  rw [if_pos (by omega)] at e5
  refine ⟨out0, ⟨points (c.Nitr + 1) (fun i => some (if i = c.Nitr then o.finalThput (traj o s c.Nitr) else (o.prep i (traj o s i)).2)),
    (List.range (c.Nitr + 1)).zip out.raw, points c.Nitr (fun i => some (o.control i (sensed o s i)).2.1), some (o.cmd (traj o s c.Nitr)), some (o.cmd (traj o s 1))⟩,
    h0, ?_, rfl, rfl, rfl, rfl⟩
  rw [hc]
  simp only [plotFile, plotTrial, e1, e2, e3, e4, e5, bind, Except.bind, pure, Except.pure]

/-- C156, violated: for a run that ended before the last save, the figure "Final DM1 Voltages" shows zeros, whatever the commands were. -/
theorem C156_final_voltages_violated (hN : 1 ≤ c.Nitr) (hm : c.Nmode ≤ c.Nsbp * c.starCount) {k j : ℕ} (h0 : 0 < k) (hk : k < c.Nitr) (hj : j ≤ 1) :
    ∃ out0 f, initOut c = .ok out0 ∧ plotFile c.Nitr (crash o c s out0 f0 (3 * k + j)).1.file = .ok f ∧ f.finalV = none := by
  obtain ⟨out0, hi, _, _, h1⟩ := C156_within o c s f0 hN hm hk hj
  obtain ⟨out, hf, hs⟩ := h1 h0
  obtain ⟨f, hp, _, _, _, _, _, hfin⟩ := C156_plots o c s hN hs (by omega)
  exact ⟨out0, f, hi, by rw [hf]; exact hp, hfin⟩

/-- C156, violated: if a run with the label of an earlier one ends in its first iteration, the file and its plots are those of the earlier run; without an earlier run the file is missing. -/
theorem C156_first_iteration (hN : 1 ≤ c.Nitr) (hm : c.Nmode ≤ c.Nsbp * c.starCount) {j : ℕ} (hj : j ≤ 1) :
    ∃ out0, initOut c = .ok out0 ∧ plotFile c.Nitr (crash o c s out0 f0 j).1.file = plotFile c.Nitr f0 ∧
      plotFile c.Nitr (File.absent : File C) = .error .fileNotFound := by
  obtain ⟨out0, hi, _, h1, _⟩ := C156_within o c s f0 hN hm (k := 0) (by omega) hj
  refine ⟨out0, hi, ?_, rfl⟩
  have := h1 rfl
  rw [Nat.mul_zero, Nat.zero_add] at this
  rw [this]

/-- The hypotheses hold for a run of three iterations with one mode. -/
example : ∃ c : Cfg, 1 ≤ c.Nitr ∧ c.Nmode ≤ c.Nsbp * c.starCount ∧ (2 : ℕ) < c.Nitr ∧ c.useModel = false := ⟨⟨3, 1, 1, 1, false, false⟩, by decide, by decide, by decide, rfl⟩

end Verif.Snippet
