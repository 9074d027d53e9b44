import Verif.Model.Loop
import Verif.Props.Modes
import Mathlib.Tactic.Linarith
import Mathlib.Tactic.NormNum
import Mathlib.Tactic.Ring

/-! # C46, C47: history arrays of the WFSC loop -/

namespace Verif.Loop
open Verif

variable {S C : Type}

/-! ## Specification -/

/-- The state after iteration `k` started in `s`. -/
def after (o : Ops S C) (k : ℕ) (s : S) : S := o.enforce (o.control k (o.estimate k (o.prep k s).1)).1

/-- The state before iteration `k`. -/
def traj (o : Ops S C) (s : S) : ℕ → S
  | 0 => s
  | k + 1 => after o k (traj o s k)

/-- The state in which the intensities of iteration `k` are reported. -/
def sensed (o : Ops S C) (s : S) (k : ℕ) : S := o.estimate k (o.prep k (traj o s k)).1

/-! ## Lemmas -/

theorem set_map_range {α : Type} (n k : ℕ) (f : ℕ → α) (v : α) : ((List.range n).map f).set k v = (List.range n).map fun i => if i = k then v else f i := by
  refine List.ext_getElem (by simp) ?_
  intro i h1 h2
  rw [List.getElem_set]
  simp only [List.getElem_map, List.getElem_range]
  by_cases h : k = i
  · simp [h]
  · rw [if_neg h, if_neg (Ne.symm h)]

theorem store_map {α : Type} (n k : ℕ) (f : ℕ → Option α) (v : α) (h : k < n) :
    store ((List.range n).map f) k v = .ok ((List.range n).map fun i => if i = k then some v else f i) := by
  unfold store
  rw [if_pos (by simpa using h), set_map_range]

theorem storeModes_ok (f : ℕ → ℝ) (M : ℕ) : ∀ (n a : ℕ) (g : ℕ → Option ℝ), a + n ≤ M →
    storeModes f (List.range' a n) ((List.range M).map g) = .ok ((List.range M).map fun m => if a ≤ m ∧ m < a + n then some (f m) else g m)
  | 0, a, g, _ => by
    simp only [List.range'_zero, storeModes]
    congr 2
    funext m
    rw [if_neg (by omega)]
  | n + 1, a, g, h => by
    rw [List.range'_succ, storeModes, store_map _ _ _ _ (by omega)]
    simp only [bind, Except.bind]
    rw [storeModes_ok f M n (a + 1) _ (by omega)]
    congr 2
    funext m
    by_cases h1 : m = a
    · subst h1; rw [if_neg (by omega), if_pos rfl, if_pos (by omega)]
    · rw [if_neg h1]
      by_cases h2 : a + 1 ≤ m ∧ m < a + 1 + n
      · rw [if_pos h2, if_pos (by omega)]
      · rw [if_neg h2, if_neg (by omega)]

theorem storeModes_error (f : ℕ → ℝ) (M : ℕ) : ∀ (n a : ℕ) (g : ℕ → Option ℝ), a ≤ M → M < a + n →
    storeModes f (List.range' a n) ((List.range M).map g) = .error .indexError
  | 0, a, g, h1, h2 => by omega
  | n + 1, a, g, h1, h2 => by
    rw [List.range'_succ, storeModes]
    by_cases h : a < M
    · rw [store_map _ _ _ _ h]
      simp only [bind, Except.bind]
      exact storeModes_error f M n (a + 1) _ (by omega) (by omega)
    · unfold store
      rw [if_neg (by simpa using h)]
      rfl

/-- The history arrays after `k` complete iterations. -/
def outAt (o : Ops S C) (c : Cfg) (s : S) (k : ℕ) : Out C where
  V := (List.range (c.Nitr + 1)).map fun i => if i < k then some (o.cmd (traj o s i)) else none
  thput := (List.range (c.Nitr + 1)).map fun i => if i < k then some (o.prep i (traj o s i)).2 else none
  raw := (List.range (c.Nitr + 1)).map fun i => if i < k then some (o.measured (sensed o s i)) else
    if i = k ∧ 0 < k ∧ c.useModel = false then some (o.control (k - 1) (sensed o s (k - 1))).2.2 else none
  est := (List.range c.Nitr).map fun i => if i < k then some (o.estimated (sensed o s i)) else none
  log10reg := (List.range c.Nitr).map fun i => if i < k then some (o.control i (sensed o s i)).2.1 else none
  mode := (List.range c.Nitr).map fun i => (List.range (c.Nsbp * c.starCount)).map fun m => if i < k ∧ m < c.Nmode then some (o.modeInt (sensed o s i) m) else none

theorem initOut_eq (o : Ops S C) (c : Cfg) (s : S) (h : 1 ≤ c.Nitr) : initOut c = .ok (outAt o c s 0) := by
  unfold initOut outAt
  rw [if_neg (by omega)]
  simp

theorem map_ite_succ {α : Type} (n k : ℕ) (f : ℕ → α) : ((List.range n).map fun i => if i = k then some (f k) else if i < k then some (f i) else none)
    = (List.range n).map fun i => if i < k + 1 then some (f i) else none := by
  refine List.map_congr_left fun i _ => ?_
  by_cases h : i = k
  · subst h; simp
  · rw [if_neg h]
    by_cases h2 : i < k
    · rw [if_pos h2, if_pos (by omega)]
    · rw [if_neg h2, if_neg (by omega)]

theorem iteration_eq (o : Ops S C) (c : Cfg) (s : S) (k : ℕ) (hk : k < c.Nitr) (hm : c.Nmode ≤ c.Nsbp * c.starCount) :
    iteration o c k (traj o s k) (outAt o c s k) = .ok (traj o s (k + 1), outAt o c s (k + 1)) := by
  have hV : store (outAt o c s k).V k (o.cmd (traj o s k)) = .ok (outAt o c s (k + 1)).V := by
    simp only [outAt]
    rw [store_map _ _ _ _ (by omega), map_ite_succ _ _ (fun i => o.cmd (traj o s i))]
  have hT : store (outAt o c s k).thput k (o.prep k (traj o s k)).2 = .ok (outAt o c s (k + 1)).thput := by
    simp only [outAt]
    rw [store_map _ _ _ _ (by omega), map_ite_succ _ _ (fun i => (o.prep i (traj o s i)).2)]
  have hE : store (outAt o c s k).est k (o.estimated (sensed o s k)) = .ok (outAt o c s (k + 1)).est := by
    simp only [outAt]
    rw [store_map _ _ _ _ hk, map_ite_succ _ _ (fun i => o.estimated (sensed o s i))]
  have hL : store (outAt o c s k).log10reg k (o.control k (sensed o s k)).2.1 = .ok (outAt o c s (k + 1)).log10reg := by
    simp only [outAt]
    rw [store_map _ _ _ _ hk, map_ite_succ _ _ (fun i => (o.control i (sensed o s i)).2.1)]
  have hR : ∃ r, store (outAt o c s k).raw k (o.measured (sensed o s k)) = .ok r ∧
      (if c.useModel then Except.ok r else store r (k + 1) (o.control k (sensed o s k)).2.2) = .ok (outAt o c s (k + 1)).raw := by
    simp only [outAt]
    rw [store_map _ _ _ _ (by omega)]
    refine ⟨_, rfl, ?_⟩
    have hpt : ∀ i, (if i = k then some (o.measured (sensed o s k)) else if i < k then some (o.measured (sensed o s i)) else
        if i = k ∧ 0 < k ∧ c.useModel = false then some (o.control (k - 1) (sensed o s (k - 1))).2.2 else none)
        = if i < k + 1 then some (o.measured (sensed o s i)) else none := by
      intro i
      by_cases h : i = k
      · subst h; simp
      · rw [if_neg h]
        by_cases h2 : i < k
        · rw [if_pos h2, if_pos (by omega)]
        · rw [if_neg h2, if_neg (by simp [h]), if_neg (by omega)]
    simp only [hpt]
    cases hu : c.useModel with
    | true => simp
    | false =>
      simp only [Bool.false_eq_true, if_false]
      rw [store_map _ _ _ _ (by omega)]
      congr 1
      refine List.map_congr_left fun i _ => ?_
      by_cases h : i = k + 1
      · subst h; simp
      · rw [if_neg h]
        by_cases h2 : i < k + 1
        · rw [if_pos h2, if_pos h2]
        · rw [if_neg h2, if_neg h2, if_neg (by simp [h])]
  obtain ⟨r, hR1, hR2⟩ := hR
  have hM1 : (outAt o c s k).mode[k]? = some ((List.range (c.Nsbp * c.starCount)).map fun _ => none) := by
    simp only [outAt]
    rw [List.getElem?_map, List.getElem?_range hk]
    simp
  have hM2 : storeModes (o.modeInt (sensed o s k)) (List.range c.Nmode) ((List.range (c.Nsbp * c.starCount)).map fun _ => none)
      = .ok ((List.range (c.Nsbp * c.starCount)).map fun m => if m < c.Nmode then some (o.modeInt (sensed o s k) m) else none) := by
    rw [List.range_eq_range' (n := c.Nmode), storeModes_ok _ _ _ _ _ (by omega)]
    simp
  have hM3 : (outAt o c s k).mode.set k ((List.range (c.Nsbp * c.starCount)).map fun m => if m < c.Nmode then some (o.modeInt (sensed o s k) m) else none)
      = (outAt o c s (k + 1)).mode := by
    simp only [outAt]
    rw [set_map_range]
    refine List.map_congr_left fun i _ => ?_
    by_cases h : i = k
    · subst h; simp
    · rw [if_neg h]
      refine List.map_congr_left fun m _ => ?_
      by_cases h2 : i < k ∧ m < c.Nmode
      · rw [if_pos h2, if_pos (by omega)]
      · rw [if_neg h2, if_neg (by omega)]
  unfold iteration
  simp only [hV, Except.mapError, bind, Except.bind, pure, Except.pure, hT]
  unfold storeIntensities
  rw [show o.estimate k (o.prep k (traj o s k)).1 = sensed o s k from rfl]
  simp only [hE, hR1, bind, Except.bind, pure, Except.pure, hM1, hM2, hM3, hL, hR2]
  rfl

theorem iterations_eq (o : Ops S C) (c : Cfg) (s : S) (hm : c.Nmode ≤ c.Nsbp * c.starCount) : ∀ n k, k + n = c.Nitr →
    iterations o c n k (traj o s k) (outAt o c s k) = .ok (traj o s c.Nitr, outAt o c s c.Nitr)
  | 0, k, h => by simp only [iterations]; rw [← h]; rfl
  | n + 1, k, h => by
    simp only [iterations]
    rw [iteration_eq o c s k (by omega) hm]
    exact iterations_eq o c s hm n (k + 1) (by omega)

/-- The history arrays after the whole run. -/
def finalOut (o : Ops S C) (c : Cfg) (s : S) : Out C :=
  { outAt o c s c.Nitr with
    V := (outAt o c s (c.Nitr + 1)).V
    thput := (List.range (c.Nitr + 1)).map fun i => if i = c.Nitr then some (o.finalThput (traj o s c.Nitr)) else
      if i < c.Nitr then some (o.prep i (traj o s i)).2 else none }

theorem loop_eq (o : Ops S C) (c : Cfg) (s : S) (hN : 1 ≤ c.Nitr) (hm : c.Nmode ≤ c.Nsbp * c.starCount) (hs : c.saveWS = false) :
    loop o c s (outAt o c s 0) = .ok (traj o s c.Nitr, finalOut o c s) := by
  have h := iterations_eq o c s hm c.Nitr 0 (by omega)
  rw [show traj o s 0 = s from rfl] at h
  unfold loop
  rw [h]
  simp only [bind, Except.bind, pure, Except.pure, hs]
  rw [if_neg (by omega)]
  have hV : store (outAt o c s c.Nitr).V c.Nitr (o.cmd (traj o s c.Nitr)) = .ok (outAt o c s (c.Nitr + 1)).V := by
    simp only [outAt]
    rw [store_map _ _ _ _ (by omega), map_ite_succ _ _ (fun i => o.cmd (traj o s i))]
  have hT : store (outAt o c s c.Nitr).thput c.Nitr (o.finalThput (traj o s c.Nitr)) = .ok (finalOut o c s).thput := by
    simp only [outAt, finalOut]
    rw [store_map _ _ _ _ (by omega)]
  simp only [hV, hT, Except.mapError, Bool.false_eq_true, if_false]
  rfl

/-! ## Properties -/

/-- C46. Let the run have at least one iteration, at most one Jacobian mode per sub-band and star, and no request to save the
workspace. Then no history index is out of range; the loop ends in the state after `Nitr` corrections; entry `k ≤ Nitr` of the command history is the
command before correction `k` (the last one: after the final correction); entry `k < Nitr` of the measured intensity, estimated intensity,
throughput and regularisation is the one of iteration `k`; and the last measured intensity is the one found by the controller for its final command.
Otherwise: the last entry is never written if the controller is model-based (`C46_model_based_violated`), modes for Zernikes make the loop fail
(`C46_zernike_violated`), and so does saving the workspace (`C46_save_violated`). -/
theorem C46_histories (o : Ops S C) (c : Cfg) (s : S) (hN : 1 ≤ c.Nitr) (hm : c.Nmode ≤ c.Nsbp * c.starCount) (hs : c.saveWS = false) :
    ∃ out0 out, initOut c = .ok out0 ∧ loop o c s out0 = .ok (traj o s c.Nitr, out) ∧
      out.V.length = c.Nitr + 1 ∧ (∀ k ≤ c.Nitr, out.V[k]? = some (some (o.cmd (traj o s k)))) ∧
      out.raw.length = c.Nitr + 1 ∧ (∀ k < c.Nitr, out.raw[k]? = some (some (o.measured (sensed o s k)))) ∧
      (c.useModel = false → out.raw[c.Nitr]? = some (some (o.control (c.Nitr - 1) (sensed o s (c.Nitr - 1))).2.2)) ∧
      (∀ k < c.Nitr, out.est[k]? = some (some (o.estimated (sensed o s k))) ∧ out.thput[k]? = some (some (o.prep k (traj o s k)).2) ∧
        out.log10reg[k]? = some (some (o.control k (sensed o s k)).2.1)) ∧
      out.thput[c.Nitr]? = some (some (o.finalThput (traj o s c.Nitr))) ∧
      ∀ k < c.Nitr, ∀ m < c.Nmode, (out.mode[k]?.bind fun row => row[m]?) = some (some (o.modeInt (sensed o s k) m)) := by
  refine ⟨outAt o c s 0, finalOut o c s, initOut_eq o c s hN, loop_eq o c s hN hm hs, ?_⟩
  unfold finalOut
  · refine ⟨by simp [outAt], ?_, by simp [outAt], ?_, ?_, ?_, ?_, ?_⟩
    · intro k hk
      simp only [outAt]
      rw [List.getElem?_map, List.getElem?_range (by omega)]
      simp only [Option.map_some]
      rw [if_pos (by omega)]
    · intro k hk
      simp only [outAt]
      rw [List.getElem?_map, List.getElem?_range (by omega)]
      simp only [Option.map_some]
      rw [if_pos hk]
    · intro hu
      simp only [outAt]
      rw [List.getElem?_map, List.getElem?_range (by omega)]
      simp only [Option.map_some]
      rw [if_neg (lt_irrefl _), if_pos (by simpa using ⟨by omega, hu⟩)]
    · intro k hk
      simp only [outAt]
      refine ⟨?_, ?_, ?_⟩
      · rw [List.getElem?_map, List.getElem?_range hk]; simp [hk]
      · rw [List.getElem?_map, List.getElem?_range (by omega)]; simp [hk]; omega
      · rw [List.getElem?_map, List.getElem?_range hk]; simp [hk]
    · rw [List.getElem?_map, List.getElem?_range (by omega)]; simp
    · intro k hk m hm'
      simp only [outAt]
      rw [List.getElem?_map, List.getElem?_range hk]
      simp only [Option.map_some, Option.bind_some]
      rw [List.getElem?_map, List.getElem?_range (by omega)]
      simp [hk, hm']

/-- C46: with a model-based controller the last entry of the measured-intensity history keeps its initial zero. -/
theorem C46_model_based_violated (o : Ops S C) (c : Cfg) (s : S) (hN : 1 ≤ c.Nitr) (hm : c.Nmode ≤ c.Nsbp * c.starCount) (hs : c.saveWS = false)
    (hu : c.useModel = true) : ∃ out0 out, initOut c = .ok out0 ∧ loop o c s out0 = .ok (traj o s c.Nitr, out) ∧ out.raw[c.Nitr]? = some none := by
  refine ⟨outAt o c s 0, finalOut o c s, initOut_eq o c s hN, loop_eq o c s hN hm hs, ?_⟩
  unfold finalOut outAt
  dsimp only
  · rw [List.getElem?_map, List.getElem?_range (by omega)]
    simp [hu]

/-- C46: with more Jacobian modes than sub-bands times stars the loop raises an IndexError in its first iteration, before any correction. -/
theorem iteration_modes_error (o : Ops S C) (c : Cfg) (s : S) (hN : 1 ≤ c.Nitr) (hm : c.Nsbp * c.starCount < c.Nmode) :
    ∃ out0, initOut c = .ok out0 ∧ loop o c s out0 = .error (.indexError, sensed o s 0) := by
  refine ⟨outAt o c s 0, initOut_eq o c s hN, ?_⟩
  obtain ⟨n, hn⟩ : ∃ n, c.Nitr = n + 1 := ⟨c.Nitr - 1, by omega⟩
  have hit : iteration o c 0 s (outAt o c s 0) = .error (.indexError, sensed o s 0) := by
    unfold iteration storeIntensities
    simp only [outAt, store_map _ _ _ _ (show 0 < c.Nitr + 1 by omega), store_map _ _ _ _ (show 0 < c.Nitr by omega), Except.mapError, bind, Except.bind, pure, Except.pure]
    rw [List.getElem?_map, List.getElem?_range (by omega)]
    simp only [Option.map_some]
    rw [List.range_eq_range' (n := c.Nmode), storeModes_error _ _ _ _ _ (by omega) (by omega)]
    rfl
  unfold loop
  rw [hn]
  simp only [iterations, hit, bind, Except.bind]

/-- C46: controlling any Zernike besides piston (with a non-zero coefficient) makes `wfsc.loop` raise an IndexError in its first iteration, for every
estimator, controller and number of iterations: the per-mode histories have room for sub-bands times stars only. -/
theorem C46_zernike_violated (o : Ops S C) (c : Cfg) (s : S) (hN : 1 ≤ c.Nitr) (z : Setup.ModeCfg) (ms : List Setup.JMode)
    (hz1 : z.Nsbp = c.Nsbp) (hz2 : z.Nstar = c.starCount) (h1 : 1 ≤ c.Nsbp) (h2 : 1 ≤ c.starCount) (hp : Setup.PistonFirst z)
    (hset : (z.setOrder (z.zerns.map (·.1))).Nodup) (hok : Setup.jacModes z = .ok ms) (hmode : c.Nmode = ms.length)
    (hext : ∃ q ∈ z.zerns, q.1 ≠ 1 ∧ q.2 ≠ 0) :
    ∃ out0, initOut c = .ok out0 ∧ loop o c s out0 = .error (.indexError, sensed o s 0) := by
  refine iteration_modes_error o c s hN ?_
  obtain ⟨hnd, hmem⟩ := Setup.C39_modes z ms (by omega) hp hset hok
  obtain ⟨q, hq, hq1, hq2⟩ := hext
  have hpist : ∃ a, ((1 : ℕ), a) ∈ z.zerns := by
    obtain ⟨h1, -, -⟩ := Setup.jacModes_ok z ms hok
    have : 1 ∈ z.zerns.map (·.1) := by simpa using h1
    obtain ⟨p, hp, hp1⟩ := List.mem_map.1 this
    exact ⟨p.2, by rw [← hp1]; exact hp⟩
  obtain ⟨a, ha⟩ := hpist
  have hsub : insert (0, 0, q.1) ((Finset.range c.starCount ×ˢ Finset.range c.Nsbp).image fun p => (p.1, p.2, 1)) ⊆ (ms.map fun m => (m.star, m.sbp, m.zern)).toFinset := by
    intro t ht
    rw [Finset.mem_insert] at ht
    rw [List.mem_toFinset]
    rcases ht with rfl | ht
    · exact (hmem 0 0 q.1).2 ⟨by omega, by omega, ⟨q.2, hq, Or.inr hq2⟩, Or.inr (Or.inl rfl)⟩
    · rw [Finset.mem_image] at ht
      obtain ⟨p, hp, rfl⟩ := ht
      rw [Finset.mem_product, Finset.mem_range, Finset.mem_range] at hp
      exact (hmem p.1 p.2 1).2 ⟨by omega, by omega, ⟨a, ha, Or.inl rfl⟩, Or.inl rfl⟩
  have hcard := Finset.card_le_card hsub
  rw [Finset.card_insert_of_notMem, Finset.card_image_of_injective, Finset.card_product, Finset.card_range, Finset.card_range, List.toFinset_card_of_nodup hnd, List.length_map, mul_comm] at hcard
  · omega
  · rintro ⟨x1, x2⟩ ⟨y1, y2⟩ h
    simp only [Prod.mk.injEq, and_true] at h
    rw [h.1, h.2]
  · rw [Finset.mem_image]
    rintro ⟨p, -, hp⟩
    simp only [Prod.mk.injEq] at hp
    exact hq1 hp.2.2.symm

/-- C46: with `flagSaveWS` the loop performs all corrections and then raises an UnboundLocalError, so nothing is saved or returned. -/
theorem C46_save_violated (o : Ops S C) (c : Cfg) (s : S) (hN : 1 ≤ c.Nitr) (hm : c.Nmode ≤ c.Nsbp * c.starCount) (hs : c.saveWS = true) :
    ∃ out0, initOut c = .ok out0 ∧ loop o c s out0 = .error (.unboundLocal, traj o s c.Nitr) := by
  refine ⟨outAt o c s 0, initOut_eq o c s hN, ?_⟩
  have h := iterations_eq o c s hm c.Nitr 0 (by omega)
  rw [show traj o s 0 = s from rfl] at h
  unfold loop
  rw [h]
  simp only [bind, Except.bind, pure, Except.pure, hs]
  rw [if_neg (by omega)]
  simp only [outAt, store_map _ _ _ _ (Nat.lt_succ_self c.Nitr), Except.mapError, if_true]

/-- C46: a run with no iterations is rejected when its history arrays are made. -/
theorem C46_no_iterations (c : Cfg) (h : c.Nitr = 0) : (initOut c : Except PyErr (Out C)) = .error .valueError := by
  unfold initOut; rw [if_pos h]

/-- Non-trivial instance: a counter as state, three iterations, two sub-bands. -/
example : ∃ (o : Ops ℕ ℕ) (c : Cfg), 1 ≤ c.Nitr ∧ c.Nmode ≤ c.Nsbp * c.starCount ∧ c.saveWS = false ∧ traj o 5 c.Nitr = 8 :=
  ⟨⟨id, fun _ s => (s, 1), fun _ s => s, fun s => s, fun s => s, fun s _ => s, fun _ s => (s + 1, 0, 0), id, fun _ => 1⟩, ⟨3, 2, 1, 2, false, false⟩,
    by simp, by simp, rfl, rfl⟩

section Report
variable {P : Type} [Fintype P]

/-- C47: the E-field estimate is unchanged, the reported maps are the weighted sums over modes, and the incoherent estimate of each
mode is multiplied by its sub-band weight: the estimate is unchanged exactly where the weight is 1 (a single sub-band) or the estimate 0. -/
theorem C47_report (w : ℕ → ℝ) (sbp : ℕ → ℕ) (n : ℕ) (ev : Ev P) :
    (report w sbp n ev).1.Eest = ev.Eest ∧
    (∀ p, (report w sbp n ev).2.IestAll p = ∑ m ∈ Finset.range n, w (sbp m) * Complex.normSq (ev.Eest p m)) ∧
    (∀ p, (report w sbp n ev).2.IincoAll p = ∑ m ∈ Finset.range n, w (sbp m) * ev.IincoEst p m) ∧
    (∀ p m, (report w sbp n ev).1.IincoEst p m = if m < n then w (sbp m) * ev.IincoEst p m else ev.IincoEst p m) ∧
    ((report w sbp n ev).1 = ev ↔ ∀ m < n, ∀ p, w (sbp m) = 1 ∨ ev.IincoEst p m = 0) := by
  refine ⟨rfl, fun p => rfl, fun p => ?_, fun _ _ => rfl, fun h m hm p => ?_, fun h => ?_⟩
  · simp only [report]
    refine Finset.sum_congr rfl fun m hm => ?_
    rw [if_pos (Finset.mem_range.1 hm)]
  · have := congrFun (congrFun (congrArg Ev.IincoEst h) p) m
    simp only [report, if_pos hm] at this
    by_cases h0 : ev.IincoEst p m = 0
    · exact Or.inr h0
    · exact Or.inl (mul_right_cancel₀ h0 (by rw [this, one_mul]))
  · simp only [report]
    congr 1
    funext p m
    split_ifs with hm
    · rcases h m hm p with h1 | h1
      · rw [h1, one_mul]
      · rw [h1, mul_zero]
    · rfl

/-- C47: whenever a mode has a sub-band weight other than 1 and a non-zero incoherent estimate somewhere, reporting overwrites the estimator's
incoherent estimate of that mode by its weighted value; a second report weights it again; and the reported mean incoherent intensity of the mode is its
true mean times the sub-band weight, while its reported mean coherent intensity is unweighted. -/
theorem C47_violated (w : ℕ → ℝ) (sbp : ℕ → ℕ) (n m : ℕ) (hm : m < n) (ev : Ev P) (p : P) (hw : w (sbp m) ≠ 1) (hI : ev.IincoEst p m ≠ 0) :
    (report w sbp n ev).1.IincoEst p m ≠ ev.IincoEst p m ∧
    (report w sbp n (report w sbp n ev).1).1.IincoEst p m = w (sbp m) ^ 2 * ev.IincoEst p m ∧
    (report w sbp n ev).2.unmodCorr m = w (sbp m) * mean (fun p => ev.IincoEst p m) ∧
    (report w sbp n ev).2.modCorr m = mean fun p => Complex.normSq (ev.Eest p m) := by
  refine ⟨?_, ?_, ?_, rfl⟩
  · simp only [report, if_pos hm]
    intro h
    have : (w (sbp m) - 1) * ev.IincoEst p m = 0 := by linarith
    rcases mul_eq_zero.1 this with h1 | h1
    · exact hw (by linarith)
    · exact hI h1
  · simp only [report, if_pos hm]; ring
  · simp only [report, if_pos hm, mean]
    rw [← Finset.mul_sum, mul_div_assoc]

/-- Two sub-bands with weights 1/2 meet the hypotheses. -/
example : ∃ (w : ℕ → ℝ) (ev : Ev (Fin 3)), w 0 = 1 / 2 ∧ w 0 ≠ 1 ∧ ev.IincoEst 1 0 ≠ 0 :=
  ⟨fun _ => 1 / 2, ⟨fun _ _ => 0, fun _ _ => 1⟩, rfl, by norm_num, by norm_num⟩

end Report

end Verif.Loop
