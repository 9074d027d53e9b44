import Verif.Props.Defaults2

/-! # C108 optional parameters (continued): controlled DMs, required parameters, lazy values, consistency -/

namespace Verif.Defaults
open Verif Verif.Config Relation

variable {env : Env} {limit : ℕ} {cfg cfg' : Cfg}

/-- Number of a DM and name of its last change of command. -/
def DeltaNames : List (ℕ × String) := [(1, "dm1.dV"), (2, "dm2.dV"), (3, "dm3.dV"), (4, "dm4.dV"), (5, "dm5.dV"), (6, "dm6.dV"), (7, "dm7.dV"), (8, "dm8.dV"), (9, "dm9.dV")]

theorem delta_at (h : setOptional env (limit + 1) cfg = .ok cfg') {w : PyVal} (hw : cfg "dm_ind" = .plain w) :
    ∀ p ∈ DeltaNames, (w.anyEq p.1 = true → cfg' p.2 = .plain (.int 0)) ∧ (w.anyEq p.1 = false → cfg' p.2 = cfg p.2) := by
  unfold DeltaNames
  simp only [List.forall_mem_cons, List.not_mem_nil, false_imp_iff, implies_true, and_true]
  refine ⟨?_, ?_, ?_, ?_, ?_, ?_, ?_, ?_, ?_⟩
  · exact dv_at (n := 118) rfl h rfl rfl (by decide +kernel) (by decide +kernel) rfl hw
  · exact dv_at (n := 119) rfl h rfl rfl (by decide +kernel) (by decide +kernel) rfl hw
  · exact dv_at (n := 120) rfl h rfl rfl (by decide +kernel) (by decide +kernel) rfl hw
  · exact dv_at (n := 121) rfl h rfl rfl (by decide +kernel) (by decide +kernel) rfl hw
  · exact dv_at (n := 122) rfl h rfl rfl (by decide +kernel) (by decide +kernel) rfl hw
  · exact dv_at (n := 123) rfl h rfl rfl (by decide +kernel) (by decide +kernel) rfl hw
  · exact dv_at (n := 124) rfl h rfl rfl (by decide +kernel) (by decide +kernel) rfl hw
  · exact dv_at (n := 125) rfl h rfl rfl (by decide +kernel) (by decide +kernel) rfl hw
  · exact dv_at (n := 126) rfl h rfl rfl (by decide +kernel) (by decide +kernel) rfl hw

/-- C108: with `mp.dm_ind` an array, the last change of command (`mp.dmN.dV`, needed by the Kalman filter) is set to 0 for the controlled DMs and left alone for the others. -/
theorem C108_delta (h : setOptional env (limit + 1) cfg = .ok cfg') {l : List ℝ} (hw : cfg "dm_ind" = .plain (.arr l)) :
    ∀ p ∈ DeltaNames, ((p.1 : ℝ) ∈ l → cfg' p.2 = .plain (.int 0)) ∧ ((p.1 : ℝ) ∉ l → cfg' p.2 = cfg p.2) := fun p hp =>
  ⟨fun hm => (delta_at h hw p hp).1 (by simpa [PyVal.anyEq] using hm), fun hm => (delta_at h hw p hp).2 (by simpa [PyVal.anyEq] using hm)⟩

/-- C108: with `mp.dm_ind` a Python list, which the next step of the setup accepts (it is made an array), no `mp.dmN.dV` is set: the comparison of a list with a number is false. -/
theorem C108_delta_violated (h : setOptional env (limit + 1) cfg = .ok cfg') {l : List ℝ} (hw : cfg "dm_ind" = .plain (.list l)) :
    atleast1d (.list l) = .arr l ∧ ∀ p ∈ DeltaNames, cfg' p.2 = cfg p.2 := ⟨rfl, fun p hp => (delta_at h hw p hp).2 rfl⟩

/-- C108: a number of stars given without positions and brightnesses is not matched by the defaults: positions and weights are for one star. -/
theorem C108_stars_violated (h : setOptional env (limit + 1) cfg = .ok cfg') (hp : Plain cfg) {n : ℕ} (hn : cfg "star.count" = .plain (.int n))
    (hx : cfg "star.xiOffsetVec" = .missing) (he : cfg "star.etaOffsetVec" = .missing) (hw : cfg "star.weights" = .missing) :
    cfg' "star.count" = .plain (.int n) ∧ cfg' "star.xiOffsetVec" = .plain (.list [0]) ∧ cfg' "star.etaOffsetVec" = .plain (.list [0]) ∧ cfg' "star.weights" = .plain (.list [1]) :=
  ⟨(C108_kept h _).1 (by decide +kernel) _ hn, C108_documented h hp ("star.xiOffsetVec", .list [0]) (by simp [Documented]) hx,
    C108_documented h hp ("star.etaOffsetVec", .list [0]) (by simp [Documented]) he, C108_documented h hp ("star.weights", .list [1]) (by simp [Documented]) hw⟩

/-! ## Required parameters -/

theorem needs_parent {s : Stmt} {ps : List String} {n : String} (hc : s.conds = [.missing ps n]) {p : String} (hp : ps.head? = some p) (c1 c2 : Cfg) (h : s.exec limit c1 = .ok c2) : ∃ v, look limit c1 p = .ok v := by
  obtain ⟨b, hb, _⟩ := bind_ok h
  rw [hc] at hb
  obtain ⟨b, hb, _⟩ := bind_ok hb
  obtain ⟨vs, hvs, _⟩ := bind_ok hb
  cases ps with
  | nil => cases hp
  | cons a ps =>
    simp only [List.head?_cons, Option.some.injEq] at hp
    subst hp
    obtain ⟨v, hv, _⟩ := bind_ok hvs
    exact ⟨v, hv⟩

theorem needs_cond {s : Stmt} {f : String} {b : Bool} {gs : List Guard} (hc : s.conds = .truthy f b :: gs) (c1 c2 : Cfg) (h : s.exec limit c1 = .ok c2) : ∃ v, look limit c1 f = .ok v := by
  obtain ⟨b, hb, _⟩ := bind_ok h
  rw [hc] at hb
  obtain ⟨b, hb, _⟩ := bind_ok hb
  obtain ⟨v, hv, _⟩ := bind_ok hb
  exact ⟨v, hv⟩

theorem needs_dmInd {s : Stmt} {k : ℕ} (hc : s.conds = [.dmInd k]) (c1 c2 : Cfg) (h : s.exec limit c1 = .ok c2) : ∃ v, look limit c1 "dm_ind" = .ok v := by
  obtain ⟨b, hb, _⟩ := bind_ok h
  rw [hc] at hb
  obtain ⟨b, hb, _⟩ := bind_ok hb
  obtain ⟨v, hv, _⟩ := bind_ok hb
  exact ⟨v, hv⟩

theorem needs_mas {s : Stmt} (hc : s.conds = []) (hr : s.reads = ["lambda0", "P1", "P1.D"]) (c1 c2 : Cfg) (h : s.exec limit c1 = .ok c2) :
    (∃ v, look limit c1 "lambda0" = .ok v) ∧ (∃ v, look limit c1 "P1" = .ok v) ∧ ∃ v, look limit c1 "P1.D" = .ok v := by
  rcases stmt_ok h with ⟨hf, _⟩ | ⟨vs, v1, ws, _, hvs, _⟩
  · rw [hc] at hf; cases hf
  · rw [hr] at hvs
    obtain ⟨v1, h1, hvs⟩ := bind_ok hvs
    obtain ⟨vs, hvs, _⟩ := bind_ok hvs
    obtain ⟨v2, h2, hvs⟩ := bind_ok hvs
    obtain ⟨vs, hvs, _⟩ := bind_ok hvs
    obtain ⟨v3, h3, hvs⟩ := bind_ok hvs
    exact ⟨⟨v1, h1⟩, ⟨v2, h2⟩, ⟨v3, h3⟩⟩

/-- Parameters without default that the run reads in any case. -/
def Required : List String := ["ctrl", "F3", "flagSim", "dm_ind", "lambda0", "P1", "P1.D", "Fend"]

/-- C108: these parameters have no default: without one of them the setup raises an exception. -/
theorem C108_required (c : String) (hc : c ∈ Required) (hm : cfg c = .missing) : ∃ e, setOptional env (limit + 1) cfg = .error e := by
  cases h : setOptional env (limit + 1) cfg with
  | error e => exact ⟨e, rfl⟩
  | ok cfg' =>
    exfalso
    simp only [Required, List.mem_cons, List.not_mem_nil, or_false] at hc
    rcases hc with rfl | rfl | rfl | rfl | rfl | rfl | rfl | rfl
    · exact needed_at (n := 26) rfl h (needs_parent rfl rfl) (by decide +kernel) hm
    · exact needed_at (n := 48) rfl h (needs_parent rfl rfl) (by decide +kernel) hm
    · exact needed_at (n := 90) rfl h (needs_cond rfl) (by decide +kernel) hm
    · exact needed_at (n := 118) rfl h (needs_dmInd rfl) (by decide +kernel) hm
    · exact needed_at (n := 142) rfl h (fun c1 c2 hh => (needs_mas rfl rfl c1 c2 hh).1) (by decide +kernel) hm
    · exact needed_at (n := 142) rfl h (fun c1 c2 hh => (needs_mas rfl rfl c1 c2 hh).2.1) (by decide +kernel) hm
    · exact needed_at (n := 142) rfl h (fun c1 c2 hh => (needs_mas rfl rfl c1 c2 hh).2.2) (by decide +kernel) hm
    · exact needed_at (n := 143) rfl h (needs_parent rfl rfl) (by decide +kernel) hm

end Verif.Defaults
