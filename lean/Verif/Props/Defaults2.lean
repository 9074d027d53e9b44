import Verif.Props.Defaults

/-! # C108 optional parameters (continued): defaults derived from other parameters, required parameters, lazy values -/

namespace Verif.Defaults
open Verif Verif.Config Relation

variable {env : Env} {limit : ℕ} {cfg cfg' : Cfg}

/-! ## Lemmas -/

/-- Assignments to `c` happen only for a true `mp.flagSim`. -/
def simOnly (c : String) (s : Stmt) : Bool := s.name != c || match s.conds with | .truthy f true :: _ => f == "flagSim" | _ => false

theorem guards_sim {c1 : Cfg} {w : PyVal} {ps : List String} {c : String} (hf : c1 "flagSim" = .plain w) (hc : c1 c = .missing) :
    guards (limit + 1) c1 [.truthy "flagSim" w.truthy, .missing ps c] ≠ .ok false := by
  intro hg
  obtain ⟨b, hb, hg⟩ := bind_ok hg
  simp only [Guard.eval, look_plain hf, bind, Except.bind, pure, Except.pure, BEq.rfl] at hb
  injection hb with hb
  subst hb
  obtain ⟨b, hb, hg⟩ := bind_ok hg
  cases b with
  | true => cases hg
  | false =>
    obtain ⟨_, _, hb⟩ := bind_ok hb
    simp [hasattr, look_missing hc, bind, Except.bind, pure, Except.pure] at hb

theorem pair_at {n m : ℕ} {s s' : Stmt} (hn : (script env)[n]? = some s) (hm : (script env)[m]? = some s') (h : setOptional env (limit + 1) cfg = .ok cfg') (hp : Plain cfg) {c : String}
    (hname : s.name = c) (hname' : s'.name = c) {ps : List String} (hc1 : s.conds = [.truthy "flagSim" true, .missing ps c]) (hc2 : s'.conds = [.truthy "flagSim" false, .missing ps c])
    {v v' : PyVal} (hv : s.value = const v) (hv' : s'.value = const v') (hr : s.reads = []) (_ : s'.reads = []) {w : PyVal} (hw : cfg "flagSim" = .plain w)
    (hc : cfg c = .missing) (ha : c ∉ ((script env0).take n).map Stmt.name) (hb : c ∉ overTargets (script env0)) (hfs : "flagSim" ∉ (script env0).map Stmt.name)
    (hall : ((script env).take m).all (simOnly c) = true) : cfg' c = .plain (if w.truthy then v else v') := by
  have over_drop : ∀ k, c ∉ overTargets ((script env).drop k) := by
    intro k hk
    obtain ⟨s, hs, rfl⟩ := List.mem_map.1 hk
    obtain ⟨hs, hg⟩ := List.mem_filter.1 hs
    refine hb ?_
    have : s.name ∈ overTargets (script env) := List.mem_map_of_mem (List.mem_filter.2 ⟨List.mem_of_mem_drop hs, hg⟩)
    rwa [overTargets, overwritten_eq, ← overwritten_eq env0] at this
  cases ht : w.truthy with
  | true =>
    obtain ⟨c1, c2, e1, e2, e3⟩ := exec_at hn h
    have f1 : c1 "flagSim" = .plain w := by
      rw [exec_other e1 (fun hx => hfs ?_), hw]
      rw [List.map_take, names_eq] at hx
      exact List.mem_of_mem_take hx
    have g1 : c1 c = .missing := by
      rw [exec_other e1 (by rw [List.map_take, names_eq, ← List.map_take]; exact ha), hc]
    rcases stmt_ok e2 with ⟨hf, _⟩ | ⟨vs, v1, ws, _, hvs, hv1, _, rfl⟩
    · rw [hc1, ← ht] at hf; exact absurd hf (guards_sim f1 g1)
    · rw [hv] at hv1
      injection hv1 with hv1
      refine exec_kept e3 (over_drop _) ?_
      rw [hname, ← hv1]; simp
  | false =>
    obtain ⟨c1, c2, e1, e2, e3⟩ := exec_at hm h
    have hinv : c1 c = .missing ∧ c1 "flagSim" = .plain w := by
      refine exec_inv (P := fun x => x c = .missing ∧ x "flagSim" = .plain w) e1 ⟨hc, hw⟩ fun s hs a b hab ⟨h1, h2⟩ => ?_
      have hsn : s.name ≠ "flagSim" := by
        rintro hh
        refine hfs ?_
        rw [← names_eq env, ← hh]
        exact List.mem_map_of_mem (List.mem_of_mem_take hs)
      have h2' : b "flagSim" = .plain w := by rw [stmt_other hab hsn, h2]
      refine ⟨?_, h2'⟩
      by_cases hsc : s.name = c
      · have := List.all_eq_true.1 hall s hs
        simp only [simOnly, hsc, bne_self_eq_false, Bool.false_or] at this
        split at this
        · rename_i f gs hcs
          simp only [beq_iff_eq] at this
          subst this
          rcases stmt_ok hab with ⟨_, rfl⟩ | ⟨vs, v1, ws, hg, _⟩
          · exact h1
          · exfalso
            have := guards_true hg (.truthy "flagSim" true) (by simp [hcs])
            simp [Guard.eval, look_plain h2, bind, Except.bind, pure, Except.pure, ht] at this
        · cases this
      · rw [stmt_other hab hsc, h1]
    rcases stmt_ok e2 with ⟨hf, _⟩ | ⟨vs, v1, ws, _, hvs, hv1, _, rfl⟩
    · have hne := guards_sim (ps := ps) (limit := limit) hinv.2 hinv.1
      rw [ht] at hne
      rw [hc2] at hf
      exact absurd hf hne
    · rw [hv'] at hv1
      injection hv1 with hv1
      refine exec_kept e3 (over_drop _) ?_
      rw [hname', ← hv1]; simp

theorem read2 {a b : String} {vs : List PyVal} {v u : PyVal} (hb : cfg' b = .plain u) (h1 : lookAll (limit + 1) cfg' [a, b] = .ok vs) (h2 : last vs = .ok v) : v = u := by
  obtain ⟨x, _, h1⟩ := bind_ok h1
  simp only [lookAll, look_plain hb, bind, Except.bind, pure, Except.pure] at h1
  injection h1 with h1
  subst h1
  simp only [last, List.getLast?_cons_cons, List.getLast?_singleton] at h2
  injection h2 with h2
  exact h2.symm

theorem readBias {d a b : String} {vs : List PyVal} {v u : PyVal} (hp : Plain cfg') (hb : cfg' a = .plain u) (h1 : lookAll (limit + 1) cfg' [d, a, d, b, d, b] = .ok vs) (h2 : halfOnes vs = .ok v) :
    ∃ (n : ℕ) (x : ℝ), cfg' b = .plain (.int n) ∧ u.scalar = some x ∧ v = .mat n n (x / 2) := by
  obtain ⟨x1, hx1, h1⟩ := bind_ok h1
  obtain ⟨vs1, h3, h1⟩ := bind_ok h1
  injection h1 with h1; subst h1
  obtain ⟨x2, hx2, h3⟩ := bind_ok h3
  rw [look_plain hb] at hx2
  injection hx2 with hx2; subst hx2
  obtain ⟨vs2, h4, h3⟩ := bind_ok h3
  injection h3 with h3; subst h3
  obtain ⟨x3, hx3, h4⟩ := bind_ok h4
  obtain ⟨vs3, h5, h4⟩ := bind_ok h4
  injection h4 with h4; subst h4
  obtain ⟨x4, hx4, h5⟩ := bind_ok h5
  obtain ⟨vs4, h6, h5⟩ := bind_ok h5
  injection h5 with h5; subst h5
  obtain ⟨x5, hx5, h6⟩ := bind_ok h6
  obtain ⟨vs5, h7, h6⟩ := bind_ok h6
  injection h6 with h6; subst h6
  obtain ⟨x6, hx6, h7⟩ := bind_ok h7
  injection h7 with h7; subst h7
  unfold halfOnes at h2
  split at h2
  · rename_i a1 vm a2 n a3 k heq
    simp only [List.cons.injEq, and_true] at heq
    obtain ⟨_, rfl, _, rfl, _, _⟩ := heq
    split at h2
    · rename_i x hx
      split at h2
      · cases h2
      · rename_i hn
        injection h2 with h2
        refine ⟨n.toNat, x, ?_, hx, h2.symm⟩
        rw [look_plain_ok hp hx4]
        congr 2
        omega
    · cases h2
  · cases h2

/-! ## Theorems -/

/-- C108: defaults of DM1 derived from other parameters, in a configuration of plain values. The voltage limit is the user's, else 1000 in simulation and 100 otherwise; the neighbour limits default to it; the
bias map defaults to half of it on every actuator; the flat map defaults to the bias map (the user's or the default). -/
theorem C108_dm1 (h : setOptional env (limit + 1) cfg = .ok cfg') (hp : Plain cfg) {w : PyVal} (hw : cfg "flagSim" = .plain w) :
    ∃ vmax, cfg' "dm1.Vmax" = .plain vmax ∧ (∀ v, cfg "dm1.Vmax" = .plain v → vmax = v) ∧
      (cfg "dm1.Vmax" = .missing → ∀ b, w = .bool b → vmax = .num (if b then 1000 else 100)) ∧
      (cfg "dm1.dVnbrLat" = .missing → cfg' "dm1.dVnbrLat" = .plain vmax) ∧
      (cfg "dm1.dVnbrDiag" = .missing → cfg' "dm1.dVnbrDiag" = .plain vmax) ∧
      (cfg "dm1.biasMap" = .missing → ∃ (n : ℕ) (x : ℝ), cfg "dm1.Nact" = .plain (.int n) ∧ vmax.scalar = some x ∧ cfg' "dm1.biasMap" = .plain (.mat n n (x / 2))) ∧
      (cfg "dm1.facesheetFlatmap" = .missing → cfg' "dm1.facesheetFlatmap" = cfg' "dm1.biasMap") := by
  have hp' : Plain cfg' := exec_plain h hp
  obtain ⟨vmax, hvmax⟩ : ∃ v, cfg' "dm1.Vmax" = .plain v := (plain_cases hp' _).resolve_left (C108_complete h hw _ (by decide +kernel))
  refine ⟨vmax, hvmax, fun v hv => ?_, fun hm b hb => ?_, fun hm => ?_, fun hm => ?_, fun hm => ?_, fun hm => ?_⟩
  · have := (C108_kept h "dm1.Vmax").1 (by decide +kernel) v hv
    rw [hvmax] at this
    injection this
  · subst hb
    have := pair_at (n := 91) (m := 93) (c := "dm1.Vmax") (ps := ["dm1"]) (v := .num 1000) (v' := .num 100) rfl rfl h hp rfl rfl rfl rfl rfl rfl rfl rfl hw hm (by decide +kernel) (by decide +kernel)
      (by decide +kernel) ((show _ = ((script env0).take 93).all (simOnly "dm1.Vmax") from rfl).trans (by decide +kernel))
    rw [hvmax] at this
    injection this with this
    rw [this]
    cases b <;> rfl
  · obtain ⟨vs, v, h1, h2, h3⟩ := dflt_at (n := 94) (c := "dm1.dVnbrLat") (ps := ["dm1"]) rfl h hp rfl rfl hm (by decide +kernel) (by decide +kernel) (by decide +kernel)
    rw [h3, read2 hvmax h1 h2]
  · obtain ⟨vs, v, h1, h2, h3⟩ := dflt_at (n := 95) (c := "dm1.dVnbrDiag") (ps := ["dm1"]) rfl h hp rfl rfl hm (by decide +kernel) (by decide +kernel) (by decide +kernel)
    rw [h3, read2 hvmax h1 h2]
  · obtain ⟨vs, v, h1, h2, h3⟩ := dflt_at (n := 96) (c := "dm1.biasMap") (ps := ["dm1"]) rfl h hp rfl rfl hm (by decide +kernel) (by decide +kernel) (by decide +kernel)
    obtain ⟨n, x, e1, e2, e3⟩ := readBias hp' hvmax h1 h2
    refine ⟨n, x, ?_, e2, by rw [h3, e3]⟩
    rw [← e1, exec_other h (by rw [names_eq]; decide +kernel)]
  · obtain ⟨vs, v, h1, h2, h3⟩ := dflt_at (n := 97) (c := "dm1.facesheetFlatmap") (ps := ["dm1"]) rfl h hp rfl rfl hm (by decide +kernel) (by decide +kernel) (by decide +kernel)
    obtain ⟨u, hu⟩ : ∃ v, cfg' "dm1.biasMap" = .plain v := (plain_cases hp' _).resolve_left (C108_complete h hw _ (by decide +kernel))
    rw [h3, hu, read2 hu h1 h2]

/-- C108: defaults of DM2 derived from other parameters, in a configuration of plain values. The voltage limit is the user's, else 1000 in simulation and 100 otherwise; the neighbour limits default to it; the
bias map defaults to half of it on every actuator; the flat map defaults to the bias map (the user's or the default). -/
theorem C108_dm2 (h : setOptional env (limit + 1) cfg = .ok cfg') (hp : Plain cfg) {w : PyVal} (hw : cfg "flagSim" = .plain w) :
    ∃ vmax, cfg' "dm2.Vmax" = .plain vmax ∧ (∀ v, cfg "dm2.Vmax" = .plain v → vmax = v) ∧
      (cfg "dm2.Vmax" = .missing → ∀ b, w = .bool b → vmax = .num (if b then 1000 else 100)) ∧
      (cfg "dm2.dVnbrLat" = .missing → cfg' "dm2.dVnbrLat" = .plain vmax) ∧
      (cfg "dm2.dVnbrDiag" = .missing → cfg' "dm2.dVnbrDiag" = .plain vmax) ∧
      (cfg "dm2.biasMap" = .missing → ∃ (n : ℕ) (x : ℝ), cfg "dm2.Nact" = .plain (.int n) ∧ vmax.scalar = some x ∧ cfg' "dm2.biasMap" = .plain (.mat n n (x / 2))) ∧
      (cfg "dm2.facesheetFlatmap" = .missing → cfg' "dm2.facesheetFlatmap" = cfg' "dm2.biasMap") := by
  have hp' : Plain cfg' := exec_plain h hp
  obtain ⟨vmax, hvmax⟩ : ∃ v, cfg' "dm2.Vmax" = .plain v := (plain_cases hp' _).resolve_left (C108_complete h hw _ (by decide +kernel))
  refine ⟨vmax, hvmax, fun v hv => ?_, fun hm b hb => ?_, fun hm => ?_, fun hm => ?_, fun hm => ?_, fun hm => ?_⟩
  · have := (C108_kept h "dm2.Vmax").1 (by decide +kernel) v hv
    rw [hvmax] at this
    injection this
  · subst hb
    have := pair_at (n := 107) (m := 109) (c := "dm2.Vmax") (ps := ["dm2"]) (v := .num 1000) (v' := .num 100) rfl rfl h hp rfl rfl rfl rfl rfl rfl rfl rfl hw hm (by decide +kernel) (by decide +kernel)
      (by decide +kernel) ((show _ = ((script env0).take 109).all (simOnly "dm2.Vmax") from rfl).trans (by decide +kernel))
    rw [hvmax] at this
    injection this with this
    rw [this]
    cases b <;> rfl
  · obtain ⟨vs, v, h1, h2, h3⟩ := dflt_at (n := 110) (c := "dm2.dVnbrLat") (ps := ["dm2"]) rfl h hp rfl rfl hm (by decide +kernel) (by decide +kernel) (by decide +kernel)
    rw [h3, read2 hvmax h1 h2]
  · obtain ⟨vs, v, h1, h2, h3⟩ := dflt_at (n := 111) (c := "dm2.dVnbrDiag") (ps := ["dm2"]) rfl h hp rfl rfl hm (by decide +kernel) (by decide +kernel) (by decide +kernel)
    rw [h3, read2 hvmax h1 h2]
  · obtain ⟨vs, v, h1, h2, h3⟩ := dflt_at (n := 112) (c := "dm2.biasMap") (ps := ["dm2"]) rfl h hp rfl rfl hm (by decide +kernel) (by decide +kernel) (by decide +kernel)
    obtain ⟨n, x, e1, e2, e3⟩ := readBias hp' hvmax h1 h2
    refine ⟨n, x, ?_, e2, by rw [h3, e3]⟩
    rw [← e1, exec_other h (by rw [names_eq]; decide +kernel)]
  · obtain ⟨vs, v, h1, h2, h3⟩ := dflt_at (n := 113) (c := "dm2.facesheetFlatmap") (ps := ["dm2"]) rfl h hp rfl rfl hm (by decide +kernel) (by decide +kernel) (by decide +kernel)
    obtain ⟨u, hu⟩ : ∃ v, cfg' "dm2.biasMap" = .plain v := (plain_cases hp' _).resolve_left (C108_complete h hw _ (by decide +kernel))
    rw [h3, hu, read2 hu h1 h2]

theorem readOnes {b : String} {vs : List PyVal} {v : PyVal} {x : ℝ} (hp : Plain cfg') (ps : List String) (h1 : lookAll (limit + 1) cfg' (ps ++ [b]) = .ok vs) (h2 : ones x vs = .ok v) :
    ∃ n : ℕ, cfg' b = .plain (.int n) ∧ v = .arr (List.replicate n x) := by
  induction ps generalizing vs with
  | nil =>
    obtain ⟨x1, hx1, h1⟩ := bind_ok h1
    injection h1 with h1; subst h1
    unfold ones at h2
    simp only [List.getLast?_singleton] at h2
    split at h2
    · rename_i n e
      injection e with e
      subst e
      split at h2
      · cases h2
      · injection h2 with h2
        refine ⟨n.toNat, ?_, h2.symm⟩
        rw [look_plain_ok hp hx1]
        congr 2
        omega
    · cases h2
  | cons p ps ih =>
    obtain ⟨x1, hx1, h1⟩ := bind_ok h1
    obtain ⟨vs1, h3, h1⟩ := bind_ok h1
    injection h1 with h1; subst h1
    refine ih h3 ?_
    cases vs1 with
    | nil =>
      cases ps with
      | nil =>
        obtain ⟨_, _, h3⟩ := bind_ok h3
        injection h3 with h3; cases h3
      | cons q qs =>
        obtain ⟨_, _, h3⟩ := bind_ok h3
        obtain ⟨_, _, h3⟩ := bind_ok h3
        injection h3 with h3; cases h3
    | cons a as => unfold ones at h2 ⊢; rw [List.getLast?_cons_cons] at h2; exact h2

theorem readJoin {a b : String} {vs : List PyVal} {v : PyVal} {s : String} {parts : List String} (hb : cfg' b = .plain (.str s)) (h1 : lookAll (limit + 1) cfg' [a, b] = .ok vs)
    (h2 : join parts vs = .ok v) : v = .str (parts.foldl (fun a b => a ++ "/" ++ b) s) := by
  obtain ⟨x, _, h1⟩ := bind_ok h1
  simp only [lookAll, look_plain hb, bind, Except.bind, pure, Except.pure] at h1
  injection h1 with h1
  subst h1
  simp only [join, List.getLast?_cons_cons, List.getLast?_singleton] at h2
  injection h2 with h2
  exact h2.symm

/-- C108: other derived defaults, in a configuration of plain values: the output directories lie in the package's `data` directory; the Jacobian's star weights are ones, as many as the
compact model has stars; peak flux and exposure time are constant over the sub-bands; the conversion from milliarcseconds to λ0/D is always computed anew from λ0 and the diameter. -/
theorem C108_derived (h : setOptional env (limit + 1) cfg = .ok cfg') (hp : Plain cfg) :
    (∀ d ∈ ["brief", "config", "ws", "jac"], cfg ("path." ++ d) = .missing → cfg' ("path." ++ d) = .plain (.str (env.head ++ "/data/" ++ d))) ∧
    (cfg "jac.star.weights" = .missing → ∃ n : ℕ, cfg' "compact.star.count" = .plain (.int n) ∧ cfg' "jac.star.weights" = .plain (.arr (List.replicate n 1))) ∧
    (cfg "detector.peakFluxVec" = .missing → ∃ n : ℕ, cfg "Nsbp" = .plain (.int n) ∧ cfg' "detector.peakFluxVec" = .plain (.arr (List.replicate n (10 ^ 8)))) ∧
    (cfg "detector.tExpVec" = .missing → ∃ n : ℕ, cfg "Nsbp" = .plain (.int n) ∧ cfg' "detector.tExpVec" = .plain (.arr (List.replicate n 1))) ∧
    ∃ (l d : PyVal) (x y : ℝ), cfg "lambda0" = .plain l ∧ cfg "P1.D" = .plain d ∧ l.scalar = some x ∧ d.scalar = some y ∧
      cfg' "mas2lam0D" = .plain (.num (1 / (x / y * (180 / Real.pi) * (3600 * 1000)))) := by
  have hp' : Plain cfg' := exec_plain h hp
  have hfal := (C108_reset h).1
  refine ⟨?_, fun hm => ?_, fun hm => ?_, fun hm => ?_, ?_⟩
  · simp only [List.forall_mem_cons, List.not_mem_nil, false_imp_iff, implies_true, and_true]
    refine ⟨fun hm => ?_, fun hm => ?_, fun hm => ?_, fun hm => ?_⟩
    · obtain ⟨vs, v, h1, h2, h3⟩ := dflt_at (n := 12) (c := "path.brief") (ps := ["path"]) rfl h hp rfl rfl hm (by decide +kernel) (by decide +kernel) (by decide +kernel)
      rw [show "path." ++ "brief" = "path.brief" from rfl, h3, readJoin hfal h1 h2]
      simp only [List.foldl_cons, List.foldl_nil, String.append_assoc]; rfl
    · obtain ⟨vs, v, h1, h2, h3⟩ := dflt_at (n := 13) (c := "path.config") (ps := ["path"]) rfl h hp rfl rfl hm (by decide +kernel) (by decide +kernel) (by decide +kernel)
      rw [show "path." ++ "config" = "path.config" from rfl, h3, readJoin hfal h1 h2]
      simp only [List.foldl_cons, List.foldl_nil, String.append_assoc]; rfl
    · obtain ⟨vs, v, h1, h2, h3⟩ := dflt_at (n := 14) (c := "path.ws") (ps := ["path"]) rfl h hp rfl rfl hm (by decide +kernel) (by decide +kernel) (by decide +kernel)
      rw [show "path." ++ "ws" = "path.ws" from rfl, h3, readJoin hfal h1 h2]
      simp only [List.foldl_cons, List.foldl_nil, String.append_assoc]; rfl
    · obtain ⟨vs, v, h1, h2, h3⟩ := dflt_at (n := 15) (c := "path.jac") (ps := ["path"]) rfl h hp rfl rfl hm (by decide +kernel) (by decide +kernel) (by decide +kernel)
      rw [show "path." ++ "jac" = "path.jac" from rfl, h3, readJoin hfal h1 h2]
      simp only [List.foldl_cons, List.foldl_nil, String.append_assoc]; rfl
  · obtain ⟨vs, v, h1, h2, h3⟩ := dflt_at (n := 44) (c := "jac.star.weights") (ps := ["jac", "jac.star"]) rfl h hp rfl rfl hm (by decide +kernel) (by decide +kernel) (by decide +kernel)
    obtain ⟨n, e1, e2⟩ := readOnes hp' ["compact", "compact.star"] h1 h2
    exact ⟨n, e1, by rw [h3, e2]⟩
  · obtain ⟨vs, v, h1, h2, h3⟩ := dflt_at (n := 132) (c := "detector.peakFluxVec") (ps := ["detector"]) rfl h hp rfl rfl hm (by decide +kernel) (by decide +kernel) (by decide +kernel)
    obtain ⟨n, e1, e2⟩ := readOnes hp' [] h1 h2
    refine ⟨n, ?_, by rw [h3, e2]⟩
    rw [← e1, exec_other h (by rw [names_eq]; decide +kernel)]
  · obtain ⟨vs, v, h1, h2, h3⟩ := dflt_at (n := 133) (c := "detector.tExpVec") (ps := ["detector"]) rfl h hp rfl rfl hm (by decide +kernel) (by decide +kernel) (by decide +kernel)
    obtain ⟨n, e1, e2⟩ := readOnes hp' [] h1 h2
    refine ⟨n, ?_, by rw [h3, e2]⟩
    rw [← e1, exec_other h (by rw [names_eq]; decide +kernel)]
  · obtain ⟨c1, c2, e1, e2, e3⟩ := exec_at (n := 142) (s := ⟨450, [], [], "mas2lam0D", ["lambda0", "P1", "P1.D"], mas⟩) rfl h
    have hp1 : Plain c1 := exec_plain e1 hp
    rcases stmt_ok e2 with ⟨hf, _⟩ | ⟨vs, v1, ws, _, hvs, hv1, _, rfl⟩
    · cases hf
    · have hvs' : lookAll (limit + 1) c1 ["lambda0", "P1", "P1.D"] = .ok vs := hvs
      have hv1' : mas vs = .ok v1 := hv1
      obtain ⟨x1, hx1, h1⟩ := bind_ok hvs'
      obtain ⟨vs1, h3, h1⟩ := bind_ok h1
      injection h1 with h1; subst h1
      obtain ⟨x2, hx2, h3⟩ := bind_ok h3
      obtain ⟨vs2, h4, h3⟩ := bind_ok h3
      injection h3 with h3; subst h3
      obtain ⟨x3, hx3, h4⟩ := bind_ok h4
      injection h4 with h4; subst h4
      simp only [mas] at hv1'
      have ha : c1 "lambda0" = cfg "lambda0" := exec_other e1 (by rw [List.map_take, names_eq, ← List.map_take]; decide +kernel)
      have hb : c1 "P1.D" = cfg "P1.D" := exec_other e1 (by rw [List.map_take, names_eq, ← List.map_take]; decide +kernel)
      split at hv1'
      · rename_i x y hx hy
        refine ⟨x1, x3, x, y, by rw [← ha]; exact look_plain_ok hp1 hx1, by rw [← hb]; exact look_plain_ok hp1 hx3, hx, hy, ?_⟩
        rw [exec_other e3 (by
          intro hmem
          have hd : "mas2lam0D" ∈ ((script env0).drop 143).map Stmt.name := by
            rw [List.map_drop, names_eq, ← List.map_drop] at hmem; exact hmem
          exact absurd hd (by decide +kernel))]
        show Function.update c1 "mas2lam0D" (.plain v1) "mas2lam0D" = _
        rw [Function.update_self]
        injection hv1' with hv1'
        rw [← hv1']
        congr 2
        ring
      · cases hv1'

end Verif.Defaults
