import Verif.Model.Defaults
import Verif.Props.Config
import Mathlib.Tactic

/-! # C108 optional parameters -/

namespace Verif.Defaults
open Verif Verif.Config Relation

/-! ## Specification -/

/-- The configuration contains plain values only. -/
def Plain (cfg : Cfg) : Prop := ∀ c p, cfg c ≠ .lazy p

/-- The parameters whose value is replaced whatever the user gave. -/
def Overwritten : List String := ["path.falco",
  "dm1.NactTotal", "dm2.NactTotal", "dm3.NactTotal", "dm4.NactTotal", "dm5.NactTotal", "dm6.NactTotal", "dm7.NactTotal", "dm8.NactTotal", "dm9.NactTotal",
  "dm1.Nele", "dm2.Nele", "dm3.Nele", "dm4.Nele", "dm5.Nele", "dm6.Nele", "dm7.Nele", "dm8.Nele", "dm9.Nele", "DM8V0", "DM9V0",
  "dm1.dV", "dm2.dV", "dm3.dV", "dm4.dV", "dm5.dV", "dm6.dV", "dm7.dV", "dm8.dV", "dm9.dV", "mas2lam0D"]

/-- The optional parameters (and objects) that get a default. -/
def Optional : List String := [
  "compact", "full", "jac", "est", "est.probe", "detector", "star", "compact.star", "path", "jac.star", "path.brief", "path.config", "path.ws", "path.jac", "flagParallel", "Nthreads",
  "flagSaveWS", "flagSVD", "full.flagPROPER", "flagRotation", "flagTrainModel", "flagUseLearnedJac", "est.flagUseJac", "est.ItrStartKF", "ctrl.flagUseModel", "ctrl.ad", "ctrl.ad.maxiter",
  "ctrl.ad.maxfun", "ctrl.ad.maxcor", "flagFiber", "flagLenslet", "flagDMwfe", "flagApod", "runLabel", "star.count", "star.xiOffsetVec", "star.etaOffsetVec", "star.weights",
  "compact.star.count", "compact.star.xiOffsetVec", "compact.star.etaOffsetVec", "compact.star.weights", "jac.star.weights", "full.pol_conds", "propMethodPTP", "jac.mftToVortex",
  "F3.VortexSpotDiam", "F3.VortexSpotOffsets", "F3.phaseMaskType", "F3.NstepStaircase", "F3.clocking", "F3.phaseScaleFac", "full.ZrmsVal", "full.Rsens", "full.indsZnoll", "dm1", "dm2",
  "dm3", "dm4", "dm5", "dm6", "dm7", "dm8", "dm9", "dm1.orientation", "dm1.fitType", "dm1.dead", "dm1.pinned", "dm1.Vpinned", "dm1.tied", "dm1.Vmin", "dm1.Vmax", "dm1.dVnbrLat",
  "dm1.dVnbrDiag", "dm1.biasMap", "dm1.facesheetFlatmap", "dm1.surfFitMethod", "dm1.useDifferentiableModel", "dm2.orientation", "dm2.fitType", "dm2.dead", "dm2.pinned", "dm2.Vpinned",
  "dm2.tied", "dm2.Vmin", "dm2.Vmax", "dm2.dVnbrLat", "dm2.dVnbrDiag", "dm2.biasMap", "dm2.facesheetFlatmap", "dm2.surfFitMethod", "dm2.useDifferentiableModel", "flagImageNoise",
  "detector.gain", "detector.darkCurrentRate", "detector.readNoiseStd", "detector.wellDepth", "detector.peakFluxVec", "detector.tExpVec", "detector.Nexp", "WspatialDef", "jac.minimizeNI",
  "jac.zerns", "jac.Zcoef", "est.probeSchedule", "est.InormProbeMax", "est.Ithreshold", "Fend.eval", "Fend.eval.res", "P1.IDnorm"]

/-- Documented defaults. -/
noncomputable def Documented : List (String × PyVal) := [
  ("flagParallel", .bool false), ("flagRotation", .bool true), ("full.flagPROPER", .bool false), ("flagApod", .bool false),
  ("star.count", .int 1), ("star.xiOffsetVec", .list [0]), ("star.etaOffsetVec", .list [0]), ("star.weights", .list [1]),
  ("compact.star.count", .int 1), ("compact.star.xiOffsetVec", .list [0]), ("compact.star.etaOffsetVec", .list [0]), ("compact.star.weights", .list [1]),
  ("full.pol_conds", .arr [0]), ("jac.mftToVortex", .bool false), ("F3.VortexSpotDiam", .int 0), ("F3.phaseMaskType", .str "vortex"),
  ("F3.phaseScaleFac", .int 1), ("dm1.orientation", .str "rot0"), ("dm1.fitType", .str "linear"), ("dm1.dead", .list []),
  ("dm1.pinned", .arr []), ("dm1.Vpinned", .arr []), ("dm1.tied", .mat 0 2 0), ("dm2.orientation", .str "rot0"),
  ("dm2.fitType", .str "linear"), ("dm2.dead", .list []), ("dm2.pinned", .arr []), ("dm2.Vpinned", .arr []),
  ("dm2.tied", .mat 0 2 0), ("flagImageNoise", .bool false), ("detector.gain", .num (1)), ("detector.darkCurrentRate", .num (15 / 1000)),
  ("detector.readNoiseStd", .num (17 / 10)), ("detector.wellDepth", .num (3 * 10 ^ 4)), ("detector.Nexp", .int 1), ("jac.minimizeNI", .bool false),
  ("jac.zerns", .arr [1]), ("jac.Zcoef", .arr [1]), ("est.flagUseJac", .bool false), ("est.ItrStartKF", .int 2),
  ("est.InormProbeMax", .num (1 / 10 ^ 4)), ("est.Ithreshold", .num (1 / 10 ^ 2)), ("ctrl.flagUseModel", .bool false), ("ctrl.ad.maxiter", .int 30),
  ("ctrl.ad.maxfun", .int 1000000), ("ctrl.ad.maxcor", .int 10), ("Fend.eval.res", .int 10), ("P1.IDnorm", .num (0))]

/-! ## Lemmas -/

/-- The assignment is guarded by the absence of its target. -/
def Stmt.guarded (s : Stmt) : Bool := s.conds.any fun g => match g with | .missing _ n => n == s.name | _ => false

theorem overwritten_eq (env : Env) : ((script env).filter fun s => !s.guarded).map Stmt.name = Overwritten := by
  rfl

/-- A fixed environment: names and guards do not depend on it. -/
def env0 : Env := ⟨"", .obj⟩

theorem names_eq (env : Env) : (script env).map Stmt.name = (script env0).map Stmt.name := rfl

theorem targets_sub (env : Env) : ((script env).map Stmt.name).all (fun c => Optional.contains c || Overwritten.contains c) = true := by
  rw [names_eq]
  decide +kernel

theorem targets_mem {env : Env} (c : String) (h : c ∈ (script env).map Stmt.name) : c ∈ Optional ∨ c ∈ Overwritten := by
  have := List.all_eq_true.1 (targets_sub env) c h
  simpa using this

variable {env : Env} {limit : ℕ} {cfg cfg' : Cfg}

theorem look_plain {v : PyVal} {c : String} (h : cfg c = .plain v) : look (limit + 1) cfg c = .ok v := by
  simp [look, readAttr, h]

theorem look_missing {c : String} (h : cfg c = .missing) : look (limit + 1) cfg c = .error .attribute := by
  simp [look, readAttr, h]

theorem look_ok {v : PyVal} {c : String} (h : look limit cfg c = .ok v) : cfg c ≠ .missing := by
  intro hm
  cases limit with
  | zero => simp [look, readAttr] at h
  | succ n => rw [look_missing hm] at h; cases h

theorem plain_cases (hp : Plain cfg) (c : String) : cfg c = .missing ∨ ∃ v, cfg c = .plain v := by
  cases h : cfg c with
  | missing => exact .inl rfl
  | plain v => exact .inr ⟨v, rfl⟩
  | lazy p => exact absurd h (hp c p)

theorem look_plain_ok {v : PyVal} {c : String} (hp : Plain cfg) (h : look limit cfg c = .ok v) : cfg c = .plain v := by
  cases limit with
  | zero => simp [look, readAttr] at h
  | succ n =>
    rcases plain_cases hp c with hm | ⟨w, hw⟩
    · rw [look_missing hm] at h; cases h
    · rw [look_plain hw] at h
      injection h with h
      rw [hw, h]

theorem hasattr_ok {c : String} {b : Bool} (h : hasattr limit cfg c = .ok b) : (b = true → ∃ v, look limit cfg c = .ok v) ∧ (b = false → look limit cfg c = .error .attribute) := by
  unfold hasattr at h
  split at h
  · rename_i v hv; injection h with h; subst h; exact ⟨fun _ => ⟨v, hv⟩, by simp⟩
  · rename_i hv; injection h with h; subst h; exact ⟨by simp, fun _ => hv⟩
  · cases h

theorem bind_ok {α β : Type} {e : Except Fault α} {f : α → Except Fault β} {b : β} (h : e >>= f = .ok b) : ∃ a, e = .ok a ∧ f a = .ok b := by
  cases e with
  | error x => cases h
  | ok a => exact ⟨a, rfl, h⟩

/-- If an assignment happens, all its guards hold. -/
theorem guards_true : ∀ {gs : List Guard}, guards limit cfg gs = .ok true → ∀ g ∈ gs, g.eval limit cfg = .ok true
  | [], _, g, hg => by cases hg
  | g' :: gs, h, g, hg => by
    obtain ⟨b, hb, h⟩ := bind_ok h
    cases b with
    | false => cases h
    | true =>
      rcases List.mem_cons.1 hg with rfl | hg
      · exact hb
      · exact guards_true h g hg

theorem missing_true {ps : List String} {c : String} (h : (Guard.missing ps c).eval limit cfg = .ok true) : (∃ vs, lookAll limit cfg ps = .ok vs) ∧ look limit cfg c = .error .attribute := by
  obtain ⟨vs, hvs, h⟩ := bind_ok h
  obtain ⟨b, hb, h⟩ := bind_ok h
  cases b with
  | true => cases h
  | false => exact ⟨⟨vs, hvs⟩, (hasattr_ok hb).2 rfl⟩

/-- Either nothing is assigned, or the target gets the value of the right-hand side. -/
theorem stmt_ok {s : Stmt} (h : s.exec limit cfg = .ok cfg') :
    (guards limit cfg s.conds = .ok false ∧ cfg' = cfg) ∨
    ∃ vs v ws, guards limit cfg s.conds = .ok true ∧ lookAll limit cfg s.reads = .ok vs ∧ s.value vs = .ok v ∧ lookAll limit cfg s.parents = .ok ws ∧
      cfg' = Function.update cfg s.name (.plain v) := by
  obtain ⟨b, hb, h⟩ := bind_ok h
  cases b with
  | false => injection h with h; exact .inl ⟨hb, h.symm⟩
  | true =>
    obtain ⟨vs, hvs, h⟩ := bind_ok h
    obtain ⟨v, hv, h⟩ := bind_ok h
    obtain ⟨ws, hws, h⟩ := bind_ok h
    injection h with h
    exact .inr ⟨vs, v, ws, hb, hvs, hv, hws, h.symm⟩

/-- A parameter that can be read is not replaced by a guarded assignment. -/
theorem stmt_kept {s : Stmt} (h : s.exec limit cfg = .ok cfg') {c : String} (hg : s.name = c → s.guarded = true) {v : PyVal} (hl : look limit cfg c = .ok v) : cfg' c = cfg c := by
  rcases stmt_ok h with ⟨_, rfl⟩ | ⟨vs, v', ws, hb, _, _, _, rfl⟩
  · rfl
  · by_cases hc : s.name = c
    · exfalso
      have := hg hc
      simp only [Stmt.guarded, List.any_eq_true] at this
      obtain ⟨g, hgm, hgt⟩ := this
      cases g with
      | missing ps n =>
        simp only [beq_iff_eq] at hgt
        have h1 := (missing_true (guards_true hb _ hgm)).2
        rw [hgt, hc, hl] at h1
        cases h1
      | has _ _ => simp at hgt
      | truthy _ _ => simp at hgt
      | dmInd _ => simp at hgt
    · rw [Function.update_of_ne (fun h => hc h.symm)]

theorem stmt_other {s : Stmt} (h : s.exec limit cfg = .ok cfg') {c : String} (hc : s.name ≠ c) : cfg' c = cfg c := by
  rcases stmt_ok h with ⟨_, rfl⟩ | ⟨vs, v', ws, hb, _, _, _, rfl⟩
  · rfl
  · rw [Function.update_of_ne (fun h => hc h.symm)]

theorem stmt_present {s : Stmt} (h : s.exec limit cfg = .ok cfg') {c : String} (hc : cfg c ≠ .missing) : cfg' c ≠ .missing := by
  rcases stmt_ok h with ⟨_, rfl⟩ | ⟨vs, v', ws, hb, _, _, _, rfl⟩
  · exact hc
  · by_cases hn : c = s.name
    · subst hn; simp
    · rwa [Function.update_of_ne hn]

theorem stmt_plain {s : Stmt} (h : s.exec limit cfg = .ok cfg') {c : String} {p : Prog PyVal} (hc : cfg' c = .lazy p) : cfg c = .lazy p := by
  rcases stmt_ok h with ⟨_, rfl⟩ | ⟨vs, v', ws, hb, _, _, _, rfl⟩
  · exact hc
  · by_cases hn : c = s.name
    · subst hn; simp at hc
    · rwa [Function.update_of_ne hn] at hc

theorem exec_append : ∀ {a b : List Stmt} {cfg : Cfg}, exec limit (a ++ b) cfg = (exec limit a cfg >>= exec limit b)
  | [], b, cfg => rfl
  | s :: a, b, cfg => by
    show (s.exec limit cfg >>= fun c => exec limit (a ++ b) c) = (s.exec limit cfg >>= fun c => exec limit a c) >>= exec limit b
    cases s.exec limit cfg with
    | error e => rfl
    | ok c => exact exec_append

theorem exec_inv {P : Cfg → Prop} : ∀ {ss : List Stmt} {cfg cfg' : Cfg}, exec limit ss cfg = .ok cfg' → P cfg →
    (∀ s ∈ ss, ∀ c c', s.exec limit c = .ok c' → P c → P c') → P cfg'
  | [], _, _, h, h0, _ => by injection h with h; exact h ▸ h0
  | s :: ss, _, _, h, h0, hs => by
    obtain ⟨c, hc, h⟩ := bind_ok h
    exact exec_inv h (hs s (by simp) _ _ hc h0) fun s' hs' => hs s' (by simp [hs'])

theorem exec_other {ss : List Stmt} (h : exec limit ss cfg = .ok cfg') {c : String} (hc : c ∉ ss.map Stmt.name) : cfg' c = cfg c :=
  exec_inv (P := fun x => x c = cfg c) h rfl fun s hs a b hab ha => by
    have hn : s.name ≠ c := by rintro rfl; exact hc (List.mem_map_of_mem hs)
    rw [stmt_other hab hn, ha]

theorem exec_present {ss : List Stmt} (h : exec limit ss cfg = .ok cfg') {c : String} (hc : cfg c ≠ .missing) : cfg' c ≠ .missing :=
  exec_inv (P := fun x => x c ≠ .missing) h hc fun _ _ _ _ hab ha => stmt_present hab ha

theorem exec_plain {ss : List Stmt} (h : exec limit ss cfg = .ok cfg') (hp : Plain cfg) : Plain cfg' :=
  exec_inv (P := Plain) h hp fun _ _ _ _ hab ha c p hc => ha c p (stmt_plain hab hc)

/-- The targets of `ss` assigned without a check for absence. -/
def overTargets (ss : List Stmt) : List String := (ss.filter fun s => !s.guarded).map Stmt.name

theorem guarded_of_over {ss : List Stmt} {s : Stmt} (hs : s ∈ ss) {c : String} (hc : c ∉ overTargets ss) (h : s.name = c) : s.guarded = true := by
  by_contra hg
  exact hc (h ▸ List.mem_map_of_mem (List.mem_filter.2 ⟨hs, by simpa using hg⟩))

theorem exec_kept {ss : List Stmt} (h : exec (limit + 1) ss cfg = .ok cfg') {c : String} (hc : c ∉ overTargets ss) {v : PyVal} (hv : cfg c = .plain v) : cfg' c = .plain v :=
  exec_inv (P := fun x => x c = .plain v) h hv fun s hs a b hab ha => by
    rw [stmt_kept hab (fun h => guarded_of_over hs hc h) (look_plain ha), ha]

/-- The state before and after assignment number `n`. -/
theorem exec_at {ss : List Stmt} {n : ℕ} {s : Stmt} (hn : ss[n]? = some s) (h : exec limit ss cfg = .ok cfg') :
    ∃ c1 c2, exec limit (ss.take n) cfg = .ok c1 ∧ s.exec limit c1 = .ok c2 ∧ exec limit (ss.drop (n + 1)) c2 = .ok cfg' := by
  obtain ⟨hlt, hs⟩ := List.getElem?_eq_some_iff.1 hn
  have hsplit : ss = ss.take n ++ s :: ss.drop (n + 1) := by
    rw [← hs, List.getElem_cons_drop, List.take_append_drop]
  rw [hsplit, exec_append] at h
  obtain ⟨c1, h1, h⟩ := bind_ok h
  obtain ⟨c2, h2, h⟩ := bind_ok h
  exact ⟨c1, c2, h1, h2, h⟩

theorem present_of_missing {c1 c2 : Cfg} {s : Stmt} {ps : List String} (hs : s.exec limit c1 = .ok c2) (hc : s.conds = [.missing ps s.name]) : c2 s.name ≠ .missing := by
  rcases stmt_ok hs with ⟨hg, rfl⟩ | ⟨vs, v', ws, hb, _, _, _, rfl⟩
  · rw [hc] at hg
    obtain ⟨b, hb, hg⟩ := bind_ok hg
    cases b with
    | true => cases hg
    | false =>
      obtain ⟨_, _, hb⟩ := bind_ok hb
      obtain ⟨b, hb, hb'⟩ := bind_ok hb
      cases b with
      | false => cases hb'
      | true =>
        obtain ⟨v, hv⟩ := (hasattr_ok hb).1 rfl
        exact look_ok hv
  · simp

/-- The assignment is of the form `if not hasattr(…): …`. -/
def Stmt.isDflt (s : Stmt) : Bool := match s.conds with | [.missing _ n] => n == s.name | _ => false

theorem isDflt_conds {s : Stmt} (h : s.isDflt = true) : ∃ ps, s.conds = [.missing ps s.name] := by
  unfold Stmt.isDflt at h
  split at h
  · rename_i ps n hc
    simp only [beq_iff_eq] at h
    exact ⟨ps, by rw [hc, h]⟩
  · cases h

theorem present_dflt {ss : List Stmt} (h : exec limit ss cfg = .ok cfg') {s : Stmt} (hs : s ∈ ss) (hd : s.isDflt = true) : cfg' s.name ≠ .missing := by
  obtain ⟨n, hn⟩ := List.getElem?_of_mem hs
  obtain ⟨c1, c2, _, h2, h3⟩ := exec_at hn h
  obtain ⟨ps, hc⟩ := isDflt_conds hd
  exact exec_present h3 (present_of_missing h2 hc)

theorem dflt_names (env : Env) : ((script env).filter Stmt.isDflt).map Stmt.name = ((script env0).filter Stmt.isDflt).map Stmt.name := rfl

theorem optional_dflt : Optional.all (fun c => (((script env0).filter Stmt.isDflt).map Stmt.name).contains c || ["dm1.Vmin", "dm1.Vmax", "dm2.Vmin", "dm2.Vmax"].contains c) = true := by
  decide +kernel

theorem flagSim_kept {ss : List Stmt} (h : exec limit ss cfg = .ok cfg') (hn : "flagSim" ∉ ss.map Stmt.name) : cfg' "flagSim" = cfg "flagSim" := exec_other h hn

/-- Lines 323-332 and 359-368. -/
theorem present_pair {ss : List Stmt} (h : exec (limit + 1) ss cfg = .ok cfg') (hn : "flagSim" ∉ ss.map Stmt.name) {w : PyVal} (hw : cfg "flagSim" = .plain w)
    {n m : ℕ} {s s' : Stmt} (hs : ss[n]? = some s) (hs' : ss[m]? = some s') {ps : List String} {c : String} (h1 : s.name = c) (h2 : s'.name = c)
    (hc : s.conds = [.truthy "flagSim" true, .missing ps c]) (hc' : s'.conds = [.truthy "flagSim" false, .missing ps c]) : cfg' c ≠ .missing := by
  have key : ∀ (b : Bool) (n : ℕ) (s : Stmt), ss[n]? = some s → s.name = c → s.conds = [.truthy "flagSim" b, .missing ps c] → w.truthy = b → cfg' c ≠ .missing := by
    intro b n s hs hname hc hb
    obtain ⟨c1, c2, e1, e2, e3⟩ := exec_at hs h
    have hf : c1 "flagSim" = .plain w := by
      rw [flagSim_kept e1 (fun hm => hn ?_), hw]
      rw [List.map_take] at hm
      exact List.mem_of_mem_take hm
    refine exec_present e3 ?_
    have ht : (Guard.truthy "flagSim" b).eval (limit + 1) c1 = .ok true := by
      simp [Guard.eval, look_plain hf, bind, Except.bind, pure, Except.pure, hb]
    have hgs : guards (limit + 1) c1 s.conds = guards (limit + 1) c1 [.missing ps c] := by
      rw [hc]
      show (Guard.eval (limit + 1) c1 (.truthy "flagSim" b) >>= _) = _
      rw [ht]; rfl
    have e2' : Stmt.exec (limit + 1) ⟨s.line, [.missing ps c], s.parents, c, s.reads, s.value⟩ c1 = .ok c2 := by
      rw [← e2]
      unfold Stmt.exec
      simp only [hgs, hname]
    exact present_of_missing (s := ⟨s.line, [.missing ps c], s.parents, c, s.reads, s.value⟩) e2' rfl
  cases hb : w.truthy with
  | true => exact key true n s hs h1 hc hb
  | false => exact key false m s' hs' h2 hc' hb

theorem lookAll_transfer {c1 : Cfg} (hp : Plain c1) : ∀ {rs : List String} {vs : List PyVal}, lookAll (limit + 1) c1 rs = .ok vs →
    (∀ r ∈ rs, ∀ v, c1 r = .plain v → cfg' r = .plain v) → lookAll (limit + 1) cfg' rs = .ok vs
  | [], vs, h, _ => h
  | r :: rs, vs, h, ht => by
    obtain ⟨v, hv, h⟩ := bind_ok h
    obtain ⟨vs', hvs, h⟩ := bind_ok h
    injection h with h
    subst h
    have h1 := look_plain (limit := limit) (ht r (by simp) v (look_plain_ok hp hv))
    have h2 := lookAll_transfer hp hvs fun r hr => ht r (by simp [hr])
    simp only [lookAll, h1, h2, bind, Except.bind, pure, Except.pure]

/-- The value given to a parameter that was missing, in terms of the configuration after the run. -/
theorem value_at {n : ℕ} {s : Stmt} (hn : (script env)[n]? = some s) (h : setOptional env (limit + 1) cfg = .ok cfg') (hp : Plain cfg) {c : String} (hname : s.name = c)
    (hc : cfg c = .missing) (ha : c ∉ ((script env0).take n).map Stmt.name) (hb : c ∉ overTargets ((script env0).drop (n + 1)))
    (hr : ∀ r ∈ s.reads, r ∉ overTargets ((script env0).drop (n + 1)))
    (hg : ∀ c1 : Cfg, (∀ x, x ∉ ((script env0).take n).map Stmt.name → c1 x = cfg x) → guards (limit + 1) c1 s.conds ≠ .ok false) :
    ∃ vs v, lookAll (limit + 1) cfg' s.reads = .ok vs ∧ s.value vs = .ok v ∧ cfg' c = .plain v := by
  obtain ⟨c1, c2, e1, e2, e3⟩ := exec_at hn h
  have hnames : ((script env).take n).map Stmt.name = ((script env0).take n).map Stmt.name := by
    rw [List.map_take, List.map_take, names_eq]
  have hover : overTargets ((script env).drop (n + 1)) = overTargets ((script env0).drop (n + 1)) := by
    have : ∀ l l' : List Stmt, l.map (fun s => (s.guarded, s.name)) = l'.map (fun s => (s.guarded, s.name)) → overTargets l = overTargets l' := by
      intro l
      induction l with
      | nil => intro l' h; cases l' with
        | nil => rfl
        | cons _ _ => cases h
      | cons a l ih =>
        intro l' h
        cases l' with
        | nil => cases h
        | cons a' l' =>
          simp only [List.map_cons, List.cons.injEq, Prod.mk.injEq] at h
          have := ih l' h.2
          unfold overTargets at this ⊢
          simp only [List.filter_cons, h.1.1]
          split <;> simp [this, h.1.2]
    apply this
    rw [List.map_drop, List.map_drop]
    congr 1
  have h1 : ∀ x, x ∉ ((script env0).take n).map Stmt.name → c1 x = cfg x := fun x hx => exec_other e1 (by rwa [hnames])
  have hp1 : Plain c1 := exec_plain e1 hp
  have hcm : c1 c = .missing := by rw [h1 c ha, hc]
  rcases stmt_ok e2 with ⟨hf, _⟩ | ⟨vs, v, ws, _, hvs, hv, _, rfl⟩
  · exact absurd hf (hg c1 h1)
  · refine ⟨vs, v, lookAll_transfer hp1 hvs fun r hr' v' hv' => ?_, hv, exec_kept e3 (by rwa [hover]) (by rw [hname]; simp)⟩
    refine exec_kept e3 (by rw [hover]; exact hr r hr') ?_
    rw [Function.update_of_ne (fun h => ?_), hv']
    rw [h, hname, hcm] at hv'
    cases hv'

/-- `value_at` for `if not hasattr(…): …`. -/
theorem dflt_at {n : ℕ} {s : Stmt} (hn : (script env)[n]? = some s) (h : setOptional env (limit + 1) cfg = .ok cfg') (hp : Plain cfg) {c : String} (hname : s.name = c) {ps : List String}
    (hconds : s.conds = [.missing ps c]) (hc : cfg c = .missing) (ha : c ∉ ((script env0).take n).map Stmt.name) (hb : c ∉ overTargets ((script env0).drop (n + 1)))
    (hr : ∀ r ∈ s.reads, r ∉ overTargets ((script env0).drop (n + 1))) :
    ∃ vs v, lookAll (limit + 1) cfg' s.reads = .ok vs ∧ s.value vs = .ok v ∧ cfg' c = .plain v := by
  refine value_at hn h hp hname hc ha hb hr fun c1 h1 hg => ?_
  have hm : c1 c = .missing := by rw [h1 c ha, hc]
  rw [hconds] at hg
  obtain ⟨b, hb, hg⟩ := bind_ok hg
  cases b with
  | true => cases hg
  | false =>
    obtain ⟨_, _, hb⟩ := bind_ok hb
    simp [hasattr, look_missing hm, bind, Except.bind, pure, Except.pure] at hb

/-- A missing parameter with a constant default gets it. -/
theorem const_at {n : ℕ} {s : Stmt} (hn : (script env)[n]? = some s) (h : setOptional env (limit + 1) cfg = .ok cfg') (hp : Plain cfg) {c : String} (hname : s.name = c) {ps : List String}
    (hconds : s.conds = [.missing ps c]) (hc : cfg c = .missing) (ha : c ∉ ((script env0).take n).map Stmt.name) (hb : c ∉ overTargets ((script env0).drop (n + 1)))
    {v : PyVal} (hr : s.reads = []) (hv : s.value = const v) : cfg' c = .plain v := by
  obtain ⟨vs, v', _, h2, h3⟩ := dflt_at hn h hp hname hconds hc ha hb (by simp [hr])
  rw [hv] at h2
  injection h2 with h2
  rw [h3, h2]

/-- The value of an unconditional assignment. -/
theorem set_at {n : ℕ} {s : Stmt} (hn : (script env)[n]? = some s) (h : setOptional env limit cfg = .ok cfg') {c : String} (hname : s.name = c) (hconds : s.conds = [])
    (hb : c ∉ ((script env0).drop (n + 1)).map Stmt.name) {v : PyVal} (hv : s.value = const v) : cfg' c = .plain v := by
  obtain ⟨c1, c2, e1, e2, e3⟩ := exec_at hn h
  rw [exec_other e3 (by rw [List.map_drop, names_eq, ← List.map_drop]; exact hb)]
  rcases stmt_ok e2 with ⟨hf, _⟩ | ⟨vs, v', ws, _, hvs, hv', _, rfl⟩
  · rw [hconds] at hf; cases hf
  · rw [hv] at hv'
    injection hv' with hv'
    rw [hname, ← hv']; simp

/-- Assignments guarded by `np.any(mp.dm_ind == k)`. -/
theorem dv_at {n k : ℕ} {s : Stmt} (hn : (script env)[n]? = some s) (h : setOptional env (limit + 1) cfg = .ok cfg') {c : String} (hname : s.name = c) (hconds : s.conds = [.dmInd k])
    (ha : c ∉ ((script env0).take n).map Stmt.name) (hb : c ∉ ((script env0).drop (n + 1)).map Stmt.name) {v w : PyVal} (hv : s.value = const v) (hw : cfg "dm_ind" = .plain w) :
    (w.anyEq k = true → cfg' c = .plain v) ∧ (w.anyEq k = false → cfg' c = cfg c) := by
  obtain ⟨c1, c2, e1, e2, e3⟩ := exec_at hn h
  have hd : c1 "dm_ind" = .plain w := by
    rw [exec_other e1 (fun hm => ?_), hw]
    rw [List.map_take, names_eq] at hm
    exact absurd (List.mem_of_mem_take hm) (by decide +kernel)
  have hg : guards (limit + 1) c1 s.conds = .ok (w.anyEq k) := by
    rw [hconds]
    simp only [guards, Guard.eval, look_plain hd, bind, Except.bind, pure, Except.pure]
    cases w.anyEq k <;> rfl
  rw [exec_other e3 (by rw [List.map_drop, names_eq, ← List.map_drop]; exact hb)]
  have h1 : c1 c = cfg c := exec_other e1 (by rw [List.map_take, names_eq, ← List.map_take]; exact ha)
  rcases stmt_ok e2 with ⟨hf, rfl⟩ | ⟨vs, v', ws, ht, hvs, hv', _, rfl⟩
  · rw [hg] at hf
    injection hf with hf
    exact ⟨fun h => (by rw [h] at hf; cases hf), fun _ => h1⟩
  · rw [hg] at ht
    injection ht with ht
    refine ⟨fun _ => ?_, fun h => by rw [h] at ht; cases ht⟩
    rw [hv] at hv'
    injection hv' with hv'
    rw [hname, ← hv']; simp

/-- Parameters read in any case have to be there. -/
theorem needed_at {n : ℕ} {s : Stmt} (hn : (script env)[n]? = some s) (h : setOptional env (limit + 1) cfg = .ok cfg') {r : String} (hr : ∀ (c1 c2 : Cfg), s.exec (limit + 1) c1 = .ok c2 → ∃ v, look (limit + 1) c1 r = .ok v)
    (ht : r ∉ ((script env0).take n).map Stmt.name) : cfg r ≠ .missing := by
  obtain ⟨c1, c2, e1, e2, e3⟩ := exec_at hn h
  obtain ⟨v, hv⟩ := hr c1 c2 e2
  rw [← exec_other e1 (show r ∉ _ by rw [List.map_take, names_eq, ← List.map_take]; exact ht)]
  exact look_ok hv

/-! ## Theorems -/

/-- C108: a parameter the user gave as a plain value keeps it, unless it is one of `Overwritten`; and every parameter that is not optional stays as it is, lazy or not. -/
theorem C108_kept (h : setOptional env (limit + 1) cfg = .ok cfg') (c : String) :
    (c ∉ Overwritten → ∀ v, cfg c = .plain v → cfg' c = .plain v) ∧ (c ∉ Optional → c ∉ Overwritten → cfg' c = cfg c) :=
  ⟨fun hc v hv => exec_kept h (by rwa [overTargets, overwritten_eq]) hv, fun hc ho => exec_other h fun hm => (targets_mem c hm).elim hc ho⟩

/-- C108: afterwards every optional parameter is there (given `mp.flagSim` as a plain value). -/
theorem C108_complete (h : setOptional env (limit + 1) cfg = .ok cfg') {w : PyVal} (hw : cfg "flagSim" = .plain w) (c : String) (hc : c ∈ Optional) : cfg' c ≠ .missing := by
  have h1 := List.all_eq_true.1 optional_dflt c hc
  rw [← dflt_names env] at h1
  simp only [Bool.or_eq_true, List.contains_eq_mem, decide_eq_true_eq] at h1
  rcases h1 with h1 | h1
  · obtain ⟨s, hs, rfl⟩ := List.mem_map.1 h1
    obtain ⟨hs, hd⟩ := List.mem_filter.1 hs
    exact present_dflt h hs hd
  · have hn : "flagSim" ∉ (script env).map Stmt.name := by rw [names_eq]; decide +kernel
    simp only [List.mem_cons, List.not_mem_nil, or_false] at h1
    rcases h1 with rfl | rfl | rfl | rfl
    · exact present_pair (n := 90) (m := 92) (ps := ["dm1"]) h hn hw rfl rfl rfl rfl rfl rfl
    · exact present_pair (n := 91) (m := 93) (ps := ["dm1"]) h hn hw rfl rfl rfl rfl rfl rfl
    · exact present_pair (n := 106) (m := 108) (ps := ["dm2"]) h hn hw rfl rfl rfl rfl rfl rfl
    · exact present_pair (n := 107) (m := 109) (ps := ["dm2"]) h hn hw rfl rfl rfl rfl rfl rfl

/-- C108: documented defaults: a missing parameter gets its documented default, in a configuration of plain values. -/
theorem C108_documented (h : setOptional env (limit + 1) cfg = .ok cfg') (hp : Plain cfg) : ∀ p ∈ Documented, cfg p.1 = .missing → cfg' p.1 = .plain p.2 := by
  unfold Documented
  simp only [List.forall_mem_cons, List.not_mem_nil, false_imp_iff, implies_true, and_true]
  refine ⟨fun hc => ?_, fun hc => ?_, fun hc => ?_, fun hc => ?_, fun hc => ?_, fun hc => ?_, fun hc => ?_, fun hc => ?_, fun hc => ?_, fun hc => ?_, fun hc => ?_, fun hc => ?_, fun hc => ?_, fun hc => ?_, fun hc => ?_, fun hc => ?_, fun hc => ?_, fun hc => ?_, fun hc => ?_, fun hc => ?_, fun hc => ?_, fun hc => ?_, fun hc => ?_, fun hc => ?_, fun hc => ?_, fun hc => ?_, fun hc => ?_, fun hc => ?_, fun hc => ?_, fun hc => ?_, fun hc => ?_, fun hc => ?_, fun hc => ?_, fun hc => ?_, fun hc => ?_, fun hc => ?_, fun hc => ?_, fun hc => ?_, fun hc => ?_, fun hc => ?_, fun hc => ?_, fun hc => ?_, fun hc => ?_, fun hc => ?_, fun hc => ?_, fun hc => ?_, fun hc => ?_, fun hc => ?_⟩
  · exact const_at (n := 16) (ps := []) rfl h hp rfl rfl hc (by decide +kernel) (by decide +kernel) rfl rfl
  · exact const_at (n := 21) (ps := []) rfl h hp rfl rfl hc (by decide +kernel) (by decide +kernel) rfl rfl
  · exact const_at (n := 20) (ps := ["full"]) rfl h hp rfl rfl hc (by decide +kernel) (by decide +kernel) rfl rfl
  · exact const_at (n := 34) (ps := []) rfl h hp rfl rfl hc (by decide +kernel) (by decide +kernel) rfl rfl
  · exact const_at (n := 36) (ps := ["star"]) rfl h hp rfl rfl hc (by decide +kernel) (by decide +kernel) rfl rfl
  · exact const_at (n := 37) (ps := ["star"]) rfl h hp rfl rfl hc (by decide +kernel) (by decide +kernel) rfl rfl
  · exact const_at (n := 38) (ps := ["star"]) rfl h hp rfl rfl hc (by decide +kernel) (by decide +kernel) rfl rfl
  · exact const_at (n := 39) (ps := ["star"]) rfl h hp rfl rfl hc (by decide +kernel) (by decide +kernel) rfl rfl
  · exact const_at (n := 40) (ps := ["compact", "compact.star"]) rfl h hp rfl rfl hc (by decide +kernel) (by decide +kernel) rfl rfl
  · exact const_at (n := 41) (ps := ["compact", "compact.star"]) rfl h hp rfl rfl hc (by decide +kernel) (by decide +kernel) rfl rfl
  · exact const_at (n := 42) (ps := ["compact", "compact.star"]) rfl h hp rfl rfl hc (by decide +kernel) (by decide +kernel) rfl rfl
  · exact const_at (n := 43) (ps := ["compact", "compact.star"]) rfl h hp rfl rfl hc (by decide +kernel) (by decide +kernel) rfl rfl
  · exact const_at (n := 45) (ps := ["full"]) rfl h hp rfl rfl hc (by decide +kernel) (by decide +kernel) rfl rfl
  · exact const_at (n := 47) (ps := ["jac"]) rfl h hp rfl rfl hc (by decide +kernel) (by decide +kernel) rfl rfl
  · exact const_at (n := 48) (ps := ["F3"]) rfl h hp rfl rfl hc (by decide +kernel) (by decide +kernel) rfl rfl
  · exact const_at (n := 50) (ps := ["F3"]) rfl h hp rfl rfl hc (by decide +kernel) (by decide +kernel) rfl rfl
  · exact const_at (n := 53) (ps := ["F3"]) rfl h hp rfl rfl hc (by decide +kernel) (by decide +kernel) rfl rfl
  · exact const_at (n := 84) (ps := ["dm1"]) rfl h hp rfl rfl hc (by decide +kernel) (by decide +kernel) rfl rfl
  · exact const_at (n := 85) (ps := ["dm1"]) rfl h hp rfl rfl hc (by decide +kernel) (by decide +kernel) rfl rfl
  · exact const_at (n := 86) (ps := ["dm1"]) rfl h hp rfl rfl hc (by decide +kernel) (by decide +kernel) rfl rfl
  · exact const_at (n := 87) (ps := ["dm1"]) rfl h hp rfl rfl hc (by decide +kernel) (by decide +kernel) rfl rfl
  · exact const_at (n := 88) (ps := ["dm1"]) rfl h hp rfl rfl hc (by decide +kernel) (by decide +kernel) rfl rfl
  · exact const_at (n := 89) (ps := ["dm1"]) rfl h hp rfl rfl hc (by decide +kernel) (by decide +kernel) rfl rfl
  · exact const_at (n := 100) (ps := ["dm2"]) rfl h hp rfl rfl hc (by decide +kernel) (by decide +kernel) rfl rfl
  · exact const_at (n := 101) (ps := ["dm2"]) rfl h hp rfl rfl hc (by decide +kernel) (by decide +kernel) rfl rfl
  · exact const_at (n := 102) (ps := ["dm2"]) rfl h hp rfl rfl hc (by decide +kernel) (by decide +kernel) rfl rfl
  · exact const_at (n := 103) (ps := ["dm2"]) rfl h hp rfl rfl hc (by decide +kernel) (by decide +kernel) rfl rfl
  · exact const_at (n := 104) (ps := ["dm2"]) rfl h hp rfl rfl hc (by decide +kernel) (by decide +kernel) rfl rfl
  · exact const_at (n := 105) (ps := ["dm2"]) rfl h hp rfl rfl hc (by decide +kernel) (by decide +kernel) rfl rfl
  · exact const_at (n := 127) (ps := []) rfl h hp rfl rfl hc (by decide +kernel) (by decide +kernel) rfl rfl
  · exact const_at (n := 128) (ps := ["detector"]) rfl h hp rfl rfl hc (by decide +kernel) (by decide +kernel) rfl rfl
  · exact const_at (n := 129) (ps := ["detector"]) rfl h hp rfl rfl hc (by decide +kernel) (by decide +kernel) rfl rfl
  · exact const_at (n := 130) (ps := ["detector"]) rfl h hp rfl rfl hc (by decide +kernel) (by decide +kernel) rfl rfl
  · exact const_at (n := 131) (ps := ["detector"]) rfl h hp rfl rfl hc (by decide +kernel) (by decide +kernel) rfl rfl
  · exact const_at (n := 134) (ps := ["detector"]) rfl h hp rfl rfl hc (by decide +kernel) (by decide +kernel) rfl rfl
  · exact const_at (n := 136) (ps := ["jac"]) rfl h hp rfl rfl hc (by decide +kernel) (by decide +kernel) rfl rfl
  · exact const_at (n := 137) (ps := ["jac"]) rfl h hp rfl rfl hc (by decide +kernel) (by decide +kernel) rfl rfl
  · exact const_at (n := 138) (ps := ["jac"]) rfl h hp rfl rfl hc (by decide +kernel) (by decide +kernel) rfl rfl
  · exact const_at (n := 24) (ps := ["est"]) rfl h hp rfl rfl hc (by decide +kernel) (by decide +kernel) rfl rfl
  · exact const_at (n := 25) (ps := ["est"]) rfl h hp rfl rfl hc (by decide +kernel) (by decide +kernel) rfl rfl
  · exact const_at (n := 140) (ps := ["est"]) rfl h hp rfl rfl hc (by decide +kernel) (by decide +kernel) rfl rfl
  · exact const_at (n := 141) (ps := ["est"]) rfl h hp rfl rfl hc (by decide +kernel) (by decide +kernel) rfl rfl
  · exact const_at (n := 26) (ps := ["ctrl"]) rfl h hp rfl rfl hc (by decide +kernel) (by decide +kernel) rfl rfl
  · exact const_at (n := 28) (ps := ["ctrl", "ctrl.ad"]) rfl h hp rfl rfl hc (by decide +kernel) (by decide +kernel) rfl rfl
  · exact const_at (n := 29) (ps := ["ctrl", "ctrl.ad"]) rfl h hp rfl rfl hc (by decide +kernel) (by decide +kernel) rfl rfl
  · exact const_at (n := 30) (ps := ["ctrl", "ctrl.ad"]) rfl h hp rfl rfl hc (by decide +kernel) (by decide +kernel) rfl rfl
  · exact const_at (n := 144) (ps := ["Fend", "Fend.eval"]) rfl h hp rfl rfl hc (by decide +kernel) (by decide +kernel) rfl rfl
  · exact const_at (n := 145) (ps := ["P1"]) rfl h hp rfl rfl hc (by decide +kernel) (by decide +kernel) rfl rfl

/-- C108: bookkeeping values are reset whatever the user gave: the path of the package, and the actuator counts. -/
theorem C108_reset (h : setOptional env (limit + 1) cfg = .ok cfg') : cfg' "path.falco" = .plain (.str env.head) ∧
    ∀ c ∈ ["dm1.NactTotal", "dm2.NactTotal", "dm3.NactTotal", "dm4.NactTotal", "dm5.NactTotal", "dm6.NactTotal", "dm7.NactTotal", "dm8.NactTotal", "dm9.NactTotal",
      "dm1.Nele", "dm2.Nele", "dm3.Nele", "dm4.Nele", "dm5.Nele", "dm6.Nele", "dm7.Nele", "dm8.Nele", "dm9.Nele"], cfg' c = .plain (.int 0) := by
  refine ⟨set_at (n := 11) (c := "path.falco") rfl h rfl rfl (by decide +kernel) rfl, ?_⟩
  simp only [List.forall_mem_cons, List.not_mem_nil, false_imp_iff, implies_true, and_true]
  refine ⟨?_, ?_, ?_, ?_, ?_, ?_, ?_, ?_, ?_, ?_, ?_, ?_, ?_, ?_, ?_, ?_, ?_, ?_⟩
  · exact set_at (n := 66) rfl h rfl rfl (by decide +kernel) rfl
  · exact set_at (n := 67) rfl h rfl rfl (by decide +kernel) rfl
  · exact set_at (n := 68) rfl h rfl rfl (by decide +kernel) rfl
  · exact set_at (n := 69) rfl h rfl rfl (by decide +kernel) rfl
  · exact set_at (n := 70) rfl h rfl rfl (by decide +kernel) rfl
  · exact set_at (n := 71) rfl h rfl rfl (by decide +kernel) rfl
  · exact set_at (n := 72) rfl h rfl rfl (by decide +kernel) rfl
  · exact set_at (n := 73) rfl h rfl rfl (by decide +kernel) rfl
  · exact set_at (n := 74) rfl h rfl rfl (by decide +kernel) rfl
  · exact set_at (n := 75) rfl h rfl rfl (by decide +kernel) rfl
  · exact set_at (n := 76) rfl h rfl rfl (by decide +kernel) rfl
  · exact set_at (n := 77) rfl h rfl rfl (by decide +kernel) rfl
  · exact set_at (n := 78) rfl h rfl rfl (by decide +kernel) rfl
  · exact set_at (n := 79) rfl h rfl rfl (by decide +kernel) rfl
  · exact set_at (n := 80) rfl h rfl rfl (by decide +kernel) rfl
  · exact set_at (n := 81) rfl h rfl rfl (by decide +kernel) rfl
  · exact set_at (n := 82) rfl h rfl rfl (by decide +kernel) rfl
  · exact set_at (n := 83) rfl h rfl rfl (by decide +kernel) rfl

end Verif.Defaults
